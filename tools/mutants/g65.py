M="Model/Procs"
m(M,"killSubPool","let termed := if force then [] else signalChild w t p .term","let termed := signalChild w t p .term","C71","a forced stop sends SIGTERM first and waits for it",tightened="term_iff")
m(M,"stopSubPool","| .timeout => go true","| .timeout => go false","C71","a sub pool that does not answer is asked with SIGTERM instead of killed",tightened="term_iff")
m(M,"stopSubPool","| .lost => go true","| .lost => go false","C71","a sub pool whose connection is lost is asked with SIGTERM instead of killed",tightened="term_iff")

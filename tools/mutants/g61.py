M="Model/Life"
m(M,"step","if ok then some ((baseStop s c).setCall c o .stoppingServers) else some (s.setCall c o .raised)","some (s.setCall c o .raised)","C49","a main pool's stop always raises after its sub pools and never stops its servers",tightened="stop_goes_on")
M="Model/Watch"
m(M,"defaults",'("log_unhandled_errors", some 1)','("log_unhandled_errors", some 0)',"C86","unhandled errors are not logged with DEBUG_OSCAR=1",tightened="reload_one")
m(M,"defaults",'("log_cycle_send", some 1)','("log_cycle_send", some 0)',"C86","cycles are not logged with DEBUG_OSCAR=1",tightened="reload_one")
m(M,"reload","      | none => none\n","      | none => some none\n","C86","a DEBUG_OSCAR that is not JSON silently means no debugging",tightened="reload_one")

M="Model/Dispatch"
m(M,"Disp.unregister","handlers := d.handlers.erase k, inherit := [] }","handlers := d.handlers.erase k }","C37","un-registering keeps remembered handlers",tightened="dispatch_wrong_only_partial")
m(M,"Disp.get","({ d with inherit := d.inherit.set k h }, some h)","({ d with handlers := d.handlers.set k h }, some h)","C37","what is found for a base class is kept like a registration of the class",tightened="dispatch_wrong_only_partial")
m(M,"chain","| .cls t => (mro t).map .cls","| .cls t => (mro t).reverse.map .cls","C37","the most general class wins",tightened="dispatch_wrong_only_partial")
m(M,"Disp.get","      | some h => ({ d with inherit := d.inherit.set k h }, some h)","      | some h => ({ d with inherit := (chain mro k).foldl (fun c k' => c.set k' h) d.inherit }, some h)","C37","what is found is remembered for all base classes tried",tightened="dispatch_wrong_only_partial")
m(M,"chain","(mro t).flatMap (fun c => [.named n c, .cls c])","(mro t).map (.named n) ++ (mro t).map .cls","C37","any named handler wins over all plain ones",tightened="dispatch_plain_named_partial")
m(M,"chain","(mro t).flatMap (fun c => [.named n c, .cls c])","[.named n t] ++ (mro t).map .cls","C37","named handlers of base classes are not found",tightened="dispatch_plain_named_partial")

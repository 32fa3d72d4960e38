M="Model/Lazy"
m(M,"step","  | .unregister k => { st with d := st.d.unregister k }","  | .unregister _ => st","C93","unregistering a class does nothing",tightened="unregister_class_works")
m(M,"unregisterName","{ d with lazyH := d.lazyH.erase n, inherit := [] }","{ d with lazyH := d.lazyH.erase n }","C93","unregistering a name keeps the cached answers",tightened="unregister_name_works")
m(M,"unregisterName","{ d with lazyH := d.lazyH.erase n, inherit := [] }","{ d with inherit := [] }","C93","unregistering a name keeps it waiting",tightened="unregister_name_works")

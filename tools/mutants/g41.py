M="Model/Raise"
m(M,"newAttrs","   (.args, .value args)]","   (.args, .value cause)]","C95","the caught error's args are something else")
m(M,"newAttrs","   (.cause, .value cause), (.context, .value context), (.suppress, .value suppress),\n","   (.cause, .value context), (.context, .value cause), (.suppress, .value suppress),\n","C95","cause and context swapped")
m(M,"newAttrs","(.context, .value context), ","","C95","__context__ not copied")
m(M,"newAttrs","(.address, .value (.text addr))","(.address, .value (.text e.name))","C95","wrong address on the error")
m(M,"newAttrs","(.pid, .value (.num pid)),\n","(.pid, .value (.num (pid + 1))),\n","C95","wrong pid")
m(M,"newAttrs","(.module, .value (.text e.modl))","(.module, .value (.text \"xoscar.utils\"))","C95","the wrapper's module is not the error's")
m(M,"newAttrs","(.wrapped, .value (.exc e.id))","(.wrapped, .value .none)","C95","wrapped error not reachable")
m(M,"wrapInst","    { cls := .asCause } :: e.mro","    { cls := .asCause } :: e.mro.drop 1","C95","derives from the error's base instead of its class")
m(M,"wrapInst","    { cls := .asCause } :: e.mro","    { cls := .asCause } :: []","C95","the error's class is not a base")
m(M,"wrapInst","    { cls := .asCause } :: e.mro","    e.mro","C95","_AsCauseBase not a base: wrapped again at each pool")
m(M,"wrapInst","  cs := [(.traceback, tb)]\n  text := tag addr pid ++ \" \" ++ e.text","  cs := []\n  text := tag addr pid ++ \" \" ++ e.text","C95","traceback not set")
m(M,"wrapInst","  text := tag addr pid ++ \" \" ++ e.text","  text := e.text","C95","text without origin")
m(M,"wrapInst","  text := tag addr pid ++ \" \" ++ e.text","  text := tag addr pid","C95","text without the error's")
m(M,"tag","\", pid=\" ++ toString pid ++ \"]\"","\", pid=\" ++ toString (pid+1) ++ \"]\"","C95","wrong pid in the text")
m(M,"Gets","Gets .generic (.wrapper w e) n none → Gets .full (.plain e) n r →","Gets .generic (.wrapper w e) n none → r = none →","C95","__getattr__ missing: instance attributes are lost")
m(M,"Answer","o.isA .asCause = true → Answer addr pid tb o (o.withTb tb)","o.isA .asCause = true → Answer addr pid tb o o","C95","traceback of the last call not set on a passed error")
m(M,"Answer","  | again {o} : o.isA .asCause = true → Answer addr pid tb o (o.withTb tb)","  | again {o} : o.isA .asCause = true → Answer addr pid tb o (.plain ((o.self).withTb tb))","C95","a passed error loses the wrapped one")
m(M,"Answer","      Answer addr pid tb o (.plain (cancelErr addr pid tb))","      Answer addr pid tb o (.plain typeErr)","C95","a cancellation is no CancelledError")
m(M,"Answer","      canWrap e = true →\n","","C95","wrapping works for every class",note="the refuted theorems fail: the code would be better")
m(M,"isFinal","  | l :: _ => l.final","  | _ :: _ => false","C95","final classes can be bases",note="model of Python")
m(M,"newArgs","    | some b => b\n    | none => newArgs ls","    | some _ => newArgs ls\n    | none => newArgs ls","C95","arguments of __new__ not needed",note="model of Python")
m(M,"Obj.repr","(o.self.cs.get? .args).getD (.tuple [])","(.tuple [7])","C95","repr shows other arguments")

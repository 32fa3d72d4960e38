M="Model/Bind"
m(M,"binderSig","{ posonly := 0, args := s.args,","{ posonly := s.posonly + 1, args := s.args,","C102","the generated function takes the parameters after self by position only")
m(M,"binderSig","defaults := s.defaults, varargs","defaults := [], varargs","C102","__defaults__ is not copied: defaults are missing")
m(M,"binderSig","kwdefaults := s.kwdefaults,","kwdefaults := [],","C102","__kwdefaults__ is not copied")
m(M,"binderSig","varargs := s.varargs, kwonly","varargs := none, kwonly","C102","*args dropped from the signature")
m(M,"binderSig","varkw := s.varkw }","varkw := none }","C102","**kw dropped from the signature")
m(M,"binderSig","kwonly := s.kwonly,","kwonly := [],","C102","keyword-only parameters dropped from the signature")
m(M,"binderSig","args := s.args, defaults","args := s.args.drop 1, defaults","C102","self dropped from the signature as well")
m(M,"fields","(if removeSelf then s.args.drop 1 else s.args)","s.args","C102","self is kept among the fields")
m(M,"fields","(if removeSelf then s.args.drop 1 else s.args) ++ s.varargs.toList ++ s.kwonly","(if removeSelf then s.args.drop 1 else s.args) ++ s.kwonly ++ s.varargs.toList","C102","*args comes after the keyword-only fields")
m(M,"fields"," ++ s.kwonly ++ s.varkw.toList"," ++ s.kwonly","C102","**kw is not among the fields")
m(M,"fields"," ++ s.varargs.toList ++ s.kwonly ++ s.varkw.toList"," ++ s.varargs.toList ++ s.varkw.toList","C102","keyword-only parameters are not among the fields")
m(M,"build","if (fields removeSelf s).any underscored then none else","if false then none else","C102","underscored names are accepted (a repair of the program: the characterisation must notice)")
m(M,"bind","match build true s with","match build false s with","C102","the accessor builds the binder with remove_self=False")
m(M,"bind","runBinder b (self :: pos) kw","runBinder b pos kw","C102","the binder is not bound to the instance")
m(M,"bind","runBinder b (self :: pos) kw","runBinder b (self :: pos) []","C102","keyword arguments are not passed on")
m(M,"kwLoop","if slots.has k then none else kwLoop s r (slots.set k v, extra)","kwLoop s r (slots.set k v, extra)","C102","(Python) an argument passed twice is accepted, the keyword wins")
m(M,"kwLoop","else if s.varkw.isSome then kwLoop s r (slots, extra.set k v)\n    else none","else kwLoop s r (slots, extra.set k v)","C102","(Python) unknown keywords are ignored")
m(M,"Sig.argDefaults","(s.args.drop (s.args.length - s.defaults.length)).zip s.defaults","s.args.zip s.defaults","C102","(Python) defaults belong to the first parameters")
m(M,"call","if s.args.length < pos.length ∧ s.varargs = none then none","if s.args.length + 1 < pos.length ∧ s.varargs = none then none","C102","(Python) one surplus argument is accepted")
m(M,"call","(pos.drop s.args.length) ks extra","(pos.drop (s.args.length - 1)) ks extra","C102","*args begins one too early")
m(M,"fill","  match slots.get? a with\n  | some v => some v\n  | none => dflt.get? a","  match dflt.get? a with\n  | some v => some v\n  | none => slots.get? a","C102","(Python) defaults win over arguments")

M="Model/Prof"
m(M,"freshDict","(3, .dict (n + 4))]","(3, .dict (n + 3))]","C89","two of the four dictionaries are one object")
m(M,"initData","next := n + 5, data","next := n + 4, data","C89","the last dictionary is given to the next task too")
m(M,"initData","data := st.data.set t n }","data := if st.data.has t then st.data else st.data.set t n }","C89","init keeps the old data")
m(M,"startLoop","debug := st.debug.set t st.nextLoop, ","","C89","the loop is not remembered")
m(M,"startLoop","(t, .running), nextLoop := st.nextLoop + 1 }","(t, .running) }","C89","loops share a number")
m(M,"startLoop","loops := st.loops.set st.nextLoop (t, .running), ","","C89","no loop is started")
m(M,"follow","    | none => some .dummy\n    | some v => follow","    | none => none\n    | some v => follow","C89","a missing key raises")
m(M,"follow","| .num _, _ :: _ => none","| .num _, _ :: _ => some .dummy","C89","going through a number gives a dummy",tightened="through_number")
m(M,"follow","| some v => follow st v ks","| some v => some (.on v)","C89","only the first key of the path is followed")
m(M,"getItem","| none => some .dummy\n  | some o => follow st (.dict o) path","| none => none\n  | some o => follow st (.dict o) path","C89","indexing a task that is not profiled raises")
m(M,"use set",".set k v => some ({ st with heap := st.heap.set o (((st.heap.get? o).getD []).set k (.num v)) }",".set k v => some ({ st with heap := st.heap.set o (((st.heap.get? o).getD []).set (k + 1) (.num v)) }","C89","set writes another key")
m(M,"use set",".set k v => some ({ st with heap := st.heap.set o (((st.heap.get? o).getD []).set k (.num v)) }",".set k v => some ({ st with heap := st.heap.set o [(k, .num v)] }","C89","set forgets the other keys")
m(M,"use inc","(.num (old + v))","(.num v)","C89","inc overwrites")
m(M,"use inc","| none => some ({ st with heap := st.heap.set o (((st.heap.get? o).getD []).set k (.num v)) }, .dummy)","| none => some ({ st with heap := st.heap.set o (((st.heap.get? o).getD []).set k (.num 1)) }, .dummy)","C89","inc of a new key starts with 1")
m(M,"use inc","| some (.dict _) => none\n    | some (.num old)","| some (.dict _) => some ({ st with heap := st.heap.set o (((st.heap.get? o).getD []).set k (.num v)) }, .dummy)\n    | some (.num old)","C89","inc replaces a dictionary")
m(M,"use nest","| some (.dict c) => some (st, .on (.dict c))","| some (.dict _) => some ({ st with heap := (st.heap.set o (((st.heap.get? o).getD []).set k (.dict st.next))).set st.next [], next := st.next + 1 }, .on (.dict st.next))","C89","nest replaces an existing dictionary")
m(M,"use nest","| some (.dict c) => some (st, .on (.dict c))","| some (.dict _) => some (st, .on (.dict o))","C89","nest returns the outer dictionary",tightened="use_gives")
m(M,"use nest",".set st.next [], next := st.next + 1 },\n                    .on (.dict st.next))",".set st.next [], next := st.next + 1 },\n                    .on (.dict o))","C89","nest of a new key returns the outer dictionary",tightened="use_gives")
m(M,"use nest",".set st.next [], next := st.next + 1 },",".set st.next [] },","C89","nested dictionaries share an object")
m(M,"values","| .dummy => some []","| .dummy => none","C89","values of a dummy raise")
m(M,"empty","| .dummy => some true","| .dummy => some false","C89","a dummy is not empty")
m(M,"empty",".getD []).isEmpty",".getD []).isEmpty.not","C89","empty is inverted")
m(M,"stopLoop","st.loops.set l (u, .cancelled)","st.loops","C89","pop does not cancel the loop")
m(M,"stopLoop","debug := st.debug.erase t,","debug := st.debug,","C89","pop leaves the cancelled loop in the table",note="not observable: cancelling it again does nothing and its callback removes it")
m(M,"takeData","data := st.data.erase t }, some o)","data := st.data }, some o)","C89","pop leaves the data")
m(M,"takeData",".set 2 (.dict n)).set 3 (.dict (n + 1))",".set 3 (.dict n)).set 2 (.dict (n + 1))","C89","the two reports are swapped")
m(M,"takeData","| none => (st, none)","| none => (st, some 0)","C89","pop of a task not profiled gives another dictionary")
m(M,"pop","takeData (stopLoop st t) t most slow","takeData st t most slow","C89","pop forgets the debug loop")
m(M,"step init","| .noDebug => some (initData st t)","| .noDebug => some st","C89","init without debug does nothing")
m(M,"step init","| .invalid => some st","| .invalid => some (initData st t)","C89","refused options still clear the data")
m(M,"step init","| .debug => some (startLoop (initData st t) t)","| .debug => some (initData st t)","C89","no debug loop is started")
m(M,"step tick","if st.data.has t then some { st with logged","if true then some { st with logged","C89","a loop logs a task that is not profiled")
m(M,"step tick","else some { st with loops := st.loops.set l (t, .ended) }","else some st","C89","a loop whose task is gone goes on")
m(M,"step callback","debug := st.debug.erase t }","debug := if st.debug.get? t = some l then st.debug.erase t else st.debug }","C89","(the fixed program) the callback removes only its own loop")
M="Model/Stats"
m(M,"insDesc","if key y ≤ key x then x :: y","if key x ≤ key y then x :: y","C43","sorted ascending")
m(M,"mostCalls",".take 10\n",".take 9\n","C43","nine methods are reported")
m(M,"mostCalls","(x.2 : Int)) s.counter","(x.1 : Int)) s.counter","C43","sorted by method instead of by number of calls")
m(M,"fillSlow","fillSlow (d.set c.2 c.1) cs","fillSlow (if d.has c.2 then d else d.set c.2 c.1) cs","C43","(the fixed program) the slowest call of a name is shown")
m(M,"slowCalls","fillSlow [] (sortDesc (fun (c : Call) => c.1) s.slow)","fillSlow [] s.slow","C43","slow calls in heap order")

import Verif.Model.Base
/-!
# Profiling data: profiling.py:33-126, 157-252

Python's dictionaries are objects: an operator (`ProfilingData[...]`) holds the dictionary itself, so dictionaries live in a heap here.
Simplified: keys are numbers (`general`, `serialization`, `most_calls`, `slow_calls` are 0 to 3), values are integers or dictionaries that `nest`
made (`set` is not given dictionaries); the report of the calls (`to_dict`, C43) is a parameter of `pop`; the options are the two they can be:
refused, or given with or without a debug interval (Model/Prof `Options`); `json.dumps` of the data in the debug loop succeeds or its failure is
logged, which is a log line too; there is a running event loop.
-/
namespace Xoscar.Prof

abbrev Task := Nat
-- keys, dictionaries and debug loops are numbers too


inductive Val where
  | num (n : Int)
  | dict (o : Nat)
  deriving DecidableEq, Repr

/-- what `ProfilingData[...]` gives: `DummyOperator`, or a `ProfilingDataOperator` (whatever value it found) -/
inductive Operator where
  | dummy
  | on (v : Val)
  deriving DecidableEq, Repr

/-- the debug loop of one `init`, profiling.py:206-217 -/
inductive Phase where
  | running
  /-- `cancel()` was called; the loop has not noticed -/
  | cancelled
  /-- it has ended; its done-callback is still to be called (223) -/
  | ended
  /-- the callback was called -/
  | gone
  deriving DecidableEq, Repr

structure St where
  heap : Dict Nat (Dict Nat Val)
  next : Nat
  /-- `_data` -/
  data : Dict Task Nat
  /-- `_debug_task` -/
  debug : Dict Task Nat
  loops : Dict Nat (Task × Phase)
  nextLoop : Nat
  /-- the log lines: which loop, of which task -/
  logged : List (Nat × Task)
  deriving Repr

def init : St := ⟨[], 0, [], [], [], 0, []⟩

/-- the dictionary made for a task, 194-199 -/
def freshDict (n : Nat) : Dict Nat Val := [(0, .dict (n + 1)), (1, .dict (n + 2)), (2, .dict (n + 3)), (3, .dict (n + 4))]

/-- the `_data` part of `init`, 194-199 -/
def initData (st : St) (t : Task) : St :=
  let n := st.next
  { st with heap := ((((st.heap.set n (freshDict n)).set (n + 1) []).set (n + 2) []).set (n + 3) []).set (n + 4) [],
            next := n + 5, data := st.data.set t n }

/-- `_debug_task[task_id] = create_task(...)`, 219-223 -/
def startLoop (st : St) (t : Task) : St :=
  { st with debug := st.debug.set t st.nextLoop, loops := st.loops.set st.nextLoop (t, .running), nextLoop := st.nextLoop + 1 }

/-- `for k in key: …`, 247-252: `none`: AttributeError, a number has no `get` -/
def follow (st : St) : Val → List Nat → Option Operator
  | v, [] => some (.on v)
  | .num _, _ :: _ => none
  | .dict o, k :: ks =>
    match ((st.heap.get? o).getD []).get? k with
    | none => some .dummy
    | some v => follow st v ks

/-- `ProfilingData[task, *path]`, 243-252 -/
def getItem (st : St) (t : Task) (path : List Nat) : Option Operator :=
  match st.data.get? t with
  | none => some .dummy
  | some o => follow st (.dict o) path

/-- what is done with an operator -/
inductive Use where
  | set (k : Nat) (v : Int)
  | inc (k : Nat) (v : Int)
  | nest (k : Nat)
  deriving DecidableEq, Repr

/-- `ProfilingDataOperator.set/inc/nest`, 103-121, and `DummyOperator`, 81-91: the new state and what `nest` returned.  `none`: it raised (TypeError or
AttributeError), with nothing changed. -/
def use (st : St) : Operator → Use → Option (St × Operator)
  | .dummy, _ => some (st, .dummy)
  | .on (.num _), _ => none
  | .on (.dict o), .set k v => some ({ st with heap := st.heap.set o (((st.heap.get? o).getD []).set k (.num v)) }, .dummy)
  | .on (.dict o), .inc k v =>
    match ((st.heap.get? o).getD []).get? k with
    | some (.dict _) => none
    | some (.num old) => some ({ st with heap := st.heap.set o (((st.heap.get? o).getD []).set k (.num (old + v))) }, .dummy)
    | none => some ({ st with heap := st.heap.set o (((st.heap.get? o).getD []).set k (.num v)) }, .dummy)
  | .on (.dict o), .nest k =>
    match ((st.heap.get? o).getD []).get? k with
    | some (.num _) => none
    | some (.dict c) => some (st, .on (.dict c))
    | none => some ({ st with heap := (st.heap.set o (((st.heap.get? o).getD []).set k (.dict st.next))).set st.next [], next := st.next + 1 },
                    .on (.dict st.next))

/-- `values()`, 123-124, 94-95: `none`: AttributeError -/
def values (st : St) : Operator → Option (List Val)
  | .dummy => some []
  | .on (.num _) => none
  | .on (.dict o) => some ((st.heap.get? o).getD []).vals

/-- `empty()`, 126-127, 98-99 -/
def empty (st : St) : Operator → Option Bool
  | .dummy => some true
  | .on (.num _) => none
  | .on (.dict o) => some ((st.heap.get? o).getD []).isEmpty

/-- `_debug_task.pop`, `cancel()`, 227-229: cancelling an ended task does nothing -/
def stopLoop (st : St) (t : Task) : St :=
  match st.debug.get? t with
  | none => st
  | some l =>
    { st with debug := st.debug.erase t,
              loops := match st.loops.get? l with
                | some (u, .running) => st.loops.set l (u, .cancelled)
                | _ => st.loops }

/-- the rest of `pop`, 230-233: the dictionary taken out is updated with the two dictionaries of the report of the calls -/
def takeData (st : St) (t : Task) (most slow : Dict Nat Int) : St × Option Nat :=
  match st.data.get? t with
  | none => (st, none)
  | some o =>
    let n := st.next
    ({ st with heap := ((st.heap.set o ((((st.heap.get? o).getD []).set 2 (.dict n)).set 3 (.dict (n + 1)))).set n
                          (most.map (fun x => (x.1, Val.num x.2)))).set (n + 1) (slow.map (fun x => (x.1, Val.num x.2))),
               next := n + 2, data := st.data.erase t }, some o)

def pop (st : St) (t : Task) (most slow : Dict Nat Int) : St × Option Nat := takeData (stopLoop st t) t most slow

/-- what can be given as options, 63-75: refused, or a debug interval or none -/
inductive Options where
  | invalid
  | noDebug
  | debug
  deriving DecidableEq, Repr

inductive Label where
  /-- `ProfilingData.init(task, options)`; `invalid`: ValueError -/
  | init (t : Task) (o : Options)
  /-- `ProfilingData.pop(task)`, with the report of the calls so far -/
  | pop (t : Task) (most slow : Dict Nat Int)
  /-- `ProfilingData[task, *path].set(...)` … -/
  | use (t : Task) (path : List Nat) (u : Use)
  /-- the same with an operator someone has kept -/
  | held (op : Operator) (u : Use)
  /-- a debug loop is at the start of its body, 207-217 -/
  | tick (l : Nat)
  /-- a cancelled loop ends -/
  | stop (l : Nat)
  /-- the done-callback of a loop, 223 -/
  | callback (l : Nat)

/-- the operator was made by `ProfilingData[...]` or `nest` -/
def known (st : St) : Operator → Bool
  | .on (.dict o) => st.heap.has o
  | _ => true

/-- a use that raises changes nothing -/
def used (st : St) (r : Option (St × Operator)) : St :=
  match r with
  | none => st
  | some (st', _) => st'

def step (st : St) : Label → Option St
  | .init t o => match o with
    | .invalid => some st
    | .noDebug => some (initData st t)
    | .debug => some (startLoop (initData st t) t)
  -- (a dictionary has every key once)
  | .pop t most slow => if most.keys.Nodup ∧ slow.keys.Nodup then some (pop st t most slow).1 else none
  | .use t path u => match getItem st t path with
    | none => some st
    | some op => some (used st (use st op u))
  | .held op u => if known st op then some (used st (use st op u)) else none
  | .tick l => match st.loops.get? l with
    | some (t, .running) =>
      if st.data.has t then some { st with logged := st.logged ++ [(l, t)] }
      else some { st with loops := st.loops.set l (t, .ended) }
    | _ => none
  | .stop l => match st.loops.get? l with
    | some (t, .cancelled) => some { st with loops := st.loops.set l (t, .ended) }
    | _ => none
  | .callback l => match st.loops.get? l with
    | some (t, .ended) => some { st with loops := st.loops.set l (t, .gone), debug := st.debug.erase t }
    | _ => none

inductive Run : List Label → St → Prop
  | init : Run [] init
  | snoc {ls : List Label} {l : Label} {s s' : St} : Run ls s → step s l = some s' → Run (ls ++ [l]) s'

end Xoscar.Prof

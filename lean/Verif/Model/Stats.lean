import Verif.Model.Base
/-!
# Percentile metric, slow call statistics, call-cycle detection

Models `python/xoscar/metrics/api.py` 214-260, `python/xoscar/profiling.py` 127-155,
`python/xoscar/debug.py` 118-160.
-/
namespace Xoscar.Stats

/-! ## Percentile (metrics/api.py) -/

/-- The least element of a non-empty list: what `heap[0]` / `get_nowait()` deliver. -/
def minOf : List Int → Option Int
  | [] => none
  | x :: xs => match minOf xs with
    | none => some x
    | some m => some (if x ≤ m then x else m)

/-- metrics/api.py:222-228: state of a `Percentile`.  The `PriorityQueue` is the multiset of
its items (a list), `get_nowait` removes the least one.  Values are integers (the code accepts
floats; only their order is used). -/
structure Pct where
  capacity : Nat
  window : Nat
  heap : List Int
  curNum : Nat
deriving DecidableEq, Repr

/-- metrics/api.py:222-234 `__init__`; `none` = ValueError. -/
def Pct.new (capacity window : Int) : Option Pct :=
  if capacity ≤ 0 ∨ window ≤ 0 then none
  else some ⟨capacity.toNat, window.toNat, [], 0⟩

/-- metrics/api.py:236-243: the value is stored negated; when full, the least stored value
is replaced by the larger of it and the new one. -/
def Pct.store (s : Pct) (value : Int) : List Int :=
  let sv := -1 * value
  if s.heap.length < s.capacity then sv :: s.heap
  else
    match minOf s.heap with
    | none => sv :: s.heap          -- unreachable: capacity > 0
    | some top => (if top < sv then sv else top) :: s.heap.erase top

/-- metrics/api.py:236-249 `record_data`; the second component is the callback argument, if
the callback is called. -/
def Pct.record (s : Pct) (value : Int) : Pct × Option Int :=
  let heap := s.store value
  let curNum := s.curNum + 1
  if curNum % s.window = 0 then
    ({ s with heap := [], curNum := 0 }, (minOf heap).map (fun m => -1 * m))
  else ({ s with heap := heap, curNum := curNum }, none)

/-- A stream of observations; collects the callback arguments. -/
def Pct.run (s : Pct) : List Int → List Int
  | [] => []
  | v :: vs =>
    let (s', o) := s.record v
    o.toList ++ s'.run vs

/-! ## Slow calls (profiling.py) -/

/-- profiling.py:143-148 `slow_call_key`: duration first, then the rest of the tuple
(uid, address, content), abstracted to a number that orders ties. -/
abbrev Call := Int × Nat

/-- Tuple comparison `a <= b`. -/
def callLe (a b : Call) : Bool := a.1 < b.1 || (a.1 == b.1 && a.2 ≤ b.2)

/-- least element for the tuple order: `heap[0]` of a `heapq` heap -/
def minCall : List Call → Option Call
  | [] => none
  | x :: xs => match minCall xs with
    | none => some x
    | some m => some (if callLe x m then x else m)

/-- profiling.py:131-136 `_CallStats` (`_slow_calls` as the multiset of heap items). -/
structure CallStats where
  threshold : Int
  counter : Dict Nat Nat
  slow : List Call
deriving DecidableEq, Repr

/-- profiling.py:138-155 `collect`; `key` stands for `(uid, method)`.  The swallowed TypeError
(incomparable contents) is not modelled. -/
def CallStats.collect (s : CallStats) (key : Nat) (c : Call) : CallStats :=
  let s := { s with counter := s.counter.set key ((s.counter.get? key).getD 0 + 1) }
  if c.1 < s.threshold then s
  else if s.slow.length < 10 then { s with slow := c :: s.slow }       -- heappush
  else
    match minCall s.slow with                                          -- heapreplace
    | none => { s with slow := c :: s.slow }
    | some m => { s with slow := c :: s.slow.erase m }

/-- A history of collected calls. -/
def CallStats.run (s : CallStats) (h : List (Nat × Call)) : CallStats :=
  h.foldl (fun s kc => s.collect kc.1 kc.2) s

/-- Python's stable `sorted(…, key=key, reverse=True)`: equal ones stay in their order. -/
def insDesc {α} (key : α → Int) (x : α) : List α → List α
  | [] => [x]
  | y :: l => if key y ≤ key x then x :: y :: l else y :: insDesc key x l

def sortDesc {α} (key : α → Int) : List α → List α
  | [] => []
  | x :: l => insDesc key x (sortDesc key l)

/-- profiling.py:157-161: `most_calls`, from `Counter.most_common(10)`; the name `uid.method` stands for the pair (method names have no dots). -/
def CallStats.mostCalls (s : CallStats) : Dict Nat Nat := (sortDesc (fun (x : Nat × Nat) => (x.2 : Int)) s.counter).take 10

/-- putting entries into a dictionary one after the other: name to duration (profiling.py:163-169) -/
def fillSlow (d : Dict Nat Int) : List Call → Dict Nat Int
  | [] => d
  | c :: cs => fillSlow (d.set c.2 c.1) cs

/-- profiling.py:162-169: `slow_calls`, the slowest first; the name printed (address, uid, method, arguments) is the second component of a call. -/
def CallStats.slowCalls (s : CallStats) : Dict Nat Int := fillSlow [] (sortDesc (fun (c : Call) => c.1) s.slow)

/-! ## Call cycle detection (debug.py) -/

/-- debug.py `MessageTraceItem` (uid, address, method). -/
structure TraceItem where
  uid : Nat
  address : Nat
  method : Nat
deriving DecidableEq, Repr

/-- debug.py:118-134 `record_message_trace` with the option on: value of
`_message_trace_var` while the message is handled. -/
def recordTrace (messageTrace : Option (List TraceItem)) (ref : TraceItem) : List TraceItem :=
  messageTrace.getD [] ++ [ref]

/-- debug.py:137-168 `detect_cycle_send`: the trace put on the message (unchanged, i.e. `none`,
when `wait_response` is false) and whether the warning is logged. -/
def detectCycle (on : Bool) (var : Option (List TraceItem)) (ref : TraceItem)
    (waitResponse : Bool) : Option (List TraceItem) × Bool :=
  if on = false ∨ waitResponse = false then (none, false)
  else
    let cur := var.getD []
    (some cur, cur.any (fun i => i.uid == ref.uid && i.address == ref.address))

/-- A chain of nested calls: a client calls the first ref, whose handler calls the second, and
so on; every entry is (callee, wait_response).  Returns the warnings. -/
def chain (on : Bool) (var : Option (List TraceItem)) : List (TraceItem × Bool) → List Bool
  | [] => []
  | (r, w) :: rest =>
    let (tr, warn) := detectCycle on var r w
    -- on the receiving side: pool.py `with record_message_trace(message)`
    let var' := if on then some (recordTrace tr r) else none
    warn :: chain on var' rest

end Xoscar.Stats

import Verif.Model.Base
/-!
# Events that can be awaited: aio/parallelism.py, aio/base.py

`AioEvent.wait` runs `Event.wait` in the loop's default executor (aio/base.py:23-28: `run_in_executor(self._executor, …)` with `None`), whose
threads also serialize messages above the threshold (serialization/core.pyx:789) and do the operations of asynchronous files; `set`, `clear` and
`is_set` are done at once (parallelism.py:29).  Simplified: a job's end in its thread and the arrival of its result at the caller are one
step; jobs in the same executor that are not waits end by themselves; errors of jobs are left out.
-/
namespace Xoscar.AioEvent

abbrev Event := Nat
abbrev Job := Nat

/-- what a job in the executor is: `Event.wait` with or without a time limit, or something else (a message to serialize, a file operation) -/
inductive Kind where
  | wait (e : Event) (limit : Bool)
  | other
  deriving DecidableEq, Repr

/-- where a job is that a thread has taken -/
inductive Phase where
  /-- found the event set, or not a wait -/
  | sure
  /-- in `Condition.wait` -/
  | waiting (e : Event) (limit : Bool)
  /-- notified by `set` -/
  | woken (e : Event)
  /-- its time limit is over -/
  | expired (e : Event)
  deriving DecidableEq, Repr

structure St where
  /-- the events that are set -/
  on : List Event := []
  kinds : Dict Job Kind := []
  /-- the executor's queue -/
  queue : List Job := []
  /-- the executor's threads that have a job -/
  busy : Dict Job Phase := []
  /-- callers that were cancelled -/
  gone : List Job := []
  /-- what the callers got: `True` or `False` (`True` for other jobs) -/
  results : List (Job × Bool) := []
  deriving DecidableEq, Repr

inductive Label where
  | call (j : Job) (k : Kind)
  /-- a thread takes the first job of the queue -/
  | start
  | set (e : Event)
  | clear (e : Event)
  /-- a time limit passes -/
  | expire (j : Job)
  /-- a job ends -/
  | finish (j : Job)
  /-- a caller is cancelled (a timeout of `asyncio.wait_for`, say) -/
  | cancel (j : Job)
  deriving DecidableEq, Repr

/-- `Event.wait` up to where it blocks: it looks at the flag first -/
def enter (on : List Event) : Kind → Phase
  | .wait e limit => if e ∈ on then .sure else .waiting e limit
  | .other => .sure

/-- `notify_all` -/
def wake (e : Event) : Phase → Phase
  | .waiting e' limit => if e' = e then .woken e' else .waiting e' limit
  | p => p

/-- What `Event.wait` returns: a `threading.Event` whether it was notified; a `multiprocessing.Event` (`mp`) the flag at the end. -/
def answer (mp : Event → Bool) (on : List Event) : Phase → Option Bool
  | .sure => some true
  | .waiting _ _ => none
  | .woken e => some (if mp e then decide (e ∈ on) else true)
  | .expired e => some (if mp e then decide (e ∈ on) else false)

/-- one step; `n`: the threads of the executor -/
def step (n : Nat) (mp : Event → Bool) (s : St) : Label → Option St
  | .call j k => if s.kinds.has j then none else some { s with kinds := s.kinds.set j k, queue := s.queue ++ [j] }
  | .start =>
    match s.queue with
    | [] => none
    | j :: rest =>
      if s.busy.length < n then
        match s.kinds.get? j with
        | some k => some { s with queue := rest, busy := s.busy.set j (enter s.on k) }
        | none => none
      else none
  | .set e => some { s with on := s.on.insert e, busy := s.busy.map (fun x => (x.1, wake e x.2)) }
  | .clear e => some { s with on := s.on.filter (· ≠ e) }
  | .expire j =>
    match s.busy.get? j with
    | some (.waiting e true) => some { s with busy := s.busy.set j (.expired e) }
    | _ => none
  | .finish j =>
    match s.busy.get? j with
    | some p =>
      match answer mp s.on p with
      | some b => some { s with busy := s.busy.erase j, results := if j ∈ s.gone then s.results else s.results ++ [(j, b)] }
      | none => none
    | none => none
  | .cancel j =>
    if j ∈ s.queue then some { s with queue := s.queue.filter (· ≠ j), gone := j :: s.gone }
    else if s.busy.has j ∧ j ∉ s.gone then some { s with gone := j :: s.gone }
    else none

end Xoscar.AioEvent

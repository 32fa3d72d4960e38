import Verif.Model.Base
/-!
# The watchdogs of the debug mode: debug.py 37-110 and the asyncio task detector, utils.py 326-398

Time is a number of some unit.  Simplified: `time.time()` does not go back; the event loop may be late by any amount, never early.
-/
namespace Xoscar.Watch

/-! ## `debug_async_timeout` -/

/-- the options by name; values that a user may set through `DEBUG_OSCAR` (any number, or `None`) -/
abbrev Opts := Dict String (Option Int)

/-- `DebugOptions` (37-44): the defaults -/
def defaults : Opts := [("actor_call_timeout", some 10), ("process_message_timeout", some 30), ("actor_lock_timeout", some 30),
  ("log_unhandled_errors", some 1), ("log_cycle_send", some 1)]

/-- the value of `DEBUG_OSCAR`: unset, or its text with what `json.loads` makes of it (`none`: an exception) -/
structure EnvVar where
  text : String
  json : Option Opts

/-- `_reload_debug_opts_from_env` (66-73): `none` for an exception (also for an unknown option), `some none` for no debugging -/
def reload : Option EnvVar → Option (Option Opts)
  | none => some none
  | some v =>
    if v.text = "0" then some none
    else if v.text = "1" then some (some defaults)
    else match v.json with
      | none => none
      | some given => if given.all (fun kv => defaults.has kv.1) then some (some (given.foldl (fun d kv => d.set kv.1 kv.2) defaults)) else none

/-- `getattr(_debug_opts, option_name, -1)` and the test after it (98-100): the time until the first warning -/
def period (opts : Option Opts) (name : String) : Option Nat := match opts with
  | none => none
  | some o => match (o.get? name).getD (some (-1)) with
    | none => none
    | some v => if v > 0 then some v.toNat else none

/-- one guarded body: the logging task, if there is one, waits until `due` for the `rnd`-th warning -/
structure Guard where
  period : Option Nat
  start : Nat
  now : Nat
  rnd : Nat
  due : Nat
  /-- the warnings: the time in the body each of them tells -/
  warned : List Nat
  inside : Bool
  deriving DecidableEq, Repr

/-- entering (94-104): the options of that moment count -/
def enter (opts : Option Opts) (name : String) (now : Nat) : Guard :=
  let p := period opts name
  ⟨p, now, now, 1, now + p.getD 0, [], true⟩

inductive Label where
  | pass (d : Nat)
  /-- `asyncio.sleep` is over: warn and sleep again (80-91) -/
  | wake
  /-- the body ends, in whatever way: the task is cancelled (106-110) -/
  | leave
  deriving DecidableEq, Repr

def step (g : Guard) : Label → Option Guard
  | .pass d => some { g with now := g.now + d }
  | .wake => match g.period with
    | some t => if g.inside ∧ g.due ≤ g.now then
        some { g with warned := g.warned ++ [g.now - g.start], rnd := g.rnd + 1, due := g.now + t * (g.rnd + 1) }
      else none
    | none => none
  | .leave => if g.inside then some { g with inside := false } else none

inductive Run (g0 : Guard) : List Label → Guard → Prop
  | init : Run g0 [] g0
  | snoc {ls l g g'} : Run g0 ls g → step g l = some g' → Run g0 (ls ++ [l]) g'

/-! ## The detector of tasks that take too long -/

structure Task where
  /-- `__xoscar_asyncio_task_create_time__`; `none` for tasks made before the patch (337-339) -/
  created : Option Nat
  /-- `str(task)` -/
  text : List Char
  done : Bool
  deriving DecidableEq, Repr

/-- Python's `a in b` for strings -/
def inside (a : List Char) : List Char → Bool
  | [] => a.isEmpty
  | b@(_ :: t) => a.isPrefixOf b || inside a t

/-- `s.split(";")` -/
def splitSemi : List Char → List (List Char)
  | [] => [[]]
  | c :: t => if c = ';' then [] :: splitSemi t else match splitSemi t with
    | [] => [[c]]
    | x :: xs => (c :: x) :: xs

/-- `given or default` for numbers -/
def pick (a : Option Int) (d : Int) : Int := match a with
  | some v => if v = 0 then d else v
  | none => d

/-- the settings: what was given to `register_asyncio_task_timeout_detector` (358-391), else the environment.  `none`: no detector.
Zero and the empty list count as not given.  The last filter is added by the detector itself (329) -/
def settings (interval seconds envInterval envSeconds : Option Int) (filters : List (List Char)) (envFilters : Option (List Char)) :
    Option (Int × Int × List (List Char)) :=
  if pick interval (envInterval.getD (-1)) > 0 then
    some (pick interval (envInterval.getD (-1)), pick seconds (envSeconds.getD (pick interval (envInterval.getD (-1)))),
      (if filters.isEmpty then splitSemi (envFilters.getD "xoscar".toList) else filters) ++ ["asyncio_task_timeout_detector".toList])
  else none

/-- one round at time `now` (332-355): the tasks that are reported.  `asyncio.all_tasks` has those that are not done -/
def check (seconds : Int) (filters : List (List Char)) (now : Nat) (tasks : List Task) : List Task :=
  tasks.filter fun t => !t.done && decide ((now : Int) - (t.created.getD now : Int) ≥ seconds) && !filters.any (fun f => inside f t.text)

end Xoscar.Watch

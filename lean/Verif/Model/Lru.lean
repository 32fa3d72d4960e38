import Verif.Model.Base
/-!
# `alru_cache`: python/xoscar/aio/lru.py

The decorated function is any coroutine function: an evaluation of it ends when and how it likes.  A key stands
for `_make_key(args, kwargs, typed)` (lru.py:169); calls with equal keys are interchangeable for the cache.
Left out: `clear_all_alru_caches`, the messages of the errors.
-/
namespace Xoscar.Lru

abbrev Key := Nat
/-- evaluations of the function; the future in the cache has the same number -/
abbrev Eval := Nat
abbrev Val := Nat

inductive Result where
  | ok (v : Val)
  | exc (e : Nat)
  | cancelled
  deriving DecidableEq, Repr

structure Ev where
  key : Key
  /-- the result of the future; `none`: not done -/
  res : Option Result
  deriving DecidableEq, Repr

/-- what a call was answered with -/
inductive Ans where
  /-- waits for, or was given, the result of this evaluation -/
  | of (e : Eval)
  /-- RuntimeError: closed -/
  | closed
  deriving DecidableEq, Repr

structure Params where
  maxsize : Option Nat
  cacheExceptions : Bool

structure St where
  /-- `wrapped._cache`, an OrderedDict, oldest first -/
  cache : Dict Key Eval
  evals : List Ev
  hits : Nat
  misses : Nat
  closed : Bool
  /-- `wrapped.tasks`: the evaluations running, since the last clear -/
  tasks : List Eval
  /-- the `close()` calls that wait, each for these evaluations (`asyncio.gather(*wrapped.tasks)`) -/
  closing : List (List Eval)
  /-- ghost: the calls so far with their answers -/
  calls : List (Key × Ans)
  deriving Repr

def init : St := ⟨[], [], 0, 0, false, [], [], []⟩

/-- `OrderedDict.move_to_end(key)`; nothing when it is not there (lru.py:126-130) -/
def touch (c : Dict Key Eval) (k : Key) : Dict Key Eval :=
  match c.get? k with
  | some e => c.erase k ++ [(k, e)]
  | none => c

inductive Label where
  | call (k : Key)
  /-- an evaluation ends -/
  | finish (e : Eval) (r : Result)
  | invalidate (k : Key)
  | clear
  | close (cancel : Bool)
  /-- the gather of the `i`-th waiting `close()` is done -/
  | closeWaited (i : Nat)
  | openCache
  deriving DecidableEq, Repr

/-- lru.py:186-202: a new evaluation -/
def miss (p : Params) (s : St) (k : Key) : St :=
  let e := s.evals.length
  let cache := s.cache.set k e
  let cache := match p.maxsize with
    | some n => if cache.length > n then cache.drop 1 else cache
    | none => cache
  { s with evals := s.evals ++ [⟨k, none⟩], tasks := s.tasks ++ [e], cache := touch cache k, misses := s.misses + 1,
           calls := s.calls ++ [(k, .of e)] }

/-- lru.py:132-134, 174-184: the future in the cache is used -/
def hit (s : St) (k : Key) (e : Eval) : St :=
  { s with hits := s.hits + 1, cache := touch s.cache k, calls := s.calls ++ [(k, .of e)] }

/-- `fut._exception is None`: true for a cancelled future, too -/
def noException : Result → Bool
  | .exc _ => false
  | _ => true

/-- the body of the wrapped function up to its only `await` (lru.py:163-202) -/
def call (p : Params) (s : St) (k : Key) : St :=
  if s.closed then { s with calls := s.calls ++ [(k, .closed)] }
  else match s.cache.get? k with
    | none => miss p s k
    | some e => match (s.evals[e]?).bind (·.res) with
      | none => hit s k e
      | some r => if noException r ∨ p.cacheExceptions then hit s k e
                  else miss p { s with cache := s.cache.erase k } k

/-- `_cache_clear` (lru.py:73-76) -/
def clear (s : St) : St := { s with hits := 0, misses := 0, cache := [], tasks := [] }

/-- this evaluation has ended -/
def ended (s : St) (e : Eval) : Bool := match s.evals[e]? with
  | some ⟨_, some _⟩ => true
  | _ => false

def step (p : Params) (s : St) : Label → Option St
  | .call k => some (call p s k)
  | .finish e r => match s.evals[e]? with                                   -- 51-60
    | some ⟨k, none⟩ => some { s with evals := s.evals.set e ⟨k, some r⟩, tasks := s.tasks.filter (· ≠ e) }
    | _ => none
  | .invalidate k => some { s with cache := s.cache.erase k }               -- 63-70
  | .clear => some (clear s)
  | .close cancel =>                                                        -- 92-103
    if s.closed then none
    else some { s with closed := true, closing := s.closing ++ [if cancel then [] else s.tasks],
                       -- cancelling makes the task end cancelled unless the function refuses; here: at once
                       evals := if cancel then s.evals.mapIdx (fun i ev => if i ∈ s.tasks then ⟨ev.key, some .cancelled⟩ else ev) else s.evals,
                       tasks := if cancel then [] else s.tasks }
  | .closeWaited i => match s.closing[i]? with                              -- 106-120
    | some es => if es.all (ended s) then some { clear s with closing := s.closing.eraseIdx i } else none
    | none => none
  | .openCache => if s.closed ∧ s.hits = 0 ∧ s.misses = 0 ∧ s.tasks = [] ∧ s.cache = [] then some { s with closed := false } else none  -- 79-90

inductive Run (p : Params) : List Label → St → Prop
  | init : Run p [] init
  | snoc {ls l s s'} : Run p ls s → step p s l = some s' → Run p (ls ++ [l]) s'

end Xoscar.Lru

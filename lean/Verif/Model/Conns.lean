import Verif.Model.Base
/-!
# The connections calls go over: router.py:78-116, 131-187, 209-237; backends/core.py:49-88

One process, any number of threads, tasks and changes of the router at once.  A key stands for (external address, caller, client type, proxies);
`route` for the address the router gives for a key (C29 says which).
Simplified: which of the tasks waiting for a lock gets it is free; a failed and a cancelled connect are the same.
-/
namespace Xoscar.Conns

abbrev Thread := Nat
abbrev Task := Nat
abbrev Key := Nat
abbrev Dest := Nat
abbrev Conn := Nat

/-- a `Client` -/
structure Info where
  thread : Thread
  key : Key
  /-- the address it is connected to -/
  dest : Dest
  isOpen : Bool
  deriving DecidableEq, Repr

inductive Phase where
  /-- waits for `_lock` (router.py:139) -/
  | waiting
  /-- in `_create_client` for this address (router.py:174), holding the lock -/
  | connecting (d : Dest)
  deriving DecidableEq, Repr

/-- a `get_client` under way -/
structure Req where
  thread : Thread
  key : Key
  /-- which `_cache_local` its lock is from -/
  lockOf : Nat
  phase : Phase
  deriving DecidableEq, Repr

structure St where
  route : Key → Dest
  /-- number of the `threading.local()` in `_cache_local` -/
  epoch : Nat
  /-- `_cache` of all threads (router.py:78-84) -/
  cache : Dict (Thread × Key) Conn
  reqs : Dict Task Req
  conns : Dict Conn Info
  next : Conn
  /-- `_clients` of the callers: connections with a listening task (backends/core.py:55-58) -/
  listened : List Conn
  /-- ghost: the connections handed out so far -/
  results : List (Task × Conn)

def init (r : Key → Dest) : St := ⟨r, 0, [], [], [], 0, [], []⟩

inductive Label where
  /-- a task asks for a connection -/
  | arrive (tk : Task) (th : Thread) (k : Key)
  /-- it gets the lock and looks into the cache -/
  | enter (tk : Task)
  | connected (tk : Task)
  /-- connecting fails or the task is cancelled -/
  | failed (tk : Task)
  /-- a connection is closed, by whomever -/
  | close (c : Conn)
  /-- `set_mapping`, `add_router`, `remove_router` -/
  | reconfigure (r : Key → Dest)

/-- is the lock of this thread and `_cache_local` held -/
def held (s : St) (th : Thread) (lockOf : Nat) : Bool :=
  s.reqs.any (fun x => x.2.thread == th && x.2.lockOf == lockOf && x.2.phase != .waiting)

/-- `_listen_client` (backends/core.py:55-58) -/
def listen (l : List Conn) (c : Conn) : List Conn := if c ∈ l then l else l ++ [c]

/-- the end of `get_client`: the task has its connection -/
def give (s : St) (tk : Task) (c : Conn) : St :=
  { s with reqs := s.reqs.erase tk, listened := listen s.listened c, results := s.results ++ [(tk, c)] }

/-- router.py:153-174: no usable connection in the cache -/
def begin_ (s : St) (tk : Task) (x : Req) : St :=
  { s with reqs := s.reqs.set tk { x with phase := .connecting (s.route x.key) } }

def step (s : St) : Label → Option St
  | .arrive tk th k => match s.reqs.get? tk with
    | some _ => none
    | none => some { s with reqs := s.reqs.set tk ⟨th, k, s.epoch, .waiting⟩ }
  | .enter tk => match s.reqs.get? tk with
    | none => none
    | some x =>
      if x.phase = .waiting ∧ held s x.thread x.lockOf = false then
        match s.cache.get? (x.thread, x.key) with                            -- 143-152
        | none => some (begin_ s tk x)
        | some c => match s.conns.get? c with
          | none => none
          | some i => if i.isOpen then some (give s tk c)
            else some (begin_ { s with cache := s.cache.erase (x.thread, x.key) } tk x)
      else none
  | .connected tk => match s.reqs.get? tk with
    | none => none
    | some x => match x.phase with
      | .waiting => none
      | .connecting d =>                                                     -- 174-177; `self._cache` is the present one
        some (give { s with conns := s.conns.set s.next ⟨x.thread, x.key, d, true⟩, next := s.next + 1,
                            cache := s.cache.set (x.thread, x.key) s.next } tk s.next)
  | .failed tk => match s.reqs.get? tk with
    | none => none
    | some _ => some { s with reqs := s.reqs.erase tk }
  | .close c => match s.conns.get? c with
    | none => none
    | some i => some { s with conns := s.conns.set c { i with isOpen := false } }
  | .reconfigure r => some { s with route := r, epoch := s.epoch + 1, cache := [] }   -- 92-116

inductive Run (r : Key → Dest) : List Label → St → Prop
  | init : Run r [] (init r)
  | snoc {ls : List Label} {l : Label} {s s' : St} : Run r ls s → step s l = some s' → Run r (ls ++ [l]) s'

end Xoscar.Conns

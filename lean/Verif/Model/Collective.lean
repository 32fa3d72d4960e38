import Verif.Model.Base
/-!
# Collective groups: collective/core.py `RankActor`, collective/process_group.py

The rank actors of a job (one per process) and the groups they create.  The collective operations themselves (gloo, nccl) are not modelled.
Simplified: `pg_options`, `device_id` and the address are left out.
-/
namespace Xoscar.Collective

abbrev Name := List Char

/-- what is wrong with a list of ranks, or with the backend -/
inductive Err where
  | tooLarge | illegal | duplicate | noBackend | connect
  deriving DecidableEq, Repr

/-- a `ProcessGroup` as its constructor gets it: rank and size in the group (process_group.py 69-79) -/
structure Group where
  rank : Nat
  world : Nat
  deriving DecidableEq, Repr

/-- a `RankActor` (core.py 36-54).  `groups` is `name_to_pg[backend]` -/
structure Actor where
  rank : Int
  world : Int
  backend : Name
  groups : Dict Name Group
  deriving Repr

def gloo : Name := ['g', 'l', 'o', 'o']
def nccl : Name := ['n', 'c', 'c', 'l']
def dflt : Name := ['d', 'e', 'f', 'a', 'u', 'l', 't']

/-- `__init__` and `__post_create__` (core.py 36-81): the default group has the global rank and size -/
def create (rank world : Nat) (backend : Name) : Actor := ⟨rank, world, backend, [(dflt, ⟨rank, world⟩)]⟩

/-- what `_process_group_name` hashes (core.py 100-103): backend, ranks with `_` between them -/
def plain (backend : Name) (ranks : List Int) : List Char := backend ++ ['_'].intercalate (ranks.map (fun r => (toString r).toList))

/-- `sorted` -/
def sorted (ranks : List Int) : List Int := ranks.mergeSort (fun a b => decide (a ≤ b))

/-- the three assertions (core.py 110-119).  `len({…}) == len(ranks)`: the set has as many elements as the list -/
def checks (world : Int) (ranks : List Int) : Option Err :=
  if ¬ (ranks.length : Int) ≤ world then some .tooLarge
  else if ¬ ranks.all (fun r => decide (world > r ∧ r ≥ 0)) then some .illegal
  else if ¬ (pySet ranks).length = ranks.length then some .duplicate
  else none

/-- `new_group` (core.py 105-152).  `hash` is `sha1(…).hexdigest()`; `connected`: the constructor of the group succeeded -/
def newGroup (hash : List Char → Name) (connected : Bool) (a : Actor) (ranks : List Int) : Actor × Except Err (Option Name) :=
  match checks a.world ranks with
  | some e => (a, .error e)
  | none =>
    if a.rank ∉ ranks then (a, .ok none)
    else if (ranks.length : Int) = a.world then (a, .ok (some dflt))
    else
      let global := sorted ranks
      let name := hash (plain a.backend global)
      if (a.groups.get? name).isSome then (a, .ok (some name))
      else if a.backend = gloo ∨ a.backend = nccl then
        if connected then ({ a with groups := a.groups.set name ⟨global.idxOf a.rank, global.length⟩ }, .ok (some name))
        else (a, .error .connect)
      else (a, .error .noBackend)

/-! ### how an nccl group exchanges its communicator id (process_group.py 371-384) -/

/-- the global ranks the first member sends the id to: `for i in range(1, world_size): _world._backend.send(ccid, i, None)` -/
def ncclSends (members : List Int) : List Int := (List.range members.length).tail.map Int.ofNat

/-- the global rank every other member receives the id from: `_world._backend.recv(ccid, 0, None)` -/
def ncclSource : Int := 0

end Xoscar.Collective

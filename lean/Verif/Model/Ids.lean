import Verif.Model.Base
/-!
# Generated ids: _utils.pyx:34-36, 139-177, backends/message.pyx:645, context.pyx:197, 214, 279, backends/indigen/pool.py:204-206, utils.py:219-220

Message ids, the uids of actors created without one and the ids of buffer references come from `new_random_id`.  The two generators (Python's
`random`, C++'s `mt19937_64`) are parameters: a stream of outputs for every seed.  Simplified: a draw of `getrandbits(64)` is one position of
Python's stream; `byte_len` is not negative; ids are made under the GIL, one after the other.
-/
namespace Xoscar.Ids

/-- the two generators: what comes out at a position after seeding -/
structure Gens where
  /-- `std::mt19937_64`: 64 bit words -/
  mt : Nat → Nat → Nat
  /-- Python's `random.getrandbits(64)` -/
  py : Nat → Nat → Nat

/-- what a process has: the state (seed, position) of its two generators, and `_rnd_is_seed_set` (_utils.pyx:34-35) -/
structure Proc where
  pySeed : Nat
  pyPos : Nat
  seed : Nat
  pos : Nat
  isSet : Bool
  deriving DecidableEq, Repr

/-- an id: who made it, where in which stream it began, its bytes -/
structure Made where
  proc : Nat
  seed : Nat
  pos : Nat
  bytes : List Nat
  deriving DecidableEq, Repr

structure St where
  procs : Dict Nat Proc
  /-- every id made so far -/
  made : List Made
  /-- every seed given to the generator of ids so far -/
  seeds : List Nat
  deriving Repr

def init : St := ⟨[], [], []⟩

/-- `reset_id_random_seed`, _utils.pyx:139-145 -/
def resetSeed (g : Gens) (p : Proc) : Proc := { p with seed := g.py p.pySeed p.pyPos % 2 ^ 64, pos := 0, pyPos := p.pyPos + 1, isSet := true }

/-- the number of words drawn, _utils.pyx:151, 158-159 -/
def words (n : Nat) : Nat :=
  let q := n >>> 3
  if q <<< 3 < n then q + 1 else q

/-- the bytes of a word in memory (little endian) -/
def wordBytes : Nat → Nat → List Nat
  | 0, _ => []
  | k + 1, w => w % 256 :: wordBytes k (w / 256)

/-- the words drawn one after the other, as memory, 167-169 -/
def fill (g : Gens) (seed : Nat) : Nat → Nat → List Nat
  | _, 0 => []
  | pos, k + 1 => wordBytes 8 (g.mt seed pos) ++ fill g seed (pos + 1) k

/-- `new_random_id` once the generator is seeded, 167-170 -/
def draw (g : Gens) (p : Proc) (n : Nat) : Proc × List Nat := ({ p with pos := p.pos + words n }, (fill g p.seed p.pos (words n)).take n)

inductive Label where
  /-- a process is started (not forked): Python seeds `random` from the system -/
  | start (p : Nat) (entropy : Nat)
  /-- `os.fork`; CPython seeds `random` anew in the child (`register_at_fork`, Lib/random.py) -/
  | fork (p q : Nat) (entropy : Nat)
  /-- the user calls `random.seed` -/
  | seed (p : Nat) (s : Nat)
  /-- the user draws from `random` -/
  | random (p : Nat) (k : Nat)
  /-- `get_next_port`, utils.py:219-220: `random.seed(uuid.uuid1().bytes)` and a draw -/
  | port (p : Nat) (uuid : Nat) (k : Nat)
  /-- a sub pool starts in this process, indigen/pool.py:204-206 -/
  | subPool (p : Nat) (uuid : Nat)
  /-- `new_random_id(n)` -/
  | newId (p : Nat) (n : Nat)
  deriving DecidableEq, Repr

/-- the state after a process was seeded anew -/
def reset (g : Gens) (st : St) (p : Nat) (c : Proc) : St :=
  { st with procs := st.procs.set p (resetSeed g c), seeds := st.seeds ++ [(resetSeed g c).seed] }

/-- `if not _rnd_is_seed_set: reset_id_random_seed()`, 155-156 -/
def ensure (g : Gens) (st : St) (p : Nat) (c : Proc) : St × Proc :=
  if c.isSet then (st, c) else (reset g st p c, resetSeed g c)

def step (g : Gens) (st : St) : Label → Option St
  | .start p e => match st.procs.get? p with
    | some _ => none
    | none => some { st with procs := st.procs.set p ⟨e, 0, 5489, 0, false⟩ }
  | .fork p q e => match st.procs.get? p, st.procs.get? q with
    | some c, none => some { st with procs := st.procs.set q { c with pySeed := e, pyPos := 0 } }
    | _, _ => none
  | .seed p s => match st.procs.get? p with
    | some c => some { st with procs := st.procs.set p { c with pySeed := s, pyPos := 0 } }
    | none => none
  | .random p k => match st.procs.get? p with
    | some c => some { st with procs := st.procs.set p { c with pyPos := c.pyPos + k } }
    | none => none
  | .port p u k => match st.procs.get? p with
    | some c => some { st with procs := st.procs.set p { c with pySeed := u, pyPos := k } }
    | none => none
  | .subPool p u => match st.procs.get? p with
    | some c => some (reset g st p { c with pySeed := u, pyPos := 0 })
    | none => none
  | .newId p n => match st.procs.get? p with
    | some c =>
      let r := ensure g st p c
      let d := draw g r.2 n
      some { r.1 with procs := r.1.procs.set p d.1, made := r.1.made ++ [⟨p, r.2.seed, r.2.pos, d.2⟩] }
    | none => none

inductive Run (g : Gens) : List Label → St → Prop
  | init : Run g [] init
  | snoc {ls : List Label} {l : Label} {s s' : St} : Run g ls s → step g s l = some s' → Run g (ls ++ [l]) s'

end Xoscar.Ids

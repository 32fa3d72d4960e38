import Verif.Model.Ids
namespace Xoscar.Ids

/-- byte `i` of an id that begins at a place of a stream: the words one after the other, the low byte first -/
def byteAt (g : Gens) (seed pos i : Nat) : Nat := g.mt seed (pos + i / 8) / 256 ^ (i % 8) % 256

/-- the bytes of an id of length `n` -/
def IsId (g : Gens) (seed pos n : Nat) (b : List Nat) : Prop := b.length = n ∧ ∀ i < n, b[i]? = some (byteAt g seed pos i)

/-- a place of the stream lies in an id -/
def Covers (m : Made) (seed pos : Nat) : Prop := m.seed = seed ∧ m.pos ≤ pos ∧ pos < m.pos + (m.bytes.length + 7) / 8

/-- no process is forked once ids were made in it -/
def NoLateFork (ls : List Label) : Prop :=
  ∀ ls1 p q e ls2, ls = ls1 ++ .fork p q e :: ls2 → (∀ n, Label.newId p n ∉ ls1) ∧ ∀ u, Label.subPool p u ∉ ls1

/-- the generator repeats itself: the same words at two different places -/
def Repeats (g : Gens) (n : Nat) (s i s' i' : Nat) : Prop := (s, i) ≠ (s', i') ∧ ∀ k < n, g.mt s (i + k) = g.mt s' (i' + k)

/-- the number the user would draw next from `random` -/
def nextRandom (g : Gens) (st : St) (p : Nat) : Option Nat := (st.procs.get? p).map (fun c => g.py c.pySeed c.pyPos)

end Xoscar.Ids

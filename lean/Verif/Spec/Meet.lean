import Verif.Model.Meet
namespace Xoscar.Meet

/-- all attempts of the rounds, in order -/
def attempts : List Round → List Try
  | [] => []
  | r :: rs => r.tries.getD [] ++ attempts rs

/-- the clock does not go back, and between two rounds there is at least a second; `t` is the time before the first one -/
def Timed : Nat → List Round → Prop
  | _, [] => True
  | t, r :: rs => (∀ a ∈ r.tries.getD [], t ≤ a.time ∧ a.time ≤ r.done) ∧ t ≤ r.done ∧ Timed (r.done + 1000) rs

/-- every round, with the waiting before it, takes at most a second and `d` -/
def Prompt (d : Nat) : Nat → List Round → Prop
  | _, [] => True
  | t, r :: rs => r.done ≤ t + d ∧ Prompt d (r.done + 1000) rs

/-- a server that refuses connections before time `up` and accepts them from then on, under every address the name has -/
def Serves (up : Nat) (rs : List Round) : Prop :=
  ∀ r ∈ rs, ∃ l, r.tries = some l ∧ l ≠ [] ∧ ∀ a ∈ l, (a.time < up ∧ a.res = .refused) ∨ (up ≤ a.time ∧ a.res = .ok)

/-- how often processes were counted -/
def counts (ls : List Label) : Nat := (ls.filter (fun l => match l with | .count _ => true | _ => false)).length

/-- every process was counted at most once -/
def OnceEach (ls : List Label) : Prop := ∀ p, ls.count (Label.count p) ≤ 1

/-- the constructor has returned in process `p` -/
def Returned (s : St) (p : Proc) : Prop := s.phases.get? p = some .back

end Xoscar.Meet

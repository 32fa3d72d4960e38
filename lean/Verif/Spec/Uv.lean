import Verif.Model.Uv
/-! # C98: what cancelling an installation means, as facts about histories -/
namespace Xoscar.Uv

/-- The process ended with this status. -/
def Ended (ls : List Label) (p : Pid) (rc : Int) : Prop := Label.exit p rc ∈ ls

/-- The installation `i` is over. -/
def Over (ls : List Label) (i : Call) : Prop :=
  Label.leave i ∈ ls ∨ Label.spawnFails i ∈ ls ∨ Label.resolve i false ∈ ls

/-- Installations follow each other: each begins when all begun before are over. -/
def OneAtATime (ls : List Label) : Prop :=
  ∀ pre i skip post, ls = pre ++ Label.begin i skip :: post → ∀ j sk, Label.begin j sk ∈ pre → Over pre j

/-- The call of `cancel_install` is over. -/
def Cancel.isOver : Cancel → Bool
  | .idle | .finished | .stopped | .failed => true
  | _ => false

end Xoscar.Uv

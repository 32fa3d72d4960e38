import Verif.Model.InitPg
namespace Xoscar.InitPg

/-- the address asked for: the one given, unless it is empty, else the one of the environment -/
def Asked (a : Args) (pr : Proc) (x : String) : Prop :=
  (a.address = some x ∧ x ≠ "") ∨ ((a.address = none ∨ a.address = some "") ∧ pr.rankAddr = some x)

/-- the arguments are in order for this process: gloo, or nccl with cupy and a device -/
def Valid (a : Args) (pr : Proc) : Prop :=
  a.backend = .gloo ∨ (a.backend = .nccl ∧ pr.cupy = true ∧ ((∃ d, a.device = some d ∧ 0 ≤ d) ∨ ∃ i, pr.device = some (some i) ∧ 0 ≤ i))

/-- the device asked for: the one given, else (nccl) the one of the environment -/
def Device (a : Args) (pr : Proc) (d : Option Int) : Prop :=
  (a.device ≠ none ∧ d = a.device) ∨ (a.device = none ∧ a.backend = .nccl ∧ ∃ i, pr.device = some (some i) ∧ d = some i) ∨
    (a.device = none ∧ a.backend ≠ .nccl ∧ d = none)

end Xoscar.InitPg

import Verif.Model.Gpu
namespace Xoscar.Gpu
open Reach (Text)

/-- the processes the driver names for a device, and that nobody comes or goes between the two queries -/
inductive View.Lists : View → List Nat → Prop
  | mk (l : List Nat) : View.Lists (.ok l.length l) l

/-- the place of a process's CUDA context: a device that is not divided, or a MIG device of a divided one -/
inductive Has (w : World) (pid : Nat) : Nat → Option Nat → Prop
  | whole {i : Nat} {d : Device} {l : List Nat} : w.devices[i]? = some d → (d.mig = .disabled ∨ d.mig = .unsupported) → d.view.Lists l → pid ∈ l → Has w pid i none
  | part {i k : Nat} {d : Device} {slots : List Slot} {v : View} {l : List Nat} :
      w.devices[i]? = some d → d.mig = .enabled slots → slots[k]? = some (.dev v) → v.Lists l → pid ∈ l → Has w pid i (some k)

/-- the driver answers everything -/
def Slot.Quiet : Slot → Prop
  | .empty => True
  | .err => False
  | .dev v => ∃ l, v.Lists l

def Device.Quiet (d : Device) : Prop :=
  match d.mig with
  | .err => False
  | .enabled slots => ∀ s ∈ slots, s.Quiet
  | _ => ∃ l, d.view.Lists l

/-- earlier in the order in which devices are looked at -/
def Before (i : Nat) (k : Option Nat) (i' : Nat) (k' : Option Nat) : Prop := i < i' ∨ (i = i' ∧ ∃ a b, k = some a ∧ k' = some b ∧ a < b)

/-- the entries of a text are the parts between its commas -/
def Entries (v : Text) (es : List Text) : Prop := es ≠ [] ∧ (∀ e ∈ es, ',' ∉ e) ∧ v = List.intercalate [','] es

/-- the devices CUDA shows for a list of indices: those before the first that there is not (CUDA C++ Programming Guide, CUDA_VISIBLE_DEVICES) -/
def shown (n : Nat) : List Int → List Int
  | [] => []
  | i :: t => if 0 ≤ i ∧ i < n then i :: shown n t else []

end Xoscar.Gpu

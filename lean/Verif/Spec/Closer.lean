import Verif.Model.Closer
namespace Xoscar.Closer

/-- the finalizer of `c` sets up the close thread -/
def SettingUp (s : St) (c : Caller) : Prop :=
  s.pcs.get? c = some .mkLoop ∨ s.pcs.get? c = some .mkThread ∨ s.pcs.get? c = some .start ∨ s.pcs.get? c = some .setInit

/-- runs in which no finalizer looks whether the close thread is there while another sets it up -/
inductive SerialRun : St → Prop
  | init : SerialRun init
  | snoc {l : Label} {s s' : St} : SerialRun s → step s l = some s' →
      (∀ c, l = .adv c → s.pcs.get? c = some .check → ∀ d, ¬ SettingUp s d) → SerialRun s'

/-- `s'` can follow `s` -/
inductive Later : St → St → Prop
  | refl {s : St} : Later s s
  | step {s s1 s' : St} {l : Label} : step s l = some s1 → Later s1 s' → Later s s'

end Xoscar.Closer

import Verif.Model.Directory
/-!
# What C25 and C26 range over
-/
namespace Xoscar.Directory
open Config (Addr Strategy)

/-! ## Histories with any number of requests at the same time -/

/-- no `__pre_destroy__` fails and no message between the pools is lost -/
def Mild : Label → Prop
  | .destroyFails _ => False
  | .lost _ => False
  | _ => True

/-- creations only at the main pool, and with the strategy `sx` only -/
def OnlyIdle (sx : Strategy) : Label → Prop
  | .createMain _ st _ => st = sx
  | .createSub _ _ _ => False
  | _ => True

/-! ## Histories with one request at a time -/

/-- no actor id is in use in two pools -/
def Unique (s : St) : Prop := ∀ a b u, (a, u) ∈ s.live → (b, u) ∈ s.live → a = b

def isIdle : Strategy → Bool
  | .idleLabel _ _ => true
  | _ => false

/-- one request at a time; what may fail: creations asked at the main pool, destructions except those the main pool
passes on to a sub pool -/
def Allowed (c : Conf) (s : St) : Label → Prop
  | .createMain _ _ _ => s.tasks = []
  | .createSub a u st => s.tasks = [] ∧ (a, u) ∉ s.live ∧ isIdle st = false
  | .destroy _ _ => s.tasks = []
  | .step _ => True
  | .createFails t => ∃ a u st, s.tasks.get? t = some (.create a u st true .hook)
  | .destroyFails t => ∀ a u, s.tasks.get? t = some (.destroy a u .mainReq true) → a = c.main
  | .lost _ => False

inductive Seq (c : Conf) : St → Prop
  | init : Seq c init
  | step {s s' l} : Seq c s → Allowed c s l → step c s l = some s' → Unique s' → Seq c s'

/-- no request about the actor id `u` is being handled -/
def Quiet (s : St) (u : Uid) : Prop := ∀ t k, s.tasks.get? t = some k →
  (∀ a st vm ph, k ≠ .create a u st vm ph) ∧ (∀ r w, k ≠ .find u r w) ∧ (∀ a w h, k ≠ .destroy a u w h)

/-- the main pool is destroying the actor -/
def BeingDestroyed (s : St) (a : Addr) (u : Uid) : Prop := ∃ t w h, s.tasks.get? t = some (.destroy a u w h)

end Xoscar.Directory

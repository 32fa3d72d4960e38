import Verif.Model.Wrap
namespace Xoscar.Wrap

/-- every wrapper is handed over at most once -/
def HandedOverOnce (ls : List Label) : Prop := ∀ i, ls.count (Label.send i) ≤ 1

/-- nothing is lost: no message and no process, and every request to destroy the generator succeeds -/
def NothingLost (ls : List Label) : Prop := ∀ l ∈ ls, (∀ i, l ≠ .lose i) ∧ (∀ i, l ≠ .drop i false) ∧ (∀ p, l ≠ .crash p)

/-- nobody ended the generator on purpose -/
def NotEnded (ls : List Label) : Prop := ∀ l ∈ ls, l ≠ .over ∧ ∀ i, l ≠ .destroy i

/-- some wrapper that was not handed over is still in a process or under way -/
def InUse (ls : List Label) (s : St) : Prop := ∃ i w, s.wraps.get? i = some w ∧ Label.send i ∉ ls

/-- a wrapper was collected, successfully, without having been handed over before -/
def OwnerCollected (ls : List Label) : Prop := ∃ pre i post, ls = pre ++ Label.drop i true :: post ∧ Label.send i ∉ pre

/-- the message with wrapper `i` in it arrives, or is lost -/
def taken (i : Wid) : Label → Bool
  | .arrive j _ => j = i
  | .lose j => j = i
  | _ => false

/-- somebody uses wrapper `i` -/
def Uses (i : Wid) (l : Label) : Prop := l = .send i ∨ l = .destroy i ∨ ∃ ok, l = .drop i ok

end Xoscar.Wrap

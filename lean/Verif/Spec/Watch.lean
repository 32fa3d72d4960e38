import Verif.Model.Watch
/-!
# What the watchdogs should say
-/
namespace Xoscar.Watch

/-- 1 + 2 + … + n -/
def tri : Nat → Nat
  | 0 => 0
  | n + 1 => tri n + (n + 1)

/-- the loop is never late: time does not pass the moment a warning is due while the body runs -/
def Prompt (g0 : Guard) (ls : List Label) : Prop :=
  ∀ pre d post g, ls = pre ++ .pass d :: post → Run g0 pre g → g.inside = true → g.now + d ≤ g.due

/-- how long the body has been running -/
def Guard.age (g : Guard) : Nat := g.now - g.start

/-- `a` occurs in `b` -/
def Occurs (a b : List Char) : Prop := ∃ x y, b = x ++ a ++ y

end Xoscar.Watch

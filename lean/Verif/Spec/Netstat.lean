import Verif.Model.Netstat
import Verif.Spec.Reach
/-! # What a report of netstat says -/
namespace Xoscar.Netstat
open Xoscar.Reach (Text Blank str)

/-- the columns of a line: maximal runs of other characters than white space -/
inductive Cols : Text → List Text → Prop
  | nil {t : Text} : (∀ c ∈ t, Blank c) → Cols t []
  | cons {gap w rest : Text} {ws : List Text} : (∀ c ∈ gap, Blank c) → w ≠ [] → (∀ c ∈ w, ¬ Blank c) →
      (rest = [] ∨ ∃ b r, rest = b :: r ∧ Blank b) → Cols rest ws → Cols (gap ++ w ++ rest) (w :: ws)

/-- what divides host and port: a dot (BSD, macOS) or a colon (Windows, Linux) -/
def Sep (c : Char) : Prop := c = '.' ∨ c = ':'

/-- a column that is no endpoint -/
def Plain (w : Text) : Prop := ∀ c ∈ w, ¬ Sep c

/-- an endpoint without a port: `*.*` -/
def Any (w : Text) : Prop := ∃ h c, Sep c ∧ w = h ++ [c, '*']

/-- an endpoint with a port -/
def Port (w : Text) (p : Nat) : Prop := ∃ h c, Sep c ∧ w = h ++ c :: str p

/-- a column that looks like an endpoint, but for the port -/
def Odd (w : Text) : Prop :=
  ∃ h c s, Sep c ∧ w = h ++ c :: s ∧ Plain s ∧ s ≠ ['*'] ∧ ∀ i, ¬ Reach.Number s i

/-- the line's first endpoint with a port has this one: the local endpoint -/
def Reports (t : Text) (p : Nat) : Prop :=
  ∃ pre w post, Cols t (pre ++ w :: post) ∧ (∀ x ∈ pre, Plain x ∨ Any x) ∧ Port w p

/-- the line has no endpoint with a port -/
def Silent (t : Text) : Prop := ∃ ws, Cols t ws ∧ ∀ x ∈ ws, Plain x ∨ Any x

/-- something like a path comes first in the line -/
def OddLine (t : Text) : Prop :=
  ∃ pre w post, Cols t (pre ++ w :: post) ∧ (∀ x ∈ pre, Plain x ∨ Any x) ∧ Odd w

end Xoscar.Netstat

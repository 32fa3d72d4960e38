import Verif.Model.Delay
/-! Specification vocabulary for C81: delayed tells. -/
namespace Xoscar.Delay

/-- Any history. -/
inductive Run : List Label → St → Prop where
  | init : Run [] {}
  | snoc {ls l st st'} : Run ls st → step st l = some st' → Run (ls ++ [l]) st'

/-- A call of `tell_delay`: when it was made, on a local reference or not, the arguments. -/
structure Req where
  time : Nat
  loc : Bool
  delay : Option Int
  ignore : Bool
  cell : Nat
deriving DecidableEq, Repr

/-- The calls of `tell_delay` in the rest of a history that is at time `now`. -/
def requestsFrom (now : Nat) : List Label → List Req
  | [] => []
  | .tick :: ls => requestsFrom (now + 1) ls
  | .tellDelay loc d ig c :: ls => ⟨now, loc, d, ig, c⟩ :: requestsFrom now ls
  | _ :: ls => requestsFrom now ls

/-- The calls of `tell_delay` in a history: the `i`-th one made task `i`. -/
def requests (ls : List Label) : List Req := requestsFrom 0 ls

/-- The contents of an object after a history. -/
def contents (ls : List Label) (c : Nat) : Nat :=
  ls.foldl (fun v l => match l with
    | .mutate d w => if c = d then w else v
    | _ => v) 0

end Xoscar.Delay

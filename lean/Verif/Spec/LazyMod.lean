import Verif.Model.LazyMod
/-!
# C94: what a user expects of a lazily imported module
-/
namespace Xoscar.LazyMod

/-- the hook a step of the history registers with the lazy module (decorators are applied while the name is bound to it) -/
def registered : Op × Out → Option Nat
  | (.add h, _) => some h
  | _ => none

/-- a successful access -/
def succeeded : Op × Out → Bool
  | (.access _ _, .ok _) => true
  | _ => false

/-- The hooks that must have run, in order: those registered before the last successful access. -/
def due (hist : List (Op × Out)) : List Nat := ((hist.reverse.dropWhile (fun x => !succeeded x)).reverse).filterMap registered

/-- hooks that just do their work -/
def Plain (prog : Nat → Nat → List Act) : Prop := ∀ h c, prog h c = []

/-- no `lazy_import_on_load` in the history (see `late_hook_refuted`) -/
def Direct (hist : List (Op × Out)) : Prop := ∀ h o, (.onLoad h, o) ∉ hist

end Xoscar.LazyMod

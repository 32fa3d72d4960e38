import Verif.Model.NoLock

/-! # Where `no_lock` is written -/
namespace Xoscar.NoLock

/-- decorators that leave a function a function -/
def Simple (ds : List Deco) : Prop := ∀ d ∈ ds, d = .noLock ∨ d = .generator

/-- `@no_lock`s only -/
def Marks (ds : List Deco) : Prop := ∀ d ∈ ds, d = .noLock

/-- A batch implementation of `n`: its name, the decorators below `@n.batch` and the marks above it. -/
structure BatchDef where
  name : Name
  below : List Deco
  above : List Deco

/-- … as it is written in the class -/
def BatchDef.code (n : Name) (d : BatchDef) : Name × List Deco := (d.name, d.below ++ .batch n :: d.above)

end Xoscar.NoLock

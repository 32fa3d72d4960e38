import Verif.Model.Plan
/-!
# What an installation should achieve
-/
namespace Xoscar.Plan
open Xoscar.Reqs (Str Req Out)

/-- a set of packages: the version under each (lower-case) name -/
abbrev Env := Str → Option Str

/-- package names do not depend on case -/
def key (s : Str) : Str := s.map Char.toLower

/-- version and specifier agree -/
def Meets (lib : Lib) (v specifier : Str) : Prop := specifier = [] ∨ lib.sat specifier v = some true

/-- the requirement holds in the environment (extras and URL aside) -/
def Holds (lib : Lib) (env : Env) (r : Req) : Prop := ∃ v, env (key r.name) = some v ∧ Meets lib v r.specifier

/-- the distribution an `import` finds: the first on the path -/
inductive Visible : List (Str × Str) → Str → Str → Prop
  | here {n v l} : Visible ((n, v) :: l) (key n) v
  | there {n v l k w} : key n ≠ k → Visible l k w → Visible ((n, v) :: l) k w

/-- the environment the distributions make -/
def IsEnv (dists : List (Str × Str)) (env : Env) : Prop := ∀ k v, env k = some v ↔ Visible dists k v

/-- the environment after installing exactly these -/
def overlay (env : Env) : List (Str × Str) → Env
  | [] => env
  | (n, v) :: l => overlay (fun k => if k = key n then some v else env k) l

/-- the pins of a command -/
def pins (ps : List Pkg) : List (Str × Str) := ps.filterMap (fun p => match p with
  | .pin n v => some (n, v)
  | .given _ => none)

/-- uv keeps to its contract: after installing the plan what was asked for holds, no package is planned twice, and a constraint fixes
the version -/
structure Right (lib : Lib) (env : Env) (asked : List Req) (constraints : Dict Str Str) (plan : List Line) : Prop where
  holds : ∀ r ∈ asked, Holds lib (overlay env (plan.map (fun l => (l.name, l.version)))) r
  once : (plan.map (fun l => key l.name)).Nodup
  fixed : ∀ l ∈ plan, ∀ v, constraints.get? (key l.name) = some v → l.version = v

/-! ## Options of the command -/

/-- the values given for an option; an empty text is none -/
inductive Values : Opt → List Str → Prop
  | absent : Values .absent []
  | empty : Values (.one []) []
  | one {s} : s ≠ [] → Values (.one s) [s]
  | many {l} : Values (.many l) l

inductive Index : Option Str → List Str → Prop
  | absent : Index none []
  | empty : Index (some []) []
  | one {s} : s ≠ [] → Index (some s) [s]

/-- the option before each value -/
def each (option : String) : List Str → List Str
  | [] => []
  | v :: l => option.toList :: v :: each option l

end Xoscar.Plan

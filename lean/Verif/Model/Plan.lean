import Verif.Model.Reqs
/-!
# Installing into a virtual environment (virtualenv/uv.py:111-330)

`UVVirtualEnvManager._split_specs`, `_filter_packages_not_installed`, `_resolve_install_plan`, `install_packages`.  The list is taken
after `process_packages` (Model/Reqs).  `uv` and `packaging` are parameters.
-/
namespace Xoscar.Plan
open Xoscar.Reqs (Str Req Out)

/-- a line of `uv pip install --dry-run`: ` + name==version`, or ` + name==version (from …)` for packages that do not come from an
index -/
structure Line where
  name : Str
  version : Str
  «from» : Bool
  deriving DecidableEq, Repr

/-- packaging and uv -/
structure Lib where
  /-- `Version(v) in specifier`; `none`: raises -/
  sat : Str → Str → Option Bool
  /-- the dry run, with the requirements and the constraints `name==version`; `none`: uv fails -/
  dryRun : List Req → Dict Str Str → Option (List Line)

def lower (s : Str) : Str := s.map Char.toLower

/-- uv.py 204-209: the distributions in the order of `sys.path`, as a dict by lower-case name -/
def installedOf (dists : List (Str × Str)) : Dict Str Str := dists.foldl (fun d x => d.set (lower x.1) x.2) []

structure Split where
  keep : List Out := []
  toResolve : List Req := []
  pinned : Dict Str Str := []
  deriving DecidableEq, Repr

/-- one spec (uv.py 163-193); a `raw` item is a URL -/
def splitOne (lib : Lib) (installed : Dict Str Str) (s : Split) : Out → Split
  | .raw t => { s with keep := s.keep ++ [.raw t] }
  | .req r =>
    match installed.get? (lower r.name) with
    | none => { s with toResolve := s.toResolve ++ [r] }
    | some v =>
      if r.specifier = [] then { s with pinned := s.pinned.set (lower r.name) v }
      else match lib.sat r.specifier v with
        | some true => { s with pinned := s.pinned.set (lower r.name) v }
        | some false => { s with toResolve := s.toResolve ++ [r] }
        | none => { s with toResolve := s.toResolve ++ [r] }

def split (lib : Lib) (installed : Dict Str Str) (specs : List Out) : Split := specs.foldl (splitOne lib installed) {}

/-- what goes on the command line -/
inductive Pkg where
  | given (o : Out)
  /-- `name==version` -/
  | pin (name version : Str)
  deriving DecidableEq, Repr

/-- uv.py 137-142: the lines that match `^\+ (\S+)==(\S+)$` -/
def readPlan (lines : List Line) : List (Str × Str) :=
  lines.filterMap (fun l => if l.from then none else some (l.name, l.version))

/-- uv.py 198-236; `none`: the dry run failed -/
def notInstalled (lib : Lib) (installed : Dict Str Str) (specs : List Out) : Option (List Pkg) :=
  let s := split lib installed specs
  let finish (resolved : List (Str × Str)) : List Pkg :=
    s.keep.map .given ++ (resolved.filter (fun x => decide (installed.get? (lower x.1) ≠ some x.2))).map (fun x => .pin x.1 x.2)
  if s.keep = [] ∧ s.toResolve = [] then some []
  else if s.toResolve = [] then some (finish [])
  else match lib.dryRun s.toResolve s.pinned with
    | none => none
    | some lines => some (finish (readPlan lines))

/-! ## The command -/

/-- a value of `extra_index_url`, `find_links`, `trusted_host` -/
inductive Opt where
  | absent
  | one (s : Str)
  | many (l : List Str)
  deriving DecidableEq, Repr

structure Kwargs where
  skipInstalled : Bool
  indexUrl : Option Str
  extraIndexUrl : Opt
  findLinks : Opt
  trustedHost : Opt
  noBuildIsolation : Bool
  deriving DecidableEq, Repr

/-- uv.py 299-304 -/
def Opt.args (option : Str) : Opt → List Str
  | .absent => []
  | .one s => if s = [] then [] else [option, s]
  | .many l => l.flatMap (fun v => [option, v])

structure Cmd where
  noDeps : Bool
  packages : List Pkg
  options : List Str
  deriving DecidableEq, Repr

/-- uv.py 288-307 -/
def options (k : Kwargs) : List Str :=
  (match k.indexUrl with
    | none => []
    | some u => if u = [] then [] else ["-i".toList, u]) ++
  k.extraIndexUrl.args "--extra-index-url".toList ++ k.findLinks.args "-f".toList ++ k.trustedHost.args "--trusted-host".toList ++
  (if k.noBuildIsolation then ["--no-build-isolation".toList] else [])

inductive Result where
  /-- nothing is run -/
  | nothing
  | run (c : Cmd)
  /-- CalledProcessError of the dry run -/
  | failed
  deriving DecidableEq, Repr

/-- `install_packages` (uv.py 238-307), up to running the command -/
def install (lib : Lib) (dists : List (Str × Str)) (k : Kwargs) (packages : List Out) : Result :=
  if packages = [] then .nothing
  else if k.skipInstalled then
    match notInstalled lib (installedOf dists) packages with
    | none => .failed
    | some [] => .nothing
    | some (p :: ps) => .run ⟨true, p :: ps, options k⟩
  else .run ⟨false, packages.map .given, options k⟩

/-! ## `create_env` (uv.py 71-109) -/

inductive Created where
  | error (valueError : Bool)
  /-- left as it is -/
  | kept
  /-- `uv venv`, after removing the old one or not -/
  | made (removed : Bool)
  deriving DecidableEq, Repr

def createEnv (present : Bool) (exists_ : Str) : Created :=
  if present then
    if exists_ = "error".toList then .error false
    else if exists_ = "ignore".toList then .kept
    else if exists_ = "clear".toList then .made true
    else .error true
  else .made false

end Xoscar.Plan

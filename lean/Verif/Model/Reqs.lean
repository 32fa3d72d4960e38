import Verif.Model.Base
/-!
# Lists of requirements: `VirtualEnvManager.process_packages`, `substitute_variables`, `filter_requirements`
(virtualenv/core.py:60-110, 125-161, 281-318) and `is_vcs_url` (virtualenv/utils.py:88-100)

The `packaging` library is a parameter (`Lib`): parsing requirements, markers and their evaluation.  `eval_custom_marker` is
Model/Marker; here it is only asked for its outcome.
-/
namespace Xoscar.Reqs

abbrev Str := List Char

/-- a `packaging.requirements.Requirement` without its marker -/
structure Req where
  name : Str
  extras : List Str
  specifier : Str
  url : Option Str
  deriving DecidableEq, Repr

inductive Err where
  /-- `InvalidRequirement` -/
  | invalid
  /-- whatever `eval_custom_marker` raises: SyntaxError, TypeError, … -/
  | marker
  /-- RuntimeError: system package not found -/
  | notFound
  deriving DecidableEq, Repr

/-- an entry of the list handed to uv: the text as given, or `str(req)` -/
inductive Out where
  | raw (s : Str)
  | req (r : Req)
  deriving DecidableEq, Repr

/-- `packaging`, and what is installed -/
structure Lib where
  /-- `Requirement(s)`: the requirement and, if it has a marker, whether the marker is true in the environment -/
  parse : Str → Option (Req × Option Bool)
  /-- `is_custom_marker` (core.py 181-197) -/
  isCustom : Str → Bool
  /-- truth of `eval_custom_marker(marker, env)`; `none`: it raises -/
  evalCustom : Str → Option Bool
  /-- `importlib.metadata.version` -/
  version : Str → Option Str

/-! ## `is_vcs_url` -/

def startsWith (s p : Str) : Bool := p.isPrefixOf s

def vcsPrefixes : List Str :=
  ["git+".toList, "http://".toList, "https://".toList, "svn+".toList, "hg+".toList, "bzr+".toList]

/-- utils.py 88-100 -/
def isVcsUrl (s : Str) : Bool := vcsPrefixes.any (startsWith s)

/-! ## `substitute_variables` (core.py 125-161) -/

/-- `str.replace(pat, rep)` for a pattern that is not empty: from the left, occurrences that do not overlap; `skip` characters belong
to an occurrence already replaced -/
def replaceFrom (pat rep : Str) (skip : Nat) : Str → Str
  | [] => []
  | c :: s =>
    match skip with
    | k + 1 => replaceFrom pat rep k s
    | 0 => if startsWith (c :: s) pat then rep ++ replaceFrom pat rep (pat.length - 1) s else c :: replaceFrom pat rep 0 s

def replace (pat rep s : Str) : Str := replaceFrom pat rep 0 s

/-- values of variables -/
inductive Value where
  | none
  | bool (b : Bool)
  /-- int or float, with its `str` -/
  | number (repr : Str)
  /-- anything else, with its `json.dumps` (with the quotes, for a str) -/
  | json (dump : Str)
  deriving DecidableEq, Repr

/-- core.py 148-157 -/
def Value.format : Value → Str
  | .none => "None".toList
  | .bool true => "True".toList
  | .bool false => "False".toList
  | .number r => r
  | .json d => d

def placeholder (name : Str) : Str := '#' :: (name ++ ['#'])

/-- the loop 142-159, in the order of the dict -/
def substitute (vars : List (Str × Value)) (s : Str) : Str :=
  vars.foldl (fun s v => replace (placeholder v.1) v.2.format s) s

/-! ## `filter_requirements` (core.py 281-318) -/

/-- what `strip` removes; simplified: ASCII -/
def isSpace (c : Char) : Bool := c = ' ' || (9 ≤ c.toNat && c.toNat ≤ 13)
def strip (s : Str) : Str := ((s.dropWhile isSpace).reverse.dropWhile isSpace).reverse

/-- `split(";", 1)` -/
def splitSemi (s : Str) : Str × Str := (s.takeWhile (· ≠ ';'), (s.dropWhile (· ≠ ';')).drop 1)

/-- one requirement: `ok none` leaves it out -/
def filterOne (lib : Lib) (vars : List (Str × Value)) (s : Str) : Except Err (Option Out) :=
  if isVcsUrl s then .ok (some (.raw s))
  else if ';' ∈ s then
    let marker := substitute vars (strip (splitSemi s).2)
    match lib.parse s with
    | some (r, m) =>
      -- f"{req.name}{req.specifier}"
      if m = none ∨ m = some true then .ok (some (.req ⟨r.name, [], r.specifier, none⟩)) else .ok none
    | none =>
      if lib.isCustom marker then
        match lib.evalCustom marker with
        | none => .error .marker
        | some false => .ok none
        | some true =>
          match lib.parse (strip (splitSemi s).1) with
          | none => .error .invalid
          | some (r, _) => .ok (some (.req r))
      else .error .invalid
  else
    match lib.parse (strip s) with
    | none => .error .invalid
    | some (r, _) => .ok (some (.req r))

def filter (lib : Lib) (vars : List (Str × Value)) : List Str → Except Err (List Out)
  | [] => .ok []
  | s :: l => match filterOne lib vars s with
    | .error e => .error e
    | .ok o => match filter lib vars l with
      | .error e => .error e
      | .ok os => .ok (o.toList ++ os)

/-! ## `process_packages` (core.py 60-110) -/

def sysPrefix : Str := "#system_".toList

/-- `pkg[len("#system_"):-1]` -/
def sysName (s : Str) : Str := (s.drop sysPrefix.length).dropLast

def isSystem (s : Str) : Bool := startsWith s sysPrefix && s.getLast? == some '#'

/-- lines 80-96 -/
def resolveOne (lib : Lib) (s : Str) : Except Err Str :=
  if isSystem s then
    match lib.version (sysName s) with
    | none => .error .notFound
    | some v => .ok (sysName s ++ "==".toList ++ v.takeWhile (· ≠ '+'))
  else .ok s

def resolve (lib : Lib) : List Str → Except Err (List Str)
  | [] => .ok []
  | s :: l => match resolveOne lib s with
    | .error e => .error e
    | .ok t => match resolve lib l with
      | .error e => .error e
      | .ok ts => .ok (t :: ts)

def process (lib : Lib) (vars : List (Str × Value)) (l : List Str) : Except Err (List Out) :=
  match resolve lib l with
  | .error e => .error e
  | .ok l => filter lib vars l

end Xoscar.Reqs

import Verif.Model.Base
/-!
# Virtual environments come and go

`python/xoscar/virtualenv/uv.py` 36-109, 321-331 (`UV_PATH`, `is_available`, `_get_uv_path`, `exists_env`, `create_env`,
`get_python_path`, `get_lib_path`, `remove_env`), `virtualenv/core.py` 44-45 and `virtualenv/__init__.py` 22-35
(`get_virtual_env_manager`).  The file system is what is at each path; `uv venv` itself is a parameter.

Left out: what `Path.resolve` does with links; Windows; what the environment contains apart from its interpreter.
-/
namespace Xoscar.Venv

abbrev Path := Nat
/-- major and minor version of an interpreter, and the rest -/
structure Ver where
  short : Nat
  micro : Nat
  deriving DecidableEq, Repr

/-- what is at a path: nothing; a plain file; a directory, with a `pyvenv.cfg` and an interpreter in it or not, that can be removed or
not -/
inductive Node where
  | absent
  | file
  | dir (cfg : Bool) (python : Option Ver) (removable : Bool)
  deriving DecidableEq, Repr

/-- what is asked of `uv venv --python` -/
inductive Want where
  | any
  /-- a version, as pyinstaller builds ask (uv.py:102-106) -/
  | version (v : Ver)
  /-- an interpreter given by path (uv.py:100-101) -/
  | interpreter (path : Path)
  deriving DecidableEq, Repr

/-- the machine: the variable XOSCAR_UV_PATH, `uv` on PATH, the binary of the package `uv`; whether this is a pyinstaller build; the
version of the running interpreter -/
structure Host where
  uvPath : Option Path
  onPath : Bool
  package : Option Path
  bundled : Bool
  running : Ver
  deriving Repr

/-- the command to run: `"uv"` or a path -/
inductive Command where
  | name
  | at (p : Path)
  deriving DecidableEq, Repr

/-- uv.py:48-54 -/
def isAvailable (h : Host) : Bool :=
  match h.uvPath with
  | some _ => true
  | none => h.onPath

/-- uv.py:56-66 -/
def uvCommand (h : Host) : Command :=
  match h.uvPath with
  | some p => .at p
  | none =>
    match h.package with
    | some p => .at p
    | none => .name

/-- the file system -/
abbrev Fs := Path → Node

def Node.there : Node → Bool
  | .absent => false
  | _ => true

/-- uv.py:68-70 -/
def existsEnv (fs : Fs) (p : Path) : Bool :=
  (fs p).there && (match fs p with | .dir cfg _ _ => cfg | _ => false)

/-- uv.py:328-331: a plain file is not removed either (`rmtree` fails, errors are ignored) -/
def removeEnv (fs : Fs) (p : Path) : Fs :=
  if (fs p).there then
    match fs p with
    | .dir _ _ true => fun q => if q = p then .absent else fs q
    | _ => fs
  else fs

inductive Error where
  | fileExists
  | valueError
  /-- CalledProcessError or FileNotFoundError of the command -/
  | command
  deriving DecidableEq, Repr

/-- `exists=` -/
inductive Word where
  | ignore | error | clear
  | other (n : Nat)
  deriving DecidableEq, Repr

/-- what `uv venv` does: the command it is called by, the path, what was there, the interpreter asked for; `none`: it fails -/
abbrev UvVenv := Command → Path → Node → Want → Option Node

/-- uv.py:100-106 -/
def want (h : Host) : Option Path → Want
  | some py => .interpreter py
  | none => if h.bundled then .version h.running else .any

/-- uv.py:94-109 -/
def make (uv : UvVenv) (h : Host) (p : Path) (py : Option Path) (fs : Fs) : Except Error Fs :=
  match uv (uvCommand h) p (fs p) (want h py) with
  | none => .error .command
  | some n => .ok (fun q => if q = p then n else fs q)

/-- uv.py:72-109; the file system after an error is that before, except that `clear` has removed what it could -/
def createEnv (uv : UvVenv) (h : Host) (p : Path) (py : Option Path) (w : Word) (fs : Fs) : Fs × Option Error :=
  if existsEnv fs p then
    match w with
    | .error => (fs, some .fileExists)
    | .ignore => (fs, none)
    | .clear =>
      match make uv h p py (removeEnv fs p) with
      | .ok fs' => (fs', none)
      | .error e => (removeEnv fs p, some e)
    | .other _ => (fs, some .valueError)
  else
    match make uv h p py fs with
    | .ok fs' => (fs', none)
    | .error e => (fs, some e)

/-- uv.py:321-324: `<env>/bin/python`, when there is anything at the path -/
def pythonPath (fs : Fs) (p : Path) : Option Path := if (fs p).there then some p else none

/-- uv.py:325-326: `<env>/lib/python<short version of the running interpreter>/site-packages` -/
def libPath (h : Host) (p : Path) : Path × Nat := (p, h.running.short)

/-- `__init__.py` 25-35: only "uv" (here 0) is known -/
def manager (name : Nat) (p : Path) : Except Unit Path := if name = 0 then .ok p else .error ()

/-- a call on the managers of several paths -/
inductive Op where
  | create (p : Path) (py : Option Path) (w : Word)
  | remove (p : Path)
  deriving DecidableEq, Repr

def run (uv : UvVenv) (h : Host) (fs : Fs) : List Op → Fs
  | [] => fs
  | .create p py w :: r => run uv h (createEnv uv h p py w fs).1 r
  | .remove p :: r => run uv h (removeEnv fs p) r

end Xoscar.Venv

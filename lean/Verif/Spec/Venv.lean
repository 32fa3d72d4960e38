import Verif.Model.Venv
/-! # C99: what a virtual environment is, and what `uv venv` is taken to do -/
namespace Xoscar.Venv

/-- There is an environment with this interpreter at the path. -/
def HasEnv (fs : Fs) (p : Path) (v : Ver) : Prop := ∃ r, fs p = .dir true (some v) r

/-- Nothing is at the path. -/
def Empty (fs : Fs) (p : Path) : Prop := fs p = .absent

/-- What is at the path can be removed. -/
def Removable (fs : Fs) (p : Path) : Prop := ∃ cfg py, fs p = .dir cfg py true

/-- `uv venv`, when it succeeds, leaves an environment with an interpreter as asked; `given` says which interpreters are at which
paths. -/
def Good (given : Path → Option Ver) (uv : UvVenv) : Prop :=
  ∀ c p old w n, uv c p old w = some n → ∃ v r, n = .dir true (some v) r ∧
    (∀ u, w = .version u → v = u) ∧ (∀ q, w = .interpreter q → given q = some v)

/-- The binary that the program will run is there. -/
def Runs (h : Host) (there : Path → Prop) : Command → Prop
  | .name => h.onPath = true
  | .at p => there p

end Xoscar.Venv

import Verif.Model.UcxInit

/-! # The settings a user asks for -/
namespace Xoscar.UcxInit
open Xoscar

/-- The name of a setting: `some-name` is `UCX_SOME_NAME`. -/
def settingName (k : Text) : Text := ['U', 'C', 'X', '_'] ++ k.map fun c => if c = '-' then '_' else c.toUpper

/-- `a` occurs in `b`. -/
def Occurs (a b : Text) : Prop := ∃ l r, b = l ++ a ++ r

/-- High level settings are given. -/
def Cfg.High (c : Cfg) : Prop := c.tcp = true ∨ c.nvlink = true ∨ c.infiniband = true

/-- The transports asked for, in order. -/
def transports (c : Cfg) : List Text :=
  (if c.infiniband then [['i', 'b']] else []) ++ [['t', 'c', 'p']] ++
  (if c.nvlink ∨ c.cudaCopy then [['c', 'u', 'd', 'a', '_', 'c', 'o', 'p', 'y']] else []) ++
  (if c.nvlink then [['c', 'u', 'd', 'a', '_', 'i', 'p', 'c']] else [])

/-- separated by commas -/
def commas : List Text → Text
  | [] => []
  | [w] => w
  | w :: ws => w ++ [','] ++ commas ws

/-- The value asked for the setting `K` (comment at ucx.py:129-132): the external environment comes first, then the high
level settings, then the last entry of `environment` with that name. -/
inductive Wanted (c : Cfg) (env : Dict Text Text) (K : Text) : Text → Prop
  | external {v : Text} : env.get? K = some v → Wanted c env K v
  | transports : env.get? K = none → c.High → K = ['U', 'C', 'X', '_', 'T', 'L', 'S'] → Wanted c env K (commas (transports c))
  | priority : env.get? K = none → c.High → K = ['U', 'C', 'X', '_', 'S', 'O', 'C', 'K', 'A', 'D', 'D', 'R', '_', 'T', 'L', 'S', '_', 'P', 'R', 'I', 'O', 'R', 'I', 'T', 'Y'] →
      Wanted c env K (if c.rdmacm then ['r', 'd', 'm', 'a', 'c', 'm'] else ['t', 'c', 'p'])
  | low {k v : Text} {pre post : List (Text × Text)} : env.get? K = none →
      ¬ (c.High ∧ (K = ['U', 'C', 'X', '_', 'T', 'L', 'S'] ∨ K = ['U', 'C', 'X', '_', 'S', 'O', 'C', 'K', 'A', 'D', 'D', 'R', '_', 'T', 'L', 'S', '_', 'P', 'R', 'I', 'O', 'R', 'I', 'T', 'Y'])) →
      c.environment = pre ++ (k, v) :: post → settingName k = K → (∀ p ∈ post, settingName p.1 ≠ K) → Wanted c env K v

/-- The value UCX has for the setting `UCX_…` after it was initialised with these options in this C environment. -/
def ucxHas (seen : Dict Text Text × Dict Text Text) (K : Text) : Option Text :=
  match seen.1.get? (K.drop 4) with
  | some v => some v
  | none => seen.2.get? K

end Xoscar.UcxInit

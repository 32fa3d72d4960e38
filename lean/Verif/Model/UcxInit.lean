import Verif.Model.Base

/-!
# Settings for UCX

`UCXInitializer` (`python/xoscar/backends/communication/ucx.py` 58-193).  Texts are lists of characters (ASCII).

The process has two environments: Python's mapping `os.environ` and the one of the C library, which `os.environ[k] = v`
writes to, but which binding the name `os.environ` to another dictionary does not touch.  UCX is a C library: it takes its
settings from the options given to `ucp.init` and from the C environment (`ucp_config_read`).
-/
namespace Xoscar.UcxInit
open Xoscar

abbrev Text := List Char

/-- `ucx_config`: which names have a true value; `create-cuda-contex` (sic) is True; `environment`. -/
structure Cfg where
  tcp : Bool := false
  nvlink : Bool := false
  infiniband : Bool := false
  rdmacm : Bool := false
  cudaCopy : Bool := false
  createContex : Bool := false
  environment : Dict Text Text := []

/-- `k.split("-")` -/
def splitDash : Text → List Text
  | [] => [[]]
  | c :: t => if c = '-' then [] :: splitDash t
    else match splitDash t with
      | [] => [[c]]
      | w :: ws => (c :: w) :: ws

/-- `"_".join(…)` -/
def joinUnder : List Text → Text
  | [] => []
  | [w] => w
  | w :: ws => w ++ '_' :: joinUnder ws

/-- `f'UCX_{"_".join(s.upper() for s in k.split("-"))}'` (ucx.py:104) -/
def keyOf (k : Text) : Text := ['U', 'C', 'X', '_'] ++ joinUnder ((splitDash k).map (·.map Char.toUpper))

def TLS : Text := ['T', 'L', 'S']
def PRIORITY : Text := ['S', 'O', 'C', 'K', 'A', 'D', 'D', 'R', '_', 'T', 'L', 'S', '_', 'P', 'R', 'I', 'O', 'R', 'I', 'T', 'Y']
def UCX_TLS : Text := ['U', 'C', 'X', '_', 'T', 'L', 'S']

/-- ucx.py:74-95: the transports -/
def tls (c : Cfg) : Text :=
  let t : Text := ['t', 'c', 'p']
  let t := if c.nvlink || c.cudaCopy then t ++ [',', 'c', 'u', 'd', 'a', '_', 'c', 'o', 'p', 'y'] else t
  let t := if c.infiniband then ['i', 'b', ','] ++ t else t
  if c.nvlink then t ++ [',', 'c', 'u', 'd', 'a', '_', 'i', 'p', 'c'] else t

/-- ucx.py:73-100: the options -/
def options (c : Cfg) (env : Dict Text Text) : Dict Text Text :=
  if c.tcp || c.nvlink || c.infiniband then
    [(TLS, tls c), (PRIORITY, if c.rdmacm then ['r', 'd', 'm', 'a', 'c', 'm'] else ['t', 'c', 'p'])]
  else match env.get? UCX_TLS with
    | some v => [(TLS, v)]
    | none => []

/-- ucx.py:102-119: the loop over `environment` -/
def envsLoop (opts env : Dict Text Text) : List (Text × Text) → Dict Text Text → Dict Text Text
  | [], envs => envs
  | (k, v) :: r, envs =>
    if opts.has ((keyOf k).drop 4) then envsLoop opts env r envs
    else if env.has (keyOf k) then envsLoop opts env r envs
    else envsLoop opts env r (envs.set (keyOf k) v)

/-- the second result of `_get_options` -/
def envs (c : Cfg) (env : Dict Text Text) : Dict Text Text := envsLoop (options c env) env c.environment []

/-- `a in b` of strings -/
def inside (a : Text) : Text → Bool
  | [] => a.isEmpty
  | b@(_ :: t) => a.isPrefixOf b || inside a t

/-- ucx.py:133: the TLS setting looked at for CUDA -/
def ucxTls (c : Cfg) (env : Dict Text Text) : Text :=
  (env.get? UCX_TLS).getD (((options c env).get? TLS).getD (((envs c env).get? UCX_TLS).getD []))

/-- ucx.py:134-140 -/
def wantsContext (c : Cfg) (env : Dict Text Text) : Bool :=
  c.createContex || (inside ['c', 'u', 'd', 'a'] (ucxTls c env) && !inside ['^', 'c', 'u', 'd', 'a'] (ucxTls c env))

/-- The process: `UCXInitializer._inited`, `os.environ`, the C environment, whether a CUDA context was asked for, and the
settings each call of `ucp.init` got (options, C environment). -/
structure Proc where
  inited : Bool
  pyEnv : Dict Text Text
  cEnv : Dict Text Text
  context : Bool
  inits : List (Dict Text Text × Dict Text Text)

/-- How `init` ended. -/
inductive Out | done | importError | ucxError
deriving DecidableEq

/-- `UCXInitializer.init(ucx_config)` (ucx.py:121-185).  `numba`: Numba is there; `works`: `ucp.init()` succeeds.
Simplification: warnings, and errors while the context is looked at, are left out. -/
def init (p : Proc) (c : Cfg) (numba works : Bool) : Out × Proc :=
  if p.inited then (.done, p)
  else
    let env := p.pyEnv
    let e := envs c env
    if wantsContext c env && !numba then (.importError, p)
    else
      let p := if wantsContext c env then { p with context := true } else p
      -- `os.environ = new_environ`: the C environment stays
      let p := { p with pyEnv := env.update e }
      -- `ucp.init()`: no options
      let p := { p with inits := p.inits ++ [([], p.cEnv)] }
      -- `finally: os.environ = original_environ`
      let p := { p with pyEnv := env }
      if works then (.done, { p with inited := true }) else (.ucxError, p)

/-- `UCXInitializer.reset()` (ucx.py:187-190) -/
def reset (p : Proc) : Proc := { p with inited := false }

end Xoscar.UcxInit

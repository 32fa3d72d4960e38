import Verif.Model.Create
/-!
# What a started pool should look like

Process 0 is the main pool, processes 1 … n the sub pools; `idx i` is the process index of process `i`, `bound i` the
address it listens on.
-/
namespace Xoscar.Create
open Config

/-- what the operating system and the generator of process indices guarantee -/
structure Real (n : Nat) (exts : List Addr) (idx : Nat → Nat) (bound : Nat → Addr) : Prop where
  /-- one requested address per process -/
  len : exts.length = n + 1
  /-- process indices differ (C32) -/
  idx_inj : ∀ i j, i ≤ n → j ≤ n → idx i = idx j → i = j
  /-- no two processes listen on the same address -/
  bound_inj : ∀ i j, i ≤ n → j ≤ n → bound i = bound j → i = j
  /-- a requested address is listened on only by the process it was requested for; otherwise it has port 0 and several
  processes may share it -/
  fresh : ∀ i j, i ≤ n → (hj : j < exts.length) → bound i = exts[j] → i = j
  /-- external addresses are not Unix socket names -/
  notUnix : ∀ i j, i ≤ n → (hj : j < exts.length) → exts[j] ≠ internalAddress (idx i)

/-- the lists given for the processes have the right length -/
structure Accepted (a : Args) : Prop where
  labels : a.labels = [] ∨ a.labels.length = a.n + 1
  envs : a.envs = [] ∨ a.envs.length = a.n
  schemes : a.schemes = [] ∨ a.schemes.length = a.n + 1
  flags : a.flags = [] ∨ a.flags.length = a.n + 1
  recover : a.autoRecover ≠ .other

/-- the label process `i` should have -/
def Label_ (a : Args) (i : Nat) (l : Option String) : Prop :=
  (a.labels = [] ∧ l = none) ∨ a.labels[i]? = some l

/-- the internal address process `i` should have: one unless switched off -/
def Internal (a : Args) (idx : Nat → Nat) (i : Nat) (x : Option Addr) : Prop :=
  (a.flags[i]? = some false ∧ x = none) ∨ (a.flags[i]? ≠ some false ∧ x = some (internalAddress (idx i)))

/-- the environment process `i` should be started with -/
def Env_ (a : Args) (i : Nat) (e : Option Env) : Prop :=
  ((i = 0 ∨ a.envs = []) ∧ e = none) ∨ (0 < i ∧ ∃ x, a.envs[i - 1]? = some x ∧ e = some x)

/-- two configurations with the same content -/
def Same (c c' : Config) : Prop := c.pools = c'.pools ∧ ∀ a, c.mapping.get? a = c'.mapping.get? a

end Xoscar.Create

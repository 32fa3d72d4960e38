import Verif.Model.Home
/-!
# Specification: who should be reached
-/
namespace Xoscar.Home

/-- A network as it can be: no port is used twice on a machine, a server bound to a particular host is on the machine that has it, and every
pool has its main process on the same machine, bound to the same host (get_external_addresses, C33). -/
structure Net.WF (n : Net) : Prop where
  ports : ∀ p ∈ n.pools, ∀ q ∈ n.pools, p.machine = q.machine → p.bind.port = q.bind.port → p = q
  here : ∀ p ∈ n.pools, ∀ t, p.bind.host = .ip t → n.owner t = some p.machine
  main : ∀ p ∈ n.pools, ∃ q ∈ n.pools, q.machine = p.machine ∧ q.bind = p.main ∧ q.main = q.bind ∧ q.bind.host = p.bind.host

/-- the actor `x` has the uid `uid` and lives in the process `q` -/
def Lives (n : Net) (q : Pool) (uid : Uid) (x : Actor) : Prop := q ∈ n.pools ∧ q.actors.get? uid = some x

/-- actors are told apart: `x` is only the actor `uid` of `q` -/
def Only (n : Net) (q : Pool) (uid : Uid) (x : Actor) : Prop := ∀ p u, Lives n p u x → p = q ∧ u = uid

/-- two processes belong to one pool -/
def SamePool (p q : Pool) : Prop := p.machine = q.machine ∧ p.main = q.main

end Xoscar.Home

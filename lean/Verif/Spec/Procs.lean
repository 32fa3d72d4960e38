import Verif.Model.Procs
namespace Xoscar.Procs

/-- the process runs at the moment: it has its pid -/
def Alive (w : World) (t : Nat) (p : Proc) : Prop := w.holder t (w.pid p) = some p

/-- the operating system: a pid belongs to a process whose pid it is, and a process that ended does not come back -/
structure World.Lawful (w : World) : Prop where
  own : ∀ t pid p, w.holder t pid = some p → w.pid p = pid
  ended : ∀ t p, Alive w t p → ¬ Alive w (t + 1) p → ∀ t', t < t' → ¬ Alive w t' p

/-- SIGKILL ends a process before the code looks again -/
def KillWorks (w : World) (sent : List Sent) : Prop := ∀ s ∈ sent, s.sig = .kill → ¬ Alive w (s.time + 1) s.to

/-- at the moment, the pid of `p` is `p`'s or nobody's -/
def PidKept (w : World) (p : Proc) (t : Nat) : Prop := ∀ q, w.holder t (w.pid p) = some q → q = p

end Xoscar.Procs

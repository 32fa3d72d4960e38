import Verif.Model.Conns
namespace Xoscar.Conns

/-- the step hands connection `c` to a call of this thread and key -/
def HandsOut (s s' : St) (th : Thread) (k : Key) (c : Conn) : Prop :=
  ∃ tk x, s.reqs.get? tk = some x ∧ x.thread = th ∧ x.key = k ∧ s'.results = s.results ++ [(tk, c)]

/-- the open connections of a thread for a key -/
def OpenFor (s : St) (th : Thread) (k : Key) (c : Conn) : Prop :=
  ∃ i, s.conns.get? c = some i ∧ i.thread = th ∧ i.key = k ∧ i.isOpen = true

/-- the router is not changed -/
def Unchanged (ls : List Label) : Prop := ∀ l ∈ ls, ∀ r, l ≠ .reconfigure r

/-- runs in which the router is only changed while nobody asks for a connection -/
inductive QuietRun (r : Key → Dest) : St → Prop
  | init : QuietRun r (init r)
  | snoc {l : Label} {s s' : St} : QuietRun r s → step s l = some s' → ((∃ q, l = .reconfigure q) → s.reqs = []) → QuietRun r s'

end Xoscar.Conns

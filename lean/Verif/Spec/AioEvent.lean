import Verif.Model.AioEvent
namespace Xoscar.AioEvent

/-- A history: calls, sets, clears, cancellations and what the threads do, from a fresh executor with `n` threads. -/
def Run (n : Nat) (mp : Event → Bool) (ls : List Label) (s : St) : Prop := ls.foldlM (step n mp) {} = some s

/-- how a history can go on -/
def More (n : Nat) (mp : Event → Bool) (s : St) (ls : List Label) (s' : St) : Prop := ls.foldlM (step n mp) s = some s'

/-- after these labels the event is set: the last `set` was not undone -/
def IsSet (ls : List Label) (e : Event) : Prop := ∃ pre suf, ls = pre ++ .set e :: suf ∧ .clear e ∉ suf

/-- the caller of the job was cancelled -/
def Cancelled (ls : List Label) (j : Job) : Prop := .cancel j ∈ ls

end Xoscar.AioEvent

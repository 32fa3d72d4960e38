import Verif.Model.Link
import Verif.Props.Message
/-!
# What C82 says
-/
namespace Xoscar.Link
open Xoscar Xoscar.Serial

/-- a message a task sends: the objects it is made of (`heap`, the message being object `mid` with the payload as its members), and
the message -/
structure Item where
  heap : Heap
  mid : Id
  msg : Serial.Msg Id

/-- the messages C05 is about: supported payloads, without cycles (or without shared empty dicts), of the current protocol -/
structure Item.Good (i : Item) : Prop where
  root : i.heap i.mid = .tuple none i.msg.payload
  supported : Supported i.heap i.mid
  shape : Acyclic i.heap i.mid ∨ LooseOnce i.heap i.mid
  protocol : i.msg.base.protocol = .nat 0

/-- `serialize(message)` gives `r` -/
def Gives (P : Pickler) (i : Item) (r : PV × List Serial.Buf) : Prop := MsgSerializes P i.heap i.mid i.msg r.1 r.2

/-- what arrived is the message: decoding it gives a message of the same class, with the same fields, and payloads equal at every
depth; and nothing else -/
def IsMessage (P : Pickler) (i : Item) (r : PV × List Serial.Buf) : Prop :=
  (∃ o, MsgOutcome P r.1 r.2 o) ∧ ∀ o, MsgOutcome P r.1 r.2 o →
    ∃ (m' : Serial.Msg Val) (st : RSt), o = .ok (.msg (m'.map .val)) st ∧ ∀ n, m'.map (dstTree st.heap n) = i.msg.map (srcTree i.heap n)

/-- what arrived was reported as undecodable, with the id of the message -/
def IsReport (P : Pickler) (i : Item) (r : PV × List Serial.Buf) : Prop := MsgOutcome P r.1 r.2 (.raised (.failed i.msg.base.id))

/-- the two lists have equal length and are related place by place -/
inductive Each {α β : Type} (R : α → β → Prop) : List α → List β → Prop
  | nil : Each R [] []
  | cons {a b l m} : R a b → Each R l m → Each R (a :: l) (b :: m)

/-- the messages of task `t` in a log of who sent what -/
def from_ (t : Nat) (log : List (Nat × Item)) : List Item := (log.filter (fun e => e.1 == t)).map Prod.snd

/-- `log` is a merge of what the tasks send, up to now: what it has of each task's messages are the first ones, in its order -/
def Merge (progs : List (List Item)) (log : List (Nat × Item)) : Prop :=
  (∀ e ∈ log, e.1 < progs.length) ∧ ∀ (t : Nat) (l : List Item), progs[t]? = some l → ∃ rest, from_ t log ++ rest = l

/-- … and has all of them -/
def Complete (progs : List (List Item)) (log : List (Nat × Item)) : Prop :=
  ∀ (t : Nat) (l : List Item), progs[t]? = some l → from_ t log = l

end Xoscar.Link

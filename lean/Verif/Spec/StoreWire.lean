import Verif.Model.StoreWire
/-!
# What it means that the store's requests and answers cross the wire
-/
namespace Xoscar.StoreWire

/-- everything an operation writes -/
def Req.wire (r : Req) : Bytes := r.writes.flatten

/-- a byte string of a length that fits (2^63) -/
def Fits (s : Bytes) : Prop := s.length < 9223372036854775808

/-- an operation with arguments that fit: strings, numbers of strings, 64 bit integers -/
def Req.Ok : Req → Prop
  | .set k v => Fits k ∧ Fits v
  | .cset k e v => Fits k ∧ Fits e ∧ Fits v
  | .get k => Fits k
  | .add k d => Fits k ∧ -9223372036854775808 ≤ d ∧ d < 9223372036854775808
  | .check ks => ks.length < 18446744073709551616 ∧ ∀ k ∈ ks, Fits k
  | .wait ks => ks.length < 18446744073709551616 ∧ ∀ k ∈ ks, Fits k
  | .numKeys => True
  | .watch k => Fits k
  | .delete k => Fits k
  | .append k v => Fits k ∧ Fits v
  | .mget ks => ks.length < 18446744073709551616 ∧ ∀ k ∈ ks, Fits k
  | .mset kvs => kvs.length < 18446744073709551616 ∧ ∀ x ∈ kvs, Fits x.1 ∧ Fits x.2

def Resp.Ok : Resp → Prop
  | .byte _ => True
  | .int i => -9223372036854775808 ≤ i ∧ i < 9223372036854775808
  | .vec v => Fits v
  | .vecs vs => ∀ v ∈ vs, Fits v

/-- the kind of an answer -/
def Resp.kind : Resp → Kind
  | .byte _ => .byte
  | .int _ => .int
  | .vec _ => .vec
  | .vecs vs => .vecs vs.length

/-- every operation of the history has arguments that fit -/
def AllOk (ls : List Label) : Prop := ∀ s r, Label.ask s r ∈ ls → r.Ok

/-- a step of connection `s`'s client or of the network for it -/
def Label.of (s : Sock) : Label → Bool
  | .connect s' => s' = s
  | .ask s' _ => s' = s
  | .carry s' _ => s' = s
  | .close s' => s' = s
  | _ => false

inductive Steps : St → List Label → St → Prop
  | nil (s : St) : Steps s [] s
  | cons {s s1 s2 : St} {l : Label} {ls : List Label} : step s l = some s1 → Steps s1 ls s2 → Steps s (l :: ls) s2

end Xoscar.StoreWire

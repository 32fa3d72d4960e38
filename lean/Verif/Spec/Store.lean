import Verif.Model.Store
/-!
# What the store should be: an atomic map (C52)
-/
namespace Xoscar.Store

abbrev Map := Key → Option Val

def upd (m : Map) (k : Key) (v : Option Val) : Map := fun x => if x = k then v else m x

/-- one operation on an atomic map: from `m` to `m'` with response `o` -/
def Spec (m m' : Map) (o : Option Resp) : Req → Prop
  | .set k v => m' = upd m k (some v) ∧ o = none
  | .get k => m' = m ∧ ∃ v, m k = some v ∧ o = some (.vec v)
  | .cset k e v =>
    (m k = some e ∨ (m k = none ∧ e = []) → m' = upd m k (some v) ∧ o = some (.vec v)) ∧       -- replaced: the new value
    (∀ x, m k = some x → x ≠ e → m' = m ∧ o = some (.vec x)) ∧                                  -- not: the present value
    (m k = none → e ≠ [] → m' = m ∧ o = some (.vec e))                                          -- no value at all: the expected one
  | .add k d => ∃ x : Int, m' = upd m k (some (toStr x)) ∧ o = some (.int x) ∧
      ((m k = none ∧ x = wrap d) ∨ ∃ v y, m k = some v ∧ stoll v = some y ∧ x = wrap (d + y))
  | .check ks => m' = m ∧ o = some (.byte (if ∀ k ∈ ks, m k ≠ none then 0 else 1))
  | .wait ks => m' = m ∧ (∀ k ∈ ks, m k ≠ none) ∧ o = some (.byte 0)
  | .numKeys => m' = m ∧ ∃ l : List Key, l.Nodup ∧ (∀ k, k ∈ l ↔ m k ≠ none) ∧ o = some (.int l.length)
  | .delete k => m' = upd m k none ∧ o = some (.int (if m k = none then 0 else 1))
  | .append k v => m' = upd m k (some ((m k).getD [] ++ v)) ∧ o = none
  | .mget ks => m' = m ∧ ∃ vs, ks.map m = vs.map some ∧ o = some (.vecs vs)
  | .mset _ => False                                                                            -- recorded as its single sets
  | .watch _ => m' = m ∧ o = some (.byte 3)

/-- a sequence of operations executed one after the other on an empty map, ending in `m` -/
inductive Hist : List Entry → Map → Prop
  | nil : Hist [] (fun _ => none)
  | snoc {l m m' e} : Hist l m → Spec m m' e.resp e.req → Hist (l ++ [e]) m'

def Entry.isWait (e : Entry) : Bool := match e.req with
  | .wait _ => true
  | _ => false

/-- the number a row of decimal digits is -/
def decimal (l : List Char) : Nat := l.foldl (fun n c => 10 * n + (c.toNat - 48)) 0

/-- a text that begins with a number: blanks, perhaps a sign, digits, then anything that is not a digit; the number fits in 64 bits -/
def StartsWithInt (v : Val) (i : Int) : Prop :=
  ∃ blanks sign ds rest, v = blanks ++ sign ++ ds ++ rest ∧ (∀ c ∈ blanks, c = ' ') ∧ (sign = [] ∨ sign = ['+'] ∨ sign = ['-']) ∧
    ds ≠ [] ∧ (∀ c ∈ ds, '0' ≤ c ∧ c ≤ '9') ∧ (∀ c, rest.head? = some c → ¬ ('0' ≤ c ∧ c ≤ '9')) ∧
    i = (if sign = ['-'] then -(decimal ds : Int) else decimal ds) ∧ -(2 ^ 63 : Int) ≤ i ∧ i < (2 ^ 63 : Int)

/-- somebody watches the key whose connection is closed -/
def Blind (st : St) (k : Key) : Prop := ∃ w, (k, w) ∈ st.watchers ∧ w ∉ st.opened

/-- the requests the server answers by closing the connection of the one who asks -/
def Fails (st : St) : Req → Prop
  | .get k => st.store.get? k = none
  | .mget ks => ∃ k ∈ ks, st.store.get? k = none
  | .set k _ => Blind st k
  | .append k _ => Blind st k
  | .mset kvs => ∃ k v, (k, v) ∈ kvs ∧ Blind st k
  | .add k _ => Blind st k ∨ ∃ v, st.store.get? k = some v ∧ ¬ ∃ i, StartsWithInt v i
  | .delete k => st.store.get? k ≠ none ∧ Blind st k
  | .cset k e _ => (st.store.get? k = some e ∨ (st.store.get? k = none ∧ e = [])) ∧ Blind st k
  | .check _ => False
  | .wait _ => False
  | .numKeys => False
  | .watch _ => False

end Xoscar.Store

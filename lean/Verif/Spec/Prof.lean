import Verif.Model.Prof
namespace Xoscar.Prof

/-- what is seen at a place of a nested dictionary -/
inductive Leaf where
  | num (n : Int)
  | dict
  deriving DecidableEq, Repr

/-- nested dictionaries as values: what is at a path, if anything -/
abbrev Tree := List Nat → Option Leaf

/-- `w` is what a reader finds in `v` under the keys `path` -/
inductive At (st : St) : Val → List Nat → Val → Prop
  | here {v : Val} : At st v [] v
  | step {o : Nat} {d : Dict Nat Val} {k : Nat} {v w : Val} {ks : List Nat} :
      st.heap.get? o = some d → d.get? k = some v → At st v ks w → At st (.dict o) (k :: ks) w

def leaf : Val → Leaf
  | .num n => .num n
  | .dict _ => .dict

/-- the object `o` is a dictionary with the content `tree` -/
def Shows (st : St) (o : Nat) (tree : Tree) : Prop :=
  ∀ path x, tree path = some x ↔ ∃ w, At st (.dict o) path w ∧ leaf w = x

/-- the content of all tasks: `none`: the task is not profiled -/
abbrev Content := Task → Option Tree

/-- what the profiling data contain -/
def Contains (st : St) (c : Content) : Prop :=
  ∀ t, match c t with
    | none => st.data.get? t = none
    | some tree => ∃ o, st.data.get? t = some o ∧ Shows st o tree

/-- the content of a task just initialised: four empty dictionaries -/
def blank : Tree
  | [] => some .dict
  | [k] => if k < 4 then some .dict else none
  | _ => none

/-- `x` is put at `path`; whatever was there, or below, is gone -/
def Tree.put (tree : Tree) (path : List Nat) (x : Leaf) : Tree :=
  fun q => if q = path then some x else if path <+: q then none else tree q

/-- what a use of the dictionary at `path` does to the content: nothing if there is no dictionary there -/
def Tree.use (tree : Tree) (path : List Nat) (u : Use) : Tree :=
  if tree path = some .dict then
    match u with
    | .set k v => tree.put (path ++ [k]) (.num v)
    | .inc k v => match tree (path ++ [k]) with
      | some .dict => tree
      | some (.num n) => tree.put (path ++ [k]) (.num (n + v))
      | none => tree.put (path ++ [k]) (.num v)
    | .nest k => match tree (path ++ [k]) with
      | none => tree.put (path ++ [k]) .dict
      | some _ => tree
  else tree

/-- what the operations on the profiling data should do -/
def expect (c : Content) : Label → Content
  | .init t o => match o with
    | .invalid => c
    | _ => fun x => if x = t then some blank else c x
  | .pop t _ _ => fun x => if x = t then none else c x
  | .use t path u => fun x => if x = t then (c t).map (fun tree => tree.use path u) else c x
  | _ => c

/-- … from the start -/
def expected (ls : List Label) : Content := ls.foldl expect (fun _ => none)

/-- the content of a popped dictionary: the data, with the report of the calls -/
def Tree.withReport (tree : Tree) (most slow : Dict Nat Int) : Tree
  | 2 :: ks => match ks with
    | [] => some .dict
    | [k] => (most.get? k).map .num
    | _ => none
  | 3 :: ks => match ks with
    | [] => some .dict
    | [k] => (slow.get? k).map .num
    | _ => none
  | q => tree q

/-- nobody uses an operator kept from before -/
def NoHeld (ls : List Label) : Prop := ∀ op u, Label.held op u ∉ ls

/-- what an operation adds to key `k` of the dictionary `g` of task `t` -/
def adds (t : Task) (g k : Nat) : Label → Option Int
  | .use t' [g'] (.inc k' v) => if t' = t ∧ g' = g ∧ k' = k then some v else none
  | _ => none

/-- what was added to key `k` of the dictionary `g` of task `t` -/
def added (t : Task) (g k : Nat) (ls : List Label) : List Int := ls.filterMap (adds t g k)

/-- a loop of the task still exists -/
def Alive (st : St) (t : Task) : Prop := ∃ l ph, st.loops.get? l = some (t, ph) ∧ ph ≠ .gone

/-- the runs in which a task is initialised only when no loop of it is left, not even one whose callback has not been called -/
inductive Careful : List Label → St → Prop
  | init : Careful [] init
  | snoc {ls : List Label} {l : Label} {s s' : St} : Careful ls s → step s l = some s' →
      (∀ t o, l = .init t o → ¬ Alive s t) → Careful (ls ++ [l]) s'

/-- the user of a task initialises it and pops it in turn -/
def InTurn (t : Task) : Bool → List Label → Prop
  | _, [] => True
  | on, .init t' _ :: ls => if t' = t then on = false ∧ InTurn t true ls else InTurn t on ls
  | on, .pop t' _ _ :: ls => if t' = t then on = true ∧ InTurn t false ls else InTurn t on ls
  | on, _ :: ls => InTurn t on ls

end Xoscar.Prof

import Verif.Props.Serial
/-!
# C01: long texts and byte strings are never part of the header
-/
namespace Xoscar.Serial

/-- a leaf value occurs in a header, at any depth -/
inductive Contains : PV → Atom → Prop
  | atom (a : Atom) : Contains (.atom a) a
  | list {xs : List PV} {p : PV} {a : Atom} : p ∈ xs → Contains p a → Contains (.list xs) a
  | tup {xs : List PV} {p : PV} {a : Atom} : p ∈ xs → Contains p a → Contains (.tup xs) a

/-- shorter than 1024, if it is a byte string or a text -/
def Short : Atom → Prop
  | .bytes b => b.size < 1024
  | .str s => s.length < 1024
  | _ => True

/-- numbers and the like are neither byte strings nor texts -/
def PrimsPlain (h : Heap) : Prop := ∀ x e a, h x = .prim e a → (∀ b, a ≠ .bytes b) ∧ ∀ s, a ≠ .str s

def AllShort (p : PV) : Prop := ∀ a, Contains p a → Short a

theorem allShort_list {xs : List PV} (h : ∀ p ∈ xs, AllShort p) : AllShort (.list xs) := by
  intro a ha; cases ha with | list hm hc => exact h _ hm a hc

theorem allShort_tup {xs : List PV} (h : ∀ p ∈ xs, AllShort p) : AllShort (.tup xs) := by
  intro a ha; cases ha with | tup hm hc => exact h _ hm a hc

theorem allShort_nat (n : Nat) : AllShort (.nat n) := by intro a ha; cases ha
theorem allShort_bool (b : Bool) : AllShort (.bool b) := by intro a ha; cases ha
theorem allShort_obj (v : Nat) : AllShort (.obj v) := by intro a ha; cases ha
theorem allShort_atom {a : Atom} (h : Short a) : AllShort (.atom a) := by intro b hb; cases hb; exact h
theorem allShort_tyPV (t : Option Nat) : AllShort (tyPV t) := by
  cases t
  · exact allShort_atom trivial
  · intro a ha; cases ha

theorem short_prim {a : Atom} (h : (∀ b, a ≠ .bytes b) ∧ ∀ s, a ≠ .str s) : Short a := by
  cases a with
  | none => trivial
  | prim n => trivial
  | bytes b => exact absurd rfl (h.1 b)
  | str s => exact absurd rfl (h.2 s)

theorem inlinable_short {h : Heap} (hp : PrimsPlain h) {x : Id} {a : Atom} (hi : inlinable (h x) = some a) : Short a := by
  unfold inlinable at hi
  split at hi
  · split at hi
    · injection hi with hi; subst hi; assumption
    · cases hi
  · split at hi
    · injection hi with hi; subst hi; assumption
    · cases hi
  · rename_i b e; injection hi with hi; subst hi; exact short_prim (hp _ _ _ e)
  · cases hi

theorem iterable_short {h : Heap} (hp : PrimsPlain h) (xs : List Id) : ∀ idx, ∀ p ∈ (serialIterable h idx xs).1, AllShort p := by
  induction xs with
  | nil => intro idx p hm; simp [serialIterable] at hm
  | cons x xs ih =>
    intro idx p hm
    simp only [serialIterable] at hm
    rcases hi : inlinable (h x) with _ | a
    · rw [hi] at hm
      rcases List.mem_cons.mp hm with rfl | hm
      · exact allShort_atom trivial
      · exact ih _ p hm
    · rw [hi] at hm
      rcases List.mem_cons.mp hm with rfl | hm
      · exact allShort_atom (inlinable_short hp hi)
      · exact ih _ p hm

theorem single_short {P : Pickler} {h : Heap} (hp : PrimsPlain h) (c : EncCtx) (x : Id) : ∀ p ∈ (serialSingle P h c x).head, AllShort p := by
  have key : ∀ sid body subs reg, serial P h c x = .done sid body subs reg → ∀ p ∈ body, AllShort p := by
    intro sid body subs reg hs p hm
    have hb : ∀ s b u, buffered c x s b u = .done sid body subs reg → body = b := by
      intro s b u e; unfold buffered at e; split at e
      · cases e
      · injection e with _ e _ _; exact e.symm
    have nats : ∀ l : List Nat, AllShort (.list (l.map .nat)) := by
      intro l; apply allShort_list; intro p hp; obtain ⟨n, _, rfl⟩ := List.mem_map.mp hp; exact allShort_nat n
    unfold serial at hs
    split at hs
    · rename_i b a e
      rw [hb _ _ _ hs] at hm; simp at hm; subst hm
      exact allShort_atom (short_prim (hp _ _ _ e))
    · rw [hb _ _ _ hs] at hm; simp at hm
    · rw [hb _ _ _ hs] at hm; simp at hm
    · rw [hb _ _ _ hs] at hm; simp at hm
    · rw [hb _ _ _ hs] at hm
      simp only [List.mem_cons, List.not_mem_nil, or_false] at hm
      rcases hm with rfl | rfl | rfl
      · exact allShort_list (iterable_short hp _ 0)
      · exact nats _
      · exact allShort_tyPV _
    · rw [hb _ _ _ hs] at hm
      simp only [List.mem_cons, List.not_mem_nil, or_false] at hm
      rcases hm with rfl | rfl | rfl
      · exact allShort_list (iterable_short hp _ 0)
      · exact nats _
      · exact allShort_tyPV _
    · injection hs with _ e _ _; subst e; simp at hm
    · rw [hb _ _ _ hs] at hm
      simp only [List.mem_cons, List.not_mem_nil, or_false] at hm
      rcases hm with rfl | rfl | rfl | rfl
      · apply allShort_tup
        intro p hq
        simp only [List.mem_cons, List.not_mem_nil, or_false] at hq
        rcases hq with rfl | rfl
        · exact allShort_list (iterable_short hp _ 0)
        · exact nats _
      · apply allShort_tup
        intro p hq
        simp only [List.mem_cons, List.not_mem_nil, or_false] at hq
        rcases hq with rfl | rfl
        · exact allShort_list (iterable_short hp _ 0)
        · exact nats _
      · exact allShort_nat _
      · exact allShort_tyPV _
    · split at hs
      · cases hs
      · injection hs with _ e _ _; subst e; simp at hm; subst hm; exact allShort_obj _
  intro p hm
  simp only [serialSingle] at hm
  rcases hs : serial P h c x with _ | ⟨sid, body, subs, reg⟩
  · rw [hs] at hm
    simp only [List.mem_cons, List.not_mem_nil, or_false] at hm
    rcases hm with rfl | rfl | rfl | rfl
    · exact allShort_nat _
    · exact allShort_nat _
    · exact allShort_nat _
    · exact allShort_bool _
  · rw [hs] at hm
    simp only [List.mem_cons] at hm
    rcases hm with rfl | rfl | rfl | rfl | hm
    · exact allShort_nat _
    · exact allShort_nat _
    · exact allShort_nat _
    · exact allShort_bool _
    · exact key sid body subs reg hs p hm

/-- everything written so far is short -/
structure EncShort {σ X : Type} (s : EncSt σ X) : Prop where
  frames : ∀ fr ∈ s.stack, (∀ p ∈ fr.head, AllShort p) ∧ ∀ p ∈ fr.done, AllShort p
  result : ∀ p, s.serialized = some p → AllShort p

theorem step_short {σ X : Type} {single : Single σ X} (hsg : ∀ c x, ∀ p ∈ (single c x).head, AllShort p) {s : EncSt σ X} (h : EncShort s) :
    EncShort (step single s) := by
  obtain ⟨stack, ser, st, bufs, n⟩ := s
  cases stack with
  | nil => exact h
  | cons fr0 rest =>
    have hfr : (∀ p ∈ (fr0.record ser).head, AllShort p) ∧ ∀ p ∈ (fr0.record ser).done, AllShort p := by
      obtain ⟨f1, f2⟩ := h.frames fr0 (by simp)
      cases ser with
      | none => exact ⟨f1, f2⟩
      | some q =>
        refine ⟨f1, ?_⟩
        intro p hp
        rcases List.mem_append.mp hp with hp | hp
        · exact f2 p hp
        · simp at hp; subst hp; exact h.result _ rfl
    have hrest : ∀ fr ∈ rest, (∀ p ∈ fr.head, AllShort p) ∧ ∀ p ∈ fr.done, AllShort p := fun fr hm => h.frames fr (by simp [hm])
    simp only [step]
    split
    · refine ⟨hrest, ?_⟩
      intro p hp
      injection hp with hp; subst hp
      apply allShort_tup
      intro p hp
      rcases List.mem_append.mp hp with hp | hp
      · exact hfr.1 p hp
      · exact hfr.2 p hp
    · split
      · exact h
      · rename_i x _
        have hhead := hsg st x
        have two : ∀ fr ∈ (fr0.record ser) :: rest, (∀ p ∈ fr.head, AllShort p) ∧ ∀ p ∈ fr.done, AllShort p := by
          intro fr hm
          rcases List.mem_cons.mp hm with rfl | hm
          · exact hfr
          · exact hrest fr hm
        unfold stepChild
        dsimp only
        split
        · exact ⟨two, fun p hp => by injection hp with hp; subst hp; exact allShort_tup hhead⟩
        · exact ⟨two, fun p hp => by injection hp with hp; subst hp; exact allShort_tup hhead⟩
        · refine ⟨?_, fun p hp => by cases hp⟩
          intro fr hm
          rcases List.mem_cons.mp hm with rfl | hm
          · exact ⟨hhead, by simp⟩
          · exact two fr hm

theorem loop_short {σ X : Type} {single : Single σ X} (hsg : ∀ c x, ∀ p ∈ (single c x).head, AllShort p) (ov : Int) (f : Nat) :
    ∀ {s r : EncSt σ X}, EncShort s → (loop single ov f s = some (.finished r) ∨ loop single ov f s = some (.overflow r)) → EncShort r := by
  induction f with
  | zero => intro s r _ h; rcases h with h | h <;> cases h
  | succ f ih =>
    intro s r hs h
    unfold loop at h
    rcases hst : s.stack with _ | ⟨a, b⟩
    · rw [hst] at h
      rcases h with h | h
      · have := Option.some.inj h; injection this with this; subst this; exact hs
      · cases Option.some.inj h
    · rw [hst] at h
      dsimp only at h
      have hs' := step_short hsg hs
      by_cases ho : 0 < ov ∧ ov < ((step single s).n : Int)
      · rw [if_pos ho] at h
        rcases h with h | h
        · cases Option.some.inj h
        · have := Option.some.inj h; injection this with this; subst this; exact hs'
      · rw [if_neg ho] at h
        exact ih hs' h

/-- **Long texts and byte strings are never part of the header** (which is pickled as a whole): whatever is serialized, a byte string or text found in
the header has fewer than 1024 bytes or characters; the longer ones travel as buffers. -/
theorem header_short {P : Pickler} {h : Heap} (hp : PrimsPlain h) {x : Id} {header : PV} {bufs : List Buf} (hs : Serializes P h x header bufs) {a : Atom}
    (ha : Contains header a) : Short a := by
  obtain ⟨fuel, hs⟩ := hs
  have hsg := single_short (P := P) hp
  unfold serialize at hs
  dsimp only at hs
  split at hs
  · have := Option.some.inj hs; injection this with _ e _; subst e
    exact allShort_tup (hsg _ _) a ha
  · have := Option.some.inj hs; injection this with _ e _; subst e
    exact allShort_tup (hsg _ _) a ha
  · split at hs
    · rename_i s hl
      have := Option.some.inj hs; injection this with _ e _
      have h0 : EncShort s := by
        refine loop_short hsg 0 fuel ?_ (.inl hl)
        refine ⟨?_, fun p hp => by cases hp⟩
        intro fr hm
        simp only [List.mem_cons, List.not_mem_nil, or_false] at hm
        subst hm
        exact ⟨hsg _ _, by simp⟩
      subst e
      rcases hser : s.serialized with _ | p
      · rw [hser] at ha; cases ha; trivial
      · rw [hser] at ha; exact h0.result p hser a ha
    · cases hs

/-- a byte string or text serialized by itself is its only buffer -/
theorem alone_is_buffer {P : Pickler} {h : Heap} {x : Id} {header : PV} {bufs : List Buf} (hs : Serializes P h x header bufs) :
    (∀ ty b, h x = .bytes ty b → bufs = [b]) ∧ ∀ ty s, h x = .str ty s → bufs = [s.toUTF8] := by
  obtain ⟨fuel, hs⟩ := hs
  refine ⟨?_, ?_⟩
  · intro ty b e
    simp only [serialize, serialSingle, serial, e, buffered, EncCtx.init, List.not_mem_nil, if_false] at hs
    have := Option.some.inj hs; injection this with _ _ e; exact e.symm
  · intro ty s e
    simp only [serialize, serialSingle, serial, e, buffered, EncCtx.init, List.not_mem_nil, if_false] at hs
    have := Option.some.inj hs; injection this with _ _ e; exact e.symm

/-- a list of a short text, a number and a long byte string -/
def exHeap : Heap := fun x => match x with
  | 0 => .list none [1, 2, 3]
  | 1 => .str none "short"
  | 2 => .prim true (.prim 5)
  | _ => .bytes none (ByteArray.mk (Array.replicate 1024 0))

example : PrimsPlain exHeap := by
  intro x e a h
  unfold exHeap at h
  split at h
  · cases h
  · cases h
  · injection h with _ h; subst h; simp
  · cases h

end Xoscar.Serial

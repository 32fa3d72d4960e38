import Verif.Spec.Ids
import Verif.Proof.Base
/-!
# C90: generated ids
-/
namespace Xoscar.Ids
attribute [local grind =] Dict.get?_set Dict.get?_erase

theorem words_eq (n : Nat) : words n = (n + 7) / 8 := by
  unfold words
  simp only [Nat.shiftRight_eq_div_pow, Nat.shiftLeft_eq]
  split <;> omega

theorem wordBytes_length (k w : Nat) : (wordBytes k w).length = k := by
  induction k generalizing w with
  | zero => rfl
  | succ k ih => simp [wordBytes, ih]

theorem wordBytes_get (k w : Nat) (i : Nat) (h : i < k) : (wordBytes k w)[i]? = some (w / 256 ^ i % 256) := by
  induction k generalizing w i with
  | zero => omega
  | succ k ih =>
    cases i with
    | zero => simp [wordBytes]
    | succ i =>
      simp only [wordBytes, List.getElem?_cons_succ]
      rw [ih _ _ (by omega), Nat.div_div_eq_div_mul, Nat.pow_succ, Nat.mul_comm]

theorem fill_length (g : Gens) (s p k : Nat) : (fill g s p k).length = 8 * k := by
  induction k generalizing p with
  | zero => rfl
  | succ k ih => simp only [fill, List.length_append, wordBytes_length, ih]; omega

theorem fill_get (g : Gens) (s p k : Nat) (i : Nat) (h : i < 8 * k) : (fill g s p k)[i]? = some (byteAt g s p i) := by
  induction k generalizing p i with
  | zero => omega
  | succ k ih =>
    simp only [fill]
    by_cases hi : i < 8
    · rw [List.getElem?_append_left (by rw [wordBytes_length]; exact hi), wordBytes_get _ _ _ hi, byteAt]
      rw [Nat.div_eq_of_lt hi, Nat.mod_eq_of_lt hi, Nat.add_zero]
    · rw [List.getElem?_append_right (by rw [wordBytes_length]; omega), wordBytes_length, ih _ _ (by omega), byteAt, byteAt]
      have h1 : p + 1 + (i - 8) / 8 = p + i / 8 := by omega
      have h2 : (i - 8) % 8 = i % 8 := by omega
      rw [h1, h2]

theorem draw_isId (g : Gens) (c : Proc) (n : Nat) : IsId g c.seed c.pos n (draw g c n).2 := by
  have hw := words_eq n
  constructor
  · simp only [draw, List.length_take, fill_length]; omega
  · intro i hi
    simp only [draw]
    rw [List.getElem?_take_of_lt hi, fill_get _ _ _ _ _ (by omega)]

/-- An id of `n` bytes is `n` bytes: those the generator gives from some place of the stream of some seed on. -/
theorem makes {g : Gens} {st st' : St} {p n : Nat} (hs : step g st (.newId p n) = some st') :
    ∃ m, st'.made = st.made ++ [m] ∧ m.proc = p ∧ IsId g m.seed m.pos n m.bytes := by
  simp only [step] at hs
  split at hs
  · rename_i c hc
    injection hs with hs; subst hs
    refine ⟨⟨p, (ensure g st p c).2.seed, (ensure g st p c).2.pos, (draw g (ensure g st p c).2 n).2⟩, ?_, rfl, draw_isId g _ n⟩
    simp only [ensure]
    split <;> rfl
  · cases hs

/-- who makes ids is there, and then has a seed -/
theorem newId_proc {g : Gens} {st st' : St} {p n : Nat} (hs : step g st (.newId p n) = some st') :
    ∃ c, st'.procs.get? p = some c ∧ c.isSet = true ∧ ∃ m, st'.made = st.made ++ [m] ∧ c.seed = m.seed ∧ c.pos = m.pos + (n + 7) / 8 := by
  simp only [step] at hs
  split at hs
  · rename_i c hc
    injection hs with hs; subst hs
    refine ⟨(draw g (ensure g st p c).2 n).1, by simp only [Dict.get?_set, if_true], ?_, ⟨p, (ensure g st p c).2.seed, (ensure g st p c).2.pos, (draw g (ensure g st p c).2 n).2⟩, ?_, rfl, ?_⟩
    · simp only [draw, ensure]
      split
      · assumption
      · rfl
    · simp only [ensure]; split <;> rfl
    · simp only [draw, words_eq]
  · cases hs

theorem newId_from {g : Gens} {st st' : St} {p n : Nat} {c : Proc} (hc : st.procs.get? p = some c) (hset : c.isSet = true)
    (hs : step g st (.newId p n) = some st') : ∃ m, st'.made = st.made ++ [m] ∧ m.proc = p ∧ m.seed = c.seed ∧ m.pos = c.pos := by
  simp only [step, hc, ensure, hset, if_true] at hs
  injection hs with hs; subst hs
  exact ⟨_, rfl, rfl, rfl, rfl⟩

/-- nothing but making ids and starting a sub pool changes where the ids of a process come from -/
theorem keeps {g : Gens} {st st' : St} {l : Label} (hs : step g st l = some st') {p : Nat} {c : Proc} (hc : st.procs.get? p = some c) (hset : c.isSet = true)
    (h1 : ∀ n, l ≠ .newId p n) (h2 : ∀ u, l ≠ .subPool p u) :
    ∃ c', st'.procs.get? p = some c' ∧ c'.isSet = true ∧ c'.seed = c.seed ∧ c'.pos = c.pos := by
  cases l with
  | start q e =>
    simp only [step] at hs
    split at hs
    · cases hs
    · rename_i hq; injection hs with hs; subst hs
      have : q ≠ p := fun e => by rw [e, hc] at hq; cases hq
      exact ⟨c, by simp only [Dict.get?_set, if_neg this]; exact hc, hset, rfl, rfl⟩
  | fork a q e =>
    simp only [step] at hs
    split at hs
    · rename_i c' h1 hq; injection hs with hs; subst hs
      have : q ≠ p := fun e => by rw [e, hc] at hq; cases hq
      exact ⟨c, by simp only [Dict.get?_set, if_neg this]; exact hc, hset, rfl, rfl⟩
    · cases hs
  | seed q s =>
    simp only [step] at hs
    split at hs
    · rename_i c' hq; injection hs with hs; subst hs
      by_cases e : q = p
      · rw [e, hc] at hq; injection hq with hq; subst hq
        exact ⟨{ c with pySeed := s, pyPos := 0 }, by simp only [Dict.get?_set, if_pos e], hset, rfl, rfl⟩
      · exact ⟨c, by simp only [Dict.get?_set, if_neg e]; exact hc, hset, rfl, rfl⟩
    · cases hs
  | random q k =>
    simp only [step] at hs
    split at hs
    · rename_i c' hq; injection hs with hs; subst hs
      by_cases e : q = p
      · rw [e, hc] at hq; injection hq with hq; subst hq
        exact ⟨{ c with pyPos := c.pyPos + k }, by simp only [Dict.get?_set, if_pos e], hset, rfl, rfl⟩
      · exact ⟨c, by simp only [Dict.get?_set, if_neg e]; exact hc, hset, rfl, rfl⟩
    · cases hs
  | port q u k =>
    simp only [step] at hs
    split at hs
    · rename_i c' hq; injection hs with hs; subst hs
      by_cases e : q = p
      · rw [e, hc] at hq; injection hq with hq; subst hq
        exact ⟨{ c with pySeed := u, pyPos := k }, by simp only [Dict.get?_set, if_pos e], hset, rfl, rfl⟩
      · exact ⟨c, by simp only [Dict.get?_set, if_neg e]; exact hc, hset, rfl, rfl⟩
    · cases hs
  | subPool q u =>
    simp only [step] at hs
    have : q ≠ p := fun e => h2 u (by rw [e])
    split at hs
    · injection hs with hs; subst hs
      exact ⟨c, by simp only [reset, Dict.get?_set, if_neg this]; exact hc, hset, rfl, rfl⟩
    · cases hs
  | newId q n =>
    simp only [step] at hs
    have : q ≠ p := fun e => h1 n (by rw [e])
    split at hs
    · injection hs with hs; subst hs
      refine ⟨c, ?_, hset, rfl, rfl⟩
      simp only [Dict.get?_set, if_neg this, ensure]
      split
      · exact hc
      · simp only [reset, Dict.get?_set, if_neg this]; exact hc
    · cases hs

theorem keeps_all {g : Gens} (p : Nat) : ∀ (ls : List Label) (s s' : St) (c : Proc), s.procs.get? p = some c → c.isSet = true →
    ls.foldlM (step g) s = some s' → (∀ l ∈ ls, (∀ k, l ≠ .newId p k) ∧ ∀ u, l ≠ .subPool p u) →
    ∃ c', s'.procs.get? p = some c' ∧ c'.isSet = true ∧ c'.seed = c.seed ∧ c'.pos = c.pos := by
  intro ls
  induction ls with
  | nil => intro s s' c hc hs hr _; injection hr with hr; subst hr; exact ⟨c, hc, hs, rfl, rfl⟩
  | cons l ls ih =>
    intro s s' c hc hset hr hl
    rw [List.foldlM_cons] at hr
    rcases hstep : step g s l with _ | s1
    · rw [hstep] at hr; cases hr
    · rw [hstep] at hr
      obtain ⟨c1, a, b, d, e⟩ := keeps hstep hc hset (hl l (by simp)).1 (hl l (by simp)).2
      obtain ⟨c2, a', b', d', e'⟩ := ih s1 s' c1 a b hr (fun x hx => hl x (by simp [hx]))
      exact ⟨c2, a', b', d'.trans d, e'.trans e⟩

/-- The ids of a process come from one stream, one after the other, as long as no sub pool is started in it; seeding or drawing from `random`,
forks and other processes do not matter. -/
theorem one_stream {g : Gens} {st st1 : St} {p n : Nat} (h0 : step g st (.newId p n) = some st1) (ls : List Label) {st2 : St}
    (hrun : ls.foldlM (step g) st1 = some st2) (hls : ∀ l ∈ ls, (∀ k, l ≠ .newId p k) ∧ ∀ u, l ≠ .subPool p u) {k : Nat} {st3 : St}
    (h3 : step g st2 (.newId p k) = some st3) :
    ∃ m m', st1.made = st.made ++ [m] ∧ st3.made = st2.made ++ [m'] ∧ m'.seed = m.seed ∧ m'.pos = m.pos + (n + 7) / 8 := by
  obtain ⟨c, hc, hset, m, hm, e1, e2⟩ := newId_proc h0
  obtain ⟨c', hc', hset', a, b⟩ := keeps_all p ls st1 st2 c hc hset hrun hls
  obtain ⟨m', hm', _, f1, f2⟩ := newId_from hc' hset' h3
  exact ⟨m, m', hm, hm', by rw [f1, a, e1], by rw [f2, b, e2]⟩

/-! ## Uniqueness -/

structure Inv (ls : List Label) (st : St) : Prop where
  /-- who has a seed has made ids or started a sub pool -/
  set : ∀ p c, st.procs.get? p = some c → c.isSet = true → (∃ n, Label.newId p n ∈ ls) ∨ ∃ u, Label.subPool p u ∈ ls
  seedOf : ∀ p c, st.procs.get? p = some c → c.isSet = true → c.seed ∈ st.seeds
  madeSeed : ∀ m ∈ st.made, m.seed ∈ st.seeds
  own : st.seeds.Nodup → ∀ p q c d, st.procs.get? p = some c → st.procs.get? q = some d → c.isSet = true → d.isSet = true → c.seed = d.seed → p = q
  before : st.seeds.Nodup → ∀ p c, st.procs.get? p = some c → c.isSet = true → ∀ m ∈ st.made, m.seed = c.seed → m.pos + (m.bytes.length + 7) / 8 ≤ c.pos
  apart : st.seeds.Nodup → st.made.Pairwise (fun a b => ∀ s i, ¬ (Covers a s i ∧ Covers b s i))

theorem inv_py {ls : List Label} {l : Label} {st : St} (h : Inv ls st) {p : Nat} {c : Proc} (hc : st.procs.get? p = some c) (a b : Nat) :
    Inv (ls ++ [l]) { st with procs := st.procs.set p { c with pySeed := a, pyPos := b } } := by
  have get : ∀ q d, (st.procs.set p { c with pySeed := a, pyPos := b }).get? q = some d → ∃ d', st.procs.get? q = some d' ∧ d'.isSet = d.isSet ∧ d'.seed = d.seed ∧ d'.pos = d.pos := by
    intro q d hd
    rw [Dict.get?_set] at hd
    by_cases e : p = q
    · rw [if_pos e] at hd; injection hd with hd; subst hd; exact ⟨c, e ▸ hc, rfl, rfl, rfl⟩
    · rw [if_neg e] at hd; exact ⟨d, hd, rfl, rfl, rfl⟩
  refine ⟨?_, ?_, h.madeSeed, ?_, ?_, h.apart⟩
  · intro q d hd hs
    obtain ⟨d', g1, g2, _⟩ := get q d hd
    rcases h.set q d' g1 (g2.trans hs) with ⟨n, hn⟩ | ⟨u, hu⟩
    · exact .inl ⟨n, by simp [hn]⟩
    · exact .inr ⟨u, by simp [hu]⟩
  · intro q d hd hs
    obtain ⟨d', g1, g2, g3, _⟩ := get q d hd
    show d.seed ∈ st.seeds
    rw [← g3]; exact h.seedOf q d' g1 (g2.trans hs)
  · intro hn q r d e hd he hs hs' hse
    obtain ⟨d', g1, g2, g3, _⟩ := get q d hd
    obtain ⟨e', k1, k2, k3, _⟩ := get r e he
    exact h.own hn q r d' e' g1 k1 (g2.trans hs) (k2.trans hs') (by rw [g3, k3]; exact hse)
  · intro hn q d hd hs m hm hse
    obtain ⟨d', g1, g2, g3, g4⟩ := get q d hd
    rw [← g4]; exact h.before hn q d' g1 (g2.trans hs) m hm (by rw [g3]; exact hse)

/-- seeding anew -/
theorem inv_reset {g : Gens} {ls : List Label} {l : Label} {st : St} (h : Inv ls st) {p : Nat} {c : Proc}
    (hl : (∃ n, l = .newId p n) ∨ ∃ u, l = .subPool p u) : Inv (ls ++ [l]) (reset g st p c) := by
  have get : ∀ q d, (reset g st p c).procs.get? q = some d → (q = p ∧ d = resetSeed g c) ∨ (q ≠ p ∧ st.procs.get? q = some d) := by
    intro q d hd
    simp only [reset, Dict.get?_set] at hd
    by_cases e : p = q
    · rw [if_pos e] at hd; injection hd with hd; exact .inl ⟨e.symm, hd.symm⟩
    · rw [if_neg e] at hd; exact .inr ⟨fun x => e x.symm, hd⟩
  have hnd : (reset g st p c).seeds.Nodup → st.seeds.Nodup ∧ (resetSeed g c).seed ∉ st.seeds := by
    intro hn
    simp only [reset] at hn
    rw [List.nodup_append] at hn
    exact ⟨hn.1, fun hm => hn.2.2 _ hm _ (by simp) rfl⟩
  refine ⟨?_, ?_, ?_, ?_, ?_, ?_⟩
  · intro q d hd hs
    rcases get q d hd with ⟨rfl, _⟩ | ⟨_, hd⟩
    · rcases hl with ⟨n, rfl⟩ | ⟨u, rfl⟩
      · exact .inl ⟨n, by simp⟩
      · exact .inr ⟨u, by simp⟩
    · rcases h.set q d hd hs with ⟨n, hn⟩ | ⟨u, hu⟩
      · exact .inl ⟨n, by simp [hn]⟩
      · exact .inr ⟨u, by simp [hu]⟩
  · intro q d hd hs
    show d.seed ∈ st.seeds ++ [(resetSeed g c).seed]
    rcases get q d hd with ⟨_, rfl⟩ | ⟨_, hd⟩
    · simp
    · exact List.mem_append.mpr (.inl (h.seedOf q d hd hs))
  · intro m hm
    exact List.mem_append.mpr (.inl (h.madeSeed m hm))
  · intro hn q r d e hd he hs hs' hse
    obtain ⟨h1, h2⟩ := hnd hn
    rcases get q d hd with ⟨x1, x2⟩ | ⟨_, hd'⟩ <;> rcases get r e he with ⟨y1, y2⟩ | ⟨_, he'⟩
    · rw [x1, y1]
    · exact absurd (by rw [← x2, hse]; exact h.seedOf r e he' hs') h2
    · exact absurd (by rw [← y2, ← hse]; exact h.seedOf q d hd' hs) h2
    · exact h.own h1 q r d e hd' he' hs hs' hse
  · intro hn q d hd hs m hm hse
    obtain ⟨h1, h2⟩ := hnd hn
    rcases get q d hd with ⟨_, rfl⟩ | ⟨_, hd⟩
    · exact absurd (hse ▸ h.madeSeed m hm) h2
    · exact h.before h1 q d hd hs m hm hse
  · intro hn; exact h.apart (hnd hn).1

/-- drawing an id -/
theorem inv_draw {g : Gens} {ls : List Label} {p n : Nat} {st : St} (h : Inv (ls ++ [.newId p n]) st) {c : Proc} (hc : st.procs.get? p = some c)
    (hset : c.isSet = true) :
    Inv (ls ++ [.newId p n]) { st with procs := st.procs.set p (draw g c n).1, made := st.made ++ [⟨p, c.seed, c.pos, (draw g c n).2⟩] } := by
  have hlen : (draw g c n).2.length = n := (draw_isId g c n).1
  have get : ∀ q d, (st.procs.set p (draw g c n).1).get? q = some d →
      (q = p ∧ d.isSet = true ∧ d.seed = c.seed ∧ d.pos = c.pos + (n + 7) / 8) ∨ (q ≠ p ∧ st.procs.get? q = some d) := by
    intro q d hd
    rw [Dict.get?_set] at hd
    by_cases e : p = q
    · rw [if_pos e] at hd; injection hd with hd; subst hd
      exact .inl ⟨e.symm, hset, rfl, by simp only [draw, words_eq]⟩
    · rw [if_neg e] at hd; exact .inr ⟨fun x => e x.symm, hd⟩
  refine ⟨?_, ?_, ?_, ?_, ?_, ?_⟩
  · intro q d hd hs
    rcases get q d hd with ⟨rfl, _⟩ | ⟨_, hd⟩
    · exact .inl ⟨n, by simp⟩
    · exact h.set q d hd hs
  · intro q d hd hs
    rcases get q d hd with ⟨_, _, e, _⟩ | ⟨_, hd⟩
    · show d.seed ∈ st.seeds
      rw [e]; exact h.seedOf p c hc hset
    · exact h.seedOf q d hd hs
  · intro m hm
    rcases List.mem_append.mp hm with hm | hm
    · exact h.madeSeed m hm
    · simp at hm; subst hm; exact h.seedOf p c hc hset
  · intro hn q r d e hd he hs hs' hse
    rcases get q d hd with ⟨x1, a1, a2, _⟩ | ⟨hq, hd'⟩ <;> rcases get r e he with ⟨y1, b1, b2, _⟩ | ⟨hr, he'⟩
    · rw [x1, y1]
    · rw [x1]; exact h.own hn p r c e hc he' hset hs' (by rw [← a2]; exact hse)
    · rw [y1]; exact h.own hn q p d c hd' hc hs hset (by rw [← b2]; exact hse)
    · exact h.own hn q r d e hd' he' hs hs' hse
  · intro hn q d hd hs m hm hse
    rcases get q d hd with ⟨rfl, a1, a2, a3⟩ | ⟨hq, hd⟩
    · rcases List.mem_append.mp hm with hm | hm
      · have := h.before hn _ c hc hset m hm (by rw [← a2]; exact hse)
        omega
      · simp at hm; subst hm; simp only [hlen]; omega
    · rcases List.mem_append.mp hm with hm | hm
      · exact h.before hn q d hd hs m hm hse
      · simp at hm; subst hm
        exact absurd (h.own hn _ q c d hc hd hset hs hse).symm hq
  · intro hn
    refine List.pairwise_append.mpr ⟨h.apart hn, by simp, ?_⟩
    intro a ha b hb
    simp at hb; subst hb
    rintro s i ⟨⟨h1, h2, h3⟩, ⟨g1, g2, g3⟩⟩
    have := h.before hn p c hc hset a ha (by rw [h1]; exact g1.symm)
    simp only at g2
    omega

theorem inv_more {ls : List Label} {l : Label} {st : St} (h : Inv ls st) : Inv (ls ++ [l]) st :=
  ⟨fun p c a b => (h.set p c a b).imp (fun ⟨n, hn⟩ => ⟨n, by simp [hn]⟩) (fun ⟨n, hn⟩ => ⟨n, by simp [hn]⟩),
    h.seedOf, h.madeSeed, h.own, h.before, h.apart⟩

/-- a process without a seed comes in -/
theorem inv_new {ls : List Label} {l : Label} {st : St} (h : Inv ls st) {p : Nat} {c : Proc} (hc : c.isSet = false) :
    Inv (ls ++ [l]) { st with procs := st.procs.set p c } := by
  have get : ∀ q d, (st.procs.set p c).get? q = some d → d.isSet = true → st.procs.get? q = some d := by
    intro q d hd hs
    rw [Dict.get?_set] at hd
    by_cases e : p = q
    · rw [if_pos e] at hd; injection hd with hd; subst hd; rw [hc] at hs; cases hs
    · rw [if_neg e] at hd; exact hd
  have h := inv_more (l := l) h
  exact ⟨fun q d hd hs => h.set q d (get q d hd hs) hs, fun q d hd hs => h.seedOf q d (get q d hd hs) hs, h.madeSeed,
    fun hn q r d e hd he hs hs' => h.own hn q r d e (get q d hd hs) (get r e he hs') hs hs',
    fun hn q d hd hs => h.before hn q d (get q d hd hs) hs, h.apart⟩

theorem run_inv {g : Gens} {ls : List Label} {st : St} (h : Run g ls st) (hf : NoLateFork ls) : Inv ls st := by
  induction h with
  | init => exact ⟨by simp [init], by simp [init], by simp [init], by simp [init], by simp [init], by simp [init]⟩
  | snoc hr hs ih =>
    rename_i ls l s s'
    have ih := ih (fun ls1 p q e ls2 he => hf ls1 p q e (ls2 ++ [l]) (by rw [he]; simp))
    cases l with
    | start q e =>
      simp only [step] at hs
      split at hs
      · cases hs
      · injection hs with hs; subst hs; exact inv_new ih rfl
    | fork a q e =>
      simp only [step] at hs
      split at hs
      · rename_i c h1 h2
        injection hs with hs; subst hs
        refine inv_new ih ?_
        obtain ⟨g1, g2⟩ := hf ls a q e [] rfl
        rcases hset : c.isSet with _ | _
        · rfl
        · rcases ih.set a c h1 hset with ⟨n, hn⟩ | ⟨u, hu⟩
          · exact absurd hn (g1 n)
          · exact absurd hu (g2 u)
      · cases hs
    | seed q s =>
      simp only [step] at hs
      split at hs
      · rename_i c hc; injection hs with hs; subst hs; exact inv_py ih hc _ _
      · cases hs
    | random q k =>
      simp only [step] at hs
      split at hs
      · rename_i c hc; injection hs with hs; subst hs; exact inv_py ih hc c.pySeed _
      · cases hs
    | port q u k =>
      simp only [step] at hs
      split at hs
      · rename_i c hc; injection hs with hs; subst hs; exact inv_py ih hc _ _
      · cases hs
    | subPool q u =>
      simp only [step] at hs
      split at hs
      · injection hs with hs; subst hs; exact inv_reset ih (.inr ⟨u, rfl⟩)
      · cases hs
    | newId q n =>
      simp only [step] at hs
      split at hs
      · rename_i c hc
        injection hs with hs; subst hs
        simp only [ensure]
        split
        · rename_i hset
          exact inv_draw (inv_more ih) hc hset
        · exact inv_draw (inv_reset ih (.inl ⟨n, rfl⟩)) (by simp [reset]) rfl
      · cases hs

/-- If no process is forked after ids were made in it, and the seeds drawn are different, no two ids share a place of a stream. -/
theorem places_apart {g : Gens} {ls : List Label} {st : St} (h : Run g ls st) (hf : NoLateFork ls) (hn : st.seeds.Nodup) :
    st.made.Pairwise (fun a b => ∀ s i, ¬ (Covers a s i ∧ Covers b s i)) := (run_inv h hf).apart hn

theorem run_isId {g : Gens} {ls : List Label} {st : St} (h : Run g ls st) : ∀ m ∈ st.made, IsId g m.seed m.pos m.bytes.length m.bytes := by
  induction h with
  | init => simp [init]
  | snoc hr hs ih =>
    rename_i ls l s s'
    have same : s'.made = s.made → ∀ m ∈ s'.made, IsId g m.seed m.pos m.bytes.length m.bytes := fun e m hm => ih m (e ▸ hm)
    cases l with
    | newId q n =>
      obtain ⟨m, hm, _, hi⟩ := makes hs
      intro x hx
      rw [hm] at hx
      rcases List.mem_append.mp hx with hx | hx
      · exact ih x hx
      · simp at hx; subst hx; rw [hi.1]; exact hi
    | start q e => apply same; simp only [step] at hs; split at hs <;> (first | cases hs; done | (injection hs with hs; subst hs; rfl))
    | fork q e x => apply same; simp only [step] at hs; split at hs <;> (first | cases hs; done | (injection hs with hs; subst hs; rfl))
    | seed q e => apply same; simp only [step] at hs; split at hs <;> (first | cases hs; done | (injection hs with hs; subst hs; rfl))
    | random q e => apply same; simp only [step] at hs; split at hs <;> (first | cases hs; done | (injection hs with hs; subst hs; rfl))
    | port q e k => apply same; simp only [step] at hs; split at hs <;> (first | cases hs; done | (injection hs with hs; subst hs; rfl))
    | subPool q e => apply same; simp only [step] at hs; split at hs <;> (first | cases hs; done | (injection hs with hs; subst hs; rfl))

theorem word_of_bytes (k : Nat) : ∀ (w w' : Nat), w < 256 ^ k → w' < 256 ^ k → (∀ i < k, w / 256 ^ i % 256 = w' / 256 ^ i % 256) → w = w' := by
  induction k with
  | zero => intro w w' h h' _; simp at h h'; omega
  | succ k ih =>
    intro w w' h h' hb
    have h0 := hb 0 (by omega)
    simp at h0
    have h1 := ih (w / 256) (w' / 256) (by rw [Nat.pow_succ] at h; omega) (by rw [Nat.pow_succ] at h'; omega) (fun i hi => by
      have := hb (i + 1) (by omega)
      rw [Nat.pow_succ, Nat.mul_comm, ← Nat.div_div_eq_div_mul, ← Nat.div_div_eq_div_mul] at this
      exact this)
    omega

/-- Two ids of `k` words are equal only if the generator gives the same `k` words at two different places. -/
theorem unique_partial {g : Gens} (hg : ∀ s i, g.mt s i < 2 ^ 64) {ls : List Label} {st : St} (h : Run g ls st) (hf : NoLateFork ls) (hn : st.seeds.Nodup)
    {i j : Nat} {a b : Made} (ha : st.made[i]? = some a) (hb : st.made[j]? = some b) (hij : i ≠ j) {k : Nat} (hk : 0 < k) (hla : a.bytes.length = 8 * k)
    (hab : a.bytes = b.bytes) : Repeats g k a.seed a.pos b.seed b.pos := by
  have hap := places_apart h hf hn
  have hid := run_isId h
  have hda : ∀ s x, ¬ (Covers a s x ∧ Covers b s x) := by
    rcases Nat.lt_or_gt_of_ne hij with hlt | hlt
    · obtain ⟨h1, e1⟩ := List.getElem?_eq_some_iff.mp ha
      obtain ⟨h2, e2⟩ := List.getElem?_eq_some_iff.mp hb
      have := List.pairwise_iff_getElem.mp hap i j h1 h2 hlt
      rw [e1, e2] at this; exact this
    · obtain ⟨h1, e1⟩ := List.getElem?_eq_some_iff.mp ha
      obtain ⟨h2, e2⟩ := List.getElem?_eq_some_iff.mp hb
      have := List.pairwise_iff_getElem.mp hap j i h2 h1 hlt
      rw [e1, e2] at this; exact fun s x hh => this s x ⟨hh.2, hh.1⟩
  refine ⟨?_, ?_⟩
  · intro e
    injection e with e1 e2
    refine hda a.seed a.pos ⟨⟨rfl, Nat.le_refl _, by omega⟩, ⟨e1.symm, by omega, by rw [← hab]; omega⟩⟩
  · intro x hx
    have ia := (hid a (List.mem_of_getElem? ha)).2
    have ib := (hid b (List.mem_of_getElem? hb)).2
    have hp : (2 : Nat) ^ 64 = 256 ^ 8 := by decide
    apply word_of_bytes 8
    · rw [← hp]; exact hg _ _
    · rw [← hp]; exact hg _ _
    · intro y hy
      have e1 := ia (8 * x + y) (by omega)
      have e2 := ib (8 * x + y) (by rw [← hab]; omega)
      rw [← hab, e1] at e2
      have := Option.some.inj e2
      unfold byteAt at this
      have d1 : (8 * x + y) / 8 = x := by omega
      have d2 : (8 * x + y) % 8 = y := by omega
      rw [d1, d2] at this
      exact this

/-- The first id of a process takes the next number of the user's `random` as seed, and begins at the beginning. -/
theorem first_seed {g : Gens} {ls : List Label} {st st' : St} (h : Run g ls st) (hf : NoLateFork ls) {p n : Nat} (h1 : ∀ k, Label.newId p k ∉ ls)
    (h2 : ∀ u, Label.subPool p u ∉ ls) (hs : step g st (.newId p n) = some st') :
    ∃ m r, st'.made = st.made ++ [m] ∧ nextRandom g st p = some r ∧ m.seed = r % 2 ^ 64 ∧ m.pos = 0 ∧ st'.seeds = st.seeds ++ [m.seed] ∧
      ∃ c, st.procs.get? p = some c ∧ nextRandom g st' p = some (g.py c.pySeed (c.pyPos + 1)) := by
  rcases hc : st.procs.get? p with _ | c
  · simp only [step, hc] at hs; cases hs
  · rcases hset : c.isSet with _ | _
    · simp only [step, hc, ensure, hset] at hs
      injection hs with hs; subst hs
      refine ⟨_, _, rfl, by simp only [nextRandom, hc, Option.map_some], rfl, rfl, rfl, c, rfl, ?_⟩
      simp [nextRandom, draw, resetSeed]
    · rcases (run_inv h hf).set p c hc hset with ⟨k, hk⟩ | ⟨u, hu⟩
      · exact absurd hk (h1 k)
      · exact absurd hu (h2 u)

/-- Every later id leaves the user's `random` alone, and no seed is drawn. -/
theorem later_keeps {g : Gens} {ls : List Label} {st st1 st' : St} (h : Run g ls st) {p n : Nat} (h0 : step g st (.newId p n) = some st1) {k : Nat}
    (hs : step g st1 (.newId p k) = some st') : nextRandom g st' p = nextRandom g st1 p ∧ st'.seeds = st1.seeds := by
  obtain ⟨c, hc, hset, _⟩ := newId_proc h0
  simp only [step, hc, ensure, hset, if_true] at hs
  injection hs with hs; subst hs
  refine ⟨?_, rfl⟩
  simp [nextRandom, hc, draw]

/-- In a sub pool's process the ids come from a new stream, seeded with a number drawn after `random` was seeded with the uuid. -/
theorem sub_pool_seed {g : Gens} {st st1 : St} {p u : Nat} (h0 : step g st (.subPool p u) = some st1) (ls : List Label) {st2 : St}
    (hrun : ls.foldlM (step g) st1 = some st2) (hls : ∀ l ∈ ls, (∀ k, l ≠ .newId p k) ∧ ∀ u, l ≠ .subPool p u) {k : Nat} {st3 : St}
    (h3 : step g st2 (.newId p k) = some st3) : ∃ m, st3.made = st2.made ++ [m] ∧ m.seed = g.py u 0 % 2 ^ 64 ∧ m.pos = 0 := by
  rcases hc : st.procs.get? p with _ | c
  · simp only [step, hc] at h0; cases h0
  · simp only [step, hc] at h0
    injection h0 with h0; subst h0
    obtain ⟨c', a, b, d, e⟩ := keeps_all p ls _ _ (resetSeed g { c with pySeed := u, pyPos := 0 }) (by simp [reset]) rfl hrun hls
    obtain ⟨m, m1, _, m2, m3⟩ := newId_from a b h3
    exact ⟨m, m1, by rw [m2, d]; rfl, by rw [m3, e]; rfl⟩

/-! ## What goes wrong -/

theorem ids_from {g : Gens} {st : St} {p : Nat} {c : Proc} (hc : st.procs.get? p = some c) (hset : c.isSet = true) (n : Nat) :
    step g st (.newId p n) = some { st with procs := st.procs.set p (draw g c n).1, made := st.made ++ [⟨p, c.seed, c.pos, (draw g c n).2⟩] } := by
  simp only [step, hc, ensure, hset, if_true]

/-- **Refuted**: "ids made in different processes differ": after a fork of a process that has made an id, parent and child make the same ids. -/
theorem fork_refuted {g : Gens} {ls : List Label} {s : St} (h : Run g ls s) {p q : Nat} {c : Proc} (hp : s.procs.get? p = some c) (hset : c.isSet = true)
    (hq : s.procs.get? q = none) (e n : Nat) :
    ∃ s' a b, Run g (ls ++ [.fork p q e] ++ [.newId p n] ++ [.newId q n]) s' ∧ s'.made = s.made ++ [a] ++ [b] ∧ a.proc = p ∧ b.proc = q ∧ p ≠ q ∧
      a.bytes = b.bytes ∧ a.bytes.length = n := by
  have hpq : p ≠ q := fun e => by rw [e, hq] at hp; cases hp
  have h1 : step g s (.fork p q e) = some { s with procs := s.procs.set q { c with pySeed := e, pyPos := 0 } } := by simp only [step, hp, hq]
  have hp1 : ({ s with procs := s.procs.set q { c with pySeed := e, pyPos := 0 } } : St).procs.get? p = some c := by
    simp only [Dict.get?_set]; rw [if_neg (fun e => hpq e.symm)]; exact hp
  have h2 := ids_from hp1 hset (g := g) n
  refine ⟨_, _, _, ((h.snoc h1).snoc h2).snoc (ids_from (c := { c with pySeed := e, pyPos := 0 }) ?_ hset n), rfl, rfl, rfl, hpq, rfl, (draw_isId g c n).1⟩
  simp [hpq]

/-- the ids a process makes from some state on -/
def idsOf (g : Gens) : Proc → List Nat → List (List Nat)
  | _, [] => []
  | c, n :: ns => (draw g c n).2 :: idsOf g (draw g c n).1 ns

theorem run_ids {g : Gens} (p : Nat) (ns : List Nat) : ∀ {ls : List Label} {s : St} {c : Proc}, Run g ls s → s.procs.get? p = some c → c.isSet = true →
    ∃ s' ms, Run g (ls ++ ns.map (.newId p)) s' ∧ s'.made = s.made ++ ms ∧ ms.map (·.bytes) = idsOf g c ns ∧ (∀ m ∈ ms, m.proc = p) ∧
      ∀ q, q ≠ p → s'.procs.get? q = s.procs.get? q := by
  induction ns with
  | nil => intro ls s c h hc hs; exact ⟨s, [], by simpa using h, by simp, rfl, by simp, fun _ _ => rfl⟩
  | cons n ns ih =>
    intro ls s c h hc hs
    obtain ⟨s', ms, h1, h2, h3, h4, h5⟩ := ih (h.snoc (ids_from hc hs n)) (by simp only [Dict.get?_set, if_true]) (show (draw g c n).1.isSet = true from hs)
    refine ⟨s', ⟨p, c.seed, c.pos, (draw g c n).2⟩ :: ms, ?_, ?_, ?_, ?_, ?_⟩
    · simpa using h1
    · rw [h2]; simp
    · simp only [List.map_cons, h3, idsOf]
    · intro m hm; rcases List.mem_cons.mp hm with rfl | hm; rfl; exact h4 m hm
    · intro q hq
      rw [h5 q hq]; simp only [Dict.get?_set]; rw [if_neg (fun e => hq e.symm)]

/-- the first id of a process that has no seed yet -/
theorem first_id {g : Gens} {st : St} {p : Nat} {c : Proc} (hc : st.procs.get? p = some c) (hset : c.isSet = false) (n : Nat) :
    ∃ st', step g st (.newId p n) = some st' ∧ st'.made = st.made ++ [⟨p, (resetSeed g c).seed, 0, (draw g (resetSeed g c) n).2⟩] ∧
      st'.procs = (st.procs.set p (resetSeed g c)).set p (draw g (resetSeed g c) n).1 := by
  refine ⟨_, by simp only [step, hc, ensure, hset]; rfl, rfl, rfl⟩

theorem run_ids_unset {g : Gens} (p : Nat) (n : Nat) (ns : List Nat) {ls : List Label} {s : St} {c : Proc} (h : Run g ls s) (hc : s.procs.get? p = some c)
    (hset : c.isSet = false) :
    ∃ s' ms, Run g (ls ++ (n :: ns).map (.newId p)) s' ∧ s'.made = s.made ++ ms ∧ ms.map (·.bytes) = idsOf g (resetSeed g c) (n :: ns) ∧ (∀ m ∈ ms, m.proc = p) ∧
      ∀ q, q ≠ p → s'.procs.get? q = s.procs.get? q := by
  obtain ⟨s1, e1, e2, e3⟩ := first_id (g := g) hc hset n
  obtain ⟨s', ms, h1, h2, h3, h4, h5⟩ := run_ids p ns (h.snoc e1) (c := (draw g (resetSeed g c) n).1) (by rw [e3]; simp) rfl
  refine ⟨s', ⟨p, (resetSeed g c).seed, 0, (draw g (resetSeed g c) n).2⟩ :: ms, ?_, ?_, ?_, ?_, ?_⟩
  · simpa using h1
  · rw [h2, e2]; simp
  · simp only [List.map_cons, h3, idsOf]
  · intro m hm; rcases List.mem_cons.mp hm with rfl | hm; rfl; exact h4 m hm
  · intro q hq
    rw [h5 q hq, e3]; simp only [Dict.get?_set]; rw [if_neg (fun e => hq e.symm), if_neg (fun e => hq e.symm)]

/-- **Refuted**: "ids made in different processes differ": two processes whose users seed `random` alike before the first id make the same ids for
ever, however many. -/
theorem same_seed_refuted (g : Gens) (p q : Nat) (hpq : p ≠ q) (e e' x n : Nat) (ns : List Nat) :
    ∃ s a b, Run g ([.start p e, .start q e', .seed p x, .seed q x] ++ (n :: ns).map (.newId p) ++ (n :: ns).map (.newId q)) s ∧ s.made = a ++ b ∧
      (∀ m ∈ a, m.proc = p) ∧ (∀ m ∈ b, m.proc = q) ∧ a.map (·.bytes) = b.map (·.bytes) ∧ a.length = ns.length + 1 ∧ b.length = ns.length + 1 := by
  have hqp : q ≠ p := fun e => hpq e.symm
  have r0 : Run g ([] ++ [.start p e]) ⟨[(p, ⟨e, 0, 5489, 0, false⟩)], [], []⟩ := Run.snoc Run.init rfl
  have r1 := r0.snoc (l := .start q e') (s' := ⟨[(p, ⟨e, 0, 5489, 0, false⟩), (q, ⟨e', 0, 5489, 0, false⟩)], [], []⟩) (by simp [step, Dict.get?, Dict.set, hpq])
  have r2 := r1.snoc (l := .seed p x) (s' := ⟨[(p, ⟨x, 0, 5489, 0, false⟩), (q, ⟨e', 0, 5489, 0, false⟩)], [], []⟩) (by simp [step, Dict.get?, Dict.set])
  have r3 := r2.snoc (l := .seed q x) (s' := ⟨[(p, ⟨x, 0, 5489, 0, false⟩), (q, ⟨x, 0, 5489, 0, false⟩)], [], []⟩) (by simp [step, Dict.get?, Dict.set, hpq])
  have hp : (⟨[(p, ⟨x, 0, 5489, 0, false⟩), (q, ⟨x, 0, 5489, 0, false⟩)], [], []⟩ : St).procs.get? p = some ⟨x, 0, 5489, 0, false⟩ := by simp [Dict.get?]
  have hq : (⟨[(p, ⟨x, 0, 5489, 0, false⟩), (q, ⟨x, 0, 5489, 0, false⟩)], [], []⟩ : St).procs.get? q = some ⟨x, 0, 5489, 0, false⟩ := by simp [Dict.get?, hpq]
  obtain ⟨s1, a, h1, h2, h3, h4, h5⟩ := run_ids_unset p n ns r3 hp rfl
  obtain ⟨s2, b, k1, k2, k3, k4, _⟩ := run_ids_unset q n ns h1 ((h5 q hqp).trans hq) rfl
  have hlen : ∀ (c : Proc) (l : List Nat), (idsOf g c l).length = l.length := by
    intro c l; induction l generalizing c with
    | nil => rfl
    | cons y l ih => simp [idsOf, ih]
  refine ⟨s2, a, b, by simpa using k1, by rw [k2, h2]; rfl, h4, k4, h3.trans k3.symm, ?_, ?_⟩
  · have := congrArg List.length h3; rw [List.length_map, hlen] at this; simpa using this
  · have := congrArg List.length k3; rw [List.length_map, hlen] at this; simpa using this

theorem set_set (d : Dict Nat Proc) (k : Nat) (v w : Proc) : (d.set k v).set k w = d.set k w := by
  induction d with
  | nil => simp [Dict.set]
  | cons x d ih =>
    obtain ⟨a, b⟩ := x
    by_cases e : a = k
    · simp [Dict.set, e]
    · simp [Dict.set, e, ih]

/-- **Refuted**: "what the user draws from `random` is decided by the user's seed": `get_next_port` seeds the generator anew, with something else. -/
theorem port_reseeds_refuted (g : Gens) {s : St} {p : Nat} {c : Proc} (hc : s.procs.get? p = some c) (u k : Nat) :
    ∃ s', ∀ x, (step g s (.seed p x)).bind (fun t => step g t (.port p u k)) = some s' ∧ nextRandom g s' p = some (g.py u k) := by
  refine ⟨{ s with procs := (s.procs.set p { c with pySeed := u, pyPos := k }) }, fun x => ⟨?_, by simp [nextRandom]⟩⟩
  simp only [step, hc, Option.bind_some, Dict.get?_set, if_true]
  congr 2
  exact set_set _ _ _ _

/-! ## The hypotheses are met -/

/-- a generator whose streams never repeat within a run of words -/
def exG : Gens := ⟨fun s i => (s * 1000 + i) % 2 ^ 64, fun s i => s + i⟩

/-- two processes; one is forked before it makes an id, and a sub pool is started in the child; everybody makes two ids -/
def exLs : List Label := [.start 0 7, .fork 0 1 90, .newId 0 32, .subPool 1 500, .newId 1 32, .random 0 3, .newId 0 32, .seed 1 7, .newId 1 5, .newId 1 32]

def exEnd : St := (exLs.foldlM (step exG) init).getD init

theorem run_foldlM {g : Gens} (ls : List Label) : ∀ {ls0 : List Label} {s s' : St}, Run g ls0 s → ls.foldlM (step g) s = some s' → Run g (ls0 ++ ls) s' := by
  induction ls with
  | nil => intro ls0 s s' h e; injection e with e; subst e; simpa using h
  | cons l ls ih =>
    intro ls0 s s' h e
    rw [List.foldlM_cons] at e
    rcases hstep : step g s l with _ | s1
    · rw [hstep] at e; cases e
    · rw [hstep] at e
      simpa using ih (h.snoc hstep) e

example : Run exG exLs exEnd := by
  have := run_foldlM (g := exG) exLs Run.init (s' := exEnd) (by rfl)
  simpa using this

example : exEnd.seeds = [7, 500] ∧ exEnd.made.map (fun m => (m.proc, m.seed, m.pos, m.bytes.length)) = [(0, 7, 0, 32), (1, 500, 0, 32), (0, 7, 4, 32), (1, 500, 4, 5), (1, 500, 5, 32)] := by
  decide

example : exEnd.seeds.Nodup := by decide

example : NoLateFork exLs := by
  intro ls1 p q e ls2 h
  rcases ls1 with _ | ⟨a, _ | ⟨b, ls1⟩⟩
  · simp [exLs] at h
  · simp [exLs] at h
    rw [← h.1]; simp
  · simp only [exLs, List.cons_append, List.cons.injEq] at h
    obtain ⟨_, _, h⟩ := h
    have : Label.fork p q e ∈ ([.newId 0 32, .subPool 1 500, .newId 1 32, .random 0 3, .newId 0 32, .seed 1 7, .newId 1 5, .newId 1 32] : List Label) := by
      rw [h]; simp
    simp at this

example : ∀ s i, exG.mt s i < 2 ^ 64 := fun s i => Nat.mod_lt _ (by decide)

/-- the hypotheses of `fork_refuted` -/
example : ∃ c, exEnd.procs.get? 0 = some c ∧ c.isSet = true ∧ exEnd.procs.get? 2 = none := ⟨_, rfl, rfl, rfl⟩

/-- equal ids do occur when the generator repeats itself -/
example : ∃ st, Run ⟨fun _ _ => 3, fun s _ => s⟩ [.start 0 1, .newId 0 8, .newId 0 8] st ∧ st.made.map (·.bytes) = [[3, 0, 0, 0, 0, 0, 0, 0], [3, 0, 0, 0, 0, 0, 0, 0]] :=
  ⟨_, run_foldlM (ls0 := []) [.start 0 1, .newId 0 8, .newId 0 8] Run.init rfl, by decide⟩

end Xoscar.Ids

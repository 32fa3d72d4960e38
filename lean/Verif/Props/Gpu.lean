import Verif.Spec.Gpu
import Verif.Proof.Base
import Verif.Proof.Reach
/-!
# C92: GPU devices
-/
namespace Xoscar.Gpu
open Reach (Text pyInt strip str pyInt_iff pyInt_str Number)

/-! ## the process list -/

theorem processes_lists {v : View} {l : List Nat} (h : v.Lists l) : processes v = .ok l := by
  cases h
  simp only [processes]
  by_cases e : l.length = 0
  · rw [if_pos e, List.eq_nil_of_length_eq_zero e]
  · rw [if_neg e, if_pos (by omega)]

theorem lists_uniq {v : View} {l m : List Nat} (h : v.Lists l) (h' : v.Lists m) : l = m := by
  have h1 := processes_lists h
  rw [processes_lists h'] at h1
  exact (Except.ok.inj h1).symm

theorem isIn_lists {v : View} {l : List Nat} (h : v.Lists l) (pid : Nat) : isIn pid v = .ok (decide (pid ∈ l)) := by
  unfold isIn
  rw [processes_lists h]
  simp only [Except.ok.injEq]
  by_cases e : pid ∈ l
  · rw [decide_eq_true e, List.any_eq_true]; exact ⟨pid, e, by simp⟩
  · rw [decide_eq_false e, Bool.eq_false_iff, Ne, List.any_eq_true]
    rintro ⟨x, hx, hxe⟩; simp at hxe; exact e (hxe ▸ hx)

/-- If processes come or go between the two queries the list is the later one, unless it more than doubled (an error) or was empty at first. -/
theorem listing (first : Nat) (procs : List Nat) :
    (0 < first → procs.length ≤ first * 2 + 5 → processes (.ok first procs) = .ok procs) ∧
    (0 < first → first * 2 + 5 < procs.length → processes (.ok first procs) = .error .nvml) ∧
    processes (.ok 0 procs) = .ok [] := by
  simp only [processes]
  refine ⟨fun h h' => ?_, fun h h' => ?_, rfl⟩
  · rw [if_neg (by omega), if_pos h']
  · rw [if_neg (by omega), if_neg (by omega)]

/-! ## the search -/

theorem scanMig_spec (pid : Nat) (slots : List Slot) : ∀ (k0 : Nat), (∀ s ∈ slots, s.Quiet) →
    (∃ k, scanMig pid k0 slots = .ok (some (k0 + k)) ∧ (∃ v l, slots[k]? = some (.dev v) ∧ v.Lists l ∧ pid ∈ l) ∧
      ∀ j < k, ∀ v l, slots[j]? = some (.dev v) → v.Lists l → pid ∉ l) ∨
    (scanMig pid k0 slots = .ok none ∧ ∀ (j : Nat) v l, slots[j]? = some (.dev v) → v.Lists l → pid ∉ l) := by
  induction slots with
  | nil => intro k0 _; right; exact ⟨rfl, by simp⟩
  | cons s t ih =>
    intro k0 hq
    have hskip : (∀ v l, s = .dev v → v.Lists l → pid ∉ l) → scanMig pid k0 (s :: t) = scanMig pid (k0 + 1) t →
        (∃ k, scanMig pid k0 (s :: t) = .ok (some (k0 + k)) ∧ (∃ v l, (s :: t)[k]? = some (.dev v) ∧ v.Lists l ∧ pid ∈ l) ∧
          ∀ j < k, ∀ v l, (s :: t)[j]? = some (.dev v) → v.Lists l → pid ∉ l) ∨
        (scanMig pid k0 (s :: t) = .ok none ∧ ∀ (j : Nat) v l, (s :: t)[j]? = some (.dev v) → v.Lists l → pid ∉ l) := by
      intro hs he
      rw [he]
      rcases ih (k0 + 1) (fun x hx => hq x (by simp [hx])) with ⟨k, h1, h2, h3⟩ | ⟨h1, h2⟩
      · left
        refine ⟨k + 1, by rw [h1]; congr 2; omega, by simpa using h2, ?_⟩
        intro j hj v l hv hl
        cases j with
        | zero => simp at hv; exact hs v l hv hl
        | succ j => exact h3 j (by omega) v l (by simpa using hv) hl
      · right
        refine ⟨h1, ?_⟩
        intro j v l hv hl
        cases j with
        | zero => simp at hv; exact hs v l hv hl
        | succ j => exact h2 j v l (by simpa using hv) hl
    rcases s with _ | _ | v
    · exact hskip (by simp) rfl
    · exact (hq .err (by simp)).elim
    · obtain ⟨l, hl⟩ := hq (.dev v) (by simp)
      by_cases hm : pid ∈ l
      · left
        refine ⟨0, ?_, ⟨v, l, rfl, hl, hm⟩, fun j hj => absurd hj (by omega)⟩
        simp only [scanMig, isIn_lists hl, decide_eq_true hm]; rfl
      · refine hskip ?_ ?_
        · intro v' l' hv' hl'; cases hv'; rw [lists_uniq hl' hl]; exact hm
        · simp only [scanMig, isIn_lists hl, decide_eq_false hm]

/-- what a device shows of a process -/
def HasD (pid : Nat) (d : Device) (k : Option Nat) : Prop :=
  match k with
  | none => (d.mig = .disabled ∨ d.mig = .unsupported) ∧ ∃ l, d.view.Lists l ∧ pid ∈ l
  | some k => ∃ slots v l, d.mig = .enabled slots ∧ slots[k]? = some (.dev v) ∧ v.Lists l ∧ pid ∈ l

theorem has_iff (w : World) (pid i : Nat) (k : Option Nat) : Has w pid i k ↔ ∃ d, w.devices[i]? = some d ∧ HasD pid d k := by
  constructor
  · intro h
    cases h with
    | whole h1 h2 h3 h4 => exact ⟨_, h1, h2, _, h3, h4⟩
    | part h1 h2 h3 h4 h5 => exact ⟨_, h1, _, _, _, h2, h3, h4, h5⟩
  · rintro ⟨d, h1, h2⟩
    cases k with
    | none => obtain ⟨a, l, b, c⟩ := h2; exact .whole h1 a b c
    | some k => obtain ⟨s, v, l, a, b, c, e⟩ := h2; exact .part h1 a b c e

theorem scan_spec (pid : Nat) (ds : List Device) : ∀ (i0 : Nat), (∀ d ∈ ds, d.Quiet) →
    (∃ i k d, scan pid i0 ds = .ok (some ⟨i0 + i, k, d.uuid⟩) ∧ ds[i]? = some d ∧ HasD pid d k ∧
      (∀ a b, k = some b → a < b → ¬ HasD pid d (some a)) ∧ ∀ j < i, ∀ d' k', ds[j]? = some d' → ¬ HasD pid d' k') ∨
    (scan pid i0 ds = .ok none ∧ ∀ (j : Nat) d' k', ds[j]? = some d' → ¬ HasD pid d' k') := by
  induction ds with
  | nil => intro i0 _; right; exact ⟨rfl, by simp⟩
  | cons d t ih =>
    intro i0 hq
    have hd := hq d (by simp)
    have hskip : (∀ k', ¬ HasD pid d k') → scan pid i0 (d :: t) = scan pid (i0 + 1) t →
        (∃ i k d', scan pid i0 (d :: t) = .ok (some ⟨i0 + i, k, d'.uuid⟩) ∧ (d :: t)[i]? = some d' ∧ HasD pid d' k ∧
          (∀ a b, k = some b → a < b → ¬ HasD pid d' (some a)) ∧ ∀ j < i, ∀ d'' k', (d :: t)[j]? = some d'' → ¬ HasD pid d'' k') ∨
        (scan pid i0 (d :: t) = .ok none ∧ ∀ (j : Nat) d' k', (d :: t)[j]? = some d' → ¬ HasD pid d' k') := by
      intro hn he
      rw [he]
      rcases ih (i0 + 1) (fun x hx => hq x (by simp [hx])) with ⟨i, k, d', h1, h2, h3, h4, h5⟩ | ⟨h1, h2⟩
      · left
        refine ⟨i + 1, k, d', by rw [h1]; congr 3; omega, by simpa using h2, h3, h4, ?_⟩
        intro j hj d'' k' hv
        cases j with
        | zero => simp at hv; subst hv; exact hn k'
        | succ j => exact h5 j (by omega) d'' k' (by simpa using hv)
      · right
        refine ⟨h1, ?_⟩
        intro j d' k' hv
        cases j with
        | zero => simp at hv; subst hv; exact hn k'
        | succ j => exact h2 j d' k' (by simpa using hv)
    have whole : (d.mig = .disabled ∨ d.mig = .unsupported) → (∃ l, d.view.Lists l) → (isIn pid d.view = .ok true → scan pid i0 (d :: t) = .ok (some ⟨i0, none, d.uuid⟩)) →
        (isIn pid d.view = .ok false → scan pid i0 (d :: t) = scan pid (i0 + 1) t) → (∃ i k d', scan pid i0 (d :: t) = .ok (some ⟨i0 + i, k, d'.uuid⟩) ∧ (d :: t)[i]? = some d' ∧ HasD pid d' k ∧
          (∀ a b, k = some b → a < b → ¬ HasD pid d' (some a)) ∧ ∀ j < i, ∀ d'' k', (d :: t)[j]? = some d'' → ¬ HasD pid d'' k') ∨
        (scan pid i0 (d :: t) = .ok none ∧ ∀ (j : Nat) d' k', (d :: t)[j]? = some d' → ¬ HasD pid d' k') := by
      intro hmig hl heT heF
      obtain ⟨l, hl⟩ := hl
      rw [isIn_lists hl] at heT heF
      by_cases hm : pid ∈ l
      · left
        have he := heT (by rw [decide_eq_true hm])
        exact ⟨0, none, d, by rw [he]; rfl, rfl, ⟨hmig, l, hl, hm⟩, by simp, fun j hj => absurd hj (by omega)⟩
      · have he := heF (by rw [decide_eq_false hm])
        refine hskip ?_ he
        intro k' hk
        cases k' with
        | none => obtain ⟨_, l', a, b⟩ := hk; rw [lists_uniq a hl] at b; exact hm b
        | some k' => obtain ⟨s, v, l', a, _⟩ := hk; rcases hmig with e | e <;> rw [e] at a <;> cases a
    unfold Device.Quiet at hd
    rcases hmig : d.mig with _ | _ | _ | slots
    · rw [hmig] at hd; exact whole (.inl hmig) hd (fun e => by simp only [scan, hmig, e]) (fun e => by simp only [scan, hmig, e])
    · rw [hmig] at hd; exact whole (.inr hmig) hd (fun e => by simp only [scan, hmig, e]) (fun e => by simp only [scan, hmig, e])
    · rw [hmig] at hd; exact hd.elim
    · rw [hmig] at hd
      rcases scanMig_spec pid slots 0 hd with ⟨k, h1, ⟨v, l, h2, h3, h4⟩, h5⟩ | ⟨h1, h2⟩
      · left
        rw [Nat.zero_add] at h1
        have he : scan pid i0 (d :: t) = .ok (some ⟨i0, some k, d.uuid⟩) := by simp only [scan, hmig, h1]
        refine ⟨0, some k, d, by rw [he]; rfl, rfl, ⟨slots, v, l, hmig, h2, h3, h4⟩, ?_, fun j hj => absurd hj (by omega)⟩
        rintro a b hb hab ⟨s', v', l', a1, a2, a3, a4⟩
        injection hb with hb; subst hb
        rw [hmig] at a1; injection a1 with a1; subst a1
        exact h5 a hab v' l' a2 a3 a4
      · have he : scan pid i0 (d :: t) = scan pid (i0 + 1) t := by simp only [scan, hmig, h1]
        refine hskip ?_ he
        intro k' hk
        cases k' with
        | none => obtain ⟨a, _⟩ := hk; rcases a with e | e <;> rw [hmig] at e <;> cases e
        | some k' =>
          obtain ⟨s, v, l', a, b, c, e⟩ := hk
          rw [hmig] at a; injection a with a; subst a
          exact h2 k' v l' b c e

/-! ## histories -/

/-- what a process does: any of the calls, in worlds of a kind, and forks -/
inductive Run (P : World → Prop) : St → Prop
  | fresh (pid : Nat) : Run P (fresh pid)
  | fork {st : St} (pid : Nat) : Run P st → Run P (fork st pid)
  | count {st : St} {w : World} : Run P st → P w → Run P (getCount st w).1
  | info {st : St} {w : World} (i : Int) : Run P st → P w → Run P (getInfo st w i).1
  | context {st : St} {w : World} : Run P st → P w → Run P (getContext st w).1
  | index {st : St} {w : World} (t : Text) : Run P st → P w → Run P (indexAndUuid st w t).1
  | status {st : St} {w : World} (wsl : Bool) (r : Readings) (i : Int) : Run P st → P w → Run P (getStatus wsl st w r i).1

theorem getCount_state (st : St) (w : World) : ∃ n, (getCount st w).1 = st ∨ (getCount st w).1 = { initNvml st w with count := n } := by
  unfold getCount
  split
  · exact ⟨none, .inl rfl⟩
  · rename_i hc
    have hc' : (initNvml st w).count = none := by unfold initNvml; split <;> exact hc
    dsimp only
    split
    · exact ⟨none, .inr (by rw [← hc'])⟩
    · split
      · exact ⟨_, .inr rfl⟩
      · split
        · exact ⟨_, .inr rfl⟩
        · exact ⟨none, .inr (by rw [← hc'])⟩

theorem getInfo_state (st : St) (w : World) (i : Int) : ∃ d, (getInfo st w i).1 = st ∨ (getInfo st w i).1 = { initAll st w with infos := d } := by
  unfold getInfo
  split
  · exact ⟨[], .inl rfl⟩
  · dsimp only
    split
    · exact ⟨(initAll st w).infos, .inr rfl⟩
    · split
      · exact ⟨(initAll st w).infos, .inr rfl⟩
      · exact ⟨(initAll st w).infos, .inr rfl⟩
      · split
        · exact ⟨(initAll st w).infos, .inr rfl⟩
        · split
          · exact ⟨(initAll st w).infos, .inr rfl⟩
          · exact ⟨_, .inr rfl⟩

theorem getContext_state (st : St) (w : World) : (getContext st w).1 = initAll st w := by
  unfold getContext
  dsimp only
  split
  · rfl
  · split <;> rfl

theorem indexAndUuid_state (st : St) (w : World) (t : Text) : (indexAndUuid st w t).1 = initNvml st w := by
  unfold indexAndUuid
  dsimp only
  repeat' split
  all_goals rfl

theorem init_twice (st : St) (w : World) : initAll (initAll st w) w = initAll st w := by
  unfold initAll initNvml initCp
  by_cases e : st.initPid = some st.pid
  · simp only [if_pos e]
    by_cases h : st.nvml ≠ .absent ∧ st.cuda ≠ .absent
    · simp [h]
    · simp [h, e]
  · simp only [if_neg e]
    by_cases h : w.nvml ≠ .absent ∧ w.cuda ≠ .absent
    · simp [h]
    · simp [h, e]

theorem getStatus_state (wsl : Bool) (st : St) (w : World) (r : Readings) (i : Int) : ∃ d, (getStatus wsl st w r i).1 = { initAll st w with infos := d } := by
  have h : ∃ d, (getInfo (initAll st w) w i).1 = { initAll st w with infos := d } := by
    obtain ⟨d, e | e⟩ := getInfo_state (initAll st w) w i
    · exact ⟨(initAll st w).infos, e⟩
    · rw [init_twice] at e; exact ⟨d, e⟩
  unfold getStatus
  dsimp only
  split
  · exact ⟨(initAll st w).infos, rfl⟩
  · split <;> exact h

/-- what is known of the libraries a process holds: kept by every call -/
theorem run_keeps {P : World → Prop} (J : St → Prop) (h0 : ∀ pid, J (fresh pid)) (hf : ∀ st pid, J st → J (fork st pid))
    (hn : ∀ st w, J st → P w → J (initNvml st w)) (ha : ∀ st w, J st → P w → J (initAll st w))
    (hc : ∀ st n, J st → J { st with count := n }) (hi : ∀ st d, J st → J { st with infos := d }) {st : St} (h : Run P st) : J st := by
  induction h with
  | fresh pid => exact h0 pid
  | fork pid _ ih => exact hf _ pid ih
  | count _ hp ih =>
    rename_i st w _
    obtain ⟨n, e | e⟩ := getCount_state st w
    · rw [e]; exact ih
    · rw [e]; exact hc _ _ (hn _ _ ih hp)
  | info i _ hp ih =>
    rename_i st w _
    obtain ⟨n, e | e⟩ := getInfo_state st w i
    · rw [e]; exact ih
    · rw [e]; exact hi _ _ (ha _ _ ih hp)
  | context _ hp ih => rw [getContext_state]; exact ha _ _ ih hp
  | index t _ hp ih => rw [indexAndUuid_state]; exact hn _ _ ih hp
  | status wsl r i _ hp ih =>
    rename_i st w _
    obtain ⟨d, e⟩ := getStatus_state wsl st w r i
    rw [e]; exact hi _ _ (ha _ _ ih hp)

/-- NVML works and CUDA is there, always -/
def Working (w : World) : Prop := w.nvml = .good ∧ w.cuda ≠ .absent

theorem working_init {st : St} (h : st.initPid = some st.pid → st.nvml = .good ∧ st.cuda ≠ .absent) {w : World} (hw : Working w) :
    (initAll st w).nvml = .good ∧ (initAll st w).cuda ≠ .absent ∧ (initAll st w).initPid = some st.pid ∧ (initAll st w).pid = st.pid := by
  obtain ⟨w1, w2⟩ := hw
  unfold initAll initNvml initCp
  by_cases e : st.initPid = some st.pid
  · obtain ⟨h1, h2⟩ := h e
    simp only [if_pos e]
    simp [h1, h2]
  · simp [e, w1, w2]

theorem run_working {st : St} (h : Run Working st) : st.initPid = some st.pid → st.nvml = .good ∧ st.cuda ≠ .absent := by
  -- the libraries are good as long as they were loaded for some process
  have key : (st.initPid ≠ none → st.nvml = .good ∧ st.cuda ≠ .absent) := by
    refine run_keeps (P := Working) (fun st => st.initPid ≠ none → st.nvml = .good ∧ st.cuda ≠ .absent) ?_ ?_ ?_ ?_ ?_ ?_ h
    · intro pid h; exact absurd rfl h
    · intro st pid h; exact h
    · intro st w h hw
      unfold initNvml
      split
      · exact h
      · exact fun e => ⟨hw.1, (h e).2⟩
    · intro st w h hw
      have := working_init (st := st) (fun e => h (by rw [e]; simp)) hw
      exact fun _ => ⟨this.1, this.2.1⟩
    · intro st n h; exact h
    · intro st d h; exact h
  exact fun e => key (by rw [e]; simp)

/-- **The context found is the right one**: with working libraries and a driver that answers, a call anywhere in any history finds the first place
where the driver names this process, and finds nothing exactly if there is none. -/
theorem context_exact {st : St} (h : Run Working st) {w : World} (hw : Working w) (hq : ∀ d ∈ w.devices, d.Quiet) :
    (∃ i k d, (getContext st w).2 = .ok (some ⟨i, k, d.uuid⟩) ∧ w.devices[i]? = some d ∧ Has w st.pid i k ∧ ∀ i' k', Has w st.pid i' k' → ¬ Before i' k' i k) ∨
    ((getContext st w).2 = .ok none ∧ ∀ i k, ¬ Has w st.pid i k) := by
  obtain ⟨h1, h2, h3, h4⟩ := working_init (run_working h) hw
  have e : (getContext st w).2 = scan st.pid 0 w.devices := by
    unfold getContext
    simp only [h1, h3, h4]
    simp
  rw [e]
  rcases scan_spec st.pid w.devices 0 hq with ⟨i, k, d, a1, a2, a3, a4, a5⟩ | ⟨a1, a2⟩
  · left
    refine ⟨i, k, d, by rw [a1, Nat.zero_add], a2, (has_iff _ _ _ _).mpr ⟨d, a2, a3⟩, ?_⟩
    intro i' k' hh hb
    obtain ⟨d', b1, b2⟩ := (has_iff _ _ _ _).mp hh
    rcases hb with hb | ⟨hb, a, b, rfl, rfl, hab⟩
    · exact a5 i' hb d' k' b1 b2
    · rw [hb, a2] at b1; injection b1 with b1; subst b1
      exact a4 a b rfl hab b2
  · right
    refine ⟨a1, ?_⟩
    intro i k hh
    obtain ⟨d, b1, b2⟩ := (has_iff _ _ _ _).mp hh
    exact a2 i d k b1 b2

/-- **No driver, no context**: in a process whose worlds have never had both libraries, there is never a context, and no error. -/
theorem no_driver {st : St} (h : Run (fun w => w.nvml = .absent ∨ w.cuda = .absent) st) {w : World} (hw : w.nvml = .absent ∨ w.cuda = .absent) :
    (getContext st w).2 = .ok none ∧ (∀ i, (getInfo st w i).2 = .ok none) ∧ ∀ wsl r i, (getStatus wsl st w r i).2 = .ok none := by
  have key : st.initPid = none ∧ st.infos = [] := by
    refine run_keeps (P := fun w => w.nvml = .absent ∨ w.cuda = .absent) (fun st => st.initPid = none) ?_ ?_ ?_ ?_ ?_ ?_ h |> fun k => ⟨k, ?_⟩
    · intro _; rfl
    · intro _ _ h; exact h
    · intro st w h _; unfold initNvml; split <;> exact h
    · intro st w h hw
      unfold initAll initNvml initCp
      simp only [h]
      rcases hw with hw | hw <;> simp [hw, h]
    · intro _ _ h; exact h
    · intro _ _ h; exact h
    · clear k
      have aux : st.initPid = none ∧ st.infos = [] := by
        clear hw
        induction h with
        | fresh pid => exact ⟨rfl, rfl⟩
        | fork pid _ ih => exact ih
        | count _ hp ih =>
          rename_i st w _
          obtain ⟨n, e | e⟩ := getCount_state st w
          · rw [e]; exact ih
          · rw [e]; unfold initNvml; simp only [ih.1]; exact ⟨rfl, ih.2⟩
        | info i _ hp ih =>
          rename_i st w _
          have : (initAll st w).initPid = none ∧ (initAll st w).infos = [] := by
            unfold initAll initNvml initCp
            simp only [ih.1]
            rcases hp with hp | hp <;> simp [hp, ih.2]
          unfold getInfo
          simp [ih.2, Dict.get?, this.1, this.2]
        | context _ hp ih =>
          rename_i st w _
          rw [getContext_state]
          unfold initAll initNvml initCp
          simp only [ih.1]
          rcases hp with hp | hp <;> simp [hp, ih.2]
        | index t _ hp ih =>
          rename_i st w _
          rw [indexAndUuid_state]
          unfold initNvml
          simp [ih.1, ih.2]
        | status wsl r i _ hp ih =>
          rename_i st w _
          have : (initAll st w).initPid = none ∧ (initAll st w).infos = [] := by
            unfold initAll initNvml initCp
            simp only [ih.1]
            rcases hp with hp | hp <;> simp [hp, ih.2]
          unfold getStatus
          simp [this.1, this.2]
      exact aux.2
  obtain ⟨k1, k2⟩ := key
  have e : (initAll st w).initPid = none := by
    unfold initAll initNvml initCp
    simp only [k1]
    rcases hw with hw | hw <;> simp [hw]
  refine ⟨?_, fun i => ?_, fun wsl r i => ?_⟩
  · simp [getContext, e]
  · simp [getInfo, e, k2, Dict.get?]
  · simp [getStatus, e]

/-! ## counting and naming devices -/

theorem commas_ne_nil (v : Text) : commas v ≠ [] := by
  cases v with
  | nil => simp [commas]
  | cons c t =>
    simp only [commas]
    split
    · simp
    · split <;> simp

theorem commas_none {e : Text} (h : ',' ∉ e) : commas e = [e] := by
  induction e with
  | nil => rfl
  | cons c t ih =>
    have := ih (fun x => h (by simp [x]))
    simp only [commas, this]
    rw [if_neg (fun x => h (by simp [x]))]

theorem commas_append {e : Text} (h : ',' ∉ e) (t : Text) : commas (e ++ ',' :: t) = e :: commas t := by
  induction e with
  | nil =>
    simp only [List.nil_append, commas]
    split
    · rename_i x; exact absurd x (commas_ne_nil t)
    · rename_i x; simp [x]
  | cons c e ih =>
    have := ih (fun x => h (by simp [x]))
    simp only [List.cons_append, commas, this]
    rw [if_neg (fun x => h (by simp [x]))]

theorem commas_of (v : Text) (es : List Text) (h : Entries v es) : commas v = es := by
  obtain ⟨h0, h1, h2⟩ := h
  subst h2
  induction es with
  | nil => exact absurd rfl h0
  | cons e t ih =>
    cases t with
    | nil => simpa [List.intercalate] using commas_none (h1 e (by simp))
    | cons e' t =>
      have := ih (by simp) (fun x hx => h1 x (by simp [hx]))
      have e1 : List.intercalate [','] (e :: e' :: t) = e ++ ',' :: List.intercalate [','] (e' :: t) := by simp [List.intercalate]
      rw [e1, commas_append (h1 e (by simp)), this]

/-- What a first call counts: all devices of the machine, or the entries of the environment variable, none if it is blank or `-1`. -/
theorem count_exact {st : St} (hst : st.count = none) {w : World} (hw : (initNvml st w).nvml = .good) :
    (w.visible = none → (getCount st w).2 = .ok (some w.devices.length)) ∧
    (∀ v, w.visible = some v → (strip v = [] ∨ strip v = ['-', '1']) → (getCount st w).2 = .ok (some 0)) ∧
    ∀ v es, w.visible = some v → Entries (strip v) es → es ≠ [[]] → es ≠ [['-', '1']] → (getCount st w).2 = .ok (some es.length) := by
  refine ⟨?_, ?_, ?_⟩
  · intro hv; simp [getCount, hst, hw, hv]
  · intro v hv hs
    simp only [getCount, hst, hw, hv]
    have : countVisible v = 0 := by unfold countVisible; rw [if_pos hs]
    rw [this]
  · intro v es hv he h1 h2
    simp only [getCount, hst, hw, hv]
    have hc := commas_of _ _ he
    have : countVisible v = es.length := by
      unfold countVisible
      rw [if_neg, hc]
      rintro (e | e)
      · rw [e] at hc; exact h1 hc.symm
      · rw [e] at hc; exact h2 hc.symm
    rw [this]

/-- The count is never asked for again: not when the variable or the machine changes, nor in a child. -/
theorem count_stays {st : St} {w : World} {n : Nat} (h : (getCount st w).2 = .ok (some n)) (w' : World) :
    (getCount (getCount st w).1 w').2 = .ok (some n) ∧ ∀ pid, (getCount (fork (getCount st w).1 pid) w').2 = .ok (some n) := by
  have key : (getCount st w).1.count = some n := by
    revert h
    unfold getCount
    rcases hc : st.count with _ | m
    · dsimp only
      rcases hn : (initNvml st w).nvml with _ | _ | _
      · intro h; cases h
      · rcases hv : w.visible with _ | v
        · intro h; cases h
        · intro h; injection h
      · rcases hv : w.visible with _ | v
        · intro h; injection h
        · intro h; injection h
    · intro h; injection h with h; rw [← h]; exact hc
  refine ⟨?_, fun pid => ?_⟩
  · rw [getCount, key]
  · have : (fork (getCount st w).1 pid).count = some n := key
    rw [getCount, this]

theorem shown_length_le (n : Nat) (is : List Int) : (shown n is).length ≤ is.length := by
  induction is with
  | nil => simp [shown]
  | cons i t ih => simp only [shown]; split <;> simp; exact ih

/-- If every entry is the index of a device the count is the number of devices CUDA shows; **refuted** otherwise: the first entry that there is not
hides all that follow, but all are counted. -/
theorem shown_iff (n : Nat) (is : List Int) : (shown n is).length = is.length ↔ ∀ i ∈ is, 0 ≤ i ∧ i < n := by
  induction is with
  | nil => simp [shown]
  | cons i t ih =>
    simp only [shown]
    by_cases h : 0 ≤ i ∧ i < (n : Int)
    · rw [if_pos h]; simp [ih, h]
    · rw [if_neg h]
      simp only [List.length_nil, List.length_cons, List.mem_cons, forall_eq_or_imp]
      constructor
      · intro e; omega
      · intro e; exact absurd e.1 h

theorem mapM_pyInt (es : List Text) (is : List Int) (h : es.length = is.length) (hn : ∀ (j : Nat) e i, es[j]? = some e → is[j]? = some i → Number e i) :
    es.mapM pyInt = some is := by
  induction es generalizing is with
  | nil => cases is with
    | nil => rfl
    | cons => cases h
  | cons e es ih =>
    cases is with
    | nil => cases h
    | cons i is =>
      have h0 := (pyInt_iff e i).mpr (hn 0 e i rfl rfl)
      have h1 := ih is (by simpa using h) (fun j a b ha hb => hn (j + 1) a b (by simpa using ha) (by simpa using hb))
      rw [List.mapM_cons, h0, h1]; rfl

/-- the count as CUDA would give it -/
theorem count_shown {st : St} (hst : st.count = none) {w : World} (hw : (initNvml st w).nvml = .good) {v : Text} {es : List Text} {is : List Int}
    (hv : w.visible = some v) (he : Entries (strip v) es) (h1 : es ≠ [[]]) (h2 : es ≠ [['-', '1']]) (hl : es.length = is.length) :
    (getCount st w).2 = .ok (some (shown w.devices.length is).length) ↔ ∀ i ∈ is, 0 ≤ i ∧ i < w.devices.length := by
  rw [(count_exact hst hw).2.2 v es hv he h1 h2, ← shown_iff, hl]
  constructor
  · intro e; exact (Option.some.inj (Except.ok.inj e)).symm
  · intro e; rw [e]

/-- With the indices of devices in the variable the information of device `i` carries the machine's index of it, and CUDA's uuid. -/
theorem info_index {st : St} (h : Run Working st) {w : World} (hw : Working w) (hg : (initAll st w).cuda = .good) {i : Nat}
    (hnew : st.infos.get? (i : Int) = none) {u : Text} (hu : w.cuDevice i = some u) :
    (w.visible = none → (getInfo st w i).2 = .ok (some ⟨i, u⟩)) ∧
    ∀ (v : Text) (es : List Text) (is : List Int), w.visible = some v → Entries v es → es.length = is.length → (∀ (j : Nat) e x, es[j]? = some e → is[j]? = some x → Number e x) →
      ∀ x, is[i]? = some x → (getInfo st w i).2 = .ok (some ⟨x, u⟩) := by
  obtain ⟨_, _, h3, _⟩ := working_init (run_working h) hw
  have hne : ¬ (initAll st w).initPid = none := by rw [h3]; simp
  refine ⟨?_, ?_⟩
  · intro hv
    simp [getInfo, hnew, hne, hg, hu, hv]
  · intro v es is hv he hl hn x hx
    have hr : realIndex v i = .ok x := by
      unfold realIndex
      rw [commas_of v es he, mapM_pyInt es is hl hn]
      have : ¬ ((i : Int) < 0) := by omega
      simp [this, hx]
    simp [getInfo, hnew, hne, hg, hu, hv, hr]

/-- **Refuted**: "a device can be looked at however it was chosen": an entry that is not a number (an uuid, a MIG name) makes every call raise ValueError,
although CUDA shows the device. -/
theorem info_uuid_refuted {st : St} (h : Run Working st) {w : World} (hw : Working w) (hg : (initAll st w).cuda = .good) {i : Int}
    (hnew : st.infos.get? i = none) {u : Text} (hu : w.cuDevice i = some u) {v : Text} {es : List Text} (hv : w.visible = some v) (he : Entries v es)
    {e : Text} (hm : e ∈ es) (hn : ∀ x, ¬ Number e x) : (getInfo st w i).2 = .error .valueError := by
  obtain ⟨_, _, h3, _⟩ := working_init (run_working h) hw
  have hne : ¬ (initAll st w).initPid = none := by rw [h3]; simp
  have hno : pyInt e = none := by
    rcases hp : pyInt e with _ | x
    · rfl
    · exact absurd ((pyInt_iff e x).mp hp) (hn x)
  have hmap : es.mapM pyInt = none := by
    clear he
    induction es with
    | nil => cases hm
    | cons a es ih =>
      rw [List.mapM_cons]
      rcases List.mem_cons.mp hm with rfl | hm
      · rw [hno]; rfl
      · rcases pyInt a with _ | y
        · rfl
        · rw [ih hm]; rfl
  have hr : realIndex v i = .error .valueError := by
    unfold realIndex
    rw [commas_of v es he, hmap]
  simp [getInfo, hnew, hne, hg, hu, hv, hr]

/-- Information is kept for ever. -/
theorem info_stays {st : St} {w : World} {i : Int} {x : Info} (h : (getInfo st w i).2 = .ok (some x)) (w' : World) :
    (getInfo (getInfo st w i).1 w' i).2 = .ok (some x) := by
  have key : (getInfo st w i).1.infos.get? i = some x := by
    revert h
    unfold getInfo
    rcases hc : st.infos.get? i with _ | y
    · dsimp only
      split
      · intro h; cases h
      · split
        · intro h; cases h
        · intro h; cases h
        · split
          · intro h; cases h
          · split
            · intro h; cases h
            · intro h
              have := Option.some.inj (Except.ok.inj h)
              subst this
              simp
    · intro h; have := Option.some.inj (Except.ok.inj h); subst this; exact hc
  rw [getInfo, key]

/-! ## indices and uuids -/

theorem byUuid_get (u : Text) (ds : List Device) : ∀ i0, (∀ (a b : Nat) x y, ds[a]? = some x → ds[b]? = some y → x.uuid = y.uuid → a = b) →
    ∀ (i : Nat) d, ds[i]? = some d → d.uuid = u → byUuid u i0 ds = some (i0 + i) := by
  induction ds with
  | nil => intro i0 _ i d h; simp at h
  | cons x t ih =>
    intro i0 hd i d h hu
    cases i with
    | zero => simp at h; subst h; simp [byUuid, hu]
    | succ i =>
      have hx : ¬ x.uuid = u := by
        intro e
        have := hd 0 (i + 1) x d rfl h (e.trans hu.symm)
        omega
      rw [byUuid, if_neg hx, ih (i0 + 1) (fun a b x y ha hb e => by
        have := hd (a + 1) (b + 1) x y (by simpa using ha) (by simpa using hb) e; omega) i d (by simpa using h) hu]
      congr 1; omega

/-- **Index and uuid name the same device**: asked by index, or by uuid, the answer is the device's index and uuid. -/
theorem index_uuid {st : St} {w : World} (hg : (initNvml st w).nvml = .good)
    (hd : ∀ (a b : Nat) x y, w.devices[a]? = some x → w.devices[b]? = some y → x.uuid = y.uuid → a = b) {i : Nat} {d : Device} (hi : w.devices[i]? = some d) :
    (indexAndUuid st w (str i)).2 = .ok (some ((i : Int), d.uuid)) ∧
    ((∀ x, ¬ Number d.uuid x) → (indexAndUuid st w d.uuid).2 = .ok (some ((i : Int), d.uuid))) := by
  refine ⟨?_, ?_⟩
  · unfold indexAndUuid
    simp [hg, pyInt_str, hi]
  · intro hn
    have hno : pyInt d.uuid = none := by
      rcases hp : pyInt d.uuid with _ | x
      · rfl
      · exact absurd ((pyInt_iff _ x).mp hp) (hn x)
    unfold indexAndUuid
    simp [hg, hno, byUuid_get d.uuid w.devices 0 hd i d hi rfl, hi]

/-- what has no device of this name is an error, never another device -/
theorem index_uuid_unknown {st : St} {w : World} {t u : Text} {i : Int} (h : (indexAndUuid st w t).2 = .ok (some (i, u))) :
    ∃ d, 0 ≤ i ∧ w.devices[i.toNat]? = some d ∧ d.uuid = u := by
  revert h
  unfold indexAndUuid
  dsimp only
  split
  · intro h; cases h
  · intro h; cases h
  · split
    · split
      · split
        · rename_i hz _ d hd
          intro h
          have := Option.some.inj (Except.ok.inj h)
          injection this with e1 e2
          subst e1; exact ⟨d, hz, hd, e2⟩
        · intro h; cases h
      · intro h; cases h
    · split
      · split
        · rename_i j _ d hd
          intro h
          have := Option.some.inj (Except.ok.inj h)
          injection this with e1 e2
          subst e1; exact ⟨d, by omega, by simpa using hd, e2⟩
        · intro h; cases h
      · intro h; cases h

/-! ## What goes wrong -/

/-- **Refuted**: "without a driver there is no context, and no error": in a child forked from a process that had both libraries, where NVML cannot be loaded,
the call raises TypeError. -/
theorem fork_refuted {st : St} (h : Run Working st) {w : World} (hw : Working w) (w' : World) (hw' : w'.nvml = .absent) (pid : Nat) (hp : pid ≠ st.pid) :
    (getContext (fork (getContext st w).1 pid) w').2 = .error .typeError := by
  obtain ⟨_, _, h3, h4⟩ := working_init (run_working h) hw
  rw [getContext_state]
  have e1 : ¬ (fork (initAll st w) pid).initPid = some (fork (initAll st w) pid).pid := by
    show ¬ (initAll st w).initPid = some pid
    rw [h3]; intro e; exact hp (Option.some.inj e).symm
  have h5 : (fork (initAll st w) pid).initPid = some st.pid := h3
  generalize fork (initAll st w) pid = s at e1 h5
  have e2 : (initAll s w').nvml = .absent ∧ ¬ (initAll s w').initPid = none := by
    have a1 : initCp s w' = { s with cuda := w'.cuda } := by unfold initCp; rw [if_neg e1]
    have a2 : initNvml { s with cuda := w'.cuda } w' = { s with cuda := w'.cuda, nvml := .absent } := by
      unfold initNvml; rw [if_neg (show ¬ ({ s with cuda := w'.cuda } : St).initPid = some ({ s with cuda := w'.cuda } : St).pid from e1), hw']
    unfold initAll
    rw [a1, a2]
    simp [h5]
  unfold getContext
  dsimp only
  rw [if_neg e2.2, e2.1]

/-- **Refuted**: "a driver that comes up later is used": a library that was there but could not be initialised is not tried again in this process. -/
theorem broken_refuted (pid : Nat) {w : World} (hw : w.nvml = .broken) (hc : w.cuda ≠ .absent) (w' : World) :
    (getContext (getContext (fresh pid) w).1 w').2 = .error .nvml := by
  rw [getContext_state]
  have e : (initAll (fresh pid) w).initPid = some pid ∧ (initAll (fresh pid) w).pid = pid ∧ (initAll (fresh pid) w).nvml = .broken := by
    simp [initAll, initNvml, initCp, fresh, hw, hc]
  obtain ⟨e1, e2, e3⟩ := e
  generalize initAll (fresh pid) w = s at e1 e2 e3
  have : initAll s w' = s ∨ (initAll s w').nvml = .broken ∧ (initAll s w').initPid = some pid := by
    right
    simp only [initAll, initNvml, initCp, e1, e2, if_true]
    by_cases hx : s.nvml ≠ .absent ∧ s.cuda ≠ .absent
    · rw [if_pos hx]; exact ⟨e3, rfl⟩
    · rw [if_neg hx]; exact ⟨e3, e1⟩
  have h : (initAll s w').nvml = .broken ∧ (initAll s w').initPid = some pid := by
    rcases this with h | h
    · rw [h]; exact ⟨e3, e1⟩
    · exact h
  simp [getContext, h.1, h.2]

theorem str_inj {a b : Nat} (h : str a = str b) : a = b := by
  have := pyInt_str a
  rw [h, pyInt_str b] at this
  have := Option.some.inj this
  omega

/-- **Refuted**: "the CUDA version is reported": CUDA encodes `M.m` as `1000 M + 10 m`; the text is right only for minor version 0 (12.2 becomes "12.20"). -/
theorem version_iff (M m : Nat) (hm : m < 100) : versionText (1000 * M + 10 * m) = str M ++ '.' :: str m ↔ m = 0 := by
  have e1 : (1000 * M + 10 * m) / 1000 = M := by omega
  have e2 : (1000 * M + 10 * m) % 1000 = 10 * m := by omega
  unfold versionText
  rw [e1, e2]
  constructor
  · intro h
    have := List.append_cancel_left h
    injection this with _ this
    have := str_inj this
    omega
  · intro h; subst h; rfl

/-! ## The hypotheses are met -/

/-- two devices, the second divided; process 7 is on the second part of the second -/
def exW : World :=
  ⟨.good, .good, [⟨['A'], .unsupported, .ok 2 [3, 4]⟩, ⟨['B'], .enabled [.empty, .dev (.ok 1 [7]), .dev (.ok 1 [7])], .ok 0 []⟩], some ['1', ',', '0'],
   fun i => if i = 0 then some ['B'] else if i = 1 then some ['A'] else none, 12020⟩

example : Working exW := by simp [Working, exW]

example : ∀ d ∈ exW.devices, d.Quiet := by
  have l0 : View.Lists (.ok 2 [3, 4]) [3, 4] := .mk [3, 4]
  have l1 : View.Lists (.ok 1 [7]) [7] := .mk [7]
  simp [exW, Device.Quiet, Slot.Quiet]
  exact ⟨⟨_, l0⟩, ⟨_, l1⟩⟩

example : (getContext (fresh 7) exW).2 = .ok (some ⟨1, some 1, ['B']⟩) ∧ (getContext (fresh 3) exW).2 = .ok (some ⟨0, none, ['A']⟩) ∧
    (getContext (fresh 9) exW).2 = .ok none := by
  refine ⟨?_, ?_, ?_⟩ <;> rfl

example : (getCount (fresh 7) exW).2 = .ok (some 2) ∧ (getInfo (fresh 7) exW 0).2 = .ok (some ⟨1, ['B']⟩) := by
  refine ⟨?_, ?_⟩ <;> rfl

example : Entries ['1', ',', '0'] [['1'], ['0']] := ⟨by simp, by simp, rfl⟩

example : Has exW 7 1 (some 1) ∧ Has exW 7 1 (some 2) := by
  have l1 : View.Lists (.ok 1 [7]) [7] := .mk [7]
  exact ⟨.part rfl rfl rfl l1 (by simp), .part rfl rfl rfl l1 (by simp)⟩

/-- three entries, two devices: CUDA shows one, three are counted -/
example : (shown 2 [1, 5, 0]).length = 1 := by decide

/-! ## Driver errors -/

/-- the driver named the process -/
def Named (pid : Nat) (v : View) : Prop := ∃ first procs, v = .ok first procs ∧ pid ∈ procs

theorem isIn_named {pid : Nat} {v : View} (h : isIn pid v = .ok true) : Named pid v := by
  unfold isIn at h
  rcases v with _ | ⟨first, procs⟩
  · simp [processes] at h
  · by_cases h0 : first = 0
    · simp [processes, h0] at h
    · by_cases h1 : procs.length ≤ first * 2 + 5
      · simp only [processes, if_neg h0, if_pos h1, Except.ok.injEq, List.any_eq_true, beq_iff_eq] at h
        obtain ⟨x, hx, rfl⟩ := h
        exact ⟨first, procs, rfl, hx⟩
      · simp [processes, h0, h1] at h

theorem scanMig_named {pid : Nat} {slots : List Slot} : ∀ {k0 k : Nat}, scanMig pid k0 slots = .ok (some k) →
    ∃ j v, k = k0 + j ∧ slots[j]? = some (.dev v) ∧ Named pid v := by
  induction slots with
  | nil => intro k0 k h; cases h
  | cons s t ih =>
    intro k0 k h
    have next : scanMig pid (k0 + 1) t = .ok (some k) → ∃ j v, k = k0 + j ∧ (s :: t)[j]? = some (.dev v) ∧ Named pid v := by
      intro h
      obtain ⟨j, v, e, h1, h2⟩ := ih h
      exact ⟨j + 1, v, by omega, by simpa using h1, h2⟩
    cases s with
    | empty => exact next h
    | err => cases h
    | dev v =>
      simp only [scanMig] at h
      split at h
      · cases h
      · next hi => cases h; exact ⟨0, v, rfl, rfl, isIn_named hi⟩
      · exact next h

theorem scan_named {pid : Nat} {ds : List Device} : ∀ {i0 : Nat} {f : Found}, scan pid i0 ds = .ok (some f) →
    ∃ j d, f.index = i0 + j ∧ ds[j]? = some d ∧ f.uuid = d.uuid ∧ (f.mig = none → Named pid d.view) ∧
      ∀ k, f.mig = some k → ∃ slots v, d.mig = .enabled slots ∧ slots[k]? = some (.dev v) ∧ Named pid v := by
  induction ds with
  | nil => intro i0 f h; cases h
  | cons d t ih =>
    intro i0 f h
    have next : scan pid (i0 + 1) t = .ok (some f) → ∃ j d', f.index = i0 + j ∧ (d :: t)[j]? = some d' ∧ f.uuid = d'.uuid ∧
        (f.mig = none → Named pid d'.view) ∧ ∀ k, f.mig = some k → ∃ slots v, d'.mig = .enabled slots ∧ slots[k]? = some (.dev v) ∧ Named pid v := by
      intro h
      obtain ⟨j, d', e, h1, h2⟩ := ih h
      exact ⟨j + 1, d', by omega, by simpa using h1, h2⟩
    simp only [scan] at h
    split at h
    · cases h
    · next slots hm =>
      split at h
      · cases h
      · next k hk =>
        cases h
        obtain ⟨j, v, e, h1, h2⟩ := scanMig_named hk
        refine ⟨0, d, rfl, rfl, rfl, by simp, ?_⟩
        rintro k' ⟨⟩
        exact ⟨slots, v, hm, by rw [e, Nat.zero_add]; exact h1, h2⟩
      · exact next h
    · split at h
      · cases h
      · next hi => cases h; exact ⟨0, d, rfl, rfl, rfl, fun _ => isIn_named hi, by simp⟩
      · exact next h

theorem pid_init (st : St) (w : World) : (initAll st w).pid = st.pid := by
  unfold initAll initNvml initCp
  dsimp only
  repeat' split
  all_goals rfl

/-- **C92** whatever fails, a context is reported only on a device on which the driver names the process. -/
theorem context_sound {st : St} {w : World} {f : Found} (h : (getContext st w).2 = .ok (some f)) :
    ∃ d, w.devices[f.index]? = some d ∧ f.uuid = d.uuid ∧ (f.mig = none → Named st.pid d.view) ∧
      ∀ k, f.mig = some k → ∃ slots v, d.mig = .enabled slots ∧ slots[k]? = some (.dev v) ∧ Named st.pid v := by
  have hs : scan st.pid 0 w.devices = .ok (some f) := by
    unfold getContext at h
    dsimp only at h
    rw [← pid_init st w]
    split at h
    · cases h
    · split at h
      · cases h
      · cases h
      · exact h
  obtain ⟨j, d, e, h1, h2, h3⟩ := scan_named hs
  rw [Nat.zero_add] at e
  exact ⟨d, by rw [e]; exact h1, h2, h3⟩

/-- **C92** without the library nothing is answered; with one that does not work an error is raised. -/
theorem index_uuid_library {st : St} {w : World} {t : Text} :
    ((initNvml st w).nvml = .absent → (indexAndUuid st w t).2 = .ok none) ∧
    ((initNvml st w).nvml = .broken → (indexAndUuid st w t).2 = .error .nvml) := by
  constructor <;> intro h <;> simp [indexAndUuid, h]

theorem info_library {st : St} {w : World} {i : Int} (hn : st.infos.get? i = none) (hp : (initAll st w).initPid ≠ none) :
    ((initAll st w).cuda = .absent → (getInfo st w i).2 = .error .attributeError) ∧
    ((initAll st w).cuda = .broken → (getInfo st w i).2 = .error .cuda) := by
  constructor <;> intro h <;> simp [getInfo, hn, hp, h]

/-- **C92** negative indices count from the end of CUDA_VISIBLE_DEVICES (if CUDA takes them). -/
theorem info_negative {st : St} (h : Run Working st) {w : World} (hw : Working w) (hg : (initAll st w).cuda = .good) {n : Nat} (h0 : 0 < n)
    (hnew : st.infos.get? (-(n : Int)) = none) {u : Text} (hu : w.cuDevice (-(n : Int)) = some u) {v : Text} {es : List Text} {is : List Int}
    (hv : w.visible = some v) (he : Entries v es) (hl : es.length = is.length)
    (hn : ∀ (j : Nat) e x, es[j]? = some e → is[j]? = some x → Number e x) (hle : n ≤ is.length) {x : Int} (hx : is[is.length - n]? = some x) :
    (getInfo st w (-(n : Int))).2 = .ok (some ⟨x, u⟩) := by
  obtain ⟨_, _, h3, _⟩ := working_init (run_working h) hw
  have hne : ¬ (initAll st w).initPid = none := by rw [h3]; simp
  have hr : realIndex v (-(n : Int)) = .ok x := by
    unfold realIndex
    rw [commas_of v es he, mapM_pyInt es is hl hn]
    simp only
    rw [if_pos (by omega), if_pos (by omega)]
    have : (-(n : Int) + (is.length : Int)).toNat = is.length - n := by omega
    rw [this, hx]
  simp [getInfo, hnew, hne, hg, hu, hv, hr]

example : (getContext (fresh 7) ⟨.good, .good, [⟨['a'], .disabled, .err⟩], none, fun _ => none, 12000⟩).2 = .error .nvml := by rfl
example : (getContext (fresh 7) ⟨.good, .good, [⟨['a'], .enabled [.empty, .dev (.ok 1 [7])], .err⟩, ⟨['b'], .err, .err⟩], none, fun _ => none, 12000⟩).2 =
    .ok (some ⟨0, some 1, ['a']⟩) := by rfl
example : (indexAndUuid (fresh 7) ⟨.absent, .good, [], none, fun _ => none, 12000⟩ ['0']).2 = .ok none := by rfl
example : (getInfo (fresh 7) ⟨.good, .broken, [], none, fun _ => none, 12000⟩ 0).2 = .error .cuda := by rfl
example : (getInfo (fresh 7) ⟨.good, .good, [], some ['3', ',', '1'], fun _ => some ['u'], 12000⟩ (-1)).2 = .ok (some ⟨1, ['u']⟩) := by rfl

end Xoscar.Gpu

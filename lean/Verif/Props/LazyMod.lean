import Verif.Spec.LazyMod
import Verif.Proof.Base
/-!
# C94: lazily imported modules
-/
namespace Xoscar.LazyMod

/-- the hooks waiting -/
def waiting (st : St) : List Nat := st.lists[st.cur]?.getD []

theorem loop_plain {prog : Nat → Nat → List Act} (hp : Plain prog) (env : Env) : ∀ f l i st, (exec prog env f (.loop l i) st).2 = .endless ∨
    exec prog env f (.loop l i) st = ({ st with trace := st.trace ++ (st.lists[l]?.getD []).drop i }, .ok 0) := by
  intro f
  induction f with
  | zero => intro l i st; exact .inl rfl
  | succ f ih =>
    intro l i st
    simp only [exec]
    rcases hg : (st.lists[l]?.getD [])[i]? with _ | h
    · right
      rw [List.getElem?_eq_none_iff] at hg
      simp [List.drop_eq_nil_of_le hg]
    · dsimp only
      rw [hp]
      rcases f with _ | f
      · left; rfl
      · rcases ih l (i + 1) { st with trace := st.trace ++ [h] } with e | e
        · left; simpa only [exec] using e
        · right
          obtain ⟨hlt, hv⟩ := List.getElem?_eq_some_iff.mp hg
          rw [show exec prog env (f + 1) (.acts []) { st with trace := st.trace ++ [h] } = ({ st with trace := st.trace ++ [h] }, .ok 0) from rfl]
          dsimp only
          rw [e, List.drop_eq_getElem_cons hlt, hv]
          simp

theorem rebind_keeps (st : St) : (rebind st).lists = st.lists ∧ (rebind st).cur = st.cur ∧ (rebind st).trace = st.trace := by
  unfold rebind; split
  · exact ⟨rfl, rfl, rfl⟩
  · split <;> exact ⟨rfl, rfl, rfl⟩

/-- an access with plain hooks -/
theorem access_plain {prog : Nat → Nat → List Act} (hp : Plain prog) {env : Env} {item : Text} {f : Nat} {st st' : St} {o : Out}
    (h : exec prog env f (.access item) st = (st', o)) (ho : o ≠ .endless) :
    ((∃ v, o = .ok v ∧ refused item = false ∧ env.importable = true ∧ env.attr item = some v) ∧ st'.trace = st.trace ++ waiting st ∧ waiting st' = []
        ∧ st'.cur < st'.lists.length) ∨
      (∀ v, o ≠ .ok v) ∧ st'.trace = st.trace ∧ st'.lists = st.lists ∧ st'.cur = st.cur := by
  obtain ⟨k1, k2, k3⟩ := rebind_keeps st
  rcases f with _ | f
  · simp only [exec] at h; injection h with _ h; exact absurd h.symm ho
  simp only [exec] at h
  by_cases h1 : refused item = true
  · rw [if_pos h1] at h; injection h with e1 e2; subst e1; subst e2
    exact .inr ⟨fun v e => (nomatch e), rfl, rfl, rfl⟩
  rw [if_neg h1] at h
  by_cases h2 : env.importable = false
  · rw [if_pos h2] at h; injection h with e1 e2; subst e1; subst e2
    exact .inr ⟨fun v e => (nomatch e), rfl, rfl, rfl⟩
  rw [if_neg h2] at h
  rcases h3 : env.attr item with _ | v
  · rw [h3] at h; injection h with e1 e2; subst e1; subst e2
    exact .inr ⟨fun v e => (nomatch e), k3, k1, k2⟩
  · rw [h3] at h
    dsimp only at h
    rcases loop_plain hp env f (rebind st).cur 0 (rebind st) with e | e
    · generalize exec prog env f (.loop (rebind st).cur 0) (rebind st) = q at *
      obtain ⟨a, b⟩ := q
      dsimp only at e h
      subst e
      injection h with e1 e2; exact absurd e2.symm ho
    · rw [e] at h
      dsimp only at h
      injection h with e1 e2; subst e1; subst e2
      left
      refine ⟨⟨v, rfl, by simpa using h1, by simpa using h2, rfl⟩, ?_, ?_, ?_⟩
      · dsimp only; rw [k1, k2, k3, List.drop_zero]; rfl
      · simp [waiting]
      · simp

theorem due_snoc (hist : List (Op × Out)) (x : Op × Out) :
    due (hist ++ [x]) = if succeeded x then (hist ++ [x]).filterMap registered else due hist := by
  unfold due
  rw [List.reverse_append]
  simp only [List.reverse_cons, List.reverse_nil, List.nil_append, List.cons_append, List.dropWhile_cons]
  cases succeeded x with
  | true => simp
  | false => simp

theorem waiting_add (st : St) (h : Nat) (hc : st.cur < st.lists.length) : waiting (addHook st h) = waiting st ++ [h] := by
  unfold waiting addHook
  rw [List.getElem?_modify_eq, List.getElem?_eq_getElem hc]
  rfl

/-- all hooks registered are run or waiting -/
structure Inv (hist : List (Op × Out)) (st : St) : Prop where
  cur : st.cur < st.lists.length
  trace : st.trace = due hist
  all : st.trace ++ waiting st = hist.filterMap registered

theorem run_inv {prog : Nat → Nat → List Act} (hp : Plain prog) {hist : List (Op × Out)} {st : St} (hr : Run prog fresh hist st) (hd : Direct hist) :
    Inv hist st := by
  induction hr with
  | nil => exact ⟨by simp [fresh], rfl, rfl⟩
  | snoc hr hs ih =>
    rename_i hist st st' op o
    obtain ⟨i1, i2, i3⟩ := ih (fun h o hm => hd h o (by simp [hm]))
    cases hs with
    | access env item f _ _ _ he ho =>
      rcases access_plain hp he ho with ⟨⟨v, e, _⟩, h2, h3, h4⟩ | ⟨h1, h2, h3, h4⟩
      · subst e
        have hsuc : succeeded (Op.access env item, Out.ok v) = true := rfl
        have hreg : registered (Op.access env item, Out.ok v) = none := rfl
        refine ⟨h4, ?_, ?_⟩
        · rw [due_snoc, if_pos hsuc, h2, i3]; simp [hreg]
        · rw [h3, List.append_nil, h2, i3]; simp [hreg]
      · have hsuc : succeeded (Op.access env item, o) = false := by
          cases o with
          | ok v => exact absurd rfl (h1 v)
          | _ => rfl
        have hreg : registered (Op.access env item, o) = none := by cases o <;> rfl
        refine ⟨by rw [h3, h4]; exact i1, ?_, ?_⟩
        · rw [due_snoc, hsuc, h2, i2]; rfl
        · have : waiting st' = waiting st := by unfold waiting; rw [h3, h4]
          rw [this, h2, i3]; simp [hreg]
    | add h =>
      refine ⟨?_, ?_, ?_⟩
      · simpa [addHook] using i1
      · rw [due_snoc]; exact i2
      · rw [waiting_add st h i1]
        show st.trace ++ (waiting st ++ [h]) = _
        rw [← List.append_assoc, i3]; simp [registered]
    | onLoad h => exact absurd (by simp) (hd h (.ok 0))
    | assign v =>
      refine ⟨i1, ?_, ?_⟩
      · rw [due_snoc]; exact i2
      · show st.trace ++ waiting st = _
        rw [i3]; simp [registered]

/-- **Hooks run once, at the first access that succeeds after they were registered, in the order of registration**: at any time the hooks that have
run, in order and each as often as it was registered, are those registered before the last successful access. -/
theorem hooks_once {prog : Nat → Nat → List Act} (hp : Plain prog) {hist : List (Op × Out)} {st : St} (hr : Run prog fresh hist st) (hd : Direct hist) :
    st.trace = due hist := (run_inv hp hr hd).trace

/-- An access succeeds, with the module's attribute, exactly if the item is not one of the refused ones, the module can be imported and has it (plain
hooks, and the program does end it). -/
theorem access_iff {prog : Nat → Nat → List Act} (hp : Plain prog) {env : Env} {item : Text} {st st' : St} {o : Out} (h : Does prog st (.access env item) st' o)
    (v : Nat) : o = .ok v ↔ refused item = false ∧ env.importable = true ∧ env.attr item = some v := by
  cases h with
  | access _ _ f _ _ _ he ho =>
    rcases access_plain hp he ho with ⟨⟨v', e, a, b, c⟩, _⟩ | ⟨h1, _⟩
    · subst e
      constructor
      · intro e; injection e with e; subst e; exact ⟨a, b, c⟩
      · rintro ⟨_, _, e⟩; rw [c] at e; injection e with e; subst e; rfl
    · refine ⟨fun e => absurd e (h1 v), ?_⟩
      rintro ⟨a, b, c⟩
      rcases f with _ | f
      · simp only [exec] at he; injection he with _ e; exact absurd e.symm ho
      · simp only [exec, a, b, c] at he
        rcases loop_plain hp env f (rebind st).cur 0 (rebind st) with e | e
        · generalize exec prog env f (.loop (rebind st).cur 0) (rebind st) = q at *
          obtain ⟨x, y⟩ := q
          dsimp only at e
          subst e
          simp at he
          exact absurd he.2.symm ho
        · rw [e] at he; simp at he; exact absurd he.2.symm (h1 v)

/-- … and it does end -/
theorem access_ends {prog : Nat → Nat → List Act} (hp : Plain prog) (env : Env) (item : Text) (st : St) : ∃ st' o, Does prog st (.access env item) st' o := by
  have hl : ∀ n l i st, (st.lists[l]?.getD []).length ≤ i + n → (exec prog env (n + 2) (.loop l i) st).2 ≠ .endless := by
    intro n
    induction n with
    | zero =>
      intro l i st hle
      simp only [exec]
      rw [List.getElem?_eq_none (by omega)]
      simp
    | succ n ih =>
      intro l i st hle
      rw [exec]
      rcases hg : (st.lists[l]?.getD [])[i]? with _ | h
      · simp
      · dsimp only
        rw [hp, show exec prog env (n + 1 + 1) (.acts []) { st with trace := st.trace ++ [h] } = ({ st with trace := st.trace ++ [h] }, .ok 0) from rfl]
        exact ih l (i + 1) { st with trace := st.trace ++ [h] } (by show (st.lists[l]?.getD []).length ≤ _; omega)
  have : (exec prog env (((waiting st).length + 2) + 1) (.access item) st).2 ≠ .endless := by
    rw [exec]
    split
    · simp
    · split
      · simp
      · dsimp only
        split
        · simp
        · have h0 := hl (waiting st).length (rebind st).cur 0 (rebind st) (by
            obtain ⟨k1, k2, _⟩ := rebind_keeps st
            rw [k1, k2]; unfold waiting; omega)
          generalize exec prog env ((waiting st).length + 2) (.loop (rebind st).cur 0) (rebind st) = q at *
          obtain ⟨x, y⟩ := q
          dsimp only at h0
          cases y with
          | ok v => simp
          | endless => exact absurd rfl h0
          | _ => simp
  exact ⟨_, _, .access env item _ st _ _ rfl this⟩

/-- **After an access that could import the module the name is bound to the module**, in `globals` if it was there, else in `locals` if given; whatever
else it was bound to meanwhile. -/
theorem access_binds {prog : Nat → Nat → List Act} (hp : Plain prog) {env : Env} {item : Text} {st st' : St} {o : Out} (h : Does prog st (.access env item) st' o)
    (hi : refused item = false ∧ env.importable = true) :
    (∀ b, st.glob = some b → st'.glob = some .real ∧ st'.loc = st.loc) ∧
    (∀ b, st.glob = none → st.loc = some b → st'.glob = none ∧ st'.loc = some (some .real)) ∧
    (st.glob = none → st.loc = none → st'.glob = none ∧ st'.loc = none) := by
  have hst : st'.glob = (rebind st).glob ∧ st'.loc = (rebind st).loc := by
    cases h with
    | access _ _ f _ _ _ he ho =>
      rcases f with _ | f
      · simp only [exec] at he; injection he with _ e; exact absurd e.symm ho
      · simp only [exec, hi.1, hi.2] at he
        rcases h3 : env.attr item with _ | v
        · rw [h3] at he; simp at he; rw [← he.1]; exact ⟨rfl, rfl⟩
        · rw [h3] at he
          rcases loop_plain hp env f (rebind st).cur 0 (rebind st) with e | e
          · generalize exec prog env f (.loop (rebind st).cur 0) (rebind st) = q at *
            obtain ⟨x, y⟩ := q
            dsimp only at e
            subst e
            simp at he
            exact absurd he.2.symm ho
          · rw [e] at he; simp at he; rw [← he.1]; exact ⟨rfl, rfl⟩
  rw [hst.1, hst.2]
  unfold rebind
  refine ⟨?_, ?_, ?_⟩
  · intro b e; rw [e]; exact ⟨rfl, rfl⟩
  · intro b e1 e2; rw [e1, e2]; exact ⟨rfl, rfl⟩
  · intro e1 e2; rw [e1, e2]; exact ⟨e1, e2⟩

/-! ## refuted -/

theorem run_split {prog : Nat → Nat → List Act} {s0 : St} {a b : List (Op × Out)} {st : St} (hr : Run prog s0 (a ++ b) st) :
    ∃ mid, Run prog s0 a mid ∧ Run prog mid b st := by
  generalize hc : a ++ b = c at hr
  induction hr generalizing b with
  | nil => obtain ⟨rfl, rfl⟩ := List.append_eq_nil_iff.mp hc; exact ⟨_, .nil, .nil⟩
  | snoc hr hs ih =>
    rcases List.eq_nil_or_concat b with rfl | ⟨b', x, rfl⟩
    · rw [List.append_nil] at hc; subst hc; exact ⟨_, .snoc hr hs, .nil⟩
    · rw [List.concat_eq_append, ← List.append_assoc] at hc
      obtain ⟨e1, e2⟩ := List.append_inj' hc rfl
      obtain ⟨mid, h1, h2⟩ := ih e1
      simp at e2; subst e2
      rw [List.concat_eq_append]
      exact ⟨mid, h1, .snoc h2 hs⟩

theorem run_join {prog : Nat → Nat → List Act} {s0 mid st : St} {a b : List (Op × Out)} (h1 : Run prog s0 a mid) (h2 : Run prog mid b st) :
    Run prog s0 (a ++ b) st := by
  induction h2 with
  | nil => simpa using h1
  | snoc hr hs ih => rw [← List.append_assoc]; exact .snoc ih hs

theorem exec_glob (prog : Nat → Nat → List Act) (env : Env) : ∀ f job st, st.glob ≠ none → (exec prog env f job st).1.glob ≠ none := by
  intro f
  induction f with
  | zero => intro job st h; exact h
  | succ f ih =>
    intro job st h
    cases job with
    | access item =>
      simp only [exec]
      split
      · exact h
      · split
        · exact h
        · have hr : (rebind st).glob ≠ none := by
            obtain ⟨b, hb⟩ := Option.ne_none_iff_exists'.mp h
            unfold rebind; rw [hb]; simp
          split
          · exact hr
          · have := ih (.loop (rebind st).cur 0) (rebind st) hr
            generalize exec prog env f (.loop (rebind st).cur 0) (rebind st) = q at *
            obtain ⟨x, y⟩ := q
            cases y <;> exact this
    | loop l i =>
      simp only [exec]
      split
      · exact h
      · rename_i hk _
        have := ih (.acts (prog hk (st.trace.count hk))) { st with trace := st.trace ++ [hk] } h
        generalize exec prog env f (.acts (prog hk (st.trace.count hk))) { st with trace := st.trace ++ [hk] } = q at *
        obtain ⟨x, y⟩ := q
        cases y with
        | ok v => exact ih _ _ this
        | _ => exact this
    | acts as =>
      rcases as with _ | ⟨a, as⟩
      · exact h
      · cases a with
        | raises => exact h
        | adds hk => exact ih _ _ h
        | touches item =>
          simp only [exec]
          have := ih (.access item) st h
          generalize exec prog env f (.access item) st = q at *
          obtain ⟨x, y⟩ := q
          cases y with
          | ok v => exact ih _ _ this
          | _ => exact this

/-- the name is never unbound -/
theorem run_glob {prog : Nat → Nat → List Act} {hist : List (Op × Out)} {st : St} (hr : Run prog fresh hist st) : st.glob ≠ none := by
  induction hr with
  | nil => simp [fresh]
  | snoc hr hs ih =>
    cases hs with
    | access env item f _ _ _ he ho =>
      have := exec_glob prog env f (.access item) _ ih
      rw [he] at this; exact this
    | add h => exact ih
    | onLoad h => unfold onLoad; split <;> exact ih
    | assign v => simp

/-- A hook decorated with `lazy_import_on_load` after a successful access through the name (which is then bound to the module) is silently never run:
whatever is done later, the hooks that have run are those due without it. -/
theorem late_hook_refuted {prog : Nat → Nat → List Act} (hp : Plain prog) {before after : List (Op × Out)} {env : Env} {item : Text} {h : Nat} {v : Nat} {st : St}
    (hr : Run prog fresh (before ++ [(.access env item, .ok v), (.onLoad h, .ok 0)] ++ after) st) (hd1 : Direct before) (hd2 : Direct after) :
    st.trace = due (before ++ [(.access env item, .ok v)] ++ after) := by
  rw [List.append_assoc] at hr
  obtain ⟨m1, r1, r2⟩ := run_split hr
  rw [show ([(Op.access env item, Out.ok v), (.onLoad h, .ok 0)] ++ after) = [(.access env item, .ok v)] ++ ([(.onLoad h, .ok 0)] ++ after) by simp] at r2
  obtain ⟨m2, r3, r4⟩ := run_split r2
  obtain ⟨m3, r5, r6⟩ := run_split r4
  have hreal : m2.glob = some .real := by
    have hs : Does prog m1 (.access env item) m2 (.ok v) := by
      generalize hc : [(Op.access env item, Out.ok v)] = c at r3
      cases r3 with
      | nil => cases hc
      | snoc hr' hs =>
        rename_i hh _ _ _
        rcases List.eq_nil_or_concat hh with rfl | ⟨b', x, rfl⟩
        · simp at hc; obtain ⟨rfl, rfl⟩ := hc
          generalize hn : ([] : List (Op × Out)) = c at hr'
          cases hr' with
          | nil => exact hs
          | snoc _ _ => simp at hn
        · have := congrArg List.length hc; simp at this
    obtain ⟨b, hb⟩ := Option.ne_none_iff_exists'.mp (run_glob r1)
    have hok := (access_iff hp hs v).mp rfl
    exact ((access_binds hp hs ⟨hok.1, hok.2.1⟩).1 b hb).1
  have hsame : m3 = m2 := by
    generalize hc : [(Op.onLoad h, Out.ok 0)] = c at r5
    cases r5 with
    | nil => cases hc
    | snoc hr' hs =>
      rename_i hh _ _ _
      rcases List.eq_nil_or_concat hh with rfl | ⟨b', x, rfl⟩
      · simp at hc; obtain ⟨rfl, rfl⟩ := hc
        generalize hn : ([] : List (Op × Out)) = c at hr'
        cases hr' with
        | nil => cases hs; unfold onLoad; rw [hreal]; rfl
        | snoc _ _ => simp at hn
      · have := congrArg List.length hc; simp at this
  subst hsame
  refine hooks_once hp (run_join (run_join r1 r3) r6) ?_
  intro h' o hm
  simp only [List.mem_append, List.mem_cons, List.not_mem_nil, or_false] at hm
  rcases hm with (hm | hm) | hm
  · exact hd1 _ _ hm
  · cases hm
  · exact hd2 _ _ hm

/-- hook 1 works, hook 2 raises, hook 3 works -/
def raising : Nat → Nat → List Act := fun h _ => if h = 2 then [.raises] else []

/-- A hook that raises makes every access through the lazy object raise; the hooks before it run again at each access, those after it never do. -/
theorem raising_hook_refuted (env : Env) (hi : env.importable = true) (item : Text) (v : Nat) (hr : refused item = false) (ha : env.attr item = some v) (n : Nat) :
    ∃ st, Run raising fresh ([(.add 1, .ok 0), (.add 2, .ok 0), (.add 3, .ok 0)] ++ List.replicate n (.access env item, .hookError)) st ∧
      st.trace.count 1 = n ∧ st.trace.count 3 = 0 := by
  suffices h : ∃ st, Run raising fresh ([(.add 1, .ok 0), (.add 2, .ok 0), (.add 3, .ok 0)] ++ List.replicate n (.access env item, .hookError)) st ∧
      st.lists = [[1, 2, 3]] ∧ st.cur = 0 ∧ st.trace.count 1 = n ∧ st.trace.count 3 = 0 by
    obtain ⟨st, h1, _, _, h2⟩ := h; exact ⟨st, h1, h2⟩
  induction n with
  | zero =>
    refine ⟨⟨[[1, 2, 3]], 0, some .lazy, none, []⟩, ?_, rfl, rfl, rfl, rfl⟩
    have r1 : Run raising fresh ([] ++ [(.add 1, .ok 0)]) _ := .snoc .nil (.add 1 _)
    have r2 := Run.snoc r1 (.add 2 _)
    exact Run.snoc r2 (.add 3 _)
  | succ n ih =>
    obtain ⟨st, hrun, hl, hc, h1, h3⟩ := ih
    rw [List.replicate_succ', ← List.append_assoc]
    obtain ⟨k1, k2, k3⟩ := rebind_keeps st
    have hx : exec raising env 5 (.access item) st = ({ rebind st with trace := st.trace ++ [1, 2] }, .hookError) := by
      simp [exec, hr, hi, ha, k1, k2, k3, hl, hc, raising]
    refine ⟨_, .snoc hrun (.access env item 5 st _ _ hx (by simp)), ?_, ?_, ?_, ?_⟩
    · show (rebind st).lists = _; rw [k1, hl]
    · show (rebind st).cur = _; rw [k2, hc]
    · simp [h1]
    · simp [h3]

/-- a hook that uses the lazy object it is registered with -/
def touching (item : Text) : Nat → Nat → List Act := fun _ _ => [.touches item]

/-- A hook that uses the lazy object itself makes the access go on for ever. -/
theorem touching_hook_refuted (env : Env) (hi : env.importable = true) (item : Text) (v : Nat) (hr : refused item = false) (ha : env.attr item = some v)
    (f : Nat) (st : St) (hw : waiting st ≠ []) : (exec (touching item) env f (.access item) st).2 = .endless := by
  induction f using Nat.strongRecOn generalizing st with
  | ind f ih =>
    rcases f with _ | f
    · rfl
    obtain ⟨k1, k2, k3⟩ := rebind_keeps st
    have hloop : (exec (touching item) env f (.loop (rebind st).cur 0) (rebind st)).2 = .endless := by
      rcases f with _ | f
      · rfl
      obtain ⟨h, r, hl⟩ : ∃ h r, (rebind st).lists[(rebind st).cur]?.getD [] = h :: r := by
        rw [k1, k2]
        rcases hq : waiting st with _ | ⟨a, b⟩
        · exact absurd hq hw
        · exact ⟨a, b, hq⟩
      simp only [exec, hl, List.getElem?_cons_zero]
      have hacts : (exec (touching item) env f (.acts (touching item h ((rebind st).trace.count h))) { rebind st with trace := (rebind st).trace ++ [h] }).2 =
          .endless := by
        rcases f with _ | f
        · rfl
        have := ih f (by omega) { rebind st with trace := (rebind st).trace ++ [h] } (by
          unfold waiting; dsimp only; rw [hl]; simp)
        rw [show touching item h ((rebind st).trace.count h) = [.touches item] from rfl]
        simp only [exec]
        generalize exec (touching item) env f (.access item) { rebind st with trace := (rebind st).trace ++ [h] } = q at *
        obtain ⟨x, y⟩ := q
        dsimp only at this
        subst this; rfl
      generalize exec (touching item) env f (.acts (touching item h ((rebind st).trace.count h))) { rebind st with trace := (rebind st).trace ++ [h] } = q at *
      obtain ⟨x, y⟩ := q
      dsimp only at hacts
      subst hacts; rfl
    simp only [exec, hr, hi, ha, Bool.false_eq_true, Bool.true_eq_false, if_false]
    generalize exec (touching item) env f (.loop (rebind st).cur 0) (rebind st) = q at *
    obtain ⟨x, y⟩ := q
    dsimp only at hloop
    subst hloop; rfl

/-- hook 1 uses the lazy object the first time it runs -/
def touchingOnce : Nat → Nat → List Act := fun h c => if h = 1 ∧ c = 0 then [.touches ['a']] else []

/-- If it does so only the first time, the other hooks run twice. -/
theorem touching_once_refuted : ∃ st, Run touchingOnce fresh [(.add 1, .ok 0), (.add 2, .ok 0), (.access ⟨true, fun _ => some 5⟩ ['a'], .ok 5)] st ∧
    st.trace = [1, 1, 2, 2] := by
  have r1 : Run touchingOnce fresh ([] ++ [(.add 1, .ok 0)]) _ := .snoc .nil (.add 1 _)
  have r2 := Run.snoc r1 (.add 2 _)
  have hx : exec touchingOnce ⟨true, fun _ => some 5⟩ 20 (.access ['a']) (addHook (addHook fresh 1) 2) =
    (⟨[[1, 2], [], []], 2, some .real, none, [1, 1, 2, 2]⟩, .ok 5) := by rfl
  exact ⟨_, Run.snoc r2 (.access _ ['a'] 20 _ _ _ hx (by simp)), rfl⟩

/-- A hook may register further hooks: they run in the same access. -/
theorem adding_hook : ∃ st, Run (fun h _ => if h = 1 then [.adds 3] else []) fresh
    [(.add 1, .ok 0), (.add 2, .ok 0), (.access ⟨true, fun _ => some 5⟩ ['a'], .ok 5), (.access ⟨true, fun _ => some 5⟩ ['a'], .ok 5)] st ∧ st.trace = [1, 2, 3] := by
  have r1 : Run (fun h _ => if h = 1 then [Act.adds 3] else []) fresh ([] ++ [(.add 1, .ok 0)]) _ := .snoc .nil (.add 1 _)
  have r2 := Run.snoc r1 (.add 2 _)
  have hx : exec (fun h _ => if h = 1 then [Act.adds 3] else []) ⟨true, fun _ => some 5⟩ 20 (.access ['a']) (addHook (addHook fresh 1) 2) =
    (⟨[[1, 2, 3], []], 1, some .real, none, [1, 2, 3]⟩, .ok 5) := by rfl
  have hy : exec (fun h _ => if h = 1 then [Act.adds 3] else []) ⟨true, fun _ => some 5⟩ 20 (.access ['a']) ⟨[[1, 2, 3], []], 1, some .real, none, [1, 2, 3]⟩ =
    (⟨[[1, 2, 3], [], []], 2, some .real, none, [1, 2, 3]⟩, .ok 5) := by rfl
  exact ⟨_, Run.snoc (Run.snoc r2 (.access _ ['a'] 20 _ _ _ hx (by simp))) (.access _ ['a'] 20 _ _ _ hy (by simp)), rfl⟩

/-! ## what `lazy_import` gives -/

/-- `lazy_import` gives None exactly if the first part of the name is not found and no placeholder is asked for: a missing submodule, or a package that
is there but cannot be imported, is not noticed, and every access of the lazy module then raises ImportError. -/
theorem given (found : List Nat) (p : Nat) (rest : List Nat) (ph : Bool) :
    (lazyImport found (p :: rest) ph = .none ↔ p ∉ found ∧ ph = false) ∧ (lazyImport found (p :: rest) ph = .lazyModule ↔ p ∈ found) ∧
    (lazyImport found (p :: rest) ph = .placeholder ↔ p ∉ found ∧ ph = true) := by
  unfold lazyImport
  by_cases h : p ∈ found <;> cases ph <;> simp [h]

/-- … and the access raises ImportError, leaving everything as it was -/
theorem not_importable {prog : Nat → Nat → List Act} {env : Env} (hi : env.importable = false) {item : Text} (hr : refused item = false) {st st' : St} {o : Out}
    (h : Does prog st (.access env item) st' o) : o = .importError ∧ st' = st := by
  cases h with
  | access _ _ f _ _ _ he ho =>
    rcases f with _ | f
    · simp only [exec] at he; injection he with _ e; exact absurd e.symm ho
    · simp [exec, hr, hi] at he; exact ⟨he.2.symm, he.1.symm⟩

/-- Items whose name begins with `_pytest`, and `__bases__` and `__test__`, raise AttributeError without any effect, importing nothing; no others do so. -/
theorem refused_items {prog : Nat → Nat → List Act} {env : Env} {item : Text} {st st' : St} {o : Out} (h : Does prog st (.access env item) st' o)
    (hi : env.importable = false) : (o = .attributeError ∧ st' = st ↔
      (∃ r, item = "_pytest".toList ++ r) ∨ item = "__bases__".toList ∨ item = "__test__".toList) := by
  have hrf : refused item = true ↔ (∃ r, item = "_pytest".toList ++ r) ∨ item = "__bases__".toList ∨ item = "__test__".toList := by
    have e1 : "_pytest".toList = ['_', 'p', 'y', 't', 'e', 's', 't'] := rfl
    have e2 : "__bases__".toList = ['_', '_', 'b', 'a', 's', 'e', 's', '_', '_'] := rfl
    have e3 : "__test__".toList = ['_', '_', 't', 'e', 's', 't', '_', '_'] := rfl
    rw [e1, e2, e3]
    unfold refused
    rw [Bool.or_eq_true, Bool.or_eq_true, List.isPrefixOf_iff_prefix, beq_iff_eq, beq_iff_eq, or_assoc]
    constructor
    · rintro (⟨r, e⟩ | e)
      · exact .inl ⟨r, e.symm⟩
      · exact .inr e
    · rintro (⟨r, e⟩ | e)
      · exact .inl ⟨r, e.symm⟩
      · exact .inr e
  rw [← hrf]
  cases h with
  | access _ _ f _ _ _ he ho =>
    rcases f with _ | f
    · simp only [exec] at he; injection he with _ e; exact absurd e.symm ho
    · simp only [exec] at he
      by_cases hr : refused item = true
      · rw [if_pos hr] at he; injection he with e1 e2; exact ⟨fun _ => hr, fun _ => ⟨e2.symm, e1.symm⟩⟩
      · rw [if_neg hr, if_pos hi] at he; injection he with e1 e2
        refine ⟨?_, fun h => absurd h hr⟩
        rintro ⟨e, _⟩; rw [← e2] at e; cases e

/-- every use of a placeholder raises AttributeError -/
theorem placeholder_raises (item : Option Nat) : placeholderUse item = .attributeError := rfl

/-! ## a case -/

/-- an access of a missing attribute runs no hook, the next one runs both -/
example : ∃ st, Run (fun _ _ => []) fresh [(.add 1, .ok 0), (.add 2, .ok 0), (.access ⟨true, fun i => if i = ['a'] then some 5 else none⟩ ['b'], .attributeError),
    (.access ⟨true, fun i => if i = ['a'] then some 5 else none⟩ ['a'], .ok 5)] st ∧ st.trace = [1, 2] := by
  have r1 : Run (fun _ _ => []) fresh ([] ++ [(.add 1, .ok 0)]) _ := .snoc .nil (.add 1 _)
  have r2 := Run.snoc r1 (.add 2 _)
  have hx : exec (fun _ _ => []) ⟨true, fun i => if i = ['a'] then some 5 else none⟩ 20 (.access ['b']) (addHook (addHook fresh 1) 2) =
    (⟨[[1, 2]], 0, some .real, none, []⟩, .attributeError) := by rfl
  have hy : exec (fun _ _ => []) ⟨true, fun i => if i = ['a'] then some 5 else none⟩ 20 (.access ['a']) ⟨[[1, 2]], 0, some .real, none, []⟩ =
    (⟨[[1, 2], []], 1, some .real, none, [1, 2]⟩, .ok 5) := by rfl
  exact ⟨_, Run.snoc (Run.snoc r2 (.access _ ['b'] 20 _ _ _ hx (by simp))) (.access _ ['a'] 20 _ _ _ hy (by simp)), rfl⟩

end Xoscar.LazyMod

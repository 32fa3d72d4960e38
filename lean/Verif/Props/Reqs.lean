import Verif.Proof.Reqs
/-!
# C64: the list of requirements
-/
namespace Xoscar.Reqs
open scoped List

/-- **C64** every placeholder of a variable becomes the literal of its value, whatever the order of the variables; placeholders of
other names stay.  For markers in which a separator stands between two placeholders, and values whose text has no `#` -/
theorem substitute_correct_partial {vars : List (Str × Value)} (hname : ∀ x ∈ vars, '#' ∉ x.1 ∧ ∀ c ∈ x.1, sep c = false)
    (hval : ∀ x ∈ vars, ∀ s, Literal x.2 s → '#' ∉ s) {head : Str} {rest : List (Str × Str)} (hs : Separated head rest)
    {fill : Str → Str} (hf : ∀ n v s, Bound vars n v → Literal v s → fill n = s) (hu : ∀ n, (∀ x ∈ vars, x.1 ≠ n) → fill n = hole n) :
    substitute vars (template hole head rest) = template fill head rest := by
  have e1 : hole = known (fun _ => none) := by funext n; rfl
  have e2 : fill = known (learnAll (fun _ => none) vars) := by
    funext n
    by_cases h : ∀ x ∈ vars, x.1 ≠ n
    · rw [hu n h, known, learnAll_unbound rfl h]
    · have : ∃ v, Bound vars n v := by
        clear hf hu hs hname hval
        induction vars with
        | nil => exact absurd (by simp) h
        | cons x l ih =>
          by_cases e : x.1 = n
          · obtain ⟨m, w⟩ := x; subst e; exact ⟨w, .here⟩
          · obtain ⟨v, hv⟩ := ih (fun h' => h (by
              intro y hy
              rcases List.mem_cons.1 hy with rfl | hy
              · exact e
              · exact h' y hy))
            exact ⟨v, .there e hv⟩
      obtain ⟨v, hv⟩ := this
      rw [hf n v _ hv (literal_iff.2 rfl), known, learnAll_bound rfl hv]
  rw [e1, e2]
  exact substitute_template (fun x hx => ⟨(hname x hx).2, (hname x hx).1, hval x hx _ (literal_iff.2 rfl)⟩) (by simp) hs

/-- **C64** (violation) a value that contains the placeholder of a later variable is replaced again, within its quotes; if the
variables come in the other order it is not -/
theorem substitute_twice_refuted {a b : Str} (ha : '#' ∉ a ∧ ∀ c ∈ a, sep c = false) (hb : '#' ∉ b ∧ ∀ c ∈ b, sep c = false) (hab : a ≠ b)
    (y : Value) :
    substitute [(a, .json (['"'] ++ hole b ++ ['"'])), (b, y)] (hole a) = ['"'] ++ y.format ++ ['"'] ∧
    substitute [(b, y), (a, .json (['"'] ++ hole b ++ ['"']))] (hole a) = ['"'] ++ hole b ++ ['"'] := by
  have hq : '#' ∉ ['"'] := by decide
  have only : ∀ x rep : Str, replace (hole x) rep (hole x) = rep := by
    intro x rep
    have := replace_hit (x := []) (rep := rep) (hole_ne_nil x)
    rwa [replace_nil, List.append_nil, List.append_nil] at this
  constructor
  · show replace (placeholder b) y.format (replace (placeholder a) (['"'] ++ hole b ++ ['"']) (hole a)) = _
    rw [placeholder_eq, placeholder_eq, only a]
    rw [List.append_assoc, replace_text hq, replace_hit (hole_ne_nil _)]
    have := replace_text (v := b) (rep := y.format) (t := ['"']) (x := []) hq
    rw [List.append_nil] at this
    rw [this, replace_nil]
    simp
  · show replace (placeholder a) _ (replace (placeholder b) y.format (hole a)) = _
    rw [placeholder_eq, placeholder_eq]
    have h1 := replace_other (v := b) (n := a) (rep := y.format) (t := []) (x := []) hb.2 hb.1 ha.1 (Ne.symm hab) (by simp) (by simp)
    simp only [List.append_nil, replace_nil, List.nil_append] at h1
    rw [h1]
    show replace (hole a) (['"'] ++ hole b ++ ['"']) (hole a) = _
    rw [only]

/-! ## The list -/

/-- the code keeps everything of this requirement: it is not one with a standard marker that also has extras or a URL -/
def Simple (lib : Lib) (s : Str) : Prop := ';' ∈ s → ∀ r m, lib.parse s = some (r, m) → r.extras = [] ∧ r.url = none

theorem filterOne_iff {lib : Lib} {vars : List (Str × Value)} {s : Str} (hs : Simple lib s) {o : Option Out} :
    filterOne lib vars s = .ok o ↔ Becomes lib vars s o := by
  unfold filterOne
  constructor
  · intro h
    by_cases hu : isVcsUrl s = true
    · rw [if_pos hu] at h; cases h; exact .url (isVcsUrl_iff.1 hu)
    rw [if_neg hu] at h
    have hu' : ¬ Url s := fun h' => hu (isVcsUrl_iff.2 h')
    by_cases hm : ';' ∈ s
    · rw [if_pos hm] at h
      rcases hp : lib.parse s with _ | ⟨r, m⟩
      · simp only [hp] at h
        have hmk : Marked s (splitSemi s).1 (splitSemi s).2 := marked_iff.2 ⟨hm, rfl⟩
        rcases hc : lib.isCustom (substitute vars (strip (splitSemi s).2)) with _ | _
        · rw [hc] at h; cases h
        · rw [hc, if_pos rfl] at h
          rcases he : lib.evalCustom (substitute vars (strip (splitSemi s).2)) with _ | _ | _
          · simp only [he] at h; cases h
          · simp only [he] at h; cases h
            exact .customOff hu' hmk hp (stripped_strip _) hc he
          · simp only [he] at h
            rcases hb : lib.parse (strip (splitSemi s).1) with _ | ⟨r, x⟩ <;> simp only [hb] at h <;> cases h
            exact .custom hu' hmk hp (stripped_strip _) hc he (stripped_strip _) hb
      · simp only [hp] at h
        obtain ⟨h1, h2⟩ := hs hm r m hp
        have hr : (⟨r.name, [], r.specifier, none⟩ : Req) = r := by
          obtain ⟨n, e, sp, u⟩ := r
          simp only at h1 h2
          rw [h1, h2]
        rw [hr] at h
        rcases m with _ | _ | _
        · rw [if_pos (.inl rfl)] at h; cases h; exact .unmarked hu' hm hp
        · rw [if_neg (by simp)] at h; cases h; exact .standardOff hu' hm hp
        · rw [if_pos (.inr rfl)] at h; cases h; exact .standard hu' hm hp
    · rw [if_neg hm] at h
      rcases hp : lib.parse (strip s) with _ | ⟨r, m⟩ <;> simp only [hp] at h <;> cases h
      exact .plain hu' hm (stripped_strip _) hp
  · intro h
    have full : ∀ r m, ';' ∈ s → lib.parse s = some (r, m) → (⟨r.name, [], r.specifier, none⟩ : Req) = r := by
      intro r m hm hp
      obtain ⟨h1, h2⟩ := hs hm r m hp
      obtain ⟨n, e, sp, u⟩ := r
      simp only at h1 h2
      rw [h1, h2]
    have noUrl : ¬ Url s → ¬ isVcsUrl s = true := fun h h' => h (isVcsUrl_iff.1 h')
    cases h with
    | url hu => rw [if_pos (isVcsUrl_iff.2 hu)]
    | plain hu hm ht hp => rw [if_neg (noUrl hu), if_neg hm, strip_of_stripped ht]; simp only [hp]
    | standard hu hm hp => rw [if_neg (noUrl hu), if_pos hm]; simp only [hp, or_true, if_true, full _ _ hm hp]
    | unmarked hu hm hp => rw [if_neg (noUrl hu), if_pos hm]; simp only [hp, true_or, if_true, full _ _ hm hp]
    | standardOff hu hm hp => rw [if_neg (noUrl hu), if_pos hm]; simp [hp]
    | custom hu hmk hp hst hc he hb hpb =>
      obtain ⟨hm, hsp⟩ := marked_iff.1 hmk
      rw [if_neg (noUrl hu), if_pos hm]
      simp only [hp, hsp, strip_of_stripped hst, strip_of_stripped hb, hc, he, hpb, if_true]
    | customOff hu hmk hp hst hc he =>
      obtain ⟨hm, hsp⟩ := marked_iff.1 hmk
      rw [if_neg (noUrl hu), if_pos hm]
      simp only [hp, hsp, strip_of_stripped hst, hc, he, if_true]

/-- **C64** the list that is installed: every requirement becomes what it should, in the given order, and one that cannot be read
is an error.  For requirements that are not of the form `name[extra]; marker` or `name @ url ; marker` with a standard marker -/
theorem filter_correct_partial {lib : Lib} {vars : List (Str × Value)} {l : List Str} (hs : ∀ s ∈ l, Simple lib s) {out : List Out} :
    filter lib vars l = .ok out ↔ ∃ os, Each (Becomes lib vars) l os ∧ out = os.filterMap id := by
  induction l generalizing out with
  | nil =>
    rw [filter]
    constructor
    · intro h; cases h; exact ⟨[], .nil, rfl⟩
    · rintro ⟨os, h, rfl⟩; cases h; rfl
  | cons s l ih =>
    have h1 := fun o => filterOne_iff (vars := vars) (hs s (List.mem_cons_self ..)) (o := o)
    have h2 := fun out => ih (fun x hx => hs x (List.mem_cons_of_mem _ hx)) (out := out)
    rw [filter]
    constructor
    · intro h
      rcases ho : filterOne lib vars s with e | o
      · simp only [ho] at h; cases h
      · simp only [ho] at h
        rcases hf : filter lib vars l with e | k
        · simp only [hf] at h; cases h
        · simp only [hf] at h
          obtain ⟨os, hos, rfl⟩ := (h2 k).1 hf
          cases h
          refine ⟨o :: os, .cons ((h1 o).1 ho) hos, ?_⟩
          cases o <;> rfl
    · rintro ⟨os, h, rfl⟩
      cases h with
      | @cons _ o _ k hb hrest =>
        rw [(h1 o).2 hb]
        simp only [(h2 _).2 ⟨k, hrest, rfl⟩]
        cases o <;> rfl

/-- **C64** (violation) with a standard marker that is true the extras and the URL are dropped, for every such requirement: another
package source, or a package without the extra's dependencies, is installed -/
theorem extras_lost_refuted {lib : Lib} {vars : List (Str × Value)} {s : Str} {r : Req} (hu : ¬ Url s) (hm : ';' ∈ s)
    (hp : lib.parse s = some (r, some true)) (he : r.extras ≠ [] ∨ r.url ≠ none) :
    Becomes lib vars s (some (.req r)) ∧
    ∃ r', filterOne lib vars s = .ok (some (.req r')) ∧ r' ≠ r ∧ r'.extras = [] ∧ r'.url = none := by
  refine ⟨.standard hu hm hp, ⟨r.name, [], r.specifier, none⟩, ?_, ?_, rfl, rfl⟩
  · unfold filterOne
    rw [if_neg (fun h => hu (isVcsUrl_iff.1 h)), if_pos hm]
    simp only [hp, or_true, if_true]
  · intro h
    rw [← h] at he
    simp at he

/-! ## System packages -/

theorem isSystem_iff {s : Str} : isSystem s = true ↔ ∃ name, s = "#system_".toList ++ name ++ ['#'] := by
  unfold isSystem
  rw [Bool.and_eq_true, startsWith_exists]
  constructor
  · rintro ⟨⟨r, rfl⟩, h⟩
    cases r using List.reverseRecOn' with
    | nil => exact absurd h (by decide)
    | append_singleton r c =>
      rw [← List.append_assoc, List.getLast?_append, List.getLast?_singleton, Option.some_or, beq_iff_eq, Option.some.injEq] at h
      subst h
      exact ⟨r, by rw [← List.append_assoc]; rfl⟩
  · rintro ⟨n, rfl⟩
    refine ⟨⟨n ++ ['#'], by rw [List.append_assoc]; rfl⟩, ?_⟩
    rw [List.getLast?_append, List.getLast?_singleton, Option.some_or, beq_iff_eq]

theorem sysName_eq (n : Str) : sysName ("#system_".toList ++ n ++ ['#']) = n := by
  unfold sysName sysPrefix
  rw [List.append_assoc, List.drop_left, List.dropLast_concat]

theorem base_iff {v w : Str} : Base v w ↔ v.takeWhile (· ≠ '+') = w := by
  have split := List.takeWhile_append_dropWhile (p := fun c => decide (c ≠ '+')) (l := v)
  have all : '+' ∉ v.takeWhile (fun c => decide (c ≠ '+')) := by
    intro h
    have := takeWhile_all _ h
    simp at this
  constructor
  · intro h
    cases h with
    | whole h =>
      have h0 : ∀ c ∈ v, decide (c ≠ '+') = true := by
        intro c hc; rw [decide_eq_true_eq]; rintro rfl; exact h hc
      have := dropWhile_append (t := []) h0 (by simp)
      rw [List.append_nil] at this
      rw [this, List.append_nil] at split
      exact split
    | @cut _ b h =>
      have h0 : ∀ c ∈ w, decide (c ≠ '+') = true := by
        intro c hc; rw [decide_eq_true_eq]; rintro rfl; exact h hc
      have e : (w ++ ['+'] ++ b).dropWhile (fun c => decide (c ≠ '+')) = ['+'] ++ b := by
        rw [List.append_assoc]
        exact dropWhile_append h0 (by simp)
      rw [e] at split
      refine List.append_cancel_right (bs := ['+'] ++ b) (split.trans ?_)
      rw [List.append_assoc]
  · rintro rfl
    rcases hd : v.dropWhile (fun c => decide (c ≠ '+')) with _ | ⟨c, b⟩
    · rw [hd, List.append_nil] at split
      rw [split] at all ⊢
      exact .whole all
    · have hc := dropWhile_head (p := fun c => decide (c ≠ '+')) (l := v) (c := c) (by rw [hd]; rfl)
      have hc : c = '+' := by simpa using hc
      subst hc
      rw [hd] at split
      have := Base.cut (b := b) all
      rwa [List.append_assoc, List.singleton_append, split] at this

theorem resolveOne_iff {lib : Lib} {s t : Str} : resolveOne lib s = .ok t ↔ Resolves lib s t := by
  unfold resolveOne
  constructor
  · intro h
    by_cases hs : isSystem s = true
    · rw [if_pos hs] at h
      obtain ⟨n, rfl⟩ := isSystem_iff.1 hs
      rw [sysName_eq] at h
      rcases hv : lib.version n with _ | v <;> simp only [hv] at h <;> cases h
      exact .system hv (base_iff.2 rfl)
    · rw [if_neg hs] at h
      cases h
      exact .other (fun n e => hs (isSystem_iff.2 ⟨n, e⟩))
  · intro h
    cases h with
    | @system n v w hv hb =>
      rw [if_pos (isSystem_iff.2 ⟨n, rfl⟩), sysName_eq]
      simp only [hv, base_iff.1 hb]
      rfl
    | other h =>
      rw [if_neg]
      intro hs
      obtain ⟨n, e⟩ := isSystem_iff.1 hs
      exact h n e

/-- **C64** `#system_x#` becomes `x==` the version of the installed package without its build metadata, other items stay, in the
given order; a package that is not installed is an error -/
theorem resolve_correct {lib : Lib} {l out : List Str} : resolve lib l = .ok out ↔ Each (Resolves lib) l out := by
  induction l generalizing out with
  | nil =>
    rw [resolve]
    exact ⟨fun h => by cases h; exact .nil, fun h => by cases h; rfl⟩
  | cons s l ih =>
    rw [resolve]
    constructor
    · intro h
      rcases ho : resolveOne lib s with e | t
      · simp only [ho] at h; cases h
      · simp only [ho] at h
        rcases hf : resolve lib l with e | k
        · simp only [hf] at h; cases h
        · simp only [hf] at h
          cases h
          exact .cons (resolveOne_iff.1 ho) (ih.1 hf)
    · intro h
      cases h with
      | cons h1 h2 =>
        rw [resolveOne_iff.2 h1]
        simp only [ih.2 h2]

/-- **C64** both steps together -/
theorem process_correct_partial {lib : Lib} {vars : List (Str × Value)} {l : List Str}
    (hs : ∀ l', Each (Resolves lib) l l' → ∀ s ∈ l', Simple lib s) {out : List Out} :
    process lib vars l = .ok out ↔
      ∃ l' os, Each (Resolves lib) l l' ∧ Each (Becomes lib vars) l' os ∧ out = os.filterMap id := by
  unfold process
  constructor
  · intro h
    rcases hr : resolve lib l with e | l'
    · simp only [hr] at h; cases h
    · simp only [hr] at h
      have h1 := resolve_correct.1 hr
      obtain ⟨os, h2, h3⟩ := (filter_correct_partial (hs l' h1)).1 h
      exact ⟨l', os, h1, h2, h3⟩
  · rintro ⟨l', os, h1, h2, h3⟩
    rw [resolve_correct.2 h1]
    exact (filter_correct_partial (hs l' h1)).2 ⟨os, h2, h3⟩

/-- **C64** (violation) a system package with a marker is not looked up: it is dropped or an error, never installed, when the
parser refuses names that start with `#` (as `packaging` does) -/
theorem system_marked_refuted {lib : Lib} (hlib : ∀ s, lib.parse ('#' :: s) = none) {vars : List (Str × Value)} {name marker : Str}
    (hn : ';' ∉ name) (hlast : (marker.getLast? = some '#') → False) (o : Out) :
    resolveOne lib ("#system_".toList ++ name ++ ['#'] ++ [';'] ++ marker) =
      .ok ("#system_".toList ++ name ++ ['#'] ++ [';'] ++ marker) ∧
    filterOne lib vars ("#system_".toList ++ name ++ ['#'] ++ [';'] ++ marker) ≠ .ok (some o) := by
  have hcons : ∀ x : Str, "#system_".toList ++ x = '#' :: ("system_".toList ++ x) := fun x => rfl
  constructor
  · refine resolveOne_iff.2 (.other ?_)
    intro n e
    have h1 := congrArg List.getLast? e
    rw [List.getLast?_append, List.getLast?_append (l' := [';']), List.getLast?_singleton, Option.some_or,
      List.getLast?_append (l' := ['#']), List.getLast?_singleton, Option.some_or] at h1
    rcases hm : marker.getLast? with _ | c
    · rw [hm] at h1
      exact absurd h1 (by decide)
    · rw [hm, Option.some_or, Option.some.injEq] at h1
      exact hlast (by rw [hm, h1])
  · intro h
    have hs : Simple lib ("#system_".toList ++ name ++ ['#'] ++ [';'] ++ marker) := by
      intro _ r m hp
      rw [List.append_assoc, List.append_assoc, List.append_assoc, hcons, hlib] at hp
      cases hp
    have hb := (filterOne_iff hs).1 h
    have hno : lib.parse ("#system_".toList ++ name ++ ['#'] ++ [';'] ++ marker) = none := by
      rw [List.append_assoc, List.append_assoc, List.append_assoc, hcons, hlib]
    have hsemi : ';' ∈ "#system_".toList ++ name ++ ['#'] ++ [';'] ++ marker := by
      simp only [List.mem_append, List.mem_singleton, or_true, true_or]
    generalize hS : "#system_".toList ++ name ++ ['#'] ++ [';'] ++ marker = S at hb hno hsemi
    cases hb with
    | url hu =>
      obtain ⟨p, r, e, hp⟩ := hu
      rw [← hS, List.append_assoc, List.append_assoc, List.append_assoc, hcons] at e
      simp only [List.mem_cons, List.not_mem_nil, or_false] at hp
      rcases hp with rfl | rfl | rfl | rfl | rfl | rfl <;> exact absurd (List.cons.inj e).1 (by decide)
    | plain _ h' => exact h' hsemi
    | standard _ _ h' => rw [hno] at h'; cases h'
    | unmarked _ _ h' => rw [hno] at h'; cases h'
    | @custom base mk m b r x _ hmk _ _ _ _ hst hpb =>
      obtain ⟨hb1, hb2⟩ := hmk
      have hbase : base = "#system_".toList ++ name ++ ['#'] := by
        have hb3 : ';' ∉ "#system_".toList ++ name ++ ['#'] := by
          simp only [List.mem_append, List.mem_singleton, not_or]
          exact ⟨⟨by decide, hn⟩, by decide⟩
        refine (prefix_delim (d := ';') hb1 hb3 (x := marker) ⟨mk, ?_⟩)
        rw [← hb2, ← hS]
        simp only [List.append_assoc, List.singleton_append]
        rfl
      have : b = "#system_".toList ++ name ++ ['#'] := by
        rw [hbase] at hst
        have h2 : Stripped ("#system_".toList ++ name ++ ['#']) ("#system_".toList ++ name ++ ['#']) := by
          refine ⟨[], [], by simp only [List.nil_append, List.append_nil], by simp, by simp, ?_, ?_⟩
          · intro c hc
            rw [List.append_assoc, hcons, List.head?_cons, Option.some.injEq] at hc
            rw [← hc]; decide
          · intro c hc
            rw [List.getLast?_append, List.getLast?_singleton, Option.some_or, Option.some.injEq] at hc
            rw [← hc]; decide
        rw [← strip_of_stripped hst, strip_of_stripped h2]
      rw [this, List.append_assoc, hcons, hlib] at hpb
      cases hpb

/-! ## Examples -/

def torch : Req := ⟨"torch".toList, [], ">=2".toList, none⟩
def web : Req := ⟨"uvicorn".toList, ["standard".toList], [], none⟩

/-- a library that knows four requirements -/
def lib : Lib where
  parse s := if s = "torch>=2".toList then some (torch, none)
    else if s = "torch>=2; python_version>\"3\"".toList then some (torch, some true)
    else if s = "uvicorn[standard]; python_version>\"3\"".toList then some (web, some true)
    else if s = "uvicorn[standard]; python_version<\"3\"".toList then some (web, some false)
    else if s = "uvicorn[standard]".toList then some (web, none) else none
  isCustom _ := true
  evalCustom m := if m = "\"vllm\" == \"vllm\"".toList then some true else some false
  version n := if n = "torch".toList then some "2.1.0+cpu".toList else none

def engine : List (Str × Value) := [("engine".toList, .json "\"vllm\"".toList)]

example : substitute engine "#engine# == \"vllm\"".toList = "\"vllm\" == \"vllm\"".toList := by decide
example : Separated [] [("a".toList, " == ".toList), ("b".toList, "".toList)] := by
  refine ⟨by decide, by decide, fun _ => ⟨'=', by decide, by decide⟩, by decide, by decide, fun h => absurd rfl h, ?_⟩
  show '#' ∉ _
  decide
example : substitute [("b".toList, .number "3".toList), ("a".toList, .bool true)] "#a# == #b#".toList = "True == 3".toList := by decide
example : filter lib engine ["torch>=2".toList, "uvicorn[standard]; #engine# == \"vllm\"".toList, "uvicorn[standard]; #engine# == \"x\"".toList,
    "git+https://x/y".toList, "torch>=2; python_version>\"3\"".toList] =
    .ok [.req torch, .req web, .raw "git+https://x/y".toList, .req torch] := by rfl
example : filter lib [] ["uvicorn[standard]; python_version>\"3\"".toList] = .ok [.req ⟨"uvicorn".toList, [], [], none⟩] := by rfl
example : resolve lib ["#system_torch#".toList, "numpy".toList] = .ok ["torch==2.1.0".toList, "numpy".toList] := by rfl
example : resolve lib ["#system_jax#".toList] = .error .notFound := by rfl
example : Simple lib "uvicorn[standard]; #engine# == \"vllm\"".toList := by
  intro _ r m h
  exact absurd h (by rw [show lib.parse _ = none from rfl]; simp)

end Xoscar.Reqs

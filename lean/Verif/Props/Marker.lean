import Verif.Proof.Marker
/-!
# C63: extended markers
-/
namespace Xoscar.Marker

mutual
theorem sound {env : Str → Option Val} : ∀ {e : Expr} {v : Val}, eval env e = .ok v → Means env e v ∧ Whole env e
  | .and a b, v, h => by
    rw [eval] at h
    rcases ha : eval env a with x | x <;> rw [ha] at h
    · cases h
    rcases hb : eval env b with y | y <;> rw [hb] at h <;> cases h
    obtain ⟨ma, wa⟩ := sound ha
    obtain ⟨mb, wb⟩ := sound hb
    refine ⟨?_, wa, wb, y, mb⟩
    rw [both, pyBool_eq]
    rcases ht : truthy x with _ | _
    · exact .andLeft ma ht
    · exact .andRight ma ht mb
  | .or a b, v, h => by
    rw [eval] at h
    rcases ha : eval env a with x | x <;> rw [ha] at h
    · cases h
    rcases hb : eval env b with y | y <;> rw [hb] at h <;> cases h
    obtain ⟨ma, wa⟩ := sound ha
    obtain ⟨mb, wb⟩ := sound hb
    refine ⟨?_, wa, wb, y, mb⟩
    rw [both, pyBool_eq]
    rcases ht : truthy x with _ | _
    · exact .orRight ma ht mb
    · exact .orLeft ma ht
  | .not a, v, h => by
    rw [eval] at h
    rcases ha : eval env a with x | x <;> rw [ha] at h <;> cases h
    obtain ⟨ma, wa⟩ := sound ha
    rw [pyBool_eq]
    exact ⟨.not ma, wa⟩
  | .compare l rest, v, h => by
    rw [eval] at h
    rcases ha : eval env l with x | x <;> rw [ha] at h
    · cases h
    obtain ⟨ml, wl⟩ := sound ha
    rcases ho : operand x with y | y <;> simp only [ho] at h
    · cases h
    rcases hc : evalChain env y rest with r | r <;> simp only [hc] at h <;> cases h
    obtain ⟨mc, wc⟩ := soundChain hc
    refine ⟨.compare ml (operand_iff.1 ho) mc, wl, ?_⟩
    intro x' y' mx ry
    have hx := complete mx wl
    rw [ha] at hx
    cases hx
    have := operand_iff.2 ry
    rw [ho] at this
    cases this
    exact wc
  | .name id, v, h => ⟨.name (normalize_iff.1 h), trivial⟩
  | .const v, w, h => by cases h; exact ⟨.const, trivial⟩
  | .unsupported, v, h => by cases h
theorem soundChain {env : Str → Option Val} : ∀ {c : Chain} {x : Val} {r : Bool}, evalChain env x c = .ok r →
    ChainMeans env x c r ∧ WholeChain env x c
  | .last op e, x, r, h => by
    rw [evalChain] at h
    rcases he : eval env e with y | y <;> rw [he] at h
    · cases h
    obtain ⟨me, we⟩ := sound he
    rcases ho : operand y with z | z <;> simp only [ho] at h
    · cases h
    exact ⟨.last me (operand_iff.1 ho) (apply_iff.1 h), we⟩
  | .more op e rest, x, r, h => by
    rw [evalChain] at h
    rcases he : eval env e with y | y <;> rw [he] at h
    · cases h
    obtain ⟨me, we⟩ := sound he
    rcases ho : operand y with z | z <;> simp only [ho] at h
    · cases h
    rcases hp : apply op x z with b | b <;> simp only [hp] at h
    · cases h
    have uniq : ∀ y' z', Means env e y' → Reads true y' z' → z' = z := by
      intro y' z' my rz
      have h1 := complete my we
      rw [he] at h1; cases h1
      have h2 := operand_iff.2 rz
      rw [ho] at h2; cases h2
      rfl
    cases b with
    | false =>
      cases h
      refine ⟨.stop me (operand_iff.1 ho) (apply_iff.1 hp), we, ?_⟩
      intro y' z' my rz hc
      rw [uniq y' z' my rz] at hc
      have := apply_iff.2 hc
      rw [hp] at this
      cases this
    | true =>
      obtain ⟨mc, wc⟩ := soundChain h
      refine ⟨.more me (operand_iff.1 ho) (apply_iff.1 hp) mc, we, ?_⟩
      intro y' z' my rz _
      rw [uniq y' z' my rz]
      exact wc
theorem complete {env : Str → Option Val} : ∀ {e : Expr} {v : Val}, Means env e v → Whole env e → eval env e = .ok v
  | .and a b, v, m, w => by
    obtain ⟨wa, wb, y, mb⟩ := w
    have hb := complete mb wb
    cases m with
    | andLeft ma ht => rw [eval, complete ma wa]; simp only [hb, both, pyBool_eq, ht]; rfl
    | andRight ma ht mb' => rw [eval, complete ma wa]; simp only [complete mb' wb, both, pyBool_eq, ht]; rfl
  | .or a b, v, m, w => by
    obtain ⟨wa, wb, y, mb⟩ := w
    have hb := complete mb wb
    cases m with
    | orLeft ma ht => rw [eval, complete ma wa]; simp only [hb, both, pyBool_eq, ht]; rfl
    | orRight ma ht mb' => rw [eval, complete ma wa]; simp only [complete mb' wb, both, pyBool_eq, ht]; rfl
  | .not a, v, m, w => by
    cases m with
    | not ma => rw [eval, complete ma w, pyBool_eq]
  | .compare l rest, v, m, w => by
    cases m with
    | compare ml rd mc =>
      rw [eval, complete ml w.1]
      simp only [operand_iff.2 rd, completeChain mc (w.2 _ _ ml rd)]
  | .name id, v, m, _ => by cases m with | name h => exact normalize_iff.2 h
  | .const v, w, m, _ => by cases m; rfl
  | .unsupported, v, m, _ => by cases m
theorem completeChain {env : Str → Option Val} : ∀ {c : Chain} {x : Val} {r : Bool}, ChainMeans env x c r → WholeChain env x c →
    evalChain env x c = .ok r
  | .last op e, x, r, m, w => by
    cases m with
    | last me rd hc => rw [evalChain, complete me w]; simp only [operand_iff.2 rd, apply_iff.2 hc]
  | .more op e rest, x, r, m, w => by
    cases m with
    | stop me rd hc => rw [evalChain, complete me w.1]; simp only [operand_iff.2 rd, apply_iff.2 hc]
    | more me rd hc mc =>
      rw [evalChain, complete me w.1]
      simp only [operand_iff.2 rd, apply_iff.2 hc]
      exact completeChain mc (w.2 _ _ me rd hc)
end

/-- **C63** an answer is the right answer -/
theorem marker_right {env : Str → Option Val} {e : Expr} {v : Val} (h : eval env e = .ok v) : Means env e v := (sound h).1

/-- **C63** (exactly when there is an answer) the marker has a meaning and so has every operand of its `and`s and `or`s, also the
ones that do not matter.  What is missing: an answer for every marker that has a meaning -- see `guard_refuted` -/
theorem marker_answers_iff_partial {env : Str → Option Val} {e : Expr} :
    (∃ v, eval env e = .ok v) ↔ (∃ v, Means env e v) ∧ Whole env e :=
  ⟨fun ⟨v, h⟩ => ⟨⟨v, (sound h).1⟩, (sound h).2⟩, fun ⟨⟨v, m⟩, w⟩ => ⟨v, complete m w⟩⟩

/-- **C63** markers without `and` and `or`: an answer exactly when there is a meaning, and it is that -/
theorem simple_marker {env : Str → Option Val} {id : Str} {op : Op} {lit v : Val} :
    eval env (.compare (.name id) (.last op (.const lit))) = .ok v ↔ Means env (.compare (.name id) (.last op (.const lit))) v :=
  ⟨marker_right, fun m => complete m ⟨trivial, fun _ _ _ _ => trivial⟩⟩

def hasCuda : Str := "has_cuda".toList
def cudaVersion : Str := "cuda_version".toList
def cudaArch : Str := "cuda_arch".toList

/-- `cuda_version op "…"` -/
def versionTest (op : Op) (s : Str) : Expr := .compare (.name cudaVersion) (.last op (.const (.str s)))

theorem versionTest_none {env : Str → Option Val} (h : env cudaVersion = some .none) {parts : List Str}
    (hlen : 2 ≤ parts.length) (hp : ∀ p ∈ parts, p ≠ [] ∧ digits p = true) {op : Op} (hop : op = .lt ∨ op = .le ∨ op = .gt ∨ op = .ge) :
    eval env (versionTest op (dotted parts)) = .error .typeError := by
  have ho := operand_iff.2 (Reads.version (arch := true) hlen hp)
  have hn : operand .none = .ok .none := rfl
  simp only [versionTest, eval, h, Option.getD_some, normalize, hn, evalChain, ho]
  rcases hop with rfl | rfl | rfl | rfl <;> rfl

/-- **C63** (violation) `has_cuda and cuda_version >= "12.1"` on a machine without CUDA: its meaning is false, but the installation
fails with a TypeError; for every version and every order operator -/
theorem guard_refuted {env : Str → Option Val} (h1 : env hasCuda = some (.bool false)) (h2 : env cudaVersion = some .none)
    {parts : List Str} (hlen : 2 ≤ parts.length) (hp : ∀ p ∈ parts, p ≠ [] ∧ digits p = true) {op : Op}
    (hop : op = .lt ∨ op = .le ∨ op = .gt ∨ op = .ge) :
    Means env (.and (.name hasCuda) (versionTest op (dotted parts))) (.bool false) ∧
    eval env (.and (.name hasCuda) (versionTest op (dotted parts))) = .error .typeError := by
  refine ⟨.andLeft (.name (by rw [h1]; exact .bool)) rfl, ?_⟩
  rw [eval, eval, h1]
  simp only [Option.getD_some, normalize, versionTest_none h2 hlen hp hop]

/-- **C63** (violation) the same for `not has_cuda or cuda_version >= "12.1"`, whose meaning is true -/
theorem or_guard_refuted {env : Str → Option Val} (h1 : env hasCuda = some (.bool false)) (h2 : env cudaVersion = some .none)
    {parts : List Str} (hlen : 2 ≤ parts.length) (hp : ∀ p ∈ parts, p ≠ [] ∧ digits p = true) {op : Op}
    (hop : op = .lt ∨ op = .le ∨ op = .gt ∨ op = .ge) :
    Means env (.or (.not (.name hasCuda)) (versionTest op (dotted parts))) (.bool true) ∧
    eval env (.or (.not (.name hasCuda)) (versionTest op (dotted parts))) = .error .typeError := by
  have hm : Means env (.name hasCuda) (.bool false) := .name (by rw [h1]; exact .bool)
  refine ⟨Means.orLeft (show Means env _ (.bool (! truthy (.bool false))) from .not hm) rfl, ?_⟩
  rw [eval, eval, eval, h1]
  simp only [Option.getD_some, normalize, versionTest_none h2 hlen hp hop]

theorem reads_digits {arch : Bool} {r : Str} (hr : r ≠ []) (hd : digits r = true) : Reads arch (.str r) (.str r) := by
  have hdig : ∀ c ∈ r, c.isDigit = true := List.all_eq_true.1 hd
  obtain ⟨c, r', rfl⟩ : ∃ c r', r = c :: r' := by cases r with | nil => exact absurd rfl hr | cons c r => exact ⟨c, r, rfl⟩
  have hc : c.isDigit = true := hdig c (by simp)
  have hlow : Char.toLower c = c := by
    unfold Char.toLower
    simp only [Char.isDigit, Bool.and_eq_true, decide_eq_true_eq] at hc
    rw [dif_neg]
    intro h
    have h1 : c.val ≤ 57 := hc.2
    have h2 : 65 ≤ c.val := h.1
    have := Nat.le_trans (UInt32.le_iff_toNat_le.1 h2) (UInt32.le_iff_toNat_le.1 h1)
    exact absurd this (by decide)
  have ne : ∀ d : Char, d.isDigit = false → c ≠ d := by rintro d h rfl; rw [hc] at h; cases h
  refine .text ?_ ?_ ?_ ?_
  · intro h
    simp only [lower, List.map_cons, yes, List.cons.injEq, hlow] at h
    exact ne 't' (by decide) h.1
  · intro h
    simp only [lower, List.map_cons, no, List.cons.injEq, hlow] at h
    exact ne 'f' (by decide) h.1
  · intro parts hlen hp e
    have := dotted_not_word hlen hp
    rw [← e] at this
    exact digits_nodot hd this
  · intro _ r'' _ _ e
    simp only [List.cons.injEq] at e
    exact ne 's' (by decide) e.1

/-- **C63** a version without a dot is not taken as a version: `cuda_version >= "12"` is a TypeError whatever the CUDA version,
and `cuda_version == "12"` is false -/
theorem major_only {env : Str → Option Val} {v : List Str} {r : Str} (hlen : 2 ≤ v.length)
    (hv : ∀ p ∈ v, p ≠ [] ∧ digits p = true) (h : env cudaVersion = some (.str (dotted v))) (hr : r ≠ []) (hd : digits r = true) :
    (∀ op, op = .lt ∨ op = .le ∨ op = .gt ∨ op = .ge → eval env (versionTest op r) = .error .typeError) ∧
    eval env (versionTest .eq r) = .ok (.bool false) := by
  have h1 := normalize_iff.2 (Reads.version (arch := false) hlen hv)
  have h2 : operand (.ver (v.map number)) = .ok (.ver (v.map number)) := rfl
  have h3 := operand_iff.2 (reads_digits (arch := true) hr hd)
  constructor
  · intro op hop
    simp only [versionTest, eval, h, Option.getD_some, h1, h2, evalChain, h3]
    rcases hop with rfl | rfl | rfl | rfl <;> rfl
  · simp only [versionTest, eval, h, Option.getD_some, h1, h2, evalChain, h3]
    rfl

/-- **C63** a name that is not in the environment (a misspelt one) equals no text: the package is left out without an error -/
theorem unknown_name {env : Str → Option Val} {id : Str} (h : env id = none) {s : Str} {v : Val}
    (hs : Reads true (.str s) v) :
    eval env (.compare (.name id) (.last .eq (.const (.str s)))) = .ok (.bool false) := by
  have h1 := operand_iff.2 hs
  have h2 : operand .none = .ok .none := rfl
  simp only [eval, h, Option.getD_none, normalize, h2, evalChain, h1]
  cases hs <;> rfl

/-- **C63** `in` and `not in`, which markers of packages allow, are a KeyError -/
theorem in_refused {env : Str → Option Val} {id s : Str} (h : ∃ x w, Means env (.name id) x ∧ Reads true x w)
    (hs : ∃ w, Reads true (.str s) w) :
    eval env (.compare (.name id) (.last .other (.const (.str s)))) = .error .keyError := by
  obtain ⟨v, w, hv, hr⟩ := h
  obtain ⟨u, hu⟩ := hs
  have h1 := complete hv trivial
  rw [eval, h1]
  simp only [operand_iff.2 hr, evalChain, eval, operand_iff.2 hu]
  rfl

/-! ## Examples -/

/-- a machine with CUDA 12.1 on an sm_80 GPU, one without -/
def gpu : Str → Option Val := fun id =>
  if id = hasCuda then some (.bool true) else if id = cudaVersion then some (.str "12.1".toList)
  else if id = cudaArch then some (.str "sm_80".toList) else if id = "sys_platform".toList then some (.str "linux".toList) else none

def cpu : Str → Option Val := fun id =>
  if id = hasCuda then some (.bool false) else if id = cudaVersion then some .none
  else if id = cudaArch then some .none else if id = "sys_platform".toList then some (.str "linux".toList) else none

example : eval gpu (.and (.name hasCuda) (versionTest .ge "12.0".toList)) = .ok (.bool true) := by rfl
example : eval gpu (.and (.name hasCuda) (versionTest .lt "12.10".toList)) = .ok (.bool true) := by rfl
example : eval gpu (versionTest .eq "12.1.0".toList) = .ok (.bool true) := by rfl
example : eval gpu (.compare (.const (.str "sm_75".toList)) (.more .le (.name cudaArch) (.last .lt (.const (.str "sm_100".toList))))) =
    .ok (.bool true) := by rfl
example : eval cpu (.or (.name hasCuda) (.compare (.name "sys_platform".toList) (.last .eq (.const (.str "linux".toList))))) =
    .ok (.bool true) := by rfl
example : eval cpu (.and (.name hasCuda) (versionTest .ge "12.1".toList)) = .error .typeError := by rfl
example : eval gpu (versionTest .ge "12".toList) = .error .typeError := by rfl
example : eval gpu (.compare (.name cudaArch) (.last .ge (.const (.str "sm_90a".toList)))) = .error .typeError := by rfl
example : eval gpu (.compare (.name hasCuda) (.last .eq (.const (.str "TRUE".toList)))) = .ok (.bool true) := by rfl

end Xoscar.Marker

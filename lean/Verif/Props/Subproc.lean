import Verif.Proof.Subproc
/-! C79: the output of commands reaches the terminal and the log. -/
namespace Xoscar.Subproc
open scoped List

/-- Text comes out as it was. -/
theorem decode_text {cs : List Nat} (h : ∀ c ∈ cs, Scalar c) : decode (cs.flatMap utf8) = cs := by
  induction cs with
  | nil => rfl
  | cons c cs ih =>
    simp only [List.flatMap_cons, decode]
    rw [dec_utf8 (h c List.mem_cons_self)]
    have := ih (fun c' h' => h c' (List.mem_cons_of_mem _ h'))
    rw [decode] at this
    rw [this]

/-- Whatever the bytes, characters come out, and no surrogates. -/
theorem decode_scalars (bs : List Nat) : ∀ c ∈ decode bs, Scalar c := dec_scalar (by simp) bs

/-- Reading line by line never tears a character apart, whatever the bytes. -/
theorem decode_by_lines (a b : List Nat) : decode (a ++ [10] ++ b) = decode (a ++ [10]) ++ decode b := by
  rw [decode_append_newline, List.append_assoc, List.append_assoc]
  exact decode_newline a b

/-- `clean_ansi` takes out the control sequences, as they are met from left to right, and nothing else. -/
theorem clean_iff (s t : List Nat) : cleanAnsi s = t ↔ Cleaned s t :=
  ⟨fun h => h ▸ cleaned_clean s, clean_of_cleaned⟩

theorem clean_plain {s : List Nat} (h : 27 ∉ s) : cleanAnsi s = s := by
  rw [clean_iff]
  induction s with
  | nil => exact .nil
  | cons c s ih =>
    refine .char ?_ (ih fun h' => h (List.mem_cons_of_mem _ h'))
    rintro a r e ⟨ps, is, f, rfl, _⟩
    simp only [List.cons_append, List.cons.injEq] at e
    exact h (by rw [e.1]; simp)

theorem clean_sublist (s : List Nat) : cleanAnsi s <+ s := by
  have h := cleaned_clean s
  generalize cleanAnsi s = t at h
  induction h with
  | nil => exact .slnil
  | seq _ _ ih => exact ih.trans (List.sublist_append_right _ _)
  | char _ _ ih => exact ih.cons₂ _

/-- The log is not free of control sequences: what is left of the text when they are taken out can be one itself. -/
theorem clean_nested_refuted : ∃ s, Ansi (cleanAnsi s) := by
  refine ⟨[27, 27, 91, 109, 91, 109], [], [], 109, ?_, by simp, by simp, by omega, by omega⟩
  decide

/-- A byte string has its lines in one way only. -/
theorem lines_unique {bs : List Nat} {ls ls' : List (List Nat)} (h : Lines bs ls) (h' : Lines bs ls') : ls = ls' := by
  induction ls generalizing bs ls' with
  | nil =>
    cases ls' with
    | nil => rfl
    | cons l' r' =>
      have e := h'.all
      rw [← h.all] at e
      simp only [List.flatten_cons, List.flatten_nil, List.append_eq_nil_iff] at e
      exact absurd e.1 (h'.nonempty l' List.mem_cons_self)
  | cons l r ih =>
    cases ls' with
    | nil =>
      have e := h.all
      rw [← h'.all] at e
      simp only [List.flatten_cons, List.flatten_nil, List.append_eq_nil_iff] at e
      exact absurd e.1 (h.nonempty l List.mem_cons_self)
    | cons l' r' =>
      have tail : ∀ {bs : List Nat} {l r}, Lines bs (l :: r) → Lines r.flatten r := by
        intro bs l r h
        refine ⟨rfl, fun x hx => h.nonempty x (List.mem_cons_of_mem _ hx), fun x hx => h.inside x (List.mem_cons_of_mem _ hx), ?_⟩
        intro a x b e hb
        exact h.ends (l :: a) x b (by rw [e]; rfl) hb
      have e : l ++ r.flatten = l' ++ r'.flatten := by
        have := h.all.trans h'.all.symm; simpa using this
      -- the shorter of the two would have to end in a newline which is inside the other
      have key : ∀ {bs bs' : List Nat} {l r l' r'}, Lines bs (l :: r) → Lines bs' (l' :: r') → ∀ c, l' = l ++ c → r.flatten = c ++ r'.flatten → c = [] := by
        intro bs bs' l r l' r' h h' c ec er
        cases c with
        | nil => rfl
        | cons x c =>
          have hr : r ≠ [] := by rintro rfl; simp at er
          have hm : 10 ∈ l := h.ends [] l r rfl hr
          obtain ⟨a, b, rfl⟩ := List.append_of_mem hm
          have hb := h.inside _ List.mem_cons_self a b rfl
          subst hb
          have := h'.inside _ List.mem_cons_self a (x :: c) (by rw [ec]; simp)
          cases this
      have hl : l = l' := by
        rcases List.append_eq_append_iff.1 e with ⟨c, ec, er⟩ | ⟨c, ec, er⟩
        · have := key h h' c ec er
          subst this; simpa using ec.symm
        · have := key h' h c ec er
          subst this; simpa using ec
      subst hl
      have hr : r.flatten = r'.flatten := List.append_cancel_left e
      have h2 := tail h'
      rw [← hr] at h2
      rw [ih (tail h) h2]

variable {e : Env} {script : List (Bool × Nat)} {heir : Option (List (Bool × Nat))} {ls : List Label} {st : St}

/-- When the `with` statement is over and no write to the terminal failed: the terminal has got exactly the output, piece by piece its
lines; and the log has exactly one message for each line, in order. -/
theorem delivered (h : Run e script heir ls st) {r : Bool} (hd : st.pc = .done r)
    (hok : ∀ s, (st.get s).status ≠ .failed) (s : Bool) :
    ∃ lines, Lines (st.get s).sent lines ∧ (st.get s).term = lines.map decode ∧ (st.get s).term.flatten = decode (st.get s).sent ∧
      (st.get s).log.length = lines.length ∧
      ∀ (i : Nat) l, lines[i]? = some l → ∃ m, (st.get s).log[i]? = some m ∧ Message (decode l) m := by
  have hI := inv_run h
  have hp := hI.pc
  rw [pcOk, hd] at hp
  have hended : (st.get s).status = .ended := by
    have h1 := hok s
    cases s
    · have h2 := hp.2.1
      cases hs : (st.get false).status with
      | running => exact absurd hs h2
      | ended => rfl
      | failed => exact absurd hs h1
    · have h2 := hp.2.2
      cases hs : (st.get true).status with
      | running => exact absurd hs h2
      | ended => rfl
      | failed => exact absurd hs h1
  obtain ⟨lines, h1, h2, h3, h4, h5, h6⟩ := hI.took s
  obtain ⟨_, hb, hpp⟩ := h6 hended
  rw [hb, hpp] at h1
  simp only [List.append_nil] at h1
  have h3' : lines = [] ∨ ∃ a l, lines = a ++ [l] ∧ ∀ l' ∈ a, 10 ∈ l' := by
    rcases h3 with h3 | ⟨_, _, _, h3⟩
    · rcases List.eq_nil_or_concat lines with h0 | ⟨a, l, h0⟩
      · exact Or.inl h0
      · rw [List.concat_eq_append] at h0
        exact Or.inr ⟨a, l, h0, fun l' hl' => h3 l' (by rw [h0]; simp [hl'])⟩
    · exact Or.inr h3
  refine ⟨lines, ⟨h1.symm, fun l hl => (h2 l hl).ne, fun l hl => (h2 l hl).inside, ?_⟩, h4, ?_, by simp [h5], ?_⟩
  · intro a l b e hb
    rcases h3' with rfl | ⟨a', l', rfl, h3'⟩
    · simp at e
    · rcases List.eq_nil_or_concat b with h0 | ⟨b', z, h0⟩
      · exact absurd h0 hb
      · subst h0
        have e' : a' ++ [l'] = (a ++ l :: b') ++ [z] := by simpa using e
        have := List.append_inj_left' e' rfl
        exact h3' l (by rw [this]; simp)
  · rw [h4, h1]
    rcases h3' with rfl | ⟨a', l', rfl, h3'⟩
    · rfl
    · have := decode_full (ls := a') (fun l hl => h2 l (List.mem_append_left _ hl)) h3' l'
      simp only [List.flatten_append, List.flatten_cons, List.flatten_nil, List.append_nil, List.map_append, List.map_cons, List.map_nil]
      rw [this]
  · intro i l hl
    refine ⟨_, by rw [h5, List.getElem?_map, hl]; rfl, ?_⟩
    exact message_of_good (h2 l (List.mem_of_getElem? hl))

/-- At any moment, and also when a write failed: terminal and log have the first lines of the output, none twice, none out of order. -/
theorem so_far (h : Run e script heir ls st) (s : Bool) :
    ∃ (lines : List (List Nat)) (rest : List Nat), (st.get s).sent = lines.flatten ++ rest ∧ (∀ l ∈ lines, l ≠ [] ∧ ∀ a b, l = a ++ 10 :: b → b = []) ∧
      (st.get s).term = lines.map decode ∧ (st.get s).log.length = lines.length ∧
      ∀ (i : Nat) l, lines[i]? = some l → ∃ m, (st.get s).log[i]? = some m ∧ Message (decode l) m := by
  obtain ⟨lines, h1, h2, h3, h4, h5, h6⟩ := (inv_run h).took s
  refine ⟨lines, (st.get s).buf ++ (st.get s).pipe, by rw [h1, List.append_assoc], fun l hl => ⟨(h2 l hl).ne, (h2 l hl).inside⟩, h4, by simp [h5], ?_⟩
  intro i l hl
  exact ⟨_, by rw [h5, List.getElem?_map, hl]; rfl, message_of_good (h2 l (List.mem_of_getElem? hl))⟩

/-- What a process writes: the bytes of its script, in order, to the streams named there. -/
theorem sent_is_script (h : Run e script none ls st) (s : Bool) :
    (st.get s).sent ++ (st.script.filter (·.1 == s)).map (·.2) = (script.filter (·.1 == s)).map (·.2) := by
  have key : st.heir = none ∧ ∀ s, (st.get s).sent ++ (st.script.filter (·.1 == s)).map (·.2) = (script.filter (·.1 == s)).map (·.2) := by
    clear s
    induction h with
    | init => exact ⟨rfl, fun s => by cases s <;> simp [init, St.get]⟩
    | @snoc ls l st st' hr hs ih =>
      obtain ⟨hh, ih⟩ := ih
      cases l with
      | write =>
        simp only [step] at hs
        split at hs
        · cases hs
        · rename_i t b rest hsc
          split at hs
          · injection hs with hs; subst hs
            refine ⟨by simpa using hh, fun s => ?_⟩
            have := ih s
            rw [hsc] at this
            rw [put_get, put_script]
            by_cases hts : t = s
            · subst hts; simp only [if_true, Stream.accept]; simpa using this
            · rw [if_neg hts]
              rw [List.filter_cons_of_neg (by simpa using hts)] at this
              exact this
          · cases hs
      | exit =>
        simp only [step] at hs
        split at hs
        · injection hs with hs; subst hs; exact ⟨hh, ih⟩
        · cases hs
      | heirWrite => simp only [step, hh] at hs; cases hs
      | heirExit => simp only [step, hh] at hs; cases hs
      | fetch t n =>
        simp only [step] at hs
        split at hs
        · injection hs with hs; subst hs
          refine ⟨by simpa using hh, fun s => ?_⟩
          rw [put_get, put_script]
          by_cases hts : t = s
          · subst hts; simpa using ih t
          · rw [if_neg hts]; exact ih s
        · cases hs
      | line t =>
        simp only [step] at hs
        split at hs
        · injection hs with hs; subst hs
          refine ⟨by simpa using hh, fun s => ?_⟩
          rw [put_get, put_script]
          by_cases hts : t = s
          · subst hts
            have e1 : ((st.get t).emit e).sent = (st.get t).sent := by unfold Stream.emit; split <;> rfl
            simp only [if_true, e1]; exact ih t
          · rw [if_neg hts]; exact ih s
        · cases hs
      | stop t =>
        simp only [step] at hs
        split at hs
        · injection hs with hs; subst hs
          refine ⟨by simpa using hh, fun s => ?_⟩
          rw [put_get, put_script]
          by_cases hts : t = s
          · subst hts; simpa using ih t
          · rw [if_neg hts]; exact ih s
        · cases hs
      | leave r =>
        simp only [step] at hs
        split at hs
        · injection hs with hs; subst hs; exact ⟨hh, ih⟩
        · cases hs
      | wait =>
        simp only [step] at hs
        split at hs
        · split at hs
          · injection hs with hs; subst hs; exact ⟨hh, ih⟩
          · cases hs
        · cases hs
      | join =>
        simp only [step] at hs
        split at hs
        · split at hs
          · injection hs with hs; subst hs; exact ⟨hh, ih⟩
          · cases hs
        · split at hs
          · injection hs with hs; subst hs; exact ⟨hh, ih⟩
          · cases hs
        · cases hs
  exact key.2 s

/-- The statement is over only when the command has ended, whether the body raised or not; and everything the command wrote was delivered. -/
theorem over_means_ended (h : Run e script heir ls st) {r : Bool} (hd : st.pc = .done r) : st.exited = true ∧ st.script = [] := by
  have hI := inv_run h
  have hp := hI.pc
  rw [pcOk, hd] at hp
  exact ⟨hp.1, hI.exited hp.1⟩

/-- The whole output, for a command that leaves nothing behind. -/
theorem all_delivered (h : Run e script none ls st) {r : Bool} (hd : st.pc = .done r) (hok : ∀ s, (st.get s).status ≠ .failed) (s : Bool) :
    (st.get s).term.flatten = decode ((script.filter (·.1 == s)).map (·.2)) := by
  obtain ⟨_, _, _, h3, _⟩ := delivered h hd hok s
  have h1 := sent_is_script h s
  rw [(over_means_ended h hd).2] at h1
  rw [h3, ← h1]; simp

/-- It also waits for every process the command left behind with its output streams. -/
theorem left_behind_refuted (h : Run e script heir ls st) {r : Bool} (hd : st.pc = .done r) (hok : ∃ s, (st.get s).status ≠ .failed) :
    st.heir = none := by
  have hI := inv_run h
  have hp := hI.pc
  rw [pcOk, hd] at hp
  obtain ⟨s, hs⟩ := hok
  have hended : (st.get s).status = .ended := by
    have hr : (st.get s).status ≠ .running := by cases s; exact hp.2.1; exact hp.2.2
    cases hx : (st.get s).status with
    | running => exact absurd hx hr
    | ended => rfl
    | failed => exact absurd hx hs
  obtain ⟨_, _, _, _, _, _, h6⟩ := hI.took s
  have := (h6 hended).1
  simp only [St.eof, Bool.and_eq_true, Option.isNone_iff_eq_none] at this
  exact this.2

/-- The outcome of the body is the outcome of the statement. -/
theorem outcome_kept (h : Run e script heir ls st) {r : Bool} (hd : st.pc = .done r) : Label.leave r ∈ ls := by
  have key : match st.pc with
      | .body => True
      | .waiting r => Label.leave r ∈ ls
      | .joinOut r => Label.leave r ∈ ls
      | .joinErr r => Label.leave r ∈ ls
      | .done r => Label.leave r ∈ ls := by
    clear hd
    induction h with
    | init => trivial
    | @snoc ls l st st' hr hs ih =>
      have same : st'.pc = st.pc → (match st'.pc with
          | .body => True
          | .waiting r => Label.leave r ∈ ls ++ [l]
          | .joinOut r => Label.leave r ∈ ls ++ [l]
          | .joinErr r => Label.leave r ∈ ls ++ [l]
          | .done r => Label.leave r ∈ ls ++ [l]) := by
        intro h0; rw [h0]
        cases hp : st.pc <;> rw [hp] at ih <;> simp_all
      cases l with
      | leave r =>
        simp only [step] at hs
        split at hs
        · injection hs with hs; subst hs; simp
        · cases hs
      | wait =>
        simp only [step] at hs
        split at hs
        · rename_i r hp
          split at hs
          · injection hs with hs; subst hs; rw [hp] at ih; simpa using ih
          · cases hs
        · cases hs
      | join =>
        simp only [step] at hs
        split at hs
        · rename_i r hp
          split at hs
          · injection hs with hs; subst hs; rw [hp] at ih; simpa using ih
          · cases hs
        · rename_i r hp
          split at hs
          · injection hs with hs; subst hs; rw [hp] at ih; simpa using ih
          · cases hs
        · cases hs
      | _ =>
        apply same
        simp only [step] at hs
        repeat' split at hs
        all_goals first
          | cases hs; done
          | (injection hs with hs; subst hs; simp)
  rw [hd] at key; exact key

/-- No schedule stalls: as long as no write to the terminal fails, some step can be taken until the statement is over. -/
theorem never_stuck_partial (h : Run e script heir ls st) (hc : 0 < e.cap) (hok : ∀ s, (st.get s).status ≠ .failed) (hd : ∀ r, st.pc ≠ .done r) :
    ∃ l st', step e st l = some st' := by
  have hI := inv_run h
  -- a reader with something to fetch
  by_cases hf : ∃ s, (st.get s).status = .running ∧ (st.get s).pipe ≠ []
  · obtain ⟨s, h1, h2⟩ := hf
    have : 0 < (st.get s).pipe.length := List.length_pos_iff.2 h2
    exact ⟨.fetch s 1, _, by simp only [step]; rw [if_pos ⟨h1, by omega, by omega⟩]⟩
  have hpipe : ∀ s, (st.get s).pipe = [] := by
    intro s
    apply Classical.byContradiction; intro hne
    obtain ⟨_, _, _, _, _, _, h6⟩ := hI.took s
    cases hs : (st.get s).status with
    | running => exact hf ⟨s, hs, hne⟩
    | ended => exact hne (h6 hs).2.2
    | failed => exact hok s hs
  cases hsc : st.script with
  | cons x rest =>
    obtain ⟨s, b⟩ := x
    exact ⟨.write, _, by simp only [step, hsc]; rw [if_pos (by rw [hpipe s]; simpa using hc)]⟩
  | nil =>
    cases hex : st.exited with
    | false => exact ⟨.exit, _, by simp only [step]; rw [if_pos ⟨hsc, hex⟩]⟩
    | true =>
      cases hh : st.heir with
      | some x =>
        cases x with
        | nil => exact ⟨.heirExit, _, by simp only [step]; rw [if_pos hh]⟩
        | cons y rest =>
          obtain ⟨s, b⟩ := y
          exact ⟨.heirWrite, _, by simp only [step, hh]; rw [if_pos (by rw [hpipe s]; simpa using hc)]⟩
      | none =>
        have heof : st.eof = true := by simp [St.eof, hex, hh]
        by_cases hr : ∃ s, (st.get s).status = .running
        · obtain ⟨s, hr⟩ := hr
          by_cases hb : (st.get s).buf = []
          · exact ⟨.stop s, _, by simp only [step]; rw [if_pos ⟨hr, hb, hpipe s, heof⟩]⟩
          · exact ⟨.line s, _, by simp only [step]; rw [if_pos ⟨hr, Or.inr ⟨hb, hpipe s, heof⟩⟩]⟩
        · have hro : st.out.status ≠ .running := fun h => hr ⟨false, h⟩
          have hre : st.err.status ≠ .running := fun h => hr ⟨true, h⟩
          cases hp : st.pc with
          | body => exact ⟨.leave false, _, by simp only [step]; rw [if_pos hp]⟩
          | waiting r => exact ⟨.wait, _, by simp only [step, hp]; rw [if_pos hex]⟩
          | joinOut r => exact ⟨.join, _, by simp only [step, hp]; rw [if_pos hro]⟩
          | joinErr r => exact ⟨.join, _, by simp only [step, hp]; rw [if_pos hre]⟩
          | done r => exact absurd hp (hd r)

/-- If the terminal takes everything, no reader fails. -/
theorem good_terminal (h : Run e script heir ls st) (hb : ∀ t, e.bad t = false) (s : Bool) : (st.get s).status ≠ .failed := by
  induction h generalizing s with
  | init => cases s <;> simp [init, St.get]
  | @snoc ls l st st' hr hs ih =>
    have same : (∀ s, (st'.get s).status = (st.get s).status) → (st'.get s).status ≠ .failed := fun h0 => by rw [h0]; exact ih s
    have putS : ∀ (st0 : St) (t : Bool) (x : Stream), (∀ s, st0.get s = st.get s) → x.status ≠ .failed → ((st0.put t x).get s).status ≠ .failed := by
      intro st0 t x h0 hx
      rw [put_get]; split
      · exact hx
      · rw [h0]; exact ih s
    cases l with
    | write =>
      simp only [step] at hs
      repeat' split at hs
      all_goals first
        | cases hs; done
        | (injection hs with hs; subst hs; exact putS _ _ _ (fun t => by cases t <;> rfl) (ih _))
    | heirWrite =>
      simp only [step] at hs
      repeat' split at hs
      all_goals first
        | cases hs; done
        | (injection hs with hs; subst hs; exact putS _ _ _ (fun t => by cases t <;> rfl) (ih _))
    | fetch t n =>
      simp only [step] at hs
      split at hs
      · injection hs with hs; subst hs; exact putS _ _ _ (fun _ => rfl) (ih _)
      · cases hs
    | line t =>
      simp only [step] at hs
      split at hs
      · injection hs with hs; subst hs
        refine putS _ _ _ (fun _ => rfl) ?_
        unfold Stream.emit; rw [if_neg (by simp [hb])]; exact ih t
      · cases hs
    | stop t =>
      simp only [step] at hs
      split at hs
      · injection hs with hs; subst hs; exact putS _ _ _ (fun _ => rfl) (by simp)
      · cases hs
    | _ =>
      apply same
      simp only [step] at hs
      repeat' split at hs
      all_goals first
        | cases hs; done
        | (injection hs with hs; subst hs; intro s; cases s <;> rfl)

def statusWork : Status → Nat
  | .running => 1
  | _ => 0

def load (x : Stream) : Nat := 2 * x.pipe.length + x.buf.length + statusWork x.status

def heirWork : Option (List (Bool × Nat)) → Nat
  | none => 0
  | some x => 3 * x.length + 1

def exitWork (b : Bool) : Nat := if b then 0 else 1

def pcWork : Pc → Nat
  | .body => 4
  | .waiting _ => 3
  | .joinOut _ => 2
  | .joinErr _ => 1
  | .done _ => 0

/-- The work that is left. -/
def work (st : St) : Nat := 3 * st.script.length + heirWork st.heir + exitWork st.exited + load st.out + load st.err + pcWork st.pc

theorem work_put {st : St} {s : Bool} {x : Stream} : work (st.put s x) + load (st.get s) = work st + load x := by
  cases s <;> simp only [work, St.put, St.get] <;> omega

theorem work_put_lt {st : St} {s : Bool} {x : Stream} (h : load x < load (st.get s)) : work (st.put s x) < work st := by
  have := work_put (st := st) (s := s) (x := x); omega

theorem load_emit {x : Stream} (hr : x.status = .running) (hb : x.buf ≠ []) : load (x.emit e) < load x := by
  unfold Stream.emit
  split
  · simp [load, hr, statusWork]
  · have h1 := readline_join x.buf
    have h2 := (readline_good hb).ne
    have h3 : 0 < (readline x.buf).1.length := List.length_pos_iff.2 h2
    have h4 : x.buf.length = (readline x.buf).1.length + (readline x.buf).2.length := by
      conv => lhs; rw [← h1]
      simp
    simp only [load]; omega

theorem work_step {st st' : St} {l : Label} (hs : step e st l = some st') : work st' < work st := by
  cases l with
  | write =>
    simp only [step] at hs
    split at hs
    · cases hs
    · rename_i s b rest hsc
      split at hs
      · injection hs with hs; subst hs
        have h1 := work_put (st := { st with script := rest }) (s := s) (x := (st.get s).accept b)
        have h2 : ({ st with script := rest } : St).get s = st.get s := by cases s <;> rfl
        rw [h2] at h1
        have h3 : load ((st.get s).accept b) = load (st.get s) + 2 := by simp [load, Stream.accept]; omega
        have h4 : work { st with script := rest } + 3 = work st := by simp only [work, hsc, List.length_cons]; omega
        omega
      · cases hs
  | exit =>
    simp only [step] at hs
    split at hs
    · rename_i hc
      injection hs with hs; subst hs; simp only [work, hc.2, exitWork]; simp
    · cases hs
  | heirWrite =>
    simp only [step] at hs
    split at hs
    · rename_i s b rest hh
      split at hs
      · injection hs with hs; subst hs
        have h1 := work_put (st := { st with heir := some rest }) (s := s) (x := (st.get s).accept b)
        have h2 : ({ st with heir := some rest } : St).get s = st.get s := by cases s <;> rfl
        rw [h2] at h1
        have h3 : load ((st.get s).accept b) = load (st.get s) + 2 := by simp [load, Stream.accept]; omega
        have h4 : work { st with heir := some rest } + 3 = work st := by simp only [work, hh, heirWork, List.length_cons]; omega
        omega
      · cases hs
    · cases hs
  | heirExit =>
    simp only [step] at hs
    split at hs
    · rename_i hc
      injection hs with hs; subst hs; simp only [work, hc, heirWork, List.length_nil]; omega
    · cases hs
  | fetch s n =>
    simp only [step] at hs
    split at hs
    · rename_i hc
      injection hs with hs; subst hs
      refine work_put_lt ?_
      simp only [load, List.length_append, List.length_take, List.length_drop]; omega
    · cases hs
  | line s =>
    simp only [step] at hs
    split at hs
    · rename_i hc
      injection hs with hs; subst hs
      have hb : (st.get s).buf ≠ [] := by
        rcases hc.2 with h | h
        · rintro h0; rw [h0] at h; cases h
        · exact h.1
      exact work_put_lt (load_emit hc.1 hb)
    · cases hs
  | stop s =>
    simp only [step] at hs
    split at hs
    · rename_i hc
      injection hs with hs; subst hs
      refine work_put_lt ?_
      simp only [load, hc.1, statusWork]; omega
    · cases hs
  | leave r =>
    simp only [step] at hs
    split at hs
    · rename_i hc
      injection hs with hs; subst hs; simp only [work, hc, pcWork]; omega
    · cases hs
  | wait =>
    simp only [step] at hs
    split at hs
    · rename_i hp
      split at hs
      · injection hs with hs; subst hs; simp only [work, hp, pcWork]; omega
      · cases hs
    · cases hs
  | join =>
    simp only [step] at hs
    split at hs
    · rename_i hp
      split at hs
      · injection hs with hs; subst hs; simp only [work, hp, pcWork]; omega
      · cases hs
    · rename_i hp
      split at hs
      · injection hs with hs; subst hs; simp only [work, hp, pcWork]; omega
      · cases hs
    · cases hs

/-- Every run comes to an end: it has at most three steps for each byte and eight more. -/
theorem runs_end (h : Run e script heir ls st) : ls.length ≤ 3 * script.length + 3 * (heir.getD []).length + 8 := by
  have key : ls.length + work st ≤ work (init script heir) := by
    induction h with
    | init => simp
    | snoc _ hs ih => have := work_step hs; simp only [List.length_append, List.length_singleton]; omega
  have h0 : work (init script heir) ≤ 3 * script.length + 3 * (heir.getD []).length + 8 := by
    cases heir <;> simp [work, init, heirWork, exitWork, pcWork, load, statusWork] <;> omega
  omega

theorem run_append {ls' : List Label} {st' : St} (h : Run e script heir ls st) (h' : ls'.foldlM (step e) st = some st') :
    Run e script heir (ls ++ ls') st' := by
  induction ls' generalizing ls st with
  | nil => simp only [List.foldlM_nil] at h'; injection h' with h'; subst h'; simpa using h
  | cons l ls' ih =>
    simp only [List.foldlM_cons] at h'
    rcases hl : step e st l with _ | s1
    · rw [hl] at h'; cases h'
    · rw [hl] at h'
      have := ih (h.snoc hl) h'
      simpa using this

/-- A command whose reader is dead and whose pipe is full is never waited for to the end. -/
theorem dead_reader (s : Bool) (b : Nat) (rest : List (Bool × Nat)) {st st' : St} {ls : List Label}
    (h1 : (st.get s).status = .failed) (h2 : e.cap ≤ (st.get s).pipe.length) (h3 : st.script = (s, b) :: rest) (h4 : st.exited = false)
    (h5 : st.pc = .body ∨ ∃ r, st.pc = .waiting r) (h : ls.foldlM (step e) st = some st') : st'.exited = false ∧ ∀ r, st'.pc ≠ .done r := by
  induction ls generalizing st with
  | nil =>
    simp only [List.foldlM_nil] at h; injection h with h; subst h
    refine ⟨h4, ?_⟩
    rcases h5 with h5 | ⟨r, h5⟩ <;> rw [h5] <;> simp
  | cons l ls ih =>
    simp only [List.foldlM_cons] at h
    rcases hl : step e st l with _ | s1
    · rw [hl] at h; cases h
    rw [hl] at h
    have other : ∀ (t : Bool) (x : Stream), (s = t → x.status = .failed ∧ e.cap ≤ x.pipe.length) → s1 = st.put t x →
        st'.exited = false ∧ ∀ r, st'.pc ≠ .done r := by
      rintro t x hx rfl
      refine ih ?_ ?_ (by simpa using h3) (by simpa using h4) (by simpa using h5) h
      · rw [put_get]; split
        · next hts => exact (hx hts.symm).1
        · exact h1
      · rw [put_get]; split
        · next hts => exact (hx hts.symm).2
        · exact h2
    cases l with
    | write =>
      simp only [step, h3] at hl
      rw [if_neg (by omega)] at hl; cases hl
    | exit =>
      simp only [step, h3] at hl
      rw [if_neg (by simp)] at hl; cases hl
    | heirWrite =>
      simp only [step] at hl
      split at hl
      · rename_i t c rest' hh
        split at hl
        · rename_i hlt
          injection hl with hl; subst hl
          refine ih ?_ ?_ (by simpa using h3) (by simpa using h4) (by simpa using h5) h
          · rw [put_get]; split
            · next hts => subst hts; exact h1
            · have : ({ st with heir := some rest' } : St).get s = st.get s := by cases s <;> rfl
              rw [this]; exact h1
          · rw [put_get]; split
            · next hts => subst hts; omega
            · have : ({ st with heir := some rest' } : St).get s = st.get s := by cases s <;> rfl
              rw [this]; exact h2
        · cases hl
      · cases hl
    | heirExit =>
      simp only [step] at hl
      split at hl
      · injection hl with hl; subst hl
        exact ih (st := { st with heir := none }) (by cases s <;> exact h1) (by cases s <;> exact h2) h3 h4 h5 h
      · cases hl
    | fetch t n =>
      simp only [step] at hl
      split at hl
      · rename_i hc
        injection hl with hl
        exact other t _ (fun hts => by subst hts; rw [h1] at hc; simp at hc) hl.symm
      · cases hl
    | line t =>
      simp only [step] at hl
      split at hl
      · rename_i hc
        injection hl with hl
        exact other t _ (fun hts => by subst hts; rw [h1] at hc; simp at hc) hl.symm
      · cases hl
    | stop t =>
      simp only [step] at hl
      split at hl
      · rename_i hc
        injection hl with hl
        exact other t _ (fun hts => by subst hts; rw [h1] at hc; simp at hc) hl.symm
      · cases hl
    | leave r =>
      simp only [step] at hl
      split at hl
      · injection hl with hl; subst hl
        exact ih (st := { st with pc := .waiting r }) (by cases s <;> exact h1) (by cases s <;> exact h2) h3 h4 (Or.inr ⟨r, rfl⟩) h
      · cases hl
    | wait =>
      simp only [step] at hl
      split at hl
      · rw [if_neg (by simp [h4])] at hl; cases hl
      · cases hl
    | join =>
      simp only [step] at hl
      rcases h5 with h5 | ⟨r, h5⟩ <;> rw [h5] at hl <;> cases hl

theorem fill (e : Env) (n : Nat) (rest : List (Bool × Nat)) {st : St} (hs : st.script = List.replicate n (false, 97) ++ rest)
    (hc : st.out.pipe.length + n ≤ e.cap) :
    ∃ st', (List.replicate n Label.write).foldlM (step e) st = some st' ∧ st'.script = rest ∧ st'.out.status = st.out.status ∧
      st'.out.pipe.length = st.out.pipe.length + n ∧ st'.exited = st.exited ∧ st'.pc = st.pc := by
  induction n generalizing st with
  | zero => exact ⟨st, rfl, by simpa using hs, rfl, rfl, rfl, rfl⟩
  | succ n ih =>
    have h1 : step e st .write = some ({ st with script := List.replicate n (false, 97) ++ rest }.put false (st.out.accept 97)) := by
      simp only [step, hs, List.replicate_succ, List.cons_append]
      exact if_pos (show st.out.pipe.length < e.cap by omega)
    obtain ⟨st', g1, g2, g3, g4, g5, g6⟩ := ih (st := { st with script := List.replicate n (false, 97) ++ rest }.put false (st.out.accept 97))
      rfl (by simp only [St.put, Stream.accept, List.length_append, List.length_singleton]; omega)
    refine ⟨st', ?_, g2, g3, ?_, g5, g6⟩
    · rw [List.replicate_succ, List.foldlM_cons, h1]; exact g1
    · rw [g4]; simp only [St.put, Stream.accept, List.length_append, List.length_singleton]; omega

/-- Whatever the size of the pipe: if the terminal refuses one line (here one with a character it lacks), the reader dies, the command
hangs as soon as the pipe is full, and the `with` statement never ends. -/
theorem refused_line_hangs_refuted (cap : Nat) (hc : 0 < cap) :
    ∃ (e : Env) (script : List (Bool × Nat)) (ls : List Label) (st : St), e.cap = cap ∧ Run e script none ls st ∧
      ∀ (ls' : List Label) (st' : St), ls'.foldlM (step e) st = some st' → st'.exited = false ∧ ∀ r, st'.pc ≠ .done r := by
  let e : Env := ⟨cap, fun t => t.contains 0xFFFD⟩
  let script : List (Bool × Nat) := (false, 255) :: (false, 10) :: (List.replicate cap (false, 97) ++ [(false, 97)])
  let st0 : St := { script := List.replicate cap (false, 97) ++ [(false, 97)],
                    out := { sent := [255, 10], pipe := [], buf := [255, 10], status := .failed } }
  have h0 : [Label.write, .fetch false 1, .write, .fetch false 1, .line false].foldlM (step e) (init script none) = some st0 := by
    have hcc : (0 < cap) = True := by simpa using hc
    simp [init, step, script, e, St.get, St.put, Stream.accept, hc, st0, Stream.emit, readline, decode, dec, start]
  obtain ⟨st1, g1, g2, g3, g4, g5, g6⟩ := fill e cap [(false, 97)] (st := st0) rfl (by simp [st0, e])
  have hr : Run e script none ([Label.write, .fetch false 1, .write, .fetch false 1, .line false] ++ List.replicate cap .write) st1 := by
    refine run_append ?_ g1
    simpa using run_append Run.init h0
  refine ⟨e, script, _, st1, rfl, hr, ?_⟩
  intro ls' st' h'
  exact dead_reader (s := false) (b := 97) (rest := []) (by simpa [St.get] using g3) (by simp [St.get, g4, st0, e]) g2 g5 (Or.inl g6) h'

/-! A whole run: two lines with colour and an unfinished last line on stdout, one byte on stderr. -/

/-- `ESC [ 3 1 m a newline`, then `b`; stderr `c`. -/
def exScript : List (Bool × Nat) :=
  [(false, 27), (false, 91), (false, 51), (false, 49), (false, 109), (false, 97), (false, 10), (true, 99), (false, 98)]

def exEnv : Env := ⟨4, fun _ => false⟩

def exSteps : List Label :=
  [.write, .write, .leave false, .fetch false 2, .write, .write, .write, .write, .fetch false 3, .fetch false 1, .write, .write, .write, .exit, .wait,
   .fetch false 1, .line false, .fetch true 1, .line true, .stop true, .fetch false 1, .line false, .stop false, .join, .join]

example : ∃ st, exSteps.foldlM (step exEnv) (init exScript none) = some st ∧ st.pc = .done false ∧
    st.out.term = [[27, 91, 51, 49, 109, 97, 10], [98]] ∧ st.out.log = [[97], [98]] ∧ st.err.log = [[99]] := by
  decide

example : cleanAnsi [97, 27, 91, 48, 59, 49, 109, 98, 27, 99] = [97, 98, 27, 99] := by decide
example : decode [0xE4, 0xBD, 0xA0, 0xE4, 0xBD, 10, 0xC0, 97] = [0x4F60, 0xFFFD, 10, 0xFFFD, 97] := by decide
example : Scalar 0x4F60 ∧ Scalar 0x1F600 ∧ utf8 0x1F600 = [0xF0, 0x9F, 0x98, 0x80] := by
  refine ⟨Or.inl (by omega), Or.inr (by omega), by decide⟩

end Xoscar.Subproc

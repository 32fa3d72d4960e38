import Verif.Spec.Venv
import Verif.Proof.Base
/-! # C99: virtual environments come and go -/
namespace Xoscar.Venv

theorem exists_iff (fs : Fs) (p : Path) : existsEnv fs p = true ↔ ∃ py r, fs p = .dir true py r := by
  unfold existsEnv
  rcases h : fs p with _ | _ | ⟨cfg, py, r⟩
  · simp [Node.there]
  · simp [Node.there]
  · cases cfg <;> simp [Node.there]

theorem exists_false (fs : Fs) (p : Path) (h : ∀ py r, fs p ≠ .dir true py r) : existsEnv fs p = false := by
  rcases he : existsEnv fs p with _ | _
  · rfl
  · obtain ⟨py, r, e⟩ := (exists_iff fs p).1 he
    exact absurd e (h py r)

theorem make_ok {uv : UvVenv} {given : Path → Option Ver} (hg : Good given uv) {h : Host} {p : Path} {py : Option Path} {fs fs' : Fs}
    (e : make uv h p py fs = .ok fs') :
    (∀ q, q ≠ p → fs' q = fs q) ∧ ∃ v, HasEnv fs' p v ∧ (∀ q, py = some q → given q = some v) ∧
      (py = none → h.bundled = true → v = h.running) := by
  unfold make at e
  split at e
  · cases e
  · next n hn =>
    injection e with e
    subst e
    obtain ⟨v, r, rfl, h1, h2⟩ := hg _ _ _ _ _ hn
    refine ⟨fun q hq => by simp [hq], v, ⟨r, by simp⟩, ?_, ?_⟩
    · rintro q rfl
      exact h2 q rfl
    · rintro rfl hb
      exact h1 _ (by simp [want, hb])

/-- **After `create_env` returns, the environment exists, and its interpreter's path is known.**  If there was none before or
`exists="clear"` was said, it is new and has the interpreter asked for: the one given, or, in a pyinstaller build, the running version.
Otherwise (`"ignore"`) everything is as before. -/
theorem created {uv : UvVenv} {given : Path → Option Ver} (hg : Good given uv) {h : Host} {p : Path} {py : Option Path} {w : Word} {fs fs' : Fs}
    (e : createEnv uv h p py w fs = (fs', none)) :
    existsEnv fs' p = true ∧ pythonPath fs' p = some p ∧
    ((existsEnv fs p = false ∨ w = .clear) → ∃ v, HasEnv fs' p v ∧ (∀ q, py = some q → given q = some v) ∧ (py = none → h.bundled = true → v = h.running)) ∧
    (existsEnv fs p = true → w ≠ .clear → fs' = fs ∧ w = .ignore) := by
  unfold createEnv at e
  rcases hx : existsEnv fs p with _ | _
  · rw [hx] at e
    simp only [Bool.false_eq_true, if_false] at e
    rcases hm : make uv h p py fs with er | fs1
    · rw [hm] at e; cases e
    · rw [hm] at e
      cases e
      obtain ⟨_, v, ⟨r, hv⟩, h1, h2⟩ := make_ok hg hm
      exact ⟨(exists_iff _ _).2 ⟨_, _, hv⟩, by simp [pythonPath, hv, Node.there], fun _ => ⟨v, ⟨r, hv⟩, h1, h2⟩, by simp⟩
  · rw [hx] at e
    simp only [if_true] at e
    obtain ⟨py0, r0, h0⟩ := (exists_iff _ _).1 hx
    cases w with
    | error => cases e
    | other n => cases e
    | ignore =>
      cases e
      exact ⟨hx, by simp [pythonPath, h0, Node.there], by simp, by simp⟩
    | clear =>
      rcases hm : make uv h p py (removeEnv fs p) with er | fs1
      · rw [hm] at e; cases e
      · rw [hm] at e
        cases e
        obtain ⟨_, v, ⟨r, hv⟩, h1, h2⟩ := make_ok hg hm
        exact ⟨(exists_iff _ _).2 ⟨_, _, hv⟩, by simp [pythonPath, hv, Node.there], fun _ => ⟨v, ⟨r, hv⟩, h1, h2⟩, by simp⟩

/-- What `create_env` refuses: an existing environment with `"error"` or a word it does not know, and then nothing has changed; and
what `uv` refuses. -/
theorem refused (uv : UvVenv) (h : Host) (p : Path) (py : Option Path) (w : Word) (fs : Fs) (er : Error) (hne : er ≠ .command) :
    (createEnv uv h p py w fs).2 = some er ↔
      existsEnv fs p = true ∧ ((w = .error ∧ er = .fileExists) ∨ (∃ n, w = .other n) ∧ er = .valueError) := by
  unfold createEnv
  have hm : ∀ fs0 e, make uv h p py fs0 = .error e → e = .command := by
    intro fs0 e he
    unfold make at he
    split at he
    · injection he with he; exact he.symm
    · cases he
  rcases hx : existsEnv fs p with _ | _
  · simp only [Bool.false_eq_true, if_false, false_and, iff_false]
    rcases hk : make uv h p py fs with e | fs1
    · have := hm _ _ hk; subst this; simpa using fun e => hne e.symm
    · simp
  · cases w with
    | error => simp [eq_comm]
    | other n => simp [eq_comm]
    | ignore => simp
    | clear =>
      rcases hk : make uv h p py (removeEnv fs p) with e | fs1
      · have := hm _ _ hk; subst this; simpa [hk] using fun e => hne e.symm
      · simp [hk]

theorem refused_unchanged {uv : UvVenv} {h : Host} {p : Path} {py : Option Path} {w : Word} {fs fs' : Fs} {er : Error}
    (e : createEnv uv h p py w fs = (fs', some er)) (hw : w ≠ .clear) : fs' = fs := by
  unfold createEnv at e
  rcases hx : existsEnv fs p with _ | _
  · rw [hx] at e
    simp only [Bool.false_eq_true, if_false] at e
    rcases hm : make uv h p py fs with er1 | fs1
    · rw [hm] at e; cases e; rfl
    · rw [hm] at e; cases e
  · rw [hx] at e
    cases w with
    | error => cases e; rfl
    | other n => cases e; rfl
    | ignore => cases e
    | clear => exact absurd rfl hw

theorem remove_other (fs : Fs) (p q : Path) (hq : q ≠ p) : removeEnv fs p q = fs q := by
  unfold removeEnv
  rcases h : fs p with _ | _ | ⟨cfg, py, r⟩
  · simp [Node.there]
  · simp [Node.there]
  · cases r <;> simp [Node.there, hq]

theorem create_other (uv : UvVenv) (h : Host) (p : Path) (py : Option Path) (w : Word) (fs : Fs) (q : Path) (hq : q ≠ p) :
    (createEnv uv h p py w fs).1 q = fs q := by
  have hm : ∀ fs0 fs1, make uv h p py fs0 = .ok fs1 → fs1 q = fs0 q := by
    intro fs0 fs1 e
    unfold make at e
    split at e
    · cases e
    · injection e with e; subst e; simp [hq]
  unfold createEnv
  split
  · cases w with
    | error => rfl
    | other n => rfl
    | ignore => rfl
    | clear =>
      rcases hk : make uv h p py (removeEnv fs p) with er | fs1
      · simp [remove_other fs p q hq]
      · simp [hm _ _ hk, remove_other fs p q hq]
  · rcases hk : make uv h p py fs with er | fs1
    · simp
    · simp [hm _ _ hk]

/-- Managers leave everything at other paths alone, through any history of calls. -/
theorem untouched (uv : UvVenv) (h : Host) (ops : List Op) (fs : Fs) (q : Path)
    (hq : ∀ op ∈ ops, ∀ p py w, (op = .create p py w ∨ op = .remove p) → p ≠ q) : run uv h fs ops q = fs q := by
  induction ops generalizing fs with
  | nil => rfl
  | cons op r ih =>
    have hr : ∀ fs, run uv h fs r q = fs q := fun fs => ih fs (fun o ho => hq o (List.mem_cons_of_mem _ ho))
    cases op with
    | create p py w =>
      have hp := hq _ List.mem_cons_self p py w (.inl rfl)
      rw [run, hr]
      exact create_other uv h p py w fs q (Ne.symm hp)
    | remove p =>
      have hp := hq _ List.mem_cons_self p none .ignore (.inr rfl)
      rw [run, hr]
      exact remove_other fs p q (Ne.symm hp)

/-- **`remove_env` removes what can be removed**: then nothing is there, there is no environment and no interpreter path. -/
theorem removed {fs : Fs} {p : Path} (hr : Removable fs p ∨ Empty fs p) :
    Empty (removeEnv fs p) p ∧ existsEnv (removeEnv fs p) p = false ∧ pythonPath (removeEnv fs p) p = none := by
  have : removeEnv fs p p = .absent := by
    rcases hr with ⟨cfg, py, e⟩ | e
    · simp [removeEnv, e, Node.there]
    · unfold Empty at e
      simp [removeEnv, e, Node.there]
  exact ⟨this, exists_false _ _ (by simp [this]), by simp [pythonPath, this, Node.there]⟩

/-- Creating and removing in any order: the last successful call decides whether there is an environment. -/
theorem last_decides {uv : UvVenv} {given : Path → Option Ver} (hg : Good given uv) (h : Host) (ops : List Op) (fs : Fs) (p : Path) :
    (∀ py w, (createEnv uv h p py w (run uv h fs ops)).2 = none → existsEnv (run uv h fs (ops ++ [.create p py w])) p = true) ∧
    (Removable (run uv h fs ops) p → existsEnv (run uv h fs (ops ++ [.remove p])) p = false) := by
  have hrun : ∀ (ops : List Op) (fs : Fs) (ms : List Op), run uv h fs (ops ++ ms) = run uv h (run uv h fs ops) ms := by
    intro ops
    induction ops with
    | nil => intro fs ms; rfl
    | cons op r ih => intro fs ms; cases op <;> simp [run, ih]
  constructor
  · intro py w e
    rw [hrun]
    simp only [run]
    rcases hc : createEnv uv h p py w (run uv h fs ops) with ⟨fs', er⟩
    rw [hc] at e
    simp only at e
    subst e
    exact (created hg hc).1
  · intro hr
    rw [hrun]
    simp only [run]
    exact (removed (.inl hr)).2.1

/-- When the variable is unset and the package `uv` is not installed, `is_available` tells exactly whether the command can be run. -/
theorem available {h : Host} {there : Path → Prop} (h1 : h.uvPath = none) (h2 : h.package = none) :
    isAvailable h = true ↔ Runs h there (uvCommand h) := by
  simp [isAvailable, uvCommand, h1, h2, Runs]

/-- When the variable names a file that is there, the manager is available, and rightly. -/
theorem available_set {h : Host} {there : Path → Prop} {p : Path} (h1 : h.uvPath = some p) (hp : there p) :
    isAvailable h = true ∧ Runs h there (uvCommand h) := by
  simp [isAvailable, uvCommand, h1, Runs, hp]

/-- The variable decides which binary is run, then the package, then PATH. -/
theorem which_uv (h : Host) : (∀ p, h.uvPath = some p → uvCommand h = .at p) ∧
    (h.uvPath = none → ∀ p, h.package = some p → uvCommand h = .at p) ∧
    (h.uvPath = none → h.package = none → uvCommand h = .name) := by
  refine ⟨?_, ?_, ?_⟩ <;> intros <;> simp_all [uvCommand]

/-- The library path is that of the environment exactly if its interpreter has the major and minor version of the running one. -/
theorem lib_path {h : Host} {p : Path} {v : Ver} : libPath h p = (p, v.short) ↔ v.short = h.running.short := by
  simp [libPath, eq_comm]

/-- Only the manager "uv" is known; it manages the path given. -/
theorem known (name : Nat) (p q : Path) : manager name p = .ok q ↔ name = 0 ∧ q = p := by
  unfold manager
  split
  · next hn => constructor
               · intro e; cases e; exact ⟨hn, rfl⟩
               · rintro ⟨_, rfl⟩; rfl
  · next hn => constructor
               · intro e; cases e
               · rintro ⟨h, _⟩; exact absurd h hn

/-! ## What does not hold -/

/-- a `uv venv` as the real one: the version asked for, 3.12 else -/
def uv0 (given : Path → Option Ver) : UvVenv := fun _ _ old w =>
  match old with
  | .file => none
  | _ =>
    match w with
    | .any => some (.dir true (some ⟨12, 1⟩) true)
    | .version v => some (.dir true (some v) true)
    | .interpreter q => (given q).map fun v => .dir true (some v) true

theorem uv0_good (given : Path → Option Ver) : Good given (uv0 given) := by
  intro c p old w n hn
  cases old <;> cases w <;> simp only [uv0, Option.map_eq_some_iff, reduceCtorEq, Option.some.injEq] at hn
  all_goals first
    | exact ⟨_, _, hn.symm, by simp, by simp⟩
    | exact ⟨_, _, hn.symm, by rintro u ⟨⟩; rfl, by simp⟩
    | (obtain ⟨v, hv, e⟩ := hn; exact ⟨_, _, e.symm, by simp, by rintro u ⟨⟩; exact hv⟩)

/-- `is_available` may say no although the commands would run (the package `uv` is installed, but not on PATH), and yes although they
would not (the variable names a file that is not there). -/
theorem available_refuted :
    (∃ h : Host, ∃ there : Path → Prop, isAvailable h = false ∧ Runs h there (uvCommand h)) ∧
    (∃ h : Host, ∃ there : Path → Prop, isAvailable h = true ∧ ¬ Runs h there (uvCommand h)) :=
  ⟨⟨⟨none, false, some 7, false, ⟨12, 0⟩⟩, fun p => p = 7, rfl, rfl⟩, ⟨⟨some 8, true, some 7, false, ⟨12, 0⟩⟩, fun p => p = 7, rfl, by simp [Runs, uvCommand]⟩⟩

/-- `create_env(python_path)` with an environment there keeps its other interpreter without a word. -/
theorem python_refuted : ∃ (given : Path → Option Ver) (h : Host) (fs : Fs) (v : Ver), Good given (uv0 given) ∧ given 5 = some v ∧
    createEnv (uv0 given) h 1 (some 5) .ignore fs = (fs, none) ∧ ¬ HasEnv fs 1 v :=
  ⟨fun _ => some ⟨11, 4⟩, ⟨none, true, none, false, ⟨12, 0⟩⟩, fun _ => .dir true (some ⟨12, 1⟩) true, ⟨11, 4⟩, uv0_good _, rfl, rfl, by
    rintro ⟨r, e⟩; cases e⟩

/-- The library path of an environment with another interpreter is not its own. -/
theorem lib_refuted : ∃ (given : Path → Option Ver) (h : Host) (fs fs' : Fs) (v : Ver), Good given (uv0 given) ∧
    createEnv (uv0 given) h 1 (some 5) .ignore fs = (fs', none) ∧ HasEnv fs' 1 v ∧ libPath h 1 ≠ (1, v.short) :=
  ⟨fun _ => some ⟨11, 4⟩, ⟨none, true, none, false, ⟨12, 0⟩⟩, fun _ => .absent, _, ⟨11, 4⟩, uv0_good _, rfl, ⟨true, rfl⟩, by decide⟩

/-- An interpreter path is given for a directory that is no environment, although `exists_env` says no. -/
theorem python_path_refuted : ∃ fs : Fs, existsEnv fs 1 = false ∧ pythonPath fs 1 = some 1 ∧ ∀ v, ¬ HasEnv fs 1 v :=
  ⟨fun _ => .dir false none true, rfl, rfl, by rintro v ⟨r, e⟩; cases e⟩

/-- `remove_env` says nothing when it could not remove the environment: it is still there. -/
theorem remove_refuted : ∃ fs : Fs, HasEnv fs 1 ⟨12, 1⟩ ∧ HasEnv (removeEnv fs 1) 1 ⟨12, 1⟩ :=
  ⟨fun _ => .dir true (some ⟨12, 1⟩) false, ⟨false, rfl⟩, ⟨false, rfl⟩⟩

/-- With `exists="clear"` a failing `uv` leaves no environment: the old one is gone. -/
theorem clear_refuted : ∃ (uv : UvVenv) (h : Host) (fs fs' : Fs), HasEnv fs 1 ⟨12, 1⟩ ∧
    createEnv uv h 1 none .clear fs = (fs', some .command) ∧ Empty fs' 1 :=
  ⟨fun _ _ _ _ => none, ⟨none, true, none, false, ⟨12, 0⟩⟩, fun _ => .dir true (some ⟨12, 1⟩) true, _, ⟨true, rfl⟩, rfl, rfl⟩

/-! ## Cases -/

def host : Host := ⟨none, true, some 9, true, ⟨12, 3⟩⟩

example : ∃ fs', createEnv (uv0 fun q => if q = 5 then some ⟨11, 4⟩ else none) host 1 (some 5) .clear (fun _ => .dir true (some ⟨12, 1⟩) true) = (fs', none) ∧
    HasEnv fs' 1 ⟨11, 4⟩ ∧ HasEnv fs' 2 ⟨12, 1⟩ := ⟨_, rfl, ⟨true, rfl⟩, ⟨true, rfl⟩⟩
example : ∃ fs', createEnv (uv0 fun _ => none) host 1 none .ignore (fun _ => .absent) = (fs', none) ∧ HasEnv fs' 1 ⟨12, 3⟩ :=
  ⟨_, rfl, ⟨true, rfl⟩⟩
example : Removable (fun _ => Node.dir false none true) 3 := ⟨false, none, rfl⟩
example : (createEnv (uv0 fun _ => none) host 1 none (.other 4) (fun _ => .dir true none true)).2 = some .valueError := rfl
example : existsEnv (run (uv0 fun _ => none) host (fun _ => .absent) [.create 1 none .error, .remove 1, .create 1 none .error, .create 2 none .ignore]) 1 = true := rfl

end Xoscar.Venv

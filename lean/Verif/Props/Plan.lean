import Verif.Proof.Plan
/-!
# C65: installing with `skip_installed`
-/
namespace Xoscar.Plan
open Xoscar.Reqs (Str Req Out)

/-- the packages on the command line -/
def Result.packages : Result → List Pkg
  | .run c => c.packages
  | _ => []

theorem install_skip {lib : Lib} {dists : List (Str × Str)} {k : Kwargs} {packages : List Out} (hk : k.skipInstalled = true)
    {ps : List Pkg} (h : notInstalled lib (installedOf dists) packages = some ps) :
    install lib dists k packages ≠ .failed ∧ (install lib dists k packages).packages = ps := by
  unfold install
  by_cases hp : packages = []
  · rw [if_pos hp]
    subst hp
    cases h
    exact ⟨by simp, rfl⟩
  · rw [if_neg hp, if_pos hk, h]
    cases ps with
    | nil => exact ⟨by simp, rfl⟩
    | cons p ps => exact ⟨by simp, rfl⟩

theorem install_failed {lib : Lib} {dists : List (Str × Str)} {k : Kwargs} {packages : List Out} (hp : packages ≠ [])
    (hk : k.skipInstalled = true) (h : notInstalled lib (installedOf dists) packages = none) :
    install lib dists k packages = .failed := by
  rw [install, if_neg hp, if_pos hk, h]

/-- what the command line consists of: the URLs, and the part of uv's plan that is not there already -/
theorem notInstalled_shape {lib : Lib} {installed : Dict Str Str} {packages : List Out} {ps : List Pkg}
    (h : notInstalled lib installed packages = some ps) :
    ∃ plan, ps = (split lib installed packages).keep.map .given ++
        (plan.filter (fun x => decide (installed.get? (key x.1) ≠ some x.2))).map (fun x => Pkg.pin x.1 x.2) ∧
      (((split lib installed packages).toResolve = [] ∧ plan = []) ∨
        ∃ lines, lib.dryRun (split lib installed packages).toResolve (split lib installed packages).pinned = some lines ∧
          plan = readPlan lines) := by
  unfold notInstalled at h
  simp only [lower_eq] at h
  by_cases h1 : (split lib installed packages).keep = [] ∧ (split lib installed packages).toResolve = []
  · rw [if_pos h1] at h
    cases h
    refine ⟨[], ?_, .inl ⟨h1.2, rfl⟩⟩
    rw [h1.1]; rfl
  rw [if_neg h1] at h
  by_cases h2 : (split lib installed packages).toResolve = []
  · rw [if_pos h2] at h
    cases h
    exact ⟨[], rfl, .inl ⟨h2, rfl⟩⟩
  rw [if_neg h2] at h
  rcases hd : lib.dryRun (split lib installed packages).toResolve (split lib installed packages).pinned with _ | lines
  · rw [hd] at h; cases h
  · rw [hd] at h
    cases h
    exact ⟨readPlan lines, rfl, .inr ⟨lines, rfl, rfl⟩⟩

/-- **C65** with uv keeping to its contract and every planned package coming from an index: after the command every requirement holds,
extras and URLs aside; nothing is installed that is there already; no package is replaced whose requirement holds; the URLs given are
all on the command line -/
theorem install_holds_partial {lib : Lib} {dists : List (Str × Str)} {env : Env} (he : IsEnv dists env)
    (hn : (dists.map (fun x => key x.1)).Nodup)
    (huv : ∀ asked cs plan, lib.dryRun asked cs = some plan → Right lib env asked cs plan ∧ ∀ l ∈ plan, l.from = false)
    {k : Kwargs} (hk : k.skipInstalled = true) {packages : List Out} (hok : install lib dists k packages ≠ .failed) :
    (∀ r, .req r ∈ packages → Holds lib (overlay env (pins (install lib dists k packages).packages)) r) ∧
    (∀ n v, .pin n v ∈ (install lib dists k packages).packages → env (key n) ≠ some v) ∧
    (∀ n v, .pin n v ∈ (install lib dists k packages).packages → ∀ r, .req r ∈ packages → key r.name = key n → ¬ Holds lib env r) ∧
    (∀ o, .given o ∈ (install lib dists k packages).packages ↔ o ∈ packages ∧ ∃ t, o = .raw t) := by
  have hinst := installed_of_nodup hn he
  rcases hni : notInstalled lib (installedOf dists) packages with _ | ps
  · by_cases hp : packages = []
    · subst hp; cases hni
    · exact absurd (install_failed hp hk hni) hok
  rw [(install_skip hk hni).2]
  obtain ⟨plan, hps, hplan⟩ := notInstalled_shape hni
  have hinv := splitInv lib (installedOf dists) packages
  have hfine : ∀ r, Fine lib (installedOf dists) r ↔ Holds lib env r := by
    intro r; unfold Fine Holds; simp only [hinst]
  -- the plan as a whole
  have hwhole : (plan.map (fun x => key x.1)).Nodup ∧
      (∀ r ∈ (split lib (installedOf dists) packages).toResolve, Holds lib (overlay env plan) r) ∧
      (∀ x ∈ plan, ∀ v, (split lib (installedOf dists) packages).pinned.get? (key x.1) = some v → x.2 = v) := by
    rcases hplan with ⟨h1, rfl⟩ | ⟨lines, h1, rfl⟩
    · rw [h1]
      exact ⟨.nil, by simp, by simp⟩
    · obtain ⟨hr, hf⟩ := huv _ _ _ h1
      rw [readPlan_eq hf]
      refine ⟨?_, hr.holds, ?_⟩
      · have := hr.once
        rw [List.map_map]
        exact this
      · intro x hx v hv
        obtain ⟨l, hl, rfl⟩ := List.mem_map.1 hx
        exact hr.fixed l hl v hv
  obtain ⟨hnd, hres, hfix⟩ := hwhole
  have hpins : pins ps = plan.filter (fun x => decide ((installedOf dists).get? (key x.1) ≠ some x.2)) := by
    rw [hps, pins_append, pins_given, pins_pin, List.nil_append]
  have hov : overlay env (pins ps) = overlay env plan := by
    rw [hpins]
    refine overlay_filter hnd _ ?_
    intro x _ hx
    rw [← hinst]
    simpa using hx
  have hpin : ∀ n v, Pkg.pin n v ∈ ps ↔ (n, v) ∈ plan ∧ env (key n) ≠ some v := by
    intro n v
    rw [hps, List.mem_append]
    constructor
    · rintro (h | h)
      · obtain ⟨o, _, e⟩ := List.mem_map.1 h; cases e
      · obtain ⟨x, hx, e⟩ := List.mem_map.1 h
        cases e
        obtain ⟨h1, h2⟩ := List.mem_filter.1 hx
        refine ⟨h1, ?_⟩
        rw [← hinst]
        simpa using h2
    · rintro ⟨h1, h2⟩
      refine .inr (List.mem_map.2 ⟨(n, v), List.mem_filter.2 ⟨h1, ?_⟩, rfl⟩)
      rw [hinst]
      simpa using h2
  refine ⟨?_, fun n v h => ((hpin n v).1 h).2, ?_, ?_⟩
  · intro r hr
    rw [hov]
    by_cases hf : Fine lib (installedOf dists) r
    · obtain ⟨v, hv, hm⟩ := hf
      have hp : (split lib (installedOf dists) packages).pinned.get? (key r.name) = some v :=
        (hinv.pin _ _).2 ⟨hv, r, hr, rfl, v, hv, hm⟩
      refine ⟨v, ?_, hm⟩
      by_cases hx : ∃ x ∈ plan, key x.1 = key r.name
      · obtain ⟨x, hx, e⟩ := hx
        have := hfix x hx v (by rw [e]; exact hp)
        rw [← e, ← this]
        exact overlay_mem hnd (show (x.1, x.2) ∈ plan from hx)
      · rw [overlay_not (fun x h e => hx ⟨x, h, e⟩), ← hinst, hv]
    · exact hres r ((hinv.res r).2 ⟨hr, hf⟩)
  · intro n v h r hr e hh
    obtain ⟨h1, h2⟩ := (hpin n v).1 h
    obtain ⟨w, hw, hm⟩ := (hfine r).2 hh
    have hp := (hinv.pin (key r.name) w).2 ⟨hw, r, hr, rfl, w, hw, hm⟩
    have := hfix (n, v) h1 w (by rw [← e]; exact hp)
    refine h2 ?_
    rw [← e, ← hinst, hw, ← this]
  · intro o
    rw [hps, List.mem_append, hinv.keep]
    constructor
    · rintro (h | h)
      · obtain ⟨o', ho, e⟩ := List.mem_map.1 h
        cases e
        obtain ⟨h1, h2⟩ := List.mem_filter.1 ho
        cases o with
        | raw t => exact ⟨h1, t, rfl⟩
        | req r => cases h2
      · obtain ⟨x, _, e⟩ := List.mem_map.1 h; cases e
    · rintro ⟨h1, t, rfl⟩
      exact .inl (List.mem_map.2 ⟨_, List.mem_filter.2 ⟨h1, rfl⟩, rfl⟩)

/-- **C65** without `skip_installed` everything is handed to uv, in order, dependencies included; options on both ways -/
theorem install_all {lib : Lib} {dists : List (Str × Str)} {k : Kwargs} (hk : k.skipInstalled = false) {packages : List Out}
    (hp : packages ≠ []) : install lib dists k packages = .run ⟨false, packages.map .given, options k⟩ := by
  rw [install, if_neg hp, hk, if_neg (by simp)]

/-! ## Violations -/

theorem install_one {lib : Lib} {dists : List (Str × Str)} {k : Kwargs} (hk : k.skipInstalled = true) {r : Req}
    (hr : Fine lib (installedOf dists) r) : install lib dists k [.req r] = .nothing := by
  obtain ⟨v, hv, hm⟩ := hr
  have hs : split lib (installedOf dists) [.req r] = { pinned := [(key r.name, v)] } := by
    show splitOne lib (installedOf dists) {} (.req r) = _
    rw [splitOne_fine hv hm]; rfl
  unfold install
  rw [if_neg (by simp), if_pos hk]
  unfold notInstalled
  rw [hs]
  simp

/-- the requirement holds with its extras: what they ask for holds too -/
def HoldsWithExtras (lib : Lib) (needs : Str → Str → List Req) (env : Env) (r : Req) : Prop :=
  Holds lib env r ∧ ∀ e ∈ r.extras, ∀ d ∈ needs (key r.name) e, Holds lib env d

/-- **C65** (violation) extras of an installed package: whatever they need that is missing, nothing is installed -/
theorem extras_refuted {lib : Lib} {dists : List (Str × Str)} {env : Env} (he : IsEnv dists env)
    (hn : (dists.map (fun x => key x.1)).Nodup) {k : Kwargs} (hk : k.skipInstalled = true) {needs : Str → Str → List Req} {r d : Req}
    {e : Str} (hr : Holds lib env r) (hex : e ∈ r.extras) (hd : d ∈ needs (key r.name) e) (hmiss : ¬ Holds lib env d) :
    install lib dists k [.req r] = .nothing ∧ ¬ HoldsWithExtras lib needs env r := by
  refine ⟨install_one hk ?_, fun h => hmiss (h.2 e hex d hd)⟩
  obtain ⟨v, h1, h2⟩ := hr
  exact ⟨v, by rw [installed_of_nodup hn he, h1], h2⟩

/-- **C65** (violation) `name @ url` of a package that is installed in any version, from anywhere: nothing is installed -/
theorem url_refuted {lib : Lib} {dists : List (Str × Str)} {env : Env} (he : IsEnv dists env)
    (hn : (dists.map (fun x => key x.1)).Nodup) {k : Kwargs} (hk : k.skipInstalled = true) {name url v : Str} {extras : List Str}
    (hv : env (key name) = some v) : install lib dists k [.req ⟨name, extras, [], some url⟩] = .nothing :=
  install_one hk ⟨v, by rw [installed_of_nodup hn he]; exact hv, .inl rfl⟩

/-- **C65** (violation) a missing package that does not come from an index: its line of the plan, `+ name==version (from …)`, is not
read, and nothing is installed -/
theorem from_refuted {lib : Lib} {dists : List (Str × Str)} {env : Env} (he : IsEnv dists env)
    (hn : (dists.map (fun x => key x.1)).Nodup) {k : Kwargs} (hk : k.skipInstalled = true) {r : Req} (hv : env (key r.name) = none)
    {v : Str} (hd : lib.dryRun [r] [] = some [⟨r.name, v, true⟩]) :
    install lib dists k [.req r] = .nothing := by
  have hs : split lib (installedOf dists) [.req r] = { toResolve := [r] } := by
    show splitOne lib (installedOf dists) {} (.req r) = _
    rw [splitOne_not]
    · rfl
    · rintro ⟨w, hw, _⟩
      rw [installed_of_nodup hn he, hv] at hw
      cases hw
  unfold install
  rw [if_neg (by simp), if_pos hk]
  unfold notInstalled
  rw [hs]
  simp [hd, readPlan]

/-- **C65** (violation) two requirements for one package, the first met by what is installed and the second not: the first becomes a
constraint that contradicts the second, and uv, if it keeps to its contract, fails; whether or not there is a version that
meets both -/
theorem two_requirements_refuted {lib : Lib} {dists : List (Str × Str)} {env : Env} (he : IsEnv dists env)
    (hn : (dists.map (fun x => key x.1)).Nodup) (huv : ∀ asked cs plan, lib.dryRun asked cs = some plan → Right lib env asked cs plan)
    {k : Kwargs} (hk : k.skipInstalled = true) {a b : Req} (hab : key a.name = key b.name) (ha : Holds lib env a) (hb : ¬ Holds lib env b) :
    install lib dists k [.req a, .req b] = .failed := by
  have hinst := installed_of_nodup hn he
  obtain ⟨v, hv, hm⟩ := ha
  have hbf : ¬ Fine lib (installedOf dists) b := by
    rintro ⟨w, hw, hm⟩
    exact hb ⟨w, by rw [← hinst, hw], hm⟩
  have hs : split lib (installedOf dists) [.req a, .req b] = { toResolve := [b], pinned := [(key a.name, v)] } := by
    show splitOne lib (installedOf dists) (splitOne lib (installedOf dists) {} (.req a)) (.req b) = _
    rw [splitOne_fine (by rw [hinst]; exact hv) hm, splitOne_not hbf]; rfl
  refine install_failed (by simp) hk ?_
  unfold notInstalled
  rw [hs]
  simp only [List.cons_ne_nil, and_false, if_false, reduceCtorEq]
  rcases hd : lib.dryRun [b] [(key a.name, v)] with _ | plan
  · rfl
  · exfalso
    have hr := huv _ _ _ hd
    obtain ⟨w, hw, hmb⟩ := hr.holds b (by simp)
    refine hb ⟨v, by rw [← hab]; exact hv, ?_⟩
    have : w = v := by
      by_cases hx : ∃ l ∈ plan, key l.name = key b.name
      · obtain ⟨l, hl, e⟩ := hx
        have h1 := hr.fixed l hl v (by rw [e, ← hab]; simp [Dict.get?])
        have h2 := overlay_mem (env := env) (l := plan.map (fun l => (l.name, l.version))) (by
          rw [List.map_map]; exact hr.once) (List.mem_map.2 ⟨l, hl, rfl⟩)
        rw [e, hw] at h2
        cases h2
        exact h1
      · rw [overlay_not (by
          intro x hx' e
          obtain ⟨l, hl, rfl⟩ := List.mem_map.1 hx'
          exact hx ⟨l, hl, e⟩), ← hab, hv] at hw
        cases hw; rfl
    rw [← this]; exact hmb

/-- **C65** (violation) a package that is on the path twice: the version looked at is that of the last, the one that is imported is the
first; so a requirement may be skipped although it does not hold -/
theorem shadowed_refuted {lib : Lib} {name v w : Str} {k : Kwargs} (hk : k.skipInstalled = true) {spec : Str}
    (hspec : spec ≠ []) (hv : lib.sat spec v ≠ some true) (hw : lib.sat spec w = some true) :
    install lib [(name, v), (name, w)] k [.req ⟨name, [], spec, none⟩] = .nothing ∧
    ∀ env, IsEnv [(name, v), (name, w)] env → ¬ Holds lib env ⟨name, [], spec, none⟩ := by
  constructor
  · refine install_one hk ⟨w, ?_, .inr hw⟩
    simp [installedOf, lower_eq]
  · rintro env he ⟨u, hu, hm⟩
    have := (he (key name) v).2 .here
    rw [hu] at this
    cases this
    rcases hm with h | h
    · exact hspec h
    · exact hv h

/-- **C65** (violation) a URL is installed with `--no-deps` and never handed to the resolver: its dependencies are not looked at -/
theorem url_without_dependencies {lib : Lib} {dists : List (Str × Str)} {k : Kwargs} (hk : k.skipInstalled = true) {t : Str} :
    install lib dists k [.raw t] = .run ⟨true, [.given (.raw t)], options k⟩ := by
  rw [install, if_neg (by simp), if_pos hk]
  rfl

/-- **C65** the plan is made without the index options: other options never change it -/
theorem plan_ignores_options {lib : Lib} {dists : List (Str × Str)} {k k' : Kwargs} (hk : k.skipInstalled = k'.skipInstalled)
    {packages : List Out} : (install lib dists k packages).packages = (install lib dists k' packages).packages := by
  unfold install
  by_cases hp : packages = []
  · rw [if_pos hp, if_pos hp]
  rw [if_neg hp, if_neg hp, hk]
  by_cases hs : k'.skipInstalled = true
  · rw [if_pos hs, if_pos hs]
    rcases notInstalled lib (installedOf dists) packages with _ | _ | ⟨p, ps⟩ <;> rfl
  · rw [if_neg hs, if_neg hs]
    rfl

theorem args_each {o : Opt} {l : List Str} (h : Values o l) (name : String) : o.args name.toList = each name l := by
  cases h with
  | absent => rfl
  | empty => rfl
  | one hs => rw [Opt.args, if_neg hs]; rfl
  | many =>
    rw [Opt.args]
    induction l with
    | nil => rfl
    | cons v l ih => rw [List.flatMap_cons, ih]; rfl

/-- **C65** both ways the command has the options the caller gave, each value after its option -/
theorem options_spec {lib : Lib} {dists : List (Str × Str)} {k : Kwargs} {packages : List Out} {c : Cmd}
    (h : install lib dists k packages = .run c) {i x f t : List Str} (hi : Index k.indexUrl i) (hx : Values k.extraIndexUrl x)
    (hf : Values k.findLinks f) (ht : Values k.trustedHost t) :
    c.options = each "-i" i ++ each "--extra-index-url" x ++ each "-f" f ++ each "--trusted-host" t ++
      (if k.noBuildIsolation then ["--no-build-isolation".toList] else []) ∧ c.noDeps = k.skipInstalled := by
  have e : options k = each "-i" i ++ each "--extra-index-url" x ++ each "-f" f ++ each "--trusted-host" t ++
      (if k.noBuildIsolation then ["--no-build-isolation".toList] else []) := by
    unfold options
    rw [args_each hx, args_each hf, args_each ht]
    congr 4
    generalize k.indexUrl = u at hi
    cases hi with
    | absent => rfl
    | empty => rfl
    | one hs => simp only [if_neg hs]; rfl
  unfold install at h
  by_cases hp : packages = []
  · rw [if_pos hp] at h; cases h
  rw [if_neg hp] at h
  rcases hs : k.skipInstalled with _ | _
  · rw [hs, if_neg (by simp)] at h
    cases h
    exact ⟨e, rfl⟩
  · rw [hs, if_pos rfl] at h
    rcases hn : notInstalled lib (installedOf dists) packages with _ | _ | ⟨p, ps⟩ <;> rw [hn] at h <;> cases h
    exact ⟨e, rfl⟩

/-- **C65** creating an environment: where one is, it is kept, refused or replaced as the caller says, and other words are refused --
where none is, any word is taken -/
theorem create_env_spec (word : Str) :
    createEnv true "ignore".toList = .kept ∧ createEnv true "error".toList = .error false ∧ createEnv true "clear".toList = .made true ∧
    createEnv false word = .made false ∧
    (word ≠ "ignore".toList → word ≠ "error".toList → word ≠ "clear".toList → createEnv true word = .error true) := by
  refine ⟨rfl, rfl, rfl, rfl, fun h1 h2 h3 => ?_⟩
  rw [createEnv, if_pos rfl, if_neg h2, if_neg h1, if_neg h3]

/-! ## Examples -/

def np : Req := ⟨"NumPy".toList, [], "<2".toList, none⟩
def np2 : Req := ⟨"numpy".toList, [], ">=2".toList, none⟩
def pd : Req := ⟨"pandas".toList, [], ">=2".toList, none⟩

/-- numpy 1.26 is installed; pandas 2.2 needs it and pytz; constraints are respected -/
def lib : Lib where
  sat sp v := if sp = "<2".toList then some (v = "1.26".toList) else if sp = ">=2".toList then some (v = "2.2".toList) else none
  dryRun asked cs := if asked = [pd] ∧ cs.get? "numpy".toList = some "1.26".toList then
    some [⟨"numpy".toList, "1.26".toList, false⟩, ⟨"pandas".toList, "2.2".toList, false⟩, ⟨"pytz".toList, "2024".toList, false⟩] else none

def kw : Kwargs := ⟨true, some "https://x".toList, .absent, .many ["a".toList, "b".toList], .one "h".toList, true⟩

example : install lib [("numpy".toList, "1.26".toList)] kw [.req np, .req pd, .raw "git+https://r".toList] =
    .run ⟨true, [.given (.raw "git+https://r".toList), .pin "pandas".toList "2.2".toList, .pin "pytz".toList "2024".toList],
      ["-i".toList, "https://x".toList, "-f".toList, "a".toList, "-f".toList, "b".toList, "--trusted-host".toList, "h".toList,
        "--no-build-isolation".toList]⟩ := by rfl
example : install lib [("numpy".toList, "1.26".toList)] kw [.req np, .req np2] = .failed := by rfl
example : install lib [("numpy".toList, "1.26".toList)] kw [.req np] = .nothing := by rfl

def numpyEnv : Env := fun k => if k = "numpy".toList then some "1.26".toList else none

example : IsEnv [("numpy".toList, "1.26".toList)] numpyEnv := by
  intro k v
  unfold numpyEnv
  constructor
  · intro h
    by_cases e : k = "numpy".toList
    · rw [if_pos e] at h; cases h; rw [e]; exact .here
    · rw [if_neg e] at h; cases h
  · intro h
    cases h with
    | here => rfl
    | there _ h => cases h

example : Right lib numpyEnv [pd] [("numpy".toList, "1.26".toList)]
    [⟨"numpy".toList, "1.26".toList, false⟩, ⟨"pandas".toList, "2.2".toList, false⟩, ⟨"pytz".toList, "2024".toList, false⟩] where
  holds := by
    intro r hr
    rw [List.mem_singleton] at hr
    subst hr
    exact ⟨"2.2".toList, rfl, .inr rfl⟩
  once := by decide
  fixed := by
    intro l hl v hv
    simp only [List.mem_cons, List.not_mem_nil, or_false] at hl
    rcases hl with rfl | rfl | rfl
    · cases hv; rfl
    · cases hv
    · cases hv

end Xoscar.Plan

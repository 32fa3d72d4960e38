import Verif.Props.Gpu
import Verif.Props.Sizes
/-!
# C92: the status of a device
-/
namespace Xoscar.Gpu
open Reach (Text pyInt strip str pyInt_iff pyInt_str Number)

/-- looking twice is the same -/
theorem info_again (st : St) (w : World) (i : Int) (x : Info) (h : (getInfo st w i).2 = .ok (some x)) :
    (getInfo (initAll st w) w i).2 = .ok (some x) := by
  have hi : (initAll st w).infos = st.infos := by
    unfold initAll initNvml initCp
    dsimp only
    repeat' split
    all_goals rfl
  revert h
  unfold getInfo
  rw [hi, init_twice]
  cases e : st.infos.get? i with
  | some y => exact id
  | none => exact id

/-- the libraries after a look -/
theorem info_nvml (st : St) (w : World) (i : Int) : (getInfo (initAll st w) w i).1.nvml = (initAll st w).nvml := by
  obtain ⟨d, e | e⟩ := getInfo_state (initAll st w) w i
  · rw [e]
  · rw [e, init_twice]

theorem byUuid_sound (u : Text) (ds : List Device) : ∀ {i0 k : Nat}, byUuid u i0 ds = some k → ∃ j d, k = i0 + j ∧ ds[j]? = some d ∧ d.uuid = u := by
  induction ds with
  | nil => intro i0 k h; cases h
  | cons d t ih =>
    intro i0 k h
    simp only [byUuid] at h
    split at h
    · next e => cases h; exact ⟨0, d, rfl, rfl, e⟩
    · obtain ⟨j, d', h1, h2, h3⟩ := ih h
      exact ⟨j + 1, d', by omega, by simpa using h2, h3⟩

/-- **C92** the status of a device is that of the card NVML knows by the uuid CUDA has for the device. -/
theorem status_exact {st : St} (h : Run Working st) {w : World} (hw : Working w) {i : Int} {x : Info} (hx : (getInfo st w i).2 = .ok (some x))
    (hd : ∀ (a b : Nat) d e, w.devices[a]? = some d → w.devices[b]? = some e → d.uuid = e.uuid → a = b)
    {k : Nat} {d : Device} (hk : w.devices[k]? = some d) (hu : d.uuid = ['G', 'P', 'U', '-'] ++ x.uuid) {r : Readings} {n : Sizes.Nvml} (hn : r.card k = some n) :
    (getStatus false st w r i).2 = .ok (some ⟨n.gpuUtil, n.memUtil, n.temperature, n.total, n.free, n.used⟩) := by
  obtain ⟨h1, _, h3, _⟩ := working_init (run_working h) hw
  have hb : byUuid (gpuName x.uuid) 0 w.devices = some k := byUuid_get _ w.devices 0 hd k d hk hu |>.trans (by rw [Nat.zero_add])
  simp only [getStatus, h3, info_again st w i x hx, info_nvml, h1, readStatus, hb, hn]
  rfl

/-- **C92** a status that is given, outside the Windows subsystem, is that of the card NVML knows by CUDA's uuid for the device, whatever happened before and whatever fails. -/
theorem status_sound {st : St} {w : World} {r : Readings} {i : Int} {s : Sizes.Status} (h : (getStatus false st w r i).2 = .ok (some s)) :
    ∃ x k d n, (getInfo (initAll st w) w i).2 = .ok (some x) ∧ w.devices[k]? = some d ∧ d.uuid = ['G', 'P', 'U', '-'] ++ x.uuid ∧ r.card k = some n ∧
      s = ⟨n.gpuUtil, n.memUtil, n.temperature, n.total, n.free, n.used⟩ := by
  simp only [getStatus] at h
  split at h
  · cases h
  · split at h
    · cases h
    · cases h
    · next x hx =>
      simp only [readStatus] at h
      split at h
      · cases h
      · cases h
      · split at h
        · cases h
        · next k hk =>
          split at h
          · next n hn =>
            cases h
            obtain ⟨j, d, e, h1, h2⟩ := byUuid_sound _ _ hk
            rw [Nat.zero_add] at e
            exact ⟨x, k, d, n, hx, by rw [e]; exact h1, h2, hn, rfl⟩
          · cases h

/-- **C92** a device NVML does not know by "GPU-" and CUDA's uuid (a part of a divided card has another name) has no status: an error. -/
theorem status_unknown {st : St} (h : Run Working st) {w : World} (hw : Working w) {i : Int} {x : Info} (hx : (getInfo st w i).2 = .ok (some x))
    (hu : ∀ d ∈ w.devices, d.uuid ≠ ['G', 'P', 'U', '-'] ++ x.uuid) (r : Readings) : (getStatus false st w r i).2 = .error .nvml := by
  obtain ⟨h1, _, h3, _⟩ := working_init (run_working h) hw
  have hb : byUuid (gpuName x.uuid) 0 w.devices = none := by
    rcases hb : byUuid (gpuName x.uuid) 0 w.devices with _ | k
    · rfl
    · obtain ⟨j, d, _, h1, h2⟩ := byUuid_sound _ _ hb
      exact absurd h2 (hu d (List.mem_of_getElem? h1))
  simp only [getStatus, h3, info_again st w i x hx, info_nvml, h1, readStatus, hb]
  rfl

/-- **C92** on the Windows subsystem the status is what nvidia-smi says of the device of this very number, when there it is idle enough to say "N/A". -/
theorem status_wsl_partial {st : St} (h : Run Working st) {w : World} (hw : Working w) {i : Int} {x : Info} (hx : (getInfo st w i).2 = .ok (some x))
    {r : Readings} (hr : r.xml = true) {m : Sizes.Smi} (hm : r.smi i = some m) {s : Sizes.Status} :
    (getStatus true st w r i).2 = .ok (some s) ↔ Sizes.statusWsl m = .ok s := by
  obtain ⟨_, _, h3, _⟩ := working_init (run_working h) hw
  have e : (getStatus true st w r i).2 = ofSizes (Sizes.statusWsl m) := by
    simp only [getStatus, h3, info_again st w i x hx, readStatus, hr, hm]
    rfl
  rw [e]
  cases Sizes.statusWsl m with
  | ok y => simp [ofSizes]
  | error y => cases y <;> simp [ofSizes]

/-- **Refuted**: "the status is that of the device CUDA shows under this number": on the Windows subsystem it does not depend on what any other card says,
though with CUDA_VISIBLE_DEVICES the device is the card of another number. -/
theorem status_wsl_refuted {st : St} (h : Run Working st) {w : World} (hw : Working w) {i : Int} {x : Info} (hx : (getInfo st w i).2 = .ok (some x))
    (r r' : Readings) (hr : r.xml = r'.xml) (hi : r.smi i = r'.smi i) : (getStatus true st w r i).2 = (getStatus true st w r' i).2 := by
  obtain ⟨_, _, h3, _⟩ := working_init (run_working h) hw
  simp only [getStatus, h3, info_again st w i x hx, readStatus, hr, hi]

/-- **Refuted**: "a working card has a status": on the Windows subsystem not if it says how busy it is, and not if nobody has imported the XML parser. -/
theorem status_busy_refuted {st : St} (h : Run Working st) {w : World} (hw : Working w) {i : Int} {x : Info} (hx : (getInfo st w i).2 = .ok (some x)) {r : Readings} :
    (r.xml = false → (getStatus true st w r i).2 = .error .attributeError) ∧
    ∀ m, r.smi i = some m → (m.gpuUtil ≠ ['N', '/', 'A'] ∨ m.memUtil ≠ ['N', '/', 'A']) → ∃ e, (getStatus true st w r i).2 = .error e := by
  obtain ⟨_, _, h3, _⟩ := working_init (run_working h) hw
  have e : (getStatus true st w r i).2 = readStatus true (initAll st w).nvml w r i x.uuid := by
    simp only [getStatus, h3, info_again st w i x hx, info_nvml]
    rfl
  refine ⟨fun hr => by rw [e]; simp [readStatus, hr], fun m hm hb => ?_⟩
  rw [e]
  cases hr : r.xml with
  | false => exact ⟨.attributeError, by simp [readStatus, hr]⟩
  | true =>
    have hno := Sizes.wsl_refuted m hb
    cases hs : Sizes.statusWsl m with
    | ok y => exact absurd hs (hno y)
    | error y => cases y <;> simp [readStatus, hr, hm, hs, ofSizes]

/-- **Refuted**: "without a driver there is no status, and no error": in a child forked from a process that knew the device, where NVML cannot be loaded, AttributeError. -/
theorem status_fork_refuted {st : St} (h : Run Working st) {w : World} (hw : Working w) {i : Int} {x : Info} (hx : (getInfo st w i).2 = .ok (some x))
    (w' : World) (hw' : w'.nvml = .absent) (pid : Nat) (hp : pid ≠ st.pid) (r : Readings) :
    (getStatus false (fork (getStatus false st w r i).1 pid) w' r i).2 = .error .attributeError := by
  obtain ⟨_, _, h3, _⟩ := working_init (run_working h) hw
  have hi := info_again st w i x hx
  have e : (getStatus false st w r i).1 = (getInfo (initAll st w) w i).1 := by
    simp only [getStatus, h3, hi]
    simp
  obtain ⟨d, hd⟩ := getStatus_state false st w r i
  have hs : (getStatus false st w r i).1.infos.get? i = some x := by
    rw [e]
    revert hi
    unfold getInfo
    split
    · next y hy => intro hi; rw [hy]; exact Except.ok.inj hi
    · dsimp only
      repeat' split
      all_goals (intro hi; first | cases hi | skip)
      rw [Dict.get?_set, if_pos rfl]
  have hq : (getStatus false st w r i).1.initPid = some st.pid := by rw [hd]; exact h3
  generalize (getStatus false st w r i).1 = q at hs hq
  have e1 : ¬ (fork q pid).initPid = some (fork q pid).pid := by
    show ¬ q.initPid = some pid
    rw [hq]; intro e; exact hp (Option.some.inj e).symm
  have e2 : initAll (fork q pid) w' = { fork q pid with cuda := w'.cuda, nvml := .absent } := by
    have a1 : initCp (fork q pid) w' = { fork q pid with cuda := w'.cuda } := by unfold initCp; rw [if_neg e1]
    have a2 : initNvml { fork q pid with cuda := w'.cuda } w' = { fork q pid with cuda := w'.cuda, nvml := .absent } := by
      unfold initNvml; rw [if_neg (show ¬ ({ fork q pid with cuda := w'.cuda } : St).initPid = some ({ fork q pid with cuda := w'.cuda } : St).pid from e1), hw']
    unfold initAll
    rw [a1, a2]
    simp
  have e3 : (initAll (fork q pid) w').infos.get? i = some x := by rw [e2]; exact hs
  have e4 : (initAll (fork q pid) w').initPid = some st.pid := by rw [e2]; exact hq
  have e5 : (initAll (fork q pid) w').nvml = .absent := by rw [e2]
  have e6 : getInfo (initAll (fork q pid) w') w' i = (initAll (fork q pid) w', .ok (some x)) := by
    unfold getInfo; rw [e3]
  simp only [getStatus, e4, e6, e5, readStatus]
  rfl

/-- **Refuted**: "the status is that of the device CUDA shows under this number": in a child forked after the parent looked, it is the parent's device,
whatever CUDA_VISIBLE_DEVICES and CUDA say in the child. -/
theorem status_stale_refuted {st : St} (h : Run Working st) {w : World} (hw : Working w) {i : Int} {x : Info} (hx : (getInfo st w i).2 = .ok (some x))
    (pid : Nat) {w' : World} (hw' : Working w')
    (hd : ∀ (a b : Nat) d e, w'.devices[a]? = some d → w'.devices[b]? = some e → d.uuid = e.uuid → a = b)
    {k : Nat} {d : Device} (hk : w'.devices[k]? = some d) (hu : d.uuid = ['G', 'P', 'U', '-'] ++ x.uuid) {r : Readings} {n : Sizes.Nvml} (hn : r.card k = some n) :
    (getInfo (fork (getInfo st w i).1 pid) w' i).2 = .ok (some x) ∧
    (getStatus false (fork (getInfo st w i).1 pid) w' r i).2 = .ok (some ⟨n.gpuUtil, n.memUtil, n.temperature, n.total, n.free, n.used⟩) := by
  have hs : (fork (getInfo st w i).1 pid).infos.get? i = some x := by
    show (getInfo st w i).1.infos.get? i = some x
    revert hx
    unfold getInfo
    split
    · next y hy => intro hi; rw [hy]; exact Except.ok.inj hi
    · dsimp only
      repeat' split
      all_goals (intro hi; first | cases hi | skip)
      rw [Dict.get?_set, if_pos rfl]
  have hi : (getInfo (fork (getInfo st w i).1 pid) w' i).2 = .ok (some x) := by
    generalize fork (getInfo st w i).1 pid = q at hs
    unfold getInfo; rw [hs]
  exact ⟨hi, status_exact (.fork pid (.info i h hw)) hw' hi hd hk hu hn⟩

/-! ## The hypotheses are met -/

/-- two cards; CUDA shows the second as number 0 -/
def exS : World :=
  ⟨.good, .good, [⟨['G', 'P', 'U', '-', 'a'], .unsupported, .ok 0 []⟩, ⟨['G', 'P', 'U', '-', 'b'], .unsupported, .ok 0 []⟩], some ['1', ',', '0'],
   fun i => if i = 0 then some ['b'] else if i = 1 then some ['a'] else none, 12020⟩

def exSmi (c : Char) : Sizes.Smi := ⟨[c], [c], [c], ['N', '/', 'A'], ['N', '/', 'A'], [c, 'C']⟩

def exR : Readings := ⟨fun k => if k = 0 then some ⟨10, 20, 30, 40, 50, 60⟩ else if k = 1 then some ⟨1, 2, 3, 4, 5, 6⟩ else none,
  fun i => if i = 0 then some (exSmi '7') else if i = 1 then some (exSmi '8') else none, true⟩

example : (getInfo (fresh 3) exS 0).2 = .ok (some ⟨1, ['b']⟩) := by rfl
example : (getStatus false (fresh 3) exS exR 0).2 = .ok (some ⟨1, 2, 3, 4, 5, 6⟩) := by rfl
example : (getStatus false (fresh 3) exS exR 1).2 = .ok (some ⟨10, 20, 30, 40, 50, 60⟩) := by rfl
example : ∀ (a b : Nat) d e, exS.devices[a]? = some d → exS.devices[b]? = some e → d.uuid = e.uuid → a = b := by
  intro a b d e h1 h2 h
  match a, b with
  | 0, 0 => rfl
  | 1, 1 => rfl
  | 0, 1 => cases h1; cases h2; simp at h
  | 1, 0 => cases h1; cases h2; simp at h
  | a + 2, _ => simp [exS] at h1
  | _, b + 2 => simp [exS] at h2
/-- a part of a divided card: CUDA's uuid is that of the part -/
example : (getStatus false (fresh 3) { exS with cuDevice := fun _ => some ['m'] } exR 0).2 = .error .nvml := by rfl
/-- in the child CUDA's device 0 is the other card; the status is still that of the parent's -/
example : (getStatus false (fork (getInfo (fresh 3) exS 0).1 4) { exS with visible := some ['0'], cuDevice := fun _ => some ['a'] } exR 0).2 =
    .ok (some ⟨1, 2, 3, 4, 5, 6⟩) := by rfl
/-- the numbers of card 0 for a device that is card 1 -/
example : (getInfo (fresh 3) exS 0).2 = .ok (some ⟨1, ['b']⟩) ∧ ∃ m, exR.smi 0 = some m ∧ m.total = ['7'] := ⟨rfl, _, rfl, rfl⟩

end Xoscar.Gpu

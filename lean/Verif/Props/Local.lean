import Verif.Proof.Local
/-!
# C67: a reference means the same in the actor's own process and elsewhere

Histories `es` are oldest first; `(madeBy es).Nodup` says that two creations do not make the same object.
-/
namespace Xoscar.Local

theorem invoke_expected (methods : Obj → List Name) (o : Obj) (name : Name) (args : List Nat) :
    invoke methods o name args = expected methods (some o) name args := rfl

/-- A reference used from elsewhere does what it denotes, in every history: the actor last created under its uid and not destroyed. -/
theorem remote_denotes (methods : Obj → List Name) (es : List Event) (hn : (madeBy es).Nodup) (u : Uid) (name : Name) (args : List Nat)
    (hh : hidden name = false) :
    remoteCall methods (run {} es) u name args =
      if Event.stop ∈ es then .noConnection else expected methods (denoted es.reverse u) name args := by
  have hi := inv_run es hn
  simp only [remoteCall, hh, Bool.false_eq_true, if_false]
  by_cases hs : Event.stop ∈ es
  · rw [if_neg (fun h => hi.serving.1 h hs), if_pos hs]
  · rw [if_pos (hi.serving.2 hs), if_neg hs, hi.actors]
    rcases denoted es.reverse u with _ | o <;> rfl

/-- The same reference in the pool's own process does the same - exactly when its object does not linger, that is, was freed or is still
the actor.  (`hm`: the call is one the object has.) -/
theorem local_call_partial (methods : Obj → List Name) (es : List Event) (hn : (madeBy es).Nodup) (hs : Event.stop ∉ es) (r : LRef)
    (ho : Obtained es r) (name : Name) (args : List Nat) (hl : ¬ Lingers es r.weak) :
    localCall methods (run {} es) r name args = expected methods (denoted es.reverse r.uid) name args := by
  simp only [localCall, (resolve_denoted hn hs ho).2 hl]
  rcases denoted es.reverse r.uid with _ | o <;> rfl

theorem local_call_exact (methods : Obj → List Name) (es : List Event) (hn : (madeBy es).Nodup) (hs : Event.stop ∉ es) (r : LRef)
    (ho : Obtained es r) (name : Name) (args : List Nat) (hh : hidden name = false) (hm : name ∈ methods r.weak) :
    localCall methods (run {} es) r name args = remoteCall methods (run {} es) r.uid name args ↔ ¬ Lingers es r.weak := by
  rw [remote_denotes methods es hn r.uid name args hh, if_neg hs]
  constructor
  · intro he hl
    have hr : (resolve false (run {} es) r).1 = some r.weak := by
      simp only [resolve, deref, if_pos hl.1]
    simp only [localCall, hr, invoke, if_pos hm] at he
    rcases hd : denoted es.reverse r.uid with _ | o
    · rw [hd] at he; simp [expected] at he
    · rw [hd] at he
      simp only [expected] at he
      split at he
      · injection he with h1; subst h1; exact hl.2 _ hd
      · cases he
  · exact local_call_partial methods es hn hs r ho name args

/-- In a history in which every object is freed as soon as it is destroyed, references mean the same everywhere. -/
theorem local_call_prompt (methods : Obj → List Name) (es : List Event) (hn : (madeBy es).Nodup) (hs : Event.stop ∉ es) (r : LRef)
    (ho : Obtained es r) (name : Name) (args : List Nat) (hh : hidden name = false)
    (hprompt : ∀ o ∈ (run {} es).alive, ∃ u, denoted es.reverse u = some o) :
    localCall methods (run {} es) r name args = remoteCall methods (run {} es) r.uid name args := by
  rw [remote_denotes methods es hn r.uid name args hh, if_neg hs]
  refine local_call_partial methods es hn hs r ho name args (fun hl => ?_)
  obtain ⟨u, hu⟩ := hprompt _ hl.1
  exact hl.2 u hu

/-- A local reference can be had exactly for an actor that exists, and leads to it. -/
theorem local_ref_exists (es : List Event) (hn : (madeBy es).Nodup) (hs : Event.stop ∉ es) (u : Uid) :
    createLocalRef false (run {} es) u = (denoted es.reverse u).map fun o => ⟨u, o⟩ := by
  have hi := inv_run es hn
  simp only [createLocalRef, getLocalActor, Bool.false_eq_true, if_false, hi.pool (hi.serving.2 hs), if_true, hi.actors]

/-- with `log_cycle_send` there are no local references -/
theorem cycle_debug_no_local (w : World) (u : Uid) : createLocalRef true w u = none := rfl

/-- REFUTED (stale calls): whatever the history, when an actor is destroyed while its object is still in memory, a local reference to it
keeps calling the destroyed actor; and when the uid is given to a new actor, local references call the OLD one and other references
the new one. -/
theorem stale_refuted (methods : Obj → List Name) (es : List Event) (hn : (madeBy es).Nodup) (hs : Event.stop ∉ es) (u : Uid) (o o' : Obj)
    (hd : denoted es.reverse u = some o) (hf : o' ∉ madeBy es) (name : Name) (args : List Nat) (hh : hidden name = false)
    (hm : name ∈ methods o) (hm' : name ∈ methods o') :
    (localCall methods (run {} (es ++ [.destroy u])) ⟨u, o⟩ name args = .runs o name args ∧
      remoteCall methods (run {} (es ++ [.destroy u])) u name args = .actorNotExist) ∧
    (localCall methods (run {} (es ++ [.destroy u, .create u o'])) ⟨u, o⟩ name args = .runs o name args ∧
      remoteCall methods (run {} (es ++ [.destroy u, .create u o'])) u name args = .runs o' name args) := by
  have hi := inv_run es hn
  have hse := hi.serving.2 hs
  have hp := hi.pool hse
  have hal := hi.alive hp u o (by rw [hi.actors]; exact hd)
  have hn1 : (madeBy (es ++ [.destroy u])).Nodup := by rw [madeBy_append]; simpa [madeBy] using hn
  have hn2 : (madeBy (es ++ [.destroy u, .create u o'])).Nodup := by
    rw [madeBy_append]
    simp only [madeBy]
    refine List.nodup_append.2 ⟨hn, by simp, ?_⟩
    intro a ha b hb
    simp only [List.mem_singleton] at hb
    subst hb; intro he; subst he; exact hf ha
  have w1 : (run {} (es ++ [.destroy u])).alive = (run {} es).alive := by
    rw [run_snoc]; simp only [step]; split <;> rfl
  have l1 : ∀ w : World, o ∈ w.alive → localCall methods w ⟨u, o⟩ name args = .runs o name args := by
    intro w hw
    simp only [localCall, resolve, deref, if_pos hw, invoke, if_pos hm]
  refine ⟨⟨l1 _ (by rw [w1]; exact hal), ?_⟩, l1 _ ?_, ?_⟩
  · rw [remote_denotes methods _ hn1 u name args hh, if_neg (by simp [hs])]
    simp [denoted, hs, expected]
  · rw [show es ++ [Event.destroy u, Event.create u o'] = (es ++ [Event.destroy u]) ++ [Event.create u o'] by simp, run_snoc]
    simp only [step]
    split
    · simp [w1, hal]
    · rw [w1]; exact hal
  · rw [remote_denotes methods _ hn2 u name args hh, if_neg (by simp [hs])]
    simp [denoted, hs, expected, hm']

/-- REFUTED: after `pool.stop()` the actors can still be called from the process itself, others get a connection error. -/
theorem stopped_refuted (methods : Obj → List Name) (es : List Event) (hn : (madeBy es).Nodup) (hs : Event.stop ∉ es) (u : Uid) (o : Obj)
    (hd : denoted es.reverse u = some o) (name : Name) (args : List Nat) (hh : hidden name = false) (hm : name ∈ methods o) :
    createLocalRef false (run {} (es ++ [.stop])) u = some ⟨u, o⟩ ∧
    localCall methods (run {} (es ++ [.stop])) ⟨u, o⟩ name args = .runs o name args ∧
    remoteCall methods (run {} (es ++ [.stop])) u name args = .noConnection := by
  have hi := inv_run es hn
  have hp := hi.pool (hi.serving.2 hs)
  have hg : (run {} es).actors.get? u = some o := by rw [hi.actors]; exact hd
  have hal := hi.alive hp u o hg
  have hn1 : (madeBy (es ++ [.stop])).Nodup := by rw [madeBy_append]; simpa [madeBy] using hn
  refine ⟨?_, ?_, ?_⟩
  · rw [run_snoc]; simp only [step, createLocalRef, getLocalActor, Bool.false_eq_true, if_false, hp, if_true, hg, Option.map_some]
  · rw [run_snoc]
    have hal' : o ∈ (step (run {} es) .stop).alive := hal
    simp only [localCall, resolve, deref, if_pos hal', invoke, if_pos hm]
  · rw [remote_denotes methods _ hn1 u name args hh, if_pos (by simp)]

/-- REFUTED: a method whose name starts with an underscore can be called from the process of the pool only. -/
theorem hidden_refuted (methods : Obj → List Name) (w : World) (r : LRef) (name : Name) (args : List Nat) (hh : hidden name = true)
    (ha : r.weak ∈ w.alive) (hm : name ∈ methods r.weak) :
    localCall methods w r name args = .runs r.weak name args ∧ remoteCall methods w r.uid name args = .attributeError := by
  refine ⟨?_, ?_⟩
  · simp only [localCall, resolve, deref, if_pos ha, invoke, if_pos hm]
  · simp only [remoteCall, hh, if_true]

/-- which names are hidden from references elsewhere -/
theorem hidden_iff (name : Name) :
    hidden name = true ↔ (∃ s, name.toList = '_' :: s) ∧ name ≠ "__xoscar_next__" ∧ name ≠ "__xoscar_destroy_generator__" := by
  simp only [hidden, Bool.and_eq_true, decide_eq_true_eq, Bool.not_eq_true', Bool.or_eq_false_iff, decide_eq_false_iff_not]
  constructor
  · rintro ⟨h1, h2, h3⟩
    refine ⟨?_, h2, h3⟩
    rcases hn : name.toList with _ | ⟨c, s⟩
    · rw [hn] at h1; simp at h1
    · rw [hn] at h1; simp at h1; exact ⟨s, by rw [h1]⟩
  · rintro ⟨⟨s, hs⟩, h2, h3⟩
    exact ⟨by rw [hs]; rfl, h2, h3⟩

/-- `tell` does the same in both places when the actor is there and has the method. -/
theorem tell_partial (methods : Obj → List Name) (es : List Event) (hn : (madeBy es).Nodup) (hs : Event.stop ∉ es) (r : LRef)
    (ho : Obtained es r) (name : Name) (args : List Nat) (hh : hidden name = false) (hl : ¬ Lingers es r.weak) (o : Obj)
    (hd : denoted es.reverse r.uid = some o) (hm : name ∈ methods o) :
    localTell methods (run {} es) r name args = ⟨none, some (.runs o name args)⟩ ∧
    remoteTell methods (run {} es) r.uid name args = ⟨none, some (.runs o name args)⟩ := by
  have h1 := local_call_partial methods es hn hs r ho name args hl
  have h2 := remote_denotes methods es hn r.uid name args hh
  rw [if_neg hs] at h2
  rw [hd] at h1 h2
  simp only [expected, if_pos hm] at h1 h2
  simp [localTell, remoteTell, h1, h2, ran]

/-- REFUTED: to an actor that is gone, `tell` raises in the pool's process and is silently lost elsewhere. -/
theorem tell_refuted (methods : Obj → List Name) (es : List Event) (hn : (madeBy es).Nodup) (hs : Event.stop ∉ es) (r : LRef)
    (ho : Obtained es r) (name : Name) (args : List Nat) (hh : hidden name = false) (hl : ¬ Lingers es r.weak)
    (hd : denoted es.reverse r.uid = none) :
    localTell methods (run {} es) r name args = ⟨some .actorNotExist, none⟩ ∧
    remoteTell methods (run {} es) r.uid name args = ⟨none, none⟩ := by
  have h1 := local_call_partial methods es hn hs r ho name args hl
  have h2 := remote_denotes methods es hn r.uid name args hh
  rw [if_neg hs] at h2
  rw [hd] at h1 h2
  simp only [expected] at h1 h2
  simp [localTell, remoteTell, h1, h2, ran]

/-- `tell` from elsewhere: a stopped pool is reported, nothing else is; the method runs when the actor is there and has it. -/
theorem remote_tell (methods : Obj → List Name) (es : List Event) (hn : (madeBy es).Nodup) (u : Uid) (name : Name) (args : List Nat)
    (hh : hidden name = false) :
    remoteTell methods (run {} es) u name args =
      if Event.stop ∈ es then ⟨some .noConnection, none⟩
      else ⟨none, match denoted es.reverse u with
        | none => none
        | some o => if name ∈ methods o then some (.runs o name args) else none⟩ := by
  simp only [remoteTell, remote_denotes methods es hn u name args hh]
  by_cases hs : Event.stop ∈ es
  · simp [hs]
  · simp only [if_neg hs]
    rcases denoted es.reverse u with _ | o
    · rfl
    · by_cases hm : name ∈ methods o
      · simp [expected, hm, ran]
      · simp [expected, hm, hh]

/-- `tell` in the pool's process: a missing actor or method is raised at once. -/
theorem local_tell (methods : Obj → List Name) (es : List Event) (hn : (madeBy es).Nodup) (hs : Event.stop ∉ es) (r : LRef)
    (ho : Obtained es r) (name : Name) (args : List Nat) (hl : ¬ Lingers es r.weak) :
    localTell methods (run {} es) r name args =
      match denoted es.reverse r.uid with
      | none => ⟨some .actorNotExist, none⟩
      | some o => if name ∈ methods o then ⟨none, some (.runs o name args)⟩ else ⟨some .attributeError, none⟩ := by
  simp only [localTell, local_call_partial methods es hn hs r ho name args hl]
  rcases denoted es.reverse r.uid with _ | o
  · rfl
  · by_cases hm : name ∈ methods o <;> simp [expected, hm]

/-! ## batches -/

theorem lastMethod_all (m : Name) (ds : List Delay) (h : ∀ d ∈ ds, d.method = m) :
    lastMethod (some m) ds = some (some m) := by
  induction ds with
  | nil => rfl
  | cons d ds ih =>
    have hd := h d (by simp)
    simp only [lastMethod, hd, ne_eq, not_true, if_false]
    exact ih (fun d hd => h d (by simp [hd]))

theorem lastMethod_uniform (m : Name) (d : Delay) (ds : List Delay) (h : ∀ x ∈ d :: ds, x.method = m) :
    lastMethod none (d :: ds) = some (some m) := by
  have hd := h d (by simp)
  simp only [lastMethod, hd]
  exact lastMethod_all m ds (fun x hx => h x (by simp [hx]))

theorem firstFailure_none (methods : Obj → List Name) (w : World) (r : LRef) (o : Obj) (hr : (resolve false w r).1 = some o) (ds : List Delay)
    (h : ∀ d ∈ ds, d.method ∈ methods o) : firstFailure methods w r ds = none := by
  induction ds with
  | nil => rfl
  | cons d ds ih =>
    have hd := h d (by simp)
    simp only [firstFailure, localDelay, localCall, hr, invoke, if_pos hd]
    exact ih (fun x hx => h x (by simp [hx]))

theorem firstFailure_gone (methods : Obj → List Name) (w : World) (r : LRef) (hr : (resolve false w r).1 = none) (ds : List Delay) :
    firstFailure methods w r ds = none ∨ firstFailure methods w r ds = some .actorNotExist := by
  cases ds with
  | nil => exact Or.inl rfl
  | cons d ds => right; simp only [firstFailure, localDelay, localCall, hr]

/-- A batch made of delays of the method it is called on is the same in both places. -/
theorem batch_partial (methods : Obj → List Name) (es : List Event) (hn : (madeBy es).Nodup) (hs : Event.stop ∉ es) (r : LRef)
    (ho : Obtained es r) (name : Name) (ds : List Delay) (hh : hidden name = false) (hl : ¬ Lingers es r.weak)
    (hds : ∀ d ∈ ds, d.method = name) :
    localBatch methods (run {} es) r name ds = expectedBatch methods (denoted es.reverse r.uid) name (ds.map (·.args)) ∧
    remoteBatch methods (run {} es) r.uid name ds = expectedBatch methods (denoted es.reverse r.uid) name (ds.map (·.args)) := by
  have hi := inv_run es hn
  have hr := (resolve_denoted hn hs ho).2 hl
  have hhid : ¬ (hidden name ∨ ∃ d ∈ ds, hidden d.method) := by
    rintro (h | ⟨d, hd, h⟩)
    · rw [hh] at h; cases h
    · rw [hds d hd, hh] at h; cases h
  have hlast : (lastMethod none ds).map (·.getD name) = some name := by
    cases ds with
    | nil => rfl
    | cons d ds => rw [lastMethod_uniform name d ds hds]; rfl
  obtain ⟨last, hla, hlb⟩ := Option.map_eq_some_iff.1 hlast
  constructor
  · simp only [localBatch]
    rcases hd : denoted es.reverse r.uid with _ | o
    · rw [hd] at hr
      rcases firstFailure_gone methods (run {} es) r hr ds with h | h <;> simp [h, hr, expectedBatch]
    · rw [hd] at hr
      by_cases hm : name ∈ methods o
      · rw [firstFailure_none methods _ r o hr ds (fun d hd => by rw [hds d hd]; exact hm)]
        simp only [hr]; rfl
      · cases ds with
        | nil => simp only [firstFailure, hr]; rfl
        | cons d ds =>
          have hd' := hds d (by simp)
          simp [firstFailure, localDelay, localCall, hr, invoke, hd', hm, expectedBatch]
  · simp only [remoteBatch, if_neg hhid, hla, if_pos (hi.serving.2 hs), hi.actors, hlb]
    rcases denoted es.reverse r.uid with _ | o <;> rfl

/-- REFUTED: `ref.a.batch(ref.b.delay(..), …)` with all delays of another method `b` runs `b` from elsewhere, but `a` in the pool's
process. -/
theorem batch_method_refuted (methods : Obj → List Name) (es : List Event) (hn : (madeBy es).Nodup) (hs : Event.stop ∉ es) (r : LRef)
    (ho : Obtained es r) (hl : ¬ Lingers es r.weak) (o : Obj) (hd : denoted es.reverse r.uid = some o) (a b : Name) (x : Delay)
    (ds : List Delay) (ha : hidden a = false) (hb : hidden b = false) (hma : a ∈ methods o) (hmb : b ∈ methods o)
    (hds : ∀ d ∈ x :: ds, d.method = b) :
    localBatch methods (run {} es) r a (x :: ds) = .runs o a ((x :: ds).map (·.args)) ∧
    remoteBatch methods (run {} es) r.uid a (x :: ds) = .runs o b ((x :: ds).map (·.args)) := by
  have hi := inv_run es hn
  have hr := (resolve_denoted hn hs ho).2 hl
  rw [hd] at hr
  have hhid : ¬ (hidden a ∨ ∃ d ∈ x :: ds, hidden d.method) := by
    rintro (h | ⟨d, hd, h⟩)
    · rw [ha] at h; cases h
    · rw [hds d hd, hb] at h; cases h
  constructor
  · simp only [localBatch, firstFailure_none methods _ r o hr _ (fun d hd => by rw [hds d hd]; exact hmb), hr, invokeBatch, if_pos hma]
  · simp only [remoteBatch, if_neg hhid, lastMethod_uniform b x ds hds, if_pos (hi.serving.2 hs), hi.actors, hd, Option.getD_some,
      invokeBatch, if_pos hmb]

theorem lastMethod_mixed (m : Name) (ds : List Delay) (h : ∃ d ∈ ds, d.method ≠ m) : lastMethod (some m) ds = none := by
  induction ds with
  | nil => obtain ⟨d, hd, -⟩ := h; cases hd
  | cons d ds ih =>
    simp only [lastMethod]
    by_cases hd : d.method = m
    · rw [if_neg (by simp [hd]), hd]
      refine ih ?_
      obtain ⟨d', hm, hne⟩ := h
      rcases List.mem_cons.1 hm with rfl | hm
      · exact absurd hd hne
      · exact ⟨d', hm, hne⟩
    · rw [if_pos hd]

/-- REFUTED: a batch that mixes methods is a ValueError elsewhere; in the pool's process the method it is called on silently runs with
the arguments meant for the others. -/
theorem batch_mixed_refuted (methods : Obj → List Name) (es : List Event) (hn : (madeBy es).Nodup) (hs : Event.stop ∉ es) (r : LRef)
    (ho : Obtained es r) (hl : ¬ Lingers es r.weak) (o : Obj) (hd : denoted es.reverse r.uid = some o) (a : Name) (x : Delay)
    (ds : List Delay) (ha : hidden a = false) (hma : a ∈ methods o) (hmd : ∀ d ∈ x :: ds, d.method ∈ methods o ∧ hidden d.method = false)
    (hmix : ∃ d ∈ ds, d.method ≠ x.method) :
    localBatch methods (run {} es) r a (x :: ds) = .runs o a ((x :: ds).map (·.args)) ∧
    remoteBatch methods (run {} es) r.uid a (x :: ds) = .valueError := by
  have hr := (resolve_denoted hn hs ho).2 hl
  rw [hd] at hr
  have hhid : ¬ (hidden a ∨ ∃ d ∈ x :: ds, hidden d.method) := by
    rintro (h | ⟨d, hd, h⟩)
    · rw [ha] at h; cases h
    · rw [(hmd d hd).2] at h; cases h
  constructor
  · simp only [localBatch, firstFailure_none methods _ r o hr _ (fun d hd => (hmd d hd).1), hr, invokeBatch, if_pos hma]
  · have : lastMethod none (x :: ds) = none := lastMethod_mixed x.method ds hmix
    simp only [remoteBatch, if_neg hhid, this]

/-! ## a pool with a counter actor -/

/-- objects 1 and 2 are counters -/
def demoMethods : Obj → List Name := fun _ => ["add", "sub", "_reset"]
def demo : List Event := [.create "a" 1, .create "b" 2]

example : (madeBy demo).Nodup := by decide
example : Event.stop ∉ demo := by decide
example : denoted demo.reverse "a" = some 1 := by decide
theorem demo_ref : Obtained demo ⟨"a", 1⟩ := .make (u := "a") rfl
example : ¬ Lingers demo 1 := fun h => h.2 "a" (by decide)
example : localCall demoMethods (run {} demo) ⟨"a", 1⟩ "add" [1, 2] = .runs 1 "add" [1, 2] := by decide
example : remoteCall demoMethods (run {} demo) "a" "add" [1, 2] = .runs 1 "add" [1, 2] := by decide
/-- the actor is replaced while its first object lingers -/
example : Lingers (demo ++ [.destroy "a", .create "a" 3]) 1 := by
  refine ⟨by decide, fun u => ?_⟩
  by_cases h : "a" = u
  · subst h; decide
  · by_cases h' : "b" = u
    · subst h'; decide
    · simp [denoted, demo, h, h']
example : localCall demoMethods (run {} (demo ++ [.destroy "a", .create "a" 3])) ⟨"a", 1⟩ "add" [5] = .runs 1 "add" [5] := by decide
example : remoteCall demoMethods (run {} (demo ++ [.destroy "a", .create "a" 3])) "a" "add" [5] = .runs 3 "add" [5] := by decide
/-- freed in between, the reference finds the new actor -/
example : localCall demoMethods (run {} (demo ++ [.destroy "a", .collect 1, .create "a" 3])) ⟨"a", 1⟩ "add" [5] = .runs 3 "add" [5] := by decide
/-- the hypothesis of `local_call_prompt` -/
example : ∀ o ∈ (run {} (demo ++ [.destroy "a", .collect 1, .create "a" 3])).alive,
    ∃ u, denoted (demo ++ [Event.destroy "a", .collect 1, .create "a" 3]).reverse u = some o := by
  intro o ho
  have : (run {} (demo ++ [.destroy "a", .collect 1, .create "a" 3])).alive = [3, 2] := by decide
  rw [this] at ho
  rcases List.mem_cons.1 ho with rfl | ho
  · exact ⟨"a", by decide⟩
  · rcases List.mem_cons.1 ho with rfl | ho
    · exact ⟨"b", by decide⟩
    · cases ho
example : localBatch demoMethods (run {} demo) ⟨"a", 1⟩ "add" [⟨"add", [1]⟩, ⟨"sub", [2]⟩] = .runs 1 "add" [[1], [2]] := by decide
example : remoteBatch demoMethods (run {} demo) "a" "add" [⟨"add", [1]⟩, ⟨"sub", [2]⟩] = .valueError := by decide
example : localBatch demoMethods (run {} demo) ⟨"a", 1⟩ "add" [⟨"add", [1]⟩, ⟨"add", [2]⟩] = .runs 1 "add" [[1], [2]] := by decide
example : localTell demoMethods (run {} (demo ++ [.destroy "a", .collect 1])) ⟨"a", 1⟩ "add" [] = ⟨some .actorNotExist, none⟩ := by decide
example : remoteTell demoMethods (run {} (demo ++ [.destroy "a", .collect 1])) "a" "add" [] = ⟨none, none⟩ := by decide
example : hidden "_reset" = true ∧ hidden "__xoscar_next__" = false ∧ hidden "add" = false := by decide

/-- Once the pool has stopped and is itself gone, no local reference can be made any more, whatever happens then. -/
theorem pool_gone (es es' : List Event) (u : Uid) :
    createLocalRef false (run {} (es ++ .stop :: .dropPool :: es')) u = none := by
  have key : ∀ (es' : List Event) (w : World), w.poolAlive = false → (run w es').poolAlive = false := by
    intro es'
    induction es' with
    | nil => intro w h; exact h
    | cons e es' ih =>
      intro w h
      refine ih _ ?_
      cases e <;> simp only [step] <;> (try split) <;> first | exact h | rfl
  have h : (run {} (es ++ .stop :: .dropPool :: es')).poolAlive = false := by
    simp only [run, List.foldl_append, List.foldl_cons]
    exact key es' _ rfl
  simp [createLocalRef, getLocalActor, h]

/-- A message to a method whose name starts with an underscore is refused to the sender, and nothing runs. -/
theorem remote_tell_hidden (methods : Obj → List Name) (w : World) (u : Uid) (name : Name) (args : List Nat) (hh : hidden name = true) :
    remoteTell methods w u name args = ⟨some .attributeError, none⟩ := by
  simp [remoteTell, remoteCall, hh]

example : hidden "_x" = true := by decide

end Xoscar.Local

import Verif.Spec.Plan
import Verif.Proof.Base
namespace Xoscar.Plan
open Xoscar.Reqs (Str Req Out)

theorem lower_eq : lower = key := rfl

/-! ## The installed packages -/

theorem installed_foldl (dists : List (Str × Str)) (d : Dict Str Str) (k : Str) (h : ∀ x ∈ dists, key x.1 ≠ k) :
    (dists.foldl (fun d x => d.set (lower x.1) x.2) d).get? k = d.get? k := by
  induction dists generalizing d with
  | nil => rfl
  | cons x l ih =>
    rw [List.foldl_cons, ih _ (fun y hy => h y (List.mem_cons_of_mem _ hy)), Dict.get?_set, if_neg]
    exact fun e => h x (List.mem_cons_self ..) e

theorem installed_of_nodup {dists : List (Str × Str)} (hn : (dists.map (fun x => key x.1)).Nodup) {env : Env} (he : IsEnv dists env)
    (k : Str) : (installedOf dists).get? k = env k := by
  have key' : ∀ (dists : List (Str × Str)) (d : Dict Str Str), (dists.map (fun x => key x.1)).Nodup → ∀ v, Visible dists k v →
      (dists.foldl (fun d x => d.set (lower x.1) x.2) d).get? k = some v := by
    intro dists
    induction dists with
    | nil => intro d _ v hv; cases hv
    | cons x l ih =>
      intro d hn v hv
      rw [List.map_cons, List.nodup_cons] at hn
      rw [List.foldl_cons]
      cases hv with
      | @here n v l =>
        rw [installed_foldl _ _ _ (fun y hy e => hn.1 (List.mem_map.2 ⟨y, hy, e⟩)), Dict.get?_set, if_pos]
        rfl
      | there hne hv => exact ih _ hn.2 v hv
  unfold installedOf
  rcases h : env k with _ | v
  · rw [installed_foldl]
    · rfl
    · intro x hx e
      have : ∃ v, Visible dists k v := by
        clear he h hn key'
        induction dists with
        | nil => cases hx
        | cons y l ih =>
          by_cases hy : key y.1 = k
          · subst hy; exact ⟨y.2, .here⟩
          · rcases List.mem_cons.1 hx with rfl | hx
            · exact absurd e hy
            · obtain ⟨v, hv⟩ := ih hx
              exact ⟨v, .there hy hv⟩
      obtain ⟨v, hv⟩ := this
      rw [(he k v).2 hv] at h
      cases h
  · exact key' dists [] hn v ((he k v).1 h)

/-! ## Splitting -/

/-- installed with a version that will do -/
def Fine (lib : Lib) (installed : Dict Str Str) (r : Req) : Prop :=
  ∃ v, installed.get? (key r.name) = some v ∧ Meets lib v r.specifier

theorem splitOne_fine {lib : Lib} {installed : Dict Str Str} {s : Split} {r : Req} {v : Str} (h : installed.get? (key r.name) = some v)
    (hm : Meets lib v r.specifier) : splitOne lib installed s (.req r) = { s with pinned := s.pinned.set (key r.name) v } := by
  rw [splitOne, lower_eq, h]
  simp only
  rcases hm with hm | hm
  · rw [if_pos hm]
  · by_cases e : r.specifier = []
    · rw [if_pos e]
    · rw [if_neg e, hm]

theorem splitOne_not {lib : Lib} {installed : Dict Str Str} {s : Split} {r : Req} (h : ¬ Fine lib installed r) :
    splitOne lib installed s (.req r) = { s with toResolve := s.toResolve ++ [r] } := by
  rw [splitOne, lower_eq]
  rcases hi : installed.get? (key r.name) with _ | v
  · rfl
  · simp only
    rw [if_neg (fun e => h ⟨v, hi, .inl e⟩)]
    rcases hs : lib.sat r.specifier v with _ | _ | _
    · rfl
    · rfl
    · exact absurd ⟨v, hi, .inr hs⟩ h

structure SplitInv (lib : Lib) (installed : Dict Str Str) (done : List Out) (s : Split) : Prop where
  keep : s.keep = done.filter (fun o => match o with | .raw _ => true | .req _ => false)
  res : ∀ r, r ∈ s.toResolve ↔ .req r ∈ done ∧ ¬ Fine lib installed r
  pin : ∀ k v, s.pinned.get? k = some v ↔ installed.get? k = some v ∧ ∃ r, .req r ∈ done ∧ key r.name = k ∧ Fine lib installed r

theorem splitInv (lib : Lib) (installed : Dict Str Str) (specs : List Out) : SplitInv lib installed specs (split lib installed specs) := by
  have step : ∀ (l done : List Out) (s : Split), SplitInv lib installed done s →
      SplitInv lib installed (done ++ l) (l.foldl (splitOne lib installed) s) := by
    intro l
    induction l with
    | nil => intro done s h; rw [List.append_nil]; exact h
    | cons o l ih =>
      intro done s h
      rw [List.foldl_cons, show done ++ o :: l = (done ++ [o]) ++ l by simp]
      refine ih _ _ ?_
      cases o with
      | raw t =>
        constructor
        · rw [splitOne, List.filter_append, h.keep]; rfl
        · intro r; simp only [splitOne, h.res, List.mem_append, List.mem_singleton, reduceCtorEq, or_false]
        · intro k v; simp only [splitOne, h.pin, List.mem_append, List.mem_singleton, reduceCtorEq, or_false]
      | req r =>
        by_cases hf : Fine lib installed r
        · obtain ⟨v, hv, hm⟩ := id hf
          rw [splitOne_fine hv hm]
          constructor
          · simp [h.keep, List.filter_append]
          · intro r'
            simp only [h.res, List.mem_append, List.mem_singleton, Out.req.injEq]
            exact ⟨fun ⟨h1, h2⟩ => ⟨.inl h1, h2⟩, fun ⟨h1, h2⟩ => ⟨h1.resolve_right (by rintro rfl; exact h2 hf), h2⟩⟩
          · intro k w
            simp only [Dict.get?_set, List.mem_append, List.mem_singleton, Out.req.injEq]
            by_cases e : k = key r.name
            · subst e
              rw [if_pos rfl]
              constructor
              · intro h'; cases h'; exact ⟨hv, r, .inr rfl, rfl, hf⟩
              · rintro ⟨h1, _⟩; rw [hv] at h1; exact h1
            · rw [if_neg (Ne.symm e), h.pin]
              refine and_congr_right fun _ => ⟨fun ⟨r', h1, h2⟩ => ⟨r', .inl h1, h2⟩, fun ⟨r', h1, h2⟩ => ⟨r', ?_, h2⟩⟩
              refine h1.resolve_right ?_
              rintro rfl
              exact e h2.1.symm
        · rw [splitOne_not hf]
          constructor
          · simp [h.keep, List.filter_append]
          · intro r'
            simp only [List.mem_append, List.mem_singleton, h.res, Out.req.injEq]
            constructor
            · rintro (⟨h1, h2⟩ | rfl)
              · exact ⟨.inl h1, h2⟩
              · exact ⟨.inr rfl, hf⟩
            · rintro ⟨h1 | rfl, h2⟩
              · exact .inl ⟨h1, h2⟩
              · exact .inr rfl
          · intro k w
            simp only [h.pin, List.mem_append, List.mem_singleton, Out.req.injEq]
            refine and_congr_right fun _ => ⟨fun ⟨r', h1, h2⟩ => ⟨r', .inl h1, h2⟩, fun ⟨r', h1, h2⟩ => ⟨r', ?_, h2⟩⟩
            refine h1.resolve_right ?_
            rintro rfl
            exact hf h2.2
  exact step specs [] {} ⟨rfl, by simp, by intro k v; constructor <;> simp [Dict.get?]⟩

/-! ## Overlays -/

theorem overlay_not {env : Env} {l : List (Str × Str)} {k : Str} (h : ∀ x ∈ l, key x.1 ≠ k) : overlay env l k = env k := by
  induction l generalizing env with
  | nil => rfl
  | cons x l ih =>
    obtain ⟨n, v⟩ := x
    rw [overlay, ih (fun y hy => h y (List.mem_cons_of_mem _ hy)), if_neg]
    exact fun e => h (n, v) (List.mem_cons_self ..) e.symm

theorem overlay_mem {env : Env} {l : List (Str × Str)} (hn : (l.map (fun x => key x.1)).Nodup) {n v : Str} (h : (n, v) ∈ l) :
    overlay env l (key n) = some v := by
  induction l generalizing env with
  | nil => cases h
  | cons x l ih =>
    obtain ⟨m, w⟩ := x
    rw [List.map_cons, List.nodup_cons] at hn
    rw [overlay]
    rcases List.mem_cons.1 h with e | h
    · cases e
      rw [overlay_not (fun y hy e => hn.1 (List.mem_map.2 ⟨y, hy, e⟩)), if_pos rfl]
    · exact ih hn.2 h

/-- leaving out what is there already changes nothing -/
theorem overlay_filter {env : Env} {l : List (Str × Str)} (hn : (l.map (fun x => key x.1)).Nodup) (p : Str × Str → Bool)
    (hp : ∀ x ∈ l, p x = false → env (key x.1) = some x.2) : overlay env (l.filter p) = overlay env l := by
  funext k
  by_cases hk : ∃ x ∈ l, key x.1 = k
  · obtain ⟨x, hx, rfl⟩ := hk
    rw [overlay_mem hn (show (x.1, x.2) ∈ l from hx)]
    have hn' : ((l.filter p).map (fun x => key x.1)).Nodup := hn.sublist (List.filter_sublist.map _)
    rcases hpx : p x with _ | _
    · rw [overlay_not, hp x hx hpx]
      intro y hy e
      have hy' := List.mem_filter.1 hy
      have : y = x := by
        have h1 := overlay_mem (env := fun _ => none) hn (show (y.1, y.2) ∈ l from hy'.1)
        have inj : ∀ (l : List (Str × Str)), (l.map (fun x => key x.1)).Nodup → x ∈ l → y ∈ l → y = x := by
          intro l
          induction l with
          | nil => intro _ h; cases h
          | cons z l ih =>
            intro hn hx hy
            rw [List.map_cons, List.nodup_cons] at hn
            rcases List.mem_cons.1 hx with rfl | hx' <;> rcases List.mem_cons.1 hy with rfl | hy'
            · rfl
            · exact absurd (List.mem_map.2 ⟨y, hy', e⟩) hn.1
            · refine absurd ?_ hn.1
              rw [e]
              exact List.mem_map.2 ⟨x, hx', rfl⟩
            · exact ih hn.2 hx' hy'
        exact inj l hn hx hy'.1
      rw [this, hpx] at hy'
      cases hy'.2
    · exact overlay_mem hn' (List.mem_filter.2 ⟨hx, hpx⟩)
  · have h1 : ∀ x ∈ l, key x.1 ≠ k := fun x hx e => hk ⟨x, hx, e⟩
    rw [overlay_not h1, overlay_not (fun x hx => h1 x (List.mem_filter.1 hx).1)]

theorem pins_given (l : List Out) : pins (l.map .given) = [] := by
  induction l with
  | nil => rfl
  | cons o l ih => exact ih

theorem pins_append (a b : List Pkg) : pins (a ++ b) = pins a ++ pins b := List.filterMap_append

theorem pins_pin (l : List (Str × Str)) : pins (l.map (fun x => .pin x.1 x.2)) = l := by
  induction l with
  | nil => rfl
  | cons x l ih => exact congrArg (x :: ·) ih

theorem readPlan_eq {lines : List Line} (h : ∀ l ∈ lines, l.from = false) : readPlan lines = lines.map (fun l => (l.name, l.version)) := by
  induction lines with
  | nil => rfl
  | cons l ls ih =>
    unfold readPlan at ih ⊢
    rw [List.filterMap_cons, h l (List.mem_cons_self ..), ih (fun x hx => h x (List.mem_cons_of_mem _ hx))]
    rfl

end Xoscar.Plan

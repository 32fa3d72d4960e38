import Verif.Spec.Forward
import Verif.Proof.Base
/-!
# C58: calls through proxies
-/
namespace Xoscar.Forward
open Config (Addr)
open Router (Router)

theorem wrap_done {c dest : Addr} {m : Msg} (h : remote c → c = dest) : wrap c dest m = m := by
  unfold wrap
  rw [if_neg]
  rintro ⟨h1, h2, _⟩
  exact h2 (h h1)

theorem wrap_hop {c dest : Addr} {m : Msg} (h1 : remote c) (h2 : c ≠ dest) (h3 : m.isControl = false) :
    wrap c dest m = .forward m.id dest m := by
  unfold wrap
  rw [if_pos ⟨h1, h2, by simp [h3]⟩]

/-- **C58** (ids): what is put on the wire — wrapped or not — has the id of the call, under which the caller waits for the
reply (C20) -/
theorem wire_id (c dest : Addr) (m : Msg) : (wrap c dest m).id = m.id := by
  unfold wrap; split <;> rfl

/-- the connection address: internal, `dest` itself, or a proxy -/
theorem conn_cases {w : World} {given : List Addr} (hr : RemoteProxies w given) (p : Pid) (dest : Addr) :
    (w.pool p).router.internal dest = some (conn w p dest given) ∨ conn w p dest given = dest ∨ remote (conn w p dest given) := by
  unfold conn Router.Router.dest
  rcases hi : (w.pool p).router.internal dest with _ | i
  · right
    simp only
    rcases hl : given.getLast? with _ | l
    · simp only
      rcases hp : (w.pool p).router.getProxy dest with _ | x
      · left; rfl
      · simp only
        split
        · left; rfl
        · right; exact hr.config _ _ _ hp
    · simp only
      right
      rcases hp : (w.pool p).router.getProxy l with _ | x
      · exact hr.given _ (List.mem_of_getLast? hl)
      · exact hr.config _ _ _ hp
  · left; rfl

theorem RemoteProxies.nil {w : World} {given : List Addr} (hr : RemoteProxies w given) : RemoteProxies w [] :=
  ⟨by simp, hr.config⟩

/-- on a way that ends with a pool that keeps the message, that pool serves `dest` -/
theorem route_home {w : World} {dest : Addr} {h : Pid} {p : Pid} {given : List Addr} {t : List Pid}
    (hs : Serves w dest h) (hr : RemoteProxies w given) (hroute : Route w dest p given t true) : t.getLast? = some h := by
  generalize hb : true = b at hroute
  induction hroute with
  | stuck => simp at hb
  | @last p given q h1 h2 =>
    have : q = h := by
      rcases conn_cases hr p dest with hc | hc | hc
      · exact hs.internal p _ q hc h1
      · rw [hc] at h1; exact hs.direct p q h1
      · rw [h2 hc] at h1; exact hs.direct p q h1
    simp [this]
  | hop h1 h2 h3 h4 ih =>
    have := ih hr.nil hb
    rw [List.getLast?_cons]
    simp [this]

/-- what a call that takes this way comes to -/
def outcome (w : World) (id : Nat) (b : Body) (t : List Pid) : Bool → Out
  | false => ⟨t, none, some (id, .error .connection)⟩
  | true => match t.getLast? with
    | none => ⟨t, none, none⟩
    | some q => match handle (w.pool q) (.plain id b) with
      | .done e v => ⟨t, some (q, e), some (id, v)⟩
      | .wait a => ⟨t, some (q, .waits a), none⟩
      | .pass _ _ => ⟨t, none, none⟩

/-- the pool does something with the message itself -/
def Keeps (w : World) (q : Pid) (m : Msg) : Prop := ∃ e v, handle (w.pool q) m = .done e v

theorem outcome_cons (w : World) (id : Nat) (b : Body) (q : Pid) (t : List Pid) (f : Bool) (hf : f = true → t ≠ []) :
    outcome w id b (q :: t) f = { outcome w id b t f with trail := q :: (outcome w id b t f).trail } := by
  cases f with
  | false => rfl
  | true =>
    have ht := hf rfl
    rcases hl : t.getLast? with _ | y
    · simp [List.getLast?_eq_none_iff] at hl; exact absurd hl ht
    · have : (q :: t).getLast? = some y := by rw [List.getLast?_cons, hl]; rfl
      simp only [outcome, hl, this]
      split <;> rfl

theorem route_ne {w : World} {dest : Addr} {p : Pid} {given : List Addr} {t : List Pid} (h : Route w dest p given t true) : t ≠ [] := by
  cases h <;> simp

/-- **C58** (exactly): a call ends iff its way ends, and then it ends as that way says -/
theorem send_iff {w : World} {dest : Addr} (id : Nat) (b : Body) (hc : (Msg.plain id b).isControl = false)
    (p : Pid) (given : List Addr)
    (hk : ∀ t, Route w dest p given t true → ∀ q, t.getLast? = some q → Keeps w q (.plain id b)) (o : Out) :
    (∃ fuel, w.send fuel p dest given (.plain id b) = some o) ↔
      ∃ t f, Route w dest p given t f ∧ o = outcome w id b t f := by
  constructor
  · rintro ⟨fuel, h⟩
    induction fuel generalizing p given o with
    | zero => simp [World.send] at h
    | succ fuel ih =>
      simp only [World.send] at h
      rcases hq : w.serves p (conn w p dest given) with _ | q
      · simp only [hq] at h
        cases h
        exact ⟨[], false, .stuck hq, rfl⟩
      · simp only [hq] at h
        by_cases hw : remote (conn w p dest given) → conn w p dest given = dest
        · rw [wrap_done hw] at h
          have hroute := Route.last hq hw
          obtain ⟨e, v, hd⟩ := hk _ hroute q rfl
          simp only [hd] at h
          cases h
          refine ⟨[q], true, hroute, ?_⟩
          simp [outcome, hd, Msg.id]
        · have h1 : remote (conn w p dest given) := Classical.byContradiction fun hn => hw fun h' => absurd h' hn
          have h2 : conn w p dest given ≠ dest := fun h' => hw fun _ => h'
          rw [wrap_hop h1 h2 hc] at h
          simp only [handle] at h
          rcases ho : w.send fuel q dest [] (.plain id b) with _ | o'
          · simp [ho] at h
          · simp only [ho] at h
            cases h
            obtain ⟨t, f, hr, ht⟩ := ih q [] (fun t hr q' hl => hk (q :: t) (.hop hq h1 h2 hr) q' (by rw [List.getLast?_cons, hl]; rfl)) o' ho
            refine ⟨q :: t, f, .hop hq h1 h2 hr, ?_⟩
            rw [outcome_cons w id b q t f (fun hf => route_ne (hf ▸ hr)), ht]
  · rintro ⟨t, f, hroute, rfl⟩
    induction hroute with
    | stuck hq => exact ⟨1, by simp only [World.send, hq]; rfl⟩
    | @last p given q hq hw =>
      obtain ⟨e, v, hd⟩ := hk _ (Route.last hq hw) q rfl
      refine ⟨1, ?_⟩
      simp only [World.send, hq]
      rw [wrap_done hw]
      simp [hd, outcome, Msg.id]
    | @hop p given q t f hq h1 h2 hr ih =>
      obtain ⟨fuel, hf⟩ := ih (fun t hr q' hl => hk (q :: t) (.hop hq h1 h2 hr) q' (by rw [List.getLast?_cons, hl]; rfl))
      refine ⟨fuel + 1, ?_⟩
      simp only [World.send, hq]
      rw [wrap_hop h1 h2 hc]
      simp only [handle, hf]
      rw [outcome_cons w id b q t f (fun hf => route_ne (hf ▸ hr))]

/-- **C58** (delivery): whatever the proxies, a call that ends was processed once, by the pool serving the address, with
the content it was made with, and the reply has the id of the call — or a connection on the way failed and the caller is
told -/
theorem delivered {w : World} {dest : Addr} {h : Pid} {p : Pid} {given : List Addr} {fuel id x : Nat} {o : Out}
    (hs : Serves w dest h) (hr : RemoteProxies w given)
    (hsend : w.send fuel p dest given (.plain id (.call x)) = some o) :
    (o.done = some (h, .ran x) ∧ o.reply = some (id, (w.pool h).answer x)) ∨
    (o.done = none ∧ o.reply = some (id, .error .connection)) := by
  obtain ⟨t, f, hroute, rfl⟩ := (send_iff id (.call x) rfl p given (fun _ _ q _ => ⟨_, _, rfl⟩) o).mp ⟨fuel, hsend⟩
  cases f with
  | false => exact .inr ⟨rfl, rfl⟩
  | true =>
    left
    simp [outcome, route_home hs hr hroute, handle]

/-- **C58** (cancel): the request to cancel a call takes effect at the pool serving the address and nowhere else, if that
is a sub pool or a main pool addressed by its own external address -/
theorem cancel_delivered_partial {w : World} {dest : Addr} {h : Pid} {p : Pid} {fuel target i : Nat} {o : Out}
    (hs : Serves w dest h) (hr : RemoteProxies w []) (hh : (w.pool h).main = true → dest = (w.pool h).ext)
    (hsend : w.cancel fuel p dest target i = some o) :
    (o.done = some (h, .cancels target) ∧ o.reply = some (i, .true_)) ∨
    (o.done = none ∧ o.reply = some (i, .error .connection)) := by
  have hk : handle (w.pool h) (.plain i (.cancel dest target)) = .done (.cancels target) .true_ := by
    simp only [handle]
    rw [if_neg]
    rintro ⟨h1, h2⟩
    exact h2 (hh h1)
  obtain ⟨t, f, hroute, rfl⟩ := (send_iff i (.cancel dest target) rfl p []
    (fun t ht q hl => ⟨_, _, by rw [route_home hs hr ht] at hl; cases hl; exact hk⟩) o).mp ⟨fuel, hsend⟩
  cases f with
  | false => exact .inr ⟨rfl, rfl⟩
  | true =>
    left
    simp [outcome, route_home hs hr hroute, hk]

/-- **C58** (ends): if passing a message on brings it nearer to a pool that needs no proxy, every call ends -/
theorem ends_partial {w : World} {dest : Addr} (rank : Pid → Nat)
    (hrank : ∀ p q, w.serves p (conn w p dest []) = some q → conn w p dest [] ≠ dest → remote (conn w p dest []) → rank q < rank p)
    (p : Pid) (given : List Addr) (id x : Nat) : ∃ fuel o, w.send fuel p dest given (.plain id (.call x)) = some o := by
  have key : ∀ n p, rank p ≤ n → ∃ t f, Route w dest p [] t f := by
    intro n
    induction n with
    | zero =>
      intro p hp
      rcases hq : w.serves p (conn w p dest []) with _ | q
      · exact ⟨_, _, .stuck hq⟩
      · by_cases hw : remote (conn w p dest []) → conn w p dest [] = dest
        · exact ⟨_, _, .last hq hw⟩
        · have := hrank p q hq (fun h' => hw fun _ => h') (Classical.byContradiction fun hn => hw fun h' => absurd h' hn)
          omega
    | succ n ih =>
      intro p hp
      rcases hq : w.serves p (conn w p dest []) with _ | q
      · exact ⟨_, _, .stuck hq⟩
      · by_cases hw : remote (conn w p dest []) → conn w p dest [] = dest
        · exact ⟨_, _, .last hq hw⟩
        · have h2 : conn w p dest [] ≠ dest := fun h' => hw fun _ => h'
          have h1 : remote (conn w p dest []) := Classical.byContradiction fun hn => hw fun h' => absurd h' hn
          obtain ⟨t, f, hr⟩ := ih q (by have := hrank p q hq h2 h1; omega)
          exact ⟨_, _, .hop hq h1 h2 hr⟩
  have hroute : ∃ t f, Route w dest p given t f := by
    rcases hq : w.serves p (conn w p dest given) with _ | q
    · exact ⟨_, _, .stuck hq⟩
    · by_cases hw : remote (conn w p dest given) → conn w p dest given = dest
      · exact ⟨_, _, .last hq hw⟩
      · have h2 : conn w p dest given ≠ dest := fun h' => hw fun _ => h'
        have h1 : remote (conn w p dest given) := Classical.byContradiction fun hn => hw fun h' => absurd h' hn
        obtain ⟨t, f, hr⟩ := key (rank q) q (Nat.le_refl _)
        exact ⟨_, _, .hop hq h1 h2 hr⟩
  obtain ⟨t, f, hr⟩ := hroute
  obtain ⟨fuel, hf⟩ := (send_iff id (.call x) rfl p given (fun _ _ q _ => ⟨_, _, rfl⟩) _).mpr ⟨t, f, hr, rfl⟩
  exact ⟨fuel, _, hf⟩

/-- **C58** (first hop): unless the router knows an internal address, a reference with proxy addresses is first sent to
the last of them, or to the proxy configured for that one -/
theorem first_hop {w : World} {p : Pid} {dest g : Addr} {given : List Addr}
    (hi : (w.pool p).router.internal dest = none) (hl : given.getLast? = some g) :
    conn w p dest given = ((w.pool p).router.getProxy g).getD g := by
  unfold conn Router.Router.dest
  simp only [hi, hl]
  split <;> simp_all

/-- **C58** (no detour): without proxies the call goes straight to the pool -/
theorem direct {w : World} {p : Pid} {dest : Addr} (hi : (w.pool p).router.internal dest = none)
    (hp : (w.pool p).router.getProxy dest = none) : conn w p dest [] = dest := by
  unfold conn Router.Router.dest
  simp [hi, hp]

/-! ## Concrete worlds -/

/-- a caller (pool 0, also any process without a pool), a gateway (main pool 1), a cluster with main pool 2 and sub pool 3
behind it -/
def router0 (proxy : Dict Addr Addr) : Router := Router.new [] none [] proxy

def gateway (main : Bool) : Pool :=
  ⟨Router.new ["gw:1"] (some "dummy://1") [("gw:1", some "unixsocket:///1")] [], "gw:1", main, [], "gw:1", true, .result⟩

def mainPool : Pool :=
  ⟨Router.new ["m:1"] (some "dummy://2") [("m:1", some "unixsocket:///2"), ("m:2", some "unixsocket:///3")] [("*", "gw:1")],
    "m:1", true, ["m:2"], "m:1", true, .result⟩

def subPool : Pool :=
  ⟨Router.new ["m:2"] (some "dummy://3") [("m:1", some "unixsocket:///2"), ("m:2", some "unixsocket:///3")] [("*", "gw:1")],
    "m:2", false, [], "m:1", true, .result⟩

def caller (proxy : Dict Addr Addr) : Pool := ⟨router0 proxy, "", false, [], "", false, .result⟩

def demo (gwMain : Bool) (proxy : Dict Addr Addr) : World where
  pool | 1 => gateway gwMain | 2 => mainPool | 3 => subPool | _ => caller proxy
  -- the caller reaches only the gateway; the gateway reaches the cluster; inside the cluster everything is reachable
  serves p a :=
    if a = "gw:1" then some 1
    else if p = 0 then none
    else if a = "m:1" then some 2
    else if a = "m:2" then some 3
    else if p = 1 then none
    else if a = "unixsocket:///2" then some 2
    else if a = "unixsocket:///3" then some 3
    else if a = "dummy://2" then (if p = 2 then some 2 else none)
    else if a = "dummy://3" then (if p = 3 then some 3 else none)
    else none

/-- a reference made in the cluster carries the gateway's address; the call passes the gateway and arrives -/
example : (demo true []).send 5 0 "m:2" ["gw:1"] (.plain 7 (.call 42)) =
    some ⟨[1, 3], some (3, .ran 42), some (7, .result 42)⟩ := by decide

/-- … the same with a proxy configured at the caller -/
example : (demo true [("m", "gw:1")]).send 5 0 "m:2" [] (.plain 7 (.call 42)) =
    some ⟨[1, 3], some (3, .ran 42), some (7, .result 42)⟩ := by decide

theorem getProxy_mem {r : Router} {a x : Addr} (h : r.getProxy a = some x) : x ∈ r.proxy.vals := by
  have hu : ∀ k, Router.usable a (r.proxy.get? k) = some x → x ∈ r.proxy.vals := by
    intro k hk
    rcases hg : r.proxy.get? k with _ | y
    · simp [Router.usable, hg] at hk
    · rw [hg] at hk
      simp only [Router.usable] at hk
      split at hk
      · cases hk
        exact List.mem_map_of_mem (f := Prod.snd) (Dict.mem_of_get? hg)
      · simp at hk
  unfold Router.Router.getProxy at h
  split at h
  · next h1 => cases h; exact hu _ h1
  · split at h
    · next h1 => cases h; exact hu _ h1
    · exact hu _ h

theorem demo_remote (g : Bool) (c : Dict Addr Addr) (hc : ∀ x ∈ c.vals, remote x) : RemoteProxies (demo g c) ["gw:1"] := by
  refine ⟨by decide, ?_⟩
  intro p a x h
  have h' := getProxy_mem h
  match p with
  | 0 => exact hc x h'
  | 1 => simp [demo, gateway, Router.new] at h'; exact absurd h' (by simp [Dict.vals])
  | 2 => simp only [demo, mainPool, Router.new, Dict.vals, List.map_cons, List.map_nil, List.mem_singleton] at h'; subst h'; decide
  | 3 => simp only [demo, subPool, Router.new, Dict.vals, List.map_cons, List.map_nil, List.mem_singleton] at h'; subst h'; decide
  | n + 4 => exact hc x h'

theorem demo_serves (g : Bool) (c : Dict Addr Addr) : Serves (demo g c) "m:2" 3 := by
  constructor
  · intro p q h
    simp only [demo] at h
    rw [if_neg (by decide)] at h
    split at h
    · simp at h
    · rw [if_neg (by decide), if_pos trivial] at h
      exact (Option.some.inj h).symm
  · intro p i q hi h
    match p with
    | 0 => exact absurd hi (by simp [demo, caller, router0, Router.new, Router.Router.internal, Config.setAll])
    | n + 4 => exact absurd hi (by simp [demo, caller, router0, Router.new, Router.Router.internal, Config.setAll])
    | 1 =>
      have e : (gateway true).router.internal "m:2" = none := by decide
      cases g <;> exact absurd (hi.symm.trans e) (by simp)
    | 2 =>
      have e : mainPool.router.internal "m:2" = some "unixsocket:///3" := by decide
      have := (hi.symm.trans e)
      cases this
      exact (Option.some.inj h).symm
    | 3 =>
      have e : subPool.router.internal "m:2" = some "dummy://3" := by decide
      have := (hi.symm.trans e)
      cases this
      exact (Option.some.inj h).symm

/-- hypotheses of `delivered`, `cancel_delivered_partial` and `ends_partial` met by this world -/
example : Serves (demo true [("m", "gw:1")]) "m:2" 3 ∧ RemoteProxies (demo true [("m", "gw:1")]) ["gw:1"] ∧
    ((demo true [("m", "gw:1")]).pool 3).main = false ∧
    (demo true [("m", "gw:1")]).cancel 5 0 "m:2" 7 8 = some ⟨[1, 3], some (3, .cancels 7), some (8, .true_)⟩ :=
  ⟨demo_serves _ _, demo_remote _ _ (by decide), rfl, by decide⟩

/-! ## Schemes -/

theorem prefix_iff (p a : String) : p.toList.isPrefixOf a.toList = true ↔ ∃ r : String, a = p ++ r := by
  rw [List.isPrefixOf_iff_prefix]
  constructor
  · rintro ⟨t, ht⟩
    refine ⟨String.ofList t, String.toList_injective ?_⟩
    rw [String.toList_append, String.toList_ofList, ht]
  · rintro ⟨r, rfl⟩
    exact ⟨r.toList, by rw [String.toList_append]⟩

/-- **C58**: what counts as a remote address -/
theorem remote_iff (a : Addr) : remote a = true ↔ IsRemote a := by
  unfold remote IsRemote
  rw [Bool.not_eq_true', ← Bool.not_eq_true, Bool.or_eq_true, prefix_iff, prefix_iff, not_or, not_exists, not_exists]

/-! ## Killing actors -/

/-- **C58** (kill): without a proxy in between, `kill_actor` of an actor on a sub pool stops exactly that sub pool … -/
theorem kill_direct {w : World} {p s m : Pid} {addr real : Addr} {given : List Addr} (fuel i : Nat)
    (hs : w.serves p (conn w p addr given) = some s) (hsub : (w.pool s).main = false)
    (hm : w.serves p (conn w p (w.pool s).mainAddr given) = some m) (hmain : (w.pool m).main = true)
    (hext : (w.pool m).ext = (w.pool s).mainAddr) (hreal : real ∈ (w.pool m).subs) (hne : real ≠ (w.pool s).mainAddr) :
    w.kill (fuel + 1) p addr given real i = some (.out ⟨[m], some (m, .stopsSub real), some (i + 1, .true_)⟩) := by
  have w1 : ∀ c d x, wrap c d (.plain x (.ctl addr .getMain)) = .plain x (.ctl addr .getMain) := by
    intros; simp [wrap, Msg.isControl]
  have w2 : ∀ c d x, wrap c d (.plain x (.ctl real .stop)) = .plain x (.ctl real .stop) := by
    intros; simp [wrap, Msg.isControl]
  simp [World.kill, World.send, hs, w1, handle, hsub, ctlBase, hne, hm, w2, hmain, ctlMain, hext, hreal, Msg.id]

/-- … and of an actor on the main pool is refused -/
theorem kill_main {w : World} {p s : Pid} {addr : Addr} {given : List Addr} (fuel i : Nat)
    (hs : w.serves p (conn w p addr given) = some s) (hext : (w.pool s).ext = addr) (hm : (w.pool s).mainAddr = addr) :
    w.kill (fuel + 1) p addr given addr i = some (.raised .valueError) := by
  have w1 : ∀ c d x, wrap c d (.plain x (.ctl addr .getMain)) = .plain x (.ctl addr .getMain) := by
    intros; simp [wrap, Msg.isControl]
  rcases hb : (w.pool s).main with _ | _ <;>
    simp [World.kill, World.send, hs, w1, handle, ctlBase, ctlMain, hb, hext, hm]

/-- … and if the pool cannot be reached at all, that is what the caller hears -/
theorem kill_unreachable {w : World} {p : Pid} {addr real : Addr} {given : List Addr} (fuel i : Nat)
    (hs : w.serves p (conn w p addr given) = none) : w.kill (fuel + 1) p addr given real i = some (.raised .connection) := by
  simp [World.kill, World.send, hs]

/-- **C58** (recovery): a pool that is not a main pool does not wait for anybody: the caller hears TypeError; a main pool asked by
its own address for itself as well -/
theorem wait_recovered_wrong_pool {w : World} {p q : Pid} {addr mainA : Addr} (fuel i : Nat) (hne : addr ≠ mainA)
    (hs : w.serves p (conn w p mainA []) = some q) (hq : (w.pool q).main = false ∨ (w.pool q).ext = addr) :
    w.waitRecovered (fuel + 1) p addr mainA i = some ⟨[q], some (q, .nothing), some (i, .error .typeError)⟩ := by
  have w1 : ∀ c d x, wrap c d (.plain x (.ctl addr .waitRecovered)) = .plain x (.ctl addr .waitRecovered) := by
    intros; simp [wrap, Msg.isControl]
  rcases hb : (w.pool q).main with _ | _ <;> rcases hq with hq | hq <;>
    simp_all [World.waitRecovered, World.send, handle, ctlBase, ctlMain, Msg.id]

/-- met in the world with the gateway: it is asked about, but cannot be reached from pool 3; pool 1 there is a sub pool -/
example : (demo false [("m", "gw:1")]).waitRecovered 5 0 "m:2" "m:1" 5 = some ⟨[1], some (1, .nothing), some (5, .error .typeError)⟩ ∧
    ("unixsocket:///a" : Addr) = "unixsocket://" ++ "/a" := by decide

example : (demo true []).kill 1 2 "m:2" [] "m:2" 5 = some (.out ⟨[2], some (2, .stopsSub "m:2"), some (6, .true_)⟩) ∧
    (demo true []).kill 1 3 "m:1" [] "m:1" 5 = some (.raised .valueError) := by decide

/-- **C58 refuted** (kill): through a gateway that is a main pool the request to stop is not passed on: it fails at the
gateway with KeyError, for every actor whose pool is not the gateway's own sub pool -/
theorem kill_at_gateway {w : World} {p g : Pid} {mainA real : Addr} {given : List Addr} (fuel i : Nat)
    (hg : w.serves p (conn w p mainA given) = some g) (hm : (w.pool g).main = true) (hne : real ≠ (w.pool g).ext)
    (hns : real ∉ (w.pool g).subs) :
    w.send (fuel + 1) p mainA given (.plain i (.ctl real .stop)) = some ⟨[g], some (g, .nothing), some (i, .error .keyError)⟩ := by
  have w2 : ∀ c d x, wrap c d (.plain x (.ctl real .stop)) = .plain x (.ctl real .stop) := by
    intros; simp [wrap, Msg.isControl]
  simp [World.send, hg, w2, handle, hm, ctlMain, hne, hns, Msg.id]

theorem kill_through_gateway_refuted :
    (demo true []).kill 5 0 "m:2" ["gw:1"] "m:2" 5 = some (.raised .keyError) := by decide

/-- **C58 refuted** (kill): if the gateway is a sub pool, it takes the request for itself: the gateway stops, the actor
stays -/
theorem kill_stops_gateway_refuted :
    (demo false []).kill 5 0 "m:2" ["gw:1"] "m:2" 5 = some (.out ⟨[1], some (1, .stopsItself), some (6, .true_)⟩) := by decide

/-- **C58 refuted** (cancel): a request to cancel does not use the reference's proxies: the call arrives, the request to
cancel it does not -/
theorem cancel_ignores_proxies_refuted :
    (demo true []).send 5 0 "m:2" ["gw:1"] (.plain 7 (.call 42)) = some ⟨[1, 3], some (3, .ran 42), some (7, .result 42)⟩ ∧
    (demo true []).cancel 5 0 "m:2" 7 8 = some ⟨[], none, some (8, .error .connection)⟩ := by decide

/-- **C58 refuted** (recovery): waiting for a pool behind a gateway waits for an event of the gateway, which does not have
that sub pool and so never sets it -/
theorem wait_recovered_at_gateway_refuted :
    (demo true [("m", "gw:1")]).waitRecovered 5 0 "m:2" "m:1" 5 = some ⟨[1], some (1, .waits "m:2"), none⟩ ∧
    "m:2" ∉ ((demo true [("m", "gw:1")]).pool 1).subs := by decide

/-! ## Messages that never arrive -/

/-- two gateways, each the other's proxy for everything -/
def twoGateways : World where
  pool
    | 1 => ⟨Router.new ["a:1"] (some "dummy://1") [] [("*", "b:1")], "a:1", true, [], "a:1", true, .result⟩
    | 2 => ⟨Router.new ["b:1"] (some "dummy://2") [] [("*", "a:1")], "b:1", true, [], "b:1", true, .result⟩
    | _ => caller [("*", "a:1")]
  serves _ a := if a = "a:1" then some 1 else if a = "b:1" then some 2 else if a = "x:1" then some 3 else none

/-- **C58 refuted** (end): the call goes to and fro between the gateways forever -/
theorem gateways_loop_refuted (fuel id x : Nat) : twoGateways.send fuel 0 "x:1" [] (.plain id (.call x)) = none := by
  have key : ∀ fuel, twoGateways.send fuel 1 "x:1" [] (.plain id (.call x)) = none ∧
      twoGateways.send fuel 2 "x:1" [] (.plain id (.call x)) = none := by
    intro fuel
    induction fuel with
    | zero => exact ⟨rfl, rfl⟩
    | succ n ih =>
      have c1 : (twoGateways.pool 1).router.dest "x:1" [] = "b:1" := by decide
      have c2 : (twoGateways.pool 2).router.dest "x:1" [] = "a:1" := by decide
      have s1 : twoGateways.serves 1 "b:1" = some 2 := by decide
      have s2 : twoGateways.serves 2 "a:1" = some 1 := by decide
      have w1 : wrap "b:1" "x:1" (.plain id (.call x)) = .forward id "x:1" (.plain id (.call x)) := wrap_hop (by decide) (by decide) rfl
      have w2 : wrap "a:1" "x:1" (.plain id (.call x)) = .forward id "x:1" (.plain id (.call x)) := wrap_hop (by decide) (by decide) rfl
      constructor <;> simp [World.send, c1, c2, s1, s2, w1, w2, handle, ih]
  cases fuel with
  | zero => rfl
  | succ n =>
    have c0 : (twoGateways.pool 0).router.dest "x:1" [] = "a:1" := by decide
    have s0 : twoGateways.serves 0 "a:1" = some 1 := by decide
    have w0 : wrap "a:1" "x:1" (.plain id (.call x)) = .forward id "x:1" (.plain id (.call x)) := wrap_hop (by decide) (by decide) rfl
    simp [World.send, c0, s0, w0, handle, key]

/-- a main pool listening on all interfaces, called by the address of one of them -/
def wildcard : World where
  pool
    | 1 => ⟨Router.new ["0.0.0.0:1"] (some "dummy://1") [("0.0.0.0:1", some "unixsocket:///1"), ("0.0.0.0:2", some "unixsocket:///2")] [],
        "0.0.0.0:1", true, ["0.0.0.0:2"], "0.0.0.0:1", true, .result⟩
    | 2 => ⟨Router.new ["0.0.0.0:2"] (some "dummy://2") [("0.0.0.0:1", some "unixsocket:///1"), ("0.0.0.0:2", some "unixsocket:///2")] [],
        "0.0.0.0:2", false, [], "0.0.0.0:1", true, .result⟩
    | _ => caller []
  serves _ a := if a = "h:1" ∨ a = "0.0.0.0:1" then some 1 else if a = "h:2" ∨ a = "0.0.0.0:2" then some 2 else none

theorem wildcard_conn (p : Pid) (hp : p = 0 ∨ p = 1) : (wildcard.pool p).router.dest "h:1" [] = "h:1" ∧ wildcard.serves p "h:1" = some 1 := by
  rcases hp with rfl | rfl <;> decide

/-- **C58 refuted** (end): asking such a main pool to cancel a call — or for its configuration — makes it call itself over
and over; there is never an answer -/
theorem wildcard_loop_refuted (fuel i : Nat) (b : Body) (hb : b = .cancel "h:1" 7 ∨ b = .ctl "h:1" .getMain) :
    wildcard.send fuel 0 "h:1" [] (.plain i b) = none := by
  have key : ∀ fuel p, (p = 0 ∨ p = 1) → wildcard.send fuel p "h:1" [] (.plain i b) = none := by
    intro fuel
    induction fuel with
    | zero => intros; rfl
    | succ n ih =>
      intro p hp
      have hh : handle (wildcard.pool 1) (.plain i b) = .pass "h:1" (.plain i b) := by
        rcases hb with rfl | rfl <;> simp [handle, wildcard, ctlMain]
      simp only [World.send, wildcard_conn p hp]
      rw [wrap_done (fun _ => rfl), hh]
      simp only [ih 1 (.inr rfl)]
  exact key fuel 0 (.inl rfl)

/-- … while calls work -/
example : wildcard.send 1 0 "h:1" [] (.plain 7 (.call 42)) = some ⟨[1], some (1, .ran 42), some (7, .result 42)⟩ := by decide

/-- **C58 refuted** (kill): the actor of a sub pool of such a main pool cannot be killed: the sub pool is not found under the
repaired address -/
theorem kill_wildcard_refuted : wildcard.kill 5 0 "h:2" [] "h:2" 5 = some (.raised .keyError) := by decide

/-- **C58** (recovery): the main pool, asked for one of the pools it looks after, lets the caller wait for the recovery exactly if it recovers
sub pools at all; otherwise it answers at once -/
theorem wait_recovered_main_pool {w : World} {p q : Pid} {addr mainA : Addr} (fuel i : Nat) (hne : addr ≠ mainA)
    (hs : w.serves p (conn w p mainA []) = some q) (hm : (w.pool q).main = true) (he : (w.pool q).ext = mainA) :
    w.waitRecovered (fuel + 1) p addr mainA i =
      if (w.pool q).autoRecover = true then some ⟨[q], some (q, .waits addr), none⟩
      else some ⟨[q], some (q, .nothing), some (i, .true_)⟩ := by
  have w1 : ∀ c d x, wrap c d (.plain x (.ctl addr .waitRecovered)) = .plain x (.ctl addr .waitRecovered) := by
    intros; simp [wrap, Msg.isControl]
  rcases ha : (w.pool q).autoRecover with _ | _ <;>
    simp [World.waitRecovered, World.send, handle, ctlMain, hne, hs, hm, he, w1, ha, Msg.id]

/-- **C58** (recovery): for the main pool itself there is nothing to wait for, and nobody is asked -/
theorem wait_recovered_self (w : World) (fuel : Nat) (p : Pid) (mainA : Addr) (i : Nat) :
    w.waitRecovered fuel p mainA mainA i = some ⟨[], none, some (i, .true_)⟩ := by
  simp [World.waitRecovered]

example : (demo true []).waitRecovered 5 1 "m:2" "m:1" 5 = some ⟨[2], some (2, .waits "m:2"), none⟩ := by decide

end Xoscar.Forward

import Verif.Model.Forward
/-!
# What it means to call through proxies

`h` is the pool that serves the address `dest`.
-/
namespace Xoscar.Forward
open Config (Addr)

/-- whoever connects to `dest`, or to the internal address its router has for `dest`, gets pool `h` -/
structure Serves (w : World) (dest : Addr) (h : Pid) : Prop where
  direct : ∀ p q, w.serves p dest = some q → q = h
  internal : ∀ p i q, (w.pool p).router.internal dest = some i → w.serves p i = some q → q = h

/-- the scheme is one of another machine: not `dummy://`, not `unixsocket://` -/
def IsRemote (a : Addr) : Prop := (∀ r : String, a ≠ "dummy://" ++ r) ∧ ∀ r : String, a ≠ "unixsocket://" ++ r

/-- all configured proxies and the given ones are addresses of remote channels -/
structure RemoteProxies (w : World) (given : List Addr) : Prop where
  given : ∀ a ∈ given, remote a
  config : ∀ p a x, (w.pool p).router.getProxy a = some x → remote x

/-- where pool `p` connects to -/
abbrev conn (w : World) (p : Pid) (dest : Addr) (given : List Addr) : Addr := (w.pool p).router.dest dest given

/-- the way of a message for `dest` from pool `p`: the pools that get it, one after the other; the flag tells whether the
last of them keeps it (otherwise it cannot connect any further) -/
inductive Route (w : World) (dest : Addr) : Pid → List Addr → List Pid → Bool → Prop
  | stuck {p given} : w.serves p (conn w p dest given) = none → Route w dest p given [] false
  | last {p given q} : w.serves p (conn w p dest given) = some q →
      (remote (conn w p dest given) → conn w p dest given = dest) → Route w dest p given [q] true
  | hop {p given q t b} : w.serves p (conn w p dest given) = some q →
      remote (conn w p dest given) → conn w p dest given ≠ dest → Route w dest q [] t b →
      Route w dest p given (q :: t) b

end Xoscar.Forward

import Verif.Model.Base

/-!
# Writing buffers to a socket (`backends/communication/utils.py:66`, `socket.py:78-99`)

`write_buffers` hands each buffer to `StreamWriter.write`; the transport is asyncio's
`_SelectorSocketTransport` (CPython 3.12, `selector_events.py`: `write`, `_write_sendmsg`,
`_adjust_leftover_buffer`), which tries to send at once and keeps what the socket did not take.
The transport slices buffers with `data[n:]` where `n` counts *bytes*, but slicing a
`memoryview` counts rows of its first axis.
-/
namespace Xoscar.Transport
open Xoscar

/-- A bytes-like object: a C-contiguous `memoryview` with `rows` items along its first axis, each
of `rowBytes` bytes.  `bytes` objects and byte views have `rowBytes = 1`.  (Views without axes are
not modelled: slicing them raises.) -/
structure View where
  rows : Nat
  rowBytes : Nat
  bytes : List Nat
deriving DecidableEq

/-- A `bytes` object or a one-dimensional view of bytes: the buffers of `numpy.py:57`,
`core.pyx:237-241`, headers. -/
def View.ofBytes (b : List Nat) : View := { rows := b.length, rowBytes := 1, bytes := b }

/-- `data[n:]` -/
def View.slice (v : View) (n : Nat) : View :=
  { rows := v.rows - n, rowBytes := v.rowBytes, bytes := v.bytes.drop (n * v.rowBytes) }

/-- The socket and the transport's queue. -/
structure State where
  /-- bytes taken by the socket -/
  wire : List Nat := []
  /-- `transport._buffer` -/
  pending : List View := []
deriving DecidableEq

/-- `_SelectorSocketTransport.write(data)` (`selector_events.py:1054-1092` in 3.12): `taken` is what
`sock.send` returned, `none` for `BlockingIOError`. -/
def write (s : State) (v : View) (taken : Option Nat) : State :=
  if v.rows = 0 then s
  else match s.pending with
  | [] =>
    match taken with
    | none => { s with pending := [v] }
    | some n =>
      let v' := v.slice n
      if v'.rows = 0 then { s with wire := s.wire ++ v.bytes.take n }
      else { wire := s.wire ++ v.bytes.take n, pending := [v'] }
  | _ => { s with pending := s.pending ++ [v] }

/-- `_adjust_leftover_buffer(nbytes)` (`selector_events.py:1125-1134`). -/
def adjust : List View → Nat → List View
  | [], _ => []
  | b :: r, n =>
    if n = 0 then b :: r
    else if b.rows ≤ n then adjust r (n - b.rows)
    else b.slice n :: r

/-- The bytes waiting to be sent. -/
def queued (l : List View) : List Nat := l.flatMap (·.bytes)

/-- `_write_sendmsg` (`selector_events.py:1097-1103`): the socket took `n` bytes of the queue. -/
def flush (s : State) (n : Nat) : State :=
  { wire := s.wire ++ (queued s.pending).take n, pending := adjust s.pending n }

/-- What can happen: a buffer is written (the socket takes some of it if nothing was waiting), or
the socket becomes ready and takes some of the queue. -/
inductive Ev
  | write (v : View) (taken : Option Nat)
  | flush (n : Nat)

/-- The socket never takes more than it is offered, and takes at least one byte when it is ready. -/
def Ev.ok (s : State) : Ev → Prop
  | .write v taken => ∀ n, taken = some n → n ≤ v.bytes.length
  | .flush n => n ≤ (queued s.pending).length

def step (s : State) : Ev → State
  | .write v taken => write s v taken
  | .flush n => flush s n

/-- A history and the buffers written in it. -/
inductive Run : List View → State → Prop
  | init : Run [] {}
  | write {vs s} (v : View) (taken : Option Nat) : Run vs s → Ev.ok s (.write v taken) → Run (vs ++ [v]) (write s v taken)
  | flush {vs s} (n : Nat) : Run vs s → Ev.ok s (.flush n) → Run vs (flush s n)

end Xoscar.Transport

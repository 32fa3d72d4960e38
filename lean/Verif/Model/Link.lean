import Verif.Model.Message
import Verif.Model.Wire
/-!
# A connection, from the sender's message to the receiver's: python/xoscar/backends/communication/socket.py 77-104

Puts the models of serialization (Model/Serial, Model/Message) and of framing (Model/Wire) together, as `SocketChannel.send`
and `SocketChannel.recv` do.
-/
namespace Xoscar.Link
open Xoscar

/-- what `send` hands to the framing: the header of `serialize` and its buffers, none of which has `__cuda_array_interface__`
(socket.py:80-82, aio.py:39-52) -/
def pack (r : Serial.PV × List Serial.Buf) : Wire.Msg Serial.PV :=
  ⟨r.1, r.2.map (fun b => ⟨false, b.data.toList⟩)⟩

/-- what `recv` hands to `deserialize` (socket.py:100-104) -/
def unpack (w : Wire.Msg Serial.PV) : Serial.PV × List Serial.Buf :=
  (w.rest, w.bufs.map (fun b => ByteArray.mk b.data.toArray))

/-- The whole connection: tasks that send, the bytes between, tasks that receive.  `sent` of the bytes on the wire have reached the
receiver. -/
structure St where
  out : Wire.SState Serial.PV
  sent : Nat
  inn : Wire.RState Serial.PV

inductive Label where
  /-- a sending task runs to its next await -/
  | send (t : Nat)
  /-- the network delivers the next `n` bytes (fewer if fewer are under way) -/
  | deliver (n : Nat)
  /-- somebody calls `recv` -/
  | call
  /-- the task in `recv` runs to its next await -/
  | resume
  deriving DecidableEq, Repr

/-- one step (socket.py:77-104) -/
def step (pk : Wire.Pickle Serial.PV) (compress : Nat) (st : St) : Label → St
  | .send t => { st with out := Wire.sstep pk compress st.out t }
  | .deliver n =>
    { st with sent := st.sent + ((st.out.wire.drop st.sent).take n).length,
              inn := Wire.rstep pk st.inn (.data ((st.out.wire.drop st.sent).take n)) }
  | .call => { st with inn := Wire.rstep pk st.inn .call }
  | .resume => { st with inn := Wire.rstep pk st.inn .resume }

/-- a connection over which tasks are about to send: `progs` are what `serialize` gives for the messages of each -/
def init (progs : List (List (Serial.PV × List Serial.Buf))) : St :=
  ⟨⟨[], progs.map (fun l => ⟨l.map pack, .serializing⟩)⟩, 0, ⟨[], .idle, []⟩⟩

def run (pk : Wire.Pickle Serial.PV) (compress : Nat) (progs : List (List (Serial.PV × List Serial.Buf))) (ls : List Label) : St :=
  ls.foldl (step pk compress) (init progs)

/-- what the `recv` calls so far passed to `deserialize`, in the order they returned -/
def received (st : St) : List (Serial.PV × List Serial.Buf) := st.inn.out.map unpack

end Xoscar.Link

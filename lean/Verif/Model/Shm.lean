import Verif.Model.Wire
/-!
# Start-up handshake through shared memory: python/xoscar/backends/indigen/pool.py:50-76
-/
namespace Xoscar.Shm
open Xoscar.Wire (Bytes le unle)

/-- `_SUBPROCESS_SHM_SIZE`, indigen/pool.py:50 -/
def shmSize : Nat := 10240

/-- shared memory contents, byte by address -/
abbrev Mem := Nat → UInt8

/-- one elementary memory store -/
abbrev Store := Nat × UInt8

def store (m : Mem) (s : Store) : Mem := fun a => if a = s.1 then s.2 else m a

/-- memory after a sequence of stores -/
def stores (m : Mem) (l : List Store) : Mem := l.foldl store m

/-- the stores of the slice assignment `shm.buf[off : off + len(bs)] = bs`, ascending -/
def slice (off : Nat) : Bytes → List Store
  | [] => []
  | b :: bs => (off, b) :: slice (off + 1) bs

/-- `_shm_put_object` on the pickled object, indigen/pool.py:61-68: the three slice assignments in
program order; `none` = the assertion fails and nothing is stored. -/
def put (seq : Nat) (serialized : Bytes) : Option (List Store × List Store × List Store) :=
  if serialized.length < shmSize - 8 then
    some (slice 4 (le 4 serialized.length), slice 8 serialized, slice 0 (le 4 seq))
  else none

/-- the bytes `buf[off : off+n]` -/
def readSlice (m : Mem) (off n : Nat) : Bytes := (List.range n).map (fun i => m (off + i))

/-- `_shm_get_object`, indigen/pool.py:71-76, before `pickle.loads`; slices are clamped to the
buffer. -/
def get (seq : Nat) (m : Mem) : Option Bytes :=
  if unle (readSlice m 0 4) ≠ seq then none
  else some (readSlice m 8 (min (unle (readSlice m 4 4)) (shmSize - 8)))

end Xoscar.Shm

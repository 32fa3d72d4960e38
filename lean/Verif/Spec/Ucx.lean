import Verif.Model.Ucx
namespace Xoscar.Ucx
open Xoscar.Wire (Bytes Buf Header Pickle Msg)

/-- buffer contents by reference -/
abbrev Content := Ref → Option Bytes

/-- writing data into buffers, one after the other -/
def written (c : Content) : List (Ref × Bytes) → Content
  | [] => c
  | (r, b) :: l => written (fun x => if x = r then some b else c x) l

/-- what a sequence of jobs should do at the receiver: messages are handled in order, copies are done in order -/
def expected {H} (copyRefs : Msg H → Option (List Ref)) : Content → List (Job H) → Content × List (Event H)
  | c, [] => (c, [])
  | c, j :: js =>
    match copyRefs j.message with
    | none => let e := expected copyRefs c js; (e.1, .message j.message :: e.2)
    | some refs => let e := expected copyRefs (written c (refs.zip j.raw)) js; (e.1, .copied true :: e.2)

/-- A job the channel can carry: no empty buffer in the message; a copy request names registered buffers of the sizes of the data, none empty. -/
structure Fits {H} (copyRefs : Msg H → Option (List Ref)) (c : Content) (j : Job H) : Prop where
  nonempty : ∀ b ∈ j.message.bufs, b.data ≠ []
  plain : copyRefs j.message = none → j.raw = []
  sizes : ∀ refs, copyRefs j.message = some refs → refs.map (fun r => (c r).map List.length) = j.raw.map (fun b => some b.length)
  rawNonempty : ∀ b ∈ j.raw, b ≠ []

/-- the buffers of the sends, in the order they were started -/
def startedBufs : List Act → List (List Bytes)
  | [] => []
  | .start _ bs :: as => bs :: startedBufs as
  | _ :: as => startedBufs as

end Xoscar.Ucx

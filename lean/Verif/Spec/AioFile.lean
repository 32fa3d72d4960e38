import Verif.Model.AioFile
namespace Xoscar.AioFile

/-- the same operations on an ordinary file, one after the other, with their results -/
inductive Sync : File → List (Op × Res) → File → Prop
  | nil {f : File} : Sync f [] f
  | cons {f f1 f' : File} {op : Op} {r : Res} {rest : List (Op × Res)} : apply f op = (f1, r) → Sync f1 rest f' → Sync f ((op, r) :: rest) f'

/-- `ls` are the lines of `bs`: put together they are `bs`, none is empty, a newline is only at the end of a line, and only the last line may
be without -/
structure Lines (bs : List Byte) (ls : List (List Byte)) : Prop where
  all : ls.flatten = bs
  nonempty : ∀ l ∈ ls, l ≠ []
  inner : ∀ l ∈ ls, ∀ b ∈ l.dropLast, b ≠ 10
  ends : ∀ l ∈ ls.dropLast, l.getLast? = some 10

end Xoscar.AioFile

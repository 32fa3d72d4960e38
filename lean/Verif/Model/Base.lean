/-!
# Python containers

Insertion ordered dictionaries (`dict`) and sets as lists.  These are models of the Python
builtins, not of code in /repo.
-/
namespace Xoscar

/-- A Python set of the elements of a list, as a duplicate free list. -/
def pySet {α} [BEq α] (l : List α) : List α := l.foldr List.insert []

/-- Python `dict`: insertion ordered association list. -/
abbrev Dict (α β : Type) := List (α × β)

namespace Dict
variable {α β : Type} [DecidableEq α]

/-- `d.get(k)` -/
def get? (d : Dict α β) (k : α) : Option β :=
  match d with
  | [] => none
  | (k', v) :: rest => if k' = k then some v else get? rest k

/-- `d[k] = v`: overwrite in place, else append at the end. -/
def set (d : Dict α β) (k : α) (v : β) : Dict α β :=
  match d with
  | [] => [(k, v)]
  | (k', v') :: rest => if k' = k then (k, v) :: rest else (k', v') :: set rest k v

/-- `d.pop(k, None)` / `del d[k]` when present: drop the key. -/
def erase (d : Dict α β) (k : α) : Dict α β :=
  match d with
  | [] => []
  | (k', v') :: rest => if k' = k then erase rest k else (k', v') :: erase rest k

/-- `k in d` -/
def has (d : Dict α β) (k : α) : Bool := (get? d k).isSome

/-- `list(d)` -/
def keys (d : Dict α β) : List α := d.map Prod.fst

/-- `list(d.values())` -/
def vals (d : Dict α β) : List β := d.map Prod.snd

/-- `d.update(other)` -/
def update (d other : Dict α β) : Dict α β := other.foldl (fun acc kv => set acc kv.1 kv.2) d

/-- Well-formedness of a dict: no key occurs twice. -/
def WF (d : Dict α β) : Prop := d.keys.Nodup

end Dict
end Xoscar

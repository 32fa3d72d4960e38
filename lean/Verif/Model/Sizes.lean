import Verif.Model.Base
/-!
# Sizes written for people, and the state of a GPU: `utils.py` 59-79 (`parse_readable_size`), `nvutils.py` 440-513 (`get_device_status`)

Simplified: text is ASCII; a `float` is the rational number it stands for (no rounding, no overflow).  Left out of `get_device_status`:
initialisation and `get_device_info` (Model/Gpu), failures of NVML, running nvidia-smi and reading its XML (whose texts are inputs).
-/
namespace Xoscar.Sizes

abbrev Text := List Char

/-- characters `str.strip()` removes -/
def blank (c : Char) : Bool := c = ' ' || c = '\t' || c = '\n' || c = '\r' || c = '\x0b' || c = '\x0c'

/-- `text.strip()` -/
def strip (s : Text) : Text := ((s.dropWhile blank).reverse.dropWhile blank).reverse

/-- a digit as a number -/
def digit (c : Char) : Nat := c.toNat - 48

/-- digits as a number -/
def number (s : Text) : Nat := s.foldl (fun n c => 10 * n + digit c) 0

/-- `float(text)` without a sign; `none`: ValueError -/
def unsignedFloat (s : Text) : Option Rat :=
  let ds := s.takeWhile (·.isDigit)
  match s.dropWhile (·.isDigit) with
  | [] => if ds = [] then none else some (number ds : Rat)
  | '.' :: fs =>
    if fs.all (·.isDigit) && !(ds = [] && fs = []) then some ((number ds : Rat) + (number fs : Rat) / ((10 ^ fs.length : Nat) : Rat))
    else none
  | _ => none

/-- `float(text)` for a text of digits, `.` and `-` -/
def toFloat : Text → Option Rat
  | '-' :: s => (unsignedFloat s).map fun x => -x
  | s => unsignedFloat s

/-- utils.py:59 `_memory_size_indices`, with `suffix[:1]`; `none`: KeyError -/
def power : Option Char → Option Nat
  | none => some 0
  | some c => if c = 'k' then some 1 else if c = 'm' then some 2 else if c = 'g' then some 3 else if c = 't' then some 4 else none

/-- `value[num_pos] in "0123456789.-"` (utils.py:68) -/
def inNumber (c : Char) : Bool := c.isDigit || c = '.' || c = '-'

/-- utils.py:62-79 `parse_readable_size` of a text: the number, and whether it is a share; `none`: ValueError -/
def parse (v : Text) : Option (Rat × Bool) :=
  let v := (strip v).map Char.toLower
  let value := v.takeWhile inNumber
  let suffix := strip (v.dropWhile inNumber)
  if suffix.getLast? = some '%' then (toFloat value).map fun x => (x / 100, true)
  else match toFloat value, power suffix.head? with
    | some x, some k => some (x * ((1024 ^ k : Nat) : Rat), false)
    | _, _ => none

/-- what NVML says about a device -/
structure Nvml where
  gpuUtil : Nat
  memUtil : Nat
  temperature : Nat
  total : Nat
  free : Nat
  used : Nat

/-- the texts in the XML of nvidia-smi -/
structure Smi where
  total : Text
  free : Text
  used : Text
  gpuUtil : Text
  memUtil : Text
  temperature : Text

structure Status where
  gpuUtil : Int
  memUtil : Int
  temperature : Int
  total : Int
  free : Int
  used : Int
  deriving DecidableEq, Repr

inductive Err where
  | valueError | typeError
  deriving DecidableEq, Repr

/-- `int(parse_readable_size(text)[0])` (nvutils.py:490-492): towards zero -/
def sizeOf (t : Text) : Except Err Int := match parse t with
  | some (x, _) => .ok (if 0 ≤ x then x.floor else x.ceil)
  | none => .error .valueError

/-- `N/A` -/
def na : Text := ['N', '/', 'A']

/-- nvutils.py:495-502: `int(node)` of an XML element, where its text was meant: TypeError -/
def utilOf (t : Text) : Except Err Int := if t = na then .ok 0 else .error .typeError

/-- without its sign -/
def unsign : Text → Text
  | '-' :: r => r
  | '+' :: r => r
  | r => r

/-- `int(text)` of digits and blanks around them, with a sign -/
def intOf (t : Text) : Except Err Int :=
  let s := strip t
  let ds := unsign s
  if ds ≠ [] && ds.all (·.isDigit) then .ok (if s.head? = some '-' then -(number ds : Int) else (number ds : Int)) else .error .valueError

/-- nvutils.py:454-477: NVML -/
def statusNvml (n : Nvml) : Status := ⟨n.gpuUtil, n.memUtil, n.temperature, n.total, n.free, n.used⟩

/-- nvutils.py:478-504: Windows subsystem -/
def statusWsl (s : Smi) : Except Err Status := do
  let total ← sizeOf s.total
  let free ← sizeOf s.free
  let used ← sizeOf s.used
  let gpu ← utilOf s.gpuUtil
  let mem ← utilOf s.memUtil
  let temp ← intOf s.temperature.dropLast
  return ⟨gpu, mem, temp, total, free, used⟩

end Xoscar.Sizes

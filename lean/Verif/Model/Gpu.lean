import Verif.Model.Reach
import Verif.Model.Sizes
/-!
# GPU devices: nvutils.py:246-718

The two libraries (CUDA driver, NVML) are part of the world: what loading them gives and what they answer.  Simplified: handles are device indices;
a library that could be loaded but not initialised fails on every call; `CUDA_VISIBLE_DEVICES` is a text or not set.
-/
namespace Xoscar.Gpu
open Reach (Text pyInt strip str)

/-- what the two queries of the process list (nvutils.py:626-648) meet: an error, or the number of processes at the first and the list at the second -/
inductive View where
  | err
  | ok (first : Nat) (procs : List Nat)
  deriving DecidableEq, Repr

/-- a slot for a MIG device -/
inductive Slot where
  /-- NVML_ERROR_NOT_FOUND -/
  | empty
  | err
  | dev (v : View)
  deriving DecidableEq, Repr

/-- what `nvmlDeviceGetMigMode` says -/
inductive Mig where
  | disabled
  /-- NVML_ERROR_NOT_SUPPORTED -/
  | unsupported
  | err
  | enabled (slots : List Slot)
  deriving DecidableEq, Repr

structure Device where
  uuid : Text
  mig : Mig
  view : View
  deriving DecidableEq, Repr

/-- a library: not there (or there without a driver, 268-272, 303-311), there but not initialised (273-274, 312-313), working -/
inductive Lib where
  | absent | broken | good
  deriving DecidableEq, Repr

/-- what there is at the time of a call -/
structure World where
  nvml : Lib
  cuda : Lib
  devices : List Device
  /-- CUDA_VISIBLE_DEVICES -/
  visible : Option Text
  /-- `cuDeviceGet` and `cuDeviceGetUuid`: the uuid of the device of this number, as CUDA counts -/
  cuDevice : Int → Option Text
  /-- `nvmlSystemGetCudaDriverVersion` -/
  version : Nat

inductive Err where
  | nvml | cuda | typeError | attributeError | valueError | indexError
  /-- what nvidia-smi prints is no XML -/
  | parse
  deriving DecidableEq, Repr

structure Info where
  index : Int
  uuid : Text
  deriving DecidableEq, Repr

/-- the globals of the module in a process (nvutils.py:168-187) -/
structure St where
  pid : Nat
  initPid : Option Nat
  nvml : Lib
  cuda : Lib
  count : Option Nat
  infos : Dict Int Info
  deriving Repr

/-- a process that has just imported the module -/
def fresh (pid : Nat) : St := ⟨pid, none, .absent, .absent, none, []⟩

/-- `os.fork`: the child has a copy of the globals -/
def fork (st : St) (pid : Nat) : St := { st with pid := pid }

/-- `_init_nvml`, 277-314 -/
def initNvml (st : St) (w : World) : St := if st.initPid = some st.pid then st else { st with nvml := w.nvml }

/-- `_init_cp`, 252-274 -/
def initCp (st : St) (w : World) : St := if st.initPid = some st.pid then st else { st with cuda := w.cuda }

/-- `_init`, 317-324 -/
def initAll (st : St) (w : World) : St :=
  let st := initNvml (initCp st w) w
  if st.nvml ≠ .absent ∧ st.cuda ≠ .absent then { st with initPid := some st.pid } else st

/-- `text.split(",")` -/
def commas : Text → List Text
  | [] => [[]]
  | c :: t => match commas t with
    | [] => [[c]]
    | h :: r => if c = ',' then [] :: h :: r else (c :: h) :: r

/-- 337-341 -/
def countVisible (v : Text) : Nat :=
  let d := strip v
  if d = [] ∨ d = ['-', '1'] then 0 else (commas d).length

/-- `get_device_count`, 327-347 -/
def getCount (st : St) (w : World) : St × Except Err (Option Nat) :=
  match st.count with
  | some n => (st, .ok (some n))
  | none =>
    let st := initNvml st w
    match st.nvml with
    | .absent => (st, .ok none)
    | lib => match w.visible with
      | some v => ({ st with count := some (countVisible v) }, .ok (some (countVisible v)))
      | none => match lib with
        | .good => ({ st with count := some w.devices.length }, .ok (some w.devices.length))
        | _ => (st, .error .attributeError)

/-- `[int(s) for s in …split(",")][dev_index]`, 413-416; a negative index counts from the end -/
def realIndex (v : Text) (i : Int) : Except Err Int :=
  match (commas v).mapM pyInt with
  | none => .error .valueError
  | some l =>
    let j := if i < 0 then i + l.length else i
    if 0 ≤ j then match l[j.toNat]? with
      | some x => .ok x
      | none => .error .indexError
    else .error .indexError

/-- `get_device_info`, 384-437 (index and uuid only) -/
def getInfo (st : St) (w : World) (i : Int) : St × Except Err (Option Info) :=
  match st.infos.get? i with
  | some x => (st, .ok (some x))
  | none =>
    let st := initAll st w
    if st.initPid = none then (st, .ok none)
    else match st.cuda with
      | .absent => (st, .error .attributeError)
      | .broken => (st, .error .cuda)
      | .good => match w.cuDevice i with
        | none => (st, .error .cuda)
        | some u =>
          match (match w.visible with | some v => realIndex v i | none => .ok i) with
          | .error e => (st, .error e)
          | .ok r => ({ st with infos := st.infos.set i ⟨r, u⟩ }, .ok (some ⟨r, u⟩))

/-- `get_compute_running_processes`, 619-656 -/
def processes : View → Except Err (List Nat)
  | .err => .error .nvml
  | .ok first procs => if first = 0 then .ok [] else if procs.length ≤ first * 2 + 5 then .ok procs else .error .nvml

/-- `_running_process_matches`, 659-670 -/
def isIn (pid : Nat) (v : View) : Except Err Bool :=
  match processes v with
  | .error e => .error e
  | .ok l => .ok (l.any (· == pid))

/-- the loop over the MIG devices, 692-710 -/
def scanMig (pid : Nat) : Nat → List Slot → Except Err (Option Nat)
  | _, [] => .ok none
  | k, .empty :: t => scanMig pid (k + 1) t
  | _, .err :: _ => .error .nvml
  | k, .dev v :: t => match isIn pid v with
    | .error e => .error e
    | .ok true => .ok (some k)
    | .ok false => scanMig pid (k + 1) t

/-- what `get_cuda_context` finds: device index, MIG index, uuid of the device -/
structure Found where
  index : Nat
  mig : Option Nat
  uuid : Text
  deriving DecidableEq, Repr

/-- the loop over the devices, 680-716 -/
def scan (pid : Nat) : Nat → List Device → Except Err (Option Found)
  | _, [] => .ok none
  | i, d :: t => match d.mig with
    | .err => .error .nvml
    | .enabled slots => match scanMig pid 0 slots with
      | .error e => .error e
      | .ok (some k) => .ok (some ⟨i, some k, d.uuid⟩)
      | .ok none => scan pid (i + 1) t
    | _ => match isIn pid d.view with
      | .error e => .error e
      | .ok true => .ok (some ⟨i, none, d.uuid⟩)
      | .ok false => scan pid (i + 1) t

/-- `get_cuda_context`, 673-718; `range(None)` raises TypeError -/
def getContext (st : St) (w : World) : St × Except Err (Option Found) :=
  let st := initAll st w
  if st.initPid = none then (st, .ok none)
  else match st.nvml with
    | .absent => (st, .error .typeError)
    | .broken => (st, .error .nvml)
    | .good => (st, scan st.pid 0 w.devices)

/-- the device of an uuid -/
def byUuid (u : Text) : Nat → List Device → Option Nat
  | _, [] => none
  | i, d :: t => if d.uuid = u then some i else byUuid u (i + 1) t

/-- `get_index_and_uuid` of a text, 601-616 -/
def indexAndUuid (st : St) (w : World) (t : Text) : St × Except Err (Option (Int × Text)) :=
  let st := initNvml st w
  match st.nvml with
  | .absent => (st, .ok none)
  | .broken => (st, .error .nvml)
  | .good => match pyInt t with
    | some i =>
      if 0 ≤ i then match w.devices[i.toNat]? with
        | some d => (st, .ok (some (i, d.uuid)))
        | none => (st, .error .nvml)
      else (st, .error .nvml)
    | none => match byUuid t 0 w.devices with
      | some i => match w.devices[i]? with
        | some d => (st, .ok (some ((i : Int), d.uuid)))
        | none => (st, .error .nvml)
      | none => (st, .error .nvml)

/-- the text of the CUDA version, 379: `".".join(str(v) for v in divmod(version, 1000))` -/
def versionText (v : Nat) : Text := str (v / 1000) ++ '.' :: str (v % 1000)

/-- what the cards say at the time of a call -/
structure Readings where
  /-- NVML, of the device of this number: utilisation, temperature and memory; `none`: one of the three queries fails -/
  card : Nat → Option Sizes.Nvml
  /-- `nvidia-smi -q --id=… -x`; `none`: no such device, so no XML -/
  smi : Int → Option Sizes.Smi
  /-- `import defusedxml` gives `defusedxml.ElementTree` (only if someone has imported that before) -/
  xml : Bool

/-- 454: `"GPU-" + str(dev_uuid)` -/
def gpuName (u : Text) : Text := 'G' :: 'P' :: 'U' :: '-' :: u

/-- the errors of `parse_readable_size` and `int` -/
def ofSizes : Except Sizes.Err Sizes.Status → Except Err (Option Sizes.Status)
  | .ok s => .ok (some s)
  | .error .valueError => .error .valueError
  | .error .typeError => .error .typeError

/-- 456-513, with the uuid CUDA gave.  Simplified: the three queries at one moment -/
def readStatus (wsl : Bool) (lib : Lib) (w : World) (r : Readings) (i : Int) (u : Text) : Except Err (Option Sizes.Status) :=
  match wsl with
  | true => match r.xml with
    | false => .error .attributeError
    | true => match r.smi i with
      | some s => ofSizes (Sizes.statusWsl s)
      | none => .error .parse
  | false => match lib with
    | .absent => .error .attributeError
    | .broken => .error .nvml
    | .good => match byUuid (gpuName u) 0 w.devices with
      | none => .error .nvml
      | some k => match r.card k with
        | some n => .ok (some (Sizes.statusNvml n))
        | none => .error .nvml

/-- `get_device_status`, 440-513; `None.uuid` is an AttributeError -/
def getStatus (wsl : Bool) (st : St) (w : World) (r : Readings) (i : Int) : St × Except Err (Option Sizes.Status) :=
  let st := initAll st w
  if st.initPid = none then (st, .ok none)
  else
    let a := getInfo st w i
    match a.2 with
    | .error e => (a.1, .error e)
    | .ok none => (a.1, .error .attributeError)
    | .ok (some x) => (a.1, readStatus wsl a.1.nvml w r i x.uuid)

end Xoscar.Gpu

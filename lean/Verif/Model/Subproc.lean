/-
Model of the output handling of commands, /repo/python/xoscar/virtualenv/utils.py: `clean_ansi` (26-31), `stream_reader` (34-44) and
`run_subprocess_with_logger` (47-84).

Bytes and characters are numbers (a character is its code point).
-/
namespace Xoscar.Subproc

/-- A UTF-8 sequence that has been begun: the value so far, the number of bytes that are missing, the range of the next byte.
Models the state of CPython's `bytes.decode`, called at virtualenv/utils.py 41. -/
structure Need where
  acc : Nat
  n : Nat
  lo : Nat
  hi : Nat
deriving DecidableEq, Repr

/-- virtualenv/utils.py 41 (`line.decode(errors="replace")`): what a byte at the start of a character means: a character (U+FFFD for bytes
that begin none) or the first byte of a longer sequence. -/
def start (b : Nat) : Nat ⊕ Need :=
  if b < 0x80 then .inl b
  else if b < 0xC2 then .inl 0xFFFD
  else if b < 0xE0 then .inr ⟨b - 0xC0, 1, 0x80, 0xBF⟩
  else if b = 0xE0 then .inr ⟨0, 2, 0xA0, 0xBF⟩
  else if b = 0xED then .inr ⟨0xD, 2, 0x80, 0x9F⟩
  else if b < 0xF0 then .inr ⟨b - 0xE0, 2, 0x80, 0xBF⟩
  else if b = 0xF0 then .inr ⟨0, 3, 0x90, 0xBF⟩
  else if b < 0xF4 then .inr ⟨b - 0xF0, 3, 0x80, 0xBF⟩
  else if b = 0xF4 then .inr ⟨4, 3, 0x80, 0x8F⟩
  else .inl 0xFFFD

/-- virtualenv/utils.py 41: the decoder from a given state. An incomplete sequence is replaced by one U+FFFD and the byte that broke it is
read afresh. -/
def dec : Option Need → List Nat → List Nat
  | none, [] => []
  | some _, [] => [0xFFFD]
  | none, b :: bs =>
    match start b with
    | .inl c => c :: dec none bs
    | .inr nd => dec (some nd) bs
  | some nd, b :: bs =>
    if nd.lo ≤ b ∧ b ≤ nd.hi then
      if nd.n = 1 then (nd.acc * 64 + (b - 0x80)) :: dec none bs
      else dec (some ⟨nd.acc * 64 + (b - 0x80), nd.n - 1, 0x80, 0xBF⟩) bs
    else
      match start b with
      | .inl c => 0xFFFD :: c :: dec none bs
      | .inr nd' => 0xFFFD :: dec (some nd') bs

/-- virtualenv/utils.py 41: `line.decode(errors="replace")`. -/
def decode (bs : List Nat) : List Nat := dec none bs

/-- virtualenv/utils.py 26: `[0-?]`. -/
def isParam (c : Nat) : Bool := 0x30 ≤ c && c ≤ 0x3F
/-- virtualenv/utils.py 26: the second class, from the space to the slash. -/
def isInter (c : Nat) : Bool := 0x20 ≤ c && c ≤ 0x2F
/-- virtualenv/utils.py 26: `[@-~]`. -/
def isFinal (c : Nat) : Bool := 0x40 ≤ c && c ≤ 0x7E

/-- virtualenv/utils.py 26: the length of the match of the regular expression at the start of a text. The two `*` are greedy; the classes
have no character in common, so going back never finds another match. -/
def escLen : List Nat → Option Nat
  | 0x1B :: 0x5B :: r =>
    let ps := r.takeWhile isParam
    let is := (r.dropWhile isParam).takeWhile isInter
    match (r.dropWhile isParam).dropWhile isInter with
    | f :: _ => if isFinal f then some (ps.length + is.length + 3) else none
    | [] => none
  | _ => none

/-- virtualenv/utils.py 31 (`ansi_escape.sub("", text)`): matches are taken from left to right without overlapping; the number is how many
characters of the current match are still to be passed over. -/
def subGo : Nat → List Nat → List Nat
  | _, [] => []
  | k + 1, _ :: cs => subGo k cs
  | 0, c :: cs =>
    match escLen (c :: cs) with
    | some n => subGo (n - 1) cs
    | none => c :: subGo 0 cs

/-- virtualenv/utils.py 29-31. -/
def cleanAnsi (s : List Nat) : List Nat := subGo 0 s

/-- virtualenv/utils.py 44: `decoded.rstrip("\n")`. -/
def rstripNl (s : List Nat) : List Nat := (s.reverse.dropWhile (· == 10)).reverse

/-- virtualenv/utils.py 40 (`stream.readline`): up to and including the first newline, or all that is left at the end of the stream; and
what remains. -/
def readline : List Nat → List Nat × List Nat
  | [] => ([], [])
  | b :: bs => if b = 10 then ([b], bs) else (b :: (readline bs).1, (readline bs).2)

/-- One of the two reader threads, virtualenv/utils.py 69-76. -/
inductive Status where
  | running
  /-- it met the end of the stream -/
  | ended
  /-- `output_stream.write` raised in it -/
  | failed
deriving DecidableEq, Repr

/-- One output stream of the command with its reader. `sent` is what has been written to it by the command (for the specification). -/
structure Stream where
  sent : List Nat := []
  /-- bytes in the operating system's pipe -/
  pipe : List Nat := []
  /-- bytes in the buffer of `process.stdout` / `process.stderr` -/
  buf : List Nat := []
  /-- the pieces written to `sys.stdout` / `sys.stderr` -/
  term : List (List Nat) := []
  /-- the log messages -/
  log : List (List Nat) := []
  status : Status := .running
deriving DecidableEq, Repr

/-- Where the `with` statement is, virtualenv/utils.py 78-84. `raised`: the body raised. -/
inductive Pc where
  | body
  | waiting (raised : Bool)
  | joinOut (raised : Bool)
  | joinErr (raised : Bool)
  | done (raised : Bool)
deriving DecidableEq, Repr

/-- `script`: the bytes the command will still write, with the stream (`false` = stdout, `true` = stderr). `heir`: the same for a process
that the command left behind with its output streams (`none`: there is none, or it has ended). -/
structure St where
  script : List (Bool × Nat)
  exited : Bool := false
  heir : Option (List (Bool × Nat)) := none
  out : Stream := {}
  err : Stream := {}
  pc : Pc := .body
deriving DecidableEq, Repr

/-- Capacity of a pipe, and the texts `sys.stdout.write` / `sys.stderr.write` refuses (for example because the encoding of the terminal
lacks a character). -/
structure Env where
  cap : Nat
  bad : List Nat → Bool

def St.get (st : St) : Bool → Stream
  | false => st.out
  | true => st.err

def St.put (st : St) : Bool → Stream → St
  | false, x => { st with out := x }
  | true, x => { st with err := x }

/-- virtualenv/utils.py 41-44: one line, decoded, written, logged. -/
def Stream.emit (e : Env) (x : Stream) : Stream :=
  if e.bad (decode (readline x.buf).1) then { x with status := .failed }
  else { x with
    buf := (readline x.buf).2
    term := x.term ++ [decode (readline x.buf).1]
    log := x.log ++ [cleanAnsi (rstripNl (decode (readline x.buf).1))] }

inductive Label where
  | write
  | exit
  | heirWrite
  | heirExit
  | fetch (s : Bool) (n : Nat)
  | line (s : Bool)
  | stop (s : Bool)
  | leave (raised : Bool)
  | wait
  | join
deriving DecidableEq, Repr

/-- A byte written into the pipe. -/
def Stream.accept (x : Stream) (b : Nat) : Stream := { x with sent := x.sent ++ [b], pipe := x.pipe ++ [b] }

/-- The end of the stream is only seen when every process that could write to it has ended. -/
def St.eof (st : St) : Bool := st.exited && st.heir.isNone

/-- virtualenv/utils.py 57-84: one step of the command, of a process it left behind, of a reader thread or of the caller. Left out: the
command starting, `cwd`, `env`, errors of the operating system. A write of many bytes is many steps. -/
def step (e : Env) (st : St) : Label → Option St
  | .write =>
    match st.script with
    | [] => none
    | (s, b) :: rest =>
      if (st.get s).pipe.length < e.cap then some ({ st with script := rest }.put s ((st.get s).accept b)) else none
  | .exit => if st.script = [] ∧ st.exited = false then some { st with exited := true } else none
  | .heirWrite =>
    match st.heir with
    | some ((s, b) :: rest) =>
      if (st.get s).pipe.length < e.cap then some ({ st with heir := some rest }.put s ((st.get s).accept b)) else none
    | _ => none
  | .heirExit => if st.heir = some [] then some { st with heir := none } else none
  | .fetch s n =>
    if (st.get s).status = .running ∧ 0 < n ∧ n ≤ (st.get s).pipe.length then
      some (st.put s { st.get s with buf := (st.get s).buf ++ (st.get s).pipe.take n, pipe := (st.get s).pipe.drop n })
    else none
  | .line s =>
    if (st.get s).status = .running ∧ (10 ∈ (st.get s).buf ∨ ((st.get s).buf ≠ [] ∧ (st.get s).pipe = [] ∧ st.eof = true)) then
      some (st.put s ((st.get s).emit e))
    else none
  | .stop s =>
    if (st.get s).status = .running ∧ (st.get s).buf = [] ∧ (st.get s).pipe = [] ∧ st.eof = true then
      some (st.put s { st.get s with status := .ended })
    else none
  | .leave r => if st.pc = .body then some { st with pc := .waiting r } else none
  | .wait =>
    match st.pc with
    | .waiting r => if st.exited then some { st with pc := .joinOut r } else none
    | _ => none
  | .join =>
    match st.pc with
    | .joinOut r => if st.out.status ≠ .running then some { st with pc := .joinErr r } else none
    | .joinErr r => if st.err.status ≠ .running then some { st with pc := .done r } else none
    | _ => none

/-- virtualenv/utils.py 57-77: the command has been started and so have the readers. -/
def init (script : List (Bool × Nat)) (heir : Option (List (Bool × Nat))) : St := { script := script, heir := heir }

end Xoscar.Subproc

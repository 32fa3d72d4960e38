import Verif.Model.Base
/-!
# Metrics (metrics/api.py:38-204, metrics/backends/metric.py, console/console_metric.py, prometheus/prometheus_metric.py)

Values are integers (simplified: no floats); rates and means are kept as fractions; times are in nanoseconds.
-/
namespace Xoscar.Metric

abbrev Str := List Char
/-- a dict of tags -/
abbrev Tags := Dict Str Str

inductive Kind where
  | counter | gauge | meter | histogram
  deriving DecidableEq, Repr

inductive Backend where
  | console | prometheus
  deriving DecidableEq, Repr

/-- what `_record` is given: a number, `count / past`, or `sum / len` -/
inductive Report where
  | value (n : Int)
  | rate (count : Int) (past : Nat)
  | mean (sum : Int) (n : Nat)
  deriving DecidableEq, Repr

/-- `_THRESHOLD`, `_RECORDED_INTERVAL_SECS` (metric.py 21-22) -/
def threshold : Nat := 2000
def interval : Nat := 1000000000

/-- a metric of a backend -/
structure Inner where
  kind : Kind
  backend : Backend
  /-- the prometheus name -/
  name : Str
  tagKeys : List Str
  /-- `_count` of counter and meter -/
  count : Int := 0
  /-- `_data` of the histogram -/
  data : List Int := []
  last : Nat
  /-- `self._metric` is not None (prometheus) -/
  exported : Bool
  /-- `SimpleMetric._value` (console) -/
  shown : Report := .value 0
  deriving DecidableEq, Repr

/-- what record calls leave outside: the series of the prometheus registry -/
abbrev Series := Dict (Str × Tags) Report

/-- labels every prometheus series gets (prometheus_metric.py 38-42) -/
structure Host where
  host : Str
  pid : Str
  deriving DecidableEq, Repr

def hostKey : Str := "host".toList
def pidKey : Str := "pid".toList

def Host.tags (h : Host) : Tags := [(hostKey, h.host), (pidKey, h.pid)]

/-- the arguments of `labels(**tags)`: the caller's tags updated with host and pid (prometheus_metric.py 50-54) -/
def labels (h : Host) : Option Tags → Tags
  | none => h.tags
  | some t => t.update h.tags

/-- `labels` raises ValueError unless the names are those of the metric -/
def labelsOk (i : Inner) (t : Tags) : Bool :=
  decide ((∀ k ∈ t.keys, k ∈ i.tagKeys) ∧ ∀ k ∈ i.tagKeys, k ∈ t.keys)

/-- `_record` (console_metric.py 72-73, prometheus_metric.py 48-54); `none`: raises -/
def emit (h : Host) (i : Inner) (s : Series) (r : Report) (tags : Option Tags) : Option (Inner × Series) :=
  match i.backend with
  | .console => some ({ i with shown := r }, s)
  | .prometheus =>
    if i.exported then
      if labelsOk i (labels h tags) then some (i, s.set (i.name, labels h tags) r) else none
    else some (i, s)

/-- one call `record(value, tags)` at time `now` -/
structure Call where
  value : Int
  tags : Option Tags
  now : Nat
  deriving DecidableEq, Repr

structure Outcome where
  inner : Inner
  series : Series
  /-- the report handed to the backend -/
  report : Option Report
  raised : Bool
  deriving DecidableEq, Repr

/-- what of the metric is reset after a report -/
def afterwards (r : Report) (tags : Option Tags) (h : Host) (i : Inner) (s : Series) (reset : Inner → Inner) : Outcome :=
  match emit h i s r tags with
  | none => ⟨i, s, some r, true⟩
  | some (i', s') => ⟨reset i', s', some r, false⟩

/-- `record` (metric.py 84-86, 97-98, 112-123, 141-152) -/
def record (h : Host) (i : Inner) (s : Series) (c : Call) : Outcome :=
  match i.kind with
  | .counter => afterwards (.value (i.count + c.value)) c.tags h { i with count := i.count + c.value } s id
  | .gauge => afterwards (.value c.value) c.tags h i s id
  | .meter =>
    let i := { i with count := i.count + c.value }
    let past := max (c.now - i.last) 1
    if i.count ≥ (threshold : Int) ∨ past ≥ interval then
      afterwards (.rate i.count past) c.tags h i s (fun i => { i with last := c.now, count := 0 })
    else ⟨i, s, none, false⟩
  | .histogram =>
    let i := { i with data := i.data ++ [c.value] }
    if i.data.length ≥ threshold ∨ c.now - i.last ≥ interval then
      afterwards (.mean i.data.sum i.data.length) c.tags h i s (fun i => { i with data := [], last := c.now })
    else ⟨i, s, none, false⟩

/-- the caller's dict after the call: `tags.update(self._tags)` changes it in place (prometheus_metric.py 50-51) -/
def tagsAfter (h : Host) (i : Inner) (o : Outcome) (t : Tags) : Tags :=
  match i.backend with
  | .console => t
  | .prometheus => if i.exported ∧ o.report ≠ none then t.update h.tags else t

/-! ## The module state (api.py) -/

/-- what `Metrics.counter` … return: a metric, or a `_MetricWrapper` -/
structure Handle where
  kind : Kind
  name : Str
  tagKeys : List Str
  wrapper : Bool
  inner : Option Inner
  deriving DecidableEq, Repr

structure St where
  init : Bool := false
  backend : Backend := .console
  handles : List Handle := []
  /-- names registered with prometheus -/
  registered : List Str := []
  series : Series := []
  deriving DecidableEq, Repr

/-- "." becomes ":" (prometheus_metric.py 37) -/
def promName (s : Str) : Str := s.map (fun c => if c = '.' then ':' else c)

/-- a metric of the backend, and the names registered after it; a name that is taken raises ValueError, which leaves the metric
without an exporter (prometheus_metric.py 43-46) -/
def make (st : St) (kind : Kind) (name : Str) (tagKeys : List Str) (now : Nat) : Inner × List Str :=
  match st.backend with
  | .console => ({ kind, backend := .console, name, tagKeys, last := now, exported := false }, st.registered)
  | .prometheus =>
    if promName name ∈ st.registered then
      ({ kind, backend := .prometheus, name := promName name, tagKeys := tagKeys ++ [hostKey, pidKey], last := now, exported := false },
        st.registered)
    else
      ({ kind, backend := .prometheus, name := promName name, tagKeys := tagKeys ++ [hostKey, pidKey], last := now, exported := true },
        st.registered ++ [promName name])

/-- one wrapper of the loop of `init_metrics` (api.py 69-72) -/
def initHandle (st : St) (now : Nat) (h : Handle) : Handle × List Str :=
  if h.wrapper then
    ({ h with inner := some (make st h.kind h.name h.tagKeys now).1 }, (make st h.kind h.name h.tagKeys now).2)
  else (h, st.registered)

/-- the loop -/
def initAll (st : St) (now : Nat) : List Handle → List Handle × List Str
  | [] => ([], st.registered)
  | h :: hs =>
    let (h', reg) := initHandle st now h
    let (hs', reg') := initAll { st with registered := reg } now hs
    (h' :: hs', reg')

/-- a name of a backend: `none` is any other text -/
abbrev BackendArg := Option Backend

inductive Ev where
  | init (b : BackendArg) (now : Nat)
  | shutdown
  | create (kind : Kind) (name : Str) (tagKeys : List Str) (now : Nat)
  | record (handle : Nat) (c : Call)
  deriving DecidableEq, Repr

/-- the state after an event, and whether it raised -/
def step (host : Host) (st : St) : Ev → St × Bool
  | .init b now =>
    if st.init then (st, false)
    else match b with
      | none => (st, true)
      | some b =>
        let st := { st with init := true, backend := b }
        let (hs, reg) := initAll st now st.handles
        ({ st with handles := hs, registered := reg }, false)
  | .shutdown => ({ st with init := false, backend := .console }, false)
  | .create kind name tagKeys now =>
    if st.init then
      let (i, reg) := make st kind name tagKeys now
      ({ st with handles := st.handles ++ [⟨kind, name, tagKeys, false, some i⟩], registered := reg }, false)
    else ({ st with handles := st.handles ++ [⟨kind, name, tagKeys, true, none⟩] }, false)
  | .record n c =>
    match st.handles[n]? with
    | none => (st, false)
    | some h => match h.inner with
      -- a warning only (api.py 113-117)
      | none => (st, false)
      | some i =>
        let o := record host i st.series c
        ({ st with handles := st.handles.set n { h with inner := some o.inner }, series := o.series }, o.raised)

def run (host : Host) (st : St) : List Ev → St
  | [] => st
  | e :: es => run host (step host st e).1 es

/-- `handle.value` -/
def valueOf (st : St) (n : Nat) : Option Report := match st.handles[n]? with
  | none => none
  | some h => h.inner.map (·.shown)

end Xoscar.Metric

import Verif.Model.Metric
/-!
# What metrics should report

Histories of calls only; of the model the types `Call`, `Report`, `Ev` and the handles' numbers are used.
-/
namespace Xoscar.Metric

def total (cs : List Call) : Int := (cs.map (·.value)).sum

/-- the calls of `record` on handle `n` -/
def callsOn (n : Nat) : List Ev → List Call
  | [] => []
  | .record m c :: es => if m = n then c :: callsOn n es else callsOn n es
  | _ :: es => callsOn n es

/-- the running totals -/
def totals (start : Int) : List Call → List Report
  | [] => []
  | c :: cs => .value (start + c.value) :: totals (start + c.value) cs

/-- the events counted by rates -/
def rateCount : Report → Int
  | .rate c _ => c
  | _ => 0

/-- the time covered by rates -/
def rateTime : Report → Nat
  | .rate _ t => t
  | _ => 0

/-- times after `t`, each later than the one before -/
def Later (t : Nat) : List Call → Prop
  | [] => True
  | c :: cs => t < c.now ∧ Later c.now cs

/-- the mean of a window of values -/
def meanOf (w : List Int) : Report := .mean w.sum w.length

/-- a call with these labels: the caller's tags, with host and pid -/
def SameTags (t : Option Tags) (cs : List Call) : Prop := ∀ c ∈ cs, c.tags = t

/-- the metric after calls, the series, the reports -/
def recordAll (h : Host) (i : Inner) (s : Series) : List Call → Inner × Series × List Report
  | [] => (i, s, [])
  | c :: cs =>
    let o := record h i s c
    let r := recordAll h o.inner o.series cs
    (r.1, r.2.1, o.report.toList ++ r.2.2)

/-- a fresh metric as asked for: nothing counted yet, time starts now -/
structure Fresh (i : Inner) (kind : Kind) (now : Nat) : Prop where
  kind : i.kind = kind
  count : i.count = 0
  data : i.data = []
  last : i.last = now
  shown : i.shown = .value 0

end Xoscar.Metric

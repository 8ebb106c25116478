import Verif.Model.Issuers
/-!
Statistics: go/telemetry/telemetry.go and the in-memory sink of hashicorp/go-metrics that it prints. The programs only set gauges and count, without labels (go/cmd/ct-fetch/ct-fetch.go:129, 171, go/cmd/ct-fetch/rfc6962.go:287, 662), so points, samples
and `flattenLabels` (telemetry.go:90-101) are left out. Times are nanoseconds since Go's zero time, numbers that are measured are naturals.
-/
namespace Verif

/-- `SetGauge(name, value)` or `IncrCounter(name, value)`. -/
structure Measure where
  gauge : Bool
  name : Text
  value : Nat
deriving DecidableEq

/-- `metrics.IntervalMetrics`: the beginning, in periods, the gauges, and for each counter how often and by how much it was increased. -/
structure Period where
  start : Nat
  gauges : List (Text × Nat)
  counters : List (Text × (Nat × Nat))
deriving DecidableEq

/-- `AggregateSample.Ingest` of the library: count and sum. -/
def ingest : Option (Nat × Nat) → Nat → Nat × Nat
  | none, v => (1, v)
  | some (n, s), v => (n + 1, s + v)

/-- `SetGauge` and `IncrCounter` of the library's `InmemSink`, for one interval. -/
def Period.add (i : Period) (m : Measure) : Period :=
  if m.gauge then { i with gauges := assocPut i.gauges m.name m.value }
  else { i with counters := assocPut i.counters m.name (ingest (assocGet i.counters m.name) m.value) }

/-- The last `n` elements. -/
def lastOf {α : Type} (n : Nat) (l : List α) : List α := l.drop (l.length - n)

/-- How many intervals the sink keeps: `NewInmemSink(period, 5*period)` (go/engine/engine.go:73) has retain / interval. -/
def keptPeriods : Nat := 5

/-- `InmemSink.getInterval` of the library: the interval of now is the last one; if it is new, it is appended, and the oldest beyond the number kept is dropped. -/
def atPeriod (k : Nat) (l : List Period) : List Period :=
  if l.getLast?.map Period.start = some k then l else lastOf keptPeriods (l ++ [⟨k, [], []⟩])

/-- The measurement goes into the last interval. -/
def addLast (m : Measure) (l : List Period) : List Period :=
  match l.getLast? with
  | none => l
  | some i => l.dropLast ++ [i.add m]

/-- The sink and what was printed so far, one list for each call of `dumpStats`. -/
structure Stats where
  periods : List Period
  printed : List (List Period)
deriving DecidableEq

def Stats.init : Stats := ⟨[], []⟩

/-- A measurement, or the tick that makes `run` call `dumpStats` (telemetry.go:37-46), with its time. -/
inductive StatsEvent
  | measure (t : Nat) (m : Measure)
  | tick (t : Nat)
deriving DecidableEq

def StatsEvent.time : StatsEvent → Nat
  | .measure t _ => t
  | .tick t => t

/-- One event; `p` is the period. `dumpStats` (telemetry.go:54-87) gets all intervals, for which the library first makes the current one, and prints all but the last. `Stop` (telemetry.go:48-51) is called by no program. -/
def Stats.step (p : Nat) (s : Stats) : StatsEvent → Stats
  | .measure t m => { s with periods := addLast m (atPeriod (t / p) s.periods) }
  | .tick t => ⟨atPeriod (t / p) s.periods, s.printed ++ [(atPeriod (t / p) s.periods).dropLast]⟩

def Stats.run (p : Nat) (h : List StatsEvent) : Stats := h.foldl (Stats.step p) Stats.init

end Verif

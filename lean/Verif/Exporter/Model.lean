/-
The export stage: batching loop, encoder and transport calls, and the transports.
Source: /repo/core/exporter/exporter.go, /repo/core/exporter/transports/*.go
-/
namespace Verif.Exporter

/-- An encoder (`Encode`, encoder.go:29-33): `none` is a non-nil error. The buffers that the encoders reuse
between calls (`t.batch[:0]`) are not observable because every use of the result precedes the next call. -/
structure Codec (R D : Type) where
  encode : List R → Option (List D)

/-- A transport (`Export`, protocol.go:26-31) with an internal state; the result is `true` for a nil error. -/
structure Transport (S D : Type) where
  send : S → List D → S × Bool

/-- What the loop of `Process` selects on (exporter.go:131-158), with the clock readings made while handling it:
`now` is the reading of `time.Since`, `after` the one of `lastFlush = time.Now()`. -/
inductive Ev (R : Type) where
  | recv (r : R) (after : Int)
  | close
  | tick (now after : Int)

/-- Exporter state (exporter.go:44-50, 122-125); `tr` is the state of the transport. `batches` and `calls` record
the arguments of the `Encode` and `Export` calls made so far (with the results of the latter). -/
structure State (S R D : Type) where
  recs : List R
  counter : Int
  lastFlush : Int
  running : Bool
  tr : S
  batches : List (List R)
  calls : List (List D × Bool)

/-- State before the loop (exporter.go:122-129). -/
def init {S R D : Type} (tr : S) (start : Int) : State S R D := ⟨[], 0, start, true, tr, [], []⟩

/-- `maxIdle` (exporter.go:122), in nanoseconds. -/
def maxIdle : Int := 1000000000

/-- `process` (exporter.go:162-176). Errors are logged only. -/
def process {S R D : Type} (C : Codec R D) (T : Transport S D) (s : State S R D) : State S R D :=
  match C.encode s.recs with
  | none => { s with batches := s.batches ++ [s.recs] }
  | some data =>
    if data.length > 0 then
      let r := T.send s.tr data
      { s with batches := s.batches ++ [s.recs], tr := r.1, calls := s.calls ++ [(data, r.2)] }
    else { s with batches := s.batches ++ [s.recs] }

/-- Clearing the buffer after a flush (exporter.go:138-140, 154-156). -/
def clear {S R D : Type} (s : State S R D) (t : Int) : State S R D := { s with recs := [], counter := 0, lastFlush := t }

/-- One iteration of the loop (exporter.go:130-159); `eb` is `config.EventBuffer`. After the break nothing happens. -/
def step {S R D : Type} (C : Codec R D) (T : Transport S D) (eb : Int) (s : State S R D) (e : Ev R) : State S R D :=
  if s.running then
    match e with
    | .recv r after =>
      let s' := { s with counter := s.counter + 1, recs := s.recs ++ [r] }
      if s'.counter ≥ eb then clear (process C T s') after else s'
    | .close =>
      if s.counter > 0 then { process C T s with running := false } else { s with running := false }
    | .tick now after =>
      if now - s.lastFlush > maxIdle ∧ s.counter > 0 then clear (process C T s) after else s
  else s

/-- The loop over a history of events. -/
def run {S R D : Type} (C : Codec R D) (T : Transport S D) (eb : Int) (s : State S R D) : List (Ev R) → State S R D
  | [] => s
  | e :: es => run C T eb (step C T eb s e) es

/-! ### Encoders -/

/-- `OtelEncoder.Encode` (otel.go:54-62): records that fail to encode are skipped. -/
def perRecord {R D : Type} (f : R → Option D) : Codec R D := ⟨fun rs => some (rs.filterMap f)⟩

/-- `JSONEncoder.Encode` (json.go:65-75): the first record that fails to encode makes the batch fail. -/
def allOrNone {R D : Type} (f : R → Option D) : Codec R D := ⟨fun rs => rs.mapM f⟩

/-- `ECSEncoder.Encode` (ecs.go:95-102): encoding a record cannot fail. -/
def total {R D : Type} (f : R → D) : Codec R D := ⟨fun rs => some (rs.map f)⟩

/-! ### Transports -/

abbrev Bytes := List UInt8

/-- `commons.EncodedData` as the transports see it: a byte slice; another value that `json.Marshal` renders; or one
that it rejects and `fmt` prints. -/
inductive Datum where
  | bytes (b : Bytes)
  | obj (json : Bytes)
  | odd (printed : Bytes)
deriving DecidableEq, Repr

/-- The text written for a datum (file.go:53-66, terminal.go:47-54). -/
def Datum.text : Datum → Bytes
  | .bytes b => b
  | .obj j => j
  | .odd p => p

def newline : UInt8 := 10

/-- An `os.File` opened for appending: contents and number of `Write` calls made. -/
structure OutFile where
  contents : Bytes
  writes : Nat

/-- `Write`/`WriteString`: the i-th call writes everything (`none`) or fails after `k` bytes (`some k`), as the
operating system `os` decides. -/
def OutFile.write (os : Nat → Option Nat) (f : OutFile) (b : Bytes) : OutFile × Bool :=
  match os f.writes with
  | none => (⟨f.contents ++ b, f.writes + 1⟩, true)
  | some k => (⟨f.contents ++ b.take k, f.writes + 1⟩, false)

/-- `TextFileProto.Export` (file.go:51-70). Note that the error of writing the newline is ignored for the first two
cases, and that the third writes text and newline in one call. -/
def fileExport (os : Nat → Option Nat) : OutFile → List Datum → OutFile × Bool
  | f, [] => (f, true)
  | f, .odd p :: ds =>
    let r := f.write os (p ++ [newline])
    if r.2 then fileExport os r.1 ds else (r.1, false)
  | f, .bytes b :: ds =>
    let r := f.write os b
    if r.2 then fileExport os (r.1.write os [newline]).1 ds else (r.1, false)
  | f, .obj j :: ds =>
    let r := f.write os j
    if r.2 then fileExport os (r.1.write os [newline]).1 ds else (r.1, false)

/-- `TextFileProto` (file.go:32-82). -/
def fileTransport (os : Nat → Option Nat) : Transport OutFile Datum := ⟨fileExport os⟩

/-- `TextFileProto.Init` (file.go:43-48) when the file can be opened: an empty file (a previous one is removed). -/
def newFile : OutFile := ⟨[], 0⟩

/-- `TerminalProto.Export` (terminal.go:45-56): the state is what has been printed. -/
def terminal : Transport Bytes Datum :=
  ⟨fun out ds => (out ++ ds.flatMap (fun d => d.text ++ [newline]), true)⟩

/-- `NullProto.Export` (null.go:41-43). -/
def null : Transport Unit Datum := ⟨fun _ _ => ((), true)⟩

/-- `SyslogProto.Export` (syslog.go:67-82): the state is the list of messages sent so far and the number of attempts;
`ok i` tells whether the i-th `Alert` succeeds. -/
def syslogExport (ok : Nat → Bool) : List Bytes × Nat → List Datum → (List Bytes × Nat) × Bool
  | s, [] => (s, true)
  | s, .odd _ :: _ => (s, false)
  | s, .bytes b :: ds => if ok s.2 then syslogExport ok (s.1 ++ [b], s.2 + 1) ds else ((s.1, s.2 + 1), false)
  | s, .obj b :: ds => if ok s.2 then syslogExport ok (s.1 ++ [b], s.2 + 1) ds else ((s.1, s.2 + 1), false)

def syslog (ok : Nat → Bool) : Transport (List Bytes × Nat) Datum := ⟨syslogExport ok⟩

/-- `KafkaProto.Export` (kafka.go:57-75): byte slices are produced, failures logged, other data skipped. -/
def kafkaExport (ok : Nat → Bool) : List Bytes × Nat → List Datum → (List Bytes × Nat)
  | s, [] => s
  | s, .bytes b :: ds => kafkaExport ok (if ok s.2 then s.1 ++ [b] else s.1, s.2 + 1) ds
  | s, .obj _ :: ds => kafkaExport ok s ds
  | s, .odd _ :: ds => kafkaExport ok s ds

def kafka (ok : Nat → Bool) : Transport (List Bytes × Nat) Datum := ⟨fun s ds => (kafkaExport ok s ds, true)⟩

end Verif.Exporter

import Verif.Base.AMap
/-
The drivers as programs over the environment's answers; a run is the trace of their visible actions.
Sources: /repo/driver/sysflow/filedriver.go, /repo/driver/sysflow/streamingdriver.go, /repo/driver/otel/filedriver.go,
/repo/driver/otel/kafkadriver.go
-/
namespace Verif.Pipeline

/-- Visible actions of a driver: reading the `running` flag, sending a record to its channel, closing the channel, waiting
for the pipeline (`pipeline.Wait`), and returning (with or without an error). -/
inductive DAct (R : Type) where
  | check (b : Bool)
  | send (r : R)
  | close
  | wait
  | ret (err : Bool)
deriving DecidableEq, Repr

/-! ### `getFiles` -/

/-- What the path given to a driver is (filedriver.go:43-63, `os.Stat`, `os.ReadDir`): missing, something whose status cannot be read
for another reason (e.g. a directory above it that may not be searched, or a file where a directory should be), a plain file, a directory with
its entries in the order of `os.ReadDir`, or a directory that cannot be read. -/
inductive PathKind (N : Type) where
  | missing
  | noStat
  | file
  | dir (entries : List N)
  | unreadable

/-- `getFiles` (sysflow/filedriver.go:42-67, otel/filedriver.go:41-65): outer `none` is a panic (after an error other than "does not exist"
the nil result of `os.Stat` is used), inner `none` an error; `here` is the path itself and `sub` the path of an entry of the directory. -/
def getFiles {N P : Type} (here : P) (sub : N → P) : PathKind N → Option (Option (List P))
  | .missing => some none
  | .noStat => none
  | .file => some (some [here])
  | .dir es => if es = [] then some none else some (some (es.map sub))
  | .unreadable => some none

/-! ### SysFlow file driver -/

/-- What a datum read from an Avro container file yields (filedriver.go:151-160). -/
inductive Item (R : Type) where
  | record (r : R)
  | bad
deriving DecidableEq, Repr

/-- What opening a file yields (filedriver.go:140-150): an error of `os.Open` or of the Avro reader, or the items that `Scan`
goes through. -/
inductive FileData (R : Type) where
  | noOpen
  | data (items : List (Item R))
deriving DecidableEq, Repr

/-- The loop over one file (filedriver.go:151-170); `run k` is the value of `*running` at the `k`-th time it is read. Result:
actions and the number of readings so far. -/
def fileItems {R : Type} (run : Nat → Bool) : Nat → List (Item R) → List (DAct R) × Nat
  | k, [] => ([], k)
  | k, it :: its =>
    if run k = false then ([.check false], k + 1)
    else
      match it with
      | .bad => ([.check true], k + 1)
      | .record r => (.check true :: .send r :: (fileItems run (k + 1) its).1, (fileItems run (k + 1) its).2)

/-- The loop over the files and the rest of `Run` (filedriver.go:138-180). -/
def fileLoop {R : Type} (run : Nat → Bool) : Nat → List (FileData R) → List (DAct R)
  | _, [] => [.close, .wait, .ret false]
  | _, .noOpen :: _ => [.ret true]
  | k, .data its :: fs =>
    let r := fileItems run k its
    if run r.2 = false then r.1 ++ [.check false, .close, .wait, .ret false]
    else r.1 ++ .check true :: fileLoop run (r.2 + 1) fs

/-- `FileDriver.Run` (sysflow/filedriver.go:107-181) once its channel has been found; `fs = none`: `getFiles` failed. -/
def fileDriver {R : Type} (run : Nat → Bool) : Option (List (FileData R)) → List (DAct R)
  | none => [.ret true]
  | some fs => fileLoop run 0 fs

/-! ### OTel file driver -/

/-- A pointer to a record. -/
abbrev Ptr := Nat

/-- Actions with memory: decoding writes an object; a pointer is sent. -/
inductive MAct (R : Type) where
  | write (p : Ptr) (r : R)
  | send (p : Ptr)
  | check (b : Bool)
  | close
  | wait
  | ret (err : Bool)
deriving DecidableEq, Repr

/-- Memory: the objects allocated so far, by pointer. -/
abbrev Mem (R : Type) := List R

/-- `json.Unmarshal` of an array into the slice variable `otpLogs` (otel/filedriver.go:111, 124; Go library
encoding/json, `decodeState.array`): element `i` is decoded into the object already pointed to by slot `i` of the slice's
backing array if there is one, otherwise into a new object. `dec j old` is the object after decoding the value `j` into an
object with contents `old`; `zero` is a new object. Arguments: slots still to reuse, memory. Result: the pointers of the
slice, the slots afterwards, the memory, and the writes. -/
def unmarshal {J R : Type} (dec : J → R → R) (zero : R) : List Ptr → Mem R → List J → List Ptr × List Ptr × Mem R × List (MAct R)
  | slots, m, [] => ([], slots, m, [])
  | [], m, j :: js =>
    let p := m.length
    let r := dec j zero
    let t := unmarshal dec zero [] (m ++ [r]) js
    (p :: t.1, p :: t.2.1, t.2.2.1, .write p r :: t.2.2.2)
  | p :: slots, m, j :: js =>
    let r := dec j (m.getD p zero)
    let t := unmarshal dec zero slots (m.set p r) js
    (p :: t.1, p :: t.2.1, t.2.2.1, .write p r :: t.2.2.2)

/-- The loop over the decoded records (otel/filedriver.go:129-134). -/
def sendPtrs {R : Type} (run : Nat → Bool) : Nat → List Ptr → List (MAct R) × Nat
  | k, [] => ([], k)
  | k, p :: ps =>
    if run k = false then ([.check false], k + 1)
    else (.check true :: .send p :: (sendPtrs run (k + 1) ps).1, (sendPtrs (R := R) run (k + 1) ps).2)

/-- The loop over the files (otel/filedriver.go:112-145); `none`: the file cannot be opened, read or decoded. -/
def otelLoop {J R : Type} (dec : J → R → R) (zero : R) (run : Nat → Bool) : Nat → List Ptr → Mem R → List (Option (List J)) → List (MAct R)
  | _, _, _, [] => [.close, .wait, .ret false]
  | _, _, _, none :: _ => [.ret true]
  | k, slots, m, some js :: fs =>
    let t := unmarshal dec zero slots m js
    let r := sendPtrs (R := R) run k t.1
    if run r.2 = false then t.2.2.2 ++ r.1 ++ [.check false, .close, .wait, .ret false]
    else t.2.2.2 ++ r.1 ++ .check true :: otelLoop dec zero run (r.2 + 1) t.2.1 t.2.2.1 fs

/-- `FileDriver.Run` of the OTel driver (otel/filedriver.go:95-146). -/
def otelFileDriver {J R : Type} (dec : J → R → R) (zero : R) (run : Nat → Bool) : Option (List (Option (List J))) → List (MAct R)
  | none => [.ret true]
  | some fs => otelLoop dec zero run 0 [] [] fs

/-! ### Streaming driver -/

/-- A read from a connection (streamingdriver.go:136-145): an error, or a message that decodes completely or only partly (the
deserialization error is logged and the partly filled record is used). -/
inductive Msg (R : Type) where
  | fail
  | good (r : R)
  | partly (r : R)
deriving DecidableEq, Repr

/-- The inner loop (streamingdriver.go:134-151) over the messages of a connection; a connection whose messages are used up
blocks for ever, which is no behaviour here, so the list is read as ending with a read error. -/
def streamConn {R : Type} (run : Nat → Bool) : Nat → List (Msg R) → List (DAct R) × Nat
  | k, [] => if run k = false then ([.check false], k + 1) else ([.check true], k + 1)
  | k, m :: ms =>
    if run k = false then ([.check false], k + 1)
    else
      match m with
      | .fail => ([.check true], k + 1)
      | .good r => (.check true :: .send r :: (streamConn run (k + 1) ms).1, (streamConn run (k + 1) ms).2)
      | .partly r => (.check true :: .send r :: (streamConn run (k + 1) ms).1, (streamConn run (k + 1) ms).2)

/-- The accept loop (streamingdriver.go:123-157): the connections accepted one after the other, then `Accept` fails. -/
def streamLoop {R : Type} (run : Nat → Bool) : Nat → List (List (Msg R)) → List (DAct R)
  | k, [] => if run k = false then [.check false, .close, .wait, .ret false] else [.check true, .close, .wait, .ret false]
  | k, c :: cs =>
    if run k = false then [.check false, .close, .wait, .ret false]
    else .check true :: (streamConn run (k + 1) c).1 ++ streamLoop run (streamConn run (k + 1) c).2 cs

/-! ### Kafka driver -/

/-- Messages of the topics (kafkadriver.go:96-119): a read error, a message that cannot be parsed, or its records. -/
inductive KMsg (R : Type) where
  | fail
  | unparsable
  | recs (rs : List R)
deriving DecidableEq, Repr

/-- `KafkaDriver.Run` (kafkadriver.go:86-120): `defer close(records)` runs when the function returns, which is only on an
error; `Wait` is not called. The list of messages is read as ending with a read error. -/
def kafkaDriver {R : Type} : List (KMsg R) → List (DAct R)
  | [] => [.close, .ret true]
  | .fail :: _ => [.close, .ret true]
  | .unparsable :: _ => [.close, .ret true]
  | .recs rs :: ms => rs.map .send ++ kafkaDriver ms

end Verif.Pipeline

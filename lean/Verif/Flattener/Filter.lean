import Verif.Base.AMap
import Verif.Base.Utf8
import Verif.FlatRecord.Record
/-
The time decaying duplicate filter.
Source: /repo/core/flattener/filter.go
-/
namespace Verif.Filter
open Verif.Decimal (Str)
open Verif.FlatRecord

/-- `Entry` (filter.go:42-45). A `time.Time` is an `Int` number of nanoseconds on the monotonic clock. -/
structure Entry where
  h : UInt64
  firstSeen : Int
deriving DecidableEq, Repr

/-- `Filter` (filter.go:35-39). `q` is the linked list, front first; the `int64` counters are `Nat`
(no overflow after 2^63 occurrences of one key). -/
structure Filter where
  m : AMap UInt64 Nat
  q : List Entry
  ttl : Int
deriving DecidableEq, Repr

/-- `NewFilter` (filter.go:48-50). -/
def newFilter (t : Int) : Filter := ⟨[], [], t⟩

/-- The loop of `evictAgedEntries` (filter.go:86-96). `rd i` is the i-th clock reading of the
operation (one `time.Since` per iteration); the result carries the number of readings made. The
saturation of `time.Duration` at ±292 years is not modelled. -/
def evictLoop (ttl : Int) (rd : Nat → Int) : Nat → List Entry → AMap UInt64 Nat → Nat × List Entry × AMap UInt64 Nat
  | n, [], m => (n, [], m)
  | n, e :: q, m =>
    if rd n - e.firstSeen < ttl then (n + 1, e :: q, m) else evictLoop ttl rd (n + 1) q (m.del e.h)

/-- `evictAgedEntries` (filter.go:86-96), with the number of clock readings made. -/
def evict (f : Filter) (rd : Nat → Int) : Nat × Filter :=
  let r := evictLoop f.ttl rd 0 f.q f.m
  (r.1, { f with q := r.2.1, m := r.2.2 })

/-- `Add` (filter.go:77-84); `now` is its `time.Now()`. -/
def add (f : Filter) (h : UInt64) (now : Int) : Filter :=
  match f.m.get h with
  | none => { f with m := f.m.set h 1, q := f.q ++ [⟨h, now⟩] }
  | some v => { f with m := f.m.set h (v + 1) }

/-- `Test` (filter.go:53-57). -/
def test (f : Filter) (h : UInt64) (rd : Nat → Int) : Bool × Filter :=
  let r := evict f rd
  ((r.2.m.get h).isSome, r.2)

/-- `TestAndAdd` (filter.go:60-65). -/
def testAndAdd (f : Filter) (h : UInt64) (rd : Nat → Int) : Bool × Filter :=
  let r := evict f rd
  ((r.2.m.get h).isSome, add r.2 h (rd r.1))

/-- `Count` (filter.go:68-74). -/
def count (f : Filter) (h : UInt64) (rd : Nat → Int) : Nat × Filter :=
  let r := evict f rd
  ((r.2.m.get h).getD 0, r.2)

/-! ### The semantic key -/

/-- `binary.LittleEndian.PutUint64(byteInt64, uint64(n))` (filter.go:103-120): the eight bytes of the
two's complement of `n`. -/
def le64Go : Nat → Nat → List UInt8
  | 0, _ => []
  | k + 1, n => UInt8.ofNat (n % 256) :: le64Go k (n / 256)
def le64 (n : Int) : List UInt8 := le64Go 8 (n % 2 ^ 64).toNat

/-- The bytes written to the hash by `semanticHash` (filter.go:99-125). The record has the single
SYSFLOW section created by `newFlatRecord`, so `fr.Ints[SYSFLOW_SRC]` is that section. -/
def hashInput (fr : FlatRec) : List UInt8 :=
  Utf8.bytes (fr.getStr .PROC_EXE_STR .sysflow) ++ Utf8.bytes (fr.getStr .PROC_EXEARGS_STR .sysflow)
  ++ le64 (fr.getInt .PROC_UID_INT .sysflow) ++ le64 (fr.getInt .PROC_GID_INT .sysflow)
  ++ le64 (fr.getInt .OPFLAGS_INT .sysflow) ++ le64 (fr.getInt .PROC_TTY_INT .sysflow)
  ++ (if fr.getInt .SF_REC_TYPE .sysflow = NET_FLOW then
        le64 (fr.getInt .FL_NETW_SIP_INT .sysflow) ++ le64 (fr.getInt .FL_NETW_DIP_INT .sysflow)
        ++ le64 (fr.getInt .FL_NETW_DPORT_INT .sysflow) ++ le64 (fr.getInt .FL_NETW_PROTO_INT .sysflow)
      else [])
  ++ (if fr.getInt .SF_REC_TYPE .sysflow = FILE_FLOW ∨ fr.getInt .SF_REC_TYPE .sysflow = FILE_EVT then
        Utf8.bytes (fr.getStr .FILE_PATH_STR .sysflow)
      else [])

/-- `semanticHash` (filter.go:99-126); `xxh` is `xxhash.Sum64` of the written bytes, left abstract. -/
def semanticHash (xxh : List UInt8 → UInt64) (fr : FlatRec) : UInt64 := xxh (hashInput fr)

end Verif.Filter

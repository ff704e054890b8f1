import Verif.Base.Strings
/-
SysFlow entities and events as consumed by this repository. The Go types come from the dependency
github.com/sysflow-telemetry/sf-apis/go/sfgo (not in /repo); the fields listed are those read by
/repo/core/flattener/flattener.go, /repo/core/processor/reader.go, /repo/core/cache/tables.go and
/repo/core/policyengine/source/flatrecord/record.go. Avro unions with `null` are `Option`s (the
code tests the union tag and nil together, e.g. flattener.go:345, reader.go:175).
-/
namespace Verif.SysFlow
open Verif.Decimal (Str)

/-- `sfgo.OID`: process identity (fields read at flattener.go:343-347, record.go:183). -/
structure OID where
  createTS : Int
  hpid : Int
deriving DecidableEq, Repr

/-- `sfgo.SFHeader` (fields read at flattener.go:272-282). -/
structure Header where
  version : Int
  exporter : Str
  ip : Str
  filename : Str
deriving DecidableEq, Repr

/-- `sfgo.Container` (fields read at flattener.go:287-297, reader.go:185-192). -/
structure Container where
  id : Str
  name : Str
  image : Str
  imageid : Str
  ctype : Int
  privileged : Bool
  podId : Option Str
deriving DecidableEq, Repr

/-- `sfgo.Port` (fields read in exporter/encoders/json.go mapSvcArray). -/
structure Port where
  port : Int
  targetPort : Int
  nodePort : Int
  proto : Str
deriving DecidableEq, Repr
/-- `sfgo.Service` (fields read in exporter/encoders/json.go mapSvcArray). -/
structure Service where
  id : Str
  name : Str
  nspace : Str
  portList : List Port
  clusterIP : List Int
deriving DecidableEq, Repr

/-- `sfgo.Pod` (fields read at flattener.go:306-318). -/
structure Pod where
  ts : Int
  id : Str
  name : Str
  nodeName : Str
  hostIP : List Int
  internalIP : List Int
  nspace : Str
  restartCount : Int
  services : List Service
deriving DecidableEq, Repr

/-- `sfgo.SFObjectState`: CREATED = 0, MODIFIED = 1, REUP = 2. -/
inductive ObjState where
  | created | modified | reup
deriving DecidableEq, Repr
/-- The enum's integer value (`int64(proc.State)`, flattener.go:342). -/
def ObjState.toInt : ObjState → Int
  | .created => 0
  | .modified => 1
  | .reup => 2

/-- `sfgo.Process` (fields read at flattener.go:342-374, record.go:116-197, reader.go:123-126). -/
structure Proc where
  state : ObjState
  oid : OID
  poid : Option OID
  ts : Int
  exe : Str
  exeArgs : Str
  uid : Int
  userName : Str
  gid : Int
  groupName : Str
  tty : Bool
  entry : Bool
  containerId : Option Str
deriving DecidableEq, Repr

/-- `sfgo.FOID`: a 20-byte array. -/
abbrev FOID := List UInt8

/-- `sfgo.File` (fields read at flattener.go:396-407, reader.go:205-228). -/
structure File where
  state : ObjState
  oid : FOID
  ts : Int
  restype : Int
  path : Str
  containerId : Option Str
deriving DecidableEq, Repr

/-- `sfgo.ProcessEvent` (fields read at flattener.go:258-262). -/
structure ProcEvt where
  procOID : OID
  ts : Int
  tid : Int
  opFlags : Int
  ret : Int
deriving DecidableEq, Repr

/-- `sfgo.NetworkFlow` (fields read at flattener.go:158-171). -/
structure NetFlow where
  procOID : OID
  ts : Int
  tid : Int
  opFlags : Int
  endTs : Int
  sip : Int
  sport : Int
  dip : Int
  dport : Int
  proto : Int
  fd : Int
  numRRecvOps : Int
  numWSendOps : Int
  numRRecvBytes : Int
  numWSendBytes : Int
deriving DecidableEq, Repr

/-- `sfgo.FileFlow` (fields read at flattener.go:183-192). -/
structure FileFlow where
  procOID : OID
  fileOID : FOID
  ts : Int
  tid : Int
  opFlags : Int
  openFlags : Int
  endTs : Int
  fd : Int
  numRRecvOps : Int
  numWSendOps : Int
  numRRecvBytes : Int
  numWSendBytes : Int
deriving DecidableEq, Repr

/-- `sfgo.FileEvent` (fields read at flattener.go:200-236, reader.go:148-153). -/
structure FileEvt where
  procOID : OID
  fileOID : FOID
  newFileOID : Option FOID
  ts : Int
  tid : Int
  opFlags : Int
  ret : Int
deriving DecidableEq, Repr

/-- `sfgo.K8sEvent` (fields read at flattener.go:131-134). -/
structure K8sEvt where
  ts : Int
  message : Str
  kind : Int
  action : Int
deriving DecidableEq, Repr

end Verif.SysFlow

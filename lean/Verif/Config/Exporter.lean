import Verif.Config.Model
/-
Model of the exporter's configuration in full (vault secrets, Elastic attributes, Kafka producer
settings, version attributes), and of the OTel Kafka driver's configuration.
Sources: /repo/core/exporter/commons/{config,fileconfig,syslogconfig,elasticconfig,kafkaconfig}.go,
/repo/driver/otel/config.go
-/
namespace Verif.Config
open Verif.Decimal

/-- A value in a Kafka settings map (`kafka.ConfigValue` is `interface{}`): text, or something else
(told apart by a number). -/
inductive KVal where
  | str (s : Str)
  | other (tag : Nat)
deriving DecidableEq, Repr

/-- Values in a `map[string]interface{}` configuration: text, a string-keyed map (its entries in the
order one `range` visits them; Go's order is arbitrary), an array (each element text or not), or
something else. -/
inductive XVal where
  | str (s : Str)
  | map (entries : List (Str × KVal))
  | list (items : List (Option Str))
  | other
deriving DecidableEq, Repr

/-- `map[string]interface{}`. -/
abbrev XConf := Str → Option XVal

/-- `v, ok := conf[key].(string)`. -/
def XConf.str? (c : XConf) (key : String) : Option Str :=
  match c key.toList with
  | some (.str s) => some s
  | _ => none

/-- `VaultEncoding` (commons/config.go:222-228). -/
inductive VaultEncoding where | none | base64
deriving DecidableEq, Repr

/-- `Encoding` (commons/kafkaconfig.go:75-81; driver/otel/config.go:78-84). -/
inductive KEncoding where | proto | json
deriving DecidableEq, Repr

/-- `parseVaultEncodingConfig` (commons/config.go:234-242). -/
def parseVaultEncoding (s : Str) : VaultEncoding :=
  if "none".toList = s then .none else if "base64".toList = s then .base64 else .none

/-- `parseEncodingConfig` (commons/kafkaconfig.go:87-95; driver/otel/config.go:90-98). -/
def parseKEncoding (s : Str) : KEncoding :=
  if "proto".toList = s then .proto else if "json".toList = s then .json else .proto

/-- An opened `secrets.Secrets` (sf-apis): plain and base64-decoded lookup, `none` on error. -/
structure Secrets where
  get : Str → Option Str
  getDecoded : Str → Option Str

/-- What the configuration code gets from outside: opening the vault at a path (`none`: the default
path), and `time.ParseDuration` (nanoseconds). -/
structure ConfEnv where
  openVault : Option Str → Option Secrets
  parseDuration : Str → Option Int

/-- `kafka.ConfigMap`. -/
abbrev KafkaMap := Str → Option KVal

/-- `ConfigMap.SetKey` (confluent-kafka-go) for keys not starting with `{topic}.`: a plain map
assignment. Simplification: keys starting with `{topic}.`, which the library stores in a nested map,
are treated as plain keys. -/
def KafkaMap.setKey (m : KafkaMap) (k : Str) (v : KVal) : KafkaMap := fun j => if j = k then some v else m j

/-- The loop over the configured entries (commons/kafkaconfig.go:53-55; driver/otel/config.go:53-55). -/
def KafkaMap.setAll (m : KafkaMap) : List (Str × KVal) → KafkaMap
  | [] => m
  | (k, v) :: rest => KafkaMap.setAll (m.setKey k v) rest

/-- The map with no entries. -/
def KafkaMap.empty : KafkaMap := fun _ => none

/-- Default producer settings (commons/kafkaconfig.go:46-49). -/
def producerDefaults : KafkaMap :=
  (KafkaMap.empty.setKey "client.id".toList (.str "sfprocessor-otel-kafka-exporter".toList)).setKey "acks".toList (.str "all".toList)

/-- Default consumer settings (driver/otel/config.go:46-49). -/
def consumerDefaults : KafkaMap :=
  (KafkaMap.empty.setKey "group.id".toList (.str "sfprocessor-otel-kafka-driver".toList)).setKey "auto.offset.reset".toList (.str "earliest".toList)

/-- `SyslogConfig` (commons/syslogconfig.go:37-43). -/
structure SyslogC where
  proto : Proto := .tcp
  tag : Str := "sysflow".toList
  logSource : Str := []
  host : Str := "localhost".toList
  port : Int := 514
deriving DecidableEq, Repr

/-- `ESConfig` (commons/elasticconfig.go:41-49); the timeout in nanoseconds. -/
structure ElasticC where
  addresses : List Str := []
  index : Str := []
  username : Str := []
  password : Str := []
  numWorkers : Int := 0
  flushBuffer : Int := 5000000
  flushTimeout : Int := 30000000000
deriving DecidableEq, Repr

/-- `KafkaConfig` (commons/kafkaconfig.go:37-41). -/
structure KafkaC where
  configMap : KafkaMap
  topic : Str
  encoding : KEncoding

/-- `Config` (commons/config.go:45-62); `secrets` is `none` unless the vault is enabled. -/
structure XConfig where
  transport : Transport
  format : Format
  eventBuffer : Int
  vaultEnabled : Bool
  vaultEncoding : VaultEncoding
  version : Str
  jsonSchemaVersion : Str
  ecsVersion : Str
  buildNumber : Str
  clusterID : Str
  path : Str
  syslog : SyslogC
  es : ElasticC
  kafka : KafkaC

/-- The vault part of `Config` (commons/config.go:49-52, 69-84): not enabled, or enabled with an
encoding and an opened vault. -/
inductive VaultC where
  | disabled
  | enabled (enc : VaultEncoding) (s : Secrets)

/-- `VaultEnabled` (commons/config.go:49, 70). -/
def VaultC.on : VaultC → Bool
  | .enabled _ _ => true
  | .disabled => false

/-- `VaultEncoding` (commons/config.go:51, 71-73). -/
def VaultC.enc : VaultC → VaultEncoding
  | .enabled e _ => e
  | .disabled => .none

/-- The vault statements of `CreateConfig` (commons/config.go:69-84): `none` if opening fails. -/
def createVault (env : ConfEnv) (conf : XConf) : Option VaultC :=
  match conf.str? "vault.secrets" with
  | some v =>
    if v = "true".toList then
      match env.openVault (conf.str? "vault.path") with
      | some s => some (.enabled (setOr (conf.str? "vault.encoding") parseVaultEncoding .none) s)
      | none => none
    else some .disabled
  | none => some .disabled

/-- `GetSecret` (commons/config.go:245-247): the lookup function selected by the encoding. -/
def getSecret (enc : VaultEncoding) (s : Secrets) (key : Str) : Option Str :=
  match enc with
  | .none => s.get key
  | .base64 => s.getDecoded key

/-- One credential (commons/elasticconfig.go:66-74 and 75-83): the configured text, else from the
vault if it is enabled and the transport is Elastic, else empty; `none` if the vault lookup fails. -/
def credential (conf : XConf) (vault : VaultC) (t : Transport) (key : String) : Option Str :=
  match conf.str? key with
  | some v => some v
  | none =>
    match vault with
    | .enabled enc s => if t = .es then getSecret enc s key.toList else some []
    | .disabled => some []

/-- `strings.Split(v, ",")` (Go standard library): the pieces between commas. -/
def splitComma : Str → List Str
  | [] => [[]]
  | c :: cs =>
    if c = ',' then [] :: splitComma cs
    else match splitComma cs with
      | p :: ps => (c :: p) :: ps
      | [] => [[c]]

/-- A numeric attribute: `c.X, err = strconv.Atoi(v); if err != nil { return c, err }`. -/
def number (v : Option Str) (dflt : Int) : Option Int :=
  match v with
  | some s => if (parseInt s).2 then some (parseInt s).1 else none
  | none => some dflt

/-- A duration attribute (commons/elasticconfig.go:96-101). -/
def duration (env : ConfEnv) (v : Option Str) (dflt : Int) : Option Int :=
  match v with
  | some s => env.parseDuration s
  | none => some dflt

/-- `CreateFileConfig` (commons/fileconfig.go:34-43). -/
def createFileX (conf : XConf) : Str := setOr (conf.str? "file.path") id "./export.out".toList

/-- `CreateSyslogConfig` (commons/syslogconfig.go:46-73): `none` on error. -/
def createSyslogX (conf : XConf) : Option SyslogC :=
  let c : SyslogC := {}
  let c := { c with proto := setOr (conf.str? "syslog.proto") parseProto c.proto }
  let c := { c with tag := setOr (conf.str? "syslog.tag") id c.tag }
  let c := { c with logSource := setOr (conf.str? "syslog.source") id c.logSource }
  let c := { c with host := setOr (conf.str? "syslog.host") id c.host }
  match number (conf.str? "syslog.port") c.port with
  | some p => some { c with port := p }
  | none => none

/-- `CreateElasticConfig` (commons/elasticconfig.go:52-103): `none` on error. -/
def createElasticX (env : ConfEnv) (conf : XConf) (vault : VaultC) (t : Transport) : Option ElasticC :=
  let c : ElasticC := {}
  let c := { c with addresses := setOr (conf.str? "es.addresses") splitComma c.addresses }
  let c := { c with index := setOr (conf.str? "es.index") id c.index }
  match credential conf vault t "es.username" with
  | none => none
  | some u =>
    let c := { c with username := u }
    match credential conf vault t "es.password" with
    | none => none
    | some p =>
      let c := { c with password := p }
      match number (conf.str? "es.bulk.numWorkers") c.numWorkers with
      | none => none
      | some w =>
        let c := { c with numWorkers := w }
        match number (conf.str? "es.bulk.flushBuffer") c.flushBuffer with
        | none => none
        | some b =>
          let c := { c with flushBuffer := b }
          match duration env (conf.str? "es.bulk.flushTimeout") c.flushTimeout with
          | none => none
          | some d => some { c with flushTimeout := d }

/-- `CreateKafkaConfig` (commons/kafkaconfig.go:44-72): `none` on error. -/
def createKafkaX (conf : XConf) : Option KafkaC :=
  match conf "kafka.config".toList with
  | some (.map entries) =>
    let m := producerDefaults.setAll entries
    match m "bootstrap.servers".toList with
    | none => none
    | some _ =>
      match conf.str? "kafka.topic" with
      | some t => some ⟨m, t, setOr (conf.str? "kafka.encoding") parseKEncoding .proto⟩
      | none => none
  | _ => none

/-- `CreateConfig` (commons/config.go:65-131): `none` on error. -/
def createConfigX (env : ConfEnv) (conf : XConf) : Option XConfig :=
  match createVault env conf with
  | none => none
  | some vault =>
    let transport := setOr (conf.str? "export") parseTransport .terminal
    let format := setOr (conf.str? "format") parseFormat .json
    match number (conf.str? "buffer") 0 with
    | none => none
    | some buf =>
      match createSyslogX conf with
      | none => none
      | some sl =>
        match createElasticX env conf vault transport with
        | none => none
        | some es =>
          match createKafkaX conf with
          | none => none
          | some k =>
            some
              { transport := transport
                format := format
                eventBuffer := buf
                vaultEnabled := vault.on
                vaultEncoding := vault.enc
                version := setOr (conf.str? "version") id []
                jsonSchemaVersion := setOr (conf.str? "jsonschemaversion") id []
                ecsVersion := setOr (conf.str? "ecsversion") id []
                buildNumber := setOr (conf.str? "buildnumber") id []
                clusterID := setOr (conf.str? "cluster.id") id []
                path := createFileX conf
                syslog := sl
                es := es
                kafka := k }

/-! #### OTel Kafka driver: driver/otel/config.go -/

/-- `KafkaConfig` (driver/otel/config.go:37-41). -/
structure ConsumerC where
  configMap : KafkaMap
  topics : List Str
  encoding : KEncoding

/-- Outcome of `CreateKafkaConfig`: a configuration, an error, or the panic of a failed
`value.(string)`. -/
inductive ConsumerR where
  | ok (c : ConsumerC)
  | error
  | panics

/-- The topics loop (driver/otel/config.go:63-66): `none` is the panic at the first element that is
not text. -/
def topicsLoop : List (Option Str) → List Str → Option (List Str)
  | [], acc => some acc
  | some s :: rest, acc => topicsLoop rest (acc ++ [s])
  | none :: _, _ => none

/-- `CreateKafkaConfig` (driver/otel/config.go:44-75). -/
def createConsumer (conf : XConf) : ConsumerR :=
  match conf "kafka.config".toList with
  | some (.map entries) =>
    let m := consumerDefaults.setAll entries
    match m "bootstrap.servers".toList with
    | none => .error
    | some _ =>
      match conf "kafka.topics".toList with
      | some (.list items) =>
        match topicsLoop items [] with
        | some ts => .ok ⟨m, ts, setOr (conf.str? "kafka.encoding") parseKEncoding .proto⟩
        | none => .panics
      | _ => .error
  | _ => .error

end Verif.Config

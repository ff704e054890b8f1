import Verif.Base.Strings
import Verif.Base.AMap
import Verif.Config.Exporter
/-
Pipeline configuration: stages, environment overrides, global items.
Sources: /repo/driver/pipeline/config.go, /repo/driver/pipeline/plugincache.go:167-193
-/
namespace Verif.Pipeline
open Verif.Decimal (Str)

/-- A value of a `map[string]interface{}` read from pipeline.json: a string, an array (whose elements matter here only
as strings or non-strings), a map (with its entries in the order in which Go happens to range over it), or something else. -/
inductive Val where
  | str (s : Str)
  | arr (vs : List (Option Str))
  | map (entries : List (Str × Verif.Config.KVal))
  | other
deriving DecidableEq, Repr

/-- `PluginConfig`/`DriverConfig` (config.go:60-64): a stage's attributes. -/
abbrev Conf := AMap Str Val

/-- `v, ok := c[key].(string)`. -/
def strAt (c : Conf) (key : Str) : Option Str :=
  match c.get key with
  | some (.str s) => some s
  | _ => none

/-- config.go:42-46. -/
def kProc : Str := "processor".toList
def kIn : Str := "in".toList
def kOut : Str := "out".toList
def kDriver : Str := "driver".toList

/-- driver/manifest/manifest.go.in:33-36, core/exporter/commons/config.go:41, config.go:36. -/
def kVersion : Str := "version".toList
def kJsonSchema : Str := "jsonschemaversion".toList
def kEcs : Str := "ecsversion".toList
def kBuild : Str := "buildnumber".toList
def kCluster : Str := "cluster.id".toList
def kClusterEnv : Str := "CLUSTER_ID".toList

/-- `strings.SplitN(s, sep, 2)` for a one-character separator: the text before the first separator, and the text after it if
there is one. -/
def splitN2 (sep : Char) : Str → Str × Option Str
  | [] => ([], none)
  | c :: cs => if c = sep then ([], some cs) else ((c :: (splitN2 sep cs).1), (splitN2 sep cs).2)

/-- `strings.ReplaceAll(s, "_", ".")`. -/
def dots (s : Str) : Str := s.map (fun c => if c = '_' then '.' else c)

/-- The loop of `PluginCache.getEnv` (plugincache.go:184-191) from a partially built map; `lower` is `strings.ToLower`.
`none`: the run-time error of `pair[1]` for an entry without `=`. -/
def getEnvFrom (lower : Str → Str) (proc : Str) : AMap Str Str → List Str → Option (AMap Str Str)
  | m, [] => some m
  | m, e :: es =>
    let pair := splitN2 '=' e
    let key := splitN2 '_' (lower pair.1)
    match key.2 with
    | some rest =>
      if key.1 = proc then
        match pair.2 with
        | some v => getEnvFrom lower proc (m.set (dots rest) v) es
        | none => none
      else getEnvFrom lower proc m es
    | none => getEnvFrom lower proc m es

/-- `PluginCache.getEnv` (plugincache.go:182-193). -/
def getEnv (lower : Str → Str) (proc : Str) (env : List Str) : Option (AMap Str Str) := getEnvFrom lower proc [] env

/-- The assignments of the inner loop of `updateConfigFromEnv` (plugincache.go:174-176), in the order `kvs` in which the
run-time system happens to enumerate the map. -/
def assignAll (c : Conf) (kvs : List (Str × Str)) : Conf := kvs.foldl (fun c kv => c.set kv.1 (.str kv.2)) c

/-- One iteration of `updateConfigFromEnv` (plugincache.go:172-178): `Updates lower env c c'` if a stage's attributes can
become `c'`. Go leaves the order of map iteration open, so every permutation is a possible execution. -/
inductive Updates (lower : Str → Str) (env : List Str) : Conf → Conf → Prop where
  | override (c : Conf) (proc : Str) (m : AMap Str Str) (kvs : List (Str × Str)) (hp : strAt c kProc = some proc)
      (hm : getEnv lower proc env = some m) (hperm : kvs.Perm m) : Updates lower env c (assignAll c kvs)
  | skip (c : Conf) (hp : strAt c kProc = none) : Updates lower env c c

/-- `updateConfigFromEnv` (plugincache.go:171-179) on the whole pipeline. -/
inductive UpdatesAll (lower : Str → Str) (env : List Str) : List Conf → List Conf → Prop where
  | nil : UpdatesAll lower env [] []
  | cons {c c' cs cs'} (h : Updates lower env c c') (t : UpdatesAll lower env cs cs') : UpdatesAll lower env (c :: cs) (c' :: cs')

/-- `getEnv` of config.go:95-103. -/
def lookupEnv (k : Str) : List Str → Str
  | [] => []
  | e :: es =>
    match splitN2 '=' e with
    | (n, some v) => if n = k then v else lookupEnv k es
    | (_, none) => lookupEnv k es

/-- `addGlobalConfigItem` (config.go:82-92) for a string value (all values passed to it are strings). -/
def addGlobal (k v : Str) (cs : List Conf) : List Conf :=
  cs.map (fun c => if (c.get kProc).isSome then c.set k (.str v) else c)

/-- Values of the build (driver/manifest/manifest.go.in), filled in by make. -/
structure Manifest where
  version : Str
  jsonSchema : Str
  ecs : Str
  build : Str

/-- `setManifestInfo` (config.go:73-79). -/
def setManifest (m : Manifest) (env : List Str) (cs : List Conf) : List Conf :=
  addGlobal kCluster (lookupEnv kClusterEnv env)
    (addGlobal kBuild m.build
      (addGlobal kEcs m.ecs
        (addGlobal kJsonSchema m.jsonSchema
          (addGlobal kVersion m.version cs))))

end Verif.Pipeline

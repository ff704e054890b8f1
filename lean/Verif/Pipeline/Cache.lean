import Verif.Pipeline.Config
import Verif.Base.Space
/-
The plugin cache, the handler cache and the loading of a pipeline.
Sources: /repo/driver/pipeline/plugincache.go, /repo/core/processor/handlercache.go, /repo/driver/pipeline/pipeline.go
-/
namespace Verif.Pipeline
open Verif.Decimal (Str)

/-- Outcome of a Go call: a result, a non-nil error, or a run-time panic. -/
inductive Res (α : Type) where
  | ok (a : α)
  | err
  | panic
deriving DecidableEq, Repr

def Res.bind {α β : Type} : Res α → (α → Res β) → Res β
  | .ok a, f => f a
  | .err, _ => .err
  | .panic, _ => .panic

/-! ### Registries -/

/-- A call of a registration method: `AddDriver`, `AddProcessor`, `AddChannel` (plugincache.go:123-135), `AddHandler`
(handlercache.go:97-99). `F` stands for factory functions. -/
inductive Reg (F : Type) where
  | driver (name : Str) (f : F)
  | proc (name : Str) (f : F)
  | chan (name : Str) (f : F)
  | handler (name : Str) (f : F)
deriving DecidableEq

/-- The factory maps of `PluginCache` (plugincache.go:44-52) and of `HandlerCache` (handlercache.go:43-46). -/
structure Regs (F : Type) where
  drivers : AMap Str F := []
  procs : AMap Str F := []
  chans : AMap Str F := []
  handlers : AMap Str F := []

/-- plugincache.go:123-135, handlercache.go:97-99. -/
def Regs.add {F : Type} (r : Regs F) : Reg F → Regs F
  | .driver n f => { r with drivers := r.drivers.set n f }
  | .proc n f => { r with procs := r.procs.set n f }
  | .chan n f => { r with chans := r.chans.set n f }
  | .handler n f => { r with handlers := r.handlers.set n f }

/-- A history of registrations. -/
def Regs.addAll {F : Type} (r : Regs F) (rs : List (Reg F)) : Regs F := rs.foldl Regs.add r

/-- `GetDriver` (plugincache.go:242-250): the factory that is called, or an error. -/
def Regs.getDriver {F : Type} (r : Regs F) (name : Str) : Res F :=
  match r.drivers.get name with
  | some f => .ok f
  | none => .err

/-- `GetProcessor` (plugincache.go:217-239) with `TryToLoadPlugin` (plugincache.go:80-100): `load name` is what loading
the shared object `<dir>/<name>.so` does — `none`: it fails; `some rs`: its `Register` performs the registrations `rs`
(none, if the symbol is not a processor). -/
def Regs.getProcessor {F : Type} (load : Str → Option (List (Reg F))) (r : Regs F) (name : Str) : Regs F × Res F :=
  match r.procs.get name with
  | some f => (r, .ok f)
  | none =>
    match load name with
    | none => (r, .err)
    | some rs =>
      match (r.addAll rs).procs.get name with
      | some f => (r.addAll rs, .ok f)
      | none => (r.addAll rs, .err)

/-- `HandlerCache.GetHandler` (handlercache.go:102-114): the factory called, or the handler object loaded from
`<path>/<name>.so` (`load`, handlercache.go:74-94). -/
def Regs.getHandler {F : Type} (load : Str → Str → Option (F × List (Reg F))) (r : Regs F) (conf : Conf) : Regs F × Res F :=
  match strAt conf "handler".toList with
  | some name =>
    match r.handlers.get name with
    | some f => (r, .ok f)
    | none =>
      match strAt conf "handlerlibpath".toList with
      | some path =>
        match load name path with
        | some (f, rs) => (r.addAll rs, .ok f)
        | none => (r, .err)
      | none => (r, .err)
  | none => (r, .err)

/-! ### Channels -/

/-- `strings.Fields`, from a partially read word. -/
def fieldsAux : Str → Str → List Str
  | w, [] => if w = [] then [] else [w]
  | w, c :: cs =>
    if Strings.isSpace c then (if w = [] then fieldsAux [] cs else w :: fieldsAux [] cs)
    else fieldsAux (w ++ [c]) cs

/-- `strings.Fields`. -/
def fields (s : Str) : List Str := fieldsAux [] s

/-- A channel object: its identity and the factory that made it. -/
structure Chan (F : Type) where
  id : Nat
  made : F
deriving DecidableEq

/-- `chanMap` (plugincache.go:45) and the allocation counter. -/
structure Chans (F : Type) where
  byName : AMap Str (Chan F) := []
  next : Nat := 0

/-- `GetChan` (plugincache.go:196-214). Note that `fields[0]`, `fields[1]` are evaluated (for the trace message) before the
number of fields is tested. -/
def getChan {F : Type} (r : Regs F) (cs : Chans F) (s : Str) : Chans F × Res (Chan F) :=
  match fields s with
  | name :: type :: rest =>
    if rest ≠ [] then (cs, .err)
    else
      match cs.byName.get name with
      | some c => (cs, .ok c)
      | none =>
        match r.chans.get type with
        | some f => (⟨cs.byName.set name ⟨cs.next, f⟩, cs.next + 1⟩, .ok ⟨cs.next, f⟩)
        | none => (cs, .err)
  | _ => (cs, .panic)

/-! ### Loading a pipeline -/

/-- A loaded stage (pipeline.go:120-200): the processor's factory, the input channels given to `Process`, the output
channels given to `SetOutChan` (`none`: not called). -/
structure Stage (F : Type) where
  proc : F
  ins : List (Chan F)
  outs : Option (List (Chan F))
deriving DecidableEq

/-- What `Load` has built so far: registries, channel cache, the stages, and `pl.channels`. -/
structure Load (F : Type) where
  regs : Regs F
  chans : Chans F := {}
  stages : List (Stage F) := []
  channels : List (Chan F) := []

/-- The loops over channel names (pipeline.go:143-154, 174-184): a non-string element makes the type assertion panic. -/
def getChans {F : Type} (r : Regs F) : Chans F → List (Option Str) → Chans F × Res (List (Chan F))
  | cs, [] => (cs, .ok [])
  | cs, none :: _ => (cs, .panic)
  | cs, some s :: ss =>
    match getChan r cs s with
    | (cs', .ok c) =>
      match getChans r cs' ss with
      | (cs'', .ok l) => (cs'', .ok (c :: l))
      | (cs'', .err) => (cs'', .err)
      | (cs'', .panic) => (cs'', .panic)
    | (cs', .err) => (cs', .err)
    | (cs', .panic) => (cs', .panic)

/-- The channel names of an `in` or `out` attribute (pipeline.go:141-165, 172-195): an array, one string, or nothing if the
value has another type. -/
def chanNames : Val → List (Option Str)
  | .arr vs => vs
  | .str s => [some s]
  | .map _ | .other => []

/-- The dependencies of loading that are not modelled further: `getProc regs name` is `GetProcessor` (with dynamic
loading), `init` the processor's `Init` on its attributes; the latter may register channel factories (the first
`SysFlowReader.Init` creates the handler cache, handlercache.go:60-73) and may fail. -/
structure Env (F : Type) where
  getProc : Regs F → Str → Regs F × Res F
  init : F → Conf → Regs F → Res (Regs F)

/-- End of the loop of `Load`: all stages loaded; stopped by an error or panic; or stopped *without* an error by a stage
that has no processor string (pipeline.go:136-138 returns `err`, which is nil there). -/
inductive Out (F : Type) where
  | done (l : Load F)
  | stopped (l : Load F)
  | failed
  | panicked

/-- One iteration of the loop of `Load` (pipeline.go:119-201). -/
def loadStage {F : Type} (E : Env F) (l : Load F) (c : Conf) : Out F :=
  match strAt c kProc with
  | none => .stopped l
  | some p =>
    match E.getProc l.regs p with
    | (_, .err) => .failed
    | (_, .panic) => .panicked
    | (r1, .ok f) =>
      match E.init f c r1 with
      | .err => .failed
      | .panic => .panicked
      | .ok r2 =>
        match c.get kIn with
        | none => .failed
        | some vin =>
          match getChans r2 l.chans (chanNames vin) with
          | (_, .err) => .failed
          | (_, .panic) => .panicked
          | (cs, .ok ins) =>
            match c.get kOut with
            | none => .done { regs := r2, chans := cs, stages := l.stages ++ [⟨f, ins, none⟩], channels := l.channels ++ ins }
            | some vout =>
              match getChans r2 cs (chanNames vout) with
              | (_, .err) => .failed
              | (_, .panic) => .panicked
              | (cs', .ok outs) =>
                .done { regs := r2, chans := cs', stages := l.stages ++ [⟨f, ins, some outs⟩], channels := l.channels ++ ins ++ outs }

/-- The loop of `Load` (pipeline.go:119-201). -/
def loadStages {F : Type} (E : Env F) : Load F → List Conf → Out F
  | l, [] => .done l
  | l, c :: cs =>
    match loadStage E l c with
    | .done l' => loadStages E l' cs
    | o => o

/-- `GetRootChannel` (pipeline.go:248-253). -/
def rootChannel {F : Type} (l : Load F) : Option (Chan F) := l.channels.head?

/-- `GetChannel` (pipeline.go:256-258). -/
def getChannel {F : Type} (l : Load F) (s : Str) : Load F × Res (Chan F) :=
  ({ l with chans := (getChan l.regs l.chans s).1 }, (getChan l.regs l.chans s).2)

/-- Choice of the drivers (pipeline.go:96-118): the one named on the command line, or those of the configuration; entries
without a driver string are skipped; no driver at all is an error. -/
def chooseDrivers {F : Type} (r : Regs F) (name : Str) (ds : List Conf) : Res (List F) :=
  let rec go : List Conf → Res (List F)
    | [] => .ok []
    | d :: ds =>
      match strAt d kDriver with
      | none => go ds
      | some n => (r.getDriver n).bind (fun f => (go ds).bind (fun l => .ok (f :: l)))
  (if name ≠ [] then (r.getDriver name).bind (fun f => .ok [f]) else go ds).bind
    (fun l => if l = [] then .err else .ok l)

/-- `GetDriverConfig` (pipeline.go:262-276) on the configured drivers. -/
def driverConfig (name : Str) : List Conf → Option Conf
  | [] => none
  | d :: ds => if strAt d kDriver = some name then some d else driverConfig name ds

end Verif.Pipeline

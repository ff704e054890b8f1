import Verif.Base.Machine
import Verif.Monitor.Props
/-
C99: the policy monitor as a goroutine of its own, beside a directory that changes at any time and the policy engine.
Source: /repo/core/policyengine/monitor/localpolicymonitor.go:51-231, /repo/core/policyengine/policyengine.go:101-114, 141-155, 171-204
-/
namespace Verif.Monitor.Live
open Verif.Monitor

variable {B C P : Type}

/-! ### Model -/

/-- What a path holds: nothing (`none`), a file that cannot be read (`some none`), a file with a content. -/
def look (d : List (FileEnt B)) (p : Str) : Option (Option B) := (d.find? (fun f => f.path == p)).map (·.content)

/-- Where the monitor goroutine is (localpolicymonitor.go:157-194): not started; in the `select` (:160); in `dequeueFileEvents` after so many empty polls, with so many relevant events (:74-90);
about to call `calculateChecksum` (:175); in its loop (:129-143), with the paths to do, the changes flag and the new map; about to call `CheckForPolicyUpdate` (:187, listing at :210); about to call `createInter`
(:218, listing at policyengine.go:176); reading the policy files for the compiler (policyengine.go:199), with the paths to do and what has been read; returned (:164). -/
inductive Phase (B C : Type) where
  | off
  | idle
  | draining (polls yaml : Nat)
  | listing
  | summing (todo : List Str) (ch : Bool) (new : List (Str × C))
  | asking
  | opening
  | reading (todo : List Str) (got : List (Str × Option B))
  | ended

/-- The directory, whether the watcher watches it, the watcher's events not yet received, the goroutine, the remembered checksums (localpolicymonitor.go:46), the interpreters in the channel (:42), oldest first. -/
structure LSt (B C P : Type) where
  dir : List (FileEnt B)
  watching : Bool
  queue : List FsEvent
  phase : Phase B C
  policies : List (Str × C)
  chan : List P

/-- Observations: the directory changed (before, after, what the watcher was told); an event was received; a poll without event; the directory was listed for checksums; the compiler ran on these files,
with this result, and the channel had room; the engine took an interpreter; the monitor ended. -/
inductive Obs (B P : Type) where
  | changed (d d' : List (FileEnt B)) (es : List FsEvent)
  | received (e : FsEvent)
  | polled
  | listed
  | attempted (got : List (Str × Option B)) (r : Option P) (room : Bool)
  | taken (p : P)
  | stopped

/-- Steps of the environment (`change`; `take` by the policy engine, policyengine.go:145; `stop` by its `Cleanup`, policyengine.go:232), of `StartMonitor` (`start`, `add`) and of the goroutine. -/
inductive Label (B : Type) where
  | change (d : List (FileEnt B)) (es : List FsEvent)
  | start
  | add
  | recv
  | drain
  | poll
  | list
  | sum
  | ask
  | opens
  | read
  | take
  | stop

/-- Empty polls before `dequeueFileEvents` returns (localpolicymonitor.go:77); each takes ten milliseconds (:86). -/
def pollLimit : Nat := 1000

/-- One relevant event more or not (localpolicymonitor.go:81-83, 169-171). -/
def count (e : FsEvent) (n : Nat) : Nat := if hasModifiedYaml e then n + 1 else n

/-- One step. Files are read one by one, the directory may change in between. A poll may find no event although the watcher has some left: its own goroutine hands them over one by one. Listing the directory
succeeds (`calculateChecksum` and `CheckForPolicyUpdate` with a directory that cannot be listed: `Verif.Monitor.onEvents`). `compile`: outcome of the compiler on the files read. -/
def step [DecidableEq C] (sha : B → C) (compile : List (Str × Option B) → Option P) (s : LSt B C P) : Label B → Option (LSt B C P × List (Obs B P))
  | .change d es => some ({ s with dir := d, queue := s.queue ++ (if s.watching then es else []) }, [.changed s.dir d es])
  -- localpolicymonitor.go:157, 195
  | .start =>
    match s.phase with
    | .off => some ({ s with phase := .idle }, [])
    | _ => none
  -- :196
  | .add => if s.watching = false then some ({ s with watching := true }, []) else none
  -- :167-171
  | .recv =>
    match s.phase, s.queue with
    | .idle, e :: q => some ({ s with phase := .draining 0 (count e 0), queue := q }, [.received e])
    | _, _ => none
  -- :79-83
  | .drain =>
    match s.phase, s.queue with
    | .draining i y, e :: q => some ({ s with phase := .draining i (count e y), queue := q }, [.received e])
    | _, _ => none
  -- :77, 84-88, 174
  | .poll =>
    match s.phase with
    | .draining i y => some ({ s with phase := if i + 1 < pollLimit then .draining (i + 1) y else if y > 0 then .listing else .idle }, [.polled])
    | _ => none
  -- :118-128, 176-180
  | .list =>
    match s.phase with
    | .listing =>
      match (listFilePaths s.dir).map (·.path) with
      | [] => some ({ s with policies := [], phase := .idle }, [.listed])
      | p :: ps => some ({ s with phase := .summing (p :: ps) false [] }, [.listed])
    | _ => none
  -- :129-150, 181-188
  | .sum =>
    match s.phase with
    | .summing [] ch new =>
      some ({ s with policies := new, phase := if s.policies.length ≠ new.length ∨ ch = true then .asking else .idle }, [])
    | .summing (p :: ps) ch new =>
      match (look s.dir p).join with
      | none => some ({ s with policies := [], phase := .asking }, [])
      | some b => some ({ s with phase := .summing ps (flagAfter s.policies p (sha b) ch) (new ++ [(p, sha b)]) }, [])
    | _ => none
  -- :210-216
  | .ask =>
    match s.phase with
    | .asking => some ({ s with phase := if (listFilePaths s.dir).isEmpty then .idle else .opening }, [])
    | _ => none
  -- policyengine.go:176-182
  | .opens =>
    match s.phase with
    | .opening =>
      match (listRecursiveFilePaths s.dir).map (·.path) with
      | [] => some ({ s with phase := .idle }, [])
      | p :: ps => some ({ s with phase := .reading (p :: ps) [] }, [])
    | _ => none
  -- policyengine.go:199; localpolicymonitor.go:219-229
  | .read =>
    match s.phase with
    | .reading [] got =>
      match compile got with
      | none => some ({ s with phase := .idle }, [.attempted got none (decide (s.chan.length < chanCap))])
      | some r =>
        if s.chan.length < chanCap then some ({ s with phase := .idle, chan := s.chan ++ [r] }, [.attempted got (some r) true])
        else some ({ s with phase := .idle }, [.attempted got (some r) false])
    | .reading (p :: ps) got => some ({ s with phase := .reading ps (got ++ [(p, (look s.dir p).join)]) }, [])
    | _ => none
  -- policyengine.go:144-151
  | .take =>
    match s.chan with
    | r :: rs => some ({ s with chan := rs }, [.taken r])
    | [] => none
  -- localpolicymonitor.go:162-164, 203-205: the channel `done` has no buffer
  | .stop =>
    match s.phase with
    | .idle => some ({ s with phase := .ended }, [.stopped])
    | _ => none

/-- After `NewLocalPolicyMonitor` has pushed the first interpreter and `Init` has taken it (localpolicymonitor.go:52-65, policyengine.go:105-109). -/
def init (d : List (FileEnt B)) : LSt B C P := ⟨d, false, [], .off, [], []⟩

abbrev Exec [DecidableEq C] (sha : B → C) (compile : List (Str × Option B) → Option P) (d : List (FileEnt B)) := Machine.Exec (step (P := P) sha compile) (init d)

/-! ### Specification -/

/-- A policy file by its name. -/
def Yaml (p : Str) : Prop := ".yaml".toList <:+ p

/-- A directory without two files of one name, whose policy files are all in it directly, and named .yaml. -/
structure Plain (d : List (FileEnt B)) : Prop where
  nodup : (d.map (·.path)).Nodup
  flat : ∀ f ∈ d, (Yaml f.path ∨ ".yml".toList <:+ f.path) → f.depth = 0 ∧ Yaml f.path

/-- The watcher is told of every policy file that changes, by a create, write, remove or rename. -/
def Reported (d d' : List (FileEnt B)) (es : List FsEvent) : Prop :=
  ∀ p, Yaml p → look d p ≠ look d' p → ∃ e ∈ es, e.name = p ∧ (e.op = opCreate ∨ e.op = opWrite ∨ e.op = opRemove ∨ e.op = opRename)

/-- Files only ever go forward: `age` numbers what a path may hold, and every change goes to greater numbers. -/
def Forward (age : Str → Option (Option B) → Nat) (d d' : List (FileEnt B)) : Prop := ∀ p, Yaml p → age p (look d p) ≤ age p (look d' p)

/-- Every change of a trace is of that kind. -/
def Regular (age : Str → Option (Option B) → Nat) (tr : List (Obs B P)) : Prop :=
  ∀ d d' es, Obs.changed d d' es ∈ tr → Plain d' ∧ Reported d d' es ∧ Forward age d d'

/-- There are policy files, and all can be read. -/
def Usable (d : List (FileEnt B)) : Prop := (∃ p b, Yaml p ∧ look d p = some (some b)) ∧ ∀ p, Yaml p → look d p ≠ some none

/-- No relevant event is waiting. -/
def Calm (q : List FsEvent) : Prop := ∀ e ∈ q, hasModifiedYaml e = false

/-- Runs of the compiler, with the files read, the result, and whether the channel had room. -/
def attemptOf : Obs B P → Option (List (Str × Option B) × Option P × Bool)
  | .attempted got r room => some (got, r, room)
  | _ => none

/-- The latest of them. -/
def lastAttempt (tr : List (Obs B P)) : Option (List (Str × Option B) × Option P × Bool) := (tr.filterMap attemptOf).getLast?

/-- Interpreters pushed on the channel. -/
def pushed (tr : List (Obs B P)) : List P := tr.filterMap (fun o => match o with | .attempted _ (some r) true => some r | _ => none)

/-- Interpreters taken by the policy engine. -/
def adopted (tr : List (Obs B P)) : List P := tr.filterMap (fun o => match o with | .taken r => some r | _ => none)

/-- The files read are those of the directory: the same paths with the same contents. -/
def ReadFrom (d : List (FileEnt B)) (got : List (Str × Option B)) : Prop :=
  (got.map Prod.fst).Nodup ∧ (∀ p v, (p, v) ∈ got → Yaml p ∧ look d p = some v ∧ v ≠ none) ∧ ∀ p b, Yaml p → look d p = some (some b) → (p, some b) ∈ got

end Verif.Monitor.Live

/-
Model of the local policy monitor.
Source: /repo/core/policyengine/monitor/localpolicymonitor.go
-/
namespace Verif.Monitor

abbrev Str := List Char

/-- Operation bit mask of an fsnotify event (dependency fsnotify: Create=1, Write=2, Remove=4,
Rename=8, Chmod=16; several bits may be set in one event). -/
structure FsEvent where
  name : Str
  op : Nat
deriving DecidableEq, Repr

def opCreate : Nat := 1
def opWrite : Nat := 2
def opRemove : Nat := 4
def opRename : Nat := 8

/-- `strings.HasSuffix`. -/
def hasSuffix (s suf : Str) : Bool := suf.isSuffixOf s

/-- `hasModifiedYaml` (localpolicymonitor.go:92-100): the operation is compared with `==`. -/
def hasModifiedYaml (e : FsEvent) : Bool :=
  (e.op == opCreate || e.op == opRemove || e.op == opWrite || e.op == opRename) &&
  (hasSuffix e.name ".yaml".toList || hasSuffix e.name ".yml".toList)

/-- A file below the policy directory: path, nesting depth (0 = directly inside), content
(`none`: cannot be read). -/
structure FileEnt (B : Type u) where
  path : Str
  depth : Nat
  content : Option B

/-- `ioutils.ListFilePaths(dir, ".yaml")` (dependency sf-apis; used at localpolicymonitor.go:119,
210): the files directly inside the directory with that suffix. -/
def listFilePaths {B : Type u} (dir : List (FileEnt B)) : List (FileEnt B) :=
  dir.filter (fun f => f.depth == 0 && hasSuffix f.path ".yaml".toList)

/-- `ioutils.ListRecursiveFilePaths(dir, ".yaml", ".yml")` (dependency sf-apis; used by
createPolicyInterpreter, policyengine.go:177): the files the compiler actually reads. -/
def listRecursiveFilePaths {B : Type u} (dir : List (FileEnt B)) : List (FileEnt B) :=
  dir.filter (fun f => hasSuffix f.path ".yaml".toList || hasSuffix f.path ".yml".toList)

/-- State of `LocalPolicyMonitor` (localpolicymonitor.go:40-49): remembered checksums by path (a Go
map, as association list) and the interpreters waiting in `interChan` (oldest first). -/
structure St (C P : Type u) where
  policies : List (Str × C)
  chan : List P

/-- Capacity of `interChan` (localpolicymonitor.go:53). -/
def chanCap : Nat := 10

/-- The changes flag after looking at one file (localpolicymonitor.go:135-141). -/
def flagAfter {C : Type u} [DecidableEq C] (old : List (Str × C)) (path : Str) (cs : C) (ch : Bool) : Bool :=
  match old.lookup path with
  | some v => if v ≠ cs then true else ch
  | none => true

/-- The loop of `calculateChecksum` (localpolicymonitor.go:129-143) over the listed files; `none` on
a checksum error. State: changes flag, new map. -/
def checksumLoop {B C : Type u} [DecidableEq C] (sha : B → C) (old : List (Str × C)) :
    List (FileEnt B) → Bool → List (Str × C) → Option (Bool × List (Str × C))
  | [], ch, new => some (ch, new)
  | f :: fs, ch, new =>
    match f.content with
    | none => none
    | some b =>
      let cs := sha b
      checksumLoop sha old fs (flagAfter old f.path cs ch) (new ++ [(f.path, cs)])

/-- Result of `calculateChecksum` (localpolicymonitor.go:118-150): error with an empty listing
(:123-126), other error (listing :120-122 or checksum :131-134), or success with the changes flag. -/
inductive CsResult where
  | empty
  | error
  | ok (changes : Bool)
deriving DecidableEq, Repr

/-- `calculateChecksum` (localpolicymonitor.go:118-150). `dir = none`: listing the directory fails. -/
def calculateChecksum {B C P : Type u} [DecidableEq C] (sha : B → C) (s : St C P) (dir : Option (List (FileEnt B))) :
    St C P × CsResult :=
  match dir with
  | none => (s, .error)
  | some d =>
    let paths := listFilePaths d
    if paths.isEmpty then ({ s with policies := [] }, .empty)
    else
      match checksumLoop sha s.policies paths false [] with
      | none => ({ s with policies := [] }, .error)
      | some (ch, new) =>
        let ch' := if s.policies.length ≠ new.length then true else ch
        ({ s with policies := new }, .ok ch')

/-- `CheckForPolicyUpdate` (localpolicymonitor.go:209-231). `compile` is the outcome of
`createInter` on the directory contents at that time. Second component: nil error. -/
def checkForPolicyUpdate {B C P : Type u} (s : St C P) (dir : Option (List (FileEnt B)))
    (compile : List (FileEnt B) → Option P) : St C P × Bool :=
  match dir with
  | none => (s, false)
  | some d =>
    if (listFilePaths d).isEmpty then (s, false)
    else
      match compile (listRecursiveFilePaths d) with
      | none => (s, false)
      | some pi => if s.chan.length < chanCap then ({ s with chan := s.chan ++ [pi] }, true) else (s, true)

/-- One iteration of the monitor goroutine (localpolicymonitor.go:158-186): a first file event plus
those drained by `dequeueFileEvents` (:74-90), the directory as seen by `calculateChecksum`, and the
directory as seen by `CheckForPolicyUpdate`. Second component: whether a recompile was attempted. -/
def onEvents {B C P : Type u} [DecidableEq C] (sha : B → C) (compile : List (FileEnt B) → Option P) (s : St C P)
    (events : List FsEvent) (dir dir' : Option (List (FileEnt B))) : St C P × Bool :=
  if (events.filter hasModifiedYaml).length > 0 then
    match calculateChecksum sha s dir with
    | (s1, .empty) => (s1, false)
    | (s1, .error) => ((checkForPolicyUpdate s1 dir' compile).1, true)
    | (s1, .ok ch) => if ch then ((checkForPolicyUpdate s1 dir' compile).1, true) else (s1, false)
  else (s, false)

/-- The monitor together with its consumer: a batch of file events is handled, or the engine takes
the next interpreter from the channel (policyengine.go:145-146; nothing happens if it is empty). -/
inductive Op (B : Type u) where
  | events (es : List FsEvent) (dir dir' : Option (List (FileEnt B)))
  | take

/-- One step of monitor + consumer; the output is the interpreter taken, if any. -/
def step {B C P : Type u} [DecidableEq C] (sha : B → C) (compile : List (FileEnt B) → Option P) (s : St C P) :
    Op B → St C P × Option P
  | .events es dir dir' => ((onEvents sha compile s es dir dir').1, none)
  | .take =>
    match s.chan with
    | [] => (s, none)
    | p :: ps => ({ s with chan := ps }, some p)

/-- Run a history; the outputs are the interpreters taken, in order. -/
def run {B C P : Type u} [DecidableEq C] (sha : B → C) (compile : List (FileEnt B) → Option P) :
    St C P → List (Op B) → St C P × List P
  | s, [] => (s, [])
  | s, o :: os =>
    let r := step sha compile s o
    let rest := run sha compile r.1 os
    (rest.1, r.2.toList ++ rest.2)

end Verif.Monitor

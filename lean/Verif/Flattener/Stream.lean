import Verif.Flattener.Props
import Mathlib.Data.List.Forall2
import Verif.FlatRecord.Resolve
/-
C71: from the stream of SysFlow records to the fields that rules and exporters read. The specification speaks only about
the stream: which process, container, pod and files are known when an event arrives, and what each field shows of them.
-/
namespace Verif.Flattener
open Verif.Decimal (Str)
open Verif.SysFlow
open Verif.FlatRecord hiding Ctx
open Verif.Processor
open Verif.Strings (trimSpace)
open Verif.Cache (Chain)

/-! ### Specification -/

/-- The file and the second file an event is about. -/
def fileOf : Rec → Option FOID
  | .fileFlow e => some e.fileOID
  | .fileEvt e => some e.fileOID
  | _ => none
def newFileOf : Rec → Option FOID
  | .fileEvt e => e.newFileOID
  | _ => none

/-- What is known about an event `ev` that comes after the records `pre`. -/
structure Known (pre : List Rec) (ev : Rec) (c : Ctx) : Prop where
  header : c.header = headerOf pre
  proc : c.proc = (procOf ev).bind (knownProc pre)
  cont : c.cont = c.proc.bind (knownCont pre)
  pod : c.pod = c.cont.bind (knownPod pre)
  file : c.file = (fileOf ev).bind (fun id => newest (fileDef id) pre)
  newFile : c.newFile = (newFileOf ev).bind (fun id => newest (fileDef id) pre)
  /-- no ancestors for an unknown process; otherwise the ancestor chain as known at the first event of the process
  since the last header -/
  noTree : c.proc = none → c.ptree = none
  tree : ∀ id, procOf ev = some id → c.proc.isSome →
    ∃ l pre', c.ptree = some l ∧ FirstUse (pre ++ [ev]) id pre' ∧ Chain (knownProc pre') id l

/-- The event's own measurements; zero where its type has none. -/
def typeOf : Rec → Int
  | .procEvt _ => PROC_EVT | .netFlow _ => NET_FLOW | .fileFlow _ => FILE_FLOW | .fileEvt _ => FILE_EVT | .k8s _ => K8S_EVT | _ => 0
def tsOf : Rec → Int
  | .procEvt e => e.ts | .netFlow e => e.ts | .fileFlow e => e.ts | .fileEvt e => e.ts | .k8s e => e.ts | _ => 0
def tidOf : Rec → Int
  | .procEvt e => e.tid | .netFlow e => e.tid | .fileFlow e => e.tid | .fileEvt e => e.tid | _ => 0
def opFlagsOf : Rec → Int
  | .procEvt e => e.opFlags | .netFlow e => e.opFlags | .fileFlow e => e.opFlags | .fileEvt e => e.opFlags | _ => 0
def retOf : Rec → Int
  | .procEvt e => e.ret | .fileEvt e => e.ret | _ => 0
def endTsOf : Rec → Int
  | .netFlow e => e.endTs | .fileFlow e => e.endTs | .k8s e => e.ts | _ => 0
def fileFdOf : Rec → Int
  | .fileFlow e => e.fd | _ => 0
def openFlagsOf : Rec → Int
  | .fileFlow e => e.openFlags | _ => 0
def netOf (f : NetFlow → Int) : Rec → Int
  | .netFlow e => f e | _ => 0
def flowOf (f : FileFlow → Int) (g : NetFlow → Int) : Rec → Int
  | .fileFlow e => f e | .netFlow e => g e | _ => 0
def k8sOf (f : K8sEvt → Int) : Rec → Int
  | .k8s e => f e | _ => 0
def messageOf : Rec → Str
  | .k8s e => e.message | _ => []

/-- A text or a number of something that may be absent. -/
def text {α : Type} (o : Option α) (f : α → Str) : FVal := .str (from? o [] f)
def num {α : Type} (o : Option α) (f : α → Int) : FVal := .i64 (from? o 0 f)

/-- The parent in an ancestor chain. -/
def parent : Option (List Proc) → Option Proc
  | some (_ :: q :: _) => some q
  | _ => none

/-- A field of the parent process: the value `none` shows when there is no parent. -/
def ofP (pt : Option (List Proc)) (zero : FVal) (f : Proc → FVal) : FVal := from? (parent pt) zero f

/-- A field of the ancestors, the process first: none for events without a known process. -/
def chainText (pt : Option (List Proc)) (f : Proc → Str) : FVal := .str (from? pt [] (fun l => Strings.join ',' (l.map f)))

/-- The value of every exported field for an event `ev` about which `c` is known. -/
def fields (L : Lib) (F : FLib) (c : Ctx) (ev : Rec) : List (Str × FVal) :=
  [("sf.type".toList, .str (L.recType (typeOf ev))),
   ("sf.opflags".toList, .str (Strings.join ',' (L.opFlags (wrap32 (opFlagsOf ev)) (typeOf ev)))),
   ("sf.ret".toList, .i64 (retOf ev)),
   ("sf.ts".toList, .i64 (tsOf ev)),
   ("sf.endts".toList, .i64 (endTsOf ev)),
   ("sf.proc.oid".toList, .str (L.oidHash [Decimal.formatInt (from? c.proc 0 (·.oid.hpid)), Decimal.formatInt (from? c.proc 0 (·.oid.createTS))])),
   ("sf.proc.pid".toList, num c.proc (·.oid.hpid)),
   ("sf.proc.name".toList, .str (Strings.base (from? c.proc [] (fun p => trimSpace p.exe)))),
   ("sf.proc.exe".toList, text c.proc (fun p => trimSpace p.exe)),
   ("sf.proc.args".toList, text c.proc (fun p => trimSpace p.exeArgs)),
   ("sf.proc.uid".toList, num c.proc (·.uid)),
   ("sf.proc.user".toList, text c.proc (·.userName)),
   ("sf.proc.tid".toList, .i64 (tidOf ev)),
   ("sf.proc.gid".toList, num c.proc (·.gid)),
   ("sf.proc.group".toList, text c.proc (·.groupName)),
   ("sf.proc.createts".toList, num c.proc (·.oid.createTS)),
   ("sf.proc.tty".toList, num c.proc (fun p => if p.tty then 1 else 0)),
   ("sf.proc.entry".toList, num c.proc (fun p => if p.entry then 1 else 0)),
   ("sf.proc.cmdline".toList, .str (from? c.proc [] (fun p => trimSpace p.exe) ++ ' ' :: from? c.proc [] (fun p => trimSpace p.exeArgs))),
   ("sf.proc.aname".toList, chainText c.ptree procName),
   ("sf.proc.aexe".toList, chainText c.ptree (·.exe)),
   ("sf.proc.acmdline".toList, chainText c.ptree procCmd),
   ("sf.proc.apid".toList, chainText c.ptree procPid),
   ("sf.pproc.oid".toList, .str (L.oidHash [Decimal.formatInt (from? (c.proc.bind (·.poid)) 0 (·.hpid)), Decimal.formatInt (from? (c.proc.bind (·.poid)) 0 (·.createTS))])),
   ("sf.pproc.pid".toList, num (c.proc.bind (·.poid)) (·.hpid)),
   ("sf.pproc.name".toList, ofP c.ptree (.str []) (fun q => .str (procName q))),
   ("sf.pproc.exe".toList, ofP c.ptree (.str []) (fun q => .str q.exe)),
   ("sf.pproc.args".toList, ofP c.ptree (.str []) (fun q => .str q.exeArgs)),
   ("sf.pproc.uid".toList, ofP c.ptree (.i64 0) (fun q => .i32 q.uid)),
   ("sf.pproc.user".toList, ofP c.ptree (.str []) (fun q => .str q.userName)),
   ("sf.pproc.gid".toList, ofP c.ptree (.i64 0) (fun q => .i32 q.gid)),
   ("sf.pproc.group".toList, ofP c.ptree (.str []) (fun q => .str q.groupName)),
   ("sf.pproc.createts".toList, num (c.proc.bind (·.poid)) (·.createTS)),
   ("sf.pproc.tty".toList, ofP c.ptree (.i64 0) (fun q => .bool q.tty)),
   ("sf.pproc.entry".toList, ofP c.ptree (.i64 0) (fun q => .bool q.entry)),
   ("sf.pproc.cmdline".toList, ofP c.ptree (.str []) (fun q => .str (procCmd q))),
   ("sf.file.name".toList, .str (Strings.base (from? c.file [] (fun f => trimSpace f.path)))),
   ("sf.file.path".toList, .str (L.symPath (from? c.file [] (fun f => trimSpace f.path))).1),
   ("sf.file.symlink".toList, .str (L.symPath (from? c.file [] (fun f => trimSpace f.path))).2),
   ("sf.file.oid".toList, text c.file (fun f => hexEncode f.oid)),
   ("sf.file.directory".toList, .str (L.dir (L.symPath (from? c.file [] (fun f => trimSpace f.path))).1)),
   ("sf.file.newname".toList, .str (Strings.base (from? c.newFile [] (fun f => trimSpace f.path)))),
   ("sf.file.newpath".toList, .str (L.symPath (from? c.newFile [] (fun f => trimSpace f.path))).1),
   ("sf.file.newsymlink".toList, .str (L.symPath (from? c.newFile [] (fun f => trimSpace f.path))).2),
   ("sf.file.newoid".toList, text c.newFile (fun f => hexEncode f.oid)),
   ("sf.file.newdirectory".toList, .str (L.dir (L.symPath (from? c.newFile [] (fun f => trimSpace f.path))).1)),
   ("sf.file.type".toList, .str (L.fileType (from? c.file 0 (·.restype)))),
   ("sf.file.is_open_write".toList, .bool (L.isOpenWrite (openFlagsOf ev))),
   ("sf.file.is_open_read".toList, .bool (L.isOpenRead (openFlagsOf ev))),
   ("sf.file.fd".toList, .i64 (fileFdOf ev)),
   ("sf.file.openflags".toList, .str (Strings.join ',' (L.openFlags (openFlagsOf ev)))),
   ("sf.net.proto".toList, .i64 (netOf (·.proto) ev)),
   ("sf.net.sport".toList, .i64 (netOf (·.sport) ev)),
   ("sf.net.dport".toList, .i64 (netOf (·.dport) ev)),
   ("sf.net.port".toList, .str (Decimal.formatInt (netOf (·.sport) ev) ++ ',' :: Decimal.formatInt (netOf (·.dport) ev))),
   ("sf.net.sip".toList, .str (L.ipStr (wrap32 (netOf (·.sip) ev)))),
   ("sf.net.dip".toList, .str (L.ipStr (wrap32 (netOf (·.dip) ev)))),
   ("sf.net.ip".toList, .str (L.ipStr (wrap32 (netOf (·.sip) ev)) ++ ',' :: L.ipStr (wrap32 (netOf (·.dip) ev)))),
   ("sf.flow.rbytes".toList, .i64 (wrap64 (flowOf (·.numRRecvBytes) (·.numRRecvBytes) ev))),
   ("sf.flow.rops".toList, .i64 (wrap64 (flowOf (·.numRRecvOps) (·.numRRecvOps) ev))),
   ("sf.flow.wbytes".toList, .i64 (wrap64 (flowOf (·.numWSendBytes) (·.numWSendBytes) ev))),
   ("sf.flow.wops".toList, .i64 (wrap64 (flowOf (·.numWSendOps) (·.numWSendOps) ev))),
   ("sf.container.id".toList, text c.cont (·.id)),
   ("sf.container.name".toList, text c.cont (fun x => trimSpace x.name)),
   ("sf.container.imageid".toList, text c.cont (·.imageid)),
   ("sf.container.image".toList, text c.cont (fun x => trimSpace x.image)),
   ("sf.container.type".toList, .str (L.contType (from? c.cont 0 (·.ctype)))),
   ("sf.container.privileged".toList, num c.cont (fun x => if x.privileged then 1 else 0)),
   ("sf.pod.ts".toList, num c.pod (·.ts)),
   ("sf.pod.id".toList, text c.pod (·.id)),
   ("sf.pod.name".toList, text c.pod (fun x => trimSpace x.name)),
   ("sf.pod.nodename".toList, text c.pod (fun x => trimSpace x.nodeName)),
   ("sf.pod.namespace".toList, text c.pod (fun x => trimSpace x.nspace)),
   ("sf.pod.restartcnt".toList, num c.pod (·.restartCount)),
   ("sf.pod.hostip".toList, text c.pod (fun x => getIPStr F x.hostIP)),
   ("sf.pod.hostip+".toList, .intArr (c.pod.map (·.hostIP))),
   ("sf.pod.internalip".toList, text c.pod (fun x => getIPStr F x.internalIP)),
   ("sf.pod.internalip+".toList, .intArr (c.pod.map (·.internalIP))),
   ("sf.pod.services".toList, text c.pod (fun x => F.jsonSvcs x.services)),
   ("sf.pod.services+".toList, .svcArr (c.pod.map (·.services))),
   ("sf.ke.action".toList, .str (L.k8sAction (k8sOf (·.action) ev))),
   ("sf.ke.kind".toList, .str (L.k8sComponent (k8sOf (·.kind) ev))),
   ("sf.ke.message".toList, .str (messageOf ev)),
   ("sf.node.id".toList, text c.header (·.exporter)),
   ("sf.node.ip".toList, text c.header (·.ip)),
   ("sf.meta.schema".toList, num c.header (·.version)),
   ("sf.meta.tracename".toList, .str (Strings.base (from? c.header [] (·.filename))))]

/-! ### Proofs -/

theorem wrap64_left (x : Int) : wrap64 (wrap64 (0 + x) + 0) = wrap64 x := by
  unfold wrap64
  rw [Int.zero_add, Int.add_zero, Int.bmod_bmod]

theorem wrap64_right (x : Int) : wrap64 (wrap64 (0 + 0) + x) = wrap64 x := by
  unfold wrap64
  simp

theorem fields_names (L : Lib) (F : FLib) (c : Ctx) (ev : Rec) : (fields L F c ev).map Prod.fst = exportedMappers.map (·.name) := by
  rfl

/-- The stored attributes of the record of an event. -/
def intOf (c : Ctx) : Rec → IAttr → Int
  | .procEvt e, a => (procEvtInt e a).getD (entityInt c c.file c.newFile a)
  | .netFlow e, a => (netFlowInt e a).getD (entityInt c c.file c.newFile a)
  | .fileFlow e, a => (fileFlowInt e a).getD (entityInt c c.file c.newFile a)
  | .fileEvt e, a => (fileEvtInt e a).getD (entityInt c c.file c.newFile a)
  | .k8s e, a => (k8sInt e a).getD (entityInt c c.file c.newFile a)
  | _, _ => 0
def strOf (F : FLib) (c : Ctx) : Rec → SAttr → Str
  | .k8s e, .K8SE_MESSAGE_STR => e.message
  | _, a => entityStr F c c.file c.newFile a

/-- A record that stores what is known about the event. -/
structure Stores (F : FLib) (c : Ctx) (ev : Rec) (fr : FlatRec) : Prop where
  int : ∀ a, fr.getInt a .sysflow = intOf c ev a
  str : ∀ a, fr.getStr a .sysflow = strOf F c ev a
  lists : PodLists c fr
  tree : fr.ptree = c.ptree

theorem from?_bind {α β γ : Type} (o : Option α) (zero : γ) (f : α → Option β) (g : β → γ) :
    from? (o.bind f) zero g = from? o zero (fun a => from? (f a) zero g) := by
  cases o <;> rfl

theorem cmdLine_fun : cmdLine = procCmd := funext cmdLine_eq

/-- The cached fields of a record with ancestors `pt`. -/
theorem cached_values (fr : FlatRec) (pt : Option (List Proc)) (ht : fr.ptree = pt) :
    fr.getCachedValue .ProcAName = chainText pt procName
    ∧ fr.getCachedValue .ProcAExe = chainText pt (·.exe)
    ∧ fr.getCachedValue .ProcACmdLine = chainText pt procCmd
    ∧ fr.getCachedValue .ProcAPID = chainText pt procPid
    ∧ fr.getCachedValue .PProcName = ofP pt (.str []) (fun q => .str (procName q))
    ∧ fr.getCachedValue .PProcExe = ofP pt (.str []) (fun q => .str q.exe)
    ∧ fr.getCachedValue .PProcArgs = ofP pt (.str []) (fun q => .str q.exeArgs)
    ∧ fr.getCachedValue .PProcUID = ofP pt (.i64 0) (fun q => .i32 q.uid)
    ∧ fr.getCachedValue .PProcUser = ofP pt (.str []) (fun q => .str q.userName)
    ∧ fr.getCachedValue .PProcGID = ofP pt (.i64 0) (fun q => .i32 q.gid)
    ∧ fr.getCachedValue .PProcGroup = ofP pt (.str []) (fun q => .str q.groupName)
    ∧ fr.getCachedValue .PProcTTY = ofP pt (.i64 0) (fun q => .bool q.tty)
    ∧ fr.getCachedValue .PProcEntry = ofP pt (.i64 0) (fun q => .bool q.entry)
    ∧ fr.getCachedValue .PProcCmdLine = ofP pt (.str []) (fun q => .str (procCmd q)) := by
  rw [← cmdLine_fun]
  obtain ⟨se, p, n⟩ := fr
  have ht : p = pt := ht
  subst ht
  match p with
  | none => exact ⟨rfl, rfl, rfl, rfl, rfl, rfl, rfl, rfl, rfl, rfl, rfl, rfl, rfl, rfl⟩
  | some [] => exact ⟨rfl, rfl, rfl, rfl, rfl, rfl, rfl, rfl, rfl, rfl, rfl, rfl, rfl, rfl⟩
  | some [_] => exact ⟨rfl, rfl, rfl, rfl, rfl, rfl, rfl, rfl, rfl, rfl, rfl, rfl, rfl, rfl⟩
  | some (_ :: _ :: _) => exact ⟨rfl, rfl, rfl, rfl, rfl, rfl, rfl, rfl, rfl, rfl, rfl, rfl, rfl, rfl⟩

theorem cons_eq {α : Type} {a b : α} {as bs : List α} (h : a = b) (hs : as = bs) : a :: as = b :: bs := by rw [h, hs]

theorem fields_values (L : Lib) (F : FLib) (c : Ctx) (ev : Rec) (hev : isEvent ev = true) (fr : FlatRec) (h : Stores F c ev fr) :
    exportedMappers.map (fun e => e.map.run L fr) = (fields L F c ev).map Prod.snd := by
  obtain ⟨hI, hS, ⟨hl1, hl2, hl3⟩, ht⟩ := h
  obtain ⟨k1, k2, k3, k4, k5, k6, k7, k8, k9, k10, k11, k12, k13, k14⟩ := cached_values fr c.ptree ht
  unfold exportedMappers fields
  simp only [List.map_cons, List.map_nil, Mapper.run, hI, hS, hl1, hl2, hl3, k1, k2, k3, k4, k5, k6, k7, k8, k9, k10, k11, k12, k13, k14,
    num, text, from?_bind, List.foldl_cons, List.foldl_nil]
  cases ev with
  | procEvt e =>
    repeat' (refine cons_eq ?_ ?_)
    all_goals first
      | rfl
      | exact congrArg FVal.i64 (wrap64_left _)
  | netFlow e =>
    repeat' (refine cons_eq ?_ ?_)
    all_goals first
      | rfl
      | exact congrArg FVal.i64 (wrap64_right _)
  | fileFlow e =>
    repeat' (refine cons_eq ?_ ?_)
    all_goals first
      | rfl
      | exact congrArg FVal.i64 (wrap64_left _)
  | fileEvt e =>
    repeat' (refine cons_eq ?_ ?_)
    all_goals first
      | rfl
      | exact congrArg FVal.i64 (wrap64_left _)
  | k8s e =>
    repeat' (refine cons_eq ?_ ?_)
    all_goals first
      | rfl
      | exact congrArg FVal.i64 (wrap64_left _)
  | _ => cases hev

/-- Reading the table through the attribute names. -/
theorem fields_read (L : Lib) (F : FLib) (c : Ctx) (ev : Rec) (hev : isEvent ev = true) (fr : FlatRec) (h : Stores F c ev fr) :
    exportedMappers.map (fun e => (e.name, mapAttr L getMappers e.name fr)) = fields L F c ev := by
  have h1 : exportedMappers.map (fun e => (e.name, mapAttr L getMappers e.name fr)) = exportedMappers.map (fun e => (e.name, e.map.run L fr)) := by
    refine List.map_congr_left (fun e he => ?_)
    unfold mapAttr
    rw [field_table_sound.1 e he]
  have h2 : ∀ (es : List FieldEntry) (l : List (Str × FVal)), l.map Prod.fst = es.map (·.name) → es.map (fun e => e.map.run L fr) = l.map Prod.snd →
      es.map (fun e => (e.name, e.map.run L fr)) = l := by
    intro es
    induction es with
    | nil => intro l h _; cases l with
      | nil => rfl
      | cons _ _ => cases h
    | cons e es ih =>
      intro l h h'
      cases l with
      | nil => cases h
      | cons x l =>
        rw [List.map_cons, List.map_cons, List.cons.injEq] at h h'
        rw [List.map_cons, ih l h.2 h'.2, ← h.1, h'.1]
  rw [h1]
  exact h2 _ _ (fields_names L F c ev) (fields_values L F c ev hev fr h)

/-- The handler call for an event carries what is known, and the record made from it stores that. -/
theorem call_stores (F : FLib) (pre : List Rec) (ev : Rec) (calls : List HCall) (hev : isEvent ev = true) (h : CallSpec pre ev calls) :
    ∃ call c fr, calls = [call] ∧ eventOf call = some ev ∧ recOf F call = some fr ∧ Known pre ev c ∧ Stores F c ev fr := by
  have known : ∀ (id : OID) (c : Ctx), procOf ev = some id → EventCtx pre ev id c → c.file = (fileOf ev).bind (fun id => newest (fileDef id) pre) →
      c.newFile = (newFileOf ev).bind (fun id => newest (fileDef id) pre) → Known pre ev c := by
    intro id c hp hc hf hn
    refine ⟨hc.header, ?_, ?_, ?_, hf, hn, ?_, ?_⟩
    · rw [hp]; exact hc.proc
    · rw [hc.cont, hc.proc]
    · rw [hc.pod, hc.cont]
    · intro h0; exact hc.noTree (hc.proc ▸ h0)
    · intro id' hid hs
      rw [hp] at hid
      cases hid
      exact hc.tree (hc.proc ▸ hs)
  cases h with
  | k8s e =>
    refine ⟨_, { header := headerOf pre }, _, rfl, rfl, rfl, ⟨rfl, rfl, rfl, rfl, rfl, rfl, fun _ => rfl, fun _ h => by cases h⟩, ⟨?_, ?_, ?_, rfl⟩⟩
    · intro a
      rw [k8s_ints]
      cases a <;> rfl
    · intro a
      rw [(flat_strs F _ a).2.2.2.2]
      cases a <;> rfl
    · refine arrays_mk _ _ _ (fun a => ?_)
      cases headerOf pre <;> cases a <;> rfl
  | procEvt e c hc hf hn =>
    refine ⟨_, c, _, rfl, rfl, rfl, known _ c rfl hc hf hn, ⟨fun a => ?_, fun a => ?_, (flat_anys F c).1 e, rfl⟩⟩
    · rw [procEvt_ints]; unfold intOf; rw [hf, hn]
    · rw [(flat_strs F c a).1]; unfold strOf; rw [hf, hn]
  | netFlow e c hc hf hn =>
    refine ⟨_, c, _, rfl, rfl, rfl, known _ c rfl hc hf hn, ⟨fun a => ?_, fun a => ?_, (flat_anys F c).2.2.2 e, rfl⟩⟩
    · rw [netFlow_ints]; unfold intOf; rw [hf, hn]
    · rw [(flat_strs F c a).2.2.2.1]; unfold strOf; rw [hf, hn]
  | fileFlow e c hc hf hn =>
    refine ⟨_, c, _, rfl, rfl, rfl, known _ c rfl hc hf hn, ⟨fun a => ?_, fun a => ?_, (flat_anys F c).2.2.1 e, rfl⟩⟩
    · rw [fileFlow_ints]; unfold intOf; rw [hn]
    · rw [(flat_strs F c a).2.2.1]; unfold strOf; rw [hn]
  | fileEvt e c hc hf hn =>
    refine ⟨_, c, _, rfl, rfl, rfl, known _ c rfl hc hf hn, ⟨fun a => ?_, fun a => ?_, (flat_anys F c).2.1 e, rfl⟩⟩
    · rw [fileEvt_ints]; rfl
    · rw [(flat_strs F c a).2.1]; rfl
  | other r h => rw [hev] at h; cases h

/-- The events of a stream, each with the records before it. -/
def eventsAfter (pre : List Rec) : List Rec → List (List Rec × Rec)
  | [] => []
  | r :: rs => (if isEvent r then [(pre, r)] else []) ++ eventsAfter (pre ++ [r]) rs

/-- A flat record shows the fields of event `x.2` after `x.1`. -/
def Shows (L : Lib) (F : FLib) (x : List Rec × Rec) (fr : FlatRec) : Prop :=
  ∃ c, Known x.1 x.2 c ∧ exportedMappers.map (fun e => (e.name, mapAttr L getMappers e.name fr)) = fields L F c x.2

/-- A flat record stores what is known about event `x.2` after `x.1`. -/
def StoresEvent (F : FLib) (x : List Rec × Rec) (fr : FlatRec) : Prop := isEvent x.2 = true ∧ ∃ c, Known x.1 x.2 c ∧ Stores F c x.2 fr

theorem calls_store (F : FLib) (fuel : Nat) (rs : List Rec) : ∀ (pre : List Rec) (s0 s : Processor.State) (cs0 cs : List HCall),
    run false fuel .init pre = some (s0, cs0) → run false fuel s0 rs = some (s, cs) →
    List.Forall₂ (StoresEvent F) (eventsAfter pre rs) (cs.filterMap (recOf F)) := by
  induction rs with
  | nil =>
    intro pre s0 s cs0 cs _ h
    cases h
    exact .nil
  | cons r rs ih =>
    intro pre s0 s cs0 cs hp h
    simp only [run] at h
    split at h
    · cases h
    · rename_i s1 cs1 hs
      split at h
      · cases h
      · rename_i s2 cs2 hr
        cases h
        have hp' : run false fuel .init (pre ++ [r]) = some (s1, cs0 ++ cs1) := by
          rw [run_append, hp]
          simp only [run, hs, List.append_nil]
        have htail := ih (pre ++ [r]) s1 s (cs0 ++ cs1) cs2 hp' hr
        obtain ⟨s0', cs0', calls, e1, e2, e3⟩ := reader_context fuel pre r s1 (cs0 ++ cs1) hp'
        rw [hp] at e1
        cases e1
        have ec : cs1 = calls := List.append_cancel_left e2
        subst ec
        rw [List.filterMap_append, eventsAfter]
        cases hev : isEvent r with
        | true =>
          obtain ⟨call, c, fr, h1, h2, h3, h4, h5⟩ := call_stores F pre r cs1 hev e3
          subst h1
          simp only [if_true, List.filterMap_cons, h3, List.filterMap_nil, List.singleton_append]
          exact .cons ⟨hev, c, h4, h5⟩ htail
        | false =>
          cases e3 with
          | other _ _ => simpa using htail
          | k8s e => cases hev
          | procEvt e => cases hev
          | netFlow e => cases hev
          | fileFlow e => cases hev
          | fileEvt e => cases hev

theorem calls_show (L : Lib) (F : FLib) (fuel : Nat) (rs pre : List Rec) (s0 s : Processor.State) (cs0 cs : List HCall)
    (hp : run false fuel .init pre = some (s0, cs0)) (h : run false fuel s0 rs = some (s, cs)) :
    List.Forall₂ (Shows L F) (eventsAfter pre rs) (cs.filterMap (recOf F)) := by
  refine (calls_store F fuel rs pre s0 s cs0 cs hp h).imp ?_
  rintro x fr ⟨hev, c, h1, h2⟩
  exact ⟨c, h1, fields_read L F c x.2 hev fr h2⟩

/-! ## C71 -/

/-- **C71** Reading a stream of SysFlow records and flattening it (without duplicate suppression) gives on every output channel one
record per event, in order; and every field of the record, as rules and exporters read it by name, is the value shown by the event itself
or by the process, container, pod, files, ancestors and header known from the stream at that point. -/
theorem stream_to_fields (L : Lib) (F : FLib) (fuel : Nat) (rs : List Rec) (s : Processor.State) (cs : List HCall) (h : run false fuel .init rs = some (s, cs))
    (ttl : Int) (n : Nat) (xs : List Timed) (hx : xs.map (·.call) = cs) :
    ∃ recs, (handles F (init false ttl n) xs).outs = List.replicate n recs ∧ List.Forall₂ (Shows L F) (eventsAfter [] rs) recs := by
  refine ⟨cs.filterMap (recOf F), ?_, calls_show L F fuel rs [] .init s [] cs rfl h⟩
  rw [all_delivered_without_filter, ← hx, List.filterMap_map]
  rfl

/-- What `Shows` says about a single field: looking up any exported field by name gives the value of the table. -/
theorem shows_field {L : Lib} {F : FLib} {x : List Rec × Rec} {fr : FlatRec} (h : Shows L F x fr) :
    ∃ c, Known x.1 x.2 c ∧ ∀ name v, (name, v) ∈ fields L F c x.2 → mapAttr L getMappers name fr = v := by
  obtain ⟨c, hc, he⟩ := h
  refine ⟨c, hc, fun name v hm => ?_⟩
  rw [← he, List.mem_map] at hm
  obtain ⟨e, _, h⟩ := hm
  cases h
  rfl

/-- The events with their histories are exactly the splits of the stream at an event. -/
theorem eventsAfter_spec (rs : List Rec) : (eventsAfter [] rs).map (·.2) = rs.filter isEvent
    ∧ ∀ pre ev, (pre, ev) ∈ eventsAfter [] rs ↔ isEvent ev = true ∧ ∃ post, rs = pre ++ ev :: post := by
  have key : ∀ (rs pre0 : List Rec), (eventsAfter pre0 rs).map (·.2) = rs.filter isEvent
      ∧ ∀ pre ev, (pre, ev) ∈ eventsAfter pre0 rs ↔ isEvent ev = true ∧ ∃ mid post, pre = pre0 ++ mid ∧ rs = mid ++ ev :: post := by
    intro rs
    induction rs with
    | nil =>
      intro pre0
      refine ⟨rfl, fun pre ev => ⟨fun h => (by cases h), ?_⟩⟩
      rintro ⟨_, mid, post, _, h⟩
      cases mid <;> cases h
    | cons r rs ih =>
      intro pre0
      obtain ⟨h1, h2⟩ := ih (pre0 ++ [r])
      refine ⟨?_, fun pre ev => ?_⟩
      · rw [eventsAfter, List.map_append, h1, List.filter_cons]
        cases isEvent r <;> simp
      · rw [eventsAfter, List.mem_append, h2]
        constructor
        · rintro (h | ⟨he, mid, post, rfl, rfl⟩)
          · cases hr : isEvent r with
            | false => simp [hr] at h
            | true =>
              simp only [hr, if_true, List.mem_singleton, Prod.mk.injEq] at h
              obtain ⟨rfl, rfl⟩ := h
              exact ⟨hr, [], rs, by simp, rfl⟩
          · exact ⟨he, r :: mid, post, by simp, rfl⟩
        · rintro ⟨he, mid, post, rfl, h⟩
          cases mid with
          | nil =>
            cases h
            left
            simp [he]
          | cons m mid =>
            cases h
            right
            exact ⟨he, mid, post, by simp, rfl⟩
  obtain ⟨h1, h2⟩ := key rs []
  refine ⟨h1, fun pre ev => ?_⟩
  rw [h2]
  constructor
  · rintro ⟨he, mid, post, rfl, rfl⟩; exact ⟨he, post, rfl⟩
  · rintro ⟨he, post, rfl⟩; exact ⟨he, pre, post, rfl, rfl⟩

/-! ### The specification determines the values -/

theorem firstUse_unique {rs : List Rec} {id : OID} {p p' : List Rec} (h : FirstUse rs id p) (h' : FirstUse rs id p') : p = p' := by
  have lt : ∀ {p p' : List Rec}, FirstUse rs id p → FirstUse rs id p' → ¬ p.length < p'.length := by
    rintro p p' ⟨ev, post, e, hh, ho, hk, _⟩ ⟨ev', post', e', _, _, _, hfirst⟩ hlt
    rw [e] at e'
    obtain ⟨mid, rfl⟩ : ∃ mid, p' = p ++ ev :: mid := by
      have h1 : p ++ ev :: post = p ++ [ev] ++ post := by simp
      have h2 : p ++ [ev] <+: p' := by
        refine List.prefix_of_prefix_length_le (l₃ := p' ++ ev' :: post') ?_ (List.prefix_append _ _) (by simp; omega)
        rw [← e', h1]
        exact List.prefix_append _ _
      obtain ⟨mid, hm⟩ := h2
      exact ⟨mid, by rw [← hm]; simp⟩
    have e2 : post = mid ++ ev' :: post' := by
      rw [List.append_assoc] at e'
      have := List.append_cancel_left e'
      exact (List.cons.inj this).2
    have hn : ∀ r ∈ ev :: mid, r.isHeader = false := by
      intro r hr
      refine hh r ?_
      rcases List.mem_cons.mp hr with rfl | hr
      · exact List.mem_cons_self
      · rw [e2]; exact List.mem_cons_of_mem _ (List.mem_append_left _ hr)
    have := hfirst p ev mid rfl hn ho
    rw [this] at hk
    cases hk
  have l1 := lt h h'
  have l2 := lt h' h
  have hl : p.length = p'.length := by omega
  obtain ⟨ev, post, e, _⟩ := h
  obtain ⟨ev', post', e', _⟩ := h'
  rw [e] at e'
  exact (List.append_inj e' hl).1

/-- What is known about an event is determined by the stream. -/
theorem known_unique {pre : List Rec} {ev : Rec} {c c' : Ctx} (h : Known pre ev c) (h' : Known pre ev c') : c = c' := by
  have e1 : c.header = c'.header := h.header.trans h'.header.symm
  have e2 : c.proc = c'.proc := h.proc.trans h'.proc.symm
  have e3 : c.cont = c'.cont := by rw [h.cont, h'.cont, e2]
  have e4 : c.pod = c'.pod := by rw [h.pod, h'.pod, e3]
  have e5 : c.file = c'.file := h.file.trans h'.file.symm
  have e6 : c.newFile = c'.newFile := h.newFile.trans h'.newFile.symm
  have e7 : c.ptree = c'.ptree := by
    cases hp : c.proc with
    | none => rw [h.noTree hp, h'.noTree (e2 ▸ hp)]
    | some p =>
      have hs : c.proc.isSome := by rw [hp]; rfl
      cases ho : procOf ev with
      | none =>
        have := h.proc
        rw [ho, hp] at this
        cases this
      | some id =>
        obtain ⟨l, q, t1, t2, t3⟩ := h.tree id ho hs
        obtain ⟨l', q', t1', t2', t3'⟩ := h'.tree id ho (e2 ▸ hs)
        have := firstUse_unique t2 t2'
        subst this
        rw [t1, t1', Cache.chain_unique t3 t3']
  cases c
  cases c'
  simp only at e1 e2 e3 e4 e5 e6 e7
  subst e1 e2 e3 e4 e5 e6 e7
  rfl

/-! ### Concrete stream -/

/-- The theorem applies to the stream of `Verif.Processor.demoStream`; among the fields of its second record, after the process has
replaced its executable, are the new executable and the container's and pod's names. -/
example : ∃ s cs, run false 10 .init demoStream = some (s, cs) ∧ (eventsAfter [] demoStream).map (·.2) = [.procEvt (demoPE 2), .procEvt (demoPE 2), .procEvt (demoPE 5)] := by
  have h : (run false 10 .init demoStream).isSome = true := by decide
  obtain ⟨⟨s, cs⟩, h⟩ := Option.isSome_iff_exists.mp h
  exact ⟨s, cs, h, rfl⟩

example (L : Lib) (F : FLib) : ∀ c, Known (demoStream.take 7) (.procEvt (demoPE 2)) c →
    ("sf.proc.exe".toList, FVal.str "/bin/ls".toList) ∈ fields L F c (.procEvt (demoPE 2))
    ∧ ("sf.container.name".toList, FVal.str "web".toList) ∈ fields L F c (.procEvt (demoPE 2))
    ∧ ("sf.pod.name".toList, FVal.str "pod".toList) ∈ fields L F c (.procEvt (demoPE 2)) := by
  intro c hc
  have hp : c.proc = some (withCont (Cache.demoProc .modified 2 (some 1) "/bin/ls")) := by rw [hc.proc]; decide
  have hct : c.cont = some demoCont := by rw [hc.cont, hp]; decide
  have hpd : c.pod = some demoPod := by rw [hc.pod, hct]; decide
  unfold fields
  rw [hp, hct, hpd]
  have m1 : ∀ (n : Nat) (l : List (Str × FVal)) (x : Str × FVal), l[n]? = some x → x ∈ l := fun n l x h => List.mem_of_getElem? h
  refine ⟨m1 8 _ _ ?_, m1 63 _ _ ?_, m1 70 _ _ ?_⟩ <;> rfl

end Verif.Flattener

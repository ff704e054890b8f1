import Verif.Flattener.Model
import Verif.Flattener.FilterProps
import Verif.Processor.Props
/-
C40 (delivery) and C41 (attributes are preserved), and the flattener level of C33.
-/
namespace Verif.Flattener
open Verif.Decimal (Str)
open Verif.SysFlow
open Verif.FlatRecord
open Verif.Processor (Ctx HCall)
open Verif.Filter (Filter semanticHash)
open Verif.Strings (trimSpace)

/-! ## C41: specification — where each attribute comes from -/

/-- The value of an attribute of an entity that may be absent. -/
def from? {α β : Type} (o : Option α) (zero : β) (f : α → β) : β :=
  match o with
  | some x => f x
  | none => zero

/-- The numbers of the states of entities. -/
def stateNumber : ObjState → Int
  | .created => 0
  | .modified => 1
  | .reup => 2

theorem stateNumber_eq : ∀ s : ObjState, s.toInt = stateNumber s
  | .created => rfl
  | .modified => rfl
  | .reup => rfl

/-- The integer attributes of the entities of an event. -/
def entityInt (c : Ctx) (file newFile : Option File) : IAttr → Int
  | .SFHE_VERSION_INT => from? c.header 0 (·.version)
  | .CONT_TYPE_INT => from? c.cont 0 (·.ctype)
  | .CONT_PRIVILEGED_INT => from? c.cont 0 (fun x => if x.privileged then 1 else 0)
  | .POD_TS_INT => from? c.pod 0 (·.ts)
  | .POD_RESTARTCOUNT_INT => from? c.pod 0 (·.restartCount)
  | .PROC_STATE_INT => from? c.proc 0 (fun x => stateNumber x.state)
  | .PROC_OID_CREATETS_INT => from? c.proc 0 (·.oid.createTS)
  | .PROC_OID_HPID_INT => from? c.proc 0 (·.oid.hpid)
  | .PROC_POID_CREATETS_INT => from? c.proc 0 (fun p => from? p.poid 0 (·.createTS))
  | .PROC_POID_HPID_INT => from? c.proc 0 (fun p => from? p.poid 0 (·.hpid))
  | .PROC_TS_INT => from? c.proc 0 (·.ts)
  | .PROC_UID_INT => from? c.proc 0 (·.uid)
  | .PROC_GID_INT => from? c.proc 0 (·.gid)
  | .PROC_TTY_INT => from? c.proc 0 (fun p => if p.tty then 1 else 0)
  | .PROC_ENTRY_INT => from? c.proc 0 (fun p => if p.entry then 1 else 0)
  | .FILE_STATE_INT => from? file 0 (fun x => stateNumber x.state)
  | .FILE_TS_INT => from? file 0 (·.ts)
  | .FILE_RESTYPE_INT => from? file 0 (·.restype)
  | .SEC_FILE_STATE_INT => from? newFile 0 (fun x => stateNumber x.state)
  | .SEC_FILE_TS_INT => from? newFile 0 (·.ts)
  | .SEC_FILE_RESTYPE_INT => from? newFile 0 (·.restype)
  | _ => 0

/-- The string attributes of the entities of an event (all others are empty). -/
def entityStr (L : FLib) (c : Ctx) (file newFile : Option File) : SAttr → Str
  | .SFHE_EXPORTER_STR => from? c.header [] (·.exporter)
  | .SFHE_IP_STR => from? c.header [] (·.ip)
  | .SFHE_FILENAME_STR => from? c.header [] (·.filename)
  | .CONT_ID_STR => from? c.cont [] (·.id)
  | .CONT_NAME_STR => from? c.cont [] (fun x => trimSpace x.name)
  | .CONT_IMAGE_STR => from? c.cont [] (fun x => trimSpace x.image)
  | .CONT_IMAGEID_STR => from? c.cont [] (·.imageid)
  | .POD_ID_STR => from? c.pod [] (·.id)
  | .POD_NAME_STR => from? c.pod [] (fun x => trimSpace x.name)
  | .POD_NODENAME_STR => from? c.pod [] (fun x => trimSpace x.nodeName)
  | .POD_NAMESPACE_STR => from? c.pod [] (fun x => trimSpace x.nspace)
  | .POD_HOSTIP_STR => from? c.pod [] (fun x => getIPStr L x.hostIP)
  | .POD_INTERNALIP_STR => from? c.pod [] (fun x => getIPStr L x.internalIP)
  | .POD_SERVICES_STR => from? c.pod [] (fun x => L.jsonSvcs x.services)
  | .PROC_EXE_STR => from? c.proc [] (fun x => trimSpace x.exe)
  | .PROC_EXEARGS_STR => from? c.proc [] (fun x => trimSpace x.exeArgs)
  | .PROC_USERNAME_STR => from? c.proc [] (·.userName)
  | .PROC_GROUPNAME_STR => from? c.proc [] (·.groupName)
  | .PROC_CONTAINERID_STRING_STR => from? c.proc [] (fun x => x.containerId.getD [])
  | .FILE_PATH_STR => from? file [] (fun x => trimSpace x.path)
  | .FILE_OID_STR => from? file [] (fun x => hexEncode x.oid)
  | .FILE_CONTAINERID_STRING_STR => from? file [] (fun x => x.containerId.getD [])
  | .SEC_FILE_PATH_STR => from? newFile [] (fun x => trimSpace x.path)
  | .SEC_FILE_OID_STR => from? newFile [] (fun x => hexEncode x.oid)
  | .SEC_FILE_CONTAINERID_STRING_STR => from? newFile [] (fun x => x.containerId.getD [])
  | .K8SE_MESSAGE_STR => []

/-- The list attributes. -/
def entityAny (c : Ctx) : AAttr → AnyVal
  | .POD_HOSTIP_ANY => from? c.pod .nil (fun x => .ints x.hostIP)
  | .POD_INTERNALIP_ANY => from? c.pod .nil (fun x => .ints x.internalIP)
  | .POD_SERVICES_ANY => from? c.pod .nil (fun x => .svcs x.services)

/-- The attributes a process event contributes. -/
def procEvtInt (e : ProcEvt) : IAttr → Option Int
  | .SF_REC_TYPE => some PROC_EVT | .TS_INT => some e.ts | .TID_INT => some e.tid | .OPFLAGS_INT => some e.opFlags
  | .RET_INT => some e.ret | _ => none
/-- The attributes a file event contributes. -/
def fileEvtInt (e : FileEvt) : IAttr → Option Int
  | .SF_REC_TYPE => some FILE_EVT | .TS_INT => some e.ts | .TID_INT => some e.tid | .OPFLAGS_INT => some e.opFlags
  | .RET_INT => some e.ret | _ => none
/-- The attributes a file flow contributes. -/
def fileFlowInt (e : FileFlow) : IAttr → Option Int
  | .SF_REC_TYPE => some FILE_FLOW | .TS_INT => some e.ts | .TID_INT => some e.tid | .OPFLAGS_INT => some e.opFlags
  | .FL_FILE_OPENFLAGS_INT => some e.openFlags | .FL_FILE_ENDTS_INT => some e.endTs | .FL_FILE_FD_INT => some e.fd
  | .FL_FILE_NUMRRECVOPS_INT => some e.numRRecvOps | .FL_FILE_NUMWSENDOPS_INT => some e.numWSendOps
  | .FL_FILE_NUMRRECVBYTES_INT => some e.numRRecvBytes | .FL_FILE_NUMWSENDBYTES_INT => some e.numWSendBytes | _ => none
/-- The attributes a network flow contributes. -/
def netFlowInt (e : NetFlow) : IAttr → Option Int
  | .SF_REC_TYPE => some NET_FLOW | .TS_INT => some e.ts | .TID_INT => some e.tid | .OPFLAGS_INT => some e.opFlags
  | .FL_NETW_ENDTS_INT => some e.endTs | .FL_NETW_SIP_INT => some e.sip | .FL_NETW_SPORT_INT => some e.sport
  | .FL_NETW_DIP_INT => some e.dip | .FL_NETW_DPORT_INT => some e.dport | .FL_NETW_PROTO_INT => some e.proto
  | .FL_NETW_FD_INT => some e.fd | .FL_NETW_NUMRRECVOPS_INT => some e.numRRecvOps
  | .FL_NETW_NUMWSENDOPS_INT => some e.numWSendOps | .FL_NETW_NUMRRECVBYTES_INT => some e.numRRecvBytes
  | .FL_NETW_NUMWSENDBYTES_INT => some e.numWSendBytes | _ => none

/-- The attributes a Kubernetes event contributes. -/
def k8sInt (e : K8sEvt) : IAttr → Option Int
  | .SF_REC_TYPE => some K8S_EVT | .TS_INT => some e.ts | .K8SE_KIND_INT => some e.kind | .K8SE_ACTION_INT => some e.action
  | _ => none

/-! ### Proofs -/

theorem getInt_mk (s : Sect) (pt : Option (List Proc)) (a : IAttr) : (mkRec s pt).getInt a .sysflow = s.ints a := rfl
theorem getStr_mk (s : Sect) (pt : Option (List Proc)) (a : SAttr) : (mkRec s pt).getStr a .sysflow = s.strs a := rfl

theorem zeroI (a : IAttr) : zeroSect.ints a = 0 := rfl
theorem zeroS (a : SAttr) : zeroSect.strs a = [] := rfl
theorem zeroA (a : AAttr) : zeroSect.anys a = .nil := rfl

def isHeaderI : IAttr → Bool | .SFHE_VERSION_INT => true | _ => false
def isContI : IAttr → Bool | .CONT_TYPE_INT => true | .CONT_PRIVILEGED_INT => true | _ => false
def isPodI : IAttr → Bool | .POD_TS_INT => true | .POD_RESTARTCOUNT_INT => true | _ => false
def isProcI : IAttr → Bool
  | .PROC_STATE_INT | .PROC_OID_CREATETS_INT | .PROC_OID_HPID_INT | .PROC_POID_CREATETS_INT | .PROC_POID_HPID_INT | .PROC_TS_INT
  | .PROC_UID_INT | .PROC_GID_INT | .PROC_TTY_INT | .PROC_ENTRY_INT => true
  | _ => false
def isFileI : IAttr → Bool | .FILE_STATE_INT => true | .FILE_TS_INT => true | .FILE_RESTYPE_INT => true | _ => false
def isSecI : IAttr → Bool | .SEC_FILE_STATE_INT => true | .SEC_FILE_TS_INT => true | .SEC_FILE_RESTYPE_INT => true | _ => false

theorem header_I (c : Ctx) (f nf : Option File) (s : Sect) (a : IAttr) :
    (fillHeader c.header s).ints a = if isHeaderI a then entityInt c f nf a else s.ints a := by
  cases a <;> cases h : c.header <;> first | rfl | (simp only [entityInt, h]; rfl)
theorem cont_I (c : Ctx) (f nf : Option File) (s : Sect) (a : IAttr) :
    (fillCont c.cont s).ints a = if isContI a then entityInt c f nf a else s.ints a := by
  cases a <;> cases h : c.cont <;> first | rfl | (simp only [entityInt, h]; rfl)
theorem pod_I (L : FLib) (c : Ctx) (f nf : Option File) (s : Sect) (a : IAttr) :
    (fillPod L c.pod s).ints a = if isPodI a then entityInt c f nf a else s.ints a := by
  cases a <;> cases h : c.pod <;> first | rfl | (simp only [entityInt, h]; rfl)
theorem proc_I (c : Ctx) (f nf : Option File) (s : Sect) (a : IAttr) :
    (fillProc c.proc s).ints a = if isProcI a then entityInt c f nf a else s.ints a := by
  cases h : c.proc with
  | none => cases a <;> first | rfl | (simp only [entityInt, h]; rfl)
  | some p =>
    obtain ⟨st, oid, po, ts, exe, ar, uid, un, gid, gn, tty, en, ci⟩ := p
    cases po <;> cases a <;> first | rfl | (simp only [entityInt, h]; rfl)
theorem file_I (c : Ctx) (f nf : Option File) (s : Sect) (a : IAttr) :
    (fillFile f s).ints a = if isFileI a then entityInt c f nf a else s.ints a := by
  cases a <;> cases f <;> rfl
theorem sec_I (c : Ctx) (f nf : Option File) (s : Sect) (a : IAttr) :
    (fillNewFile nf s).ints a = if isSecI a then entityInt c f nf a else s.ints a := by
  cases a <;> cases nf <;> rfl

def isHeaderS : SAttr → Bool | .SFHE_EXPORTER_STR => true | .SFHE_IP_STR => true | _ => false
def isContS : SAttr → Bool | .CONT_ID_STR => true | .CONT_NAME_STR => true | .CONT_IMAGE_STR => true | .CONT_IMAGEID_STR => true | _ => false
def isPodS : SAttr → Bool
  | .POD_ID_STR | .POD_NAME_STR | .POD_NODENAME_STR | .POD_NAMESPACE_STR | .POD_HOSTIP_STR | .POD_INTERNALIP_STR | .POD_SERVICES_STR => true
  | _ => false
def isProcS : SAttr → Bool
  | .PROC_EXE_STR | .PROC_EXEARGS_STR | .PROC_USERNAME_STR | .PROC_GROUPNAME_STR | .PROC_CONTAINERID_STRING_STR => true
  | _ => false
def isFileS : SAttr → Bool | .FILE_PATH_STR => true | .FILE_OID_STR => true | .FILE_CONTAINERID_STRING_STR => true | _ => false
def isSecS : SAttr → Bool
  | .SEC_FILE_PATH_STR => true | .SEC_FILE_OID_STR => true | .SEC_FILE_CONTAINERID_STRING_STR => true | _ => false

theorem header_S (L : FLib) (c : Ctx) (f nf : Option File) (s : Sect) (hs : s.strs .SFHE_FILENAME_STR = []) (a : SAttr) :
    (fillHeader c.header s).strs a = if isHeaderS a ∨ a = .SFHE_FILENAME_STR then entityStr L c f nf a else s.strs a := by
  cases a <;> cases h : c.header <;> first | rfl | (simp only [entityStr, h]; first | rfl | exact hs)
theorem cont_S (L : FLib) (c : Ctx) (f nf : Option File) (s : Sect) (a : SAttr) :
    (fillCont c.cont s).strs a = if isContS a then entityStr L c f nf a else s.strs a := by
  cases a <;> cases h : c.cont <;> first | rfl | (simp only [entityStr, h]; rfl)
theorem pod_S (L : FLib) (c : Ctx) (f nf : Option File) (s : Sect) (a : SAttr) :
    (fillPod L c.pod s).strs a = if isPodS a then entityStr L c f nf a else s.strs a := by
  cases a <;> cases h : c.pod <;> first | rfl | (simp only [entityStr, h]; rfl)
theorem proc_S (L : FLib) (c : Ctx) (f nf : Option File) (s : Sect) (a : SAttr) :
    (fillProc c.proc s).strs a = if isProcS a then entityStr L c f nf a else s.strs a := by
  cases h : c.proc with
  | none => cases a <;> first | rfl | (simp only [entityStr, h]; rfl)
  | some p =>
    obtain ⟨st, oid, po, ts, exe, ar, uid, un, gid, gn, tty, en, ci⟩ := p
    cases po <;> cases a <;> first | rfl | (simp only [entityStr, h]; rfl)
theorem file_S (L : FLib) (c : Ctx) (f nf : Option File) (s : Sect) (a : SAttr) :
    (fillFile f s).strs a = if isFileS a then entityStr L c f nf a else s.strs a := by
  cases a <;> cases f <;> rfl
theorem sec_S (L : FLib) (c : Ctx) (f nf : Option File) (s : Sect) (a : SAttr) :
    (fillNewFile nf s).strs a = if isSecS a then entityStr L c f nf a else s.strs a := by
  cases a <;> cases nf <;> rfl

theorem entities_I (L : FLib) (c : Ctx) (f nf : Option File) (s : Sect) (a : IAttr)
    (hs : ∀ a, s.ints a = (if isSecI a then entityInt c f nf a else if a = .SF_REC_TYPE then s.ints a else 0)) :
    (fillEntities L c.header c.pod c.cont c.proc f s).ints a = if a = .SF_REC_TYPE then s.ints a else entityInt c f nf a := by
  unfold fillEntities
  rw [file_I c f nf, proc_I c f nf, pod_I L c f nf, cont_I c f nf, header_I c f nf]
  have := hs a
  cases a <;> first | rfl | (rw [this]; rfl)

theorem entities_S (L : FLib) (c : Ctx) (f nf : Option File) (s : Sect) (a : SAttr)
    (hs : ∀ a, s.strs a = (if isSecS a then entityStr L c f nf a else [])) :
    (fillEntities L c.header c.pod c.cont c.proc f s).strs a = entityStr L c f nf a := by
  unfold fillEntities
  rw [file_S L c f nf, proc_S L c f nf, pod_S L c f nf, cont_S L c f nf, header_S L c f nf _ (hs _)]
  have := hs a
  cases a <;> first | rfl | (rw [this]; rfl)

theorem fill_A (L : FLib) (c : Ctx) (f nf : Option File) (s : Sect) (a : AAttr) :
    (fillEntities L c.header c.pod c.cont c.proc f s).anys a = entityAny c a := by
  unfold fillEntities
  have h1 : ∀ s, (fillFile f s).anys = s.anys := fun s => by cases f <;> rfl
  have h2 : ∀ s, (fillProc c.proc s).anys = s.anys := fun s => by
    cases c.proc with
    | none => rfl
    | some p =>
      obtain ⟨st, oid, po, ts, exe, ar, uid, un, gid, gn, tty, en, ci⟩ := p
      cases po <;> rfl
  rw [h1, h2]
  cases h : c.pod <;> cases a <;> first | rfl | (simp only [entityAny, h]; rfl)

/-! ## C41: the theorems -/

/-- C41, process events: every integer attribute of the record is the event's own value, or that of its process, container,
pod or header — zero where there is none. -/
theorem procEvt_ints (L : FLib) (c : Ctx) (e : ProcEvt) (a : IAttr) :
    (flatProcEvt L c e).getInt a .sysflow = (procEvtInt e a).getD (entityInt c none none a) := by
  unfold flatProcEvt
  rw [getInt_mk]
  have := entities_I L c none none (setI .SF_REC_TYPE PROC_EVT zeroSect) a (fun a => by cases a <;> rfl)
  cases a <;> first | rfl | exact this

/-- C41, file events (both files). -/
theorem fileEvt_ints (L : FLib) (c : Ctx) (e : FileEvt) (a : IAttr) :
    (flatFileEvt L c e).getInt a .sysflow = (fileEvtInt e a).getD (entityInt c c.file c.newFile a) := by
  unfold flatFileEvt
  rw [getInt_mk]
  have := entities_I L c c.file c.newFile (setI .SF_REC_TYPE FILE_EVT (fillNewFile c.newFile zeroSect)) a (fun a => by
    have := sec_I c c.file c.newFile zeroSect a
    cases a <;> first | rfl | exact this)
  cases a <;> first | rfl | exact this

/-- C41, file flows. -/
theorem fileFlow_ints (L : FLib) (c : Ctx) (e : FileFlow) (a : IAttr) :
    (flatFileFlow L c e).getInt a .sysflow = (fileFlowInt e a).getD (entityInt c c.file none a) := by
  unfold flatFileFlow
  rw [getInt_mk]
  have := entities_I L c c.file none (setI .SF_REC_TYPE FILE_FLOW zeroSect) a (fun a => by cases a <;> rfl)
  cases a <;> first | rfl | exact this

/-- C41, network flows. -/
theorem netFlow_ints (L : FLib) (c : Ctx) (e : NetFlow) (a : IAttr) :
    (flatNetFlow L c e).getInt a .sysflow = (netFlowInt e a).getD (entityInt c none none a) := by
  unfold flatNetFlow
  rw [getInt_mk]
  have := entities_I L c none none (setI .SF_REC_TYPE NET_FLOW zeroSect) a (fun a => by cases a <;> rfl)
  cases a <;> first | rfl | exact this

/-- C41, Kubernetes events carry only their own attributes and the header's. -/
theorem k8s_ints (c : Ctx) (e : K8sEvt) (a : IAttr) :
    (flatK8s c e).getInt a .sysflow = (k8sInt e a).getD (if a = .SFHE_VERSION_INT then from? c.header 0 (·.version) else 0) := by
  unfold flatK8s
  rw [getInt_mk]
  cases a <;> cases h : c.header <;> rfl

/-- C41, strings. -/
theorem flat_strs (L : FLib) (c : Ctx) (a : SAttr) :
    (∀ e, (flatProcEvt L c e).getStr a .sysflow = entityStr L c none none a)
    ∧ (∀ e, (flatFileEvt L c e).getStr a .sysflow = entityStr L c c.file c.newFile a)
    ∧ (∀ e, (flatFileFlow L c e).getStr a .sysflow = entityStr L c c.file none a)
    ∧ (∀ e, (flatNetFlow L c e).getStr a .sysflow = entityStr L c none none a)
    ∧ (∀ e, (flatK8s c e).getStr a .sysflow = if a = .K8SE_MESSAGE_STR then e.message
        else if isHeaderS a ∨ a = .SFHE_FILENAME_STR then entityStr L c none none a else []) := by
  refine ⟨fun e => ?_, fun e => ?_, fun e => ?_, fun e => ?_, fun e => ?_⟩
  · exact entities_S L c none none (setI .SF_REC_TYPE PROC_EVT zeroSect) a (fun a => by cases a <;> rfl)
  · exact entities_S L c c.file c.newFile (setI .SF_REC_TYPE FILE_EVT (fillNewFile c.newFile zeroSect)) a
      (fun a => sec_S L c c.file c.newFile zeroSect a)
  · exact entities_S L c c.file none (setI .SF_REC_TYPE FILE_FLOW zeroSect) a (fun a => by cases a <;> rfl)
  · exact entities_S L c none none (setI .SF_REC_TYPE NET_FLOW zeroSect) a (fun a => by cases a <;> rfl)
  · have := header_S L c none none (setI .SF_REC_TYPE K8S_EVT zeroSect) rfl a
    cases a <;> first | rfl | exact this

/-- Reading the lists of a record. -/
theorem arrays_mk (c : Ctx) (s : Sect) (pt : Option (List Proc)) (h : ∀ a, s.anys a = entityAny c a) :
    (mkRec s pt).getIntArray .POD_HOSTIP_ANY .sysflow = c.pod.map (·.hostIP)
    ∧ (mkRec s pt).getIntArray .POD_INTERNALIP_ANY .sysflow = c.pod.map (·.internalIP)
    ∧ (mkRec s pt).getSvcArray .POD_SERVICES_ANY .sysflow = c.pod.map (·.services) := by
  obtain ⟨i, st, an⟩ := s
  have e : an = entityAny c := funext h
  subst e
  unfold FlatRec.getIntArray FlatRec.getSvcArray mkRec
  simp only [findSect, if_true, entityAny]
  cases c.pod <;> exact ⟨rfl, rfl, rfl⟩

/-- The lists of a record are those of the pod of the event, if it has one. -/
def PodLists (c : Ctx) (r : FlatRec) : Prop :=
  r.getIntArray .POD_HOSTIP_ANY .sysflow = c.pod.map (·.hostIP)
  ∧ r.getIntArray .POD_INTERNALIP_ANY .sysflow = c.pod.map (·.internalIP)
  ∧ r.getSvcArray .POD_SERVICES_ANY .sysflow = c.pod.map (·.services)

/-- C41, lists: the host addresses, internal addresses and services of the pod. -/
theorem flat_anys (L : FLib) (c : Ctx) :
    (∀ e, PodLists c (flatProcEvt L c e)) ∧ (∀ e, PodLists c (flatFileEvt L c e)) ∧ (∀ e, PodLists c (flatFileFlow L c e))
    ∧ (∀ e, PodLists c (flatNetFlow L c e)) := by
  refine ⟨fun e => ?_, fun e => ?_, fun e => ?_, fun e => ?_⟩
  · exact arrays_mk c _ _ (fun a => fill_A L c none none (setI .SF_REC_TYPE PROC_EVT zeroSect) a)
  · exact arrays_mk c _ _ (fun a => fill_A L c c.file none (setI .SF_REC_TYPE FILE_EVT (fillNewFile c.newFile zeroSect)) a)
  · exact arrays_mk c _ _ (fun a => fill_A L c c.file none (setI .SF_REC_TYPE FILE_FLOW zeroSect) a)
  · exact arrays_mk c _ _ (fun a => fill_A L c none none (setI .SF_REC_TYPE NET_FLOW zeroSect) a)

/-- C41: the process tree is handed over unchanged, and there is none for Kubernetes events. -/
theorem flat_ptree (L : FLib) (c : Ctx) :
    (∀ e, (flatProcEvt L c e).ptree = c.ptree) ∧ (∀ e, (flatFileEvt L c e).ptree = c.ptree)
    ∧ (∀ e, (flatFileFlow L c e).ptree = c.ptree) ∧ (∀ e, (flatNetFlow L c e).ptree = c.ptree)
    ∧ (∀ e, (flatK8s c e).ptree = none) :=
  ⟨fun _ => rfl, fun _ => rfl, fun _ => rfl, fun _ => rfl, fun _ => rfl⟩

/-- Different file ids give different file id attributes. -/
theorem hexEncode_injective (a b : List UInt8) (h : hexEncode a = hexEncode b) : a = b := by
  have hd : ∀ n m : Nat, n < 16 → m < 16 → hexDigit n = hexDigit m → n = m := by
    have : ∀ n : Fin 16, ∀ m : Fin 16, hexDigit n = hexDigit m → n = m := by decide
    intro n m hn hm e
    have := this ⟨n, hn⟩ ⟨m, hm⟩ e
    exact congrArg Fin.val this
  induction a generalizing b with
  | nil =>
    cases b with
    | nil => rfl
    | cons y ys => simp [hexEncode] at h
  | cons x xs ih =>
    cases b with
    | nil => simp [hexEncode] at h
    | cons y ys =>
      simp only [hexEncode, List.flatMap_cons, List.cons_append, List.nil_append, List.cons.injEq] at h
      obtain ⟨h1, h2, h3⟩ := h
      have hx := x.toNat_lt
      have hy := y.toNat_lt
      have e1 := hd _ _ (by omega) (by omega) h1
      have e2 := hd _ _ (by omega) (by omega) h2
      have : x.toNat = y.toNat := by omega
      rw [UInt8.toNat_inj.1 this, ih ys h3]

/-! ## C40: delivery -/

/-- A handler call with the time at which it is handled. -/
structure Timed where
  call : HCall
  lo : Int
  hi : Int
  rd : Nat → Int

/-- Handle a history of calls. -/
def handles (L : FLib) (s : State) : List Timed → State
  | [] => s
  | x :: xs => handles L (handle L s x.rd x.call) xs

/-- The record made from an event call. -/
def recOf (L : FLib) : HCall → Option FlatRec
  | .k8s c e => some (flatK8s c e)
  | .netFlow c e => some (flatNetFlow L c e)
  | .fileFlow c e => some (flatFileFlow L c e)
  | .fileEvt c e => some (flatFileEvt L c e)
  | .procEvt c e => some (flatProcEvt L c e)
  | _ => none

/-- Calls subject to the duplicate filter: all events but Kubernetes events. -/
def filtered : HCall → Bool
  | .netFlow _ _ | .fileFlow _ _ | .fileEvt _ _ | .procEvt _ _ => true
  | _ => false

/-- Was the record of the last call sent on channel `i`? The observable effect of a call: what is appended to the channel. -/
def sentBy (L : FLib) (s : State) (x : Timed) (i : Nat) : List FlatRec :=
  ((handle L s x.rd x.call).outs.getD i []).drop (s.outs.getD i []).length

theorem sendAll_filter (s : State) (fr : FlatRec) : (sendAll s fr).filter = s.filter ∧ (sendAll s fr).filterOn = s.filterOn := ⟨rfl, rfl⟩

/-- Each call either appends its record to every channel or appends nothing to any. -/
theorem handle_outs (L : FLib) (s : State) (rd : Nat → Int) (h : HCall) :
    (handle L s rd h).outs = s.outs ∨ ∃ fr, recOf L h = some fr ∧ (handle L s rd h).outs = s.outs.map (fun q => q ++ [fr]) := by
  have ho : ∀ fr, (out L s rd fr).outs = s.outs ∨ (out L s rd fr).outs = s.outs.map (fun q => q ++ [fr]) := by
    intro fr
    unfold out
    split
    · simp only
      split
      · exact Or.inl rfl
      · exact Or.inr rfl
    · exact Or.inr rfl
  cases h with
  | k8s c e => exact Or.inr ⟨_, rfl, rfl⟩
  | netFlow c e => rcases ho (flatNetFlow L c e) with h | h; exact Or.inl h; exact Or.inr ⟨_, rfl, h⟩
  | fileFlow c e => rcases ho (flatFileFlow L c e) with h | h; exact Or.inl h; exact Or.inr ⟨_, rfl, h⟩
  | fileEvt c e => rcases ho (flatFileEvt L c e) with h | h; exact Or.inl h; exact Or.inr ⟨_, rfl, h⟩
  | procEvt c e => rcases ho (flatProcEvt L c e) with h | h; exact Or.inl h; exact Or.inr ⟨_, rfl, h⟩
  | header => exact Or.inl rfl
  | cont => exact Or.inl rfl
  | pod => exact Or.inl rfl
  | proc => exact Or.inl rfl
  | file => exact Or.inl rfl

theorem handle_noFilter (L : FLib) (s : State) (rd : Nat → Int) (h : HCall) (hf : s.filterOn = false) :
    handle L s rd h = { s with outs := s.outs.map (fun q => q ++ (recOf L h).toList) } := by
  have ho : ∀ fr, out L s rd fr = sendAll s fr := by
    intro fr
    unfold out
    split
    · rename_i h1 _; rw [hf] at h1; cases h1
    · rfl
  cases h <;> first
    | exact ho _
    | rfl
    | (simp [handle, recOf])

/-- C40. Every channel receives the same records in the same order, namely the records of a subsequence of the event calls. -/
theorem same_on_every_channel (L : FLib) (on : Bool) (ttl : Int) (n : Nat) (xs : List Timed) :
    ∃ sent : List FlatRec, (handles L (init on ttl n) xs).outs = List.replicate n sent
      ∧ List.Sublist sent (xs.filterMap (fun x => recOf L x.call)) := by
  have key : ∀ (xs : List Timed) (s : State) (q : List FlatRec), s.outs = List.replicate n q →
      ∃ sent, (handles L s xs).outs = List.replicate n (q ++ sent) ∧ List.Sublist sent (xs.filterMap (fun x => recOf L x.call)) := by
    intro xs
    induction xs with
    | nil => intro s q h; exact ⟨[], by simpa [handles] using h, List.Sublist.refl _⟩
    | cons x xs ih =>
      intro s q h
      rcases handle_outs L s x.rd x.call with he | ⟨fr, hr, he⟩
      · obtain ⟨sent, h1, h2⟩ := ih (handle L s x.rd x.call) q (he.trans h)
        refine ⟨sent, h1, ?_⟩
        rw [List.filterMap_cons]
        split
        · exact h2
        · exact List.Sublist.cons _ h2
      · obtain ⟨sent, h1, h2⟩ := ih (handle L s x.rd x.call) (q ++ [fr]) (by rw [he, h, List.map_replicate])
        refine ⟨fr :: sent, by show (handles L (handle L s x.rd x.call) xs).outs = _; simpa using h1, ?_⟩
        rw [List.filterMap_cons]
        simp only [hr]
        exact h2.cons_cons fr
  exact key xs (init on ttl n) [] rfl

/-- C40. Without the filter, every channel receives exactly one record per event call, in order. -/
theorem all_delivered_without_filter (L : FLib) (ttl : Int) (n : Nat) (xs : List Timed) :
    (handles L (init false ttl n) xs).outs = List.replicate n (xs.filterMap (fun x => recOf L x.call)) := by
  have key : ∀ (xs : List Timed) (s : State) (q : List FlatRec), s.filterOn = false → s.outs = List.replicate n q →
      (handles L s xs).outs = List.replicate n (q ++ xs.filterMap (fun x => recOf L x.call)) := by
    intro xs
    induction xs with
    | nil => intro s q _ h; simpa [handles] using h
    | cons x xs ih =>
      intro s q hf h
      have hh := handle_noFilter L s x.rd x.call hf
      have := ih (handle L s x.rd x.call) (q ++ (recOf L x.call).toList) (by rw [hh]; exact hf)
        (by rw [hh]; show s.outs.map _ = _; rw [h, List.map_replicate])
      unfold handles
      rw [this, List.filterMap_cons, List.append_assoc]
      cases recOf L x.call <;> rfl
  exact key xs (init false ttl n) [] rfl rfl

/-- C40. Kubernetes events are delivered whatever the filter has seen. -/
theorem k8s_always_delivered (L : FLib) (s : State) (rd : Nat → Int) (c : Ctx) (e : K8sEvt) :
    (handle L s rd (.k8s c e)).outs = s.outs.map (fun q => q ++ [flatK8s c e]) ∧ (handle L s rd (.k8s c e)).filter = s.filter :=
  ⟨rfl, rfl⟩

/-! ### Delivery with the filter -/

/-- The duplicate key of a call's record. -/
def keyOf (L : FLib) (h : HCall) : Option UInt64 :=
  if filtered h then (recOf L h).map (semanticHash L.xxh) else none

/-- The calls of the filter made while handling a history. -/
def filterCalls (L : FLib) (xs : List Timed) : List Filter.Call :=
  xs.filterMap (fun x => (keyOf L x.call).map (fun h => ⟨.testAndAdd h, x.lo, x.hi, x.rd⟩))

/-- Was the call's record delivered, seen from state `s`? -/
def delivered (L : FLib) (s : State) (x : Timed) : Bool :=
  !((handle L s x.rd x.call).outs.map List.length == s.outs.map List.length)

theorem handle_filtered (L : FLib) (s : State) (f : Filter) (hon : s.filterOn = true) (hf : s.filter = some f) (x : Timed) :
    (∀ h, keyOf L x.call = some h → ∃ fr, recOf L x.call = some fr
        ∧ (handle L s x.rd x.call).filter = some (Filter.testAndAdd f h x.rd).2
        ∧ (handle L s x.rd x.call).outs = if (Filter.testAndAdd f h x.rd).1 then s.outs else s.outs.map (fun q => q ++ [fr]))
    ∧ (keyOf L x.call = none → (handle L s x.rd x.call).filter = some f)
    ∧ (handle L s x.rd x.call).filterOn = true := by
  have ho : ∀ fr, (out L s x.rd fr).filter = some (Filter.testAndAdd f (semanticHash L.xxh fr) x.rd).2
      ∧ (out L s x.rd fr).outs = (if (Filter.testAndAdd f (semanticHash L.xxh fr) x.rd).1 then s.outs else s.outs.map (fun q => q ++ [fr]))
      ∧ (out L s x.rd fr).filterOn = true := by
    intro fr
    unfold out
    rw [hon, hf]
    simp only
    split
    · exact ⟨rfl, rfl, rfl⟩
    · exact ⟨rfl, rfl, rfl⟩
  have evt : ∀ fr, recOf L x.call = some fr → filtered x.call = true → handle L s x.rd x.call = out L s x.rd fr →
      (∀ h, keyOf L x.call = some h → ∃ fr, recOf L x.call = some fr
        ∧ (handle L s x.rd x.call).filter = some (Filter.testAndAdd f h x.rd).2
        ∧ (handle L s x.rd x.call).outs = if (Filter.testAndAdd f h x.rd).1 then s.outs else s.outs.map (fun q => q ++ [fr]))
      ∧ (keyOf L x.call = none → (handle L s x.rd x.call).filter = some f)
      ∧ (handle L s x.rd x.call).filterOn = true := by
    intro fr hr hfl he
    have hk : keyOf L x.call = some (semanticHash L.xxh fr) := by unfold keyOf; rw [hfl, hr]; rfl
    obtain ⟨a, b, c⟩ := ho fr
    rw [he, hk]
    refine ⟨fun h hh => ?_, fun hh => (by cases hh), c⟩
    cases hh
    exact ⟨fr, hr, a, b⟩
  obtain ⟨call, lo, hi, rd⟩ := x
  cases call with
  | netFlow c e => exact evt _ rfl rfl rfl
  | fileFlow c e => exact evt _ rfl rfl rfl
  | fileEvt c e => exact evt _ rfl rfl rfl
  | procEvt c e => exact evt _ rfl rfl rfl
  | k8s c e => exact ⟨fun h hh => (by cases hh), fun _ => hf, hon⟩
  | header => exact ⟨fun h hh => (by cases hh), fun _ => hf, hon⟩
  | cont => exact ⟨fun h hh => (by cases hh), fun _ => hf, hon⟩
  | pod => exact ⟨fun h hh => (by cases hh), fun _ => hf, hon⟩
  | proc => exact ⟨fun h hh => (by cases hh), fun _ => hf, hon⟩
  | file => exact ⟨fun h hh => (by cases hh), fun _ => hf, hon⟩

/-- The history of deliveries: each call with whether its record was sent (seen on the channels). -/
def deliveries (L : FLib) (s : State) : List Timed → List (Timed × Bool)
  | [] => []
  | x :: xs => (x, delivered L s x) :: deliveries L (handle L s x.rd x.call) xs

theorem delivered_filtered (L : FLib) (s : State) (f : Filter) (hon : s.filterOn = true) (hf : s.filter = some f) (x : Timed)
    (hne : s.outs ≠ []) (h : UInt64) (hk : keyOf L x.call = some h) :
    delivered L s x = !(Filter.testAndAdd f h x.rd).1 := by
  obtain ⟨fr, _, _, he⟩ := (handle_filtered L s f hon hf x).1 h hk
  unfold delivered
  rw [he]
  cases (Filter.testAndAdd f h x.rd).1 with
  | true => simp
  | false =>
    have : (s.outs.map (fun q => q ++ [fr])).map List.length ≠ s.outs.map List.length := by
      cases hs : s.outs with
      | nil => exact absurd hs hne
      | cons q qs => simp
    simp only [Bool.false_eq_true, if_false]
    rw [beq_eq_false_iff_ne.2 this]

/-- Handling a history runs the filter over the keys of its records, and deliveries are the filter's decisions. -/
theorem handles_filter (L : FLib) (ttl : Int) (n : Nat) (hn : 0 < n) (xs : List Timed) :
    (handles L (init true ttl n) xs).filter = some (Filter.after (Filter.newFilter ttl) (filterCalls L xs))
    ∧ (handles L (init true ttl n) xs).filterOn = true
    ∧ (handles L (init true ttl n) xs).outs ≠ []
    ∧ ∀ x b h, (x, b) ∈ deliveries L (init true ttl n) xs → keyOf L x.call = some h →
        ((⟨.testAndAdd h, x.lo, x.hi, x.rd⟩ : Filter.Call), Filter.Res.bool (!b)) ∈ Filter.trace (Filter.newFilter ttl) (filterCalls L xs) := by
  have key : ∀ (xs : List Timed) (s : State) (f : Filter), s.filterOn = true → s.filter = some f → s.outs ≠ [] →
      (handles L s xs).filter = some (Filter.after f (filterCalls L xs)) ∧ (handles L s xs).filterOn = true
      ∧ (handles L s xs).outs ≠ []
      ∧ ∀ x b h, (x, b) ∈ deliveries L s xs → keyOf L x.call = some h →
        ((⟨.testAndAdd h, x.lo, x.hi, x.rd⟩ : Filter.Call), Filter.Res.bool (!b)) ∈ Filter.trace f (filterCalls L xs) := by
    intro xs
    induction xs with
    | nil => intro s f hon hf hne; exact ⟨hf, hon, hne, fun x b h hx => by cases hx⟩
    | cons x xs ih =>
      intro s f hon hf hne
      obtain ⟨h1, h2, h3⟩ := handle_filtered L s f hon hf x
      have hne' : (handle L s x.rd x.call).outs ≠ [] := by
        rcases handle_outs L s x.rd x.call with he | ⟨fr, _, he⟩
        · rw [he]; exact hne
        · rw [he]; simpa using hne
      cases hk : keyOf L x.call with
      | none =>
        obtain ⟨a, b, c, d⟩ := ih (handle L s x.rd x.call) f h3 (h2 hk) hne'
        have e : filterCalls L (x :: xs) = filterCalls L xs := by
          unfold filterCalls; rw [List.filterMap_cons, hk]; rfl
        rw [e]
        refine ⟨a, b, c, fun y b' h hy hky => ?_⟩
        rcases List.mem_cons.1 hy with hy | hy
        · cases hy; rw [hk] at hky; cases hky
        · exact d y b' h hy hky
      | some h =>
        obtain ⟨fr, hr, hf', ho'⟩ := h1 h hk
        obtain ⟨a, b, c, d⟩ := ih (handle L s x.rd x.call) _ h3 hf' hne'
        have e : filterCalls L (x :: xs) = ⟨.testAndAdd h, x.lo, x.hi, x.rd⟩ :: filterCalls L xs := by
          unfold filterCalls; rw [List.filterMap_cons, hk]; rfl
        rw [e]
        refine ⟨a, b, c, fun y b' h' hy hky => ?_⟩
        rcases List.mem_cons.1 hy with hy | hy
        · cases hy
          rw [hk] at hky; cases hky
          rw [delivered_filtered L s f hon hf x hne h hk]
          simp only [Bool.not_not, Filter.trace]
          exact .head _
        · exact .tail _ (d y b' h' hy hky)
  exact key xs (init true ttl n) (Filter.newFilter ttl) rfl rfl (by
    show List.replicate n [] ≠ []
    cases n with
    | zero => omega
    | succ n => simp [List.replicate])

/-- Event calls handled one after the other, each at an instant. -/
def TimedOrder (t0 : Int) : List Timed → Prop
  | [] => True
  | x :: xs => t0 ≤ x.lo ∧ x.hi = x.lo ∧ (∀ i, x.rd i = x.lo) ∧ TimedOrder x.lo xs

theorem ordered_calls (L : FLib) (xs : List Timed) (t0 : Int) (h : TimedOrder t0 xs) :
    ∀ t, t ≤ t0 → Filter.Ordered t (filterCalls L xs) ∧ ∀ c ∈ filterCalls L xs, c.lo = c.hi := by
  induction xs generalizing t0 with
  | nil => intro t _; exact ⟨trivial, fun c hc => by cases hc⟩
  | cons x xs ih =>
    intro t ht
    obtain ⟨h1, h2, h3, h4⟩ := h
    unfold filterCalls
    rw [List.filterMap_cons]
    cases hk : keyOf L x.call with
    | none =>
      exact ih x.lo h4 t (Int.le_trans ht h1)
    | some k =>
      obtain ⟨a, b⟩ := ih x.lo h4 x.hi (by rw [h2]; exact Int.le_refl _)
      refine ⟨⟨Int.le_trans ht h1, fun i => ⟨by show x.lo ≤ x.rd i; rw [h3]; exact Int.le_refl _, by show x.rd i ≤ x.hi; rw [h3, h2]; exact Int.le_refl _⟩, a⟩, ?_⟩
      intro c hc
      rcases List.mem_cons.1 hc with rfl | hc
      · exact h2.symm
      · exact b c hc

theorem timedOrder_prefix (xs ys : List Timed) (t0 : Int) (h : TimedOrder t0 (xs ++ ys)) : TimedOrder t0 xs := by
  induction xs generalizing t0 with
  | nil => trivial
  | cons x xs ih => exact ⟨h.1, h.2.1, h.2.2.1, ih x.lo h.2.2.2⟩

/-- The trace of the filter, back on the channels. -/
theorem delivery_of_trace (L : FLib) (ttl : Int) (n : Nat) (hn : 0 < n) (xs : List Timed) (y : Filter.Call × Filter.Res)
    (hy : y ∈ Filter.trace (Filter.newFilter ttl) (filterCalls L xs)) :
    ∃ x b h, (x, b) ∈ deliveries L (init true ttl n) xs ∧ keyOf L x.call = some h ∧ y = (⟨.testAndAdd h, x.lo, x.hi, x.rd⟩, .bool (!b)) := by
  have key : ∀ (xs : List Timed) (s : State) (f : Filter), s.filterOn = true → s.filter = some f → s.outs ≠ [] →
      y ∈ Filter.trace f (filterCalls L xs) →
      ∃ x b h, (x, b) ∈ deliveries L s xs ∧ keyOf L x.call = some h ∧ y = (⟨.testAndAdd h, x.lo, x.hi, x.rd⟩, .bool (!b)) := by
    intro xs
    induction xs with
    | nil => intro s f _ _ _ hy; cases hy
    | cons x xs ih =>
      intro s f hon hf hne hy
      obtain ⟨h1, h2, h3⟩ := handle_filtered L s f hon hf x
      have hne' : (handle L s x.rd x.call).outs ≠ [] := by
        rcases handle_outs L s x.rd x.call with he | ⟨fr, _, he⟩
        · rw [he]; exact hne
        · rw [he]; simpa using hne
      cases hk : keyOf L x.call with
      | none =>
        have e : filterCalls L (x :: xs) = filterCalls L xs := by
          unfold filterCalls; rw [List.filterMap_cons, hk]; rfl
        rw [e] at hy
        obtain ⟨x', b, h, a, c, d⟩ := ih _ f h3 (h2 hk) hne' hy
        exact ⟨x', b, h, .tail _ a, c, d⟩
      | some h =>
        obtain ⟨fr, hr, hf', ho'⟩ := h1 h hk
        have e : filterCalls L (x :: xs) = ⟨.testAndAdd h, x.lo, x.hi, x.rd⟩ :: filterCalls L xs := by
          unfold filterCalls; rw [List.filterMap_cons, hk]; rfl
        rw [e] at hy
        rcases List.mem_cons.1 hy with hy | hy
        · refine ⟨x, _, h, .head _, hk, ?_⟩
          rw [hy, delivered_filtered L s f hon hf x hne h hk]
          simp [Filter.step]
        · obtain ⟨x', b, h', a, c, d⟩ := ih _ _ h3 hf' hne' hy
          exact ⟨x', b, h', .tail _ a, c, d⟩
  exact key xs (init true ttl n) (Filter.newFilter ttl) rfl rfl (by
    show List.replicate n [] ≠ []
    cases n with
    | zero => omega
    | succ n => simp [List.replicate]) hy

/-- C33/C40 on the channels: with the filter on and at least one channel, the record of an event (not a Kubernetes event)
is delivered exactly when no record with the same key was delivered less than the configured age before. -/
theorem delivered_iff (L : FLib) (ttl t0 : Int) (n : Nat) (hn : 0 < n) (xs : List Timed) (x : Timed) (h : UInt64)
    (hord : TimedOrder t0 (xs ++ [x])) (hk : keyOf L x.call = some h) :
    delivered L (handles L (init true ttl n) xs) x = true ↔
      ¬ ∃ y, (y, true) ∈ deliveries L (init true ttl n) xs ∧ keyOf L y.call = some h ∧ x.lo - y.lo < ttl := by
  obtain ⟨hf, hon, hne, htr⟩ := handles_filter L ttl n hn xs
  have hx : x.hi = x.lo ∧ ∀ i, x.rd i = x.lo := by
    clear hf hon hne htr
    induction xs generalizing t0 with
    | nil => exact ⟨hord.2.1, hord.2.2.1⟩
    | cons y ys ih => exact ih y.lo hord.2.2.2
  have hcalls : filterCalls L (xs ++ [x]) = filterCalls L xs ++ [Filter.Call.instant (.testAndAdd h) x.lo] := by
    unfold filterCalls
    rw [List.filterMap_append, List.filterMap_cons, hk]
    simp only [Option.map_some, List.filterMap_nil]
    congr 2
    unfold Filter.Call.instant
    rw [hx.1]
    congr 1
    funext i; exact hx.2 i
  obtain ⟨ho, _⟩ := ordered_calls L (xs ++ [x]) t0 hord t0 (Int.le_refl _)
  obtain ⟨_, hins⟩ := ordered_calls L xs t0 (timedOrder_prefix xs [x] t0 hord) t0 (Int.le_refl _)
  rw [hcalls] at ho
  have hsup := Filter.suppressed_iff ttl t0 (filterCalls L xs) h x.lo hins ho
  have hrd : x.rd = fun _ => x.lo := funext hx.2
  rw [delivered_filtered L _ _ hon hf x hne h hk]
  have hres : (Filter.step (Filter.after (Filter.newFilter ttl) (filterCalls L xs)) (Filter.Call.instant (.testAndAdd h) x.lo)).1
      = .bool (Filter.testAndAdd (Filter.after (Filter.newFilter ttl) (filterCalls L xs)) h x.rd).1 := by
    rw [hrd]; rfl
  rw [hres, Filter.Res.bool.injEq] at hsup
  have conv : (∃ z ∈ Filter.trace (Filter.newFilter ttl) (filterCalls L xs), Filter.IsEmission h z ∧ x.lo - z.1.lo < ttl) ↔
      ∃ y, (y, true) ∈ deliveries L (init true ttl n) xs ∧ keyOf L y.call = some h ∧ x.lo - y.lo < ttl := by
    constructor
    · rintro ⟨z, hz, ⟨hz1, hz2⟩, hl⟩
      obtain ⟨y, b, h', hy, hky, e⟩ := delivery_of_trace L ttl n hn xs z hz
      subst e
      simp only [Filter.Op.testAndAdd.injEq] at hz1
      simp only [Filter.Res.bool.injEq, Bool.not_eq_false'] at hz2
      subst hz1; subst hz2
      exact ⟨y, hy, hky, hl⟩
    · rintro ⟨y, hy, hky, hl⟩
      exact ⟨_, htr y true h hy hky, ⟨rfl, rfl⟩, hl⟩
  rw [← conv, ← hsup]
  cases (Filter.testAndAdd (Filter.after (Filter.newFilter ttl) (filterCalls L xs)) h x.rd).1 <;> simp

/-! ### Concrete cases -/

def demoFLib : FLib := ⟨fun _ => "1.2.3.4".toList, fun _ => "[]".toList, fun bs => bs.foldl (fun h b => h * 31 + b.toUInt64) 7⟩
def demoCtx : Ctx :=
  { header := some Processor.demoHeader, cont := some Processor.demoCont, pod := some Processor.demoPod
    proc := some (Cache.demoProc .created 2 (some 1) " /bin/sh") }
def demoCall (pid ts : Int) : HCall := .procEvt demoCtx ⟨⟨1, pid⟩, ts, 1, 2, 0⟩
def at_ (t : Int) (c : HCall) : Timed := ⟨c, t, t, fun _ => t⟩
def demoHist : List Timed := [at_ 0 (demoCall 2 100), at_ 3 (demoCall 2 103), at_ 4 (.k8s demoCtx ⟨1, "m".toList, 0, 0⟩), at_ 12 (demoCall 2 112)]

example : TimedOrder 0 demoHist := by simp [TimedOrder, demoHist, at_]
example : (deliveries demoFLib (init true 10 2) demoHist).map (·.2) = [true, false, true, true] := by decide +kernel
example : (flatProcEvt demoFLib demoCtx ⟨⟨1, 2⟩, 5, 6, 7, 8⟩).getStr .PROC_EXE_STR .sysflow = "/bin/sh".toList := by decide

/-- Finding: the addresses of a pod are rendered without separator, so the text is not a list of addresses. -/
theorem pod_ips_unseparated : getIPStr demoFLib [1, 2] = "[\"1.2.3.4\"\"1.2.3.4\"]".toList := by decide

end Verif.Flattener

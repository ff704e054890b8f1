import Verif.Ecs.Encoder
/-
What the field mapper gives for the fields the ECS encoder asks for.
-/
namespace Verif.Ecs
open Verif.Decimal (Str)
open Verif.FlatRecord

/-- An integer attribute and a text attribute (without bounding quotes) of a record. -/
def A (fr : FlatRec) (a : IAttr) : Int := fr.getInt a .sysflow
def T (fr : FlatRec) (a : SAttr) : Str := Strings.trimQuotes (fr.getStr a .sysflow)

theorem ms_str {L : ELib} {fr : FlatRec} {n : Str} {m : Mapper} (hc : cut n = none) (hg : getMappers.get n = some m) (v : Str)
    (hv : m.run L.toLib fr = .str v) : ms L fr n = Strings.trimQuotes v := by
  simp only [ms, mapStr, mapStr?, hc, mapAttr, hg, hv, renderPlain, Option.getD_some]

theorem mi_int {L : ELib} {fr : FlatRec} {n : Str} {m : Mapper} (hg : getMappers.get n = some m) (v : Int)
    (hv : m.run L.toLib fr = .i64 v) : mi L fr n = v := by
  simp only [mi, mapInt, mapAttr, hg, hv]

variable (L : ELib) (fr : FlatRec)

theorem ms_container_id : ms L fr "sf.container.id".toList = T fr .CONT_ID_STR :=
  ms_str (m := (.str .CONT_ID_STR)) (by decide +kernel) (by decide +kernel) _ rfl
theorem ms_container_image : ms L fr "sf.container.image".toList = T fr .CONT_IMAGE_STR :=
  ms_str (m := (.str .CONT_IMAGE_STR)) (by decide +kernel) (by decide +kernel) _ rfl
theorem ms_container_imageid : ms L fr "sf.container.imageid".toList = T fr .CONT_IMAGEID_STR :=
  ms_str (m := (.str .CONT_IMAGEID_STR)) (by decide +kernel) (by decide +kernel) _ rfl
theorem ms_container_name : ms L fr "sf.container.name".toList = T fr .CONT_NAME_STR :=
  ms_str (m := (.str .CONT_NAME_STR)) (by decide +kernel) (by decide +kernel) _ rfl
theorem ms_container_type : ms L fr "sf.container.type".toList = Strings.trimQuotes (L.contType (A fr .CONT_TYPE_INT)) :=
  ms_str (m := (.contType .CONT_TYPE_INT)) (by decide +kernel) (by decide +kernel) _ rfl
theorem ms_file_newpath : ms L fr "sf.file.newpath".toList = Strings.trimQuotes (L.symPath (fr.getStr .SEC_FILE_PATH_STR .sysflow)).1 :=
  ms_str (m := (.path .SEC_FILE_PATH_STR)) (by decide +kernel) (by decide +kernel) _ rfl
theorem ms_file_oid : ms L fr "sf.file.oid".toList = T fr .FILE_OID_STR :=
  ms_str (m := (.str .FILE_OID_STR)) (by decide +kernel) (by decide +kernel) _ rfl
theorem ms_file_path : ms L fr "sf.file.path".toList = Strings.trimQuotes (L.symPath (fr.getStr .FILE_PATH_STR .sysflow)).1 :=
  ms_str (m := (.path .FILE_PATH_STR)) (by decide +kernel) (by decide +kernel) _ rfl
theorem ms_file_type : ms L fr "sf.file.type".toList = Strings.trimQuotes (L.fileType (A fr .FILE_RESTYPE_INT)) :=
  ms_str (m := (.fileType .FILE_RESTYPE_INT)) (by decide +kernel) (by decide +kernel) _ rfl
theorem ms_ke_action : ms L fr "sf.ke.action".toList = Strings.trimQuotes (L.k8sAction (A fr .K8SE_ACTION_INT)) :=
  ms_str (m := (.action .K8SE_ACTION_INT)) (by decide +kernel) (by decide +kernel) _ rfl
theorem ms_ke_message : ms L fr "sf.ke.message".toList = T fr .K8SE_MESSAGE_STR :=
  ms_str (m := (.str .K8SE_MESSAGE_STR)) (by decide +kernel) (by decide +kernel) _ rfl
theorem ms_net_dip : ms L fr "sf.net.dip".toList = Strings.trimQuotes (L.ipStr (wrap32 (A fr .FL_NETW_DIP_INT))) :=
  ms_str (m := (.ip [.FL_NETW_DIP_INT])) (by decide +kernel) (by decide +kernel) _ rfl
theorem ms_net_sip : ms L fr "sf.net.sip".toList = Strings.trimQuotes (L.ipStr (wrap32 (A fr .FL_NETW_SIP_INT))) :=
  ms_str (m := (.ip [.FL_NETW_SIP_INT])) (by decide +kernel) (by decide +kernel) _ rfl
theorem ms_node_id : ms L fr "sf.node.id".toList = T fr .SFHE_EXPORTER_STR :=
  ms_str (m := (.str .SFHE_EXPORTER_STR)) (by decide +kernel) (by decide +kernel) _ rfl
theorem ms_node_ip : ms L fr "sf.node.ip".toList = T fr .SFHE_IP_STR :=
  ms_str (m := (.str .SFHE_IP_STR)) (by decide +kernel) (by decide +kernel) _ rfl
theorem ms_pod_id : ms L fr "sf.pod.id".toList = T fr .POD_ID_STR :=
  ms_str (m := (.str .POD_ID_STR)) (by decide +kernel) (by decide +kernel) _ rfl
theorem ms_pod_name : ms L fr "sf.pod.name".toList = T fr .POD_NAME_STR :=
  ms_str (m := (.str .POD_NAME_STR)) (by decide +kernel) (by decide +kernel) _ rfl
theorem ms_pod_namespace : ms L fr "sf.pod.namespace".toList = T fr .POD_NAMESPACE_STR :=
  ms_str (m := (.str .POD_NAMESPACE_STR)) (by decide +kernel) (by decide +kernel) _ rfl
theorem ms_pod_nodename : ms L fr "sf.pod.nodename".toList = T fr .POD_NODENAME_STR :=
  ms_str (m := (.str .POD_NODENAME_STR)) (by decide +kernel) (by decide +kernel) _ rfl
theorem ms_proc_args : ms L fr "sf.proc.args".toList = T fr .PROC_EXEARGS_STR :=
  ms_str (m := (.str .PROC_EXEARGS_STR)) (by decide +kernel) (by decide +kernel) _ rfl
theorem ms_proc_cmdline : ms L fr "sf.proc.cmdline".toList = Strings.trimQuotes (fr.getStr .PROC_EXE_STR .sysflow ++ ' ' :: fr.getStr .PROC_EXEARGS_STR .sysflow) :=
  ms_str (m := (.join .PROC_EXE_STR [.PROC_EXEARGS_STR])) (by decide +kernel) (by decide +kernel) _ rfl
theorem ms_proc_exe : ms L fr "sf.proc.exe".toList = T fr .PROC_EXE_STR :=
  ms_str (m := (.str .PROC_EXE_STR)) (by decide +kernel) (by decide +kernel) _ rfl
theorem ms_proc_group : ms L fr "sf.proc.group".toList = T fr .PROC_GROUPNAME_STR :=
  ms_str (m := (.str .PROC_GROUPNAME_STR)) (by decide +kernel) (by decide +kernel) _ rfl
theorem ms_proc_user : ms L fr "sf.proc.user".toList = T fr .PROC_USERNAME_STR :=
  ms_str (m := (.str .PROC_USERNAME_STR)) (by decide +kernel) (by decide +kernel) _ rfl
theorem ms_type : ms L fr "sf.type".toList = Strings.trimQuotes (L.recType (A fr .SF_REC_TYPE)) :=
  ms_str (m := .recType) (by decide +kernel) (by decide +kernel) _ rfl
theorem mi_container_privileged : mi L fr "sf.container.privileged".toList = A fr .CONT_PRIVILEGED_INT :=
  mi_int (m := (.int .CONT_PRIVILEGED_INT)) (by decide +kernel) _ rfl
theorem mi_file_fd : mi L fr "sf.file.fd".toList = A fr .FL_FILE_FD_INT :=
  mi_int (m := (.int .FL_FILE_FD_INT)) (by decide +kernel) _ rfl
theorem mi_flow_rbytes : mi L fr "sf.flow.rbytes".toList = wrap64 (wrap64 (0 + A fr .FL_FILE_NUMRRECVBYTES_INT) + A fr .FL_NETW_NUMRRECVBYTES_INT) :=
  mi_int (m := (.sum [.FL_FILE_NUMRRECVBYTES_INT, .FL_NETW_NUMRRECVBYTES_INT])) (by decide +kernel) _ rfl
theorem mi_flow_rops : mi L fr "sf.flow.rops".toList = wrap64 (wrap64 (0 + A fr .FL_FILE_NUMRRECVOPS_INT) + A fr .FL_NETW_NUMRRECVOPS_INT) :=
  mi_int (m := (.sum [.FL_FILE_NUMRRECVOPS_INT, .FL_NETW_NUMRRECVOPS_INT])) (by decide +kernel) _ rfl
theorem mi_flow_wbytes : mi L fr "sf.flow.wbytes".toList = wrap64 (wrap64 (0 + A fr .FL_FILE_NUMWSENDBYTES_INT) + A fr .FL_NETW_NUMWSENDBYTES_INT) :=
  mi_int (m := (.sum [.FL_FILE_NUMWSENDBYTES_INT, .FL_NETW_NUMWSENDBYTES_INT])) (by decide +kernel) _ rfl
theorem mi_flow_wops : mi L fr "sf.flow.wops".toList = wrap64 (wrap64 (0 + A fr .FL_FILE_NUMWSENDOPS_INT) + A fr .FL_NETW_NUMWSENDOPS_INT) :=
  mi_int (m := (.sum [.FL_FILE_NUMWSENDOPS_INT, .FL_NETW_NUMWSENDOPS_INT])) (by decide +kernel) _ rfl
theorem mi_net_dport : mi L fr "sf.net.dport".toList = A fr .FL_NETW_DPORT_INT :=
  mi_int (m := (.int .FL_NETW_DPORT_INT)) (by decide +kernel) _ rfl
theorem mi_net_proto : mi L fr "sf.net.proto".toList = A fr .FL_NETW_PROTO_INT :=
  mi_int (m := (.int .FL_NETW_PROTO_INT)) (by decide +kernel) _ rfl
theorem mi_net_sport : mi L fr "sf.net.sport".toList = A fr .FL_NETW_SPORT_INT :=
  mi_int (m := (.int .FL_NETW_SPORT_INT)) (by decide +kernel) _ rfl
theorem mi_pod_restartcnt : mi L fr "sf.pod.restartcnt".toList = A fr .POD_RESTARTCOUNT_INT :=
  mi_int (m := (.int .POD_RESTARTCOUNT_INT)) (by decide +kernel) _ rfl
theorem mi_pod_ts : mi L fr "sf.pod.ts".toList = A fr .POD_TS_INT :=
  mi_int (m := (.int .POD_TS_INT)) (by decide +kernel) _ rfl
theorem mi_pproc_createts : mi L fr "sf.pproc.createts".toList = A fr .PROC_POID_CREATETS_INT :=
  mi_int (m := (.int .PROC_POID_CREATETS_INT)) (by decide +kernel) _ rfl
theorem mi_pproc_pid : mi L fr "sf.pproc.pid".toList = A fr .PROC_POID_HPID_INT :=
  mi_int (m := (.int .PROC_POID_HPID_INT)) (by decide +kernel) _ rfl
theorem mi_proc_createts : mi L fr "sf.proc.createts".toList = A fr .PROC_OID_CREATETS_INT :=
  mi_int (m := (.int .PROC_OID_CREATETS_INT)) (by decide +kernel) _ rfl
theorem mi_proc_gid : mi L fr "sf.proc.gid".toList = A fr .PROC_GID_INT :=
  mi_int (m := (.int .PROC_GID_INT)) (by decide +kernel) _ rfl
theorem mi_proc_pid : mi L fr "sf.proc.pid".toList = A fr .PROC_OID_HPID_INT :=
  mi_int (m := (.int .PROC_OID_HPID_INT)) (by decide +kernel) _ rfl
theorem mi_proc_tid : mi L fr "sf.proc.tid".toList = A fr .TID_INT :=
  mi_int (m := (.int .TID_INT)) (by decide +kernel) _ rfl
theorem mi_proc_uid : mi L fr "sf.proc.uid".toList = A fr .PROC_UID_INT :=
  mi_int (m := (.int .PROC_UID_INT)) (by decide +kernel) _ rfl
theorem mi_ts : mi L fr "sf.ts".toList = A fr .TS_INT :=
  mi_int (m := (.int .TS_INT)) (by decide +kernel) _ rfl

/-- The immediate parent: the second process of the recorded chain. -/
def parentOf (fr : FlatRec) : Option SysFlow.Proc :=
  match fr.ptree with
  | some (_ :: p :: _) => some p
  | _ => none

/-- A text of the parent, empty if it is unknown. -/
def parentText (fr : FlatRec) (f : SysFlow.Proc → Str) : Str :=
  match parentOf fr with
  | some p => Strings.trimQuotes (f p)
  | none => []

theorem ms_parent {n : Str} {a : RecAttr} (f : SysFlow.Proc → Str) (hc : cut n = none) (hg : getMappers.get n = some (.cached a))
    (hf : ∀ p q rest, fr.ptree = some (p :: q :: rest) → fr.getCachedValue a = .str (f q))
    (hd : cachedDefault a = .str []) (hd' : ∀ l, fr.ptree = some l → l.length < 2 → fr.getCachedValue a = cachedDefault a) :
    ms L fr n = parentText fr f := by
  unfold parentText parentOf
  match hp : fr.ptree with
  | none =>
    refine (ms_str hc hg [] ?_).trans rfl
    show fr.getCachedValue a = _
    unfold FlatRec.getCachedValue
    rw [hp]
    exact hd
  | some [] => exact (ms_str hc hg [] ((hd' _ hp (by simp)).trans hd)).trans rfl
  | some [p] => exact (ms_str hc hg [] ((hd' _ hp (by simp)).trans hd)).trans rfl
  | some (p :: q :: rest) => exact ms_str hc hg (f q) (hf _ _ _ hp)

theorem short_default (a : RecAttr) (ha : a = .PProcExe ∨ a = .PProcArgs ∨ a = .PProcCmdLine) (l : List SysFlow.Proc)
    (h : fr.ptree = some l) (hl : l.length < 2) : fr.getCachedValue a = cachedDefault a := by
  unfold FlatRec.getCachedValue
  rw [h]
  match l, hl with
  | [], _ => rcases ha with rfl | rfl | rfl <;> rfl
  | [p], _ => rcases ha with rfl | rfl | rfl <;> rfl
  | _ :: _ :: _, hl => simp at hl; omega

theorem ms_pproc_exe : ms L fr "sf.pproc.exe".toList = parentText fr (fun p => p.exe) :=
  ms_parent L fr _ (by decide +kernel) (by decide +kernel : getMappers.get _ = some (.cached .PProcExe))
    (fun p q rest h => by unfold FlatRec.getCachedValue; rw [h]; rfl) rfl (fun l h hl => short_default fr _ (.inl rfl) l h hl)
theorem ms_pproc_args : ms L fr "sf.pproc.args".toList = parentText fr (fun p => p.exeArgs) :=
  ms_parent L fr _ (by decide +kernel) (by decide +kernel : getMappers.get _ = some (.cached .PProcArgs))
    (fun p q rest h => by unfold FlatRec.getCachedValue; rw [h]; rfl) rfl (fun l h hl => short_default fr _ (.inr (.inl rfl)) l h hl)
/-- Executable and arguments of a process separated by a space, the executable alone if it has no arguments. -/
def commandLine (p : SysFlow.Proc) : Str := if p.exeArgs = [] then p.exe else p.exe ++ ' ' :: p.exeArgs
theorem ms_pproc_cmdline : ms L fr "sf.pproc.cmdline".toList = parentText fr commandLine :=
  ms_parent L fr _ (by decide +kernel) (by decide +kernel : getMappers.get _ = some (.cached .PProcCmdLine))
    (fun p q rest h => by
      unfold FlatRec.getCachedValue; rw [h]
      show FVal.str (cmdLine q) = .str (commandLine q)
      unfold cmdLine commandLine
      cases q.exeArgs <;> simp) rfl (fun l h hl => short_default fr _ (.inr (.inr rfl)) l h hl)

/-- The recorded end of a flow (the timestamp for Kubernetes events, 0 for other events). -/
def endTs (fr : FlatRec) : Int :=
  let t := A fr .SF_REC_TYPE
  if t = FILE_FLOW then A fr .FL_FILE_ENDTS_INT else if t = NET_FLOW then A fr .FL_NETW_ENDTS_INT
  else if t = K8S_EVT then A fr .TS_INT else 0
/-- The return code of an event. -/
def ret (fr : FlatRec) : Int :=
  let t := A fr .SF_REC_TYPE
  if t = PROC_EVT ∨ t = FILE_EVT then A fr .RET_INT else 0

theorem mi_endts : mi L fr "sf.endts".toList = endTs fr := by
  refine mi_int (m := .endTs) (by decide +kernel) _ ?_
  simp only [Mapper.run, endTs]
  by_cases h1 : A fr .SF_REC_TYPE = FILE_FLOW
  · rw [if_pos h1]; exact if_pos h1
  · rw [if_neg h1]; refine (if_neg h1).trans ?_
    by_cases h2 : A fr .SF_REC_TYPE = NET_FLOW
    · rw [if_pos h2]; exact if_pos h2
    · rw [if_neg h2]; refine (if_neg h2).trans ?_
      by_cases h3 : A fr .SF_REC_TYPE = K8S_EVT
      · rw [if_pos h3]; exact if_pos h3
      · rw [if_neg h3]; exact if_neg h3

theorem mi_ret : mi L fr "sf.ret".toList = ret fr := by
  refine mi_int (m := .ret) (by decide +kernel) _ ?_
  simp only [Mapper.run, ret]
  by_cases h1 : A fr .SF_REC_TYPE = PROC_EVT ∨ A fr .SF_REC_TYPE = FILE_EVT
  · rw [if_pos h1]; exact if_pos h1
  · rw [if_neg h1]; exact if_neg h1

theorem mia_host : mia L fr "sf.pod.hostip+".toList = fr.getIntArray .POD_HOSTIP_ANY .sysflow := by
  have : getMappers.get "sf.pod.hostip+".toList = some (.intArray .POD_HOSTIP_ANY) := by decide +kernel
  simp only [mia, mapAttr, this, Mapper.run]
theorem mia_internal : mia L fr "sf.pod.internalip+".toList = fr.getIntArray .POD_INTERNALIP_ANY .sysflow := by
  have : getMappers.get "sf.pod.internalip+".toList = some (.intArray .POD_INTERNALIP_ANY) := by decide +kernel
  simp only [mia, mapAttr, this, Mapper.run]
theorem msa_services : msa L fr "sf.pod.services+".toList = fr.getSvcArray .POD_SERVICES_ANY .sysflow := by
  have : getMappers.get "sf.pod.services+".toList = some (.svcArray .POD_SERVICES_ANY) := by decide +kernel
  simp only [msa, mapAttr, this, Mapper.run]

end Verif.Ecs

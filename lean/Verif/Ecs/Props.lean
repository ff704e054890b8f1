import Verif.Ecs.Parts
/-
Properties of the ECS encoder: the document of every record (C47, C48, C49, C61), its identifier (C60).
-/
namespace Verif.Ecs
open Verif.Decimal (Str)
open Verif.FlatRecord

/-- The two halves of `encodeBase`: the parts common to all kinds, and those of the kind. -/
def pre (c : Conf) (L : ELib) (rec : Record) : Option Rec :=
  let fr := rec.fr
  let ecs : Rec :=
    { id := encodeID L fr, host := encodeHost L fr, agentVersion := c.version, agentType := "SysFlow".toList,
      ecsVersion := c.ecsVersion, ts := L.iso (mi L fr "sf.ts".toList) }
  if ms L fr "sf.type".toList ≠ "KE".toList then
    let ecs := { ecs with container := encodeContainer L fr }
    let r : Option Rec :=
      if ms L fr "sf.pod.id".toList ≠ [] then encodePod L fr { ecs with orchestrator := some (encodeOrchestrator L fr) }
      else some ecs
    r.map (fun ecs => { ecs with process := some (encodeProcess L fr), user := some (encodeUser L fr) })
  else some { ecs with orchestrator := some (encodeOrchestrator L fr) }

def post (L : ELib) (rec : Record) (ecs : Rec) : Rec :=
  let sfType := ms L rec.fr "sf.type".toList
  if sfType = "NF".toList then encodeNetworkFlow L rec ecs
  else if sfType = "FF".toList then encodeFileFlow L rec ecs
  else if sfType = "FE".toList then encodeFileEvent L rec ecs
  else if sfType = "PE".toList then encodeProcessEvent L rec ecs
  else if sfType = "KE".toList then encodeK8sEvent L rec ecs
  else ecs

theorem base_eq (c : Conf) (L : ELib) (rec : Record) : encodeBase c L rec = (pre c L rec).map (post L rec) := rfl

/-- What is common to all kinds. -/
structure Common (c : Conf) (L : ELib) (rec : Record) (d : Rec) : Prop where
  id : d.id = encodeID L rec.fr
  ts : d.ts = L.iso (A rec.fr .TS_INT)
  agent : d.agentType = "SysFlow".toList ∧ d.agentVersion = c.version ∧ d.ecsVersion = c.ecsVersion
  host : d.host = Spec.host rec.fr
  process : d.process = if Spec.kind L rec.fr = Spec.KE then none else some (Spec.process L rec.fr)
  user : d.user = if Spec.kind L rec.fr = Spec.KE then none else some (Spec.user rec.fr)
  container : d.container = if Spec.kind L rec.fr = Spec.KE ∨ T rec.fr .CONT_ID_STR = [] then none else some (Spec.container L rec.fr)
  pod : Spec.kind L rec.fr ≠ Spec.KE → Spec.HasPod rec.fr → 
    ∃ hosts internals services, rec.fr.getIntArray .POD_HOSTIP_ANY .sysflow = some hosts ∧
      rec.fr.getIntArray .POD_INTERNALIP_ANY .sysflow = some internals ∧ rec.fr.getSvcArray .POD_SERVICES_ANY .sysflow = some services ∧
      d.pod = some (Spec.pod L rec.fr hosts internals) ∧ d.service = services.map (Spec.service L)
  noPod : Spec.kind L rec.fr = Spec.KE ∨ ¬ Spec.HasPod rec.fr → d.pod = none ∧ d.service = []

/-- The state before the parts of the kind. -/
structure Fresh (L : ELib) (rec : Record) (d : Rec) : Prop where
  event : d.event = none
  file : d.file = none
  fileAction : d.fileAction = none
  network : d.network = none ∧ d.source = none ∧ d.destination = none
  tags : d.tags = []
  orchestrator : Spec.kind L rec.fr ≠ Spec.KE →
    d.orchestrator = if T rec.fr .POD_ID_STR = [] then none else some (Spec.orchestrator rec.fr)

theorem pre_ok (c : Conf) (L : ELib) (rec : Record) (e : Rec) (h : pre c L rec = some e) : Common c L rec e ∧ Fresh L rec e := by
  unfold pre at h
  dsimp only at h
  rw [kind_eq, ms_pod_id, mi_ts] at h
  change (if Spec.kind L rec.fr ≠ Spec.KE then _ else _) = _ at h
  by_cases hk : Spec.kind L rec.fr = Spec.KE
  · rw [if_neg (fun hc => hc hk)] at h
    cases h
    refine ⟨⟨rfl, rfl, ⟨rfl, rfl, rfl⟩, host_eq L rec.fr, (if_pos hk).symm, (if_pos hk).symm, (if_pos (.inl hk)).symm,
      fun hn => absurd hk hn, fun _ => ⟨rfl, rfl⟩⟩, ⟨rfl, rfl, rfl, ⟨rfl, rfl, rfl⟩, rfl, fun hn => absurd hk hn⟩⟩
  · rw [if_pos hk] at h
    have hcont : encodeContainer L rec.fr =
        if Spec.kind L rec.fr = Spec.KE ∨ T rec.fr .CONT_ID_STR = [] then none else some (Spec.container L rec.fr) := by
      rw [container_eq]
      by_cases hc : T rec.fr .CONT_ID_STR = []
      · rw [if_neg (fun hn : T rec.fr .CONT_ID_STR ≠ [] => hn hc), if_pos (.inr hc)]
      · rw [if_pos hc, if_neg (fun h => h.elim hk hc)]
    by_cases hp : T rec.fr .POD_ID_STR = []
    · rw [if_neg (fun hn => hn hp)] at h
      cases h
      exact ⟨⟨rfl, rfl, ⟨rfl, rfl, rfl⟩, host_eq L rec.fr, by rw [if_neg hk, ← process_eq], by rw [if_neg hk, ← user_eq L], hcont,
        fun _ hn => absurd hp hn, fun _ => ⟨rfl, rfl⟩⟩, ⟨rfl, rfl, rfl, ⟨rfl, rfl, rfl⟩, rfl, fun _ => (if_pos hp).symm⟩⟩
    · rw [if_pos hp] at h
      unfold encodePod at h
      rw [mia_host, mia_internal, msa_services, mi_pod_ts, ms_pod_id, ms_pod_name, ms_pod_nodename, ms_pod_namespace, mi_pod_restartcnt] at h
      match h1 : rec.fr.getIntArray .POD_HOSTIP_ANY .sysflow, h2 : rec.fr.getIntArray .POD_INTERNALIP_ANY .sysflow,
        h3 : rec.fr.getSvcArray .POD_SERVICES_ANY .sysflow with
      | some hs, some is, some ss =>
        rw [h1, h2, h3] at h
        cases h
        refine ⟨⟨rfl, rfl, ⟨rfl, rfl, rfl⟩, host_eq L rec.fr, by rw [if_neg hk, ← process_eq], by rw [if_neg hk, ← user_eq L], hcont,
          fun _ _ => ⟨hs, is, ss, h1, h2, h3, rfl, ?_⟩, ?_⟩, ⟨rfl, rfl, rfl, ⟨rfl, rfl, rfl⟩, rfl, fun _ => ?_⟩⟩
        · cases ss with
          | nil => rfl
          | cons s ss => rfl
        · rintro (hn | hn)
          · exact absurd hn hk
          · exact absurd hp hn
        · rw [if_neg hp]; exact congrArg some (orchestrator_eq L rec.fr)
      | none, _, _ => rw [h1] at h; cases h
      | some _, none, _ => rw [h1, h2] at h; cases h
      | some _, some _, none => rw [h1, h2, h3] at h; cases h

theorem pre_none (c : Conf) (L : ELib) (rec : Record) :
    pre c L rec = none ↔ Spec.kind L rec.fr ≠ Spec.KE ∧ Spec.HasPod rec.fr ∧
      (rec.fr.getIntArray .POD_HOSTIP_ANY .sysflow = none ∨ rec.fr.getIntArray .POD_INTERNALIP_ANY .sysflow = none ∨
        rec.fr.getSvcArray .POD_SERVICES_ANY .sysflow = none) := by
  unfold pre
  dsimp only
  rw [kind_eq, ms_pod_id, mi_ts]
  change (if Spec.kind L rec.fr ≠ Spec.KE then _ else _) = _ ↔ _
  by_cases hk : Spec.kind L rec.fr = Spec.KE
  · rw [if_neg (fun hc => hc hk)]
    exact ⟨fun h => (by cases h), fun h => absurd hk h.1⟩
  · rw [if_pos hk]
    by_cases hp : T rec.fr .POD_ID_STR = []
    · rw [if_neg (fun hn => hn hp)]
      exact ⟨fun h => (by cases h), fun h => absurd hp h.2.1⟩
    · rw [if_pos hp]
      unfold encodePod
      rw [mia_host, mia_internal, msa_services]
      match h1 : rec.fr.getIntArray .POD_HOSTIP_ANY .sysflow, h2 : rec.fr.getIntArray .POD_INTERNALIP_ANY .sysflow,
        h3 : rec.fr.getSvcArray .POD_SERVICES_ANY .sysflow with
      | some hs, some is, some ss =>
        exact ⟨fun h => (by cases h), fun h => (by rcases h.2.2 with h | h | h <;> cases h)⟩
      | none, _, _ => exact ⟨fun _ => ⟨hk, hp, .inl rfl⟩, fun _ => rfl⟩
      | some _, none, _ => exact ⟨fun _ => ⟨hk, hp, .inr (.inl rfl)⟩, fun _ => rfl⟩
      | some _, some _, none => exact ⟨fun _ => ⟨hk, hp, .inr (.inr rfl)⟩, fun _ => rfl⟩

/-! ### The parts of the kind -/

theorem first_none {flags : Int} {ops : List Op} (h : ∀ o ∈ ops, ¬ has flags o = true) : Spec.First flags ops none :=
  fun o ho hp => h o ho ((has_iff _ _).2 hp)
theorem first_some {flags : Int} (pre : List Op) (o : Op) (post : List Op) (h : ∀ p ∈ pre, ¬ has flags p = true)
    (ho : has flags o = true) : Spec.First flags (pre ++ o :: post) (some o) :=
  ⟨pre, post, rfl, (has_iff _ _).1 ho, fun p hp hq => h p hp ((has_iff _ _).2 hq)⟩

theorem first_unique {flags : Int} {ops : List Op} {a b : Option Op} (ha : Spec.First flags ops a) (hb : Spec.First flags ops b) :
    a = b := by
  cases a with
  | none =>
    cases b with
    | none => rfl
    | some b =>
      obtain ⟨p, q, rfl, hp, _⟩ := hb
      exact absurd hp (ha b (by simp))
  | some a =>
    obtain ⟨p, q, rfl, hp, hn⟩ := ha
    cases b with
    | none => exact absurd hp (hb a (by simp))
    | some b =>
      obtain ⟨p', q', he, hp', hn'⟩ := hb
      rcases List.append_eq_append_iff.1 he with ⟨t, h1, h2⟩ | ⟨t, h1, h2⟩
      · cases t with
        | nil => simp at h2; rw [h2.1]
        | cons x t =>
          simp only [List.cons_append, List.cons.injEq] at h2
          exact absurd hp (hn' a (by rw [h1, h2.1]; simp))
      · cases t with
        | nil => simp at h2; rw [h2.1]
        | cons x t =>
          simp only [List.cons_append, List.cons.injEq] at h2
          exact absurd hp' (hn b (by rw [h1, h2.1]; simp))

/-- The operations deciding the class of a file event, in order. -/
def feOps : List Op := [.mkdir, .rmdir, .unlink, .symlink, .link, .rename]

/-- A file event: the class and the target path by the first operation performed. -/
theorem fileEvent_cases (L : ELib) (rec : Record) (e : Rec) :
    ∃ o, Spec.First (A rec.fr .OPFLAGS_INT) feOps o ∧
      (encodeFileEvent L rec e = { e with
        event := some (eventBase L rec (Spec.fileEvent o).1 (Spec.fileEvent o).2.1 (Spec.fileEvent o).2.2)
        file := some (Spec.file L rec.fr (fileTypeOf L rec.fr)
          (if o = some .symlink ∨ o = some .link ∨ o = some .rename then some (Spec.targetPath L rec.fr) else none)) }) := by
  unfold encodeFileEvent
  rw [ms_file_newpath]
  dsimp only
  simp only [event_eq]
  rw [file_target_eq]
  show ∃ o, Spec.First (opFlags rec.fr) feOps o ∧ _
  by_cases h1 : has (opFlags rec.fr) .mkdir = true
  · refine ⟨some .mkdir, first_some [] _ _ (by simp) h1, ?_⟩
    rw [if_pos h1, file_eq]; rfl
  rw [if_neg h1]
  by_cases h2 : has (opFlags rec.fr) .rmdir = true
  · refine ⟨some .rmdir, first_some [.mkdir] _ _ (by intro p hp; cases List.mem_singleton.1 hp; exact h1) h2, ?_⟩
    rw [if_pos h2, file_eq]; rfl
  rw [if_neg h2]
  by_cases h3 : has (opFlags rec.fr) .unlink = true
  · refine ⟨some .unlink, first_some [.mkdir, .rmdir] _ _ (by simp [h1, h2]) h3, ?_⟩
    rw [if_pos h3, file_eq]; rfl
  rw [if_neg h3]
  by_cases h4 : has (opFlags rec.fr) .symlink = true
  · refine ⟨some .symlink, first_some [.mkdir, .rmdir, .unlink] _ _ (by simp [h1, h2, h3]) h4, ?_⟩
    rw [h4]; rfl
  by_cases h5 : has (opFlags rec.fr) .link = true
  · refine ⟨some .link, first_some [.mkdir, .rmdir, .unlink, .symlink] _ _ (by simp [h1, h2, h3, h4]) h5, ?_⟩
    rw [if_pos (by rw [h5, Bool.or_true])]; rfl
  rw [if_neg (by simp [h4, h5])]
  by_cases h6 : has (opFlags rec.fr) .rename = true
  · refine ⟨some .rename, first_some [.mkdir, .rmdir, .unlink, .symlink, .link] _ _ (by simp [h1, h2, h3, h4, h5]) h6, ?_⟩
    rw [if_pos h6]; rfl
  rw [if_neg h6]
  refine ⟨none, first_none (by simp [feOps, h1, h2, h3, h4, h5, h6]), ?_⟩
  rw [file_eq]; rfl

theorem procEvent_cases (L : ELib) (rec : Record) (e : Rec) :
    ∃ o, Spec.First (A rec.fr .OPFLAGS_INT) [.exit, .clone, .exec, .setuid] o ∧
      encodeProcessEvent L rec e = { e with
        event := some (eventBase L rec "process".toList (Spec.procEvent (A rec.fr .PROC_OID_HPID_INT != A rec.fr .TID_INT) o)
          ("process-".toList ++ Spec.procEvent (A rec.fr .PROC_OID_HPID_INT != A rec.fr .TID_INT) o)) } := by
  unfold encodeProcessEvent
  rw [mi_proc_pid, mi_proc_tid]
  dsimp only
  rw [event_eq]
  show ∃ o, Spec.First (opFlags rec.fr) _ o ∧ _
  have hb : (if A rec.fr .PROC_OID_HPID_INT ≠ A rec.fr .TID_INT then "thread-exit".toList else "exit".toList) =
      Spec.procEvent (A rec.fr .PROC_OID_HPID_INT != A rec.fr .TID_INT) (some .exit) := by
    by_cases h : A rec.fr .PROC_OID_HPID_INT = A rec.fr .TID_INT <;> simp [Spec.procEvent, h]
  have hs : (if A rec.fr .PROC_OID_HPID_INT ≠ A rec.fr .TID_INT then "thread-start".toList else "start".toList) =
      Spec.procEvent (A rec.fr .PROC_OID_HPID_INT != A rec.fr .TID_INT) (some .clone) := by
    by_cases h : A rec.fr .PROC_OID_HPID_INT = A rec.fr .TID_INT <;> simp [Spec.procEvent, h]
  rw [hb, hs]
  by_cases h1 : has (opFlags rec.fr) .exit = true
  · refine ⟨some .exit, first_some [] _ _ (by simp) h1, ?_⟩
    rw [if_pos h1]; rfl
  rw [if_neg h1]
  by_cases h2 : has (opFlags rec.fr) .clone = true
  · refine ⟨some .clone, first_some [.exit] _ _ (by simp [h1]) h2, ?_⟩
    rw [h2]; rfl
  by_cases h3 : has (opFlags rec.fr) .exec = true
  · refine ⟨some .exec, first_some [.exit, .clone] _ _ (by simp [h1, h2]) h3, ?_⟩
    rw [if_pos (by rw [h3, Bool.or_true])]; rfl
  rw [if_neg (by simp [h2, h3])]
  by_cases h4 : has (opFlags rec.fr) .setuid = true
  · refine ⟨some .setuid, first_some [.exit, .clone, .exec] _ _ (by simp [h1, h2, h3]) h4, ?_⟩
    rw [if_pos h4]; rfl
  rw [if_neg h4]
  exact ⟨none, first_none (by simp [h1, h2, h3, h4]), rfl⟩

theorem k8sEvent_type (fr : FlatRec) : Spec.k8sEvent (A fr .K8SE_ACTION_INT) (k8sActionToEventType fr) := by
  have h : ∀ a : Int, Spec.k8sEvent a (if a = ADDED then "creation".toList else if a = DELETED then "deletion".toList
      else if a = MODIFIED then "change".toList else if a = ERROR then "error".toList else "info".toList) := by
    intro a
    unfold Spec.k8sEvent
    by_cases h1 : a = ADDED
    · rw [if_pos h1]; exact .inl ⟨h1, rfl⟩
    rw [if_neg h1]
    by_cases h2 : a = DELETED
    · rw [if_pos h2]; exact .inr (.inl ⟨h2, rfl⟩)
    rw [if_neg h2]
    by_cases h3 : a = MODIFIED
    · rw [if_pos h3]; exact .inr (.inr (.inl ⟨h3, rfl⟩))
    rw [if_neg h3]
    by_cases h4 : a = ERROR
    · rw [if_pos h4]; exact .inr (.inr (.inr (.inl ⟨h4, rfl⟩)))
    rw [if_neg h4]
    refine .inr (.inr (.inr (.inr ⟨?_, rfl⟩)))
    simp only [List.mem_cons, List.not_mem_nil, or_false, not_or]
    exact ⟨h1, h2, h3, h4⟩
  exact h _

/-- What the kind adds, for each kind. `same` lists the parts left alone. -/
structure Same (e d : Rec) : Prop where
  id : d.id = e.id
  ts : d.ts = e.ts
  agent : d.agentType = e.agentType ∧ d.agentVersion = e.agentVersion ∧ d.ecsVersion = e.ecsVersion
  host : d.host = e.host
  process : d.process = e.process
  user : d.user = e.user
  container : d.container = e.container
  pod : d.pod = e.pod ∧ d.service = e.service
  tags : d.tags = e.tags

theorem post_same (L : ELib) (rec : Record) (e : Rec) : Same e (post L rec e) := by
  unfold post
  dsimp only
  split
  · exact ⟨rfl, rfl, ⟨rfl, rfl, rfl⟩, rfl, rfl, rfl, rfl, ⟨rfl, rfl⟩, rfl⟩
  split
  · exact ⟨rfl, rfl, ⟨rfl, rfl, rfl⟩, rfl, rfl, rfl, rfl, ⟨rfl, rfl⟩, rfl⟩
  split
  · obtain ⟨o, _, h⟩ := fileEvent_cases L rec e
    rw [h]
    exact ⟨rfl, rfl, ⟨rfl, rfl, rfl⟩, rfl, rfl, rfl, rfl, ⟨rfl, rfl⟩, rfl⟩
  split
  · obtain ⟨o, _, h⟩ := procEvent_cases L rec e
    rw [h]
    exact ⟨rfl, rfl, ⟨rfl, rfl, rfl⟩, rfl, rfl, rfl, rfl, ⟨rfl, rfl⟩, rfl⟩
  split
  · exact ⟨rfl, rfl, ⟨rfl, rfl, rfl⟩, rfl, rfl, rfl, rfl, ⟨rfl, rfl⟩, rfl⟩
  · exact ⟨rfl, rfl, ⟨rfl, rfl, rfl⟩, rfl, rfl, rfl, rfl, ⟨rfl, rfl⟩, rfl⟩

/-- The event before rules. -/
def eventKind (L : ELib) (rec : Record) (category type action : Str) : List (Str × EVal) :=
  eventBase L rec category type action ++
  (if Spec.kind L rec.fr = Spec.KE then [("original".toList, .str (T rec.fr .K8SE_MESSAGE_STR))] else [])

/-- What the parts of the kind are. -/
structure Kind (L : ELib) (rec : Record) (e d : Rec) : Prop where
  event : Spec.Known L rec.fr → ∃ category type action, Spec.Class L rec.fr category type action ∧
    d.event = some (eventKind L rec category type action)
  noEvent : ¬ Spec.Known L rec.fr → d.event = e.event
  orchestrator : d.orchestrator = if Spec.kind L rec.fr = Spec.KE then some (Spec.k8sOrchestrator L rec.fr) else e.orchestrator
  file : Spec.kind L rec.fr = Spec.FF ∨ Spec.kind L rec.fr = Spec.FE → ∃ target, d.file = some (Spec.file L rec.fr (fileTypeOf L rec.fr) target) ∧
    (Spec.hasTarget L rec.fr → target = some (Spec.targetPath L rec.fr)) ∧ (¬ Spec.hasTarget L rec.fr → target = none)
  noFile : ¬ (Spec.kind L rec.fr = Spec.FF ∨ Spec.kind L rec.fr = Spec.FE) → d.file = e.file
  fileAction : d.fileAction = if Spec.kind L rec.fr = Spec.FF ∧ (Spec.bytesRead rec.fr > 0 ∨ Spec.opsRead rec.fr > 0 ∨
    Spec.bytesWritten rec.fr > 0 ∨ Spec.opsWritten rec.fr > 0) then some (Spec.fileAction rec.fr) else e.fileAction
  network : Spec.kind L rec.fr = Spec.NF → d.network = some (Spec.network L rec.fr) ∧
    d.source = some (Spec.endpoint (Spec.sip L rec.fr) (A rec.fr .FL_NETW_SPORT_INT) (Spec.bytesWritten rec.fr) (Spec.opsWritten rec.fr)) ∧
    d.destination = some (Spec.endpoint (Spec.dip L rec.fr) (A rec.fr .FL_NETW_DPORT_INT) (Spec.bytesRead rec.fr) (Spec.opsRead rec.fr))
  noNetwork : Spec.kind L rec.fr ≠ Spec.NF → d.network = e.network ∧ d.source = e.source ∧ d.destination = e.destination

theorem post_kind (L : ELib) (rec : Record) (e : Rec) : Kind L rec e (post L rec e) := by
  have n1 : Spec.FF ≠ Spec.NF := by decide
  have n2 : Spec.FE ≠ Spec.NF := by decide
  have n3 : Spec.PE ≠ Spec.NF := by decide
  have n4 : Spec.KE ≠ Spec.NF := by decide
  have n5 : Spec.FE ≠ Spec.FF := by decide
  have n6 : Spec.PE ≠ Spec.FF := by decide
  have n7 : Spec.KE ≠ Spec.FF := by decide
  have n8 : Spec.PE ≠ Spec.FE := by decide
  have n9 : Spec.KE ≠ Spec.FE := by decide
  have n10 : Spec.KE ≠ Spec.PE := by decide
  unfold post
  dsimp only
  rw [kind_eq]
  change Kind L rec e (if Spec.kind L rec.fr = Spec.NF then _ else if Spec.kind L rec.fr = Spec.FF then _ else
    if Spec.kind L rec.fr = Spec.FE then _ else if Spec.kind L rec.fr = Spec.PE then _ else if Spec.kind L rec.fr = Spec.KE then _ else _)
  have noT : Spec.kind L rec.fr ≠ Spec.FE → ¬ Spec.hasTarget L rec.fr := fun h hc => h hc.1
  have ek : Spec.kind L rec.fr ≠ Spec.KE → ∀ a b c, eventKind L rec a b c = eventBase L rec a b c := by
    intro h a b c; unfold eventKind; rw [if_neg h, List.append_nil]
  by_cases hNF : Spec.kind L rec.fr = Spec.NF
  · rw [if_pos hNF]
    have hk : Spec.kind L rec.fr ≠ Spec.KE := by rw [hNF]; exact n4.symm
    unfold encodeNetworkFlow
    dsimp only
    rw [rbytes_eq, rops_eq, wbytes_eq, wops_eq, ms_net_sip, ms_net_dip, mi_net_sport, mi_net_dport, mi_net_proto, event_eq, ← ek hk]
    refine ⟨fun _ => ⟨_, _, _, .network hNF, rfl⟩, fun h => absurd (by unfold Spec.Known; rw [hNF]; decide) h, (if_neg hk).symm, ?_, ?_, ?_, ?_, ?_⟩
    · rintro (h | h)
      · exact absurd (hNF.symm.trans h) n1.symm
      · exact absurd (hNF.symm.trans h) n2.symm
    · intro _; rfl
    · rw [if_neg (fun h => n1 (h.1.symm.trans hNF))]
    · intro _; exact ⟨rfl, rfl, rfl⟩
    · intro h; exact absurd hNF h
  rw [if_neg hNF]
  by_cases hFF : Spec.kind L rec.fr = Spec.FF
  · rw [if_pos hFF]
    have hk : Spec.kind L rec.fr ≠ Spec.KE := by rw [hFF]; exact n7.symm
    unfold encodeFileFlow
    dsimp only
    rw [rbytes_eq, rops_eq, wbytes_eq, wops_eq, event_eq, file_eq, ← ek hk]
    refine ⟨fun _ => ?_, fun h => absurd (by unfold Spec.Known; rw [hFF]; decide) h, (if_neg hk).symm, ?_, ?_, ?_, ?_, ?_⟩
    · have hR : (has (opFlags rec.fr) .read = true ∧ (Spec.bytesRead rec.fr > 0 ∨ Spec.opsRead rec.fr > 0)) ↔ Spec.DidRead rec.fr :=
        and_congr (has_iff _ _) Iff.rfl
      have hW : (has (opFlags rec.fr) .write = true ∧ (Spec.bytesWritten rec.fr > 0 ∨ Spec.opsWritten rec.fr > 0)) ↔
        Spec.DidWrite rec.fr := and_congr (has_iff _ _) Iff.rfl
      by_cases hr : Spec.DidRead rec.fr <;> by_cases hw : Spec.DidWrite rec.fr
      · exact ⟨_, _, _, .readWrite hFF hr hw, by rw [if_pos (hW.2 hw), if_pos (hW.2 hw), if_pos (hR.2 hr)]; rfl⟩
      · exact ⟨_, _, _, .read hFF hr hw, by rw [if_neg (mt hW.1 hw), if_neg (mt hW.1 hw), if_pos (hR.2 hr)]; rfl⟩
      · exact ⟨_, _, _, .write hFF hr hw, by rw [if_pos (hW.2 hw), if_pos (hW.2 hw), if_neg (mt hR.1 hr)]; rfl⟩
      · exact ⟨_, _, _, .access hFF hr hw, by rw [if_neg (mt hW.1 hw), if_neg (mt hW.1 hw), if_neg (mt hR.1 hr)]; rfl⟩
    · intro _
      have := noT (by rw [hFF]; exact n5.symm)
      exact ⟨none, rfl, fun h => absurd h this, fun _ => rfl⟩
    · intro h; exact absurd (.inl hFF) h
    · by_cases ha : Spec.bytesRead rec.fr > 0 ∨ Spec.opsRead rec.fr > 0 ∨ Spec.bytesWritten rec.fr > 0 ∨ Spec.opsWritten rec.fr > 0
      · exact (if_pos ha).trans (if_pos ⟨hFF, ha⟩).symm
      · exact (if_neg ha).trans (if_neg (fun h => ha h.2)).symm
    · intro h; exact absurd h hNF
    · intro _; exact ⟨rfl, rfl, rfl⟩
  rw [if_neg hFF]
  by_cases hFE : Spec.kind L rec.fr = Spec.FE
  · rw [if_pos hFE]
    have hk : Spec.kind L rec.fr ≠ Spec.KE := by rw [hFE]; exact n9.symm
    obtain ⟨o, ho, he⟩ := fileEvent_cases L rec e
    rw [he, ← ek hk]
    refine ⟨fun _ => ⟨_, _, _, .fileEvent o hFE ho, rfl⟩, fun h => absurd (by unfold Spec.Known; rw [hFE]; decide) h, (if_neg hk).symm, ?_, ?_, ?_, ?_, ?_⟩
    · intro _
      refine ⟨_, rfl, ?_, ?_⟩
      · rintro ⟨_, o', ho', hm⟩
        have := first_unique ho ho'
        subst this
        rw [if_pos]
        simp only [List.mem_cons, List.not_mem_nil, or_false] at hm
        rcases hm with rfl | rfl | rfl
        · exact .inl rfl
        · exact .inr (.inl rfl)
        · exact .inr (.inr rfl)
      · intro hn
        rw [if_neg]
        rintro (h | h | h)
        · exact hn ⟨hFE, _, h ▸ ho, by simp⟩
        · exact hn ⟨hFE, _, h ▸ ho, by simp⟩
        · exact hn ⟨hFE, _, h ▸ ho, by simp⟩
    · intro h; exact absurd (.inr hFE) h
    · exact (if_neg (fun h => hFF h.1)).symm
    · intro h; exact absurd h hNF
    · intro _; exact ⟨rfl, rfl, rfl⟩
  rw [if_neg hFE]
  have noFile : ¬ (Spec.kind L rec.fr = Spec.FF ∨ Spec.kind L rec.fr = Spec.FE) := fun h => h.elim hFF hFE
  by_cases hPE : Spec.kind L rec.fr = Spec.PE
  · rw [if_pos hPE]
    have hk : Spec.kind L rec.fr ≠ Spec.KE := by rw [hPE]; exact n10.symm
    obtain ⟨o, ho, he⟩ := procEvent_cases L rec e
    rw [he, ← ek hk]
    refine ⟨fun _ => ⟨_, _, _, .procEvent o hPE ho, rfl⟩, fun h => absurd (by unfold Spec.Known; rw [hPE]; decide) h, (if_neg hk).symm,
      fun h => absurd h noFile, fun _ => rfl, (if_neg (fun h => hFF h.1)).symm, fun h => absurd h hNF, fun _ => ⟨rfl, rfl, rfl⟩⟩
  rw [if_neg hPE]
  by_cases hKE : Spec.kind L rec.fr = Spec.KE
  · rw [if_pos hKE]
    unfold encodeK8sEvent
    rw [ms_ke_action, ms_ke_message]
    dsimp only
    rw [event_eq]
    refine ⟨fun _ => ⟨_, _, _, .k8s _ hKE (k8sEvent_type rec.fr), ?_⟩, fun h => absurd (by unfold Spec.Known; rw [hKE]; decide) h, (if_pos hKE).symm,
      fun h => absurd h noFile, fun _ => rfl, (if_neg (fun h => hFF h.1)).symm, fun h => absurd h hNF, fun _ => ⟨rfl, rfl, rfl⟩⟩
    unfold eventKind
    rw [if_pos hKE]
    refine congrArg some (set_new _ _ _ ?_)
    unfold eventBase
    rw [if_neg (fun h : Spec.kind L rec.fr = Spec.PE ∨ Spec.kind L rec.fr = Spec.FE => h.elim hPE hFE)]
    show "original".toList ∉ ["category".toList, "type".toList, "action".toList, "sf_type".toList, "start".toList, "end".toList,
      "duration".toList, "kind".toList]
    decide
  rw [if_neg hKE]
  refine ⟨fun h => ?_, fun _ => rfl, (if_neg hKE).symm, fun h => absurd h noFile, fun _ => rfl, (if_neg (fun h => hFF h.1)).symm,
    fun h => absurd h hNF, fun _ => ⟨rfl, rfl, rfl⟩⟩
  unfold Spec.Known at h
  simp only [List.mem_cons, List.not_mem_nil, or_false] at h
  rcases h with h | h | h | h | h
  · exact absurd h hNF
  · exact absurd h hFF
  · exact absurd h hFE
  · exact absurd h hPE
  · exact absurd h hKE

/-! ### Rules -/

theorem ruleLoop_eq (rs ts : List Str) (p : Nat) (rules : List Policy.RuleInfo) :
    (ruleLoop rs ts p rules).1 = rs ++ rules.map (·.name) ∧
    (ruleLoop rs ts p rules).2.1 = ts ++ rules.flatMap (fun r => r.tags.flatten) ∧
    ((ruleLoop rs ts p rules).2.2 = p ∨ ∃ r ∈ rules, (ruleLoop rs ts p rules).2.2 = r.priority.toNat) ∧
    p ≤ (ruleLoop rs ts p rules).2.2 ∧ ∀ r ∈ rules, r.priority.toNat ≤ (ruleLoop rs ts p rules).2.2 := by
  induction rules generalizing rs ts p with
  | nil => simp [ruleLoop]
  | cons r rules ih =>
    obtain ⟨h1, h2, h3, h4, h5⟩ := ih (rs ++ [r.name]) (ts ++ r.tags.flatten) (max' p r.priority.toNat)
    have hm : p ≤ max' p r.priority.toNat ∧ r.priority.toNat ≤ max' p r.priority.toNat ∧
        (max' p r.priority.toNat = p ∨ max' p r.priority.toNat = r.priority.toNat) := by
      unfold max'
      split
      · exact ⟨by omega, by omega, .inr rfl⟩
      · exact ⟨by omega, by omega, .inl rfl⟩
    unfold ruleLoop
    refine ⟨by rw [h1]; simp, by rw [h2]; simp, ?_, by omega, ?_⟩
    · rcases h3 with h3 | ⟨q, hq, h3⟩
      · rcases hm.2.2 with h | h
        · exact .inl (h3.trans h)
        · exact .inr ⟨r, by simp, h3.trans h⟩
      · exact .inr ⟨q, List.mem_cons_of_mem _ hq, h3⟩
    · intro q hq
      rcases List.mem_cons.1 hq with rfl | hq
      · omega
      · exact h5 q hq

theorem joinSep_eq (sep : Str) (l : List Str) : joinSep sep l = List.intercalate sep l := by
  unfold List.intercalate
  induction l with
  | nil => rfl
  | cons w ws ih =>
    cases ws with
    | nil => simp [joinSep]
    | cons v vs =>
      rw [joinSep, ih, List.intersperse_cons₂]
      · simp
      · simp

theorem eventKind_keys (L : ELib) (rec : Record) (a b c : Str) :
    "reason".toList ∉ (eventKind L rec a b c).map Prod.fst ∧ "severity".toList ∉ (eventKind L rec a b c).map Prod.fst ∧
    ((eventKind L rec a b c).map Prod.fst).Nodup := by
  unfold eventKind eventBase
  by_cases h1 : Spec.kind L rec.fr = Spec.PE ∨ Spec.kind L rec.fr = Spec.FE <;> by_cases h2 : Spec.kind L rec.fr = Spec.KE
  · rw [if_pos h1, if_pos h2]
    show "reason".toList ∉ ["category".toList, "type".toList, "action".toList, "sf_type".toList, "start".toList, "end".toList,
      "duration".toList, "kind".toList, "sf_ret".toList, "original".toList] ∧ "severity".toList ∉ ["category".toList, "type".toList,
      "action".toList, "sf_type".toList, "start".toList, "end".toList, "duration".toList, "kind".toList, "sf_ret".toList, "original".toList] ∧
      ["category".toList, "type".toList, "action".toList, "sf_type".toList, "start".toList, "end".toList,
      "duration".toList, "kind".toList, "sf_ret".toList, "original".toList].Nodup
    decide
  · rw [if_pos h1, if_neg h2]
    show "reason".toList ∉ ["category".toList, "type".toList, "action".toList, "sf_type".toList, "start".toList, "end".toList,
      "duration".toList, "kind".toList, "sf_ret".toList] ∧ "severity".toList ∉ ["category".toList, "type".toList,
      "action".toList, "sf_type".toList, "start".toList, "end".toList, "duration".toList, "kind".toList, "sf_ret".toList] ∧
      ["category".toList, "type".toList, "action".toList, "sf_type".toList, "start".toList, "end".toList,
      "duration".toList, "kind".toList, "sf_ret".toList].Nodup
    decide
  · rw [if_neg h1, if_pos h2]
    show "reason".toList ∉ ["category".toList, "type".toList, "action".toList, "sf_type".toList, "start".toList, "end".toList,
      "duration".toList, "kind".toList, "original".toList] ∧ "severity".toList ∉ ["category".toList, "type".toList,
      "action".toList, "sf_type".toList, "start".toList, "end".toList, "duration".toList, "kind".toList, "original".toList] ∧
      ["category".toList, "type".toList, "action".toList, "sf_type".toList, "start".toList, "end".toList,
      "duration".toList, "kind".toList, "original".toList].Nodup
    decide
  · rw [if_neg h1, if_neg h2]
    show "reason".toList ∉ ["category".toList, "type".toList, "action".toList, "sf_type".toList, "start".toList, "end".toList,
      "duration".toList, "kind".toList] ∧ "severity".toList ∉ ["category".toList, "type".toList,
      "action".toList, "sf_type".toList, "start".toList, "end".toList, "duration".toList, "kind".toList] ∧
      ["category".toList, "type".toList, "action".toList, "sf_type".toList, "start".toList, "end".toList,
      "duration".toList, "kind".toList].Nodup
    decide

theorem event_keys (L : ELib) (rec : Record) (a b c : Str) (n : Nat) : ((Spec.event L rec a b c n).map Prod.fst).Nodup := by
  have h := eventKind_keys L rec a b c
  have he : Spec.event L rec a b c n = eventKind L rec a b c ++ (if rec.ctx.getRules ≠ [] then
    [("reason".toList, .str (List.intercalate ", ".toList (rec.ctx.getRules.map (·.name)))), ("severity".toList, .int n)] else []) := rfl
  rw [he]
  by_cases hr : rec.ctx.getRules ≠ []
  · rw [if_pos hr, List.map_append, List.nodup_append]
    refine ⟨h.2.2, ?_, ?_⟩
    · show ["reason".toList, "severity".toList].Nodup; decide
    · intro x hx y hy hxy
      subst hxy
      have hy' : x ∈ ["reason".toList, "severity".toList] := hy
      rcases List.mem_cons.1 hy' with rfl | hy'
      · exact h.1 hx
      · cases List.mem_singleton.1 hy'
        exact h.2.1 hx
  · rw [if_neg hr, List.append_nil]; exact h.2.2

/-- What the rules add to a document. -/
theorem encode_some (c : Conf) (L : ELib) (rec : Record) (d : Rec) (h : encode c L rec = some d) :
    ∃ e0 n, pre c L rec = some e0 ∧ Spec.IsSeverity rec.ctx.getRules n ∧
      d.tags = rec.ctx.getTags ++ rec.ctx.getRules.flatMap (fun r => r.tags.flatten) ∧
      ∃ ev, d = { post L rec e0 with event := ev, tags := d.tags } ∧
        (rec.ctx.getRules = [] → ev = (post L rec e0).event) ∧
        (rec.ctx.getRules ≠ [] → ∃ m, (post L rec e0).event = some m ∧ ev = some ((m.set "reason".toList
          (.str (List.intercalate ", ".toList (rec.ctx.getRules.map (·.name))))).set "severity".toList (.int n))) := by
  unfold encode at h
  rw [base_eq] at h
  cases hp : pre c L rec with
  | none => rw [hp] at h; cases h
  | some e0 =>
    rw [hp] at h
    obtain ⟨h1, h2, h3, h4, h5⟩ := ruleLoop_eq [] rec.ctx.getTags Policy.Priority.low.toNat rec.ctx.getRules
    refine ⟨e0, _, rfl, ⟨h3, h4, h5⟩, ?_⟩
    have ht0 : (post L rec e0).tags = [] := (post_same L rec e0).tags.trans (pre_ok c L rec e0 hp).2.tags
    dsimp only [Option.map_some] at h
    cases hr : rec.ctx.getRules with
    | nil =>
      rw [hr, if_neg (by simp)] at h
      cases htg : rec.ctx.getTags with
      | nil =>
        rw [htg, if_neg (by simp), Option.some.injEq] at h
        subst h
        exact ⟨by rw [ht0]; rfl, _, rfl, fun _ => rfl, fun hn => absurd rfl hn⟩
      | cons t ts =>
        rw [htg, if_pos (by simp), Option.some.injEq] at h
        subst h
        exact ⟨by simp, _, rfl, fun _ => rfl, fun hn => absurd rfl hn⟩
    | cons r rs =>
      rw [if_pos (by rw [hr]; simp)] at h
      cases hev : (post L rec e0).event with
      | none => rw [hev] at h; cases h
      | some ev =>
        rw [hev] at h
        dsimp only at h
        rw [h1, h2, joinSep_eq, List.nil_append] at h
        rw [← hr]
        by_cases hl : (rec.ctx.getTags ++ rec.ctx.getRules.flatMap (fun r => r.tags.flatten)).length > 0
        · rw [if_pos hl, Option.some.injEq] at h
          subst h
          exact ⟨rfl, _, rfl, fun hn => absurd hn (by rw [hr]; simp), fun _ => ⟨ev, rfl, rfl⟩⟩
        · rw [if_neg hl, Option.some.injEq] at h
          have hnil : rec.ctx.getTags ++ rec.ctx.getRules.flatMap (fun r => r.tags.flatten) = [] := List.length_eq_zero_iff.1 (by omega)
          subst h
          exact ⟨by rw [hnil]; exact ht0, _, rfl, fun hn => absurd hn (by rw [hr]; simp), fun _ => ⟨ev, rfl, rfl⟩⟩

theorem idInput_eq (L : ELib) (fr : FlatRec) : idInput L fr = Spec.idBytes L fr := by
  have n1 : Spec.FF ≠ Spec.NF := by decide
  have n2 : Spec.FE ≠ Spec.NF := by decide
  have n4 : Spec.KE ≠ Spec.NF := by decide
  have n7 : Spec.KE ≠ Spec.FF := by decide
  have n9 : Spec.KE ≠ Spec.FE := by decide
  unfold idInput Spec.idBytes
  dsimp only
  rw [kind_eq, ms_node_id, ms_container_id, ms_file_oid, ms_ke_message]
  change _ ++ (if Spec.kind L fr = Spec.FF ∨ Spec.kind L fr = Spec.FE then _ else if Spec.kind L fr = Spec.NF then _ else
    if Spec.kind L fr = Spec.KE then _ else _) = _
  by_cases h1 : Spec.kind L fr = Spec.FF ∨ Spec.kind L fr = Spec.FE
  · have h2 : ¬ Spec.kind L fr = Spec.NF := by
      intro h; rcases h1 with h1 | h1
      · exact n1 (h1.symm.trans h)
      · exact n2 (h1.symm.trans h)
    have h3 : ¬ Spec.kind L fr = Spec.KE := by
      intro h; rcases h1 with h1 | h1
      · exact n7 (h.symm.trans h1)
      · exact n9 (h.symm.trans h1)
    rw [if_pos h1, if_pos h1, if_neg h2, if_neg h3]
    simp [A]
  · rw [if_neg h1, if_neg h1]
    by_cases h2 : Spec.kind L fr = Spec.NF
    · have h3 : ¬ Spec.kind L fr = Spec.KE := fun h => n4 (h.symm.trans h2)
      rw [if_pos h2, if_pos h2, if_neg h3]
      simp [A]
    · rw [if_neg h2, if_neg h2]
      by_cases h3 : Spec.kind L fr = Spec.KE
      · rw [if_pos h3, if_pos h3]; simp [A]
      · rw [if_neg h3, if_neg h3]; simp [A]

/-- C61 (and C47–C49): the document of every record that is encoded. -/
theorem ecs_document (c : Conf) (L : ELib) (rec : Record) (d : Rec) (h : encode c L rec = some d) : Spec.Doc c L rec d := by
  obtain ⟨e0, n, hp, hn, htags, ev, hd, hev0, hev1⟩ := encode_some c L rec d h
  obtain ⟨C, F⟩ := pre_ok c L rec e0 hp
  have S := post_same L rec e0
  have K := post_kind L rec e0
  have noV : ¬ Spec.Known L rec.fr → d.event = none := by
    intro hk
    have h1 := K.noEvent hk
    rw [F.event] at h1
    by_cases hr : rec.ctx.getRules = []
    · rw [hd]; exact (hev0 hr).trans h1
    · obtain ⟨m, hm, _⟩ := hev1 hr
      rw [h1] at hm; cases hm
  refine
    { id := ?_, ts := ?_, agent := ?_, host := ?_, event := ?_, noEvent := noV, tags := htags, process := ?_, user := ?_,
      container := ?_, noContainer := ?_, noProcess := ?_, k8s := ?_, pod := ?_, noPod := ?_, noOrchestrator := ?_, file := ?_,
      noFile := ?_, fileAction := ?_, noFileAction := ?_, network := ?_, noNetwork := ?_ }
  · rw [hd]; exact (S.id.trans C.id).trans (congrArg L.hash (idInput_eq L rec.fr))
  · rw [hd]; exact S.ts.trans C.ts
  · rw [hd]; exact ⟨S.agent.1.trans C.agent.1, S.agent.2.1.trans C.agent.2.1, S.agent.2.2.trans C.agent.2.2⟩
  · have : d.host = Spec.host rec.fr := by rw [hd]; exact S.host.trans C.host
    rw [this]; exact host_shows rec.fr
  · intro hk
    obtain ⟨ca, ty, ac, hc, he⟩ := K.event hk
    refine ⟨ca, ty, ac, n, hc, hn, ?_⟩
    have : d.event = some (Spec.event L rec ca ty ac n) := by
      have hs : Spec.event L rec ca ty ac n = eventKind L rec ca ty ac ++ (if rec.ctx.getRules ≠ [] then
        [("reason".toList, .str (List.intercalate ", ".toList (rec.ctx.getRules.map (·.name)))), ("severity".toList, .int n)] else []) := rfl
      rw [hs, hd]
      show ev = _
      by_cases hr : rec.ctx.getRules = []
      · rw [if_neg (fun h => h hr), List.append_nil, hev0 hr, he]
      · obtain ⟨m, hm, hev⟩ := hev1 hr
        rw [if_pos hr, hev]
        have : m = eventKind L rec ca ty ac := Option.some.inj (hm.symm.trans he)
        subst this
        have hkeys := eventKind_keys L rec ca ty ac
        rw [set_new _ _ _ hkeys.1, set_new]
        · simp
        · rw [List.map_append, List.mem_append]
          rintro (hx | hx)
          · exact hkeys.2.1 hx
          · have hx' : "severity".toList ∈ ["reason".toList] := hx
            revert hx'; decide
    rw [this]
    exact shows _ (event_keys L rec ca ty ac n)
  · intro hk
    have : d.process = some (Spec.process L rec.fr) := by rw [hd]; exact (S.process.trans C.process).trans (if_neg hk)
    rw [this]; exact process_shows L rec.fr
  · intro hk
    have : d.user = some (Spec.user rec.fr) := by rw [hd]; exact (S.user.trans C.user).trans (if_neg hk)
    rw [this]; exact user_shows rec.fr
  · intro hk hc
    have : d.container = some (Spec.container L rec.fr) := by
      rw [hd]; exact (S.container.trans C.container).trans (if_neg (fun h => h.elim hk hc))
    rw [this]; exact container_shows L rec.fr
  · intro hk; rw [hd]; exact (S.container.trans C.container).trans (if_pos hk)
  · intro hk; rw [hd]; exact ⟨(S.process.trans C.process).trans (if_pos hk), (S.user.trans C.user).trans (if_pos hk)⟩
  · intro hk
    have : d.orchestrator = some (Spec.k8sOrchestrator L rec.fr) := by rw [hd]; exact K.orchestrator.trans (if_pos hk)
    rw [this]
    exact shows _ (by show ["namespace".toList, "resource".toList, "type".toList].Nodup; decide)
  · intro hk hpod
    have ho : d.orchestrator = some (Spec.orchestrator rec.fr) := by
      rw [hd]; exact (K.orchestrator.trans (if_neg hk)).trans ((F.orchestrator hk).trans (if_neg hpod))
    obtain ⟨hs, is, ss, h1, h2, h3, h4, h5⟩ := C.pod hk hpod
    refine ⟨?_, hs, is, ss, h1, h2, h3, ?_, ?_⟩
    · rw [ho]; exact shows _ (by show ["namespace".toList, "resource".toList, "type".toList].Nodup; decide)
    · have : d.pod = some (Spec.pod L rec.fr hs is) := by rw [hd]; exact S.pod.1.trans h4
      rw [this]
      exact shows _ (by
        show ["ts".toList, "id".toList, "name".toList, "nodename".toList, "namespace".toList, "hostip".toList, "internalip".toList,
          "restartcnt".toList].Nodup
        decide)
    · rw [hd]; exact S.pod.2.trans h5
  · intro hk; rw [hd]; exact ⟨S.pod.1.trans (C.noPod hk).1, S.pod.2.trans (C.noPod hk).2⟩
  · intro hk hpod; rw [hd]
    exact (K.orchestrator.trans (if_neg hk)).trans ((F.orchestrator hk).trans (if_pos (Classical.not_not.1 hpod)))
  · intro hk
    obtain ⟨t, hf, h1, h2⟩ := K.file hk
    have hf' : d.file = some (Spec.file L rec.fr (fileTypeOf L rec.fr) t) := by rw [hd]; exact hf
    refine ⟨fileTypeOf L rec.fr, fileTypeOf_ok L rec.fr, ?_, ?_⟩
    · intro ht; rw [hf', h1 ht]; exact shows _ (file_nodup L rec.fr _ _)
    · intro ht; rw [hf', h2 ht]; exact shows _ (file_nodup L rec.fr _ _)
  · intro hk; rw [hd]; exact (K.noFile hk).trans F.file
  · intro hk ha
    have : d.fileAction = some (Spec.fileAction rec.fr) := by rw [hd]; exact K.fileAction.trans (if_pos ⟨hk, ha⟩)
    rw [this]
    exact shows _ (by show ["bytes_read".toList, "read_ops".toList, "bytes_written".toList, "write_ops".toList].Nodup; decide)
  · intro hk; rw [hd]
    exact (K.fileAction.trans (if_neg (fun h => hk.elim (fun h' => h' h.1) (fun h' => h' h.2)))).trans F.fileAction
  · intro hk
    obtain ⟨h1, h2, h3⟩ := K.network hk
    have h1' : d.network = some (Spec.network L rec.fr) := by rw [hd]; exact h1
    have h2' := (show d.source = (post L rec e0).source by rw [hd]).trans h2
    have h3' := (show d.destination = (post L rec e0).destination by rw [hd]).trans h3
    rw [h1', h2', h3']
    exact ⟨shows _ (by show ["bytes".toList, "community_id".toList, "iana_number".toList, "protocol".toList].Nodup; decide),
      shows _ (by show ["ip".toList, "port".toList, "address".toList, "bytes".toList, "packets".toList].Nodup; decide),
      shows _ (by show ["ip".toList, "port".toList, "address".toList, "bytes".toList, "packets".toList].Nodup; decide)⟩
  · intro hk; rw [hd]
    exact ⟨(K.noNetwork hk).1.trans F.network.1, (K.noNetwork hk).2.1.trans F.network.2.1, (K.noNetwork hk).2.2.trans F.network.2.2⟩

/-! ### When there is no document -/

/-- C61: encoding panics exactly for records with a pod whose address or service lists are missing, and for matched records
of a kind that is not classified. -/
theorem ecs_panics_iff (c : Conf) (L : ELib) (rec : Record) :
    encode c L rec = none ↔
      (Spec.kind L rec.fr ≠ Spec.KE ∧ Spec.HasPod rec.fr ∧
        (rec.fr.getIntArray .POD_HOSTIP_ANY .sysflow = none ∨ rec.fr.getIntArray .POD_INTERNALIP_ANY .sysflow = none ∨
          rec.fr.getSvcArray .POD_SERVICES_ANY .sysflow = none)) ∨
      (¬ Spec.Known L rec.fr ∧ rec.ctx.getRules ≠ []) := by
  rw [← pre_none c L rec]
  unfold encode
  rw [base_eq]
  cases hp : pre c L rec with
  | none => simp
  | some e0 =>
    dsimp only [Option.map_some]
    have K := post_kind L rec e0
    have F := (pre_ok c L rec e0 hp).2
    cases hr : rec.ctx.getRules with
    | nil =>
      rw [if_neg (by simp)]
      exact ⟨fun h => (by cases h), fun h => h.elim (fun h => (by cases h)) (fun h => absurd rfl h.2)⟩
    | cons r rs =>
      rw [if_pos (by simp)]
      by_cases hk : Spec.Known L rec.fr
      · obtain ⟨_, _, _, _, he⟩ := K.event hk
        rw [he]
        exact ⟨fun h => (by cases h), fun h => h.elim (fun h => (by cases h)) (fun h => absurd hk h.1)⟩
      · have := K.noEvent hk
        rw [F.event] at this
        rw [this]
        exact ⟨fun _ => .inr ⟨hk, by simp⟩, fun _ => rfl⟩

/-! ### C48: classification -/

/-- Every record of a known kind has exactly one category, type and action. -/
theorem class_unique (L : ELib) (fr : FlatRec) (a b c a' b' c' : Str) (h : Spec.Class L fr a b c) (h' : Spec.Class L fr a' b' c') :
    a = a' ∧ b = b' ∧ c = c' := by
  have n1 : Spec.FF ≠ Spec.NF := by decide
  have n2 : Spec.FE ≠ Spec.NF := by decide
  have n3 : Spec.PE ≠ Spec.NF := by decide
  have n4 : Spec.KE ≠ Spec.NF := by decide
  have n5 : Spec.FE ≠ Spec.FF := by decide
  have n6 : Spec.PE ≠ Spec.FF := by decide
  have n7 : Spec.KE ≠ Spec.FF := by decide
  have n8 : Spec.PE ≠ Spec.FE := by decide
  have n9 : Spec.KE ≠ Spec.FE := by decide
  have n10 : Spec.KE ≠ Spec.PE := by decide
  have kk : ∀ {x y : Str}, Spec.kind L fr = x → Spec.kind L fr = y → x = y := fun h1 h2 => h1.symm.trans h2
  cases h with
  | network k =>
    cases h' with
    | network _ => exact ⟨rfl, rfl, rfl⟩
    | access k' | read k' | write k' | readWrite k' => exact absurd (kk k' k) n1
    | fileEvent _ k' => exact absurd (kk k' k) n2
    | procEvent _ k' => exact absurd (kk k' k) n3
    | k8s _ k' => exact absurd (kk k' k) n4
  | access k r w | read k r w | write k r w | readWrite k r w =>
    cases h' with
    | network k' => exact absurd (kk k k') n1
    | access _ r' w' | read _ r' w' | write _ r' w' | readWrite _ r' w' =>
      revert r w r' w'
      generalize Spec.DidRead fr = R
      generalize Spec.DidWrite fr = W
      intro r w r' w'
      first | exact absurd r r' | exact absurd r' r | exact absurd w w' | exact absurd w' w | exact ⟨rfl, rfl, rfl⟩
    | fileEvent _ k' => exact absurd (kk k' k) n5
    | procEvent _ k' => exact absurd (kk k' k) n6
    | k8s _ k' => exact absurd (kk k' k) n7
  | fileEvent o k f =>
    cases h' with
    | network k' => exact absurd (kk k k') n2
    | access k' | read k' | write k' | readWrite k' => exact absurd (kk k k') n5
    | fileEvent o' _ f' => rw [first_unique f f']; exact ⟨rfl, rfl, rfl⟩
    | procEvent _ k' => exact absurd (kk k' k) n8
    | k8s _ k' => exact absurd (kk k' k) n9
  | procEvent o k f =>
    cases h' with
    | network k' => exact absurd (kk k k') n3
    | access k' | read k' | write k' | readWrite k' => exact absurd (kk k k') n6
    | fileEvent _ k' => exact absurd (kk k k') n8
    | procEvent o' _ f' => rw [first_unique f f']; exact ⟨rfl, rfl, rfl⟩
    | k8s _ k' => exact absurd (kk k' k) n10
  | k8s t k f =>
    cases h' with
    | network k' => exact absurd (kk k k') n4
    | access k' | read k' | write k' | readWrite k' => exact absurd (kk k k') n7
    | fileEvent _ k' => exact absurd (kk k k') n9
    | procEvent _ k' => exact absurd (kk k k') n10
    | k8s t' _ f' =>
      refine ⟨rfl, ?_, rfl⟩
      unfold Spec.k8sEvent at f f'
      have d1 : ADDED ≠ DELETED := by decide
      have d2 : ADDED ≠ MODIFIED := by decide
      have d3 : ADDED ≠ ERROR := by decide
      have d4 : DELETED ≠ MODIFIED := by decide
      have d5 : DELETED ≠ ERROR := by decide
      have d6 : MODIFIED ≠ ERROR := by decide
      generalize A fr .K8SE_ACTION_INT = a at f f'
      rcases f with ⟨h1, rfl⟩ | ⟨h1, rfl⟩ | ⟨h1, rfl⟩ | ⟨h1, rfl⟩ | ⟨h1, rfl⟩ <;>
      rcases f' with ⟨h2, rfl⟩ | ⟨h2, rfl⟩ | ⟨h2, rfl⟩ | ⟨h2, rfl⟩ | ⟨h2, rfl⟩ <;>
      first
        | exact absurd (h1.symm.trans h2) ‹_›
        | exact absurd (h2.symm.trans h1) ‹_›
        | (rw [h1] at h2; exact absurd (by decide) h2)
        | (rw [h2] at h1; exact absurd (by decide) h1)
        | rfl

/-- Text entry of the event of a document. -/
def eventText (d : Rec) (k v : Str) : Prop := ∃ m, d.event = some m ∧ m.get k = some (.str v)
def eventNum (d : Rec) (k : Str) (v : Int) : Prop := ∃ m, d.event = some m ∧ m.get k = some (.int v)
def eventHas (d : Rec) (k : Str) : Prop := ∃ m v, d.event = some m ∧ m.get k = some v

theorem mem_event (L : ELib) (rec : Record) (ca ty ac : Str) (n : Nat) (x : Str × EVal)
    (h : x ∈ [("category".toList, EVal.str ca), ("type".toList, .str ty), ("action".toList, .str ac),
      ("sf_type".toList, .str (Spec.kind L rec.fr)), ("start".toList, .str (L.iso (A rec.fr .TS_INT))),
      ("end".toList, .str (L.iso (Spec.eventEnd rec.fr))), ("duration".toList, .int (wrap64 (Spec.eventEnd rec.fr - A rec.fr .TS_INT))),
      ("kind".toList, .str (if rec.ctx.isAlert then "alert".toList else "event".toList))]) : x ∈ Spec.event L rec ca ty ac n :=
  List.mem_append_left _ (List.mem_append_left _ (List.mem_append_left _ h))

/-- C48: the event of every encoded record of a known kind shows a category, a type and an action, which are those of its
class, and no others; records of other kinds have no event. -/
theorem ecs_classification (c : Conf) (L : ELib) (rec : Record) (d : Rec) (h : encode c L rec = some d) (k t a : Str) :
    (eventText d "category".toList k ∧ eventText d "type".toList t ∧ eventText d "action".toList a) ↔ Spec.Class L rec.fr k t a := by
  have D := ecs_document c L rec d h
  by_cases hk : Spec.Known L rec.fr
  · obtain ⟨ca, ty, ac, n, hc, _, m, hm, hsh⟩ := D.event hk
    have e1 : m.get "category".toList = some (.str ca) := (hsh _ _).2 (mem_event L rec _ _ _ _ _ (.head _))
    have e2 : m.get "type".toList = some (.str ty) := (hsh _ _).2 (mem_event L rec _ _ _ _ _ (.tail _ (.head _)))
    have e3 : m.get "action".toList = some (.str ac) := (hsh _ _).2 (mem_event L rec _ _ _ _ _ (.tail _ (.tail _ (.head _))))
    constructor
    · rintro ⟨⟨m1, h1, g1⟩, ⟨m2, h2, g2⟩, ⟨m3, h3, g3⟩⟩
      rw [hm] at h1 h2 h3
      cases h1; cases h2; cases h3
      rw [e1] at g1; rw [e2] at g2; rw [e3] at g3
      cases g1; cases g2; cases g3
      exact hc
    · intro hc'
      obtain ⟨rfl, rfl, rfl⟩ := class_unique _ _ _ _ _ _ _ _ hc hc'
      exact ⟨⟨m, hm, e1⟩, ⟨m, hm, e2⟩, ⟨m, hm, e3⟩⟩
  · constructor
    · rintro ⟨⟨m1, h1, _⟩, _⟩
      rw [D.noEvent hk] at h1; cases h1
    · intro hc
      exact absurd (by unfold Spec.Known; cases hc with
        | network h | access h | read h | write h | readWrite h | fileEvent _ h | procEvent _ h | k8s _ h => rw [h]; decide) hk

/-- C48: every record of a known kind is classified. -/
theorem ecs_classification_total (L : ELib) (fr : FlatRec) (hk : Spec.Known L fr) : ∃ k t a, Spec.Class L fr k t a := by
  obtain ⟨a, b, c, h, _⟩ := (post_kind L (newRecord fr) ⟨[], [], [], [], [], none, [], none, none, none, [], none, none, none, none, none, none, none, []⟩).event hk
  exact ⟨a, b, c, h⟩

/-- C48: the meaning of the flags for non-negative words: the bits of the binary representation. -/
theorem performed_testBit (n : Nat) (o : Op) : Spec.Performed n o ↔ n.testBit o.bit = true := by
  rw [← has_iff]
  unfold has
  rw [Nat.testBit_eq_decide_div_mod_eq]
  have : ((n : Int) / 2 ^ o.bit % 2) = ((n / 2 ^ o.bit % 2 : Nat) : Int) := by simp
  rw [this]
  simp only [beq_iff_eq, decide_eq_true_eq]
  omega

/-- C48: flags combined by bitwise or. -/
theorem performed_or (m n : Nat) (o : Op) : Spec.Performed ((m ||| n : Nat) : Int) o ↔ Spec.Performed m o ∨ Spec.Performed n o := by
  simp only [performed_testBit, Nat.testBit_or, Bool.or_eq_true]

/-- C48: the flag of one operation stands for that operation alone. -/
theorem performed_single (o p : Op) : Spec.Performed ((2 ^ o.bit : Nat) : Int) p ↔ p = o := by
  rw [performed_testBit]
  cases o <;> cases p <;> decide

/-! ### C49: times -/

/-- C49: the start is the timestamp of the record; the end is the recorded end, or the start if there is none; the duration
is their difference, which does not wrap for non-negative timestamps and is zero without recorded end. -/
theorem ecs_times (c : Conf) (L : ELib) (rec : Record) (d : Rec) (h : encode c L rec = some d) (hk : Spec.Known L rec.fr) :
    d.ts = L.iso (A rec.fr .TS_INT) ∧
    eventText d "start".toList (L.iso (A rec.fr .TS_INT)) ∧
    (endTs rec.fr = 0 → eventText d "end".toList (L.iso (A rec.fr .TS_INT)) ∧ eventNum d "duration".toList 0) ∧
    (endTs rec.fr ≠ 0 → eventText d "end".toList (L.iso (endTs rec.fr)) ∧
      eventNum d "duration".toList (wrap64 (endTs rec.fr - A rec.fr .TS_INT)) ∧
      (0 ≤ A rec.fr .TS_INT → A rec.fr .TS_INT < 2 ^ 63 → 0 ≤ endTs rec.fr → endTs rec.fr < 2 ^ 63 →
        eventNum d "duration".toList (endTs rec.fr - A rec.fr .TS_INT))) := by
  have D := ecs_document c L rec d h
  obtain ⟨ca, ty, ac, n, hc, _, m, hm, hsh⟩ := D.event hk
  have e1 : m.get "start".toList = some (.str (L.iso (A rec.fr .TS_INT))) :=
    (hsh _ _).2 (mem_event L rec _ _ _ _ _ (.tail _ (.tail _ (.tail _ (.tail _ (.head _))))))
  have e2 : m.get "end".toList = some (.str (L.iso (Spec.eventEnd rec.fr))) :=
    (hsh _ _).2 (mem_event L rec _ _ _ _ _ (.tail _ (.tail _ (.tail _ (.tail _ (.tail _ (.head _)))))))
  have e3 : m.get "duration".toList = some (.int (wrap64 (Spec.eventEnd rec.fr - A rec.fr .TS_INT))) :=
    (hsh _ _).2 (mem_event L rec _ _ _ _ _ (.tail _ (.tail _ (.tail _ (.tail _ (.tail _ (.tail _ (.head _))))))))
  refine ⟨D.ts, ⟨m, hm, e1⟩, ?_, ?_⟩
  · intro h0
    have : Spec.eventEnd rec.fr = A rec.fr .TS_INT := if_neg (fun h => h h0)
    rw [this] at e2 e3
    exact ⟨⟨m, hm, e2⟩, ⟨m, hm, by rw [e3]; simp [wrap64]⟩⟩
  · intro h0
    have : Spec.eventEnd rec.fr = endTs rec.fr := if_pos h0
    rw [this] at e2 e3
    refine ⟨⟨m, hm, e2⟩, ⟨m, hm, e3⟩, fun h1 h2 h3 h4 => ⟨m, hm, ?_⟩⟩
    rw [e3]
    congr 2
    unfold wrap64
    exact Int.bmod_eq_of_le (by omega) (by omega)

/-! ### C47: alerts -/

/-- C47: the event of a matched record shows the names of all matched rules in order and the greatest of Low and their
priorities; the event of a record without matches shows neither. The tags are those of the context followed by those of the
rules. -/
theorem ecs_alert (c : Conf) (L : ELib) (rec : Record) (d : Rec) (h : encode c L rec = some d) :
    d.tags = rec.ctx.getTags ++ rec.ctx.getRules.flatMap (fun r => r.tags.flatten) ∧
    (rec.ctx.getRules ≠ [] →
      eventText d "reason".toList (List.intercalate ", ".toList (rec.ctx.getRules.map (·.name))) ∧
      ∃ n : Nat, Spec.IsSeverity rec.ctx.getRules n ∧ eventNum d "severity".toList n) ∧
    (rec.ctx.getRules = [] → ¬ eventHas d "reason".toList ∧ ¬ eventHas d "severity".toList) := by
  have D := ecs_document c L rec d h
  refine ⟨D.tags, ?_, ?_⟩
  · intro hr
    have hk : Spec.Known L rec.fr := by
      apply Classical.byContradiction
      intro hk
      have := (ecs_panics_iff c L rec).2 (.inr ⟨hk, hr⟩)
      rw [h] at this; cases this
    obtain ⟨ca, ty, ac, n, hc, hn, m, hm, hsh⟩ := D.event hk
    refine ⟨⟨m, hm, (hsh _ _).2 ?_⟩, n, hn, ⟨m, hm, (hsh _ _).2 ?_⟩⟩
    · unfold Spec.event; rw [if_pos hr]; exact List.mem_append_right _ (.head _)
    · unfold Spec.event; rw [if_pos hr]; exact List.mem_append_right _ (.tail _ (.head _))
  · intro hr
    by_cases hk : Spec.Known L rec.fr
    · obtain ⟨ca, ty, ac, n, hc, hn, m, hm, hsh⟩ := D.event hk
      have he : Spec.event L rec ca ty ac n = eventKind L rec ca ty ac := by
        have hs : Spec.event L rec ca ty ac n = eventKind L rec ca ty ac ++ (if rec.ctx.getRules ≠ [] then
          [("reason".toList, .str (List.intercalate ", ".toList (rec.ctx.getRules.map (·.name)))), ("severity".toList, .int n)] else []) := rfl
        rw [hs, if_neg (fun h => h hr), List.append_nil]
      rw [he] at hsh
      have hkeys := eventKind_keys L rec ca ty ac
      constructor
      · rintro ⟨m', v, hm', hg⟩
        rw [hm] at hm'; cases hm'
        exact hkeys.1 (List.mem_map.2 ⟨_, (hsh _ _).1 hg, rfl⟩)
      · rintro ⟨m', v, hm', hg⟩
        rw [hm] at hm'; cases hm'
        exact hkeys.2.1 (List.mem_map.2 ⟨_, (hsh _ _).1 hg, rfl⟩)
    · constructor <;>
      · rintro ⟨m', v, hm', _⟩
        rw [D.noEvent hk] at hm'; cases hm'

/-- C47: the severity is determined by the rules; it is the greatest priority unless all are informational. -/
theorem severity_unique (rules : List Policy.RuleInfo) (m n : Nat) (hm : Spec.IsSeverity rules m) (hn : Spec.IsSeverity rules n) : m = n := by
  have : ∀ {a b}, Spec.IsSeverity rules a → Spec.IsSeverity rules b → a ≤ b := by
    intro a b ha hb
    rcases ha.1 with h | ⟨r, hr, h⟩
    · rw [h]; exact hb.2.1
    · rw [h]; exact hb.2.2 r hr
  exact Nat.le_antisymm (this hm hn) (this hn hm)

theorem severity_max (rules : List Policy.RuleInfo) (n : Nat) (hn : Spec.IsSeverity rules n) (r : Policy.RuleInfo) (hr : r ∈ rules)
    (hp : r.priority ≠ .informational) : ∃ q ∈ rules, n = q.priority.toNat ∧ ∀ p ∈ rules, p.priority.toNat ≤ n := by
  rcases hn.1 with h | ⟨q, hq, h⟩
  · have h1 := hn.2.2 r hr
    refine ⟨r, hr, ?_, hn.2.2⟩
    cases hpr : r.priority <;> simp_all [Policy.Priority.toNat]
  · exact ⟨q, hq, h, hn.2.2⟩

end Verif.Ecs

import Verif.Ecs.Props
import Verif.Flattener.FilterProps
import Verif.FlatRecord.Examples
/-
C60: the identifiers of ECS documents; concrete cases for the theorems about ECS documents.
-/
namespace Verif.Ecs
open Verif.Decimal (Str)
open Verif.FlatRecord

/-- The integer attributes that identify a record of some kind (besides node and container). -/
def Spec.idInts (L : ELib) (fr : FlatRec) : List IAttr :=
  [.TS_INT, .TID_INT, .PROC_OID_CREATETS_INT, .OPFLAGS_INT] ++
  (if Spec.kind L fr = Spec.NF then [.FL_NETW_SIP_INT, .FL_NETW_SPORT_INT, .FL_NETW_DIP_INT, .FL_NETW_DPORT_INT, .FL_NETW_PROTO_INT] else []) ++
  (if Spec.kind L fr = Spec.KE then [.K8SE_ACTION_INT, .K8SE_KIND_INT] else [])
/-- The text that identifies a record of some kind. -/
def Spec.idText (L : ELib) (fr : FlatRec) : Str :=
  if Spec.kind L fr = Spec.FF ∨ Spec.kind L fr = Spec.FE then T fr .FILE_OID_STR
  else if Spec.kind L fr = Spec.KE then T fr .K8SE_MESSAGE_STR else []

theorem bytes_nil : Utf8.bytes [] = [] := rfl

theorem idBytes_split (L : ELib) (fr : FlatRec) :
    Spec.idBytes L fr = Utf8.bytes (T fr .SFHE_EXPORTER_STR) ++ Utf8.bytes (T fr .CONT_ID_STR) ++
      (Spec.idInts L fr).flatMap (fun a => Filter.le64 (A fr a)) ++ Utf8.bytes (Spec.idText L fr) := by
  have n1 : Spec.FF ≠ Spec.NF := by decide
  have n2 : Spec.FE ≠ Spec.NF := by decide
  have n4 : Spec.KE ≠ Spec.NF := by decide
  have n7 : Spec.KE ≠ Spec.FF := by decide
  have n9 : Spec.KE ≠ Spec.FE := by decide
  unfold Spec.idBytes Spec.idInts Spec.idText
  by_cases h1 : Spec.kind L fr = Spec.FF ∨ Spec.kind L fr = Spec.FE
  · have h2 : ¬ Spec.kind L fr = Spec.NF := by
      intro h; rcases h1 with h1 | h1
      · exact n1 (h1.symm.trans h)
      · exact n2 (h1.symm.trans h)
    have h3 : ¬ Spec.kind L fr = Spec.KE := by
      intro h; rcases h1 with h1 | h1
      · exact n7 (h.symm.trans h1)
      · exact n9 (h.symm.trans h1)
    rw [if_pos h1, if_pos h1, if_neg h2, if_neg h3, if_neg h2, if_neg h3]
    simp only [List.append_nil]
  · rw [if_neg h1, if_neg h1]
    by_cases h2 : Spec.kind L fr = Spec.NF
    · have h3 : ¬ Spec.kind L fr = Spec.KE := fun h => n4 (h.symm.trans h2)
      rw [if_pos h2, if_pos h2, if_neg h3, if_neg h3, if_neg h3, bytes_nil]
      simp only [List.append_nil, List.flatMap_append, List.append_assoc]
    · rw [if_neg h2, if_neg h2]
      by_cases h3 : Spec.kind L fr = Spec.KE
      · rw [if_pos h3, if_pos h3, if_pos h3]
        simp only [List.append_nil, List.flatMap_append, List.append_assoc]
      · rw [if_neg h3, if_neg h3, if_neg h3, bytes_nil]
        simp only [List.append_nil]

/-- C60: the identifier of a document is a digest of the identifying attributes and of nothing else. -/
theorem ecs_id_determined (c c' : Conf) (L : ELib) (r r' : Record) (d d' : Rec) (h : encode c L r = some d) (h' : encode c' L r' = some d')
    (hk : Spec.kind L r.fr = Spec.kind L r'.fr) (hn : T r.fr .SFHE_EXPORTER_STR = T r'.fr .SFHE_EXPORTER_STR)
    (hc : T r.fr .CONT_ID_STR = T r'.fr .CONT_ID_STR) (hi : ∀ a ∈ Spec.idInts L r.fr, A r.fr a = A r'.fr a)
    (ht : Spec.idText L r.fr = Spec.idText L r'.fr) : d.id = d'.id := by
  rw [(ecs_document c L r d h).id, (ecs_document c' L r' d' h').id, idBytes_split, idBytes_split, hn, hc, ht]
  have e : Spec.idInts L r'.fr = Spec.idInts L r.fr := by unfold Spec.idInts; rw [hk]
  rw [e]
  have : ∀ l : List IAttr, (∀ a ∈ l, A r.fr a = A r'.fr a) → l.flatMap (fun a => Filter.le64 (A r.fr a)) = l.flatMap (fun a => Filter.le64 (A r'.fr a)) := by
    intro l hl
    induction l with
    | nil => rfl
    | cons a l ih =>
      simp only [List.flatMap_cons]
      rw [hl a (by simp), ih (fun b hb => hl b (List.mem_cons_of_mem _ hb))]
  rw [this _ hi]

theorem ints_inj (fr fr' : FlatRec) (l : List IAttr) (hi : ∀ a, Filter.IsI64 (A fr a)) (hi' : ∀ a, Filter.IsI64 (A fr' a)) (s s' : List UInt8)
    (h : l.flatMap (fun a => Filter.le64 (A fr a)) ++ s = l.flatMap (fun a => Filter.le64 (A fr' a)) ++ s') :
    (∀ a ∈ l, A fr a = A fr' a) ∧ s = s' := by
  induction l with
  | nil => exact ⟨by simp, h⟩
  | cons a l ih =>
    simp only [List.flatMap_cons, List.append_assoc] at h
    obtain ⟨h1, h2⟩ := List.append_inj h (by rw [Filter.le64_length, Filter.le64_length])
    have e := Filter.le64_inj _ _ (hi a) (hi' a) h1
    obtain ⟨h3, h4⟩ := ih h2
    refine ⟨?_, h4⟩
    intro b hb
    rcases List.mem_cons.1 hb with rfl | hb
    · exact e
    · exact h3 b hb

/-- C60: records of the same kind, node and container that differ in an identifying attribute have different digest inputs:
equal identifiers of such records can only come from a collision of the hash function. -/
theorem ecs_id_distinguishes (c c' : Conf) (L : ELib) (r r' : Record) (d d' : Rec) (h : encode c L r = some d) (h' : encode c' L r' = some d')
    (hk : Spec.kind L r.fr = Spec.kind L r'.fr) (hn : T r.fr .SFHE_EXPORTER_STR = T r'.fr .SFHE_EXPORTER_STR)
    (hc : T r.fr .CONT_ID_STR = T r'.fr .CONT_ID_STR) (hi : ∀ a, Filter.IsI64 (A r.fr a)) (hi' : ∀ a, Filter.IsI64 (A r'.fr a))
    (hd : (∃ a ∈ Spec.idInts L r.fr, A r.fr a ≠ A r'.fr a) ∨ Spec.idText L r.fr ≠ Spec.idText L r'.fr) :
    ∃ b b', b ≠ b' ∧ d.id = L.hash b ∧ d'.id = L.hash b' := by
  refine ⟨_, _, ?_, (ecs_document c L r d h).id, (ecs_document c' L r' d' h').id⟩
  intro heq
  rw [idBytes_split, idBytes_split, hn, hc] at heq
  have e : Spec.idInts L r'.fr = Spec.idInts L r.fr := by unfold Spec.idInts; rw [hk]
  rw [e] at heq
  simp only [List.append_assoc] at heq
  have heq := List.append_cancel_left (List.append_cancel_left heq)
  obtain ⟨h1, h2⟩ := ints_inj r.fr r'.fr _ hi hi' _ _ heq
  rcases hd with ⟨a, ha, hne⟩ | hne
  · exact hne (h1 a ha)
  · exact hne (Utf8.bytes_injective _ _ h2)

/-! ### Concrete cases -/

/-- A sample library. -/
def demoELib : ELib :=
  { demoLib with
    iso := fun n => 'T' :: Decimal.formatInt n
    protoName := fun _ => "tcp".toList
    communityId := fun s d _ _ _ => s ++ '>' :: d
    hash := fun b => b.map (fun x => Char.ofNat x.toNat)
    msg := fun m _ => m }

def demoConf : Conf := ⟨"1".toList, "8".toList⟩

/-- A sample record: a network flow of 9 ns in a container, or a process event. -/
def demoFr (t flags en : Int) (cont : String) : FlatRec :=
  ⟨[(.sysflow,
    { ints := fun a => if a = .SF_REC_TYPE then t else if a = .OPFLAGS_INT then flags else if a = .TS_INT then 100
        else if a = .FL_NETW_ENDTS_INT then en else if a = .FL_NETW_NUMRRECVBYTES_INT then 7 else if a = .PROC_OID_HPID_INT then 12
        else if a = .TID_INT then 12 else 0
      strs := fun a => if a = .CONT_ID_STR then cont.toList else if a = .PROC_EXE_STR then "/bin/sh".toList
        else if a = .SFHE_EXPORTER_STR then "n".toList else []
      anys := fun _ => .nil })], some [demoProc "/bin/sh" 12, demoProc "/sbin/init" 1], 0⟩

def demoRules : List Policy.RuleInfo :=
  [{ name := "a".toList, priority := .informational, tags := [["x".toList]] }, { name := "b".toList, priority := .high }]

def demoAlert : Record := { newRecord (demoFr PROC_EVT 2 0 "c1") with ctx := ((newRecord (demoFr PROC_EVT 2 0 "c1")).ctx.addRules demoRules) }
def demoFlow : Record := newRecord (demoFr NET_FLOW 8 109 "c1")

/-- Selected entries of a document. -/
def showEvent (o : Option Rec) (k : String) : Option EVal := (o.bind (·.event)).bind (fun m => m.get k.toList)

-- C47, C48, C49, C61: documents exist and show these values
example : (encode demoConf demoELib demoAlert).isSome = true ∧ Spec.kind demoELib demoAlert.fr = Spec.PE := by decide +kernel
example : Spec.Class demoELib demoAlert.fr "process".toList "start".toList "process-start".toList := by
  have h : Spec.First (A demoAlert.fr .OPFLAGS_INT) [.exit, .clone, .exec, .setuid] (some .exec) :=
    first_some [.exit, .clone] .exec [.setuid] (by decide +kernel) (by decide +kernel)
  exact Spec.Class.procEvent (some .exec) (by decide +kernel) h
example : Spec.IsSeverity demoRules 3 := by
  unfold Spec.IsSeverity; exact ⟨.inr ⟨{ name := "b".toList, priority := .high }, by simp [demoRules], rfl⟩, by omega, by decide⟩
-- an informational match is shown with severity Low
example : Spec.IsSeverity [{ name := "a".toList, priority := .informational }] 1 := by
  unfold Spec.IsSeverity; exact ⟨.inl rfl, by omega, by decide⟩
example : (encode demoConf demoELib demoFlow).isSome = true ∧ Spec.kind demoELib demoFlow.fr = Spec.NF ∧ endTs demoFlow.fr = 109 ∧
    Spec.bytesRead demoFlow.fr = 7 ∧ T demoFlow.fr .CONT_ID_STR ≠ [] := by decide +kernel
-- a file flow that only read, and one that also wrote
example : Spec.Performed 256 .read ∧ ¬ Spec.Performed 256 .write ∧ Spec.Performed 768 .read ∧ Spec.Performed 768 .write := by
  refine ⟨(has_iff _ _).1 (by decide +kernel), fun h => absurd ((has_iff _ _).2 h) (by decide +kernel), (has_iff _ _).1 (by decide +kernel),
    (has_iff _ _).1 (by decide +kernel)⟩
-- records without pod lists panic
example : encode demoConf demoELib (newRecord
    ⟨[(.sysflow, { ints := fun _ => PROC_EVT, strs := fun a => if a = .POD_ID_STR then ['p'] else [], anys := fun _ => .nil })], none, 0⟩) = none :=
  (ecs_panics_iff _ _ _).2 (.inl ⟨by decide +kernel, by unfold Spec.HasPod; decide +kernel, .inl (by decide +kernel)⟩)
-- C60: two flows that differ in the flags
example : Spec.kind demoELib (demoFr NET_FLOW 8 109 "c1") = Spec.kind demoELib (demoFr NET_FLOW 9 109 "c1") ∧
    IAttr.OPFLAGS_INT ∈ Spec.idInts demoELib (demoFr NET_FLOW 8 109 "c1") ∧
    A (demoFr NET_FLOW 8 109 "c1") .OPFLAGS_INT ≠ A (demoFr NET_FLOW 9 109 "c1") .OPFLAGS_INT ∧
    (∀ a, Filter.IsI64 (A (demoFr NET_FLOW 8 109 "c1") a)) := by
  refine ⟨by decide +kernel, by decide +kernel, by decide +kernel, ?_⟩
  intro a
  cases a <;> (unfold Filter.IsI64; decide +kernel)

/-- C60 (limit of the identifier): node and container identifiers are not delimited, so records of different nodes can have
the same identifier whatever the hash function is. -/
theorem ecs_id_confuses_node_and_container : ∃ r r' : FlatRec,
    T r .SFHE_EXPORTER_STR ≠ T r' .SFHE_EXPORTER_STR ∧ ∀ L : ELib, encodeID L r = encodeID L r' := by
  let mk : Str → Str → FlatRec := fun n c => ⟨[(.sysflow,
    { ints := fun _ => 0, strs := fun a => if a = .SFHE_EXPORTER_STR then n else if a = .CONT_ID_STR then c else [], anys := fun _ => .nil })], none, 0⟩
  refine ⟨mk ['a', 'b'] ['c'], mk ['a'] ['b', 'c'], by decide +kernel, fun L => ?_⟩
  unfold encodeID
  rw [idInput_eq, idInput_eq, idBytes_split, idBytes_split]
  rfl

end Verif.Ecs

import Verif.Ecs.Spec
/-
Each part of the document, computed.
-/
namespace Verif.Ecs
open Verif.Decimal (Str)
open Verif.FlatRecord

theorem get_iff (d : Data) (h : (d.map Prod.fst).Nodup) (k : Str) (v : EVal) : d.get k = some v ↔ (k, v) ∈ d := by
  unfold Data.get
  induction d with
  | nil => simp
  | cons e d ih =>
    obtain ⟨k', v'⟩ := e
    simp only [List.map_cons, List.nodup_cons] at h
    by_cases hk : k' = k
    · subst hk
      simp only [List.find?_cons, beq_self_eq_true, Option.map_some, Option.some.injEq, List.mem_cons, Prod.mk.injEq, true_and]
      constructor
      · intro h'; exact .inl h'.symm
      · rintro (h' | h')
        · exact h'.symm
        · exact absurd (List.mem_map.2 ⟨_, h', rfl⟩) h.1
    · have : (k' == k) = false := by simpa using hk
      simp only [List.find?_cons, this, List.mem_cons, Prod.mk.injEq]
      rw [ih h.2]
      constructor
      · intro h'; exact .inr h'
      · rintro (h' | h')
        · exact absurd h'.1.symm hk
        · exact h'

theorem shows (d : Data) (h : (d.map Prod.fst).Nodup) : Spec.Shows (some d) d := ⟨d, rfl, get_iff d h⟩

theorem set_new (d : Data) (k : Str) (v : EVal) (h : k ∉ d.map Prod.fst) : d.set k v = d ++ [(k, v)] := by
  unfold Data.set
  rw [if_neg]
  intro hc
  obtain ⟨e, he, hk⟩ := List.any_eq_true.1 hc
  exact h (List.mem_map.2 ⟨e, he, by simpa using hk⟩)

theorem wrap_sum (a b : Int) : wrap64 (wrap64 (0 + a) + b) = wrap64 (a + b) := by
  simp [wrap64, Int.bmod_add_bmod]

theorem has_iff (flags : Int) (o : Op) : has flags o = true ↔ Spec.Performed flags o := by
  unfold has Spec.Performed
  rw [Int.pow_succ]
  have hm : (0 : Int) < 2 ^ o.bit := Int.pow_pos (by decide)
  generalize (2 : Int) ^ o.bit = m at hm
  simp only [beq_iff_eq]
  constructor
  · intro h
    refine ⟨flags / m / 2, flags % m, ?_, Int.emod_nonneg _ (by omega), Int.emod_lt_of_pos _ hm⟩
    have h1 := Int.mul_ediv_add_emod flags m
    have h2 : flags / m = 2 * (flags / m / 2) + 1 := by omega
    have h3 : m * (flags / m) = flags / m / 2 * (m * 2) + m := by
      generalize flags / m / 2 = q at h2
      rw [h2, Int.mul_add, Int.mul_one, Int.mul_comm q, Int.mul_assoc]
    omega
  · rintro ⟨hi, lo, h, h0, h1⟩
    have h3 : hi * (m * 2) + m + lo = lo + m * (2 * hi + 1) := by
      rw [Int.mul_add, Int.mul_one, Int.mul_comm hi, Int.mul_assoc]; omega
    rw [h, h3, Int.add_mul_ediv_left _ _ (by omega), Int.ediv_eq_zero_of_lt h0 h1]
    omega

variable (L : ELib) (fr : FlatRec)

theorem kind_eq : ms L fr "sf.type".toList = Spec.kind L fr := ms_type L fr
theorem rbytes_eq : mi L fr "sf.flow.rbytes".toList = Spec.bytesRead fr := (mi_flow_rbytes L fr).trans (wrap_sum _ _)
theorem rops_eq : mi L fr "sf.flow.rops".toList = Spec.opsRead fr := (mi_flow_rops L fr).trans (wrap_sum _ _)
theorem wbytes_eq : mi L fr "sf.flow.wbytes".toList = Spec.bytesWritten fr := (mi_flow_wbytes L fr).trans (wrap_sum _ _)
theorem wops_eq : mi L fr "sf.flow.wops".toList = Spec.opsWritten fr := (mi_flow_wops L fr).trans (wrap_sum _ _)

theorem host_eq : encodeHost L fr = Spec.host fr := by
  unfold encodeHost
  rw [ms_node_id, ms_node_ip]; rfl

theorem process_eq : encodeProcess L fr = Spec.process L fr := by
  unfold encodeProcess
  rw [ms_proc_exe, ms_proc_args, ms_proc_cmdline, mi_proc_pid, mi_proc_createts, mi_proc_tid, ms_pproc_exe, ms_pproc_args,
    ms_pproc_cmdline, mi_pproc_pid, mi_pproc_createts]
  rfl

theorem user_eq : encodeUser L fr = Spec.user fr := by
  unfold encodeUser Spec.user
  rw [ms_proc_group, ms_proc_user, mi_proc_gid, mi_proc_uid]
  dsimp only
  by_cases h1 : T fr .PROC_GROUPNAME_STR ≠ [] <;> by_cases h2 : T fr .PROC_USERNAME_STR ≠ []
  · rw [if_pos h1, if_pos h1, if_pos h2, if_pos h2]; rfl
  · rw [if_pos h1, if_pos h1, if_neg h2, if_neg h2]; rfl
  · rw [if_neg h1, if_neg h1, if_pos h2, if_pos h2]; rfl
  · rw [if_neg h1, if_neg h1, if_neg h2, if_neg h2]; rfl

theorem container_eq : encodeContainer L fr = if T fr .CONT_ID_STR ≠ [] then some (Spec.container L fr) else none := by
  unfold encodeContainer Spec.container
  rw [ms_container_id, ms_container_type, mi_container_privileged, ms_container_name, ms_container_imageid, ms_container_image]
  dsimp only
  by_cases h1 : T fr .CONT_ID_STR ≠ []
  · rw [if_pos h1, if_pos h1]
    by_cases h2 : T fr .CONT_IMAGEID_STR ≠ []
    · rw [if_pos h2, if_pos h2]; rfl
    · rw [if_neg h2, if_neg h2]; rfl
  · rw [if_neg h1, if_neg h1]

theorem orchestrator_eq : encodeOrchestrator L fr = Spec.orchestrator fr := by
  unfold encodeOrchestrator
  rw [ms_pod_namespace, ms_pod_name]; rfl

theorem service_eq (s : SysFlow.Service) : encodeService L s = Spec.service L s := rfl

/-- The type computed for a file. -/
def fileTypeOf : Str := if has (opFlags fr) .symlink then "symlink".toList else encodeFileType (ms L fr "sf.file.type".toList)

theorem fileTypeOf_ok : Spec.fileType L fr (fileTypeOf L fr) := by
  unfold fileTypeOf Spec.fileType
  rw [ms_file_type]
  generalize Strings.trimQuotes (L.fileType (A fr .FILE_RESTYPE_INT)) = ft
  by_cases h : has (opFlags fr) .symlink = true
  · rw [if_pos h]; exact .inl ⟨(has_iff _ _).1 h, rfl⟩
  · rw [if_neg h]
    refine .inr ⟨fun h' => h ((has_iff _ _).2 h'), ?_⟩
    unfold encodeFileType
    by_cases h1 : ft = "f".toList
    · rw [if_pos h1]; exact .inl ⟨h1, rfl⟩
    rw [if_neg h1]
    by_cases h2 : ft = "d".toList
    · rw [if_pos h2]; exact .inr (.inl ⟨h2, rfl⟩)
    rw [if_neg h2]
    by_cases h3 : ft = "u".toList
    · rw [if_pos h3]; exact .inr (.inr (.inl ⟨h3, rfl⟩))
    rw [if_neg h3]
    by_cases h4 : ft = "p".toList
    · rw [if_pos h4]; exact .inr (.inr (.inr (.inl ⟨h4, rfl⟩)))
    rw [if_neg h4]
    refine .inr (.inr (.inr (.inr ⟨?_, rfl⟩)))
    intro hm
    simp only [List.mem_cons, List.not_mem_nil, or_false] at hm
    rcases hm with hm | hm | hm | hm
    · exact h1 hm
    · exact h2 hm
    · exact h3 hm
    · exact h4 hm

theorem file_aux (dir : Str → Str) (ft fp nm : Str) :
    (if ft = "dir".toList then Data.set [("type".toList, .str ft)] "directory".toList (.str fp)
     else if fp ≠ nm then
       ((Data.set [("type".toList, .str ft)] "name".toList (.str nm)).set "directory".toList (.str (dir fp))).set "path".toList (.str fp)
     else (Data.set [("type".toList, .str ft)] "name".toList (.str nm)).set "directory".toList (.str (dir fp))) =
    [("type".toList, EVal.str ft)] ++
      (if ft = "dir".toList then [("directory".toList, .str fp)]
       else [("name".toList, .str nm), ("directory".toList, .str (dir fp))] ++
        (if fp ≠ nm then [("path".toList, .str fp)] else [])) ++ [] := by
  by_cases h1 : ft = "dir".toList
  · rw [if_pos h1, if_pos h1]; rfl
  · rw [if_neg h1, if_neg h1]
    by_cases h2 : fp ≠ nm
    · rw [if_pos h2, if_pos h2]; rfl
    · rw [if_neg h2, if_neg h2]; rfl

theorem file_eq : encodeFile L fr = Spec.file L fr (fileTypeOf L fr) none := by
  have hp := ms_file_path L fr
  have hfd := mi_file_fd L fr
  have hpid := mi_proc_pid L fr
  unfold encodeFile Spec.file Spec.filePath Spec.fileName Spec.storedPath
  rw [hp, hfd, hpid]
  exact file_aux L.dir (fileTypeOf L fr) _ _

theorem file_target_eq (t : Str) : (encodeFile L fr).set "target_path".toList (.str t) = Spec.file L fr (fileTypeOf L fr) (some t) := by
  have hn : "target_path".toList ∉ (encodeFile L fr).map Prod.fst := by
    rw [file_eq]
    unfold Spec.file
    dsimp only
    by_cases h1 : fileTypeOf L fr = "dir".toList
    · rw [if_pos h1]; show "target_path".toList ∉ ["type".toList, "directory".toList]; decide
    · rw [if_neg h1]
      by_cases h2 : Spec.filePath L fr ≠ Spec.fileName L fr
      · rw [if_pos h2]; show "target_path".toList ∉ ["type".toList, "name".toList, "directory".toList, "path".toList]; decide
      · rw [if_neg h2]; show "target_path".toList ∉ ["type".toList, "name".toList, "directory".toList]; decide
  rw [set_new _ _ _ hn, file_eq]
  unfold Spec.file
  rw [List.append_nil]

/-- Keys of the file part are distinct. -/
theorem file_nodup (ft : Str) (t : Option Str) : ((Spec.file L fr ft t).map Prod.fst).Nodup := by
  unfold Spec.file
  by_cases h1 : ft = "dir".toList
  · rw [if_pos h1]
    cases t with
    | none => show ["type".toList, "directory".toList].Nodup; decide
    | some t => show ["type".toList, "directory".toList, "target_path".toList].Nodup; decide
  · rw [if_neg h1]
    by_cases h2 : Spec.filePath L fr ≠ Spec.fileName L fr
    · rw [if_pos h2]
      cases t with
      | none => show ["type".toList, "name".toList, "directory".toList, "path".toList].Nodup; decide
      | some t => show ["type".toList, "name".toList, "directory".toList, "path".toList, "target_path".toList].Nodup; decide
    · rw [if_neg h2]
      cases t with
      | none => show ["type".toList, "name".toList, "directory".toList].Nodup; decide
      | some t => show ["type".toList, "name".toList, "directory".toList, "target_path".toList].Nodup; decide

theorem host_shows : Spec.Shows (some (Spec.host fr)) (Spec.host fr) :=
  shows _ (by show ["id".toList, "ip".toList].Nodup; decide)
theorem process_shows : Spec.Shows (some (Spec.process L fr)) (Spec.process L fr) :=
  shows _ (by
    show ["executable".toList, "args".toList, "command_line".toList, "pid".toList, "start".toList, "name".toList, "thread".toList,
      "parent".toList].Nodup
    decide)
theorem user_shows : Spec.Shows (some (Spec.user fr)) (Spec.user fr) :=
  shows _ (by
    unfold Spec.user
    by_cases h : T fr .PROC_USERNAME_STR ≠ []
    · rw [if_pos h]; show ["group".toList, "id".toList, "name".toList].Nodup; decide
    · rw [if_neg h]; show ["group".toList, "id".toList].Nodup; decide)
theorem container_shows : Spec.Shows (some (Spec.container L fr)) (Spec.container L fr) :=
  shows _ (by
    unfold Spec.container
    by_cases h : T fr .CONT_IMAGEID_STR ≠ []
    · rw [if_pos h]; show ["id".toList, "runtime".toList, "sf_privileged".toList, "name".toList, "image".toList].Nodup; decide
    · rw [if_neg h]; show ["id".toList, "runtime".toList, "sf_privileged".toList, "name".toList].Nodup; decide)

/-! ### The event -/

/-- The event before rules (and without the message of a Kubernetes event). -/
def eventBase (rec : Record) (category type action : Str) : List (Str × EVal) :=
  [("category".toList, .str category), ("type".toList, .str type), ("action".toList, .str action),
   ("sf_type".toList, .str (Spec.kind L rec.fr)), ("start".toList, .str (L.iso (A rec.fr .TS_INT))),
   ("end".toList, .str (L.iso (Spec.eventEnd rec.fr))), ("duration".toList, .int (wrap64 (Spec.eventEnd rec.fr - A rec.fr .TS_INT))),
   ("kind".toList, .str (if rec.ctx.isAlert then "alert".toList else "event".toList))] ++
  (if Spec.kind L rec.fr = Spec.PE ∨ Spec.kind L rec.fr = Spec.FE then [("sf_ret".toList, .int (ret rec.fr))] else [])

theorem event_eq (rec : Record) (category type action : Str) :
    encodeEvent L rec category type action = eventBase L rec category type action := by
  unfold encodeEvent eventBase
  rw [mi_ts, mi_endts, kind_eq, mi_ret]
  have he : (if endTs rec.fr = 0 then A rec.fr .TS_INT else endTs rec.fr) = Spec.eventEnd rec.fr := by
    unfold Spec.eventEnd
    by_cases h : endTs rec.fr = 0
    · rw [if_pos h, if_neg (by omega)]
    · rw [if_neg h, if_pos h]
  dsimp only
  rw [he]
  by_cases h : Spec.kind L rec.fr = "PE".toList ∨ Spec.kind L rec.fr = "FE".toList
  · rw [if_pos h, if_pos (show Spec.kind L rec.fr = Spec.PE ∨ Spec.kind L rec.fr = Spec.FE from h)]; rfl
  · rw [if_neg h, if_neg (show ¬ (Spec.kind L rec.fr = Spec.PE ∨ Spec.kind L rec.fr = Spec.FE) from h)]; rfl

end Verif.Ecs

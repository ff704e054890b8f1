import Verif.Json.Values
import Verif.FlatRecord.TableFacts
/-
The JSON document of a record.
-/
namespace Verif.Json
open Verif.Decimal (Str)
open Verif.FlatRecord
open Verif.SysFlow (Service Port Proc)

/-! ### Fields -/

/-- What a field needs in order to be written as specified. -/
structure FieldOk (fr : FlatRec) (fv : FieldEntry) : Prop where
  cached : ∀ a, fv.map = .cached a → fr.ptree ≠ none
  file : fv.sect = .SectFile → fr.getInt .SF_REC_TYPE .sysflow ≠ NET_FLOW
  net : fv.sect = .SectNet → fr.getInt .SF_REC_TYPE .sysflow = NET_FLOW
  ints : ∀ a, fv.map = .intArray a → ∃ l, fr.getIntArray a .sysflow = some l ∧ l.length ≤ 1
  svcs : ∀ a, fv.map = .svcArray a → ∃ l, fr.getSvcArray a .sysflow = some l ∧ l.length ≤ 1 ∧
    ∀ s ∈ l, s.clusterIP.length ≤ 1

theorem reads_single (s : Str) : Reads (cBSQ :: string s ++ [cESQ]) (.arr [Spec.text s]) :=
  reads_arr [string s] _ (.cons (reads_string s) .nil)

theorem val_ok (e : Env) (hL : Spec.LibOk e.L) (fr : FlatRec) (fv : FieldEntry) (hs : shapeOk fv = true)
    (ok : FieldOk fr fv) :
    ∃ b, mapJSON e fr fv = some b ∧ Reads b (Spec.value e.L e.sipAlias fr fv) := by
  obtain ⟨name, map, idx, ty, sect⟩ := fv
  have okc := ok.cached
  have okf := ok.file
  have okn := ok.net
  have oki := ok.ints
  have oks := ok.svcs
  simp only at okc okf okn oki oks
  unfold shapeOk at hs
  dsimp only at hs
  split at hs
  · -- str
    simp only [beq_iff_eq] at hs; subst hs
    exact ⟨_, by simp [mapJSON, idxStr], reads_string _⟩
  · -- newpath
    simp only [Bool.and_eq_true, beq_iff_eq] at hs
    obtain ⟨rfl, hn⟩ := hs
    refine ⟨_, by simp [mapJSON, idxStr]; rfl, ?_⟩
    simp only [Spec.value, if_pos hn]
    exact reads_string _
  · -- int
    simp only [Bool.and_eq_true, beq_iff_eq, Bool.not_eq_true'] at hs
    obtain ⟨rfl, hn⟩ := hs
    refine ⟨_, by simp [mapJSON, idxInt]; rfl, ?_⟩
    simp only [Spec.value, hn]
    exact reads_int _
  · -- flag
    simp only [Bool.and_eq_true, beq_iff_eq] at hs
    obtain ⟨rfl, hn⟩ := hs
    refine ⟨_, by simp [mapJSON, idxInt]; rfl, ?_⟩
    simp only [Spec.value, hn, if_true]
    exact reads_bool _
  · exact ⟨_, by simp [mapJSON, Mapper.run], reads_string _⟩
  · exact ⟨_, by simp [mapJSON, Mapper.run], reads_string _⟩
  · exact ⟨_, by simp [mapJSON, Mapper.run], reads_string _⟩
  · exact ⟨_, by simp [mapJSON, Mapper.run], reads_string _⟩
  · -- path
    simp only [bne_iff_ne, ne_eq] at hs
    refine ⟨_, by simp [mapJSON, Mapper.run]; rfl, ?_⟩
    simp only [Spec.value, if_neg hs]
    exact reads_string _
  · exact ⟨_, by simp [mapJSON, Mapper.run], reads_string _⟩
  · exact ⟨_, by simp [mapJSON, Mapper.run], reads_string _⟩
  · exact ⟨_, by simp [mapJSON, Mapper.run], reads_string _⟩
  · exact ⟨_, by simp [mapJSON, Mapper.run], reads_string _⟩
  · exact ⟨_, by simp [mapJSON, Mapper.run], reads_string _⟩
  · exact ⟨_, by simp [mapJSON, Mapper.run], reads_string _⟩
  · -- one address
    refine ⟨_, by simp [mapJSON, Mapper.run]; rfl, ?_⟩
    exact reads_string _
  · -- ret
    by_cases ht : fr.getInt .SF_REC_TYPE .sysflow = PROC_EVT ∨ fr.getInt .SF_REC_TYPE .sysflow = FILE_EVT
    · refine ⟨int (fr.getInt .RET_INT .sysflow), by simp [mapJSON, Mapper.run, ht], ?_⟩
      simp only [Spec.value, Mapper.run, if_pos ht, Spec.scalar]; exact reads_int _
    · refine ⟨int 0, by simp [mapJSON, Mapper.run, ht], ?_⟩
      simp only [Spec.value, Mapper.run, if_neg ht, Spec.scalar]; exact reads_int _
  · -- endTs
    have : ∃ n, (Mapper.endTs).run e.L fr = .i64 n := by
      simp only [Mapper.run]
      split
      · exact ⟨_, rfl⟩
      · split
        · exact ⟨_, rfl⟩
        · split <;> exact ⟨_, rfl⟩
    obtain ⟨n, hn⟩ := this
    refine ⟨int n, by simp [mapJSON, hn], ?_⟩
    simp only [Spec.value, hn, Spec.scalar]
    exact reads_int _
  · exact ⟨_, by simp [mapJSON, Mapper.run], reads_int _⟩
  · exact ⟨_, by simp [mapJSON, Mapper.run], reads_bool _⟩
  · exact ⟨_, by simp [mapJSON, Mapper.run], reads_bool _⟩
  · -- opflags
    exact ⟨_, by simp [mapJSON, mapArray]; rfl, reads_strArray _ (hL.opFlags _ _)⟩
  · -- openflags
    have hf : sect = .SectFile := by simpa using hs
    refine ⟨_, ?_, reads_strArray _ (hL.openFlags (fr.getInt .FL_FILE_OPENFLAGS_INT .sysflow))⟩
    simp [mapJSON, mapArray, okf hf, idxInt, mapOpenFlags]
  · -- ports
    exact ⟨_, by simp [mapJSON, mapArray], reads_ports fr⟩
  · -- two addresses
    have hf : sect = .SectNet := by simpa using hs
    cases ha : e.sipAlias with
    | true =>
      refine ⟨mapIPs fr, by simp [mapJSON, mapArray, ha, okn hf], ?_⟩
      simp only [Spec.value, if_true]
      exact reads_ips fr
    | false =>
      refine ⟨_, by simp [mapJSON, mapArray, ha, Mapper.run]; rfl, ?_⟩
      simp only [Spec.value]
      exact reads_single _
  · obtain ⟨hs, h1, h2⟩ := oki _ rfl
    refine ⟨mapIPArray hs, by simp [mapJSON, mapArray, h1], ?_⟩
    simp only [Spec.value, h1, Option.getD_some]
    exact reads_ipArray _ h2
  · obtain ⟨is, h3, h4⟩ := oki _ rfl
    refine ⟨mapIPArray is, by simp [mapJSON, mapArray, h3], ?_⟩
    simp only [Spec.value, h3, Option.getD_some]
    exact reads_ipArray _ h4
  · obtain ⟨ss, h5, h6, h7⟩ := oks _ rfl
    refine ⟨mapSvcArray ss, by simp [mapJSON, h5], ?_⟩
    simp only [Spec.value, h5, Option.getD_some]
    exact reads_svcs _ h6 h7
  · cases hp : fr.ptree with
    | none => exact absurd hp (okc _ rfl)
    | some pt =>
      refine ⟨cachedJSON fr _, by simp only [mapJSON, auxAttr]; rw [if_pos (.inl trivial)], ?_⟩
      simp only [Spec.value, hp, Option.getD_some]
      exact reads_cached fr pt hp _
  · cases hp : fr.ptree with
    | none => exact absurd hp (okc _ rfl)
    | some pt =>
      refine ⟨cachedJSON fr _, by simp only [mapJSON, auxAttr]; rw [if_pos (.inr trivial)], ?_⟩
      simp only [Spec.value, hp, Option.getD_some]
      exact reads_cached fr pt hp _
  · cases hs

/-! ### The loop -/

/-- The output once an open section has been closed. -/
def closing (w : W) : Bytes := if w.state ≠ none ∧ w.existed = true then w.out ++ endCurlyComma else w.out

theorem fieldLoop_append (e : Env) (h : Hdr) (fr : FlatRec) (w : W) (a b : List FieldEntry) :
    fieldLoop e h fr w (a ++ b) = (fieldLoop e h fr w a).bind (fun w' => fieldLoop e h fr w' b) := by
  induction a generalizing w with
  | nil => rfl
  | cons x xs ih =>
    simp only [List.cons_append, fieldLoop]
    cases fieldStep e h fr w x with
    | none => rfl
    | some w' => exact ih w'

theorem section?_none (h : Hdr) : section? h .SectNone = none := by
  unfold section?; split <;> rfl

/-- Fields outside the loop's cases change nothing. -/
theorem fieldLoop_treated (e : Env) (h : Hdr) (fr : FlatRec) (w : W) (l : List FieldEntry) :
    fieldLoop e h fr w (l.filter treated) = fieldLoop e h fr w l := by
  induction l generalizing w with
  | nil => rfl
  | cons x xs ih =>
    cases ht : treated x with
    | true =>
      rw [List.filter_cons_of_pos ht]
      simp only [fieldLoop]
      cases fieldStep e h fr w x with
      | none => rfl
      | some w' => exact ih w'
    | false =>
      rw [List.filter_cons_of_neg (by simp [ht]), ih]
      simp only [treated, Bool.or_eq_false_iff, beq_eq_false_iff_ne, bne_eq_false_iff_eq] at ht
      have : fieldStep e h fr w x = some w := by
        unfold fieldStep
        rw [if_neg ht.1]
        split
        · rw [ht.2, section?_none]
        · rfl
      simp only [fieldLoop, this]

/-- Skipped sections. -/
theorem loop_skip (e : Env) (h : Hdr) (fr : FlatRec) (w : W) (l : List FieldEntry)
    (h3 : ∀ fv ∈ l, (fieldSects fv).length = 3 ∧ section? h fv.sect = none) : fieldLoop e h fr w l = some w := by
  induction l with
  | nil => rfl
  | cons x xs ih =>
    obtain ⟨hx, hn⟩ := h3 x (.head _)
    have : fieldStep e h fr w x = some w := by
      unfold fieldStep
      rw [if_neg (by omega), if_pos hx, hn]
    simp only [fieldLoop, this]
    exact ih (fun fv hfv => h3 fv (.tail _ hfv))

/-- Fields without section. -/
theorem loop_general (e : Env) (h : Hdr) (fr : FlatRec) (w : W) (l : List FieldEntry) (a : FieldEntry → Bytes)
    (h2 : ∀ fv ∈ l, (fieldSects fv).length = 2 ∧ writeAttribute e fr fv 1 = some (a fv)) :
    fieldLoop e h fr w l = some { w with out := w.out ++ l.flatMap (fun fv => a fv ++ [cCOMMA]) } := by
  induction l generalizing w with
  | nil => simp [fieldLoop]
  | cons x xs ih =>
    obtain ⟨hx, ha⟩ := h2 x (.head _)
    have : fieldStep e h fr w x = some { w with out := w.out ++ a x ++ [cCOMMA] } := by
      unfold fieldStep
      rw [if_pos hx, ha]; rfl
    simp only [fieldLoop, this]
    rw [ih _ (fun fv hfv => h2 fv (.tail _ hfv))]
    simp

/-- The remaining fields of the section that is being written. -/
theorem loop_inside (e : Env) (h : Hdr) (fr : FlatRec) (w : W) (s : SectType) (t : Str) (p : Bool) (l : List FieldEntry)
    (a : FieldEntry → Bytes) (hw : w.state = some s) (hs : section? h s = some (t, p))
    (h3 : ∀ fv ∈ l, (fieldSects fv).length = 3 ∧ fv.sect = s ∧ (p = true → writeAttribute e fr fv 2 = some (a fv))) :
    fieldLoop e h fr w l = some (if p = true then { w with out := w.out ++ l.flatMap (fun fv => cCOMMA :: a fv) } else w) := by
  induction l generalizing w with
  | nil => cases p <;> simp [fieldLoop]
  | cons x xs ih =>
    obtain ⟨hx, hxs, ha⟩ := h3 x (.head _)
    have hrest := fun fv (hfv : fv ∈ xs) => h3 fv (.tail _ hfv)
    cases p with
    | true =>
      have : fieldStep e h fr w x = some { w with out := w.out ++ cCOMMA :: a x } := by
        unfold fieldStep
        rw [if_neg (by omega), if_pos hx, hxs, hs]
        simp only
        rw [if_neg (by simp [hw]), if_pos trivial, ha rfl]
        rfl
      simp only [fieldLoop, this]
      rw [ih _ (by simpa using hw) hrest]
      simp
    | false =>
      have : fieldStep e h fr w x = some w := by
        unfold fieldStep
        rw [if_neg (by omega), if_pos hx, hxs, hs]
        simp only
        rw [if_neg (by simp [hw]), if_neg (by simp)]
      simp only [fieldLoop, this]
      rw [ih _ hw hrest]
      simp

/-- The text of a section. -/
def sectText (t : Str) (as : List Bytes) : Bytes := cQUOTE :: tx t ++ quoteColon ++ (cBCURLY :: commas as ++ [cECURLY])

theorem commas_flatMap (b : Bytes) (bs : List Bytes) : commas (b :: bs) = b ++ bs.flatMap (fun x => cCOMMA :: x) := by
  induction bs generalizing b with
  | nil => simp [commas]
  | cons c cs ih => rw [commas_cons_cons, ih]; simp [cCOMMA]

/-- A whole section. -/
theorem loop_section (e : Env) (h : Hdr) (fr : FlatRec) (w : W) (s : SectType) (t : Str) (p : Bool) (l : List FieldEntry)
    (a : FieldEntry → Bytes) (hw : w.state ≠ some s) (hs : section? h s = some (t, p)) (hl : l ≠ [])
    (h3 : ∀ fv ∈ l, (fieldSects fv).length = 3 ∧ fv.sect = s ∧ (p = true → writeAttribute e fr fv 2 = some (a fv))) :
    ∃ w', fieldLoop e h fr w l = some w' ∧ w'.state = some s ∧ w'.existed = p ∧
      closing w' = closing w ++ (if p = true then sectText t (l.map a) ++ [cCOMMA] else []) := by
  cases l with
  | nil => exact absurd rfl hl
  | cons x xs =>
    obtain ⟨hx, hxs, ha⟩ := h3 x (.head _)
    have hrest := fun fv (hfv : fv ∈ xs) => h3 fv (.tail _ hfv)
    cases p with
    | true =>
      have st : fieldStep e h fr w x = some ⟨closing w ++ writeSectionBegin t ++ a x, some s, true⟩ := by
        unfold fieldStep
        rw [if_neg (by omega), if_pos hx, hxs, hs]
        simp only
        rw [if_pos hw, if_pos trivial, ha rfl]
        rfl
      refine ⟨_, by simp only [fieldLoop, st]; rw [loop_inside e h fr _ s t true xs a rfl hs hrest], rfl, rfl, ?_⟩
      simp only [if_true, closing, ne_eq, reduceCtorEq, not_false_eq_true, and_self, sectText, List.map_cons, commas_flatMap]
      simp [writeSectionBegin, quoteColon, quoteColonCurly, endCurlyComma, cBCURLY, cECURLY, cCOMMA, List.flatMap_map]
    | false =>
      have st : fieldStep e h fr w x = some ⟨closing w, some s, false⟩ := by
        unfold fieldStep
        rw [if_neg (by omega), if_pos hx, hxs, hs]
        simp only
        rw [if_pos hw, if_neg (by simp)]
        rfl
      refine ⟨_, by simp only [fieldLoop, st]; rw [loop_inside e h fr _ s t false xs a rfl hs hrest], rfl, rfl, ?_⟩
      simp [closing]

/-- Is the section written? -/
def written (h : Hdr) (s : SectType) : Bool := ((section? h s).map Prod.snd).getD false

theorem section?_title (h : Hdr) (s : SectType) (t : Str) (p : Bool) (hs : section? h s = some (t, p)) : t = Spec.title s := by
  unfold section? at hs
  split at hs <;> cases s <;>
    simp only [Option.some.injEq, Prod.mk.injEq, reduceCtorEq] at hs <;> exact hs.1.symm

/-- A sequence of sections. -/
theorem loop_sections (e : Env) (h : Hdr) (fr : FlatRec) (a : FieldEntry → Bytes) (ss : List SectType) (w : W)
    (hnd : ss.Nodup) (hw : ∀ s ∈ ss, w.state ≠ some s) (hss : ∀ s ∈ ss, s ∈ Spec.order)
    (h3 : ∀ s ∈ ss, written h s = true → ∀ fv ∈ Spec.fieldsOf s, writeAttribute e fr fv 2 = some (a fv)) :
    ∃ w', fieldLoop e h fr w (ss.flatMap Spec.fieldsOf) = some w' ∧
      (∀ s, w'.state = some s → s ∈ ss ∨ w.state = some s) ∧
      closing w' = closing w ++ ss.flatMap (fun s =>
        if written h s = true then sectText (Spec.title s) ((Spec.fieldsOf s).map a) ++ [cCOMMA] else []) := by
  induction ss generalizing w with
  | nil => exact ⟨w, rfl, fun s hs => .inr hs, by simp⟩
  | cons s ss ih =>
    obtain ⟨hns, hnd'⟩ := List.nodup_cons.1 hnd
    rw [List.flatMap_cons, fieldLoop_append]
    have hf : ∀ fv ∈ Spec.fieldsOf s, (fieldSects fv).length = 3 ∧ fv.sect = s := fun fv hfv => ((mem_fieldsOf fv s).1 hfv).2
    cases hsec : section? h s with
    | none =>
      rw [loop_skip e h fr w _ (fun fv hfv => ⟨(hf fv hfv).1, by rw [(hf fv hfv).2]; exact hsec⟩)]
      obtain ⟨w', h1, h2, h3'⟩ := ih w hnd' (fun x hx => hw x (.tail _ hx)) (fun x hx => hss x (.tail _ hx))
        (fun x hx => h3 x (.tail _ hx))
      refine ⟨w', h1, ?_, ?_⟩
      · intro x hx
        rcases h2 x hx with h2 | h2
        · exact .inl (.tail _ h2)
        · exact .inr h2
      · rw [h3', List.flatMap_cons, if_neg (by simp [written, hsec])]
        simp
    | some tp =>
      obtain ⟨t, p⟩ := tp
      obtain ⟨w1, e1, e2, e3, e4⟩ := loop_section e h fr w s t p (Spec.fieldsOf s) a (hw s (.head _)) hsec
        (titles_ok s (hss s (.head _))).2
        (fun fv hfv => ⟨(hf fv hfv).1, (hf fv hfv).2, fun hp => h3 s (.head _) (by simp [written, hsec, hp]) fv hfv⟩)
      obtain ⟨w', h1, h2, h3'⟩ := ih w1 hnd' (fun x hx hx' => by
          rw [e2] at hx'; cases hx'; exact hns hx)
        (fun x hx => hss x (.tail _ hx)) (fun x hx => h3 x (.tail _ hx))
      refine ⟨w', by rw [e1]; exact h1, ?_, ?_⟩
      · intro x hx
        rcases h2 x hx with h2 | h2
        · exact .inl (.tail _ h2)
        · rw [e2] at h2; cases h2; exact .inl (.head _)
      · rw [h3', e4, List.flatMap_cons, ← section?_title h s t p hsec]
        cases p with
        | true => rw [if_pos rfl, if_pos (by simp [written, hsec])]; simp
        | false => rw [if_neg (by simp), if_neg (by simp [written, hsec])]; simp

/-! ### Which sections -/

theorem mapStr_field (L : Lib) (fr : FlatRec) (n : Str) (m : Mapper) (hc : cut n = none) (hg : getMappers.get n = some m) (v : Str)
    (hv : m.run L fr = .str v) : mapStr L getMappers n fr = Strings.trimQuotes v := by
  simp only [mapStr, mapStr?, hc, mapAttr, hg, hv, renderPlain, Option.getD_some]

theorem hdr_sftype (e : Env) (fr : FlatRec) : (hdr e fr).sftype = Spec.kind e.L fr := by
  have := mapStr_field e.L fr "sf.type".toList .recType (by decide +kernel) (by decide +kernel) _ rfl
  exact this

theorem hdr_ct (e : Env) (fr : FlatRec) : (hdr e fr).ctExists = true ↔ Spec.hasContainer fr := by
  have := mapStr_field e.L fr "sf.container.id".toList (.str .CONT_ID_STR) (by decide +kernel) (by decide +kernel) _ rfl
  simp only [hdr, this, Spec.hasContainer, bne_iff_ne]

theorem hdr_pd (e : Env) (fr : FlatRec) : (hdr e fr).pdExists = true ↔ Spec.hasPod fr := by
  have := mapStr_field e.L fr "sf.pod.id".toList (.str .POD_ID_STR) (by decide +kernel) (by decide +kernel) _ rfl
  simp only [hdr, this, Spec.hasPod, bne_iff_ne]

theorem hdr_pproc (e : Env) (fr : FlatRec) : (hdr e fr).pprocExists = true ↔ Spec.hasParent fr := by
  have hg : getMappers.get "sf.pproc.pid".toList = some (.int .PROC_POID_HPID_INT) := by decide +kernel
  simp only [hdr, mapInt, mapAttr, hg, Mapper.run, Spec.hasParent, bne_iff_ne]

theorem written_iff (e : Env) (fr : FlatRec) (s : SectType) : written (hdr e fr) s = true ↔ Spec.Present e.L fr s := by
  have hk := hdr_sftype e fr
  have hc := hdr_ct e fr
  have hp := hdr_pd e fr
  have hpp := hdr_pproc e fr
  unfold written section? Spec.Present
  rw [hk]
  have k1 : TyKE ≠ TyFF := by decide
  have k2 : TyKE ≠ TyFE := by decide
  have k3 : TyKE ≠ TyNF := by decide
  by_cases hke : Spec.kind e.L fr = TyKE
  · have hke' : Spec.kind e.L fr = "KE".toList := hke
    rw [if_pos hke]
    cases s with
    | SectNone => simp
    | SectNode => simp
    | SectMeta => simp
    | SectK8sEvt => simp only [Option.map_some, Option.getD_some, true_iff]; exact hke
    | SectProc => simp only [Option.map_none, Option.getD_none, Bool.false_eq_true, false_iff, ne_eq, Classical.not_not]; exact hke
    | SectPProc => simp only [Option.map_none, Option.getD_none, Bool.false_eq_true, false_iff]; exact fun h => h.1 hke
    | SectCont => simp only [Option.map_none, Option.getD_none, Bool.false_eq_true, false_iff]; exact fun h => h.1 hke
    | SectPod => simp only [Option.map_none, Option.getD_none, Bool.false_eq_true, false_iff]; exact fun h => h.1 hke
    | SectFile =>
      simp only [Option.map_none, Option.getD_none, Bool.false_eq_true, false_iff]
      rintro (h | h)
      · exact k1 (hke.symm.trans h)
      · exact k2 (hke.symm.trans h)
    | SectFlow =>
      simp only [Option.map_none, Option.getD_none, Bool.false_eq_true, false_iff]
      rintro (h | h)
      · exact k1 (hke.symm.trans h)
      · exact k3 (hke.symm.trans h)
    | SectNet =>
      simp only [Option.map_none, Option.getD_none, Bool.false_eq_true, false_iff]
      exact fun h => k3 (hke.symm.trans h)
  · rw [if_neg hke]
    cases s with
    | SectNone => simp
    | SectNode => simp
    | SectMeta => simp
    | SectK8sEvt => simp only [Option.map_none, Option.getD_none, Bool.false_eq_true, false_iff]; exact hke
    | SectProc => simp only [Option.map_some, Option.getD_some, true_iff]; exact hke
    | SectPProc => simp only [Option.map_some, Option.getD_some, hpp]; exact ⟨fun h => ⟨hke, h⟩, fun h => h.2⟩
    | SectCont => simp only [Option.map_some, Option.getD_some, hc]; exact ⟨fun h => ⟨hke, h⟩, fun h => h.2⟩
    | SectPod => simp only [Option.map_some, Option.getD_some, hp]; exact ⟨fun h => ⟨hke, h⟩, fun h => h.2⟩
    | SectFile => simp only [Option.map_some, Option.getD_some, Bool.or_eq_true, beq_iff_eq]; exact Iff.rfl
    | SectFlow => simp only [Option.map_some, Option.getD_some, Bool.or_eq_true, beq_iff_eq]; exact Iff.rfl
    | SectNet => simp only [Option.map_some, Option.getD_some, beq_iff_eq]; exact Iff.rfl

/-! ### The object -/

/-- Texts each followed by a comma. -/
def flat (bs : List Bytes) : Bytes := bs.flatMap (fun b => b ++ [cCOMMA])

theorem flat_append (a b : List Bytes) : flat (a ++ b) = flat a ++ flat b := by simp [flat]

theorem flat_commas (b : Bytes) (bs : List Bytes) : flat (b :: bs) = commas (b :: bs) ++ [cCOMMA] := by
  induction bs generalizing b with
  | nil => simp [flat, commas]
  | cons c cs ih =>
    rw [commas_cons_cons]
    have := ih c
    simp only [flat, List.flatMap_cons] at this ⊢
    rw [this]; simp [cCOMMA]

theorem commas_append (a : Bytes) (as bs : List Bytes) :
    commas ((a :: as) ++ bs) = commas (a :: as) ++ bs.flatMap (fun x => cCOMMA :: x) := by
  rw [List.cons_append, commas_flatMap, commas_flatMap]; simp

/-- Where the loop ends: an open section that exists. -/
theorem loop_order (e : Env) (h : Hdr) (fr : FlatRec) (a : FieldEntry → Bytes) (w : W) (hw : w.state = none)
    (h3 : ∀ s ∈ Spec.order, written h s = true → ∀ fv ∈ Spec.fieldsOf s, writeAttribute e fr fv 2 = some (a fv)) :
    ∃ w', fieldLoop e h fr w (Spec.order.flatMap Spec.fieldsOf) = some w' ∧
      w'.out ++ endCurlyComma = w.out ++
        flat ((Spec.order.filter (fun s => written h s)).map (fun s => sectText (Spec.title s) ((Spec.fieldsOf s).map a))) := by
  -- the sections before, at and after the last one written
  have core : ∀ (pre post : List SectType) (last : SectType), Spec.order = pre ++ last :: post →
      (∃ t, section? h last = some (t, true)) → (∀ s ∈ post, section? h s = none) →
      ∃ w', fieldLoop e h fr w (Spec.order.flatMap Spec.fieldsOf) = some w' ∧
      w'.out ++ endCurlyComma = w.out ++
        flat ((Spec.order.filter (fun s => written h s)).map (fun s => sectText (Spec.title s) ((Spec.fieldsOf s).map a))) := by
    intro pre post last ho hlast hpost
    have hnd : Spec.order.Nodup := by decide
    have hcl : closing w = w.out := by simp [closing, hw]
    rw [ho] at hnd
    have hmem : ∀ s, s ∈ pre ++ last :: post → s ∈ Spec.order := fun s hs => by rw [ho]; exact hs
    obtain ⟨hndp, hndl, hdisj⟩ := List.nodup_append.1 hnd
    obtain ⟨w1, f1, f2, f3⟩ := loop_sections e h fr a pre w hndp (fun s _ => by simp [hw])
      (fun s hs => hmem s (List.mem_append_left _ hs)) (fun s hs => h3 s (hmem s (List.mem_append_left _ hs)))
    obtain ⟨t, ht⟩ := hlast
    have hlm : last ∈ Spec.order := hmem last (List.mem_append_right _ (.head _))
    have hf : ∀ s, ∀ fv ∈ Spec.fieldsOf s, (fieldSects fv).length = 3 ∧ fv.sect = s := fun s fv hfv => ((mem_fieldsOf fv s).1 hfv).2
    obtain ⟨w2, g1, g2, g3, g4⟩ := loop_section e h fr w1 last t true (Spec.fieldsOf last) a
      (by
        intro hs
        rcases f2 last hs with hs | hs
        · exact hdisj last hs last (.head _) rfl
        · rw [hw] at hs; cases hs)
      ht (titles_ok last hlm).2
      (fun fv hfv => ⟨(hf last fv hfv).1, (hf last fv hfv).2, fun _ => h3 last hlm (by simp [written, ht]) fv hfv⟩)
    have hskip : fieldLoop e h fr w2 (post.flatMap Spec.fieldsOf) = some w2 := by
      apply loop_skip
      intro fv hfv
      obtain ⟨s, hs, hfs⟩ := List.mem_flatMap.1 hfv
      exact ⟨(hf s fv hfs).1, by rw [(hf s fv hfs).2]; exact hpost s hs⟩
    refine ⟨w2, ?_, ?_⟩
    · rw [ho, List.flatMap_append, List.flatMap_cons, fieldLoop_append, f1]
      simp only [Option.bind_some]
      rw [fieldLoop_append, g1]
      exact hskip
    · have hc2 : closing w2 = w2.out ++ endCurlyComma := by simp [closing, g2, g3]
      rw [← hc2, g4, f3, hcl, if_pos rfl, section?_title h last t true ht, ho]
      have hpn : post.filter (fun s => written h s) = [] :=
        List.filter_eq_nil_iff.2 (fun s hs => by simp [written, hpost s hs])
      rw [List.filter_append, List.filter_cons_of_pos (by simp [written, ht]), hpn, List.map_append, flat_append]
      have : ∀ l : List SectType, flat ((l.filter (fun s => written h s)).map
            (fun s => sectText (Spec.title s) ((Spec.fieldsOf s).map a))) =
          l.flatMap (fun s => if written h s = true then sectText (Spec.title s) ((Spec.fieldsOf s).map a) ++ [cCOMMA] else []) := by
        intro l
        induction l with
        | nil => rfl
        | cons x xs ih =>
          rw [List.flatMap_cons, ← ih]
          cases hx : written h x with
          | true => rw [List.filter_cons_of_pos (by exact hx)]; simp [flat]
          | false => rw [List.filter_cons_of_neg (by simp [hx])]; simp
      rw [this]
      simp [flat]
  by_cases hk : h.sftype = TyKE
  · refine core [.SectCont, .SectFile, .SectFlow, .SectK8sEvt, .SectMeta, .SectNet] [.SectPod, .SectPProc, .SectProc] .SectNode
      rfl ⟨_, by unfold section?; rw [if_pos hk]⟩ ?_
    intro s hs
    simp only [List.mem_cons, List.not_mem_nil, or_false] at hs
    unfold section?
    rw [if_pos hk]
    rcases hs with rfl | rfl | rfl <;> rfl
  · exact core [.SectCont, .SectFile, .SectFlow, .SectK8sEvt, .SectMeta, .SectNet, .SectNode, .SectPod, .SectPProc] [] .SectProc
      rfl ⟨_, by unfold section?; rw [if_neg hk]⟩ (fun s hs => by cases hs)

/-! ### Policies and tags -/

theorem policyElems_eq (rs : List Policy.RuleInfo) : policyElems rs = commas (rs.map policyObj) := by
  induction rs with
  | nil => rfl
  | cons r rs ih =>
    cases rs with
    | nil => rfl
    | cons q qs =>
      simp only [policyElems] at ih ⊢
      rw [ih]; rfl

theorem reads_policy (r : Policy.RuleInfo) : Reads (policyObj r) (Spec.policy r) := by
  have hm : AllMembers
      [cQUOTE :: tx "id".toList ++ quoteColon ++ string r.name, cQUOTE :: tx "desc".toList ++ quoteColon ++ string r.desc,
       cQUOTE :: tx "priority".toList ++ quoteColon ++ int r.priority.toNat] _ :=
    .cons (member_ok _ (kw _) _ _ (reads_string r.name)) (.cons (member_ok _ (kw _) _ _ (reads_string r.desc))
      (.cons (member_ok _ (kw _) _ _ (reads_int r.priority.toNat)) .nil))
  have := reads_obj _ _ hm
  have e : policyObj r = 0x7B :: commas
      [cQUOTE :: tx "id".toList ++ quoteColon ++ string r.name, cQUOTE :: tx "desc".toList ++ quoteColon ++ string r.desc,
       cQUOTE :: tx "priority".toList ++ quoteColon ++ int r.priority.toNat] ++ [0x7D] := by
    simp [policyObj, commas, cCOMMA, cBCURLY, cECURLY]
  rw [e]
  exact this

/-- The members for the rules. -/
def policyMembers (rules : List Policy.RuleInfo) : List Bytes :=
  if rules = [] then [] else [cQUOTE :: tx "policies".toList ++ quoteColon ++ (cBSQ :: commas (rules.map policyObj) ++ [cESQ])]

theorem policies_eq (rules : List Policy.RuleInfo) : policies rules = (policyMembers rules).flatMap (fun x => cCOMMA :: x) := by
  unfold policies policyMembers
  cases rules with
  | nil => rfl
  | cons r rs =>
    rw [if_pos (by simp), if_neg (by simp), policyElems_eq]
    simp

theorem policyMembers_ok (rules : List Policy.RuleInfo) : AllMembers (policyMembers rules)
    (if rules = [] then [] else [(cps "policies".toList, .arr (rules.map Spec.policy))]) := by
  unfold policyMembers
  split
  · exact .nil
  · exact .cons (member_ok _ (kw _) _ _ (reads_arr_map _ _ rules _ (fun r _ => reads_policy r) rfl)) .nil

theorem tagLoop_append (num cur : Nat) (a b : List Str) :
    tagLoop num cur (a ++ b) = tagLoop num cur a ++ tagLoop num (cur + a.length) b := by
  induction a generalizing cur with
  | nil => rfl
  | cons t ts ih =>
    simp only [List.cons_append, tagLoop, ih, List.length_cons, List.append_assoc]
    rw [show cur + 1 + ts.length = cur + (ts.length + 1) by omega]

theorem tagLoop_eq (num cur : Nat) (ts : List Str) (h : cur + ts.length = num) : tagLoop num cur ts = commas (ts.map string) := by
  induction ts generalizing cur with
  | nil => rfl
  | cons t ts ih =>
    simp only [List.length_cons] at h
    have := ih (cur + 1) (by omega)
    cases ts with
    | nil => simp at h; simp [tagLoop, commas, ← h]
    | cons u us =>
      rw [List.map_cons, List.map_cons, commas_cons_cons, ← List.map_cons, ← this]
      simp only [List.length_cons] at h
      conv => lhs; rw [tagLoop]
      rw [if_pos (by omega)]
      simp [cCOMMA]

/-- The member for the tags. -/
def tagMembers (ts : List Str) : List Bytes :=
  if ts = [] then [] else [cQUOTE :: tx "tags".toList ++ quoteColon ++ (cBSQ :: commas (ts.map string) ++ [cESQ])]

theorem tags_eq (a b : List Str) : tags a b = (tagMembers (a ++ b)).flatMap (fun x => cCOMMA :: x) := by
  unfold tags tagMembers
  have hl := tagLoop_append (b.length + a.length) 0 a b
  rw [tagLoop_eq _ 0 (a ++ b) (by simp; omega)] at hl
  by_cases h : a ++ b = []
  · obtain ⟨rfl, rfl⟩ := List.append_eq_nil_iff.1 h
    rfl
  · have h2 : b.length + a.length > 0 := by
      have := List.length_pos_iff.2 h
      rw [List.length_append] at this; omega
    rw [if_neg h, hl]
    simp [h2]

theorem tagMembers_ok (ts : List Str) : AllMembers (tagMembers ts)
    (if ts = [] then [] else [(cps "tags".toList, .arr (ts.map Spec.text))]) := by
  unfold tagMembers
  split
  · exact .nil
  · exact .cons (member_ok _ (kw _) _ _ (reads_arr_map _ _ ts _ (fun r _ => reads_string r) rfl)) .nil

theorem ruleTags_eq (c : FlatRecord.Ctx) : c.getTags ++ ruleTags c.getRules = Spec.allTags c := by
  simp only [ruleTags, Spec.allTags, List.flatMap_id]

/-! ### The document -/

/-- Fields of the ancestor chain belong to the process sections; addresses and services to the pod section. -/
theorem cached_sect (fv : FieldEntry) (hs : shapeOk fv = true) (a : RecAttr) (h : fv.map = .cached a) :
    fv.sect = .SectProc ∨ fv.sect = .SectPProc := by
  obtain ⟨name, map, idx, ty, sect⟩ := fv
  simp only at h; subst h
  unfold shapeOk at hs
  cases idx <;> simp_all

theorem intArray_sect (fv : FieldEntry) (hs : shapeOk fv = true) (a : AAttr) (h : fv.map = .intArray a) :
    fv.sect = .SectPod ∧ (a = .POD_HOSTIP_ANY ∨ a = .POD_INTERNALIP_ANY) := by
  obtain ⟨name, map, idx, ty, sect⟩ := fv
  simp only at h; subst h
  unfold shapeOk at hs
  dsimp only at hs
  split at hs <;> simp_all

theorem svcArray_sect (fv : FieldEntry) (hs : shapeOk fv = true) (a : AAttr) (h : fv.map = .svcArray a) :
    fv.sect = .SectPod ∧ a = .POD_SERVICES_ANY := by
  obtain ⟨name, map, idx, ty, sect⟩ := fv
  simp only at h; subst h
  unfold shapeOk at hs
  dsimp only at hs
  split at hs <;> simp_all

theorem kind_conditions (L : Lib) (hL : Spec.LibOk L) (fr : FlatRec) (s : SectType) (hp : Spec.Present L fr s) :
    (s = .SectFile → fr.getInt .SF_REC_TYPE .sysflow ≠ NET_FLOW) ∧ (s = .SectNet → fr.getInt .SF_REC_TYPE .sysflow = NET_FLOW) := by
  have hk : Spec.kind L fr = "NF".toList ↔ fr.getInt .SF_REC_TYPE .sysflow = NET_FLOW := hL.netFlow _
  constructor
  · intro h hn
    rw [h] at hp
    have := hk.2 hn
    rcases hp with hp | hp
    · rw [this] at hp; exact absurd hp (by decide)
    · rw [this] at hp; exact absurd hp (by decide)
  · intro h
    rw [h] at hp
    exact hk.1 hp

theorem fieldOk_of_clean (L : Lib) (hL : Spec.LibOk L) (fr : FlatRec) (hc : Spec.Clean L fr) (s : SectType)
    (hp : Spec.Present L fr s) (fv : FieldEntry) (hsh : shapeOk fv = true) (hs : fv.sect = s) : FieldOk fr fv := by
  subst hs
  obtain ⟨k1, k2⟩ := kind_conditions L hL fr _ hp
  refine ⟨?_, k1, k2, ?_, ?_⟩
  · intro a ha
    rcases cached_sect fv hsh a ha with h | h
    · rw [h] at hp
      rcases hc with hc | hc
      · exact absurd hc hp
      · exact hc.1
    · rw [h] at hp
      rcases hc with hc | hc
      · exact absurd hc hp.1
      · exact hc.1
  · intro a ha
    obtain ⟨h, hab⟩ := intArray_sect fv hsh a ha
    rw [h] at hp
    rcases hc with hc | hc
    · exact absurd hc hp.1
    · obtain ⟨hs, is, ss, h1, h2, h3, h4, h5, h6, h7⟩ := hc.2 hp.2
      rcases hab with rfl | rfl
      · exact ⟨_, h1, h2⟩
      · exact ⟨_, h3, h4⟩
  · intro a ha
    obtain ⟨h, rfl⟩ := svcArray_sect fv hsh a ha
    rw [h] at hp
    rcases hc with hc | hc
    · exact absurd hc hp.1
    · obtain ⟨hs, is, ss, h1, h2, h3, h4, h5, h6, h7⟩ := hc.2 hp.2
      exact ⟨_, h5, h6, h7⟩

theorem fieldOk_general (fr : FlatRec) (fv : FieldEntry) (hsh : shapeOk fv = true) (h : fv.sect = .SectNone) : FieldOk fr fv := by
  refine ⟨?_, ?_, ?_, ?_, ?_⟩
  · intro a ha
    rcases cached_sect fv hsh a ha with h' | h' <;> rw [h] at h' <;> cases h'
  · intro h'; rw [h] at h'; cases h'
  · intro h'; rw [h] at h'; cases h'
  · intro a ha
    have h' := (intArray_sect fv hsh a ha).1
    rw [h] at h'; cases h'
  · intro a ha
    have h' := (svcArray_sect fv hsh a ha).1
    rw [h] at h'; cases h'

/-- The text of a field. -/
def fieldText (e : Env) (fr : FlatRec) (fv : FieldEntry) : Bytes :=
  cQUOTE :: tx (Spec.key fv) ++ quoteColon ++ ((mapJSON e fr fv).getD [])

theorem field_ok (e : Env) (hL : Spec.LibOk e.L) (fr : FlatRec) (fv : FieldEntry) (hm : fv ∈ exportedMappers)
    (ok : FieldOk fr fv) :
    ReadsMember (fieldText e fr fv) (Spec.member e.L e.sipAlias fr fv) ∧
    ((Spec.parts fv).length = 2 → writeAttribute e fr fv 1 = some (fieldText e fr fv)) ∧
    ((Spec.parts fv).length = 3 → writeAttribute e fr fv 2 = some (fieldText e fr fv)) := by
  obtain ⟨b, h1, h2⟩ := val_ok e hL fr fv (shapes fv hm) ok
  obtain ⟨k1, k2⟩ := keys_ok fv hm
  refine ⟨?_, ?_, ?_⟩
  · unfold fieldText
    rw [h1]
    exact member_ok _ k1 _ _ h2
  · intro hl
    rcases k2 with ⟨_, _, k⟩ | ⟨k3, _⟩
    · unfold writeAttribute fieldText
      cases hg : (fieldSects fv)[1]? with
      | none => rw [hg] at k; cases k
      | some n =>
        rw [hg] at k
        simp only [Option.map_some, Option.some.injEq] at k
        simp only [h1, Option.map_some, k, Option.getD_some]
    · exact absurd (k3.symm.trans hl) (by decide)
  · intro hl
    rcases k2 with ⟨k3, _, _⟩ | ⟨_, k⟩
    · exact absurd (k3.symm.trans hl) (by decide)
    · unfold writeAttribute fieldText
      cases hg : (fieldSects fv)[2]? with
      | none => rw [hg] at k; cases k
      | some n =>
        rw [hg] at k
        simp only [Option.map_some, Option.some.injEq] at k
        simp only [h1, Option.map_some, k, Option.getD_some]

/-- The member texts of a record. -/
def memberTexts (e : Env) (rec : Record) : List Bytes :=
  (cQUOTE :: tx "version".toList ++ quoteColon ++ e.version) ::
    (Spec.general.map (fieldText e rec.fr) ++
     (Spec.order.filter (fun s => Spec.Present e.L rec.fr s)).map
        (fun s => sectText (Spec.title s) ((Spec.fieldsOf s).map (fieldText e rec.fr))) ++
     policyMembers rec.ctx.getRules ++ tagMembers (Spec.allTags rec.ctx))

theorem encode_eq (e : Env) (rec : Record)
    (hg : ∀ fv ∈ Spec.general, writeAttribute e rec.fr fv 1 = some (fieldText e rec.fr fv))
    (hs : ∀ s ∈ Spec.order, Spec.Present e.L rec.fr s → ∀ fv ∈ Spec.fieldsOf s,
      writeAttribute e rec.fr fv 2 = some (fieldText e rec.fr fv)) :
    encode e rec = some (cBCURLY :: commas (memberTexts e rec) ++ [cECURLY]) := by
  unfold encode
  dsimp only
  generalize hst : (cBCURLY :: cQUOTE :: tx "version".toList ++ quoteColon ++ e.version ++ [cCOMMA]) = start
  rw [← fieldLoop_treated, fields_in_order, fieldLoop_append,
    loop_general e _ rec.fr _ Spec.general (fieldText e rec.fr)
      (fun fv hfv => ⟨((mem_general fv).1 hfv).2, hg fv hfv⟩)]
  simp only [Option.bind_some]
  obtain ⟨w, h1, h2⟩ := loop_order e (hdr e rec.fr) rec.fr (fieldText e rec.fr)
    ⟨start ++ Spec.general.flatMap (fun fv => fieldText e rec.fr fv ++ [cCOMMA]), none, true⟩ rfl
    (fun s hso hw => hs s hso ((written_iff e rec.fr s).1 hw))
  rw [h1]
  simp only [Option.some.injEq]
  have hfilter : Spec.order.filter (fun s => written (hdr e rec.fr) s) = Spec.order.filter (fun s => Spec.Present e.L rec.fr s) := by
    apply List.filter_congr
    intro s _
    have := written_iff e rec.fr s
    cases hwr : written (hdr e rec.fr) s with
    | true => rw [hwr] at this; simp [this.1 rfl]
    | false => rw [hwr] at this; simp only [Bool.false_eq_true, false_iff] at this; simp [this]
  rw [hfilter] at h2
  -- the part before the policies
  let base : List Bytes := (Spec.general.map (fieldText e rec.fr) ++
     (Spec.order.filter (fun s => Spec.Present e.L rec.fr s)).map
        (fun s => sectText (Spec.title s) ((Spec.fieldsOf s).map (fieldText e rec.fr))))
  have hbase : w.out ++ [cECURLY] = cBCURLY :: commas ((cQUOTE :: tx "version".toList ++ quoteColon ++ e.version) :: base) := by
    have h4 : w.out ++ [cECURLY] ++ [cCOMMA] =
        (cBCURLY :: commas ((cQUOTE :: tx "version".toList ++ quoteColon ++ e.version) :: base)) ++ [cCOMMA] := by
      rw [List.cons_append, ← flat_commas]
      have e1 : w.out ++ [cECURLY] ++ [cCOMMA] = w.out ++ endCurlyComma := by simp [endCurlyComma, cECURLY, cCOMMA]
      rw [e1, h2, ← hst]
      have e2 : Spec.general.flatMap (fun fv => fieldText e rec.fr fv ++ [cCOMMA]) = flat (Spec.general.map (fieldText e rec.fr)) := by
        simp [flat, List.flatMap_map]
      rw [e2]
      simp [base, flat]
    exact List.append_cancel_right h4
  have hfin : memberTexts e rec = ((cQUOTE :: tx "version".toList ++ quoteColon ++ e.version) :: base) ++
      (policyMembers rec.ctx.getRules ++ tagMembers (Spec.allTags rec.ctx)) := by
    simp [memberTexts, base]
  rw [hbase, policies_eq, tags_eq, ruleTags_eq, hfin, commas_append]
  simp

/-- **C46** (for records with a known ancestor chain and at most one pod address of each kind; `Clean`). The text the
encoder writes for a record is well-formed JSON, and reading it gives exactly the specified document: the schema
version, the general fields, one object per section the record has, holding exactly the fields of that section with
their values, then the matched policies and the tags. What is missing for the full claim: records that are not `Clean`
are written as malformed JSON, see `json_unknown_process`, `json_pod_addresses`. -/
theorem json_record_partial (e : Env) (hL : Spec.LibOk e.L) (hv : Spec.VersionOk e.version) (rec : Record)
    (hc : Spec.Clean e.L rec.fr) :
    ∃ b, encode e rec = some b ∧ read b = some (Spec.document e.L e.sipAlias e.version rec) := by
  have hgen : ∀ fv ∈ Spec.general, ReadsMember (fieldText e rec.fr fv) (Spec.member e.L e.sipAlias rec.fr fv) ∧
      writeAttribute e rec.fr fv 1 = some (fieldText e rec.fr fv) := by
    intro fv hfv
    obtain ⟨hm, hl⟩ := (mem_general fv).1 hfv
    have hsn : fv.sect = .SectNone := by
      rcases (keys_ok fv hm).2 with ⟨_, h, _⟩ | ⟨h, _⟩
      · exact h
      · exact absurd (h.symm.trans hl) (by decide)
    obtain ⟨a, b, _⟩ := field_ok e hL rec.fr fv hm (fieldOk_general rec.fr fv (shapes fv hm) hsn)
    exact ⟨a, b hl⟩
  have hsec : ∀ s ∈ Spec.order, Spec.Present e.L rec.fr s → ∀ fv ∈ Spec.fieldsOf s,
      ReadsMember (fieldText e rec.fr fv) (Spec.member e.L e.sipAlias rec.fr fv) ∧
      writeAttribute e rec.fr fv 2 = some (fieldText e rec.fr fv) := by
    intro s _ hp fv hfv
    obtain ⟨hm, hl, hsx⟩ := (mem_fieldsOf fv s).1 hfv
    obtain ⟨a, _, b⟩ := field_ok e hL rec.fr fv hm (fieldOk_of_clean e.L hL rec.fr hc s hp fv (shapes fv hm) hsx)
    exact ⟨a, b hl⟩
  refine ⟨_, encode_eq e rec (fun fv h => (hgen fv h).2) (fun s h1 h2 fv h3 => (hsec s h1 h2 fv h3).2), ?_⟩
  apply read_of_reads
  apply reads_obj
  refine .cons (member_ok _ (kw _) _ _ (reads_num _ hv.1 hv.2)) ?_
  refine AllMembers.append (AllMembers.append (AllMembers.append ?_ ?_) (policyMembers_ok _)) (tagMembers_ok _)
  · exact allMembers_map _ _ _ (fun fv h => (hgen fv h).1)
  · refine allMembers_map _ _ _ (fun s h => ?_)
    obtain ⟨h1, h2⟩ := List.mem_filter.1 h
    refine member_ok _ (titles_ok s h1).1 _ _ (reads_obj _ _ ?_)
    exact allMembers_map _ _ _ (fun fv h3 => (hsec s h1 (by simpa using h2) fv h3).1)

end Verif.Json

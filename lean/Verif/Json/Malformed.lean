import Verif.Json.Props
/-
Records whose text is not JSON: exactly those that are not `Spec.Clean`.
-/
namespace Verif.Json
open Verif.Decimal (Str)
open Verif.FlatRecord
open Verif.SysFlow (Service Port Proc)

/-! ### Texts that are not values -/

/-- What can follow a value inside an array, an object, or at the end of the text. -/
def Ends (rest : Bytes) : Prop := ∀ c, rest.head? = some c → c = 0x2C ∨ c = 0x7D ∨ c = 0x5D

/-- No value can be read from `b`, whatever may follow it. -/
def Broken (b : Bytes) : Prop := ∀ f rest, b.length < f → Ends rest → readVal f (b ++ rest) = none

/-- Same, whatever follows at all. -/
def BrokenAny (b : Bytes) : Prop := ∀ f rest, b.length < f → readVal f (b ++ rest) = none

theorem BrokenAny.broken {b : Bytes} (h : BrokenAny b) : Broken b := fun f rest hf _ => h f rest hf

def BrokenMember (b : Bytes) : Prop :=
  ∃ kb vb k, b = kb ++ 0x3A :: vb ∧ (∀ rest, readString (kb ++ rest) = some (k, rest)) ∧ Broken vb

theorem ends_nil : Ends [] := fun _ h => by cases h
theorem ends_cons (c : UInt8) (r : Bytes) (h : c = 0x2C ∨ c = 0x7D ∨ c = 0x5D) : Ends (c :: r) := by
  intro d hd; simp only [List.head?_cons, Option.some.injEq] at hd; subst hd; exact h

theorem broken_nil : Broken [] := by
  intro f rest hf hr
  cases f with
  | zero => omega
  | succ f =>
    cases rest with
    | nil => rfl
    | cons c r =>
      rcases hr c rfl with rfl | rfl | rfl <;>
        simp [readVal, readNumber, isNumChar, isNumber, isDigit, unsigned, intPart, digits1]

/-- An array whose first element is not followed by a separator. -/
theorem broken_arr_sep (b : Bytes) (v : JVal) (c : UInt8) (r : Bytes) (hb : Reads b v) (h1 : isNumChar c = false)
    (h2 : c ≠ 0x2C) (h3 : c ≠ 0x5D) : Broken (0x5B :: (b ++ c :: r)) := by
  intro f rest hf _
  obtain ⟨d, t, hbd, hd, -⟩ := reads_nonempty hb
  cases f with
  | zero => omega
  | succ f =>
    simp only [List.cons_append, List.append_assoc, readVal]
    rw [if_neg (by decide), if_pos trivial]
    have : readElems f (b ++ c :: (r ++ rest)) = none := by
      cases f with
      | zero => rfl
      | succ f =>
        simp only [readElems]
        rw [hb f _ (by simp only [List.length_cons, List.length_append] at hf; omega) (delim_cons _ _ h1)]
        simp only
        split
        · rename_i h; cases h; exact absurd rfl h2
        · rename_i h; cases h; exact absurd rfl h3
        · rfl
    subst hbd
    simp only [List.cons_append] at this ⊢
    split
    · rename_i heq; cases heq; exact absurd rfl hd
    · rw [this]

/-- An array whose first element is broken. -/
theorem broken_arr_elem (b r : Bytes) (hb : BrokenAny b) (h0 : ∃ c t, b = c :: t ∧ c ≠ 0x5D) (hr2 : r ≠ []) :
    Broken (0x5B :: (b ++ r)) := by
  intro f rest hf _
  obtain ⟨d, t, hbd, hd⟩ := h0
  cases f with
  | zero => omega
  | succ f =>
    simp only [List.cons_append, List.append_assoc, readVal]
    rw [if_neg (by decide), if_pos trivial]
    have : readElems f (b ++ (r ++ rest)) = none := by
      cases f with
      | zero => rfl
      | succ f =>
        simp only [readElems]
        rw [hb f _ (by
          have := List.length_pos_iff.2 hr2
          simp only [List.length_cons, List.length_append] at hf; omega)]
    subst hbd
    simp only [List.cons_append] at this ⊢
    split
    · rename_i heq; cases heq; exact absurd rfl hd
    · rw [this]

theorem readMembers_broken (bs : List Bytes) (hd : ∀ b ∈ bs, (∃ m, ReadsMember b m) ∨ BrokenMember b)
    (hx : ∃ b ∈ bs, BrokenMember b) (f : Nat) (rest : Bytes) (hf : (commas bs).length + 1 < f) :
    readMembers f (commas bs ++ 0x7D :: rest) = none := by
  induction bs generalizing f with
  | nil => obtain ⟨b, hb, -⟩ := hx; cases hb
  | cons b bs ih =>
    cases f with
    | zero => omega
    | succ f =>
      rcases hd b (.head _) with ⟨m, hm⟩ | hb
      · obtain ⟨kb, vb, rfl, hk, hv⟩ := id hm
        cases bs with
        | nil =>
          obtain ⟨b', hb', kb', vb', k', e', hk', hv'⟩ := hx
          rw [List.mem_singleton] at hb'
          subst hb'
          simp only [commas, List.append_assoc, List.cons_append, List.length_append, List.length_cons] at hf ⊢
          -- the same text cannot both be read and be broken
          have e1 := hk' (0x3A :: vb')
          rw [← e', hk] at e1
          simp only [Option.some.injEq, Prod.mk.injEq, List.cons.injEq, true_and] at e1
          obtain ⟨-, rfl⟩ := e1
          have a1 := hv (vb.length + 1) [] (by omega) delim_nil
          have a2 := hv' (vb.length + 1) [] (by omega) ends_nil
          rw [a1] at a2; cases a2
        | cons c cs =>
          rw [commas_cons_cons] at hf ⊢
          simp only [List.append_assoc, List.cons_append, List.length_append, List.length_cons] at hf ⊢
          simp only [readMembers]
          rw [hk]
          simp only
          rw [hv f _ (by omega) (delim_cons _ _ (by decide))]
          simp only
          have hx' : ∃ b ∈ c :: cs, BrokenMember b := by
            obtain ⟨b', hb', hbr⟩ := hx
            rcases List.mem_cons.1 hb' with rfl | hb'
            · obtain ⟨kb', vb', k', e', hk', hv'⟩ := hbr
              have e1 := hk' (0x3A :: vb')
              rw [← e', hk] at e1
              simp only [Option.some.injEq, Prod.mk.injEq, List.cons.injEq, true_and] at e1
              obtain ⟨-, rfl⟩ := e1
              have a1 := hv (vb.length + 1) [] (by omega) delim_nil
              have a2 := hv' (vb.length + 1) [] (by omega) ends_nil
              rw [a1] at a2; cases a2
            · exact ⟨b', hb', hbr⟩
          rw [ih (fun x hx => hd x (.tail _ hx)) hx' f (by omega)]
      · obtain ⟨kb, vb, k, rfl, hk, hv⟩ := hb
        have key : ∀ tail, Ends tail → readMembers (f + 1) (kb ++ 0x3A :: (vb ++ tail)) = none := by
          intro tail ht
          simp only [readMembers]
          rw [hk]
          simp only
          rw [hv f tail ?_ ht]
          cases bs with
          | nil => simp only [commas, List.length_append, List.length_cons] at hf; omega
          | cons c cs => rw [commas_cons_cons] at hf; simp only [List.length_append, List.length_cons] at hf; omega
        cases bs with
        | nil =>
          simp only [commas, List.append_assoc, List.cons_append]
          exact key _ (ends_cons _ _ (by simp))
        | cons c cs =>
          rw [commas_cons_cons]
          simp only [List.append_assoc, List.cons_append]
          exact key _ (ends_cons _ _ (by simp))

theorem broken_obj (bs : List Bytes) (hd : ∀ b ∈ bs, (∃ m, ReadsMember b m) ∨ BrokenMember b)
    (hx : ∃ b ∈ bs, BrokenMember b) : BrokenAny (0x7B :: commas bs ++ [0x7D]) := by
  intro f rest hf
  cases f with
  | zero => omega
  | succ f =>
    have := readMembers_broken bs hd hx f rest (by
      simp only [List.cons_append, List.length_cons, List.length_append, List.length_nil] at hf; omega)
    simp only [List.cons_append, List.append_assoc, List.nil_append, readVal]
    rw [if_neg (by decide), if_neg (by decide), if_pos trivial]
    have hh : ∃ r, commas bs ++ 0x7D :: rest = 0x22 :: r := by
      cases bs with
      | nil => obtain ⟨b, hb, -⟩ := hx; cases hb
      | cons b bs =>
        have : ∃ r, b = 0x22 :: r := by
          rcases hd b (.head _) with ⟨m, hm⟩ | ⟨kb, vb, k, rfl, hk, -⟩
          · exact member_nonempty hm
          · have h0 := hk (0x3A :: vb)
            cases hkb : kb ++ 0x3A :: vb with
            | nil => simp at hkb
            | cons c r =>
              rw [hkb] at h0
              unfold readString at h0
              split at h0
              · rename_i heq; cases heq; exact ⟨_, rfl⟩
              · cases h0
        obtain ⟨r, rfl⟩ := this
        obtain ⟨r', hr'⟩ := commas_head bs (rfl : (0x22 : UInt8) :: r = 0x22 :: r)
        rw [hr']
        exact ⟨_, rfl⟩
    obtain ⟨r, hr⟩ := hh
    rw [hr] at this ⊢
    split
    · rename_i heq; cases heq
    · rw [this]

theorem read_of_broken {b : Bytes} (h : Broken b) : read b = none := by
  have := h (b.length + 1) [] (by omega) ends_nil
  rw [List.append_nil] at this
  simp only [read, this]

theorem brokenMember_ok (k : Str) (h : escape (tx k) = tx k) (b : Bytes) (hv : Broken b) :
    BrokenMember (cQUOTE :: tx k ++ quoteColon ++ b) := by
  obtain ⟨kb, vb, e1, hk, -⟩ := member_ok k h (string []) _ (reads_string [])
  have e2 : kb = cQUOTE :: tx k ++ [0x22] := by
    have : quoteColon = [0x22] ++ [0x3A] := rfl
    have hk' := hk (0x3A :: vb)
    rw [← e1] at hk'
    have := string_round_trip (tx k) ([0x3A] ++ string [])
    have e3 : quote (tx k) ++ ([0x3A] ++ string []) = cQUOTE :: tx k ++ quoteColon ++ string [] := by
      simp [quote, h, cQUOTE, quoteColon]
    rw [e3, hk'] at this
    simp only [Option.some.injEq, Prod.mk.injEq] at this
    have h2 : vb = string [] := by simpa using this.2
    subst h2
    have e4 : kb ++ [0x3A] ++ string [] = (cQUOTE :: tx k ++ [0x22]) ++ [0x3A] ++ string [] := by
      have := e1.symm
      simpa [quoteColon] using this
    exact List.append_cancel_right (List.append_cancel_right e4)
  exact ⟨kb, b, _, by rw [e2]; simp [quoteColon], hk, hv⟩

/-! ### The broken values -/

theorem broken_ipArray (ips : List Int) (h : 2 ≤ ips.length) : Broken (mapIPArray ips) := by
  match ips, h with
  | a :: b :: l, _ =>
    have := broken_arr_sep _ _ 0x22 (mapIPStr b ++ cQUOTE :: (l.flatMap (fun ip => cQUOTE :: mapIPStr ip ++ [cQUOTE]) ++ [cESQ]))
      (reads_ip a) (by decide) (by decide) (by decide)
    have e : mapIPArray (a :: b :: l) = 0x5B :: (cQUOTE :: mapIPStr a ++ [cQUOTE] ++ 0x22 :: (mapIPStr b ++ cQUOTE ::
        (l.flatMap (fun ip => cQUOTE :: mapIPStr ip ++ [cQUOTE]) ++ [cESQ]))) := by
      simp [mapIPArray, cBSQ, cQUOTE]
    rw [e]; exact this

theorem svcObj_eq (s : Service) : svcObj s = 0x7B :: commas [writeStrField "id".toList s.id, writeStrField "name".toList s.name,
      writeStrField "namespace".toList s.nspace, writeIntArrayField "clusterIP".toList s.clusterIP,
      mapPortList s.portList] ++ [0x7D] := by
  simp [svcObj, commas, cCOMMA, cBCURLY, cECURLY]

theorem broken_svc (s : Service) (h : 2 ≤ s.clusterIP.length) : BrokenAny (svcObj s) := by
  have hp : Reads (cBSQ :: portElems s.portList ++ [cESQ]) (.arr (s.portList.map Spec.port)) :=
    reads_arr_map _ _ _ _ (fun p _ => reads_portObj p) (by rw [portElems_eq])
  have hbm : BrokenMember (writeIntArrayField "clusterIP".toList s.clusterIP) :=
    brokenMember_ok _ (kw _) _ (broken_ipArray _ h)
  rw [svcObj_eq]
  refine broken_obj _ ?_ ⟨_, ?_, hbm⟩
  · intro b hb
    simp only [List.mem_cons, List.not_mem_nil, or_false] at hb
    rcases hb with rfl | rfl | rfl | rfl | rfl
    · exact .inl ⟨_, member_ok _ (kw _) _ _ (reads_string s.id)⟩
    · exact .inl ⟨_, member_ok _ (kw _) _ _ (reads_string s.name)⟩
    · exact .inl ⟨_, member_ok _ (kw _) _ _ (reads_string s.nspace)⟩
    · exact .inr hbm
    · have := member_ok "ports".toList (kw _) _ _ hp
      exact .inl ⟨_, by simpa [mapPortList] using this⟩
  · simp

theorem broken_svcs (ss : List Service) (h : 2 ≤ ss.length ∨ ∃ s ∈ ss, 2 ≤ s.clusterIP.length) : Broken (mapSvcArray ss) := by
  match ss with
  | [] =>
    rcases h with h | ⟨s, hs, -⟩
    · simp at h
    · cases hs
  | s :: l =>
    have e : mapSvcArray (s :: l) = 0x5B :: (svcObj s ++ (l.flatMap svcObj ++ [0x5D])) := by simp [mapSvcArray, cBSQ, cESQ]
    rw [e]
    by_cases hb : 2 ≤ s.clusterIP.length
    · exact broken_arr_elem _ _ (broken_svc s hb) ⟨_, _, svcObj_eq s, by decide⟩ (by simp)
    · cases l with
      | nil =>
        rcases h with h | ⟨t, ht, h⟩
        · simp at h
        · rw [List.mem_singleton] at ht; subst ht; exact absurd h hb
      | cons t l =>
        have := broken_arr_sep _ _ 0x7B ((commas [writeStrField "id".toList t.id, writeStrField "name".toList t.name,
          writeStrField "namespace".toList t.nspace, writeIntArrayField "clusterIP".toList t.clusterIP,
          mapPortList t.portList] ++ [0x7D]) ++ (l.flatMap svcObj ++ [0x5D])) (reads_svc s (by omega)) (by decide) (by decide) (by decide)
        rw [List.flatMap_cons, svcObj_eq t]
        simp only [List.cons_append, List.append_assoc] at this ⊢
        exact this

/-! ### Fields and records -/

/-- What a field needs in order to be written at all. -/
structure FieldDef (fr : FlatRec) (fv : FieldEntry) : Prop where
  file : fv.sect = .SectFile → fr.getInt .SF_REC_TYPE .sysflow ≠ NET_FLOW
  net : fv.sect = .SectNet → fr.getInt .SF_REC_TYPE .sysflow = NET_FLOW
  ints : ∀ a, fv.map = .intArray a → fr.getIntArray a .sysflow ≠ none
  svcs : ∀ a, fv.map = .svcArray a → fr.getSvcArray a .sysflow ≠ none

/-- The fields whose text is broken. -/
def BadField (fr : FlatRec) (fv : FieldEntry) : Prop :=
  (∃ a, fv.map = .cached a ∧ fr.ptree = none) ∨
  (∃ a l, fv.map = .intArray a ∧ fr.getIntArray a .sysflow = some l ∧ 2 ≤ l.length) ∨
  (∃ a l, fv.map = .svcArray a ∧ fr.getSvcArray a .sysflow = some l ∧ (2 ≤ l.length ∨ ∃ s ∈ l, 2 ≤ s.clusterIP.length))

theorem bad_or_ok (fr : FlatRec) (fv : FieldEntry) (hd : FieldDef fr fv) : BadField fr fv ∨ FieldOk fr fv := by
  by_cases hb : BadField fr fv
  · exact .inl hb
  · refine .inr ⟨?_, hd.file, hd.net, ?_, ?_⟩
    · intro a ha hp; exact hb (.inl ⟨a, ha, hp⟩)
    · intro a ha
      cases hg : fr.getIntArray a .sysflow with
      | none => exact absurd hg (hd.ints a ha)
      | some l => exact ⟨l, rfl, Nat.le_of_lt_succ (Nat.lt_of_not_le (fun h => hb (.inr (.inl ⟨a, l, ha, hg, h⟩))))⟩
    · intro a ha
      cases hg : fr.getSvcArray a .sysflow with
      | none => exact absurd hg (hd.svcs a ha)
      | some l =>
        refine ⟨l, rfl, Nat.le_of_lt_succ (Nat.lt_of_not_le (fun h => hb (.inr (.inr ⟨a, l, ha, hg, .inl h⟩)))), ?_⟩
        intro s hs
        exact Nat.le_of_lt_succ (Nat.lt_of_not_le (fun h => hb (.inr (.inr ⟨a, l, ha, hg, .inr ⟨s, hs, h⟩⟩))))

theorem val_bad (e : Env) (fr : FlatRec) (fv : FieldEntry) (hs : shapeOk fv = true) (hb : BadField fr fv) :
    ∃ b, mapJSON e fr fv = some b ∧ Broken b := by
  obtain ⟨name, map, idx, ty, sect⟩ := fv
  rcases hb with ⟨a, hm, hp⟩ | ⟨a, l, hm, hg, hl⟩ | ⟨a, l, hm, hg, hl⟩ <;> simp only at hm <;> subst hm
  · unfold shapeOk at hs
    dsimp only at hs
    refine ⟨[], ?_, broken_nil⟩
    cases idx <;> simp at hs <;> simp [mapJSON, cachedJSON, hp]
  · unfold shapeOk at hs
    dsimp only at hs
    refine ⟨mapIPArray l, ?_, broken_ipArray l hl⟩
    split at hs <;> simp_all [mapJSON, mapArray]
  · unfold shapeOk at hs
    dsimp only at hs
    refine ⟨mapSvcArray l, ?_, broken_svcs l hl⟩
    split at hs <;> simp_all [mapJSON]

/-- The written text of a field, and whether it can be read. -/
theorem field_dich (e : Env) (hL : Spec.LibOk e.L) (fr : FlatRec) (fv : FieldEntry) (hm : fv ∈ exportedMappers)
    (hd : FieldDef fr fv) :
    ((∃ m, ReadsMember (fieldText e fr fv) m) ∨ BrokenMember (fieldText e fr fv)) ∧
    (BadField fr fv → BrokenMember (fieldText e fr fv)) ∧
    ((Spec.parts fv).length = 2 → writeAttribute e fr fv 1 = some (fieldText e fr fv)) ∧
    ((Spec.parts fv).length = 3 → writeAttribute e fr fv 2 = some (fieldText e fr fv)) := by
  obtain ⟨k1, k2⟩ := keys_ok fv hm
  have hbad : BadField fr fv → BrokenMember (fieldText e fr fv) := by
    intro hb
    obtain ⟨b, h1, h2⟩ := val_bad e fr fv (shapes fv hm) hb
    unfold fieldText
    rw [h1]
    exact brokenMember_ok _ k1 _ h2
  have hsome : ∃ b, mapJSON e fr fv = some b := by
    rcases bad_or_ok fr fv hd with hb | ho
    · obtain ⟨b, h1, -⟩ := val_bad e fr fv (shapes fv hm) hb; exact ⟨b, h1⟩
    · obtain ⟨b, h1, -⟩ := val_ok e hL fr fv (shapes fv hm) ho; exact ⟨b, h1⟩
  obtain ⟨b, h1⟩ := hsome
  refine ⟨?_, hbad, ?_, ?_⟩
  · rcases bad_or_ok fr fv hd with hb | ho
    · exact .inr (hbad hb)
    · exact .inl ⟨_, (field_ok e hL fr fv hm ho).1⟩
  · intro hl
    rcases k2 with ⟨_, _, k⟩ | ⟨k3, _⟩
    · unfold writeAttribute fieldText
      cases hg : (fieldSects fv)[1]? with
      | none => rw [hg] at k; cases k
      | some n =>
        rw [hg] at k
        simp only [Option.map_some, Option.some.injEq] at k
        simp only [h1, Option.map_some, k, Option.getD_some]
    · exact absurd (k3.symm.trans hl) (by decide)
  · intro hl
    rcases k2 with ⟨k3, _, _⟩ | ⟨_, k⟩
    · exact absurd (k3.symm.trans hl) (by decide)
    · unfold writeAttribute fieldText
      cases hg : (fieldSects fv)[2]? with
      | none => rw [hg] at k; cases k
      | some n =>
        rw [hg] at k
        simp only [Option.map_some, Option.some.injEq] at k
        simp only [h1, Option.map_some, k, Option.getD_some]

/-- The pod lists of the record are set. -/
def PodLists (fr : FlatRec) : Prop :=
  fr.getIntArray .POD_HOSTIP_ANY .sysflow ≠ none ∧ fr.getIntArray .POD_INTERNALIP_ANY .sysflow ≠ none ∧
  fr.getSvcArray .POD_SERVICES_ANY .sysflow ≠ none

theorem fieldDef_of (L : Lib) (hL : Spec.LibOk L) (fr : FlatRec) (hpl : Spec.Present L fr .SectPod → PodLists fr) (s : SectType)
    (hp : Spec.Present L fr s) (fv : FieldEntry) (hsh : shapeOk fv = true) (hs : fv.sect = s) : FieldDef fr fv := by
  subst hs
  obtain ⟨k1, k2⟩ := kind_conditions L hL fr _ hp
  refine ⟨k1, k2, ?_, ?_⟩
  · intro a ha
    obtain ⟨h, hab⟩ := intArray_sect fv hsh a ha
    rw [h] at hp
    rcases hab with rfl | rfl
    · exact (hpl hp).1
    · exact (hpl hp).2.1
  · intro a ha
    obtain ⟨h, rfl⟩ := svcArray_sect fv hsh a ha
    rw [h] at hp
    exact (hpl hp).2.2

/-- The fields that break: one of the ancestor chain (always written), and the three pod lists. -/
theorem acmdline_mem : ⟨"sf.proc.acmdline".toList, .cached .ProcACmdLine, .A_IDS, .MapArrayStr, .SectProc⟩ ∈ Spec.fieldsOf .SectProc := by
  decide +kernel
theorem hostip_mem : ⟨"sf.pod.hostip+".toList, .intArray .POD_HOSTIP_ANY, .any .POD_HOSTIP_ANY, .MapArrayInt, .SectPod⟩ ∈ Spec.fieldsOf .SectPod := by
  decide +kernel
theorem internalip_mem : ⟨"sf.pod.internalip+".toList, .intArray .POD_INTERNALIP_ANY, .any .POD_INTERNALIP_ANY, .MapArrayInt, .SectPod⟩ ∈ Spec.fieldsOf .SectPod := by
  decide +kernel
theorem services_mem : ⟨"sf.pod.services+".toList, .svcArray .POD_SERVICES_ANY, .any .POD_SERVICES_ANY, .MapArraySvc, .SectPod⟩ ∈ Spec.fieldsOf .SectPod := by
  decide +kernel

theorem bad_of_not_clean (L : Lib) (fr : FlatRec) (hpl : Spec.Present L fr .SectPod → PodLists fr) (hc : ¬ Spec.Clean L fr) :
    ∃ s, s ∈ Spec.order ∧ Spec.Present L fr s ∧ ∃ fv ∈ Spec.fieldsOf s, BadField fr fv := by
  have hk : Spec.kind L fr ≠ "KE".toList := fun h => hc (.inl h)
  cases hp : fr.ptree with
  | none => exact ⟨.SectProc, by simp [Spec.order], hk, _, acmdline_mem, .inl ⟨_, rfl, hp⟩⟩
  | some pt =>
    have h2 : ¬ (Spec.hasPod fr → ∃ hs is ss,
      fr.getIntArray .POD_HOSTIP_ANY .sysflow = some hs ∧ hs.length ≤ 1 ∧
      fr.getIntArray .POD_INTERNALIP_ANY .sysflow = some is ∧ is.length ≤ 1 ∧
      fr.getSvcArray .POD_SERVICES_ANY .sysflow = some ss ∧ ss.length ≤ 1 ∧
      ∀ s ∈ ss, s.clusterIP.length ≤ 1) := fun h => hc (.inr ⟨by rw [hp]; simp, h⟩)
    have hpod : Spec.hasPod fr := Classical.byContradiction (fun h => h2 (fun h' => absurd h' h))
    have hpres : Spec.Present L fr .SectPod := ⟨hk, hpod⟩
    refine ⟨.SectPod, by simp [Spec.order], hpres, ?_⟩
    obtain ⟨l1, l2, l3⟩ := hpl hpres
    cases h1 : fr.getIntArray .POD_HOSTIP_ANY .sysflow with
    | none => exact absurd h1 l1
    | some hs =>
    cases h3 : fr.getIntArray .POD_INTERNALIP_ANY .sysflow with
    | none => exact absurd h3 l2
    | some is =>
    cases h5 : fr.getSvcArray .POD_SERVICES_ANY .sysflow with
    | none => exact absurd h5 l3
    | some ss =>
    by_cases a1 : 2 ≤ hs.length
    · exact ⟨_, hostip_mem, .inr (.inl ⟨_, _, rfl, h1, a1⟩)⟩
    by_cases a2 : 2 ≤ is.length
    · exact ⟨_, internalip_mem, .inr (.inl ⟨_, _, rfl, h3, a2⟩)⟩
    by_cases a3 : 2 ≤ ss.length ∨ ∃ s ∈ ss, 2 ≤ s.clusterIP.length
    · exact ⟨_, services_mem, .inr (.inr ⟨_, _, rfl, h5, a3⟩)⟩
    exfalso
    refine h2 (fun _ => ⟨hs, is, ss, h1, by omega, h3, by omega, h5, ?_, ?_⟩)
    · exact Nat.le_of_lt_succ (Nat.lt_of_not_le (fun h => a3 (.inl h)))
    · exact fun s hs => Nat.le_of_lt_succ (Nat.lt_of_not_le (fun h => a3 (.inr ⟨s, hs, h⟩)))

/-- A record that is not `Clean` and does not make the encoder panic is written as text that is not JSON. -/
theorem json_malformed (e : Env) (hL : Spec.LibOk e.L) (hv : Spec.VersionOk e.version) (rec : Record)
    (hpl : Spec.Present e.L rec.fr .SectPod → PodLists rec.fr) (hc : ¬ Spec.Clean e.L rec.fr) :
    ∃ b, encode e rec = some b ∧ read b = none := by
  have hgen : ∀ fv ∈ Spec.general, ReadsMember (fieldText e rec.fr fv) (Spec.member e.L e.sipAlias rec.fr fv) ∧
      writeAttribute e rec.fr fv 1 = some (fieldText e rec.fr fv) := by
    intro fv hfv
    obtain ⟨hm, hl⟩ := (mem_general fv).1 hfv
    have hsn : fv.sect = .SectNone := by
      rcases (keys_ok fv hm).2 with ⟨_, h, _⟩ | ⟨h, _⟩
      · exact h
      · exact absurd (h.symm.trans hl) (by decide)
    obtain ⟨a, b, _⟩ := field_ok e hL rec.fr fv hm (fieldOk_general rec.fr fv (shapes fv hm) hsn)
    exact ⟨a, b hl⟩
  have hsec : ∀ s ∈ Spec.order, Spec.Present e.L rec.fr s → ∀ fv ∈ Spec.fieldsOf s,
      ((∃ m, ReadsMember (fieldText e rec.fr fv) m) ∨ BrokenMember (fieldText e rec.fr fv)) ∧
      (BadField rec.fr fv → BrokenMember (fieldText e rec.fr fv)) ∧
      writeAttribute e rec.fr fv 2 = some (fieldText e rec.fr fv) := by
    intro s _ hp fv hfv
    obtain ⟨hm, hl, hsx⟩ := (mem_fieldsOf fv s).1 hfv
    obtain ⟨a, b, _, c⟩ := field_dich e hL rec.fr fv hm (fieldDef_of e.L hL rec.fr hpl s hp fv (shapes fv hm) hsx)
    exact ⟨a, b, c hl⟩
  refine ⟨_, encode_eq e rec (fun fv h => (hgen fv h).2) (fun s h1 h2 fv h3 => (hsec s h1 h2 fv h3).2.2), ?_⟩
  apply read_of_broken
  apply BrokenAny.broken
  obtain ⟨s0, ho, hp0, fv0, hfv0, hbad⟩ := bad_of_not_clean e.L rec.fr hpl hc
  -- sections
  have hobj : ∀ s ∈ Spec.order, Spec.Present e.L rec.fr s →
      (∃ b ∈ (Spec.fieldsOf s).map (fieldText e rec.fr), BrokenMember b) →
      BrokenMember (sectText (Spec.title s) ((Spec.fieldsOf s).map (fieldText e rec.fr))) := by
    intro s h1 h2 hx
    refine brokenMember_ok _ (titles_ok s h1).1 _ (BrokenAny.broken (broken_obj _ ?_ hx))
    intro b hb
    obtain ⟨fv, hfv, rfl⟩ := List.mem_map.1 hb
    exact (hsec s h1 h2 fv hfv).1
  have hsd : ∀ s ∈ Spec.order, Spec.Present e.L rec.fr s →
      (∃ m, ReadsMember (sectText (Spec.title s) ((Spec.fieldsOf s).map (fieldText e rec.fr))) m) ∨
      BrokenMember (sectText (Spec.title s) ((Spec.fieldsOf s).map (fieldText e rec.fr))) := by
    intro s h1 h2
    by_cases hx : ∃ b ∈ (Spec.fieldsOf s).map (fieldText e rec.fr), BrokenMember b
    · exact .inr (hobj s h1 h2 hx)
    · left
      have : ∀ l : List FieldEntry, (∀ fv ∈ l, ∃ m, ReadsMember (fieldText e rec.fr fv) m) →
          ∃ ms, AllMembers (l.map (fieldText e rec.fr)) ms := by
        intro l
        induction l with
        | nil => exact fun _ => ⟨_, .nil⟩
        | cons x xs ih =>
          intro h
          obtain ⟨ms, hms⟩ := ih (fun y hy => h y (.tail _ hy))
          obtain ⟨m, hm⟩ := h x (.head _)
          exact ⟨_, .cons hm hms⟩
      obtain ⟨ms, hms⟩ := this (Spec.fieldsOf s) (fun fv hfv => by
        rcases (hsec s h1 h2 fv hfv).1 with h | h
        · exact h
        · exact absurd ⟨_, List.mem_map.2 ⟨fv, hfv, rfl⟩, h⟩ hx)
      exact ⟨_, member_ok _ (titles_ok s h1).1 _ _ (reads_obj _ _ hms)⟩
  have hall : ∀ {bs : List Bytes} {ms : List (List Nat × JVal)}, AllMembers bs ms → ∀ b ∈ bs, ∃ m, ReadsMember b m := by
    intro bs ms h
    induction h with
    | nil => intro b hb; cases hb
    | cons h0 _ ih =>
      intro b hb
      rcases List.mem_cons.1 hb with rfl | hb
      · exact ⟨_, h0⟩
      · exact ih b hb
  apply broken_obj
  · intro b hb
    unfold memberTexts at hb
    rcases List.mem_cons.1 hb with rfl | hb
    · exact .inl ⟨_, member_ok _ (kw _) _ _ (reads_num _ hv.1 hv.2)⟩
    rcases List.mem_append.1 hb with hb | hb
    · rcases List.mem_append.1 hb with hb | hb
      · rcases List.mem_append.1 hb with hb | hb
        · obtain ⟨fv, hfv, rfl⟩ := List.mem_map.1 hb
          exact .inl ⟨_, (hgen fv hfv).1⟩
        · obtain ⟨s, hs, rfl⟩ := List.mem_map.1 hb
          obtain ⟨h1, h2⟩ := List.mem_filter.1 hs
          exact hsd s h1 (by simpa using h2)
      · exact .inl (hall (policyMembers_ok _) b hb)
    · exact .inl (hall (tagMembers_ok _) b hb)
  · refine ⟨_, ?_, hobj s0 ho hp0 ⟨_, List.mem_map.2 ⟨fv0, hfv0, rfl⟩, (hsec s0 ho hp0 fv0 hfv0).2.1 hbad⟩⟩
    unfold memberTexts
    refine List.mem_cons_of_mem _ (List.mem_append_left _ (List.mem_append_left _ (List.mem_append_right _ ?_)))
    exact List.mem_map.2 ⟨s0, List.mem_filter.2 ⟨ho, by simpa using hp0⟩, rfl⟩

/-! ### When the encoder panics -/

theorem fieldLoop_writes (e : Env) (h : Hdr) (fr : FlatRec) (w w' : W) (l : List FieldEntry)
    (hl : fieldLoop e h fr w l = some w') (fv : FieldEntry) (hm : fv ∈ l) (h3 : (fieldSects fv).length = 3)
    (hw : written h fv.sect = true) : writeAttribute e fr fv 2 ≠ none := by
  induction l generalizing w with
  | nil => cases hm
  | cons x xs ih =>
    unfold fieldLoop at hl
    cases hst : fieldStep e h fr w x with
    | none => rw [hst] at hl; cases hl
    | some w1 =>
      rw [hst] at hl
      rcases List.mem_cons.1 hm with rfl | hm
      · intro hn
        unfold written at hw
        cases hs : section? h fv.sect with
        | none => rw [hs] at hw; cases hw
        | some tp =>
          obtain ⟨t, p⟩ := tp
          rw [hs] at hw
          simp only [Option.map_some, Option.getD_some] at hw
          subst hw
          unfold fieldStep at hst
          rw [if_neg (by omega), if_pos h3, hs] at hst
          simp only [hn, Option.map_none, if_true, ite_self] at hst
          cases hst
      · exact ih w1 hl hm

/-- The encoder panics exactly on records with a pod section whose address or service list is not set. -/
theorem json_panic_iff (e : Env) (hL : Spec.LibOk e.L) (hv : Spec.VersionOk e.version) (rec : Record) :
    encode e rec = none ↔ Spec.Present e.L rec.fr .SectPod ∧ ¬ PodLists rec.fr := by
  constructor
  · intro hn
    refine Classical.byContradiction (fun h => ?_)
    have hpl : Spec.Present e.L rec.fr .SectPod → PodLists rec.fr := fun hp =>
      Classical.byContradiction (fun hl => h ⟨hp, hl⟩)
    by_cases hc : Spec.Clean e.L rec.fr
    · obtain ⟨b, hb, -⟩ := json_record_partial e hL hv rec hc
      rw [hn] at hb; cases hb
    · obtain ⟨b, hb, -⟩ := json_malformed e hL hv rec hpl hc
      rw [hn] at hb; cases hb
  · rintro ⟨hp, hl⟩
    cases hen : encode e rec with
    | none => rfl
    | some b =>
      exfalso
      unfold encode at hen
      dsimp only at hen
      split at hen
      · cases hen
      · rename_i w hw
        have key : ∀ fv ∈ Spec.fieldsOf .SectPod, mapJSON e rec.fr fv ≠ none := by
          intro fv hfv
          obtain ⟨hm, h3, hsx⟩ := (mem_fieldsOf fv .SectPod).1 hfv
          have := fieldLoop_writes e _ rec.fr _ _ _ hw fv ((mem_fieldValues fv).2 hm) h3
            (by rw [hsx]; exact (written_iff e rec.fr .SectPod).2 hp)
          intro hj
          apply this
          unfold writeAttribute
          split
          · rfl
          · rw [hj]; rfl
        apply hl
        refine ⟨?_, ?_, ?_⟩
        · intro hn; exact key _ hostip_mem (by simp [mapJSON, mapArray, hn])
        · intro hn; exact key _ internalip_mem (by simp [mapJSON, mapArray, hn])
        · intro hn; exact key _ services_mem (by simp [mapJSON, hn])

/-- **C46** (complete description). When the encoder writes a text for a record, that text is JSON exactly if the record
is a Kubernetes event, or its ancestor chain is known and its pod, if it has one, has at most one host address, one
internal address and one service with at most one address; and then it is the specified document. -/
theorem json_wellformed_iff (e : Env) (hL : Spec.LibOk e.L) (hv : Spec.VersionOk e.version) (rec : Record) (b : Bytes)
    (hb : encode e rec = some b) :
    (Spec.Clean e.L rec.fr ∧ read b = some (Spec.document e.L e.sipAlias e.version rec)) ∨
    (¬ Spec.Clean e.L rec.fr ∧ read b = none) := by
  by_cases hc : Spec.Clean e.L rec.fr
  · obtain ⟨b', h1, h2⟩ := json_record_partial e hL hv rec hc
    rw [hb] at h1; cases h1
    exact .inl ⟨hc, h2⟩
  · have hpl : Spec.Present e.L rec.fr .SectPod → PodLists rec.fr := fun hp =>
      Classical.byContradiction (fun hl => by
        rw [(json_panic_iff e hL hv rec).2 ⟨hp, hl⟩] at hb; cases hb)
    obtain ⟨b', h1, h2⟩ := json_malformed e hL hv rec hpl hc
    rw [hb] at h1; cases h1
    exact .inr ⟨hc, h2⟩

/-- The unknown-process case on its own: any event or flow of a process that is not in the process table. -/
theorem json_unknown_process (e : Env) (hL : Spec.LibOk e.L) (hv : Spec.VersionOk e.version) (rec : Record) (b : Bytes)
    (hk : Spec.kind e.L rec.fr ≠ "KE".toList) (hp : rec.fr.ptree = none) (hb : encode e rec = some b) : read b = none := by
  rcases json_wellformed_iff e hL hv rec b hb with ⟨hc, -⟩ | ⟨-, h⟩
  · rcases hc with hc | hc
    · exact absurd hc hk
    · exact absurd hp hc.1
  · exact h

end Verif.Json

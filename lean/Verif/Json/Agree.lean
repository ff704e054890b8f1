import Verif.Json.Malformed
/-
C58: the exported JSON shows the values rule conditions see.   C59: one line per record.
-/
namespace Verif.Json
open Verif.Decimal (Str)
open Verif.FlatRecord
open Verif.SysFlow (Service Port Proc)

/-! ### C58 -/

set_option maxRecDepth 100000 in
/-- Every exported field is a field of the rule language with the same mapping. -/
theorem exported_get : ∀ fv ∈ exportedMappers, getMappers.get fv.name = some fv.map ∧ cut fv.name = none := by decide +kernel

/-- The fields holding one value (not a list, not an attribute of the ancestor chain). -/
def Scalar : Mapper → Prop
  | .cached _ => False
  | .intArray _ => False
  | .svcArray _ => False
  | .opFlags => False
  | .openFlags _ => False
  | .port _ => False
  | .ip as => as.length = 1
  | .consts _ => False
  | _ => True

/-- The text `s` of a rule operand shows the same value as the JSON value `j`. -/
inductive SameValue : JVal → Str → Prop
  | text (s : Str) : SameValue (.str (cps s)) s
  | number (n : Int) : SameValue (.num (Utf8.bytes (Decimal.formatInt n))) (Decimal.formatInt n)
  | yes : SameValue (.bool true) "true".toList
  | no : SameValue (.bool false) "false".toList

/-- **C58**, the values: for every exported single-valued field and record, the value in the JSON document is the value the rule
language gives for the field of that name. (`sf.proc.tty` and `sf.proc.entry` need to hold 0 or 1; `sf.file.newpath` needs not
to be a symbolic link, as JSON has the stored text.) -/
theorem json_shows_rule_values (L : Lib) (split : Bool) (fr : FlatRec) (fv : FieldEntry) (hm : fv ∈ exportedMappers)
    (hsc : Scalar fv.map)
    (hflag : Spec.isFlagField fv.name = true → ∀ a, fv.map = .int a → fr.getInt a .sysflow = 0 ∨ fr.getInt a .sysflow = 1)
    (hlink : fv.name = "sf.file.newpath".toList → ∀ a, fv.map = .path a → (L.symPath (fr.getStr a .sysflow)).1 = fr.getStr a .sysflow) :
    SameValue (Spec.value L split fr fv) (mapStr L getMappers fv.name fr) := by
  obtain ⟨hg, hcut⟩ := exported_get fv hm
  have hs := shapes fv hm
  have hms : mapStr L getMappers fv.name fr = renderPlain fv.name (fv.map.run L fr) := by
    simp only [mapStr, mapStr?, hcut, mapAttr, hg, Option.getD_some]
  rw [hms]
  obtain ⟨name, map, idx, ty, sect⟩ := fv
  dsimp only at *
  cases map with
  | cached a => exact hsc.elim
  | intArray a => exact hsc.elim
  | svcArray a => exact hsc.elim
  | opFlags => exact hsc.elim
  | openFlags a => exact hsc.elim
  | port as => exact hsc.elim
  | consts cs => exact hsc.elim
  | ip as =>
    match as, hsc with
    | [a], _ =>
      have : Strings.join ',' ([a].map (fun a => L.ipStr (wrap32 (fr.getInt a .sysflow)))) = L.ipStr (wrap32 (fr.getInt a .sysflow)) := by
        simp [Strings.join]
      simp only [Mapper.run, this, renderPlain]
      exact .text _
  | int a =>
    simp only [Spec.value, Mapper.run, renderPlain]
    cases hf : Spec.isFlagField name with
    | true =>
      have h2 : name = "sf.proc.tty".toList ∨ name = "sf.proc.entry".toList := by
        simp only [Spec.isFlagField, Bool.or_eq_true, beq_iff_eq] at hf; exact hf
      rw [if_pos rfl, if_pos h2]
      rcases hflag hf a rfl with h | h <;> rw [h]
      · exact .no
      · exact .yes
    | false =>
      have h2 : ¬ (name = "sf.proc.tty".toList ∨ name = "sf.proc.entry".toList) := by
        intro h
        have : Spec.isFlagField name = true := by simp only [Spec.isFlagField, Bool.or_eq_true, beq_iff_eq]; exact h
        rw [hf] at this; cases this
      rw [if_neg (by decide), if_neg h2]
      exact .number _
  | path a =>
    simp only [Spec.value, Mapper.run, renderPlain]
    split
    · rename_i hn
      rw [hlink hn a rfl]
      exact .text _
    · exact .text _
  | ret =>
    have hn : ¬ (name = "sf.proc.tty".toList ∨ name = "sf.proc.entry".toList) := by
      intro h
      rcases h with h | h <;> subst h <;> revert hg <;> decide +kernel
    simp only [Spec.value, Mapper.run]
    split <;> simp only [renderPlain, if_neg hn, Spec.scalar] <;> exact .number _
  | endTs =>
    have hn : ¬ (name = "sf.proc.tty".toList ∨ name = "sf.proc.entry".toList) := by
      intro h
      rcases h with h | h <;> subst h <;> revert hg <;> decide +kernel
    simp only [Spec.value, Mapper.run]
    split
    · simp only [renderPlain, if_neg hn, Spec.scalar]; exact .number _
    split
    · simp only [renderPlain, if_neg hn, Spec.scalar]; exact .number _
    split <;> simp only [renderPlain, if_neg hn, Spec.scalar] <;> exact .number _
  | sum as =>
    have hn : ¬ (name = "sf.proc.tty".toList ∨ name = "sf.proc.entry".toList) := by
      intro h
      have e1 : getMappers.get "sf.proc.tty".toList = some (.int .PROC_TTY_INT) := by decide +kernel
      have e2 : getMappers.get "sf.proc.entry".toList = some (.int .PROC_ENTRY_INT) := by decide +kernel
      rcases h with h | h <;> subst h
      · rw [e1] at hg; cases hg
      · rw [e2] at hg; cases hg
    simp only [Spec.value, Mapper.run, renderPlain, if_neg hn, Spec.scalar]; exact .number _
  | isOpenWrite a =>
    simp only [Spec.value, Mapper.run, renderPlain, Spec.scalar]
    cases L.isOpenWrite (fr.getInt a .sysflow)
    · exact .no
    · exact .yes
  | isOpenRead a =>
    simp only [Spec.value, Mapper.run, renderPlain, Spec.scalar]
    cases L.isOpenRead (fr.getInt a .sysflow)
    · exact .no
    · exact .yes
  | str a => exact .text _
  | join a as => exact .text _
  | recType => exact .text _
  | name a => exact .text _
  | dir a => exact .text _
  | symlink a => exact .text _
  | fileType a => exact .text _
  | contType a => exact .text _
  | action a => exact .text _
  | kind a => exact .text _
  | oid as => exact .text _

/-- The list-valued fields: the JSON array holds the items which the rule language joins with commas. -/
theorem json_shows_rule_lists (L : Lib) (fr : FlatRec) (chain : List Proc) (h : fr.ptree = some chain) (split : Bool) :
    (∀ fv ∈ exportedMappers, fv.map = .opFlags → ∃ items : List Str, Spec.value L split fr fv = .arr (items.map Spec.text) ∧
      mapAttr L getMappers fv.name fr = .str (Strings.join ',' items)) ∧
    (∀ fv ∈ exportedMappers, ∀ a, fv.map = .openFlags a → ∃ items : List Str, Spec.value L split fr fv = .arr (items.map Spec.text) ∧
      mapAttr L getMappers fv.name fr = .str (Strings.join ',' items)) ∧
    (∀ fv ∈ exportedMappers, ∀ as, fv.map = .port as → ∃ items : List Int, Spec.value L split fr fv = .arr (items.map Spec.num) ∧
      mapAttr L getMappers fv.name fr = .str (Strings.join ',' (items.map Decimal.formatInt))) ∧
    (∀ fv ∈ exportedMappers, fv.map = .cached .ProcAPID → ∃ items : List Int, Spec.value L split fr fv = .arr (items.map Spec.num) ∧
      mapAttr L getMappers fv.name fr = .str (Strings.join ',' (items.map Decimal.formatInt))) ∧
    (∀ fv ∈ exportedMappers, fv.map = .cached .ProcAExe → ∃ items : List Str, Spec.value L split fr fv = .arr (items.map Spec.field) ∧
      mapAttr L getMappers fv.name fr = .str (Strings.join ',' items)) ∧
    (∀ fv ∈ exportedMappers, fv.map = .cached .ProcAName → ∃ items : List Str, Spec.value L split fr fv = .arr (items.map Spec.field) ∧
      mapAttr L getMappers fv.name fr = .str (Strings.join ',' items)) := by
  refine ⟨?_, ?_, ?_, ?_, ?_, ?_⟩
  · intro fv hm he
    refine ⟨_, by simp only [Spec.value, he]; rfl, ?_⟩
    simp only [mapAttr, (exported_get fv hm).1, he, Mapper.run]
  · intro fv hm a he
    refine ⟨_, by simp only [Spec.value, he]; rfl, ?_⟩
    simp only [mapAttr, (exported_get fv hm).1, he, Mapper.run]
  · intro fv hm as he
    refine ⟨as.map (fun a => fr.getInt a .sysflow), by simp only [Spec.value, he, List.map_map]; rfl, ?_⟩
    simp only [mapAttr, (exported_get fv hm).1, he, Mapper.run, List.map_map]; rfl
  · intro fv hm he
    refine ⟨chain.map (fun p => p.oid.hpid), by simp only [Spec.value, he, h, Spec.ancestry, List.map_map, Option.getD_some]; rfl, ?_⟩
    simp only [mapAttr, (exported_get fv hm).1, he, Mapper.run, FlatRec.getCachedValue, h, List.map_map]; rfl
  · intro fv hm he
    refine ⟨chain.map (fun p => p.exe), by simp only [Spec.value, he, h, Spec.ancestry, List.map_map, Option.getD_some]; rfl, ?_⟩
    simp only [mapAttr, (exported_get fv hm).1, he, Mapper.run, FlatRec.getCachedValue, h]
  · intro fv hm he
    refine ⟨chain.map (fun p => Strings.base p.exe), by simp only [Spec.value, he, h, Spec.ancestry, List.map_map, Option.getD_some]; rfl, ?_⟩
    simp only [mapAttr, (exported_get fv hm).1, he, Mapper.run, FlatRec.getCachedValue, h]

/-! ### C59 -/

/-- No control characters. -/
def NoCtl (b : Bytes) : Prop := ∀ c ∈ b, 32 ≤ c.toNat

theorem NoCtl.nil : NoCtl [] := fun _ h => by cases h
theorem NoCtl.cons {c : UInt8} {b : Bytes} (h1 : 32 ≤ c.toNat) (h2 : NoCtl b) : NoCtl (c :: b) := by
  intro d hd
  rcases List.mem_cons.1 hd with rfl | hd
  · exact h1
  · exact h2 d hd
theorem NoCtl.append {a b : Bytes} (h1 : NoCtl a) (h2 : NoCtl b) : NoCtl (a ++ b) := by
  intro d hd
  rcases List.mem_append.1 hd with hd | hd
  · exact h1 d hd
  · exact h2 d hd
theorem NoCtl.flatMap {A : Type} (f : A → Bytes) (l : List A) (h : ∀ a ∈ l, NoCtl (f a)) : NoCtl (l.flatMap f) := by
  intro d hd
  obtain ⟨a, ha, hd⟩ := List.mem_flatMap.1 hd
  exact h a ha d hd

theorem noctl_string (s : Str) : NoCtl (string s) := string_no_control _
theorem noctl_escape (s : Bytes) : NoCtl (escape s) := fun b hb => string_no_control s b (by simp [quote, hb])
theorem noctl_plain (s : Str) (h : Spec.PlainText s) : NoCtl (tx s) := by
  rw [← escape_plain s h]; exact noctl_escape _
theorem noctl_int (n : Int) : NoCtl (int n) := noctl_plain _ (plain_formatInt n)
theorem noctl_bool (b : Bool) : NoCtl (bool b) := by cases b <;> unfold NoCtl bool <;> decide
theorem noctl_kw (s : Str) (h : escape (tx s) = tx s) : NoCtl (tx s) := by rw [← h]; exact noctl_escape _

/-- A closed form for constant texts. -/
theorem noctl_const (b : Bytes) (h : (b.all (fun c => decide (32 ≤ c.toNat))) = true) : NoCtl b := by
  intro c hc
  simpa using (List.all_eq_true.1 h) c hc

theorem noctl_ip (ip : Int) : NoCtl (mapIPStr ip) := by
  rw [mapIPStr_eq]; exact noctl_plain _ (plain_dotted ip)

theorem noctl_commas (bs : List Bytes) (h : ∀ b ∈ bs, NoCtl b) : NoCtl (commas bs) := by
  induction bs with
  | nil => exact .nil
  | cons b bs ih =>
    cases bs with
    | nil => exact h b (.head _)
    | cons c cs =>
      rw [commas_cons_cons]
      exact (h b (.head _)).append (.cons (by decide) (ih (fun x hx => h x (.tail _ hx))))

theorem noctl_arr (b : Bytes) (h : NoCtl b) : NoCtl (cBSQ :: b ++ [cESQ]) :=
  NoCtl.append (.cons (by decide) h) (noctl_const _ (by decide))

theorem noctl_strArray (ss : List Str) (h : ∀ s ∈ ss, Spec.PlainText s) : NoCtl (mapStrArray ss) := by
  unfold mapStrArray
  rw [rawElems_eq]
  refine noctl_arr _ (noctl_commas _ (fun b hb => ?_))
  obtain ⟨s, hs, rfl⟩ := List.mem_map.1 hb
  exact NoCtl.append (.cons (by decide) (noctl_plain s (h s hs))) (noctl_const _ (by decide))

theorem noctl_ipArray (l : List Int) : NoCtl (mapIPArray l) :=
  noctl_arr _ (NoCtl.flatMap _ _ (fun ip _ => NoCtl.append (.cons (by decide) (noctl_ip ip)) (noctl_const _ (by decide))))

theorem noctl_member (k : Str) (h : escape (tx k) = tx k) (b : Bytes) (hb : NoCtl b) : NoCtl (cQUOTE :: tx k ++ quoteColon ++ b) :=
  ((NoCtl.cons (by decide) (noctl_kw k h)).append (noctl_const _ (by decide))).append hb

theorem noctl_svc (s : Service) : NoCtl (svcObj s) := by
  rw [svcObj_eq]
  refine NoCtl.append (.cons (by decide) (noctl_commas _ ?_)) (noctl_const _ (by decide))
  intro b hb
  simp only [List.mem_cons, List.not_mem_nil, or_false] at hb
  rcases hb with rfl | rfl | rfl | rfl | rfl
  · exact noctl_member _ (kw _) _ (noctl_string _)
  · exact noctl_member _ (kw _) _ (noctl_string _)
  · exact noctl_member _ (kw _) _ (noctl_string _)
  · exact noctl_member _ (kw _) _ (noctl_ipArray _)
  · have : NoCtl (cQUOTE :: tx "ports".toList ++ quoteColon ++ (cBSQ :: portElems s.portList ++ [cESQ])) := by
      refine noctl_member _ (kw _) _ (noctl_arr _ ?_)
      rw [portElems_eq]
      refine noctl_commas _ (fun b hb => ?_)
      obtain ⟨p, _, rfl⟩ := List.mem_map.1 hb
      refine NoCtl.append (.cons (by decide) ?_) (noctl_const _ (by decide))
      unfold portBody writeIntField writeStrField
      have i := fun (k : Str) (h : escape (tx k) = tx k) (n : Int) => noctl_member k h _ (noctl_int n)
      refine NoCtl.append (NoCtl.append (NoCtl.append (i _ (kw _) _) (.cons (by decide) (i _ (kw _) _))) (.cons (by decide) (i _ (kw _) _)))
        (.cons (by decide) (noctl_member _ (kw _) _ (noctl_string _)))
    simpa [mapPortList] using this

theorem noctl_cached (fr : FlatRec) (a : RecAttr) : NoCtl (cachedJSON fr a) := by
  have hp : ∀ (w : Proc → Bytes) (d : Bytes) (pt : List Proc), (∀ p, NoCtl (w p)) → NoCtl d → NoCtl (parentOr w d pt) := by
    intro w d pt hw hd
    unfold parentOr
    split
    · exact hw _
    · exact hd
  have hs : ∀ (w : Proc → Bytes) (pt : List Proc), (∀ p, NoCtl (w p)) → NoCtl (cBSQ :: sepElems w pt ++ [cESQ]) := by
    intro w pt hw
    refine noctl_arr _ ?_
    rw [sepElems_eq]
    refine noctl_commas _ (fun b hb => ?_)
    obtain ⟨p, _, rfl⟩ := List.mem_map.1 hb
    exact hw p
  have hc : ∀ p, NoCtl (cmdLineJSON p) := by intro p; rw [cmdLineJSON_eq]; exact noctl_string _
  unfold cachedJSON
  split
  · exact .nil
  · cases a <;> dsimp only
    case ProcACmdLine => exact hs _ _ hc
    case ProcAName => exact hs _ _ (fun _ => noctl_string _)
    case ProcAExe => exact hs _ _ (fun _ => noctl_string _)
    case ProcAPID => exact hs _ _ (fun _ => noctl_int _)
    case PProcCmdLine => exact hp _ _ _ hc (noctl_string _)
    case PProcUID => exact hp _ _ _ (fun _ => noctl_int _) (noctl_int _)
    case PProcGID => exact hp _ _ _ (fun _ => noctl_int _) (noctl_int _)
    case PProcTTY => exact hp _ _ _ (fun _ => noctl_bool _) (noctl_bool _)
    case PProcEntry => exact hp _ _ _ (fun _ => noctl_bool _) (noctl_bool _)
    all_goals exact hp _ _ _ (fun _ => noctl_string _) (noctl_string _)

theorem noctl_mapJSON (e : Env) (hL : Spec.LibOk e.L) (fr : FlatRec) (fv : FieldEntry) (b : Bytes) (h : mapJSON e fr fv = some b) :
    NoCtl b := by
  have harr : ∀ b, mapArray e fr fv = some b → NoCtl b := by
    intro b h
    unfold mapArray at h
    split at h
    · cases h; exact noctl_strArray _ (hL.opFlags _ _)
    split at h
    · split at h
      · cases h
        exact NoCtl.append (NoCtl.append (.cons (by decide) (.cons (by decide) (noctl_ip _)))
          (.cons (by decide) (.cons (by decide) (.cons (by decide) (noctl_ip _))))) (noctl_const _ (by decide))
      · obtain ⟨n, _, rfl⟩ := Option.map_eq_some_iff.1 h
        exact noctl_strArray _ (hL.openFlags _)
    split at h
    · cases h
      exact NoCtl.append (NoCtl.append (.cons (by decide) (noctl_int _)) (.cons (by decide) (noctl_int _))) (noctl_const _ (by decide))
    split at h
    · obtain ⟨n, _, rfl⟩ := Option.map_eq_some_iff.1 h; exact noctl_ipArray _
    split at h
    · obtain ⟨n, _, rfl⟩ := Option.map_eq_some_iff.1 h; exact noctl_ipArray _
    split at h
    · cases h; exact noctl_arr _ (noctl_string _)
    · cases h
  unfold mapJSON at h
  split at h
  · cases h; exact noctl_cached _ _
  · split at h
    · obtain ⟨n, _, rfl⟩ := Option.map_eq_some_iff.1 h; exact noctl_string _
    · obtain ⟨n, _, rfl⟩ := Option.map_eq_some_iff.1 h; exact noctl_int _
    · obtain ⟨n, _, rfl⟩ := Option.map_eq_some_iff.1 h; exact noctl_bool _
    · split at h
      · cases h; exact noctl_string _
      · cases h
    · split at h
      · cases h; exact noctl_int _
      · cases h
    · split at h
      · cases h; exact noctl_bool _
      · cases h
    · exact harr _ h
    · exact harr _ h
    · split at h
      · obtain ⟨n, _, rfl⟩ := Option.map_eq_some_iff.1 h
        exact noctl_arr _ (NoCtl.flatMap _ _ (fun s _ => noctl_svc s))
      · cases h

theorem noctl_writeAttribute (e : Env) (hL : Spec.LibOk e.L) (fr : FlatRec) (fv : FieldEntry) (hm : fv ∈ exportedMappers) (k : Nat)
    (hk : (fieldSects fv).length = k + 1) (h2 : k = 1 ∨ k = 2) (b : Bytes) (h : writeAttribute e fr fv k = some b) : NoCtl b := by
  unfold writeAttribute at h
  obtain ⟨k1, k2⟩ := keys_ok fv hm
  split at h
  · cases h
  · rename_i n hn
    obtain ⟨v, hv, rfl⟩ := Option.map_eq_some_iff.1 h
    have hkey : attrName n = Spec.key fv := by
      rcases k2 with ⟨k3, _, kk⟩ | ⟨k3, kk⟩
      · have : k = 1 := by omega
        subst this; rw [hn] at kk; simpa using kk
      · have : k = 2 := by omega
        subst this; rw [hn] at kk; simpa using kk
    rw [hkey]
    exact noctl_member _ k1 _ (noctl_mapJSON e hL fr fv v hv)

theorem noctl_loop (e : Env) (hL : Spec.LibOk e.L) (fr : FlatRec) (h : Hdr) (l : List FieldEntry) (hm : ∀ fv ∈ l, fv ∈ exportedMappers)
    (w w' : W) (hw : NoCtl w.out) (hl : fieldLoop e h fr w l = some w') : NoCtl w'.out := by
  have htit : ∀ s t p, section? h s = some (t, p) → NoCtl (writeSectionBegin t) := by
    intro s t p hs
    unfold section? at hs
    unfold writeSectionBegin
    have : ∀ t : Str, escape (tx t) = tx t → NoCtl (cQUOTE :: tx t ++ quoteColonCurly) := fun t ht =>
      (NoCtl.cons (by decide) (noctl_kw t ht)).append (noctl_const _ (by decide))
    split at hs <;> cases s <;> simp only [Option.some.injEq, Prod.mk.injEq, reduceCtorEq] at hs <;>
      (obtain ⟨rfl, -⟩ := hs; exact this _ (kw _))
  induction l generalizing w with
  | nil => cases hl; exact hw
  | cons fv l ih =>
    unfold fieldLoop at hl
    cases hst : fieldStep e h fr w fv with
    | none => rw [hst] at hl; cases hl
    | some w1 =>
      rw [hst] at hl
      refine ih (fun x hx => hm x (.tail _ hx)) w1 ?_ hl
      have hfm := hm fv (.head _)
      unfold fieldStep at hst
      by_cases h2 : (fieldSects fv).length = 2
      · rw [if_pos h2] at hst
        obtain ⟨a, ha, rfl⟩ := Option.map_eq_some_iff.1 hst
        exact (hw.append (noctl_writeAttribute e hL fr fv hfm 1 h2 (.inl rfl) a ha)).append (noctl_const _ (by decide))
      rw [if_neg h2] at hst
      by_cases h3 : (fieldSects fv).length = 3
      · rw [if_pos h3] at hst
        cases hsec : section? h fv.sect with
        | none => rw [hsec] at hst; cases hst; exact hw
        | some tp =>
          obtain ⟨t, p⟩ := tp
          rw [hsec] at hst
          dsimp only at hst
          have hout : NoCtl (if w.state ≠ none ∧ w.existed = true then w.out ++ endCurlyComma else w.out) := by
            by_cases hc : w.state ≠ none ∧ w.existed = true
            · rw [if_pos hc]; exact hw.append (noctl_const _ (by decide))
            · rw [if_neg hc]; exact hw
          generalize (if w.state ≠ none ∧ w.existed = true then w.out ++ endCurlyComma else w.out) = out at hst hout
          have wa := noctl_writeAttribute e hL fr fv hfm 2 h3 (.inr rfl)
          by_cases hs : w.state ≠ some fv.sect
          · rw [if_pos hs] at hst
            cases p with
            | true =>
              rw [if_pos rfl] at hst
              obtain ⟨a, ha, rfl⟩ := Option.map_eq_some_iff.1 hst
              exact (hout.append (htit _ _ _ hsec)).append (wa a ha)
            | false =>
              rw [if_neg (by decide)] at hst; cases hst; exact hout
          · rw [if_neg hs] at hst
            cases p with
            | true =>
              rw [if_pos rfl] at hst
              obtain ⟨a, ha, rfl⟩ := Option.map_eq_some_iff.1 hst
              exact hw.append (.cons (by decide) (wa a ha))
            | false =>
              rw [if_neg (by decide)] at hst; cases hst; exact hw
      · rw [if_neg h3] at hst; cases hst; exact hw

/-- **C59.** The text of a record, whatever the record holds (and even when it is not well-formed JSON), contains no control
character, in particular no newline: every exported record is one line of the log (see C44). -/
theorem json_single_line (e : Env) (hL : Spec.LibOk e.L) (hv : NoCtl e.version) (rec : Record) (b : Bytes)
    (hb : encode e rec = some b) : ∀ c ∈ b, 32 ≤ c.toNat := by
  unfold encode at hb
  dsimp only at hb
  split at hb
  · cases hb
  · rename_i w hw
    cases hb
    have h1 : NoCtl w.out := by
      refine noctl_loop e hL rec.fr _ _ (fun fv h => (mem_fieldValues fv).1 h) _ _ ?_ hw
      exact ((NoCtl.cons (by decide) (noctl_member _ (kw "version".toList) _ hv))).append (noctl_const _ (by decide))
    have hpol : NoCtl (policies rec.ctx.getRules) := by
      rw [policies_eq]
      refine NoCtl.flatMap _ _ (fun x hx => .cons (by decide) ?_)
      unfold policyMembers at hx
      split at hx
      · cases hx
      · rw [List.mem_singleton] at hx; subst hx
        refine noctl_member _ (kw _) _ (noctl_arr _ (noctl_commas _ (fun b hb => ?_)))
        obtain ⟨r, _, rfl⟩ := List.mem_map.1 hb
        have e1 : policyObj r = cBCURLY :: (cQUOTE :: tx "id".toList ++ quoteColon ++ string r.name) ++ cCOMMA ::
          (cQUOTE :: tx "desc".toList ++ quoteColon ++ string r.desc) ++ cCOMMA ::
          (cQUOTE :: tx "priority".toList ++ quoteColon ++ int r.priority.toNat) ++ [cECURLY] := by simp [policyObj]
        rw [e1]
        exact (((NoCtl.cons (by decide) (noctl_member _ (kw _) _ (noctl_string _))).append
          (.cons (by decide) (noctl_member _ (kw _) _ (noctl_string _)))).append
          (.cons (by decide) (noctl_member _ (kw _) _ (noctl_int _)))).append (noctl_const _ (by decide))
    have htag : NoCtl (tags rec.ctx.getTags (ruleTags rec.ctx.getRules)) := by
      rw [tags_eq]
      refine NoCtl.flatMap _ _ (fun x hx => .cons (by decide) ?_)
      unfold tagMembers at hx
      split at hx
      · cases hx
      · rw [List.mem_singleton] at hx; subst hx
        refine noctl_member _ (kw _) _ (noctl_arr _ (noctl_commas _ (fun b hb => ?_)))
        obtain ⟨t, _, rfl⟩ := List.mem_map.1 hb
        exact noctl_string _
    exact (((h1.append (noctl_const _ (by decide))).append hpol).append htag).append (noctl_const _ (by decide))

end Verif.Json

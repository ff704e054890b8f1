import Verif.FlatRecord.TableFacts
/-! Attribute resolution, prefilter, getters, ancestors and context (C17-C21, C57). -/
namespace Verif.FlatRecord
open Verif.Decimal (Str)
open Verif.SysFlow
open Verif.Policy
open Verif.Strings (IsComponent)

/-! ## C17: attribute resolution -/

/-- The text a value is rendered as, as users see it. `flag` tells whether the attribute is one of
the two Boolean fields stored as integers (sf.proc.tty, sf.proc.entry). -/
inductive Text (flag : Prop) : FVal → Str → Prop
  | quoted (q q' : Char) (s : Str) : Strings.isQuote q = true → Strings.isQuote q' = true → Text flag (.str (q :: (s ++ [q']))) s
  | plain (s : Str) : (∀ c, s.head? = some c → Strings.isQuote c = false) → (∀ c, s.getLast? = some c → Strings.isQuote c = false) →
      Text flag (.str s) s
  | number (n : Int) (s : Str) : ¬ flag → Decimal.parseSigned s = some n → s = Decimal.formatInt n → Text flag (.i64 n) s
  | number32 (n : Int) (s : Str) : Decimal.parseSigned s = some n → s = Decimal.formatInt n → Text flag (.i32 n) s
  | flagTrue (n : Int) : flag → n ≠ 0 → Text flag (.i64 n) "true".toList
  | flagFalse : flag → Text flag (.i64 0) "false".toList
  | boolTrue : Text flag (.bool true) "true".toList
  | boolFalse : Text flag (.bool false) "false".toList

/-- The two fields rendered as Booleans. -/
def BoolField (attr : Str) : Prop := attr = "sf.proc.tty".toList ∨ attr = "sf.proc.entry".toList

theorem renderPlain_flag (b : Str) (v : Int) (h : BoolField b) :
    renderPlain b (.i64 v) = if v ≠ 0 then "true".toList else "false".toList := by
  unfold renderPlain; exact if_pos h

theorem renderPlain_num (b : Str) (v : Int) (h : ¬ BoolField b) : renderPlain b (.i64 v) = Decimal.formatInt v := by
  unfold renderPlain; exact if_neg h

theorem renderPlain_text (b : Str) (v : FVal) (s : Str) (h : Text (BoolField b) v s) : renderPlain b v = s := by
  cases h with
  | quoted q q' s h1 h2 => exact Strings.trimQuotes_quoted q q' h1 h2 s
  | plain s h1 h2 => exact Strings.trimQuotes_plain s h1 h2
  | number n s hf h1 h2 => rw [renderPlain_num b n hf]; exact h2.symm
  | number32 n s h1 h2 => exact h2.symm
  | flagTrue n hf hn => rw [renderPlain_flag b n hf, if_pos hn]
  | flagFalse hf => rw [renderPlain_flag b 0 hf, if_neg (by simp)]
  | boolTrue => rfl
  | boolFalse => rfl

theorem cut_none_iff (s : Str) : cut s = none ↔ '[' ∉ s := by
  induction s with
  | nil => simp [cut]
  | cons c cs ih =>
    simp only [cut]
    by_cases h : c = '['
    · simp [h]
    · simp only [h, if_false, List.mem_cons, not_or]
      cases hc : cut cs with
      | none => simp [hc] at ih; simp [ih]; exact fun e => h e.symm
      | some p => rw [hc] at ih; simp at ih; simp [ih]

theorem cut_append (b p : Str) (h : '[' ∉ b) : cut (b ++ '[' :: p) = some (b, p) := by
  induction b with
  | nil => simp [cut]
  | cons c cs ih =>
    simp only [List.mem_cons, not_or] at h
    have : c ≠ '[' := fun e => h.1 e.symm
    simp [cut, this, ih h.2]

theorem cut_some (s b p : Str) (h : cut s = some (b, p)) : s = b ++ '[' :: p ∧ '[' ∉ b := by
  induction s generalizing b with
  | nil => simp [cut] at h
  | cons c cs ih =>
    simp only [cut] at h
    split at h
    · rename_i hc; cases h; simp [hc]
    · rename_i hc
      cases hcs : cut cs with
      | none => rw [hcs] at h; simp at h
      | some q =>
        obtain ⟨b', p'⟩ := q
        rw [hcs] at h
        simp only [Option.some.injEq, Prod.mk.injEq] at h
        obtain ⟨rfl, rfl⟩ := h
        obtain ⟨h1, h2⟩ := ih b' hcs
        refine ⟨by simp [h1], ?_⟩
        simp only [List.mem_cons, not_or]; exact ⟨fun e => hc e.symm, h2⟩

/-- C17: the text of a field is its value rendered: strings lose one pair of bounding quotes, integers
are decimal (sf.proc.tty/entry as Booleans), Booleans are true/false. -/
theorem field_as_text (L : Lib) (t : Table) (attr : Str) (m : Mapper) (hm : t.get attr = some m) (hb : '[' ∉ attr)
    (fr : FlatRec) (s : Str) (h : Text (BoolField attr) (m.run L fr) s) : mapStr? L t attr fr = some s := by
  have hc := (cut_none_iff attr).2 hb
  unfold mapStr?
  rw [hc]
  simp only [mapAttr, hm]
  rw [renderPlain_text _ _ _ h]

/-- C17: text that is neither a field nor bracketed denotes itself without bounding quotes. -/
theorem literal_as_text (L : Lib) (t : Table) (attr : Str) (hm : ¬ IsField t attr) (hb : '[' ∉ attr)
    (fr : FlatRec) (s : Str) (h : Text False (.str attr) s) : mapStr? L t attr fr = some s := by
  have hc := (cut_none_iff attr).2 hb
  have hn := (get_none_iff t attr).2 hm
  unfold mapStr?
  rw [hc]
  simp only [mapAttr, hn]
  have : Text (BoolField attr) (.str attr) s := by
    cases h with
    | quoted q q' s h1 h2 => exact .quoted q q' s h1 h2
    | plain s h1 h2 => exact .plain _ h1 h2
  rw [renderPlain_text _ _ _ this]

/-- C17: field[path] selects `path` inside the field's text by the JSON path library. -/
theorem path_as_text (L : Lib) (t : Table) (b p : Str) (m : Mapper) (hm : t.get b = some m) (hb : '[' ∉ b) (hp : p ≠ [])
    (fr : FlatRec) (v : Str) (hv : m.run L fr = .str v) (hne : v ≠ []) (c : Char) :
    mapStr? L t (b ++ '[' :: (p ++ [c])) fr = some (L.gjson v p) := by
  unfold mapStr?
  rw [cut_append _ _ hb]
  simp only [hm, mapAttr, hv]
  simp [hp, hne]

/-- C17 (finding): a literal that contains an opening bracket is silently cut at the bracket, so
e.g. comparing with a[b] compares with a. -/
theorem bracket_literal_truncated (L : Lib) (t : Table) (b p : Str) (hb : '[' ∉ b) (hm : ¬ IsField t b) (fr : FlatRec) :
    mapStr? L t (b ++ '[' :: p) fr = some (Strings.trimQuotes b) := by
  unfold mapStr?
  rw [cut_append _ _ hb]
  simp only [(get_none_iff t b).2 hm, mapAttr, renderPlain]

/-- C17 (finding): resolution panics exactly for a field name followed by a lone opening bracket. -/
theorem resolution_panics_iff (L : Lib) (t : Table) (attr : Str) (fr : FlatRec) :
    mapStr? L t attr fr = none ↔ ∃ b, '[' ∉ b ∧ IsField t b ∧ attr = b ++ ['['] := by
  unfold mapStr?
  cases hc : cut attr with
  | none =>
    have := (cut_none_iff attr).1 hc
    simp only [reduceCtorEq, false_iff, not_exists, not_and]
    rintro b _ _ rfl
    simp at this
  | some bp =>
    obtain ⟨b, p⟩ := bp
    obtain ⟨rfl, hb⟩ := cut_some _ _ _ hc
    cases hg : t.get b with
    | none =>
      have hn := (get_none_iff t b).1 hg
      simp only [hg, reduceCtorEq, false_iff, not_exists, not_and]
      intro b' hb' hf e
      have : cut (b' ++ ['[']) = some (b', []) := cut_append b' [] hb'
      rw [← e, hc] at this
      simp at this
      exact hn (this.1 ▸ hf)
    | some m =>
      by_cases hp : p = []
      · subst hp
        simp only [hg, if_true, true_iff]
        exact ⟨b, hb, ⟨m, get_some_mem t b m hg⟩, rfl⟩
      · simp only [hg, hp, if_false]
        constructor
        · intro h
          exfalso
          split at h
          · split at h <;> simp at h
          · simp at h
        · rintro ⟨b', hb', _, e⟩
          have : cut (b' ++ ['[']) = some (b', []) := cut_append b' [] hb'
          rw [← e, hc] at this
          simp at this
          exact absurd this.2 hp

/-- C17: integer resolution: an integer field gives its value; text that is not a field gives the
number it spells (0 if it spells none). -/
theorem resolve_integer (L : Lib) (t : Table) (attr : Str) (fr : FlatRec) :
    (∀ m n, t.get attr = some m → m.run L fr = .i64 n → mapInt L t attr fr = n) ∧
    (¬ IsField t attr → ∀ n, Decimal.minInt64 ≤ n → n ≤ Decimal.maxInt64 → attr = Decimal.formatInt n → mapInt L t attr fr = n) ∧
    (¬ IsField t attr → (∀ n, Decimal.parseInt attr ≠ (n, true)) → mapInt L t attr fr = 0) := by
  refine ⟨?_, ?_, ?_⟩
  · intro m n hm hr; simp [mapInt, mapAttr, hm, hr]
  · intro hf n h1 h2 e
    have hn := (get_none_iff t attr).2 hf
    have hp : Decimal.parseInt attr = (n, true) := by rw [e]; exact Decimal.parseInt_formatInt n h1 h2
    simp [mapInt, mapAttr, hn, hp]
  · intro hf hp
    have hn := (get_none_iff t attr).2 hf
    have : (Decimal.parseInt attr).2 = false := by
      cases hb : (Decimal.parseInt attr).2 with
      | false => rfl
      | true => exact absurd (by rw [← hb]) (hp (Decimal.parseInt attr).1)
    simp [mapInt, mapAttr, hn, this]

/-- C17 (finding): in the real table a numeric comparison on a field whose value is not a 64-bit
integer always sees 0; in particular on sf.pproc.uid and sf.pproc.gid when the parent is known. -/
theorem non_integer_field_reads_zero (L : Lib) (attr : Str) (m : Mapper) (hm : getMappers.get attr = some m) (fr : FlatRec)
    (h : ∀ n, m.run L fr ≠ .i64 n) : mapInt L getMappers attr fr = 0 := by
  have hp := (field_names_plain _ (get_some_mem _ _ _ hm)).2.1
  have hv : mapAttr L getMappers attr fr = m.run L fr := by simp [mapAttr, hm]
  unfold mapInt
  rw [hv]
  cases hr : m.run L fr with
  | i64 n => exact absurd hr (h n)
  | _ => simp [hp]

theorem parent_uid_compares_as_zero (L : Lib) (fr : FlatRec) (p q : Proc) (rest : List Proc) (h : fr.ptree = some (p :: q :: rest)) :
    mapInt L getMappers "sf.pproc.uid".toList fr = 0 ∧ mapInt L getMappers "sf.pproc.gid".toList fr = 0 ∧
    mapStr? L getMappers "sf.pproc.uid".toList fr = some (Decimal.formatInt q.uid) := by
  have h1 : getMappers.get "sf.pproc.uid".toList = some (.cached .PProcUID) := by decide +kernel
  have h2 : getMappers.get "sf.pproc.gid".toList = some (.cached .PProcGID) := by decide +kernel
  refine ⟨?_, ?_, ?_⟩
  · exact non_integer_field_reads_zero L _ _ h1 fr (by intro n; simp [Mapper.run, FlatRec.getCachedValue, h, ofParent])
  · exact non_integer_field_reads_zero L _ _ h2 fr (by intro n; simp [Mapper.run, FlatRec.getCachedValue, h, ofParent])
  · refine field_as_text L getMappers _ _ h1 (by decide +kernel) fr _ ?_
    have : (Mapper.cached .PProcUID).run L fr = .i32 q.uid := by simp [Mapper.run, FlatRec.getCachedValue, h, ofParent]
    rw [this]
    exact .number32 _ _ (Decimal.parseSigned_formatInt _) rfl

/-- C16/C17 (finding): exists(sf.proc.name), exists(sf.file.name), ... hold on every record, because
the base name of an empty path is ".". -/
theorem name_fields_always_exist (L : Lib) (attr : Str) (a : SAttr) (hm : getMappers.get attr = some (.name a)) (rec : Record) :
    ((flatOps L getMappers).exist attr).pred rec = true := by
  rw [exists_iff]
  have : mapAttr L getMappers attr rec.fr = .str (Strings.base (rec.fr.getStr a .sysflow)) := by simp [mapAttr, hm, Mapper.run]
  rw [this]
  have hne := Strings.base_ne_nil (rec.fr.getStr a .sysflow)
  cases hb : Strings.base (rec.fr.getStr a .sysflow) with
  | nil => exact absurd hb hne
  | cons c cs => exact .str c cs

/-! ## C18: prefilter -/

/-- C18: the prefilter admits a record exactly when the rule lists no types or lists the record's type. -/
theorem prefilter_iff (L : Lib) (r : Record) (rule : Rule Record) :
    isApplicable L getMappers r rule = true ↔
      rule.prefilter = [] ∨ mapStr L getMappers "sf.type".toList r.fr ∈ rule.prefilter := by
  have loop : ∀ (x : Str) (l : List Str), prefilterLoop x l = true ↔ x ∈ l := by
    intro x l
    induction l with
    | nil => simp [prefilterLoop]
    | cons a as ih => simp only [prefilterLoop]; split <;> simp_all
  unfold isApplicable
  by_cases h : rule.prefilter = []
  · simp [h]
  · simp [h, loop]

/-- The text of sf.type is the name of the record's type (type names carry no quotes). -/
theorem type_text (L : Lib) (fr : FlatRec) (s : Str) (hs : L.recType (fr.getInt .SF_REC_TYPE .sysflow) = s)
    (hq : ∀ c ∈ s, Strings.isQuote c = false) : mapStr L getMappers "sf.type".toList fr = s := by
  have h1 : getMappers.get "sf.type".toList = some .recType := by decide +kernel
  have := field_as_text L getMappers _ _ h1 (by decide +kernel) fr s (by
    simp only [Mapper.run, hs]
    exact .plain s (fun c h => hq c (List.mem_of_mem_head? h)) (fun c h => hq c (List.mem_of_getLast? h)))
  unfold mapStr; rw [this]; rfl

/-- C18: a rule with a prefilter fires only on records whose type it lists. -/
theorem prefilter_sound (L : Lib) (e : Bool) (rules : List (Rule Record)) (fs : List (Filter Record))
    (bi us : Engine.ActionMap Record) (o : Bool) (r : Record) (rule : Rule Record) (hp : rule.prefilter ≠ [])
    (hf : Engine.Fires (flatInterp L e rules fs bi us o) r rule) :
    mapStr L getMappers "sf.type".toList r.fr ∈ rule.prefilter := by
  have := (prefilter_iff L r rule).1 hf.2.1
  exact this.resolve_left hp

/-- C18: if every rule's condition implies its prefilter, the engine behaves on every record exactly as
if no rule had a prefilter. -/
theorem prefilter_redundant (L : Lib) (e : Bool) (rules : List (Rule Record)) (fs : List (Filter Record))
    (bi us : Engine.ActionMap Record) (o : Bool)
    (h : ∀ rule ∈ rules, ∀ r : Record, rule.condition.pred r = true → rule.prefilter = [] ∨
      mapStr L getMappers "sf.type".toList r.fr ∈ rule.prefilter) (r : Record) :
    (flatInterp L e rules fs bi us o).work r =
      ({ flatInterp L e rules fs bi us o with isApplicable := fun _ _ => true } : Engine.Interp Record).work r :=
  Engine.prefilter_transparent _ (fun rule hr r hc => (prefilter_iff L r rule).2 (h rule hr r hc)) r

/-! ## C19: getters -/

/-- The section of a record that belongs to a source, if any: the first one with that source. -/
def SectionOf (fr : FlatRec) (src : Source) (s : Sect) : Prop :=
  ∃ pre post, fr.sections = pre ++ (src, s) :: post ∧ ∀ p ∈ pre, p.1 ≠ src

theorem findSect_of (src : Source) (s : Sect) (pre post : List (Source × Sect)) (h : ∀ p ∈ pre, p.1 ≠ src) :
    findSect src (pre ++ (src, s) :: post) = some s := by
  induction pre with
  | nil => simp [findSect]
  | cons p ps ih =>
    obtain ⟨x, y⟩ := p
    have hx : x ≠ src := h (x, y) (by simp)
    simp [findSect, hx, ih (fun q hq => h q (by simp [hq]))]

theorem findSect_none (src : Source) (l : List (Source × Sect)) (h : ∀ p ∈ l, p.1 ≠ src) : findSect src l = none := by
  induction l with
  | nil => rfl
  | cons p ps ih =>
    obtain ⟨x, y⟩ := p
    have hx : x ≠ src := h (x, y) (by simp)
    simp [findSect, hx, ih (fun q hq => h q (by simp [hq]))]

/-- C19: reading an attribute for a source returns what the first section of that source stores. -/
theorem getters_read_section (fr : FlatRec) (src : Source) (s : Sect) (h : SectionOf fr src s) :
    (∀ a, fr.getInt a src = s.ints a) ∧ (∀ a, fr.getStr a src = s.strs a) ∧
    (∀ a l, s.anys a = .ints l → fr.getIntArray a src = some l ∧ fr.getSvcArray a src = none) ∧
    (∀ a l, s.anys a = .svcs l → fr.getSvcArray a src = some l ∧ fr.getIntArray a src = none) ∧
    (∀ a, s.anys a = .nil → fr.getSvcArray a src = none ∧ fr.getIntArray a src = none) := by
  obtain ⟨pre, post, hs, hp⟩ := h
  have hf : findSect src fr.sections = some s := by rw [hs]; exact findSect_of src s pre post hp
  refine ⟨?_, ?_, ?_, ?_, ?_⟩
  · intro a; simp [FlatRec.getInt, hf]
  · intro a; simp [FlatRec.getStr, hf]
  · intro a l ha; simp [FlatRec.getIntArray, FlatRec.getSvcArray, hf, ha]
  · intro a l ha; simp [FlatRec.getIntArray, FlatRec.getSvcArray, hf, ha]
  · intro a ha; simp [FlatRec.getIntArray, FlatRec.getSvcArray, hf, ha]

/-- C19: for a source without a section every getter returns the zero value. -/
theorem getters_absent_source (fr : FlatRec) (src : Source) (h : ∀ p ∈ fr.sections, p.1 ≠ src) :
    (∀ a, fr.getInt a src = 0) ∧ (∀ a, fr.getStr a src = []) ∧ (∀ a, fr.getIntArray a src = none) ∧
    (∀ a, fr.getSvcArray a src = none) := by
  have hf := findSect_none src fr.sections h
  refine ⟨?_, ?_, ?_, ?_⟩ <;> intro a <;> simp [FlatRec.getInt, FlatRec.getStr, FlatRec.getIntArray, FlatRec.getSvcArray, hf]

/-! ## C20: ancestors -/

/-- What users call the name, executable, command line and pid of a process. -/
def procName (p : Proc) : Str := Strings.base p.exe
def procCmd (p : Proc) : Str := if p.exeArgs = [] then p.exe else p.exe ++ [' '] ++ p.exeArgs
def procPid (p : Proc) : Str := Decimal.formatInt p.oid.hpid

theorem cmdLine_eq (p : Proc) : cmdLine p = procCmd p := by
  unfold cmdLine procCmd
  cases p.exeArgs <;> simp

/-- C20: the ancestor fields list, nearest first, the process itself and all its recorded ancestors. -/
theorem ancestor_fields (L : Lib) (fr : FlatRec) (chain : List Proc) (h : fr.ptree = some chain) :
    mapAttr L getMappers "sf.proc.aname".toList fr = .str (Strings.join ',' (chain.map procName)) ∧
    mapAttr L getMappers "sf.proc.aexe".toList fr = .str (Strings.join ',' (chain.map (·.exe))) ∧
    mapAttr L getMappers "sf.proc.acmdline".toList fr = .str (Strings.join ',' (chain.map procCmd)) ∧
    mapAttr L getMappers "sf.proc.apid".toList fr = .str (Strings.join ',' (chain.map procPid)) := by
  have h1 : getMappers.get "sf.proc.aname".toList = some (.cached .ProcAName) := by decide +kernel
  have h2 : getMappers.get "sf.proc.aexe".toList = some (.cached .ProcAExe) := by decide +kernel
  have h3 : getMappers.get "sf.proc.acmdline".toList = some (.cached .ProcACmdLine) := by decide +kernel
  have h4 : getMappers.get "sf.proc.apid".toList = some (.cached .ProcAPID) := by decide +kernel
  have hc : cmdLine = procCmd := funext cmdLine_eq
  refine ⟨?_, ?_, ?_, ?_⟩
  · simp only [mapAttr, h1, Mapper.run, FlatRec.getCachedValue, h]; rfl
  · simp only [mapAttr, h2, Mapper.run, FlatRec.getCachedValue, h]
  · simp only [mapAttr, h3, Mapper.run, FlatRec.getCachedValue, h, hc]
  · simp only [mapAttr, h4, Mapper.run, FlatRec.getCachedValue, h]; rfl

/-- C20: the sf.pproc.* fields are those of the immediate parent (second in the chain). -/
theorem parent_fields (L : Lib) (fr : FlatRec) (p q : Proc) (rest : List Proc) (h : fr.ptree = some (p :: q :: rest)) :
    mapAttr L getMappers "sf.pproc.name".toList fr = .str (procName q) ∧
    mapAttr L getMappers "sf.pproc.exe".toList fr = .str q.exe ∧
    mapAttr L getMappers "sf.pproc.args".toList fr = .str q.exeArgs ∧
    mapAttr L getMappers "sf.pproc.cmdline".toList fr = .str (procCmd q) ∧
    mapAttr L getMappers "sf.pproc.user".toList fr = .str q.userName ∧
    mapAttr L getMappers "sf.pproc.group".toList fr = .str q.groupName ∧
    mapAttr L getMappers "sf.pproc.uid".toList fr = .i32 q.uid ∧
    mapAttr L getMappers "sf.pproc.gid".toList fr = .i32 q.gid ∧
    mapAttr L getMappers "sf.pproc.tty".toList fr = .bool q.tty ∧
    mapAttr L getMappers "sf.pproc.entry".toList fr = .bool q.entry := by
  have h1 : getMappers.get "sf.pproc.name".toList = some (.cached .PProcName) := by decide +kernel
  have h2 : getMappers.get "sf.pproc.exe".toList = some (.cached .PProcExe) := by decide +kernel
  have h3 : getMappers.get "sf.pproc.args".toList = some (.cached .PProcArgs) := by decide +kernel
  have h4 : getMappers.get "sf.pproc.cmdline".toList = some (.cached .PProcCmdLine) := by decide +kernel
  have h5 : getMappers.get "sf.pproc.user".toList = some (.cached .PProcUser) := by decide +kernel
  have h6 : getMappers.get "sf.pproc.group".toList = some (.cached .PProcGroup) := by decide +kernel
  have h7 : getMappers.get "sf.pproc.uid".toList = some (.cached .PProcUID) := by decide +kernel
  have h8 : getMappers.get "sf.pproc.gid".toList = some (.cached .PProcGID) := by decide +kernel
  have h9 : getMappers.get "sf.pproc.tty".toList = some (.cached .PProcTTY) := by decide +kernel
  have h10 : getMappers.get "sf.pproc.entry".toList = some (.cached .PProcEntry) := by decide +kernel
  refine ⟨?_, ?_, ?_, ?_, ?_, ?_, ?_, ?_, ?_, ?_⟩
  · simp only [mapAttr, h1, Mapper.run, FlatRec.getCachedValue, h, ofParent]; rfl
  · simp only [mapAttr, h2, Mapper.run, FlatRec.getCachedValue, h, ofParent]
  · simp only [mapAttr, h3, Mapper.run, FlatRec.getCachedValue, h, ofParent]
  · simp only [mapAttr, h4, Mapper.run, FlatRec.getCachedValue, h, ofParent, cmdLine_eq]
  · simp only [mapAttr, h5, Mapper.run, FlatRec.getCachedValue, h, ofParent]
  · simp only [mapAttr, h6, Mapper.run, FlatRec.getCachedValue, h, ofParent]
  · simp only [mapAttr, h7, Mapper.run, FlatRec.getCachedValue, h, ofParent]
  · simp only [mapAttr, h8, Mapper.run, FlatRec.getCachedValue, h, ofParent]
  · simp only [mapAttr, h9, Mapper.run, FlatRec.getCachedValue, h, ofParent]
  · simp only [mapAttr, h10, Mapper.run, FlatRec.getCachedValue, h, ofParent]

/-- C20: without a recorded parent every parent attribute is absent (zero or empty). -/
theorem parent_fields_absent (fr : FlatRec) (h : fr.ptree = none ∨ fr.ptree = some [] ∨ ∃ p, fr.ptree = some [p])
    (a : RecAttr) (ha : a ∉ [RecAttr.ProcAName, .ProcAExe, .ProcACmdLine, .ProcAPID]) :
    ¬ Present (fr.getCachedValue a) := by
  intro hp
  have : fr.getCachedValue a = .str [] ∨ fr.getCachedValue a = .i64 0 := by
    rcases h with h | h | ⟨p, h⟩ <;> cases a <;> simp [FlatRec.getCachedValue, h, cachedDefault, ofParent] at ha ⊢
  rcases this with h | h <;> rw [h] at hp <;> cases hp
  simp_all

/-- C20: sf.proc.aname = x holds exactly when the process itself or one of its recorded ancestors has
name x (names without commas and quotes). -/
theorem ancestor_name_matches (L : Lib) (rec : Record) (chain : List Proc) (x : Str)
    (hpt : rec.fr.ptree = some chain) (hne : chain ≠ [])
    (hn : ∀ p ∈ chain, ',' ∉ procName p ∧ ∀ c ∈ procName p, Strings.isQuote c = false)
    (hx : ¬ IsField getMappers x) (hx1 : '[' ∉ x) (hx2 : ',' ∉ x) (hx3 : ∀ c ∈ x, Strings.isQuote c = false) :
    ((flatOps L getMappers).compare "sf.proc.aname".toList x .Eq).pred rec = true ↔ ∃ p ∈ chain, procName p = x := by
  rw [string_comparison L getMappers _ _ .Eq (by simp [Ordering]) rec]
  have hv := (ancestor_fields L rec.fr chain hpt).1
  have hj : ∀ (ws : List Str), (∀ w ∈ ws, ∀ c ∈ w, Strings.isQuote c = false) → ∀ c ∈ Strings.join ',' ws, Strings.isQuote c = false := by
    intro ws
    induction ws with
    | nil => intro _ c hc; simp [Strings.join] at hc
    | cons w ws ih =>
      intro h c hc
      cases ws with
      | nil => simp [Strings.join] at hc; exact h w (by simp) c hc
      | cons y ys =>
        simp only [Strings.join, List.mem_append, List.mem_cons] at hc
        rcases hc with hc | rfl | hc
        · exact h w (by simp) c hc
        · decide
        · exact ih (fun u hu => h u (by simp [hu])) c hc
  have hl : mapStr L getMappers "sf.proc.aname".toList rec.fr = Strings.join ',' (chain.map procName) := by
    have h1 : getMappers.get "sf.proc.aname".toList = some (.cached .ProcAName) := by decide +kernel
    have hr : (Mapper.cached .ProcAName).run L rec.fr = .str (Strings.join ',' (chain.map procName)) := by
      have := hv; simp only [mapAttr, h1] at this; exact this
    have hq := hj (chain.map procName) (by simp only [List.mem_map]; rintro w ⟨p, hp, rfl⟩; exact (hn p hp).2)
    have := field_as_text L getMappers _ _ h1 (by decide +kernel) rec.fr _ (by
      rw [hr]
      exact .plain _ (fun c h => hq c (List.mem_of_mem_head? h)) (fun c h => hq c (List.mem_of_getLast? h)))
    unfold mapStr; rw [this]; rfl
  have hr : mapStr L getMappers x rec.fr = x := by
    have := literal_as_text L getMappers x hx hx1 rec.fr x
      (.plain _ (fun c h => hx3 c (List.mem_of_mem_head? h)) (fun c h => hx3 c (List.mem_of_getLast? h)))
    simp [mapStr, this]
  rw [hl, hr]
  have hs : Strings.split ',' (Strings.join ',' (chain.map procName)) = chain.map procName :=
    Strings.split_join ',' _ (by simpa using hne) (by simp only [List.mem_map]; rintro w ⟨p, hp, rfl⟩; exact (hn p hp).1)
  unfold SomeMatch
  constructor
  · rintro ⟨a, b, ha, hb, hab⟩
    rw [← Strings.mem_split_iff, hs] at ha
    rw [← Strings.mem_split_iff, Strings.split_of_not_mem ',' x hx2] at hb
    simp only [List.mem_singleton] at hb
    subst hb
    obtain ⟨p, hp, rfl⟩ := List.mem_map.1 ha
    exact ⟨p, hp, hab⟩
  · rintro ⟨p, hp, rfl⟩
    refine ⟨procName p, procName p, ?_, ?_, rfl⟩
    · rw [← Strings.mem_split_iff, hs]; exact List.mem_map.2 ⟨p, hp, rfl⟩
    · rw [← Strings.mem_split_iff, Strings.split_of_not_mem ',' _ hx2]; simp

/-! ## C21: record context -/

/-- The operations a plugin or the engine can perform on a record's context. -/
inductive CtxOp where
  | setAlert (b : Bool)
  | addRules (rs : List RuleInfo)
  | setTags (ts : List Str)
  | addTags (ts : List Str)
  | setHashes (h : HashType) (hs : HashSet)

/-- Performing one operation. -/
def CtxOp.apply (c : Ctx) : CtxOp → Ctx
  | .setAlert b => c.setAlert b
  | .addRules rs => c.addRules rs
  | .setTags ts => c.setTags ts
  | .addTags ts => c.addTags ts
  | .setHashes h hs => c.setHashes h hs

/-- The context after a history of operations on a new record. -/
def ctxAfter (ops : List CtxOp) : Ctx := ops.foldl CtxOp.apply {}

/-- The rules added over a history, in order. -/
def rulesAdded : List CtxOp → List RuleInfo
  | [] => []
  | .addRules rs :: ops => rs ++ rulesAdded ops
  | _ :: ops => rulesAdded ops

/-- The tags after a history, starting from `acc`: replaced by SetTags, extended by AddTags. -/
def tagsAfter (acc : List Str) : List CtxOp → List Str
  | [] => acc
  | .setTags ts :: ops => tagsAfter ts ops
  | .addTags ts :: ops => tagsAfter (acc ++ ts) ops
  | _ :: ops => tagsAfter acc ops

/-- The first hash set stored for a hash type. -/
def firstHash (h : HashType) : List CtxOp → Option HashSet
  | [] => none
  | .setHashes h' hs :: ops => if h' = h then some hs else firstHash h ops
  | _ :: ops => firstHash h ops

/-- The last alert status set (false initially). -/
def lastAlert (b : Bool) : List CtxOp → Bool
  | [] => b
  | .setAlert b' :: ops => lastAlert b' ops
  | _ :: ops => lastAlert b ops

theorem foldl_snoc {α : Type u} (xs acc : List α) : xs.foldl (fun a x => a ++ [x]) acc = acc ++ xs := by
  induction xs generalizing acc with
  | nil => simp
  | cons x xs ih => simp [ih]

theorem getHash_setHashes (c : Ctx) (h h' : HashType) (hs : HashSet) :
    (c.setHashes h' hs).getHash h = if h' = h then (c.getHash h).or (some hs) else c.getHash h := by
  obtain ⟨al, ru, ta, ha⟩ := c
  cases ha with
  | none => cases h <;> cases h' <;> simp [Ctx.setHashes, Ctx.getHash]
  | some pf =>
    obtain ⟨p, f⟩ := pf
    cases h <;> cases h' <;> cases p <;> cases f <;> simp [Ctx.setHashes, Ctx.getHash]

/-- C21: after any history of context operations the rules are all the rules added, in order; the tags
those last set followed by those added since; each hash is the first one stored of its type; the alert
status is the last one set. -/
theorem context_accumulates (ops : List CtxOp) :
    (ctxAfter ops).getRules = rulesAdded ops ∧ (ctxAfter ops).getTags = tagsAfter [] ops ∧
    (∀ h, (ctxAfter ops).getHash h = firstHash h ops) ∧ (ctxAfter ops).isAlert = lastAlert false ops := by
  have key : ∀ (ops : List CtxOp) (c : Ctx),
      (ops.foldl CtxOp.apply c).getRules = c.getRules ++ rulesAdded ops ∧
      (ops.foldl CtxOp.apply c).getTags = tagsAfter c.getTags ops ∧
      (∀ h, (ops.foldl CtxOp.apply c).getHash h = (c.getHash h).or (firstHash h ops)) ∧
      (ops.foldl CtxOp.apply c).isAlert = lastAlert c.isAlert ops := by
    intro ops
    induction ops with
    | nil => intro c; simp [rulesAdded, tagsAfter, firstHash, lastAlert]
    | cons op ops ih =>
      intro c
      obtain ⟨i1, i2, i3, i4⟩ := ih (op.apply c)
      simp only [List.foldl_cons]
      rw [i1, i2, i4]
      refine ⟨?_, ?_, ?_, ?_⟩
      · cases op <;> simp [CtxOp.apply, rulesAdded, Ctx.getRules, Ctx.setAlert, Ctx.addRules, Ctx.setTags, Ctx.addTags, Ctx.setHashes, foldl_snoc, -List.foldl_append_eq_append]
      · cases op <;> simp [CtxOp.apply, tagsAfter, Ctx.getTags, Ctx.setAlert, Ctx.addRules, Ctx.setTags, Ctx.addTags, Ctx.setHashes, foldl_snoc, -List.foldl_append_eq_append]
      · intro h
        rw [i3]
        cases op with
        | setHashes h' hs =>
          simp only [CtxOp.apply, getHash_setHashes, firstHash]
          by_cases hh : h' = h
          · cases hc : c.getHash h <;> simp [hh]
          · simp [hh]
        | _ => rfl
      · cases op <;> simp [CtxOp.apply, lastAlert, Ctx.isAlert, Ctx.setAlert, Ctx.addRules, Ctx.setTags, Ctx.addTags, Ctx.setHashes]
  have := key ops {}
  simpa [ctxAfter, Ctx.getRules, Ctx.getTags, Ctx.getHash, Ctx.isAlert] using this

/-! ## Conditions built from these operations read only telemetry (used by C02-C04) -/

/-- Criteria that the compilers can build from a source's operations. -/
inductive Built {R : Type u} (ops : Operations R) : Criterion R → Prop
  | exist (a) : Built ops (ops.exist a)
  | compare (l r op) : Built ops (ops.compare l r op)
  | foldAny (a l op) : Built ops (ops.foldAny a l op)
  | foldAll (a l op) : Built ops (ops.foldAll a l op)
  | regExp (a re) : Built ops (ops.regExp a re).1
  | tt : Built ops .tt
  | ff : Built ops .ff
  | and (a b) : Built ops a → Built ops b → Built ops (a.and b)
  | or (a b) : Built ops a → Built ops b → Built ops (a.or b)
  | not (a) : Built ops a → Built ops a.not

theorem Built.all {R : Type u} {ops : Operations R} (cs : List (Criterion R)) (h : ∀ c ∈ cs, Built ops c) : Built ops (Criterion.all cs) := by
  have : ∀ (cs : List (Criterion R)) (a : Criterion R), Built ops a → (∀ c ∈ cs, Built ops c) → Built ops (cs.foldl (fun acc c => acc.and c) a) := by
    intro cs
    induction cs with
    | nil => intro a ha _; exact ha
    | cons c cs ih => intro a ha hc; exact ih _ (.and _ _ ha (hc c (by simp))) (fun d hd => hc d (by simp [hd]))
  exact this cs _ .tt h

theorem Built.any {R : Type u} {ops : Operations R} (cs : List (Criterion R)) (h : ∀ c ∈ cs, Built ops c) : Built ops (Criterion.any cs) := by
  have : ∀ (cs : List (Criterion R)) (a : Criterion R), Built ops a → (∀ c ∈ cs, Built ops c) → Built ops (cs.foldl (fun acc c => acc.or c) a) := by
    intro cs
    induction cs with
    | nil => intro a ha _; exact ha
    | cons c cs ih => intro a ha hc; exact ih _ (.or _ _ ha (hc c (by simp))) (fun d hd => hc d (by simp [hd]))
  exact this cs _ .ff h

/-- A criterion built from the flat record operations depends only on the record's telemetry, not on
its context. -/
theorem built_reads_telemetry (L : Lib) (t : Table) (c : Criterion Record) (h : Built (flatOps L t) c) (r r' : Record)
    (hr : r.fr = r'.fr) : c.pred r = c.pred r' := by
  induction h with
  | exist a => simp [flatOps, existsC, hr]
  | compare l r op => cases op <;> simp [flatOps, compareC, compareStrC, compareIntC, hr]
  | foldAny a l op => simp [flatOps, foldAnyC, hr]
  | foldAll a l op => simp [flatOps, foldAllC, hr]
  | regExp a re =>
    simp only [flatOps, regExpC]
    cases L.regexp re <;> simp [hr, Criterion.ff]
  | tt => rfl
  | ff => rfl
  | and a b _ _ iha ihb => simp [Criterion.and, Criterion.eval, iha, ihb]
  | or a b _ _ iha ihb => simp [Criterion.or, Criterion.eval, iha, ihb]
  | not a _ iha => simp [Criterion.not, Criterion.eval, iha]

/-- Engines over flat records with compiled conditions meet the hypothesis of the engine theorems
(C02-C04), provided actions do not rewrite telemetry. -/
theorem flat_stable (L : Lib) (e : Bool) (rules : List (Rule Record)) (fs : List (Filter Record))
    (bi us : Engine.ActionMap Record) (o : Bool)
    (hb : ∀ rule ∈ rules, Built (flatOps L getMappers) rule.condition)
    (ha : ∀ a f, (bi a = some f ∨ us a = some f) → ∀ r, (f r).1.fr = r.fr) :
    Engine.Stable (flatInterp L e rules fs bi us o) (fun r => r.fr) := by
  refine ⟨?_, ?_, ?_, ?_⟩
  · intro rule hr r r' h; exact built_reads_telemetry L _ _ (hb rule hr) r r' h
  · intro rule _ r r' h
    show isApplicable L getMappers r rule = isApplicable L getMappers r' rule
    have h' : r.fr = r'.fr := h
    unfold isApplicable; rw [h']
  · intro r rule _; rfl
  · intro r a f h
    apply ha a f
    have h : (bi a).or (us a) = some f := h
    cases hbi : bi a with
    | none => rw [hbi] at h; right; simpa using h
    | some g => rw [hbi] at h; left; simpa using h

/-- C03 for flat records: after processing, the record's rules are those it had plus exactly the rules
that fire, in policy order; its telemetry is unchanged. -/
theorem flat_record_rules (L : Lib) (e : Bool) (rules : List (Rule Record)) (fs : List (Filter Record))
    (bi us : Engine.ActionMap Record) (o : Bool)
    (hb : ∀ rule ∈ rules, Built (flatOps L getMappers) rule.condition)
    (ha : ∀ a f, (bi a = some f ∨ us a = some f) → ∀ r, (f r).1.fr = r.fr)
    (ha' : ∀ a f, (bi a = some f ∨ us a = some f) → ∀ r, (f r).1.ctx.getRules = r.ctx.getRules) (r : Record) :
    let pi := flatInterp L e rules fs bi us o
    (pi.work r).1.ctx.getRules = r.ctx.getRules ++
      (if Engine.Dropped pi r then [] else (rules.filter (fun x => decide (Engine.Fires pi r x))).map (·.toRuleInfo)) := by
  intro pi
  refine Engine.record_rules_after pi (fun r => r.fr) (flat_stable L e rules fs bi us o hb ha) (fun r => r.ctx.getRules) ?_ ?_ r
  · intro r x
    show (Ctx.addRules r.ctx [x.toRuleInfo]).getRules = _
    simp [Ctx.addRules, Ctx.getRules]
  · intro r a f h
    apply ha' a f
    have h : (bi a).or (us a) = some f := h
    cases hbi : bi a with
    | none => rw [hbi] at h; right; simpa using h
    | some g => rw [hbi] at h; left; simpa using h

/-! ## C57: Falco field names -/

/-- The Falco names and the SysFlow fields they stand for. -/
def falcoAliases : List (String × String) :=
  [("evt.type", "sf.opflags"), ("evt.rawtime", "sf.ts"), ("evt.is_open_read", "sf.file.is_open_read"),
   ("evt.is_open_write", "sf.file.is_open_write"), ("evt.arg.uid", "sf.proc.uid"), ("fd.typechar", "sf.file.type"),
   ("fd.directory", "sf.file.directory"), ("fd.name", "sf.file.name"), ("fd.filename", "sf.file.name"),
   ("fd.proto", "sf.net.proto"), ("fd.lproto", "sf.net.proto"), ("fd.l4proto", "sf.net.proto"), ("fd.rproto", "sf.net.proto"),
   ("fd.sproto", "sf.net.proto"), ("fd.cproto", "sf.net.proto"), ("fd.sport", "sf.net.sport"), ("fd.dport", "sf.net.dport"),
   ("fd.sip", "sf.net.sip"), ("fd.dip", "sf.net.dip"), ("fd.ip", "sf.net.ip"), ("fd.port", "sf.net.port"),
   ("fd.num", "sf.file.fd"), ("user.name", "sf.proc.user"), ("proc.pid", "sf.proc.pid"), ("proc.tid", "sf.proc.tid"),
   ("proc.gid", "sf.proc.gid"), ("proc.uid", "sf.proc.uid"), ("proc.group", "sf.proc.group"), ("proc.user", "sf.proc.user"),
   ("proc.exe", "sf.proc.exe"), ("proc.name", "sf.proc.name"), ("proc.args", "sf.proc.args"), ("proc.cmdline", "sf.proc.cmdline"),
   ("proc.aname", "sf.proc.aname"), ("proc.apid", "sf.proc.apid"), ("proc.ppid", "sf.pproc.pid"), ("proc.pgid", "sf.pproc.gid"),
   ("proc.puid", "sf.pproc.uid"), ("proc.pgroup", "sf.pproc.group"), ("proc.ptty", "sf.pproc.tty"), ("proc.puser", "sf.pproc.user"),
   ("proc.pexe", "sf.pproc.exe"), ("proc.pargs", "sf.pproc.args"), ("proc.pcreatetime", "sf.pproc.createts"),
   ("proc.pname", "sf.pproc.name"), ("proc.pcmdline", "sf.pproc.cmdline"), ("container.id", "sf.container.id"),
   ("container.image.id", "sf.container.imageid"), ("container.image", "sf.container.image"), ("container.name", "sf.container.name"),
   ("container.type", "sf.container.type"), ("container.privileged", "sf.container.privileged")]

theorem falcoAliases_table : ∀ p ∈ falcoAliases, getMappers.get p.1.toList = getMappers.get p.2.toList ∧
    (getMappers.get p.1.toList).isSome ∧ ¬ BoolField p.1.toList ∧ ¬ BoolField p.2.toList ∧ '[' ∉ p.1.toList ∧ '[' ∉ p.2.toList ∧
    (Decimal.parseInt p.1.toList).2 = false ∧ (Decimal.parseInt p.2.toList).2 = false := by
  unfold BoolField
  decide +kernel

/-- C57: on every record each Falco field reads exactly like the SysFlow field it stands for, as text, as
integer and for existence; so a condition means the same in either vocabulary. -/
theorem falco_names_are_aliases (L : Lib) (p : String × String) (hp : p ∈ falcoAliases) (fr : FlatRec) :
    mapStr? L getMappers p.1.toList fr = mapStr? L getMappers p.2.toList fr ∧
    mapInt L getMappers p.1.toList fr = mapInt L getMappers p.2.toList fr ∧
    mapAttr L getMappers p.1.toList fr = mapAttr L getMappers p.2.toList fr := by
  obtain ⟨h1, h2, h3, h4, h5, h6, h7, h8⟩ := falcoAliases_table p hp
  generalize p.1.toList = x at *
  generalize p.2.toList = y at *
  have e : mapAttr L getMappers x fr = mapAttr L getMappers y fr := by
    unfold mapAttr
    cases hx : getMappers.get x with
    | none => rw [hx] at h2; simp at h2
    | some m => rw [← h1, hx]
  have r : ∀ v, renderPlain x v = renderPlain y v := by
    intro v
    cases v with
    | i64 n => rw [renderPlain_num x n h3, renderPlain_num y n h4]
    | _ => rfl
  refine ⟨?_, ?_, e⟩
  · unfold mapStr?
    rw [(cut_none_iff x).2 h5, (cut_none_iff y).2 h6]
    simp only [e, r]
  · unfold mapInt
    rw [e]
    cases mapAttr L getMappers y fr <;> simp [h7, h8]

/-- C57 (findings): evt.rawres reads the record type instead of the return value, proc.createtime the
parent's creation time, proc.tty the parent's terminal flag. -/
theorem falco_misleading_names (L : Lib) (fr : FlatRec) :
    mapAttr L getMappers "evt.rawres".toList fr = mapAttr L getMappers "sf.type".toList fr ∧
    mapAttr L getMappers "proc.createtime".toList fr = mapAttr L getMappers "sf.pproc.createts".toList fr ∧
    mapAttr L getMappers "proc.tty".toList fr = mapAttr L getMappers "sf.pproc.tty".toList fr := by
  have h1 : getMappers.get "evt.rawres".toList = getMappers.get "sf.type".toList ∧ (getMappers.get "sf.type".toList).isSome := by decide +kernel
  have h2 : getMappers.get "proc.createtime".toList = getMappers.get "sf.pproc.createts".toList ∧ (getMappers.get "sf.pproc.createts".toList).isSome := by decide +kernel
  have h3 : getMappers.get "proc.tty".toList = getMappers.get "sf.pproc.tty".toList ∧ (getMappers.get "sf.pproc.tty".toList).isSome := by decide +kernel
  have key : ∀ x y : Str, getMappers.get x = getMappers.get y ∧ (getMappers.get y).isSome → mapAttr L getMappers x fr = mapAttr L getMappers y fr := by
    rintro x y ⟨h, hs⟩
    unfold mapAttr
    rw [h]
    cases hy : getMappers.get y with
    | none => rw [hy] at hs; simp at hs
    | some m => rfl
  exact ⟨key _ _ h1, key _ _ h2, key _ _ h3⟩

end Verif.FlatRecord

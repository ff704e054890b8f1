import Verif.Ecs.Text
/-
C81: the text of an ECS document.
-/
namespace Verif.Ecs
open Verif.Decimal (Str)
open Verif.Json (Bytes JVal cps commas Reads ReadsMember AllReads AllMembers)

/-! ### Sorting -/

theorem insertMember_perm (x : Str × Bytes) (l : List (Str × Bytes)) : (insertMember x l).Perm (x :: l) := by
  induction l with
  | nil => exact .refl _
  | cons y ys ih =>
    unfold insertMember
    split
    · exact (ih.cons y).trans (.swap _ _ _)
    · exact .refl _

theorem sortMembers_perm (l : List (Str × Bytes)) : (sortMembers l).Perm l := by
  induction l with
  | nil => exact .refl _
  | cons x l ih => exact (insertMember_perm x _).trans (ih.cons x)

theorem cps_inj {a b : Str} (h : cps a = cps b) : a = b := by
  unfold Json.cps at h
  induction a generalizing b with
  | nil => cases b with
    | nil => rfl
    | cons _ _ => cases h
  | cons c a ih =>
    cases b with
    | nil => cases h
    | cons d b =>
      rw [List.map_cons, List.map_cons, List.cons.injEq] at h
      rw [Char.ext (UInt32.toNat_inj.1 h.1), ih h.2]

/-- Sorted by name. -/
def Sorted (l : List (Str × Bytes)) : Prop := l.Pairwise (fun a b => cps a.1 < cps b.1)

theorem insert_sorted (x : Str × Bytes) : ∀ l : List (Str × Bytes), Sorted l → (∀ y ∈ l, y.1 ≠ x.1) → Sorted (insertMember x l) := by
  intro l
  induction l with
  | nil => intro _ _; exact List.pairwise_singleton _ _
  | cons y ys ih =>
    intro h hne
    unfold Sorted at h
    rw [List.pairwise_cons] at h
    unfold insertMember
    split
    · rename_i hk
      refine List.pairwise_cons.2 ⟨fun z hz => ?_, ih h.2 (fun z hz => hne z (List.mem_cons_of_mem _ hz))⟩
      rcases List.mem_cons.1 ((insertMember_perm x ys).mem_iff.1 hz) with rfl | hz
      · exact of_decide_eq_true hk
      · exact h.1 z hz
    · rename_i hk
      have hlt : cps x.1 < cps y.1 := by
        have h1 : ¬ cps y.1 < cps x.1 := fun hh => hk (decide_eq_true hh)
        refine Classical.byContradiction (fun h2 => hne y List.mem_cons_self ?_)
        exact cps_inj (List.le_antisymm (List.not_lt.1 h2) (List.not_lt.1 h1))
      refine List.pairwise_cons.2 ⟨fun z hz => ?_, List.pairwise_cons.2 h⟩
      rcases List.mem_cons.1 hz with rfl | hz
      · exact hlt
      · exact List.lt_trans hlt (h.1 z hz)

theorem sort_sorted (l : List (Str × Bytes)) (h : (l.map Prod.fst).Nodup) : Sorted (sortMembers l) := by
  induction l with
  | nil => exact List.Pairwise.nil
  | cons x l ih =>
    rw [List.map_cons, List.nodup_cons] at h
    refine insert_sorted x _ (ih h.2) (fun y hy he => h.1 ?_)
    rw [← he]
    exact List.mem_map.2 ⟨y, (sortMembers_perm l).mem_iff.1 hy, rfl⟩

/-! ### Documents without repeated names -/

/-- No map in the value has an entry twice. -/
inductive Good : EVal → Prop where
  | str (s : Str) : Good (.str s)
  | int (n : Int) : Good (.int n)
  | bool (b : Bool) : Good (.bool b)
  | strs (l : List Str) : Good (.strs l)
  | obj (m : List (Str × EVal)) : (m.map Prod.fst).Nodup → (∀ e ∈ m, Good e.2) → Good (.obj m)
  | objs (l : List (List (Str × EVal))) : (∀ m ∈ l, Good (.obj m)) → Good (.objs l)

theorem memberTexts_eq (m : List (Str × EVal)) : memberTexts m = m.map (fun e => (e.1, e.2.json)) := by
  induction m with
  | nil => rw [memberTexts]; rfl
  | cons e m ih =>
    obtain ⟨k, v⟩ := e
    rw [memberTexts, ih]; rfl

theorem objTexts_eq (l : List (List (Str × EVal))) : objTexts l = l.map (fun m => (EVal.obj m).json) := by
  induction l with
  | nil => rw [objTexts]; rfl
  | cons m l ih => rw [objTexts, ih, List.map_cons, EVal.json]

theorem reads_arrText (bs : List Bytes) (vs : List JVal) (h : AllReads bs vs) : Reads (arrText bs) (.arr vs) := Json.reads_arr bs vs h

theorem member_string (k : Str) (b : Bytes) (v : JVal) (h : Reads b v) : ReadsMember (Json.string k ++ 0x3A :: b) (cps k, v) :=
  ⟨Json.string k, b, rfl, Json.text_round_trip k, h⟩

/-- An object whose members have readable values. -/
theorem reads_members (l : List (Str × Bytes)) (g : Str × Bytes → JVal) (h : ∀ e ∈ l, Reads e.2 (g e)) :
    Reads (objText l) (.obj (l.map (fun e => (cps e.1, g e)))) :=
  Json.reads_obj _ _ (Json.allMembers_map _ _ l (fun e he => member_string e.1 e.2 (g e) (h e he)))

/-- Choosing a value for each member. -/
theorem choose_values {α : Type} (l : List α) (p : α → JVal → Prop) (h : ∀ a ∈ l, ∃ j, p a j) : ∃ g : α → JVal, ∀ a ∈ l, p a (g a) := by
  classical
  refine ⟨fun a => if ha : a ∈ l then Classical.choose (h a ha) else .null, fun a ha => ?_⟩
  show p a (if ha : a ∈ l then Classical.choose (h a ha) else .null)
  rw [dif_pos ha]
  exact Classical.choose_spec (h a ha)

theorem perm_value {m : List (Str × EVal)} (hn : (m.map Prod.fst).Nodup) (g : Str × EVal → JVal) :
    ∃ g' : Str × Bytes → JVal, ∀ e ∈ m, g' (e.1, e.2.json) = g e := by
  classical
  refine ⟨fun x => if h : ∃ e ∈ m, e.1 = x.1 then g (Classical.choose h) else .null, fun e he => ?_⟩
  have hex : ∃ e' ∈ m, e'.1 = e.1 := ⟨e, he, rfl⟩
  show (if h : ∃ e' ∈ m, e'.1 = e.1 then g (Classical.choose h) else .null) = g e
  rw [dif_pos hex]
  obtain ⟨h1, h2⟩ := Classical.choose_spec hex
  have : Classical.choose hex = e := by
    generalize Classical.choose hex = x at h1 h2
    clear hex
    induction m with
    | nil => cases he
    | cons y m ih =>
      rw [List.map_cons, List.nodup_cons] at hn
      rcases List.mem_cons.1 he with he' | he'
      · rcases List.mem_cons.1 h1 with h1' | h1'
        · rw [h1', he']
        · exact absurd (List.mem_map.2 ⟨x, h1', by rw [h2, he']⟩) hn.1
      · rcases List.mem_cons.1 h1 with h1' | h1'
        · exact absurd (List.mem_map.2 ⟨e, he', by rw [← h2, h1']⟩) hn.1
        · exact ih hn.2 he' h1'
  rw [this]

/-- The text of a value reads back as it. -/
theorem value_text {v : EVal} (h : Good v) : ∃ j, Reads v.json j ∧ Says v j := by
  induction h with
  | str s => exact ⟨_, by rw [EVal.json]; exact Json.reads_string s, .str s⟩
  | int n => exact ⟨_, by rw [EVal.json]; exact Json.reads_int n, .int n⟩
  | bool b => exact ⟨_, by rw [EVal.json]; exact Json.reads_bool b, .bool b⟩
  | strs l => exact ⟨_, by rw [EVal.json]; exact reads_arrText _ _ (Json.allReads_map _ _ l (fun s _ => Json.reads_string s)), .strs l⟩
  | obj m hn _ ih =>
    obtain ⟨g, hg⟩ := choose_values m (fun e j => Reads e.2.json j ∧ Says e.2 j) ih
    obtain ⟨g', hg'⟩ := perm_value hn g
    have hmem : ∀ x ∈ sortMembers (memberTexts m), ∃ e ∈ m, x = (e.1, e.2.json) := by
      intro x hx
      have := (sortMembers_perm _).mem_iff.1 hx
      rw [memberTexts_eq] at this
      obtain ⟨e, he, rfl⟩ := List.mem_map.1 this
      exact ⟨e, he, rfl⟩
    refine ⟨.obj ((sortMembers (memberTexts m)).map (fun e => (cps e.1, g' e))), ?_, ?_⟩
    · rw [EVal.json]
      refine reads_members _ g' (fun x hx => ?_)
      obtain ⟨e, he, rfl⟩ := hmem x hx
      rw [hg' e he]
      exact (hg e he).1
    · refine .obj m _ g (fun e he => (hg e he).2) ?_ ?_
      · refine ((sortMembers_perm _).map _).trans ?_
        rw [memberTexts_eq, List.map_map]
        refine .of_eq (List.map_congr_left (fun e he => ?_))
        simp only [Function.comp_apply, hg' e he]
      · rw [List.pairwise_map]
        refine (sort_sorted _ ?_).imp (fun h => h)
        rw [memberTexts_eq, List.map_map]
        exact hn
  | objs l _ ih =>
    obtain ⟨g, hg⟩ := choose_values l (fun m j => Reads (EVal.obj m).json j ∧ Says (.obj m) j) ih
    refine ⟨.arr (l.map g), ?_, .objs l g (fun m hm => (hg m hm).2)⟩
    rw [EVal.json, objTexts_eq]
    exact reads_arrText _ _ (Json.allReads_map _ _ l (fun m hm => (hg m hm).1))

/-! ### No control characters -/

/-- No control characters, in particular no line feed. -/
def Visible (b : Bytes) : Prop := ∀ c ∈ b, 32 ≤ c.toNat

theorem visible_append {a b : Bytes} (ha : Visible a) (hb : Visible b) : Visible (a ++ b) := by
  intro c hc
  rcases List.mem_append.1 hc with h | h
  · exact ha c h
  · exact hb c h

theorem visible_cons {a : UInt8} {b : Bytes} (ha : 32 ≤ a.toNat) (hb : Visible b) : Visible (a :: b) := by
  intro c hc
  rcases List.mem_cons.1 hc with rfl | h
  · exact ha
  · exact hb c h

theorem visible_commas (l : List Bytes) (h : ∀ b ∈ l, Visible b) : Visible (commas l) := by
  induction l with
  | nil => intro c hc; cases hc
  | cons b l ih =>
    cases l with
    | nil => exact h b List.mem_cons_self
    | cons d l =>
      rw [Json.commas_cons_cons]
      exact visible_append (h b List.mem_cons_self) (visible_cons (by decide) (ih (fun x hx => h x (List.mem_cons_of_mem _ hx))))

theorem visible_arr (l : List Bytes) (h : ∀ b ∈ l, Visible b) : Visible (arrText l) :=
  visible_append (visible_cons (by decide) (visible_commas l h)) (visible_cons (by decide) (fun c hc => (by cases hc)))

theorem visible_string (s : Str) : Visible (Json.string s) := Json.string_no_control _

theorem visible_obj (l : List (Str × Bytes)) (h : ∀ e ∈ l, Visible e.2) : Visible (objText l) := by
  refine visible_append (visible_cons (by decide) (visible_commas _ (fun b hb => ?_))) (visible_cons (by decide) (fun c hc => (by cases hc)))
  obtain ⟨e, he, rfl⟩ := List.mem_map.1 hb
  exact visible_append (visible_string e.1) (visible_cons (by decide) (h e he))

theorem visible_int (n : Int) : Visible (Json.int n) := by
  intro c hc
  obtain ⟨h1, _⟩ := Json.tx_plain _ (Json.plain_formatInt n) c hc
  have h2 := (Json.tx_plain _ (Json.plain_formatInt n) c hc).2
  unfold Json.plain at h2
  simp only [Bool.not_eq_true', Bool.or_eq_false_iff, decide_eq_false_iff_not] at h2
  omega

theorem visible_bool (b : Bool) : Visible (Json.bool b) := by
  intro c hc
  have hall : ∀ b, ∀ c ∈ Json.bool b, 32 ≤ c.toNat := by decide
  exact hall b c hc

theorem visible_value {v : EVal} (h : Good v) : Visible v.json := by
  induction h with
  | str s => rw [EVal.json]; exact visible_string s
  | int n => rw [EVal.json]; exact visible_int n
  | bool b => rw [EVal.json]; exact visible_bool b
  | strs l =>
    rw [EVal.json]
    refine visible_arr _ (fun b hb => ?_)
    obtain ⟨s, _, rfl⟩ := List.mem_map.1 hb
    exact visible_string s
  | obj m _ _ ih =>
    rw [EVal.json]
    refine visible_obj _ (fun x hx => ?_)
    have := (sortMembers_perm _).mem_iff.1 hx
    rw [memberTexts_eq] at this
    obtain ⟨e, he, rfl⟩ := List.mem_map.1 this
    exact ih e he
  | objs l _ ih =>
    rw [EVal.json, objTexts_eq]
    refine visible_arr _ (fun b hb => ?_)
    obtain ⟨m, hm, rfl⟩ := List.mem_map.1 hb
    exact ih m hm

/-! ### The document as a table -/

theorem _root_.Verif.Json.reads_null : Reads Json.tNull .null := by
  intro f rest hf _
  cases f with
  | zero => omega
  | succ f =>
    simp only [Json.tNull, List.cons_append, List.nil_append]
    unfold Json.readVal
    simp [Json.lit, Json.tNull]

theorem reads_unique {b : Bytes} {u v : JVal} (hu : Reads b u) (hv : Reads b v) : u = v := by
  have h1 := Json.read_of_reads hu
  rw [Json.read_of_reads hv] at h1
  exact (Option.some.inj h1).symm

theorem says_of_reads {v : EVal} (hv : Good v) {j : JVal} (h : Reads v.json j) : Says v j := by
  obtain ⟨j', h1, h2⟩ := value_text hv
  rw [reads_unique h h1]
  exact h2

/-- The text of an optional part. -/
def mapText : Option Data → Option Bytes
  | none => none
  | some m => if m = [] then none else some (EVal.obj m).json

/-- The parts of a document and their texts. -/
def table (d : Rec) : List (String × Option Bytes) :=
  [("@timestamp", some (Json.string d.ts)), ("agent", some (EVal.obj (present [("type", d.agentType), ("version", d.agentVersion)])).json),
   ("ecs", some (EVal.obj (present [("version", d.ecsVersion)])).json), ("event", some (textOfEvent d.event)), ("host", some (EVal.obj d.host).json),
   ("container", mapText d.container), ("orchestrator", mapText d.orchestrator), ("pod", mapText d.pod),
   ("service", if d.service = [] then none else some (EVal.objs d.service).json), ("file", mapText d.file), ("sf_file_action", mapText d.fileAction),
   ("network", mapText d.network), ("source", mapText d.source), ("destination", mapText d.destination), ("process", mapText d.process),
   ("user", mapText d.user), ("tags", if d.tags = [] then none else some (EVal.strs d.tags).json)]

/-- A row of the table as a field. -/
def row (x : String × Option Bytes) : List (Str × Bytes) := (x.2.map (fun b => (x.1.toList, b))).toList

theorem table_names (d : Rec) : (table d).map Prod.fst = partNames := rfl

theorem row_mapField (k : String) (m : Option Data) : mapField k m = row (k, mapText m) := by
  cases m with
  | none => rfl
  | some m =>
    unfold mapField row mapText
    dsimp only
    split <;> rfl

theorem present_agent (a b : Str) : objText (textField "type" a ++ textField "version" b) = (EVal.obj (present [("type", a), ("version", b)])).json := by
  have hk : keyBefore "version".toList "type".toList = false := by decide +kernel
  rw [EVal.json, memberTexts_eq]
  unfold textField present
  by_cases ha : a = [] <;> by_cases hb : b = []
  · rw [if_pos ha, if_pos hb]; simp only [ha, hb]; rfl
  · rw [if_pos ha, if_neg hb]
    simp only [ha, hb, List.filter, ne_eq, not_true, not_false_eq_true, decide_true, decide_false, List.map_cons, List.map_nil, EVal.json]
    rfl
  · rw [if_neg ha, if_pos hb]
    simp only [ha, hb, List.filter, ne_eq, not_true, not_false_eq_true, decide_true, decide_false, List.map_cons, List.map_nil, EVal.json]
    rfl
  · rw [if_neg ha, if_neg hb]
    simp only [ha, hb, List.filter, ne_eq, not_true, not_false_eq_true, decide_true, decide_false, List.map_cons, List.map_nil, EVal.json, sortMembers, List.foldr,
      insertMember, hk]
    rfl

theorem present_ecs (a : Str) : objText (textField "version" a) = (EVal.obj (present [("version", a)])).json := by
  rw [EVal.json, memberTexts_eq]
  unfold textField present
  by_cases ha : a = []
  · rw [if_pos ha]; simp only [ha]; rfl
  · rw [if_neg ha]
    simp only [ha, List.filter, ne_eq, not_true, not_false_eq_true, decide_true, decide_false, List.map_cons, List.map_nil, EVal.json]
    rfl

theorem recFields_table (d : Rec) : recFields d = (table d).flatMap row := by
  have h1 : ∀ (c : Prop) [Decidable c] (k : String) (b : Bytes), (if c then [] else [(k.toList, b)] : List (Str × Bytes)) = row (k, if c then none else some b) := by
    intro c _ k b
    by_cases hc : c
    · rw [if_pos hc, if_pos hc]; rfl
    · rw [if_neg hc, if_neg hc]; rfl
  unfold recFields table
  rw [present_agent, present_ecs]
  simp only [row_mapField]
  rw [h1 (d.service = []) "service", h1 (d.tags = []) "tags"]
  simp only [List.flatMap_cons, List.flatMap_nil, List.append_assoc, List.append_nil]
  rfl

/-- No part of the record has an entry twice. -/
structure GoodRec (d : Rec) : Prop where
  maps : ∀ o ∈ [d.event, some d.host, d.container, d.orchestrator, d.pod, d.file, d.fileAction, d.network, d.source, d.destination, d.process, d.user],
    ∀ m, o = some m → Good (.obj m)
  service : ∀ m ∈ d.service, Good (.obj m)

theorem good_present (l : List (String × Str)) (h : (l.map (fun e => e.1.toList)).Nodup) : Good (.obj (present l)) := by
  refine .obj _ ?_ ?_
  · unfold present
    rw [List.map_map]
    exact List.Sublist.nodup (List.Sublist.map _ List.filter_sublist) h
  · intro e he
    obtain ⟨x, _, rfl⟩ := List.mem_map.1 he
    exact .str _

theorem two_names (a b : Str) : (([("type", a), ("version", b)] : List (String × Str)).map (fun e => e.1.toList)).Nodup := by
  show (["type".toList, "version".toList] : List Str).Nodup
  decide +kernel
theorem one_name (a : Str) : (([("version", a)] : List (String × Str)).map (fun e => e.1.toList)).Nodup := by
  show (["version".toList] : List Str).Nodup
  decide +kernel

/-- The texts in the table can be read. -/
theorem table_reads (d : Rec) (hd : GoodRec d) : ∀ k b, (k, some b) ∈ table d → ∃ j, Reads b j := by
  have hval : ∀ v, Good v → ∃ j, Reads v.json j := fun v hv => ⟨_, (value_text hv).choose_spec.1⟩
  have hmap : ∀ o, (∀ m, o = some m → Good (.obj m)) → ∀ b, mapText o = some b → ∃ j, Reads b j := by
    intro o ho b hb
    cases o with
    | none => cases hb
    | some m =>
      unfold mapText at hb
      dsimp only at hb
      split at hb
      · cases hb
      · cases hb; exact hval _ (ho m rfl)
  intro k b hk
  unfold table at hk
  simp only [List.mem_cons, List.not_mem_nil, or_false, Prod.mk.injEq] at hk
  rcases hk with ⟨-, h⟩ | ⟨-, h⟩ | ⟨-, h⟩ | ⟨-, h⟩ | ⟨-, h⟩ | ⟨-, h⟩ | ⟨-, h⟩ | ⟨-, h⟩ | ⟨-, h⟩ | ⟨-, h⟩ | ⟨-, h⟩ | ⟨-, h⟩ | ⟨-, h⟩ | ⟨-, h⟩ | ⟨-, h⟩ | ⟨-, h⟩ | ⟨-, h⟩
  · cases h; exact ⟨_, Json.reads_string _⟩
  · cases h; exact hval _ (good_present _ (two_names _ _))
  · cases h; exact hval _ (good_present _ (one_name _))
  · cases h
    cases he : d.event with
    | none => exact ⟨.null, Json.reads_null⟩
    | some m => exact hval _ (hd.maps _ (by rw [← he]; simp) m rfl)
  · cases h; exact hval _ (hd.maps (some d.host) (by simp) _ rfl)
  · exact hmap _ (hd.maps _ (by simp)) b h.symm
  · exact hmap _ (hd.maps _ (by simp)) b h.symm
  · exact hmap _ (hd.maps _ (by simp)) b h.symm
  · by_cases hs : d.service = []
    · rw [if_pos hs] at h; cases h
    · rw [if_neg hs] at h; cases h; exact hval _ (.objs _ hd.service)
  · exact hmap _ (hd.maps _ (by simp)) b h.symm
  · exact hmap _ (hd.maps _ (by simp)) b h.symm
  · exact hmap _ (hd.maps _ (by simp)) b h.symm
  · exact hmap _ (hd.maps _ (by simp)) b h.symm
  · exact hmap _ (hd.maps _ (by simp)) b h.symm
  · exact hmap _ (hd.maps _ (by simp)) b h.symm
  · exact hmap _ (hd.maps _ (by simp)) b h.symm
  · by_cases hs : d.tags = []
    · rw [if_pos hs] at h; cases h
    · rw [if_neg hs] at h; cases h; exact hval _ (.strs _)

theorem names_distinct : (partNames.map (fun k => cps k.toList)).Nodup := by decide +kernel

theorem mem_row {d : Rec} {x : Str × Bytes} : x ∈ (table d).flatMap row ↔ ∃ k b, (k, some b) ∈ table d ∧ x = (k.toList, b) := by
  rw [List.mem_flatMap]
  constructor
  · rintro ⟨⟨k, o⟩, hy, hx⟩
    cases o with
    | none => cases hx
    | some b => exact ⟨k, b, hy, List.mem_singleton.1 hx⟩
  · rintro ⟨k, b, h1, rfl⟩
    exact ⟨_, h1, List.mem_singleton.2 rfl⟩

theorem table_unique {d : Rec} {k k' : String} {o o' : Option Bytes} (h : (k, o) ∈ table d) (h' : (k', o') ∈ table d) (e : cps k.toList = cps k'.toList) : k = k' ∧ o = o' := by
  have hn : ((table d).map (fun x => cps x.1.toList)).Nodup := by
    have : (table d).map (fun x => cps x.1.toList) = partNames.map (fun k => cps k.toList) := rfl
    rw [this]; exact names_distinct
  have : ∀ l : List (String × Option Bytes), (l.map (fun x => cps x.1.toList)).Nodup → ∀ x ∈ l, ∀ y ∈ l, cps x.1.toList = cps y.1.toList → x = y := by
    intro l
    induction l with
    | nil => intro _ x hx; cases hx
    | cons z l ih =>
      intro hn x hx y hy he
      rw [List.map_cons, List.nodup_cons] at hn
      rcases List.mem_cons.1 hx with hx' | hx'
      · rcases List.mem_cons.1 hy with hy' | hy'
        · rw [hx', hy']
        · exact absurd (List.mem_map.2 ⟨y, hy', by rw [← he, hx']⟩) hn.1
      · rcases List.mem_cons.1 hy with hy' | hy'
        · exact absurd (List.mem_map.2 ⟨x, hx', by rw [he, hy']⟩) hn.1
        · exact ih hn.2 x hx' y hy' he
  have := this _ hn _ h _ h' e
  exact ⟨congrArg Prod.fst this, congrArg Prod.snd this⟩

/-- **C81** The text of a record whose maps have no repeated names reads back as a document that shows the record. -/
theorem record_text (d : Rec) (hd : GoodRec d) : ∃ ms, Json.read (recText d) = some (.obj ms) ∧ ShowsRec d ms := by
  have hr : ∀ e ∈ recFields d, ∃ j, Reads e.2 j := by
    intro e he
    rw [recFields_table, mem_row] at he
    obtain ⟨k, b, h1, rfl⟩ := he
    exact table_reads d hd k b h1
  obtain ⟨g, hg⟩ := choose_values (recFields d) (fun e j => Reads e.2 j) hr
  refine ⟨(recFields d).map (fun e : Str × Bytes => (cps e.1, g e)), Json.read_of_reads (reads_members _ g hg), ?_⟩
  have mem : ∀ k v, Good v → (k, some v.json) ∈ table d → Member ((recFields d).map (fun e => (cps e.1, g e))) k v := by
    intro k v hv hk
    have hf : (k.toList, v.json) ∈ recFields d := by rw [recFields_table, mem_row]; exact ⟨k, _, hk, rfl⟩
    exact ⟨_, List.mem_map.2 ⟨_, hf, rfl⟩, says_of_reads hv (hg _ hf)⟩
  have nomem : ∀ k, (k, none) ∈ table d → NoMember ((recFields d).map (fun e => (cps e.1, g e))) k := by
    intro k hk j hj
    obtain ⟨x, hx, he⟩ := List.mem_map.1 hj
    rw [recFields_table, mem_row] at hx
    obtain ⟨k', b, h1, rfl⟩ := hx
    have := (table_unique h1 hk (congrArg Prod.fst he)).2
    cases this
  have part : ∀ k o, (k, mapText o) ∈ table d → (∀ m, o = some m → Good (.obj m)) → Part ((recFields d).map (fun e => (cps e.1, g e))) k o := by
    intro k o hk ho
    refine ⟨fun x hx hne => ?_, fun h => ?_⟩
    · subst hx
      unfold mapText at hk
      dsimp only at hk
      rw [if_neg hne] at hk
      exact mem k _ (ho x rfl) hk
    · refine nomem k ?_
      rcases h with rfl | rfl
      · exact hk
      · exact hk
  refine ⟨?_, ?_, ?_, ?_, ?_, ⟨?_, ?_⟩, ?_, ?_, ?_, ?_, ⟨?_, ?_⟩, ?_, ?_, ?_, ?_, ?_, ?_, ?_, ⟨?_, ?_⟩⟩
  · rw [List.map_map]
    have hsub : ∀ l : List (String × Option Bytes), (((l.flatMap row)).map (fun e => cps e.1)).Sublist (l.map (fun x => cps x.1.toList)) := by
      intro l
      induction l with
      | nil => exact .slnil
      | cons x l ih =>
        obtain ⟨k, o⟩ := x
        rw [List.flatMap_cons, List.map_append, List.map_cons]
        cases o with
        | none => exact List.Sublist.cons _ ih
        | some b => exact List.Sublist.cons_cons _ ih
    have := hsub (table d)
    rw [← recFields_table] at this
    exact List.Sublist.nodup this names_distinct
  · intro e he
    obtain ⟨x, hx, rfl⟩ := List.mem_map.1 he
    rw [recFields_table, mem_row] at hx
    obtain ⟨k, b, h1, rfl⟩ := hx
    exact ⟨k, by rw [← table_names d]; exact List.mem_map.2 ⟨_, h1, rfl⟩, rfl⟩
  · exact mem _ (.str d.ts) (.str _) (by rw [EVal.json]; simp [table])
  · exact mem _ _ (good_present _ (two_names _ _)) (by simp [table])
  · exact mem _ _ (good_present _ (one_name _)) (by simp [table])
  · intro x hx
    exact mem "event" _ (hd.maps _ (List.mem_cons_self) x hx) (by simp [table, hx, textOfEvent])
  · intro hn
    have hf : ("event".toList, Json.tNull) ∈ recFields d := by
      rw [recFields_table, mem_row]
      exact ⟨"event", _, by simp [table, hn, textOfEvent], rfl⟩
    refine List.mem_map.2 ⟨_, hf, ?_⟩
    rw [reads_unique (hg _ hf) Json.reads_null]
  · exact mem "host" _ (hd.maps (some d.host) (by simp) _ rfl) (by simp [table])
  · exact part _ _ (by simp [table]) (hd.maps _ (by simp))
  · exact part _ _ (by simp [table]) (hd.maps _ (by simp))
  · exact part _ _ (by simp [table]) (hd.maps _ (by simp))
  · intro hs
    exact mem "service" _ (.objs _ hd.service) (by simp [table, hs])
  · intro hs
    exact nomem "service" (by simp [table, hs])
  · exact part _ _ (by simp [table]) (hd.maps _ (by simp))
  · exact part _ _ (by simp [table]) (hd.maps _ (by simp))
  · exact part _ _ (by simp [table]) (hd.maps _ (by simp))
  · exact part _ _ (by simp [table]) (hd.maps _ (by simp))
  · exact part _ _ (by simp [table]) (hd.maps _ (by simp))
  · exact part _ _ (by simp [table]) (hd.maps _ (by simp))
  · exact part _ _ (by simp [table]) (hd.maps _ (by simp))
  · intro hs
    exact mem "tags" _ (.strs _) (by simp [table, hs])
  · intro hs
    exact nomem "tags" (by simp [table, hs])

end Verif.Ecs

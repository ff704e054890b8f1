import Verif.Falco.EndToEnd
import Verif.Flattener.Stream
/-
C72: from a stream of SysFlow records and Falco policy texts to alerts. What the engine decides about an event depends only on the
values of the event's fields, and these are given by the stream (C71).
-/
namespace Verif.Falco
open Verif.Decimal (Str)
open Verif.FlatRecord
open Verif.Policy
open Verif.Flattener (FLib Known Shows fields eventsAfter)
open Verif.Processor (Rec HCall)

/-! ### Conditions depend only on fields -/

/-- The exported fields of a record have the values of the table. -/
def ShowsTable (L : Lib) (fr : FlatRec) (tab : List (Str × FVal)) : Prop :=
  exportedMappers.map (fun e => (e.name, mapAttr L getMappers e.name fr)) = tab

/-- Every field that is not exported is a constant or another name of an exported one. -/
theorem nonExported_known : ∀ e ∈ nonExportedMappers, (∃ x ∈ exportedMappers, x.map = e.2) ∨ e.2 = .consts [">".toList, "<".toList] := by
  decide +kernel

theorem map_inj_mem {α β : Type} {f g : α → β} : ∀ {l : List α}, l.map f = l.map g → ∀ x ∈ l, f x = g x
  | [], _, _, h => by cases h
  | a :: l, h, x, hx => by
    rw [List.map_cons, List.map_cons, List.cons.injEq] at h
    rcases List.mem_cons.mp hx with rfl | hx
    · exact h.1
    · exact map_inj_mem h.2 x hx

/-- Records with the same exported fields have the same value for every attribute name. -/
theorem same_attrs {L : Lib} {tab : List (Str × FVal)} {fr fr' : FlatRec} (h : ShowsTable L fr tab) (h' : ShowsTable L fr' tab) (attr : Str) :
    mapAttr L getMappers attr fr = mapAttr L getMappers attr fr' := by
  have hx : ∀ e ∈ exportedMappers, e.map.run L fr = e.map.run L fr' := by
    intro e he
    have := map_inj_mem (h.trans h'.symm) e he
    simp only [Prod.mk.injEq, true_and] at this
    unfold mapAttr at this
    rw [field_table_sound.1 e he] at this
    exact this
  unfold mapAttr
  cases hm : getMappers.get attr with
  | none => rfl
  | some m =>
    have hmem := get_some_mem _ _ _ hm
    unfold getMappers at hmem
    rcases List.mem_append.mp hmem with hm | hm
    · obtain ⟨e, he, h⟩ := List.mem_map.mp hm
      cases h
      exact hx e he
    · rcases nonExported_known _ (List.mem_filter.mp hm).1 with ⟨e, he, h⟩ | h
      · show m.run L fr = m.run L fr'
        have h : e.map = m := h
        rw [← h]
        exact hx e he
      · have h : m = _ := h
        rw [h]
        rfl

theorem same_text {L : Lib} {tab : List (Str × FVal)} {fr fr' : FlatRec} (h : ShowsTable L fr tab) (h' : ShowsTable L fr' tab) (attr : Str) :
    mapStr? L getMappers attr fr = mapStr? L getMappers attr fr' := by
  have e := same_attrs h h'
  unfold mapStr?
  cases cut attr with
  | none => simp only [e]
  | some bp => simp only [e]

theorem same_int {L : Lib} {tab : List (Str × FVal)} {fr fr' : FlatRec} (h : ShowsTable L fr tab) (h' : ShowsTable L fr' tab) (attr : Str) :
    mapInt L getMappers attr fr = mapInt L getMappers attr fr' := by
  unfold mapInt
  rw [same_attrs h h']

/-- Two records on which every elementary test agrees. -/
structure Agree {R : Type} (ops : Operations R) (r r' : R) : Prop where
  exist : ∀ a, (ops.exist a).eval r = (ops.exist a).eval r'
  compare : ∀ l x op, (ops.compare l x op).eval r = (ops.compare l x op).eval r'
  foldAny : ∀ l vs op, (ops.foldAny l vs op).eval r = (ops.foldAny l vs op).eval r'

theorem Agree.symm {R : Type} {ops : Operations R} {r r' : R} (h : Agree ops r r') : Agree ops r' r :=
  ⟨fun a => (h.exist a).symm, fun l x op => (h.compare l x op).symm, fun l x op => (h.foldAny l x op).symm⟩

mutual
theorem termVal_agree {R : Type} {ops : Operations R} {env : Env} {r r' : R} (h : Agree ops r r') :
    ∀ {t : Term} {b : Bool}, TermVal ops env r t b → TermVal ops env r' t b
  | _, _, .mac id e b h1 h2 => .mac id e b h1 (exprVal_agree h h2)
  | _, _, .undefined id h1 => .undefined id h1
  | _, _, .not t b h1 => .not t b (termVal_agree h h1)
  | _, _, .exist a b h1 => .exist a b ((h.exist a).symm.trans h1)
  | _, _, .cmp op l x b h1 => .cmp op l x b (by
      refine h1.trans ?_
      cases op <;> (unfold CmpHolds; dsimp only; rw [h.compare]))
  | _, _, .isIn l args vs b h1 h2 => .isIn l args vs b h1 ((h.foldAny l vs .Eq).symm.trans h2)
  | _, _, .pmatch l args vs b h1 h2 => .pmatch l args vs b h1 ((h.foldAny l vs .Contains).symm.trans h2)
  | _, _, .paren e b h1 => .paren e b (exprVal_agree h h1)
theorem exprVal_agree {R : Type} {ops : Operations R} {env : Env} {r r' : R} (h : Agree ops r r') :
    ∀ {e : Expr} {b : Bool}, ExprVal ops env r e b → ExprVal ops env r' e b
  | _, _, .holds e c h1 h2 => .holds e c h1 (fun t ht => termVal_agree h (h2 t ht))
  | _, _, .fails e w h1 h2 => .fails e w h1 (fun c hc => termVal_agree h (h2 c hc))
end

theorem table_agree {L : Lib} {tab : List (Str × FVal)} {r r' : Record} (h : ShowsTable L r.fr tab) (h' : ShowsTable L r'.fr tab) :
    Agree (flatOps L getMappers) r r' := by
  have et : ∀ a, mapStr L getMappers a r.fr = mapStr L getMappers a r'.fr := fun a => by unfold mapStr; rw [same_text h h']
  have ei : ∀ a, mapInt L getMappers a r.fr = mapInt L getMappers a r'.fr := same_int h h'
  have ea : ∀ a, mapAttr L getMappers a r.fr = mapAttr L getMappers a r'.fr := same_attrs h h'
  refine ⟨fun a => ?_, fun l x op => ?_, fun l vs op => ?_⟩
  · simp only [flatOps, existsC, Criterion.eval, ea]
  · simp only [flatOps, compareC, compareStrC, compareIntC, Criterion.eval]
    cases op <;> simp only [et, ei]
  · simp only [flatOps, foldAnyC, Criterion.eval, et]

/-! ### Specification: what the policies say about an event with given field values -/

/-- The rule applies to events whose fields have the values of the table. -/
def AppliesTo (L : Lib) (tab : List (Str × FVal)) (x : RuleDecl × Env) : Prop := ∃ r : Record, ShowsTable L r.fr tab ∧ Applies L r x

/-- Some enabled filter is true of events whose fields have the values of the table. -/
def FilteredTo (L : Lib) (tab : List (Str × FVal)) (dss : List (List Decl)) : Prop := ∃ r : Record, ShowsTable L r.fr tab ∧ FilteredOut L r dss

theorem applies_iff {L : Lib} {tab : List (Str × FVal)} {r : Record} (h : ShowsTable L r.fr tab) (x : RuleDecl × Env) : Applies L r x ↔ AppliesTo L tab x := by
  refine ⟨fun ha => ⟨r, h, ha⟩, ?_⟩
  rintro ⟨r', h', h1, h2, h3⟩
  refine ⟨h1, ?_, exprVal_agree (table_agree h' h) h3⟩
  unfold mapStr at h2 ⊢
  rw [same_text h h']
  exact h2

theorem filtered_iff {L : Lib} {tab : List (Str × FVal)} {r : Record} (h : ShowsTable L r.fr tab) (dss : List (List Decl)) :
    FilteredOut L r dss ↔ FilteredTo L tab dss := by
  refine ⟨fun ha => ⟨r, h, ha⟩, ?_⟩
  rintro ⟨r', h', x, h1, h2, h3⟩
  exact ⟨x, h1, h2, exprVal_agree (table_agree h' h) h3⟩

/-- An action that neither changes telemetry nor the attached rules. -/
def Benign (bi us : Engine.ActionMap Record) : Prop :=
  ∀ a f, (bi a = some f ∨ us a = some f) → ∀ r, (f r).1.fr = r.fr ∧ (f r).1.ctx.getRules = r.ctx.getRules

open Classical in
/-- What the policies say about an event with the given field values: the rules attached and whether it is passed on. -/
noncomputable def verdict (L : Lib) (dss : List (List Decl)) (tab : List (Str × FVal)) : List RuleInfo :=
  if FilteredTo L tab dss then [] else (((sites dss).filterMap asRule).filter (fun x => decide (AppliesTo L tab x))).map (fun x => infoOf x.1)

/-! ## C72 -/

open Classical in
/-- **C72** From a stream of SysFlow records and policy texts to alerts: the texts compile, the stream gives one record per event, in order, and
the engine attaches to the record of each event exactly the rules that the policies' text says of the field values the stream gives
that event; in alert mode the record is passed on, once, exactly when some rule is attached. -/
theorem stream_and_policies_to_alerts (L : Lib) (F : FLib) {str : Str → Option Nat} (hs : StrRule str) (texts : List Str) (dss : List (List Decl))
    (ht : List.Forall₂ (fun s ds => GPolicy (ltokens str s) ds) texts dss)
    (hc : ∀ x ∈ sites dss, ∀ e, siteCond x = some e → ¬ Cyclic x.2 e)
    (fuel : Nat) (rs : List Rec) (s : Processor.State) (cs : List HCall) (h : Processor.run false fuel .init rs = some (s, cs))
    (ttl : Int) (k : Nat) (xs : List Flattener.Timed) (hx : xs.map (·.call) = cs) :
    ∃ n rules filters recs, compile (flatOps L getMappers) n (texts.map (fileOf str)) = some (some (rules, filters)) ∧
      (Flattener.handles F (Flattener.init false ttl k) xs).outs = List.replicate k recs ∧
      List.Forall₂ (fun (x : List Rec × Rec) fr => ∃ c, Known x.1 x.2 c ∧ ∀ bi us, Benign bi us →
        let out := (flatInterp L false rules filters bi us true).work (newRecord fr)
        out.1.ctx.getRules = verdict L dss (fields L F c x.2) ∧
        Engine.outs out.2 = if verdict L dss (fields L F c x.2) = [] then [] else [out.1]) (eventsAfter [] rs) recs := by
  obtain ⟨n, rules, filters, hcomp, hwork⟩ := policy_texts_to_alerts L hs texts dss ht hc
  obtain ⟨recs, hrecs, hshow⟩ := Flattener.stream_to_fields L F fuel rs s cs h ttl k xs hx
  refine ⟨n, rules, filters, recs, hcomp, hrecs, hshow.imp ?_⟩
  rintro x fr ⟨c, hk, htab⟩
  refine ⟨c, hk, fun bi us hb => ?_⟩
  intro out
  have htab : ShowsTable L (newRecord fr).fr (fields L F c x.2) := htab
  obtain ⟨h1, h2⟩ := hwork false true bi us (fun a f hf r => (hb a f hf r).1) (fun a f hf r => (hb a f hf r).2) (newRecord fr)
  have e0 : (newRecord fr).ctx.getRules = [] := rfl
  have hv : out.1.ctx.getRules = verdict L dss (fields L F c x.2) := by
    refine h1.trans ?_
    rw [e0, List.nil_append]
    unfold verdict
    by_cases hf : FilteredTo L (fields L F c x.2) dss
    · rw [if_pos hf, if_pos ((filtered_iff htab dss).mpr hf)]
    · rw [if_neg hf, if_neg (fun h => hf ((filtered_iff htab dss).mp h))]
      congr 1
      exact List.filter_congr (fun y _ => decide_eq_decide.mpr (applies_iff htab y))
  refine ⟨hv, ?_⟩
  refine (h2 rfl).trans ?_
  unfold verdict
  by_cases hf : FilteredTo L (fields L F c x.2) dss
  · rw [if_pos ((filtered_iff htab dss).mpr hf), if_pos hf, if_pos rfl]
  · rw [if_neg (fun h => hf ((filtered_iff htab dss).mp h)), if_neg hf]
    by_cases hex : ∃ y ∈ (sites dss).filterMap asRule, AppliesTo L (fields L F c x.2) y
    · obtain ⟨y, hy, ha⟩ := hex
      rw [if_pos (Or.inr ⟨y, hy, (applies_iff htab y).mpr ha⟩), if_neg]
      intro hnil
      rw [List.map_eq_nil_iff, List.filter_eq_nil_iff] at hnil
      exact hnil y hy (decide_eq_true ha)
    · rw [if_neg (by
        rintro (h | ⟨y, hy, ha⟩)
        · cases h
        · exact hex ⟨y, hy, (applies_iff htab y).mp ha⟩), if_pos]
      rw [List.map_eq_nil_iff, List.filter_eq_nil_iff]
      intro y hy ha
      exact hex ⟨y, hy, of_decide_eq_true ha⟩

/-! ### Example

The hypotheses on the policies are met by the example at the end of `Verif.Falco.EndToEnd`, those on the stream by the one at the end of
`Verif.Flattener.Stream`. A rule about the executable applies to the second event of that stream, after the process has replaced its
executable. -/

def demoLsRule : RuleDecl := { name := "ls".toList, desc := "d".toList, cond := [[.binop .eq "sf.proc.exe".toList "/bin/ls".toList]] }

theorem demo_ls_applies (L : Lib) (F : FLib) (env : Env) (c : Processor.Ctx) (hk : Known (Processor.demoStream.take 7) (.procEvt (Processor.demoPE 2)) c) (r : Record)
    (hr : ShowsTable L r.fr (fields L F c (.procEvt (Processor.demoPE 2)))) : Applies L r (demoLsRule, env) := by
  refine ⟨rfl, .inl (by show (infoOf demoLsRule).prefilter = []; decide +kernel), ?_⟩
  refine .holds _ [.binop .eq "sf.proc.exe".toList "/bin/ls".toList] List.mem_cons_self (fun t ht => ?_)
  rw [List.mem_singleton] at ht
  subst ht
  refine .cmp _ _ _ _ ⟨fun _ => ?_, fun _ => rfl⟩
  have hp : c.proc = some (Processor.withCont (Cache.demoProc .modified 2 (some 1) "/bin/ls")) := by rw [hk.proc]; decide
  have hv : mapAttr L getMappers "sf.proc.exe".toList r.fr = .str "/bin/ls".toList := by
    have h1 : (fields L F c (.procEvt (Processor.demoPE 2)))[8]? = some ("sf.proc.exe".toList, .str "/bin/ls".toList) := by
      unfold fields
      rw [hp]
      rfl
    rw [← hr, List.getElem?_map] at h1
    have h2 : exportedMappers[8]? = some ⟨"sf.proc.exe".toList, .str .PROC_EXE_STR, .str .PROC_EXE_STR, .MapStrVal, .SectProc⟩ := rfl
    rw [h2, Option.map_some, Option.some.injEq, Prod.mk.injEq] at h1
    exact h1.2
  have ht1 : mapStr L getMappers "sf.proc.exe".toList r.fr = "/bin/ls".toList := by
    unfold mapStr mapStr?
    rw [(cut_none_iff _).mpr (by decide +kernel)]
    dsimp only
    rw [hv]
    decide +kernel
  have ht2 : mapStr L getMappers "/bin/ls".toList r.fr = "/bin/ls".toList := by
    unfold mapStr mapStr?
    rw [(cut_none_iff _).mpr (by decide +kernel)]
    dsimp only
    have : mapAttr L getMappers "/bin/ls".toList r.fr = .str "/bin/ls".toList := by
      have : getMappers.get "/bin/ls".toList = none := by decide +kernel
      unfold mapAttr
      rw [this]
    rw [this]
    decide +kernel
  show compareVals _ (mapStr L getMappers "sf.proc.exe".toList r.fr) (mapStr L getMappers "/bin/ls".toList r.fr) = true
  rw [ht1, ht2, compareVals_iff]
  have hcomp : Strings.IsComponent ',' "/bin/ls".toList "/bin/ls".toList := ⟨by decide +kernel, [], [], by simp, .inl rfl, .inl rfl⟩
  exact ⟨_, _, hcomp, hcomp, rfl⟩

end Verif.Falco

import Verif.Whole.Ecs
/-
C97: what an ECS document says about matching rules.
Sources: /repo/core/exporter/encoders/ecs.go:136-160, 497-527, /repo/core/policyengine/source/flatrecord/record.go:200-263, /repo/core/policyengine/engine/interpreter.go:155-184
-/
namespace Verif.Whole
open Verif.Decimal (Str)
open Verif.Exporter (Bytes)
open Verif.FlatRecord
open Verif.Policy
open Verif.Falco
open Verif.SysFlow
open Verif.Processor (Rec HCall)
open Verif.Flattener (FLib Known fields eventsAfter Stores StoresEvent)
open Verif.Pipeline
open Verif.Pipeline.Drain (Net emitted driven Exec Waited)
open Verif.Ecs (EVal Member NoMember)

variable {P : Type}

/-! ### Specification -/

/-- The member `k` of a JSON object. -/
def jmember (k : String) : Json.JVal → Option Json.JVal
  | .obj ms => (ms.find? (fun e => e.1 == Json.cps k.toList)).map (·.2)
  | _ => none

/-- The member `k` of the member `event` of the document that a text holds. -/
def eventMember (text : Bytes) (k : String) : Option Json.JVal := ((Json.read text).bind (jmember "event")).bind (jmember k)

/-- In the document the text holds, entry `k` of the member `event` says `v`. -/
def EventEntry (text : Bytes) (k : String) (v : EVal) : Prop := ∃ j, eventMember text k = some j ∧ Ecs.Says v j

/-- The text holds a document with these tags (no member `tags` if there are none). -/
def TagsAre (text : Bytes) (ts : List Str) : Prop :=
  ∃ d, Json.read text = some d ∧ (ts ≠ [] → ∃ j, jmember "tags" d = some j ∧ Ecs.Says (.strs ts) j) ∧ (ts = [] → jmember "tags" d = none)

/-- The rules that matched an event, by `V`. -/
def Matched (S : Setup P) (V : List (Str × FVal) → List RuleInfo) (x : Event) (rs : List RuleInfo) : Prop :=
  ∃ c, Known x.1 x.2 c ∧ rs = V (fields S.L S.F c x.2)

/-! ### Proofs -/

theorem find_key {ms : List (List Nat × Json.JVal)} (hn : (ms.map Prod.fst).Nodup) {k : List Nat} {j : Json.JVal} (h : (k, j) ∈ ms) :
    (ms.find? (fun e => e.1 == k)).map (·.2) = some j := by
  induction ms with
  | nil => cases h
  | cons e ms ih =>
    rw [List.map_cons, List.nodup_cons] at hn
    rw [List.find?_cons]
    rcases List.mem_cons.1 h with rfl | h
    · rw [show ((k, j).1 == k) = true from beq_self_eq_true k]; rfl
    · have : e.1 ≠ k := fun he => hn.1 (List.mem_map.2 ⟨_, h, he.symm⟩)
      rw [show (e.1 == k) = false from beq_eq_false_iff_ne.2 this]
      exact ih hn.2 h

theorem find_no_key {ms : List (List Nat × Json.JVal)} {k : List Nat} (h : ∀ j, (k, j) ∉ ms) : (ms.find? (fun e => e.1 == k)).map (·.2) = none := by
  rw [Option.map_eq_none_iff, List.find?_eq_none]
  rintro ⟨k', j⟩ hm he
  have : k' = k := beq_iff_eq.1 he
  subst this
  exact h j hm

theorem event_no_reason (L : Ecs.ELib) (r : Record) (a b c : Str) (n : Nat) (h : r.ctx.getRules = []) :
    Json.cps "reason".toList ∉ ((Ecs.Spec.event L r a b c n).map Prod.fst).map Json.cps ∧ Json.cps "severity".toList ∉ ((Ecs.Spec.event L r a b c n).map Prod.fst).map Json.cps := by
  unfold Ecs.Spec.event
  rw [if_neg (c := r.ctx.getRules ≠ []) (fun hn => hn h), List.append_nil]
  split <;> split <;> split <;> constructor <;>
    simp only [List.map_append, List.map_cons, List.map_nil, List.append_nil] <;> decide

/-- **C97** What the document of an event says, if actions set no marks and no tags: with rules `rs` matching, the reason lists their names, the severity is the greatest of their priorities (at least Low), and the tags are
theirs, in order; without, there is no reason, no severity and no tag. And in every case the event is of kind `event`. -/
theorem ecs_marks_partial (S : Setup P) (E : EcsSide S) (V : List (Str × FVal) → List RuleInfo) (hq : Quiet S.builtIn S.user) {x : Event} {id text : Bytes} (h : DocWith S E V x id text) :
    ∃ rs, Matched S V x rs ∧
      (rs = [] → eventMember text "reason" = none ∧ eventMember text "severity" = none) ∧
      (rs ≠ [] → EventEntry text "reason" (.str (List.intercalate ", ".toList (rs.map (·.name)))) ∧ ∃ n, Ecs.Spec.IsSeverity rs n ∧ EventEntry text "severity" (.int n)) ∧
      TagsAre text (rs.flatMap (fun r => r.tags.flatten)) ∧
      eventMember text "kind" = some (.str (Json.cps "event".toList)) := by
  obtain ⟨c, r, d, ms, hk, -, -, -, hr, hu, hknown, hdoc, -, hread, hshow, -⟩ := h
  obtain ⟨hal, htag⟩ := hu hq
  obtain ⟨ca, ty, ac, n, -, hsev, m, hm, hent⟩ := hdoc.event hknown
  obtain ⟨j, hj, hsays⟩ := hshow.event.1 m hm
  cases hsays with
  | obj _ ms' g h1 h2 h3 =>
  have hp : (ms'.map Prod.fst).Nodup := by
    rw [List.nodup_iff_pairwise_ne, List.pairwise_map]
    refine h3.imp ?_
    intro a b hab he
    rw [he] at hab
    exact absurd hab (List.lt_irrefl _)
  have hn : (m.map Prod.fst).Nodup := by
    have : (m.map (fun e => Json.cps e.1)).Nodup := by
      have := (h2.map Prod.fst).nodup_iff.1 hp
      rwa [List.map_map] at this
    rw [show (fun e : Str × EVal => Json.cps e.1) = Json.cps ∘ Prod.fst from rfl, ← List.map_map] at this
    exact List.Nodup.of_map _ this
  have hmem : ∀ k v, (k, v) ∈ m ↔ (k, v) ∈ Ecs.Spec.event E.lib r ca ty ac n := fun k v => by rw [← Ecs.get_mem hn, hent]
  have hevent : ∀ k, eventMember text k = jmember k (.obj ms') := by
    intro k
    unfold eventMember
    rw [hread]
    change ((ms.find? (fun e => e.1 == Json.cps "event".toList)).map (·.2)).bind (jmember k) = _
    rw [find_key hshow.once hj]
    rfl
  have entry : ∀ k v, (String.toList k, v) ∈ Ecs.Spec.event E.lib r ca ty ac n → EventEntry text k v := by
    intro k v hkv
    have hkv := (hmem _ _).2 hkv
    refine ⟨g (k.toList, v), ?_, h1 _ hkv⟩
    rw [hevent]
    exact find_key hp (h2.mem_iff.2 (List.mem_map.2 ⟨_, hkv, rfl⟩))
  have noentry : ∀ k : String, (∀ e ∈ Ecs.Spec.event E.lib r ca ty ac n, Json.cps e.1 ≠ Json.cps k.toList) → eventMember text k = none := by
    intro k hk
    rw [hevent]
    refine find_no_key (fun j hj => ?_)
    obtain ⟨e, he, heq⟩ := List.mem_map.1 (h2.mem_iff.1 hj)
    exact hk e ((hmem _ _).1 he) (congrArg Prod.fst heq)
  refine ⟨r.ctx.getRules, ⟨c, hk, hr⟩, ?_, ?_, ?_, ?_⟩
  · intro he
    obtain ⟨h1', h2'⟩ := event_no_reason E.lib r ca ty ac n he
    exact ⟨noentry _ (fun e he hc => h1' (List.mem_map.2 ⟨_, List.mem_map.2 ⟨e, he, rfl⟩, hc⟩)), noentry _ (fun e he hc => h2' (List.mem_map.2 ⟨_, List.mem_map.2 ⟨e, he, rfl⟩, hc⟩))⟩
  · intro hne
    have hin : ∀ e ∈ [("reason".toList, EVal.str (List.intercalate ", ".toList (r.ctx.getRules.map (·.name)))), ("severity".toList, EVal.int n)], e ∈ Ecs.Spec.event E.lib r ca ty ac n := by
      intro e he
      unfold Ecs.Spec.event
      rw [if_pos hne]
      exact List.mem_append_right _ he
    exact ⟨entry "reason" _ (hin _ List.mem_cons_self), n, hsev, entry "severity" _ (hin _ (List.mem_cons_of_mem _ List.mem_cons_self))⟩
  · have ht := hdoc.tags
    rw [htag, List.nil_append] at ht
    rw [← ht]
    refine ⟨_, hread, fun hne => ?_, fun he => find_no_key (hshow.tags.2 he)⟩
    obtain ⟨j', t1, t2⟩ := hshow.tags.1 hne
    exact ⟨j', find_key hshow.once t1, t2⟩
  · have hkind : EventEntry text "kind" (.str "event".toList) := by
      refine entry "kind" _ ?_
      unfold Ecs.Spec.event
      rw [hal]
      refine List.mem_append_left _ (List.mem_append_left _ (List.mem_append_left _ ?_))
      simp
    obtain ⟨j', k1, k2⟩ := hkind
    cases k2
    exact k1

/-- An event has one set of matching rules. -/
theorem matched_unique (S : Setup P) (V : List (Str × FVal) → List RuleInfo) {x : Event} {rs rs' : List RuleInfo} (h : Matched S V x rs) (h' : Matched S V x rs') : rs = rs' := by
  obtain ⟨c, hk, rfl⟩ := h
  obtain ⟨c', hk', rfl⟩ := h'
  rw [Flattener.known_unique hk hk']

/-- A line of a complete log belongs to an event. -/
theorem line_of_complete (S : Setup P) (Want : P → Event → Prop) (Line : P → Event → Bytes → Prop) {evs : List Event} {log : Bytes} (h : Complete S Want Line evs log) :
    ∀ line ∈ Exporter.linesOf [] log, ∃ p, ∃ x ∈ evs, Want p x ∧ Line p x line := by
  classical
  intro line hl
  obtain ⟨ss, -, h2, -, h3, h4⟩ := h
  rw [h3] at hl
  obtain ⟨g, hg, hlg⟩ := List.mem_flatMap.1 hl
  obtain ⟨picked, p1, -, p3⟩ := h4 g hg
  have : ∃ x ∈ picked, Line g.pol x line := by
    clear p1
    generalize g.lines = ls at p3 hlg
    induction p3 with
    | nil => cases hlg
    | cons h1 _ ih =>
      rcases List.mem_cons.1 hlg with rfl | hm
      · exact ⟨_, List.mem_cons_self, h1⟩
      · obtain ⟨x, i1, i2⟩ := ih hm
        exact ⟨x, List.mem_cons_of_mem _ i1, i2⟩
  obtain ⟨x, hx, hxl⟩ := this
  have := List.mem_filter.1 (p1.mem_iff.1 hx)
  exact ⟨g.pol, x, by rw [← h2]; exact List.mem_flatMap.2 ⟨g, hg, this.1⟩, by simpa using this.2, hxl⟩

/-- A line for every event wanted, if all policy sets say the same. -/
theorem complete_has_line (S : Setup P) (Want : P → Event → Prop) (Line : P → Event → Bytes → Prop) {evs : List Event} {log : Bytes} (h : Complete S Want Line evs log)
    {x : Event} (hx : x ∈ evs) (hall : ∀ p, Want p x) : ∃ p, ∃ line ∈ Exporter.linesOf [] log, Line p x line := by
  classical
  obtain ⟨ss, -, h2, -, h3, h4⟩ := h
  rw [← h2] at hx
  obtain ⟨g, hg, hxg⟩ := List.mem_flatMap.1 hx
  obtain ⟨picked, p1, -, p3⟩ := h4 g hg
  have hxp : x ∈ picked := p1.mem_iff.2 (List.mem_filter.2 ⟨hxg, by simpa using hall g.pol⟩)
  have : ∃ line ∈ g.lines, Line g.pol x line := by
    clear p1
    generalize g.lines = ls at p3
    induction p3 with
    | nil => cases hxp
    | cons h1 _ ih =>
      rcases List.mem_cons.1 hxp with rfl | hm
      · exact ⟨_, List.mem_cons_self, h1⟩
      · obtain ⟨l, i1, i2⟩ := ih hm
        exact ⟨l, List.mem_cons_of_mem _ i1, i2⟩
  obtain ⟨l, l1, l2⟩ := this
  exact ⟨g.pol, l, by rw [h3]; exact List.mem_flatMap.2 ⟨g, hg, l1⟩, l2⟩

/-! ## C97 -/

/-- **C97** Of the whole program: if actions set no marks, no line of the log calls its event an alert, whatever the policies, the stream and the schedule: every one says `event`. -/
theorem ecs_log_never_says_alert (S : Setup P) (E : EcsSide S) (dss : P → List (List Decl)) (ok : S.Core dss) (hn : KindNames S.L) (hdedup : S.dedup = false) (hq : Quiet S.builtIn S.user)
    (rs : List Rec) (rd : Processor.State) (cs : List HCall) (hrun : Processor.run false S.fuel .init rs = some (rd, cs))
    (tr : List (Drain.Obs Msg)) (s : Drain.St E.fileNet) (h : Exec E.fileNet tr s) (hw : Waited s) (hd : driven tr = rs.map Msg.sf) :
    ∀ line ∈ Exporter.linesOf [] (E.log s), eventMember line "kind" = some (.str (Json.cps "event".toList)) := by
  intro line hl
  obtain ⟨p, x, -, -, id, hx⟩ := line_of_complete S _ _ (whole_program_ecs S E dss ok hn hdedup rs rd cs hrun tr s h hw hd) line hl
  obtain ⟨rs', -, -, -, -, hk⟩ := ecs_marks_partial S E _ hq hx
  exact hk

/-- **C97** So the kind does not tell events that rules matched from others, as it should: there is a program, and for every number of workers a run of it, with a line in the log for an event that a rule
matched, whose document has the rule's name as reason and yet is of kind `event`. -/
theorem ecs_alert_not_marked (n : Nat) (hn : 0 < n) : ∃ code tr, ∃ s : Drain.St (demoEcs n code).fileNet, Exec (demoEcs n code).fileNet tr s ∧ Waited s ∧
    driven tr = Processor.demoStream.map Msg.sf ∧ ∃ line ∈ Exporter.linesOf [] ((demoEcs n code).log s), ∃ x ∈ eventsAfter [] Processor.demoStream,
      (∃ rs, Matched (demoSetup n code) (verdict demoLib [lsDecls]) x rs ∧ rs ≠ []) ∧
      (∃ j, eventMember line "reason" = some j) ∧ eventMember line "kind" = some (.str (Json.cps "event".toList)) := by
  obtain ⟨code, ok⟩ := demo_ok n hn
  obtain ⟨hT, hC⟩ := netWith_ok (demoSetup n code) (Exporter.allOrNone (demoEcs n code).toFile) (Exporter.fileTransport (fun _ => none)) Exporter.newFile ok.workers ok.cap
  obtain ⟨tr, s, he, hw, hd⟩ := Drain.complete_run_exists hT hC (Processor.demoStream.map Msg.sf) (show 9 ≤ 9 by decide)
  have h : (Processor.run false 10 .init Processor.demoStream).isSome = true := by decide
  obtain ⟨⟨rd, cs⟩, h⟩ := Option.isSome_iff_exists.mp h
  have hcomp := whole_program_ecs (demoSetup n code) (demoEcs n code) _ ok.toCore demo_names rfl Processor.demoStream rd cs h tr s he hw hd
  have hx : (Processor.demoStream.take 7, Rec.procEvt (Processor.demoPE 2)) ∈ eventsAfter [] Processor.demoStream := List.mem_cons_of_mem _ List.mem_cons_self
  have hlog := demo_logged (demoSetup n code) rfl rfl
  obtain ⟨p, line, l1, id, l2⟩ := complete_has_line (demoSetup n code) _ _ hcomp hx (fun _ => hlog)
  have hq : Quiet (demoSetup n code).builtIn (demoSetup n code).user := by
    intro a f hf
    rcases hf with hf | hf <;> cases hf
  obtain ⟨rs, m1, -, m3, -, m5⟩ := ecs_marks_partial (demoSetup n code) (demoEcs n code) _ hq l2
  have hne : rs ≠ [] := by
    obtain ⟨c, hk, hv⟩ := m1
    obtain ⟨c', hk', hf, ha⟩ := hlog
    rw [Flattener.known_unique hk' hk] at hf ha
    rcases ha with ha | ⟨y, hy, hay⟩
    · cases ha
    · rw [hv]
      unfold verdict
      rw [if_neg hf]
      intro hnil
      rw [List.map_eq_nil_iff, List.filter_eq_nil_iff] at hnil
      exact hnil y hy (by simpa using hay)
  obtain ⟨⟨j, r1, -⟩, -⟩ := m3 hne
  exact ⟨code, tr, s, he, hw, hd, line, l1, _, hx, ⟨rs, m1, hne⟩, ⟨j, r1⟩, m5⟩

end Verif.Whole

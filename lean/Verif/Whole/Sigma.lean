import Verif.Sigma.Alerts
import Verif.Whole.Ecs
import Verif.Whole.FileRun
/-
C89: the whole program with Sigma policies.
Sources: those of Whole/Program.lean; /repo/core/policyengine/policy/sigma/compiler.go:63-298.
-/
namespace Verif.Whole
open Verif.Decimal (Str)
open Verif.Exporter (Bytes)
open Verif.FlatRecord
open Verif.Policy
open Verif.Falco (ShowsTable table_agree Benign)
open Verif.Sigma (RuleFile ConfigFile FieldMappings SigmaRule Supported Configures)
open Verif.Processor (Rec HCall demoStream demoPE)
open Verif.Flattener (FLib Known fields eventsAfter Stores StoresEvent)
open Verif.Pipeline
open Verif.Pipeline.Process
open Verif.Pipeline.Drain (Net emitted driven Exec Waited)

variable {P : Type}

/-! ### Specification -/

/-- The Sigma policies of a policy set: rule files and the field mappings of the configuration. -/
structure SigmaPolicy where
  files : List RuleFile
  mappings : FieldMappings

/-- The condition is true of events whose fields have the values of the table. -/
def SigmaHolds (L : Lib) (Q : SigmaPolicy) (tab : List (Str × FVal)) (x : Sigma.Site) : Prop := ∃ r : Record, ShowsTable L r.fr tab ∧ Sigma.Applies L Q.mappings r x

open Classical in
/-- What the policies say about an event with the given field values: for every condition that is true of it, its rule's id, description, level and tags. -/
noncomputable def sigmaVerdict (L : Lib) (Q : SigmaPolicy) (tab : List (Str × FVal)) : List RuleInfo :=
  ((Sigma.sites Q.files).filter (fun x => decide (SigmaHolds L Q tab x))).map (fun x => Sigma.infoOf L.toCaseLib x.1)

/-- The event is one the log must show: some condition is true of it, or the engine is in enrich mode. -/
def SigmaLogged (S : Setup P) (Q : SigmaPolicy) (x : Event) : Prop :=
  ∃ c, Known x.1 x.2 c ∧ (S.enrich = true ∨ ∃ y ∈ Sigma.sites Q.files, SigmaHolds S.L Q (fields S.L S.F c x.2) y)

/-- The parameters are as `Init` leaves them with Sigma policies: every policy set has compiled, and what it compiles to is what the engine executes (search names are the keys of a map, so distinct); actions leave telemetry and rules alone; at least one worker; room in the channels. -/
structure Setup.SigmaOk (S : Setup P) (Q : P → SigmaPolicy) (cfg : P → ConfigFile) : Prop where
  config : ∀ p, Configures (cfg p) (Q p).mappings
  names : ∀ p r, RuleFile.ok r ∈ (Q p).files → (r.searches.map (·.1)).Nodup
  compiled : ∀ p, Sigma.compile S.L.toCaseLib (flatOps S.L getMappers) Sigma.pathMatch (Q p).files (cfg p) = some (some (S.code p).1)
  noFilters : ∀ p, (S.code p).2 = []
  benign : Benign S.builtIn S.user
  workers : 0 < S.workers
  cap : 0 < S.cap

/-- A log is complete for the events `evs` under Sigma policies (see `Complete`). -/
def SigmaComplete (S : Setup P) (Q : P → SigmaPolicy) (Line : SigmaPolicy → Event → Bytes → Prop) (evs : List Event) (log : Bytes) : Prop :=
  Complete S (fun p => SigmaLogged S (Q p)) (fun p => Line (Q p)) evs log

/-! ### Proofs -/

theorem sigma_applies_iff {L : Lib} {Q : SigmaPolicy} {tab : List (Str × FVal)} {r : Record} (h : ShowsTable L r.fr tab) (x : Sigma.Site) :
    Sigma.Applies L Q.mappings r x ↔ SigmaHolds L Q tab x := by
  refine ⟨fun ha => ⟨r, h, ha⟩, ?_⟩
  rintro ⟨r', h', ha⟩
  have hag := table_agree h h'
  have : (fun s => Sigma.SearchHolds (flatOps L getMappers) Q.mappings s r) = (fun s => Sigma.SearchHolds (flatOps L getMappers) Q.mappings s r') := by
    funext s
    simp only [Sigma.SearchHolds, Sigma.MatcherHolds, Sigma.ValueHolds, Sigma.Compares, hag.compare]
  unfold Sigma.Applies at ha ⊢
  rw [this]
  exact ha

theorem sigma_step (S : Setup P) (Q : P → SigmaPolicy) (cfg : P → ConfigFile) (ok : S.SigmaOk Q cfg) (p : P) (x : Event) (fr : FlatRec) (h : StoresEvent S.F x fr) :
    (¬ SigmaLogged S (Q p) x → S.proc p (.flat fr) = none) ∧
    (SigmaLogged S (Q p) x → ∃ m, S.proc p (.flat fr) = some m ∧ AlertWith S (sigmaVerdict S.L (Q p)) x m) := by
  have hwork := Sigma.sigma_compiled_to_alerts S.L (Q p).files (cfg p) (Q p).mappings (ok.config p) (ok.names p) (S.code p).1 (ok.compiled p)
  have hcode : S.code p = ((S.code p).1, []) := by rw [← ok.noFilters p]
  generalize (S.code p).1 = rules at hwork hcode
  obtain ⟨hev, c, hk, hst⟩ := h
  have htab : ShowsTable S.L (newRecord fr).fr (fields S.L S.F c x.2) := Flattener.fields_read S.L S.F c x.2 hev fr hst
  obtain ⟨h1, h2⟩ := hwork S.enrich true S.builtIn S.user ok.benign (newRecord fr)
  have hkeep := work_keeps S.L S.enrich rules [] S.builtIn S.user true (fun a f hf r => (ok.benign a f hf r).1) (newRecord fr)
  have hum := work_unmarked S rules [] fr
  have hproc : S.proc p (.flat fr) = (Engine.outs ((flatInterp S.L S.enrich rules [] S.builtIn S.user true).work (newRecord fr)).2).head?.map Msg.alert := by
    unfold Setup.proc
    rw [hcode]
  generalize (flatInterp S.L S.enrich rules [] S.builtIn S.user true).work (newRecord fr) = out at h1 h2 hkeep hum hproc
  have h2 := h2 rfl
  have happ : (∃ y ∈ Sigma.sites (Q p).files, Sigma.Applies S.L (Q p).mappings (newRecord fr) y) ↔
      ∃ y ∈ Sigma.sites (Q p).files, SigmaHolds S.L (Q p) (fields S.L S.F c x.2) y :=
    exists_congr fun y => and_congr_right fun _ => sigma_applies_iff htab y
  have hlog : SigmaLogged S (Q p) x ↔ (S.enrich = true ∨ ∃ y ∈ Sigma.sites (Q p).files, SigmaHolds S.L (Q p) (fields S.L S.F c x.2) y) := by
    constructor
    · rintro ⟨c', hk', hp⟩
      rw [Flattener.known_unique hk' hk] at hp
      exact hp
    · exact fun hp => ⟨c, hk, hp⟩
  have hrules : out.1.ctx.getRules = sigmaVerdict S.L (Q p) (fields S.L S.F c x.2) := by
    refine h1.trans ?_
    rw [show (newRecord fr).ctx.getRules = [] from rfl, List.nil_append]
    unfold sigmaVerdict
    congr 1
    exact List.filter_congr (fun y _ => decide_eq_decide.mpr (sigma_applies_iff htab y))
  rw [hlog, hproc]
  by_cases ha : S.enrich = true ∨ ∃ y ∈ Sigma.sites (Q p).files, SigmaHolds S.L (Q p) (fields S.L S.F c x.2) y
  · rw [if_pos (ha.imp id happ.mpr)] at h2
    rw [h2]
    refine ⟨fun h => absurd ha h, fun _ => ⟨_, rfl, c, out.1, rfl, hk, ?_, ?_, hrules, hum⟩⟩
    · rw [hkeep]; exact hst
    · rw [hkeep]; exact htab
  · rw [if_neg (fun h => ha (h.imp id happ.mp))] at h2
    rw [h2]
    exact ⟨fun _ => rfl, fun h => absurd h ha⟩

/-! ## C89 -/

/-- The line of an event under Sigma policies, in JSON. -/
def SigmaLine (S : Setup P) (Q : SigmaPolicy) : Event → Bytes → Prop := LineWith S (sigmaVerdict S.L Q)

/-- **C89** The whole program with Sigma policies and the JSON encoder: when `Wait` returns, the log is complete for the events of the stream: one line for each event of which some
condition of the policies in force is true (for every event, in enrich mode), carrying the rules of exactly these conditions, and nothing else. -/
theorem sigma_program (S : Setup P) (Q : P → SigmaPolicy) (cfg : P → ConfigFile) (ok : S.SigmaOk Q cfg) (hlib : Json.Spec.LibOk S.L) (hver : Json.Spec.VersionOk S.version)
    (hdedup : S.dedup = false) (rs : List Rec) (rd : Processor.State) (cs : List HCall) (hrun : Processor.run false S.fuel .init rs = some (rd, cs))
    (tr : List (Drain.Obs Msg)) (s : Drain.St S.net) (h : Exec S.net tr s) (hw : Waited s) (hd : driven tr = rs.map Msg.sf) :
    SigmaComplete S Q (SigmaLine S) (eventsAfter [] rs) (S.log s) := by
  obtain ⟨h1, h2⟩ := reader_all S hdedup rs rd cs hrun
  exact log_complete_as S ok.workers ok.cap _ _ (sigma_step S Q cfg ok) S.enc _ (fun p x m hev ha => json_lines_with S hlib hver _ x m hev ha)
    tr s h hw _ _ (by rw [hd]; exact h1) h2

/-- **C89** The same with the duplicate filter: the log is complete for the events that survive it. -/
theorem sigma_program_dedup (S : Setup P) (Q : P → SigmaPolicy) (cfg : P → ConfigFile) (ok : S.SigmaOk Q cfg) (hlib : Json.Spec.LibOk S.L) (hver : Json.Spec.VersionOk S.version)
    (hdedup : S.dedup = true) (hclock : Instants S.clock) (rs : List Rec) (rd : Processor.State) (cs : List HCall) (hrun : Processor.run false S.fuel .init rs = some (rd, cs))
    (tr : List (Drain.Obs Msg)) (s : Drain.St S.net) (h : Exec S.net tr s) (hw : Waited s) (hd : driven tr = rs.map Msg.sf) :
    ∃ kept, Survivors S.F S.ttl (fun i => S.clock i 0) (eventsAfter [] rs) kept ∧ SigmaComplete S Q (SigmaLine S) kept (S.log s) := by
  obtain ⟨kept, frs, h1, h2, h3⟩ := reader_survivors S hdedup hclock rs rd cs hrun
  exact ⟨kept, h3, log_complete_as S ok.workers ok.cap _ _ (sigma_step S Q cfg ok) S.enc _ (fun p x m hev ha => json_lines_with S hlib hver _ x m hev ha)
    tr s h hw _ _ (by rw [hd]; exact h1) h2⟩

/-- **C89** The same with the ECS encoder. -/
theorem sigma_program_ecs (S : Setup P) (E : EcsSide S) (Q : P → SigmaPolicy) (cfg : P → ConfigFile) (ok : S.SigmaOk Q cfg) (hn : KindNames S.L) (hdedup : S.dedup = false)
    (rs : List Rec) (rd : Processor.State) (cs : List HCall) (hrun : Processor.run false S.fuel .init rs = some (rd, cs))
    (tr : List (Drain.Obs Msg)) (s : Drain.St E.fileNet) (h : Exec E.fileNet tr s) (hw : Waited s) (hd : driven tr = rs.map Msg.sf) :
    SigmaComplete S Q (fun q x line => ∃ id, DocWith S E (sigmaVerdict S.L q) x id line) (eventsAfter [] rs) (E.log s) := by
  obtain ⟨h1, h2⟩ := reader_all S hdedup rs rd cs hrun
  refine log_complete_as S ok.workers ok.cap _ _ (sigma_step S Q cfg ok) E.toFile _ ?_ tr s h hw _ _ (by rw [hd]; exact h1) h2
  intro p x m hev ha
  obtain ⟨d, d1, d2⟩ := alert_doc_with S E hn _ x m hev ha
  refine ⟨.obj (Ecs.recText d), by unfold EcsSide.toFile; rw [d1]; rfl, ⟨_, d2⟩, fun hc => ?_⟩
  obtain ⟨_, _, _, _, _, _, _, _, _, _, _, _, _, _, _, hv⟩ := d2
  exact absurd (hv _ hc) (by decide)

/-- **C89** Run on a list of SysFlow files that can all be opened: once `Run` has returned, it has returned no error, and the log is complete for a prefix of the records of the
files — for all of them if no stop was requested. -/
theorem sigma_file_run (S : Setup P) (Q : P → SigmaPolicy) (cfg : P → ConfigFile) (ok : S.SigmaOk Q cfg) (hlib : Json.Spec.LibOk S.L) (hver : Json.Spec.VersionOk S.version)
    (hdedup : S.dedup = false) (run : Nat → Bool) (hrun : StaysStopped run) (fs : List (FileData Rec))
    (hopen : ∀ f ∈ fs, f ≠ .noOpen) (hret : ∃ r, Processor.run false S.fuel .init (recordsIn fs) = some r)
    {tr : List (Drain.Obs Msg)} {s : PSt Rec S.net} (hx : PExec Msg.sf S.net (fileDriver run (some fs)) tr s) {e : Bool} (he : s.status = some e) :
    e = false ∧ ∃ rs, rs <+: recordsIn fs ∧ ((∀ k, run k = true) → rs = recordsIn fs) ∧ SigmaComplete S Q (SigmaLine S) (eventsAfter [] rs) (S.log s.net) := by
  obtain ⟨body, h1, h2, h3, _, _⟩ := file_driver_delivers run hrun fs hopen
  have ho : Orderly (fileDriver run (some fs)) body := ⟨h1, h2⟩
  have hs := sent_body ho
  obtain ⟨ys, hys⟩ := h3
  obtain ⟨r, hret⟩ := hret
  have hp : ∃ r', Processor.run false S.fuel .init (Pipeline.sent (fileDriver run (some fs))) = some r' := by
    rw [hs]
    refine run_prefix false S.fuel _ ys .init r ?_
    rw [hys]; exact hret
  obtain ⟨hT, hC⟩ := net_ok S ok.workers ok.cap
  obtain ⟨g1, g2, g3, g4⟩ := run_returned hT hC ho hx he
  obtain ⟨⟨rd, cs⟩, hr⟩ := hp
  refine ⟨g1, _, ?_, ?_, sigma_program S Q cfg ok hlib hver hdedup _ rd cs hr tr s.net g2 g3 g4⟩
  · rw [hs]; exact ⟨ys, hys⟩
  · intro hall
    have : run = fun _ => true := funext hall
    subst this
    exact file_driver_all fs hopen

/-! ### A concrete case -/

/-- A rule on the executable, named through a field mapping; its condition names the search by a pattern. -/
def lsSigma : SigmaRule where
  id := "ls".toList
  description := "d".toList
  level := "High".toList
  tags := ["t".toList]
  conditions := [.oneOfPattern "sel*".toList]
  searches := [("selection".toList, { matchers := [[{ field := "Image".toList, modifiers := ["endswith".toList], values := ["/bin/ls".toList] }]] })]

def lsPolicy : SigmaPolicy := ⟨[.unparsable, .ok lsSigma], [("Image".toList, ["sf.proc.exe".toList])]⟩

theorem lsSigma_supported : Supported lsPolicy.mappings lsSigma := by
  refine ⟨by decide, ?_⟩
  intro n s hm _ em hem m hmm _
  obtain ⟨-, rfl⟩ := Prod.mk.inj (List.mem_singleton.1 (show (n, s) ∈ [("selection".toList, _)] from hm))
  rw [List.mem_singleton.1 hem, List.mem_singleton] at hmm
  rw [hmm]
  exact ⟨by decide, by decide, by decide +kernel⟩

theorem ls_holds (L : Lib) (F : FLib) (c : Processor.Ctx) (hk : Known (demoStream.take 7) (.procEvt (demoPE 2)) c) (r : Record)
    (hr : ShowsTable L r.fr (fields L F c (.procEvt (demoPE 2)))) : Sigma.Applies L lsPolicy.mappings r (lsSigma, .oneOfPattern "sel*".toList) := by
  have hp : c.proc = some (Processor.withCont (Cache.demoProc .modified 2 (some 1) "/bin/ls")) := by rw [hk.proc]; decide
  have hv : mapAttr L getMappers "sf.proc.exe".toList r.fr = .str "/bin/ls".toList := by
    have h1 : (fields L F c (.procEvt (demoPE 2)))[8]? = some ("sf.proc.exe".toList, .str "/bin/ls".toList) := by
      unfold fields
      rw [hp]
      rfl
    rw [← hr, List.getElem?_map] at h1
    have h2 : exportedMappers[8]? = some ⟨"sf.proc.exe".toList, .str .PROC_EXE_STR, .str .PROC_EXE_STR, .MapStrVal, .SectProc⟩ := rfl
    rw [h2, Option.map_some, Option.some.injEq, Prod.mk.injEq] at h1
    exact h1.2
  have ht1 : mapStr L getMappers "sf.proc.exe".toList r.fr = "/bin/ls".toList := by
    unfold mapStr mapStr?
    rw [(cut_none_iff _).mpr (by decide +kernel)]
    dsimp only
    rw [hv]
    decide +kernel
  have ht2 : mapStr L getMappers "/bin/ls".toList r.fr = "/bin/ls".toList := by
    unfold mapStr mapStr?
    rw [(cut_none_iff _).mpr (by decide +kernel)]
    dsimp only
    have : mapAttr L getMappers "/bin/ls".toList r.fr = .str "/bin/ls".toList := by
      have : getMappers.get "/bin/ls".toList = none := by decide +kernel
      unfold mapAttr
      rw [this]
    rw [this]
    decide +kernel
  unfold Sigma.Applies Sigma.Holds
  refine ⟨"selection".toList, _, List.mem_cons_self, by decide +kernel, rfl, ?_⟩
  intro em hem m hm
  rw [List.mem_singleton.1 hem, List.mem_singleton] at hm
  subst hm
  unfold Sigma.MatcherHolds
  rw [if_neg (by decide)]
  refine ⟨"/bin/ls".toList, List.mem_singleton.2 rfl, "/bin/ls".toList, "sf.proc.exe".toList, .plain (by decide), .inr ⟨[], by decide +kernel⟩,
    fun h => absurd rfl (h _ (List.mem_singleton.2 rfl) ("endswith".toList, .IEndswith) (by decide)), fun m hm op hop => ?_⟩
  rw [List.mem_singleton.1 hm] at hop
  have hop : op = .IEndswith := Option.some.inj (((Sigma.comparatorOf_iff _ _).2 hop).symm.trans (by decide))
  subst hop
  show compareVals _ (mapStr L getMappers "sf.proc.exe".toList r.fr) (mapStr L getMappers "/bin/ls".toList r.fr) = true
  rw [ht1, ht2, compareVals_iff]
  have hcomp : Strings.IsComponent ',' "/bin/ls".toList "/bin/ls".toList := ⟨by decide +kernel, [], [], by simp, .inl rfl, .inl rfl⟩
  exact ⟨_, _, hcomp, hcomp, List.suffix_refl _⟩

/-- The program of the example with this policy. -/
def sigmaSetup (n : Nat) (rules : List (Rule Record)) : Setup Unit := demoSetup n (rules, [])

theorem sigma_demo_ok (n : Nat) (hn : 0 < n) : ∃ rules, (sigmaSetup n rules).SigmaOk (fun _ => lsPolicy) (fun _ => .ok lsPolicy.mappings) := by
  have hs : ∀ r, RuleFile.ok r ∈ lsPolicy.files → Supported lsPolicy.mappings r := by
    intro r hr
    have : r = lsSigma := by
      rcases List.mem_cons.1 hr with h | h
      · cases h
      · exact RuleFile.ok.inj (List.mem_singleton.1 h)
    rw [this]; exact lsSigma_supported
  have hr : RuleFile.unreadable ∉ lsPolicy.files := by
    intro h
    rcases List.mem_cons.1 h with h | h
    · cases h
    · cases List.mem_singleton.1 h
  obtain ⟨rules, hcomp, _⟩ := Sigma.sigma_files_to_alerts demoLib lsPolicy.files (.ok lsPolicy.mappings) lsPolicy.mappings hr (.inr rfl) hs
  refine ⟨rules, fun _ => .inr rfl, fun _ r hr' => (hs r hr').names, fun _ => hcomp, fun _ => rfl, ?_, hn, (show 0 < 9 by decide)⟩
  intro a f hf
  rcases hf with hf | hf <;> cases hf

/-- The event after the process has become `/bin/ls` is to be logged. -/
theorem sigma_demo_logged (S : Setup Unit) :
    SigmaLogged S lsPolicy (demoStream.take 7, .procEvt (demoPE 2)) := by
  have h : (Processor.run false 10 .init demoStream).isSome = true := by decide
  obtain ⟨⟨s, cs⟩, h⟩ := Option.isSome_iff_exists.mp h
  have hst := Flattener.calls_store S.F 10 demoStream [] .init s [] cs rfl h
  have hev : eventsAfter [] demoStream = [(demoStream.take 5, .procEvt (demoPE 2)), (demoStream.take 7, .procEvt (demoPE 2)), (demoStream.take 8, .procEvt (demoPE 5))] := rfl
  rw [hev] at hst
  generalize cs.filterMap (Flattener.recOf S.F) = frs at hst
  cases hst with
  | cons _ hst =>
    cases hst with
    | cons h2 _ =>
      obtain ⟨hev, c, hk, hs⟩ := h2
      have htab := Flattener.fields_read S.L S.F c _ hev _ hs
      exact ⟨c, hk, .inr ⟨(lsSigma, .oneOfPattern "sel*".toList), List.mem_singleton.2 rfl, newRecord _, htab, ls_holds S.L S.F c hk (newRecord _) htab⟩⟩

open Classical in
/-- The program runs on the files of C78 to the end, with any number of workers; the log is complete, and the event above is one of those to be logged. -/
example (n : Nat) (hn : 0 < n) : ∃ rules tr, ∃ s : PSt Rec (sigmaSetup n rules).net, PExec Msg.sf (sigmaSetup n rules).net (fileDriver (fun _ => true) (some demoFiles)) tr s ∧
    s.status = some false ∧ SigmaComplete (sigmaSetup n rules) (fun _ => lsPolicy) (SigmaLine (sigmaSetup n rules)) (eventsAfter [] demoStream) ((sigmaSetup n rules).log s.net) ∧
    (demoStream.take 7, Rec.procEvt (demoPE 2)) ∈ (eventsAfter [] demoStream).filter (fun x => decide (SigmaLogged (sigmaSetup n rules) lsPolicy x)) := by
  obtain ⟨rules, ok⟩ := sigma_demo_ok n hn
  obtain ⟨hT, hC⟩ := net_ok (sigmaSetup n rules) ok.workers ok.cap
  have hopen : ∀ f ∈ demoFiles, f ≠ .noOpen := by
    intro f hf
    rcases List.mem_cons.1 hf with rfl | hf
    · intro h; cases h
    · rw [List.mem_singleton.1 hf]; intro h; cases h
  have hst : StaysStopped (fun _ => true) := fun _ h => h
  obtain ⟨body, h1, h2, _⟩ := file_driver_delivers (fun _ => true) hst demoFiles hopen
  obtain ⟨tr, s, hx, he⟩ := complete_run hT hC ⟨h1, h2⟩ Msg.sf
  have h : (Processor.run false 10 .init demoStream).isSome = true := by decide
  obtain ⟨-, rs, -, hall, hlog⟩ := sigma_file_run (sigmaSetup n rules) _ _ ok Json.demo_ok Json.demo_version rfl (fun _ => true) hst demoFiles hopen
    (by rw [demoFiles_records]; exact Option.isSome_iff_exists.mp h) hx he
  have hrs : rs = demoStream := (hall (fun _ => rfl)).trans demoFiles_records
  subst hrs
  refine ⟨rules, tr, s, hx, he, hlog, ?_⟩
  rw [List.mem_filter]
  exact ⟨List.mem_cons_of_mem _ List.mem_cons_self, by simpa using sigma_demo_logged _⟩

end Verif.Whole

import Verif.Whole.Otel
import Verif.Pipeline.Moment
/-
C85: runs of the OpenTelemetry program with its drivers; what is there at every moment; concrete runs.
Sources: /repo/driver/otel/{filedriver,kafkadriver}.go, /repo/driver/pipeline/pipeline.go:135-294
-/
namespace Verif.OtelRun
open Verif.Decimal (Str)
open Verif.Exporter (Bytes)
open Verif.Policy
open Verif.Otel
open Verif.Falco (Decl RuleDecl GPolicy LTok ltokens StrRule Cyclic MentionsE sites asRule siteCond simpleStr simple_rule)
open Verif.Pipeline
open Verif.Pipeline.Process
open Verif.Pipeline.Drain (Net Comp engine exporter chain driven Exec Waited)

variable {P : Type}

/-! ### At every moment -/

theorem kafkaExport_grows (ok : Nat → Bool) (ds : List Exporter.Datum) : ∀ x : List Bytes × Nat, x.1 <+: (Exporter.kafkaExport ok x ds).1 := by
  induction ds with
  | nil => intro x; exact List.prefix_rfl
  | cons d ds ih =>
    intro x
    cases d with
    | bytes b =>
      unfold Exporter.kafkaExport
      refine List.IsPrefix.trans ?_ (ih _)
      split
      · exact ⟨[b], rfl⟩
      · exact List.prefix_rfl
    | obj j => unfold Exporter.kafkaExport; exact ih x
    | odd p => unfold Exporter.kafkaExport; exact ih x

/-- **C85** At every moment of every run: the messages handed to the producer are the first of a sequence that is complete for the records delivered so far. -/
theorem otel_messages_at_every_moment (S : Setup P) (dss : P → List (List Decl)) (ok : S.Ok dss)
    {tr : List (Drain.Obs ResourceLogs)} {s : Drain.St S.kafkaNet} (h : Exec S.kafkaNet tr s) (hg : ∀ rl ∈ driven tr, Given rl) :
    ∃ all, CompleteFor S dss (driven tr) all ∧ S.messages s <+: all := by
  obtain ⟨hT, hC⟩ := netWith_ok S (Exporter.kafka (fun _ => true)) ([], 0) ok.workers ok.cap
  have hgrow := Drain.growing_at (N := S.kafkaNet) 1 (fun t => (show Exporter.State (List Bytes × Nat) ResourceLogs Exporter.Datum × Bool from t).1.tr.1)
    (fun s m t a hst => Drain.exporter_growing (Exporter.perRecord S.enc) (Exporter.kafka (fun _ => true)) S.buffer ([], 0) S.start (fun x => x.1)
      (fun x ds => kafkaExport_grows _ ds x) s m t a hst)
  obtain ⟨tr', s', h1, h2, h3, h4⟩ := Drain.completes_growing hT hC S.messages hgrow h
  refine ⟨S.messages s', ?_, h4⟩
  rw [← h3]
  exact whole_program_otel S dss ok tr' s' h1 h2 (by rw [h3]; exact hg)

/-! ### With the Kafka driver -/

/-- **C85** The program with the Kafka driver, whatever messages it reads: `Run` can return only with an error, after the records of the messages before the first that cannot be read or
decoded; at every moment the messages produced are the first of a sequence complete for some of these records, from the first one on; and once every stage has returned, should the process live that
long, they are complete for all of these records. -/
theorem otel_kafka_run (S : Setup P) (dss : P → List (List Decl)) (ok : S.Ok dss) (ms : List (KMsg ResourceLogs)) (hg : ∀ rl ∈ kafkaRecords ms, Given rl)
    {tr : List (Drain.Obs ResourceLogs)} {s : PSt ResourceLogs S.kafkaNet} (h : PExec id S.kafkaNet (kafkaDriver ms) tr s) :
    (∀ e, s.status = some e → e = true) ∧
    (∃ rls all, rls <+: kafkaRecords ms ∧ (s.status ≠ none → rls = kafkaRecords ms) ∧ CompleteFor S dss rls all ∧ S.messages s.net <+: all) ∧
    (Waited s.net → CompleteFor S dss (kafkaRecords ms) (S.messages s.net)) := by
  obtain ⟨hT, hC⟩ := netWith_ok S (Exporter.kafka (fun _ => true)) ([], 0) ok.workers ok.cap
  obtain ⟨done, hI⟩ := pinv hT hC h
  have hprog := hI.split
  rw [kafka_driver_delivers] at hprog
  have hsent : sent (kafkaDriver ms) = kafkaRecords ms := by
    rw [kafka_driver_delivers]
    generalize kafkaRecords ms = rs
    induction rs with
    | nil => rfl
    | cons r rs ih => rw [List.map_cons, List.cons_append, sent_send, ih]
  have hdr : driven tr = sent done := by rw [hI.sentOk, List.map_id]
  have hpre : sent done ++ sent s.todo = kafkaRecords ms := by rw [← sent_append, ← hI.split, hsent]
  have hgd : ∀ rl ∈ driven tr, Given rl := fun rl hrl => hg rl (by rw [← hpre, ← hdr]; exact List.mem_append_left _ hrl)
  have hclose : .close ∈ done → driven tr = kafkaRecords ms := by
    intro hc
    have hsplit : ∀ (rs : List ResourceLogs) (done : List (DAct ResourceLogs)) (todo : List (DAct ResourceLogs)),
        rs.map DAct.send ++ [.close, .ret true] = done ++ todo → .close ∈ done → sent done = rs := by
      intro rs
      induction rs with
      | nil =>
        intro done todo he hm
        cases done with
        | nil => cases hm
        | cons a done =>
          rw [List.map_nil, List.nil_append, List.cons_append] at he
          obtain ⟨rfl, he2⟩ := List.cons.inj he
          rw [sent_close]
          cases done with
          | nil => rfl
          | cons b done =>
            obtain ⟨rfl, he3⟩ := List.cons.inj he2
            have := (List.append_eq_nil_iff.1 he3.symm).1
            subst this
            rfl
      | cons r rs ih =>
        intro done todo he hm
        cases done with
        | nil => cases hm
        | cons a done =>
          rw [List.map_cons, List.cons_append, List.cons_append] at he
          obtain ⟨rfl, he2⟩ := List.cons.inj he
          rw [sent_send, ih done todo he2 (by simpa using hm)]
    rw [hdr]
    exact hsplit _ _ _ hprog hc
  have hret : ∀ e, .ret e ∈ done → e = true ∧ .close ∈ done := by
    intro e he
    have hsplit : ∀ (rs : List ResourceLogs) (done : List (DAct ResourceLogs)) (todo : List (DAct ResourceLogs)),
        rs.map DAct.send ++ [.close, .ret true] = done ++ todo → .ret e ∈ done → e = true ∧ .close ∈ done := by
      intro rs
      induction rs with
      | nil =>
        intro done todo he hm
        cases done with
        | nil => cases hm
        | cons a done =>
          rw [List.map_nil, List.nil_append, List.cons_append] at he
          obtain ⟨rfl, he2⟩ := List.cons.inj he
          cases done with
          | nil => simp at hm
          | cons b done =>
            obtain ⟨rfl, he3⟩ := List.cons.inj he2
            have := (List.append_eq_nil_iff.1 he3.symm).1
            subst this
            simp at hm
            simp [hm]
      | cons r rs ih =>
        intro done todo he hm
        cases done with
        | nil => cases hm
        | cons a done =>
          rw [List.map_cons, List.cons_append, List.cons_append] at he
          obtain ⟨rfl, he2⟩ := List.cons.inj he
          obtain ⟨i1, i2⟩ := ih done todo he2 (by simpa using hm)
          exact ⟨i1, by simp [i2]⟩
    exact hsplit _ _ _ hprog he
  have hstat : ∀ e, s.status = some e → .ret e ∈ done := by
    intro e he
    have := hI.status
    rw [he] at this
    obtain ⟨a, ha, hv⟩ := List.mem_filterMap.1 (List.mem_of_getLast? this.symm)
    cases a <;> cases hv
    exact ha
  refine ⟨fun e he => (hret e (hstat e he)).1, ?_, ?_⟩
  · obtain ⟨all, a1, a2⟩ := otel_messages_at_every_moment S dss ok hI.net hgd
    refine ⟨driven tr, all, ⟨sent s.todo, by rw [hdr]; exact hpre⟩, ?_, a1, a2⟩
    intro hne
    obtain ⟨e, he⟩ := Option.ne_none_iff_exists'.1 hne
    exact hclose (hret e (hstat e he)).2
  · intro hw
    have hroot := (Drain.drained_when_wait_returns hT hC hI.net hw).1
    have := whole_program_otel S dss ok tr s.net hI.net hw hgd
    rw [hclose (hI.root.1 hroot)] at this
    exact this

/-! ### With the file driver -/

/-- An action of the driver as the pipeline sees it: pointers stand for what they point to. -/
def pointed {R : Type} (c : Ptr → Option R) : MAct R → Option (DAct R)
  | .write _ _ => none
  | .send p => (c p).map .send
  | .check b => some (.check b)
  | .close => some .close
  | .wait => some .wait
  | .ret e => some (.ret e)

/-- The OTel file driver on a single file, with what its pointers point to: the decoding of the file comes before the first record is sent, so the pipeline sees the decoded records. -/
def oneFile {J R : Type} (dec : J → R → R) (zero : R) (run : Nat → Bool) (js : List J) : List (DAct R) :=
  (otelFileDriver dec zero run (some [some js])).filterMap (pointed (fun p => contents p (otelFileDriver dec zero run (some [some js]))))

theorem pointed_writes {J R : Type} (dec : J → R → R) (zero : R) (c : Ptr → Option R) (js : List J) : ∀ n, (freshWrites dec zero n js).filterMap (pointed c) = [] := by
  induction js with
  | nil => intro n; rfl
  | cons j js ih => intro n; exact ih (n + 1)

theorem pointed_sends {R : Type} (c : Ptr → Option R) (run : Nat → Bool) (ps : List Ptr) : ∀ k,
    (∀ a ∈ ((sendPtrs (R := R) run k ps).1).filterMap (pointed c), a.isFinal = false) ∧
    sent (((sendPtrs (R := R) run k ps).1).filterMap (pointed c)) <+: ps.filterMap c ∧
    ((∀ j, run j = true) → sent (((sendPtrs (R := R) run k ps).1).filterMap (pointed c)) = ps.filterMap c) := by
  induction ps with
  | nil => intro k; exact ⟨fun a h => (by cases h), List.prefix_rfl, fun _ => rfl⟩
  | cons p ps ih =>
    intro k
    obtain ⟨i1, i2, i3⟩ := ih (k + 1)
    unfold sendPtrs
    by_cases h : run k = false
    · rw [if_pos h]
      refine ⟨?_, List.nil_prefix, fun hall => by rw [hall k] at h; cases h⟩
      intro a ha
      rw [List.mem_singleton.1 (show a ∈ [DAct.check false] from ha)]
      rfl
    · rw [if_neg h]
      cases hc : c p with
      | none =>
        have e : ((MAct.check true :: .send p :: (sendPtrs (R := R) run (k + 1) ps).1).filterMap (pointed c)) =
            .check true :: ((sendPtrs (R := R) run (k + 1) ps).1).filterMap (pointed c) := by
          rw [List.filterMap_cons, List.filterMap_cons]
          simp [pointed, hc]
        dsimp only
        rw [e, List.filterMap_cons, hc]
        refine ⟨?_, i2, i3⟩
        intro a ha
        rcases List.mem_cons.1 ha with rfl | ha
        · rfl
        · exact i1 a ha
      | some r =>
        have e : ((MAct.check true :: .send p :: (sendPtrs (R := R) run (k + 1) ps).1).filterMap (pointed c)) =
            .check true :: .send r :: ((sendPtrs (R := R) run (k + 1) ps).1).filterMap (pointed c) := by
          rw [List.filterMap_cons, List.filterMap_cons]
          simp [pointed, hc]
        dsimp only
        rw [e, List.filterMap_cons, hc]
        refine ⟨?_, List.cons_prefix_cons.2 ⟨rfl, i2⟩, fun hall => by rw [sent_check, sent_send, i3 hall]⟩
        intro a ha
        rcases List.mem_cons.1 ha with rfl | ha
        · rfl
        · rcases List.mem_cons.1 ha with rfl | ha
          · rfl
          · exact i1 a ha

/-- The driver on one file is orderly and sends the records of the file, in order; all of them if no stop was requested. -/
theorem one_file {J R : Type} (dec : J → R → R) (zero : R) (run : Nat → Bool) (js : List J) :
    ∃ body, Orderly (oneFile dec zero run js) body ∧ sent (oneFile dec zero run js) <+: js.map (fun j => dec j zero) ∧
      ((∀ k, run k = true) → sent (oneFile dec zero run js) = js.map (fun j => dec j zero)) := by
  obtain ⟨u1, u2, u3, u4⟩ := unmarshal_fresh dec zero ([] : Mem R) js
  simp only [List.length_nil] at u1 u2 u4
  obtain ⟨b, hb, htail⟩ : ∃ b, (b = [] ∨ ∃ x, b = [MAct.check x]) ∧
      otelFileDriver dec zero run (some [some js]) = freshWrites dec zero 0 js ++ ((sendPtrs (R := R) run 0 (List.range' 0 js.length)).1 ++ (b ++ [.close, .wait, .ret false])) := by
    unfold otelFileDriver otelLoop
    dsimp only
    rw [u1, u4]
    split
    · exact ⟨[.check false], .inr ⟨_, rfl⟩, by simp⟩
    · exact ⟨[.check true], .inr ⟨_, rfl⟩, by simp [otelLoop]⟩
  have s3 := (sendPtrs_spec (R := R) run 0 (List.range' 0 js.length)).2.2.1
  have hcont : (fun p => contents p (otelFileDriver dec zero run (some [some js]))) = (fun p => js[p]?.map (fun j => dec j zero)) := by
    funext p
    rw [htail, contents_append_other]
    · simpa using contents_freshWrites dec zero 0 js p
    · intro x hx
      rcases List.mem_append.1 hx with hx | hx
      · exact s3 x hx
      · intro q r he
        subst he
        rcases hb with rfl | ⟨x, rfl⟩ <;> simp at hx
  have hall : (List.range' 0 js.length).filterMap (fun p => js[p]?.map (fun j => dec j zero)) = js.map (fun j => dec j zero) := by
    have : ∀ (pre js' : List J), js = pre ++ js' → (List.range' pre.length js'.length).filterMap (fun p => js[p]?.map (fun j => dec j zero)) = js'.map (fun j => dec j zero) := by
      intro pre js'
      induction js' generalizing pre with
      | nil => intro _; rfl
      | cons j js' ih =>
        intro he
        have i := ih (pre ++ [j]) (by rw [he]; simp)
        rw [List.length_append, List.length_singleton] at i
        rw [List.length_cons, List.range'_succ, List.filterMap_cons, i]
        have : js[pre.length]? = some j := by rw [he]; simp
        rw [this]
        rfl
    exact this [] js rfl
  obtain ⟨p1, p2, p3⟩ := pointed_sends (fun p => js[p]?.map (fun j => dec j zero)) run (List.range' 0 js.length) 0
  rw [hall] at p2 p3
  have hform : oneFile dec zero run js = (((sendPtrs (R := R) run 0 (List.range' 0 js.length)).1).filterMap (pointed (fun p => js[p]?.map (fun j => dec j zero))) ++
      b.filterMap (pointed (fun p => js[p]?.map (fun j => dec j zero)))) ++ [.close, .wait, .ret false] := by
    unfold oneFile
    rw [hcont, htail, List.filterMap_append, List.filterMap_append, List.filterMap_append, pointed_writes, List.nil_append, List.append_assoc]
    rfl
  have hbs : sent (b.filterMap (pointed (fun p => js[p]?.map (fun j => dec j zero)))) = [] := by
    rcases hb with rfl | ⟨x, rfl⟩ <;> rfl
  refine ⟨_, ⟨hform, ?_⟩, ?_, ?_⟩
  · intro a ha
    rcases List.mem_append.1 ha with ha | ha
    · exact p1 a ha
    · rcases hb with rfl | ⟨x, rfl⟩
      · cases ha
      · rw [List.mem_singleton.1 (show a ∈ [DAct.check x] from ha)]; rfl
  · rw [hform, sent_append, sent_append, hbs, List.append_nil]
    simpa using p2
  · intro hr
    rw [hform, sent_append, sent_append, hbs, List.append_nil]
    simpa using p3 hr

/-- **C85** The program with the OTel file driver on one file, logging to a file in an encoding without newlines: once `Run` has returned, it has returned no error, and the log's lines are complete for
the records of the file, or, if a stop was requested, for those from the first one up to some point. -/
theorem otel_file_run (S : Setup P) (dss : P → List (List Decl)) (ok : S.Ok dss) (hline : ∀ rl b, S.encode rl = some b → Exporter.newline ∉ b)
    {J : Type} (dec : J → ResourceLogs → ResourceLogs) (zero : ResourceLogs) (run : Nat → Bool) (js : List J) (hg : ∀ j ∈ js, Given (dec j zero))
    {tr : List (Drain.Obs ResourceLogs)} {s : PSt ResourceLogs S.fileNet} (h : PExec id S.fileNet (oneFile dec zero run js) tr s) {e : Bool} (he : s.status = some e) :
    e = false ∧ ∃ rls, rls <+: js.map (fun j => dec j zero) ∧ ((∀ k, run k = true) → rls = js.map (fun j => dec j zero)) ∧
      CompleteFor S dss rls (Exporter.linesOf [] (S.log s.net)) := by
  obtain ⟨hT, hC⟩ := netWith_ok S (Exporter.fileTransport (fun _ => none)) Exporter.newFile ok.workers ok.cap
  obtain ⟨body, ho, p1, p2⟩ := one_file dec zero run js
  obtain ⟨h1, h2, h3, h4⟩ := run_returned hT hC ho h he
  rw [List.map_id] at h4
  refine ⟨h1, driven tr, by rw [h4]; exact p1, fun hr => by rw [h4]; exact p2 hr, ?_⟩
  refine (whole_program_otel_file S dss ok hline tr s.net h2 h3 ?_).1
  intro rl hrl
  rw [h4] at hrl
  obtain ⟨j, hj, rfl⟩ := List.mem_map.1 (p1.subset hrl)
  exact hg j hj

/-! ### A concrete program -/

def hostRule : RuleDecl := { name := "r".toList, desc := "d".toList, cond := [[.binop .eq "host".toList "h1".toList]] }

def hostText : Str := "- rule: r\n  desc: d\n  condition: host=h1".toList

theorem host_parses : GPolicy (ltokens simpleStr hostText) [.rule hostRule] := by
  have h : ltokens simpleStr hostText =
      (⟨[], .DECL, "-".toList⟩ : LTok) :: ⟨" ".toList, .RULE, "rule".toList⟩ :: ⟨[], .DEF, ":".toList⟩ ::
        (([⟨" ".toList, .ID, "r".toList⟩] : List LTok) ++ ⟨"\n  ".toList, .DESC, "desc".toList⟩ :: ⟨[], .DEF, ":".toList⟩ ::
          (([⟨" ".toList, .ID, "d".toList⟩] : List LTok) ++ ⟨"\n  ".toList, .COND, "condition".toList⟩ :: ⟨[], .DEF, ":".toList⟩ ::
            (([⟨" ".toList, .ID, "host".toList⟩, ⟨[], .EQ, "=".toList⟩, ⟨[], .ID, "h1".toList⟩] : List LTok) ++ []))) := by decide +kernel
  rw [h]
  refine .last _ _ false (.rule _ _ _ _ _ _ _ _ _ _ _ _ [] false rfl rfl rfl (by decide) (by decide +kernel) rfl rfl (by decide) (by decide +kernel) rfl rfl ?_ .nil)
  exact .exprOne _ _ (.conjOne _ _ (.binop _ _ _ .eq rfl rfl rfl))

theorem host_acyclic : ∀ x ∈ sites [[.rule hostRule]], ∀ e, siteCond x = some e → ¬ Cyclic x.2 e := by
  intro x hx e he hc
  rw [List.mem_singleton.1 (show x ∈ [(Decl.rule hostRule, (⟨[], []⟩ : Falco.Env))] from hx)] at he hc
  cases he
  obtain ⟨a, b, ⟨c, hc, t, ht, hu⟩, -, -⟩ := hc
  have hc := List.mem_singleton.1 (show c ∈ [[Falco.Term.binop .eq "host".toList "h1".toList]] from hc)
  subst hc
  rw [List.mem_singleton] at ht
  subst ht
  cases hu

theorem host_foreign : ∀ x ∈ (sites [[.rule hostRule]]).filterMap asRule, ∀ k, MentionsE x.2 k x.1.cond → Foreign k := by
  intro x hx k hk
  rw [List.mem_singleton.1 (show x ∈ [(hostRule, (⟨[], []⟩ : Falco.Env))] from hx)] at hk
  obtain ⟨c, hc, t, ht, hm⟩ := hk
  have hc := List.mem_singleton.1 (show c ∈ [[Falco.Term.binop .eq "host".toList "h1".toList]] from hc)
  subst hc
  rw [List.mem_singleton] at ht
  subst ht
  cases hm
  exact ⟨by decide, by decide⟩

theorem demo_whole : WholeLogs demoLogs := by
  refine ⟨by simp [demoLogs], ?_⟩
  intro p hp
  have : p ∈ [("host".toList, Value.str "h1".toList), ("ports".toList, .arr [.int 3, .str "ssh".toList]), ("level".toList, .unset), ("level".toList, .int 5), ("ok".toList, .bool true),
      ("level".toList, .int 9), ("nested".toList, .kvlist [("nested".toList, .str "x".toList)])] := hp
  simp only [List.mem_cons, List.not_mem_nil, or_false] at this
  rcases this with rfl | rfl | rfl | rfl | rfl | rfl | rfl
  · exact .str _
  · exact .arr _ (by simp) (by simp)
  · exact .unset
  · exact .int _
  · exact .bool _
  · exact .int _
  · refine .kvlist _ (fun q hq => ?_)
    rw [List.mem_singleton.1 hq]
    exact .str _

theorem demo_fresh : Fresh demoLogs.scopes := by
  intro s hs sc hsc
  rcases List.mem_singleton.1 hs with rfl
  cases hsc
  show "app".toList ≠ "sf-processor".toList
  decide

/-- The rule applies to the record of the example. -/
theorem host_applies (env : Falco.Env) : OApplies Otel.demoLib demoLogs (hostRule, env) := by
  refine ⟨rfl, .holds _ [.binop .eq "host".toList "h1".toList] List.mem_cons_self (fun t ht => ?_)⟩
  rw [List.mem_singleton] at ht
  subst ht
  have h := (whole_meaning Otel.demoLib demoLogs demo_whole).compare "host".toList "h1".toList .Eq trivial
  have h' : ((otelOps Otel.demoLib).compare "host".toList "h1".toList .Eq).eval demoLogs = true := by decide +kernel
  have : ((meaning Otel.demoLib).compare "host".toList "h1".toList .Eq).eval demoLogs = true := by rw [← h]; exact h'
  exact .cmp _ _ _ _ ⟨fun _ => this, fun _ => rfl⟩

/-- The program of the example, with any number of workers; a record is encoded as the names of its scopes. -/
def demoRun (n : Nat) (code : List (Rule ResourceLogs) × List (Filter ResourceLogs)) : Setup Unit where
  L := Otel.demoLib
  json rl := some (rl.scopes.flatMap (fun s => (s.scope.map (fun sc => sc.name.map (fun _ => (97 : UInt8)))).getD []))
  proto rl := some [rl.scopes.length.toUInt8]
  str := simpleStr
  texts _ := [hostText]
  code _ := code
  order := id
  enrich := false
  builtIn _ := none
  user _ := none
  workers := n
  monitor := true
  interval := 60
  buffer := 2
  encoding := .json
  cap := 9
  policies := ()
  pending := []
  start := 0

theorem demoRun_ok (n : Nat) (hn : 0 < n) : ∃ code, (demoRun n code).Ok (fun _ => [[.rule hostRule]]) := by
  obtain ⟨k, rules, filters, hcomp, _⟩ := otel_policy_texts_to_alerts Otel.demoLib simple_rule [hostText] [[.rule hostRule]] (.cons host_parses .nil) host_acyclic host_foreign
  refine ⟨(rules, filters), ⟨simple_rule, fun _ => .cons host_parses .nil, fun _ => host_acyclic, fun _ => host_foreign, fun _ => ⟨k, hcomp⟩, ?_, fun l => .refl l, hn, (show 0 < 9 by decide)⟩⟩
  intro a f hf
  rcases hf with hf | hf <;> cases hf

theorem demo_wanted (n : Nat) (code : List (Rule ResourceLogs) × List (Filter ResourceLogs)) : Wanted (demoRun n code) [[.rule hostRule]] demoLogs ∧
    applicable Otel.demoLib demoLogs [[.rule hostRule]] = [Falco.infoOf hostRule] := by
  classical
  have ha : applicable Otel.demoLib demoLogs [[.rule hostRule]] = [Falco.infoOf hostRule] := by
    unfold applicable
    rw [show (sites [[Decl.rule hostRule]]).filterMap asRule = [(hostRule, (⟨[], []⟩ : Falco.Env))] from rfl]
    rw [List.filter_cons_of_pos (by simpa using host_applies _)]
    rfl
  refine ⟨⟨?_, .inr (by rw [show (demoRun n code).L = Otel.demoLib from rfl, ha]; simp)⟩, ha⟩
  rintro ⟨x, hx, _⟩
  have : (sites [[Decl.rule hostRule]]).filterMap Falco.asFilter = [] := rfl
  rw [this] at hx
  cases hx

/-- A complete execution that delivers the record, for every number of workers: one message, which shows that a scope with the rule has been added. -/
example (n : Nat) (hn : 0 < n) : ∃ code tr, ∃ s : Drain.St (demoRun n code).kafkaNet, Exec (demoRun n code).kafkaNet tr s ∧ Waited s ∧ driven tr = [demoLogs] ∧
    (demoRun n code).messages s = [List.replicate 15 97] := by
  classical
  obtain ⟨code, ok⟩ := demoRun_ok n hn
  obtain ⟨hT, hC⟩ := netWith_ok (demoRun n code) (Exporter.kafka (fun _ => true)) ([], 0) ok.workers ok.cap
  obtain ⟨tr, s, he, hw, hd⟩ := Drain.complete_run_exists hT hC [demoLogs] (show 1 ≤ 9 by decide)
  refine ⟨code, tr, s, he, hw, hd, ?_⟩
  obtain ⟨ss, -, h2, h3, h4⟩ := whole_program_otel (demoRun n code) _ ok tr s he hw (by rw [hd]; intro rl hrl; rw [List.mem_singleton.1 hrl]; exact ⟨demo_whole, demo_fresh⟩)
  rw [hd] at h2
  rw [← h3]
  clear h3
  have key : ∀ g ∈ ss, (g.logs = [] → g.messages = []) ∧ (g.logs = [demoLogs] → g.messages = [List.replicate 15 97]) := by
    intro g hg
    obtain ⟨picked, outs, p1, -, p2, p3⟩ := h4 g hg
    constructor
    · intro hl
      rw [hl, List.filter_nil] at p1
      have := List.perm_nil.1 p1
      subst this
      cases p2
      exact p3
    · intro hl
      rw [hl, List.filter_cons_of_pos (by simpa using (demo_wanted n code).1), List.filter_nil] at p1
      have := List.perm_singleton.1 p1
      subst this
      cases p2 with
      | @cons _ out _ _ hn h0 =>
        cases h0
        rw [show (demoRun n code).L = Otel.demoLib from rfl, (demo_wanted n code).2] at hn
        obtain ⟨tags, -, rfl⟩ := hn.2 (by simp)
        exact p3
  clear h4 hd he hw
  induction ss with
  | nil => cases h2
  | cons g ss ih =>
    rw [List.flatMap_cons] at h2 ⊢
    obtain ⟨k1, k2⟩ := key g List.mem_cons_self
    cases hl : g.logs with
    | nil =>
      rw [hl, List.nil_append] at h2
      rw [k1 hl, List.nil_append]
      exact ih h2 (fun g' hg' => key g' (List.mem_cons_of_mem _ hg'))
    | cons a rest =>
      rw [hl, List.cons_append] at h2
      obtain ⟨rfl, h5⟩ := List.cons.inj h2
      obtain ⟨rfl, h6⟩ := List.append_eq_nil_iff.1 h5
      rw [k2 hl]
      have : ss.flatMap Stretch.messages = [] := by
        rw [List.flatMap_eq_nil_iff] at h6 ⊢
        exact fun g' hg' => (key g' (List.mem_cons_of_mem _ hg')).1 (h6 g' hg')
      rw [this]
      rfl

/-- The texts of the encoding in the example contain no newline. -/
theorem demo_line (n : Nat) (code : List (Rule ResourceLogs) × List (Filter ResourceLogs)) (rl : ResourceLogs) (b : Bytes) (h : (demoRun n code).encode rl = some b) : Exporter.newline ∉ b := by
  have : b = rl.scopes.flatMap (fun s => (s.scope.map (fun sc => sc.name.map (fun _ => (97 : UInt8)))).getD []) := (Option.some.inj h).symm
  rw [this]
  intro hm
  obtain ⟨sl, _, hm⟩ := List.mem_flatMap.1 hm
  cases hs : sl.scope with
  | none => rw [hs] at hm; cases hm
  | some sc =>
    rw [hs] at hm
    obtain ⟨_, _, h⟩ := List.mem_map.1 (show Exporter.newline ∈ sc.name.map (fun _ => (97 : UInt8)) from hm)
    revert h
    decide

/-- The program runs on a file with two copies of the record to the end, with any number of workers, and its log is complete for both. -/
example (n : Nat) (hn : 0 < n) : ∃ code tr, ∃ s : PSt ResourceLogs (demoRun n code).fileNet,
    PExec id (demoRun n code).fileNet (oneFile (fun j _ => j) demoLogs (fun _ => true) [demoLogs, demoLogs]) tr s ∧ s.status = some false ∧
    CompleteFor (demoRun n code) (fun _ => [[.rule hostRule]]) [demoLogs, demoLogs] (Exporter.linesOf [] ((demoRun n code).log s.net)) := by
  obtain ⟨code, ok⟩ := demoRun_ok n hn
  obtain ⟨hT, hC⟩ := netWith_ok (demoRun n code) (Exporter.fileTransport (fun _ => none)) Exporter.newFile ok.workers ok.cap
  obtain ⟨body, ho, _⟩ := one_file (fun (j _ : ResourceLogs) => j) demoLogs (fun _ => true) [demoLogs, demoLogs]
  obtain ⟨tr, s, hx, he⟩ := complete_run hT hC ho id
  obtain ⟨_, rls, _, h2, h3⟩ := otel_file_run (demoRun n code) _ ok (demo_line n code) (fun (j _ : ResourceLogs) => j) demoLogs (fun _ => true) [demoLogs, demoLogs]
    (by intro j hj; have : j = demoLogs := by simpa using hj
        subst this; exact ⟨demo_whole, demo_fresh⟩) hx he
  have := h2 (fun _ => rfl)
  subst this
  exact ⟨code, tr, s, hx, he, h3⟩

end Verif.OtelRun

import Verif.Whole.Corollaries
/-
C76: a concrete program, stream and complete execution that meet the hypotheses; the second event of the stream is logged.
-/
namespace Verif.Whole
open Verif.Decimal (Str)
open Verif.Exporter (Bytes)
open Verif.FlatRecord
open Verif.Policy
open Verif.Falco
open Verif.Processor (Rec HCall demoStream demoPE)
open Verif.Flattener (FLib Known fields eventsAfter StoresEvent)
open Verif.Pipeline
open Verif.Pipeline.Drain (driven Exec Waited)

def lsText : Str := "- rule: ls\n  desc: d\n  condition: sf.proc.exe=/bin/ls".toList

def lsDecls : List Decl := [.rule demoLsRule]

theorem ls_parses : GPolicy (ltokens simpleStr lsText) lsDecls := by
  have h : ltokens simpleStr lsText =
      (⟨[], .DECL, "-".toList⟩ : LTok) :: ⟨" ".toList, .RULE, "rule".toList⟩ :: ⟨[], .DEF, ":".toList⟩ ::
        (([⟨" ".toList, .ID, "ls".toList⟩] : List LTok) ++ ⟨"\n  ".toList, .DESC, "desc".toList⟩ :: ⟨[], .DEF, ":".toList⟩ ::
          (([⟨" ".toList, .ID, "d".toList⟩] : List LTok) ++ ⟨"\n  ".toList, .COND, "condition".toList⟩ :: ⟨[], .DEF, ":".toList⟩ ::
            (([⟨" ".toList, .ID, "sf.proc.exe".toList⟩, ⟨[], .EQ, "=".toList⟩, ⟨[], .PATH, "/bin/ls".toList⟩] : List LTok) ++ []))) := by decide +kernel
  rw [h]
  refine .last _ _ false (.rule _ _ _ _ _ _ _ _ _ _ _ _ [] false rfl rfl rfl (by decide) (by decide +kernel) rfl rfl (by decide) (by decide +kernel) rfl rfl ?_ .nil)
  exact .exprOne _ _ (.conjOne _ _ (.binop _ _ _ .eq rfl rfl rfl))

theorem ls_sites : sites [lsDecls] = [(.rule demoLsRule, ⟨[], []⟩)] := rfl

theorem ls_acyclic : ∀ x ∈ sites [lsDecls], ∀ e, siteCond x = some e → ¬ Cyclic x.2 e := by
  intro x hx e he hc
  rw [ls_sites, List.mem_singleton] at hx
  subst hx
  cases he
  obtain ⟨a, b, h1, -, -⟩ := hc
  obtain ⟨c, hc, t, ht, hu⟩ := h1
  have hc := List.mem_singleton.1 (show c ∈ [[Term.binop .eq "sf.proc.exe".toList "/bin/ls".toList]] from hc)
  subst hc
  rw [List.mem_singleton] at ht
  subst ht
  cases hu

/-- The program of the example, with any number of workers. -/
def demoSetup (n : Nat) (code : List (Rule Record) × List (Filter Record)) : Setup Unit where
  L := demoLib
  F := ⟨fun _ => [], fun _ => [], fun _ => 0⟩
  str := simpleStr
  texts := fun _ => [lsText]
  code := fun _ => code
  enrich := false
  builtIn := fun _ => none
  user := fun _ => none
  workers := n
  monitor := true
  interval := 60
  buffer := 2
  version := Json.demoEnv.version
  sipAlias := true
  cap := 9
  fuel := 10
  dedup := false
  ttl := 0
  clock := fun _ _ => 0
  policies := ()
  pending := []
  start := 0

theorem demo_ok (n : Nat) (hn : 0 < n) : ∃ code, (demoSetup n code).Ok (fun _ => [lsDecls]) := by
  obtain ⟨k, rules, filters, hcomp, _⟩ := policy_texts_to_alerts demoLib simple_rule [lsText] [lsDecls] (.cons ls_parses .nil) ls_acyclic
  refine ⟨(rules, filters), ⟨⟨⟨simple_rule, fun _ => .cons ls_parses .nil, fun _ => ls_acyclic, fun _ => ⟨k, hcomp⟩, ?_, hn, (show 0 < 9 by decide)⟩, Json.demo_ok, Json.demo_version⟩, rfl⟩⟩
  intro a f hf
  rcases hf with hf | hf <;> cases hf

/-- The process event after the process has become `/bin/ls` is to be logged. -/
theorem demo_logged (S : Setup Unit) (hF : S.F = ⟨fun _ => [], fun _ => [], fun _ => 0⟩) (henr : S.enrich = false) :
    Logged S [lsDecls] (demoStream.take 7, .procEvt (demoPE 2)) := by
  have h : (Processor.run false 10 .init demoStream).isSome = true := by decide
  obtain ⟨⟨s, cs⟩, h⟩ := Option.isSome_iff_exists.mp h
  have hst := Flattener.calls_store S.F 10 demoStream [] .init s [] cs rfl h
  have hev : eventsAfter [] demoStream = [(demoStream.take 5, .procEvt (demoPE 2)), (demoStream.take 7, .procEvt (demoPE 2)), (demoStream.take 8, .procEvt (demoPE 5))] := rfl
  rw [hev] at hst
  generalize cs.filterMap (Flattener.recOf S.F) = frs at hst
  cases hst with
  | cons _ hst =>
    cases hst with
    | cons h2 _ =>
      rename_i fr _ _ _
      obtain ⟨hev, c, hk, hs⟩ := h2
      have htab := Flattener.fields_read S.L S.F c _ hev _ hs
      refine ⟨c, hk, ?_, .inr ⟨(demoLsRule, ⟨[], []⟩), ?_, ?_⟩⟩
      · rintro ⟨r, -, x, hx, -⟩
        rw [ls_sites] at hx
        cases hx
      · rw [ls_sites]; exact List.mem_cons_self
      · exact ⟨newRecord _, htab, demo_ls_applies S.L S.F _ c hk (newRecord _) htab⟩

/-- A complete execution on the stream, for every number of workers: its log has a line for that event, with the rule attached. -/
example (n : Nat) (hn : 0 < n) : ∃ code tr, ∃ s : Drain.St (demoSetup n code).net, Exec (demoSetup n code).net tr s ∧ Waited s ∧ driven tr = demoStream.map Msg.sf ∧
    ∃ line ∈ Exporter.linesOf [] ((demoSetup n code).log s), LineFor (demoSetup n code) [lsDecls] (demoStream.take 7, .procEvt (demoPE 2)) line := by
  obtain ⟨code, ok⟩ := demo_ok n hn
  obtain ⟨hT, hC⟩ := net_ok (demoSetup n code) ok.workers ok.cap
  obtain ⟨tr, s, he, hw, hd⟩ := Drain.complete_run_exists hT hC (demoStream.map Msg.sf) (show 9 ≤ 9 by decide)
  refine ⟨code, tr, s, he, hw, hd, ?_⟩
  have h : (Processor.run false 10 .init demoStream).isSome = true := by decide
  obtain ⟨⟨rd, cs⟩, h⟩ := Option.isSome_iff_exists.mp h
  obtain ⟨picked, hp, hl⟩ := whole_program_count (demoSetup n code) _ ok [lsDecls] (fun _ => rfl) demoStream rd cs h tr s he hw hd
  have hmem : (demoStream.take 7, Rec.procEvt (demoPE 2)) ∈ picked := by
    rw [hp.mem_iff, List.mem_filter]
    exact ⟨List.mem_cons_of_mem _ List.mem_cons_self, by simpa using demo_logged _ rfl rfl⟩
  generalize Exporter.linesOf [] ((demoSetup n code).log s) = ls at hl
  clear hp
  induction hl with
  | nil => cases hmem
  | cons h1 _ ih =>
    rcases List.mem_cons.1 hmem with rfl | hm
    · exact ⟨_, List.mem_cons_self, h1⟩
    · obtain ⟨line, l1, l2⟩ := ih hm
      exact ⟨line, List.mem_cons_of_mem _ l1, l2⟩

end Verif.Whole

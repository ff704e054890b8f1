import Verif.Json.Agree
import Verif.FlatRecord.Examples
import Verif.Exporter.Props
/-! Concrete cases for the theorems about the JSON encoder. -/
namespace Verif.Json
open Verif.Decimal (Str)
open Verif.FlatRecord
open Verif.SysFlow (Service Port Proc)

/-- C44, C45 and C59 together: a file to which the JSON texts of records were written, each followed by a newline, splits into
exactly these texts again, whatever the records hold. -/
theorem json_log_lines (e : Env) (hL : Spec.LibOk e.L) (hv : NoCtl e.version) (recs : List Record) (texts : List Bytes)
    (h : recs.map (encode e) = texts.map some) :
    Exporter.linesOf [] (texts.flatMap (fun t => t ++ [Exporter.newline])) = texts := by
  have hn : ∀ t ∈ texts, Exporter.newline ∉ t := by
    intro t ht hc
    have : some t ∈ recs.map (encode e) := by rw [h]; exact List.mem_map.2 ⟨t, ht, rfl⟩
    obtain ⟨r, _, hr⟩ := List.mem_map.1 this
    exact absurd (json_single_line e hL hv r t hr _ hc) (by decide)
  clear h
  have go : ∀ (t cur rest : Bytes), Exporter.newline ∉ t →
      Exporter.linesOf cur (t ++ Exporter.newline :: rest) = (cur ++ t) :: Exporter.linesOf [] rest := by
    intro t
    induction t with
    | nil => intro cur rest _; simp [Exporter.linesOf]
    | cons c t ih =>
      intro cur rest hn
      simp only [List.cons_append, Exporter.linesOf]
      rw [if_neg (fun e : c = Exporter.newline => hn (by rw [e]; exact .head _)), ih (cur ++ [c]) rest (fun hm => hn (.tail _ hm))]
      simp
  induction texts with
  | nil => rfl
  | cons t ts ih =>
    rw [List.flatMap_cons, List.append_assoc, List.singleton_append, go t [] _ (hn t (.head _)), ih (fun x hx => hn x (.tail _ hx))]
    rfl

/-! ### A process event with a known parent -/

theorem demo_ok : Spec.LibOk demoLib where
  opFlags := by
    intro n t s hs
    rw [show demoLib.opFlags n t = ["EXEC".toList] from rfl, List.mem_singleton] at hs
    subst hs
    unfold Spec.PlainText
    decide
  openFlags := by intro n s hs; cases hs
  netFlow := by
    intro n
    show Strings.trimQuotes (if n = PROC_EVT then "PE".toList else if n = NET_FLOW then "NF".toList else "FF".toList) = _ ↔ _
    split
    · rename_i h; subst h; decide
    · split
      · rename_i h; subst h; decide
      · rename_i h; simp only [h, iff_false]; decide

def demoEnv : Env := ⟨demoLib, tx "5".toList, true⟩

theorem demo_version : Spec.VersionOk demoEnv.version := by unfold Spec.VersionOk; decide

-- the hypotheses of `json_record_partial` hold of a process event with a parent
example : Spec.Clean demoLib demoRec.fr := by
  refine .inr ⟨by decide, fun h => absurd ?_ h⟩
  decide
example : Spec.Present demoLib demoRec.fr .SectProc ∧ ¬ Spec.Present demoLib demoRec.fr .SectNet := by decide +kernel

-- the text of that event is JSON, and has the executable and the ancestors in it
example : ∃ b, encode demoEnv demoRec = some b ∧ read b = some (Spec.document demoLib true (tx "5".toList) demoRec) :=
  json_record_partial demoEnv demo_ok demo_version demoRec (.inr ⟨by decide, fun h => absurd (by decide) h⟩)

/-- The same event of a process that is not in the process table. -/
def orphan : Record := ⟨{ demoRec.fr with ptree := none }, demoRec.ctx⟩

set_option maxRecDepth 100000 in
-- no panic, but the text is not JSON
example : (encode demoEnv orphan).isSome = true ∧ ∀ b, encode demoEnv orphan = some b → read b = none := by
  refine ⟨by decide +kernel, fun b hb => json_unknown_process demoEnv demo_ok demo_version orphan b (by decide) rfl hb⟩

-- a pod with two host addresses
def podSect : Sect where
  ints := demoSect.ints
  strs a := if a = .POD_ID_STR then "p1".toList else demoSect.strs a
  anys a := if a = .POD_HOSTIP_ANY then .ints [1, 2] else if a = .POD_SERVICES_ANY then .svcs [] else .ints []
def podRec : Record := newRecord ⟨[(.sysflow, podSect)], some [demoProc "/bin/bash" 12], 0⟩

set_option maxRecDepth 100000 in
example : (encode demoEnv podRec).isSome = true ∧ ¬ Spec.Clean demoLib podRec.fr := by
  refine ⟨by decide +kernel, ?_⟩
  rintro (h | ⟨-, h⟩)
  · revert h; decide +kernel
  · obtain ⟨hs, is, ss, h1, h2, -⟩ := h (by unfold Spec.hasPod; decide)
    have : podRec.fr.getIntArray .POD_HOSTIP_ANY .sysflow = some [1, 2] := by rfl
    rw [this] at h1; cases h1
    exact absurd h2 (by decide)

/-- The same event with a pod whose lists were never set. -/
def unsetRec : Record :=
  ⟨{ demoRec.fr with sections := [(.sysflow, ⟨demoSect.ints, fun a => if a = .POD_ID_STR then "p1".toList else demoSect.strs a, fun _ => .nil⟩)] }, demoRec.ctx⟩

set_option maxRecDepth 100000 in
-- `json_panic_iff`, both ways: the encoder crashes on that record, and not on the one with two host addresses
example : encode demoEnv unsetRec = none ∧ encode demoEnv podRec ≠ none :=
  ⟨(json_panic_iff demoEnv demo_ok demo_version unsetRec).2 ⟨by decide +kernel, fun h => h.1 (by decide +kernel)⟩,
   fun h => ((json_panic_iff demoEnv demo_ok demo_version podRec).1 h).2 ⟨by decide +kernel, by decide +kernel, by decide +kernel⟩⟩

set_option maxRecDepth 100000 in
-- `json_wellformed_iff`: the text for two host addresses is no JSON
example (b : Bytes) (hb : encode demoEnv podRec = some b) : read b = none := by
  rcases json_wellformed_iff demoEnv demo_ok demo_version podRec b hb with ⟨hc, -⟩ | ⟨-, h⟩
  · exfalso
    rcases hc with h | ⟨-, h⟩
    · revert h; decide +kernel
    · obtain ⟨hs, is, ss, h1, h2, -⟩ := h (by unfold Spec.hasPod; decide)
      have : podRec.fr.getIntArray .POD_HOSTIP_ANY .sysflow = some [1, 2] := by rfl
      rw [this] at h1; cases h1
      exact absurd h2 (by decide)
  · exact h

-- C58: the uid of the demo event
example : SameValue (Spec.value demoLib true demoRec.fr ⟨"sf.proc.uid".toList, .int .PROC_UID_INT, .int .PROC_UID_INT, .MapIntVal, .SectProc⟩)
    "1000".toList := by
  have := json_shows_rule_values demoLib true demoRec.fr
    ⟨"sf.proc.uid".toList, .int .PROC_UID_INT, .int .PROC_UID_INT, .MapIntVal, .SectProc⟩ (by decide +kernel) trivial
    (fun h => absurd h (by decide)) (fun h => absurd h (by decide))
  rw [show mapStr demoLib getMappers "sf.proc.uid".toList demoRec.fr = "1000".toList by decide +kernel] at this
  exact this

-- C58 needs the flag fields to hold 0 or 1: otherwise the JSON value and the rule value differ
example : let fr : FlatRec := ⟨[(.sysflow, ⟨fun _ => 2, fun _ => [], fun _ => .nil⟩)], none, 0⟩
    (match Spec.value demoLib true fr ⟨"sf.proc.tty".toList, .int .PROC_TTY_INT, .int .PROC_TTY_INT, .MapBoolVal, .SectProc⟩ with
      | .bool b => b | _ => true) = false ∧
    mapStr demoLib getMappers "sf.proc.tty".toList fr = "true".toList := by
  exact ⟨by decide, by decide +kernel⟩

end Verif.Json

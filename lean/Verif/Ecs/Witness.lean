import Verif.Ecs.TextDoc
import Verif.Ecs.Identity
/-
Concrete cases that meet the hypotheses of the theorems about the ECS encoder (C47, C48, C49, C60, C61, C81): the theorems
applied to the alert and to the flow of Verif/Ecs/Identity.lean.
-/
namespace Verif.Ecs
open Verif.Decimal (Str)
open Verif.FlatRecord

/-- The sample records are encoded. -/
theorem demoAlert_encoded : ∃ d, encode demoConf demoELib demoAlert = some d :=
  Option.isSome_iff_exists.mp (by decide +kernel)

theorem demoFlow_encoded : ∃ d, encode demoConf demoELib demoFlow = some d :=
  Option.isSome_iff_exists.mp (by decide +kernel)

theorem demoAlert_known : Spec.Known demoELib demoAlert.fr := by unfold Spec.Known; decide +kernel

theorem demoFlow_known : Spec.Known demoELib demoFlow.fr := by unfold Spec.Known; decide +kernel

theorem demoAlert_rules : demoAlert.ctx.getRules = demoRules := by decide +kernel

theorem demoRules_severity : Spec.IsSeverity demoRules 3 := by
  unfold Spec.IsSeverity
  exact ⟨.inr ⟨{ name := "b".toList, priority := .high }, by simp [demoRules], rfl⟩, by omega, by decide⟩

theorem demoAlert_class : Spec.Class demoELib demoAlert.fr "process".toList "start".toList "process-start".toList :=
  Spec.Class.procEvent (some .exec) (by decide +kernel) (first_some [.exit, .clone] .exec [.setuid] (by decide +kernel) (by decide +kernel))

/-- C61: the alert has a document with the specified content. -/
example : ∃ d, encode demoConf demoELib demoAlert = some d ∧ Spec.Doc demoConf demoELib demoAlert d := by
  obtain ⟨d, h⟩ := demoAlert_encoded
  exact ⟨d, h, ecs_document _ _ _ _ h⟩

/-- C48: the alert is classified as the start of a process, in one way only. -/
example : ∃ d, encode demoConf demoELib demoAlert = some d ∧ eventText d "category".toList "process".toList ∧
    eventText d "type".toList "start".toList ∧ eventText d "action".toList "process-start".toList := by
  obtain ⟨d, h⟩ := demoAlert_encoded
  exact ⟨d, h, (ecs_classification _ _ _ _ h _ _ _).2 demoAlert_class⟩

example (a b c : Str) (h : Spec.Class demoELib demoAlert.fr a b c) : "process".toList = a ∧ "start".toList = b ∧ "process-start".toList = c :=
  class_unique _ _ _ _ _ _ _ _ demoAlert_class h

example : ∃ k t a, Spec.Class demoELib demoFlow.fr k t a := ecs_classification_total _ _ demoFlow_known

/-- C49: the flow lasts 9 ns. -/
example : ∃ d, encode demoConf demoELib demoFlow = some d ∧ eventText d "start".toList "T100".toList ∧
    eventText d "end".toList "T109".toList ∧ eventNum d "duration".toList 9 := by
  obtain ⟨d, h⟩ := demoFlow_encoded
  obtain ⟨-, h1, -, h2⟩ := ecs_times _ _ _ _ h demoFlow_known
  obtain ⟨h3, -, h4⟩ := h2 (by decide +kernel)
  exact ⟨d, h, h1, h3, h4 (by decide +kernel) (by decide +kernel) (by decide +kernel) (by decide +kernel)⟩

/-- C47: the alert shows its rules, their tags and the severity of the highest. -/
example : ∃ d, encode demoConf demoELib demoAlert = some d ∧ d.tags = ["x".toList] ∧ eventText d "reason".toList "a, b".toList ∧
    eventNum d "severity".toList 3 := by
  obtain ⟨d, h⟩ := demoAlert_encoded
  obtain ⟨h1, h2, -⟩ := ecs_alert _ _ _ _ h
  rw [demoAlert_rules] at h1 h2
  obtain ⟨h3, n, hn, h4⟩ := h2 (by decide)
  cases severity_unique _ _ _ hn demoRules_severity
  exact ⟨d, h, h1, h3, h4⟩

example : ∃ q ∈ demoRules, 3 = q.priority.toNat ∧ ∀ p ∈ demoRules, p.priority.toNat ≤ 3 :=
  severity_max demoRules 3 demoRules_severity { name := "b".toList, priority := .high } (by simp [demoRules]) (by decide)

/-- C60: the same flow, encoded under two configurations, keeps its identifier. -/
example : ∃ d d', encode demoConf demoELib demoFlow = some d ∧ encode ⟨"2".toList, "9".toList⟩ demoELib demoFlow = some d' ∧ d.id = d'.id := by
  obtain ⟨d, h⟩ := demoFlow_encoded
  obtain ⟨d', h'⟩ : ∃ d', encode ⟨"2".toList, "9".toList⟩ demoELib demoFlow = some d' := Option.isSome_iff_exists.mp (by decide +kernel)
  exact ⟨d, d', h, h', ecs_id_determined _ _ _ _ _ _ _ h h' rfl rfl rfl (fun _ _ => rfl) rfl⟩

/-- C60: two flows that differ in their flags are identified by hashes of different texts. -/
example : ∃ d d', encode demoConf demoELib demoFlow = some d ∧ encode demoConf demoELib (newRecord (demoFr NET_FLOW 9 109 "c1")) = some d' ∧
    ∃ b b', b ≠ b' ∧ d.id = demoELib.hash b ∧ d'.id = demoELib.hash b' := by
  obtain ⟨d, h⟩ := demoFlow_encoded
  obtain ⟨d', h'⟩ : ∃ d', encode demoConf demoELib (newRecord (demoFr NET_FLOW 9 109 "c1")) = some d' :=
    Option.isSome_iff_exists.mp (by decide +kernel)
  exact ⟨d, d', h, h', ecs_id_distinguishes _ _ _ _ _ _ _ h h' (by decide +kernel) (by decide +kernel) (by decide +kernel)
    (fun a => by cases a <;> (unfold Filter.IsI64; decide +kernel)) (fun a => by cases a <;> (unfold Filter.IsI64; decide +kernel))
    (.inl ⟨.OPFLAGS_INT, by decide +kernel, by decide +kernel⟩)⟩

/-- C81: the texts of the alert and of the flow are JSON and show the documents. -/
example : ∃ d ms, encode demoConf demoELib demoAlert = some d ∧ Json.read (recText d) = some (.obj ms) ∧ ShowsRec d ms := by
  obtain ⟨d, h⟩ := demoAlert_encoded
  obtain ⟨-, ms, h1, h2, -⟩ := ecs_text _ _ _ _ h
  exact ⟨d, ms, h, h1, h2⟩

example : ∃ d ms a b c n, encode demoConf demoELib demoAlert = some d ∧ Json.read (recText d) = some (.obj ms) ∧
    Member ms "event" (.obj (Spec.event demoELib demoAlert a b c n)) := by
  obtain ⟨d, h⟩ := demoAlert_encoded
  obtain ⟨ms, a, b, c, n, h1, -, -, h2⟩ := ecs_text_event _ _ _ _ h demoAlert_known
  exact ⟨d, ms, a, b, c, n, h, h1, h2⟩

example : ∃ d ms, encode demoConf demoELib demoFlow = some d ∧ Json.read (recText d) = some (.obj ms) ∧
    Member ms "process" (.obj (Spec.process demoELib demoFlow.fr)) := by
  obtain ⟨d, h⟩ := demoFlow_encoded
  obtain ⟨ms, h1, -, h2⟩ := ecs_text_process _ _ _ _ h (by decide +kernel)
  exact ⟨d, ms, h, h1, h2⟩

end Verif.Ecs

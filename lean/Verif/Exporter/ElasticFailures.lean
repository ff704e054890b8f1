import Verif.Exporter.FileFailures
import Verif.Exporter.Elastic
/-
C106: what the Elastic transport has requested when the input is closed, whichever library calls failed.
Source: /repo/core/exporter/transports/elastic.go:81-139, /repo/core/exporter/exporter.go:130-176
-/
namespace Verif.Exporter

/-! ### Specification -/

/-- What becomes of a batch of documents: a complete bulk; a bulk of its first `k` documents that is never closed; nothing. -/
inductive Bulked where
  | whole
  | unclosed (k : Nat)
  | unopened
deriving DecidableEq, Repr

/-- What is requested for a batch. -/
def Bulked.ops : Bulked → List (Bytes × Bytes) → List BulkOp
  | .whole, docs => bulk docs
  | .unclosed k, docs => .opened :: adds (docs.take k)
  | .unopened, _ => []

/-- What is requested of Elastic with an event buffer of `eb` for the documents `docs`, in `n` library calls of which `ok` says which succeed: the documents are divided into batches of at most a buffer, in order;
each has its bulk, all but at most one batch for every failing call a complete one. -/
structure RequestsFor (ok : Nat → Bool) (eb : Int) (docs : List (Bytes × Bytes)) (ops : List BulkOp) (n : Nat) (parts : List (Bulked × List (Bytes × Bytes))) : Prop where
  batches : parts.flatMap (·.2) = docs
  sizes : ∀ q ∈ parts, q.2 ≠ [] ∧ (q.2.length : Int) ≤ max eb 1
  ops : ops = parts.flatMap (fun q => q.1.ops q.2)
  failed : (parts.filter (fun q => q.1 != .whole)).length ≤ failuresIn ok n

/-- If no call fails, all bulks are complete. -/
theorem RequestsFor.all {ok : Nat → Bool} {eb : Int} {docs : List (Bytes × Bytes)} {ops : List BulkOp} {n : Nat} {parts : List (Bulked × List (Bytes × Bytes))} (h : RequestsFor ok eb docs ops n parts)
    (hok : ∀ i, i < n → ok i = true) : ops = (parts.map (·.2)).flatMap bulk := by
  have h0 : failuresIn ok n = 0 := by
    unfold failuresIn
    rw [List.length_eq_zero_iff, List.filter_eq_nil_iff]
    intro i hi
    rw [hok i (List.mem_range.1 hi)]
    decide
  have hf := h.failed
  rw [h0, Nat.le_zero, List.length_eq_zero_iff, List.filter_eq_nil_iff] at hf
  rw [h.ops, List.flatMap_map]
  clear h
  induction parts with
  | nil => rfl
  | cons q parts ih =>
    have hq : q.1 = .whole := by
      have := hf q List.mem_cons_self
      simpa using this
    rw [List.flatMap_cons, List.flatMap_cons, ih (fun x hx => hf x (List.mem_cons_of_mem _ hx)), hq]
    rfl

/-! ### Proofs -/

theorem adds_calls (ok : Nat → Bool) (docs : List (Bytes × Bytes)) : ∀ s : Bulk,
    ((elasticAdds ok s (docs.map asEcs)).2 = true ∧ (elasticAdds ok s (docs.map asEcs)).1.ops = s.ops ++ adds docs ∧ s.calls ≤ (elasticAdds ok s (docs.map asEcs)).1.calls) ∨
    ((elasticAdds ok s (docs.map asEcs)).2 = false ∧ ∃ k, (elasticAdds ok s (docs.map asEcs)).1.ops = s.ops ++ adds (docs.take k) ∧
      failuresIn ok s.calls < failuresIn ok (elasticAdds ok s (docs.map asEcs)).1.calls ∧ s.calls ≤ (elasticAdds ok s (docs.map asEcs)).1.calls) := by
  induction docs with
  | nil => intro s; exact .inl ⟨rfl, by simp [elasticAdds, adds], Nat.le_refl _⟩
  | cons d docs ih =>
    intro s
    rw [List.map_cons]
    unfold asEcs elasticAdds
    cases hk : ok s.calls with
    | false =>
      rw [if_neg (by decide)]
      refine .inr ⟨rfl, 0, by simp [adds], ?_, Nat.le_succ _⟩
      rw [failures_succ, hk]
      simp
    | true =>
      rw [if_pos rfl]
      have hm := failures_mono ok _ _ (Nat.le_succ s.calls)
      rcases ih ⟨s.ops ++ [.add d.1 d.2], s.calls + 1⟩ with ⟨h1, h2, h3⟩ | ⟨h1, k, h2, h3, h4⟩
      · exact .inl ⟨h1, by rw [show List.map (fun d => EDatum.ecs d.1 (some d.2)) docs = docs.map asEcs from rfl, h2]; simp [adds], Nat.le_trans (Nat.le_succ _) h3⟩
      · refine .inr ⟨h1, k + 1, ?_, Nat.lt_of_le_of_lt hm h3, Nat.le_trans (Nat.le_succ _) h4⟩
        rw [show List.map (fun d => EDatum.ecs d.1 (some d.2)) docs = docs.map asEcs from rfl, h2]
        simp [adds]

/-- One batch. -/
theorem elastic_batch (ok : Nat → Bool) (s : Bulk) (docs : List (Bytes × Bytes)) :
    ∃ b : Bulked, (elasticExport ok s (docs.map asEcs)).1.ops = s.ops ++ b.ops docs ∧ s.calls ≤ (elasticExport ok s (docs.map asEcs)).1.calls ∧
      (b ≠ .whole → failuresIn ok s.calls < failuresIn ok (elasticExport ok s (docs.map asEcs)).1.calls) := by
  unfold elasticExport
  cases h0 : ok s.calls with
  | false =>
    rw [if_neg (by decide)]
    refine ⟨.unopened, by simp [Bulked.ops], Nat.le_succ _, fun _ => ?_⟩
    rw [failures_succ, h0]
    simp
  | true =>
    rw [if_pos rfl]
    dsimp only
    have hm := failures_mono ok _ _ (Nat.le_succ s.calls)
    rcases adds_calls ok docs ⟨s.ops ++ [.opened], s.calls + 1⟩ with ⟨h1, h2, h3⟩ | ⟨h1, k, h2, h3, h4⟩
    · rw [h1, if_pos rfl]
      generalize elasticAdds ok ⟨s.ops ++ [.opened], s.calls + 1⟩ (docs.map asEcs) = r at h2 h3
      have h3' : s.calls ≤ r.1.calls + 1 := Nat.le_succ_of_le (Nat.le_trans (Nat.le_succ _) h3)
      cases hc : ok r.1.calls with
      | true =>
        rw [if_pos rfl]
        exact ⟨.whole, by simp [h2, Bulked.ops, bulk], h3', fun h => absurd rfl h⟩
      | false =>
        rw [if_neg (by decide)]
        refine ⟨.unclosed docs.length, by simp [h2, Bulked.ops], h3', fun _ => ?_⟩
        have : failuresIn ok (s.calls + 1) ≤ failuresIn ok r.1.calls := failures_mono ok _ _ h3
        rw [failures_succ, hc]
        simp only [Bool.false_eq_true, if_false]
        exact Nat.lt_succ_of_le (Nat.le_trans hm this)
    · rw [h1, if_neg (by decide)]
      exact ⟨.unclosed k, by simp [h2, Bulked.ops], Nat.le_trans (Nat.le_succ _) h4, fun _ => Nat.lt_of_le_of_lt hm h3⟩

theorem elastic_batches (ok : Nat → Bool) (bs : List (List (Bytes × Bytes))) (s : Bulk) :
    ∃ parts : List (Bulked × List (Bytes × Bytes)), parts.map (·.2) = bs ∧
      (bs.foldl (fun s d => ((elastic ok).send s (d.map asEcs)).1) s).ops = s.ops ++ parts.flatMap (fun q => q.1.ops q.2) ∧
      (parts.filter (fun q => q.1 != .whole)).length + failuresIn ok s.calls ≤ failuresIn ok (bs.foldl (fun s d => ((elastic ok).send s (d.map asEcs)).1) s).calls := by
  induction bs generalizing s with
  | nil => exact ⟨[], rfl, by simp, by simp⟩
  | cons b bs ih =>
    obtain ⟨q, h1, h2, h3⟩ := elastic_batch ok s b
    obtain ⟨parts, g1, g2, g3⟩ := ih ((elastic ok).send s (b.map asEcs)).1
    rw [List.foldl_cons]
    refine ⟨(q, b) :: parts, by rw [List.map_cons, g1], ?_, ?_⟩
    · rw [g2, show ((elastic ok).send s (b.map asEcs)).1.ops = _ from h1, List.flatMap_cons, List.append_assoc]
    · change _ + failuresIn ok (elasticExport ok s (b.map asEcs)).1.calls ≤ _ at g3
      rw [List.filter_cons]
      by_cases hq : q = .whole
      · rw [if_neg (by simp [hq])]
        have := failures_mono ok _ _ h2
        omega
      · have := h3 hq
        rw [if_pos (by simpa using hq), List.length_cons]
        omega

/-- **C106** The Elastic exporter: once the input is closed, what has been requested is as it should be for the documents of the records received, in order. -/
theorem elastic_requests {R : Type} (f : R → Bytes × Bytes) (ok : Nat → Bool) (eb start : Int) (es : List (Ev R)) (hc : closed es = true) :
    ∃ parts, RequestsFor ok eb ((received es).map f) (run (total (fun r => asEcs (f r))) (elastic ok) eb (init ⟨[], 0⟩ start) es).tr.ops
      (run (total (fun r => asEcs (f r))) (elastic ok) eb (init ⟨[], 0⟩ start) es).tr.calls parts := by
  let C : Codec R EDatum := total (fun r => asEcs (f r))
  obtain ⟨rest, h1, h2, _⟩ := batches_are_the_input C (elastic ok) eb (⟨[], 0⟩ : Bulk) start es
  rw [h2 hc, List.append_nil] at h1
  have hsz := fun b hb => batch_sizes C (elastic ok) eb (⟨[], 0⟩ : Bulk) start es b hb
  change ∃ parts, RequestsFor ok eb _ (run C (elastic ok) eb (init ⟨[], 0⟩ start) es).tr.ops (run C (elastic ok) eb (init ⟨[], 0⟩ start) es).tr.calls parts
  rw [run_tr, transport_calls, h1]
  generalize (run C (elastic ok) eb (init ⟨[], 0⟩ start) es).batches = bs at hsz
  have hpay : bs.filterMap (payload C) = (bs.map (fun b => b.map f)).map (fun b => b.map asEcs) := by
    clear h1
    induction bs with
    | nil => rfl
    | cons b bs ih =>
      rw [List.filterMap_cons, List.map_cons, List.map_cons, ih (fun x hx => hsz x (List.mem_cons_of_mem _ hx))]
      obtain ⟨k, -⟩ := hsz b List.mem_cons_self
      cases b with
      | nil => exact absurd rfl k
      | cons r b =>
        have hp : payload C (r :: b) = some ((r :: b).map (fun r => asEcs (f r))) := rfl
        rw [hp, List.map_map (f := f)]
        rfl
  obtain ⟨parts, g1, g2, g3⟩ := elastic_batches ok (bs.map (fun b => b.map f)) ⟨[], 0⟩
  rw [hpay, List.foldl_map]
  refine ⟨parts, ?_, ?_, g2, g3⟩
  · rw [List.flatMap_def, g1, List.map_flatten]
  · intro q hq
    have : q.2 ∈ parts.map (·.2) := List.mem_map.2 ⟨q, hq, rfl⟩
    rw [g1] at this
    obtain ⟨b, hb, he⟩ := List.mem_map.1 this
    obtain ⟨k1, k2⟩ := hsz b hb
    rw [← he]
    exact ⟨fun h => k1 (List.map_eq_nil_iff.1 h), by rw [List.length_map]; exact k2⟩

/-- **C106** Records that are not ECS documents never reach Elastic: an exporter with another format adds no document, whatever it receives. -/
theorem elastic_only_ecs (ok : Nat → Bool) {R : Type} (C : Codec R EDatum) (hC : ∀ b ds, C.encode b = some ds → ∀ d ∈ ds, d = .other) (eb start : Int) (es : List (Ev R)) :
    ∀ op ∈ (run C (elastic ok) eb (init ⟨[], 0⟩ start) es).tr.ops, op = .opened ∨ op = .closed := by
  rw [run_tr, transport_calls]
  generalize (run C (elastic ok) eb (init ⟨[], 0⟩ start) es).batches = bs
  have hp : ∀ p ∈ bs.filterMap (payload C), ∀ d ∈ p, d = EDatum.other := by
    intro p hp
    obtain ⟨b, -, hb⟩ := List.mem_filterMap.1 hp
    unfold payload at hb
    split at hb
    · rename_i ds he
      cases hb
      exact hC _ _ he
    · cases hb
  have key : ∀ (ps : List (List EDatum)) (s : Bulk), (∀ p ∈ ps, ∀ d ∈ p, d = EDatum.other) → (∀ op ∈ s.ops, op = .opened ∨ op = .closed) →
      ∀ op ∈ (ps.foldl (fun s d => ((elastic ok).send s d).1) s).ops, op = .opened ∨ op = .closed := by
    intro ps
    induction ps with
    | nil => intro s _ h; exact h
    | cons p ps ih =>
      intro s hp hs
      rw [List.foldl_cons]
      refine ih _ (fun x hx => hp x (List.mem_cons_of_mem _ hx)) ?_
      change ∀ op ∈ (elasticExport ok s p).1.ops, _
      have hop : ∀ x, x = BulkOp.opened ∨ x = BulkOp.closed → ∀ op ∈ s.ops ++ [x], op = .opened ∨ op = .closed := by
        intro x hx op hop
        rcases List.mem_append.1 hop with h | h
        · exact hs op h
        · rw [List.mem_singleton.1 h]; exact hx
      unfold elasticExport
      cases h0 : ok s.calls with
      | false => rw [if_neg (by decide)]; exact hs
      | true =>
        rw [if_pos rfl]
        dsimp only
        match p, hp p List.mem_cons_self with
        | [], _ =>
          unfold elasticAdds
          rw [if_pos rfl]
          split
          · dsimp only
            intro op hop'
            rcases List.mem_append.1 hop' with h | h
            · exact hop _ (.inl rfl) op h
            · exact .inr (List.mem_singleton.1 h)
          · exact hop _ (.inl rfl)
        | d :: ds, hd =>
          have := hd d List.mem_cons_self
          subst this
          unfold elasticAdds
          rw [if_neg (fun h => by cases h)]
          exact hop _ (.inl rfl)
  exact key _ _ hp (fun op hop => by cases hop)

/-- Three documents in batches of two; the second call, adding the first document, fails. -/
example : (run (total (fun r : Nat => asEcs ([r.toUInt8], [9]))) (elastic (fun i => i != 1)) 2 (init ⟨[], 0⟩ 0) [.recv 5 0, .recv 6 0, .recv 7 0, .close]).tr.ops =
    (Bulked.unclosed 0).ops [([5], [9]), ([6], [9])] ++ Bulked.whole.ops [([7], [9])] := by decide

end Verif.Exporter

import Verif.Exporter.Props
/-!
C75: the Elastic transport.
Source: /repo/core/exporter/transports/elastic.go
-/
namespace Verif.Exporter

/-- `commons.EncodedData` as the Elastic transport sees it: an `*encoders.ECSRecord` with its `ID` and what
`json.Marshal` makes of it (`none`: an error), or any other value. -/
inductive EDatum where
  | ecs (id : Bytes) (json : Option Bytes)
  | other
deriving DecidableEq, Repr

/-- What the transport asks of the bulk indexer library: create one, add a document (action `create`) to the
current one, close the current one. -/
inductive BulkOp where
  | opened
  | add (id body : Bytes)
  | closed
deriving DecidableEq, Repr

/-- The operations that succeeded so far, and the number of library calls made. -/
structure Bulk where
  ops : List BulkOp
  calls : Nat
deriving DecidableEq, Repr

/-- The loop of `Export` (elastic.go:97-124); `ok i` tells whether the i-th library call succeeds. -/
def elasticAdds (ok : Nat → Bool) : Bulk → List EDatum → Bulk × Bool
  | s, [] => (s, true)
  | s, .ecs _ none :: _ => (s, false)
  | s, .ecs id (some body) :: ds =>
    if ok s.calls then elasticAdds ok ⟨s.ops ++ [.add id body], s.calls + 1⟩ ds else (⟨s.ops, s.calls + 1⟩, false)
  | s, .other :: _ => (s, false)

/-- `ElasticProto.Export` (elastic.go:81-139). Logging and statistics are left out. -/
def elasticExport (ok : Nat → Bool) (s : Bulk) (ds : List EDatum) : Bulk × Bool :=
  if ok s.calls then
    let r := elasticAdds ok ⟨s.ops ++ [.opened], s.calls + 1⟩ ds
    if r.2 then
      if ok r.1.calls then (⟨r.1.ops ++ [.closed], r.1.calls + 1⟩, true) else (⟨r.1.ops, r.1.calls + 1⟩, false)
    else (r.1, false)
  else (⟨s.ops, s.calls + 1⟩, false)

/-- `ElasticProto` (elastic.go:45-147). -/
def elastic (ok : Nat → Bool) : Transport Bulk EDatum := ⟨elasticExport ok⟩

/-! ### Specification -/

/-- The document of a datum. -/
def EDatum.doc : EDatum → Option (Bytes × Bytes)
  | .ecs id (some body) => some (id, body)
  | _ => none

/-- Adding documents in order. -/
def adds (docs : List (Bytes × Bytes)) : List BulkOp := docs.map (fun d => .add d.1 d.2)

/-- One complete bulk: created, filled in order, closed. -/
def bulk (docs : List (Bytes × Bytes)) : List BulkOp := .opened :: adds docs ++ [.closed]

/-- An Elastic index: documents by id, oldest first. The action `create` stores a document unless its id is taken. -/
def create (index : List (Bytes × Bytes)) (d : Bytes × Bytes) : List (Bytes × Bytes) :=
  if d.1 ∈ index.map (·.1) then index else index ++ [d]

/-- What one bulk does to the index: its documents arrive in some order (the indexer's workers run in parallel). -/
inductive Arrives : List (Bytes × Bytes) → List (List (Bytes × Bytes)) → List (Bytes × Bytes) → Prop
  | nil (index : List (Bytes × Bytes)) : Arrives index [] index
  | cons (index docs order : List (Bytes × Bytes)) (rest : List (List (Bytes × Bytes))) (final : List (Bytes × Bytes)) :
      order.Perm docs → Arrives (order.foldl create index) rest final → Arrives index (docs :: rest) final

/-! ### Proofs -/

theorem elasticAdds_spec (ok : Nat → Bool) (ds : List EDatum) : ∀ s : Bulk,
    ∃ n docs, n ≤ ds.length ∧ (ds.take n).map EDatum.doc = docs.map some ∧ (elasticAdds ok s ds).1.ops = s.ops ++ adds docs ∧
      ((elasticAdds ok s ds).2 = true → n = ds.length) ∧
      ((elasticAdds ok s ds).2 = false → ∃ d, ds[n]? = some d ∧ (d.doc = none ∨ ok (s.calls + n) = false)) ∧
      ((∀ i, s.calls ≤ i → i < s.calls + ds.length → ok i = true) → (∀ d ∈ ds, d.doc ≠ none) → (elasticAdds ok s ds).2 = true) ∧
      ((elasticAdds ok s ds).2 = true → (elasticAdds ok s ds).1.calls = s.calls + ds.length) := by
  induction ds with
  | nil => intro s; exact ⟨0, [], Nat.le_refl _, rfl, by simp [elasticAdds, adds], fun _ => rfl, by simp [elasticAdds], fun _ _ => rfl, fun _ => rfl⟩
  | cons d ds ih =>
    intro s
    have stop : ∀ s' : Bulk, s'.ops = s.ops → (elasticAdds ok s (d :: ds)) = (s', false) → (d.doc = none ∨ ok s.calls = false) →
        ∃ n docs, n ≤ (d :: ds).length ∧ ((d :: ds).take n).map EDatum.doc = docs.map some ∧ (elasticAdds ok s (d :: ds)).1.ops = s.ops ++ adds docs ∧
          ((elasticAdds ok s (d :: ds)).2 = true → n = (d :: ds).length) ∧
          ((elasticAdds ok s (d :: ds)).2 = false → ∃ x, (d :: ds)[n]? = some x ∧ (x.doc = none ∨ ok (s.calls + n) = false)) ∧
          ((∀ i, s.calls ≤ i → i < s.calls + (d :: ds).length → ok i = true) → (∀ x ∈ d :: ds, x.doc ≠ none) → (elasticAdds ok s (d :: ds)).2 = true) ∧
          ((elasticAdds ok s (d :: ds)).2 = true → (elasticAdds ok s (d :: ds)).1.calls = s.calls + (d :: ds).length) := by
      intro s' he h hd
      rw [h]
      refine ⟨0, [], Nat.zero_le _, rfl, by simp [adds, he], by simp, fun _ => ⟨d, rfl, by simpa using hd⟩, fun h1 h2 => ?_, by simp⟩
      rcases hd with hd | hd
      · exact absurd hd (h2 d (by simp))
      · have := h1 s.calls (Nat.le_refl _) (by simp)
        rw [hd] at this; cases this
    cases d with
    | other => exact stop s rfl rfl (Or.inl rfl)
    | ecs id json =>
      cases json with
      | none => exact stop s rfl rfl (Or.inl rfl)
      | some body =>
        by_cases hk : ok s.calls = true
        · have e : elasticAdds ok s (.ecs id (some body) :: ds) = elasticAdds ok ⟨s.ops ++ [.add id body], s.calls + 1⟩ ds := by
            rw [elasticAdds, if_pos hk]
          obtain ⟨n, docs, h1, h2, h3, h4, h5, h6, h7⟩ := ih ⟨s.ops ++ [.add id body], s.calls + 1⟩
          rw [e]
          refine ⟨n + 1, (id, body) :: docs, by simpa using h1, by simp [h2, EDatum.doc], ?_, fun h => ?_, fun h => ?_, fun ha hb => ?_, fun h => ?_⟩
          · rw [h3]; simp [adds]
          · rw [List.length_cons, h4 h]
          · obtain ⟨x, hx, hx'⟩ := h5 h
            refine ⟨x, by simpa using hx, ?_⟩
            rcases hx' with hx' | hx'
            · exact Or.inl hx'
            · refine Or.inr ?_
              have : s.calls + (n + 1) = s.calls + 1 + n := by omega
              rw [this]; exact hx'
          · refine h6 (fun i hi hi' => ha i ?_ ?_) (fun x hx => hb x (by simp [hx]))
            · simp only at hi; omega
            · simp only [List.length_cons] at hi' ⊢; omega
          · rw [h7 h]; simp only [List.length_cons]; omega
        · have hk' : ok s.calls = false := by simpa using hk
          refine stop ⟨s.ops, s.calls + 1⟩ rfl ?_ (Or.inr hk')
          rw [elasticAdds, if_neg hk]

/-- **C75** A successful `Export` is one complete bulk of exactly its documents, in order; a failing one has
added a prefix of them to a bulk that is never closed (or has not created one). -/
theorem elastic_export (ok : Nat → Bool) (s : Bulk) (ds : List EDatum) :
    ((elasticExport ok s ds).2 = true → ∃ docs, ds.map EDatum.doc = docs.map some ∧ (elasticExport ok s ds).1.ops = s.ops ++ bulk docs) ∧
    ((elasticExport ok s ds).2 = false → (elasticExport ok s ds).1.ops = s.ops ∨
      ∃ n docs, (ds.take n).map EDatum.doc = docs.map some ∧ (elasticExport ok s ds).1.ops = s.ops ++ .opened :: adds docs) ∧
    ((∃ d ∈ ds, d.doc = none) → (elasticExport ok s ds).2 = false) := by
  by_cases h0 : ok s.calls = true
  · obtain ⟨n, docs, h1, h2, h3, h4, h5, h6, h7⟩ := elasticAdds_spec ok ds ⟨s.ops ++ [.opened], s.calls + 1⟩
    unfold elasticExport
    rw [if_pos h0]
    dsimp only
    cases hr : (elasticAdds ok ⟨s.ops ++ [.opened], s.calls + 1⟩ ds).2 with
    | false =>
      simp only [Bool.false_eq_true, if_false, false_implies, true_and]
      refine ⟨fun _ => Or.inr ⟨n, docs, h2, ?_⟩, by simp⟩
      rw [h3]; simp
    | true =>
      have hn := h4 hr
      rw [hn, List.take_length] at h2
      have hnone : ¬ ∃ d ∈ ds, d.doc = none := by
        rintro ⟨d, hd, hd'⟩
        have : none ∈ ds.map EDatum.doc := List.mem_map.2 ⟨d, hd, hd'⟩
        rw [h2] at this
        simp at this
      simp only [if_true]
      by_cases hc : ok (elasticAdds ok ⟨s.ops ++ [.opened], s.calls + 1⟩ ds).1.calls = true
      · rw [if_pos hc]
        refine ⟨fun _ => ⟨docs, h2, ?_⟩, by simp, fun h => absurd h hnone⟩
        simp [h3, bulk]
      · rw [if_neg hc]
        refine ⟨by simp, fun _ => Or.inr ⟨ds.length, docs, by rw [List.take_length]; exact h2, ?_⟩, by simp⟩
        simp [h3]
  · unfold elasticExport
    rw [if_neg h0]
    exact ⟨by simp, fun _ => Or.inl rfl, by simp⟩

/-- **C75** If the library never fails and every datum is an ECS record that renders, every `Export` succeeds. -/
theorem elastic_succeeds (ok : Nat → Bool) (hok : ∀ i, ok i = true) (s : Bulk) (ds : List EDatum) (hd : ∀ d ∈ ds, d.doc ≠ none) :
    (elasticExport ok s ds).2 = true := by
  obtain ⟨_, _, _, _, _, _, _, h6, _⟩ := elasticAdds_spec ok ds ⟨s.ops ++ [.opened], s.calls + 1⟩
  unfold elasticExport
  rw [if_pos (hok _)]
  dsimp only
  rw [h6 (fun i _ _ => hok i) hd]
  simp [hok]

/-- The datum of an ECS document. -/
def asEcs (d : Bytes × Bytes) : EDatum := .ecs d.1 (some d.2)

/-- **C75** Over the whole life of an exporter whose library calls succeed: the bulks are the batches, each complete,
together holding the documents of the received records in order. -/
theorem elastic_log {R : Type} (f : R → Bytes × Bytes) (ok : Nat → Bool) (hok : ∀ i, ok i = true) (eb start : Int) (es : List (Ev R))
    (hc : closed es = true) :
    ∃ bs : List (List R), bs.flatten = received es ∧ (∀ b ∈ bs, b ≠ [] ∧ (b.length : Int) ≤ max eb 1) ∧
      (run (total (fun r => asEcs (f r))) (elastic ok) eb (init ⟨[], 0⟩ start) es).tr.ops = bs.flatMap (fun b => bulk (b.map f)) := by
  let C : Codec R EDatum := total (fun r => asEcs (f r))
  obtain ⟨rest, h1, h2, _⟩ := batches_are_the_input C (elastic ok) eb (⟨[], 0⟩ : Bulk) start es
  refine ⟨(run C (elastic ok) eb (init ⟨[], 0⟩ start) es).batches, by rw [h1, h2 hc, List.append_nil], fun b hb => batch_sizes C (elastic ok) eb _ start es b hb, ?_⟩
  have hne := fun b hb => (batch_sizes C (elastic ok) eb (⟨[], 0⟩ : Bulk) start es b hb).1
  show (run C (elastic ok) eb (init ⟨[], 0⟩ start) es).tr.ops = _
  rw [run_tr, transport_calls]
  generalize (run C (elastic ok) eb (init ⟨[], 0⟩ start) es).batches = bs at hne
  have key : ∀ (bs : List (List R)) (s : Bulk), (∀ b ∈ bs, b ≠ []) →
      ((bs.filterMap (payload C)).foldl (fun s d => ((elastic ok).send s d).1) s).ops = s.ops ++ bs.flatMap (fun b => bulk (b.map f)) := by
    intro bs
    induction bs with
    | nil => intro s _; simp
    | cons b bs ih =>
      intro s hb
      have hp : payload C b = some (b.map (fun r => asEcs (f r))) := by
        cases b with
        | nil => exact absurd rfl (hb [] (by simp))
        | cons r rs => rfl
      rw [List.filterMap_cons, hp]
      dsimp only
      rw [List.foldl_cons, ih _ (fun x hx => hb x (by simp [hx]))]
      have hsucc : (elasticExport ok s (b.map (fun r => asEcs (f r)))).2 = true :=
        elastic_succeeds ok hok s _ (fun d hd => by
          obtain ⟨r, _, rfl⟩ := List.mem_map.1 hd
          simp [asEcs, EDatum.doc])
      obtain ⟨docs, hd, hops⟩ := (elastic_export ok s _).1 hsucc
      have : docs = b.map f := by
        have : docs.map some = (b.map f).map some := by
          rw [← hd, List.map_map, List.map_map]; rfl
        exact (List.map_inj_right (fun _ _ h => Option.some.inj h)).1 this
      show (elasticExport ok s _).1.ops ++ _ = _
      rw [hops, this, List.flatMap_cons, List.append_assoc]
  simpa using key bs ⟨[], 0⟩ hne

/-! #### the index -/

theorem create_mem (index : List (Bytes × Bytes)) (d x : Bytes × Bytes) (h : x ∈ create index d) : x ∈ index ∨ x = d := by
  unfold create at h
  split at h
  · exact Or.inl h
  · simpa using h

theorem create_keeps (index : List (Bytes × Bytes)) (d x : Bytes × Bytes) (h : x ∈ index) : x ∈ create index d := by
  unfold create
  split
  · exact h
  · simp [h]

theorem create_has (index : List (Bytes × Bytes)) (d : Bytes × Bytes) : d.1 ∈ (create index d).map (·.1) := by
  unfold create
  split
  · assumption
  · simp

theorem create_nodup (index : List (Bytes × Bytes)) (d : Bytes × Bytes) (h : (index.map (·.1)).Nodup) : ((create index d).map (·.1)).Nodup := by
  unfold create
  split
  · exact h
  · rename_i hn
    rw [List.map_append, List.nodup_append]
    refine ⟨h, by simp, ?_⟩
    intro a ha b hb
    simp only [List.map_cons, List.map_nil, List.mem_singleton] at hb
    subst hb
    exact fun e => hn (e ▸ ha)

theorem foldl_create (ds : List (Bytes × Bytes)) : ∀ index : List (Bytes × Bytes), (index.map (·.1)).Nodup →
    ((ds.foldl create index).map (·.1)).Nodup ∧ (∀ x ∈ index, x ∈ ds.foldl create index) ∧
    (∀ x ∈ ds.foldl create index, x ∈ index ∨ x ∈ ds) ∧ (∀ d ∈ ds, d.1 ∈ (ds.foldl create index).map (·.1)) := by
  induction ds with
  | nil => intro index h; exact ⟨h, fun x hx => hx, fun x hx => Or.inl hx, fun d hd => (by cases hd)⟩
  | cons d ds ih =>
    intro index h
    obtain ⟨h1, h2, h3, h4⟩ := ih (create index d) (create_nodup index d h)
    refine ⟨h1, fun x hx => h2 x (create_keeps index d x hx), fun x hx => ?_, fun e he => ?_⟩
    · rcases h3 x hx with h | h
      · rcases create_mem index d x h with h | h
        · exact Or.inl h
        · exact Or.inr (by simp [h])
      · exact Or.inr (by simp [h])
    · rcases List.mem_cons.1 he with rfl | he
      · obtain ⟨y, hy, hy'⟩ := List.mem_map.1 (create_has index e)
        exact List.mem_map.2 ⟨y, h2 y hy, hy'⟩
      · exact h4 e he

/-- **C75** Whatever the order in which the documents of each bulk arrive: no id is stored twice, nothing stored
before is lost or changed, every stored document was exported, and every exported id is stored. Exporting the same
records again changes nothing. -/
theorem elastic_index (bulks : List (List (Bytes × Bytes))) (index final : List (Bytes × Bytes)) (h : Arrives index bulks final)
    (hn : (index.map (·.1)).Nodup) :
    (final.map (·.1)).Nodup ∧ (∀ x ∈ index, x ∈ final) ∧ (∀ x ∈ final, x ∈ index ∨ x ∈ bulks.flatten) ∧
    (∀ d ∈ bulks.flatten, d.1 ∈ final.map (·.1)) ∧
    ((∀ d ∈ bulks.flatten, d.1 ∈ index.map (·.1)) → final = index) := by
  induction h with
  | nil index => exact ⟨hn, fun x hx => hx, fun x hx => Or.inl hx, fun d hd => (by cases hd), fun _ => rfl⟩
  | cons index docs order rest final hp _ ih =>
    obtain ⟨a1, a2, a3, a4⟩ := foldl_create order index hn
    obtain ⟨b1, b2, b3, b4, b5⟩ := ih a1
    have hmem : ∀ x, x ∈ order ↔ x ∈ docs := fun x => hp.mem_iff
    refine ⟨b1, fun x hx => b2 x (a2 x hx), fun x hx => ?_, fun d hd => ?_, fun hall => ?_⟩
    · rcases b3 x hx with h | h
      · rcases a3 x h with h | h
        · exact Or.inl h
        · exact Or.inr (by simp only [List.flatten_cons, List.mem_append]; exact Or.inl ((hmem x).1 h))
      · exact Or.inr (by simp only [List.flatten_cons, List.mem_append]; exact Or.inr h)
    · simp only [List.flatten_cons, List.mem_append] at hd
      rcases hd with hd | hd
      · obtain ⟨y, hy, hy'⟩ := List.mem_map.1 (a4 d ((hmem d).2 hd))
        exact List.mem_map.2 ⟨y, b2 y hy, hy'⟩
      · exact b4 d hd
    · have same : ∀ (l : List (Bytes × Bytes)), (∀ d ∈ l, d.1 ∈ index.map (·.1)) → l.foldl create index = index := by
        intro l
        induction l with
        | nil => intro _; rfl
        | cons d l ihl =>
          intro hl
          rw [List.foldl_cons]
          have : create index d = index := by unfold create; rw [if_pos (hl d (by simp))]
          rw [this]
          exact ihl (fun e he => hl e (by simp [he]))
      have e : order.foldl create index = index := same order (fun d hd => hall d (by
        simp only [List.flatten_cons, List.mem_append]; exact Or.inl ((hmem d).1 hd)))
      rw [e] at b5
      exact b5 (fun d hd => hall d (by simp only [List.flatten_cons, List.mem_append]; exact Or.inr hd))

/-! ### Examples -/

/-- Two documents, then a foreign value: the bulk stays open and the third datum is not looked at. -/
example : elasticExport (fun _ => true) ⟨[], 0⟩ [.ecs [1] (some [65]), .other, .ecs [2] (some [66])] = (⟨[.opened, .add [1] [65]], 2⟩, false) := by decide

example : elasticExport (fun _ => true) ⟨[], 0⟩ [.ecs [1] (some [65]), .ecs [2] (some [66])] =
    (⟨[.opened, .add [1] [65], .add [2] [66], .closed], 4⟩, true) := by decide

/-- Two bulks that share an id, in an order where the workers swap the first one. -/
example : ∃ final, Arrives [] [[([1], [65]), ([2], [66])], [([1], [67])]] final ∧ final = [([2], [66]), ([1], [65])] :=
  ⟨_, .cons _ _ [([2], [66]), ([1], [65])] _ _ (List.Perm.swap _ _ _) (.cons _ _ [([1], [67])] _ _ (.refl _) (.nil _)), by decide⟩

example : closed [Ev.recv 1 0, .recv 2 0, .close] = true ∧
    (run (total (fun n : Nat => asEcs ([n.toUInt8], [65]))) (elastic (fun _ => true)) 1 (init ⟨[], 0⟩ 0) [Ev.recv 1 0, .recv 2 0, .close]).tr.ops =
      bulk [([1], [65])] ++ bulk [([2], [65])] := by decide

end Verif.Exporter

import Verif.Exporter.Props
/-
C104: what the syslog transport has sent when the input is closed, whichever sends failed.
Source: /repo/core/exporter/transports/syslog.go:66-82, /repo/core/exporter/exporter.go:130-176
-/
namespace Verif.Exporter

/-! ### Specification -/

/-- How many of the first `n` sends fail. -/
def failuresIn (ok : Nat → Bool) (n : Nat) : Nat := ((List.range n).filter (fun i => !ok i)).length

/-- `sent` is what gets through of the messages `ms` in `n` sends, of which `ok` says which succeed, with an event buffer of `eb`: nothing else, in order; each failed send costs at most a buffer of messages;
without buffering each message is sent once, and exactly those whose send failed are missing. -/
structure GetsThrough (ok : Nat → Bool) (eb : Int) (ms sent : List Bytes) (n : Nat) : Prop where
  order : sent.Sublist ms
  lost : (ms.length : Int) ≤ sent.length + failuresIn ok n * max eb 1
  single : eb ≤ 1 → n = ms.length ∧ sent = (ms.zipIdx.filter (fun x => ok x.2)).map Prod.fst

/-- If no send fails, everything gets through. -/
theorem GetsThrough.all {ok : Nat → Bool} {eb : Int} {ms sent : List Bytes} {n : Nat} (h : GetsThrough ok eb ms sent n) (hok : ∀ i, i < n → ok i = true) : sent = ms := by
  have h0 : failuresIn ok n = 0 := by
    unfold failuresIn
    rw [List.length_eq_zero_iff, List.filter_eq_nil_iff]
    intro i hi
    rw [hok i (List.mem_range.1 hi)]
    decide
  have := h.lost
  rw [h0] at this
  simp only [Int.natCast_zero, Int.zero_mul, Int.add_zero] at this
  exact h.order.eq_of_length_le (by omega)

/-! ### Proofs -/

theorem failures_mono (ok : Nat → Bool) (n m : Nat) (h : n ≤ m) : failuresIn ok n ≤ failuresIn ok m := by
  unfold failuresIn
  exact ((List.range_sublist.2 h).filter _).length_le

theorem failures_succ (ok : Nat → Bool) (n : Nat) : failuresIn ok (n + 1) = failuresIn ok n + if ok n then 0 else 1 := by
  unfold failuresIn
  rw [List.range_succ, List.filter_append, List.length_append]
  cases h : ok n <;> simp [List.filter, h]

/-- One batch. -/
theorem syslog_batch (ok : Nat → Bool) (ds : List Datum) (hd : ∀ d ∈ ds, ∃ b, d = .bytes b ∨ d = .obj b) (s : List Bytes × Nat) :
    ∃ k, k ≤ ds.length ∧ (syslogExport ok s ds).1.1 = s.1 ++ (ds.take k).map Datum.text ∧ s.2 ≤ (syslogExport ok s ds).1.2 ∧
      (k < ds.length → failuresIn ok s.2 < failuresIn ok (syslogExport ok s ds).1.2) := by
  induction ds generalizing s with
  | nil => exact ⟨0, Nat.le_refl _, by simp [syslogExport], Nat.le_refl _, fun h => by cases h⟩
  | cons d ds ih =>
    have go : ∀ b, d.text = b → ∃ k, k ≤ (d :: ds).length ∧ (if ok s.2 then syslogExport ok (s.1 ++ [b], s.2 + 1) ds else ((s.1, s.2 + 1), false)).1.1 = s.1 ++ ((d :: ds).take k).map Datum.text ∧
        s.2 ≤ (if ok s.2 then syslogExport ok (s.1 ++ [b], s.2 + 1) ds else ((s.1, s.2 + 1), false)).1.2 ∧
        (k < (d :: ds).length → failuresIn ok s.2 < failuresIn ok (if ok s.2 then syslogExport ok (s.1 ++ [b], s.2 + 1) ds else ((s.1, s.2 + 1), false)).1.2) := by
      intro b hb
      cases ho : ok s.2 with
      | false =>
        rw [if_neg (by decide)]
        refine ⟨0, Nat.zero_le _, by simp, Nat.le_succ _, fun _ => ?_⟩
        rw [failures_succ, ho]
        simp
      | true =>
        rw [if_pos rfl]
        obtain ⟨k, h1, h2, h3, h4⟩ := ih (fun x hx => hd x (List.mem_cons_of_mem _ hx)) (s.1 ++ [b], s.2 + 1)
        refine ⟨k + 1, by simpa using h1, ?_, Nat.le_trans (Nat.le_succ _) h3, fun hk => ?_⟩
        · rw [h2]; simp [hb]
        · refine Nat.lt_of_le_of_lt (failures_mono ok _ _ (Nat.le_succ _)) (h4 ?_)
          simpa using hk
    obtain ⟨b, rfl | rfl⟩ := hd d List.mem_cons_self
    · unfold syslogExport; exact go b rfl
    · unfold syslogExport; exact go b rfl

theorem syslog_batches (ok : Nat → Bool) (m : Int) (hm : 0 ≤ m) (bs : List (List Datum)) (hd : ∀ b ∈ bs, ∀ d ∈ b, ∃ t, d = .bytes t ∨ d = .obj t) (hl : ∀ b ∈ bs, (b.length : Int) ≤ m) (s : List Bytes × Nat) :
    ∃ out, (bs.foldl (fun s d => ((syslog ok).send s d).1) s).1 = s.1 ++ out ∧ out.Sublist (bs.flatten.map Datum.text) ∧ s.2 ≤ (bs.foldl (fun s d => ((syslog ok).send s d).1) s).2 ∧
      (bs.flatten.length : Int) + failuresIn ok s.2 * m ≤ out.length + failuresIn ok (bs.foldl (fun s d => ((syslog ok).send s d).1) s).2 * m := by
  induction bs generalizing s with
  | nil => exact ⟨[], by simp, by simp, Nat.le_refl _, by simp⟩
  | cons b bs ih =>
    obtain ⟨k, h1, h2, h3, h4⟩ := syslog_batch ok b (hd b List.mem_cons_self) s
    obtain ⟨out, g1, g2, g3, g4⟩ := ih (fun x hx => hd x (List.mem_cons_of_mem _ hx)) (fun x hx => hl x (List.mem_cons_of_mem _ hx)) ((syslog ok).send s b).1
    rw [List.foldl_cons]
    refine ⟨(b.take k).map Datum.text ++ out, ?_, ?_, Nat.le_trans h3 g3, ?_⟩
    · rw [g1, show ((syslog ok).send s b).1.1 = _ from h2, List.append_assoc]
    · rw [List.flatten_cons, List.map_append]
      exact ((List.take_sublist k b).map _).append g2
    · have hb := hl b List.mem_cons_self
      rw [List.flatten_cons, List.length_append, List.length_append, List.length_map, List.length_take, Nat.min_eq_left h1]
      change ((_ : Nat) : Int) + failuresIn ok (syslogExport ok s b).1.2 * m ≤ _ at g4
      push_cast
      rcases Nat.lt_or_ge k b.length with hk | hk
      · have h5 := h4 hk
        have : ((failuresIn ok s.2 : Int) + 1) * m ≤ failuresIn ok (syslogExport ok s b).1.2 * m := Int.mul_le_mul_of_nonneg_right (by omega) hm
        rw [Int.add_mul, Int.one_mul] at this
        omega
      · have h5 := failures_mono ok _ _ h3
        have : (failuresIn ok s.2 : Int) * m ≤ failuresIn ok (syslogExport ok s b).1.2 * m := Int.mul_le_mul_of_nonneg_right (by omega) hm
        omega

/-- Batches of one message. -/
theorem syslog_singles (ok : Nat → Bool) (ds : List Datum) (hd : ∀ d ∈ ds, ∃ t, d = .bytes t ∨ d = .obj t) (s : List Bytes × Nat) :
    (ds.map (fun d => [d])).foldl (fun s d => ((syslog ok).send s d).1) s = (s.1 ++ (((ds.map Datum.text).zipIdx s.2).filter (fun x => ok x.2)).map Prod.fst, s.2 + ds.length) := by
  induction ds generalizing s with
  | nil => simp
  | cons d ds ih =>
    have hone : ((syslog ok).send s [d]).1 = (s.1 ++ (if ok s.2 then [d.text] else []), s.2 + 1) := by
      obtain ⟨b, rfl | rfl⟩ := hd d List.mem_cons_self <;>
      · change (syslogExport ok s [_]).1 = _
        unfold syslogExport
        cases ok s.2
        · rw [if_neg (by decide), if_neg (by decide), List.append_nil]
        · rw [if_pos rfl, if_pos rfl]; rfl
    rw [List.map_cons, List.foldl_cons, hone, ih (fun x hx => hd x (List.mem_cons_of_mem _ hx)), List.map_cons, List.zipIdx_cons, List.length_cons]
    refine Prod.ext ?_ (by dsimp only; omega)
    dsimp only
    rw [List.filter_cons]
    cases ok s.2
    · rw [if_neg (by decide), if_neg (by decide), List.append_nil]
    · rw [if_pos rfl, if_pos rfl, List.map_cons, List.append_assoc]; rfl

/-- **C104** The syslog exporter: once the input is closed, what has been sent is what gets through of the texts of the records received, in order. -/
theorem syslog_sent {R : Type} (f : R → Option Datum) (ok : Nat → Bool) (eb start : Int) (es : List (Ev R)) (hc : closed es = true) (hd : ∀ r ∈ received es, ∃ b, f r = some (.bytes b) ∨ f r = some (.obj b)) :
    GetsThrough ok eb (((received es).filterMap f).map Datum.text) (run (perRecord f) (syslog ok) eb (init ([], 0) start) es).tr.1 (run (perRecord f) (syslog ok) eb (init ([], 0) start) es).tr.2 := by
  obtain ⟨rest, h1, h2, -⟩ := batches_are_the_input (perRecord f) (syslog ok) eb ([], 0) start es
  rw [h2 hc, List.append_nil] at h1
  have hsz := batch_sizes (perRecord f) (syslog ok) eb ([], 0) start es
  rw [run_tr, transport_calls]
  generalize (run (perRecord f) (syslog ok) eb (init ([], 0) start) es).batches = bs at h1 hsz
  rw [h1] at hd ⊢
  have hpay : bs.filterMap (payload (perRecord f)) = bs.map (fun b => b.filterMap f) := by
    clear h1
    induction bs with
    | nil => rfl
    | cons b bs ih =>
      rw [List.map_cons, List.filterMap_cons, ih (fun r hr => hd r (by rw [List.flatten_cons]; exact List.mem_append_right _ hr)) (fun x hx => hsz x (List.mem_cons_of_mem _ hx))]
      have hne : b.filterMap f ≠ [] := by
        cases b with
        | nil => exact absurd rfl (hsz [] List.mem_cons_self).1
        | cons r b =>
          obtain ⟨t, ht | ht⟩ := hd r (by simp) <;> rw [List.filterMap_cons, ht] <;> exact List.cons_ne_nil _ _
      have hp : payload (perRecord f) b = some (b.filterMap f) := by
        unfold payload perRecord
        dsimp only
        cases hb : b.filterMap f with
        | nil => exact absurd hb hne
        | cons _ _ => rfl
      rw [hp]
  rw [hpay]
  have hflat : (bs.map (fun b => b.filterMap f)).flatten = bs.flatten.filterMap f := by
    rw [List.filterMap_flatten]
  have hd' : ∀ b ∈ bs.map (fun b => b.filterMap f), ∀ d ∈ b, ∃ t, d = Datum.bytes t ∨ d = .obj t := by
    intro b hb d hdb
    obtain ⟨b', hb', rfl⟩ := List.mem_map.1 hb
    obtain ⟨r, hr, hf⟩ := List.mem_filterMap.1 hdb
    obtain ⟨t, ht | ht⟩ := hd r (List.mem_flatten.2 ⟨b', hb', hr⟩)
    · exact ⟨t, .inl (Option.some.inj (hf.symm.trans ht))⟩
    · exact ⟨t, .inr (Option.some.inj (hf.symm.trans ht))⟩
  have hl : ∀ b ∈ bs.map (fun b => b.filterMap f), (b.length : Int) ≤ max eb 1 := by
    intro b hb
    obtain ⟨b', hb', rfl⟩ := List.mem_map.1 hb
    have := (hsz b' hb').2
    have := List.length_filterMap_le f b'
    omega
  obtain ⟨out, g1, g2, g3, g4⟩ := syslog_batches ok (max eb 1) (by omega) _ hd' hl ([], 0)
  rw [hflat] at g2 g4
  rw [List.nil_append] at g1
  refine ⟨by rw [g1]; exact g2, ?_, ?_⟩
  · rw [g1, List.length_map]
    have : failuresIn ok 0 = 0 := rfl
    rw [this] at g4
    simpa using g4
  · intro he
    have hone : bs.map (fun b => b.filterMap f) = (bs.flatten.filterMap f).map (fun d => [d]) := by
      clear hpay hflat hd' hl g1 g2 g3 g4 h1
      induction bs with
      | nil => rfl
      | cons b bs ih =>
        rw [List.map_cons, ih (fun r hr => hd r (by rw [List.flatten_cons]; exact List.mem_append_right _ hr)) (fun x hx => hsz x (List.mem_cons_of_mem _ hx)),
          List.flatten_cons, List.filterMap_append, List.map_append]
        obtain ⟨k1, k2⟩ := hsz b List.mem_cons_self
        match b, k1, k2 with
        | [], k1, _ => exact absurd rfl k1
        | [r], _, _ =>
          obtain ⟨t, ht | ht⟩ := hd r (by simp) <;> rw [List.filterMap_cons, ht] <;> rfl
        | _ :: _ :: _, _, k2 => simp only [List.length_cons] at k2; omega
    rw [hone, syslog_singles ok _ (fun d hdm => by
      obtain ⟨r, hr, hf⟩ := List.mem_filterMap.1 hdm
      obtain ⟨t, ht | ht⟩ := hd r hr
      · exact ⟨t, .inl (Option.some.inj (hf.symm.trans ht))⟩
      · exact ⟨t, .inr (Option.some.inj (hf.symm.trans ht))⟩)]
    exact ⟨by rw [List.length_map]; exact Nat.zero_add _, List.nil_append _⟩

/-- Three messages one by one, the second send failing. -/
example : (run (perRecord (fun r : Nat => some (Datum.bytes [r.toUInt8]))) (syslog (fun i => i != 1)) 0 (init ([], 0) 0) [.recv 5 0, .recv 6 0, .recv 7 0, .close]).tr = ([[5], [7]], 3) := by decide
/-- The same with a buffer: the rest of the batch is lost. -/
example : (run (perRecord (fun r : Nat => some (Datum.bytes [r.toUInt8]))) (syslog (fun i => i != 1)) 3 (init ([], 0) 0) [.recv 5 0, .recv 6 0, .recv 7 0, .close]).tr = ([[5]], 2) := by decide

end Verif.Exporter

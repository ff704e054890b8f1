import Verif.Exporter.FileFailures
import Verif.Exporter.Props
/-
C130: Kafka and the log file when some records cannot be encoded and some sends and writes fail.
Source: /repo/core/exporter/transports/kafka.go:57-75, file.go:51-70, /repo/core/exporter/exporter.go:130-176, /repo/core/exporter/encoders/otel.go:53-63
-/
namespace Verif.Exporter
variable {R : Type}

/-! ### Specification -/

/-- What a producer accepts of the messages `ms`, when `ok i` says whether it accepts the `i`-th message handed to it: these messages, in order; all of `ms` have been handed to it, once. -/
def Accepted (ok : Nat → Bool) (ms : List Bytes) (sent : List Bytes) (tried : Nat) : Prop :=
  tried = ms.length ∧ sent = (ms.zipIdx.filter (fun x => ok x.2)).map Prod.fst

/-- If it accepts all messages, all are sent. -/
theorem Accepted.all {ok : Nat → Bool} {ms sent : List Bytes} {n : Nat} (h : Accepted ok ms sent n) (hok : ∀ i, ok i = true) : sent = ms := by
  rw [h.2, List.filter_eq_self.2 (fun x _ => hok x.2)]
  exact List.zipIdx_map_fst 0 ms

/-! ### Proofs -/

/-- The data of the batches, whichever records can be encoded. -/
theorem some_batches {X : Type} (f : R → Option Datum) (T : Transport X Datum) (x0 : X) (eb start : Int) (es : List (Ev R)) (hc : closed es = true) :
    ∃ bs : List (List Datum), bs.flatten = (received es).filterMap f ∧ (∀ b ∈ bs, (b.length : Int) ≤ max eb 1) ∧
      (run (perRecord f) T eb (init x0 start) es).tr = bs.foldl (fun s d => (T.send s d).1) x0 := by
  have hsz := batch_sizes (perRecord f) T eb x0 start es
  have hcalls := transport_calls (perRecord f) T eb x0 start es
  refine ⟨_, per_record_isolation f T eb x0 start es hc, ?_, run_tr _ _ _ _ _ _⟩
  intro b hb
  rw [hcalls] at hb
  obtain ⟨r, hr, hp⟩ := List.mem_filterMap.1 hb
  have e : b = r.filterMap f := by
    unfold payload perRecord at hp
    dsimp only at hp
    cases hq : r.filterMap f with
    | nil => rw [hq] at hp; cases hp
    | cons d ds => rw [hq] at hp; exact (Option.some.inj hp).symm
  rw [e]
  have := (hsz r hr).2
  have := List.length_filterMap_le f r
  omega

/-- Kafka: once the input is closed, what the producer accepted of the messages of the records received. -/
theorem kafka_accepted (f : R → Option Bytes) (ok : Nat → Bool) (eb start : Int) (es : List (Ev R)) (hc : closed es = true) :
    Accepted ok ((received es).filterMap f) (run (perRecord (fun r => (f r).map Datum.bytes)) (kafka ok) eb (init ([], 0) start) es).tr.1
      (run (perRecord (fun r => (f r).map Datum.bytes)) (kafka ok) eb (init ([], 0) start) es).tr.2 := by
  obtain ⟨bs, h1, -, h3⟩ := some_batches (fun r => (f r).map Datum.bytes) (kafka ok) ([], 0) eb start es hc
  have key : ∀ (bs : List (List Datum)) (s : List Bytes × Nat),
      (bs.foldl (fun s d => ((kafka ok).send s d).1) s).1 = s.1 ++ (((bs.flatten.filterMap asBytes).zipIdx s.2).filter (fun p => ok p.2)).map Prod.fst ∧
      (bs.foldl (fun s d => ((kafka ok).send s d).1) s).2 = s.2 + (bs.flatten.filterMap asBytes).length := by
    intro bs
    induction bs with
    | nil => intro s; simp
    | cons b bs ih =>
      intro s
      obtain ⟨sent, k1, k2, k3⟩ := kafka_skips_failures ok b s
      obtain ⟨i1, i2⟩ := ih (kafkaExport ok s b)
      rw [List.foldl_cons]
      refine ⟨i1.trans ?_, i2.trans ?_⟩
      · rw [k1, k2, k3, List.flatten_cons, List.filterMap_append, List.zipIdx_append, List.filter_append, List.map_append, List.append_assoc, Nat.add_comm s.2]
      · rw [k2, List.flatten_cons, List.filterMap_append, List.length_append, Nat.add_assoc]
  obtain ⟨k1, k2⟩ := key bs ([], 0)
  have e : bs.flatten.filterMap asBytes = (received es).filterMap f := by
    rw [h1, List.filterMap_filterMap]
    refine congrArg (fun g => (received es).filterMap g) (funext fun r => ?_)
    cases f r <;> rfl
  rw [e] at k1 k2
  rw [h3]
  exact ⟨k2.trans (Nat.zero_add _), k1⟩

/-- The file: once the input is closed, what is kept of the texts of the records received that can be encoded. -/
theorem file_kept_partly (f : R → Option Bytes) (os : Nat → Option Nat) (eb start : Int) (es : List (Ev R)) (hc : closed es = true) :
    ∃ fates, KeptOf os eb ((received es).filterMap f) (run (perRecord (fun r => (f r).map Datum.bytes)) (fileTransport os) eb (init newFile start) es).tr.contents
      (run (perRecord (fun r => (f r).map Datum.bytes)) (fileTransport os) eb (init newFile start) es).tr.writes fates := by
  obtain ⟨bs, h1, h2, h3⟩ := some_batches (fun r => (f r).map Datum.bytes) (fileTransport os) newFile eb start es hc
  have hbs : ∀ b ∈ bs, ∀ d ∈ b, ∃ t, d = .bytes t ∨ d = .obj t := by
    intro b hb d hdb
    have : d ∈ (received es).filterMap (fun r => (f r).map Datum.bytes) := by rw [← h1]; exact List.mem_flatten.2 ⟨b, hb, hdb⟩
    obtain ⟨r, -, hf⟩ := List.mem_filterMap.1 this
    obtain ⟨t, -, ht⟩ := Option.map_eq_some_iff.1 hf
    exact ⟨t, .inl ht.symm⟩
  obtain ⟨fs, B, hs⟩ := file_batches os (max eb 1) (by omega) bs hbs h2 newFile
  have e : bs.flatten.map Datum.text = (received es).filterMap f := by
    rw [h1, List.map_filterMap]
    refine congrArg (fun g => (received es).filterMap g) (funext fun r => ?_)
    cases f r <;> rfl
  rw [e] at B
  rw [h3]
  refine ⟨fs, B.each, ?_, ?_, hs, fun k hk hj => B.before k hk (fun i hi => ?_)⟩
  · exact B.contents
  · exact B.damaged
  · rw [show newFile.writes = 0 from rfl, Nat.zero_add]
    exact hj i hi

/-- Four records, of which one cannot be encoded; the producer refuses the second message. -/
example : Accepted (fun i => i != 1) [[5], [6], [8]] (run (perRecord (fun r : Nat => (if r = 7 then none else some [r.toUInt8]).map Datum.bytes)) (kafka (fun i => i != 1)) 2 (init ([], 0) 0)
    [.recv 5 0, .recv 6 0, .recv 7 0, .recv 8 0, .close]).tr.1 3 ∧
    (run (perRecord (fun r : Nat => (if r = 7 then none else some [r.toUInt8]).map Datum.bytes)) (kafka (fun i => i != 1)) 2 (init ([], 0) 0)
    [.recv 5 0, .recv 6 0, .recv 7 0, .recv 8 0, .close]).tr.1 = [[5], [8]] := by
  refine ⟨⟨rfl, ?_⟩, ?_⟩ <;> decide

end Verif.Exporter

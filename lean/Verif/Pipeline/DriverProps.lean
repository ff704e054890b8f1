import Verif.Pipeline.Drivers
/-
What the drivers deliver (C54, C65, C66).
-/
namespace Verif.Pipeline

/-! ### Specification -/

/-- The records sent, in order. -/
def sent {R : Type} (tr : List (DAct R)) : List R :=
  tr.filterMap (fun | .send r => some r | _ => none)

/-- Actions that end a driver: closing the channel, waiting, returning. -/
def DAct.isFinal {R : Type} : DAct R → Bool
  | .close => true
  | .wait => true
  | .ret _ => true
  | _ => false

/-- The records of a file: those before the first datum that cannot be read. -/
def recordsOf {R : Type} : List (Item R) → List R
  | [] => []
  | .bad :: _ => []
  | .record r :: its => r :: recordsOf its

/-- Contents of an openable file. -/
def itemsOf {R : Type} : FileData R → List (Item R)
  | .noOpen => []
  | .data its => its

/-- The running flag, once cleared, stays cleared (only `Shutdown` changes it while the driver runs). -/
def StaysStopped (run : Nat → Bool) : Prop := ∀ k, run k = false → run (k + 1) = false

/-- After the flag has been seen cleared nothing is sent. -/
def NothingAfterStop {R : Type} (tr : List (DAct R)) : Prop :=
  ∀ pre post, tr = pre ++ .check false :: post → sent post = []

/-! ### Lemmas -/

theorem sent_append {R : Type} (a b : List (DAct R)) : sent (a ++ b) = sent a ++ sent b := by simp [sent]
@[simp] theorem sent_nil {R : Type} : sent ([] : List (DAct R)) = [] := rfl
@[simp] theorem sent_check {R : Type} (b : Bool) (tr : List (DAct R)) : sent (.check b :: tr) = sent tr := rfl
@[simp] theorem sent_send {R : Type} (r : R) (tr : List (DAct R)) : sent (.send r :: tr) = r :: sent tr := rfl
@[simp] theorem sent_close {R : Type} (tr : List (DAct R)) : sent (.close :: tr) = sent tr := rfl
@[simp] theorem sent_wait {R : Type} (tr : List (DAct R)) : sent (.wait :: tr) = sent tr := rfl
@[simp] theorem sent_ret {R : Type} (b : Bool) (tr : List (DAct R)) : sent (.ret b :: tr) = sent tr := rfl

theorem stays {run : Nat → Bool} (h : StaysStopped run) {j k : Nat} (hjk : j ≤ k) (hj : run j = false) : run k = false := by
  induction k with
  | zero => have : j = 0 := by omega
            subst this; exact hj
  | succ k ih =>
    by_cases e : j = k + 1
    · subst e; exact hj
    · exact h k (ih (by omega))

theorem nothingAfterStop_cons {R : Type} (a : DAct R) (tr : List (DAct R)) (ha : a ≠ .check false) (h : NothingAfterStop tr) :
    NothingAfterStop (a :: tr) := by
  intro pre post e
  cases pre with
  | nil => simp only [List.nil_append, List.cons.injEq] at e; exact absurd e.1 ha
  | cons x pre =>
    simp only [List.cons_append, List.cons.injEq] at e
    exact h pre post e.2

theorem nothingAfterStop_append {R : Type} (a b : List (DAct R)) (ha : NothingAfterStop a) (hb : NothingAfterStop b)
    (h : .check false ∈ a → sent b = []) : NothingAfterStop (a ++ b) := by
  induction a with
  | nil => exact hb
  | cons x a ih =>
    intro pre post e
    cases pre with
    | nil =>
      simp only [List.cons_append, List.nil_append, List.cons.injEq] at e
      obtain ⟨rfl, rfl⟩ := e
      rw [sent_append, h (by simp), ha [] a rfl, List.append_nil]
    | cons y pre =>
      simp only [List.cons_append, List.cons.injEq] at e
      refine ih ?_ ?_ pre post e.2
      · intro p q e'
        exact ha (x :: p) q (by rw [e']; rfl)
      · intro hm; exact h (List.mem_cons_of_mem _ hm)

theorem nas_nosend {R : Type} (tr : List (DAct R)) (h : sent tr = []) : NothingAfterStop tr := by
  intro pre post e
  rw [e, sent_append] at h
  have := List.append_eq_nil_iff.1 h
  simpa using this.2

theorem fileItems_spec {R : Type} (run : Nat → Bool) (k : Nat) (its : List (Item R)) :
    sent (fileItems run k its).1 <+: recordsOf its ∧
    (.check false ∉ (fileItems run k its).1 → sent (fileItems run k its).1 = recordsOf its) ∧
    (.check false ∈ (fileItems run k its).1 → ∃ j, j < (fileItems run k its).2 ∧ run j = false) ∧
    (∀ a ∈ (fileItems run k its).1, a.isFinal = false) ∧ NothingAfterStop (fileItems run k its).1 := by
  induction its generalizing k with
  | nil => exact ⟨⟨[], rfl⟩, fun _ => rfl, fun h => by simp [fileItems] at h, by simp [fileItems], nas_nosend _ rfl⟩
  | cons it its ih =>
    unfold fileItems
    by_cases hr : run k = false
    · rw [if_pos hr]
      refine ⟨⟨recordsOf (it :: its), rfl⟩, fun h => absurd (List.mem_singleton.2 rfl) h, fun _ => ⟨k, Nat.lt_succ_self _, hr⟩, ?_, nas_nosend _ rfl⟩
      intro a ha; rw [List.mem_singleton.1 ha]; rfl
    · rw [if_neg hr]
      cases it with
      | bad =>
        refine ⟨⟨[], rfl⟩, fun _ => rfl, fun h => ?_, ?_, nas_nosend _ rfl⟩
        · simp at h
        · intro a ha; rw [List.mem_singleton.1 ha]; rfl
      | record r =>
        obtain ⟨h1, h2, h3, h4, h5⟩ := ih (k + 1)
        dsimp only
        refine ⟨?_, ?_, ?_, ?_, ?_⟩
        · simp only [sent_check, sent_send, recordsOf]
          exact List.prefix_cons_inj _ |>.2 h1
        · intro h
          simp only [sent_check, sent_send, recordsOf]
          rw [h2 (fun hm => h (by simp [hm]))]
        · intro h
          have : .check false ∈ (fileItems run (k + 1) its).1 := by simpa using h
          exact h3 this
        · intro a ha
          rcases List.mem_cons.1 ha with rfl | ha
          · rfl
          rcases List.mem_cons.1 ha with rfl | ha
          · rfl
          · exact h4 a ha
        · exact nothingAfterStop_cons _ _ (by simp) (nothingAfterStop_cons _ _ (by simp) h5)

theorem fileLoop_spec {R : Type} (run : Nat → Bool) (hrun : StaysStopped run) (k : Nat) (fs : List (FileData R))
    (hopen : ∀ f ∈ fs, f ≠ .noOpen) :
    ∃ body, fileLoop run k fs = body ++ [.close, .wait, .ret false] ∧ (∀ a ∈ body, a.isFinal = false) ∧
      sent body <+: fs.flatMap (fun f => recordsOf (itemsOf f)) ∧
      (.check false ∉ body → sent body = fs.flatMap (fun f => recordsOf (itemsOf f))) ∧ NothingAfterStop body := by
  induction fs generalizing k with
  | nil => exact ⟨[], rfl, by simp, ⟨[], rfl⟩, fun _ => rfl, nas_nosend _ rfl⟩
  | cons f fs ih =>
    cases f with
    | noOpen => exact absurd rfl (hopen .noOpen (by simp))
    | data its =>
      obtain ⟨h1, h2, h3, h4, h5⟩ := fileItems_spec run k its
      unfold fileLoop
      dsimp only
      by_cases hr : run (fileItems run k its).2 = false
      · rw [if_pos hr]
        refine ⟨(fileItems run k its).1 ++ [.check false], by simp, ?_, ?_, ?_, ?_⟩
        · intro a ha
          rcases List.mem_append.1 ha with ha | ha
          · exact h4 a ha
          · rw [List.mem_singleton.1 ha]; rfl
        · rw [sent_append]
          simp only [sent_check, sent_nil, List.append_nil, List.flatMap_cons, itemsOf]
          exact h1.trans (List.prefix_append _ _)
        · intro h; exact absurd (List.mem_append_right _ (List.mem_singleton.2 rfl)) h
        · exact nothingAfterStop_append _ _ h5 (nas_nosend _ rfl) (fun _ => rfl)
      · rw [if_neg hr]
        have hnf : .check false ∉ (fileItems run k its).1 := by
          intro h
          obtain ⟨j, hj, hf⟩ := h3 h
          exact hr (stays hrun (Nat.le_of_lt hj) hf)
        obtain ⟨body, e, b1, b2, b3, b4⟩ := ih ((fileItems run k its).2 + 1) (fun f hf => hopen f (by simp [hf]))
        refine ⟨(fileItems run k its).1 ++ .check true :: body, by rw [e]; simp, ?_, ?_, ?_, ?_⟩
        · intro a ha
          rcases List.mem_append.1 ha with ha | ha
          · exact h4 a ha
          rcases List.mem_cons.1 ha with rfl | ha
          · rfl
          · exact b1 a ha
        · rw [sent_append, h2 hnf]
          simp only [sent_check, List.flatMap_cons, itemsOf]
          exact (List.prefix_append_right_inj _).2 b2
        · intro h
          rw [sent_append, h2 hnf]
          simp only [sent_check, List.flatMap_cons, itemsOf]
          have hm' : DAct.check false ∉ body := fun hm => h (List.mem_append_right _ (List.mem_cons_of_mem _ hm))
          rw [b3 hm']
          rfl
        · refine nothingAfterStop_append _ _ h5 (nothingAfterStop_cons _ _ (by simp) b4) (fun h => absurd h hnf)

/-! ### Property theorems -/

/-- **C54** (SysFlow file driver) If all files can be opened: the driver sends a prefix of the records of the files, in file
order; it is all of them unless a stop request was seen; nothing is sent after a stop request has been seen; then, as its last
actions, it closes the channel (once), waits for the pipeline and returns without an error. -/
theorem file_driver_delivers {R : Type} (run : Nat → Bool) (hrun : StaysStopped run) (fs : List (FileData R))
    (hopen : ∀ f ∈ fs, f ≠ .noOpen) :
    ∃ body, fileDriver run (some fs) = body ++ [.close, .wait, .ret false] ∧ (∀ a ∈ body, a.isFinal = false) ∧
      sent body <+: fs.flatMap (fun f => recordsOf (itemsOf f)) ∧
      (.check false ∉ body → sent body = fs.flatMap (fun f => recordsOf (itemsOf f))) ∧ NothingAfterStop body :=
  fileLoop_spec run hrun 0 fs hopen

/-- **C54** In particular, without a stop request exactly the records of all files are delivered, in order. -/
theorem file_driver_all {R : Type} (fs : List (FileData R)) (hopen : ∀ f ∈ fs, f ≠ .noOpen) :
    sent (fileDriver (fun _ => true) (some fs)) = fs.flatMap (fun f => recordsOf (itemsOf f)) := by
  have mem : ∀ (k : Nat) (its : List (Item R)), .check false ∉ (fileItems (fun _ => true) k its).1 := by
    intro k its h
    obtain ⟨j, _, hj⟩ := (fileItems_spec _ k its).2.2.1 h
    cases hj
  have key : ∀ k (fs : List (FileData R)), (∀ f ∈ fs, f ≠ .noOpen) →
      sent (fileLoop (fun _ => true) k fs) = fs.flatMap (fun f => recordsOf (itemsOf f)) := by
    intro k fs
    induction fs generalizing k with
    | nil => intro _; rfl
    | cons f fs ih =>
      intro hopen
      cases f with
      | noOpen => exact absurd rfl (hopen .noOpen (by simp))
      | data its =>
        unfold fileLoop
        simp only [Bool.true_eq_false, if_false]
        rw [sent_append, (fileItems_spec _ k its).2.1 (mem k its), sent_check, ih _ (fun f hf => hopen f (by simp [hf]))]
        rfl
  exact key 0 fs hopen

/-- **C54**, finding: if a file cannot be opened (or is not an Avro container) and no stop was requested before, the driver
returns an error *without* closing the channel and without waiting: the records of the earlier files were sent, but the
pipeline is never told that the stream ended. -/
theorem file_driver_error_leaves_channel_open {R : Type} (pre post : List (FileData R)) (hopen : ∀ f ∈ pre, f ≠ .noOpen) :
    ∃ body, fileDriver (fun _ => true) (some (pre ++ .noOpen :: post)) = body ++ [.ret true] ∧ (∀ a ∈ body, a.isFinal = false) ∧
      sent body = pre.flatMap (fun f => recordsOf (itemsOf f)) := by
  have mem : ∀ (k : Nat) (its : List (Item R)), .check false ∉ (fileItems (fun _ => true) k its).1 := by
    intro k its h
    obtain ⟨j, _, hj⟩ := (fileItems_spec _ k its).2.2.1 h
    cases hj
  have key : ∀ k (pre : List (FileData R)), (∀ f ∈ pre, f ≠ .noOpen) →
      ∃ body, fileLoop (fun _ => true) k (pre ++ .noOpen :: post) = body ++ [.ret true] ∧ (∀ a ∈ body, a.isFinal = false) ∧
      sent body = pre.flatMap (fun f => recordsOf (itemsOf f)) := by
    intro k pre
    induction pre generalizing k with
    | nil => intro _; exact ⟨[], rfl, by simp, rfl⟩
    | cons f pre ih =>
      intro hopen
      cases f with
      | noOpen => exact absurd rfl (hopen .noOpen (by simp))
      | data its =>
        obtain ⟨body, e, b1, b2⟩ := ih ((fileItems (fun _ => true) k its).2 + 1) (fun f hf => hopen f (by simp [hf]))
        refine ⟨(fileItems (fun _ => true) k its).1 ++ .check true :: body, ?_, ?_, ?_⟩
        · rw [List.cons_append]
          unfold fileLoop
          simp only [Bool.true_eq_false, if_false]
          rw [e]; simp
        · intro a ha
          rcases List.mem_append.1 ha with ha | ha
          · exact (fileItems_spec _ k its).2.2.2.1 a ha
          rcases List.mem_cons.1 ha with rfl | ha
          · rfl
          · exact b1 a ha
        · rw [sent_append, (fileItems_spec _ k its).2.1 (mem k its), sent_check, b2]
          rfl
  exact key 0 pre hopen

/-- **C54** The files of a directory are its entries in order; a missing path, an unreadable directory and an empty one are
errors; a plain file is just itself. (finding) A path whose status cannot be read for another reason makes the driver panic. -/
theorem files_of_path {N P : Type} (here : P) (sub : N → P) :
    getFiles here sub .file = some (some [here]) ∧
    (∀ es, es ≠ [] → getFiles here sub (.dir es) = some (some (es.map sub))) ∧
    getFiles here sub (.dir []) = some none ∧ getFiles here sub .missing = some none ∧ getFiles here sub .unreadable = some none ∧
    getFiles here sub .noStat = none := by
  refine ⟨rfl, fun es h => by simp [getFiles, h], by simp [getFiles], rfl, rfl, rfl⟩

/-! #### OTel file driver -/

/-- The pointers sent. -/
def sentPtrs {R : Type} (tr : List (MAct R)) : List Ptr :=
  tr.filterMap (fun | .send p => some p | _ => none)

/-- The contents of object `p` after the actions `tr`: the last write to it. -/
def contents {R : Type} (p : Ptr) (tr : List (MAct R)) : Option R :=
  (tr.filterMap (fun | .write q r => if q = p then some r else none | _ => none)).getLast?

/-- What a consumer sees that looks at each record as soon as it is sent. -/
def seenAtSend {R : Type} : List (MAct R) → List (MAct R) → List (Option R)
  | _, [] => []
  | done, .send p :: tr => contents p done :: seenAtSend (done ++ [.send p]) tr
  | done, a :: tr => seenAtSend (done ++ [a]) tr

/-- What a consumer sees that looks at the records after the driver has finished (they wait in the channel, whose capacity is
100000). -/
def seenAtEnd {R : Type} (tr : List (MAct R)) : List (Option R) := (sentPtrs tr).map (fun p => contents p tr)

/-- Writes of fresh objects: pointer numbers from `n` on. -/
def freshWrites {J R : Type} (dec : J → R → R) (zero : R) : Nat → List J → List (MAct R)
  | _, [] => []
  | n, j :: js => .write n (dec j zero) :: freshWrites dec zero (n + 1) js

theorem unmarshal_fresh {J R : Type} (dec : J → R → R) (zero : R) (m : Mem R) (js : List J) :
    (unmarshal dec zero [] m js).1 = List.range' m.length js.length ∧
    (unmarshal dec zero [] m js).2.1 = List.range' m.length js.length ∧
    (unmarshal dec zero [] m js).2.2.1 = m ++ js.map (fun j => dec j zero) ∧
    (unmarshal dec zero [] m js).2.2.2 = freshWrites dec zero m.length js := by
  induction js generalizing m with
  | nil => simp [unmarshal, freshWrites]
  | cons j js ih =>
    unfold unmarshal
    have := ih (m ++ [dec j zero])
    simp only [List.length_append, List.length_cons, List.length_nil] at this
    dsimp only
    rw [this.1, this.2.1, this.2.2.1, this.2.2.2]
    refine ⟨rfl, rfl, by simp, rfl⟩

theorem contents_freshWrites {J R : Type} (dec : J → R → R) (zero : R) (n : Nat) (js : List J) (i : Nat) :
    contents (n + i) (freshWrites dec zero n js) = js[i]?.map (fun j => dec j zero) := by
  induction js generalizing n i with
  | nil => simp [contents, freshWrites]
  | cons j js ih =>
    cases i with
    | zero =>
      have hlt : ∀ m, n < m → (freshWrites dec zero m js).filterMap
          (fun | .write q r => if q = n then some r else none | _ => none) = [] := by
        clear ih
        induction js with
        | nil => intro m _; rfl
        | cons a js ih =>
          intro m hm
          rw [freshWrites, List.filterMap_cons_none]
          · exact ih (m + 1) (by omega)
          · exact if_neg (Nat.ne_of_gt hm)
      unfold contents
      rw [freshWrites]
      simp only [Nat.add_zero, List.filterMap_cons, if_true]
      rw [hlt (n + 1) (by omega)]
      rfl
    | succ i =>
      have := ih (n + 1) i
      unfold contents at this ⊢
      rw [freshWrites, List.filterMap_cons_none]
      · rw [show n + (i + 1) = n + 1 + i by omega, this]; simp
      · simp

theorem contents_append_other {R : Type} (p : Ptr) (a b : List (MAct R)) (h : ∀ x ∈ b, ∀ q r, x ≠ .write q r) :
    contents p (a ++ b) = contents p a := by
  unfold contents
  rw [List.filterMap_append]
  have : b.filterMap (fun | .write q r => if q = p then some r else none | _ => none) = [] := by
    rw [List.filterMap_eq_nil_iff]
    intro x hx
    cases x with
    | write q r => exact absurd rfl (h _ hx q r)
    | _ => rfl
  rw [this, List.append_nil]

theorem sendPtrs_spec {R : Type} (run : Nat → Bool) (k : Nat) (ps : List Ptr) :
    sentPtrs (sendPtrs (R := R) run k ps).1 <+: ps ∧
    ((∀ j, run j = true) → sentPtrs (sendPtrs (R := R) run k ps).1 = ps) ∧
    (∀ x ∈ (sendPtrs (R := R) run k ps).1, ∀ q r, x ≠ .write q r) ∧
    (∀ x ∈ (sendPtrs (R := R) run k ps).1, x ≠ .close) := by
  induction ps generalizing k with
  | nil => simp [sendPtrs, sentPtrs]
  | cons p ps ih =>
    unfold sendPtrs
    by_cases h : run k = false
    · rw [if_pos h]
      refine ⟨⟨p :: ps, rfl⟩, fun h' => ?_, by simp, by simp⟩
      rw [h' k] at h; cases h
    · rw [if_neg h]
      obtain ⟨h1, h2, h3, h4⟩ := ih (k + 1)
      refine ⟨?_, ?_, ?_, ?_⟩
      · show p :: sentPtrs (sendPtrs (R := R) run (k + 1) ps).1 <+: _
        exact (List.prefix_cons_inj _).2 h1
      · intro h'
        show p :: sentPtrs (sendPtrs (R := R) run (k + 1) ps).1 = _
        rw [h2 h']
      · intro x hx
        rcases List.mem_cons.1 hx with rfl | hx
        · simp
        rcases List.mem_cons.1 hx with rfl | hx
        · simp
        · exact h3 x hx
      · intro x hx
        rcases List.mem_cons.1 hx with rfl | hx
        · simp
        rcases List.mem_cons.1 hx with rfl | hx
        · simp
        · exact h4 x hx

theorem sentPtrs_append {R : Type} (a b : List (MAct R)) : sentPtrs (a ++ b) = sentPtrs a ++ sentPtrs b := by simp [sentPtrs]

theorem sentPtrs_freshWrites {J R : Type} (dec : J → R → R) (zero : R) (n : Nat) (js : List J) : sentPtrs (freshWrites dec zero n js) = [] := by
  induction js generalizing n with
  | nil => rfl
  | cons j js ih => exact ih (n + 1)

theorem unmarshal_ptrs {J R : Type} (dec : J → R → R) (zero : R) (slots : List Ptr) (m : Mem R) (js : List J) :
    (unmarshal dec zero slots m js).1 <+: (unmarshal dec zero slots m js).2.1 ∧
    (∀ x ∈ (unmarshal dec zero slots m js).2.2.2, ∀ p, x ≠ .send p) := by
  induction js generalizing slots m with
  | nil => simp [unmarshal]
  | cons j js ih =>
    cases slots with
    | nil =>
      unfold unmarshal
      obtain ⟨h1, h2⟩ := ih [] (m ++ [dec j zero])
      refine ⟨(List.prefix_cons_inj _).2 h1, ?_⟩
      intro x hx
      rcases List.mem_cons.1 hx with rfl | hx
      · simp
      · exact h2 x hx
    | cons s slots =>
      unfold unmarshal
      obtain ⟨h1, h2⟩ := ih slots (m.set s (dec j (m.getD s zero)))
      refine ⟨(List.prefix_cons_inj _).2 h1, ?_⟩
      intro x hx
      rcases List.mem_cons.1 hx with rfl | hx
      · simp
      · exact h2 x hx

/-- **C54** (OTel file driver, part): for a single decodable file the driver sends its records in order — all of them if no
stop was requested, otherwise a prefix — and whenever a consumer looks at them, even long afterwards, it sees exactly the
decoded records.
Missing, because it is false of the program: the same for several files (see `otel_second_file_overwrites_first`). -/
theorem otel_file_driver_partial {J R : Type} (dec : J → R → R) (zero : R) (run : Nat → Bool) (js : List J) :
    seenAtEnd (otelFileDriver dec zero run (some [some js])) <+: js.map (fun j => some (dec j zero)) ∧
    ((∀ k, run k = true) → seenAtEnd (otelFileDriver dec zero run (some [some js])) = js.map (fun j => some (dec j zero))) := by
  obtain ⟨u1, u2, u3, u4⟩ := unmarshal_fresh dec zero ([] : Mem R) js
  simp only [List.length_nil] at u1 u2 u4
  obtain ⟨s1, s2, s3, s4⟩ := sendPtrs_spec (R := R) run 0 (List.range' 0 js.length)
  obtain ⟨tail, htail, ht1, ht2⟩ : ∃ tail : List (MAct R),
      otelFileDriver dec zero run (some [some js]) = freshWrites dec zero 0 js ++ ((sendPtrs (R := R) run 0 (List.range' 0 js.length)).1 ++ tail) ∧
      (∀ x ∈ tail, ∀ q r, x ≠ .write q r) ∧ sentPtrs tail = [] := by
    unfold otelFileDriver otelLoop
    dsimp only
    rw [u1, u4]
    split
    · exact ⟨[.check false, .close, .wait, .ret false], by simp, by simp, rfl⟩
    · refine ⟨[.check true, .close, .wait, .ret false], by simp [otelLoop], by simp, rfl⟩
  have hsent : sentPtrs (otelFileDriver dec zero run (some [some js])) = sentPtrs (sendPtrs (R := R) run 0 (List.range' 0 js.length)).1 := by
    rw [htail, sentPtrs_append, sentPtrs_append, sentPtrs_freshWrites, ht2]; simp
  have hcont : ∀ p, contents p (otelFileDriver dec zero run (some [some js])) = js[p]?.map (fun j => dec j zero) := by
    intro p
    rw [htail, contents_append_other]
    · simpa using contents_freshWrites dec zero 0 js p
    · intro x hx
      rcases List.mem_append.1 hx with hx | hx
      · exact s3 x hx
      · exact ht1 x hx
  have hall : (List.range' 0 js.length).map (fun p => js[p]?.map (fun j => dec j zero)) = js.map (fun j => some (dec j zero)) := by
    apply List.ext_getElem?
    intro i
    simp only [List.getElem?_map]
    by_cases hi : i < js.length
    · rw [List.getElem?_range' (by simpa using hi), List.getElem?_eq_getElem hi]
      simp [List.getElem?_eq_getElem hi]
    · rw [List.getElem?_eq_none (by simp; omega), List.getElem?_eq_none (by omega)]
      rfl
  unfold seenAtEnd
  rw [hsent]
  have hf : (fun p => contents p (otelFileDriver dec zero run (some [some js]))) = (fun p => js[p]?.map (fun j => dec j zero)) := funext hcont
  rw [hf, ← hall]
  exact ⟨s1.map _, fun h => by rw [s2 h]⟩

/-- **C54**, finding (OTel file driver): with two non-empty files, the first record of the second file is decoded into the
object of the first record of the first file, which has already been sent: both sends carry the same pointer, and a
consumer that has not looked at the first record before the second file is read sees the second file's record (merged with
the first one's fields) in its place. -/
theorem otel_second_file_overwrites_first {J R : Type} (dec : J → R → R) (zero : R) (j j' : J) :
    sentPtrs (otelFileDriver dec zero (fun _ => true) (some [some [j], some [j']])) = [0, 0] ∧
    seenAtEnd (otelFileDriver dec zero (fun _ => true) (some [some [j], some [j']])) = [some (dec j' (dec j zero)), some (dec j' (dec j zero))] ∧
    seenAtSend [] (otelFileDriver dec zero (fun _ => true) (some [some [j], some [j']])) = [some (dec j zero), some (dec j' (dec j zero))] :=
  ⟨rfl, rfl, rfl⟩

/-- **C54**, finding (OTel file driver): a file that cannot be opened or decoded ends the driver with an error, the channel
stays open. -/
theorem otel_error_leaves_channel_open {J R : Type} (dec : J → R → R) (zero : R) (run : Nat → Bool) (k : Nat) (slots : List Ptr) (m : Mem R)
    (fs : List (Option (List J))) : otelLoop dec zero run k slots m (none :: fs) = [.ret true] := rfl

/-! #### C65: streaming driver -/

/-- The records of a connection: one per message read, up to the first read error. -/
def connRecords {R : Type} : List (Msg R) → List R
  | [] => []
  | .fail :: _ => []
  | .good r :: ms => r :: connRecords ms
  | .partly r :: ms => r :: connRecords ms

theorem streamConn_spec {R : Type} (run : Nat → Bool) (k : Nat) (ms : List (Msg R)) :
    sent (streamConn run k ms).1 <+: connRecords ms ∧
    (.check false ∉ (streamConn run k ms).1 → sent (streamConn run k ms).1 = connRecords ms) ∧
    (.check false ∈ (streamConn run k ms).1 → ∃ j, j < (streamConn run k ms).2 ∧ run j = false) ∧
    (∀ a ∈ (streamConn run k ms).1, a.isFinal = false) ∧ NothingAfterStop (streamConn run k ms).1 := by
  have stop : ∀ (k : Nat) (ms : List (Msg R)), run k = false →
      sent ([.check false] : List (DAct R)) <+: connRecords ms ∧
      (.check false ∉ ([.check false] : List (DAct R)) → sent ([.check false] : List (DAct R)) = connRecords ms) ∧
      (.check false ∈ ([.check false] : List (DAct R)) → ∃ j, j < k + 1 ∧ run j = false) ∧
      (∀ a ∈ ([.check false] : List (DAct R)), a.isFinal = false) ∧ NothingAfterStop ([.check false] : List (DAct R)) := by
    intro k ms hr
    refine ⟨⟨connRecords ms, rfl⟩, fun h => absurd (List.mem_singleton.2 rfl) h, fun _ => ⟨k, Nat.lt_succ_self _, hr⟩, ?_, nas_nosend _ rfl⟩
    intro a ha; rw [List.mem_singleton.1 ha]; rfl
  induction ms generalizing k with
  | nil =>
    unfold streamConn
    by_cases hr : run k = false
    · rw [if_pos hr]; exact stop k [] hr
    · rw [if_neg hr]
      refine ⟨⟨[], rfl⟩, fun _ => rfl, fun h => by simp at h, ?_, nas_nosend _ rfl⟩
      intro a ha; rw [List.mem_singleton.1 ha]; rfl
  | cons m ms ih =>
    unfold streamConn
    by_cases hr : run k = false
    · rw [if_pos hr]; exact stop k (m :: ms) hr
    · rw [if_neg hr]
      obtain ⟨h1, h2, h3, h4, h5⟩ := ih (k + 1)
      have go : ∀ r : R,
          sent (.check true :: .send r :: (streamConn run (k + 1) ms).1) <+: r :: connRecords ms ∧
          (.check false ∉ (.check true :: .send r :: (streamConn run (k + 1) ms).1 : List (DAct R)) →
            sent (.check true :: .send r :: (streamConn run (k + 1) ms).1) = r :: connRecords ms) ∧
          (.check false ∈ (.check true :: .send r :: (streamConn run (k + 1) ms).1 : List (DAct R)) →
            ∃ j, j < (streamConn run (k + 1) ms).2 ∧ run j = false) ∧
          (∀ a ∈ (.check true :: .send r :: (streamConn run (k + 1) ms).1 : List (DAct R)), a.isFinal = false) ∧
          NothingAfterStop (.check true :: .send r :: (streamConn run (k + 1) ms).1) := by
        intro r
        refine ⟨?_, ?_, ?_, ?_, ?_⟩
        · simp only [sent_check, sent_send]; exact (List.prefix_cons_inj _).2 h1
        · intro h
          simp only [sent_check, sent_send]
          rw [h2 (fun hm => h (by simp [hm]))]
        · intro h
          have : .check false ∈ (streamConn run (k + 1) ms).1 := by simpa using h
          exact h3 this
        · intro a ha
          rcases List.mem_cons.1 ha with rfl | ha
          · rfl
          rcases List.mem_cons.1 ha with rfl | ha
          · rfl
          · exact h4 a ha
        · exact nothingAfterStop_cons _ _ (by simp) (nothingAfterStop_cons _ _ (by simp) h5)
      cases m with
      | fail =>
        refine ⟨⟨[], rfl⟩, fun _ => rfl, fun h => by simp at h, ?_, nas_nosend _ rfl⟩
        intro a ha; rw [List.mem_singleton.1 ha]; rfl
      | good r => exact go r
      | partly r => exact go r

/-- **C65** The streaming driver sends the records of the accepted connections in order — one per message, up to each
connection's first read error — until a stop request is seen, after which it sends nothing; it then closes the channel
once, waits for the pipeline and returns without an error. -/
theorem stream_driver_delivers {R : Type} (run : Nat → Bool) (hrun : StaysStopped run) (k : Nat) (cs : List (List (Msg R))) :
    ∃ body, streamLoop run k cs = body ++ [.close, .wait, .ret false] ∧ (∀ a ∈ body, a.isFinal = false) ∧
      sent body <+: cs.flatMap connRecords ∧
      (.check false ∉ body → sent body = cs.flatMap connRecords) ∧ NothingAfterStop body := by
  have single : ∀ b : Bool, ∀ a ∈ ([.check b] : List (DAct R)), a.isFinal = false := by
    intro b a ha; rw [List.mem_singleton.1 ha]; rfl
  induction cs generalizing k with
  | nil =>
    unfold streamLoop
    by_cases hr : run k = false
    · rw [if_pos hr]; exact ⟨[.check false], rfl, single _, ⟨[], rfl⟩, fun _ => rfl, nas_nosend _ rfl⟩
    · rw [if_neg hr]; exact ⟨[.check true], rfl, single _, ⟨[], rfl⟩, fun _ => rfl, nas_nosend _ rfl⟩
  | cons c cs ih =>
    unfold streamLoop
    by_cases hr : run k = false
    · rw [if_pos hr]
      exact ⟨[.check false], rfl, single _, ⟨_, rfl⟩, fun h => absurd (List.mem_singleton.2 rfl) h, nas_nosend _ rfl⟩
    · rw [if_neg hr]
      obtain ⟨h1, h2, h3, h4, h5⟩ := streamConn_spec run (k + 1) c
      obtain ⟨body, e, b1, b2, b3, b4⟩ := ih (streamConn run (k + 1) c).2
      refine ⟨.check true :: (streamConn run (k + 1) c).1 ++ body, by rw [e]; simp, ?_, ?_, ?_, ?_⟩
      · intro a ha
        rw [List.cons_append] at ha
        rcases List.mem_cons.1 ha with rfl | ha
        · rfl
        rcases List.mem_append.1 ha with ha | ha
        · exact h4 a ha
        · exact b1 a ha
      · rw [List.cons_append, sent_check, sent_append, List.flatMap_cons]
        by_cases hf : .check false ∈ (streamConn run (k + 1) c).1
        · obtain ⟨j, hj, hjf⟩ := h3 hf
          have hs : sent body = [] := by
            have hz : run (streamConn run (k + 1) c).2 = false := stays hrun (Nat.le_of_lt hj) hjf
            have : sent (streamLoop run (streamConn run (k + 1) c).2 cs) = [] := by
              cases cs <;> unfold streamLoop <;> rw [if_pos hz] <;> rfl
            rw [e, sent_append] at this
            exact (List.append_eq_nil_iff.1 this).1
          rw [hs, List.append_nil]
          exact h1.trans (List.prefix_append _ _)
        · rw [h2 hf]
          exact (List.prefix_append_right_inj _).2 b2
      · intro h
        rw [List.cons_append, sent_check, sent_append, List.flatMap_cons]
        have h' : .check false ∉ (streamConn run (k + 1) c).1 ++ body := by simpa using h
        rw [h2 (fun hm => h' (List.mem_append_left _ hm)), b3 (fun hm => h' (List.mem_append_right _ hm))]
      · rw [List.cons_append]
        refine nothingAfterStop_cons _ _ (by simp) (nothingAfterStop_append _ _ h5 b4 ?_)
        intro hf
        obtain ⟨j, hj, hjf⟩ := h3 hf
        have hz : run (streamConn run (k + 1) c).2 = false := stays hrun (Nat.le_of_lt hj) hjf
        have : sent (streamLoop run (streamConn run (k + 1) c).2 cs) = [] := by
          cases cs <;> unfold streamLoop <;> rw [if_pos hz] <;> rfl
        rw [e, sent_append] at this
        exact (List.append_eq_nil_iff.1 this).1

/-- **C65**, finding: a message that fails to decode is not dropped; the partly filled record is sent on like any other. -/
theorem undecodable_message_forwarded {R : Type} (r : R) : connRecords [.partly r] = [r] ∧
    sent (streamLoop (fun _ => true) 0 [[.partly r]]) = [r] := ⟨rfl, rfl⟩

/-! #### C66: Kafka driver -/

/-- The records of the messages before the first one that cannot be read or parsed. -/
def kafkaRecords {R : Type} : List (KMsg R) → List R
  | [] => []
  | .fail :: _ => []
  | .unparsable :: _ => []
  | .recs rs :: ms => rs ++ kafkaRecords ms

/-- **C66** The Kafka driver sends the records of the messages in order up to the first message that cannot be read or
parsed; it then closes its channel (once, after everything was sent) and returns an error — without waiting for the
pipeline, and never looking at the running flag. -/
theorem kafka_driver_delivers {R : Type} (ms : List (KMsg R)) :
    kafkaDriver ms = (kafkaRecords ms).map .send ++ [.close, .ret true] := by
  induction ms with
  | nil => rfl
  | cons m ms ih =>
    cases m with
    | fail => rfl
    | unparsable => rfl
    | recs rs => simp [kafkaDriver, kafkaRecords, ih]

/-- **C66**, finding: the driver never waits for the pipeline, so records still in flight when it returns may be lost when the
program exits. -/
theorem kafka_driver_never_waits {R : Type} (ms : List (KMsg R)) : .wait ∉ kafkaDriver ms := by
  rw [kafka_driver_delivers]
  intro h
  rcases List.mem_append.1 h with h | h
  · obtain ⟨r, _, hr⟩ := List.mem_map.1 h; cases hr
  · simp at h

/-! ### Examples -/

example : fileDriver (fun k => k < 3) (some [.data [.record 1, .bad, .record 2], .data [.record 3, .record 4]]) =
    [.check true, .send 1, .check true, .check true, .check false, .check false, .close, .wait, .ret false] := by decide

example : StaysStopped (fun k => decide (k < 3)) := by intro k h; simp at h ⊢; omega

example : sent (fileDriver (fun _ => true) (some [.data [.record 1, .bad, .record 2], .data [.record 3, .record 4]])) = [1, 3, 4] := by decide

example : streamLoop (fun k => k < 6) 0 [[.good 1, .partly 2, .fail], [.good 3]] =
    [.check true, .check true, .send 1, .check true, .send 2, .check true, .check true, .check true, .send 3, .check false,
     .check false, .close, .wait, .ret false] := by decide

example : kafkaDriver [.recs [1, 2], .recs [], .recs [3], .unparsable, .recs [4]] =
    [.send 1, .send 2, .send 3, .close, .ret true] := by decide

end Verif.Pipeline

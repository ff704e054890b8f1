import Verif.Exporter.Syslog
/-
C106: what the log file holds when the input is closed, whichever writes failed.
Source: /repo/core/exporter/transports/file.go:51-70, /repo/core/exporter/exporter.go:130-176
-/
namespace Verif.Exporter

/-! ### Specification -/

/-- What becomes of a message: it has a line of its own; the newline after it is missing; only its first `k` bytes are there; it is not there. -/
inductive Fate where
  | line
  | glued
  | cut (k : Nat)
  | skipped
deriving DecidableEq, Repr

/-- What of a message is in the file. -/
def Fate.piece : Fate → Bytes → Bytes
  | .line, m => m ++ [newline]
  | .glued, m => m
  | .cut k, m => m.take k
  | .skipped, _ => []

def Fate.isCut : Fate → Bool
  | .cut _ => true
  | _ => false

/-- How many of the first `n` writes fail. -/
def failedWrites (os : Nat → Option Nat) (n : Nat) : Nat := failuresIn (fun i => (os i).isNone) n

/-- What the file holds after `n` writes, of which `os` says which fail, of the messages `ms`, with an event buffer of `eb`: of each message one piece, in order; every missing newline and every cut message
is due to a failing write of its own; each cut message costs at most the rest of a buffer of messages (so none is skipped without buffering); as long as no write fails, all messages are there. -/
structure KeptOf (os : Nat → Option Nat) (eb : Int) (ms : List Bytes) (contents : Bytes) (n : Nat) (fates : List Fate) : Prop where
  each : fates.length = ms.length
  contents : contents = (List.zipWith Fate.piece fates ms).flatten
  damaged : (fates.filter (· == .glued)).length + (fates.filter Fate.isCut).length ≤ failedWrites os n
  lost : ((fates.filter (· == .skipped)).length : Int) ≤ (fates.filter Fate.isCut).length * (max eb 1 - 1)
  before : ∀ k, k ≤ ms.length → (∀ i, i < 2 * k → os i = none) → fates.take k = List.replicate k .line

/-- If no write fails, every message has its line. -/
theorem KeptOf.all {os : Nat → Option Nat} {eb : Int} {ms : List Bytes} {contents : Bytes} {n : Nat} {fates : List Fate} (h : KeptOf os eb ms contents n fates) (hok : ∀ i, os i = none) :
    contents = ms.flatMap (fun l => l ++ [newline]) := by
  have hf : fates = List.replicate ms.length .line := by
    have := h.before ms.length (Nat.le_refl _) (fun i _ => hok i)
    rwa [← h.each, List.take_length, h.each] at this
  rw [h.contents, hf]
  clear h hf
  induction ms with
  | nil => rfl
  | cons m ms ih => rw [List.length_cons, List.replicate_succ, List.zipWith_cons_cons, List.flatten_cons, ih]; rfl

/-! ### Proofs -/

/-- The data of the batches, when every record received can be encoded. -/
theorem closed_batches {R X : Type} (f : R → Option Datum) (T : Transport X Datum) (x0 : X) (eb start : Int) (es : List (Ev R)) (hc : closed es = true) (hd : ∀ r ∈ received es, f r ≠ none) :
    ∃ bs : List (List Datum), bs.flatten = (received es).filterMap f ∧ (∀ b ∈ bs, b ≠ [] ∧ (b.length : Int) ≤ max eb 1) ∧
      (run (perRecord f) T eb (init x0 start) es).tr = bs.foldl (fun s d => (T.send s d).1) x0 := by
  obtain ⟨rest, h1, h2, -⟩ := batches_are_the_input (perRecord f) T eb x0 start es
  rw [h2 hc, List.append_nil] at h1
  have hsz := batch_sizes (perRecord f) T eb x0 start es
  rw [run_tr, transport_calls]
  generalize (run (perRecord f) T eb (init x0 start) es).batches = bs at h1 hsz
  rw [h1] at hd ⊢
  have hne : ∀ b ∈ bs, b.filterMap f ≠ [] := by
    intro b hb
    obtain ⟨k1, -⟩ := hsz b hb
    match b, k1, hb with
    | [], k1, _ => exact absurd rfl k1
    | r :: b, _, hb =>
      obtain ⟨t, ht⟩ := Option.ne_none_iff_exists'.1 (hd r (List.mem_flatten.2 ⟨_, hb, List.mem_cons_self⟩))
      rw [List.filterMap_cons, ht]
      exact List.cons_ne_nil _ _
  have hpay : bs.filterMap (payload (perRecord f)) = bs.map (fun b => b.filterMap f) := by
    clear h1 hd
    induction bs with
    | nil => rfl
    | cons b bs ih =>
      rw [List.map_cons, List.filterMap_cons, ih (fun x hx => hsz x (List.mem_cons_of_mem _ hx)) (fun x hx => hne x (List.mem_cons_of_mem _ hx))]
      have hp : payload (perRecord f) b = some (b.filterMap f) := by
        unfold payload perRecord
        dsimp only
        cases hb : b.filterMap f with
        | nil => exact absurd hb (hne b List.mem_cons_self)
        | cons _ _ => rfl
      rw [hp]
  refine ⟨bs.map (fun b => b.filterMap f), by rw [List.filterMap_flatten], ?_, by rw [hpay]⟩
  intro b hb
  obtain ⟨b', hb', rfl⟩ := List.mem_map.1 hb
  have := (hsz b' hb').2
  have := List.length_filterMap_le f b'
  exact ⟨hne b' hb', by omega⟩

theorem failedWrites_mono (os : Nat → Option Nat) {n m : Nat} (h : n ≤ m) : failedWrites os n ≤ failedWrites os m := failures_mono _ _ _ h

theorem failedWrites_succ (os : Nat → Option Nat) (n : Nat) : failedWrites os (n + 1) = failedWrites os n + if (os n).isNone then 0 else 1 := failures_succ _ _

def gluedIn (fs : List Fate) : Nat := (fs.filter (· == .glued)).length
def cutIn (fs : List Fate) : Nat := (fs.filter Fate.isCut).length
def skippedIn (fs : List Fate) : Nat := (fs.filter (· == .skipped)).length

theorem counts_cons (x : Fate) (fs : List Fate) : gluedIn (x :: fs) = (if x = .glued then 1 else 0) + gluedIn fs ∧ cutIn (x :: fs) = (if x.isCut then 1 else 0) + cutIn fs ∧
    skippedIn (x :: fs) = (if x = .skipped then 1 else 0) + skippedIn fs := by
  unfold gluedIn cutIn skippedIn
  rw [List.filter_cons, List.filter_cons, List.filter_cons]
  cases x <;> simp [Fate.isCut] <;> omega

theorem counts_append (fs gs : List Fate) : gluedIn (fs ++ gs) = gluedIn fs + gluedIn gs ∧ cutIn (fs ++ gs) = cutIn fs + cutIn gs ∧ skippedIn (fs ++ gs) = skippedIn fs + skippedIn gs := by
  unfold gluedIn cutIn skippedIn
  simp

theorem counts_skips (n : Nat) : gluedIn (List.replicate n .skipped) = 0 ∧ cutIn (List.replicate n .skipped) = 0 ∧ skippedIn (List.replicate n .skipped) = n := by
  unfold gluedIn cutIn skippedIn
  refine ⟨?_, ?_, ?_⟩
  · rw [List.filter_replicate]; rfl
  · rw [List.filter_replicate]; rfl
  · rw [List.filter_replicate]; exact List.length_replicate

theorem skips_piece (ms : List Bytes) : (List.zipWith Fate.piece (List.replicate ms.length .skipped) ms).flatten = [] := by
  induction ms with
  | nil => rfl
  | cons m ms ih => rw [List.length_cons, List.replicate_succ, List.zipWith_cons_cons, List.flatten_cons, ih]; rfl

/-- What one batch does: `f` before, `g` after. -/
structure Batch (os : Nat → Option Nat) (f g : OutFile) (ms : List Bytes) (fs : List Fate) : Prop where
  each : fs.length = ms.length
  contents : g.contents = f.contents ++ (List.zipWith Fate.piece fs ms).flatten
  later : f.writes ≤ g.writes
  damaged : gluedIn fs + cutIn fs + failedWrites os f.writes ≤ failedWrites os g.writes
  before : ∀ k, k ≤ ms.length → (∀ i, i < 2 * k → os (f.writes + i) = none) → fs.take k = List.replicate k .line
  full : (∀ i, i < 2 * ms.length → os (f.writes + i) = none) → g.writes = f.writes + 2 * ms.length

theorem file_batch (os : Nat → Option Nat) (ds : List Datum) (hd : ∀ d ∈ ds, ∃ b, d = .bytes b ∨ d = .obj b) (f : OutFile) :
    ∃ fs, Batch os f (fileExport os f ds).1 (ds.map Datum.text) fs ∧ ((skippedIn fs = 0 ∧ cutIn fs = 0) ∨ (cutIn fs = 1 ∧ skippedIn fs + 1 ≤ ds.length)) := by
  induction ds generalizing f with
  | nil =>
    refine ⟨[], ⟨rfl, by simp [fileExport], Nat.le_refl _, by simp [fileExport, gluedIn, cutIn], ?_, fun _ => rfl⟩, .inl ⟨rfl, rfl⟩⟩
    intro k hk _
    rw [Nat.le_zero.1 hk]
    rfl
  | cons d ds ih =>
    have go : ∀ b, d.text = b → ∃ fs, Batch os f (if (f.write os b).2 then fileExport os ((f.write os b).1.write os [newline]).1 ds else ((f.write os b).1, false)).1 ((d :: ds).map Datum.text) fs ∧
        ((skippedIn fs = 0 ∧ cutIn fs = 0) ∨ (cutIn fs = 1 ∧ skippedIn fs + 1 ≤ (d :: ds).length)) := by
      intro b hb
      cases h1 : os f.writes with
      | some k =>
        have hw : f.write os b = (⟨f.contents ++ b.take k, f.writes + 1⟩, false) := by unfold OutFile.write; rw [h1]
        rw [hw, if_neg (fun h => by cases h)]
        obtain ⟨c1, c2, c3⟩ := counts_cons (.cut k) (List.replicate (ds.map Datum.text).length .skipped)
        obtain ⟨k1, k2, k3⟩ := counts_skips (ds.map Datum.text).length
        refine ⟨.cut k :: List.replicate (ds.map Datum.text).length .skipped, ⟨by simp, ?_, Nat.le_succ _, ?_, ?_, ?_⟩, .inr ⟨?_, ?_⟩⟩
        · rw [List.map_cons, List.zipWith_cons_cons, List.flatten_cons, skips_piece, List.append_nil, hb]; rfl
        · rw [c1, c2, k1, k2]
          change _ ≤ failedWrites os (f.writes + 1)
          rw [failedWrites_succ, h1]
          simp [Fate.isCut]
          omega
        · intro j _ hj
          cases j with
          | zero => rfl
          | succ j =>
            have := hj 0 (by omega)
            rw [Nat.add_zero, h1] at this
            cases this
        · intro hj
          have := hj 0 (by simp)
          rw [Nat.add_zero, h1] at this
          cases this
        · rw [c2, k2]; simp [Fate.isCut]
        · rw [c3, k3]; simp
      | none =>
        have hw : f.write os b = (⟨f.contents ++ b, f.writes + 1⟩, true) := by unfold OutFile.write; rw [h1]
        rw [hw, if_pos rfl]
        dsimp only
        -- the newline
        have hnl : ∃ x g, (⟨f.contents ++ b, f.writes + 1⟩ : OutFile).write os [newline] = g ∧ g.1.contents = f.contents ++ Fate.piece x b ∧ g.1.writes = f.writes + 2 ∧
            (x = .line ∨ x = .glued ∧ (os (f.writes + 1)).isNone = false) := by
          unfold OutFile.write
          dsimp only
          cases h2 : os (f.writes + 1) with
          | none => exact ⟨.line, _, rfl, by simp [Fate.piece], rfl, .inl rfl⟩
          | some j =>
            cases j with
            | zero => exact ⟨.glued, _, rfl, by simp [Fate.piece], rfl, .inr ⟨rfl, rfl⟩⟩
            | succ j => exact ⟨.line, _, rfl, by simp [Fate.piece], rfl, .inl rfl⟩
        obtain ⟨x, g, hg, g1, g2, g3⟩ := hnl
        rw [hg]
        obtain ⟨fs, B, hcases⟩ := ih (fun y hy => hd y (List.mem_cons_of_mem _ hy)) g.1
        obtain ⟨c1, c2, c3⟩ := counts_cons x fs
        have hx1 : x.isCut = false := by rcases g3 with rfl | ⟨rfl, -⟩ <;> rfl
        have hx2 : x ≠ .skipped := by rcases g3 with rfl | ⟨rfl, -⟩ <;> decide
        rw [hx1] at c2
        rw [if_neg hx2] at c3
        simp only [Bool.false_eq_true, if_false, Nat.zero_add] at c2 c3
        have hok : (∀ i, i < 2 → os (f.writes + i) = none) → x = .line := by
          intro h
          rcases g3 with h3 | ⟨-, h3⟩
          · exact h3
          · rw [h 1 (by omega)] at h3; cases h3
        refine ⟨x :: fs, ⟨by simp [B.each], ?_, ?_, ?_, ?_, ?_⟩, ?_⟩
        · rw [B.contents, g1, List.map_cons, List.zipWith_cons_cons, List.flatten_cons, hb, List.append_assoc]
        · have := B.later
          omega
        · have hB := B.damaged
          rw [g2] at hB
          have hm := failedWrites_mono os (n := f.writes + 1) (m := f.writes + 2) (by omega)
          have hm' := failedWrites_mono os (n := f.writes) (m := f.writes + 1) (by omega)
          rw [c1, c2]
          rcases g3 with rfl | ⟨rfl, h3⟩
          · simp only [reduceCtorEq, if_false]
            omega
          · have : failedWrites os (f.writes + 2) = _ := failedWrites_succ os (f.writes + 1)
            rw [h3] at this
            simp only [Bool.false_eq_true, if_false, if_true] at this ⊢
            omega
        · intro k hk hj
          cases k with
          | zero => rfl
          | succ k =>
            rw [List.take_succ_cons, List.replicate_succ, hok (fun i hi => hj i (by omega)), B.before k (by simpa using hk) ?_]
            intro i hi
            rw [g2, show f.writes + 2 + i = f.writes + (i + 2) by omega]
            exact hj _ (by omega)
        · intro hj
          rw [List.map_cons, List.length_cons] at hj ⊢
          rw [B.full ?_, g2]
          · omega
          · intro i hi
            rw [g2, show f.writes + 2 + i = f.writes + (i + 2) by omega]
            exact hj _ (by omega)
        · rw [c2, c3, List.length_cons]
          omega
    obtain ⟨b, rfl | rfl⟩ := hd d List.mem_cons_self
    · unfold fileExport; exact go b rfl
    · unfold fileExport; exact go b rfl

theorem file_batches (os : Nat → Option Nat) (m : Int) (hm : 1 ≤ m) (bs : List (List Datum)) (hd : ∀ b ∈ bs, ∀ d ∈ b, ∃ t, d = .bytes t ∨ d = .obj t) (hl : ∀ b ∈ bs, (b.length : Int) ≤ m) (f : OutFile) :
    ∃ fs, Batch os f (bs.foldl (fun s d => ((fileTransport os).send s d).1) f) (bs.flatten.map Datum.text) fs ∧ (skippedIn fs : Int) ≤ cutIn fs * (m - 1) := by
  induction bs generalizing f with
  | nil =>
    refine ⟨[], ⟨rfl, by simp, Nat.le_refl _, by simp [gluedIn, cutIn], ?_, fun _ => rfl⟩, ?_⟩
    · intro k hk _
      rw [Nat.le_zero.1 hk]
      rfl
    · simp [skippedIn, cutIn]
  | cons b bs ih =>
    obtain ⟨fs, B, hb⟩ := file_batch os b (hd b List.mem_cons_self) f
    obtain ⟨gs, G, hg⟩ := ih (fun x hx => hd x (List.mem_cons_of_mem _ hx)) (fun x hx => hl x (List.mem_cons_of_mem _ hx)) (fileExport os f b).1
    have hlb := hl b List.mem_cons_self
    obtain ⟨c1, c2, c3⟩ := counts_append fs gs
    have hlen : fs.length = (b.map Datum.text).length := B.each
    refine ⟨fs ++ gs, ⟨?_, ?_, ?_, ?_, ?_, ?_⟩, ?_⟩
    · rw [List.flatten_cons, List.map_append, List.length_append, List.length_append, B.each, G.each]
    · rw [List.flatten_cons, List.map_append, List.zipWith_append hlen, List.flatten_append, List.foldl_cons]
      refine G.contents.trans ?_
      rw [B.contents, List.append_assoc]
    · exact Nat.le_trans B.later G.later
    · have h1 := B.damaged
      have h2 := G.damaged
      rw [c1, c2, List.foldl_cons]
      change _ ≤ failedWrites os (bs.foldl (fun s d => ((fileTransport os).send s d).1) (fileExport os f b).1).writes
      omega
    · intro k hk hj
      rcases Nat.le_total k fs.length with hkf | hkf
      · rw [List.take_append_of_le_length hkf]
        exact B.before k (by rw [← hlen]; exact hkf) hj
      · obtain ⟨j, rfl⟩ := Nat.le.dest hkf
        have hB : fs = List.replicate fs.length .line := by
          have := B.before fs.length (by rw [hlen]; exact Nat.le_refl _) (fun i hi => hj i (by omega))
          rwa [List.take_length] at this
        have hw : (fileExport os f b).1.writes = f.writes + 2 * fs.length := by
          rw [hlen]
          exact B.full (fun i hi => hj i (by rw [hlen]; omega))
        rw [List.take_length_add_append, ← List.replicate_append_replicate, ← hB, G.before j ?_ ?_]
        · rw [List.flatten_cons, List.map_append, List.length_append, ← hlen] at hk
          omega
        · intro i hi
          rw [hw, Nat.add_assoc]
          exact hj _ (by omega)
    · intro hj
      rw [List.flatten_cons, List.map_append, List.length_append] at hj ⊢
      have hw : (fileExport os f b).1.writes = f.writes + 2 * (b.map Datum.text).length := B.full (fun i hi => hj i (by omega))
      rw [List.foldl_cons]
      refine (G.full ?_).trans ?_
      · intro i hi
        rw [hw, Nat.add_assoc]
        exact hj _ (by omega)
      · rw [hw]; omega
    · rw [c2, c3]
      push_cast
      rw [Int.add_mul]
      have : (skippedIn fs : Int) ≤ cutIn fs * (m - 1) := by
        rcases hb with ⟨h1, h2⟩ | ⟨h1, h2⟩
        · rw [h1, h2]; simp
        · rw [h1]; omega
      omega

/-- **C106** The file exporter: once the input is closed, the file holds what is kept of the texts of the records received, in order. -/
theorem file_kept {R : Type} (f : R → Option Datum) (os : Nat → Option Nat) (eb start : Int) (es : List (Ev R)) (hc : closed es = true) (hd : ∀ r ∈ received es, ∃ b, f r = some (.bytes b) ∨ f r = some (.obj b)) :
    ∃ fates, KeptOf os eb (((received es).filterMap f).map Datum.text) (run (perRecord f) (fileTransport os) eb (init newFile start) es).tr.contents
      (run (perRecord f) (fileTransport os) eb (init newFile start) es).tr.writes fates := by
  obtain ⟨bs, h1, h2, h3⟩ := closed_batches f (fileTransport os) newFile eb start es hc (fun r hr h => by obtain ⟨b, hb | hb⟩ := hd r hr <;> rw [h] at hb <;> cases hb)
  have hbs : ∀ b ∈ bs, ∀ d ∈ b, ∃ t, d = .bytes t ∨ d = .obj t := by
    intro b hb d hdb
    have : d ∈ (received es).filterMap f := by rw [← h1]; exact List.mem_flatten.2 ⟨b, hb, hdb⟩
    obtain ⟨r, hr, hf⟩ := List.mem_filterMap.1 this
    obtain ⟨t, ht | ht⟩ := hd r hr
    · exact ⟨t, .inl (Option.some.inj (hf.symm.trans ht))⟩
    · exact ⟨t, .inr (Option.some.inj (hf.symm.trans ht))⟩
  obtain ⟨fs, B, hs⟩ := file_batches os (max eb 1) (by omega) bs hbs (fun b hb => (h2 b hb).2) newFile
  rw [h3, ← h1]
  refine ⟨fs, B.each, ?_, ?_, hs, fun k hk hj => B.before k hk (fun i hi => ?_)⟩
  · exact B.contents
  · exact B.damaged
  · rw [show newFile.writes = 0 from rfl, Nat.zero_add]
    exact hj i hi

/-- Three messages one by one; the third write, of the second message, fails after a byte, and the last, of a newline. -/
example : (run (perRecord (fun r : Nat => some (Datum.bytes [r.toUInt8, 9]))) (fileTransport (fun i => if i = 2 then some 1 else if i = 4 then some 0 else none)) 0 (init newFile 0)
    [.recv 5 0, .recv 6 0, .recv 7 0, .close]).tr.contents = ([Fate.line.piece [5, 9], (Fate.cut 1).piece [6, 9], Fate.glued.piece [7, 9]]).flatten := by decide
/-- The same with a buffer: the rest of the batch is lost. -/
example : (run (perRecord (fun r : Nat => some (Datum.bytes [r.toUInt8, 9]))) (fileTransport (fun i => if i = 2 then some 1 else none)) 3 (init newFile 0)
    [.recv 5 0, .recv 6 0, .recv 7 0, .close]).tr.contents = ([Fate.line.piece [5, 9], (Fate.cut 1).piece [6, 9], Fate.skipped.piece [7, 9]]).flatten := by decide

end Verif.Exporter

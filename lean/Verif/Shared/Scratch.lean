import Verif.Ecs.Identity
import Verif.Flattener.FilterProps
/-
C113: the package-level scratch buffers that stages running side by side have in common.
Sources: /repo/core/exporter/encoders/ecs.go:163-202 (`byteInt64`, shared by all ECS encoders), /repo/core/flattener/filter.go:32, 99-126 (`byteInt64`, shared by all flatteners).
Each stage is a goroutine of its own (pipeline.go:197-199), so the operations of several stages interleave in every way.
-/
namespace Verif.Shared
open Verif.Decimal (Str)
open Verif.FlatRecord
open Verif.Filter (le64 IsI64)

/-! ### Model -/

/-- An operation of `encodeID` or `semanticHash`: `h.Write([]byte(s))`; `binary.LittleEndian.PutUint64(byteInt64, uint64(n))`; `h.Write(byteInt64)`; taking the sum and starting over with
`xxhash.New()` (ecs.go:167-201, filter.go:100-125). The hash object is local to the call, `byteInt64` is not. Each operation is one step: that the eight bytes could also be written piecemeal is left out. -/
inductive Op where
  | text (b : List UInt8)
  | put (n : Int)
  | feed
  | sum
deriving DecidableEq, Repr

/-- A part of what is hashed: a text, or a number by way of the scratch buffer. -/
inductive Item where
  | text (b : List UInt8)
  | num (n : Int)
deriving DecidableEq, Repr

/-- The operations for an item (e.g. ecs.go:169, 171-172). -/
def Item.ops : Item → List Op
  | .text b => [.text b]
  | .num n => [.put n, .feed]

/-- A goroutine: the operations it has yet to do, what it has written to its hash object, and the inputs of the sums it has taken. -/
structure Thread where
  rest : List Op
  fed : List UInt8 := []
  sums : List (List UInt8) := []

/-- The goroutines and the buffer (ecs.go:163, filter.go:32); `hist` records who did what, for the statements only. -/
structure Mem where
  buf : List UInt8
  threads : Nat → Thread
  hist : List (Nat × Op) := []

/-- A goroutine's own state after an operation, with the buffer as it finds it. -/
def Thread.exec (t : Thread) (buf : List UInt8) (ops : List Op) : Op → Thread
  | .text b => { t with rest := ops, fed := t.fed ++ b }
  | .put _ => { t with rest := ops }
  | .feed => { t with rest := ops, fed := t.fed ++ buf }
  | .sum => { rest := ops, fed := [], sums := t.sums ++ [t.fed] }

/-- The buffer after an operation (ecs.go:171, filter.go:103). -/
def bufAfter (buf : List UInt8) : Op → List UInt8
  | .put n => le64 n
  | _ => buf

/-- One goroutine does its next operation. -/
def Mem.exec (m : Mem) (i : Nat) (op : Op) (ops : List Op) : Mem where
  buf := bufAfter m.buf op
  threads := fun j => if j = i then (m.threads i).exec m.buf ops op else m.threads j
  hist := m.hist ++ [(i, op)]

/-- The calls of one goroutine, one after the other. -/
def digest (xs : List Item) : List Op := xs.flatMap Item.ops ++ [.sum]

/-- The beginning: every goroutine has its calls before it. -/
def start (buf : List UInt8) (calls : Nat → List (List Item)) : Mem where
  buf := buf
  threads := fun i => { rest := (calls i).flatMap digest }

/-- Executions: in each step some goroutine does its next operation. -/
inductive Run (m : Mem) : Mem → Prop where
  | refl : Run m m
  | step {m' : Mem} (i : Nat) (op : Op) (ops : List Op) : Run m m' → (m'.threads i).rest = op :: ops → Run m (m'.exec i op ops)

/-- What `encodeID` hashes (ecs.go:166-201), operation by operation. -/
def idItems (L : Ecs.ELib) (fr : FlatRec) : List Item :=
  let t := Ecs.ms L fr "sf.type".toList
  let i := fun a => Item.num (fr.getInt a .sysflow)
  [.text (Utf8.bytes (Ecs.ms L fr "sf.node.id".toList)), .text (Utf8.bytes (Ecs.ms L fr "sf.container.id".toList)),
   i .TS_INT, i .TID_INT, i .PROC_OID_CREATETS_INT, i .OPFLAGS_INT] ++
  (if t = "FF".toList ∨ t = "FE".toList then [.text (Utf8.bytes (Ecs.ms L fr "sf.file.oid".toList))]
   else if t = "NF".toList then [i .FL_NETW_SIP_INT, i .FL_NETW_SPORT_INT, i .FL_NETW_DIP_INT, i .FL_NETW_DPORT_INT, i .FL_NETW_PROTO_INT]
   else if t = "KE".toList then [i .K8SE_ACTION_INT, i .K8SE_KIND_INT, .text (Utf8.bytes (Ecs.ms L fr "sf.ke.message".toList))]
   else [])

/-- What `semanticHash` hashes (filter.go:99-125), operation by operation. -/
def keyItems (fr : FlatRec) : List Item :=
  let i := fun a => Item.num (fr.getInt a .sysflow)
  [.text (Utf8.bytes (fr.getStr .PROC_EXE_STR .sysflow)), .text (Utf8.bytes (fr.getStr .PROC_EXEARGS_STR .sysflow)),
   i .PROC_UID_INT, i .PROC_GID_INT, i .OPFLAGS_INT, i .PROC_TTY_INT] ++
  (if fr.getInt .SF_REC_TYPE .sysflow = NET_FLOW then [i .FL_NETW_SIP_INT, i .FL_NETW_DIP_INT, i .FL_NETW_DPORT_INT, i .FL_NETW_PROTO_INT] else []) ++
  (if fr.getInt .SF_REC_TYPE .sysflow = FILE_FLOW ∨ fr.getInt .SF_REC_TYPE .sysflow = FILE_EVT then [.text (Utf8.bytes (fr.getStr .FILE_PATH_STR .sysflow))] else [])

/-- ECS exporters that encode records: exporter `i` is to encode `recs i`. -/
def exporters (L : Ecs.ELib) (buf : List UInt8) (recs : Nat → List FlatRec) : Mem := start buf (fun i => (recs i).map (idItems L))

/-- The identifiers that exporter `i` has given so far (ecs.go:201). -/
def ids (L : Ecs.ELib) (m : Mem) (i : Nat) : List Str := (m.threads i).sums.map L.hash

/-- Readers with the duplicate filter on: reader `i` is to compute the keys of `recs i`. -/
def readers (buf : List UInt8) (recs : Nat → List FlatRec) : Mem := start buf (fun i => (recs i).map keyItems)

/-- The keys that reader `i` has computed so far (filter.go:125). -/
def keys (xxh : List UInt8 → UInt64) (m : Mem) (i : Nat) : List UInt64 := (m.threads i).sums.map xxh

/-! ### Specification -/

/-- Goroutine `i` has done all its work. -/
def Finished (m : Mem) (i : Nat) : Prop := (m.threads i).rest = []

/-- Nobody writes to the buffer between another goroutine's writing to it and its reading of it. -/
def Undisturbed (h : List (Nat × Op)) : Prop :=
  ∀ pre mid post i n, h = pre ++ (i, .put n) :: mid ++ (i, .feed) :: post → (∀ e ∈ mid, e.1 ≠ i) → ∀ e ∈ mid, ∀ k, e.2 ≠ .put k

/-! ### Proofs -/

/-- The bytes of an item. -/
def Item.bytes : Item → List UInt8
  | .text b => b
  | .num n => le64 n

abbrev bytesOf (xs : List Item) : List UInt8 := xs.flatMap Item.bytes

theorem id_bytes (L : Ecs.ELib) (fr : FlatRec) : bytesOf (idItems L fr) = Ecs.idInput L fr := by
  unfold idItems Ecs.idInput bytesOf
  dsimp only
  repeat' split
  all_goals simp only [List.flatMap_append, List.flatMap_cons, List.flatMap_nil, Item.bytes, List.append_nil, List.append_assoc]

theorem key_bytes (fr : FlatRec) : bytesOf (keyItems fr) = Filter.hashInput fr := by
  unfold keyItems Filter.hashInput bytesOf
  dsimp only
  repeat' split
  all_goals simp only [List.flatMap_append, List.flatMap_cons, List.flatMap_nil, Item.bytes, List.append_nil, List.append_assoc]

theorem Undisturbed.init {h : List (Nat × Op)} {e : Nat × Op} (u : Undisturbed (h ++ [e])) : Undisturbed h := by
  intro pre mid post i n hh hm
  exact u pre mid (post ++ [e]) i n (by rw [hh]; simp) hm

theorem Run.trans {a b c : Mem} (h1 : Run a b) (h2 : Run b c) : Run a c := by
  induction h2 with
  | refl => exact h1
  | step i op ops _ hr ih => exact .step i op ops ih hr

/-- The buffer holds what was last put there. -/
theorem buf_last {m m' : Mem} (hm : m.hist = []) (h : Run m m') : ∀ pre mid i n, m'.hist = pre ++ (i, .put n) :: mid → (∀ e ∈ mid, ∀ k, e.2 ≠ .put k) → m'.buf = le64 n := by
  induction h with
  | refl =>
    intro pre mid i n hh
    rw [hm] at hh
    exact absurd hh (by simp)
  | @step m' j op ops _ hr ih =>
    intro pre mid i n hh hn
    change m'.hist ++ [(j, op)] = _ at hh
    change bufAfter m'.buf op = _
    rcases List.eq_nil_or_concat mid with rfl | ⟨mid', e, rfl⟩
    · obtain ⟨h1, h2⟩ := List.append_inj' hh rfl
      cases h2
      rfl
    · rw [List.concat_eq_append] at hh hn
      have hh' : m'.hist ++ [(j, op)] = (pre ++ (i, .put n) :: mid') ++ [e] := by rw [hh]; simp
      obtain ⟨h1, h2⟩ := List.append_inj' hh' rfl
      cases h2
      have hb := ih pre mid' i n h1 (fun e he => hn e (by simp [he]))
      have ho := hn (j, op) (by simp)
      cases op with
      | put k => exact absurd rfl (ho k)
      | text b => exact hb
      | feed => exact hb
      | sum => exact hb

/-- Where a goroutine is in its calls: between items, or between writing a number to the buffer and reading it, or done. -/
inductive At (h : List (Nat × Op)) (i : Nat) (xs : List (List Item)) (t : Thread) : Prop where
  | between (past : List (List Item)) (cur todo : List Item) (later : List (List Item)) : xs = past ++ (cur ++ todo) :: later → t.sums = past.map bytesOf → t.fed = bytesOf cur →
      t.rest = todo.flatMap Item.ops ++ .sum :: later.flatMap digest → At h i xs t
  | halfway (past : List (List Item)) (cur : List Item) (n : Int) (todo : List Item) (later : List (List Item)) : xs = past ++ (cur ++ .num n :: todo) :: later → t.sums = past.map bytesOf →
      t.fed = bytesOf cur → t.rest = .feed :: (todo.flatMap Item.ops ++ .sum :: later.flatMap digest) → (∃ pre mid, h = pre ++ (i, .put n) :: mid ∧ ∀ e ∈ mid, e.1 ≠ i) → At h i xs t
  | done : t.sums = xs.map bytesOf → t.fed = [] → t.rest = [] → At h i xs t

/-- At the beginning of the calls that are left. -/
theorem at_next (h : List (Nat × Op)) (i : Nat) (past later : List (List Item)) (t : Thread) (hs : t.sums = past.map bytesOf) (hf : t.fed = []) (hr : t.rest = later.flatMap digest) : At h i (past ++ later) t := by
  cases later with
  | nil => exact .done (by rw [hs]; simp) hf (by rw [hr]; rfl)
  | cons x later => exact .between past [] x later (by simp) hs hf (by rw [hr]; simp [digest])

/-- Every goroutine is where its calls have it, as long as nobody disturbs. -/
theorem run_at (buf : List UInt8) (calls : Nat → List (List Item)) {m : Mem} (h : Run (start buf calls) m) (u : Undisturbed m.hist) : ∀ i, At m.hist i (calls i) (m.threads i) := by
  induction h with
  | refl =>
    intro i
    exact at_next _ i [] (calls i) _ rfl rfl rfl
  | @step m' j op ops hrun hr ih =>
    have ih := ih u.init
    intro i
    by_cases hij : i = j
    · subst hij
      have ht : (m'.exec i op ops).threads i = (m'.threads i).exec m'.buf ops op := if_pos rfl
      rw [ht]
      rcases ih i with ⟨past, cur, todo, later, h1, h2, h3, h4⟩ | ⟨past, cur, n, todo, later, h1, h2, h3, h4, pre, mid, h5, h6⟩ | ⟨h1, h2, h3⟩
      · rw [hr] at h4
        match todo, h1, h4 with
        | [], h1, h4 =>
          injection h4 with h4 h5
          subst h4
          have h1' : calls i = (past ++ [cur]) ++ later := by rw [h1]; simp
          rw [h1']
          refine at_next _ i (past ++ [cur]) later _ ?_ rfl h5
          change (m'.threads i).sums ++ [(m'.threads i).fed] = _
          rw [h2, h3]; simp
        | .text b :: todo, h1, h4 =>
          injection h4 with h4 h5
          subst h4
          refine .between past (cur ++ [.text b]) todo later (by rw [h1]; simp) h2 ?_ h5
          change (m'.threads i).fed ++ b = _
          rw [h3]; simp [bytesOf, Item.bytes]
        | .num n :: todo, h1, h4 =>
          injection h4 with h4 h5
          subst h4
          exact .halfway past cur n todo later h1 h2 h3 h5 ⟨m'.hist, [], rfl, by simp⟩
      · rw [hr] at h4
        injection h4 with h4 h7
        subst h4
        have hn := u pre mid [] i n (by change m'.hist ++ _ = _; rw [h5]) h6
        have hb := buf_last rfl hrun pre mid i n h5 hn
        refine .between past (cur ++ [.num n]) todo later (by rw [h1]; simp) h2 ?_ h7
        change (m'.threads i).fed ++ m'.buf = _
        rw [h3, hb]; simp [bytesOf, Item.bytes]
      · rw [hr] at h3; cases h3
    · have ht : (m'.exec j op ops).threads i = m'.threads i := if_neg hij
      rw [ht]
      have hh : (m'.exec j op ops).hist = m'.hist ++ [(j, op)] := rfl
      rw [hh]
      rcases ih i with ⟨past, cur, todo, later, h1, h2, h3, h4⟩ | ⟨past, cur, n, todo, later, h1, h2, h3, h4, pre, mid, h5, h6⟩ | ⟨h1, h2, h3⟩
      · exact .between past cur todo later h1 h2 h3 h4
      · refine .halfway past cur n todo later h1 h2 h3 h4 ⟨pre, mid ++ [(j, op)], by rw [h5]; simp, ?_⟩
        intro e he
        rcases List.mem_append.1 he with he | he
        · exact h6 e he
        · rw [List.mem_singleton.1 he]; exact fun h => hij h.symm
      · exact .done h1 h2 h3

/-- Undisturbed goroutines hash what they would hash alone: so far, and at the end. -/
theorem digests (buf : List UInt8) (calls : Nat → List (List Item)) {m : Mem} (h : Run (start buf calls) m) (u : Undisturbed m.hist) (i : Nat) :
    (m.threads i).sums <+: (calls i).map bytesOf ∧ (Finished m i → (m.threads i).sums = (calls i).map bytesOf) := by
  rcases run_at buf calls h u i with ⟨past, cur, todo, later, h1, h2, h3, h4⟩ | ⟨past, cur, n, todo, later, h1, h2, h3, h4, -⟩ | ⟨h1, h2, h3⟩
  · refine ⟨by rw [h1, h2]; simp, fun hf => ?_⟩
    unfold Finished at hf
    rw [h4] at hf
    exact absurd hf (by simp)
  · refine ⟨by rw [h1, h2]; simp, fun hf => ?_⟩
    unfold Finished at hf
    rw [h4] at hf
    cases hf
  · exact ⟨by rw [h1]; exact List.prefix_refl _, fun _ => h1⟩

/-- Only goroutines with something to do act. -/
theorem hist_only (buf : List UInt8) (calls : Nat → List (List Item)) (i : Nat) (h0 : ∀ j, j ≠ i → calls j = []) {m : Mem} (h : Run (start buf calls) m) :
    (∀ j, j ≠ i → (m.threads j).rest = []) ∧ ∀ e ∈ m.hist, e.1 = i := by
  induction h with
  | refl => exact ⟨fun j hj => by change (calls j).flatMap digest = []; rw [h0 j hj]; rfl, by intro e he; cases he⟩
  | @step m' j op ops hrun hr ih =>
    obtain ⟨ih1, ih2⟩ := ih
    have hj : j = i := Classical.byContradiction (fun hj => by rw [ih1 j hj] at hr; cases hr)
    subst hj
    refine ⟨fun k hk => ?_, fun e he => ?_⟩
    · have : (m'.exec j op ops).threads k = m'.threads k := if_neg hk
      rw [this]; exact ih1 k hk
    · rcases List.mem_append.1 he with he | he
      · exact ih2 e he
      · rw [List.mem_singleton.1 he]

theorem alone_undisturbed {h : List (Nat × Op)} {i : Nat} (ha : ∀ e ∈ h, e.1 = i) : Undisturbed h := by
  intro pre mid post j n hh hm e he k hk
  have h1 := ha e (by rw [hh]; simp [he])
  have h2 := ha (j, .put n) (by rw [hh]; simp)
  exact hm e he (h1.trans h2.symm)

/-! ### Finding a disturbing schedule -/

/-- A goroutine works through items by itself. -/
theorem run_items (i : Nat) : ∀ (xs : List Item) (m : Mem) (ops : List Op), (m.threads i).rest = xs.flatMap Item.ops ++ ops →
    ∃ m', Run m m' ∧ (m'.threads i) = ⟨ops, (m.threads i).fed ++ bytesOf xs, (m.threads i).sums⟩ ∧ ∀ j, j ≠ i → m'.threads j = m.threads j := by
  intro xs
  induction xs with
  | nil =>
    intro m ops h
    refine ⟨m, .refl, ?_, fun _ _ => rfl⟩
    rw [← show (m.threads i).rest = ops from h]; simp
  | cons x xs ih =>
    intro m ops h
    cases x with
    | text b =>
      have h1 : (m.threads i).rest = .text b :: (xs.flatMap Item.ops ++ ops) := h
      have e1 : (m.exec i (.text b) (xs.flatMap Item.ops ++ ops)).threads i = ⟨xs.flatMap Item.ops ++ ops, (m.threads i).fed ++ b, (m.threads i).sums⟩ := if_pos rfl
      obtain ⟨m', r, t, o⟩ := ih _ ops (by rw [e1])
      refine ⟨m', (Run.step i _ _ .refl h1).trans r, ?_, fun j hj => (o j hj).trans (if_neg hj)⟩
      rw [t, e1]; simp [bytesOf, Item.bytes]
    | num n =>
      have h1 : (m.threads i).rest = .put n :: .feed :: (xs.flatMap Item.ops ++ ops) := h
      let m1 := m.exec i (.put n) (.feed :: (xs.flatMap Item.ops ++ ops))
      have e1 : m1.threads i = ⟨.feed :: (xs.flatMap Item.ops ++ ops), (m.threads i).fed, (m.threads i).sums⟩ := if_pos rfl
      let m2 := m1.exec i .feed (xs.flatMap Item.ops ++ ops)
      have e2 : m2.threads i = ⟨xs.flatMap Item.ops ++ ops, (m.threads i).fed ++ le64 n, (m.threads i).sums⟩ := by
        have : m2.threads i = (m1.threads i).exec m1.buf (xs.flatMap Item.ops ++ ops) .feed := if_pos rfl
        rw [this, e1]; rfl
      obtain ⟨m', r, t, o⟩ := ih m2 ops (by rw [e2])
      have r1 : Run m m1 := .step i _ _ .refl h1
      have r2 : Run m m2 := .step i _ _ r1 (by rw [e1])
      refine ⟨m', r2.trans r, ?_, fun j hj => (o j hj).trans ((if_neg hj).trans (if_neg hj))⟩
      rw [t, e2]; simp [bytesOf, Item.bytes]

/-- A goroutine finishes calls by itself. -/
theorem run_calls (i : Nat) : ∀ (xss : List (List Item)) (m : Mem) (ops : List Op), (m.threads i).fed = [] → (m.threads i).rest = xss.flatMap digest ++ ops →
    ∃ m', Run m m' ∧ (m'.threads i) = ⟨ops, [], (m.threads i).sums ++ xss.map bytesOf⟩ ∧ ∀ j, j ≠ i → m'.threads j = m.threads j := by
  intro xss
  induction xss with
  | nil =>
    intro m ops hf h
    refine ⟨m, .refl, ?_, fun _ _ => rfl⟩
    rw [← show (m.threads i).rest = ops from h, ← hf]; simp
  | cons xs xss ih =>
    intro m ops hf h
    have h1 : (m.threads i).rest = xs.flatMap Item.ops ++ .sum :: (xss.flatMap digest ++ ops) := by rw [h]; simp [digest]
    obtain ⟨m1, r1, t1, o1⟩ := run_items i xs m _ h1
    let m2 := m1.exec i .sum (xss.flatMap digest ++ ops)
    have e2 : m2.threads i = ⟨xss.flatMap digest ++ ops, [], (m.threads i).sums ++ [bytesOf xs]⟩ := by
      have : m2.threads i = (m1.threads i).exec m1.buf (xss.flatMap digest ++ ops) .sum := if_pos rfl
      rw [this, t1, hf]; rfl
    obtain ⟨m', r, t, o⟩ := ih m2 ops (by rw [e2]) (by rw [e2])
    refine ⟨m', (Run.step i _ _ r1 (by rw [t1])).trans r, ?_, fun j hj => (o j hj).trans ((if_neg hj).trans (o1 j hj))⟩
    rw [t, e2]; simp

/-- If another goroutine writes a number to the buffer in any of its calls, that number can take the place of any number of this goroutine. -/
theorem disturb (buf : List UInt8) (calls : Nat → List (List Item)) (i j : Nat) (hij : i ≠ j) (past later : List (List Item)) (pre post : List Item) (a : Int)
    (hi : calls i = past ++ (pre ++ .num a :: post) :: later) (past' later' : List (List Item)) (pre' post' : List Item) (b : Int) (hj : calls j = past' ++ (pre' ++ .num b :: post') :: later') :
    ∃ m, Run (start buf calls) m ∧ Finished m i ∧ (m.threads i).sums = past.map bytesOf ++ [bytesOf pre ++ le64 b ++ bytesOf post] ++ later.map bytesOf := by
  let s := start buf calls
  have hs : (s.threads i).rest = past.flatMap digest ++ (pre.flatMap Item.ops ++ .put a :: .feed :: (post.flatMap Item.ops ++ .sum :: later.flatMap digest)) := by
    change (calls i).flatMap digest = _
    rw [hi]; simp [digest, Item.ops]
  have hs' : (s.threads j).rest = past'.flatMap digest ++ (pre'.flatMap Item.ops ++ .put b :: .feed :: (post'.flatMap Item.ops ++ .sum :: later'.flatMap digest)) := by
    change (calls j).flatMap digest = _
    rw [hj]; simp [digest, Item.ops]
  obtain ⟨m1, r1, t1, o1⟩ := run_calls i past s _ rfl hs
  obtain ⟨m2, r2, t2, o2⟩ := run_items i pre m1 _ (by rw [t1])
  rw [t1] at t2
  let m3 := m2.exec i (.put a) (.feed :: (post.flatMap Item.ops ++ .sum :: later.flatMap digest))
  have r3 : Run m2 m3 := .step i _ _ .refl (by rw [t2])
  have t3 : m3.threads i = ⟨.feed :: (post.flatMap Item.ops ++ .sum :: later.flatMap digest), bytesOf pre, past.map bytesOf⟩ := by
    have : m3.threads i = (m2.threads i).exec m2.buf (.feed :: (post.flatMap Item.ops ++ .sum :: later.flatMap digest)) (.put a) := if_pos rfl
    rw [this, t2]; rfl
  have hji : j ≠ i := fun h => hij h.symm
  have j3 : m3.threads j = s.threads j := (if_neg hji).trans ((o2 j hji).trans (o1 j hji))
  obtain ⟨m4, r4, t4, o4⟩ := run_calls j past' m3 _ (by rw [j3]; rfl) (by rw [j3]; exact hs')
  obtain ⟨m5, r5, t5, o5⟩ := run_items j pre' m4 _ (by rw [t4])
  let m6 := m5.exec j (.put b) (.feed :: (post'.flatMap Item.ops ++ .sum :: later'.flatMap digest))
  have r6 : Run m5 m6 := .step j _ _ .refl (by rw [t5])
  have t6 : m6.threads i = ⟨.feed :: (post.flatMap Item.ops ++ .sum :: later.flatMap digest), bytesOf pre, past.map bytesOf⟩ := by
    have : m6.threads i = m5.threads i := if_neg hij
    rw [this, o5 i hij, o4 i hij, t3]
  let m7 := m6.exec i .feed (post.flatMap Item.ops ++ .sum :: later.flatMap digest)
  have r7 : Run m6 m7 := .step i _ _ .refl (by rw [t6])
  have t7 : m7.threads i = ⟨post.flatMap Item.ops ++ .sum :: later.flatMap digest, bytesOf pre ++ le64 b, past.map bytesOf⟩ := by
    have : m7.threads i = (m6.threads i).exec m6.buf (post.flatMap Item.ops ++ .sum :: later.flatMap digest) .feed := if_pos rfl
    rw [this, t6]; rfl
  obtain ⟨m8, r8, t8, -⟩ := run_items i post m7 _ (by rw [t7])
  rw [t7] at t8
  let m9 := m8.exec i .sum (later.flatMap digest)
  have r9 : Run m8 m9 := .step i _ _ .refl (by rw [t8])
  have t9 : m9.threads i = ⟨later.flatMap digest, [], past.map bytesOf ++ [bytesOf pre ++ le64 b ++ bytesOf post]⟩ := by
    have : m9.threads i = (m8.threads i).exec m8.buf (later.flatMap digest) .sum := if_pos rfl
    rw [this, t8]; rfl
  obtain ⟨m10, r10, t10, -⟩ := run_calls i later m9 [] (by rw [t9]) (by rw [t9]; simp)
  refine ⟨m10, r1.trans (r2.trans (r3.trans (r4.trans (r5.trans (r6.trans (r7.trans (r8.trans (r9.trans r10)))))))), by unfold Finished; rw [t10], ?_⟩
  rw [t10, t9]

end Verif.Shared

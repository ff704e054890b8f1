import Verif.Shared.Scratch
/-
C113 (scratch buffers): what identifiers and keys are when stages run side by side.
-/
namespace Verif.Shared
open Verif.Decimal (Str)
open Verif.FlatRecord
open Verif.Filter (le64 IsI64)

theorem id_sums (L : Ecs.ELib) (recs : List FlatRec) : (recs.map (idItems L)).map bytesOf = recs.map (Ecs.idInput L) := by
  rw [List.map_map]
  exact List.map_congr_left (fun r _ => id_bytes L r)

theorem key_sums (recs : List FlatRec) : (recs.map keyItems).map bytesOf = recs.map Filter.hashInput := by
  rw [List.map_map]
  exact List.map_congr_left (fun r _ => key_bytes r)

theorem ids_of (L : Ecs.ELib) (recs : List FlatRec) : ((recs.map (idItems L)).map bytesOf).map L.hash = recs.map (Ecs.encodeID L) := by
  rw [id_sums, List.map_map]; rfl

theorem keys_of (xxh : List UInt8 → UInt64) (recs : List FlatRec) : ((recs.map keyItems).map bytesOf).map xxh = recs.map (Filter.semanticHash xxh) := by
  rw [key_sums, List.map_map]; rfl

/-- C113: as long as no exporter writes to the shared buffer between another's writing and reading of it, every ECS exporter gives its records the identifiers it would give them alone, at every moment and
at the end. Missing for a full statement: exporters do disturb each other, see `two_ecs_exporters_mix`. -/
theorem ecs_ids_undisturbed_partial (L : Ecs.ELib) (buf : List UInt8) (recs : Nat → List FlatRec) (m : Mem) (h : Run (exporters L buf recs) m) (u : Undisturbed m.hist) (i : Nat) :
    ids L m i <+: (recs i).map (Ecs.encodeID L) ∧ (Finished m i → ids L m i = (recs i).map (Ecs.encodeID L)) := by
  obtain ⟨h1, h2⟩ := digests buf _ h u i
  refine ⟨?_, fun hf => ?_⟩
  · unfold ids
    rw [← ids_of]
    exact h1.map L.hash
  · unfold ids
    rw [h2 hf, ids_of]

/-- C113: with one ECS exporter, identifiers are always those of the records, whatever the buffer holds at the beginning. -/
theorem ecs_ids_one_exporter (L : Ecs.ELib) (buf : List UInt8) (recs : Nat → List FlatRec) (i : Nat) (h1 : ∀ j, j ≠ i → recs j = []) (m : Mem) (h : Run (exporters L buf recs) m) :
    ids L m i <+: (recs i).map (Ecs.encodeID L) ∧ (Finished m i → ids L m i = (recs i).map (Ecs.encodeID L)) :=
  ecs_ids_undisturbed_partial L buf recs m h (alone_undisturbed (hist_only buf _ i (fun j hj => by rw [h1 j hj]; rfl) h).2) i

/-- C113: the same for the keys of the duplicate filter: undisturbed readers compute the keys they would compute alone. Missing: see `two_readers_mix`. -/
theorem keys_undisturbed_partial (xxh : List UInt8 → UInt64) (buf : List UInt8) (recs : Nat → List FlatRec) (m : Mem) (h : Run (readers buf recs) m) (u : Undisturbed m.hist) (i : Nat) :
    keys xxh m i <+: (recs i).map (Filter.semanticHash xxh) ∧ (Finished m i → keys xxh m i = (recs i).map (Filter.semanticHash xxh)) := by
  obtain ⟨h1, h2⟩ := digests buf _ h u i
  refine ⟨?_, fun hf => ?_⟩
  · unfold keys
    rw [← keys_of]
    exact h1.map xxh
  · unfold keys
    rw [h2 hf, keys_of]

/-- C113: with one reader, keys are always those of the records. -/
theorem keys_one_reader (xxh : List UInt8 → UInt64) (buf : List UInt8) (recs : Nat → List FlatRec) (i : Nat) (h1 : ∀ j, j ≠ i → recs j = []) (m : Mem) (h : Run (readers buf recs) m) :
    keys xxh m i <+: (recs i).map (Filter.semanticHash xxh) ∧ (Finished m i → keys xxh m i = (recs i).map (Filter.semanticHash xxh)) :=
  keys_undisturbed_partial xxh buf recs m h (alone_undisturbed (hist_only buf _ i (fun j hj => by rw [h1 j hj]; rfl) h).2) i

/-! ### Two exporters, two readers -/

/-- The identifying attributes of two records are the same but for the time. -/
structure SameButTime (r r' : FlatRec) : Prop where
  ints : ∀ a, a ≠ IAttr.TS_INT → r.getInt a .sysflow = r'.getInt a .sysflow
  strs : ∀ a, r.getStr a .sysflow = r'.getStr a .sysflow

/-- They are the same but for the user. -/
structure SameButUser (r r' : FlatRec) : Prop where
  ints : ∀ a, a ≠ IAttr.PROC_UID_INT → r.getInt a .sysflow = r'.getInt a .sysflow
  strs : ∀ a, r.getStr a .sysflow = r'.getStr a .sysflow

/-- The items of a record from its time on. -/
def afterTime (L : Ecs.ELib) (fr : FlatRec) : List Item := (idItems L fr).drop 3

theorem id_around (L : Ecs.ELib) (fr : FlatRec) : idItems L fr = (idItems L fr).take 2 ++ .num (fr.getInt .TS_INT .sysflow) :: afterTime L fr := by
  unfold afterTime idItems
  rfl

theorem id_same (L : Ecs.ELib) {r r' : FlatRec} (h : SameButTime r r') : (idItems L r).take 2 = (idItems L r').take 2 ∧ afterTime L r = afterTime L r' := by
  have hk : Ecs.ms L r "sf.type".toList = Ecs.ms L r' "sf.type".toList := by
    rw [Ecs.kind_eq, Ecs.kind_eq]
    unfold Ecs.Spec.kind Ecs.A
    rw [h.ints _ (by decide)]
  have hT : ∀ a, Ecs.T r a = Ecs.T r' a := fun a => by unfold Ecs.T; rw [h.strs]
  unfold afterTime idItems
  dsimp only
  rw [hk, Ecs.ms_node_id, Ecs.ms_container_id, Ecs.ms_file_oid, Ecs.ms_ke_message, Ecs.ms_node_id, Ecs.ms_container_id, Ecs.ms_file_oid, Ecs.ms_ke_message, hT, hT, hT, hT,
    h.ints .TID_INT (by decide), h.ints .PROC_OID_CREATETS_INT (by decide), h.ints .OPFLAGS_INT (by decide), h.ints .FL_NETW_SIP_INT (by decide), h.ints .FL_NETW_SPORT_INT (by decide),
    h.ints .FL_NETW_DIP_INT (by decide), h.ints .FL_NETW_DPORT_INT (by decide), h.ints .FL_NETW_PROTO_INT (by decide), h.ints .K8SE_ACTION_INT (by decide), h.ints .K8SE_KIND_INT (by decide)]
  exact ⟨rfl, rfl⟩

/-- C113 (finding): whenever two ECS exporters have to do with records of different times, there is an execution in which the first hashes something else than the identifying attributes of its record: the
time of the other's record takes the place of its own. -/
theorem two_ecs_exporters_mix (L : Ecs.ELib) (buf : List UInt8) (r r' : FlatRec) (ht : r.getInt .TS_INT .sysflow ≠ r'.getInt .TS_INT .sysflow) (hr : IsI64 (r.getInt .TS_INT .sysflow))
    (hr' : IsI64 (r'.getInt .TS_INT .sysflow)) (recs : Nat → List FlatRec) (h0 : recs 0 = [r]) (h1 : r' ∈ recs 1) :
    ∃ m, Run (exporters L buf recs) m ∧ Finished m 0 ∧ (m.threads 0).sums ≠ [Ecs.idInput L r] := by
  obtain ⟨p, q, hpq⟩ := List.append_of_mem h1
  obtain ⟨m, hm, hf, hs⟩ := disturb buf (fun i => (recs i).map (idItems L)) 0 1 (by decide) [] [] ((idItems L r).take 2) (afterTime L r) _ (by rw [h0, ← id_around]; rfl)
    (p.map (idItems L)) (q.map (idItems L)) ((idItems L r').take 2) (afterTime L r') _ (by rw [hpq, ← id_around]; simp)
  refine ⟨m, hm, hf, fun h => ?_⟩
  rw [hs, ← id_bytes, id_around L r] at h
  simp only [List.map_nil, List.nil_append, List.append_nil, List.cons.injEq, and_true] at h
  unfold bytesOf at h
  rw [List.flatMap_append, List.flatMap_cons, List.append_assoc] at h
  have h2 := (List.append_cancel_left h)
  have h3 := (List.append_inj h2 (by rw [Filter.le64_length]; exact (Filter.le64_length _).symm)).1
  exact ht (Filter.le64_inj _ _ hr' hr h3).symm

/-- C113 (finding): two records that differ in their times only, sent to two ECS exporters, can be given one and the same identifier by the first of them, whatever the hash function is. (The Elastic
transport then requests to create two documents under one identifier.) -/
theorem two_ecs_exporters_collide (L : Ecs.ELib) (buf : List UInt8) (r r' : FlatRec) (hs : SameButTime r r') (recs : Nat → List FlatRec) (h0 : recs 0 = [r, r']) (h1 : recs 1 = [r, r']) :
    ∃ m, Run (exporters L buf recs) m ∧ Finished m 0 ∧ ids L m 0 = [Ecs.encodeID L r, Ecs.encodeID L r] := by
  obtain ⟨e1, e2⟩ := id_same L hs
  obtain ⟨m, hm, hf, hss⟩ := disturb buf (fun i => (recs i).map (idItems L)) 0 1 (by decide) [idItems L r] [] ((idItems L r').take 2) (afterTime L r') _ (by rw [h0, ← id_around]; rfl)
    [] [idItems L r'] ((idItems L r).take 2) (afterTime L r) _ (by rw [h1, ← id_around]; rfl)
  refine ⟨m, hm, hf, ?_⟩
  have e : bytesOf ((idItems L r').take 2) ++ le64 (r.getInt .TS_INT .sysflow) ++ bytesOf (afterTime L r') = Ecs.idInput L r := by
    rw [← id_bytes, ← e1, ← e2]
    conv => rhs; rw [id_around L r]
    unfold bytesOf
    rw [List.flatMap_append, List.flatMap_cons, List.append_assoc]
    rfl
  unfold ids
  rw [hss, e]
  simp only [List.map_cons, List.map_nil, List.append_nil, List.cons_append, List.nil_append, id_bytes]
  rfl

/-- The items of a record from its user on. -/
def afterUser (fr : FlatRec) : List Item := (keyItems fr).drop 3

theorem key_around (fr : FlatRec) : keyItems fr = (keyItems fr).take 2 ++ .num (fr.getInt .PROC_UID_INT .sysflow) :: afterUser fr := by
  unfold afterUser keyItems
  rfl

theorem key_same {r r' : FlatRec} (h : SameButUser r r') : (keyItems r).take 2 = (keyItems r').take 2 ∧ afterUser r = afterUser r' := by
  unfold afterUser keyItems
  dsimp only
  rw [h.strs, h.strs, h.strs, h.ints .SF_REC_TYPE (by decide), h.ints .PROC_GID_INT (by decide), h.ints .OPFLAGS_INT (by decide), h.ints .PROC_TTY_INT (by decide), h.ints .FL_NETW_SIP_INT (by decide),
    h.ints .FL_NETW_DIP_INT (by decide), h.ints .FL_NETW_DPORT_INT (by decide), h.ints .FL_NETW_PROTO_INT (by decide)]
  exact ⟨rfl, rfl⟩

theorem key_differs {r r' : FlatRec} (hs : SameButUser r r') (hu : r.getInt .PROC_UID_INT .sysflow ≠ r'.getInt .PROC_UID_INT .sysflow) (hr : IsI64 (r.getInt .PROC_UID_INT .sysflow))
    (hr' : IsI64 (r'.getInt .PROC_UID_INT .sysflow)) : Filter.hashInput r ≠ Filter.hashInput r' := by
  intro h
  rw [← key_bytes, ← key_bytes, key_around r, key_around r', (key_same hs).1] at h
  unfold bytesOf at h
  rw [List.flatMap_append, List.flatMap_append, List.flatMap_cons, List.flatMap_cons] at h
  have h3 := (List.append_inj (List.append_cancel_left h) (by exact (Filter.le64_length _).trans (Filter.le64_length _).symm)).1
  exact hu (Filter.le64_inj _ _ hr hr' h3)

/-- C113 (finding): with two readers that filter duplicates, an event can be lost that is no duplicate: the first reader gets two events of different users, otherwise alike, the second reader the first
of the two (or any event of that user); then there is an execution in which the first reader computes the same key for both, so that its filter, at any ages below its window, takes the second for a
duplicate. -/
theorem two_readers_mix (xxh : List UInt8 → UInt64) (buf : List UInt8) (r r' : FlatRec) (hs : SameButUser r r') (hu : r.getInt .PROC_UID_INT .sysflow ≠ r'.getInt .PROC_UID_INT .sysflow)
    (hr : IsI64 (r.getInt .PROC_UID_INT .sysflow)) (hr' : IsI64 (r'.getInt .PROC_UID_INT .sysflow)) (recs : Nat → List FlatRec) (h0 : recs 0 = [r, r']) (x : FlatRec) (h1 : x ∈ recs 1)
    (hx : x.getInt .PROC_UID_INT .sysflow = r.getInt .PROC_UID_INT .sysflow) :
    Filter.hashInput r ≠ Filter.hashInput r' ∧ ∃ m k, Run (readers buf recs) m ∧ Finished m 0 ∧ keys xxh m 0 = [k, k] ∧
      ∀ (ttl : Int) (rd rd' : Nat → Int), rd' 0 - rd 0 < ttl → (Filter.testAndAdd (Filter.newFilter ttl) k rd).1 = false ∧
        (Filter.testAndAdd (Filter.testAndAdd (Filter.newFilter ttl) k rd).2 k rd').1 = true := by
  obtain ⟨e1, e2⟩ := key_same hs
  obtain ⟨p, q, hpq⟩ := List.append_of_mem h1
  obtain ⟨m, hm, hf, hss⟩ := disturb buf (fun i => (recs i).map keyItems) 0 1 (by decide) [keyItems r] [] ((keyItems r').take 2) (afterUser r') _ (by rw [h0, ← key_around]; rfl)
    (p.map keyItems) (q.map keyItems) ((keyItems x).take 2) (afterUser x) _ (by rw [hpq, ← key_around]; simp)
  refine ⟨key_differs hs hu hr hr', m, Filter.semanticHash xxh r, hm, hf, ?_, ?_⟩
  · have e : bytesOf ((keyItems r').take 2) ++ le64 (x.getInt .PROC_UID_INT .sysflow) ++ bytesOf (afterUser r') = Filter.hashInput r := by
      rw [← key_bytes, ← e1, ← e2, hx]
      conv => rhs; rw [key_around r]
      unfold bytesOf
      rw [List.flatMap_append, List.flatMap_cons, List.append_assoc]
      rfl
    unfold keys
    rw [hss, e]
    simp only [List.map_cons, List.map_nil, List.append_nil, List.cons_append, List.nil_append, key_bytes]
    rfl
  · intro ttl rd rd' hlt
    refine ⟨rfl, ?_⟩
    have e : (Filter.testAndAdd (Filter.newFilter ttl) (Filter.semanticHash xxh r) rd).2 = ⟨AMap.set [] (Filter.semanticHash xxh r) 1, [⟨Filter.semanticHash xxh r, rd 0⟩], ttl⟩ := rfl
    rw [e]
    unfold Filter.testAndAdd Filter.evict Filter.evictLoop
    dsimp only
    rw [if_pos hlt]
    dsimp only
    rw [AMap.get_set, if_pos rfl]
    rfl

/-! ### Cases that meet the hypotheses -/

/-- A record with these times and users, everything else zero. -/
def timed (ts uid : Int) : FlatRec := ⟨[(.sysflow, { ints := fun a => if a = .TS_INT then ts else if a = .PROC_UID_INT then uid else 0, strs := fun _ => [], anys := fun _ => .nil })], none, 0⟩

example : SameButTime (timed 5 7) (timed 6 7) ∧ (timed 5 7).getInt .TS_INT .sysflow ≠ (timed 6 7).getInt .TS_INT .sysflow := by
  refine ⟨⟨fun a ha => ?_, fun a => rfl⟩, by decide⟩
  change (if a = IAttr.TS_INT then _ else _) = (if a = IAttr.TS_INT then _ else _)
  rw [if_neg ha, if_neg ha]

example : SameButUser (timed 5 7) (timed 5 8) ∧ (timed 5 7).getInt .PROC_UID_INT .sysflow ≠ (timed 5 8).getInt .PROC_UID_INT .sysflow ∧ IsI64 ((timed 5 7).getInt .PROC_UID_INT .sysflow) := by
  refine ⟨⟨fun a ha => ?_, fun a => rfl⟩, by decide, by unfold IsI64; decide⟩
  change (if a = IAttr.TS_INT then _ else if a = IAttr.PROC_UID_INT then _ else _) = (if a = IAttr.TS_INT then _ else if a = IAttr.PROC_UID_INT then _ else _)
  rw [if_neg ha, if_neg ha]

/-- Any exporter can finish by itself, and is then undisturbed if the others have nothing to do. -/
example (L : Ecs.ELib) (buf : List UInt8) : ∃ m, Run (exporters L buf (fun i => if i = 0 then [timed 5 7, timed 6 8] else [])) m ∧ Finished m 0 ∧ Undisturbed m.hist ∧
    ids L m 0 = [Ecs.encodeID L (timed 5 7), Ecs.encodeID L (timed 6 8)] := by
  obtain ⟨m, hr, ht, -⟩ := run_calls 0 ([timed 5 7, timed 6 8].map (idItems L)) (exporters L buf (fun i => if i = 0 then [timed 5 7, timed 6 8] else [])) [] rfl (by simp [exporters, start])
  have hf : Finished m 0 := by unfold Finished; rw [ht]
  have h1 : ∀ j, j ≠ 0 → (fun i : Nat => if i = 0 then [timed 5 7, timed 6 8] else []) j = [] := fun j hj => if_neg hj
  exact ⟨m, hr, hf, alone_undisturbed (hist_only buf _ 0 (fun j hj => by rw [h1 j hj]; rfl) hr).2, (ecs_ids_one_exporter L buf _ 0 h1 m hr).2 hf⟩

/-- Two exporters whose operations alternate without getting between each other's writing and reading. -/
example : Undisturbed [(0, .text [1]), (1, .text [2]), (0, .put 5), (0, .feed), (1, .put 6), (0, .sum), (1, .feed), (1, .sum)] := by
  intro pre mid post i n h hm e he k hk
  have hlen := congrArg List.length h
  simp at hlen
  obtain ⟨c, hc⟩ := List.mem_iff_getElem?.1 he
  have hcl : c < mid.length := (List.getElem?_eq_some_iff.1 hc).1
  have g1 := congrArg (fun l => l[pre.length]?) h
  have g2 := congrArg (fun l => l[pre.length + 1 + mid.length]?) h
  have g3 := congrArg (fun l => l[pre.length + 1 + c]?) h
  have r1 : (pre ++ (i, Op.put n) :: mid ++ (i, Op.feed) :: post)[pre.length]? = some (i, Op.put n) := by simp
  have r2 : (pre ++ (i, Op.put n) :: mid ++ (i, Op.feed) :: post)[pre.length + 1 + mid.length]? = some (i, Op.feed) := by
    rw [List.getElem?_append_right (by simp; omega)]; simp; rw [show pre.length + 1 + mid.length - (pre.length + (mid.length + 1)) = 0 by omega]; rfl
  have r3 : (pre ++ (i, Op.put n) :: mid ++ (i, Op.feed) :: post)[pre.length + 1 + c]? = some e := by
    rw [List.getElem?_append_left (by simp; omega), List.getElem?_append_right (by omega), show pre.length + 1 + c - pre.length = c + 1 by omega]; exact hc
  rw [r1] at g1
  rw [r2] at g2
  rw [r3] at g3
  generalize pre.length = a at *
  generalize mid.length = b at *
  have ha : a ≤ 6 := by omega
  have hb : b ≤ 6 := by omega
  have hc' : c ≤ 6 := by omega
  have hl : a + 1 + b < 8 := (List.getElem?_eq_some_iff.1 g2).1
  clear h hm he hlen hc r1 r2 r3
  have hcase : a = 2 ∨ a = 4 := by
    rcases a with _ | _ | _ | _ | _ | _ | _ | a <;> simp at g1 <;> omega
  rcases hcase with rfl | rfl
  · have : b = 0 ∨ b = 3 := by
      rcases b with _ | _ | _ | _ | _ | _ | b <;> simp at g2 <;> omega
    rcases this with rfl | rfl
    · omega
    · simp at g1 g2; omega
  · have : b = 1 := by
      rcases b with _ | _ | _ | _ | _ | _ | b <;> simp at g2 <;> omega
    subst this
    have : c = 0 := by omega
    subst this
    simp at g3
    rw [← g3] at hk
    cases hk

end Verif.Shared

import Verif.Processor.Spec
/-
C39: the reader forwards each event once, in order, with its context.
-/
namespace Verif.Processor
open Verif.Decimal (Str)
open Verif.SysFlow
open Verif.Cache

theorem newest_snoc {α : Type _} (w : Rec → Option α) (rs : List Rec) (r : Rec) :
    newest w (rs ++ [r]) = if r.isHeader then none else (w r).or (newest w rs) := by
  unfold newest sinceHeader
  rw [List.reverse_append, List.reverse_singleton, List.singleton_append, List.takeWhile_cons]
  cases r.isHeader
  · simp only [Bool.not_false, if_true, List.findSome?_cons, Bool.false_eq_true, if_false]
    cases w r <;> rfl
  · rfl

theorem headerOf_snoc (rs : List Rec) (r : Rec) (h : r.isHeader = false) : headerOf (rs ++ [r]) = headerOf rs := by
  unfold headerOf
  rw [List.reverse_append, List.reverse_singleton, List.singleton_append, List.findSome?_cons]
  cases r <;> first | rfl | cases h

theorem headerOf_header (rs : List Rec) (h : Header) : headerOf (rs ++ [.header h]) = some h := by
  unfold headerOf
  rw [List.reverse_append, List.reverse_singleton, List.singleton_append, List.findSome?_cons]

/-- Uses of a process in a stream while it was known. -/
def Unused (rs : List Rec) (id : OID) : Prop :=
  ∀ pre' ev' post', rs = pre' ++ ev' :: post' → (∀ r ∈ ev' :: post', r.isHeader = false) → procOf ev' = some id →
    knownProc pre' id = none

/-- The reader's state describes the stream read so far. -/
structure Inv (rs : List Rec) (s : State) : Prop where
  hdr : s.hdr = headerOf rs
  cont : ∀ id, s.tables.getCont id = newest (contDef id) rs
  pod : ∀ id, s.tables.getPod id = newest (podDef id) rs
  file : ∀ id, s.tables.getFile id = newest (fileDef id) rs
  slots : ∀ id, slotsOf s.tables id = ⟨newest (procDef .created id) rs, newest (procDef .modified id) rs,
    newest (procDef .reup id) rs⟩
  memo : ∀ id l, s.tables.ptree.get id = some l → ∃ pre, FirstUse rs id pre ∧ Chain (knownProc pre) id l
  nomemo : ∀ id, s.tables.ptree.get id = none → Unused rs id

theorem Inv.known {rs : List Rec} {s : State} (I : Inv rs s) : s.tables.getProc = knownProc rs := by
  funext id
  rw [getProc_slots, I.slots id]; rfl

theorem inv_init : Inv [] State.init := by
  refine ⟨rfl, fun _ => rfl, fun _ => rfl, fun _ => rfl, fun _ => rfl, ?_, ?_⟩
  · intro id l h; cases h
  · intro id _ pre' ev' post' h; simp at h

theorem snoc_eq {rs pre post : List Rec} {r ev : Rec} (h : rs ++ [r] = pre ++ ev :: post) :
    (post = [] ∧ pre = rs ∧ ev = r) ∨ ∃ post', post = post' ++ [r] ∧ rs = pre ++ ev :: post' := by
  rcases List.eq_nil_or_concat post with hp | ⟨post', last, hp⟩
  · subst hp
    obtain ⟨h1, h2⟩ := List.append_inj' h rfl
    cases h2
    exact Or.inl ⟨rfl, h1.symm, rfl⟩
  · subst hp
    rw [List.concat_eq_append] at h ⊢
    have h' : rs ++ [r] = (pre ++ ev :: post') ++ [last] := by rw [h]; simp
    obtain ⟨h1, h2⟩ := List.append_inj' h' rfl
    cases h2
    exact Or.inr ⟨post', rfl, h1⟩

theorem firstUse_extend {rs : List Rec} {id : OID} {pre : List Rec} (h : FirstUse rs id pre) (r : Rec) (hr : r.isHeader = false) :
    FirstUse (rs ++ [r]) id pre := by
  obtain ⟨ev, post, e, h1, h2, h3, h4⟩ := h
  refine ⟨ev, post ++ [r], by rw [e]; simp, ?_, h2, h3, h4⟩
  intro x hx
  rw [← List.cons_append] at hx
  rcases List.mem_append.1 hx with hx | hx
  · exact h1 x hx
  · rw [List.mem_singleton.1 hx]; exact hr

theorem unused_extend {rs : List Rec} {id : OID} (h : Unused rs id) (r : Rec)
    (hr : r.isHeader = false → procOf r = some id → knownProc rs id = none) : Unused (rs ++ [r]) id := by
  intro pre ev post e hh hp
  rcases snoc_eq e with ⟨rfl, rfl, rfl⟩ | ⟨post', rfl, e'⟩
  · exact hr (hh _ (.head _)) hp
  · refine h pre ev post' e' (fun x hx => hh x ?_) hp
    rw [← List.cons_append]
    exact List.mem_append_left _ hx

theorem unused_header {rs : List Rec} {id : OID} (r : Rec) (hr : r.isHeader = true) : Unused (rs ++ [r]) id := by
  intro pre ev post e hh _
  have : r.isHeader = false := by
    rcases snoc_eq e with ⟨rfl, rfl, rfl⟩ | ⟨post', rfl, _⟩
    · exact hh _ (.head _)
    · exact hh r (by simp)
  rw [hr] at this; cases this

/-- A record that is neither a header, nor an entity, nor belongs to a process changes nothing. -/
theorem inv_inert {rs : List Rec} {s : State} (I : Inv rs s) (r : Rec) (hr : r.isHeader = false)
    (h1 : ∀ id, contDef id r = none) (h2 : ∀ id, podDef id r = none) (h3 : ∀ id, fileDef id r = none)
    (h4 : ∀ st id, procDef st id r = none) (h5 : ∀ id, procOf r = some id → knownProc rs id = none) : Inv (rs ++ [r]) s := by
  refine ⟨by rw [headerOf_snoc _ _ hr]; exact I.hdr, ?_, ?_, ?_, ?_, ?_, ?_⟩
  · intro id; rw [newest_snoc, hr, h1]; exact I.cont id
  · intro id; rw [newest_snoc, hr, h2]; exact I.pod id
  · intro id; rw [newest_snoc, hr, h3]; exact I.file id
  · intro id; simp only [newest_snoc, hr, h4]; exact I.slots id
  · intro id l h
    obtain ⟨pre, hf, hc⟩ := I.memo id l h
    exact ⟨pre, firstUse_extend hf r hr, hc⟩
  · intro id h
    exact unused_extend (I.nomemo id h) r (fun _ => h5 id)

/-- Looking up the process of an event: the context and the new state. -/
theorem lookup_spec {rs : List Rec} {s : State} (I : Inv rs s) (fuel : Nat) (ev : Rec) (id : OID) (hev : procOf ev = some id)
    (c : Ctx) (t : Tables) (h : getPodContAndProc fuel s.tables id { header := s.hdr } = some (c, t)) :
    EventCtx rs ev id c ∧ Inv (rs ++ [ev]) { s with tables := t } ∧ c.file = none ∧ c.newFile = none
      ∧ (∀ i, t.getFile i = newest (fileDef i) rs) := by
  have hh : ev.isHeader = false := by cases ev <;> first | rfl | cases hev
  have inert : (∀ id, contDef id ev = none) ∧ (∀ id, podDef id ev = none) ∧ (∀ id, fileDef id ev = none) ∧ (∀ st id, procDef st id ev = none) := by
    cases ev <;> first | exact ⟨fun _ => rfl, fun _ => rfl, fun _ => rfl, fun _ _ => rfl⟩ | cases hev
  obtain ⟨n1, n2, n3, n4⟩ := inert
  unfold getPodContAndProc at h
  rw [I.known] at h
  cases hk : knownProc rs id with
  | none =>
    rw [hk] at h
    cases h
    refine ⟨⟨I.hdr, hk.symm, by rw [hk]; rfl, by rw [hk]; rfl, fun _ => rfl, fun hs => by rw [hk] at hs; cases hs⟩, ?_, rfl, rfl, I.file⟩
    exact inv_inert I ev hh n1 n2 n3 n4 (fun id' h' => by rw [hev] at h'; cases h'; exact hk)
  | some p =>
    rw [hk] at h
    simp only at h
    cases hg : s.tables.getPtree fuel id with
    | none => rw [hg] at h; cases h
    | some r =>
      obtain ⟨l, t'⟩ := r
      rw [hg] at h
      simp only [Option.some.injEq, Prod.mk.injEq] at h
      obtain ⟨hc, ht⟩ := h
      subst ht
      obtain ⟨e1, e2, e3, e4⟩ := getPtree_tables s.tables t' fuel id l hg
      have gc : ∀ i, t'.getCont i = newest (contDef i) rs := fun i => by rw [← I.cont]; unfold Tables.getCont; rw [e1]
      have gp : ∀ i, t'.getPod i = newest (podDef i) rs := fun i => by rw [← I.pod]; unfold Tables.getPod; rw [e2]
      have gf : ∀ i, t'.getFile i = newest (fileDef i) rs := fun i => by rw [← I.file]; unfold Tables.getFile; rw [e4]
      have gs : ∀ i, slotsOf t' i = slotsOf s.tables i := fun i => by unfold slotsOf; rw [e3]
      have hco : getContFromProc t' p = knownCont rs p := by
        unfold getContFromProc knownCont
        cases p.containerId with
        | none => rfl
        | some i => exact gc i
      have hpo : getPodFromCont t' (knownCont rs p) = (knownCont rs p).bind (knownPod rs) := by
        unfold getPodFromCont
        cases knownCont rs p with
        | none => rfl
        | some co =>
          simp only [Option.bind_some]
          unfold knownPod
          cases co.podId with
          | none => rfl
          | some i => exact gp i
      -- the chain handed out, and the memo after the lookup
      have htree : ∃ pre', FirstUse (rs ++ [ev]) id pre' ∧ Chain (knownProc pre') id l := by
        cases hm : s.tables.ptree.get id with
        | some l' =>
          have : l' = l := by
            unfold Tables.getPtree at hg
            rw [hm] at hg; cases hg; rfl
          subst this
          obtain ⟨pre', hf, hch⟩ := I.memo id l' hm
          exact ⟨pre', firstUse_extend hf ev hh, hch⟩
        | none =>
          have hch := provenance_first fuel s.tables t' id l hm hg
          rw [I.known] at hch
          refine ⟨rs, ⟨ev, [], rfl, ?_, hev, by rw [hk]; rfl, I.nomemo id hm⟩, hch⟩
          intro x hx; rw [List.mem_singleton.1 hx]; exact hh
      have hmemo : ∀ i, t'.ptree.get i = if id = i then some l else s.tables.ptree.get i := by
        intro i
        unfold Tables.getPtree at hg
        split at hg
        · rename_i hm
          cases hg
          by_cases e : id = i
          · rw [if_pos e, ← e, hm]
          · rw [if_neg e]
        · split at hg
          · cases hg
          · cases hg
            show AMap.get (s.tables.ptree.set id l) i = _
            rw [AMap.get_set]
      refine ⟨?_, ?_, ?_, ?_, gf⟩
      · subst hc
        refine ⟨I.hdr, hk.symm, ?_, ?_, ?_, ?_⟩
        · rw [hk]; exact hco
        · rw [hk]; show getPodFromCont t' (getContFromProc t' p) = _; rw [hco, hpo]; rfl
        · intro hn; rw [hk] at hn; cases hn
        · intro _
          obtain ⟨pre', h1, h2⟩ := htree
          exact ⟨l, pre', rfl, h1, h2⟩
      · refine ⟨by rw [headerOf_snoc _ _ hh]; exact I.hdr, ?_, ?_, ?_, ?_, ?_, ?_⟩
        · intro i; rw [newest_snoc, hh, n1]; exact gc i
        · intro i; rw [newest_snoc, hh, n2]; exact gp i
        · intro i; rw [newest_snoc, hh, n3]; exact gf i
        · intro i; simp only [newest_snoc, hh, n4]; exact (gs i).trans (I.slots i)
        · intro i l'
          show t'.ptree.get i = some l' → _
          rw [hmemo]
          by_cases e : id = i
          · rw [if_pos e]
            intro he; cases he
            subst e
            exact htree
          · rw [if_neg e]
            intro he
            obtain ⟨pre', hf, hch⟩ := I.memo i l' he
            exact ⟨pre', firstUse_extend hf ev hh, hch⟩
        · intro i
          show t'.ptree.get i = none → _
          rw [hmemo]
          by_cases e : id = i
          · rw [if_pos e]; intro hc'; cases hc'
          · rw [if_neg e]
            intro he
            refine unused_extend (I.nomemo i he) ev (fun _ hp => ?_)
            rw [hev] at hp; cases hp; exact absurd rfl e
      · subst hc; rfl
      · subst hc; rfl

/-- What the handler must be told about record `r` after the stream `pre`. -/
inductive CallSpec (pre : List Rec) : Rec → List HCall → Prop where
  | k8s (e : K8sEvt) : CallSpec pre (.k8s e) [.k8s { header := headerOf pre } e]
  | procEvt (e : ProcEvt) (c : Ctx) : EventCtx pre (.procEvt e) e.procOID c → c.file = none → c.newFile = none →
      CallSpec pre (.procEvt e) [.procEvt c e]
  | netFlow (e : NetFlow) (c : Ctx) : EventCtx pre (.netFlow e) e.procOID c → c.file = none → c.newFile = none →
      CallSpec pre (.netFlow e) [.netFlow c e]
  | fileFlow (e : FileFlow) (c : Ctx) : EventCtx pre (.fileFlow e) e.procOID c →
      c.file = newest (fileDef e.fileOID) pre → c.newFile = none → CallSpec pre (.fileFlow e) [.fileFlow c e]
  | fileEvt (e : FileEvt) (c : Ctx) : EventCtx pre (.fileEvt e) e.procOID c →
      c.file = newest (fileDef e.fileOID) pre → c.newFile = e.newFileOID.bind (fun i => newest (fileDef i) pre) →
      CallSpec pre (.fileEvt e) [.fileEvt c e]
  | other (r : Rec) : isEvent r = false → CallSpec pre r []

theorem inv_setCont {rs : List Rec} {s : State} (I : Inv rs s) (c : Container) :
    Inv (rs ++ [.cont c]) { s with tables := s.tables.setCont c.id c } := by
  refine ⟨by rw [headerOf_snoc _ _ rfl]; exact I.hdr, ?_, ?_, ?_, ?_, ?_, ?_⟩
  · intro id
    rw [newest_snoc]
    show AMap.get (s.tables.cont.set c.id c) id = _
    rw [AMap.get_set, ← I.cont]
    by_cases e : c.id = id <;> simp [Rec.isHeader, contDef, e, Tables.getCont]
  · intro id; rw [newest_snoc]; exact I.pod id
  · intro id; rw [newest_snoc]; exact I.file id
  · intro id; simp only [newest_snoc]; exact I.slots id
  · intro id l h
    obtain ⟨pre, hf, hc⟩ := I.memo id l h
    exact ⟨pre, firstUse_extend hf _ rfl, hc⟩
  · intro id h
    exact unused_extend (I.nomemo id h) _ (fun _ hp => by cases hp)

theorem inv_setPod {rs : List Rec} {s : State} (I : Inv rs s) (c : Pod) :
    Inv (rs ++ [.pod c]) { s with tables := s.tables.setPod c.id c } := by
  refine ⟨by rw [headerOf_snoc _ _ rfl]; exact I.hdr, ?_, ?_, ?_, ?_, ?_, ?_⟩
  · intro id; rw [newest_snoc]; exact I.cont id
  · intro id
    rw [newest_snoc]
    show AMap.get (s.tables.pod.set c.id c) id = _
    rw [AMap.get_set, ← I.pod]
    by_cases e : c.id = id <;> simp [Rec.isHeader, podDef, e, Tables.getPod]
  · intro id; rw [newest_snoc]; exact I.file id
  · intro id; simp only [newest_snoc]; exact I.slots id
  · intro id l h
    obtain ⟨pre, hf, hc⟩ := I.memo id l h
    exact ⟨pre, firstUse_extend hf _ rfl, hc⟩
  · intro id h
    exact unused_extend (I.nomemo id h) _ (fun _ hp => by cases hp)

theorem inv_setFile {rs : List Rec} {s : State} (I : Inv rs s) (c : File) :
    Inv (rs ++ [.file c]) { s with tables := s.tables.setFile c.oid c } := by
  refine ⟨by rw [headerOf_snoc _ _ rfl]; exact I.hdr, ?_, ?_, ?_, ?_, ?_, ?_⟩
  · intro id; rw [newest_snoc]; exact I.cont id
  · intro id; rw [newest_snoc]; exact I.pod id
  · intro id
    rw [newest_snoc]
    show AMap.get (s.tables.file.set c.oid c) id = _
    rw [AMap.get_set, ← I.file]
    by_cases e : c.oid = id <;> simp [Rec.isHeader, fileDef, e, Tables.getFile]
  · intro id; simp only [newest_snoc]; exact I.slots id
  · intro id l h
    obtain ⟨pre, hf, hc⟩ := I.memo id l h
    exact ⟨pre, firstUse_extend hf _ rfl, hc⟩
  · intro id h
    exact unused_extend (I.nomemo id h) _ (fun _ hp => by cases hp)

theorem inv_setProc {rs : List Rec} {s : State} (I : Inv rs s) (p : Proc) :
    Inv (rs ++ [.proc p]) { s with tables := s.tables.setProc p.oid (trimProc p) } := by
  have e1 : (s.tables.setProc p.oid (trimProc p)).cont = s.tables.cont ∧ (s.tables.setProc p.oid (trimProc p)).pod = s.tables.pod
      ∧ (s.tables.setProc p.oid (trimProc p)).file = s.tables.file ∧ (s.tables.setProc p.oid (trimProc p)).ptree = s.tables.ptree := by
    unfold Tables.setProc; split <;> simp
  obtain ⟨ec, ep, ef, et⟩ := e1
  refine ⟨by rw [headerOf_snoc _ _ rfl]; exact I.hdr, ?_, ?_, ?_, ?_, ?_, ?_⟩
  · intro id; rw [newest_snoc]; unfold Tables.getCont; simp only [ec]; exact I.cont id
  · intro id; rw [newest_snoc]; unfold Tables.getPod; simp only [ep]; exact I.pod id
  · intro id; rw [newest_snoc]; unfold Tables.getFile; simp only [ef]; exact I.file id
  · intro id
    simp only [newest_snoc, Rec.isHeader, Bool.false_eq_true, if_false]
    rw [slotsOf_setProc]
    by_cases e : p.oid = id
    · subst e
      rw [if_pos rfl, I.slots]
      unfold Slots.put
      have : (trimProc p).state = p.state := rfl
      rw [this]
      cases hst : p.state <;> simp [procDef, trimProc, hst]
    · rw [if_neg e, I.slots]
      simp [procDef, e]
  · intro id l h
    simp only [et] at h
    obtain ⟨pre, hf, hc⟩ := I.memo id l h
    exact ⟨pre, firstUse_extend hf _ rfl, hc⟩
  · intro id h
    simp only [et] at h
    exact unused_extend (I.nomemo id h) _ (fun _ hp => by cases hp)

theorem inv_header {rs : List Rec} (h : Header) : Inv (rs ++ [.header h]) ⟨some h, .new⟩ := by
  refine ⟨(headerOf_header rs h).symm, ?_, ?_, ?_, ?_, ?_, ?_⟩
  · intro id; rw [newest_snoc]; rfl
  · intro id; rw [newest_snoc]; rfl
  · intro id; rw [newest_snoc]; rfl
  · intro id; simp only [newest_snoc]; rfl
  · intro id l hm; cases hm
  · intro id _; exact unused_header _ rfl

/-- One record, with a handler that ignores entities (the flattener). -/
theorem step_spec {rs : List Rec} {s : State} (I : Inv rs s) (fuel : Nat) (r : Rec) (s' : State) (cs : List HCall)
    (h : step false fuel s r = some (s', cs)) : Inv (rs ++ [r]) s' ∧ CallSpec rs r cs := by
  have nil : ∀ r, (∀ id, procOf r ≠ some id) → ∀ id, procOf r = some id → knownProc rs id = none :=
    fun r hr id h => absurd h (hr id)
  cases r with
  | header h' => cases h; exact ⟨inv_header h', .other _ rfl⟩
  | cont c => cases h; exact ⟨inv_setCont I c, .other _ rfl⟩
  | pod c => cases h; exact ⟨inv_setPod I c, .other _ rfl⟩
  | file c => cases h; exact ⟨inv_setFile I c, .other _ rfl⟩
  | proc p => cases h; exact ⟨inv_setProc I p, .other _ rfl⟩
  | k8s e =>
    cases h
    refine ⟨inv_inert I _ rfl (fun _ => rfl) (fun _ => rfl) (fun _ => rfl) (fun _ _ => rfl) (nil _ (fun _ => by simp [procOf])), ?_⟩
    rw [I.hdr]; exact .k8s e
  | procFlow =>
    cases h
    exact ⟨inv_inert I _ rfl (fun _ => rfl) (fun _ => rfl) (fun _ => rfl) (fun _ _ => rfl) (nil _ (fun _ => by simp [procOf])), .other _ rfl⟩
  | netEvt =>
    cases h
    exact ⟨inv_inert I _ rfl (fun _ => rfl) (fun _ => rfl) (fun _ => rfl) (fun _ _ => rfl) (nil _ (fun _ => by simp [procOf])), .other _ rfl⟩
  | unsupported =>
    cases h
    exact ⟨inv_inert I _ rfl (fun _ => rfl) (fun _ => rfl) (fun _ => rfl) (fun _ _ => rfl) (nil _ (fun _ => by simp [procOf])), .other _ rfl⟩
  | procEvt e =>
    simp only [step] at h
    split at h
    · cases h
    · rename_i c t hg
      cases h
      obtain ⟨h1, h2, h3, h4, _⟩ := lookup_spec I fuel (.procEvt e) e.procOID rfl c t hg
      exact ⟨h2, .procEvt e c h1 h3 h4⟩
  | netFlow e =>
    simp only [step] at h
    split at h
    · cases h
    · rename_i c t hg
      cases h
      obtain ⟨h1, h2, h3, h4, _⟩ := lookup_spec I fuel (.netFlow e) e.procOID rfl c t hg
      exact ⟨h2, .netFlow e c h1 h3 h4⟩
  | fileFlow e =>
    simp only [step] at h
    split at h
    · cases h
    · rename_i c t hg
      cases h
      obtain ⟨h1, h2, h3, h4, h5⟩ := lookup_spec I fuel (.fileFlow e) e.procOID rfl c t hg
      exact ⟨h2, .fileFlow e _ ⟨h1.header, h1.proc, h1.cont, h1.pod, h1.noTree, h1.tree⟩ (h5 _) h4⟩
  | fileEvt e =>
    simp only [step] at h
    split at h
    · cases h
    · rename_i c t hg
      cases h
      obtain ⟨h1, h2, h3, h4, h5⟩ := lookup_spec I fuel (.fileEvt e) e.procOID rfl c t hg
      refine ⟨h2, .fileEvt e _ ⟨h1.header, h1.proc, h1.cont, h1.pod, h1.noTree, h1.tree⟩ (h5 _) ?_⟩
      show getOptFile t e.newFileOID = _
      cases e.newFileOID with
      | none => rfl
      | some i => exact h5 i

theorem run_append (ent : Bool) (fuel : Nat) (s : State) (rs rs' : List Rec) :
    run ent fuel s (rs ++ rs') = match run ent fuel s rs with
      | none => none
      | some (s1, cs) => match run ent fuel s1 rs' with
        | none => none
        | some (s2, cs') => some (s2, cs ++ cs') := by
  induction rs generalizing s with
  | nil => simp only [List.nil_append, run]; cases run ent fuel s rs' <;> rfl
  | cons r rs ih =>
    simp only [List.cons_append, run]
    cases step ent fuel s r with
    | none => rfl
    | some p =>
      obtain ⟨s1, cs⟩ := p
      simp only [ih]
      cases run ent fuel s1 rs with
      | none => rfl
      | some q =>
        obtain ⟨s2, cs'⟩ := q
        simp only
        cases run ent fuel s2 rs' with
        | none => rfl
        | some q' => simp [List.append_assoc]

theorem run_inv (fuel : Nat) (rs : List Rec) : ∀ s cs, run false fuel .init rs = some (s, cs) → Inv rs s := by
  induction rs using snocInduction with
  | nil => intro s cs h; cases h; exact inv_init
  | snoc rs r ih =>
    intro s cs h
    rw [run_append] at h
    cases hr : run false fuel .init rs with
    | none => rw [hr] at h; cases h
    | some p =>
      obtain ⟨s1, cs1⟩ := p
      rw [hr] at h
      simp only [run] at h
      cases hs : step false fuel s1 r with
      | none => rw [hs] at h; cases h
      | some q =>
        obtain ⟨s2, cs2⟩ := q
        rw [hs] at h
        simp only [Option.some.injEq, Prod.mk.injEq] at h
        rw [← h.1]
        exact (step_spec (ih s1 cs1 hr) fuel r s2 cs2 hs).1

/-! ## C39 -/

/-- C39, order and multiplicity: the handler calls are about exactly the events of the stream, in order, one each. -/
theorem reader_one_call_per_event (fuel : Nat) (rs : List Rec) (s : State) (cs : List HCall)
    (h : run false fuel .init rs = some (s, cs)) : cs.map eventOf = (rs.filter isEvent).map some := by
  have key : ∀ (rs : List Rec) (s0 s : State) (cs : List HCall), run false fuel s0 rs = some (s, cs) →
      cs.map eventOf = (rs.filter isEvent).map some := by
    intro rs
    induction rs with
    | nil => intro s0 s cs h; cases h; rfl
    | cons r rs ih =>
      intro s0 s cs h
      unfold run at h
      split at h
      · cases h
      · rename_i s1 cs1 hs
        split at h
        · cases h
        · rename_i s2 cs2 hr
          cases h
          rw [List.map_append, ih _ _ _ hr]
          have h1 : cs1.map eventOf = ([r].filter isEvent).map some := by
            cases r <;> simp only [step] at hs <;>
              first
                | (cases hs; rfl)
                | (split at hs
                   · cases hs
                   · cases hs; rfl)
          rw [h1, ← List.map_append, ← List.filter_append]
          rfl
  exact key rs .init s cs h

/-- C39, context: whenever the reader has read `pre` and then reads `r`, it makes for `r` exactly the calls specified
by the stream `pre` alone. -/
theorem reader_context (fuel : Nat) (pre : List Rec) (r : Rec) (s : State) (cs : List HCall)
    (h : run false fuel .init (pre ++ [r]) = some (s, cs)) :
    ∃ s0 cs0 calls, run false fuel .init pre = some (s0, cs0) ∧ cs = cs0 ++ calls ∧ CallSpec pre r calls := by
  rw [run_append] at h
  cases hr : run false fuel .init pre with
  | none => rw [hr] at h; cases h
  | some p =>
    obtain ⟨s1, cs1⟩ := p
    rw [hr] at h
    simp only [run] at h
    cases hs : step false fuel s1 r with
    | none => rw [hs] at h; cases h
    | some q =>
      obtain ⟨s2, cs2⟩ := q
      rw [hs] at h
      simp only [Option.some.injEq, Prod.mk.injEq] at h
      exact ⟨s1, cs1, cs2 ++ [], rfl, h.2.symm, by simpa using (step_spec (run_inv fuel pre s1 cs1 hr) fuel r s2 cs2 hs).2⟩

/-- C39: the reader gets through every stream in which the ancestor chains of the processes of the events are finite
(in particular if parents are never their own descendants). -/
theorem reader_total (rs : List Rec)
    (h : ∀ pre ev post id, rs = pre ++ ev :: post → procOf ev = some id → ∃ l, Chain (knownProc pre) id l) :
    ∃ fuel s cs, run false fuel .init rs = some (s, cs) := by
  have fuelMono : ∀ (t : Tables) (n m : Nat) (id : OID) (c : Ctx) (r : Ctx × Tables), n ≤ m →
      getPodContAndProc n t id c = some r → getPodContAndProc m t id c = some r := by
    intro t n m id c r hnm hr
    unfold getPodContAndProc at hr ⊢
    cases hp : t.getProc id with
    | none => rw [hp] at hr; exact hr
    | some p =>
      rw [hp] at hr
      simp only at hr ⊢
      unfold Tables.getPtree at hr ⊢
      cases hm : t.ptree.get id with
      | some l => rw [hm] at hr; exact hr
      | none =>
        rw [hm] at hr
        simp only at hr ⊢
        cases hv : t.getProcProv n id with
        | none => rw [hv] at hr; cases hr
        | some l => rw [hv] at hr; rw [prov_mono t n m hnm id l hv]; exact hr
  have stepMono : ∀ (s : State) (n m : Nat) (r : Rec) (q : State × List HCall), n ≤ m →
      step false n s r = some q → step false m s r = some q := by
    intro s n m r q hnm hq
    cases r <;> simp only [step] at hq ⊢ <;> first
      | exact hq
      | (split at hq
         · cases hq
         · rename_i hg
           rw [fuelMono _ _ _ _ _ _ hnm hg]
           exact hq)
  have runMono : ∀ (rs : List Rec) (s : State) (n m : Nat) (q : State × List HCall), n ≤ m →
      run false n s rs = some q → run false m s rs = some q := by
    intro rs
    induction rs with
    | nil => intro s n m q _ hq; exact hq
    | cons r rs ih =>
      intro s n m q hnm hq
      unfold run at hq ⊢
      cases hs : step false n s r with
      | none => rw [hs] at hq; cases hq
      | some p =>
        obtain ⟨s1, c1⟩ := p
        rw [hs] at hq
        simp only at hq
        rw [stepMono _ _ _ _ _ hnm hs]
        simp only
        cases hr : run false n s1 rs with
        | none => rw [hr] at hq; cases hq
        | some p2 => rw [hr] at hq; rw [ih _ _ _ _ hnm hr]; exact hq
  induction rs using snocInduction with
  | nil => exact ⟨0, _, _, rfl⟩
  | snoc rs r ih =>
    obtain ⟨n, s, cs, hr⟩ := ih (fun pre ev post id e hp => h pre ev (post ++ [r]) id (by rw [e]; simp) hp)
    have I := run_inv n rs s cs hr
    have hstep : ∃ m q, step false m s r = some q := by
      cases hp : procOf r with
      | none => cases r <;> first | exact ⟨0, _, rfl⟩ | cases hp
      | some id =>
        obtain ⟨l, hl⟩ := h rs r [] id rfl hp
        rw [← I.known] at hl
        obtain ⟨m, hm⟩ := (provenance_iff s.tables id l).2 hl
        have hg : ∃ q, getPodContAndProc m s.tables id { header := s.hdr } = some q := by
          unfold getPodContAndProc
          cases s.tables.getProc id with
          | none => exact ⟨_, rfl⟩
          | some p =>
            simp only
            unfold Tables.getPtree
            cases s.tables.ptree.get id with
            | some l' => exact ⟨_, rfl⟩
            | none => rw [hm]; exact ⟨_, rfl⟩
        obtain ⟨⟨c, t⟩, hg⟩ := hg
        cases r <;> first
          | (cases hp; done)
          | (cases hp
             refine ⟨m, ?_⟩
             unfold step
             simp only [hg]
             exact ⟨_, rfl⟩)
    obtain ⟨m, ⟨s2, c2⟩, hm⟩ := hstep
    refine ⟨max n m, s2, cs ++ (c2 ++ []), ?_⟩
    rw [run_append, runMono rs _ n _ _ (Nat.le_max_left _ _) hr]
    simp only [run, stepMono _ m _ _ _ (Nat.le_max_right _ _) hm]

/-- The contextual processor (processor.go) hands on each event record once, with the context it arrived with, and nothing
else when the handler ignores entities; Kubernetes events are handed on only to entity-enabled handlers (unlike in the
reader). -/
theorem processor_forwards (ent : Bool) (rs : List (Ctx × Rec)) :
    ((rs.flatMap (fun x => procStep false x.1 x.2)).map eventOf
      = ((rs.map (·.2)).filter (fun r => isEvent r && (procOf r).isSome)).map some)
    ∧ (∀ c e, procStep false c (.k8s e) = [] ∧ procStep true c (.k8s e) = [.k8s c e])
    ∧ (∀ c e, procStep ent c (.procEvt e) = [.procEvt c e]) ∧ (∀ c e, procStep ent c (.netFlow e) = [.netFlow c e])
    ∧ (∀ c e, procStep ent c (.fileFlow e) = [.fileFlow c e]) ∧ (∀ c e, procStep ent c (.fileEvt e) = [.fileEvt c e]) := by
  refine ⟨?_, fun _ _ => ⟨rfl, rfl⟩, fun _ _ => rfl, fun _ _ => rfl, fun _ _ => rfl, fun _ _ => rfl⟩
  induction rs with
  | nil => rfl
  | cons x rs ih =>
    rw [List.flatMap_cons, List.map_append, ih, List.map_cons]
    obtain ⟨c, r⟩ := x
    cases r <;> rfl

/-! ### Concrete stream -/

def demoHeader : Header := ⟨4, "node1".toList, "10.0.0.1".toList, "f".toList⟩
def demoCont : Container := ⟨"c1".toList, "web".toList, "nginx".toList, "i".toList, 1, true, some "p1".toList⟩
def demoPod : Pod := ⟨3, "p1".toList, "pod".toList, "node".toList, [], [], "default".toList, 0, []⟩
def demoPE (pid : Int) : ProcEvt := ⟨⟨1, pid⟩, 7, 1, 2, 0⟩
def withCont (p : Proc) : Proc := { p with containerId := some "c1".toList }
def demoStream : List Rec :=
  [.header demoHeader, .cont demoCont, .pod demoPod, .proc (demoProc .reup 1 none "/init"), .proc (withCont (demoProc .created 2 (some 1) " /bin/sh ")),
   .procEvt (demoPE 2), .proc (withCont (demoProc .modified 2 (some 1) "/bin/ls")), .procEvt (demoPE 2), .procEvt (demoPE 5)]

/-- The reader on this stream: the second event sees the new process but the old tree, the third event has no process. -/
example : (run false 10 .init demoStream).map (·.2) = some
    [.procEvt ⟨some demoHeader, some demoPod, some demoCont, some (withCont (demoProc .created 2 (some 1) "/bin/sh")),
        some [withCont (demoProc .created 2 (some 1) "/bin/sh"), demoProc .reup 1 none "/init"], none, none⟩ (demoPE 2),
     .procEvt ⟨some demoHeader, some demoPod, some demoCont, some (withCont (demoProc .modified 2 (some 1) "/bin/ls")),
        some [withCont (demoProc .created 2 (some 1) "/bin/sh"), demoProc .reup 1 none "/init"], none, none⟩ (demoPE 2),
     .procEvt ⟨some demoHeader, none, none, none, none, none, none⟩ (demoPE 5)] := by decide

end Verif.Processor

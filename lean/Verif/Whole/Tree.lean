import Verif.Whole.Messages
import Verif.Whole.Typing
/-
C105: configurations in which the reader feeds several policy engines, and policy engines feed several exporters.
Sources: /repo/driver/pipeline/pipeline.go:95-201, /repo/core/flattener/flattener.go:82-106, /repo/core/policyengine/policyengine.go:206-234, and the sources of the whole program.
-/
namespace Verif.Whole
open Verif.Decimal (Str)
open Verif.Exporter (Bytes GetsThrough)
open Verif.FlatRecord
open Verif.Policy
open Verif.Falco
open Verif.Processor (Rec HCall OlderParents)
open Verif.Flattener (FLib Known fields eventsAfter StoresEvent)
open Verif.Pipeline
open Verif.Pipeline.Process
open Verif.Pipeline.Drain (driven Exec Waited Net Comp sync engine exporter chain EngineDelivers Segment emitted)
open Verif.Config (XConf XVal XConfig ConfEnv EngineConfig createConfigX createEngineConfig createFlattenerConfig engineInit)

variable {P : Type}

/-! ### Specification -/

/-- A configuration of a SysFlow reader, policy engines and exporters whose channel names form a tree from the reader, with the right channel types, and with workers for every policy engine. -/
structure Layout (cs : List Pipeline.Conf) : Prop where
  tree : TreeConf cs
  root : ∃ c, cs[0]? = some c ∧ strAt c "processor".toList = some "sysflowreader".toList
  known : ∀ c ∈ cs, ∃ p, strAt c "processor".toList = some p ∧ p ∈ ["sysflowreader".toList, "policyengine".toList, "exporter".toList] ∧
    (∀ n ∈ inNames c, typeIn cs n = reads p) ∧ ∀ n ∈ outNames c, typeIn cs n = writes p
  workers : ∀ c ∈ cs, strAt c "processor".toList = some "policyengine".toList → 0 < (engineConf c).concurrency

/-- A channel that one stage writes is read by another. -/
def Feeds (c c' : Pipeline.Conf) : Prop := ∃ n ∈ outNames c, n ∈ inNames c'

open Classical in
/-- Messages are complete for events divided into stretches, one for each policy set in force: stretch by stretch, they are one for each event that its policies want logged; in the order of the events if
there is one worker. -/
def MessagesIn (S : Setup P) (dss : P → List (List Decl)) (Line : List (List Decl) → Event → Bytes → Prop) (div : List (P × List Event)) (ms : List Bytes) : Prop :=
  ∃ lines : List (List Bytes), lines.flatten = ms ∧
    List.Forall₂ (fun g ls => ∃ picked, List.Perm picked (g.2.filter (fun x => decide (Logged S (dss g.1) x))) ∧
      (S.workers = 1 → picked = g.2.filter (fun x => decide (Logged S (dss g.1) x))) ∧ List.Forall₂ (Line (dss g.1)) picked ls) div lines

/-- The transport of the exporter that is stage `j` is in state `out`. -/
def TransportAt {N : Net Msg} (s : Drain.St N) (j : Nat) {X : Type} (out : X) (D : Type := Exporter.Datum) : Prop := ∃ o : Exporter.State X Msg D × Bool, HEq (s.st j) o ∧ o.1.tr = out

/-- The exporter that is stage `j`, with configuration `x`, has put out the messages `ms`: printed them, one a line; or written to its file what is kept of them (all, one a line, if writing works); or sent to
syslog what gets through; or requested Elastic to create them as documents, each under its own identifier, in bulks (only ECS documents, no others ever). -/
def PutOut (W : World P) (x : XConfig) (ms : List Bytes) {N : Net Msg} (s : Drain.St N) (j : Nat) : Prop :=
  match x.transport with
  | .terminal => TransportAt s j (ms.flatMap (fun l => l ++ [Exporter.newline]))
  | .file => ∃ (f : Exporter.OutFile) (fates : List Exporter.Fate), TransportAt s j f ∧ Exporter.KeptOf W.writes x.eventBuffer ms f.contents f.writes fates
  | .syslog => ∃ (sent : List Bytes) (n : Nat), TransportAt s j (sent, n) ∧ GetsThrough W.sends x.eventBuffer ms sent n
  | .es => ∃ b : Exporter.Bulk, TransportAt s j b (D := Exporter.EDatum) ∧
      (x.format = .ecs → ∃ docs parts, docs.map Prod.snd = ms ∧ (∀ d ∈ docs, ∃ r : Ecs.Rec, d = (Utf8.bytes r.id, Ecs.recText r)) ∧
        Exporter.RequestsFor W.sends x.eventBuffer docs b.ops b.calls parts) ∧
      (x.format ≠ .ecs → ∀ op ∈ b.ops, op = .opened ∨ op = .closed)
  | _ => True

/-! ### Proofs -/

/-- A loaded stage has been initialised. -/
theorem loaded_inited {F : Type} (E : Env F) : ∀ (cs : List Pipeline.Conf) (l l' : Load F), loadStages E l cs = .done l' → (∃ more, l'.stages = l.stages ++ more) ∧
    ∀ (i : Nat) c, cs[i]? = some c → ∃ st r1 r2, l'.stages[l.stages.length + i]? = some st ∧ E.init st.proc c r1 = .ok r2 := by
  intro cs
  induction cs with
  | nil =>
    intro l l' h
    cases h
    exact ⟨⟨[], by simp⟩, fun i c hc => by cases hc⟩
  | cons c0 cs ih =>
    intro l l' h
    unfold loadStages at h
    split at h
    · rename_i l1 h1
      obtain ⟨p, f, r1, r2, -, -, hi, -, hst, hpr⟩ := loaded_stage_valid E l l1 c0 h1
      obtain ⟨⟨more, hm⟩, hall⟩ := ih l1 l' h
      obtain ⟨st, hd, hf⟩ : ∃ st, l1.stages.drop l.stages.length = [st] ∧ st.proc = f := by
        generalize l1.stages.drop l.stages.length = ds at hpr
        match ds, hpr with
        | [st], hpr => exact ⟨st, rfl, by simpa using hpr⟩
      rw [hd] at hst
      refine ⟨⟨st :: more, by rw [hm, hst]; simp⟩, ?_⟩
      intro i c hc
      cases i with
      | zero =>
        cases hc
        refine ⟨st, r1, r2, ?_, by rw [hf]; exact hi⟩
        rw [hm, hst]
        simp
      | succ i =>
        obtain ⟨st', q1, q2, h2, h3⟩ := hall i c hc
        refine ⟨st', q1, q2, ?_, h3⟩
        have : l1.stages.length = l.stages.length + 1 := by rw [hst]; simp
        rw [this] at h2
        rw [← h2]
        congr 1
        omega
    · rename_i hne
      exact absurd h (hne l')

/-- A run of a stage that is known otherwise. -/
theorem run_of_eq {R : Type} {C C' : Comp R} (e : C = C') {tr : List (Drain.Act R)} {s : C.S} (h : C.Run tr s) :
    ∃ s' : C'.S, HEq s s' ∧ C'.Run tr s' ∧ C'.returned s' = C.returned s ∧ C'.cleaned s' = C.cleaned s := by
  subst e
  exact ⟨s, .rfl, h, rfl, rfl⟩

/-- The same division of the events serves all outputs of the policy engine. -/
theorem parts_of {segs : List (Segment P Msg)} : ∀ {parts : List ((P × List Msg) × List Event × List FlatRec)}, parts.map (·.1) = segs.map (fun g => (g.pol, g.ins)) →
    ∃ ps : List (Segment P Msg × List Event × List FlatRec), ps.map (·.1) = segs ∧ ps.map (·.2) = parts.map (·.2) ∧ ps.map (fun q => (q.1.pol, q.2.1)) = parts.map (fun q => (q.1.1, q.2.1)) ∧
      ∀ q ∈ ps, ∃ a ∈ parts, q.1.ins = a.1.2 ∧ q.2 = a.2 := by
  induction segs with
  | nil =>
    intro parts h
    have : parts = [] := List.map_eq_nil_iff.1 h
    subst this
    exact ⟨[], rfl, rfl, rfl, fun q hq => by cases hq⟩
  | cons g segs ih =>
    intro parts h
    match parts, h with
    | a :: parts, h =>
      rw [List.map_cons, List.map_cons] at h
      injection h with h1 h2
      obtain ⟨ps, p1, p2, p3, p4⟩ := ih h2
      refine ⟨(g, a.2) :: ps, by simp [p1], by simp [p2], by simp [p3, h1], ?_⟩
      intro q hq
      rcases List.mem_cons.1 hq with rfl | hq
      · exact ⟨a, List.mem_cons_self, by rw [h1], rfl⟩
      · obtain ⟨b, hb, h3⟩ := p4 q hq
        exact ⟨b, List.mem_cons_of_mem _ hb, h3⟩

/-- What a stage of a loaded layout is. -/
theorem layout_comp (W : World P) (hW : W.NoPlugins) {cs : List Pipeline.Conf} (ht : Layout cs) {l : Load Factory} (h : loadStages W.env { regs := bootRegs } cs = .done l) {i : Nat} {c : Pipeline.Conf}
    {st : Stage Factory} (hc : cs[i]? = some c) (hs : l.stages[i]? = some st) :
    (strAt c "processor".toList = some "sysflowreader".toList ∧
      W.comp c st = sync (readerStep W.F W.fuel W.clock) ⟨some .init, Flattener.init (createFlattenerConfig (Config.toConf (xconf c))).1.filterOn
        (seconds (createFlattenerConfig (Config.toConf (xconf c))).1.maxAge) 1, 0⟩ (outNames c).length) ∨
    (strAt c "processor".toList = some "policyengine".toList ∧ (engineConf c).policiesPath = [] ∧ W.comp c st = sync bypassStep () (outNames c).length) ∨
    (strAt c "processor".toList = some "policyengine".toList ∧ (engineConf c).policiesPath ≠ [] ∧ ∃ p, W.policyAt (engineConf c) = some p ∧
      W.comp c st = engine ⟨W.proc ((engineConf c).mode == .enrich), (outNames c).length, (engineConf c).concurrency.toNat, (engineConf c).monitor == .loc, seconds (engineConf c).monitorInterval⟩
        p W.start W.pending) ∨
    (strAt c "processor".toList = some "exporter".toList ∧ outNames c = [] ∧ ∃ x, createConfigX W.secrets (xconf c) = some x ∧ W.comp c st = W.exporterComp x) := by
  obtain ⟨⟨q, hq, hf⟩, -, h1, h2⟩ := stage_facts W hW h hc hs
  obtain ⟨p, hp, hmem, -, hty⟩ := ht.known c (List.mem_of_getElem? hc)
  have e : q = p := Option.some.inj (hq.symm.trans hp)
  subst e
  obtain ⟨st', r1, r2, hs', hi⟩ := (loaded_inited W.env cs _ l h).2 i c hc
  have e : st' = st := by
    have : (([] : List (Stage Factory)).length + i) = i := by simp
    rw [show ({ regs := bootRegs } : Load Factory).stages = [] from rfl, this, hs] at hs'
    exact (Option.some.inj hs').symm
  subst e
  rcases hf with ⟨rfl, e⟩ | ⟨rfl, e⟩ | ⟨rfl, e⟩ | ⟨rfl, e⟩
  · refine .inl ⟨hp, ?_⟩
    unfold World.comp
    rw [e]
    dsimp only
    rw [h1]
  · exact absurd hmem (by decide)
  · have hi' : W.env.init .engine c r1 = .ok r2 := by rw [← e]; exact hi
    unfold World.env at hi'
    dsimp only at hi'
    unfold engineInit at hi'
    rw [show (createEngineConfig (Config.toConf (xconf c))).1 = engineConf c from rfl] at hi'
    by_cases hpath : (engineConf c).policiesPath = []
    · refine .inr (.inl ⟨hp, hpath, ?_⟩)
      unfold World.comp
      rw [e]
      dsimp only
      rw [hpath]
      dsimp only
      rw [h1]
    · refine .inr (.inr (.inl ⟨hp, hpath, ?_⟩))
      dsimp only at hi'
      rw [if_neg hpath] at hi'
      cases hpol : W.policyAt (engineConf c) with
      | none => rw [hpol] at hi'; cases hi'
      | some p =>
        refine ⟨p, rfl, ?_⟩
        unfold World.comp
        rw [e]
        dsimp only
        rw [hpol]
        cases hpp : (engineConf c).policiesPath with
        | nil => exact absurd hpp hpath
        | cons a b =>
          dsimp only
          rw [h1]
  · refine .inr (.inr (.inr ⟨hp, ?_, ?_⟩))
    · cases ho : outNames c with
      | nil => rfl
      | cons n ns =>
        have hlen : (st'.outs.getD []).length = (n :: ns).length := by rw [h1, ho]
        match hd : st'.outs.getD [], hlen with
        | d :: ds, _ =>
          obtain ⟨u, hu, -⟩ := h2 (n, d) (by rw [ho, hd]; exact List.mem_cons_self)
          rw [hty n (by rw [ho]; exact List.mem_cons_self)] at hu
          exact absurd hu (by rw [show writes "exporter".toList = none by decide]; intro h; cases h)
    · have hi' : W.env.init .exporter c r1 = .ok r2 := by rw [← e]; exact hi
      unfold World.env at hi'
      dsimp only at hi'
      cases hx : createConfigX W.secrets (xconf c) with
      | none => rw [hx] at hi'; cases hi'
      | some x =>
        refine ⟨x, rfl, ?_⟩
        unfold World.comp
        rw [e]
        dsimp only
        rw [hx]

theorem exporterComp_contract (W : World P) (x : XConfig) : Drain.Contract (W.exporterComp x) ∧ (W.exporterComp x).nOut = 0 := by
  unfold World.exporterComp
  split <;> exact ⟨Drain.exporter_contract _ _ _ _ _, rfl⟩

/-- A loaded layout is a tree of stages that keep their contract, and its stages start. -/
theorem layout_ok (W : World P) (hW : W.NoPlugins) {cs : List Pipeline.Conf} (ht : Layout cs) {l : Load Factory} (h : loadStages W.env { regs := bootRegs } cs = .done l) :
    Drain.Tree (netOf W.comp cs l chanSize) ∧ (∀ i, i < (netOf W.comp cs l chanSize).n → Drain.Contract ((netOf W.comp cs l chanSize).comp i)) ∧
    (∀ (i : Nat) c, cs[i]? = some c → ∃ st, l.stages[i]? = some st ∧ i < (netOf W.comp cs l chanSize).n ∧ (netOf W.comp cs l chanSize).comp i = W.comp c st ∧ (W.comp c st).nOut = (outNames c).length) := by
  have hI : LInv cs l := by simpa using loadStages_inv W.env [] cs _ l (linv_start _) h
  have both : ∀ (i : Nat) c st, cs[i]? = some c → l.stages[i]? = some st → (W.comp c st).nOut = (outNames c).length ∧ Drain.Contract (W.comp c st) := by
    intro i c st hc hs
    rcases layout_comp W hW ht h hc hs with ⟨-, e⟩ | ⟨-, -, e⟩ | ⟨hp, -, p, -, e⟩ | ⟨-, e1, x, -, e⟩
    · rw [e]; exact ⟨rfl, Drain.sync_contract _ _ _⟩
    · rw [e]; exact ⟨rfl, Drain.sync_contract _ _ _⟩
    · rw [e]
      refine ⟨rfl, Drain.engine_contract _ ?_ _ _ _⟩
      change 0 < (engineConf c).concurrency.toNat
      have := ht.workers c (List.mem_of_getElem? hc) hp
      omega
    · rw [e, e1]; exact ⟨(exporterComp_contract W x).2, (exporterComp_contract W x).1⟩
  have hcomp : ∀ (i : Nat) c st, cs[i]? = some c → l.stages[i]? = some st → (netOf W.comp cs l chanSize).comp i = W.comp c st := by
    intro i c st hc hst
    change (((cs.zip l.stages)[i]?.map (fun p => W.comp p.1 p.2)).getD (Drain.idle Msg)) = _
    rw [(List.getElem?_zip_eq_some (z := (c, st))).2 ⟨hc, hst⟩]
    rfl
  refine ⟨tree_of_conf W.comp W.env bootRegs cs l chanSize (by decide) h ht.tree (fun i c st hc hs => (both i c st hc hs).1), ?_, ?_⟩
  · intro i hi
    have hi : i < l.stages.length := hi
    have h1 : cs[i]? = some (cs[i]'(hI.len ▸ hi)) := List.getElem?_eq_getElem _
    have h2 : l.stages[i]? = some (l.stages[i]) := List.getElem?_eq_getElem _
    rw [hcomp i _ _ h1 h2]
    exact (both i _ _ h1 h2).2
  · intro i c hc
    have hi : i < l.stages.length := by rw [hI.len]; exact (List.getElem?_eq_some_iff.1 hc).1
    have h2 : l.stages[i]? = some (l.stages[i]) := List.getElem?_eq_getElem _
    exact ⟨_, h2, hi, hcomp i _ _ hc h2, (both i _ _ hc h2).1⟩

/-- The schema version in force is the build's, for every stage. -/
theorem stage_version (W : World P) {m : Manifest} {env : List Str} {cs : List Pipeline.Conf} {j : Nat} {c : Pipeline.Conf} (hc : (setManifest m env cs)[j]? = some c) {p : Str}
    (hp : strAt c "processor".toList = some p) {x : XConfig} (h : createConfigX W.secrets (xconf c) = some x) : x.jsonSchemaVersion = m.jsonSchema := by
  have hlen : (setManifest m env cs).length = cs.length := by simp [setManifest, addGlobal]
  have hj : j < cs.length := by rw [← hlen]; exact (List.getElem?_eq_some_iff.1 hc).1
  have h2 : cs[j]? = some (cs[j]'hj) := List.getElem?_eq_getElem _
  obtain ⟨-, c', hc', hin, hout⟩ := global_items m env cs j _ h2
  have hc' : c = c' := Option.some.inj (hc.symm.trans hc')
  subst hc'
  have hproc : (cs[j].get kProc).isSome = true := by
    have hne : c.get kProc = cs[j].get kProc := by
      apply hout
      intro _
      rw [globals_keys]
      decide
    rw [← hne]
    unfold strAt at hp
    have e : c.get "processor".toList = c.get kProc := rfl
    rw [e] at hp
    cases hc : c.get kProc with
    | none => rw [hc] at hp; cases hp
    | some _ => rfl
  have hv := hin hproc ("jsonschemaversion".toList, m.jsonSchema) (by unfold globals; exact List.mem_cons_of_mem _ List.mem_cons_self)
  rw [schema_version h]
  have : (xconf c).str? "jsonschemaversion" = some m.jsonSchema := by
    unfold XConf.str? xconf
    rw [hv]
    rfl
  rw [this]
  rfl

/-- What an exporter has put out when it has received the messages of alerts. -/
theorem put_out (W : World P) (x : XConfig) {N : Net Msg} (s : Drain.St N) (j : Nat) {tr : List (Drain.Act Msg)} (hcomp : N.comp j = W.exporterComp x) (hrun : (N.comp j).Run tr (s.st j))
    (hret : (N.comp j).returned (s.st j) = true) {ds : List Exporter.Datum} (hds : (Drain.takes tr).map (W.encode x) = ds.map some) (hb : ∀ d ∈ ds, ∃ b, d = .bytes b ∨ d = .obj b) :
    PutOut W x (ds.map Exporter.Datum.text) s j := by
  have hnone : ∀ m ∈ Drain.takes tr, W.encode x m ≠ none := by
    intro m hm hn
    have : W.encode x m ∈ (Drain.takes tr).map (W.encode x) := List.mem_map.2 ⟨m, hm, rfl⟩
    rw [hds, hn] at this
    obtain ⟨_, _, h⟩ := List.mem_map.1 this
    cases h
  have hfm : (Drain.takes tr).filterMap (W.encode x) = ds := by
    have : (Drain.takes tr).filterMap (W.encode x) = ((Drain.takes tr).map (W.encode x)).filterMap id := by rw [List.filterMap_map]; rfl
    rw [this, hds, List.filterMap_map]
    exact (List.filterMap_congr (fun _ _ => rfl)).trans List.filterMap_some
  have key : ∀ {X : Type} (T : Exporter.Transport X Exporter.Datum) (x0 : X), W.exporterComp x = exporter (Exporter.allOrNone (W.encode x)) T x.eventBuffer x0 W.start →
      ∃ es, Exporter.received es = Drain.takes tr ∧ Exporter.closed es = true ∧
        TransportAt s j (Exporter.run (Exporter.perRecord (W.encode x)) T x.eventBuffer (Exporter.init x0 W.start) es).tr := by
    intro X T x0 he
    obtain ⟨s', h1, h2, h3, -⟩ := run_of_eq (hcomp.trans he) hrun
    obtain ⟨es, e1, e2, e3, -⟩ := Drain.exporter_run _ _ _ _ _ h2
    rw [hret] at h3
    refine ⟨es, e2, e3.trans h3, s', h1, ?_⟩
    rw [e1, run_allOrNone (W.encode x) _ _ es _ (fun r hr => (by cases hr)) (by rw [e2]; exact hnone)]
  have hdata : ∀ m ∈ Drain.takes tr, ∃ b, W.encode x m = some (.bytes b) ∨ W.encode x m = some (.obj b) := by
    intro m hm
    have : W.encode x m ∈ (Drain.takes tr).map (W.encode x) := List.mem_map.2 ⟨m, hm, rfl⟩
    rw [hds] at this
    obtain ⟨d, hd, he⟩ := List.mem_map.1 this
    rw [← he]
    obtain ⟨b, rfl | rfl⟩ := hb d hd
    · exact ⟨b, .inl rfl⟩
    · exact ⟨b, .inr rfl⟩
  unfold PutOut
  split
  · rename_i ht
    obtain ⟨es, e1, e2, e3⟩ := key Exporter.terminal [] (by unfold World.exporterComp; rw [ht])
    rw [Exporter.terminal_log _ _ _ es e2, e1, hfm] at e3
    rw [List.flatMap_map]
    exact e3
  · rename_i ht
    obtain ⟨es, e1, e2, e3⟩ := key (Exporter.fileTransport W.writes) Exporter.newFile (by unfold World.exporterComp; rw [ht])
    obtain ⟨fates, hf⟩ := Exporter.file_kept (W.encode x) W.writes x.eventBuffer W.start es e2 (by rw [e1]; exact hdata)
    rw [e1, hfm] at hf
    exact ⟨_, fates, e3, hf⟩
  · rename_i ht
    obtain ⟨es, e1, e2, e3⟩ := key (Exporter.syslog W.sends) ([], 0) (by unfold World.exporterComp; rw [ht])
    refine ⟨_, _, e3, ?_⟩
    have := Exporter.syslog_sent (W.encode x) W.sends x.eventBuffer W.start es e2 (by rw [e1]; exact hdata)
    rw [e1, hfm] at this
    exact this
  · rename_i ht
    obtain ⟨s', h1, h2, h3, -⟩ := run_of_eq (hcomp.trans (show W.exporterComp x = exporter (Exporter.allOrNone (W.encodeE x)) (Exporter.elastic W.sends) x.eventBuffer ⟨[], 0⟩ W.start by
      unfold World.exporterComp; rw [ht])) hrun
    obtain ⟨es, e1, e2, e3, -⟩ := Drain.exporter_run _ _ _ _ _ h2
    rw [hret] at h3
    refine ⟨_, ⟨s', h1, rfl⟩, fun hf => ?_, fun hf => ?_⟩
    · let f : Msg → Bytes × Bytes := fun m => ((W.ecsDoc x m).map (fun d => (Utf8.bytes d.id, Ecs.recText d))).getD ([], [])
      have hdoc : ∀ m ∈ Drain.takes tr, ∃ d, W.ecsDoc x m = some d ∧ W.encode x m = some (.obj (Ecs.recText d)) ∧ f m = (Utf8.bytes d.id, Ecs.recText d) := by
        intro m hm
        have hne := hnone m hm
        have e : W.encode x m = (W.ecsDoc x m).map (fun d => .obj (Ecs.recText d)) := by unfold World.encode; rw [hf]
        cases hd : W.ecsDoc x m with
        | none => rw [e, hd] at hne; exact absurd rfl hne
        | some d => exact ⟨d, rfl, by rw [e, hd]; rfl, by simp only [f, hd]; rfl⟩
      have hagree : ∀ b : List Msg, (∀ m ∈ b, m ∈ Drain.takes tr) →
          (Exporter.allOrNone (W.encodeE x)).encode b = (Exporter.total (fun m => Exporter.asEcs (f m))).encode b := by
        intro b hb
        show b.mapM (W.encodeE x) = some (b.map _)
        induction b with
        | nil => rfl
        | cons m b ih =>
          obtain ⟨d, d1, -, d3⟩ := hdoc m (hb m List.mem_cons_self)
          have e : W.encodeE x m = some (Exporter.asEcs (f m)) := by
            unfold World.encodeE
            rw [hf]
            dsimp only
            rw [d1, d3]
            rfl
          rw [List.mapM_cons, e, ih (fun x hx => hb x (List.mem_cons_of_mem _ hx))]
          rfl
      obtain ⟨parts, hparts⟩ := Exporter.elastic_requests f W.sends x.eventBuffer W.start es (e3.trans h3)
      refine ⟨(Drain.takes tr).map f, parts, ?_, ?_, ?_⟩
      · rw [← hfm, List.map_map]
        clear hds hnone hfm key hagree hdata hparts hrun h2 e2
        generalize Drain.takes tr = ms at hdoc
        induction ms with
        | nil => rfl
        | cons m ms ih =>
          obtain ⟨d, -, d2, d3⟩ := hdoc m List.mem_cons_self
          rw [List.map_cons, List.filterMap_cons, d2, List.map_cons, ← ih (fun x hx => hdoc x (List.mem_cons_of_mem _ hx))]
          change (f m).2 :: _ = _
          rw [d3]
          rfl
      · intro y hy
        obtain ⟨m, hm, rfl⟩ := List.mem_map.1 hy
        obtain ⟨d, -, -, d3⟩ := hdoc m hm
        exact ⟨d, d3⟩
      · rw [e1, run_congr hagree _ _ es _ (fun r hr => (by cases hr)) (by rw [e2]; exact fun m hm => hm), ← e2]
        exact hparts
    · rw [e1]
      refine Exporter.elastic_only_ecs W.sends _ ?_ _ _ es
      intro b ds' hb d hd
      have hb : b.mapM (W.encodeE x) = some ds' := hb
      clear hdata hds hnone hfm key
      have e : ∀ m, W.encodeE x m = (W.json x m).map (fun _ => Exporter.EDatum.other) := by
        intro m
        unfold World.encodeE
        cases hx : x.format <;> first | exact absurd hx hf | rfl
      induction b generalizing ds' with
      | nil => cases hb; cases hd
      | cons m b ih =>
        rw [List.mapM_cons] at hb
        cases h1 : W.encodeE x m with
        | none => rw [h1] at hb; cases hb
        | some y =>
          rw [h1] at hb
          cases h2 : b.mapM (W.encodeE x) with
          | none => rw [h2] at hb; cases hb
          | some ys =>
            rw [h2] at hb
            cases hb
            rcases List.mem_cons.1 hd with rfl | hd
            · rw [e m] at h1
              obtain ⟨_, -, h⟩ := Option.map_eq_some_iff.1 h1
              exact h.symm
            · exact ih _ h2 hd h2
  · trivial

/-- Every exporter of a layout is fed by a policy engine, and every policy engine by the reader. -/
theorem layout_shape (W : World P) (hW : W.NoPlugins) {cs : List Pipeline.Conf} (ht : Layout cs) {l : Load Factory} (h : loadStages W.env { regs := bootRegs } cs = .done l) :
    (∀ c ∈ cs, strAt c "processor".toList = some "exporter".toList → ∃ c' ∈ cs, strAt c' "processor".toList = some "policyengine".toList ∧ Feeds c' c) ∧
    (∀ c ∈ cs, strAt c "processor".toList = some "policyengine".toList → ∃ c0, cs[0]? = some c0 ∧ Feeds c0 c) := by
  obtain ⟨c0, h0, hr⟩ := ht.root
  have typed : ∀ c ∈ cs, ∀ n ∈ inNames c, ∃ u, typeIn cs n = some u := by
    intro c hc n hn
    obtain ⟨p, hp, hmem, h1, -⟩ := ht.known c hc
    rw [h1 n hn]
    simp only [List.mem_cons, List.not_mem_nil, or_false] at hmem
    rcases hmem with rfl | rfl | rfl <;> exact ⟨_, by unfold reads; rfl⟩
  have up : ∀ c ∈ cs, strAt c "processor".toList ≠ some "sysflowreader".toList → ∃ c' ∈ cs, ∃ n, n ∈ outNames c' ∧ n ∈ inNames c := by
    intro c hc hne
    have : c ∈ cs.tail := by
      obtain ⟨i, hi⟩ := List.mem_iff_getElem?.1 hc
      cases i with
      | zero =>
        rw [h0] at hi
        cases hi
        exact absurd hr hne
      | succ i => exact List.mem_of_getElem? (i := i) (by rw [List.getElem?_tail]; exact hi)
    obtain ⟨n, hn⟩ := List.length_eq_one_iff.1 (ht.tree.oneIn c hc)
    obtain ⟨c', hc', hn'⟩ := List.mem_flatMap.1 (ht.tree.fed c this n (by rw [hn]; exact List.mem_cons_self))
    exact ⟨c', hc', n, hn', by rw [hn]; exact List.mem_cons_self⟩
  constructor
  · intro c hc hp
    obtain ⟨c', hc', n, h1, h2⟩ := up c hc (by rw [hp]; decide)
    obtain ⟨p, hp1, hm, hi, -⟩ := ht.known c hc
    have e : p = "exporter".toList := Option.some.inj (hp1.symm.trans hp)
    subst e
    obtain ⟨q, hq, hm', -, ho⟩ := ht.known c' hc'
    have := (hi n h2).symm.trans (ho n h1)
    simp only [List.mem_cons, List.not_mem_nil, or_false] at hm'
    rcases hm' with rfl | rfl | rfl
    · exact absurd this (by decide)
    · exact ⟨c', hc', hq, n, h1, h2⟩
    · exact absurd this (by decide)
  · intro c hc hp
    obtain ⟨c', hc', n, h1, h2⟩ := up c hc (by rw [hp]; decide)
    obtain ⟨p, hp1, hm, hi, -⟩ := ht.known c hc
    have e : p = "policyengine".toList := Option.some.inj (hp1.symm.trans hp)
    subst e
    obtain ⟨q, hq, hm', hi', ho⟩ := ht.known c' hc'
    have := (hi n h2).symm.trans (ho n h1)
    simp only [List.mem_cons, List.not_mem_nil, or_false] at hm'
    have hrd : strAt c' "processor".toList = some "sysflowreader".toList := by
      rcases hm' with rfl | rfl | rfl
      · exact hq
      · exact absurd this (by decide)
      · exact absurd this (by decide)
    refine ⟨c0, h0, ?_⟩
    obtain ⟨i, hi2⟩ := List.mem_iff_getElem?.1 hc'
    cases i with
    | zero => rw [h0] at hi2; cases hi2; exact ⟨n, h1, h2⟩
    | succ i =>
      exfalso
      have htail : c' ∈ cs.tail := List.mem_of_getElem? (i := i) (by rw [List.getElem?_tail]; exact hi2)
      obtain ⟨n', hn'⟩ := List.length_eq_one_iff.1 (ht.tree.oneIn c' hc')
      have hn'm : n' ∈ inNames c' := by rw [hn']; exact List.mem_cons_self
      obtain ⟨c2, hc2, hn2⟩ := List.mem_flatMap.1 (ht.tree.fed c' htail n' hn'm)
      obtain ⟨q2, hq2, hm2, -, ho2⟩ := ht.known c2 hc2
      have e : q = "sysflowreader".toList := Option.some.inj (hq.symm.trans hrd)
      subst e
      have := (hi' n' hn'm).symm.trans (ho2 n' hn2)
      simp only [List.mem_cons, List.not_mem_nil, or_false] at hm2
      rcases hm2 with rfl | rfl | rfl <;> exact absurd this (by decide)

open Classical in
theorem messages_of_stretches {S : Setup P} {dss : P → List (List Decl)} {Line : List (List Decl) → Event → Bytes → Prop} {div : List (P × List Event)} {ss : List (Stretch P)}
    (hd : ss.map (fun g => (g.pol, g.events)) = div)
    (hs : ∀ g ∈ ss, ∃ picked, List.Perm picked (g.events.filter (fun x => decide (Logged S (dss g.pol) x))) ∧
      (S.workers = 1 → picked = g.events.filter (fun x => decide (Logged S (dss g.pol) x))) ∧ List.Forall₂ (Line (dss g.pol)) picked g.lines) :
    MessagesIn S dss Line div (ss.flatMap Stretch.lines) := by
  refine ⟨ss.map Stretch.lines, by rw [List.flatMap_def], ?_⟩
  rw [← hd, List.forall₂_map_left_iff, List.forall₂_map_right_iff, List.forall₂_same]
  exact hs

/-- What the exporters have put out when every stage has returned. -/
theorem tree_drained (W : World P) (hW : W.NoPlugins) {m : Manifest} {env : List Str} {cs0 : List Pipeline.Conf} {cs : List Pipeline.Conf} (hm : setManifest m env cs0 = cs) (ht : Layout cs)
    {l : Load Factory} (h : loadStages W.env { regs := bootRegs } cs = .done l) {rs : List Rec} {rd : Processor.State} {hcs : List HCall} (hr : Processor.run false W.fuel .init rs = some (rd, hcs))
    {tr : List (Drain.Obs Msg)} {s : Drain.St (netOf W.comp cs l chanSize)} (hex : Exec _ tr s) (hw : Waited s) (hdr : driven tr = rs.map Msg.sf) :
    ∀ c1, cs[0]? = some c1 → ∀ (i : Nat) c2, cs[i]? = some c2 → strAt c2 "processor".toList = some "policyengine".toList → (engineConf c2).policiesPath ≠ [] →
      ∃ p, W.policyAt (engineConf c2) = some p ∧ ∀ dss, W.Ok m c1 c2 dss → KindNames W.L →
        ∃ div : List (P × List Event), (∃ rest, div.map Prod.fst = p :: rest) ∧ div.flatMap Prod.snd = eventsAfter [] rs ∧
          ∀ (j : Nat) c3, cs[j]? = some c3 → strAt c3 "processor".toList = some "exporter".toList → Feeds c2 c3 →
          ∃ x, createConfigX W.secrets (xconf c3) = some x ∧ ∃ ms, MessagesIn (W.setup c1 c2 x p) dss (W.Line c1 c2 x p) div ms ∧ PutOut W x ms s j := by
  obtain ⟨hT, hC, hat⟩ := layout_ok W hW ht h
  intro c1 hc1 i c2 hc2 hp2 hpath
  obtain ⟨st1, hs1, hl1, hcomp1, hn1⟩ := hat 0 c1 hc1
  obtain ⟨st2, hs2, hl2, hcomp2, hn2⟩ := hat i c2 hc2
  obtain ⟨-, -, -, hclean, hruns⟩ := Drain.drained_when_wait_returns hT hC hex hw
  obtain ⟨-, hall⟩ := named_channels_deliver W.comp W.env bootRegs cs l chanSize (by decide) h ht.tree
    (fun i c st hc hs => by
      obtain ⟨st', hs', -, -, hn⟩ := hat i c hc
      rw [hs] at hs'; cases hs'; exact hn)
    (fun i c st hc hs => by
      obtain ⟨st', hs', hl, hcomp, -⟩ := hat i c hc
      rw [hs] at hs'; cases hs'
      have := hC i hl
      rwa [hcomp] at this) hex
  obtain ⟨hroot, hflow⟩ := hall hw
  obtain ⟨c1', hc1', hr1⟩ := ht.root
  have e : c1' = c1 := Option.some.inj (hc1'.symm.trans hc1)
  subst e
  have hcompR : W.comp c1' st1 = sync (readerStep W.F W.fuel W.clock) ⟨some .init, Flattener.init (createFlattenerConfig (Config.toConf (xconf c1'))).1.filterOn
        (seconds (createFlattenerConfig (Config.toConf (xconf c1'))).1.maxAge) 1, 0⟩ (outNames c1').length := by
    rcases layout_comp W hW ht h hc1 hs1 with ⟨-, e⟩ | ⟨hp, -⟩ | ⟨hp, -⟩ | ⟨hp, -⟩
    · exact e
    all_goals exact absurd (hr1.symm.trans hp) (by decide)
  obtain ⟨p, hpol, hcompE⟩ : ∃ p, W.policyAt (engineConf c2) = some p ∧
      W.comp c2 st2 = engine ⟨W.proc ((engineConf c2).mode == .enrich), (outNames c2).length, (engineConf c2).concurrency.toNat, (engineConf c2).monitor == .loc, seconds (engineConf c2).monitorInterval⟩
        p W.start W.pending := by
    rcases layout_comp W hW ht h hc2 hs2 with ⟨hp, -⟩ | ⟨-, hp, -⟩ | ⟨-, -, h⟩ | ⟨hp, -⟩
    · exact absurd (hp2.symm.trans hp) (by decide)
    · exact absurd hp hpath
    · exact h
    · exact absurd (hp2.symm.trans hp) (by decide)
  refine ⟨p, hpol, ?_⟩
  intro dss ok hnames
  -- the reader's output
  obtain ⟨s1, -, r1, q1, -⟩ := run_of_eq (hcomp1.trans hcompR) (hruns 0 hl1)
  have q1 : s1.returned = true := q1.trans (hw 0 hl1)
  obtain ⟨c0', hc0', n, hn, hn'⟩ := (layout_shape W hW ht h).2 c2 (List.mem_of_getElem? hc2) hp2
  have e : c0' = c1' := Option.some.inj (hc0'.symm.trans hc1)
  subst e
  obtain ⟨k, hk⟩ := List.mem_iff_getElem?.1 hn
  have f1 := hflow 0 k c0' n hc1 hk i c2 hc2 hn'
  have d1 := Drain.sync_delivers _ _ _ r1 q1 k (List.getElem?_eq_some_iff.1 hk).1
  rw [d1, hroot, hdr] at f1
  -- the policy engine's outputs
  obtain ⟨s2, -, r2, -, q2⟩ := run_of_eq (hcomp2.trans hcompE) (hruns i hl2)
  obtain ⟨tr2, x2, i2, o2⟩ := Drain.engine_run _ p W.start W.pending r2
  by_cases hout : outNames c2 = []
  · refine ⟨[(p, eventsAfter [] rs)], ⟨[], rfl⟩, by simp, ?_⟩
    rintro j c3 - - ⟨n, hn, -⟩
    rw [hout] at hn
    cases hn
  have hpos : 0 < (outNames c2).length := List.length_pos_iff.2 hout
  have hfin : s2.phase = .finished := by
    have c1 : Drain.phaseCleaned s2.phase = true := by
      refine q2.trans (hclean i hl2 ?_)
      rw [hcomp2, hn2]
      exact hpos
    revert c1
    generalize s2.phase = ph
    cases ph <;> intro c1 <;> first | rfl | cases c1
  obtain ⟨parts, hparts, hsegs⟩ := Drain.engine_delivers_outputs _ p W.start W.pending x2 hfin
  -- the events
  have hdedup := ok.dedup
  obtain ⟨h1, h2⟩ : emitted (readerStep W.F W.fuel W.clock) ⟨some .init, Flattener.init (createFlattenerConfig (Config.toConf (xconf c0'))).1.filterOn
        (seconds (createFlattenerConfig (Config.toConf (xconf c0'))).1.maxAge) 1, 0⟩ (rs.map Msg.sf) = (hcs.filterMap (Flattener.recOf W.F)).map Msg.flat ∧
      List.Forall₂ (StoresEvent W.F) (eventsAfter [] rs) (hcs.filterMap (Flattener.recOf W.F)) :=
    ⟨reader_emits W.F W.fuel W.clock _ .init rd hcs _ 0 (by rw [hdedup]; rfl) hr, Flattener.calls_store W.F W.fuel _ [] .init rd [] hcs rfl hr⟩
  rw [h1] at f1
  generalize hcs.filterMap (Flattener.recOf W.F) = frs at f1 h2
  have hins : parts.flatMap Prod.snd = frs.map Msg.flat := by
    obtain ⟨segs, hs, hd⟩ := hsegs 0 hpos
    rw [← hs, List.flatMap_map]
    exact hd.input.trans (i2.trans f1)
  obtain ⟨ps, g1, g2, g3⟩ := split_along Msg.flat Prod.snd parts h2 hins
  refine ⟨ps.map (fun q => (q.1.1, q.2.1)), ⟨Engine.Swap.adoptions tr2, ?_⟩, ?_, ?_⟩
  · rw [List.map_map, ← hparts, ← g1, List.map_map]; rfl
  · rw [List.flatMap_map]; exact g2
  intro j c3 hc3 hp3 hfeed
  obtain ⟨n, hn, hn'⟩ := hfeed
  obtain ⟨k, hk⟩ := List.mem_iff_getElem?.1 hn
  have f2 := hflow i k c2 n hc2 hk j c3 hc3 hn'
  obtain ⟨st3, hs3, hl3, hcomp3, -⟩ := hat j c3 hc3
  obtain ⟨x, hxc, hcompX⟩ : ∃ x, createConfigX W.secrets (xconf c3) = some x ∧ W.comp c3 st3 = W.exporterComp x := by
    rcases layout_comp W hW ht h hc3 hs3 with ⟨hp, -⟩ | ⟨hp, -⟩ | ⟨hp, -⟩ | ⟨-, -, h⟩
    · exact absurd (hp3.symm.trans hp) (by decide)
    · exact absurd (hp3.symm.trans hp) (by decide)
    · exact absurd (hp3.symm.trans hp) (by decide)
    · exact h
  refine ⟨x, hxc, ?_⟩
  obtain ⟨segs, hsg, hdel⟩ := hsegs k (List.getElem?_eq_some_iff.1 hk).1
  obtain ⟨qs, w1, w2, w3, w4⟩ := parts_of (segs := segs) (parts := ps) (by rw [g1, hsg])
  have hv : x.jsonSchemaVersion = m.jsonSchema := stage_version W (by rw [hm]; exact hc3) hp3 hxc
  have hok := setup_ok W ok hv p
  have hev : qs.flatMap (·.2.1) = eventsAfter [] rs := by
    rw [← g2]
    have := congrArg (List.flatMap Prod.fst) w2
    rwa [List.flatMap_map, List.flatMap_map] at this
  rw [i2, f1] at hdel
  obtain ⟨gs, y1, -, -, y4, y5⟩ := handled_of_segments (W.setup c0' c2 x p) _ rfl rfl _ _ (engine_step (W.setup c0' c2 x p) dss hok.toCore) hdel w1 hev
    (fun q hq => by
      obtain ⟨a, ha, e1, e2⟩ := w4 q hq
      obtain ⟨u1, u2⟩ := g3 a ha
      rw [e1, e2]
      exact ⟨u1, u2⟩)
  obtain ⟨ss, ds, z1, z2, z3, z4, z5, -, -⟩ := data_of_handled (W.setup c0' c2 x p) _ _ (W.encode x) (fun q => W.Line c0' c2 x p (dss q)) (fun d => ∃ b, d = .bytes b ∨ d = .obj b)
    (fun q y mm hev ha => by
      obtain ⟨d, d1, d2, d3, -⟩ := world_encodes W ok hv p hnames (dss q) y mm hev ha
      exact ⟨d, d1, d2, d3⟩) gs y5
  refine ⟨ss.flatMap Stretch.lines, messages_of_stretches (z1.trans (y1.trans w3)) z4, ?_⟩
  rw [z2]
  refine put_out W x s j (hcomp3.trans hcompX) (hruns j hl3) (hw j hl3) ?_ z3
  rw [f2, ← o2 k, ← y4]
  exact z5

/-- **C105** Several policy engines and exporters: if a configuration in which the reader feeds policy engines and these feed exporters is loaded, all its stages start, and every run of the file driver
over files that can be opened, with records whose process parents are older, ends without an error; then, for every policy engine with policies, the events of the files fall into stretches, one for
each of its policy sets in force, from the first one on, and every exporter it feeds has put out messages complete for these stretches, in its own format, to its own destination. -/
theorem tree_program (W : World P) (hW : W.NoPlugins) {m : Manifest} {env : List Str} {cs0 : List Pipeline.Conf} {cs : List Pipeline.Conf} (hm : setManifest m env cs0 = cs) (ht : Layout cs)
    {l : Load Factory} (h : loadStages W.env { regs := bootRegs } cs = .done l) :
    (∀ (i : Nat) c st, cs[i]? = some c → l.stages[i]? = some st → startOf st.proc st.ins = .runs ∧ outsCrash st.proc st.outs = false) ∧
    ∀ fs : List (FileData Rec), (∀ f ∈ fs, f ≠ .noOpen) → OlderParents (recordsIn fs) → (recordsIn fs).length ≤ W.fuel →
    ∀ (tr : List (Drain.Obs Msg)) (s : PSt Rec (netOf W.comp cs l chanSize)), PExec Msg.sf _ (fileDriver (fun _ => true) (some fs)) tr s → ∀ e, s.status = some e →
      e = false ∧
      ∀ c1, cs[0]? = some c1 → ∀ (i : Nat) c2, cs[i]? = some c2 → strAt c2 "processor".toList = some "policyengine".toList → (engineConf c2).policiesPath ≠ [] →
      ∃ p, W.policyAt (engineConf c2) = some p ∧ ∀ dss, W.Ok m c1 c2 dss → KindNames W.L →
        ∃ div : List (P × List Event), (∃ rest, div.map Prod.fst = p :: rest) ∧ div.flatMap Prod.snd = eventsAfter [] (recordsIn fs) ∧
          ∀ (j : Nat) c3, cs[j]? = some c3 → strAt c3 "processor".toList = some "exporter".toList → Feeds c2 c3 →
          ∃ x, createConfigX W.secrets (xconf c3) = some x ∧ ∃ ms, MessagesIn (W.setup c1 c2 x p) dss (W.Line c1 c2 x p) div ms ∧ PutOut W x ms s.net j := by
  obtain ⟨hT, hC, hat⟩ := layout_ok W hW ht h
  have hI : LInv cs l := by simpa using loadStages_inv W.env [] cs _ l (linv_start _) h
  refine ⟨?_, ?_⟩
  · intro i c st hc hs
    obtain ⟨p, hp, hmem, h1, h2⟩ := ht.known c (List.mem_of_getElem? hc)
    refine ⟨?_, ?_⟩
    · rw [(stage_starts_iff W hW h hc hs hp).1]
      obtain ⟨n, hn⟩ := List.length_eq_one_iff.1 (ht.tree.oneIn c (List.mem_of_getElem? hc))
      exact ⟨n, hn, h1 n (by rw [hn]; exact List.mem_cons_self)⟩
    · rw [← Bool.not_eq_true, outputs_crash_iff W hW h hc hs hp]
      rintro ⟨t, ht1, n, hn, hne⟩
      exact hne ((h2 n hn).trans ht1)
  intro fs hopen hold hfuel tr s hx e he
  obtain ⟨⟨rd, hcs⟩, hr⟩ := Processor.reader_returns _ (Processor.older_parents_not_stuck _ hold) W.fuel hfuel
  obtain ⟨body, b1, b2, -, -, -⟩ := file_driver_delivers (fun _ => true) (fun _ h => h) fs hopen
  obtain ⟨k1, hex, hw, hdr⟩ := run_returned hT hC ⟨b1, b2⟩ hx he
  have hsent : Pipeline.sent (fileDriver (fun _ => true) (some fs)) = recordsIn fs := file_driver_all fs hopen
  rw [hsent] at hdr
  exact ⟨k1, tree_drained W hW hm ht h hr hex hw hdr⟩

/-! ### Example: two policy engines, three exporters -/

def treeConfs : List Pipeline.Conf :=
  [[(kProc, .str "sysflowreader".toList), ("handler".toList, .str "flattener".toList), (kIn, .str "sysflow sysflowchan".toList), (kOut, .arr [some "f1 flattenerchan".toList, some "f2 flattenerchan".toList])],
   [(kProc, .str "policyengine".toList), (kIn, .str "f2 flattenerchan".toList), (kOut, .str "c eventchan".toList), ("policies".toList, .str "p".toList), ("concurrency".toList, .str "1".toList)],
   [(kProc, .str "policyengine".toList), (kIn, .str "f1 flattenerchan".toList), (kOut, .arr [some "a eventchan".toList, some "b eventchan".toList]), ("policies".toList, .str "p".toList),
    ("mode".toList, .str "enrich".toList), ("concurrency".toList, .str "4".toList)],
   [(kProc, .str "exporter".toList), (kIn, .str "b eventchan".toList), ("export".toList, .str "file".toList), ("kafka.topic".toList, .str "t".toList),
    ("kafka.config".toList, .map [("bootstrap.servers".toList, .str "h".toList)])],
   [(kProc, .str "exporter".toList), (kIn, .str "a eventchan".toList), ("format".toList, .str "ecs".toList), ("kafka.topic".toList, .str "t".toList),
    ("kafka.config".toList, .map [("bootstrap.servers".toList, .str "h".toList)])],
   [(kProc, .str "exporter".toList), (kIn, .str "c eventchan".toList), ("export".toList, .str "syslog".toList), ("kafka.topic".toList, .str "t".toList),
    ("kafka.config".toList, .map [("bootstrap.servers".toList, .str "h".toList)])]]

def treeConfs' : List Pipeline.Conf := setManifest demoManifest [] treeConfs

theorem tree_in : treeConfs'.map inNames = [[some "sysflow".toList], [some "f2".toList], [some "f1".toList], [some "b".toList], [some "a".toList], [some "c".toList]] := by decide +kernel
theorem tree_out : treeConfs'.map outNames = [[some "f1".toList, some "f2".toList], [some "c".toList], [some "a".toList, some "b".toList], [], [], []] := by decide +kernel
theorem tree_procs : treeConfs'.map (fun c => strAt c "processor".toList) = [some "sysflowreader".toList, some "policyengine".toList, some "policyengine".toList, some "exporter".toList,
    some "exporter".toList, some "exporter".toList] := by decide +kernel

/-- The tests that make a layout. -/
def layoutTest (cs : List Pipeline.Conf) : Bool :=
  !cs.isEmpty && cs.all (fun c => (inNames c).length == 1) && decide ((cs.flatMap inNames).Nodup) && decide ((cs.flatMap outNames).Nodup) &&
  (List.range cs.length).all (fun i => (outNames (cs.getD i [])).all (fun n => (List.range cs.length).any (fun j => decide (i < j) && decide (n ∈ inNames (cs.getD j []))))) &&
  cs.tail.all (fun c => (inNames c).all (fun n => decide (n ∈ cs.flatMap outNames))) &&
  decide (cs[0]?.bind (fun c => strAt c "processor".toList) = some "sysflowreader".toList) &&
  cs.all (fun c => ["sysflowreader".toList, "policyengine".toList, "exporter".toList].any (fun p => decide (strAt c "processor".toList = some p) &&
    (inNames c).all (fun n => decide (typeIn cs n = reads p)) && (outNames c).all (fun n => decide (typeIn cs n = writes p)))) &&
  cs.all (fun c => !decide (strAt c "processor".toList = some "policyengine".toList) || decide (0 < (engineConf c).concurrency))

theorem layout_of_test {cs : List Pipeline.Conf} (h : layoutTest cs = true) : Layout cs := by
  unfold layoutTest at h
  simp only [Bool.and_eq_true, decide_eq_true_eq, List.all_eq_true, List.any_eq_true, beq_iff_eq, Bool.or_eq_true, Bool.not_eq_true', decide_eq_false_iff_not, List.mem_range] at h
  obtain ⟨⟨⟨⟨⟨⟨⟨⟨h1, h2⟩, h3⟩, h4⟩, h5⟩, h6⟩, h7⟩, h8⟩, h9⟩ := h
  refine ⟨⟨?_, h2, h3, h4, ?_, h6⟩, ?_, ?_, ?_⟩
  · intro e; rw [e] at h1; cases h1
  · intro i c hc n hn
    obtain ⟨hi, e⟩ := List.getElem?_eq_some_iff.1 hc
    obtain ⟨j, hj, hij, hnj⟩ := h5 i hi n (by rw [List.getD_eq_getElem?_getD, hc]; exact hn)
    refine ⟨j, cs[j], hij, List.getElem?_eq_getElem hj, ?_⟩
    rw [List.getD_eq_getElem?_getD, List.getElem?_eq_getElem hj] at hnj
    exact hnj
  · cases hc : cs[0]? with
    | none => rw [hc] at h7; cases h7
    | some c => rw [hc] at h7; exact ⟨c, rfl, h7⟩
  · intro c hc
    obtain ⟨p, hp, ⟨h1, h2⟩, h3⟩ := h8 c hc
    exact ⟨p, h1, hp, h2, h3⟩
  · intro c hc hp
    rcases h9 c hc with h | h
    · exact absurd hp h
    · exact h

theorem tree_layout : Layout treeConfs' := layout_of_test (by decide +kernel)

theorem tree_settings : (treeConfs'.map (fun c => ((engineConf c).policiesPath, (engineConf c).concurrency))).take 3 = [([], 5), ("p".toList, 1), ("p".toList, 4)] ∧
    (createFlattenerConfig (Config.toConf (xconf (treeConfs'.getD 0 [])))).1.filterOn = false ∧
    (treeConfs'.map (fun c => (createConfigX ⟨fun _ => none, fun _ => none⟩ (xconf c)).map (fun x => (x.format, x.transport)))).drop 3 = [some (.json, .file), some (.ecs, .terminal), some (.json, .syslog)] := by
  decide +kernel

theorem tree_loads (code : List (Rule Record) × List (Filter Record)) : ∃ l, loadStages (halfWorld code).env { regs := bootRegs } treeConfs' = .done l := by
  have e : (halfWorld code).env = (halfWorld ([], [])).env := rfl
  have hl : startsOf (loadStages (halfWorld ([], [])).env { regs := bootRegs } treeConfs') = some (List.replicate 6 (.runs, false)) := by decide +kernel
  rw [e]
  cases hlo : loadStages (halfWorld ([], [])).env { regs := bootRegs } treeConfs' with
  | failed => rw [hlo] at hl; cases hl
  | panicked => rw [hlo] at hl; cases hl
  | stopped l => rw [hlo] at hl; cases hl
  | done l => exact ⟨l, rfl⟩

/-- The hypotheses of `tree_program` are met: the configuration is loaded and runs to the end; the file exporter and the terminal exporter of the engine with four workers have put out what the events
that its policies want logged (all, in enrich mode) make, in the same stretches. -/
example : ∃ code l tr, loadStages (halfWorld code).env { regs := bootRegs } treeConfs' = .done l ∧ ∃ s : PSt Rec (netOf (halfWorld code).comp treeConfs' l chanSize),
    PExec Msg.sf _ (fileDriver (fun _ => true) (some [.data (Processor.saneStream.map .record)])) tr s ∧ s.status = some false ∧
    ∃ (div : List (Unit × List Event)) (xa xb : XConfig) (ma mb : List Bytes), div.flatMap Prod.snd = eventsAfter [] Processor.saneStream ∧
      MessagesIn ((halfWorld code).setup (treeConfs'.getD 0 []) (treeConfs'.getD 2 []) xa ()) (fun _ => [lsDecls]) ((halfWorld code).Line (treeConfs'.getD 0 []) (treeConfs'.getD 2 []) xa ()) div ma ∧
      PutOut (halfWorld code) xa ma s.net 3 ∧
      MessagesIn ((halfWorld code).setup (treeConfs'.getD 0 []) (treeConfs'.getD 2 []) xb ()) (fun _ => [lsDecls]) ((halfWorld code).Line (treeConfs'.getD 0 []) (treeConfs'.getD 2 []) xb ()) div mb ∧
      PutOut (halfWorld code) xb mb s.net 4 := by
  obtain ⟨k, rules, filters, hcomp, _⟩ := policy_texts_to_alerts demoLib simple_rule [lsText] [lsDecls] (.cons ls_parses .nil) ls_acyclic
  have hW : (halfWorld (rules, filters)).NoPlugins := ⟨fun _ => rfl, fun _ _ => rfl⟩
  obtain ⟨l, hl⟩ := tree_loads (rules, filters)
  obtain ⟨hT, hC, -⟩ := layout_ok _ hW tree_layout hl
  obtain ⟨-, hrun⟩ := tree_program (halfWorld (rules, filters)) hW (m := demoManifest) (env := []) (cs0 := treeConfs) rfl tree_layout hl
  have hopen : ∀ f ∈ [FileData.data (Processor.saneStream.map .record)], f ≠ .noOpen := by
    intro f hf
    rw [List.mem_singleton.1 hf]; intro h; cases h
  obtain ⟨body, b1, b2, _⟩ := file_driver_delivers (fun _ => true) (fun _ h => h) _ hopen
  obtain ⟨tr, s, hx, he⟩ := complete_run hT hC ⟨b1, b2⟩ Msg.sf
  obtain ⟨-, hall⟩ := hrun _ hopen (by change OlderParents Processor.saneStream; exact Processor.sane_older) (by change 7 ≤ 10; decide) tr s hx _ he
  obtain ⟨s1, s2, s3⟩ := tree_settings
  have hlen : treeConfs'.length = 6 := by decide +kernel
  have at_ : ∀ (i : Nat), i < 6 → treeConfs'[i]? = some (treeConfs'.getD i []) := by
    intro i hi
    rw [List.getD_eq_getElem?_getD, List.getElem?_eq_getElem (by rw [hlen]; exact hi)]
    rfl
  have c2 : (engineConf (treeConfs'.getD 2 [])).policiesPath = "p".toList ∧ (engineConf (treeConfs'.getD 2 [])).concurrency = 4 := by decide +kernel
  have pr : ∀ (i : Nat), i < 6 → strAt (treeConfs'.getD i []) "processor".toList = (treeConfs'.map (fun c => strAt c "processor".toList)).getD i none := by decide +kernel
  obtain ⟨p, hp, hdss⟩ := hall _ (at_ 0 (by decide)) 2 _ (at_ 2 (by decide)) ((pr 2 (by decide)).trans (by rw [tree_procs]; rfl)) (by rw [c2.1]; decide)
  have hok : (halfWorld (rules, filters)).Ok demoManifest (treeConfs'.getD 0 []) (treeConfs'.getD 2 []) (fun _ => [lsDecls]) := by
    refine ⟨simple_rule, fun _ => .cons ls_parses .nil, fun _ => ls_acyclic, fun _ => ⟨k, hcomp⟩, ?_, by rw [c2.2]; decide, s2, Json.demo_ok, ?_⟩
    · intro a f hf
      rcases hf with hf | hf <;> cases hf
    · exact Json.demo_version
  obtain ⟨div, -, d2, d3⟩ := hdss _ hok demo_names
  have fa : Feeds (treeConfs'.getD 2 []) (treeConfs'.getD 3 []) := ⟨some "b".toList, by decide +kernel, by decide +kernel⟩
  have fb : Feeds (treeConfs'.getD 2 []) (treeConfs'.getD 4 []) := ⟨some "a".toList, by decide +kernel, by decide +kernel⟩
  obtain ⟨xa, -, ma, a1, a2⟩ := d3 3 _ (at_ 3 (by decide)) ((pr 3 (by decide)).trans (by rw [tree_procs]; rfl)) fa
  obtain ⟨xb, -, mb, b1, b2⟩ := d3 4 _ (at_ 4 (by decide)) ((pr 4 (by decide)).trans (by rw [tree_procs]; rfl)) fb
  exact ⟨(rules, filters), l, tr, hl, s, hx, he, div, xa, xb, ma, mb, d2, a1, a2, b1, b2⟩

end Verif.Whole

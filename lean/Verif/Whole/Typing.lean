import Verif.Pipeline.Typing
import Verif.Whole.BootRuns
/-
C96, second part: whether the stages and the drivers of a configuration start, or crash on the type of a channel.
Sources: /repo/core/processor/reader.go:60-63, 80-88, /repo/core/processor/processor.go:59-62, 86-99, /repo/core/flattener/flattener.go:40-42, 82-86, /repo/core/policyengine/policyengine.go:55-57, 119-126, 213-218,
/repo/core/exporter/exporter.go:111-119, 178, /repo/driver/sysflow/filedriver.go:107-127, /repo/driver/sysflow/streamingdriver.go:80-95, /repo/driver/otel/filedriver.go:95-101,
/repo/driver/otel/kafkadriver.go:86-91, /repo/plugins/processors/example/example.go:59-77
-/
namespace Verif.Whole
open Verif.Decimal (Str)
open Verif.Pipeline

variable {P : Type}

/-! ### Model -/

/-- What becomes of a stage when its goroutine starts: it goes into its loop; it returns at once, complaining about the number of inputs; it crashes the program. -/
inductive Start where
  | runs
  | refuses
  | panics
deriving DecidableEq, Repr

/-- The first lines of `Process` (reader.go:81-86, processor.go:92-97, policyengine.go:120-125, exporter.go:112-118) with the type that the input is asserted to have. -/
def startWith (want : Factory) : List (Chan Factory) → Start
  | [d] => if d.made = want then .runs else .panics
  | _ => .refuses

/-- The stages' `Process` on their inputs. (The policy engine is that of the flat-record build, types_flatrecord.go:41.) -/
def startOf (f : Factory) (ins : List (Chan Factory)) : Start :=
  match f with
  | .reader => startWith .sysflowChan ins
  | .processor => startWith .ctxChan ins
  | .engine => startWith .flatChan ins
  | _ => startWith .eventChan ins

/-- Does `SetOutChan` crash (pipeline.go:196)? The reader and the processor hand the channels to the flattener (processor.go:87-89, flattener.go:82-86); policyengine.go:213-218; the exporter ignores
them (exporter.go:178). -/
def outsCrash (f : Factory) (outs : Option (List (Chan Factory))) : Bool :=
  match f with
  | .reader | .processor => (outs.getD []).any (fun d => d.made != .flatChan)
  | .engine => (outs.getD []).any (fun d => d.made != .eventChan)
  | _ => false

/-- The channel a SysFlow driver writes to (filedriver.go:108-127, streamingdriver.go:81-95; `conf`: its entry in the configuration, if any): an error, a crash, or the channel. Also what is left of
the pipeline's cache. -/
def driverChannel (l : Load Factory) (conf : Option Pipeline.Conf) : Load Factory × Res (Chan Factory) :=
  match conf with
  | none =>
    match rootChannel l with
    | some d => (l, if d.made = .sysflowChan then .ok d else .panic)
    | none => (l, .panic)
  | some c =>
    match strAt c kOut with
    | none => (l, .err)
    | some s =>
      match getChannel l s with
      | (l', .ok d) => (l', if d.made = .sysflowChan then .ok d else .panic)
      | (l', .err) => (l', .err)
      | (l', .panic) => (l', .panic)

/-- The channel an OpenTelemetry driver writes to (otel/filedriver.go:96-101, kafkadriver.go:87-91): always the root channel. -/
def otelDriverChannel (l : Load Factory) : Res (Chan Factory) :=
  match rootChannel l with
  | some d => if d.made = .otelChan then .ok d else .err
  | none => .err

/-- What the type assertion of the example plugin (example.go:61) does with a channel: it asserts a `plugins.Channel` where every channel factory (reader.go:61, processor.go:60, flattener.go:41,
policyengine.go:56, kafkadriver.go:50-51) makes a pointer to one. With no channels `Process` returns without `wg.Done`. -/
def exampleStart : List (Chan Factory) → Start
  | [] => .refuses
  | _ :: _ => .panics

/-! ### Specification -/

/-- The channel type that a processor reads; the one it writes, if it writes. -/
def reads (p : Str) : Option Str :=
  if p = "sysflowreader".toList then some "sysflowchan".toList else if p = "sysflowprocessor".toList then some "ctxchan".toList
  else if p = "policyengine".toList then some "flattenerchan".toList else if p = "exporter".toList then some "eventchan".toList else none
def writes (p : Str) : Option Str :=
  if p = "sysflowreader".toList then some "flattenerchan".toList else if p = "sysflowprocessor".toList then some "flattenerchan".toList
  else if p = "policyengine".toList then some "eventchan".toList else none

/-- The type of a channel in a configuration: what is written beside the first mention of its name. -/
def typeIn (cs : List Pipeline.Conf) (n : Option Str) : Option Str := n.bind (firstType (references cs))

/-- No plugins are loaded from shared objects. -/
def World.NoPlugins (W : World P) : Prop := (∀ n, W.load n = none) ∧ ∀ n p, W.loadHandler n p = none

/-! ### Proofs -/

/-- The meaning of the channel types. -/
def chanFac (t : Str) : Factory :=
  if t = "sysflowchan".toList then .sysflowChan else if t = "ctxchan".toList then .ctxChan else if t = "eventchan".toList then .eventChan
  else if t = "otelchan".toList then .otelChan else if t = "flattenerchan".toList then .flatChan else .flattener

/-- The meaning of the processor names. -/
def ProcFac (p : Str) (f : Factory) : Prop :=
  (p = "sysflowreader".toList ∧ f = .reader) ∨ (p = "sysflowprocessor".toList ∧ f = .processor) ∨ (p = "policyengine".toList ∧ f = .engine) ∨ (p = "exporter".toList ∧ f = .exporter)

/-- The registries that occur: before and after the handler cache has been made. -/
def BootInv (r : Regs Factory) : Prop := r = bootRegs ∨ r = fullRegs

theorem bootInv_chans (r : Regs Factory) (h : BootInv r) : RegOk chanFac r := by
  have key : ∀ m : AMap Str Factory, (∀ p ∈ m, p.2 = chanFac p.1) → ∀ t f, m.get t = some f → f = chanFac t := by
    intro m
    induction m with
    | nil => intro _ t f h; cases h
    | cons p m ih =>
      intro hm t f h
      obtain ⟨a, v⟩ := p
      rw [AMap.get] at h
      split at h
      · rename_i e
        cases h
        rw [← e]
        exact hm _ (List.mem_cons_self ..)
      · exact ih (fun q hq => hm q (List.mem_cons_of_mem _ hq)) t f h
  rcases h with rfl | rfl
  · exact key _ (by decide +kernel)
  · exact key _ (by decide +kernel)

theorem bootInv_procs (r : Regs Factory) (h : BootInv r) (p : Str) (f : Factory) (hp : r.procs.get p = some f) : ProcFac p f := by
  have key : ∀ m : AMap Str Factory, (∀ q ∈ m, ProcFac q.1 q.2) → ∀ t f, m.get t = some f → ProcFac t f := by
    intro m
    induction m with
    | nil => intro _ t f h; cases h
    | cons q m ih =>
      intro hm t f h
      obtain ⟨a, v⟩ := q
      rw [AMap.get] at h
      split at h
      · rename_i e
        cases h
        rw [← e]
        exact hm _ (List.mem_cons_self ..)
      · exact ih (fun q hq => hm q (List.mem_cons_of_mem _ hq)) t f h
  have all : ∀ q ∈ bootRegs.procs, ProcFac q.1 q.2 := by unfold ProcFac; decide +kernel
  rcases h with rfl | rfl
  · exact key _ all p f hp
  · exact key _ (by unfold ProcFac; decide +kernel) p f hp

theorem getProcessor_here {r r' : Regs Factory} {load : Str → Option (List (Reg Factory))} (hl : ∀ n, load n = none) {p : Str} {f : Factory}
    (h : Regs.getProcessor load r p = (r', .ok f)) : r' = r ∧ r.procs.get p = some f := by
  unfold Regs.getProcessor at h
  split at h
  · rename_i g hg
    simp only [Prod.mk.injEq, Res.ok.injEq] at h
    exact ⟨h.1.symm, by rw [hg, h.2]⟩
  · rw [hl] at h
    simp at h

theorem getHandler_here {r r' : Regs Factory} {load : Str → Str → Option (Factory × List (Reg Factory))} (hl : ∀ n p, load n p = none) {c : Pipeline.Conf} {f : Factory}
    (h : Regs.getHandler load r c = (r', .ok f)) : r' = r := by
  unfold Regs.getHandler at h
  split at h
  · split at h
    · simp only [Prod.mk.injEq, Res.ok.injEq] at h; exact h.1.symm
    · split at h
      · rw [hl] at h; simp at h
      · simp at h
  · simp at h

theorem handler_made : (bootRegs.handlers.get "flattener".toList).isSome = false ∧ (fullRegs.handlers.get "flattener".toList).isSome = true := by decide +kernel

theorem boot_keeps (W : World P) (hW : W.NoPlugins) : Keeps chanFac W.env BootInv where
  ok := bootInv_chans
  get r p r' f hI h := by
    obtain ⟨rfl, -⟩ := getProcessor_here hW.1 h
    exact hI
  init r r' f c p hI h r'' hi := by
    obtain ⟨rfl, -⟩ := getProcessor_here hW.1 h
    have key : ∀ r1, (match Regs.getHandler W.loadHandler r1 c with | (r2, .ok _) => Res.ok r2 | (_, .err) => .err | (_, .panic) => .panic) = Res.ok r'' → r'' = r1 := by
      intro r1 h1
      split at h1
      · rename_i r2 g hg
        cases h1
        exact getHandler_here hW.2 hg
      · cases h1
      · cases h1
    have hr1 : BootInv (if (r'.handlers.get "flattener".toList).isSome then r' else r'.addAll handlerRegs) := by
      rcases hI with rfl | rfl
      · rw [handler_made.1]; exact .inr rfl
      · rw [handler_made.2]; exact .inr rfl
    cases f with
    | reader => rw [key _ hi]; exact hr1
    | processor => rw [key _ hi]; exact hr1
    | engine =>
      change (match Config.engineInit (Config.toConf (xconf c)) (W.policyAt (engineConf c)).isSome with | .error => Res.err | .panics => .panic | _ => .ok r') = Res.ok r'' at hi
      split at hi
      · cases hi
      · cases hi
      · cases hi; exact hI
    | exporter =>
      change (match Config.createConfigX W.secrets (xconf c) with | some x => if W.exports x then Res.ok r' else .err | none => .err) = Res.ok r'' at hi
      split at hi
      · split at hi
        · cases hi; exact hI
        · cases hi
      · cases hi
    | sysflowChan => cases hi; exact hI
    | ctxChan => cases hi; exact hI
    | flatChan => cases hi; exact hI
    | eventChan => cases hi; exact hI
    | otelChan => cases hi; exact hI
    | flattener => cases hi; exact hI
    | fileDriver => cases hi; exact hI
    | streamDriver => cases hi; exact hI
    | otelFileDriver => cases hi; exact hI
    | otelKafkaDriver => cases hi; exact hI

theorem chanFac_iff (t : Str) : (chanFac t = .sysflowChan ↔ t = "sysflowchan".toList) ∧ (chanFac t = .ctxChan ↔ t = "ctxchan".toList) ∧
    (chanFac t = .eventChan ↔ t = "eventchan".toList) ∧ (chanFac t = .flatChan ↔ t = "flattenerchan".toList) ∧ (chanFac t = .otelChan ↔ t = "otelchan".toList) := by
  unfold chanFac
  by_cases h1 : t = "sysflowchan".toList
  · rw [if_pos h1, h1]; decide
  by_cases h2 : t = "ctxchan".toList
  · rw [if_neg h1, if_pos h2, h2]; decide
  by_cases h3 : t = "eventchan".toList
  · rw [if_neg h1, if_neg h2, if_pos h3, h3]; decide
  by_cases h4 : t = "otelchan".toList
  · rw [if_neg h1, if_neg h2, if_neg h3, if_pos h4, h4]; decide
  by_cases h5 : t = "flattenerchan".toList
  · rw [if_neg h1, if_neg h2, if_neg h3, if_neg h4, if_pos h5, h5]; decide
  · rw [if_neg h1, if_neg h2, if_neg h3, if_neg h4, if_neg h5]
    exact ⟨⟨fun h => (by cases h), fun h => absurd h h1⟩, ⟨fun h => (by cases h), fun h => absurd h h2⟩, ⟨fun h => (by cases h), fun h => absurd h h3⟩,
      ⟨fun h => (by cases h), fun h => absurd h h5⟩, ⟨fun h => (by cases h), fun h => absurd h h4⟩⟩

theorem startWith_iff {want : Factory} {ins : List (Chan Factory)} {names : List (Option Str)} {cs : List Pipeline.Conf} {t : Str}
    (hlen : ins.length = names.length) (hp : ∀ p ∈ names.zip ins, ∃ u, typeIn cs p.1 = some u ∧ p.2.made = chanFac u) (hw : ∀ u, chanFac u = want ↔ u = t) :
    (startWith want ins = .runs ↔ ∃ n, names = [n] ∧ typeIn cs n = some t) ∧ (startWith want ins = .panics ↔ ∃ n, names = [n] ∧ typeIn cs n ≠ some t) ∧
    (startWith want ins = .refuses ↔ names.length ≠ 1) := by
  match ins, names, hlen with
  | [], [], _ => exact ⟨⟨fun h => (by cases h), fun ⟨_, h, _⟩ => (by cases h)⟩, ⟨fun h => (by cases h), fun ⟨_, h, _⟩ => (by cases h)⟩, ⟨fun _ => (by decide), fun _ => rfl⟩⟩
  | [d], [n], _ =>
    obtain ⟨u, h1, h2⟩ := hp (n, d) (by simp)
    dsimp only at h1 h2
    have e : (d.made = want) ↔ typeIn cs n = some t := by
      rw [h1, h2, hw, Option.some.injEq]
    unfold startWith
    dsimp only
    by_cases hd : d.made = want
    · rw [if_pos hd]
      refine ⟨⟨fun _ => ⟨n, rfl, e.1 hd⟩, fun _ => rfl⟩, ⟨fun h => (by cases h), fun ⟨m, h, hm⟩ => ?_⟩, ⟨fun h => (by cases h), fun h => absurd rfl h⟩⟩
      cases h
      exact absurd (e.1 hd) hm
    · rw [if_neg hd]
      refine ⟨⟨fun h => (by cases h), fun ⟨m, h, hm⟩ => ?_⟩, ⟨fun _ => ⟨n, rfl, fun h => hd (e.2 h)⟩, fun _ => rfl⟩, ⟨fun h => (by cases h), fun h => absurd rfl h⟩⟩
      cases h
      exact absurd (e.2 hm) hd
  | d :: d' :: ds, n :: n' :: ns, _ =>
    refine ⟨⟨fun h => (by cases h), fun ⟨_, h, _⟩ => (by cases h)⟩, ⟨fun h => (by cases h), fun ⟨_, h, _⟩ => (by cases h)⟩, ⟨fun _ => ?_, fun _ => rfl⟩⟩
    simp

/-! ### C96 -/

/-- What the configuration says about each loaded stage. -/
theorem stage_facts (W : World P) (hW : W.NoPlugins) {cs : List Pipeline.Conf} {l : Load Factory} (h : loadStages W.env { regs := bootRegs } cs = .done l) {i : Nat} {c : Pipeline.Conf}
    {st : Stage Factory} (hc : cs[i]? = some c) (hs : l.stages[i]? = some st) :
    (∃ p, strAt c kProc = some p ∧ ProcFac p st.proc) ∧
    (st.ins.length = (inNames c).length ∧ ∀ p ∈ (inNames c).zip st.ins, ∃ u, typeIn cs p.1 = some u ∧ p.2.made = chanFac u) ∧
    ((st.outs.getD []).length = (outNames c).length ∧ ∀ p ∈ (outNames c).zip (st.outs.getD []), ∃ u, typeIn cs p.1 = some u ∧ p.2.made = chanFac u) := by
  have hK := boot_keeps W hW
  have hL := loadStages_inv W.env [] cs _ l (linv_start _) h
  rw [List.nil_append] at hL
  obtain ⟨l1, l2, -, -⟩ := hL.stage i c st hc hs
  have hp := loadStages_procs (Q := ProcFac) hK (fun r p r' f hI hg => bootInv_procs r hI p f (getProcessor_here hW.1 hg).2) (pre := []) (cs := cs) (l := { regs := bootRegs }) (l' := l) (.inl rfl)
    ⟨fun _ _ h => (by cases h), fun _ _ => rfl⟩ rfl (fun _ _ _ h => (by cases h)) h i c st (by simpa using hc) hs
  have hm := type_of_first_mention hK (.inl rfl) h hc hs
  have conv : ∀ (k : Str) (ds : List (Chan Factory)), (∀ p ∈ (declared c k).zip ds, p ∈ refs c st) →
      ∀ p ∈ ((declared c k).map (·.bind chanName)).zip ds, ∃ u, typeIn cs p.1 = some u ∧ p.2.made = chanFac u := by
    intro k ds hin p hp
    rw [List.zip_map_left] at hp
    obtain ⟨q, hq, rfl⟩ := List.mem_map.1 hp
    obtain ⟨n, t, h1, h2, h3⟩ := hm q (hin q hq)
    exact ⟨t, by simp only [Prod.map_fst]; unfold typeIn; rw [h1]; exact h2, h3⟩
  refine ⟨hp, ⟨by rw [l1]; unfold inNames; rw [List.length_map], conv kIn st.ins (fun p hp => List.mem_append_left _ hp)⟩,
    by rw [l2]; unfold outNames; rw [List.length_map], conv kOut (st.outs.getD []) (fun p hp => List.mem_append_right _ hp)⟩

/-- A stage of a loaded configuration goes into its loop exactly if its `in` attribute names one channel, of the type its processor reads; it crashes the program exactly if it names one channel of
another type; otherwise, naming none or several, it refuses to work. -/
theorem stage_starts_iff (W : World P) (hW : W.NoPlugins) {cs : List Pipeline.Conf} {l : Load Factory} (h : loadStages W.env { regs := bootRegs } cs = .done l) {i : Nat} {c : Pipeline.Conf}
    {st : Stage Factory} (hc : cs[i]? = some c) (hs : l.stages[i]? = some st) {p : Str} (hp : strAt c "processor".toList = some p) :
    (startOf st.proc st.ins = .runs ↔ ∃ n, inNames c = [n] ∧ typeIn cs n = reads p) ∧
    (startOf st.proc st.ins = .panics ↔ ∃ n, inNames c = [n] ∧ typeIn cs n ≠ reads p) ∧
    (startOf st.proc st.ins = .refuses ↔ (inNames c).length ≠ 1) := by
  obtain ⟨⟨q, hq, hf⟩, ⟨h1, h2⟩, -⟩ := stage_facts W hW h hc hs
  have e : q = p := Option.some.inj (hq.symm.trans hp)
  subst e
  rcases hf with ⟨rfl, e⟩ | ⟨rfl, e⟩ | ⟨rfl, e⟩ | ⟨rfl, e⟩ <;> rw [e]
  · rw [show reads "sysflowreader".toList = some "sysflowchan".toList by decide]
    exact startWith_iff h1 h2 (fun u => (chanFac_iff u).1)
  · rw [show reads "sysflowprocessor".toList = some "ctxchan".toList by decide]
    exact startWith_iff h1 h2 (fun u => (chanFac_iff u).2.1)
  · rw [show reads "policyengine".toList = some "flattenerchan".toList by decide]
    exact startWith_iff h1 h2 (fun u => (chanFac_iff u).2.2.2.1)
  · rw [show reads "exporter".toList = some "eventchan".toList by decide]
    exact startWith_iff h1 h2 (fun u => (chanFac_iff u).2.2.1)

theorem any_other {want : Factory} {outs : List (Chan Factory)} {names : List (Option Str)} {cs : List Pipeline.Conf} {t : Str}
    (hlen : outs.length = names.length) (hp : ∀ p ∈ names.zip outs, ∃ u, typeIn cs p.1 = some u ∧ p.2.made = chanFac u) (hw : ∀ u, chanFac u = want ↔ u = t) :
    outs.any (fun d => d.made != want) = true ↔ ∃ n ∈ names, typeIn cs n ≠ some t := by
  induction outs generalizing names with
  | nil => cases names with
    | nil => exact ⟨fun h => (by cases h), fun ⟨_, h, _⟩ => (by cases h)⟩
    | cons => cases hlen
  | cons d ds ih =>
    cases names with
    | nil => cases hlen
    | cons n ns =>
      have := ih (names := ns) (by simpa using hlen) (fun p h => hp p (by rw [List.zip_cons_cons]; exact List.mem_cons_of_mem _ h))
      obtain ⟨u, h1, h2⟩ := hp (n, d) (by simp)
      dsimp only at h1 h2
      rw [List.any_cons, Bool.or_eq_true, this, bne_iff_ne, h2, Ne, hw]
      constructor
      · rintro (h | ⟨m, hm, hn⟩)
        · exact ⟨n, List.mem_cons_self .., by rw [h1]; intro e; exact h (Option.some.inj e)⟩
        · exact ⟨m, List.mem_cons_of_mem _ hm, hn⟩
      · rintro ⟨m, hm, hn⟩
        rcases List.mem_cons.1 hm with rfl | hm
        · rw [h1] at hn; exact .inl (fun e => hn (by rw [e]))
        · exact .inr ⟨m, hm, hn⟩

/-- Handing a stage its outputs crashes the program exactly if its processor writes a type and one of the channels named in its `out` attribute has another. -/
theorem outputs_crash_iff (W : World P) (hW : W.NoPlugins) {cs : List Pipeline.Conf} {l : Load Factory} (h : loadStages W.env { regs := bootRegs } cs = .done l) {i : Nat} {c : Pipeline.Conf}
    {st : Stage Factory} (hc : cs[i]? = some c) (hs : l.stages[i]? = some st) {p : Str} (hp : strAt c "processor".toList = some p) :
    outsCrash st.proc st.outs = true ↔ ∃ t, writes p = some t ∧ ∃ n ∈ outNames c, typeIn cs n ≠ some t := by
  obtain ⟨⟨q, hq, hf⟩, -, h1, h2⟩ := stage_facts W hW h hc hs
  have e : q = p := Option.some.inj (hq.symm.trans hp)
  subst e
  rcases hf with ⟨rfl, e⟩ | ⟨rfl, e⟩ | ⟨rfl, e⟩ | ⟨rfl, e⟩ <;> rw [e]
  · rw [show writes "sysflowreader".toList = some "flattenerchan".toList by decide]
    refine (any_other h1 h2 (fun u => (chanFac_iff u).2.2.2.1)).trans ⟨fun h => ⟨_, rfl, h⟩, fun ⟨t, ht, h⟩ => ?_⟩
    cases ht; exact h
  · rw [show writes "sysflowprocessor".toList = some "flattenerchan".toList by decide]
    refine (any_other h1 h2 (fun u => (chanFac_iff u).2.2.2.1)).trans ⟨fun h => ⟨_, rfl, h⟩, fun ⟨t, ht, h⟩ => ?_⟩
    cases ht; exact h
  · rw [show writes "policyengine".toList = some "eventchan".toList by decide]
    refine (any_other h1 h2 (fun u => (chanFac_iff u).2.2.1)).trans ⟨fun h => ⟨_, rfl, h⟩, fun ⟨t, ht, h⟩ => ?_⟩
    cases ht; exact h
  · rw [show writes "exporter".toList = none by decide]
    exact ⟨fun h => (by cases h), fun ⟨_, h, _⟩ => (by cases h)⟩

/-- The example plugin of the code base crashes the program on whatever channel it is given, however it was made. -/
theorem example_plugin_never_runs (ins : List (Chan Factory)) : exampleStart ins ≠ .runs ∧ (ins ≠ [] → exampleStart ins = .panics) := by
  cases ins with
  | nil => exact ⟨fun h => (by cases h), fun h => absurd rfl h⟩
  | cons => exact ⟨fun h => (by cases h), fun _ => rfl⟩

/-- A SysFlow driver with an entry in the configuration writes to the channel of the pipeline with the name in its `out` attribute, and crashes the program exactly if that channel was not first
mentioned as a `sysflowchan`. -/
theorem driver_feeds_named_channel (W : World P) (hW : W.NoPlugins) {cs : List Pipeline.Conf} {l : Load Factory} (h : loadStages W.env { regs := bootRegs } cs = .done l) {dc : Pipeline.Conf}
    {s n t : Str} (hs : strAt dc "out".toList = some s) (hf : fields s = [n, t]) {i : Nat} {c : Pipeline.Conf} {st : Stage Factory} (hc : cs[i]? = some c) (hst : l.stages[i]? = some st)
    {p : Option Str × Chan Factory} (hp : p ∈ refs c st) (hn : p.1.bind chanName = some n) :
    (driverChannel l (some dc)).2 = if typeIn cs (some n) = some "sysflowchan".toList then .ok p.2 else .panic := by
  have hw := (wiring W.env bootRegs cs l h).2.2.2 i c st hc hst p hp s n t hf hn
  obtain ⟨m, u, h1, h2, h3⟩ := type_of_first_mention (boot_keeps W hW) (.inl rfl) h hc hst p hp
  rw [hn] at h1
  cases h1
  have e : p.2.made = .sysflowChan ↔ typeIn cs (some n) = some "sysflowchan".toList := by
    rw [h3, (chanFac_iff u).1]
    change _ ↔ firstType (references cs) n = _
    rw [h2, Option.some.injEq]
  unfold driverChannel
  dsimp only
  rw [show strAt dc kOut = some s from hs]
  dsimp only
  cases hg : getChannel l s with
  | mk l' r =>
    rw [hg] at hw
    dsimp only at hw ⊢
    rw [hw]
    dsimp only
    by_cases hd : p.2.made = .sysflowChan
    · rw [if_pos hd, if_pos (e.1 hd)]
    · rw [if_neg hd, if_neg (fun h => hd (e.2 h))]

/-- If no stage mentions that name, a SysFlow driver is given a channel of its own that no stage reads, without any complaint. -/
theorem driver_feeds_nobody (W : World P) {cs : List Pipeline.Conf} {l : Load Factory} (h : loadStages W.env { regs := bootRegs } cs = .done l) (hW : W.NoPlugins) {dc : Pipeline.Conf}
    {s n : Str} (hs : strAt dc "out".toList = some s) (hf : fields s = [n, "sysflowchan".toList]) (hn : firstType (references cs) n = none) :
    ∃ d, (driverChannel l (some dc)).2 = .ok d ∧ readerOf l d = none ∧ ∀ st ∈ l.stages, d ∉ st.ins ++ st.outs.getD [] := by
  have hL := loadStages_inv W.env [] cs _ l (linv_start _) h
  rw [List.nil_append] at hL
  obtain ⟨hI, hT⟩ := loadStages_types (boot_keeps W hW) (pre := []) (l := { regs := bootRegs }) (.inl rfl) ⟨fun _ _ h => (by cases h), fun _ _ => rfl⟩ h
  rw [List.nil_append] at hT
  have hnone : l.chans.byName.get n = none := by
    cases hg : l.chans.byName.get n with
    | none => rfl
    | some d =>
      obtain ⟨t, h1, -⟩ := hT.1 n d hg
      rw [hn] at h1; cases h1
  have hreg : l.regs.chans.get "sysflowchan".toList = some .sysflowChan := by
    rcases hI with e | e <;> rw [e] <;> decide +kernel
  have hg := getChan_new l.regs l.chans s n "sysflowchan".toList .sysflowChan hf hnone hreg
  have fresh : ∀ st ∈ l.stages, ∀ d ∈ st.ins ++ st.outs.getD [], d.id < l.chans.next := by
    intro st hst d hd
    obtain ⟨i, hi⟩ := List.mem_iff_getElem?.1 hst
    have hlt : i < cs.length := by rw [← hL.len]; exact (List.getElem?_eq_some_iff.1 hi).1
    have hc : cs[i]? = some cs[i] := List.getElem?_eq_getElem hlt
    rcases List.mem_append.1 hd with hd | hd
    · obtain ⟨k, hk⟩ := List.mem_iff_getElem?.1 hd
      obtain ⟨_, -, _, _, _, -, -, h3⟩ := in_resolved hL hc hi hk
      exact hL.chans.fresh _ _ h3
    · obtain ⟨k, hk⟩ := List.mem_iff_getElem?.1 hd
      obtain ⟨_, -, _, _, _, -, -, h3⟩ := out_resolved hL hc hi hk
      exact hL.chans.fresh _ _ h3
  refine ⟨⟨l.chans.next, .sysflowChan⟩, ?_, ?_, ?_⟩
  · unfold driverChannel
    dsimp only
    rw [show strAt dc kOut = some s from hs]
    dsimp only
    unfold getChannel
    rw [hg]
    dsimp only
    rw [if_pos rfl]
  · unfold readerOf
    rw [List.findIdx?_eq_none_iff]
    intro st hst
    rw [List.any_eq_false]
    intro d hd
    have := fresh st hst d (List.mem_append_left _ hd)
    simp only [beq_iff_eq]
    omega
  · intro st hst hd
    have := fresh st hst _ hd
    simp at this

/-- What is wrong with the `out` attribute of a SysFlow driver is reported as an error: if there is none, if it has more than two words, or if its second word is no channel type and its first no channel of
the pipeline. With fewer than two words the program crashes. -/
theorem driver_reports (W : World P) {cs : List Pipeline.Conf} {l : Load Factory} (h : loadStages W.env { regs := bootRegs } cs = .done l) (hW : W.NoPlugins) {dc : Pipeline.Conf} :
    (strAt dc "out".toList = none → driverChannel l (some dc) = (l, .err)) ∧
    ∀ s, strAt dc "out".toList = some s →
      (2 < (fields s).length → driverChannel l (some dc) = (l, .err)) ∧
      ((fields s).length < 2 → driverChannel l (some dc) = (l, .panic)) ∧
      ∀ n t, fields s = [n, t] → firstType (references cs) n = none →
        t ∉ ["sysflowchan".toList, "ctxchan".toList, "eventchan".toList, "flattenerchan".toList, "otelchan".toList] → driverChannel l (some dc) = (l, .err) := by
  obtain ⟨hI, hT⟩ := loadStages_types (boot_keeps W hW) (pre := []) (l := { regs := bootRegs }) (.inl rfl) ⟨fun _ _ h => (by cases h), fun _ _ => rfl⟩ h
  rw [List.nil_append] at hT
  constructor
  · intro hs
    unfold driverChannel
    dsimp only
    rw [show strAt dc kOut = none from hs]
  intro s hs
  have e : ∀ r, getChan l.regs l.chans s = (l.chans, r) → driverChannel l (some dc) = (match r with | .ok d => (l, if d.made = .sysflowChan then .ok d else .panic) | .err => (l, .err) | .panic => (l, .panic)) := by
    intro r hr
    unfold driverChannel
    dsimp only
    rw [show strAt dc kOut = some s from hs]
    dsimp only
    unfold getChannel
    rw [hr]
    cases r <;> rfl
  refine ⟨fun hlen => ?_, fun hlen => ?_, fun n t hf hn ht => ?_⟩
  · refine e .err ?_
    unfold getChan
    revert hlen
    match fields s with
    | [] => intro h; exact absurd h (by decide)
    | [_] => intro h; exact absurd h (by simp)
    | [_, _] => intro h; exact absurd h (by simp)
    | _ :: _ :: _ :: _ => intro _; rfl
  · refine e .panic ?_
    unfold getChan
    revert hlen
    match fields s with
    | [] => intro _; rfl
    | [_] => intro _; rfl
    | _ :: _ :: _ => intro h; exact absurd h (by simp)
  · refine e .err ?_
    have hnone : l.chans.byName.get n = none := by
      cases hg : l.chans.byName.get n with
      | none => rfl
      | some d =>
        obtain ⟨t, h1, -⟩ := hT.1 n d hg
        rw [hn] at h1; cases h1
    have hreg : l.regs.chans.get t = none := by
      cases hg : l.regs.chans.get t with
      | none => rfl
      | some f =>
        exfalso
        have key : ∀ m : AMap Str Factory,
            (∀ p ∈ m, p.1 ∈ ["sysflowchan".toList, "ctxchan".toList, "eventchan".toList, "flattenerchan".toList, "otelchan".toList]) → m.get t = some f →
            t ∈ ["sysflowchan".toList, "ctxchan".toList, "eventchan".toList, "flattenerchan".toList, "otelchan".toList] := by
          intro m
          induction m with
          | nil => intro _ h; cases h
          | cons p m ih =>
            intro hm h
            obtain ⟨a, v⟩ := p
            rw [AMap.get] at h
            split at h
            · rename_i e
              rw [← e]
              exact hm _ (List.mem_cons_self ..)
            · exact ih (fun q hq => hm q (List.mem_cons_of_mem _ hq)) h
        refine ht (key _ ?_ hg)
        rcases hI with e | e <;> rw [e] <;> decide +kernel
    unfold getChan
    rw [hf]
    dsimp only
    rw [hnone, hreg]
    rfl

/-- Without an entry in the configuration (the driver was named on the command line) a SysFlow driver writes to the channel that the first stage reads, and crashes the program if that is not a
`sysflowchan`; an OpenTelemetry driver reports an error in that case. -/
theorem driver_feeds_root (W : World P) (hW : W.NoPlugins) {c : Pipeline.Conf} {cs : List Pipeline.Conf} {l : Load Factory} (h : loadStages W.env { regs := bootRegs } (c :: cs) = .done l)
    {n : Option Str} {ns : List (Option Str)} (hin : inNames c = n :: ns) :
    ∃ st d, l.stages[0]? = some st ∧ st.ins.head? = some d ∧
      (driverChannel l none).2 = (if typeIn (c :: cs) n = some "sysflowchan".toList then .ok d else .panic) ∧
      otelDriverChannel l = (if typeIn (c :: cs) n = some "otelchan".toList then .ok d else .err) := by
  have hd : declared c kIn ≠ [] := by
    intro e
    unfold inNames at hin
    rw [e] at hin
    cases hin
  obtain ⟨st, d, h1, h2, h3⟩ := root_is_first_input W.env bootRegs c cs l h hd
  refine ⟨st, d, h1, h2, ?_⟩
  obtain ⟨-, ⟨-, k2⟩, -⟩ := stage_facts W hW h (i := 0) rfl h1
  rw [hin] at k2
  obtain ⟨e, es, he⟩ : ∃ e es, st.ins = e :: es := by
    cases hi : st.ins with
    | nil => rw [hi] at h2; cases h2
    | cons e es => exact ⟨e, es, rfl⟩
  rw [he, List.head?_cons, Option.some.injEq] at h2
  subst h2
  obtain ⟨u, m1, m2⟩ := k2 (n, e) (by rw [he, List.zip_cons_cons]; exact List.mem_cons_self ..)
  dsimp only at m1 m2
  constructor
  · unfold driverChannel
    rw [h3]
    dsimp only
    rw [m2, m1]
    by_cases hu : u = "sysflowchan".toList
    · rw [if_pos ((chanFac_iff u).1.2 hu), if_pos (by rw [hu])]
    · rw [if_neg (fun h => hu ((chanFac_iff u).1.1 h)), if_neg (fun h => hu (Option.some.inj h))]
  · unfold otelDriverChannel
    rw [h3]
    dsimp only
    rw [m2, m1]
    by_cases hu : u = "otelchan".toList
    · rw [if_pos ((chanFac_iff u).2.2.2.2.2 hu), if_pos (by rw [hu])]
    · rw [if_neg (fun h => hu ((chanFac_iff u).2.2.2.2.1 h)), if_neg (fun h => hu (Option.some.inj h))]

/-! ### Examples -/

/-- How the stages of a configuration start and whether handing out the outputs crashes. -/
def startsOf : Out Factory → Option (List (Start × Bool))
  | .done l => some (l.stages.map (fun st => (startOf st.proc st.ins, outsCrash st.proc st.outs)))
  | _ => none

/-- The demo configuration, with the type of the event channel mistyped at its first mention; and with an exporter that reads two channels. -/
def mistyped : List Pipeline.Conf :=
  [demoConfs[0],
   [(kProc, .str "policyengine".toList), (kIn, .str "flat nonsense".toList), (kOut, .str "evt flattenerchan".toList), ("policies".toList, .str "p".toList)],
   demoConfs[2]]
def twoInputs : List Pipeline.Conf :=
  [demoConfs[0], demoConfs[1], (demoConfs[2].filter (fun p => p.1 ≠ kIn)) ++ [(kIn, .arr [some "evt eventchan".toList, some "evt2 eventchan".toList])]]

example : (demoWorld ([], [])).NoPlugins := ⟨fun _ => rfl, fun _ _ => rfl⟩

example : startsOf (loadStages (demoWorld ([], [])).env { regs := bootRegs } demoConfs) = some [(.runs, false), (.runs, false), (.runs, false)] := by decide +kernel

/-- The wrong type crashes both the writer and the reader of the channel; that of the other channel does not matter. -/
example : startsOf (loadStages (demoWorld ([], [])).env { regs := bootRegs } mistyped) = some [(.runs, false), (.runs, true), (.panics, false)] := by decide +kernel

example : startsOf (loadStages (demoWorld ([], [])).env { regs := bootRegs } twoInputs) = some [(.runs, false), (.runs, false), (.refuses, false)] := by decide +kernel

example : typeIn mistyped (some "evt".toList) = some "flattenerchan".toList ∧ typeIn mistyped (some "flat".toList) = some "flattenerchan".toList := by decide +kernel

/-- The channel a driver gets: that of the pipeline; one of its own. -/
def driverGets (o : Out Factory) (dc : Option Pipeline.Conf) : Option (Option Nat) :=
  match o with
  | .done l => (match (driverChannel l dc).2 with | .ok d => some (readerOf l d) | _ => none)
  | _ => none

example : driverGets (loadStages (demoWorld ([], [])).env { regs := bootRegs } demoConfs) none = some (some 0) := by decide +kernel
example : driverGets (loadStages (demoWorld ([], [])).env { regs := bootRegs } demoConfs) (some [(kOut, .str "sysflow whatever".toList)]) = some (some 0) := by decide +kernel
example : driverGets (loadStages (demoWorld ([], [])).env { regs := bootRegs } demoConfs) (some [(kOut, .str "sysflows sysflowchan".toList)]) = some none := by decide +kernel
example : driverGets (loadStages (demoWorld ([], [])).env { regs := bootRegs } demoConfs) (some [(kOut, .str "evt sysflowchan".toList)]) = none := by decide +kernel

/-- What a driver is told about its channel: an error, or a crash. -/
def driverTold (o : Out Factory) (dc : Pipeline.Conf) : Option Bool :=
  match o with
  | .done l => (match (driverChannel l (some dc)).2 with | .ok _ => none | .err => some true | .panic => some false)
  | _ => none

example : driverTold (loadStages (demoWorld ([], [])).env { regs := bootRegs } demoConfs) [(kOut, .str "sysflows somechan".toList)] = some true := by decide +kernel
example : driverTold (loadStages (demoWorld ([], [])).env { regs := bootRegs } demoConfs) [(kOut, .str "a b c".toList)] = some true := by decide +kernel
example : driverTold (loadStages (demoWorld ([], [])).env { regs := bootRegs } demoConfs) [(kOut, .str "sysflow".toList)] = some false := by decide +kernel
example : driverTold (loadStages (demoWorld ([], [])).env { regs := bootRegs } demoConfs) [] = some true := by decide +kernel

/-- `driver_feeds_named_channel`: a driver configured with the first stage's input channel writes to that channel, however its type is spelt; one configured with the channel of the policy engine
crashes the program. -/
example : ∃ l st st', loadStages (demoWorld ([], [])).env { regs := bootRegs } demoConfs = .done l ∧ l.stages[0]? = some st ∧ l.stages[2]? = some st' ∧
    (∃ p ∈ refs demoConfs[0] st, p.1 = some "sysflow sysflowchan".toList ∧ (driverChannel l (some [(kOut, .str "sysflow whatever".toList)])).2 = .ok p.2) ∧
    (driverChannel l (some [(kOut, .str "evt sysflowchan".toList)])).2 = .panic := by
  obtain ⟨l, hl⟩ : ∃ l, loadStages (demoWorld ([], [])).env { regs := bootRegs } demoConfs = .done l := by
    have k : startsOf (loadStages (demoWorld ([], [])).env { regs := bootRegs } demoConfs) ≠ none := by decide +kernel
    cases e : loadStages (demoWorld ([], [])).env { regs := bootRegs } demoConfs with
    | done l => exact ⟨l, rfl⟩
    | _ => rw [e] at k; exact absurd rfl k
  have hlen : (match loadStages (demoWorld ([], [])).env { regs := bootRegs } demoConfs with
      | .done l => (l.stages[0]?.map (fun st => ((refs demoConfs[0] st).map (·.1))), l.stages[2]?.map (fun st => ((refs demoConfs[2] st).map (·.1))))
      | _ => (none, none)) =
      (some [some "sysflow sysflowchan".toList, some "flat flattenerchan".toList], some [some "evt eventchan".toList]) := by decide +kernel
  rw [hl] at hlen
  obtain ⟨h0, h2⟩ := Prod.mk.inj hlen
  obtain ⟨st, hst, r0⟩ := Option.map_eq_some_iff.1 h0
  obtain ⟨st', hst', r2⟩ := Option.map_eq_some_iff.1 h2
  have m0 : some "sysflow sysflowchan".toList ∈ (refs demoConfs[0] st).map (·.1) := by rw [r0]; exact .head _
  have m2 : some "evt eventchan".toList ∈ (refs demoConfs[2] st').map (·.1) := by rw [r2]; exact .head _
  obtain ⟨p, hp, hp1⟩ := List.mem_map.1 m0
  obtain ⟨q, hq, hq1⟩ := List.mem_map.1 m2
  refine ⟨l, st, st', hl, hst, hst', ⟨p, hp, hp1, ?_⟩, ?_⟩
  · rw [driver_feeds_named_channel (demoWorld ([], [])) ⟨fun _ => rfl, fun _ _ => rfl⟩ hl (s := "sysflow whatever".toList) (n := "sysflow".toList) (t := "whatever".toList)
      (by decide +kernel) (by decide +kernel) (i := 0) rfl hst hp (by rw [hp1]; decide +kernel), if_pos (by decide +kernel)]
  · rw [driver_feeds_named_channel (demoWorld ([], [])) ⟨fun _ => rfl, fun _ _ => rfl⟩ hl (s := "evt sysflowchan".toList) (n := "evt".toList) (t := "sysflowchan".toList)
      (by decide +kernel) (by decide +kernel) (i := 2) rfl hst' hq (by rw [hq1]; decide +kernel), if_neg (by decide +kernel)]

end Verif.Whole

import Verif.Whole.ReloadExamples
import Verif.Pipeline.Adopt
import Verif.Whole.Corollaries
import Verif.Monitor.Edit
/-
C103: an edit of the policy directory takes effect: runs of the whole program in which the policies of the edited file are adopted.
Sources: /repo/core/policyengine/policyengine.go:136-166, /repo/core/policyengine/monitor/localpolicymonitor.go:157-231, and the sources of the whole program (Verif/Whole/Program.lean)
-/
namespace Verif.Whole
open Verif.Decimal (Str)
open Verif.Exporter (Bytes)
open Verif.FlatRecord
open Verif.Policy
open Verif.Falco
open Verif.Processor (Rec HCall)
open Verif.Flattener (eventsAfter StoresEvent)
open Verif.Pipeline
open Verif.Pipeline.Drain (driven rootClosed Waited Exec)

variable {P : Type}

/-- The policy engine reads the clock when it has taken a record (policyengine.go:141-143). -/
def Setup.ticks {X D : Type} (S : Setup P) (hp : S.pending = []) (C : Exporter.Codec Msg D) (T : Exporter.Transport X D) (x0 : X) : Reload.Ticks (S.engineIn hp C T x0) where
  clock t := .clock t
  lab _ := rfl
  accepts s t u os h := by
    refine ⟨u, ?_, rfl⟩
    change Drain.engineStep S.cfg s (.clock t) = _
    unfold Drain.engineStep
    have h' : Engine.Swap.step S.cfg (show Engine.Swap.St P Msg from s) (.clock t) = some (u, os) := h
    split
    · rename_i s' os' he
      cases he.symm.trans h'
      rfl
    · rename_i he
      cases he.symm.trans h'

/-- What the engine has taken when the run is over is what the reader made of the records. -/
theorem engine_takes (S : Setup P) (hwork : 0 < S.workers) (hcap : 0 < S.cap) {X D : Type} (C : Exporter.Codec Msg D) (T : Exporter.Transport X D) (x0 : X)
    {tr : List (Drain.Obs Msg)} {s : Drain.St (S.netWith C T x0)} (h : Exec (S.netWith C T x0) tr s) (hw : Waited s) :
    Drain.takes (Drain.acts 1 tr) = Drain.emitted (readerStep S.F S.fuel S.clock) S.reader0 (driven tr) := by
  obtain ⟨hT, hC⟩ := netWith_ok S C T x0 hwork hcap
  obtain ⟨_, h1, h2, h3, h4⟩ := Drain.drained_when_wait_returns hT hC h hw
  have r0 : (Drain.sync (readerStep S.F S.fuel S.clock) S.reader0 1).Run (Drain.acts 0 tr) (s.st 0) := h4 0 (show 0 < 3 by decide)
  have ret0 : (show Drain.SyncSt _ _ from s.st 0).returned = true := hw 0 (show 0 < 3 by decide)
  have hs := Drain.sync_delivers _ _ 1 r0 ret0 0 (by decide)
  rw [h1] at hs
  rw [← hs]
  exact h2 0 0 (show 0 < 3 by decide) (show 0 < 1 by decide)

/-- Before the driver has sent anything the engine has taken nothing. -/
theorem engine_waits (S : Setup P) (hwork : 0 < S.workers) (hcap : 0 < S.cap) {X D : Type} (C : Exporter.Codec Msg D) (T : Exporter.Transport X D) (x0 : X)
    {tr : List (Drain.Obs Msg)} {s : Drain.St (S.netWith C T x0)} (h : Exec (S.netWith C T x0) tr s) (hd : driven tr = []) : Drain.takes (Drain.acts 1 tr) = [] := by
  obtain ⟨hT, hC⟩ := netWith_ok S C T x0 hwork hcap
  have I := Drain.inv_exec hT hC h
  have r0 : (Drain.sync (readerStep S.F S.fuel S.clock) S.reader0 1).Run (Drain.acts 0 tr) (s.st 0) := I.run 0 (show 0 < 3 by decide)
  have h0 : Drain.takes (Drain.acts 0 tr) = [] := (List.append_eq_nil_iff.1 (I.root.trans hd)).1
  have hs := (Drain.sync_inv _ _ 1 r0).out 0 (by decide)
  rw [h0] at hs
  have hs : Drain.sends 0 (Drain.acts 0 tr) = [] := (List.append_eq_nil_iff.1 hs).1
  exact (List.append_eq_nil_iff.1 ((I.flow 0 0 (show 0 < 3 by decide) (show 0 < 1 by decide)).trans hs)).1

/-- **C103** Policies that are waiting can take effect: at every moment at which the driver has sent a stream with at least one event, the engine has taken none of it, and at most one policy set is waiting,
the run can go on to its end with nothing left waiting. -/
theorem waiting_can_take_effect {C X D : Type} [DecidableEq C] (S : Setup P) (cd : Exporter.Codec Msg D) (T : Exporter.Transport X D) (x0 : X) (hwork : 0 < S.workers) (hcap : 0 < S.cap) (hdedup : S.dedup = false) (hmon : S.monitor = true) (hp : S.pending = [])
    {sha : Str → C} {comp : List (Str × Option Str) → Option P}
    {d : List (Monitor.FileEnt Str)} {rs : List Rec} {rd : Processor.State} {cs : List HCall} (hrun : Processor.run false S.fuel .init rs = some (rd, cs)) (hev : eventsAfter [] rs ≠ [])
    {tr : List (Drain.Obs Msg)} {mo : List (Monitor.Live.Obs Str P)} {x : Drain.St (S.netWith cd T x0) × Monitor.Live.LSt Str C P} (h : Reload.Exec (S.engineIn hp cd T x0) sha comp d tr mo x)
    (hr : rootClosed tr = true) (hd : driven tr = rs.map Msg.sf) (hnone : Drain.takes (Drain.acts 1 tr) = []) (hone : x.2.chan.length ≤ 1) :
    ∃ tr' ms y, Reload.Exec (S.engineIn hp cd T x0) sha comp d tr' (mo ++ ms) y ∧ Waited y.1 ∧ driven tr' = rs.map Msg.sf ∧ Reload.OnlyTaken x.2 y.2 ms ∧ y.2.chan = [] := by
  obtain ⟨hT, hC⟩ := netWith_ok S cd T x0 hwork hcap
  obtain ⟨k1, k2⟩ := reader_all S hdedup rs rd cs hrun
  have := Reload.can_adopt hT hC (S.ticks hp _ _ _) hmon h hr hone (by
    intro tr' s' h' hw' hd' heq
    change Drain.takes (Drain.acts 1 tr') = Drain.takes (Drain.acts 1 tr) at heq
    rw [hnone, engine_takes S hwork hcap _ _ _ h' hw', hd', hd, k1] at heq
    have hnil := List.map_eq_nil_iff.1 heq
    rw [hnil] at k2
    cases hq : eventsAfter [] rs with
    | nil => exact hev hq
    | cons a l => rw [hq] at k2; cases k2)
  rwa [hd] at this

/-- What the monitor does in an edit is not shared with the engine. -/
theorem edit_unshared (f : Str) (t : Str) : ∀ l ∈ Monitor.Live.editLabels f t, Monitor.Joint.shared l = false := by
  intro l hl
  unfold Monitor.Live.editLabels at hl
  rcases List.mem_append.1 hl with hl | hl
  · simp only [List.mem_cons, List.not_mem_nil, or_false] at hl
    rcases hl with rfl | rfl | rfl | rfl <;> rfl
  · rcases List.mem_append.1 hl with hl | hl
    · rw [List.eq_of_mem_replicate hl]; rfl
    · simp only [List.mem_cons, List.not_mem_nil, or_false] at hl
      rcases hl with rfl | rfl | rfl | rfl | rfl | rfl | rfl <;> rfl

/-- Taking pushes nothing. -/
theorem only_taken_pushes {C : Type} {m m' : Monitor.Live.LSt Str C P} {ms : List (Monitor.Live.Obs Str P)} (h : Reload.OnlyTaken m m' ms) : Monitor.Live.pushed ms = [] := by
  unfold Monitor.Live.pushed
  rw [List.filterMap_eq_nil_iff]
  intro o ho
  obtain ⟨q, rfl⟩ := h.obs o ho
  rfl

theorem edit_stays_regular {C : Type} {f : Str} (hf : Monitor.Live.Yaml f) {t0 t : Str} {p : P} {m m' : Monitor.Live.LSt Str C P} {ms : List (Monitor.Live.Obs Str P)} (h : Reload.OnlyTaken m m' ms) :
    ∀ age : Str → Option (Option Str) → Nat, age f (some (some t0)) ≤ age f (some (some t)) → Monitor.Live.Regular age ([] ++ Monitor.Live.editObs f t0 t p ++ ms) := by
  intro age ha d d' es hm
  rcases List.mem_append.1 hm with hm | hm
  · exact Monitor.Live.edit_regular hf ha p d d' es (by rwa [List.nil_append] at hm)
  · obtain ⟨q, hq⟩ := h.obs _ hm
    cases hq

/-- An edit can be adopted, whatever the exporter: with a watched directory of one policy file, an edit of the file to a text that compiles, and a stream with at least one event, there is a run of the whole program in which
exactly the new policies are pushed and nothing is left waiting. When this run is over the monitor is at rest. -/
theorem edit_adopted {C X D : Type} [DecidableEq C] (S : Setup P) (cd : Exporter.Codec Msg D) (T : Exporter.Transport X D) (x0 : X) (hwork : 0 < S.workers) (hcap : 0 < S.cap) (hdedup : S.dedup = false) (hmon : S.monitor = true) (hp : S.pending = []) (sha : Str → C)
    {comp : List (Str × Option Str) → Option P} {f : Str} (hf : Monitor.Live.Yaml f) (t0 t : Str) {p : P} (hc : comp [(f, some t)] = some p)
    {rs : List Rec} {rd : Processor.State} {cs : List HCall} (hrun : Processor.run false S.fuel .init rs = some (rd, cs)) (hev : eventsAfter [] rs ≠ []) (hroom : rs.length ≤ S.cap) :
    ∃ tr mo y, Reload.Exec (S.engineIn hp cd T x0) sha comp (Monitor.Live.sole f t0) tr mo y ∧ Waited y.1 ∧ driven tr = rs.map Msg.sf ∧ y.2.dir = Monitor.Live.sole f t ∧
      Monitor.Live.Running y.2 ∧ Monitor.Live.Settled sha comp y.2 ∧ Monitor.Live.Told mo ∧ y.2.chan = [] ∧
      (∀ age : Str → Option (Option Str) → Nat, age f (some (some t0)) ≤ age f (some (some t)) → Monitor.Live.Regular age mo) ∧
      Monitor.Live.pushed mo = [p] := by
  have e0 : Reload.Exec (S.engineIn hp cd T x0) sha comp (Monitor.Live.sole f t0) [] [] (Drain.St.start (S.netWith cd T x0), Monitor.Live.init (Monitor.Live.sole f t0)) := .nil
  obtain ⟨t1, x1, e1, n1, b1, k1, d1, -, -⟩ := Reload.lift_run e0 rfl (edit_unshared f t) (Monitor.Live.edit_run hf t0 t hc)
  have hbuf : ∀ c, x1.buf c = [] := fun c => by rw [b1]; rfl
  have hcl : ∀ c, x1.closed c = false := fun c => by rw [k1]; rfl
  have ht1 : Drain.takes (Drain.acts 1 ([] ++ t1)) = [] := by
    exact engine_waits S hwork hcap _ _ _ (Reload.run_net e1) (by rw [List.nil_append, d1])
  obtain ⟨t2, x2, e2, r2, d2, k2⟩ := Reload.drive_close_only e1 n1 (hcl _) (rs.map Msg.sf) (by rw [hbuf, List.length_map]; exact (Nat.zero_add _).symm ▸ hroom)
  obtain ⟨tr, ms, y, e3, w3, d3, o3, c3⟩ := waiting_can_take_effect S cd T x0 hwork hcap hdedup hmon hp hrun hev e2 r2 (by rw [Drain.driven_append, d2, List.nil_append, d1]; rfl)
    (by rw [Drain.acts_append, Drain.takes_append, ht1, k2]; rfl) (Nat.le_refl 1)
  have hpush : Monitor.Live.pushed ([] ++ Monitor.Live.editObs f t0 t p ++ ms) = [p] := by
    rw [List.nil_append, Monitor.Live.pushed_append, Monitor.Live.edit_pushed, only_taken_pushes o3]; rfl
  have hph : y.2.phase = .idle ∧ y.2.queue = [] := by rw [o3.rest]; exact ⟨rfl, rfl⟩
  have hrun' : Monitor.Live.Running y.2 := by
    constructor <;> rw [hph.1] <;> intro h <;> cases h
  refine ⟨tr, _, y, e3, w3, d3, by rw [o3.rest], hrun', (Monitor.Live.settled_iff hrun').2 hph, ?_, c3, ?_, hpush⟩
  · obtain ⟨e, he, hrest⟩ := Monitor.Live.edit_told hf t0 t p
    exact ⟨e, List.mem_append_left _ (List.mem_append_right _ he), hrest⟩
  · exact edit_stays_regular hf o3

/-- **C103** An edit takes effect: with a watched directory of one policy file, an edit of the file to a text that compiles, and a stream with at least one event, there is a run of the whole program in which
the new policies are adopted, and the log is complete under the first policies followed by the new ones. When this run is over the monitor is at rest and nothing is waiting. -/
theorem edit_takes_effect {C : Type} [DecidableEq C] (S : Setup P) (dss : P → List (List Decl)) (ok : S.Ok dss) (hmon : S.monitor = true) (hp : S.pending = []) (sha : Str → C)
    {comp : List (Str × Option Str) → Option P} {f : Str} (hf : Monitor.Live.Yaml f) (t0 t : Str) {p : P} (hc : comp [(f, some t)] = some p)
    {rs : List Rec} {rd : Processor.State} {cs : List HCall} (hrun : Processor.run false S.fuel .init rs = some (rd, cs)) (hev : eventsAfter [] rs ≠ []) (hroom : rs.length ≤ S.cap) :
    ∃ tr mo y, ReloadRun S hp sha comp (Monitor.Live.sole f t0) tr mo y ∧ Waited y.1 ∧ driven tr = rs.map Msg.sf ∧ y.2.dir = Monitor.Live.sole f t ∧
      Monitor.Live.Running y.2 ∧ Monitor.Live.Settled sha comp y.2 ∧ Monitor.Live.Told mo ∧ y.2.chan = [] ∧
      (∀ age : Str → Option (Option Str) → Nat, age f (some (some t0)) ≤ age f (some (some t)) → Monitor.Live.Regular age mo) ∧
      LoggedUnder S dss [S.policies, p] rs (S.log y.1) := by
  obtain ⟨tr, mo, y, e3, w3, d3, k1, k2, k3, k4, c3, k5, hpush⟩ := edit_adopted S _ _ _ ok.workers ok.cap ok.dedup hmon hp sha hf t0 t hc hrun hev hroom
  obtain ⟨as, h1, h2, -⟩ := reload_run S dss ok hp hrun e3 w3 d3
  rw [c3, List.append_nil, hpush] at h2
  rw [h2] at h1
  exact ⟨tr, mo, y, e3, w3, d3, k1, k2, k3, k4, c3, k5, h1⟩

theorem sole_policyFiles {f : Str} (hf : Monitor.Live.Yaml f) (t : Str) : PolicyFiles true (Monitor.Live.sole f t) [t] := by
  refine ⟨List.cons_ne_nil _ _, ?_, fun _ => ⟨_, List.mem_cons_self, rfl, hf⟩⟩
  have e : (Monitor.Live.sole f t).filter (fun g => decide (".yaml".toList <:+ g.path ∨ ".yml".toList <:+ g.path)) = Monitor.Live.sole f t := by
    unfold Monitor.Live.sole
    rw [List.filter_cons_of_pos (by exact decide_eq_true (Or.inl hf))]
    rfl
  rw [e]
  rfl

/-- **C103** From the configuration, through an edit of the policy file, to the log. With a usual configuration of JSON export to a file, with the local policy monitor, in a world that is in order, a policy
directory of one file, and another text with policies that compile: the program starts with the first policies; and for every stream of at least one event, of records whose process parents are older, that
the channel has room for, there is a run in which the file is edited to the other text, the policies of that text are adopted, and the log is complete under the first policies and then those. -/
theorem edited_policies_adopted {C : Type} [DecidableEq C] (W : World Unit) (fs : Str → Dir) {m : Manifest} {env : List Str} {cs : List Pipeline.Conf} {c1 c2 c3 : Pipeline.Conf} {a b d : Str}
    (hm : setManifest m env cs = [c1, c2, c3]) (u : Usual c1 c2 c3 a b d) (hs : StrRule W.str)
    (hp : (engineConf c2).policiesPath ≠ []) (hl : (engineConf c2).language = .falco) (hmon : (engineConf c2).monitor = .loc) (hw : 0 < (engineConf c2).concurrency)
    {x : Config.XConfig} (hx : Config.createConfigX W.secrets (xconf c3) = some x) (ho : W.opens x.path = true) (hf : x.format = .json) (ht : x.transport = .file) (hwr : ∀ k, W.writes k = none)
    (hb : Benign W.builtIn W.user) (hd : (Config.createFlattenerConfig (Config.toConf (xconf c1))).1.filterOn = false) (hlib : Json.Spec.LibOk W.L) (hv : Json.Spec.VersionOk (Utf8.bytes m.jsonSchema))
    {f : Str} (hy : Monitor.Live.Yaml f) {t0 t : Str} {ds0 ds : List Decl} (h1 : fs (engineConf c2).policiesPath = some (Monitor.Live.sole f t0))
    (g0 : GPolicy (ltokens W.str t0) ds0) (a0 : ∀ y ∈ sites [ds0], ∀ e, siteCond y = some e → ¬ Cyclic y.2 e)
    (g1 : GPolicy (ltokens W.str t) ds) (a1 : ∀ y ∈ sites [ds], ∀ e, siteCond y = some e → ¬ Cyclic y.2 e) (sha : Str → C) :
    ∃ (l : Load Factory) (S : Setup (PolicySet W.L W.str)) (hp : S.pending = []) (p : PolicySet W.L W.str), loadStages (W.withDirs fs []).env { regs := bootRegs } (setManifest m env cs) = .done l ∧
      netOf (W.withDirs fs []).comp (setManifest m env cs) l chanSize = S.net ∧ S.policies.texts = [t0] ∧ S.policies.decls = [ds0] ∧ p.texts = [t] ∧ p.decls = [ds] ∧
      ∀ (rs : List Rec), Processor.OlderParents rs → rs.length ≤ W.fuel → rs.length ≤ chanSize → eventsAfter [] rs ≠ [] →
        ∃ tr mo y, ReloadRun S hp sha (compileRead (flatOps W.L getMappers) W.str) (Monitor.Live.sole f t0) tr mo y ∧ Waited y.1 ∧ driven tr = rs.map Msg.sf ∧ y.2.dir = Monitor.Live.sole f t ∧
          LoggedUnder S PolicySetOf.decls [S.policies, p] rs (S.log y.1) := by
  obtain ⟨l, S, hp', k1, k2, k3, k4, k5, ok, k6, k7, -⟩ := hot_reload (C := C) W fs hm u hs hp hl hmon hw hx ho hf ht hwr hb hd hlib hv h1 (sole_policyFiles hy t0) (.cons g0 .nil) a0
  obtain ⟨-, n, c, hc⟩ := policy_texts_compile (flatOps W.L getMappers) hs (.cons g1 .nil) a1
  have hdecls : (⟨[t], c, n, hc⟩ : PolicySet W.L W.str).decls = [ds] := by
    unfold PolicySetOf.decls
    exact (decls_of_ok hs _ _ (by rw [List.map_cons, List.map_cons, (policy_accepted_iff hs _ _).2 g1]; rfl)).2
  refine ⟨l, S, hp', ⟨[t], c, n, hc⟩, k1, k2, k3, k4, rfl, hdecls, ?_⟩
  intro rs hold hfuel hcap hev
  obtain ⟨⟨rd, hcs⟩, hr⟩ := Processor.reader_returns _ (Processor.older_parents_not_stuck _ hold) W.fuel hfuel
  obtain ⟨tr, mo, y, e1, e2, e3, e4, -, -, -, -, -, e5⟩ := edit_takes_effect S PolicySetOf.decls ok k5 hp' sha hy t0 t (comp := compileRead (flatOps W.L getMappers) W.str) (p := ⟨[t], c, n, hc⟩)
    (compileRead_some.2 rfl) (by rw [k6]; exact hr) hev (by rw [k7]; exact hcap)
  exact ⟨tr, mo, y, e1, e2, e3, e4, e5⟩

/-! ### Concrete cases -/

/-- Another policy: the rule looks for another program. -/
def catText : Str := "- rule: cat\n  desc: d\n  condition: sf.proc.exe=/bin/cat".toList

def catRule : RuleDecl := { name := "cat".toList, desc := "d".toList, cond := [[.binop .eq "sf.proc.exe".toList "/bin/cat".toList]] }

theorem cat_parses : GPolicy (ltokens simpleStr catText) [.rule catRule] := by
  have h : ltokens simpleStr catText =
      (⟨[], .DECL, "-".toList⟩ : LTok) :: ⟨" ".toList, .RULE, "rule".toList⟩ :: ⟨[], .DEF, ":".toList⟩ ::
        (([⟨" ".toList, .ID, "cat".toList⟩] : List LTok) ++ ⟨"\n  ".toList, .DESC, "desc".toList⟩ :: ⟨[], .DEF, ":".toList⟩ ::
          (([⟨" ".toList, .ID, "d".toList⟩] : List LTok) ++ ⟨"\n  ".toList, .COND, "condition".toList⟩ :: ⟨[], .DEF, ":".toList⟩ ::
            (([⟨" ".toList, .ID, "sf.proc.exe".toList⟩, ⟨[], .EQ, "=".toList⟩, ⟨[], .PATH, "/bin/cat".toList⟩] : List LTok) ++ []))) := by decide +kernel
  rw [h]
  refine .last _ _ false (.rule _ _ _ _ _ _ _ _ _ _ _ _ [] false rfl rfl rfl (by decide) (by decide +kernel) rfl rfl (by decide) (by decide +kernel) rfl rfl ?_ .nil)
  exact .exprOne _ _ (.conjOne _ _ (.binop _ _ _ .eq rfl rfl rfl))

theorem cat_acyclic : ∀ x ∈ sites [[.rule catRule]], ∀ e, siteCond x = some e → ¬ Cyclic x.2 e := by
  intro x hx e he hc
  rw [show sites [[.rule catRule]] = [(.rule catRule, ⟨[], []⟩)] from rfl, List.mem_singleton] at hx
  subst hx
  cases he
  obtain ⟨a, b, h1, -, -⟩ := hc
  obtain ⟨c, hc, t, ht, hu⟩ := h1
  have hc := List.mem_singleton.1 (show c ∈ [[Term.binop .eq "sf.proc.exe".toList "/bin/cat".toList]] from hc)
  subst hc
  rw [List.mem_singleton] at ht
  subst ht
  cases hu

theorem a_yaml : Monitor.Live.Yaml "p/a.yaml".toList := (Monitor.Live.yaml_iff _).1 (by decide)

/-- Texts have numbers. -/
def textNo : Str → Nat
  | [] => 0
  | c :: s => (c.toNat + 1) + 2 ^ 32 * textNo s

theorem textNo_inj : ∀ s t : Str, textNo s = textNo t → s = t := by
  have small : ∀ c : Char, c.toNat + 1 < 2 ^ 32 := by
    intro c
    have : c.toNat < 0x110000 := by
      have := c.valid
      rcases this with h | ⟨_, h⟩
      · exact Nat.lt_trans h (by decide)
      · exact h
    omega
  intro s
  induction s with
  | nil =>
    intro t h
    cases t with
    | nil => rfl
    | cons c t => unfold textNo at h; omega
  | cons c s ih =>
    intro t h
    cases t with
    | nil => unfold textNo at h; omega
    | cons e t =>
      unfold textNo at h
      have hc := small c
      have he := small e
      have h1 : c.toNat = e.toNat := by omega
      have h2 : textNo s = textNo t := by omega
      rw [ih t h2, Char.toNat_inj.1 h1]

/-- … and so do the states of a path. -/
def textAge (_ : Str) : Option (Option Str) → Nat
  | none => 0
  | some none => 1
  | some (some t) => textNo t + 2

theorem textAge_inj : ∀ p x y, textAge p x = textAge p y → x = y := by
  intro p x y h
  match x, y, h with
  | none, none, _ => rfl
  | none, some none, h => cases h
  | none, some (some _), h => cases h
  | some none, none, h => cases h
  | some none, some none, _ => rfl
  | some none, some (some b), h => have h : 1 = textNo b + 2 := h; omega
  | some (some _), none, h => cases h
  | some (some a), some none, h => have h : textNo a + 2 = 1 := h; omega
  | some (some a), some (some b), h =>
    have h : textNo a + 2 = textNo b + 2 := h
    rw [textNo_inj a b (by omega)]

open Classical in
/-- The demo configuration with a monitor: the hypotheses of `edited_policies_adopted` are met by the edit of the policy from one program to another, so there is a run over the sample stream in which the
other policy is adopted; and in that run those of `reload_settled` are met too. -/
example : ∃ (l : Load Factory) (S : Setup (PolicySet (demoWorld ([], [])).L simpleStr)) (hp : S.pending = []) (p : PolicySet (demoWorld ([], [])).L simpleStr),
    loadStages ((demoWorld ([], [])).withDirs (fun s => if s = "p".toList then some (watchDir lsText) else none) []).env { regs := bootRegs }
      (setManifest demoManifest ["CLUSTER_ID=x".toList] watchConfs) = .done l ∧ S.policies.decls = [lsDecls] ∧ p.decls = [[.rule catRule]] ∧
    ∃ tr mo y, ReloadRun S hp (id : Str → Str) (compileRead (flatOps (demoWorld ([], [])).L getMappers) simpleStr) (watchDir lsText) tr mo y ∧ Waited y.1 ∧ driven tr = Processor.saneStream.map Msg.sf ∧
      LoggedUnder S PolicySetOf.decls [S.policies, p] Processor.saneStream (S.log y.1) := by
  obtain ⟨c1, c2, c3, hm, hu, e1, e2, e3⟩ := watch_usual
  obtain ⟨s1, s2, s3, s6, s4, s5⟩ := watch_settings
  rw [← e2] at s1 s2 s3 s6
  rw [← e1] at s4
  rw [← e3] at s5
  obtain ⟨x, hx, hs⟩ := Option.map_eq_some_iff.1 s5
  simp only [Prod.mk.injEq] at hs
  obtain ⟨f1, f2, f3⟩ := hs
  obtain ⟨l, S, hp, p, h1, -, -, h2, -, h3, h4⟩ := edited_policies_adopted (C := Str) (demoWorld ([], [])) (fun s => if s = "p".toList then some (watchDir lsText) else none) hm hu simple_rule
    (by rw [s1]; decide) s6 s3 (by rw [s2]; decide) hx rfl f1 f2 (fun _ => rfl) (fun a f hf => by rcases hf with hf | hf <;> cases hf) s4 Json.demo_ok Json.demo_version
    a_yaml (t0 := lsText) (t := catText) (by rw [if_pos s1]; rfl) ls_parses ls_acyclic cat_parses cat_acyclic id
  obtain ⟨tr, mo, y, k1, k2, k3, -, k4⟩ := h4 Processor.saneStream Processor.sane_older (by change 7 ≤ 10; decide) (by change 7 ≤ 100000; decide) (by
    intro h
    have : (eventsAfter [] Processor.saneStream).length = 0 := by rw [h]; rfl
    revert this
    decide)
  exact ⟨l, S, hp, p, h1, h2, h3, tr, mo, y, k1, k2, k3, k4⟩

/-- The hypotheses of `reload_settled` are met: in the run of `edit_takes_effect`, and there the last policies adopted are those of the directory. -/
example (S : Setup P) (dss : P → List (List Decl)) (ok : S.Ok dss) (hmon : S.monitor = true) (hp : S.pending = []) (comp : List (Str × Option Str) → Option P) (p : P)
    (hc : comp [("p/a.yaml".toList, some "b".toList)] = some p) {rs : List Rec} {rd : Processor.State} {cs : List HCall} (hrun : Processor.run false S.fuel .init rs = some (rd, cs))
    (hev : eventsAfter [] rs ≠ []) (hroom : rs.length ≤ S.cap) :
    ∃ tr mo y, ReloadRun S hp id comp (watchDir "a".toList) tr mo y ∧ ∃ as, LoggedUnder S dss (S.policies :: as) rs (S.log y.1) ∧
      ∃ got room, Monitor.Live.lastAttempt mo = some (got, comp got, room) ∧ Monitor.Live.ReadFrom (watchDir "b".toList) got ∧ ∀ p, comp got = some p → room = true → as.getLast? = some p := by
  obtain ⟨tr, mo, y, k1, k2, k3, k4, k5, k6, k7, k8, k9, -⟩ := edit_takes_effect S dss ok hmon hp (id : Str → Str) a_yaml "a".toList "b".toList hc hrun hev hroom
  have hdir : Monitor.Live.Usable y.2.dir := by rw [k4]; exact Monitor.Live.sole_usable a_yaml _
  obtain ⟨as, h1, h2⟩ := reload_settled S dss ok hp hrun k1 k2 k3 (age := textAge) (Monitor.Live.sole_plain a_yaml _) (k9 textAge (by decide)) textAge_inj (fun _ _ h => h) k5 k6 hdir k7 k8
  rw [k4] at h2
  exact ⟨tr, mo, y, k1, as, h1, h2⟩

end Verif.Whole

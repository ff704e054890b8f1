import Verif.Whole.Directory
import Verif.Pipeline.Reload
/-
C103: the whole program with a policy directory that changes while it runs.
Sources: /repo/core/policyengine/policyengine.go:76-206, 221-234, /repo/core/policyengine/monitor/localpolicymonitor.go:51-231, and the sources of the whole program (Verif/Whole/Program.lean)
-/
namespace Verif.Whole
open Verif.Decimal (Str)
open Verif.Exporter (Bytes)
open Verif.FlatRecord
open Verif.Policy
open Verif.Falco
open Verif.Processor (Rec HCall OlderParents)
open Verif.Flattener (eventsAfter StoresEvent)
open Verif.Pipeline
open Verif.Pipeline.Drain (driven rootClosed Waited)
open Verif.Config (XConf XVal XConfig ConfEnv EngineConfig createConfigX createEngineConfig createFlattenerConfig engineInit)

variable {P : Type}

/-! ### Model -/

/-- The policy engine is the second of the three stages (pipeline.json; policyengine.go:119-234); nothing is pending when the monitor starts (policyengine.go:101-114). -/
def Setup.engineIn {X D : Type} (S : Setup P) (hp : S.pending = []) (C : Exporter.Codec Msg D) (T : Exporter.Transport X D) (x0 : X) : Reload.EngineIn (S.netWith C T x0) S.cfg S.policies S.start where
  i := 1
  st s := s
  lab l := l
  push p := .push p
  init := by
    change Engine.Swap.init S.cfg S.policies S.start S.pending = _
    rw [hp]
  step _ _ _ _ h := h
  pushes _ := rfl
  owns l h := by
    change Drain.isPush l = false at h
    cases l <;> first | rfl | cases h
  stage := (show 1 < 3 by decide)
  accepts s p h := by
    refine ⟨{ (show Engine.Swap.St P Msg from s) with pending := (show Engine.Swap.St P Msg from s).pending ++ [p] }, ?_, rfl⟩
    change Drain.engineStep S.cfg s (.push p) = _
    unfold Drain.engineStep Engine.Swap.step
    dsimp only
    rw [if_pos h]
    rfl

/-- Runs of the whole program with JSON export to a file, beside a policy directory, at first `d`, that changes at any time, and its monitor. `sha`: checksum of a file. `comp`: the compiler. -/
abbrev ReloadRun {C : Type} [DecidableEq C] (S : Setup P) (hp : S.pending = []) (sha : Str → C) (comp : List (Str × Option Str) → Option P) (d : List (Monitor.FileEnt Str)) :=
  Reload.Exec (S.engineIn hp (Exporter.allOrNone S.enc) (Exporter.fileTransport (fun _ => none)) Exporter.newFile) sha comp d

open Classical in
/-- `createPolicyInterpreter` for the Falco language on the files read, by their paths and contents (policyengine.go:183-206, compiler.go:69-129): `none` if one cannot be read or the policies do not compile.
Simplification: compiling cyclic definitions, which overflows the stack (C12), counts as an error. -/
noncomputable def compileRead {R : Type} (ops : Operations R) (str : Str → Option Nat) (got : List (Str × Option Str)) : Option (PolicySetOf ops str) :=
  if h : ∃ p : PolicySetOf ops str, got.map Prod.snd = p.texts.map some then some h.choose else none

/-! ### Specification -/

/-- The log of a run is complete under a sequence of policy sets: the events of the stream fall into consecutive stretches, one for each of these sets in order, and the lines of a stretch are one for each
of its events that its policies want logged, saying so; with one worker, in order. -/
def LoggedUnder (S : Setup P) (dss : P → List (List Decl)) (pols : List P) (rs : List Rec) (log : Bytes) : Prop :=
  CompleteUnder S pols (fun p => Logged S (dss p)) (fun p => LineFor S (dss p)) (eventsAfter [] rs) log

/-- The texts of a policy set are those of policy files of the directory, as they were, each at some time, in its history `h`. -/
def FromHistory (h : List (List (Monitor.FileEnt Str))) (texts : List Str) : Prop :=
  ∀ t ∈ texts, ∃ e ∈ h, ∃ f, (".yaml".toList <:+ f ∨ ".yml".toList <:+ f) ∧ Monitor.Live.look e f = some (some t)

/-! ### Proofs -/

theorem policySet_ext {R : Type} {ops : Operations R} {str : Str → Option Nat} {p q : PolicySetOf ops str} (h : p.texts = q.texts) : p = q := by
  obtain ⟨t, c, n, hn⟩ := p
  obtain ⟨t', c', m, hm⟩ := q
  cases h
  cases Option.some.inj (compile_unique _ _ _ _ _ _ hn hm)
  rfl

/-- What the compiler makes of files: their texts, compiled. -/
theorem compileRead_some {R : Type} {ops : Operations R} {str : Str → Option Nat} {got : List (Str × Option Str)} {p : PolicySetOf ops str} : compileRead ops str got = some p ↔ got.map Prod.snd = p.texts.map some := by
  unfold compileRead
  constructor
  · intro h
    split at h
    · rename_i hx
      cases h
      exact hx.choose_spec
    · cases h
  · intro h
    have hx : ∃ p : PolicySetOf ops str, got.map Prod.snd = p.texts.map some := ⟨p, h⟩
    rw [dif_pos hx]
    refine congrArg some (policySet_ext ?_)
    have := hx.choose_spec.symm.trans h
    exact List.map_injective_iff.2 (fun _ _ h => Option.some.inj h) this

/-- The compiler accepts files exactly if they can be read and are policies of the rule language without cyclic definitions. -/
theorem compileRead_accepts {R : Type} {ops : Operations R} {str : Str → Option Nat} (hs : StrRule str) (got : List (Str × Option Str)) :
    (compileRead ops str got).isSome = true ↔
      ∃ texts dss, got.map Prod.snd = texts.map some ∧ List.Forall₂ (fun s ds => GPolicy (ltokens str s) ds) texts dss ∧ ∀ y ∈ sites dss, ∀ e, siteCond y = some e → ¬ Cyclic y.2 e := by
  constructor
  · intro h
    obtain ⟨p, hp⟩ := Option.isSome_iff_exists.1 h
    obtain ⟨h1, h2⟩ := policySet_good hs p
    exact ⟨p.texts, p.decls, compileRead_some.1 hp, h1, h2⟩
  · rintro ⟨texts, dss, h1, h2, h3⟩
    obtain ⟨-, n, c, hc⟩ := policy_texts_compile ops hs h2 h3
    exact Option.isSome_iff_exists.2 ⟨⟨texts, c, n, hc⟩, compileRead_some.2 h1⟩

/-- A run of the whole program beside a changing policy directory, whatever the policies mean: `Want`, the events that a policy set wants logged, `Line`, the lines for them. When `Wait` returns, the log is
complete under the first policies and then those adopted; those adopted are the first of those pushed by the monitor, all of them if none is left waiting; and each of these is what the compiler made of
files read, with contents that the directory's files had at some time. -/
theorem reload_with {C : Type} [DecidableEq C] (S : Setup P) (hwork : 0 < S.workers) (hcap : 0 < S.cap) (hdedup : S.dedup = false) (Want : P → Event → Prop) (Alert : P → Event → Msg → Prop)
    (hstep : ∀ p x fr, StoresEvent S.F x fr → (¬ Want p x → S.proc p (.flat fr) = none) ∧ (Want p x → ∃ m, S.proc p (.flat fr) = some m ∧ Alert p x m))
    (Line : P → Event → Bytes → Prop) (henc : ∀ p x m, Processor.isEvent x.2 = true → Alert p x m → ∃ d, S.enc m = some d ∧ Line p x d.text ∧ Exporter.newline ∉ d.text)
    (hp : S.pending = []) {sha : Str → C} {comp : List (Str × Option Str) → Option P}
    {d : List (Monitor.FileEnt Str)} {rs : List Rec} {rd : Processor.State} {cs : List HCall} (hrun : Processor.run false S.fuel .init rs = some (rd, cs))
    {tr : List (Drain.Obs Msg)} {mo : List (Monitor.Live.Obs Str P)} {x : Drain.St S.net × Monitor.Live.LSt Str C P} (h : ReloadRun S hp sha comp d tr mo x)
    (hw : Waited x.1) (hd : driven tr = rs.map Msg.sf) :
    ∃ as, CompleteUnder S (S.policies :: as) Want Line (eventsAfter [] rs) (S.log x.1) ∧ as ++ x.2.chan = Monitor.Live.pushed mo ∧
      ∀ p ∈ as, ∃ got, Monitor.Live.Obs.attempted got (some p) true ∈ mo ∧ comp got = some p ∧ ∀ f v, (f, v) ∈ got → Reload.PolicyName f ∧ ∃ e ∈ Reload.dirsOf d mo, v = (Monitor.Live.look e f).join := by
  obtain ⟨hm, hc, tr1, h1, h2, h3, h4⟩ := Reload.run_engine h
  obtain ⟨k1, k2⟩ := reader_all S hdedup rs rd cs hrun
  have hx : Engine.Swap.Exec S.cfg S.policies S.start S.pending tr1 (show Engine.Swap.St P Msg from x.1.st 1) := by rw [hp]; exact h1
  have hdone : Engine.Swap.taken (show Engine.Swap.St P Msg from x.1.st 1).phase = [] := by
    have hw1 : Drain.phaseReturned (show Engine.Swap.St P Msg from x.1.st 1).phase = true := hw 1 (show 1 < 3 by decide)
    revert hw1
    generalize (show Engine.Swap.St P Msg from x.1.st 1).phase = ph
    cases ph <;> intro h <;> first | rfl | cases h
  have hall : Engine.Swap.adoptions tr1 ++ x.2.chan = Monitor.Live.pushed mo := by
    rw [← h4, hc]
    change _ = _ ++ Engine.Swap.taken (show Engine.Swap.St P Msg from x.1.st 1).phase ++ _
    rw [hdone, List.append_nil]
  refine ⟨Engine.Swap.adoptions tr1, ?_, hall, ?_⟩
  · exact log_complete_along S hwork hcap Want Alert hstep S.enc Line henc tr x.1 (Reload.run_net h) hw hx h2 (h3 0) _ _ (by rw [hd]; exact k1) k2
  · intro p hpa
    exact Reload.pushed_compiled hm (by rw [← hall]; exact List.mem_append_left _ hpa)

/-- **C103** A run of the whole program beside a changing policy directory. When `Wait` returns, the log is complete under the first policies and then those adopted; those adopted are the first of those
pushed by the monitor, all of them if none is left waiting; and each of these is what the compiler made of files read, with contents that the directory's files had at some time. -/
theorem reload_run {C : Type} [DecidableEq C] (S : Setup P) (dss : P → List (List Decl)) (ok : S.Ok dss) (hp : S.pending = []) {sha : Str → C} {comp : List (Str × Option Str) → Option P}
    {d : List (Monitor.FileEnt Str)} {rs : List Rec} {rd : Processor.State} {cs : List HCall} (hrun : Processor.run false S.fuel .init rs = some (rd, cs))
    {tr : List (Drain.Obs Msg)} {mo : List (Monitor.Live.Obs Str P)} {x : Drain.St S.net × Monitor.Live.LSt Str C P} (h : ReloadRun S hp sha comp d tr mo x)
    (hw : Waited x.1) (hd : driven tr = rs.map Msg.sf) :
    ∃ as, LoggedUnder S dss (S.policies :: as) rs (S.log x.1) ∧ as ++ x.2.chan = Monitor.Live.pushed mo ∧
      ∀ p ∈ as, ∃ got, Monitor.Live.Obs.attempted got (some p) true ∈ mo ∧ comp got = some p ∧ ∀ f v, (f, v) ∈ got → Reload.PolicyName f ∧ ∃ e ∈ Reload.dirsOf d mo, v = (Monitor.Live.look e f).join := by
  exact reload_with S ok.workers ok.cap ok.dedup _ _ (engine_step S dss ok.toCore) (fun p => LineFor S (dss p)) (fun p y m g1 g2 => json_lines S ok.lib ok.version (dss p) y m g1 g2) hp hrun h hw hd

/-- Once the directory has stopped changing and the monitor has come to rest (see `reload_settled`), and all that was pushed has been adopted, the last adopted is what the directory's files compile to. -/
theorem settled_with {C : Type} [DecidableEq C] {S : Setup P} {hp : S.pending = []} {sha : Str → C} {comp : List (Str × Option Str) → Option P}
    {d : List (Monitor.FileEnt Str)} {tr : List (Drain.Obs Msg)} {mo : List (Monitor.Live.Obs Str P)} {x : Drain.St S.net × Monitor.Live.LSt Str C P} (h : ReloadRun S hp sha comp d tr mo x)
    {age : Str → Option (Option Str) → Nat} (hpl : Monitor.Live.Plain d) (hreg : Monitor.Live.Regular age mo)
    (inj : ∀ p x y, age p x = age p y → x = y) (hsha : ∀ b b', sha b = sha b' → b = b') (hr : Monitor.Live.Running x.2) (hset : Monitor.Live.Settled sha comp x.2) (hu : Monitor.Live.Usable x.2.dir)
    (ht : Monitor.Live.Told mo) (hch : x.2.chan = []) {as : List P} (h2 : as ++ x.2.chan = Monitor.Live.pushed mo) :
    ∃ got room, Monitor.Live.lastAttempt mo = some (got, comp got, room) ∧ Monitor.Live.ReadFrom x.2.dir got ∧ ∀ p, comp got = some p → room = true → as.getLast? = some p := by
  obtain ⟨hm, -, -⟩ := Reload.run_engine h
  have := Monitor.Live.settles hm hpl hreg inj hsha hr (ls := []) (fun l h => by cases h) rfl
  rw [List.append_nil] at this
  obtain ⟨got, room, hla, hrf, -⟩ := this.2.2 hset hu ht
  refine ⟨got, room, hla, hrf, fun p hc hroom => ?_⟩
  rw [hc, hroom] at hla
  have hl := Monitor.Live.latest_pushed hm hla
  rw [(Monitor.Live.in_order hm).1, ← h2, hch, List.append_nil] at hl
  exact hl

/-- **C103** If moreover the directory has stopped changing and the monitor has come to rest, having been told of a change, with every change reported and readable files that never went back to an earlier
content, and nothing is left waiting: then the policies in force at the end, under which the last stretch was logged, are those of the directory as it is, if they compile and the channel had room. -/
theorem reload_settled {C : Type} [DecidableEq C] (S : Setup P) (dss : P → List (List Decl)) (ok : S.Ok dss) (hp : S.pending = []) {sha : Str → C} {comp : List (Str × Option Str) → Option P}
    {d : List (Monitor.FileEnt Str)} {rs : List Rec} {rd : Processor.State} {cs : List HCall} (hrun : Processor.run false S.fuel .init rs = some (rd, cs))
    {tr : List (Drain.Obs Msg)} {mo : List (Monitor.Live.Obs Str P)} {x : Drain.St S.net × Monitor.Live.LSt Str C P} (h : ReloadRun S hp sha comp d tr mo x)
    (hw : Waited x.1) (hd : driven tr = rs.map Msg.sf) {age : Str → Option (Option Str) → Nat} (hpl : Monitor.Live.Plain d) (hreg : Monitor.Live.Regular age mo)
    (inj : ∀ p x y, age p x = age p y → x = y) (hsha : ∀ b b', sha b = sha b' → b = b') (hr : Monitor.Live.Running x.2) (hset : Monitor.Live.Settled sha comp x.2) (hu : Monitor.Live.Usable x.2.dir)
    (ht : Monitor.Live.Told mo) (hch : x.2.chan = []) :
    ∃ as, LoggedUnder S dss (S.policies :: as) rs (S.log x.1) ∧
      ∃ got room, Monitor.Live.lastAttempt mo = some (got, comp got, room) ∧ Monitor.Live.ReadFrom x.2.dir got ∧ ∀ p, comp got = some p → room = true → as.getLast? = some p := by
  obtain ⟨as, h1, h2, -⟩ := reload_run S dss ok hp hrun h hw hd
  exact ⟨as, h1, settled_with h hpl hreg inj hsha hr hset hu ht hch h2⟩

/-- **C103** From the configuration and the policy directory, through its changes, to the log. With a usual configuration of JSON export to a file, with the local policy monitor, in a world that is in order, and
with policy files in the directory: the program starts with the policies in these files; in every run over records whose process parents are older, when `Wait` returns, the log is complete under these policies
and then those of policy sets adopted later, all of whose texts are those of files the directory had at some time; and there is such a run from wherever the driver is done. -/
theorem hot_reload {C : Type} [DecidableEq C] (W : World Unit) (fs : Str → Dir) {m : Manifest} {env : List Str} {cs : List Pipeline.Conf} {c1 c2 c3 : Pipeline.Conf} {a b d : Str}
    (hm : setManifest m env cs = [c1, c2, c3]) (u : Usual c1 c2 c3 a b d) (hs : StrRule W.str)
    (hp : (engineConf c2).policiesPath ≠ []) (hl : (engineConf c2).language = .falco) (hmon : (engineConf c2).monitor = .loc) (hw : 0 < (engineConf c2).concurrency)
    {x : XConfig} (hx : createConfigX W.secrets (xconf c3) = some x) (ho : W.opens x.path = true) (hf : x.format = .json) (ht : x.transport = .file) (hwr : ∀ k, W.writes k = none)
    (hb : Benign W.builtIn W.user) (hd : (createFlattenerConfig (Config.toConf (xconf c1))).1.filterOn = false) (hlib : Json.Spec.LibOk W.L) (hv : Json.Spec.VersionOk (Utf8.bytes m.jsonSchema))
    {files : List (Monitor.FileEnt Str)} {texts : List Str} {dss : List (List Decl)} (h1 : fs (engineConf c2).policiesPath = some files)
    (h2 : PolicyFiles true files texts) (h3 : List.Forall₂ (fun s ds => GPolicy (ltokens W.str s) ds) texts dss)
    (h4 : ∀ y ∈ sites dss, ∀ e, siteCond y = some e → ¬ Cyclic y.2 e) :
    ∃ (l : Load Factory) (S : Setup (PolicySet W.L W.str)) (hp : S.pending = []), loadStages (W.withDirs fs []).env { regs := bootRegs } (setManifest m env cs) = .done l ∧
      netOf (W.withDirs fs []).comp (setManifest m env cs) l chanSize = S.net ∧ S.policies.texts = texts ∧ S.policies.decls = dss ∧ S.monitor = true ∧ S.Ok PolicySetOf.decls ∧ S.fuel = W.fuel ∧ S.cap = chanSize ∧
      ∀ (sha : Str → C) (rs : List Rec), OlderParents rs → rs.length ≤ W.fuel →
      ∀ (tr : List (Drain.Obs Msg)) (mo : List (Monitor.Live.Obs Str (PolicySet W.L W.str))) (y : Drain.St S.net × Monitor.Live.LSt Str C (PolicySet W.L W.str)),
        ReloadRun S hp sha (compileRead (flatOps W.L getMappers) W.str) files tr mo y →
        (Waited y.1 → driven tr = rs.map Msg.sf →
          ∃ as, LoggedUnder S PolicySetOf.decls (S.policies :: as) rs (S.log y.1) ∧ as ++ y.2.chan = Monitor.Live.pushed mo ∧ ∀ p ∈ as, FromHistory (Reload.dirsOf files mo) p.texts) ∧
        (rootClosed tr = true → ∃ tr' ms y', ReloadRun S hp sha (compileRead (flatOps W.L getMappers) W.str) files tr' (mo ++ ms) y' ∧ Waited y'.1 ∧ driven tr' = driven tr ∧ y'.2.dir = y.2.dir ∧ Monitor.Live.pushed ms = []) := by
  obtain ⟨n, rules, filters, hc, -⟩ := policy_texts_to_alerts W.L hs texts dss h3 h4
  obtain ⟨p, hp1, hp2, hp3⟩ := withDirs_policyAt W fs [] (engineConf c2) hl h1 (by rw [hmon]; exact h2) hc
  have hdecls : p.decls = dss := by
    unfold PolicySetOf.decls
    rw [hp2]
    have hfiles : texts.map (fileOf W.str) = dss.map Falco.File.ok := by
      clear hc hp2 h2 h4
      induction h3 with
      | nil => rfl
      | cons h _ ih => rw [List.map_cons, List.map_cons, (policy_accepted_iff hs _ _).2 h, ih]
    exact (decls_of_ok hs _ _ hfiles).2
  have hok : (W.withDirs fs []).Ok m c1 c2 PolicySetOf.decls :=
    ⟨hs, fun q => (policySet_good hs q).1, fun q => (policySet_good hs q).2, fun q => q.built, hb, hw, hd, hlib, hv⟩
  have hready : (W.withDirs fs []).Ready c2 c3 x p := by
    refine ⟨hp, hp1, Int.le_of_lt hw, hx, ?_⟩
    unfold World.exports
    rw [hf, ht]
    rw [show (W.withDirs fs []).opens x.path = true from ho]
    rfl
  obtain ⟨l, k1, k2, -⟩ := boot_file_run (W.withDirs fs []) hm u hready hf ht hwr hok
  have ok := setup_ok (W.withDirs fs []) hok (build_version (W.withDirs fs []) hm u hready.conf) p
  refine ⟨l, (W.withDirs fs []).setup c1 c2 x p, rfl, k1, k2, hp2, hdecls, by change (_ == _) = true; rw [hmon]; rfl, ok, rfl, rfl, ?_⟩
  intro sha rs hold hfuel tr mo y hrun
  obtain ⟨hT, hC⟩ := net_ok ((W.withDirs fs []).setup c1 c2 x p) ok.workers ok.cap
  refine ⟨fun hwait hdr => ?_, fun hroot => Reload.can_finish hT hC hrun hroot⟩
  obtain ⟨⟨rd, hcs⟩, hr⟩ := Processor.reader_returns _ (Processor.older_parents_not_stuck _ hold) W.fuel hfuel
  obtain ⟨as, g1, g2, g3⟩ := reload_run _ _ ok rfl hr hrun hwait hdr
  refine ⟨as, g1, g2, fun q hq t htx => ?_⟩
  obtain ⟨got, -, hcomp, hread⟩ := g3 q hq
  have hsnd := compileRead_some.1 hcomp
  have : some t ∈ got.map Prod.snd := by rw [hsnd]; exact List.mem_map.2 ⟨t, htx, rfl⟩
  obtain ⟨⟨f, v⟩, hfv, hv'⟩ := List.mem_map.1 this
  cases hv'
  obtain ⟨hname, e, he, hlook⟩ := hread f _ hfv
  refine ⟨e, he, f, hname, ?_⟩
  revert hlook
  generalize Monitor.Live.look e f = o
  intro hlook
  match o, hlook with
  | some (some _), rfl => rfl

end Verif.Whole

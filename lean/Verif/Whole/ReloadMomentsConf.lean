import Verif.Whole.ReloadMoments
/-
C128, from the configuration and the policy directory: what has come out at every moment, with every output, under Falco policies and Sigma rules.
Sources: /repo/driver/pipeline/pipeline.go:63-221, 286-294, /repo/core/policyengine/policyengine.go:76-206, 221-234, /repo/core/policyengine/monitor/localpolicymonitor.go:51-231,
/repo/core/exporter/transports/file.go:43-84, terminal.go:44-56, syslog.go:47-82, elastic.go:60-139
-/
namespace Verif.Whole
open Verif.Decimal (Str)
open Verif.Exporter (Bytes GetsThrough KeptOf RequestsFor)
open Verif.FlatRecord
open Verif.Policy
open Verif.Falco
open Verif.Sigma (RuleFile ConfigFile FieldMappings SigmaRule Supported Configures)
open Verif.Processor (Rec HCall OlderParents)
open Verif.Flattener (eventsAfter StoresEvent)
open Verif.Pipeline
open Verif.Pipeline.Process
open Verif.Pipeline.Drain (driven rootClosed Waited sync engine exporter chain)
open Verif.Config (XConf XVal XConfig ConfEnv EngineConfig createConfigX createEngineConfig createFlattenerConfig engineInit)

variable {P : Type}

/-! ### Proofs -/

/-- What holds of every completed run beside a changing directory holds, at every moment of a run, of something that what has come out is the beginning of. -/
theorem moment_of {C X D α : Type} [DecidableEq C] (S : Setup P) (hwork : 0 < S.workers) (hcap : 0 < S.cap) (cd : Exporter.Codec Msg D) (T : Exporter.Transport X D) (x0 : X) (g : X → List α)
    (hg : ∀ x ds, g x <+: g (T.send x ds).1) (hp : S.pending = []) {sha : Str → C} {comp : List (Str × Option Str) → Option P} {d : List (Monitor.FileEnt Str)} {R : List P → X → Prop}
    {H : List (List (Monitor.FileEnt Str)) → P → Prop} {a : List Msg}
    (k : ∀ (tr : List (Drain.Obs Msg)) (mo : List (Monitor.Live.Obs Str P)) (y : Drain.St (S.netWith cd T x0) × Monitor.Live.LSt Str C P), Reload.Exec (S.engineIn hp cd T x0) sha comp d tr mo y →
      Waited y.1 → driven tr = a → ∃ as, R as (show Exporter.State X Msg D × Bool from y.1.st 2).1.tr ∧ as ++ y.2.chan = Monitor.Live.pushed mo ∧ ∀ p ∈ as, H (Reload.dirsOf d mo) p)
    {tr : List (Drain.Obs Msg)} {mo : List (Monitor.Live.Obs Str P)} {x : Drain.St (S.netWith cd T x0) × Monitor.Live.LSt Str C P} (h : Reload.Exec (S.engineIn hp cd T x0) sha comp d tr mo x)
    (hd : driven tr = a) :
    ∃ as full, R as full ∧ g (show Exporter.State X Msg D × Bool from x.1.st 2).1.tr <+: g full ∧ TakenSoFar mo as ∧ ∀ p ∈ as, H (Reload.dirsOf d mo) p := by
  obtain ⟨tr', mo', y, h1, h2, h3, h4, h5, h6, h7⟩ := reload_completes S hwork hcap cd T x0 g hg hp h
  obtain ⟨as, k1, k2, k3⟩ := k tr' mo' y h1 h2 (h3.trans hd)
  rw [h4] at k2
  rw [h5] at k3
  exact ⟨as, _, k1, h7, h6 as k2, k3⟩

/-! ### C128, from the configuration -/

/-- **C128** From the configuration and the policy directory of Falco policies, through its changes, to the terminal: at every moment of a run over records whose process parents are older, what has been printed is the beginning of one line for each of messages that are complete for the events of the records sent so far, under the policies at the start and then those of texts that the files of the directory have had. -/
theorem terminal_moments {C : Type} [DecidableEq C] (W : World Unit) (fs : Str → Dir) {m : Manifest} {env : List Str} {cs : List Pipeline.Conf} {c1 c2 c3 : Pipeline.Conf} {a b d : Str}
    (hm : setManifest m env cs = [c1, c2, c3]) (u : Usual c1 c2 c3 a b d) (hs : StrRule W.str)
    (hp : (engineConf c2).policiesPath ≠ []) (hl : (engineConf c2).language = .falco) (hmon : (engineConf c2).monitor = .loc) (hw : 0 < (engineConf c2).concurrency)
    {x : XConfig} (hx : createConfigX W.secrets (xconf c3) = some x) (ho : W.exports x = true) (ht : x.transport = .terminal)
    (hb : Benign W.builtIn W.user) (hd : (createFlattenerConfig (Config.toConf (xconf c1))).1.filterOn = false) (hlib : Json.Spec.LibOk W.L) (hv : Json.Spec.VersionOk (Utf8.bytes m.jsonSchema)) (hn : KindNames W.L)
    {files : List (Monitor.FileEnt Str)} {texts : List Str} {dss : List (List Decl)} (h1 : fs (engineConf c2).policiesPath = some files)
    (h2 : PolicyFiles true files texts) (h3 : List.Forall₂ (fun s ds => GPolicy (ltokens W.str s) ds) texts dss)
    (h4 : ∀ y ∈ sites dss, ∀ e, siteCond y = some e → ¬ Cyclic y.2 e) :
    ∃ (l : Load Factory) (p : PolicySet W.L W.str), loadStages (W.withDirs fs []).env { regs := bootRegs } (setManifest m env cs) = .done l ∧
      netOf (W.withDirs fs []).comp (setManifest m env cs) l chanSize = ((W.withDirs fs []).setup c1 c2 x p).outNet ((W.withDirs fs []).encode x) Exporter.terminal [] ∧ p.texts = texts ∧ p.decls = dss ∧
      ((W.withDirs fs []).setup c1 c2 x p).Ok PolicySetOf.decls ∧ Encodes ((W.withDirs fs []).setup c1 c2 x p) ((W.withDirs fs []).encode x) ((W.withDirs fs []).Line c1 c2 x p) ∧
      ∀ (sha : Str → C) (rs : List Rec), OlderParents rs → rs.length ≤ W.fuel →
      ∀ (tr : List (Drain.Obs Msg)) (mo : List (Monitor.Live.Obs Str (PolicySet W.L W.str))) (y : Drain.St (((W.withDirs fs []).setup c1 c2 x p).outNet ((W.withDirs fs []).encode x) Exporter.terminal []) × Monitor.Live.LSt Str C (PolicySet W.L W.str)),
        OutReloadRun ((W.withDirs fs []).setup c1 c2 x p) rfl ((W.withDirs fs []).encode x) Exporter.terminal [] sha (compileRead (flatOps W.L getMappers) W.str) files tr mo y →
        driven tr = rs.map Msg.sf →
          ∃ as ms, MessagesUnder ((W.withDirs fs []).setup c1 c2 x p) PolicySetOf.decls ((W.withDirs fs []).Line c1 c2 x p) (p :: as) (eventsAfter [] rs) ms ∧
            ((W.withDirs fs []).setup c1 c2 x p).outOf y.1 <+: ms.flatMap (fun l => l ++ [Exporter.newline]) ∧ TakenSoFar mo as ∧ ∀ q ∈ as, FromHistory (Reload.dirsOf files mo) q.texts := by
  obtain ⟨l, p, i1, i2, i3, i4, ok, henc, k⟩ := hot_reload_terminal (C := C) W fs hm u hs hp hl hmon hw hx ho ht hb hd hlib hv hn h1 h2 h3 h4
  refine ⟨l, p, i1, i2, i3, i4, ok, henc, fun sha rs hold hfuel tr mo y hrun hdr => ?_⟩
  obtain ⟨as, full, ⟨ms, b1, b2⟩, e2, e3, e4⟩ := moment_of _ ok.workers ok.cap _ _ _ id (terminal_grows) _
    (R := fun as o => ∃ ms, MessagesUnder ((W.withDirs fs []).setup c1 c2 x p) PolicySetOf.decls ((W.withDirs fs []).Line c1 c2 x p) (p :: as) (eventsAfter [] rs) ms ∧ Printed ms o)
    (H := fun ds q => FromHistory ds q.texts) (a := rs.map Msg.sf) (fun tr mo y hr hw hdr => by
      obtain ⟨as, ms, q1, q2, q3, q4⟩ := (k sha rs hold hfuel tr mo y hr).1 hw hdr
      exact ⟨as, ⟨ms, q1, q2⟩, q3, q4⟩) hrun hdr
  exact ⟨as, ms, b1, b2.1 ▸ e2, e3, e4⟩

/-- **C128** From the configuration and the policy directory of Falco policies, through its changes, to syslog, whichever calls fail: at every moment, the lines sent are the first of those that get through of such messages. -/
theorem syslog_moments {C : Type} [DecidableEq C] (W : World Unit) (fs : Str → Dir) {m : Manifest} {env : List Str} {cs : List Pipeline.Conf} {c1 c2 c3 : Pipeline.Conf} {a b d : Str}
    (hm : setManifest m env cs = [c1, c2, c3]) (u : Usual c1 c2 c3 a b d) (hs : StrRule W.str)
    (hp : (engineConf c2).policiesPath ≠ []) (hl : (engineConf c2).language = .falco) (hmon : (engineConf c2).monitor = .loc) (hw : 0 < (engineConf c2).concurrency)
    {x : XConfig} (hx : createConfigX W.secrets (xconf c3) = some x) (ho : W.exports x = true) (ht : x.transport = .syslog)
    (hb : Benign W.builtIn W.user) (hd : (createFlattenerConfig (Config.toConf (xconf c1))).1.filterOn = false) (hlib : Json.Spec.LibOk W.L) (hv : Json.Spec.VersionOk (Utf8.bytes m.jsonSchema)) (hn : KindNames W.L)
    {files : List (Monitor.FileEnt Str)} {texts : List Str} {dss : List (List Decl)} (h1 : fs (engineConf c2).policiesPath = some files)
    (h2 : PolicyFiles true files texts) (h3 : List.Forall₂ (fun s ds => GPolicy (ltokens W.str s) ds) texts dss)
    (h4 : ∀ y ∈ sites dss, ∀ e, siteCond y = some e → ¬ Cyclic y.2 e) :
    ∃ (l : Load Factory) (p : PolicySet W.L W.str), loadStages (W.withDirs fs []).env { regs := bootRegs } (setManifest m env cs) = .done l ∧
      netOf (W.withDirs fs []).comp (setManifest m env cs) l chanSize = ((W.withDirs fs []).setup c1 c2 x p).outNet ((W.withDirs fs []).encode x) (Exporter.syslog W.sends) ([], 0) ∧ p.texts = texts ∧ p.decls = dss ∧
      ((W.withDirs fs []).setup c1 c2 x p).Ok PolicySetOf.decls ∧ Encodes ((W.withDirs fs []).setup c1 c2 x p) ((W.withDirs fs []).encode x) ((W.withDirs fs []).Line c1 c2 x p) ∧
      ∀ (sha : Str → C) (rs : List Rec), OlderParents rs → rs.length ≤ W.fuel →
      ∀ (tr : List (Drain.Obs Msg)) (mo : List (Monitor.Live.Obs Str (PolicySet W.L W.str)))
        (y : Drain.St (((W.withDirs fs []).setup c1 c2 x p).outNet ((W.withDirs fs []).encode x) (Exporter.syslog W.sends) ([], 0)) × Monitor.Live.LSt Str C (PolicySet W.L W.str)),
        OutReloadRun ((W.withDirs fs []).setup c1 c2 x p) rfl ((W.withDirs fs []).encode x) (Exporter.syslog W.sends) ([], 0) sha (compileRead (flatOps W.L getMappers) W.str) files tr mo y →
        driven tr = rs.map Msg.sf →
          ∃ as ms lines n, MessagesUnder ((W.withDirs fs []).setup c1 c2 x p) PolicySetOf.decls ((W.withDirs fs []).Line c1 c2 x p) (p :: as) (eventsAfter [] rs) ms ∧
            GetsThrough W.sends x.eventBuffer ms lines n ∧ (((W.withDirs fs []).setup c1 c2 x p).outOf y.1).1 <+: lines ∧
            TakenSoFar mo as ∧ ∀ q ∈ as, FromHistory (Reload.dirsOf files mo) q.texts := by
  obtain ⟨l, p, i1, i2, i3, i4, ok, henc, k⟩ := hot_reload_syslog (C := C) W fs hm u hs hp hl hmon hw hx ho ht hb hd hlib hv hn h1 h2 h3 h4
  refine ⟨l, p, i1, i2, i3, i4, ok, henc, fun sha rs hold hfuel tr mo y hrun hdr => ?_⟩
  obtain ⟨as, full, ⟨ms, b1, b2⟩, e2, e3, e4⟩ := moment_of _ ok.workers ok.cap _ _ _ Prod.fst (fun x ds => syslogExport_grows _ ds x) _
    (R := fun as o => ∃ ms, MessagesUnder ((W.withDirs fs []).setup c1 c2 x p) PolicySetOf.decls ((W.withDirs fs []).Line c1 c2 x p) (p :: as) (eventsAfter [] rs) ms ∧ GetsThrough W.sends x.eventBuffer ms o.1 o.2)
    (H := fun ds q => FromHistory ds q.texts) (a := rs.map Msg.sf) (fun tr mo y hr hw hdr => by
      obtain ⟨as, ms, q1, q2, q3, q4⟩ := (k sha rs hold hfuel tr mo y hr).1 hw hdr
      exact ⟨as, ⟨ms, q1, q2⟩, q3, q4⟩) hrun hdr
  exact ⟨as, ms, _, _, b1, b2, e2, e3, e4⟩

/-- **C128** From the configuration and the policy directory of Falco policies, through its changes, to a file, whichever writes are cut short: at every moment, the file holds the beginning of what is kept of such messages. -/
theorem file_moments {C : Type} [DecidableEq C] (W : World Unit) (fs : Str → Dir) {m : Manifest} {env : List Str} {cs : List Pipeline.Conf} {c1 c2 c3 : Pipeline.Conf} {a b d : Str}
    (hm : setManifest m env cs = [c1, c2, c3]) (u : Usual c1 c2 c3 a b d) (hs : StrRule W.str)
    (hp : (engineConf c2).policiesPath ≠ []) (hl : (engineConf c2).language = .falco) (hmon : (engineConf c2).monitor = .loc) (hw : 0 < (engineConf c2).concurrency)
    {x : XConfig} (hx : createConfigX W.secrets (xconf c3) = some x) (ho : W.exports x = true) (ht : x.transport = .file)
    (hb : Benign W.builtIn W.user) (hd : (createFlattenerConfig (Config.toConf (xconf c1))).1.filterOn = false) (hlib : Json.Spec.LibOk W.L) (hv : Json.Spec.VersionOk (Utf8.bytes m.jsonSchema)) (hn : KindNames W.L)
    {files : List (Monitor.FileEnt Str)} {texts : List Str} {dss : List (List Decl)} (h1 : fs (engineConf c2).policiesPath = some files)
    (h2 : PolicyFiles true files texts) (h3 : List.Forall₂ (fun s ds => GPolicy (ltokens W.str s) ds) texts dss)
    (h4 : ∀ y ∈ sites dss, ∀ e, siteCond y = some e → ¬ Cyclic y.2 e) :
    ∃ (l : Load Factory) (p : PolicySet W.L W.str), loadStages (W.withDirs fs []).env { regs := bootRegs } (setManifest m env cs) = .done l ∧
      netOf (W.withDirs fs []).comp (setManifest m env cs) l chanSize = ((W.withDirs fs []).setup c1 c2 x p).outNet ((W.withDirs fs []).encode x) (Exporter.fileTransport W.writes) Exporter.newFile ∧ p.texts = texts ∧ p.decls = dss ∧
      ((W.withDirs fs []).setup c1 c2 x p).Ok PolicySetOf.decls ∧ Encodes ((W.withDirs fs []).setup c1 c2 x p) ((W.withDirs fs []).encode x) ((W.withDirs fs []).Line c1 c2 x p) ∧
      ∀ (sha : Str → C) (rs : List Rec), OlderParents rs → rs.length ≤ W.fuel →
      ∀ (tr : List (Drain.Obs Msg)) (mo : List (Monitor.Live.Obs Str (PolicySet W.L W.str)))
        (y : Drain.St (((W.withDirs fs []).setup c1 c2 x p).outNet ((W.withDirs fs []).encode x) (Exporter.fileTransport W.writes) Exporter.newFile) × Monitor.Live.LSt Str C (PolicySet W.L W.str)),
        OutReloadRun ((W.withDirs fs []).setup c1 c2 x p) rfl ((W.withDirs fs []).encode x) (Exporter.fileTransport W.writes) Exporter.newFile sha (compileRead (flatOps W.L getMappers) W.str) files tr mo y →
        driven tr = rs.map Msg.sf →
          ∃ as ms full n fates, MessagesUnder ((W.withDirs fs []).setup c1 c2 x p) PolicySetOf.decls ((W.withDirs fs []).Line c1 c2 x p) (p :: as) (eventsAfter [] rs) ms ∧
            KeptOf W.writes x.eventBuffer ms full n fates ∧ (((W.withDirs fs []).setup c1 c2 x p).outOf y.1).contents <+: full ∧
            TakenSoFar mo as ∧ ∀ q ∈ as, FromHistory (Reload.dirsOf files mo) q.texts := by
  obtain ⟨l, p, i1, i2, i3, i4, ok, henc, k⟩ := hot_reload_kept (C := C) W fs hm u hs hp hl hmon hw hx ho ht hb hd hlib hv hn h1 h2 h3 h4
  refine ⟨l, p, i1, i2, i3, i4, ok, henc, fun sha rs hold hfuel tr mo y hrun hdr => ?_⟩
  obtain ⟨as, full, ⟨ms, b1, fates, b2⟩, e2, e3, e4⟩ := moment_of _ ok.workers ok.cap _ _ _ Exporter.OutFile.contents (fun x ds => fileExport_grows _ ds x) _
    (R := fun as o => ∃ ms, MessagesUnder ((W.withDirs fs []).setup c1 c2 x p) PolicySetOf.decls ((W.withDirs fs []).Line c1 c2 x p) (p :: as) (eventsAfter [] rs) ms ∧ ∃ fates, KeptOf W.writes x.eventBuffer ms o.contents o.writes fates)
    (H := fun ds q => FromHistory ds q.texts) (a := rs.map Msg.sf) (fun tr mo y hr hw hdr => by
      obtain ⟨as, ms, q1, q2, q3, q4⟩ := (k sha rs hold hfuel tr mo y hr).1 hw hdr
      exact ⟨as, ⟨ms, q1, q2⟩, q3, q4⟩) hrun hdr
  exact ⟨as, ms, _, _, fates, b1, b2, e2, e3, e4⟩

/-- **C128** From the configuration and the policy directory of Sigma rules, through its changes, to the terminal: at every moment of a run over records whose process parents are older, what has been printed is the beginning of one line for each of messages that are complete for the events of the records sent so far, under the policies at the start and then those of texts that the files of the directory have had. -/
theorem sigma_terminal_moments {C : Type} [DecidableEq C] (W : World Unit) (parse : Str → Option SigmaRule) (cfgAt : Str → ConfigFile) (fs : Str → Dir) {m : Manifest} {env : List Str}
    {cs : List Pipeline.Conf} {c1 c2 c3 : Pipeline.Conf} {a b d : Str} (hm : setManifest m env cs = [c1, c2, c3]) (u : Usual c1 c2 c3 a b d)
    (hparse : ∀ t r, parse t = some r → (r.searches.map (·.1)).Nodup)
    (hp : (engineConf c2).policiesPath ≠ []) (hl : (engineConf c2).language = .sigma) (hmon : (engineConf c2).monitor = .loc) (hw : 0 < (engineConf c2).concurrency)
    {x : XConfig} (hx : createConfigX W.secrets (xconf c3) = some x) (ho : W.exports x = true) (ht : x.transport = .terminal)
    (hb : Benign W.builtIn W.user) (hd : (createFlattenerConfig (Config.toConf (xconf c1))).1.filterOn = false) (hlib : Json.Spec.LibOk W.L) (hv : Json.Spec.VersionOk (Utf8.bytes m.jsonSchema)) (hn : KindNames W.L)
    {files : List (Monitor.FileEnt Str)} {texts : List Str} {fm : FieldMappings} (h1 : fs (engineConf c2).policiesPath = some files)
    (h2 : PolicyFiles true files texts) (h3 : Configures (cfgAt (engineConf c2).configPath) fm)
    (h4 : ∀ t ∈ texts, ∀ r, parse t = some r → Supported fm r) :
    ∃ (l : Load Factory) (p : SigmaSet W.L parse), loadStages (W.withSigma parse cfgAt fs []).env { regs := bootRegs } (setManifest m env cs) = .done l ∧
      netOf (W.withSigma parse cfgAt fs []).comp (setManifest m env cs) l chanSize = ((W.withSigma parse cfgAt fs []).setup c1 c2 x p).outNet ((W.withSigma parse cfgAt fs []).encode x) Exporter.terminal [] ∧ p.policy = ⟨rulesIn parse texts, fm⟩ ∧
      ∀ (sha : Str → C) (rs : List Rec), OlderParents rs → rs.length ≤ W.fuel →
      ∀ (tr : List (Drain.Obs Msg)) (mo : List (Monitor.Live.Obs Str (SigmaSet W.L parse))) (y : Drain.St (((W.withSigma parse cfgAt fs []).setup c1 c2 x p).outNet ((W.withSigma parse cfgAt fs []).encode x) Exporter.terminal []) × Monitor.Live.LSt Str C (SigmaSet W.L parse)),
        OutReloadRun ((W.withSigma parse cfgAt fs []).setup c1 c2 x p) rfl ((W.withSigma parse cfgAt fs []).encode x) Exporter.terminal [] sha (compileSigma W.L parse (cfgAt (engineConf c2).configPath)) files tr mo y →
        driven tr = rs.map Msg.sf →
          ∃ as ms, SigmaMessages ((W.withSigma parse cfgAt fs []).setup c1 c2 x p) SigmaSet.policy ((W.withSigma parse cfgAt fs []).SigmaMessage SigmaSet.policy c1 c2 x p) (p :: as) (eventsAfter [] rs) ms ∧
            ((W.withSigma parse cfgAt fs []).setup c1 c2 x p).outOf y.1 <+: ms.flatMap (fun l => l ++ [Exporter.newline]) ∧ TakenSoFar mo as ∧
            ∀ q ∈ as, ∃ ts, q.policy = ⟨rulesIn parse ts, fm⟩ ∧ FromHistory (Reload.dirsOf files mo) ts := by
  obtain ⟨l, p, i1, i2, i3, k⟩ := sigma_hot_terminal (C := C) W parse cfgAt fs hm u hparse hp hl hmon hw hx ho ht hb hd hlib hv hn h1 h2 h3 h4
  refine ⟨l, p, i1, i2, i3, fun sha rs hold hfuel tr mo y hrun hdr => ?_⟩
  obtain ⟨as, full, ⟨ms, b1, b2⟩, e2, e3, e4⟩ := moment_of _ (by change 0 < Int.toNat _; omega) (by change 0 < 100000; decide) _ _ _ id (terminal_grows) _
    (R := fun as o => ∃ ms, SigmaMessages ((W.withSigma parse cfgAt fs []).setup c1 c2 x p) SigmaSet.policy ((W.withSigma parse cfgAt fs []).SigmaMessage SigmaSet.policy c1 c2 x p) (p :: as) (eventsAfter [] rs) ms ∧ Printed ms o)
    (H := fun ds q => ∃ ts, q.policy = ⟨rulesIn parse ts, fm⟩ ∧ FromHistory ds ts) (a := rs.map Msg.sf) (fun tr mo y hr hw hdr => by
      obtain ⟨as, ms, q1, q2, q3, q4⟩ := (k sha rs hold hfuel tr mo y hr).1 hw hdr
      exact ⟨as, ⟨ms, q1, q2⟩, q3, q4⟩) hrun hdr
  exact ⟨as, ms, b1, b2.1 ▸ e2, e3, e4⟩

/-- **C128** From the configuration and the policy directory of Sigma rules, through its changes, to syslog, whichever calls fail: at every moment, the lines sent are the first of those that get through of such messages. -/
theorem sigma_syslog_moments {C : Type} [DecidableEq C] (W : World Unit) (parse : Str → Option SigmaRule) (cfgAt : Str → ConfigFile) (fs : Str → Dir) {m : Manifest} {env : List Str}
    {cs : List Pipeline.Conf} {c1 c2 c3 : Pipeline.Conf} {a b d : Str} (hm : setManifest m env cs = [c1, c2, c3]) (u : Usual c1 c2 c3 a b d)
    (hparse : ∀ t r, parse t = some r → (r.searches.map (·.1)).Nodup)
    (hp : (engineConf c2).policiesPath ≠ []) (hl : (engineConf c2).language = .sigma) (hmon : (engineConf c2).monitor = .loc) (hw : 0 < (engineConf c2).concurrency)
    {x : XConfig} (hx : createConfigX W.secrets (xconf c3) = some x) (ho : W.exports x = true) (ht : x.transport = .syslog)
    (hb : Benign W.builtIn W.user) (hd : (createFlattenerConfig (Config.toConf (xconf c1))).1.filterOn = false) (hlib : Json.Spec.LibOk W.L) (hv : Json.Spec.VersionOk (Utf8.bytes m.jsonSchema)) (hn : KindNames W.L)
    {files : List (Monitor.FileEnt Str)} {texts : List Str} {fm : FieldMappings} (h1 : fs (engineConf c2).policiesPath = some files)
    (h2 : PolicyFiles true files texts) (h3 : Configures (cfgAt (engineConf c2).configPath) fm)
    (h4 : ∀ t ∈ texts, ∀ r, parse t = some r → Supported fm r) :
    ∃ (l : Load Factory) (p : SigmaSet W.L parse), loadStages (W.withSigma parse cfgAt fs []).env { regs := bootRegs } (setManifest m env cs) = .done l ∧
      netOf (W.withSigma parse cfgAt fs []).comp (setManifest m env cs) l chanSize = ((W.withSigma parse cfgAt fs []).setup c1 c2 x p).outNet ((W.withSigma parse cfgAt fs []).encode x) (Exporter.syslog W.sends) ([], 0) ∧ p.policy = ⟨rulesIn parse texts, fm⟩ ∧
      ∀ (sha : Str → C) (rs : List Rec), OlderParents rs → rs.length ≤ W.fuel →
      ∀ (tr : List (Drain.Obs Msg)) (mo : List (Monitor.Live.Obs Str (SigmaSet W.L parse))) (y : Drain.St (((W.withSigma parse cfgAt fs []).setup c1 c2 x p).outNet ((W.withSigma parse cfgAt fs []).encode x) (Exporter.syslog W.sends) ([], 0)) × Monitor.Live.LSt Str C (SigmaSet W.L parse)),
        OutReloadRun ((W.withSigma parse cfgAt fs []).setup c1 c2 x p) rfl ((W.withSigma parse cfgAt fs []).encode x) (Exporter.syslog W.sends) ([], 0) sha (compileSigma W.L parse (cfgAt (engineConf c2).configPath)) files tr mo y →
        driven tr = rs.map Msg.sf →
          ∃ as ms lines n, SigmaMessages ((W.withSigma parse cfgAt fs []).setup c1 c2 x p) SigmaSet.policy ((W.withSigma parse cfgAt fs []).SigmaMessage SigmaSet.policy c1 c2 x p) (p :: as) (eventsAfter [] rs) ms ∧
            GetsThrough W.sends x.eventBuffer ms lines n ∧ (((W.withSigma parse cfgAt fs []).setup c1 c2 x p).outOf y.1).1 <+: lines ∧ TakenSoFar mo as ∧
            ∀ q ∈ as, ∃ ts, q.policy = ⟨rulesIn parse ts, fm⟩ ∧ FromHistory (Reload.dirsOf files mo) ts := by
  obtain ⟨l, p, i1, i2, i3, k⟩ := sigma_hot_syslog (C := C) W parse cfgAt fs hm u hparse hp hl hmon hw hx ho ht hb hd hlib hv hn h1 h2 h3 h4
  refine ⟨l, p, i1, i2, i3, fun sha rs hold hfuel tr mo y hrun hdr => ?_⟩
  obtain ⟨as, full, ⟨ms, b1, b2⟩, e2, e3, e4⟩ := moment_of _ (by change 0 < Int.toNat _; omega) (by change 0 < 100000; decide) _ _ _ Prod.fst (fun x ds => syslogExport_grows _ ds x) _
    (R := fun as o => ∃ ms, SigmaMessages ((W.withSigma parse cfgAt fs []).setup c1 c2 x p) SigmaSet.policy ((W.withSigma parse cfgAt fs []).SigmaMessage SigmaSet.policy c1 c2 x p) (p :: as) (eventsAfter [] rs) ms ∧ GetsThrough W.sends x.eventBuffer ms o.1 o.2)
    (H := fun ds q => ∃ ts, q.policy = ⟨rulesIn parse ts, fm⟩ ∧ FromHistory ds ts) (a := rs.map Msg.sf) (fun tr mo y hr hw hdr => by
      obtain ⟨as, ms, q1, q2, q3, q4⟩ := (k sha rs hold hfuel tr mo y hr).1 hw hdr
      exact ⟨as, ⟨ms, q1, q2⟩, q3, q4⟩) hrun hdr
  exact ⟨as, ms, _, _, b1, b2, e2, e3, e4⟩

/-- **C128** From the configuration and the policy directory of Sigma rules, through its changes, to a file, whichever writes are cut short: at every moment, the file holds the beginning of what is kept of such messages. -/
theorem sigma_file_moments {C : Type} [DecidableEq C] (W : World Unit) (parse : Str → Option SigmaRule) (cfgAt : Str → ConfigFile) (fs : Str → Dir) {m : Manifest} {env : List Str}
    {cs : List Pipeline.Conf} {c1 c2 c3 : Pipeline.Conf} {a b d : Str} (hm : setManifest m env cs = [c1, c2, c3]) (u : Usual c1 c2 c3 a b d)
    (hparse : ∀ t r, parse t = some r → (r.searches.map (·.1)).Nodup)
    (hp : (engineConf c2).policiesPath ≠ []) (hl : (engineConf c2).language = .sigma) (hmon : (engineConf c2).monitor = .loc) (hw : 0 < (engineConf c2).concurrency)
    {x : XConfig} (hx : createConfigX W.secrets (xconf c3) = some x) (ho : W.exports x = true) (ht : x.transport = .file)
    (hb : Benign W.builtIn W.user) (hd : (createFlattenerConfig (Config.toConf (xconf c1))).1.filterOn = false) (hlib : Json.Spec.LibOk W.L) (hv : Json.Spec.VersionOk (Utf8.bytes m.jsonSchema)) (hn : KindNames W.L)
    {files : List (Monitor.FileEnt Str)} {texts : List Str} {fm : FieldMappings} (h1 : fs (engineConf c2).policiesPath = some files)
    (h2 : PolicyFiles true files texts) (h3 : Configures (cfgAt (engineConf c2).configPath) fm)
    (h4 : ∀ t ∈ texts, ∀ r, parse t = some r → Supported fm r) :
    ∃ (l : Load Factory) (p : SigmaSet W.L parse), loadStages (W.withSigma parse cfgAt fs []).env { regs := bootRegs } (setManifest m env cs) = .done l ∧
      netOf (W.withSigma parse cfgAt fs []).comp (setManifest m env cs) l chanSize = ((W.withSigma parse cfgAt fs []).setup c1 c2 x p).outNet ((W.withSigma parse cfgAt fs []).encode x) (Exporter.fileTransport W.writes) Exporter.newFile ∧ p.policy = ⟨rulesIn parse texts, fm⟩ ∧
      ∀ (sha : Str → C) (rs : List Rec), OlderParents rs → rs.length ≤ W.fuel →
      ∀ (tr : List (Drain.Obs Msg)) (mo : List (Monitor.Live.Obs Str (SigmaSet W.L parse))) (y : Drain.St (((W.withSigma parse cfgAt fs []).setup c1 c2 x p).outNet ((W.withSigma parse cfgAt fs []).encode x) (Exporter.fileTransport W.writes) Exporter.newFile) × Monitor.Live.LSt Str C (SigmaSet W.L parse)),
        OutReloadRun ((W.withSigma parse cfgAt fs []).setup c1 c2 x p) rfl ((W.withSigma parse cfgAt fs []).encode x) (Exporter.fileTransport W.writes) Exporter.newFile sha (compileSigma W.L parse (cfgAt (engineConf c2).configPath)) files tr mo y →
        driven tr = rs.map Msg.sf →
          ∃ as ms full n fates, SigmaMessages ((W.withSigma parse cfgAt fs []).setup c1 c2 x p) SigmaSet.policy ((W.withSigma parse cfgAt fs []).SigmaMessage SigmaSet.policy c1 c2 x p) (p :: as) (eventsAfter [] rs) ms ∧
            KeptOf W.writes x.eventBuffer ms full n fates ∧ (((W.withSigma parse cfgAt fs []).setup c1 c2 x p).outOf y.1).contents <+: full ∧ TakenSoFar mo as ∧
            ∀ q ∈ as, ∃ ts, q.policy = ⟨rulesIn parse ts, fm⟩ ∧ FromHistory (Reload.dirsOf files mo) ts := by
  obtain ⟨l, p, i1, i2, i3, k⟩ := sigma_hot_file (C := C) W parse cfgAt fs hm u hparse hp hl hmon hw hx ho ht hb hd hlib hv hn h1 h2 h3 h4
  refine ⟨l, p, i1, i2, i3, fun sha rs hold hfuel tr mo y hrun hdr => ?_⟩
  obtain ⟨as, full, ⟨ms, b1, fates, b2⟩, e2, e3, e4⟩ := moment_of _ (by change 0 < Int.toNat _; omega) (by change 0 < 100000; decide) _ _ _ Exporter.OutFile.contents (fun x ds => fileExport_grows _ ds x) _
    (R := fun as o => ∃ ms, SigmaMessages ((W.withSigma parse cfgAt fs []).setup c1 c2 x p) SigmaSet.policy ((W.withSigma parse cfgAt fs []).SigmaMessage SigmaSet.policy c1 c2 x p) (p :: as) (eventsAfter [] rs) ms ∧ ∃ fates, KeptOf W.writes x.eventBuffer ms o.contents o.writes fates)
    (H := fun ds q => ∃ ts, q.policy = ⟨rulesIn parse ts, fm⟩ ∧ FromHistory ds ts) (a := rs.map Msg.sf) (fun tr mo y hr hw hdr => by
      obtain ⟨as, ms, q1, q2, q3, q4⟩ := (k sha rs hold hfuel tr mo y hr).1 hw hdr
      exact ⟨as, ⟨ms, q1, q2⟩, q3, q4⟩) hrun hdr
  exact ⟨as, ms, _, _, fates, b1, b2, e2, e3, e4⟩

/-- **C128** From the configuration and the policy directory, through its changes, to Elastic, whichever calls fail: at every moment, the requests made are the first of those made for documents complete under such policies. -/
theorem elastic_moments {C : Type} [DecidableEq C] (W : World Unit) (fs : Str → Dir) {m : Manifest} {env : List Str} {cs : List Pipeline.Conf} {c1 c2 c3 : Pipeline.Conf} {a b d : Str}
    (hm : setManifest m env cs = [c1, c2, c3]) (u : Usual c1 c2 c3 a b d) (hs : StrRule W.str)
    (hp : (engineConf c2).policiesPath ≠ []) (hl : (engineConf c2).language = .falco) (hmon : (engineConf c2).monitor = .loc) (hw : 0 < (engineConf c2).concurrency)
    {x : XConfig} (hx : createConfigX W.secrets (xconf c3) = some x) (ho : W.connects x = true) (hf : x.format = .ecs) (ht : x.transport = .es)
    (hb : Benign W.builtIn W.user) (hd : (createFlattenerConfig (Config.toConf (xconf c1))).1.filterOn = false) (hlib : Json.Spec.LibOk W.L) (hv : Json.Spec.VersionOk (Utf8.bytes m.jsonSchema)) (hn : KindNames W.L)
    {files : List (Monitor.FileEnt Str)} {texts : List Str} {dss : List (List Decl)} (h1 : fs (engineConf c2).policiesPath = some files)
    (h2 : PolicyFiles true files texts) (h3 : List.Forall₂ (fun s ds => GPolicy (ltokens W.str s) ds) texts dss)
    (h4 : ∀ y ∈ sites dss, ∀ e, siteCond y = some e → ¬ Cyclic y.2 e) :
    ∃ (l : Load Factory) (S : Setup (PolicySet W.L W.str)) (E : EcsSide S) (hp : S.pending = []), loadStages (W.withDirs fs []).env { regs := bootRegs } (setManifest m env cs) = .done l ∧
      netOf (W.withDirs fs []).comp (setManifest m env cs) l chanSize = E.elasticWith W.sends ∧ S.policies.texts = texts ∧ S.policies.decls = dss ∧ S.monitor = true ∧ S.Ok PolicySetOf.decls ∧ KindNames S.L ∧
      S.fuel = W.fuel ∧ S.cap = chanSize ∧ S.buffer = x.eventBuffer ∧
      ∀ (sha : Str → C) (rs : List Rec), OlderParents rs → rs.length ≤ W.fuel →
      ∀ (tr : List (Drain.Obs Msg)) (mo : List (Monitor.Live.Obs Str (PolicySet W.L W.str))) (y : Drain.St (E.elasticWith W.sends) × Monitor.Live.LSt Str C (PolicySet W.L W.str)),
        E.ReloadRun W.sends hp sha (compileRead (flatOps W.L getMappers) W.str) files tr mo y →
        driven tr = rs.map Msg.sf →
          ∃ as docs parts ops n, SentUnder S E PolicySetOf.decls (S.policies :: as) (eventsAfter [] rs) docs ∧ RequestsFor W.sends x.eventBuffer docs ops n parts ∧ (E.bulkOf y.1).ops <+: ops ∧
            TakenSoFar mo as ∧ ∀ p ∈ as, FromHistory (Reload.dirsOf files mo) p.texts := by
  obtain ⟨l, S, E, hpend, i1, i2, i3, i4, i5, ok, i6, i7, i8, i9, k⟩ := hot_reload_elastic (C := C) W fs hm u hs hp hl hmon hw hx ho hf ht hb hd hlib hv hn h1 h2 h3 h4
  refine ⟨l, S, E, hpend, i1, i2, i3, i4, i5, ok, i6, i7, i8, i9, fun sha rs hold hfuel tr mo y hrun hdr => ?_⟩
  obtain ⟨as, full, ⟨docs, parts, b1, b2⟩, e2, e3, e4⟩ := moment_of _ ok.workers ok.cap _ _ _ Exporter.Bulk.ops (fun x ds => elasticExport_grows _ x ds) _
    (R := fun as o => ∃ docs parts, SentUnder S E PolicySetOf.decls (S.policies :: as) (eventsAfter [] rs) docs ∧ RequestsFor W.sends x.eventBuffer docs o.ops o.calls parts)
    (H := fun ds q => FromHistory ds q.texts) (a := rs.map Msg.sf) (fun tr mo y hr hw hdr => by
      obtain ⟨as, docs, parts, q1, q2, q3, q4⟩ := (k sha rs hold hfuel tr mo y hr).1 hw hdr
      exact ⟨as, ⟨docs, parts, q1, q2⟩, q3, q4⟩) hrun hdr
  exact ⟨as, docs, parts, _, _, b1, b2, e2, e3, e4⟩

/-- **C128** The same under Sigma rules. -/
theorem sigma_elastic_moments {C : Type} [DecidableEq C] (W : World Unit) (parse : Str → Option SigmaRule) (cfgAt : Str → ConfigFile) (fs : Str → Dir) {m : Manifest} {env : List Str}
    {cs : List Pipeline.Conf} {c1 c2 c3 : Pipeline.Conf} {a b d : Str} (hm : setManifest m env cs = [c1, c2, c3]) (u : Usual c1 c2 c3 a b d)
    (hparse : ∀ t r, parse t = some r → (r.searches.map (·.1)).Nodup)
    (hp : (engineConf c2).policiesPath ≠ []) (hl : (engineConf c2).language = .sigma) (hmon : (engineConf c2).monitor = .loc) (hw : 0 < (engineConf c2).concurrency)
    {x : XConfig} (hx : createConfigX W.secrets (xconf c3) = some x) (ho : W.connects x = true) (hf : x.format = .ecs) (ht : x.transport = .es)
    (hb : Benign W.builtIn W.user) (hd : (createFlattenerConfig (Config.toConf (xconf c1))).1.filterOn = false) (hlib : Json.Spec.LibOk W.L) (hv : Json.Spec.VersionOk (Utf8.bytes m.jsonSchema)) (hn : KindNames W.L)
    {files : List (Monitor.FileEnt Str)} {texts : List Str} {fm : FieldMappings} (h1 : fs (engineConf c2).policiesPath = some files)
    (h2 : PolicyFiles true files texts) (h3 : Configures (cfgAt (engineConf c2).configPath) fm)
    (h4 : ∀ t ∈ texts, ∀ r, parse t = some r → Supported fm r) :
    ∃ (l : Load Factory) (p : SigmaSet W.L parse), loadStages (W.withSigma parse cfgAt fs []).env { regs := bootRegs } (setManifest m env cs) = .done l ∧
      netOf (W.withSigma parse cfgAt fs []).comp (setManifest m env cs) l chanSize = ((W.withSigma parse cfgAt fs []).ecsSide c1 c2 x p).elasticWith W.sends ∧ p.policy = ⟨rulesIn parse texts, fm⟩ ∧
      ∀ (sha : Str → C) (rs : List Rec), OlderParents rs → rs.length ≤ W.fuel →
      ∀ (tr : List (Drain.Obs Msg)) (mo : List (Monitor.Live.Obs Str (SigmaSet W.L parse))) (y : Drain.St (((W.withSigma parse cfgAt fs []).ecsSide c1 c2 x p).elasticWith W.sends) × Monitor.Live.LSt Str C (SigmaSet W.L parse)),
        ((W.withSigma parse cfgAt fs []).ecsSide c1 c2 x p).ReloadRun W.sends rfl sha (compileSigma W.L parse (cfgAt (engineConf c2).configPath)) files tr mo y →
        driven tr = rs.map Msg.sf →
          ∃ as docs parts ops n, SigmaSent ((W.withSigma parse cfgAt fs []).setup c1 c2 x p) ((W.withSigma parse cfgAt fs []).ecsSide c1 c2 x p) SigmaSet.policy (p :: as) (eventsAfter [] rs) docs ∧
            RequestsFor W.sends x.eventBuffer docs ops n parts ∧ (((W.withSigma parse cfgAt fs []).ecsSide c1 c2 x p).bulkOf y.1).ops <+: ops ∧ TakenSoFar mo as ∧
            ∀ q ∈ as, ∃ ts, q.policy = ⟨rulesIn parse ts, fm⟩ ∧ FromHistory (Reload.dirsOf files mo) ts := by
  obtain ⟨l, p, i1, i2, i3, k⟩ := sigma_hot_elastic (C := C) W parse cfgAt fs hm u hparse hp hl hmon hw hx ho hf ht hb hd hlib hv hn h1 h2 h3 h4
  refine ⟨l, p, i1, i2, i3, fun sha rs hold hfuel tr mo y hrun hdr => ?_⟩
  obtain ⟨as, full, ⟨docs, parts, b1, b2⟩, e2, e3, e4⟩ := moment_of _ (by change 0 < Int.toNat _; omega) (by change 0 < 100000; decide) _ _ _ Exporter.Bulk.ops (fun x ds => elasticExport_grows _ x ds) _
    (R := fun as o => ∃ docs parts, SigmaSent ((W.withSigma parse cfgAt fs []).setup c1 c2 x p) ((W.withSigma parse cfgAt fs []).ecsSide c1 c2 x p) SigmaSet.policy (p :: as) (eventsAfter [] rs) docs ∧ RequestsFor W.sends x.eventBuffer docs o.ops o.calls parts)
    (H := fun ds q => ∃ ts, q.policy = ⟨rulesIn parse ts, fm⟩ ∧ FromHistory ds ts) (a := rs.map Msg.sf) (fun tr mo y hr hw hdr => by
      obtain ⟨as, docs, parts, q1, q2, q3, q4⟩ := (k sha rs hold hfuel tr mo y hr).1 hw hdr
      exact ⟨as, ⟨docs, parts, q1, q2⟩, q3, q4⟩) hrun hdr
  exact ⟨as, docs, parts, _, _, b1, b2, e2, e3, e4⟩

/-- **C128** From the configuration and the policy directory, through its changes, to the log: at every moment, it is the beginning of a log that is complete under such policies. -/
theorem log_moments {C : Type} [DecidableEq C] (W : World Unit) (fs : Str → Dir) {m : Manifest} {env : List Str} {cs : List Pipeline.Conf} {c1 c2 c3 : Pipeline.Conf} {a b d : Str}
    (hm : setManifest m env cs = [c1, c2, c3]) (u : Usual c1 c2 c3 a b d) (hs : StrRule W.str)
    (hp : (engineConf c2).policiesPath ≠ []) (hl : (engineConf c2).language = .falco) (hmon : (engineConf c2).monitor = .loc) (hw : 0 < (engineConf c2).concurrency)
    {x : XConfig} (hx : createConfigX W.secrets (xconf c3) = some x) (ho : W.opens x.path = true) (hf : x.format = .json) (ht : x.transport = .file) (hwr : ∀ k, W.writes k = none)
    (hb : Benign W.builtIn W.user) (hd : (createFlattenerConfig (Config.toConf (xconf c1))).1.filterOn = false) (hlib : Json.Spec.LibOk W.L) (hv : Json.Spec.VersionOk (Utf8.bytes m.jsonSchema))
    {files : List (Monitor.FileEnt Str)} {texts : List Str} {dss : List (List Decl)} (h1 : fs (engineConf c2).policiesPath = some files)
    (h2 : PolicyFiles true files texts) (h3 : List.Forall₂ (fun s ds => GPolicy (ltokens W.str s) ds) texts dss)
    (h4 : ∀ y ∈ sites dss, ∀ e, siteCond y = some e → ¬ Cyclic y.2 e) :
    ∃ (l : Load Factory) (S : Setup (PolicySet W.L W.str)) (hp : S.pending = []), loadStages (W.withDirs fs []).env { regs := bootRegs } (setManifest m env cs) = .done l ∧
      netOf (W.withDirs fs []).comp (setManifest m env cs) l chanSize = S.net ∧ S.policies.texts = texts ∧ S.policies.decls = dss ∧ S.monitor = true ∧ S.Ok PolicySetOf.decls ∧ S.fuel = W.fuel ∧ S.cap = chanSize ∧
      ∀ (sha : Str → C) (rs : List Rec), OlderParents rs → rs.length ≤ W.fuel →
      ∀ (tr : List (Drain.Obs Msg)) (mo : List (Monitor.Live.Obs Str (PolicySet W.L W.str))) (y : Drain.St S.net × Monitor.Live.LSt Str C (PolicySet W.L W.str)),
        ReloadRun S hp sha (compileRead (flatOps W.L getMappers) W.str) files tr mo y →
        driven tr = rs.map Msg.sf →
          ∃ as full, LoggedUnder S PolicySetOf.decls (S.policies :: as) rs full ∧ S.log y.1 <+: full ∧ TakenSoFar mo as ∧ ∀ p ∈ as, FromHistory (Reload.dirsOf files mo) p.texts := by
  obtain ⟨l, S, hpend, i1, i2, i3, i4, i5, ok, i6, i7, k⟩ := hot_reload (C := C) W fs hm u hs hp hl hmon hw hx ho hf ht hwr hb hd hlib hv h1 h2 h3 h4
  refine ⟨l, S, hpend, i1, i2, i3, i4, i5, ok, i6, i7, fun sha rs hold hfuel tr mo y hrun hdr => ?_⟩
  obtain ⟨as, full, b1, e2, e3, e4⟩ := moment_of _ ok.workers ok.cap _ _ _ Exporter.OutFile.contents (fun x ds => fileExport_grows _ ds x) _
    (R := fun as o => LoggedUnder S PolicySetOf.decls (S.policies :: as) rs o.contents)
    (H := fun ds q => FromHistory ds q.texts) (a := rs.map Msg.sf) (fun tr mo y hr hw hdr => by
      obtain ⟨as, q1, q3, q4⟩ := (k sha rs hold hfuel tr mo y hr).1 hw hdr
      exact ⟨as, q1, q3, q4⟩) hrun hdr
  exact ⟨as, _, b1, e2, e3, e4⟩

end Verif.Whole

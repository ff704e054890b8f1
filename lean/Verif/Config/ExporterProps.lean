import Verif.Config.Exporter
import Verif.Config.Props
/-! C73 (the exporter's configuration in full: credentials, vault, Elastic and Kafka settings) and
C74 (the OTel Kafka driver's configuration). -/
namespace Verif.Config
open Verif.Decimal

/-! ### specification -/

/-- The vault is switched on: the text `true`, exactly. -/
def VaultOn (conf : XConf) : Prop := conf.str? "vault.secrets" = some "true".toList

/-- Elastic is the chosen transport. -/
def ToElastic (conf : XConf) : Prop := conf.str? "export" = some "es".toList

/-- What the vault holds under a name: base64-decoded exactly when `vault.encoding` is `base64`. -/
def VaultHolds (conf : XConf) (s : Secrets) (key : Str) (v : Str) : Prop :=
  (conf.str? "vault.encoding" = some "base64".toList → s.getDecoded key = some v) ∧
  (conf.str? "vault.encoding" ≠ some "base64".toList → s.get key = some v)

/-- A credential that can be supplied: configured, or not wanted from the vault, or held there. -/
def CredentialOK (env : ConfEnv) (conf : XConf) (key : String) : Prop :=
  conf.str? key = none → VaultOn conf → ToElastic conf →
    ∃ s v, env.openVault (conf.str? "vault.path") = some s ∧ VaultHolds conf s key.toList v

/-- A numeric attribute is absent or a decimal integer in range. -/
def NumberOK (conf : XConf) (key : String) : Prop := ∀ v, conf.str? key = some v → (parseInt v).2 = true

/-- A Kafka section that names its brokers. -/
def BrokersGiven (conf : XConf) : Prop :=
  ∃ entries, conf "kafka.config".toList = some (.map entries) ∧ "bootstrap.servers".toList ∈ entries.map (·.1)

/-- What an exporter configuration must contain. -/
structure ConfAccepted (env : ConfEnv) (conf : XConf) : Prop where
  vault : VaultOn conf → (env.openVault (conf.str? "vault.path")).isSome = true
  buffer : NumberOK conf "buffer"
  port : NumberOK conf "syslog.port"
  user : CredentialOK env conf "es.username"
  pass : CredentialOK env conf "es.password"
  workers : NumberOK conf "es.bulk.numWorkers"
  fbuffer : NumberOK conf "es.bulk.flushBuffer"
  timeout : ∀ v, conf.str? "es.bulk.flushTimeout" = some v → (env.parseDuration v).isSome = true
  brokers : BrokersGiven conf
  topic : ∃ t, conf.str? "kafka.topic" = some t

/-- The credential the exporter uses is the configured one; else the vault's, if switched on and
Elastic is the transport; else empty. -/
structure CredentialIs (env : ConfEnv) (conf : XConf) (key : String) (c : Str) : Prop where
  configured : ∀ v, conf.str? key = some v → c = v
  fromVault : conf.str? key = none → VaultOn conf → ToElastic conf →
    ∃ s, env.openVault (conf.str? "vault.path") = some s ∧ VaultHolds conf s key.toList c
  absent : conf.str? key = none → ¬ (VaultOn conf ∧ ToElastic conf) → c = []

/-- A numeric setting: the number written, or the default. -/
def NumberIs (conf : XConf) (key : String) (dflt n : Int) : Prop :=
  (conf.str? key = none → n = dflt) ∧ (∀ v, conf.str? key = some v → parseInt v = (n, true))

/-- The pieces of a comma-separated text. -/
def CommaPieces (s : Str) (ps : List Str) : Prop :=
  ps ≠ [] ∧ (∀ p ∈ ps, ',' ∉ p) ∧ List.intercalate [','] ps = s

/-- Kafka settings: each configured entry overrides, the rest keep the given defaults. -/
def SettingsAre (conf : XConf) (dflt : List (String × String)) (m : KafkaMap) : Prop :=
  ∀ entries, conf "kafka.config".toList = some (.map entries) → (entries.map (·.1)).Nodup →
    (∀ k v, (k, v) ∈ entries → m k = some v) ∧
    (∀ k d, (k, d) ∈ dflt → k.toList ∉ entries.map (·.1) → m k.toList = some (.str d.toList)) ∧
    (∀ k, k ∉ entries.map (·.1) → k ∉ dflt.map (·.1.toList) → m k = none)

/-! ### lemmas -/

theorem parseVaultEncoding_base64 (v : Str) : parseVaultEncoding v = .base64 ↔ v = "base64".toList := by
  unfold parseVaultEncoding
  split
  · rename_i h; subst h; decide
  · split
    · rename_i h; simp [← h]
    · rename_i h; simp; exact fun e => h e.symm

theorem parseKEncoding_json (v : Str) : parseKEncoding v = .json ↔ v = "json".toList := by
  unfold parseKEncoding
  split
  · rename_i h; subst h; decide
  · split
    · rename_i h; simp [← h]
    · rename_i h; simp; exact fun e => h e.symm

theorem parseProto_names (s : Str) : (parseProto s = .tls ↔ s = "tls".toList) ∧ (parseProto s = .udp ↔ s = "udp".toList) := by
  unfold parseProto
  split
  · rename_i h; subst h; decide
  split
  · rename_i h; subst h; decide
  split
  · rename_i h; subst h; decide
  · rename_i h2 h3; simp only [reduceCtorEq, false_iff]; exact ⟨h2, h3⟩

theorem parseFormat_names (s : Str) : (parseFormat s = .ecs ↔ s = "ecs".toList) ∧ (parseFormat s = .otel ↔ s = "otel".toList) := by
  unfold parseFormat
  split
  · rename_i h; subst h; decide
  split
  · rename_i h; subst h; decide
  split
  · rename_i h; subst h; decide
  · rename_i h2 h3; simp only [reduceCtorEq, false_iff]; exact ⟨h2, h3⟩

theorem splitComma_spec (s : Str) : CommaPieces s (splitComma s) := by
  induction s with
  | nil => exact ⟨by simp [splitComma], by simp [splitComma], by simp [splitComma]⟩
  | cons c cs ih =>
    obtain ⟨h1, h2, h3⟩ := ih
    unfold splitComma
    by_cases hc : c = ','
    · rw [if_pos hc]
      refine ⟨by simp, ?_, ?_⟩
      · intro p hp
        rcases List.mem_cons.1 hp with rfl | hp
        · simp
        · exact h2 p hp
      · cases hs : splitComma cs with
        | nil => exact absurd hs h1
        | cons q qs =>
          rw [hs] at h3
          rw [List.intercalate_cons_cons, h3, hc]; rfl
    · rw [if_neg hc]
      cases hs : splitComma cs with
      | nil => exact absurd hs h1
      | cons q qs =>
        rw [hs] at h3 h2
        dsimp only
        refine ⟨by simp, ?_, ?_⟩
        · intro p hp
          rcases List.mem_cons.1 hp with rfl | hp
          · have := h2 q (by simp)
            simp only [List.mem_cons, not_or]
            exact ⟨fun e => hc e.symm, this⟩
          · exact h2 p (by simp [hp])
        · cases qs with
          | nil => simpa using h3
          | cons r rs =>
            rw [List.intercalate_cons_cons] at h3 ⊢
            rw [← h3]; rfl

theorem CommaPieces.unique : ∀ (ps qs : List Str) (s : Str), CommaPieces s ps → CommaPieces s qs → ps = qs := by
  have key : ∀ (ps : List Str) (p : Str), ',' ∉ p → ∀ (qs : List Str) (q : Str), ',' ∉ q → (∀ x ∈ ps, ',' ∉ x) → (∀ x ∈ qs, ',' ∉ x) →
      List.intercalate [','] (p :: ps) = List.intercalate [','] (q :: qs) → p = q ∧ ps = qs := by
    have pre : ∀ (p q a b : Str), ',' ∉ p → ',' ∉ q → p ++ ',' :: a = q ++ ',' :: b → p = q ∧ a = b := by
      intro p
      induction p with
      | nil =>
        intro q a b _ hq h
        cases q with
        | nil => simp only [List.nil_append, List.cons.injEq, true_and] at h; exact ⟨rfl, h⟩
        | cons x xs =>
          simp only [List.nil_append, List.cons_append, List.cons.injEq] at h
          exact absurd (by rw [← h.1]; simp) hq
      | cons x xs ih =>
        intro q a b hp hq h
        cases q with
        | nil =>
          simp only [List.nil_append, List.cons_append, List.cons.injEq] at h
          exact absurd (by simp [h.1]) hp
        | cons y ys =>
          simp only [List.cons_append, List.cons.injEq] at h
          simp only [List.mem_cons, not_or] at hp hq
          obtain ⟨e1, e2⟩ := ih ys a b hp.2 hq.2 h.2
          exact ⟨by rw [h.1, e1], e2⟩
    intro ps
    induction ps with
    | nil =>
      intro p hp qs q hq _ _ h
      cases qs with
      | nil => simpa using h
      | cons r rs =>
        rw [List.intercalate_cons_cons, List.intercalate_singleton] at h
        exact absurd (by rw [h]; simp) hp
    | cons p2 ps ih =>
      intro p hp qs q hq hps hqs h
      cases qs with
      | nil =>
        rw [List.intercalate_cons_cons, List.intercalate_singleton] at h
        exact absurd (by rw [← h]; simp) hq
      | cons r rs =>
        rw [List.intercalate_cons_cons, List.intercalate_cons_cons, List.append_assoc, List.append_assoc] at h
        obtain ⟨e1, e2⟩ := pre _ _ _ _ hp hq h
        obtain ⟨e3, e4⟩ := ih p2 (hps p2 (by simp)) rs r (hqs r (by simp)) (fun x hx => hps x (by simp [hx])) (fun x hx => hqs x (by simp [hx])) e2
        exact ⟨e1, by rw [e3, e4]⟩
  intro ps qs s hp hq
  obtain ⟨p1, p2, p3⟩ := hp
  obtain ⟨q1, q2, q3⟩ := hq
  cases ps with
  | nil => exact absurd rfl p1
  | cons p ps =>
    cases qs with
    | nil => exact absurd rfl q1
    | cons q qs =>
      obtain ⟨e1, e2⟩ := key ps p (p2 p (by simp)) qs q (q2 q (by simp)) (fun x hx => p2 x (by simp [hx])) (fun x hx => q2 x (by simp [hx])) (by rw [p3, q3])
      rw [e1, e2]

theorem setAll_notin (entries : List (Str × KVal)) : ∀ (m : KafkaMap) (k : Str), k ∉ entries.map (·.1) → m.setAll entries k = m k := by
  induction entries with
  | nil => intro m k _; rfl
  | cons e es ih =>
    obtain ⟨k', v⟩ := e
    intro m k hk
    simp only [List.map_cons, List.mem_cons, not_or] at hk
    show KafkaMap.setAll (m.setKey k' v) es k = m k
    rw [ih _ _ hk.2]
    simp [KafkaMap.setKey, hk.1]

theorem setAll_in (entries : List (Str × KVal)) : ∀ (m : KafkaMap) (k : Str) (v : KVal), (entries.map (·.1)).Nodup →
    (k, v) ∈ entries → m.setAll entries k = some v := by
  induction entries with
  | nil => intro m k v _ h; cases h
  | cons e es ih =>
    obtain ⟨k', v'⟩ := e
    intro m k v hn hk
    simp only [List.map_cons, List.nodup_cons] at hn
    show KafkaMap.setAll (m.setKey k' v') es k = some v
    rcases List.mem_cons.1 hk with h | h
    · cases h
      rw [setAll_notin _ _ _ hn.1]; simp [KafkaMap.setKey]
    · exact ih _ _ _ hn.2 h

theorem setAll_isSome (entries : List (Str × KVal)) : ∀ (m : KafkaMap) (k : Str), m k = none →
    ((∃ v, m.setAll entries k = some v) ↔ k ∈ entries.map (·.1)) := by
  have keep : ∀ (entries : List (Str × KVal)) (m : KafkaMap) (k : Str), (∃ v, m k = some v) → ∃ v, m.setAll entries k = some v := by
    intro entries
    induction entries with
    | nil => intro m k h; exact h
    | cons e es ih =>
      obtain ⟨k', v'⟩ := e
      intro m k ⟨v, hv⟩
      refine ih _ _ ?_
      by_cases he : k = k'
      · exact ⟨v', by simp [KafkaMap.setKey, he]⟩
      · exact ⟨v, by simp [KafkaMap.setKey, he, hv]⟩
  intro m k hm
  constructor
  · rintro ⟨v, hv⟩
    by_cases hk : k ∈ entries.map (·.1)
    · exact hk
    · rw [setAll_notin _ _ _ hk, hm] at hv; cases hv
  · intro hk
    induction entries generalizing m with
    | nil => cases hk
    | cons e es ih =>
      obtain ⟨k', v'⟩ := e
      show ∃ v, KafkaMap.setAll (m.setKey k' v') es k = some v
      by_cases he : k = k'
      · exact keep es _ _ ⟨v', by simp [KafkaMap.setKey, he]⟩
      · refine ih _ (by simp [KafkaMap.setKey, he, hm]) ?_
        rcases List.mem_cons.1 hk with h | h
        · exact absurd h he
        · exact h

theorem number_some (o : Option Str) (d : Int) : (number o d).isSome = true ↔ ∀ v, o = some v → (parseInt v).2 = true := by
  cases o with
  | none => simp [number]
  | some s => cases h : (parseInt s).2 <;> simp [number, h]

theorem number_is (o : Option Str) (d n : Int) (h : number o d = some n) :
    (o = none → n = d) ∧ (∀ v, o = some v → parseInt v = (n, true)) := by
  cases o with
  | none => simp only [number, Option.some.injEq] at h; simp [h]
  | some s =>
    cases hs : (parseInt s).2 with
    | false => simp [number, hs] at h
    | true =>
      simp only [number, hs, if_true, Option.some.injEq] at h
      refine ⟨by simp, fun v hv => ?_⟩
      cases hv
      exact Prod.ext h hs

theorem transport_es (conf : XConf) : setOr (conf.str? "export") parseTransport .terminal = .es ↔ ToElastic conf := by
  unfold ToElastic
  cases conf.str? "export" with
  | none => simp [setOr]
  | some v => simp [setOr, (transport_names v).2.2.1]

theorem vault_off (env : ConfEnv) (conf : XConf) (h : ¬ VaultOn conf) : createVault env conf = some .disabled := by
  unfold createVault
  unfold VaultOn at h
  cases hv : conf.str? "vault.secrets" with
  | none => rfl
  | some v =>
    have hne : v ≠ "true".toList := fun e => h (by rw [hv, e])
    simp only [if_neg hne]

theorem vault_on (env : ConfEnv) (conf : XConf) (h : VaultOn conf) : createVault env conf =
    (env.openVault (conf.str? "vault.path")).map
      (fun s => VaultC.enabled (setOr (conf.str? "vault.encoding") parseVaultEncoding .none) s) := by
  unfold createVault
  unfold VaultOn at h
  rw [h]
  dsimp only
  rw [if_pos rfl]
  cases env.openVault (conf.str? "vault.path") <;> rfl

theorem getSecret_holds (conf : XConf) (s : Secrets) (key v : Str) :
    getSecret (setOr (conf.str? "vault.encoding") parseVaultEncoding .none) s key = some v ↔ VaultHolds conf s key v := by
  unfold VaultHolds
  have : setOr (conf.str? "vault.encoding") parseVaultEncoding .none = .base64 ↔ conf.str? "vault.encoding" = some "base64".toList := by
    cases conf.str? "vault.encoding" with
    | none => simp [setOr]
    | some w => simp [setOr, parseVaultEncoding_base64]
  cases he : setOr (conf.str? "vault.encoding") parseVaultEncoding .none with
  | none =>
    rw [he] at this
    have hn : conf.str? "vault.encoding" ≠ some "base64".toList := fun e => by cases this.2 e
    exact ⟨fun h => ⟨fun e => absurd e hn, fun _ => h⟩, fun h => h.2 hn⟩
  | base64 =>
    have hn := this.1 he
    exact ⟨fun h => ⟨fun _ => h, fun e => absurd hn e⟩, fun h => h.1 hn⟩

theorem credential_some (env : ConfEnv) (conf : XConf) (vault : VaultC) (hv : createVault env conf = some vault) (key : String) :
    (credential conf vault (setOr (conf.str? "export") parseTransport .terminal) key).isSome = true ↔ CredentialOK env conf key := by
  unfold credential CredentialOK
  cases hk : conf.str? key with
  | some v => simp
  | none =>
    by_cases hon : VaultOn conf
    · rw [vault_on env conf hon] at hv
      cases ho : env.openVault (conf.str? "vault.path") with
      | none => rw [ho] at hv; cases hv
      | some s =>
        rw [ho] at hv
        simp only [Option.map_some, Option.some.injEq] at hv
        subst hv
        dsimp only
        by_cases hes : ToElastic conf
        · rw [if_pos ((transport_es conf).2 hes), Option.isSome_iff_exists]
          constructor
          · rintro ⟨v, hv⟩ _ _ _
            exact ⟨s, v, rfl, (getSecret_holds conf s _ v).1 hv⟩
          · intro h
            obtain ⟨s', v, h1, h2⟩ := h rfl hon hes
            cases h1
            exact ⟨v, (getSecret_holds conf s _ v).2 h2⟩
        · rw [if_neg (fun e => hes ((transport_es conf).1 e))]
          simp [hes]
    · rw [vault_off env conf hon] at hv
      cases hv
      simp [hon]

theorem credential_is (env : ConfEnv) (conf : XConf) (vault : VaultC) (hv : createVault env conf = some vault) (key : String) (c : Str)
    (h : credential conf vault (setOr (conf.str? "export") parseTransport .terminal) key = some c) : CredentialIs env conf key c := by
  unfold credential at h
  cases hk : conf.str? key with
  | some v =>
    rw [hk] at h
    simp only [Option.some.injEq] at h
    exact ⟨fun w hw => by rw [hk] at hw; cases hw; exact h.symm, fun e => by simp [hk] at e, fun e => by simp [hk] at e⟩
  | none =>
    rw [hk] at h
    refine ⟨fun w hw => by simp [hk] at hw, fun _ hon hes => ?_, fun _ hno => ?_⟩
    · rw [vault_on env conf hon] at hv
      cases ho : env.openVault (conf.str? "vault.path") with
      | none => rw [ho] at hv; cases hv
      | some s =>
        rw [ho] at hv
        simp only [Option.map_some, Option.some.injEq] at hv
        subst hv
        dsimp only at h
        rw [if_pos ((transport_es conf).2 hes)] at h
        exact ⟨s, rfl, (getSecret_holds conf s _ c).1 h⟩
    · by_cases hon : VaultOn conf
      · have hes : ¬ ToElastic conf := fun e => hno ⟨hon, e⟩
        rw [vault_on env conf hon] at hv
        cases ho : env.openVault (conf.str? "vault.path") with
        | none => rw [ho] at hv; cases hv
        | some s =>
          rw [ho] at hv
          simp only [Option.map_some, Option.some.injEq] at hv
          subst hv
          dsimp only at h
          rw [if_neg (fun e => hes ((transport_es conf).1 e))] at h
          simpa using h.symm
      · rw [vault_off env conf hon] at hv
        cases hv
        simpa using h.symm

theorem createKafkaX_some (conf : XConf) : (createKafkaX conf).isSome = true ↔ BrokersGiven conf ∧ ∃ t, conf.str? "kafka.topic" = some t := by
  have hd : producerDefaults "bootstrap.servers".toList = none := by decide
  unfold createKafkaX BrokersGiven
  generalize conf.str? "kafka.topic" = tp
  generalize conf.str? "kafka.encoding" = ke
  cases hc : conf "kafka.config".toList with
  | none => simp
  | some v =>
    cases v with
    | map entries =>
      dsimp only
      have hs := setAll_isSome entries producerDefaults _ hd
      cases hm : producerDefaults.setAll entries "bootstrap.servers".toList with
      | none =>
        rw [hm] at hs
        have hn : "bootstrap.servers".toList ∉ entries.map (·.1) := fun h => by
          obtain ⟨v, e⟩ := hs.2 h; cases e
        constructor
        · simp
        · rintro ⟨⟨e, he, h⟩, -⟩
          cases he
          exact absurd h hn
      | some w =>
        have hy := hs.1 ⟨w, hm⟩
        cases tp with
        | none => simp
        | some t => simp only [Option.isSome_some, true_iff]; exact ⟨⟨entries, rfl, hy⟩, t, rfl⟩
    | _ => simp

theorem producerDefaults_spec (k : Str) : producerDefaults k =
    if k = "acks".toList then some (.str "all".toList)
    else if k = "client.id".toList then some (.str "sfprocessor-otel-kafka-exporter".toList) else none := rfl

theorem consumerDefaults_spec (k : Str) : consumerDefaults k =
    if k = "auto.offset.reset".toList then some (.str "earliest".toList)
    else if k = "group.id".toList then some (.str "sfprocessor-otel-kafka-driver".toList) else none := rfl

theorem settings_of_setAll (conf : XConf) (entries0 : List (Str × KVal)) (h0 : conf "kafka.config".toList = some (.map entries0))
    (base : KafkaMap) (dflt : List (String × String))
    (hd : ∀ k d, (k, d) ∈ dflt → base k.toList = some (.str d.toList)) (hn : ∀ k, k ∉ dflt.map (·.1.toList) → base k = none) :
    SettingsAre conf dflt (base.setAll entries0) := by
  intro entries he hnd
  rw [h0] at he
  simp only [Option.some.injEq, XVal.map.injEq] at he
  subst he
  refine ⟨fun k v hk => setAll_in _ _ _ _ hnd hk, fun k d hkd hk => ?_, fun k hk hkd => ?_⟩
  · rw [setAll_notin _ _ _ hk]; exact hd k d hkd
  · rw [setAll_notin _ _ _ hk]; exact hn k hkd

/-! ### C73 -/

/-- **C73** The exporter's configuration is accepted exactly when: the vault opens if it is switched
on, the numbers and the duration are well formed, every credential wanted from the vault is there, and
a Kafka section with brokers and topic is present (whatever the transport). -/
theorem exporter_accepts_iff (env : ConfEnv) (conf : XConf) :
    (createConfigX env conf).isSome = true ↔ ConfAccepted env conf := by
  have hsy : (createSyslogX conf).isSome = true ↔ NumberOK conf "syslog.port" := by
    have := number_some (conf.str? "syslog.port") 514
    unfold createSyslogX NumberOK
    rw [← this]
    dsimp only
    cases number (conf.str? "syslog.port") 514 <;> simp
  have hbuf := number_some (conf.str? "buffer") 0
  have hk := createKafkaX_some conf
  have hel : ∀ vault, createVault env conf = some vault →
      ((createElasticX env conf vault (setOr (conf.str? "export") parseTransport .terminal)).isSome = true ↔
        CredentialOK env conf "es.username" ∧ CredentialOK env conf "es.password" ∧ NumberOK conf "es.bulk.numWorkers" ∧
        NumberOK conf "es.bulk.flushBuffer" ∧ ∀ v, conf.str? "es.bulk.flushTimeout" = some v → (env.parseDuration v).isSome = true) := by
    intro vault hv
    have h1 := credential_some env conf vault hv "es.username"
    have h2 := credential_some env conf vault hv "es.password"
    have h3 := number_some (conf.str? "es.bulk.numWorkers") 0
    have h4 := number_some (conf.str? "es.bulk.flushBuffer") 5000000
    have h5 : (duration env (conf.str? "es.bulk.flushTimeout") 30000000000).isSome = true ↔
        ∀ v, conf.str? "es.bulk.flushTimeout" = some v → (env.parseDuration v).isSome = true := by
      cases conf.str? "es.bulk.flushTimeout" <;> simp [duration]
    unfold NumberOK
    rw [← h1, ← h2, ← h3, ← h4, ← h5]
    unfold createElasticX
    dsimp only
    cases credential conf vault (setOr (conf.str? "export") parseTransport .terminal) "es.username" with
    | none => simp
    | some a =>
      cases credential conf vault (setOr (conf.str? "export") parseTransport .terminal) "es.password" with
      | none => simp
      | some b =>
        cases number (conf.str? "es.bulk.numWorkers") 0 with
        | none => simp
        | some c =>
          cases number (conf.str? "es.bulk.flushBuffer") 5000000 with
          | none => simp
          | some d =>
            cases duration env (conf.str? "es.bulk.flushTimeout") 30000000000 with
            | none => simp
            | some e => simp
  have hvs : (createVault env conf).isSome = true ↔ (VaultOn conf → (env.openVault (conf.str? "vault.path")).isSome = true) := by
    by_cases hon : VaultOn conf
    · rw [vault_on env conf hon]; simp [hon]
    · rw [vault_off env conf hon]; simp [hon]
  unfold createConfigX
  cases hv : createVault env conf with
  | none =>
    rw [hv] at hvs
    simp only [Option.isSome_none, Bool.false_eq_true, false_iff] at hvs ⊢
    exact fun h => hvs h.vault
  | some vault =>
    rw [hv] at hvs
    have hvv := hvs.1 rfl
    have hel := hel vault hv
    dsimp only
    cases hb : number (conf.str? "buffer") 0 with
    | none =>
      rw [hb] at hbuf
      simp only [Option.isSome_none, Bool.false_eq_true, false_iff] at hbuf ⊢
      exact fun h => hbuf h.buffer
    | some b =>
      rw [hb] at hbuf
      cases hs : createSyslogX conf with
      | none =>
        rw [hs] at hsy
        simp only [Option.isSome_none, Bool.false_eq_true, false_iff] at hsy ⊢
        exact fun h => hsy h.port
      | some sl =>
        rw [hs] at hsy
        cases he : createElasticX env conf vault (setOr (conf.str? "export") parseTransport .terminal) with
        | none =>
          rw [he] at hel
          simp only [Option.isSome_none, Bool.false_eq_true, false_iff] at hel ⊢
          exact fun h => hel ⟨h.user, h.pass, h.workers, h.fbuffer, h.timeout⟩
        | some es =>
          rw [he] at hel
          obtain ⟨e1, e2, e3, e4, e5⟩ := hel.1 rfl
          cases hkk : createKafkaX conf with
          | none =>
            rw [hkk] at hk
            simp only [Option.isSome_none, Bool.false_eq_true, false_iff] at hk ⊢
            exact fun h => hk ⟨h.brokers, h.topic⟩
          | some k =>
            rw [hkk] at hk
            obtain ⟨k1, k2⟩ := hk.1 rfl
            simp only [Option.isSome_some, true_iff]
            exact ⟨hvv, hbuf.1 rfl, hsy.1 rfl, e1, e2, e3, e4, e5, k1, k2⟩

/-- What an accepted configuration sets, attribute by attribute. -/
structure ConfigIs (env : ConfEnv) (conf : XConf) (c : XConfig) : Prop where
  file : (c.transport = .file ↔ conf.str? "export" = some "file".toList)
  syslog : (c.transport = .syslog ↔ conf.str? "export" = some "syslog".toList)
  es : (c.transport = .es ↔ conf.str? "export" = some "es".toList)
  kafka : (c.transport = .kafka ↔ conf.str? "export" = some "kafka".toList)
  null : (c.transport = .null ↔ conf.str? "export" = some "null".toList)
  ecs : (c.format = .ecs ↔ conf.str? "format" = some "ecs".toList)
  otel : (c.format = .otel ↔ conf.str? "format" = some "otel".toList)
  buffer : NumberIs conf "buffer" 0 c.eventBuffer
  vaultOn : (c.vaultEnabled = true ↔ VaultOn conf)
  vaultEnc : (c.vaultEncoding = .base64 ↔ VaultOn conf ∧ conf.str? "vault.encoding" = some "base64".toList)
  version : c.version = (conf.str? "version").getD []
  jsonVersion : c.jsonSchemaVersion = (conf.str? "jsonschemaversion").getD []
  ecsVersion : c.ecsVersion = (conf.str? "ecsversion").getD []
  build : c.buildNumber = (conf.str? "buildnumber").getD []
  cluster : c.clusterID = (conf.str? "cluster.id").getD []
  path : c.path = (conf.str? "file.path").getD "./export.out".toList
  tls : (c.syslog.proto = .tls ↔ conf.str? "syslog.proto" = some "tls".toList)
  udp : (c.syslog.proto = .udp ↔ conf.str? "syslog.proto" = some "udp".toList)
  tag : c.syslog.tag = (conf.str? "syslog.tag").getD "sysflow".toList
  source : c.syslog.logSource = (conf.str? "syslog.source").getD []
  host : c.syslog.host = (conf.str? "syslog.host").getD "localhost".toList
  port : NumberIs conf "syslog.port" 514 c.syslog.port
  addresses : (conf.str? "es.addresses" = none → c.es.addresses = []) ∧ ∀ v, conf.str? "es.addresses" = some v → CommaPieces v c.es.addresses
  index : c.es.index = (conf.str? "es.index").getD []
  user : CredentialIs env conf "es.username" c.es.username
  pass : CredentialIs env conf "es.password" c.es.password
  workers : NumberIs conf "es.bulk.numWorkers" 0 c.es.numWorkers
  fbuffer : NumberIs conf "es.bulk.flushBuffer" 5000000 c.es.flushBuffer
  timeout : (conf.str? "es.bulk.flushTimeout" = none → c.es.flushTimeout = 30 * 1000000000) ∧
    ∀ v, conf.str? "es.bulk.flushTimeout" = some v → env.parseDuration v = some c.es.flushTimeout
  topic : conf.str? "kafka.topic" = some c.kafka.topic
  enc : (c.kafka.encoding = .json ↔ conf.str? "kafka.encoding" = some "json".toList)
  settings : SettingsAre conf [("client.id", "sfprocessor-otel-kafka-exporter"), ("acks", "all")] c.kafka.configMap

theorem setOr_id (o : Option Str) (d : Str) : setOr o id d = o.getD d := by cases o <;> rfl

theorem setOr_iff {α : Type} (o : Option Str) (g : Str → α) (d a : α) (w : Str) (hd : d ≠ a) (hg : ∀ v, g v = a ↔ v = w) :
    setOr o g d = a ↔ o = some w := by
  cases o with
  | none => simp [setOr, hd]
  | some v => simp [setOr, hg]

theorem createSyslogX_is (conf : XConf) (s : SyslogC) (h : createSyslogX conf = some s) :
    (s.proto = .tls ↔ conf.str? "syslog.proto" = some "tls".toList) ∧ (s.proto = .udp ↔ conf.str? "syslog.proto" = some "udp".toList) ∧
    s.tag = (conf.str? "syslog.tag").getD "sysflow".toList ∧ s.logSource = (conf.str? "syslog.source").getD [] ∧
    s.host = (conf.str? "syslog.host").getD "localhost".toList ∧ NumberIs conf "syslog.port" 514 s.port := by
  unfold createSyslogX at h
  dsimp only at h
  cases hn : number (conf.str? "syslog.port") 514 with
  | none => rw [hn] at h; cases h
  | some p =>
    rw [hn] at h
    simp only [Option.some.injEq] at h
    subst h
    exact ⟨setOr_iff _ _ _ _ _ (by simp) (fun v => (parseProto_names v).1), setOr_iff _ _ _ _ _ (by simp) (fun v => (parseProto_names v).2),
      setOr_id _ _, setOr_id _ _, setOr_id _ _, number_is _ _ _ hn⟩

theorem createElasticX_is (env : ConfEnv) (conf : XConf) (vault : VaultC) (hv : createVault env conf = some vault) (e : ElasticC)
    (h : createElasticX env conf vault (setOr (conf.str? "export") parseTransport .terminal) = some e) :
    ((conf.str? "es.addresses" = none → e.addresses = []) ∧ ∀ v, conf.str? "es.addresses" = some v → CommaPieces v e.addresses) ∧
    e.index = (conf.str? "es.index").getD [] ∧
    CredentialIs env conf "es.username" e.username ∧ CredentialIs env conf "es.password" e.password ∧
    NumberIs conf "es.bulk.numWorkers" 0 e.numWorkers ∧ NumberIs conf "es.bulk.flushBuffer" 5000000 e.flushBuffer ∧
    ((conf.str? "es.bulk.flushTimeout" = none → e.flushTimeout = 30 * 1000000000) ∧
      ∀ v, conf.str? "es.bulk.flushTimeout" = some v → env.parseDuration v = some e.flushTimeout) := by
  unfold createElasticX at h
  dsimp only at h
  cases h1 : credential conf vault (setOr (conf.str? "export") parseTransport .terminal) "es.username" with
  | none => rw [h1] at h; cases h
  | some a =>
  rw [h1] at h
  cases h2 : credential conf vault (setOr (conf.str? "export") parseTransport .terminal) "es.password" with
  | none => rw [h2] at h; cases h
  | some b =>
  rw [h2] at h
  cases h3 : number (conf.str? "es.bulk.numWorkers") 0 with
  | none => rw [h3] at h; cases h
  | some c =>
  rw [h3] at h
  cases h4 : number (conf.str? "es.bulk.flushBuffer") 5000000 with
  | none => rw [h4] at h; cases h
  | some d =>
  rw [h4] at h
  cases h5 : duration env (conf.str? "es.bulk.flushTimeout") 30000000000 with
  | none => rw [h5] at h; cases h
  | some t =>
  rw [h5] at h
  simp only [Option.some.injEq] at h
  subst h
  refine ⟨⟨fun hn => by simp [setOr, hn], fun v hv' => ?_⟩, setOr_id _ _, credential_is env conf vault hv _ _ h1,
    credential_is env conf vault hv _ _ h2, number_is _ _ _ h3, number_is _ _ _ h4, fun hn => ?_, fun v hv' => ?_⟩
  · simp only [setOr, hv']; exact splitComma_spec v
  · rw [hn] at h5; simp only [duration, Option.some.injEq] at h5; exact h5.symm
  · rw [hv'] at h5; exact h5

theorem createKafkaX_is (conf : XConf) (k : KafkaC) (h : createKafkaX conf = some k) :
    conf.str? "kafka.topic" = some k.topic ∧ (k.encoding = .json ↔ conf.str? "kafka.encoding" = some "json".toList) ∧
    SettingsAre conf [("client.id", "sfprocessor-otel-kafka-exporter"), ("acks", "all")] k.configMap := by
  unfold createKafkaX at h
  cases hc : conf "kafka.config".toList with
  | none => rw [hc] at h; cases h
  | some v =>
    rw [hc] at h
    cases v with
    | map entries =>
      dsimp only at h
      cases hm : producerDefaults.setAll entries "bootstrap.servers".toList with
      | none => rw [hm] at h; cases h
      | some w =>
        rw [hm] at h
        cases ht : conf.str? "kafka.topic" with
        | none => rw [ht] at h; cases h
        | some t =>
          rw [ht] at h
          simp only [Option.some.injEq] at h
          subst h
          refine ⟨rfl, setOr_iff _ _ _ _ _ (by simp) parseKEncoding_json, ?_⟩
          refine settings_of_setAll conf entries hc producerDefaults _ ?_ ?_
          · intro k d hkd
            simp only [List.mem_cons, Prod.mk.injEq, List.not_mem_nil, or_false] at hkd
            rcases hkd with ⟨rfl, rfl⟩ | ⟨rfl, rfl⟩ <;> decide
          · intro k hk
            simp only [List.map_cons, List.map_nil, List.mem_cons, List.not_mem_nil, or_false, not_or] at hk
            rw [producerDefaults_spec, if_neg hk.2, if_neg hk.1]
    | _ => cases h

/-- **C73** What an accepted configuration sets: every attribute is determined by its own key, with
the documented defaults; credentials come from the configuration, else from the vault (only if it is
switched on and Elastic is the transport), else are empty; configured Kafka settings override the
defaults whatever the order in which the map is walked. -/
theorem exporter_config_is (env : ConfEnv) (conf : XConf) (c : XConfig) (h : createConfigX env conf = some c) :
    ConfigIs env conf c := by
  unfold createConfigX at h
  cases hv : createVault env conf with
  | none => rw [hv] at h; cases h
  | some vault =>
  rw [hv] at h
  dsimp only at h
  cases hb : number (conf.str? "buffer") 0 with
  | none => rw [hb] at h; cases h
  | some b =>
  rw [hb] at h
  cases hs : createSyslogX conf with
  | none => rw [hs] at h; cases h
  | some sl =>
  rw [hs] at h
  cases he : createElasticX env conf vault (setOr (conf.str? "export") parseTransport .terminal) with
  | none => rw [he] at h; cases h
  | some es =>
  rw [he] at h
  cases hk : createKafkaX conf with
  | none => rw [hk] at h; cases h
  | some k =>
  rw [hk] at h
  simp only [Option.some.injEq] at h
  subst h
  obtain ⟨s1, s2, s3, s4, s5, s6⟩ := createSyslogX_is conf sl hs
  obtain ⟨e1, e2, e3, e4, e5, e6, e7⟩ := createElasticX_is env conf vault hv es he
  obtain ⟨k1, k2, k3⟩ := createKafkaX_is conf k hk
  have hven : (vault.on = true ↔ VaultOn conf) ∧ (vault.enc = .base64 ↔
        VaultOn conf ∧ conf.str? "vault.encoding" = some "base64".toList) := by
    by_cases hon : VaultOn conf
    · rw [vault_on env conf hon] at hv
      cases ho : env.openVault (conf.str? "vault.path") with
      | none => rw [ho] at hv; cases hv
      | some s =>
        rw [ho] at hv
        simp only [Option.map_some, Option.some.injEq] at hv
        subst hv
        refine ⟨by simp [hon, VaultC.on], ?_⟩
        simp only [hon, true_and]
        exact setOr_iff _ _ _ _ _ (by simp) parseVaultEncoding_base64
    · rw [vault_off env conf hon] at hv
      cases hv
      simp [hon, VaultC.on, VaultC.enc]
  have tr := fun (a : Transport) (w : Str) (h : Transport.terminal ≠ a) (hg : ∀ v, parseTransport v = a ↔ v = w) =>
    setOr_iff (conf.str? "export") parseTransport .terminal a w h hg
  exact
    { file := tr _ _ (by simp) (fun v => (transport_names v).1)
      syslog := tr _ _ (by simp) (fun v => (transport_names v).2.1)
      es := tr _ _ (by simp) (fun v => (transport_names v).2.2.1)
      kafka := tr _ _ (by simp) (fun v => (transport_names v).2.2.2.1)
      null := tr _ _ (by simp) (fun v => (transport_names v).2.2.2.2)
      ecs := setOr_iff _ _ _ _ _ (by simp) (fun v => (parseFormat_names v).1)
      otel := setOr_iff _ _ _ _ _ (by simp) (fun v => (parseFormat_names v).2)
      buffer := number_is _ _ _ hb
      vaultOn := hven.1
      vaultEnc := hven.2
      version := setOr_id _ _
      jsonVersion := setOr_id _ _
      ecsVersion := setOr_id _ _
      build := setOr_id _ _
      cluster := setOr_id _ _
      path := setOr_id _ _
      tls := s1
      udp := s2
      tag := s3
      source := s4
      host := s5
      port := s6
      addresses := e1
      index := e2
      user := e3
      pass := e4
      workers := e5
      fbuffer := e6
      timeout := e7
      topic := k1
      enc := k2
      settings := k3 }

/-- **C73** While the vault is switched off it is never opened: the outcome does not depend on it. -/
theorem vault_off_not_consulted (env env' : ConfEnv) (hd : env.parseDuration = env'.parseDuration) (conf : XConf) (h : ¬ VaultOn conf) :
    createConfigX env conf = createConfigX env' conf := by
  unfold createConfigX
  rw [vault_off env conf h, vault_off env' conf h]
  unfold createElasticX duration
  rw [hd]

/-- **C73** With another transport than Elastic the secrets in the vault do not matter (it must only
open). -/
theorem vault_secrets_only_for_elastic (env env' : ConfEnv) (hd : env.parseDuration = env'.parseDuration) (conf : XConf)
    (h : ¬ ToElastic conf) (ho : ∀ p, (env.openVault p).isSome = (env'.openVault p).isSome) :
    createConfigX env conf = createConfigX env' conf := by
  have ht : setOr (conf.str? "export") parseTransport .terminal ≠ .es := fun e => h ((transport_es conf).1 e)
  by_cases hon : VaultOn conf
  · unfold createConfigX
    rw [vault_on env conf hon, vault_on env' conf hon]
    have := ho (conf.str? "vault.path")
    cases h1 : env.openVault (conf.str? "vault.path") with
    | none =>
      cases h2 : env'.openVault (conf.str? "vault.path") with
      | none => rfl
      | some s => rw [h1, h2] at this; cases this
    | some s =>
      cases h2 : env'.openVault (conf.str? "vault.path") with
      | none => rw [h1, h2] at this; cases this
      | some s' =>
        have hcr : ∀ key enc, credential conf (.enabled enc s) (setOr (conf.str? "export") parseTransport .terminal) key
            = credential conf (.enabled enc s') (setOr (conf.str? "export") parseTransport .terminal) key := by
          intro key enc
          unfold credential
          cases conf.str? key with
          | some v => rfl
          | none => dsimp only; rw [if_neg ht, if_neg ht]
        have hel : ∀ enc, createElasticX env conf (.enabled enc s) (setOr (conf.str? "export") parseTransport .terminal)
            = createElasticX env' conf (.enabled enc s') (setOr (conf.str? "export") parseTransport .terminal) := by
          intro enc
          unfold createElasticX duration
          rw [hcr, hcr, hd]
        simp only [Option.map_some]
        rw [hel]
        rfl
  · exact vault_off_not_consulted env env' hd conf hon

/-- A value as the smaller model (`Config/Model.lean`) sees it. -/
def toCVal : XVal → CVal
  | .str s => .str s
  | .map entries => .map (entries.map (·.1))
  | _ => .other

/-- The configuration of the smaller model (`Config/Model.lean`). -/
def toConf (conf : XConf) : Conf := fun k => (conf k).map toCVal

theorem toConf_str (conf : XConf) (k : String) : (toConf conf).str? k = conf.str? k := by
  unfold Conf.str? XConf.str?
  have : toConf conf k.toList = (conf k.toList).map toCVal := by
    unfold toConf; rfl
  rw [this]
  cases conf k.toList with
  | none => rfl
  | some v => cases v <;> rfl

/-- **C73** The two models of the exporter's configuration agree: with the vault off and a well-formed
or absent flush timeout, what `Config/Model.lean` says about acceptance is what holds here. -/
theorem exporter_models_agree (env : ConfEnv) (conf : XConf) (h : ¬ VaultOn conf)
    (hd : ∀ v, conf.str? "es.bulk.flushTimeout" = some v → (env.parseDuration v).isSome = true) :
    ((createConfigX env conf).isSome = true ↔ (createExporterConfig (toConf conf)).isSome = true) := by
  rw [exporter_accepts_iff, exporter_config_accepts_iff]
  unfold ExporterConfOK
  simp only [toConf_str]
  have hb : BrokersGiven conf ↔ ∃ keys, toConf conf "kafka.config".toList = some (.map keys) ∧ "bootstrap.servers".toList ∈ keys := by
    unfold BrokersGiven toConf
    cases conf "kafka.config".toList with
    | none => simp
    | some v =>
      cases v with
      | map entries =>
        constructor
        · rintro ⟨e, he, hm⟩
          simp only [Option.some.injEq, XVal.map.injEq] at he
          subst he
          exact ⟨_, rfl, hm⟩
        · rintro ⟨ks, he, hm⟩
          simp only [Option.map_some, toCVal, Option.some.injEq, CVal.map.injEq] at he
          subst he
          exact ⟨_, rfl, hm⟩
      | _ => simp [toCVal]
  rw [← hb]
  constructor
  · exact fun a => ⟨a.buffer, a.port, a.workers, a.fbuffer, a.brokers, a.topic⟩
  · rintro ⟨a1, a2, a3, a4, a5, a6⟩
    exact ⟨fun e => absurd e h, a1, a2, fun _ e => absurd e h, fun _ e => absurd e h, a3, a4, hd, a5, a6⟩

/-! ### C74 -/

theorem topicsLoop_spec (items : List (Option Str)) : ∀ acc,
    (∀ ts, items = ts.map some → topicsLoop items acc = some (acc ++ ts)) ∧
    (none ∈ items → topicsLoop items acc = none) := by
  induction items with
  | nil =>
    intro acc
    refine ⟨fun ts h => ?_, fun h => by cases h⟩
    have : ts = [] := by cases ts with
      | nil => rfl
      | cons a b => simp at h
    subst this; simp [topicsLoop]
  | cons i items ih =>
    intro acc
    cases i with
    | none =>
      refine ⟨fun ts h => ?_, fun _ => rfl⟩
      cases ts <;> simp at h
    | some s =>
      refine ⟨fun ts h => ?_, fun h => ?_⟩
      · cases ts with
        | nil => simp at h
        | cons t ts =>
          simp only [List.map_cons, List.cons.injEq, Option.some.injEq] at h
          show topicsLoop items (acc ++ [s]) = _
          rw [(ih (acc ++ [s])).1 ts h.2, h.1]; simp
      · show topicsLoop items (acc ++ [s]) = none
        exact (ih _).2 (by simpa using h)

theorem all_text : ∀ (items : List (Option Str)), none ∉ items → ∃ ts : List Str, items = ts.map some
  | [], _ => ⟨[], rfl⟩
  | none :: _, h => absurd (by simp) h
  | some s :: items, h => by
    obtain ⟨ts, e⟩ := all_text items (fun h' => h (by simp [h']))
    exact ⟨s :: ts, by rw [e]; rfl⟩

/-- **C74** The Kafka driver's configuration: an error without brokers or without an array of topics; a
panic if some topic is not text; otherwise exactly the listed topics, JSON payloads only for the text
`json`, and the configured settings over the defaults. -/
theorem kafka_driver_config (conf : XConf) :
    ((createConsumer conf matches .error) ↔ ¬ BrokersGiven conf ∨ ¬ ∃ items, conf "kafka.topics".toList = some (.list items)) ∧
    ((createConsumer conf matches .panics) ↔ BrokersGiven conf ∧ ∃ items, conf "kafka.topics".toList = some (.list items) ∧ none ∈ items) ∧
    (∀ c, createConsumer conf = .ok c →
      conf "kafka.topics".toList = some (.list (c.topics.map some)) ∧
      (c.encoding = .json ↔ conf.str? "kafka.encoding" = some "json".toList) ∧
      SettingsAre conf [("group.id", "sfprocessor-otel-kafka-driver"), ("auto.offset.reset", "earliest")] c.configMap) := by
  have hd : consumerDefaults "bootstrap.servers".toList = none := by decide
  unfold createConsumer
  cases hc : conf "kafka.config".toList with
  | none =>
    have : ¬ BrokersGiven conf := by rintro ⟨e, he, -⟩; rw [hc] at he; cases he
    simp [this]
  | some v =>
    cases v with
    | map entries =>
      dsimp only
      have hs := setAll_isSome entries consumerDefaults _ hd
      cases hm : consumerDefaults.setAll entries "bootstrap.servers".toList with
      | none =>
        have hn : "bootstrap.servers".toList ∉ entries.map (·.1) := fun h => by
          obtain ⟨v, e⟩ := hs.2 h; rw [hm] at e; cases e
        have : ¬ BrokersGiven conf := by
          rintro ⟨e, he, hx⟩
          rw [hc] at he
          simp only [Option.some.injEq, XVal.map.injEq] at he
          subst he
          exact hn hx
        simp [this]
      | some w =>
        have hb : BrokersGiven conf := ⟨entries, hc, hs.1 ⟨w, hm⟩⟩
        cases ht : conf "kafka.topics".toList with
        | none => simp [hb]
        | some t =>
          cases t with
          | list items =>
            dsimp only
            by_cases hni : none ∈ items
            · rw [(topicsLoop_spec items []).2 hni]
              simp [hb, hni]
            · have : ∃ ts : List Str, items = ts.map some := by
                exact all_text items hni
              obtain ⟨ts, hts⟩ := this
              rw [(topicsLoop_spec items []).1 ts hts]
              refine ⟨by simp [hb], by simp [hni], fun c h => ?_⟩
              simp only [ConsumerR.ok.injEq] at h
              subst h
              refine ⟨by simp [hts], setOr_iff _ _ _ _ _ (by simp) parseKEncoding_json, ?_⟩
              refine settings_of_setAll conf entries hc consumerDefaults _ ?_ ?_
              · intro k d hkd
                simp only [List.mem_cons, Prod.mk.injEq, List.not_mem_nil, or_false] at hkd
                rcases hkd with ⟨rfl, rfl⟩ | ⟨rfl, rfl⟩ <;> decide
              · intro k hk
                simp only [List.map_cons, List.map_nil, List.mem_cons, List.not_mem_nil, or_false, not_or] at hk
                rw [consumerDefaults_spec, if_neg hk.2, if_neg hk.1]
          | _ => simp [hb]
    | _ =>
      have : ¬ BrokersGiven conf := by rintro ⟨e, he, -⟩; rw [hc] at he; cases he
      simp [this]

/-! ### non-vacuity -/

/-- Configuration from an association list (for examples). -/
def xofList (l : List (String × XVal)) : XConf := fun k => (l.find? (fun e => e.1.toList = k)).map (·.2)

/-- A vault at the default path with a user name and a (base64-encoded) password. -/
def demoVault : ConfEnv where
  openVault p := if p = none then some
    { get := fun k => if k = "es.username".toList then some "elastic".toList else some "cGFzcw==".toList
      getDecoded := fun k => if k = "es.password".toList then some "pass".toList else none } else none
  parseDuration s := if s = "10s".toList then some 10000000000 else none

/-- An Elastic exporter with its password in the vault. -/
def demoElastic : XConf := xofList
  [("export", .str "es".toList), ("format", .str "ecs".toList), ("buffer", .str "100".toList),
   ("vault.secrets", .str "true".toList), ("vault.encoding", .str "base64".toList),
   ("es.addresses", .str "https://a:9200,https://b:9200".toList), ("es.username", .str "me".toList),
   ("es.bulk.flushTimeout", .str "10s".toList),
   ("kafka.config", .map [("bootstrap.servers".toList, .str "k:9092".toList), ("acks".toList, .str "1".toList)]),
   ("kafka.topic", .str "t".toList)]

/-- It is accepted, with the addresses split, the configured user and the vault's decoded password. -/
example : ∃ c, createConfigX demoVault demoElastic = some c ∧ c.transport = .es ∧ c.eventBuffer = 100 ∧
    c.es.addresses = ["https://a:9200".toList, "https://b:9200".toList] ∧ c.es.username = "me".toList ∧ c.es.password = "pass".toList ∧
    c.es.flushTimeout = 10000000000 ∧ c.kafka.configMap "acks".toList = some (.str "1".toList) ∧
    c.kafka.configMap "client.id".toList = some (.str "sfprocessor-otel-kafka-exporter".toList) :=
  ⟨_, rfl, by decide, by decide, by decide, by decide, by decide, by decide, by decide, by decide⟩

/-- Without `vault.encoding` the plain text is used; without the Kafka section it is rejected. -/
example : ConfAccepted demoVault demoElastic := (exporter_accepts_iff _ _).1 rfl

/-- A consumer configuration with two topics. -/
example : ∃ c, createConsumer (xofList [("kafka.config", .map [("bootstrap.servers".toList, .str "k".toList)]),
    ("kafka.topics", .list [some "a".toList, some "b".toList]), ("kafka.encoding", .str "json".toList)]) = .ok c ∧
    c.topics = ["a".toList, "b".toList] ∧ c.encoding = .json := ⟨_, rfl, by decide, by decide⟩

/-- A numeric topic in the configuration file makes the driver panic. -/
example : (createConsumer (xofList [("kafka.config", .map [("bootstrap.servers".toList, .str "k".toList)]),
    ("kafka.topics", .list [some "a".toList, none])]) matches .panics) = true := by decide

end Verif.Config

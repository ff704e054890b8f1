import Verif.Json.Tables
/-
Each value the encoder writes reads as the specified value.
-/
namespace Verif.Json
open Verif.Decimal (Str)
open Verif.FlatRecord
open Verif.SysFlow (Service Port Proc)

theorem tx_append (a b : Str) : tx (a ++ b) = tx a ++ tx b := by simp [tx, Utf8.bytes]
theorem tx_cons (a : Char) (b : Str) : tx (a :: b) = Utf8.encodeChar a ++ tx b := rfl
theorem tx_nil : tx [] = [] := rfl

/-! ### Numbers -/

theorem encodeChar_digit (d : Nat) (h : d < 10) : Utf8.encodeChar (Decimal.digitChar d) = [UInt8.ofNat (48 + d)] := by
  have : ∀ d : Fin 10, Utf8.encodeChar (Decimal.digitChar d.val) = [UInt8.ofNat (48 + d.val)] := by decide
  exact this ⟨d, h⟩

/-- a nonempty list of digits without superfluous leading zero -/
theorem tx_formatNatF (f n : Nat) (h : n < f) :
    (tx (Decimal.formatNatF f n)).all isDigit = true ∧ tx (Decimal.formatNatF f n) ≠ [] ∧
    (0 < n → (tx (Decimal.formatNatF f n)).head? ≠ some 0x30) ∧ (n < 10 → (tx (Decimal.formatNatF f n)).length = 1) := by
  induction f generalizing n with
  | zero => omega
  | succ f ih =>
    simp only [Decimal.formatNatF]
    split
    · rename_i hn
      rw [tx_cons, encodeChar_digit n hn, tx_nil, List.append_nil]
      have : ∀ d : Fin 10, isDigit (UInt8.ofNat (48 + d.val)) = true ∧ (0 < d.val → UInt8.ofNat (48 + d.val) ≠ 0x30) := by decide
      refine ⟨by simpa using (this ⟨n, hn⟩).1, by simp, ?_, by simp⟩
      intro h0
      simpa using (this ⟨n, hn⟩).2 h0
    · rename_i hn
      obtain ⟨h1, h2, h3, _⟩ := ih (n / 10) (by omega)
      rw [tx_append, tx_cons, tx_nil, List.append_nil, encodeChar_digit _ (by omega)]
      have : ∀ d : Fin 10, isDigit (UInt8.ofNat (48 + d.val)) = true := by decide
      refine ⟨?_, by simp, ?_, by omega⟩
      · rw [List.all_append, h1]
        simpa using this ⟨n % 10, by omega⟩
      · intro _
        cases hh : tx (Decimal.formatNatF f (n / 10)) with
        | nil => exact absurd hh h2
        | cons c r =>
          have := h3 (by omega)
          rw [hh] at this
          simpa using this

theorem all_takeWhile_eq {α : Type} (p : α → Bool) (l : List α) (h : l.all p = true) : l.takeWhile p = l := by
  have := takeWhile_append_all p l [] (fun x hx => List.all_eq_true.1 h x hx) (fun _ h => by cases h)
  simpa using this

theorem unsigned_formatNat (n : Nat) : unsigned (tx (Decimal.formatNat n)) = true := by
  obtain ⟨h1, h2, h3, h4⟩ := tx_formatNatF (n + 1) n (by omega)
  unfold unsigned
  rw [show Decimal.formatNat n = Decimal.formatNatF (n + 1) n from rfl]
  rw [all_takeWhile_eq _ _ h1]
  simp only [List.drop_length, fracExp, Bool.and_true, intPart, digits1, h1, Bool.and_eq_true, Bool.or_eq_true]
  refine ⟨by simpa using h2, ?_⟩
  by_cases hn : n < 10
  · left; simpa using h4 hn
  · right; simpa using h3 (by omega)

theorem isDigit_numChar (c : UInt8) (h : isDigit c = true) : isNumChar c = true := by simp [isNumChar, h]

theorem reads_int (n : Int) : Reads (int n) (Spec.num n) := by
  unfold Spec.num int
  change Reads (tx (Decimal.formatInt n)) (.num (tx (Decimal.formatInt n)))
  cases n with
  | ofNat n =>
    have hd := (tx_formatNatF (n + 1) n (by omega)).1
    refine reads_num _ (fun c hc => isDigit_numChar c (List.all_eq_true.1 hd c hc)) ?_
    have hu := unsigned_formatNat n
    change isNumber (tx (Decimal.formatNat n)) = true
    change (tx (Decimal.formatNat n)).all isDigit = true at hd
    revert hu hd
    generalize tx (Decimal.formatNat n) = t
    intro hd hu
    unfold isNumber
    split
    · revert hu; simp [isDigit]
    · exact hd
  | negSucc n =>
    have hd := (tx_formatNatF (n + 1 + 1) (n + 1) (by omega)).1
    have hu := unsigned_formatNat (n + 1)
    have e : tx (Decimal.formatInt (.negSucc n)) = 0x2D :: tx (Decimal.formatNat (n + 1)) := rfl
    rw [e]
    refine reads_num _ ?_ hu
    intro c hc
    rcases List.mem_cons.1 hc with rfl | hc
    · rfl
    · exact isDigit_numChar c (List.all_eq_true.1 hd c hc)

theorem reads_bool (b : Bool) : Reads (bool b) (.bool b) := by
  cases b
  · exact reads_false
  · exact reads_true

theorem reads_string (s : Str) : Reads (string s) (Spec.text s) := reads_text s

/-! ### Plain text -/

theorem escLoop_plain (s : Bytes) (f : Nat) (hf : s.length ≤ f) (h : ∀ c ∈ s, c < 0x80 ∧ plain c = true) :
    escLoop f [] s = s := by
  induction s generalizing f with
  | nil => cases f <;> rfl
  | cons c r ih =>
    cases f with
    | zero => simp at hf
    | succ f =>
      obtain ⟨h1, h2⟩ := h c (.head _)
      simp only [escLoop, h2, if_true]
      rw [if_pos h1, escLoop_pend, ih f (by simpa using hf) (fun x hx => h x (.tail _ hx))]
      rfl

theorem encodeChar_ascii (c : Char) (h : c.toNat < 128) : Utf8.encodeChar c = [UInt8.ofNat c.toNat] := by
  simp [Utf8.encodeChar, Utf8.encodeNat, h]

theorem plain_char (c : Char) (h1 : 32 ≤ c.toNat) (h2 : c.toNat < 128) (h3 : c ≠ '"' ∧ c ≠ '&' ∧ c ≠ '<' ∧ c ≠ '>' ∧ c ≠ '\\') :
    UInt8.ofNat c.toNat < 0x80 ∧ plain (UInt8.ofNat c.toNat) = true := by
  have ht : (UInt8.ofNat c.toNat).toNat = c.toNat := by simp; omega
  have key : ∀ (d : Char) (b : UInt8), d.toNat = b.toNat → c ≠ d → (UInt8.ofNat c.toNat == b) = false := by
    intro d b hdb hcd
    rw [beq_eq_false_iff_ne]
    intro hb
    apply hcd
    apply Utf8.char_toNat_inj
    rw [hdb, ← hb, ht]
  constructor
  · rw [u8_lt_80, ht]; exact h2
  · unfold plain
    rw [ht, key '"' 0x22 rfl h3.1, key '&' 0x26 rfl h3.2.1, key '<' 0x3C rfl h3.2.2.1, key '>' 0x3E rfl h3.2.2.2.1,
      key '\\' 0x5C rfl h3.2.2.2.2]
    simp; omega

theorem tx_plain (s : Str) (h : Spec.PlainText s) : ∀ c ∈ tx s, c < 0x80 ∧ plain c = true := by
  induction s with
  | nil => intro c hc; cases hc
  | cons a s ih =>
    obtain ⟨h1, h2, h3⟩ := h a (.head _)
    intro c hc
    rw [tx_cons, encodeChar_ascii a h2] at hc
    rcases List.mem_append.1 hc with hc | hc
    · simp only [List.mem_singleton] at hc
      subst hc
      exact plain_char a h1 h2 h3
    · exact ih (fun x hx => h x (.tail _ hx)) c hc

theorem escape_plain (s : Str) (h : Spec.PlainText s) : escape (tx s) = tx s :=
  escLoop_plain _ _ (Nat.le_refl _) (tx_plain s h)

/-- Raw text between quotes reads as the text if it needs no escaping. -/
theorem reads_raw (s : Str) (h : escape (tx s) = tx s) : Reads (cQUOTE :: tx s ++ [cQUOTE]) (Spec.text s) := by
  have := reads_string s
  unfold string quote at this
  rw [h] at this
  exact this

theorem member_ok (k : Str) (h : escape (tx k) = tx k) (b : Bytes) (v : JVal) (hv : Reads b v) :
    ReadsMember (cQUOTE :: tx k ++ quoteColon ++ b) (cps k, v) := by
  refine ⟨quote (tx k), b, ?_, ?_, hv⟩
  · unfold quote; rw [h]; simp [quoteColon, cQUOTE]
  · intro rest; exact text_round_trip k rest

/-! ### Arrays -/

theorem reads_arr_map {A : Type} (f : A → Bytes) (g : A → JVal) (l : List A) (out : Bytes)
    (h : ∀ a ∈ l, Reads (f a) (g a)) (ho : out = cBSQ :: commas (l.map f) ++ [cESQ]) : Reads out (.arr (l.map g)) := by
  rw [ho]; exact reads_arr _ _ (allReads_map f g l h)

theorem rawElems_eq (ss : List Str) : rawElems ss = commas (ss.map (fun s => cQUOTE :: tx s ++ [cQUOTE])) := by
  induction ss with
  | nil => rfl
  | cons s ss ih =>
    cases ss with
    | nil => rfl
    | cons t ts =>
      simp only [rawElems] at ih ⊢
      rw [ih]; rfl

theorem sepElems_eq {A : Type} (f : A → Bytes) (l : List A) : sepElems f l = commas (l.map f) := by
  induction l with
  | nil => rfl
  | cons s ss ih =>
    cases ss with
    | nil => rfl
    | cons t ts =>
      simp only [sepElems] at ih ⊢
      rw [ih]; rfl

theorem reads_strArray (ss : List Str) (h : ∀ s ∈ ss, Spec.PlainText s) : Reads (mapStrArray ss) (.arr (ss.map Spec.text)) :=
  reads_arr_map _ _ ss _ (fun s hs => reads_raw s (escape_plain s (h s hs))) (by rw [mapStrArray, rawElems_eq])

theorem reads_sepElems {A : Type} (f : A → Bytes) (g : A → JVal) (l : List A) (h : ∀ a ∈ l, Reads (f a) (g a)) :
    Reads (cBSQ :: sepElems f l ++ [cESQ]) (.arr (l.map g)) :=
  reads_arr_map f g l _ h (by rw [sepElems_eq])

/-! ### Addresses -/

theorem plain_formatInt (n : Int) : Spec.PlainText (Decimal.formatInt n) := by
  have hd : ∀ d : Fin 10, 32 ≤ (Decimal.digitChar d.val).toNat ∧ (Decimal.digitChar d.val).toNat < 128 ∧
      Decimal.digitChar d.val ≠ '"' ∧ Decimal.digitChar d.val ≠ '&' ∧ Decimal.digitChar d.val ≠ '<' ∧
      Decimal.digitChar d.val ≠ '>' ∧ Decimal.digitChar d.val ≠ '\\' := by decide
  intro c hc
  cases n with
  | ofNat n =>
    obtain ⟨d, hd', rfl⟩ := Decimal.mem_formatNat n c hc
    exact hd ⟨d, hd'⟩
  | negSucc n =>
    rcases List.mem_cons.1 hc with rfl | hc
    · decide
    · obtain ⟨d, hd', rfl⟩ := Decimal.mem_formatNat (n + 1) c hc
      exact hd ⟨d, hd'⟩

theorem plain_append (a b : Str) (ha : Spec.PlainText a) (hb : Spec.PlainText b) : Spec.PlainText (a ++ b) := by
  intro c hc
  rcases List.mem_append.1 hc with hc | hc
  · exact ha c hc
  · exact hb c hc

theorem plain_cons (c : Char) (b : Str) (ha : Spec.PlainText [c]) (hb : Spec.PlainText b) : Spec.PlainText (c :: b) :=
  plain_append [c] b ha hb

theorem plain_dot : Spec.PlainText ['.'] := by
  intro c hc; simp only [List.mem_singleton] at hc; subst hc; decide

theorem plain_dotted (ip : Int) : Spec.PlainText (Spec.dotted ip) := by
  unfold Spec.dotted
  refine plain_append _ _ (plain_append _ _ (plain_append _ _ (plain_formatInt _) ?_) ?_) ?_
  · exact plain_cons _ _ plain_dot (plain_formatInt _)
  · exact plain_cons _ _ plain_dot (plain_formatInt _)
  · exact plain_cons _ _ plain_dot (plain_formatInt _)

theorem mapIPStr_eq (ip : Int) : mapIPStr ip = tx (Spec.dotted ip) := by
  have e0 : octet ip 0 = ip % 256 := by simp [octet]
  have e1 : octet ip 8 = ip / 256 % 256 := rfl
  have e2 : octet ip 16 = ip / 65536 % 256 := rfl
  have e3 : octet ip 24 = ip / 16777216 % 256 := rfl
  have ed : ∀ s, tx ('.' :: s) = cPERIOD :: tx s := fun s => rfl
  unfold mapIPStr Spec.dotted
  rw [tx_append, tx_append, tx_append, ed, ed, ed, e0, e1, e2, e3]
  rfl

theorem reads_ip (ip : Int) : Reads (cQUOTE :: mapIPStr ip ++ [cQUOTE]) (Spec.text (Spec.dotted ip)) := by
  rw [mapIPStr_eq]
  exact reads_raw _ (escape_plain _ (plain_dotted ip))

theorem reads_ipArray (ips : List Int) (h : ips.length ≤ 1) :
    Reads (mapIPArray ips) (.arr (ips.map (fun ip => Spec.text (Spec.dotted ip)))) := by
  refine reads_arr_map (fun ip => cQUOTE :: mapIPStr ip ++ [cQUOTE]) _ ips _ (fun ip _ => reads_ip ip) ?_
  match ips, h with
  | [], _ => rfl
  | [ip], _ => simp [mapIPArray, commas]

theorem reads_ips (fr : FlatRec) : Reads (mapIPs fr) (.arr ([IAttr.FL_NETW_SIP_INT, .FL_NETW_DIP_INT].map
    (fun a => Spec.text (Spec.dotted (fr.getInt a .sysflow))))) := by
  refine reads_arr_map (fun a => cQUOTE :: mapIPStr (fr.getInt a .sysflow) ++ [cQUOTE]) _ _ _ (fun a _ => reads_ip _) ?_
  simp [mapIPs, commas, cCOMMA]

theorem reads_ports (fr : FlatRec) : Reads (mapPorts fr) (.arr ([IAttr.FL_NETW_SPORT_INT, .FL_NETW_DPORT_INT].map
    (fun a => Spec.num (fr.getInt a .sysflow)))) := by
  refine reads_arr_map (fun a => int (fr.getInt a .sysflow)) _ _ _ (fun a _ => reads_int _) ?_
  simp [mapPorts, commas, cCOMMA]

/-! ### Services -/

theorem kw (s : Str) (h : escape (tx s) = tx s := by decide +kernel) : escape (tx s) = tx s := h

theorem reads_portObj (p : Port) : Reads (cBCURLY :: portBody p ++ [cECURLY]) (Spec.port p) := by
  have h : AllMembers
      [writeIntField "port".toList p.port, writeIntField "targetport".toList p.targetPort,
       writeIntField "nodeport".toList p.nodePort, writeStrField "proto".toList p.proto] _ :=
    .cons (member_ok _ (kw _) _ _ (reads_int p.port)) (.cons (member_ok _ (kw _) _ _ (reads_int p.targetPort))
      (.cons (member_ok _ (kw _) _ _ (reads_int p.nodePort)) (.cons (member_ok _ (kw _) _ _ (reads_string p.proto)) .nil)))
  have := reads_obj _ _ h
  have e : portBody p = commas [writeIntField "port".toList p.port, writeIntField "targetport".toList p.targetPort,
       writeIntField "nodeport".toList p.nodePort, writeStrField "proto".toList p.proto] := by
    simp [portBody, commas, cCOMMA]
  rw [e]
  exact this

theorem portElems_eq (ps : List Port) : portElems ps = commas (ps.map (fun p => cBCURLY :: portBody p ++ [cECURLY])) := by
  induction ps with
  | nil => rfl
  | cons p ps ih =>
    cases ps with
    | nil => rfl
    | cons q qs =>
      simp only [portElems] at ih ⊢
      rw [ih]
      simp [commas, endCurlyComma, cECURLY]

theorem reads_svc (s : Service) (h : s.clusterIP.length ≤ 1) : Reads (svcObj s) (Spec.service s) := by
  have hp : Reads (cBSQ :: portElems s.portList ++ [cESQ]) (.arr (s.portList.map Spec.port)) :=
    reads_arr_map _ _ _ _ (fun p _ => reads_portObj p) (by rw [portElems_eq])
  have hm : AllMembers
      [writeStrField "id".toList s.id, writeStrField "name".toList s.name, writeStrField "namespace".toList s.nspace,
       writeIntArrayField "clusterIP".toList s.clusterIP, mapPortList s.portList] _ :=
    .cons (member_ok _ (kw _) _ _ (reads_string s.id)) (.cons (member_ok _ (kw _) _ _ (reads_string s.name))
      (.cons (member_ok _ (kw _) _ _ (reads_string s.nspace))
        (.cons (member_ok _ (kw _) _ _ (reads_ipArray s.clusterIP h))
          (.cons (by
            have := member_ok "ports".toList (kw _) _ _ hp
            simpa [mapPortList] using this) .nil))))
  have := reads_obj _ _ hm
  have e : svcObj s = 0x7B :: commas [writeStrField "id".toList s.id, writeStrField "name".toList s.name,
      writeStrField "namespace".toList s.nspace, writeIntArrayField "clusterIP".toList s.clusterIP,
      mapPortList s.portList] ++ [0x7D] := by
    simp [svcObj, commas, cCOMMA, cBCURLY, cECURLY]
  rw [e]
  exact this

theorem reads_svcs (ss : List Service) (h : ss.length ≤ 1) (hs : ∀ s ∈ ss, s.clusterIP.length ≤ 1) :
    Reads (mapSvcArray ss) (.arr (ss.map Spec.service)) := by
  refine reads_arr_map svcObj _ ss _ (fun s h => reads_svc s (hs s h)) ?_
  match ss, h with
  | [], _ => rfl
  | [s], _ => simp [mapSvcArray, commas]

/-! ### Processes -/

theorem escLoop_append (f : Nat) (a : Str) (b : Bytes) (hf : (tx a ++ b).length ≤ f) :
    escLoop f [] (tx a ++ b) = escape (tx a) ++ escape b := by
  have gen : ∀ (a : Str) (f g : Nat), (tx a ++ b).length ≤ f → (tx a).length ≤ g →
      escLoop f [] (tx a ++ b) = escLoop g [] (tx a) ++ escape b := by
    intro a
    induction a with
    | nil =>
      intro f g hf hg
      have : ∀ (s : Bytes) (f : Nat), s.length ≤ f → escLoop f [] s = escape s := by
        intro s
        have : ∀ (n : Nat) (s : Bytes) (f g : Nat), s.length ≤ n → s.length ≤ f → s.length ≤ g → escLoop f [] s = escLoop g [] s := by
          intro n
          induction n with
          | zero =>
            intro s f g h0 _ _
            cases s with
            | nil => cases f <;> cases g <;> rfl
            | cons _ _ => simp at h0
          | succ n ih =>
            intro s f g h0 h1 h2
            cases s with
            | nil => cases f <;> cases g <;> rfl
            | cons c r =>
              cases f with
              | zero => simp at h1
              | succ f =>
                cases g with
                | zero => simp at h2
                | succ g =>
                  simp only [List.length_cons] at h0 h1 h2
                  simp only [escLoop]
                  have hr := ih r f g (by omega) (by omega) (by omega)
                  split
                  · split
                    · rw [escLoop_pend, hr, ← escLoop_pend]
                    · rw [hr]
                  · cases hd : Utf8.decodeRune (c :: r) with
                    | none => simp only [hr]
                    | some nw =>
                      obtain ⟨n', w⟩ := nw
                      obtain ⟨w1, w2, -⟩ := decodeRune_facts _ _ _ hd
                      have hr' := ih ((c :: r).drop w) f g (by simp; omega) (by simp; omega) (by simp; omega)
                      simp only
                      split
                      · rw [hr']
                      · rw [escLoop_pend, hr', ← escLoop_pend]
        intro f hf
        exact this s.length s f s.length (Nat.le_refl _) hf (Nat.le_refl _)
      simp only [tx_nil, List.nil_append] at hf ⊢
      rw [this b f hf]
      cases g <;> simp [escLoop]
    | cons c a ih =>
      intro f g hf hg
      rw [tx_cons] at hf hg ⊢
      have hd := Utf8.decodeRune_encodeChar c (tx a ++ b)
      have hd' := Utf8.decodeRune_encodeChar c (tx a)
      cases hc : Utf8.encodeChar c with
      | nil => exact absurd hc (Utf8.encodeChar_ne_nil c)
      | cons x xs =>
        rw [hc] at hf hg hd hd'
        cases f with
        | zero => simp at hf
        | succ f =>
          cases g with
          | zero => simp at hg
          | succ g =>
            simp only [List.cons_append, List.append_assoc, List.length_cons, List.length_append] at hf hg hd hd' ⊢
            have ihr := ih f g (by simp only [List.length_append]; omega) (by omega)
            simp only [escLoop]
            by_cases hx : x < 0x80
            · have hxs : xs = [] := by
                rw [decodeRune_ascii x hx] at hd
                simp only [Option.some.injEq, Prod.mk.injEq] at hd
                have := hd.2
                exact List.length_eq_zero_iff.1 (by omega)
              subst hxs
              simp only [List.nil_append]
              rw [if_pos hx, if_pos hx]
              split
              · rw [escLoop_pend, ihr, escLoop_pend g [x]]; simp
              · rw [ihr]; simp
            · rw [if_neg hx, if_neg hx, hd, hd']
              simp only
              have dr : ∀ z : Bytes, (x :: (xs ++ z)).drop (xs.length + 1) = z := by
                intro z
                rw [show x :: (xs ++ z) = (x :: xs) ++ z from rfl, List.drop_append_of_le_length (by simp),
                  List.drop_of_length_le (by simp), List.nil_append]
              have tk : ∀ z : Bytes, (x :: (xs ++ z)).take (xs.length + 1) = x :: xs := by
                intro z
                rw [show x :: (xs ++ z) = (x :: xs) ++ z from rfl, List.take_append_of_le_length (by simp)]
                simp
              rw [dr, dr, tk, tk]
              split
              · rw [ihr]; simp
              · rw [escLoop_pend, ihr, escLoop_pend g ([] ++ _)]; simp
  exact gen a f _ hf (Nat.le_refl _)

theorem escape_append (a : Str) (b : Bytes) : escape (tx a ++ b) = escape (tx a) ++ escape b :=
  escLoop_append _ a b (Nat.le_refl _)

theorem cmdLineJSON_eq (p : Proc) : cmdLineJSON p = string (Spec.commandLine p) := by
  unfold cmdLineJSON Spec.commandLine string quote
  by_cases h : Strings.trimQuotes p.exeArgs = []
  · simp [h, cQUOTE]
  · have hl : (Strings.trimQuotes p.exeArgs).length > 0 := List.length_pos_iff.2 h
    rw [if_neg h]
    simp only [if_pos hl]
    rw [show ' ' :: Strings.trimQuotes p.exeArgs = [' '] ++ Strings.trimQuotes p.exeArgs from rfl, tx_append, tx_append,
      escape_append, escape_append [' ']]
    have : escape (tx [' ']) = [cSPACE] := by decide +kernel
    rw [this]
    simp [cQUOTE]

theorem reads_cmdLine (p : Proc) : Reads (cmdLineJSON p) (Spec.text (Spec.commandLine p)) := by
  rw [cmdLineJSON_eq]; exact reads_string _

theorem reads_noText : Reads (string EMPTY_STRING) Spec.noText := reads_string _

theorem reads_parentText (w : Proc → Bytes) (f : Proc → Str) (h : ∀ p, Reads (w p) (Spec.text (f p))) (pt : List Proc) :
    Reads (parentOr w (string EMPTY_STRING) pt) (Spec.parentText pt f) := by
  match pt with
  | [] => exact reads_noText
  | [_] => exact reads_noText
  | _ :: p :: _ => exact h p

theorem reads_parentInt (f : Proc → Int) (pt : List Proc) :
    Reads (parentOr (fun p => int (f p)) (int 0) pt) (Spec.parentInt pt f) := by
  match pt with
  | [] => exact reads_int 0
  | [_] => exact reads_int 0
  | _ :: p :: _ => exact reads_int (f p)

theorem reads_parentBool (f : Proc → Bool) (pt : List Proc) :
    Reads (parentOr (fun p => bool (f p)) (bool false) pt) (Spec.parentBool pt f) := by
  match pt with
  | [] => exact reads_bool false
  | [_] => exact reads_bool false
  | _ :: p :: _ => exact reads_bool (f p)

theorem reads_cached (fr : FlatRec) (pt : List Proc) (h : fr.ptree = some pt) (a : RecAttr) :
    Reads (cachedJSON fr a) (Spec.ancestry pt a) := by
  unfold cachedJSON
  rw [h]
  cases a with
  | PProcName => exact reads_parentText _ _ (fun p => reads_string _) pt
  | PProcExe => exact reads_parentText _ _ (fun p => reads_string _) pt
  | PProcArgs => exact reads_parentText _ _ (fun p => reads_string _) pt
  | PProcUID => exact reads_parentInt _ pt
  | PProcUser => exact reads_parentText _ _ (fun p => reads_string _) pt
  | PProcGID => exact reads_parentInt _ pt
  | PProcGroup => exact reads_parentText _ _ (fun p => reads_string _) pt
  | PProcTTY => exact reads_parentBool _ pt
  | PProcEntry => exact reads_parentBool _ pt
  | PProcCmdLine => exact reads_parentText _ _ reads_cmdLine pt
  | ProcAName => exact reads_sepElems _ _ pt (fun p _ => reads_string _)
  | ProcAExe => exact reads_sepElems _ _ pt (fun p _ => reads_string _)
  | ProcACmdLine => exact reads_sepElems _ _ pt (fun p _ => reads_cmdLine p)
  | ProcAPID => exact reads_sepElems _ _ pt (fun p _ => reads_int _)

end Verif.Json

import Verif.Pipeline.DriverProps
import Verif.Pipeline.Avro
/-
C117: from the packets of a socket to the records the streaming driver sends. The driver reads every packet of a connection into one and the same buffer and
decodes the whole buffer, without regard to the length of the packet.
Sources: /repo/driver/sysflow/streamingdriver.go:43-48, 123-157, /repo/driver/sysflow/readmsgunixlinux.go:31-37
-/
namespace Verif.Pipeline
open Verif.Avro (Byte)

/-! ### Model -/

/-- `BuffSize` (streamingdriver.go:43-48). -/
def buffSize : Nat := 16384

/-- What `recvmsg` has for a reader of a unixpacket connection: an error (or the end of the connection), or a packet; `odd`: the kernel reports flags other than
close-on-exec and truncation, e.g. for ancillary data that does not fit. -/
inductive Packet where
  | fail
  | packet (bytes : List Byte) (odd : Bool)
deriving DecidableEq, Repr

/-- `readMsgUnix` (readmsgunixlinux.go:31-37) with `net.UnixConn.ReadMsgUnix`: the buffer afterwards, and whether there was no error. The packet is copied to the front of
the buffer; the rest of the buffer stays as it is. A packet that does not fit is cut off and reported with the flag MSG_TRUNC, which is an error here; an empty packet
cannot be told from the end of the connection. The number of bytes is dropped. -/
def readMsg (buf : List Byte) : Packet → List Byte × Bool
  | .fail => (buf, false)
  | .packet bs odd => (bs.take buf.length ++ buf.drop bs.length, !odd && decide (bs.length ≤ buf.length) && decide (bs ≠ []))

/-- The reads of one connection (streamingdriver.go:134-151), up to the first that fails; `eval` is `vm.Eval` into a new record: the record, and whether there was an
error (the record may be filled in part then). It gets the whole buffer. -/
def connMsgs {R : Type} (eval : List Byte → R × Bool) : List Byte → List Packet → List (Msg R)
  | _, [] => []
  | buf, p :: ps =>
    if (readMsg buf p).2 = false then [.fail]
    else if (eval (readMsg buf p).1).2 = true then .partly (eval (readMsg buf p).1).1 :: connMsgs eval (readMsg buf p).1 ps
    else .good (eval (readMsg buf p).1).1 :: connMsgs eval (readMsg buf p).1 ps

/-- The driver (streamingdriver.go:123-157): every connection gets a new buffer, filled with zeros. -/
def socketDriver {R : Type} (eval : List Byte → R × Bool) (run : Nat → Bool) (conns : List (List Packet)) : List (DAct R) :=
  streamLoop run 0 (conns.map (connMsgs eval (List.replicate buffSize 0)))

/-! ### Specification -/

/-- The decoder reads the record `r` back from its encoding, whatever comes behind it. -/
def ReadsBack {R : Type} (eval : List Byte → R × Bool) (enc : R → List Byte) (r : R) : Prop := ∀ rest, eval (enc r ++ rest) = (r, false)

/-- A packet that is read without an error. -/
def Fits : Packet → Prop
  | .fail => False
  | .packet bs odd => bs ≠ [] ∧ bs.length ≤ 16384 ∧ odd = false

/-- The bytes of a packet. -/
def Packet.bytes : Packet → List Byte
  | .fail => []
  | .packet bs _ => bs

/-- The `i`-th byte of the most recent packet that is longer than `i`; zero if there is none. -/
def lastByte (ps : List Packet) (i : Nat) : Byte :=
  match ps.reverse.find? (fun p => decide (i < p.bytes.length)) with
  | some p => p.bytes.getD i 0
  | none => 0

/-- What is decoded after the packets `ps`: 16384 bytes, each from the most recent packet long enough. -/
def mixture (ps : List Packet) : List Byte := (List.range 16384).map (lastByte ps)

/-! ### The buffer -/

theorem mixture_get (ps : List Packet) (i : Nat) (h : i < (mixture ps).length) : (mixture ps)[i] = lastByte ps i := by
  have key : ∀ (n : Nat) (h : i < ((List.range n).map (lastByte ps)).length), ((List.range n).map (lastByte ps))[i] = lastByte ps i := by
    intro n h
    rw [List.getElem_map, List.getElem_range]
  exact key _ h

theorem mixture_nil : mixture [] = List.replicate buffSize 0 := by
  refine List.ext_getElem ?_ (fun i h1 h2 => ?_)
  · rw [mixture, List.length_map, List.length_range, List.length_replicate]; rfl
  · rw [List.getElem_replicate, mixture_get]
    rfl

theorem mixture_length (ps : List Packet) : (mixture ps).length = buffSize := by
  rw [mixture, List.length_map, List.length_range]; rfl

/-- One more packet. -/
theorem mixture_snoc (ps : List Packet) (bs : List Byte) (odd : Bool) (h : bs.length ≤ 16384) :
    mixture (ps ++ [.packet bs odd]) = bs ++ (mixture ps).drop bs.length := by
  have hb : buffSize = 16384 := rfl
  refine List.ext_getElem ?_ (fun i h1 h2 => ?_)
  · rw [mixture_length, List.length_append, List.length_drop, mixture_length]; omega
  · rw [mixture_length] at h1
    rw [mixture_get]
    unfold lastByte
    rw [List.reverse_append, List.reverse_cons, List.reverse_nil, List.nil_append, List.singleton_append, List.find?_cons]
    by_cases hi : i < bs.length
    · have : decide (i < (Packet.packet bs odd).bytes.length) = true := decide_eq_true hi
      rw [this]
      dsimp only
      rw [List.getElem_append_left hi]
      show bs.getD i 0 = _
      rw [List.getD_eq_getElem?_getD, List.getElem?_eq_getElem hi]
      rfl
    · have : decide (i < (Packet.packet bs odd).bytes.length) = false := decide_eq_false hi
      rw [this]
      dsimp only
      rw [List.getElem_append_right (by omega), List.getElem_drop, mixture_get]
      unfold lastByte
      rw [show bs.length + (i - bs.length) = i by omega]

theorem readMsg_fits (ps : List Packet) (p : Packet) (h : Fits p) : readMsg (mixture ps) p = (mixture (ps ++ [p]), true) := by
  cases p with
  | fail => cases h
  | packet bs odd =>
    obtain ⟨h1, h2, rfl⟩ := h
    have hl : bs.length ≤ (mixture ps).length := by rw [mixture_length]; exact h2
    unfold readMsg
    dsimp only
    rw [mixture_snoc ps bs false h2, List.take_of_length_le hl, decide_eq_true hl, decide_eq_true h1]
    rfl

theorem readMsg_not (buf : List Byte) (hb : buf.length = 16384) (p : Packet) (h : ¬ Fits p) : (readMsg buf p).2 = false := by
  cases p with
  | fail => rfl
  | packet bs odd =>
    show (!odd && decide (bs.length ≤ buf.length) && decide (bs ≠ [])) = false
    rw [hb]
    cases ho : odd with
    | true => rfl
    | false =>
      by_cases h1 : bs = []
      · simp [h1]
      · by_cases h2 : bs.length ≤ 16384
        · exact absurd ⟨h1, h2, ho⟩ h
        · simp [h2]

/-- The message made from what is decoded. -/
def msgOf {R : Type} (x : R × Bool) : Msg R := if x.2 = true then .partly x.1 else .good x.1

/-- The longest run of packets at the beginning that can be read. -/
def readable : List Packet → List Packet
  | [] => []
  | .packet bs false :: ps => if bs ≠ [] ∧ bs.length ≤ 16384 then .packet bs false :: readable ps else []
  | _ :: _ => []

theorem connMsgs_from {R : Type} (eval : List Byte → R × Bool) (ps : List Packet) : ∀ pre : List Packet,
    connRecords (connMsgs eval (mixture pre) ps)
      = (List.range (readable ps).length).map (fun k => (eval (mixture (pre ++ ps.take (k + 1)))).1) := by
  induction ps with
  | nil => intro pre; rfl
  | cons p ps ih =>
    intro pre
    by_cases hf : Fits p
    · have hr : readable (p :: ps) = p :: readable ps := by
        cases p with
        | fail => cases hf
        | packet bs odd =>
          obtain ⟨h1, h2, rfl⟩ := hf
          rw [readable, if_pos ⟨h1, h2⟩]
      have ht := ih (pre ++ [p])
      have hrec : connRecords (connMsgs eval (mixture pre) (p :: ps)) = (eval (mixture (pre ++ [p]))).1 :: connRecords (connMsgs eval (mixture (pre ++ [p])) ps) := by
        rw [connMsgs, readMsg_fits pre p hf]
        dsimp only
        rw [if_neg (by decide)]
        by_cases he : (eval (mixture (pre ++ [p]))).2 = true
        · rw [if_pos he]; rfl
        · rw [if_neg he]; rfl
      rw [hrec, ht, hr, List.length_cons, List.range_succ_eq_map, List.map_cons, List.map_map]
      refine congrArg (List.cons _) (List.map_congr_left (fun k _ => ?_))
      show (eval (mixture (pre ++ [p] ++ ps.take (k + 1)))).1 = (eval (mixture (pre ++ (p :: ps).take (k + 1 + 1)))).1
      rw [List.append_assoc, List.take_succ_cons, List.singleton_append]
    · have hr : readable (p :: ps) = [] := by
        cases p with
        | fail => rfl
        | packet bs odd =>
          cases odd with
          | true => rfl
          | false =>
            rw [readable, if_neg (fun h => hf ⟨h.1, h.2, rfl⟩)]
      rw [hr, connMsgs, if_pos (readMsg_not _ (mixture_length pre) p hf)]
      rfl

/-! ## C117 -/

/-- **C117** What the driver sends for a connection: one record for every packet up to the first one that is empty, longer than 16384 bytes or flagged by the kernel; each
decoded from 16384 bytes of which the `i`-th is the `i`-th byte of the most recent packet of the connection that is longer than `i`. -/
theorem socket_records {R : Type} (eval : List Byte → R × Bool) (ps : List Packet) :
    connRecords (connMsgs eval (List.replicate buffSize 0) ps)
      = (List.range (readable ps).length).map (fun k => (eval (mixture (ps.take (k + 1)))).1) := by
  rw [← mixture_nil, connMsgs_from eval ps []]
  simp only [List.nil_append]

theorem mixture_front (ps : List Packet) (bs : List Byte) (odd : Bool) (h : bs.length ≤ 16384) : ∃ rest, mixture (ps ++ [.packet bs odd]) = bs ++ rest :=
  ⟨_, mixture_snoc ps bs odd h⟩

theorem sends_records {R : Type} (eval : List Byte → R × Bool) (enc : R → List Byte) (rs : List R) (hd : ∀ r ∈ rs, ReadsBack eval enc r)
    (hs : ∀ r ∈ rs, enc r ≠ [] ∧ (enc r).length ≤ 16384) : ∀ pre : List Packet,
    connRecords (connMsgs eval (mixture pre) (rs.map (fun r => .packet (enc r) false))) = rs := by
  induction rs with
  | nil => intro pre; rfl
  | cons r rs ih =>
    intro pre
    obtain ⟨h1, h2⟩ := hs r List.mem_cons_self
    have hf : Fits (.packet (enc r) false) := ⟨h1, h2, rfl⟩
    obtain ⟨rest, hm⟩ := mixture_front pre (enc r) false h2
    rw [List.map_cons, connMsgs, readMsg_fits pre _ hf]
    dsimp only
    rw [if_neg (by decide), hm, hd r List.mem_cons_self rest, if_neg (by intro h; cases h), ← hm]
    show r :: connRecords _ = _
    rw [ih (fun x hx => hd x (List.mem_cons_of_mem _ hx)) (fun x hx => hs x (List.mem_cons_of_mem _ hx))]

/-- The records of the connections. -/
theorem packets_records {R : Type} (eval : List Byte → R × Bool) (enc : R → List Byte) 
    (conns : List (List R)) (hd : ∀ c ∈ conns, ∀ r ∈ c, ReadsBack eval enc r) (hs : ∀ c ∈ conns, ∀ r ∈ c, enc r ≠ [] ∧ (enc r).length ≤ 16384) :
    ((conns.map (List.map (fun r => Packet.packet (enc r) false))).map (connMsgs eval (List.replicate buffSize 0))).flatMap connRecords = conns.flatten := by
  rw [List.map_map, List.flatMap_map]
  induction conns with
  | nil => rfl
  | cons c cs ih =>
    rw [List.flatMap_cons, List.flatten_cons, ih (fun x hx => hd x (List.mem_cons_of_mem _ hx)) (fun x hx => hs x (List.mem_cons_of_mem _ hx))]
    show connRecords (connMsgs eval (List.replicate buffSize 0) (c.map _)) ++ _ = _
    rw [← mixture_nil, sends_records eval enc c (hd c List.mem_cons_self) (hs c List.mem_cons_self)]

/-- **C117** Connections whose packets each hold the encoding of one record, of at most 16384 bytes: the driver sends a prefix of the records, in order, all of
them unless it sees a stop request, after which it sends nothing; the length of the packets before has no influence. Then it closes the channel once, waits and returns
without an error. -/
theorem socket_delivers {R : Type} (eval : List Byte → R × Bool) (enc : R → List Byte) (run : Nat → Bool) (hrun : StaysStopped run)
    (conns : List (List R)) (hd : ∀ c ∈ conns, ∀ r ∈ c, ReadsBack eval enc r) (hs : ∀ c ∈ conns, ∀ r ∈ c, enc r ≠ [] ∧ (enc r).length ≤ 16384) :
    ∃ body, socketDriver eval run (conns.map (List.map (fun r => .packet (enc r) false))) = body ++ [.close, .wait, .ret false]
      ∧ (∀ a ∈ body, a.isFinal = false) ∧ sent body <+: conns.flatten ∧ (.check false ∉ body → sent body = conns.flatten) ∧ NothingAfterStop body := by
  obtain ⟨body, h1, h2, h3, h4, h5⟩ := stream_driver_delivers run hrun 0
    ((conns.map (List.map (fun r => Packet.packet (enc r) false))).map (connMsgs eval (List.replicate buffSize 0)))
  rw [packets_records eval enc conns hd hs] at h3 h4
  exact ⟨body, h1, h2, h3, h4, h5⟩

theorem never_stopped {R : Type} (cs : List (List (Msg R))) : ∀ k, .check false ∉ streamLoop (fun _ => true) k cs := by
  have conn : ∀ (ms : List (Msg R)) (k : Nat), .check false ∉ (streamConn (fun _ => true) k ms).1 := by
    intro ms
    induction ms with
    | nil => intro k h; simp [streamConn] at h
    | cons m ms ih =>
      intro k h
      cases m with
      | fail => simp [streamConn] at h
      | good r => simp only [streamConn, Bool.true_eq_false, if_false, List.mem_cons, reduceCtorEq, DAct.check.injEq, false_or] at h; exact ih _ h
      | partly r => simp only [streamConn, Bool.true_eq_false, if_false, List.mem_cons, reduceCtorEq, DAct.check.injEq, false_or] at h; exact ih _ h
  induction cs with
  | nil => intro k h; simp [streamLoop] at h
  | cons c cs ih =>
    intro k h
    simp only [streamLoop, Bool.true_eq_false, if_false, List.cons_append, List.mem_cons, List.mem_append, DAct.check.injEq] at h
    rcases h with h | h | h
    · cases h
    · exact conn _ _ h
    · exact ih _ h

/-- **C117** Without a stop request all records of all connections are sent, in order. -/
theorem socket_delivers_all {R : Type} (eval : List Byte → R × Bool) (enc : R → List Byte) 
    (conns : List (List R)) (hd : ∀ c ∈ conns, ∀ r ∈ c, ReadsBack eval enc r) (hs : ∀ c ∈ conns, ∀ r ∈ c, enc r ≠ [] ∧ (enc r).length ≤ 16384) :
    sent (socketDriver eval (fun _ => true) (conns.map (List.map (fun r => .packet (enc r) false)))) = conns.flatten := by
  obtain ⟨body, h1, _, _, h4, _⟩ := socket_delivers eval enc (fun _ => true) (fun _ h => by cases h) conns hd hs
  rw [h1, sent_append]
  show sent body ++ [] = _
  rw [List.append_nil]
  refine h4 (fun hf => ?_)
  have hn : .check false ∉ socketDriver eval (fun _ => true) (conns.map (List.map (fun r => .packet (enc r) false))) := never_stopped _ 0
  rw [h1] at hn
  exact hn (List.mem_append_left _ hf)

/-- **C117** (finding) A record whose encoding is longer than 16384 bytes ends the connection: the records sent before it are delivered, it and everything behind it is not. -/
theorem long_packet_ends_connection {R : Type} (eval : List Byte → R × Bool) (enc : R → List Byte) (rs : List R) (hd : ∀ r ∈ rs, ReadsBack eval enc r)
    (hs : ∀ r ∈ rs, enc r ≠ [] ∧ (enc r).length ≤ 16384) (big : List Byte) (hb : 16384 < big.length) (rest : List Packet) :
    connRecords (connMsgs eval (List.replicate buffSize 0) (rs.map (fun r => .packet (enc r) false) ++ .packet big false :: rest)) = rs := by
  have hr : readable (rs.map (fun r => .packet (enc r) false) ++ .packet big false :: rest) = rs.map (fun r => .packet (enc r) false) := by
    induction rs with
    | nil =>
      show readable (.packet big false :: rest) = []
      rw [readable, if_neg (fun h => by omega)]
    | cons r rs ih =>
      obtain ⟨h1, h2⟩ := hs r List.mem_cons_self
      rw [List.map_cons, List.cons_append, readable, if_pos ⟨h1, h2⟩, ih (fun x hx => hd x (List.mem_cons_of_mem _ hx)) (fun x hx => hs x (List.mem_cons_of_mem _ hx))]
  have hr' : readable (rs.map (fun r => Packet.packet (enc r) false)) = rs.map (fun r => .packet (enc r) false) := by
    clear hr
    induction rs with
    | nil => rfl
    | cons r rs ih =>
      obtain ⟨h1, h2⟩ := hs r List.mem_cons_self
      rw [List.map_cons, readable, if_pos ⟨h1, h2⟩, ih (fun x hx => hd x (List.mem_cons_of_mem _ hx)) (fun x hx => hs x (List.mem_cons_of_mem _ hx))]
  have h0 := sends_records eval enc rs hd hs []
  rw [mixture_nil, socket_records, hr'] at h0
  rw [socket_records, hr]
  refine Eq.trans (List.map_congr_left (fun k hk => ?_)) h0
  have hk : k < (rs.map (fun r => Packet.packet (enc r) false)).length := List.mem_range.1 hk
  rw [List.take_append_of_le_length (by omega)]

/-- **C117** (finding) A packet that is cut off, behind a longer one, is completed with the end of the longer one. -/
theorem short_packet_completed {R : Type} (eval : List Byte → R × Bool) (a b : List Byte) (ha : a.length ≤ 16384) (hb : b ≠ []) (hab : b.length < a.length) :
    connRecords (connMsgs eval (List.replicate buffSize 0) [.packet a false, .packet b false])
      = [(eval (a ++ List.replicate (16384 - a.length) 0)).1, (eval (b ++ (a.drop b.length ++ List.replicate (16384 - a.length) 0))).1] := by
  have ha0 : a ≠ [] := by intro h; rw [h] at hab; exact absurd hab (Nat.not_lt_zero _)
  have hm1 : mixture [.packet a false] = a ++ List.replicate (16384 - a.length) 0 := by
    have := mixture_snoc [] a false ha
    rw [List.nil_append, mixture_nil, List.drop_replicate] at this
    exact this
  have hm2 : mixture [.packet a false, .packet b false] = b ++ (a.drop b.length ++ List.replicate (16384 - a.length) 0) := by
    have := mixture_snoc [.packet a false] b false (by omega)
    rw [hm1, List.drop_append_of_le_length (by omega)] at this
    exact this
  have hr : readable [.packet a false, .packet b false] = [.packet a false, .packet b false] := by
    rw [readable, if_pos ⟨ha0, ha⟩, readable, if_pos ⟨hb, by omega⟩, readable]
  rw [socket_records, hr]
  show [(eval (mixture [.packet a false])).1, (eval (mixture [.packet a false, .packet b false])).1] = _
  rw [hm1, hm2]

/-! ### Avro -/

/-- `vm.Eval` for a schema (dependency): the record decoded, or one filled in part. -/
def avroEval (s : Avro.Schema) (part : List Byte → s.Val) (bs : List Byte) : s.Val × Bool :=
  match Avro.decode s bs with
  | some x => (x.1, false)
  | none => (part bs, true)

/-- The Avro decoder meets the requirement of `socket_delivers`, for every schema. -/
theorem avro_reads_back (s : Avro.Schema) (part : List Byte → s.Val) (r : s.Val) : ReadsBack (avroEval s part) (Avro.encode s) r := by
  intro rest
  unfold avroEval
  rw [Avro.decode_encode]

/-- A schema with two texts, as of an executable and its arguments, the texts "/bin/ls" with argument "-l" and "/bin/sh" with argument "-c x", and the latter cut off. -/
def twoTexts : Avro.Schema := .pair .bytes .bytes
def txt (s : String) : List Byte := s.toList.map (fun c => UInt8.ofNat c.toNat)
def lsRec : twoTexts.Val := (txt "/bin/ls", txt "-al")
def shRec : twoTexts.Val := (txt "/bin/sh", txt "-c x")
def mixedRec : twoTexts.Val := (txt "/bin/sh", txt "-al")

theorem encText (l : List Byte) (h : l.length < 64) : Avro.encBytes l = UInt8.ofNat (2 * l.length) :: l := by
  unfold Avro.encBytes Avro.encLong
  show Avro.varint (2 * l.length) ++ l = _
  rw [Avro.varint, if_pos (by omega)]
  rfl

theorem encode_texts (a b : List Byte) (ha : a.length < 64) (hb : b.length < 64) :
    Avro.encode twoTexts (a, b) = UInt8.ofNat (2 * a.length) :: a ++ UInt8.ofNat (2 * b.length) :: b := by
  show Avro.encBytes a ++ Avro.encBytes b = _
  rw [encText a ha, encText b hb]

/-- **C117** (finding) So a record that was cut off in transit can be delivered, without any error, as a mixture of two records: here the program of the second with
the arguments of the first. -/
theorem mixed_record_delivered (part : List Byte → twoTexts.Val) :
    connMsgs (avroEval twoTexts part) (List.replicate buffSize 0)
      [.packet (Avro.encode twoTexts lsRec) false, .packet ((Avro.encode twoTexts shRec).take 8) false] = [.good lsRec, .good mixedRec] := by
  have e1 : Avro.encode twoTexts lsRec = 14 :: txt "/bin/ls" ++ 6 :: txt "-al" := encode_texts _ _ (by decide) (by decide)
  have e2 : (Avro.encode twoTexts shRec).take 8 = 14 :: txt "/bin/sh" := by
    rw [show Avro.encode twoTexts shRec = 14 :: txt "/bin/sh" ++ 8 :: txt "-c x" from encode_texts _ _ (by decide) (by decide)]
    decide
  have e3 : Avro.encode twoTexts mixedRec = 14 :: txt "/bin/sh" ++ 6 :: txt "-al" := encode_texts _ _ (by decide) (by decide)
  have f1 : Fits (.packet (Avro.encode twoTexts lsRec) false) := by rw [e1]; exact ⟨by decide, by decide, rfl⟩
  have f2 : Fits (.packet ((Avro.encode twoTexts shRec).take 8) false) := by rw [e2]; exact ⟨by decide, by decide, rfl⟩
  have m1 := mixture_snoc [] (Avro.encode twoTexts lsRec) false f1.2.1
  have m2 := mixture_snoc ([] ++ [.packet (Avro.encode twoTexts lsRec) false]) ((Avro.encode twoTexts shRec).take 8) false f2.2.1
  have hrest : ∃ rest, mixture ([] ++ [.packet (Avro.encode twoTexts lsRec) false] ++ [.packet ((Avro.encode twoTexts shRec).take 8) false])
      = Avro.encode twoTexts mixedRec ++ rest := by
    refine ⟨(mixture []).drop (Avro.encode twoTexts lsRec).length, ?_⟩
    rw [m2, m1, e2, e3, List.drop_append_of_le_length (by rw [e1]; decide), ← List.append_assoc]
    refine congrArg (· ++ (mixture []).drop (Avro.encode twoTexts lsRec).length) ?_
    rw [e1]
    decide
  obtain ⟨rest, hrest⟩ := hrest
  rw [← mixture_nil, connMsgs, readMsg_fits [] _ f1]
  dsimp only
  rw [if_neg (by decide), m1, avro_reads_back, if_neg (by intro h; cases h), ← m1, connMsgs, readMsg_fits _ _ f2]
  dsimp only
  rw [if_neg (by decide), hrest, avro_reads_back, if_neg (by intro h; cases h), connMsgs]

/-- The hypotheses of `socket_delivers` are met by two connections with packets of different lengths. -/
example (part : List Byte → twoTexts.Val) : sent (socketDriver (avroEval twoTexts part) (fun _ => true)
    ([[shRec, lsRec], [lsRec]].map (List.map (fun r => .packet (Avro.encode twoTexts r) false)))) = [shRec, lsRec, lsRec] := by
  have hl : ∀ r, r = shRec ∨ r = lsRec → Avro.encode twoTexts r ≠ [] ∧ (Avro.encode twoTexts r).length ≤ 16384 := by
    rintro r (rfl | rfl)
    · rw [show Avro.encode twoTexts shRec = 14 :: txt "/bin/sh" ++ 8 :: txt "-c x" from encode_texts _ _ (by decide) (by decide)]
      exact ⟨by decide, by decide⟩
    · rw [show Avro.encode twoTexts lsRec = 14 :: txt "/bin/ls" ++ 6 :: txt "-al" from encode_texts _ _ (by decide) (by decide)]
      exact ⟨by decide, by decide⟩
  exact socket_delivers_all (avroEval twoTexts part) (Avro.encode twoTexts) [[shRec, lsRec], [lsRec]] (fun _ _ r _ => avro_reads_back twoTexts part r) (by
    intro c hc r hr
    refine hl r ?_
    simp only [List.mem_cons, List.not_mem_nil, or_false] at hc
    rcases hc with rfl | rfl
    · simpa using hr
    · exact .inr (by simpa using hr))

end Verif.Pipeline

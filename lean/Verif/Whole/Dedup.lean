import Verif.Whole.Crash
import Verif.Whole.Example
/-
C83: the whole program with the duplicate filter switched on.
Sources: /repo/core/flattener/flattener.go:67-96, /repo/core/flattener/filter.go:35-126, and those of Whole/Program.lean.
-/
namespace Verif.Whole
open Verif.Decimal (Str)
open Verif.Exporter (Bytes)
open Verif.FlatRecord
open Verif.Policy
open Verif.Falco
open Verif.SysFlow
open Verif.Processor (Rec HCall)
open Verif.Flattener (FLib Timed Known fields eventsAfter Stores StoresEvent)
open Verif.Pipeline
open Verif.Pipeline.Drain (Net emitted driven Exec Waited)

variable {P : Type}

/-! ### Specification -/

/-- The process of an event as far as it identifies the event: program, arguments, user, group, operations, terminal. Texts are written in UTF-8, numbers as eight bytes. -/
def procIdentity (c : Processor.Ctx) (ops : Int) : List UInt8 :=
  Utf8.bytes ((c.proc.map (fun p => Strings.trimSpace p.exe)).getD []) ++ Utf8.bytes ((c.proc.map (fun p => Strings.trimSpace p.exeArgs)).getD []) ++
  Filter.le64 ((c.proc.map Proc.uid).getD 0) ++ Filter.le64 ((c.proc.map Proc.gid).getD 0) ++ Filter.le64 ops ++
  Filter.le64 (if (c.proc.map Proc.tty).getD false then 1 else 0)

/-- The path of the event's file. -/
def pathIdentity (c : Processor.Ctx) : List UInt8 := Utf8.bytes ((c.file.map (fun f => Strings.trimSpace f.path)).getD [])

/-- What identifies an event to the duplicate filter; `none`: Kubernetes events are never duplicates. -/
def identity (c : Processor.Ctx) : Rec → Option (List UInt8)
  | .procEvt e => some (procIdentity c e.opFlags)
  | .netFlow e => some (procIdentity c e.opFlags ++ Filter.le64 e.sip ++ Filter.le64 e.dip ++ Filter.le64 e.dport ++ Filter.le64 e.proto)
  | .fileFlow e => some (procIdentity c e.opFlags ++ pathIdentity c)
  | .fileEvt e => some (procIdentity c e.opFlags ++ pathIdentity c)
  | _ => none

/-- `k` is the duplicate key of the event: the hash of what identifies it. -/
def HasKey (F : FLib) (x : Event) (k : UInt64) : Prop := ∃ c b, Known x.1 x.2 c ∧ identity c x.2 = some b ∧ k = F.xxh b

/-- The events for which `flags` says yes. -/
def chosen : List Event → List Bool → List Event
  | x :: xs, b :: bs => (if b then [x] else []) ++ chosen xs bs
  | _, _ => []

/-- The events that survive the duplicate filter, when the `i`-th event is handled at time `t i`: all but those for which an event with the same key
survived less than `ttl` before. -/
def Survivors (F : FLib) (ttl : Int) (t : Nat → Int) (evs kept : List Event) : Prop :=
  ∃ flags : List Bool, flags.length = evs.length ∧ kept = chosen evs flags ∧
    ∀ (i : Nat) (x : Event), evs[i]? = some x → (flags[i]? = some true ↔
      ¬ ∃ (j : Nat) (y : Event) (k : UInt64), j < i ∧ evs[j]? = some y ∧ flags[j]? = some true ∧ HasKey F x k ∧ HasKey F y k ∧ t i - t j < ttl)

/-- Each event is handled at one instant, and time does not run backwards. -/
def Instants (clock : Nat → Nat → Int) : Prop := (∀ i n, clock i n = clock i 0) ∧ ∀ i, clock i 0 ≤ clock (i + 1) 0

/-! ### Proofs -/

theorem hasKey_iff (F : FLib) (x : Event) (c : HCall) (fr : FlatRec) (hr : Flattener.recOf F c = some fr) (hs : StoresEvent F x fr) (k : UInt64) :
    HasKey F x k ↔ Flattener.keyOf F c = some k := by
  obtain ⟨hev, ctx, hk, hst⟩ := hs
  have hx : HasKey F x k ↔ ∃ b, identity ctx x.2 = some b ∧ k = F.xxh b := by
    constructor
    · rintro ⟨c', b, h1, h2⟩
      rw [Flattener.known_unique h1 hk] at h2
      exact ⟨b, h2⟩
    · rintro ⟨b, h⟩
      exact ⟨ctx, b, hk, h⟩
  have hty : fr.getInt .SF_REC_TYPE .sysflow = Flattener.typeOf x.2 := by
    rw [hst.int]
    cases hx2 : x.2 <;> first | rfl | (rw [hx2] at hev; cases hev)
  have hcall : Flattener.filtered c = !(decide (fr.getInt .SF_REC_TYPE .sysflow = K8S_EVT)) := by
    have t : ∀ n : Int, fr.getInt .SF_REC_TYPE .sysflow = n → (!(decide (n = K8S_EVT))) = !(decide (fr.getInt .SF_REC_TYPE .sysflow = K8S_EVT)) := fun n h => by rw [h]
    cases c with
    | k8s c e => cases hr; exact (show false = _ by decide).trans (t K8S_EVT (Flattener.k8s_ints _ _ _))
    | procEvt c e => cases hr; exact (show true = _ by decide).trans (t PROC_EVT (Flattener.procEvt_ints _ _ _ _))
    | netFlow c e => cases hr; exact (show true = _ by decide).trans (t NET_FLOW (Flattener.netFlow_ints _ _ _ _))
    | fileFlow c e => cases hr; exact (show true = _ by decide).trans (t FILE_FLOW (Flattener.fileFlow_ints _ _ _ _))
    | fileEvt c e => cases hr; exact (show true = _ by decide).trans (t FILE_EVT (Flattener.fileEvt_ints _ _ _ _))
    | _ => cases hr
  have hexe : fr.getStr .PROC_EXE_STR .sysflow = (ctx.proc.map (fun p => Strings.trimSpace p.exe)).getD [] := by
    rw [hst.str]
    cases x.2 <;> (show Flattener.from? ctx.proc [] (fun p : Proc => Strings.trimSpace p.exe) = _) <;> cases ctx.proc <;> rfl
  have hargs : fr.getStr .PROC_EXEARGS_STR .sysflow = (ctx.proc.map (fun p => Strings.trimSpace p.exeArgs)).getD [] := by
    rw [hst.str]
    cases x.2 <;> (show Flattener.from? ctx.proc [] (fun p : Proc => Strings.trimSpace p.exeArgs) = _) <;> cases ctx.proc <;> rfl
  have hpath : fr.getStr .FILE_PATH_STR .sysflow = (ctx.file.map (fun f => Strings.trimSpace f.path)).getD [] := by
    rw [hst.str]
    cases x.2 <;> (show Flattener.from? ctx.file [] (fun f : SysFlow.File => Strings.trimSpace f.path) = _) <;> cases ctx.file <;> rfl
  have huid : fr.getInt .PROC_UID_INT .sysflow = (ctx.proc.map Proc.uid).getD 0 := by
    rw [hst.int]
    cases hx2 : x.2 <;> first
      | (rw [hx2] at hev; cases hev; done)
      | ((show Flattener.from? ctx.proc 0 (fun p : Proc => p.uid) = _); cases ctx.proc <;> rfl)
  have hgid : fr.getInt .PROC_GID_INT .sysflow = (ctx.proc.map Proc.gid).getD 0 := by
    rw [hst.int]
    cases hx2 : x.2 <;> first
      | (rw [hx2] at hev; cases hev; done)
      | ((show Flattener.from? ctx.proc 0 (fun p : Proc => p.gid) = _); cases ctx.proc <;> rfl)
  have htty : fr.getInt .PROC_TTY_INT .sysflow = if (ctx.proc.map Proc.tty).getD false then 1 else 0 := by
    rw [hst.int]
    cases hx2 : x.2 <;> first
      | (rw [hx2] at hev; cases hev; done)
      | ((show Flattener.from? ctx.proc 0 (fun p : Proc => if p.tty then (1 : Int) else 0) = _); cases ctx.proc <;> rfl)
  rw [hx]
  unfold Flattener.keyOf
  rw [hcall, hr, hty]
  have hkey : ∀ b, identity ctx x.2 = some b → Filter.hashInput fr = b := by
    intro b hb
    have ePE : ∀ b n p : List UInt8, b ++ (if PROC_EVT = NET_FLOW then n else []) ++ (if PROC_EVT = FILE_FLOW ∨ PROC_EVT = FILE_EVT then p else []) = b := by
      intro b n p; rw [if_neg (by decide), if_neg (by decide), List.append_nil, List.append_nil]
    have eNF : ∀ b n p : List UInt8, b ++ (if NET_FLOW = NET_FLOW then n else []) ++ (if NET_FLOW = FILE_FLOW ∨ NET_FLOW = FILE_EVT then p else []) = b ++ n := by
      intro b n p; rw [if_pos rfl, if_neg (by decide), List.append_nil]
    have eFF : ∀ b n p : List UInt8, b ++ (if FILE_FLOW = NET_FLOW then n else []) ++ (if FILE_FLOW = FILE_FLOW ∨ FILE_FLOW = FILE_EVT then p else []) = b ++ p := by
      intro b n p; rw [if_neg (by decide), if_pos (by decide), List.append_nil]
    have eFE : ∀ b n p : List UInt8, b ++ (if FILE_EVT = NET_FLOW then n else []) ++ (if FILE_EVT = FILE_FLOW ∨ FILE_EVT = FILE_EVT then p else []) = b ++ p := by
      intro b n p; rw [if_neg (by decide), if_pos (by decide), List.append_nil]
    unfold Filter.hashInput
    rw [hty, hexe, hargs, huid, hgid, htty, hpath, hst.int, hst.int, hst.int, hst.int, hst.int]
    cases hx2 : x.2 with
    | procEvt e => rw [hx2] at hb; cases hb; exact ePE _ _ _
    | netFlow e =>
      rw [hx2] at hb
      cases hb
      refine (eNF _ _ _).trans ?_
      simp only [procIdentity, List.append_assoc]
      rfl
    | fileFlow e => rw [hx2] at hb; cases hb; exact eFF _ _ _
    | fileEvt e => rw [hx2] at hb; cases hb; exact eFE _ _ _
    | _ => rw [hx2] at hb; cases hb
  have hnone : identity ctx x.2 = none ↔ Flattener.typeOf x.2 = K8S_EVT := by
    cases hx2 : x.2 with
    | procEvt e => exact ⟨fun h => (by cases h), fun h => absurd h (show ¬ PROC_EVT = K8S_EVT by decide)⟩
    | netFlow e => exact ⟨fun h => (by cases h), fun h => absurd h (show ¬ NET_FLOW = K8S_EVT by decide)⟩
    | fileFlow e => exact ⟨fun h => (by cases h), fun h => absurd h (show ¬ FILE_FLOW = K8S_EVT by decide)⟩
    | fileEvt e => exact ⟨fun h => (by cases h), fun h => absurd h (show ¬ FILE_EVT = K8S_EVT by decide)⟩
    | k8s e => exact ⟨fun _ => rfl, fun _ => rfl⟩
    | _ => rw [hx2] at hev; cases hev
  cases hi : identity ctx x.2 with
  | none =>
    rw [show decide (Flattener.typeOf x.2 = K8S_EVT) = true from decide_eq_true (hnone.1 hi)]
    constructor
    · rintro ⟨b, hb, -⟩; cases hb
    · intro h; cases h
  | some b =>
    rw [show decide (Flattener.typeOf x.2 = K8S_EVT) = false from decide_eq_false (fun h => by rw [hnone.2 h] at hi; cases hi)]
    have := hkey b hi
    constructor
    · rintro ⟨b', hb, rfl⟩
      cases hb
      show some (F.xxh (Filter.hashInput fr)) = _
      rw [this]
    · intro h
      have h : some (F.xxh (Filter.hashInput fr)) = some k := h
      rw [this] at h
      exact ⟨b, rfl, (Option.some.inj h).symm⟩

/-- Reading makes calls for events only. -/
theorem run_events (F : FLib) (fuel : Nat) (rs : List Rec) : ∀ (pre : List Rec) (s0 s : Processor.State) (cs0 cs : List HCall),
    Processor.run false fuel .init pre = some (s0, cs0) → Processor.run false fuel s0 rs = some (s, cs) → ∀ c ∈ cs, ∃ fr, Flattener.recOf F c = some fr := by
  induction rs with
  | nil => intro pre s0 s cs0 cs _ h; cases h; intro c hc; cases hc
  | cons r rs ih =>
    intro pre s0 s cs0 cs hp h
    simp only [Processor.run] at h
    split at h
    · cases h
    · rename_i s1 cs1 hs
      split at h
      · cases h
      · rename_i s2 cs2 hr
        cases h
        have hp' : Processor.run false fuel .init (pre ++ [r]) = some (s1, cs0 ++ cs1) := by
          rw [Processor.run_append, hp]
          simp only [Processor.run, hs, List.append_nil]
        have htail := ih (pre ++ [r]) s1 s (cs0 ++ cs1) cs2 hp' hr
        obtain ⟨s0', cs0', calls, e1, e2, e3⟩ := Processor.reader_context fuel pre r s1 (cs0 ++ cs1) hp'
        rw [hp] at e1
        cases e1
        have ec : cs1 = calls := List.append_cancel_left e2
        subst ec
        intro c hc
        rcases List.mem_append.1 hc with hc | hc
        · cases e3 with
          | other _ _ => cases hc
          | _ => rw [List.mem_singleton.1 hc]; exact ⟨_, rfl⟩
        · exact htail c hc

/-- The records delivered. -/
def sent (F : FLib) (s : Flattener.State) (xs : List Timed) : List FlatRec :=
  (Flattener.deliveries F s xs).filterMap (fun y => if y.2 then Flattener.recOf F y.1.call else none)

theorem handles_sent (F : FLib) (xs : List Timed) : ∀ (s : Flattener.State) (q : List FlatRec), s.outs = [q] →
    (Flattener.handles F s xs).outs = [q ++ sent F s xs] := by
  induction xs with
  | nil => intro s q h; simpa [Flattener.handles, sent, Flattener.deliveries] using h
  | cons x xs ih =>
    intro s q h
    unfold Flattener.handles sent Flattener.deliveries
    rw [List.filterMap_cons]
    rcases Flattener.handle_outs F s x.rd x.call with ho | ⟨fr, hr, ho⟩
    · have hd : Flattener.delivered F s x = false := by unfold Flattener.delivered; rw [ho]; simp
      rw [hd]
      exact ih _ q (ho.trans h)
    · have hd : Flattener.delivered F s x = true := by unfold Flattener.delivered; rw [ho, h]; simp
      rw [hd]
      rw [h] at ho
      simp only [if_true, hr]
      rw [ih _ (q ++ [fr]) ho, List.append_assoc]
      rfl

/-- Two states of the flattener that differ only in what has been sent on the channel. -/
def Alike (s s' : Flattener.State) : Prop := s.filterOn = s'.filterOn ∧ s.filter = s'.filter ∧ (∃ q, s.outs = [q]) ∧ ∃ q, s'.outs = [q]

theorem alike_handle (F : FLib) (s s' : Flattener.State) (h : Alike s s') (x : Timed) :
    Alike (Flattener.handle F s x.rd x.call) (Flattener.handle F s' x.rd x.call) ∧ Flattener.delivered F s x = Flattener.delivered F s' x := by
  obtain ⟨on, f, outs⟩ := s
  obtain ⟨on', f', outs'⟩ := s'
  obtain ⟨rfl, rfl, ⟨q, rfl⟩, q', rfl⟩ := h
  have send : ∀ (g : Option Filter.Filter) (fr : FlatRec), Alike (Flattener.sendAll ⟨on, g, [q]⟩ fr) (Flattener.sendAll ⟨on, g, [q']⟩ fr) :=
    fun g fr => ⟨rfl, rfl, ⟨_, rfl⟩, _, rfl⟩
  have stay : ∀ (g : Option Filter.Filter), Alike ⟨on, g, [q]⟩ ⟨on, g, [q']⟩ := fun g => ⟨rfl, rfl, ⟨_, rfl⟩, _, rfl⟩
  have lenSend : ∀ (g g' : Option Filter.Filter) (fr : FlatRec) (q : List FlatRec),
      (!((Flattener.sendAll ⟨on, g, [q]⟩ fr).outs.map List.length == (Flattener.State.mk on g' [q]).outs.map List.length)) = true := by
    intro g g' fr q; simp [Flattener.sendAll]
  have outCase : ∀ fr, Alike (Flattener.out F ⟨on, f, [q]⟩ x.rd fr) (Flattener.out F ⟨on, f, [q']⟩ x.rd fr) ∧
      (!((Flattener.out F ⟨on, f, [q]⟩ x.rd fr).outs.map List.length == (Flattener.State.mk on f [q]).outs.map List.length)) =
      (!((Flattener.out F ⟨on, f, [q']⟩ x.rd fr).outs.map List.length == (Flattener.State.mk on f [q']).outs.map List.length)) := by
    intro fr
    unfold Flattener.out
    cases on with
    | false => exact ⟨send _ _, (lenSend f f fr q).trans (lenSend f f fr q').symm⟩
    | true =>
      cases f with
      | none => exact ⟨send _ _, (lenSend none none fr q).trans (lenSend none none fr q').symm⟩
      | some f =>
        dsimp only
        split
        · exact ⟨stay _, by simp⟩
        · exact ⟨send _ _, (lenSend _ (some f) fr q).trans (lenSend _ (some f) fr q').symm⟩
  unfold Flattener.delivered
  cases x.call with
  | k8s c e => exact ⟨send _ _, (lenSend f f _ q).trans (lenSend f f _ q').symm⟩
  | netFlow c e => exact outCase _
  | fileFlow c e => exact outCase _
  | fileEvt c e => exact outCase _
  | procEvt c e => exact outCase _
  | header => exact ⟨stay _, by simp [Flattener.handle]⟩
  | cont => exact ⟨stay _, by simp [Flattener.handle]⟩
  | pod => exact ⟨stay _, by simp [Flattener.handle]⟩
  | proc => exact ⟨stay _, by simp [Flattener.handle]⟩
  | file => exact ⟨stay _, by simp [Flattener.handle]⟩

theorem alike_handles (F : FLib) (xs : List Timed) : ∀ (s s' : Flattener.State), Alike s s' →
    Alike (Flattener.handles F s xs) (Flattener.handles F s' xs) ∧ Flattener.deliveries F s xs = Flattener.deliveries F s' xs := by
  induction xs with
  | nil => intro s s' h; exact ⟨h, rfl⟩
  | cons x xs ih =>
    intro s s' h
    obtain ⟨h1, h2⟩ := alike_handle F s s' h x
    obtain ⟨h3, h4⟩ := ih _ _ h1
    exact ⟨h3, by rw [Flattener.deliveries, Flattener.deliveries, h2, h4]⟩

theorem deliveries_append (F : FLib) (xs ys : List Timed) : ∀ s : Flattener.State,
    Flattener.deliveries F s (xs ++ ys) = Flattener.deliveries F s xs ++ Flattener.deliveries F (Flattener.handles F s xs) ys := by
  induction xs with
  | nil => intro s; rfl
  | cons x xs ih => intro s; simp [Flattener.deliveries, Flattener.handles, ih]

theorem timed_append (clock : Nat → Nat → Int) (cs ds : List HCall) : ∀ i, timed clock i (cs ++ ds) = timed clock i cs ++ timed clock (i + cs.length) ds := by
  induction cs with
  | nil => intro i; simp [timed]
  | cons c cs ih => intro i; simp [timed, ih]; congr 1; omega

theorem reader_sends (F : FLib) (fuel : Nat) (clock : Nat → Nat → Int) (rs : List Rec) : ∀ (s s' : Processor.State) (cs : List HCall)
    (fl : Flattener.State) (k : Nat), (∃ q, fl.outs = [q]) → Processor.run false fuel s rs = some (s', cs) →
    emitted (readerStep F fuel clock) ⟨some s, fl, k⟩ (rs.map Msg.sf) = (sent F fl (timed clock k cs)).map Msg.flat := by
  induction rs with
  | nil => intro s s' cs fl k _ h; cases h; rfl
  | cons r rs ih =>
    intro s s' cs fl k hf h
    rw [Processor.run] at h
    split at h
    · cases h
    · rename_i s1 c1 hs
      split at h
      · cases h
      · rename_i s2 c2 hr
        cases h
        have hal : Alike { fl with outs := [[]] } fl := ⟨rfl, rfl, ⟨_, rfl⟩, hf⟩
        obtain ⟨a1, a2⟩ := alike_handles F (timed clock k c1) _ _ hal
        have h1 := handles_sent F (timed clock k c1) { fl with outs := [[]] } [] rfl
        rw [List.nil_append] at h1
        have e : readerStep F fuel clock ⟨some s, fl, k⟩ (.sf r) =
            (⟨some s1, Flattener.handles F { fl with outs := [[]] } (timed clock k c1), k + c1.length⟩, (sent F { fl with outs := [[]] } (timed clock k c1)).map Msg.flat) := by
          simp only [readerStep, hs, h1, List.headD_cons]
        rw [List.map_cons, emitted, e]
        dsimp only
        rw [ih s1 s' c2 _ _ ⟨_, h1⟩ hr, ← List.map_append]
        congr 1
        unfold sent
        rw [timed_append, deliveries_append, List.filterMap_append, a2, (alike_handles F (timed clock (k + c1.length) c2) _ _ a1).2]

theorem timed_order (clock : Nat → Nat → Int) (h : Instants clock) (cs : List HCall) : ∀ i t, t ≤ clock i 0 → Flattener.TimedOrder t (timed clock i cs) := by
  induction cs with
  | nil => intro i t _; trivial
  | cons c cs ih => intro i t ht; exact ⟨ht, rfl, fun n => h.1 i n, ih (i + 1) _ (h.2 i)⟩

theorem timed_get (clock : Nat → Nat → Int) (cs : List HCall) : ∀ (i k : Nat), (timed clock k cs)[i]? = cs[i]?.map (fun c => ⟨c, clock (k + i) 0, clock (k + i) 0, clock (k + i)⟩) := by
  induction cs with
  | nil => intro i k; rfl
  | cons c cs ih =>
    intro i k
    cases i with
    | zero => rfl
    | succ i =>
      show (timed clock (k + 1) cs)[i]? = _
      rw [ih i (k + 1), List.getElem?_cons_succ, show k + 1 + i = k + (i + 1) by omega]

theorem deliveries_get (F : FLib) (xs : List Timed) : ∀ (s : Flattener.State) (i : Nat),
    (Flattener.deliveries F s xs)[i]? = xs[i]?.map (fun x => (x, Flattener.delivered F (Flattener.handles F s (xs.take i)) x)) := by
  induction xs with
  | nil => intro s i; rfl
  | cons x xs ih =>
    intro s i
    cases i with
    | zero => rfl
    | succ i => exact ih _ i

theorem deliveries_length (F : FLib) (xs : List Timed) : ∀ s : Flattener.State, (Flattener.deliveries F s xs).length = xs.length := by
  induction xs with
  | nil => intro s; rfl
  | cons x xs ih => intro s; simp [Flattener.deliveries, ih]

theorem deliveries_take (F : FLib) (xs : List Timed) : ∀ (s : Flattener.State) (i : Nat),
    Flattener.deliveries F s (xs.take i) = (Flattener.deliveries F s xs).take i := by
  induction xs with
  | nil => intro s i; cases i <;> rfl
  | cons x xs ih =>
    intro s i
    cases i with
    | zero => rfl
    | succ i => simp [Flattener.deliveries, ih]

theorem chosen_forall₂ {r : Event → FlatRec → Prop} (F : FLib) : ∀ (ds : List (Timed × Bool)) (evs : List Event),
    List.Forall₂ (fun x d => ∃ fr, Flattener.recOf F d.1.call = some fr ∧ r x fr) evs ds →
    List.Forall₂ r (chosen evs (ds.map (·.2))) (ds.filterMap (fun y => if y.2 then Flattener.recOf F y.1.call else none)) := by
  intro ds evs h
  induction h with
  | nil => exact .nil
  | @cons x d evs ds h1 _ ih =>
    obtain ⟨fr, h2, h3⟩ := h1
    obtain ⟨y, b⟩ := d
    rw [List.filterMap_cons]
    cases b with
    | false => exact ih
    | true =>
      dsimp only at h2
      simp only [if_true, h2]
      exact .cons h3 ih

theorem forall₂_get {α β : Type} {r : α → β → Prop} {xs : List α} {ys : List β} (h : List.Forall₂ r xs ys) : ∀ (i : Nat) (x : α), xs[i]? = some x → ∃ y, ys[i]? = some y ∧ r x y := by
  induction h with
  | nil => intro i x hx; cases hx
  | cons h1 _ ih =>
    intro i x hx
    cases i with
    | zero => cases hx; exact ⟨_, rfl, h1⟩
    | succ i => exact ih i x hx

/-- The reader stage with the duplicate filter. -/
theorem reader_survivors (S : Setup P) (hdedup : S.dedup = true) (hclock : Instants S.clock) (rs : List Rec) (rd : Processor.State) (cs : List HCall)
    (hrun : Processor.run false S.fuel .init rs = some (rd, cs)) :
    ∃ kept frs, emitted (readerStep S.F S.fuel S.clock) S.reader0 (rs.map Msg.sf) = frs.map Msg.flat ∧ List.Forall₂ (StoresEvent S.F) kept frs ∧
      Survivors S.F S.ttl (fun i => S.clock i 0) (eventsAfter [] rs) kept := by
  have hev := run_events S.F S.fuel rs [] .init rd [] cs rfl hrun
  have hcalls : List.Forall₂ (fun x c => ∃ fr, Flattener.recOf S.F c = some fr ∧ StoresEvent S.F x fr) (eventsAfter [] rs) cs := by
    have h2 := Flattener.calls_store S.F S.fuel rs [] .init rd [] cs rfl hrun
    generalize eventsAfter [] rs = evs at h2
    clear hrun
    induction cs generalizing evs with
    | nil => cases h2; exact .nil
    | cons c cs ih =>
      obtain ⟨fr, hfr⟩ := hev c (by simp)
      rw [List.filterMap_cons, hfr] at h2
      cases h2 with
      | cons h3 h4 => exact .cons ⟨fr, hfr, h3⟩ (ih (fun d hd => hev d (by simp [hd])) _ h4)
  have hinit : S.reader0 = ⟨some .init, Flattener.init true S.ttl 1, 0⟩ := by unfold Setup.reader0; rw [hdedup]
  have hem := reader_sends S.F S.fuel S.clock rs .init rd cs (Flattener.init true S.ttl 1) 0 ⟨[], rfl⟩ hrun
  rw [← hinit] at hem
  have hget : ∀ i : Nat, (Flattener.deliveries S.F (Flattener.init true S.ttl 1) (timed S.clock 0 cs))[i]? =
      cs[i]?.map (fun c => ((⟨c, S.clock i 0, S.clock i 0, S.clock i⟩ : Timed), Flattener.delivered S.F
        (Flattener.handles S.F (Flattener.init true S.ttl 1) ((timed S.clock 0 cs).take i)) ⟨c, S.clock i 0, S.clock i 0, S.clock i⟩)) := by
    intro i
    rw [deliveries_get, timed_get, Option.map_map, Nat.zero_add]
    rfl
  have hdel : List.Forall₂ (fun x d => ∃ fr, Flattener.recOf S.F d.1.call = some fr ∧ StoresEvent S.F x fr) (eventsAfter [] rs)
      (Flattener.deliveries S.F (Flattener.init true S.ttl 1) (timed S.clock 0 cs)) := by
    rw [List.forall₂_iff_get]
    have hl : (Flattener.deliveries S.F (Flattener.init true S.ttl 1) (timed S.clock 0 cs)).length = cs.length := by
      rw [deliveries_length, ← List.length_map (f := fun x : Timed => x.call), timed_calls]
    refine ⟨by rw [hl]; exact hcalls.length_eq, ?_⟩
    intro i h1 h2
    obtain ⟨c, hc, fr, hfr, hs⟩ := forall₂_get hcalls i _ (List.getElem?_eq_getElem h1)
    refine ⟨fr, ?_, hs⟩
    have := hget i
    rw [hc, List.getElem?_eq_getElem h2] at this
    rw [List.get_eq_getElem, Option.some.inj this]
    exact hfr
  refine ⟨_, _, hem, chosen_forall₂ S.F _ _ hdel, _, ?_, rfl, ?_⟩
  · rw [List.length_map]; exact hdel.length_eq.symm
  · intro i x hx
    obtain ⟨c, hc, fr, hfr, hs⟩ := forall₂_get hcalls i x hx
    have hkey : ∀ k, HasKey S.F x k ↔ Flattener.keyOf S.F c = some k := hasKey_iff S.F x c fr hfr hs
    have hi := hget i
    rw [hc] at hi
    rw [List.getElem?_map, hi]
    simp only [Option.map_some, Option.some.injEq]
    have htake : (timed S.clock 0 cs).take i ++ [⟨c, S.clock i 0, S.clock i 0, S.clock i⟩] = (timed S.clock 0 cs).take (i + 1) := by
      rw [List.take_succ, timed_get, hc, Nat.zero_add]
      rfl
    cases hk : Flattener.keyOf S.F c with
    | none =>
      refine iff_of_true ?_ ?_
      · have : ∃ cc e, c = .k8s cc e := by
          cases c with
          | k8s cc e => exact ⟨_, _, rfl⟩
          | procEvt => cases hk
          | netFlow => cases hk
          | fileFlow => cases hk
          | fileEvt => cases hk
          | _ => cases hfr
        obtain ⟨cc, e, rfl⟩ := this
        obtain ⟨_, _, hne, _⟩ := Flattener.handles_filter S.F S.ttl 1 (by decide) ((timed S.clock 0 cs).take i)
        unfold Flattener.delivered Flattener.handle Flattener.sendAll
        generalize (Flattener.handles S.F (Flattener.init true S.ttl 1) ((timed S.clock 0 cs).take i)).outs = o at hne
        cases o with
        | nil => exact absurd rfl hne
        | cons q qs => simp
      · rintro ⟨j, y, k, _, _, _, h1, _⟩
        rw [hkey k, hk] at h1
        cases h1
    | some h =>
      have hord : Flattener.TimedOrder (S.clock 0 0) ((timed S.clock 0 cs).take i ++ [⟨c, S.clock i 0, S.clock i 0, S.clock i⟩]) := by
        rw [htake]
        refine Flattener.timedOrder_prefix _ ((timed S.clock 0 cs).drop (i + 1)) _ ?_
        rw [List.take_append_drop]
        exact timed_order S.clock hclock cs 0 _ (Int.le_refl _)
      rw [Flattener.delivered_iff S.F S.ttl _ 1 (by decide) _ _ h hord hk]
      refine not_congr ?_
      constructor
      · rintro ⟨y, hy, hyk, hlt⟩
        rw [deliveries_take] at hy
        obtain ⟨j, hj⟩ := List.mem_iff_getElem?.1 hy
        rw [List.getElem?_take] at hj
        split at hj
        · rename_i hji
          have hj' := hj
          rw [hget j] at hj'
          cases hcj : cs[j]? with
          | none => rw [hcj] at hj'; cases hj'
          | some d =>
            rw [hcj] at hj'
            simp only [Option.map_some, Option.some.injEq, Prod.mk.injEq] at hj'
            obtain ⟨rfl, hd⟩ := hj'
            have hlen : j < (eventsAfter [] rs).length := by
              rw [hcalls.length_eq]
              exact (List.getElem?_eq_some_iff.1 hcj).1
            obtain ⟨d', hd', fr', hfr', hs'⟩ := forall₂_get hcalls j _ (List.getElem?_eq_getElem hlen)
            rw [hcj] at hd'
            cases hd'
            refine ⟨j, _, h, hji, List.getElem?_eq_getElem hlen, ?_, (hkey h).2 hk, (hasKey_iff S.F _ d fr' hfr' hs' h).2 hyk, hlt⟩
            rw [List.getElem?_map, hj]
            rfl
        · cases hj
      · rintro ⟨j, y, k, hji, hjy, hfl, h1, h2, hlt⟩
        rw [hkey k, hk] at h1
        cases h1
        obtain ⟨d, hd, fr', hfr', hs'⟩ := forall₂_get hcalls j y hjy
        refine ⟨⟨d, S.clock j 0, S.clock j 0, S.clock j⟩, ?_, (hasKey_iff S.F y d fr' hfr' hs' h).1 h2, hlt⟩
        rw [deliveries_take]
        refine List.mem_iff_getElem?.2 ⟨j, ?_⟩
        rw [List.getElem?_take, if_pos hji]
        rw [List.getElem?_map, hget j, hd] at hfl
        rw [hget j, hd]
        simp only [Option.map_some, Option.some.injEq] at hfl
        rw [Option.map_some, hfl]

/-! ## C83 -/

open Classical in
/-- **C83** The whole program with the duplicate filter: when `Wait` returns, the log is complete (as in C76) for the events that survive the filter, and these are
all events of the stream but those with the same program, arguments, user, group, operations, terminal, and addresses or path, as an event that survived less than the configured
time before (up to collisions of the hash). -/
theorem whole_program_dedup (S : Setup P) (dss : P → List (List Decl)) (ok : S.JsonOk dss) (hdedup : S.dedup = true) (hclock : Instants S.clock)
    (rs : List Rec) (rd : Processor.State) (cs : List HCall) (hrun : Processor.run false S.fuel .init rs = some (rd, cs))
    (tr : List (Drain.Obs Msg)) (s : Drain.St S.net) (h : Exec S.net tr s) (hw : Waited s) (hd : driven tr = rs.map Msg.sf) :
    ∃ kept, Survivors S.F S.ttl (fun i => S.clock i 0) (eventsAfter [] rs) kept ∧ CompleteFor S dss (LineFor S) kept (S.log s) := by
  obtain ⟨kept, frs, h1, h2, h3⟩ := reader_survivors S hdedup hclock rs rd cs hrun
  exact ⟨kept, h3, log_complete S dss ok.toCore S.enc (LineFor S) (json_lines S ok.lib ok.version) tr s h hw _ _ (by rw [hd]; exact h1) h2⟩

/-- Only one list of events is the list of survivors. -/
theorem survivors_unique (F : FLib) (ttl : Int) (t : Nat → Int) (evs k1 k2 : List Event) (h1 : Survivors F ttl t evs k1) (h2 : Survivors F ttl t evs k2) : k1 = k2 := by
  obtain ⟨f1, l1, rfl, p1⟩ := h1
  obtain ⟨f2, l2, rfl, p2⟩ := h2
  have key : ∀ n i : Nat, i < n → i < evs.length → (f1[i]? = some true ↔ f2[i]? = some true) := by
    intro n
    induction n with
    | zero => intro i hi; omega
    | succ n ih =>
      intro i hi hl
      rw [p1 i _ (List.getElem?_eq_getElem hl), p2 i _ (List.getElem?_eq_getElem hl)]
      refine not_congr ⟨?_, ?_⟩
      · rintro ⟨j, y, k, a, b, c, d⟩
        exact ⟨j, y, k, a, b, (ih j (by omega) (by omega)).1 c, d⟩
      · rintro ⟨j, y, k, a, b, c, d⟩
        exact ⟨j, y, k, a, b, (ih j (by omega) (by omega)).2 c, d⟩
  have : f1 = f2 := by
    refine List.ext_getElem (l1.trans l2.symm) ?_
    intro i h1 h2
    have := key (i + 1) i (by omega) (by omega)
    rw [List.getElem?_eq_getElem h1, List.getElem?_eq_getElem h2] at this
    simp only [Option.some.injEq] at this
    cases hf : f1[i] <;> cases hg : f2[i] <;> simp_all
  rw [this]

/-- Kubernetes events, and first events with their key, always survive: nothing but a recent surviving duplicate suppresses an event. -/
theorem survives_without_duplicate (F : FLib) (ttl : Int) (t : Nat → Int) (evs kept : List Event) (h : Survivors F ttl t evs kept) (i : Nat) (x : Event)
    (hx : evs[i]? = some x) (hfresh : ∀ (j : Nat) (y : Event) (k : UInt64), j < i → evs[j]? = some y → HasKey F x k → ¬ HasKey F y k) : x ∈ kept := by
  obtain ⟨flags, hl, rfl, hp⟩ := h
  have hf : flags[i]? = some true := (hp i x hx).2 (by rintro ⟨j, y, k, a, b, c, d, e, _⟩; exact hfresh j y k a b d e)
  clear hp hfresh hl
  induction evs generalizing i flags with
  | nil => cases hx
  | cons e evs ih =>
    cases flags with
    | nil => cases hf
    | cons b bs =>
      cases i with
      | zero => cases hx; cases hf; simp [chosen]
      | succ i => exact List.mem_append_right _ (ih i hx bs hf)

/-! ### A concrete case -/

/-- The program of the example with a duplicate filter of ten time units and six units between events. -/
def dedupSetup (n : Nat) (code : List (Rule Record) × List (Filter Record)) : Setup Unit :=
  { demoSetup n code with F := Flattener.demoFLib, cap := 20, dedup := true, ttl := 10, clock := fun i _ => 6 * (i : Int) }

/-- The stream of the example with the last event but one repeated. -/
def dedupStream : List Rec := Processor.demoStream ++ [.procEvt (Processor.demoPE 2), .procEvt (Processor.demoPE 2)]

example : Instants (dedupSetup 1 ([], [])).clock := ⟨fun _ _ => rfl, fun i => by show 6 * (i : Int) ≤ 6 * ((i + 1 : Nat) : Int); omega⟩

/-- Of the five events, the fourth repeats the second after twelve units and is kept; the fifth repeats the fourth after six units and is suppressed. -/
example : ((emitted (readerStep Flattener.demoFLib 10 (dedupSetup 1 ([], [])).clock) (dedupSetup 1 ([], [])).reader0 (dedupStream.map Msg.sf)).length,
    (eventsAfter [] dedupStream).length) = (4, 5) := by decide +kernel

/-- There are complete executions that meet the hypotheses. -/
example (n : Nat) (hn : 0 < n) : ∃ code rd cs, (dedupSetup n code).JsonOk (fun _ => [lsDecls]) ∧ Processor.run false 10 .init dedupStream = some (rd, cs) ∧
    ∃ tr, ∃ s : Drain.St (dedupSetup n code).net, Exec (dedupSetup n code).net tr s ∧ Waited s ∧ driven tr = dedupStream.map Msg.sf := by
  obtain ⟨code, ok⟩ := demo_ok n hn
  have h : (Processor.run false 10 .init dedupStream).isSome = true := by decide
  obtain ⟨⟨rd, cs⟩, h⟩ := Option.isSome_iff_exists.mp h
  obtain ⟨hT, hC⟩ := net_ok (dedupSetup n code) ok.workers (show 0 < 20 by decide)
  refine ⟨code, rd, cs, ⟨⟨ok.str, ok.parse, ok.acyclic, ok.compiled, ok.benign, ok.workers, (show 0 < 20 by decide)⟩, ok.lib, ok.version⟩, h, ?_⟩
  obtain ⟨tr, s, he, hw, hd⟩ := Drain.complete_run_exists hT hC (dedupStream.map Msg.sf) (show 11 ≤ 20 by decide)
  exact ⟨tr, s, he, hw, hd⟩

end Verif.Whole

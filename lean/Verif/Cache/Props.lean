import Verif.Cache.Tables
import Verif.Base.Snoc
/-
Properties of the entity tables: C36 (latest-write maps), C37 (process versions), C38 (provenance).
-/
namespace Verif.Cache
open Verif.Decimal (Str)
open Verif.SysFlow

/-! ## Histories of operations -/

/-- An operation on the tables. -/
inductive Op where
  | reset
  | setCont (id : Str) (c : Container)
  | setPod (id : Str) (p : Pod)
  | setProc (id : OID) (p : Proc)
  | setFile (id : FOID) (f : File)
  | getPtree (id : OID)

/-- Execute one operation (`none`: `GetPtree` does not return within the given number of recursive calls). -/
def exec (fuel : Nat) (t : Tables) : Op → Option Tables
  | .reset => some .new
  | .setCont id c => some (t.setCont id c)
  | .setPod id p => some (t.setPod id p)
  | .setProc id p => some (t.setProc id p)
  | .setFile id f => some (t.setFile id f)
  | .getPtree id => (t.getPtree fuel id).map (·.2)

/-- Execute a history from the empty tables. -/
def execs (fuel : Nat) : Tables → List Op → Option Tables
  | t, [] => some t
  | t, op :: ops => match exec fuel t op with
    | none => none
    | some t' => execs fuel t' ops

def Op.isReset : Op → Bool
  | .reset => true
  | _ => false

/-- The operations after the last reset, newest first. -/
def newestFirst (ops : List Op) : List Op := ops.reverse.takeWhile (fun op => !op.isReset)

/-- Selectors of the writes to one key. -/
def contWrite (id : Str) : Op → Option Container
  | .setCont id' c => if id' = id then some c else none
  | _ => none
def podWrite (id : Str) : Op → Option Pod
  | .setPod id' c => if id' = id then some c else none
  | _ => none
def fileWrite (id : FOID) : Op → Option File
  | .setFile id' c => if id' = id then some c else none
  | _ => none
def procWrite (st : ObjState) (id : OID) : Op → Option Proc
  | .setProc id' p => if id' = id ∧ p.state = st then some p else none
  | _ => none

/-- The most recent write selected by `w` since the last reset. -/
def latest {α : Type _} (w : Op → Option α) (ops : List Op) : Option α := (newestFirst ops).findSome? w

theorem latest_snoc {α : Type _} (w : Op → Option α) (ops : List Op) (op : Op) :
    latest w (ops ++ [op]) = if op.isReset then none else (w op).or (latest w ops) := by
  unfold latest newestFirst
  rw [List.reverse_append, List.reverse_singleton, List.singleton_append, List.takeWhile_cons]
  cases op.isReset
  · simp only [Bool.not_false, if_true, List.findSome?_cons, Bool.false_eq_true, if_false]
    cases w op <;> rfl
  · rfl

theorem execs_snoc (fuel : Nat) (t : Tables) (ops : List Op) (op : Op) :
    execs fuel t (ops ++ [op]) = (execs fuel t ops).bind (fun t' => exec fuel t' op) := by
  induction ops generalizing t with
  | nil => simp only [List.nil_append, execs, Option.bind]; cases exec fuel t op <;> rfl
  | cons o ops ih =>
    simp only [List.cons_append, execs]
    cases exec fuel t o with
    | none => rfl
    | some t' => exact ih t'

/-- The process versions stored under an id. -/
def slotsOf (t : Tables) (id : OID) : Slots := (t.proc.get id).getD .empty

theorem slotsOf_setProc (t : Tables) (id id' : OID) (p : Proc) :
    slotsOf (t.setProc id p) id' = if id = id' then (slotsOf t id).put p else slotsOf t id' := by
  unfold slotsOf Tables.setProc
  cases h : t.proc.get id with
  | none =>
    simp only [AMap.get_set]
    by_cases e : id = id' <;> simp [e]
  | some s =>
    simp only [AMap.get_set]
    by_cases e : id = id' <;> simp [e]

theorem getProc_slots (t : Tables) (id : OID) :
    t.getProc id = (slotsOf t id).modified.or ((slotsOf t id).created.or (slotsOf t id).reup) := by
  unfold Tables.getProc slotsOf
  cases h : t.proc.get id with
  | none => rfl
  | some s =>
    obtain ⟨c, m, r⟩ := s
    cases m <;> cases c <;> simp

theorem getPtree_tables (t t' : Tables) (fuel : Nat) (id : OID) (l : List Proc) (h : t.getPtree fuel id = some (l, t')) :
    t'.cont = t.cont ∧ t'.pod = t.pod ∧ t'.proc = t.proc ∧ t'.file = t.file := by
  unfold Tables.getPtree at h
  split at h
  · cases h; simp
  · split at h
    · cases h
    · cases h; simp

/-- The state of all tables after a history. -/
theorem tables_spec (fuel : Nat) (ops : List Op) : ∀ t, execs fuel .new ops = some t →
    (∀ id, t.getCont id = latest (contWrite id) ops)
    ∧ (∀ id, t.getPod id = latest (podWrite id) ops)
    ∧ (∀ id, t.getFile id = latest (fileWrite id) ops)
    ∧ (∀ id, slotsOf t id = ⟨latest (procWrite .created id) ops, latest (procWrite .modified id) ops,
        latest (procWrite .reup id) ops⟩) := by
  induction ops using snocInduction with
  | nil =>
    intro t h
    simp only [execs, Option.some.injEq] at h
    subst h
    exact ⟨fun _ => rfl, fun _ => rfl, fun _ => rfl, fun _ => rfl⟩
  | snoc ops op ih =>
    intro t h
    rw [execs_snoc] at h
    cases hr : execs fuel .new ops with
    | none => rw [hr] at h; cases h
    | some t1 =>
      rw [hr] at h
      obtain ⟨hc, hp, hf, hs⟩ := ih t1 hr
      change exec fuel t1 op = some t at h
      cases op with
      | reset =>
        simp only [exec, Option.some.injEq] at h
        subst h
        simp only [latest_snoc, Op.isReset, if_true]
        exact ⟨fun _ => rfl, fun _ => rfl, fun _ => rfl, fun _ => rfl⟩
      | setCont id c =>
        simp only [exec, Option.some.injEq] at h
        subst h
        simp only [latest_snoc, Op.isReset, Bool.false_eq_true, if_false, contWrite, podWrite, fileWrite, procWrite, Option.none_or]
        refine ⟨fun id' => ?_, hp, hf, hs⟩
        show AMap.get (t1.cont.set id c) id' = _
        rw [AMap.get_set, ← hc]
        by_cases e : id = id' <;> simp [e, Tables.getCont]
      | setPod id c =>
        simp only [exec, Option.some.injEq] at h
        subst h
        simp only [latest_snoc, Op.isReset, Bool.false_eq_true, if_false, contWrite, podWrite, fileWrite, procWrite, Option.none_or]
        refine ⟨hc, fun id' => ?_, hf, hs⟩
        show AMap.get (t1.pod.set id c) id' = _
        rw [AMap.get_set, ← hp]
        by_cases e : id = id' <;> simp [e, Tables.getPod]
      | setFile id c =>
        simp only [exec, Option.some.injEq] at h
        subst h
        simp only [latest_snoc, Op.isReset, Bool.false_eq_true, if_false, contWrite, podWrite, fileWrite, procWrite, Option.none_or]
        refine ⟨hc, hp, fun id' => ?_, hs⟩
        show AMap.get (t1.file.set id c) id' = _
        rw [AMap.get_set, ← hf]
        by_cases e : id = id' <;> simp [e, Tables.getFile]
      | setProc id p =>
        simp only [exec, Option.some.injEq] at h
        subst h
        simp only [latest_snoc, Op.isReset, Bool.false_eq_true, if_false, contWrite, podWrite, fileWrite, procWrite, Option.none_or]
        have e1 : (t1.setProc id p).cont = t1.cont ∧ (t1.setProc id p).pod = t1.pod ∧ (t1.setProc id p).file = t1.file := by
          unfold Tables.setProc; split <;> simp
        refine ⟨fun i => ?_, fun i => ?_, fun i => ?_, fun i => ?_⟩
        · rw [← hc]; unfold Tables.getCont; rw [e1.1]
        · rw [← hp]; unfold Tables.getPod; rw [e1.2.1]
        · rw [← hf]; unfold Tables.getFile; rw [e1.2.2]
        · rw [slotsOf_setProc]
          by_cases e : id = i
          · subst e
            rw [if_pos rfl, hs]
            unfold Slots.put
            cases hst : p.state <;> simp
          · rw [if_neg e, hs]
            simp [e]
      | getPtree id =>
        simp only [exec] at h
        cases hg : t1.getPtree fuel id with
        | none => rw [hg] at h; cases h
        | some r =>
          obtain ⟨l, t2⟩ := r
          rw [hg] at h
          simp only [Option.map_some, Option.some.injEq] at h
          subst h
          obtain ⟨a, b, c, d⟩ := getPtree_tables t1 t2 fuel id l hg
          simp only [latest_snoc, Op.isReset, Bool.false_eq_true, if_false, contWrite, podWrite, fileWrite, procWrite, Option.none_or]
          refine ⟨fun i => ?_, fun i => ?_, fun i => ?_, fun i => ?_⟩
          · rw [← hc]; unfold Tables.getCont; rw [a]
          · rw [← hp]; unfold Tables.getPod; rw [b]
          · rw [← hf]; unfold Tables.getFile; rw [d]
          · rw [← hs]; unfold slotsOf; rw [c]

/-! ## C36 and C37 -/

/-- C36. After any history of operations, looking up a container, pod or file returns the most recent one stored
under that id since the last reset, and nothing if there is none. -/
theorem latest_write_maps (fuel : Nat) (ops : List Op) (t : Tables) (h : execs fuel .new ops = some t) :
    (∀ id, t.getCont id = latest (contWrite id) ops)
    ∧ (∀ id, t.getPod id = latest (podWrite id) ops)
    ∧ (∀ id, t.getFile id = latest (fileWrite id) ops) :=
  ⟨(tables_spec fuel ops t h).1, (tables_spec fuel ops t h).2.1, (tables_spec fuel ops t h).2.2.1⟩

/-- C37. After any history, looking up a process returns the latest MODIFIED version stored under its id since the
last reset if there is one, else the latest CREATED one, else the latest REUP one, else nothing. -/
theorem process_versions (fuel : Nat) (ops : List Op) (t : Tables) (h : execs fuel .new ops = some t) (id : OID) :
    t.getProc id = (latest (procWrite .modified id) ops).or
      ((latest (procWrite .created id) ops).or (latest (procWrite .reup id) ops)) := by
  rw [getProc_slots, (tables_spec fuel ops t h).2.2.2 id]

/-- What `latest` means: the value of the last write to the key, with no reset and no other write to it after. -/
theorem latest_eq_some {α : Type _} (w : Op → Option α) (hw : w .reset = none) (ops : List Op) (v : α) :
    latest w ops = some v ↔
      ∃ pre op post, ops = pre ++ op :: post ∧ w op = some v ∧ ∀ o ∈ post, o ≠ .reset ∧ w o = none := by
  induction ops using snocInduction with
  | nil => simp [latest, newestFirst]
  | snoc ops op ih =>
    rw [latest_snoc]
    constructor
    · intro h
      cases hr : op.isReset with
      | true => rw [hr] at h; cases h
      | false =>
        rw [hr] at h
        have hne : op ≠ .reset := fun e => by rw [e] at hr; cases hr
        simp only [Bool.false_eq_true, if_false] at h
        cases ho : w op with
        | some u =>
          rw [ho] at h
          cases h
          exact ⟨ops, op, [], rfl, ho, by simp⟩
        | none =>
          rw [ho, Option.none_or] at h
          obtain ⟨pre, o, post, e, h1, h2⟩ := ih.1 h
          refine ⟨pre, o, post ++ [op], by rw [e]; simp, h1, ?_⟩
          intro x hx
          rcases List.mem_append.1 hx with hx | hx
          · exact h2 x hx
          · rw [List.mem_singleton.1 hx]; exact ⟨hne, ho⟩
    · rintro ⟨pre, o, post, e, h1, h2⟩
      have hreset : ∀ o : Op, o.isReset = true → o = .reset := fun o h => by cases o <;> first | rfl | cases h
      rcases List.eq_nil_or_concat post with hp | ⟨post', last, hp⟩
      · subst hp
        obtain ⟨rfl, e2⟩ := List.append_inj' e rfl
        cases e2
        have : op.isReset = false := by
          cases hr : op.isReset with
          | false => rfl
          | true => rw [hreset op hr, hw] at h1; cases h1
        rw [this, h1]; rfl
      · subst hp
        rw [List.concat_eq_append] at e h2
        have e' : ops ++ [op] = (pre ++ o :: post') ++ [last] := by rw [e]; simp
        obtain ⟨e1, e2⟩ := List.append_inj' e' rfl
        cases e2
        obtain ⟨hr, hn⟩ := h2 op (by simp)
        have hl := ih.2 ⟨pre, o, post', e1, h1, fun x hx => h2 x (by simp [hx])⟩
        have : op.isReset = false := by
          cases hr' : op.isReset with
          | false => rfl
          | true => exact absurd (hreset op hr') hr
        rw [this, hn, hl]; rfl

/-- Entities with different ids never interfere: storing under one id leaves every other lookup unchanged. -/
theorem no_interference (t : Tables) (id id' : OID) (p : Proc) (h : id ≠ id') : (t.setProc id p).getProc id' = t.getProc id' := by
  rw [getProc_slots, getProc_slots, slotsOf_setProc, if_neg h]

/-! ## C38: provenance -/

/-- The ancestor chain, specified from a lookup function: it starts with the process and follows parent ids until a
process is unknown or has no parent id. -/
inductive Chain (look : OID → Option Proc) : OID → List Proc → Prop where
  | unknown {id} : look id = none → Chain look id []
  | root {id p} : look id = some p → p.poid = none → Chain look id [p]
  | step {id p q l} : look id = some p → p.poid = some q → Chain look q l → Chain look id (p :: l)

/-- The parent relation: `q` is the parent id of the known process `id`. -/
def Parent (look : OID → Option Proc) (id q : OID) : Prop := ∃ p, look id = some p ∧ p.poid = some q

theorem chain_unique {look : OID → Option Proc} {id : OID} {l l' : List Proc} (h : Chain look id l) (h' : Chain look id l') : l = l' := by
  induction h generalizing l' with
  | unknown h =>
    cases h' with
    | unknown => rfl
    | root h2 => rw [h] at h2; cases h2
    | step h2 => rw [h] at h2; cases h2
  | root h hp =>
    cases h' with
    | unknown h2 => rw [h] at h2; cases h2
    | root h2 => rw [h] at h2; cases h2; rfl
    | step h2 hp2 => rw [h] at h2; cases h2; rw [hp] at hp2; cases hp2
  | step h hp _ ih =>
    cases h' with
    | unknown h2 => rw [h] at h2; cases h2
    | root h2 hp2 => rw [h] at h2; cases h2; rw [hp] at hp2; cases hp2
    | step h2 hp2 hc => rw [h] at h2; cases h2; rw [hp] at hp2; cases hp2; rw [ih hc]

/-- C38. The provenance computation returns exactly the ancestor chain (when it returns). -/
theorem provenance_iff (t : Tables) (id : OID) (l : List Proc) :
    (∃ fuel, t.getProcProv fuel id = some l) ↔ Chain t.getProc id l := by
  constructor
  · rintro ⟨fuel, h⟩
    induction fuel generalizing id l with
    | zero => cases h
    | succ n ih =>
      unfold Tables.getProcProv at h
      split at h
      · rename_i hg; cases h; exact .unknown hg
      · rename_i p hg
        split at h
        · rename_i hp; cases h; exact .root hg hp
        · rename_i q hp
          split at h
          · cases h
          · rename_i l' hl; cases h; exact .step hg hp (ih q l' hl)
  · intro h
    induction h with
    | unknown h => exact ⟨1, by simp [Tables.getProcProv, h]⟩
    | root h hp => exact ⟨1, by simp [Tables.getProcProv, h, hp]⟩
    | step h hp _ ih =>
      obtain ⟨n, hn⟩ := ih
      exact ⟨n + 1, by simp [Tables.getProcProv, h, hp, hn]⟩

/-- More fuel never changes a result. -/
theorem prov_mono (t : Tables) (n m : Nat) (hnm : n ≤ m) (id : OID) (l : List Proc) (h : t.getProcProv n id = some l) :
    t.getProcProv m id = some l := by
  induction n generalizing m id l with
  | zero => cases h
  | succ n ih =>
    cases m with
    | zero => omega
    | succ m =>
      unfold Tables.getProcProv at h ⊢
      cases hg : t.getProc id with
      | none => rw [hg] at h; exact h
      | some p =>
        rw [hg] at h
        simp only at h ⊢
        cases hp : p.poid with
        | none => rw [hp] at h; exact h
        | some q =>
          rw [hp] at h
          simp only at h ⊢
          cases hl : t.getProcProv n q with
          | none => rw [hl] at h; cases h
          | some l' => rw [hl] at h; rw [ih m (by omega) q l' hl]; exact h

/-- C38: the computation terminates whenever every parent was created before its children (more generally, whenever
some measure decreases along the parent relation). -/
theorem provenance_terminates (t : Tables) (rank : OID → Nat)
    (h : ∀ id q, Parent t.getProc id q → rank q < rank id) (id : OID) : ∃ l, Chain t.getProc id l := by
  have : ∀ n id, rank id < n → ∃ l, Chain t.getProc id l := by
    intro n
    induction n with
    | zero => intro id hid; omega
    | succ n ih =>
      intro id hid
      cases hg : t.getProc id with
      | none => exact ⟨[], .unknown hg⟩
      | some p =>
        cases hp : p.poid with
        | none => exact ⟨[p], .root hg hp⟩
        | some q =>
          have := h id q ⟨p, hg, hp⟩
          obtain ⟨l, hl⟩ := ih q (by omega)
          exact ⟨p :: l, .step hg hp hl⟩
  exact this _ id (Nat.lt_succ_self _)

/-- `Anc n id x`: following `n` parent links from `id` leads to `x`. -/
inductive Anc (look : OID → Option Proc) : Nat → OID → OID → Prop where
  | refl {id} : Anc look 0 id id
  | step {n id q x} : Parent look id q → Anc look n q x → Anc look (n + 1) id x

theorem anc_trans {look : OID → Option Proc} {n m : Nat} {a b c : OID} (h : Anc look n a b) (h' : Anc look m b c) :
    Anc look (n + m) a c := by
  induction h with
  | refl => simpa using h'
  | step hp _ ih => rw [Nat.add_right_comm]; exact .step hp (ih h')

theorem no_chain_of_cycle {look : OID → Option Proc} {id : OID} {l : List Proc} (hc : Chain look id l) :
    ∀ n x k, Anc look n id x → Anc look (k + 1) x x → False := by
  -- every chain is longer than any number of steps that can be made
  have len : ∀ {id l}, Chain look id l → ∀ n x, Anc look n id x → n ≤ l.length := by
    intro id l hc
    induction hc with
    | unknown h =>
      intro n x ha
      cases ha with
      | refl => simp
      | step hp _ => obtain ⟨p, h1, _⟩ := hp; rw [h] at h1; cases h1
    | root h hpo =>
      intro n x ha
      cases ha with
      | refl => simp
      | step hp _ => obtain ⟨p, h1, h2⟩ := hp; rw [h] at h1; cases h1; rw [hpo] at h2; cases h2
    | step h hpo _ ih =>
      intro n x ha
      cases ha with
      | refl => simp
      | step hp ha =>
        obtain ⟨p, h1, h2⟩ := hp
        rw [h] at h1; cases h1
        rw [hpo] at h2; cases h2
        have := ih _ _ ha
        simp; omega
  intro n x k hn hk
  have loop : ∀ j, Anc look (j * (k + 1)) x x := by
    intro j
    induction j with
    | zero => rw [Nat.zero_mul]; exact .refl
    | succ j ih => rw [Nat.succ_mul]; exact anc_trans ih hk
  have := len hc _ _ (anc_trans hn (loop (l.length + 1)))
  have h2 : l.length + 1 ≤ (l.length + 1) * (k + 1) := Nat.le_mul_of_pos_right _ (Nat.succ_pos k)
  omega

/-- The ids visited by a computation that runs out of fuel. -/
theorem visited (t : Tables) (fuel : Nat) (id : OID) (h : t.getProcProv fuel id = none) :
    ∃ ids : List OID, ids.length = fuel ∧ (∀ x ∈ ids, x ∈ t.proc.keys)
      ∧ (∀ i (hi : i < ids.length), Anc t.getProc i id ids[i]) := by
  induction fuel generalizing id with
  | zero => exact ⟨[], rfl, by simp, by simp⟩
  | succ n ih =>
    unfold Tables.getProcProv at h
    split at h
    · cases h
    · rename_i p hg
      split at h
      · cases h
      · rename_i q hp
        split at h
        · rename_i hn
          obtain ⟨ids, h1, h2, h3⟩ := ih q hn
          refine ⟨id :: ids, by simp [h1], ?_, ?_⟩
          · intro x hx
            rcases List.mem_cons.1 hx with rfl | hx
            · rw [← AMap.get_isSome_iff]
              unfold Tables.getProc at hg
              split at hg
              · cases hg
              · rename_i hs; rw [hs]; rfl
            · exact h2 x hx
          · intro i hi
            cases i with
            | zero => exact .refl
            | succ i =>
              have := h3 i (by simpa using hi)
              exact .step ⟨p, hg, hp⟩ this
        · cases h

theorem dup_of_not_nodup {α : Type _} [DecidableEq α] (l : List α) (h : ¬ l.Nodup) :
    ∃ i j, ∃ (hj : j < l.length) (hij : i < j), l[i]'(Nat.lt_trans hij hj) = l[j] := by
  induction l with
  | nil => exact absurd List.nodup_nil h
  | cons a l ih =>
    by_cases hn : l.Nodup
    · have ha : a ∈ l := Classical.byContradiction fun hc => h (List.nodup_cons.2 ⟨hc, hn⟩)
      obtain ⟨j, hj, e⟩ := List.getElem_of_mem ha
      exact ⟨0, j + 1, by simpa using hj, by omega, by simpa using e.symm⟩
    · obtain ⟨i, j, hj, hij, e⟩ := ih hn
      exact ⟨i + 1, j + 1, by simpa using hj, by omega, by simpa using e⟩

theorem nodup_length_le {α : Type _} [DecidableEq α] (l k : List α) (hn : l.Nodup) (hs : ∀ x ∈ l, x ∈ k) : l.length ≤ k.length := by
  induction l generalizing k with
  | nil => simp
  | cons a l ih =>
    have ha := hs a (.head _)
    have h1 := ih (k.erase a) (List.nodup_cons.1 hn).2 (fun x hx => by
      have hxa : x ≠ a := fun e => (List.nodup_cons.1 hn).1 (e ▸ hx)
      exact (List.mem_erase_of_ne hxa).2 (hs x (.tail _ hx)))
    rw [List.length_erase_of_mem ha] at h1
    have : 0 < k.length := List.length_pos_of_mem ha
    simp; omega

theorem cycle_split {look : OID → Option Proc} {i j : Nat} {id x : OID} (hij : i < j)
    (hi : Anc look i id x) (hj : Anc look j id x) : ∃ k, Anc look (k + 1) x x := by
  induction hi generalizing j with
  | refl =>
    cases j with
    | zero => omega
    | succ j => exact ⟨j, hj⟩
  | step hp _ ih =>
    cases hj with
    | refl => omega
    | step hp' hj' =>
      obtain ⟨p, h1, h2⟩ := hp
      obtain ⟨p', h1', h2'⟩ := hp'
      rw [h1] at h1'; cases h1'
      rw [h2] at h2'; cases h2'
      exact ih (by omega) hj'

/-- C38: the computation fails to terminate exactly when following parents from the process reaches a cycle; a number
of recursive calls exceeding the number of known processes by one always suffices otherwise. -/
theorem provenance_diverges_iff (t : Tables) (id : OID) :
    (∀ fuel, t.getProcProv fuel id = none) ↔ ∃ n x k, Anc t.getProc n id x ∧ Anc t.getProc (k + 1) x x := by
  constructor
  · intro h
    obtain ⟨ids, h1, h2, h3⟩ := visited t (t.proc.keys.length + 1) id (h _)
    have hnd : ¬ ids.Nodup := fun hn => by
      have := nodup_length_le ids t.proc.keys hn h2
      omega
    obtain ⟨i, j, hj, hij, e⟩ := dup_of_not_nodup ids hnd
    have ai := h3 i (Nat.lt_trans hij hj)
    have aj := h3 j hj
    rw [← e] at aj
    obtain ⟨k, hk⟩ := cycle_split hij ai aj
    exact ⟨i, _, k, ai, hk⟩
  · rintro ⟨n, x, k, ha, hc⟩ fuel
    cases hr : t.getProcProv fuel id with
    | none => rfl
    | some l => exact (no_chain_of_cycle ((provenance_iff t id l).1 ⟨fuel, hr⟩) n x k ha hc).elim

theorem provenance_fuel_bound (t : Tables) (id : OID) (fuel : Nat) (l : List Proc) (h : t.getProcProv fuel id = some l) :
    t.getProcProv (t.proc.keys.length + 1) id = some l := by
  cases hr : t.getProcProv (t.proc.keys.length + 1) id with
  | some l' =>
    rw [chain_unique ((provenance_iff t id l).1 ⟨_, h⟩) ((provenance_iff t id l').1 ⟨_, hr⟩)]
  | none =>
    obtain ⟨ids, h1, h2, h3⟩ := visited t _ id hr
    have hnd : ¬ ids.Nodup := fun hn => by
      have := nodup_length_le ids t.proc.keys hn h2
      omega
    obtain ⟨i, j, hj, hij, e⟩ := dup_of_not_nodup ids hnd
    have ai := h3 i (Nat.lt_trans hij hj)
    have aj := h3 j hj
    rw [← e] at aj
    obtain ⟨k, hk⟩ := cycle_split hij ai aj
    exact (no_chain_of_cycle ((provenance_iff t id l).1 ⟨_, h⟩) _ _ _ ai hk).elim

/-- C38: once computed, the chain of a process is returned unchanged, whatever is stored, until the next reset. -/
theorem provenance_stable (fuel fuel' : Nat) (t t1 t2 : Tables) (id : OID) (l : List Proc) (ops : List Op)
    (h : t.getPtree fuel id = some (l, t1)) (hops : Op.reset ∉ ops) (h2 : execs fuel t1 ops = some t2) :
    t2.getPtree fuel' id = some (l, t2) := by
  have key : ∀ (ops : List Op) (t1 t2 : Tables), Op.reset ∉ ops → execs fuel t1 ops = some t2 → t1.ptree.get id = some l →
      t2.ptree.get id = some l := by
    intro ops
    induction ops with
    | nil => intro t1 t2 _ he hm; cases he; exact hm
    | cons op ops ih =>
      intro t1 t2 hn he hm
      unfold execs at he
      split at he
      · cases he
      · rename_i t' ht'
        refine ih t' t2 (fun hc => hn (.tail _ hc)) he ?_
        cases op with
        | reset => exact absurd (.head _) hn
        | setCont => cases ht'; exact hm
        | setPod => cases ht'; exact hm
        | setFile => cases ht'; exact hm
        | setProc i p =>
          cases ht'
          unfold Tables.setProc
          split <;> exact hm
        | getPtree i =>
          simp only [exec] at ht'
          unfold Tables.getPtree at ht'
          split at ht'
          · cases ht'; exact hm
          · rename_i hnone
            split at ht'
            · cases ht'
            · cases ht'
              show AMap.get (t1.ptree.set i _) id = some l
              rw [AMap.get_set, if_neg, hm]
              intro e; rw [e, hm] at hnone; cases hnone
  have hm : t1.ptree.get id = some l := by
    unfold Tables.getPtree at h
    split at h
    · rename_i hm; cases h; exact hm
    · split at h
      · cases h
      · cases h
        show AMap.get (t.ptree.set id l) id = some l
        rw [AMap.get_set, if_pos rfl]
  have := key ops t1 t2 hops h2 hm
  unfold Tables.getPtree
  rw [this]

/-- C38: the first request since a reset returns the chain at that moment. -/
theorem provenance_first (fuel : Nat) (t t1 : Tables) (id : OID) (l : List Proc) (hfirst : t.ptree.get id = none)
    (h : t.getPtree fuel id = some (l, t1)) : Chain t.getProc id l := by
  unfold Tables.getPtree at h
  rw [hfirst] at h
  simp only at h
  split at h
  · cases h
  · rename_i l' hl; cases h; exact (provenance_iff t id _).1 ⟨fuel, hl⟩

/-! ### Concrete cases -/

def demoProc (st : ObjState) (pid : Int) (parent : Option Int) (exe : String) : Proc :=
  { state := st, oid := ⟨1, pid⟩, poid := parent.map (⟨1, ·⟩), ts := 5, exe := exe.toList, exeArgs := [], uid := 0, userName := [],
    gid := 0, groupName := [], tty := false, entry := false, containerId := none }

/-- init (1) ← sh (2) ← ls (3), then an exec of 3, and the parent of 1 unknown. -/
def demoOps : List Op :=
  [.setProc ⟨1, 9⟩ (demoProc .created 9 none "/old"), .reset,
   .setProc ⟨1, 1⟩ (demoProc .reup 1 (some 0) "/init"), .setProc ⟨1, 2⟩ (demoProc .created 2 (some 1) "/bin/sh"),
   .setProc ⟨1, 3⟩ (demoProc .created 3 (some 2) "/bin/sh"), .getPtree ⟨1, 3⟩,
   .setProc ⟨1, 3⟩ (demoProc .modified 3 (some 2) "/bin/ls")]

def demoTables : Tables := (execs 10 .new demoOps).getD .new

example : (execs 10 .new demoOps).isSome = true := by decide
example : demoTables.getProc ⟨1, 3⟩ = some (demoProc .modified 3 (some 2) "/bin/ls") := by decide
example : demoTables.getProc ⟨1, 9⟩ = none := by decide
example : demoTables.getProcProv 10 ⟨1, 3⟩ =
    some [demoProc .modified 3 (some 2) "/bin/ls", demoProc .created 2 (some 1) "/bin/sh", demoProc .reup 1 (some 0) "/init"] := by decide

/-- Finding: the memoised chain is not updated when the process changes (an exec): the chain handed out then starts
with an outdated version of the process. -/
theorem provenance_stale : ∃ t id l t' p, (∃ fuel ops, execs fuel .new ops = some t) ∧ t.getPtree 10 id = some (l, t')
    ∧ t.getProc id = some p ∧ l.head? ≠ some p :=
  ⟨demoTables, ⟨1, 3⟩, [demoProc .created 3 (some 2) "/bin/sh", demoProc .created 2 (some 1) "/bin/sh", demoProc .reup 1 (some 0) "/init"],
    demoTables, demoProc .modified 3 (some 2) "/bin/ls",
    ⟨10, demoOps, by rfl⟩, by rfl, by decide, by decide⟩

/-- Finding: a process that is its own parent makes the provenance computation diverge. -/
theorem provenance_can_diverge : ∃ t id, (∃ ops, execs 10 .new ops = some t) ∧ ∀ fuel, t.getProcProv fuel id = none := by
  refine ⟨Tables.new.setProc ⟨1, 2⟩ (demoProc .created 2 (some 2) "/x"), ⟨1, 2⟩, ⟨[.setProc ⟨1, 2⟩ (demoProc .created 2 (some 2) "/x")], rfl⟩, ?_⟩
  rw [provenance_diverges_iff]
  exact ⟨0, ⟨1, 2⟩, 0, .refl, .step ⟨demoProc .created 2 (some 2) "/x", by decide, by decide⟩ .refl⟩

end Verif.Cache

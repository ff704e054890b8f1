import Verif.Otel.Model
/-
C125: policy engines that note their rules in one and the same OpenTelemetry record at the same time.
Sources: /repo/core/policyengine/source/otel/contextualizer.go:34-115 (`AddRules` and what it calls), /repo/core/policyengine/engine/interpreter.go:168-172 (one call for each rule that applies),
/repo/core/policyengine/policyengine.go:205-210 (the same pointer goes to every output). The calls have no lock: they look for a scope, an attribute, and append to slices that all of them share.
-/
namespace Verif.Shared.Noting
open Verif.Decimal (Str)

/-! ### Model -/

/-- The two attributes that the processor writes: sf.processor.rules and sf.processor.tags (constants.go:21-22). -/
inductive Key where
  | rules
  | tags
deriving DecidableEq, Repr

/-- What slices have as elements, objects by who has made them: a scope that the record arrived with; the scope of the processor, an attribute, or a value of an attribute that a call of `AddRules` has
made. A record arrives without a scope of the processor. -/
inductive Elem where
  | own (k : Nat)
  | scope (i : Nat)
  | attr (i : Nat) (key : Key)
  | value (i : Nat) (key : Key) (text : Str)
deriving DecidableEq, Repr

/-- The slices that are appended to: the record's scopes; the attributes of a scope that call `s` has made; the values of an attribute that call `a` has made. -/
inductive Loc where
  | scopes
  | attrs (s : Nat)
  | values (a : Nat) (key : Key)
deriving DecidableEq, Repr

/-- A slice: its array, length, capacity. -/
structure Slice where
  array : Nat
  len : Nat
  cap : Nat
deriving DecidableEq, Repr

/-- What there is to append: the scope of the processor (contextualizer.go:90-94), an attribute (:111-113), the name of a rule or a tag (:49-50, :71-72). -/
inductive Job where
  | scope
  | attr (key : Key)
  | value (key : Key) (text : Str)
deriving DecidableEq, Repr

/-- Where a call is in `v = append(v, x)`: about to read `v`; about to write `x` behind its end; copying the elements to a new array, of which some are copied, and then writing `x`; about to assign `v`. -/
inductive App where
  | begin
  | write (h : Slice)
  | copy (h : Slice) (array cap copied : Nat)
  | store (s : Slice)
deriving DecidableEq, Repr

/-- Where a call of `AddRules` is: not begun; in the loop over the scopes (contextualizer.go:85-89); about to read the attributes, to look at the last but one or (`last`) the last (:98, :104); about to
look at it; appending; at its end. -/
inductive Pc where
  | start
  | scan (h : Slice) (k : Nat)
  | look (key : Key) (last : Bool)
  | probe (key : Key) (h : Slice) (last : Bool)
  | append (job : Job) (a : App)
  | done
deriving DecidableEq, Repr

/-- A call of `AddRules` with one rule: the scope and the attributes it has found or made, by who has made them, and the tags it has yet to append, in the order of Go's iteration over the map `tags`. -/
structure Call where
  scope : Nat
  rules : Nat
  tags : Nat
  todo : List Str
  pc : Pc

/-- The attribute that is known to a call. -/
def Call.attr (c : Call) : Key → Nat
  | .rules => c.rules
  | .tags => c.tags

/-- The slice to append to. -/
def Call.loc (c : Call) : Job → Loc
  | .scope => .scopes
  | .attr _ => .attrs c.scope
  | .value key _ => .values (c.attr key) key

/-- The element to append. -/
def elem (i : Nat) : Job → Elem
  | .scope => .scope i
  | .attr key => .attr i key
  | .value key t => .value i key t

/-- Memory: the slices, the arrays (those of a slice are numbered), how many arrays there are for a slice, and the calls. -/
structure Mem where
  hdr : Loc → Slice
  arr : Loc → Nat → Nat → Option Elem
  made : Loc → Nat
  calls : Nat → Call

/-- Assignment to an element of an array. -/
def put (arr : Loc → Nat → Nat → Option Elem) (l : Loc) (n k : Nat) (x : Option Elem) : Loc → Nat → Nat → Option Elem :=
  fun l' n' k' => if l' = l ∧ n' = n ∧ k' = k then x else arr l' n' k'

/-- The rest of a call that has found or made the attribute `key` of number `j` (contextualizer.go:40-50): the other attribute, or the name of the rule. -/
def Call.settle (name : Str) (c : Call) (key : Key) (j : Nat) : Call :=
  match key with
  | .rules => { c with rules := j, pc := .look .tags false }
  | .tags => { c with tags := j, pc := .append (.value .rules name) .begin }

/-- What comes after `append` (contextualizer.go:95, :114, :53-74). -/
def Call.next (i : Nat) (name : Str) (c : Call) (job : Job) : Call :=
  match job with
  | .scope => { c with scope := i, pc := .look .rules false }
  | .attr key => c.settle name key i
  | .value _ _ =>
    match c.todo with
    | [] => { c with pc := .done }
    | t :: ts => { c with todo := ts, pc := .append (.value .tags t) .begin }

/-- The attribute of this name that is there, if it is there (contextualizer.go:99-102, :105-108). -/
def attrOf (key : Key) : Option Elem → Option Nat
  | some (.attr j key') => if key' = key then some j else none
  | _ => none

/-- The position to look at in slice `h` (contextualizer.go:98-99, :104-105). -/
def position (h : Slice) (last : Bool) : Option Nat :=
  if last then (if 0 < h.len then some (h.len - 1) else none) else (if 1 < h.len then some (h.len - 2) else none)

/-- Memory with another state of call `i`. -/
def Mem.set (m : Mem) (i : Nat) (c : Call) : Mem := { m with calls := fun j => if j = i then c else m.calls j }

/-- The next step of call `i`, whose rule has this name: it reads or writes one slice (array, length and capacity at once) or one element of an array. `grow cap n` is the capacity of the array that `append`
makes for `n` elements. `none`: the call is at its end. -/
def Mem.step (grow : Nat → Nat → Nat) (name : Nat → Str) (m : Mem) (i : Nat) : Option Mem :=
  match (m.calls i).pc with
  | .start => some (m.set i { m.calls i with pc := .scan (m.hdr .scopes) 0 })
  | .scan h k =>
    if k < h.len then
      match m.arr .scopes h.array k with
      | some (.scope j) => some (m.set i { m.calls i with scope := j, pc := .look .rules false })
      | _ => some (m.set i { m.calls i with pc := .scan h (k + 1) })
    else some (m.set i { m.calls i with pc := .append .scope .begin })
  | .look key last => some (m.set i { m.calls i with pc := .probe key (m.hdr (.attrs (m.calls i).scope)) last })
  | .probe key h last =>
    match (position h last).bind (fun k => attrOf key (m.arr (.attrs (m.calls i).scope) h.array k)) with
    | some j => some (m.set i ((m.calls i).settle (name i) key j))
    | none => some (m.set i { m.calls i with pc := if last then .append (.attr key) .begin else .look key true })
  | .append job .begin =>
    if (m.hdr ((m.calls i).loc job)).len < (m.hdr ((m.calls i).loc job)).cap then some (m.set i { m.calls i with pc := .append job (.write (m.hdr ((m.calls i).loc job))) })
    else some { m.set i { m.calls i with pc := .append job (.copy (m.hdr ((m.calls i).loc job)) (m.made ((m.calls i).loc job))
          (grow (m.hdr ((m.calls i).loc job)).cap ((m.hdr ((m.calls i).loc job)).len + 1)) 0) } with
        made := fun l => if l = (m.calls i).loc job then m.made l + 1 else m.made l }
  | .append job (.write h) =>
    some { m.set i { m.calls i with pc := .append job (.store ⟨h.array, h.len + 1, h.cap⟩) } with arr := put m.arr ((m.calls i).loc job) h.array h.len (some (elem i job)) }
  | .append job (.copy h n cap k) =>
    if k < h.len then
      some { m.set i { m.calls i with pc := .append job (.copy h n cap (k + 1)) } with arr := put m.arr ((m.calls i).loc job) n k (m.arr ((m.calls i).loc job) h.array k) }
    else some { m.set i { m.calls i with pc := .append job (.store ⟨n, h.len + 1, cap⟩) } with arr := put m.arr ((m.calls i).loc job) n h.len (some (elem i job)) }
  | .append job (.store s) =>
    some { m.set i ((m.calls i).next i (name i) job) with hdr := fun l => if l = (m.calls i).loc job then s else m.hdr l }
  | .done => none

/-- Executions: in each step some call makes its next step. -/
inductive Run (grow : Nat → Nat → Nat) (name : Nat → Str) (m : Mem) : Mem → Prop where
  | refl : Run grow name m m
  | step {m' m'' : Mem} (i : Nat) : Run grow name m m' → m'.step grow name i = some m'' → Run grow name m m''

/-! ### Specification -/

/-- A record of `n` scopes, none of them the processor's; no call has begun. Call `i` has the tags `tags i`. -/
structure Starts (tags : Nat → List Str) (n : Nat) (m : Mem) : Prop where
  scopes : (m.hdr .scopes).len = n
  own : ∀ k < n, m.arr .scopes (m.hdr .scopes).array k = some (.own k)
  empty : ∀ l, l ≠ .scopes → (m.hdr l).len = 0
  nothing : ∀ l a k x, m.arr l a k = some x → l = .scopes ∧ x = .own k
  numbered : ∀ l a k, m.made l ≤ a → m.arr l a k = none
  started : ∀ i, (m.calls i).pc = .start ∧ (m.calls i).todo = tags i

/-- At position `k` of a slice there is this element. -/
def At (m : Mem) (l : Loc) (k : Nat) (x : Elem) : Prop := k < (m.hdr l).len ∧ m.arr l (m.hdr l).array k = some x

/-- The record lists a value: at position `k₃` of an attribute's values, the attribute at position `k₂` of a scope's attributes, the scope at position `k₁` of the record's scopes. -/
def Listed (m : Mem) (k₁ k₂ k₃ : Nat) (key : Key) (x : Elem) : Prop := ∃ s a, At m .scopes k₁ (.scope s) ∧ At m (.attrs s) k₂ (.attr a key) ∧ At m (.values a key) k₃ x

/-- No call is under way. -/
def Quiet (m : Mem) : Prop := ∀ i, (m.calls i).pc = .start ∨ (m.calls i).pc = .done

/-! ### Proofs -/

/-- How far a call is: what it may still make. -/
def stage : Pc → Nat
  | .start | .scan _ _ | .append .scope .begin => 0
  | .append .scope _ | .look .rules _ | .probe .rules _ _ | .append (.attr .rules) .begin => 1
  | .append (.attr .rules) _ | .look .tags _ | .probe .tags _ _ | .append (.attr .tags) .begin => 2
  | .append (.attr .tags) _ | .append (.value .rules _) .begin => 3
  | _ => 4

/-- The call has this yet to append. -/
def Left (i : Nat) (c : Call) : Elem → Prop
  | .own _ => False
  | .scope j => j = i ∧ stage c.pc = 0
  | .attr j .rules => j = i ∧ stage c.pc ≤ 1
  | .attr j .tags => j = i ∧ stage c.pc ≤ 2
  | .value j .rules _ => j = i ∧ stage c.pc ≤ 3
  | .value j .tags t => j = i ∧ (t ∈ c.todo ∨ c.pc = .append (.value .tags t) .begin)

/-- The position at which a call that is in `append` writes. -/
def App.position : App → Option Nat
  | .begin => none
  | .write h => some h.len
  | .copy h _ _ _ => some h.len
  | .store s => some (s.len - 1)

end Verif.Shared.Noting

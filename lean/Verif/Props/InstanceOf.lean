import Verif.Model.InstanceOf
/-
C53: `instanceof` does not change its operand.
-/
namespace Verif.InstanceOf

/-- `p` is on the prototype chain of `o`. -/
inductive OnChain (h : Heap) : Nat → Nat → Prop
  | here {o p} : h o = some p → OnChain h o p
  | next {o t p} : h o = some t → OnChain h t p → OnChain h o p

/-- The prototype chain of `o` has at most `n` objects. -/
inductive Ends (h : Heap) : Nat → Nat → Prop
  | here {o n} : h o = none → Ends h (n + 1) o
  | next {o t n} : h o = some t → Ends h n t → Ends h (n + 1) o

/-- The value is an instance of the constructor (its `prototype` being `p`). -/
def IsInstance (h : Heap) (p : Nat) : Val → Prop
  | .obj o => OnChain h o p
  | .prim _ => False

/-- The property `prototype` of the constructor, or of the function it is bound to. -/
def Ctor.proto : Ctor → Option Nat
  | .func p => p
  | .bound t => t.proto

theorem hasInstance_proto (h : Heap) (f : Nat) (v : Val) : ∀ c : Ctor,
    hasInstance h f c v = hasInstance h f (.func c.proto) v
  | .func p => rfl
  | .bound t => by
    have := hasInstance_proto h f v t
    simpa only [hasInstance, Ctor.proto] using this

theorem walk_result {h : Heap} {p : Nat} : ∀ {f o b o'}, walk h p f o = some (b, o') →
    (b = true ↔ OnChain h o p)
  | 0, _, _, _, e => by cases e
  | f + 1, o, b, o', e => by
    simp only [walk] at e
    split at e
    · next hn =>
      cases e
      simp only [Bool.false_eq_true, false_iff]
      intro k
      cases k with
      | here k => rw [hn] at k; cases k
      | next k _ => rw [hn] at k; cases k
    · next t ht =>
      split at e
      · next hp => cases e; subst hp; simp [OnChain.here ht]
      · next hp =>
        rw [walk_result e]
        constructor
        · exact .next ht
        · intro k
          cases k with
          | here k => rw [ht] at k; cases k; exact absurd rfl hp
          | next k q => rw [ht] at k; cases k; exact q

theorem walk_last {h : Heap} {p : Nat} : ∀ {f o b o'}, walk h p f o = some (b, o') →
    h o' = none ∨ h o' = some p
  | 0, _, _, _, e => by cases e
  | f + 1, o, b, o', e => by
    simp only [walk] at e
    split at e
    · next hn => cases e; exact Or.inl hn
    · next t ht =>
      split at e
      · next hp => cases e; subst hp; exact Or.inr ht
      · exact walk_last e

theorem walk_operand {h : Heap} {p f o o' : Nat} {b : Bool} (e : walk h p f o = some (b, o')) :
    o' = o ↔ (h o = none ∨ h o = some p) := by
  constructor
  · intro k; subst k; exact walk_last e
  · intro k
    cases f with
    | zero => cases e
    | succ f =>
      rcases k with k | k <;> simp [walk, k] at e <;> exact e.2.symm

theorem walk_total {h : Heap} {p : Nat} : ∀ {f o}, Ends h f o → ∃ r, walk h p f o = some r
  | _, o, .here hn => ⟨(false, o), by simp only [walk, hn]⟩
  | _, _, .next (t := t) ht k => by
    simp only [walk, ht]
    split
    · exact ⟨_, rfl⟩
    · exact walk_total k

/-- The answer of `instanceof` is right, for all prototype chains, and there is one for all chains
that end.  (Part of what makes the defect below hard to see.) -/
theorem C53_result (h : Heap) (fuel p : Nat) (c : Ctor) (v : Val) (hc : c.proto = some p)
    (hv : ∀ o, v = .obj o → Ends h fuel o) :
    ∃ b v', hasInstance h fuel c v = some (some b, v') ∧ (b = true ↔ IsInstance h p v) := by
  rw [hasInstance_proto, hc]
  cases v with
  | prim k => exact ⟨false, .prim k, rfl, by simp [IsInstance]⟩
  | obj o =>
    obtain ⟨⟨b, o'⟩, e⟩ := walk_total (p := p) (hv o rfl)
    exact ⟨b, .obj o', by simp only [hasInstance, e], walk_result e⟩

/-- If the property `prototype` of the constructor is not an object, an object gives a TypeError;
a value that is no object is simply no instance. -/
theorem C53_typeError (h : Heap) (fuel : Nat) (c : Ctor) (v : Val) (hc : c.proto = none) :
    ∃ r v', hasInstance h fuel c v = some (r, v') ∧
      ((∃ o, v = .obj o) → r = none) ∧ ((∃ k, v = .prim k) → r = some false) := by
  rw [hasInstance_proto, hc]
  cases v with
  | prim k => exact ⟨some false, .prim k, rfl, by simp, by simp⟩
  | obj o => exact ⟨none, .obj o, rfl, by simp, by simp⟩

/-- A bound function whose target has the prototype `undefined`. -/
example : hasInstance (fun _ => none) 3 (.bound (.func none)) (.obj 5) = some (none, .obj 5) := rfl

/-- C53 for the operator: it changes no variable, and of the registers only the two new ones and
that of the result, whatever happens to the cell of its operand. -/
theorem C53_operator (h : Heap) (fuel : Nat) (s s' : Frame) (x : Nat) (c : Ctor) (k : Val)
    (n rid : Nat) (he : operator h fuel s x c k n rid = some (some s')) :
    s'.vars = s.vars ∧ ∀ r, r ≠ n → r ≠ n + 1 → r ≠ rid → s'.regs r = s.regs r := by
  unfold operator at he
  simp only at he
  split at he
  · cases he
  · cases he
  · cases he
    refine ⟨rfl, fun r h1 h2 h3 => ?_⟩
    simp [setReg, h1, h2, h3]

/-- `v instanceof C`, where the prototype chain of `v` is 0, 1, 2, 3, and `C.prototype` is 2. -/
example : let h : Heap := fun n => if n < 3 then some (n + 1) else none
    let s : Frame := ⟨fun _ => .obj 0, fun _ => .prim 7⟩
    ∃ s', operator h 9 s 4 (.bound (.func (some 2))) (.prim 9) 5 1 = some (some s') ∧
      s'.vars 4 = .obj 0 ∧ s'.regs 1 = .prim 1 ∧ s'.regs 5 = .obj 1 := by
  exact ⟨_, rfl, rfl, rfl, rfl⟩

/-- C53, the cell of the operand: it keeps its value exactly when its object is an instance through
its own prototype, or has no prototype. -/
theorem C53_operand (h : Heap) (fuel p : Nat) (c : Ctor) (o : Nat) (hc : c.proto = some p)
    (b : Bool) (v' : Val) (e : hasInstance h fuel c (.obj o) = some (some b, v')) :
    v' = .obj o ↔ (h o = none ∨ h o = some p) := by
  rw [hasInstance_proto, hc] at e
  simp only [hasInstance] at e
  split at e
  · cases e
  · next b' o' hw => cases e; rw [← walk_operand hw]; simp

/-- C53 is violated for callers that use the cell afterwards: with `class Derived extends Base`,
`[new Derived()].filter(Function.prototype[Symbol.hasInstance], Base)` is `[Derived.prototype]`,
and `find` gives `Derived.prototype` too: an object that is not even in the array
(rjs_operation.c:1276). -/
theorem C53_violated :
    ∃ (h : Heap) (base d : Nat), (∀ o, o ≤ d → Ends h 4 o) ∧ IsInstance h base (.obj d) ∧
      filter (hasInstance h 4 (.func (some base))) [.obj d] ≠ some (some [.obj d]) ∧
      find (hasInstance h 4 (.func (some base))) [.obj d] ≠ some (some (some (.obj d))) := by
  refine ⟨fun n => if n = 0 then some 1 else if n = 1 then some 2 else if n = 2 then some 3 else none,
    2, 0, fun o ho => ?_, ?_, by decide, by decide⟩
  · have : o = 0 := by omega
    subst this
    exact .next rfl (.next rfl (.next rfl (.here rfl)))
  · exact .next rfl (.here rfl)

/-- C53, what remains: `filter` keeps the instances, and `find` finds the first one, of an array in
which every element is a primitive value, or its own prototype is `C.prototype` or null. -/
theorem C53_partial (h : Heap) (fuel p : Nat) (c : Ctor) (hc : c.proto = some p) (test : Val → Bool)
    (ht : ∀ v, test v = true ↔ IsInstance h p v) : ∀ (l : List Val),
    (∀ o, .obj o ∈ l → Ends h fuel o ∧ (h o = none ∨ h o = some p)) →
    filter (hasInstance h fuel c) l = some (some (l.filter test)) ∧
      find (hasInstance h fuel c) l = some (some (l.find? test))
  | [], _ => ⟨rfl, rfl⟩
  | v :: l, hl => by
    obtain ⟨i1, i2⟩ := C53_partial h fuel p c hc test ht l (fun o ho => hl o (by simp [ho]))
    obtain ⟨b, v', e, hb⟩ := C53_result h fuel p c v hc (fun o ho => (hl o (by simp [ho])).1)
    have hv' : v' = v := by
      cases v with
      | prim k =>
        rw [hasInstance_proto, hc] at e
        simp only [hasInstance] at e
        cases e; rfl
      | obj o => exact (C53_operand h fuel p c o hc b v' e).2 (hl o (by simp)).2
    have hbt : b = test v := by
      have := (ht v).trans hb.symm
      cases b <;> cases h1 : test v <;> simp_all
    subst hv' hbt
    simp only [filter, find, e, i1, i2]
    cases h1 : test v' <;> simp [h1]

example : let h : Heap := fun n => if n = 0 then some 1 else none
    (∀ o, Val.obj o ∈ [Val.prim 5, .obj 1, .obj 0] → Ends h 3 o ∧ (h o = none ∨ h o = some 1)) ∧
    filter (hasInstance h 3 (.func (some 1))) [.prim 5, .obj 1, .obj 0] = some (some [.obj 0]) := by
  refine ⟨fun o ho => ?_, rfl⟩
  simp only [List.mem_cons, Val.obj.injEq, reduceCtorEq, List.not_mem_nil, or_false, false_or] at ho
  rcases ho with rfl | rfl
  · exact ⟨.here rfl, Or.inl rfl⟩
  · exact ⟨.next rfl (.here rfl), Or.inr rfl⟩

end Verif.InstanceOf

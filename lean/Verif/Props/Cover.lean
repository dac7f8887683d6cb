import Verif.Lemmas.Cover4

/-!
# C94: expressions that turn out to be patterns

The full statement: for every source the parser gives the tree of the standard if the source is valid,
and a SyntaxError otherwise:

    parse strict s = if valid strict s then .ok (tree s) else .err

It does not hold.  `C94_partial` has it for the sources in which none of the forms listed in `tame`
occurs, and the `_violated` theorems below show that each of these forms has to be excepted.
-/

namespace Verif.Cover

open Spec

/-- **C94 (partial).** Sources without the forms excepted by `tame`: valid ones are read as the tree of
the standard, all others are refused, and no assertion fails.  Missing: the excepted forms. -/
theorem C94_partial (strict : Bool) (s : S) (h : tame strict s = true) :
    parse strict s = if valid strict s then .ok (tree s) else .err :=
  parse_eq s h

/-- Names for the examples: `a`, `b`. -/
def nA : Nat := 10
def nB : Nat := 11

/-- `[a, , {k: b.m = 1, b = a}, ...[a]] = [b, {a}]` -/
def exAssi : S :=
  .assi
    (.arr (.item (.id nA) (.hole (.item
      (.obj (.prop 5 (.assi (.member (.id nB)) .lit) (.shortInit nB (.id nA) .nil)))
      (.spread (.arr (.item (.id nA) .nil)) false .nil)))))
    (.arr (.item (.id nB) (.item (.obj (.short nA .nil)) .nil)))

example : tame true exAssi = true ∧ valid true exAssi = true := by decide +kernel
example : parse true exAssi = .ok (tree exAssi) := C94_partial true exAssi (by decide +kernel)

/-- `({k: [a = 1], ...b}, a = b) => [a] = b` -/
def exArrow : S :=
  .arrow
    (.arg (.obj (.prop 5 (.arr (.item (.assi (.id nA) .lit) .nil)) (.spread (.id nB) false .nil)))
      (.arg (.assi (.id nA) (.id nB)) .nil))
    (.assi (.arr (.item (.id nA) .nil)) (.id nB))

example : tame true exArrow = true ∧ valid true exArrow = true := by decide +kernel

/-- Refused: `({a = 1})`, `[...a, b] = 1`, strict `[eval] = 1`, `({__proto__: a, __proto__: b})`,
`([a]) = 1`, `(a + b) => 1`, `({k: 1} = a)`. -/
example : ∀ s ∈ [
    S.paren false (.obj (.shortInit nA .lit .nil)),
    .assi (.arr (.spread (.id nA) true (.item (.id nB) .nil))) .lit,
    .assi (.arr (.item (.id 1) .nil)) .lit,
    .paren false (.obj (.prop 0 (.id nA) (.prop 0 (.id nB) .nil))),
    .assi (.paren false (.arr (.item (.id nA) .nil))) .lit,
    .arrow (.arg (.op (.id nA) (.id nB)) .nil) .lit,
    .paren false (.assi (.obj (.prop 5 .lit .nil)) (.id nA))],
    tame true s = true ∧ valid true s = false ∧ parse true s = .err := by
  intro s hs
  have h : tame true s = true ∧ valid true s = false := by
    revert s
    decide +kernel
  refine ⟨h.1, h.2, ?_⟩
  rw [C94_partial true s h.1, h.2]
  rfl

/-- What the standard refuses. -/
abbrev wrong (strict : Bool) (s : S) : Prop := valid strict s = false
/-- What the standard reads. -/
abbrev right (strict : Bool) (s : S) : Prop := valid strict s = true

/-- **Violated.** `[(a)] = 1` and `[(a.m)] = 1` are valid, and are refused — though `[(a) = 1] = 1` is
read. -/
theorem C94_paren_violated :
    (right false (.assi (.arr (.item (.paren false (.id nA)) .nil)) .lit) ∧
      parse false (.assi (.arr (.item (.paren false (.id nA)) .nil)) .lit) = .err) ∧
    (right false (.assi (.arr (.item (.paren false (.member (.id nA))) .nil)) .lit) ∧
      parse false (.assi (.arr (.item (.paren false (.member (.id nA))) .nil)) .lit) = .err) ∧
    parse false (.assi (.arr (.item (.assi (.paren false (.id nA)) .lit) .nil)) .lit) =
      .ok (.assi (.pat (.arr (.elemInit (.leaf (.id nA)) .lit .nil))) .lit) := by
  refine ⟨⟨?_, ?_⟩, ⟨?_, ?_⟩, ?_⟩ <;> rfl

/-- **Violated.** `({...[a]} = 1)` and `({...a,} = 1)` are read, and so is the parameter
`({...a, b}) => 1`. -/
theorem C94_rest_violated :
    (wrong false (.assi (.obj (.spread (.arr (.item (.id nA) .nil)) false .nil)) .lit) ∧
      ∃ n, parse false (.assi (.obj (.spread (.arr (.item (.id nA) .nil)) false .nil)) .lit) = .ok n) ∧
    (wrong false (.assi (.obj (.spread (.id nA) true .nil)) .lit) ∧
      ∃ n, parse false (.assi (.obj (.spread (.id nA) true .nil)) .lit) = .ok n) ∧
    (wrong false (.arrow (.arg (.obj (.spread (.id nA) true (.short nB .nil))) .nil) .lit) ∧
      ∃ n, parse false (.arrow (.arg (.obj (.spread (.id nA) true (.short nB .nil))) .nil) .lit) = .ok n) :=
  ⟨⟨rfl, _, rfl⟩, ⟨rfl, _, rfl⟩, ⟨rfl, _, rfl⟩⟩

/-- **Violated.** `(a.m) => 1`, `([a.m]) => 1` and `([a.m] = 1) => 1` are no valid sources; the parser
meets `assert(0)`. -/
theorem C94_assert_violated :
    (wrong false (.arrow (.arg (.member (.id nA)) .nil) .lit) ∧
      parse false (.arrow (.arg (.member (.id nA)) .nil) .lit) = .crash) ∧
    (wrong false (.arrow (.arg (.arr (.item (.member (.id nA)) .nil)) .nil) .lit) ∧
      parse false (.arrow (.arg (.arr (.item (.member (.id nA)) .nil)) .nil) .lit) = .crash) ∧
    (wrong false (.arrow (.arg (.assi (.arr (.item (.member (.id nA)) .nil)) .lit) .nil) .lit) ∧
      parse false (.arrow (.arg (.assi (.arr (.item (.member (.id nA)) .nil)) .lit) .nil) .lit) =
        .crash) :=
  ⟨⟨rfl, rfl⟩, ⟨rfl, rfl⟩, ⟨rfl, rfl⟩⟩

/-- **Violated.** `[a = {b = 1}] = 1`, `(a = {b = 1}) => 1` and `({b = 1}).m = 1` are read: the late check
does not see initialisers and left sides. -/
theorem C94_late_check_violated :
    (wrong false (.assi (.arr (.item (.assi (.id nA) (.obj (.shortInit nB .lit .nil))) .nil)) .lit) ∧
      ∃ n, parse false
        (.assi (.arr (.item (.assi (.id nA) (.obj (.shortInit nB .lit .nil))) .nil)) .lit) = .ok n) ∧
    (wrong false (.arrow (.arg (.assi (.id nA) (.obj (.shortInit nB .lit .nil))) .nil) .lit) ∧
      ∃ n, parse false
        (.arrow (.arg (.assi (.id nA) (.obj (.shortInit nB .lit .nil))) .nil) .lit) = .ok n) ∧
    (wrong false (.assi (.member (.paren false (.obj (.shortInit nB .lit .nil)))) .lit) ∧
      ∃ n, parse false (.assi (.member (.paren false (.obj (.shortInit nB .lit .nil)))) .lit) = .ok n) :=
  ⟨⟨rfl, _, rfl⟩, ⟨rfl, _, rfl⟩, ⟨rfl, _, rfl⟩⟩

/-- **Violated.** `[{__proto__: a, __proto__: b}] = 1` and `({__proto__: a, __proto__: b}) => 1` are
valid, and are refused. -/
theorem C94_proto_violated :
    (right false (.assi (.arr (.item (.obj (.prop 0 (.id nA) (.prop 0 (.id nB) .nil))) .nil)) .lit) ∧
      parse false (.assi (.arr (.item (.obj (.prop 0 (.id nA) (.prop 0 (.id nB) .nil))) .nil)) .lit) =
        .err) ∧
    (right false (.arrow (.arg (.obj (.prop 0 (.id nA) (.prop 0 (.id nB) .nil))) .nil) .lit) ∧
      parse false (.arrow (.arg (.obj (.prop 0 (.id nA) (.prop 0 (.id nB) .nil))) .nil) .lit) = .err) :=
  ⟨⟨rfl, rfl⟩, ⟨rfl, rfl⟩⟩

/-- **Violated.** In strict mode `({eval}) => 1` is read, though `(eval) => 1` is refused. -/
theorem C94_strict_violated :
    (wrong true (.arrow (.arg (.obj (.short 1 .nil)) .nil) .lit) ∧
      ∃ n, parse true (.arrow (.arg (.obj (.short 1 .nil)) .nil) .lit) = .ok n) ∧
    parse true (.arrow (.arg (.id 1) .nil) .lit) = .err :=
  ⟨⟨rfl, _, rfl⟩, rfl⟩

/-- **Violated.** `(a,)` is read as an expression, and `((a) = 1) => 1` as an arrow function. -/
theorem C94_parentheses_violated :
    (wrong false (.paren true (.id nA)) ∧ ∃ n, parse false (.paren true (.id nA)) = .ok n) ∧
    (wrong false (.arrow (.arg (.assi (.paren false (.id nA)) .lit) .nil) .lit) ∧
      ∃ n, parse false (.arrow (.arg (.assi (.paren false (.id nA)) .lit) .nil) .lit) = .ok n) :=
  ⟨⟨rfl, _, rfl⟩, ⟨rfl, _, rfl⟩⟩

end Verif.Cover

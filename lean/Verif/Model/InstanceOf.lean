/-
Model of `instanceof` (`/repo/src/lib/rjs_operation.c`:1221-1325) and of the callers that pass a
cell of theirs to it: the operator (`/repo/src/lib/rjs_bc_gen.c`:1225-1253 and
`/repo/src/lib/rjs_bc_call.c`:728-731), and `Array.prototype.filter` and `find` with
`Function.prototype[Symbol.hasInstance]` as the callback
(`/repo/src/lib/rjs_array_object_inc.c`:814-925, `/repo/src/lib/rjs_function_object_inc.c`:268-279).

Arguments of native functions are pointers to the caller's cells
(`/repo/src/lib/rjs_builtin_func_object.c`:99), so a function that writes to its argument writes
to the caller's cell: functions here give back the new value of the cell.

Not modelled: `getPrototypeOf` traps of proxies, accessors `prototype`, and user defined
`Symbol.hasInstance` methods (a script function gets copies of its arguments).
-/
namespace Verif.InstanceOf

inductive Val where
  | obj (n : Nat)
  | prim (n : Nat)
deriving DecidableEq, Repr

/-- The prototypes of the objects (`none`: null). -/
abbrev Heap := Nat → Option Nat

/-- The loop of `rjs_ordinary_has_instance` (rjs_operation.c:1262-1277), with the last value of the
operand's cell; no result if the chain is longer than the fuel. -/
def walk (h : Heap) (p : Nat) : Nat → Nat → Option (Bool × Nat)
  | 0, _ => none
  | f + 1, o =>
    match h o with
    | none => some (false, o)
    | some t => if t = p then some (true, o) else walk h p f t

/-- The right operand: a function with the value of its property `prototype` (`none`: not an
object), or a bound function. -/
inductive Ctor where
  | func (proto : Option Nat)
  | bound (target : Ctor)

/-- The result of an operation; `none`: a TypeError. -/
abbrev Result := Option Bool

/-- `rjs_ordinary_has_instance` (rjs_operation.c:1230-1281), and `rjs_instance_of`
(rjs_operation.c:1292-1325) for a function whose `Symbol.hasInstance` method is that of
`Function.prototype`: the result and the new value of the operand's cell. -/
def hasInstance (h : Heap) (fuel : Nat) : Ctor → Val → Option (Result × Val)
  | .bound t, v => hasInstance h fuel t v
  | .func _, .prim k => some (some false, .prim k)
  | .func none, .obj o => some (none, .obj o)
  | .func (some p), .obj o =>
    match walk h p fuel o with
    | none => none
    | some (b, o') => some (some b, .obj o')

/-! ## The operator -/

/-- What a script can see of a function call being run, and its registers. -/
structure Frame where
  vars : Nat → Val
  regs : Nat → Val

def setReg (s : Frame) (r : Nat) (v : Val) : Frame :=
  { s with regs := fun x => if x = r then v else s.regs x }

/-- `x instanceof c` (`bc_gen_binary_expr`, rjs_bc_gen.c:1227-1253): the operands are loaded into
two new registers, `n` and `n + 1`; the result goes to `rid`.  `false` is `prim 0`, `true` is
`prim 1`.  The constructor is the value with the number `k`. -/
def operator (h : Heap) (fuel : Nat) (s : Frame) (x : Nat) (c : Ctor) (k : Val) (n rid : Nat) :
    Option (Option Frame) :=
  let s := setReg s n (s.vars x)
  let s := setReg s (n + 1) k
  match hasInstance h fuel c (s.regs n) with
  | none => none
  | some (none, v) => let _ := setReg s n v; some none
  | some (some b, v) => some (some (setReg (setReg s n v) rid (.prim (if b then 1 else 0))))

/-! ## Array methods with `Function.prototype[Symbol.hasInstance]` as callback -/

/-- `Array.prototype.filter` (rjs_array_object_inc.c:845-871) on an array without holes: the cell
`item` is passed to the callback, and then stored.  `none` inside: a TypeError. -/
def filter (call : Val → Option (Result × Val)) : List Val → Option (Option (List Val))
  | [] => some (some [])
  | v :: vs =>
    match call v with
    | none => none
    | some (none, _) => some none
    | some (some b, item) =>
      match filter call vs with
      | none => none
      | some none => some none
      | some (some l) => some (some (if b then item :: l else l))

/-- `Array.prototype.find` (rjs_array_object_inc.c:904-921); the inner `none`: a TypeError; the
innermost: undefined. -/
def find (call : Val → Option (Result × Val)) : List Val → Option (Option (Option Val))
  | [] => some (some none)
  | v :: vs =>
    match call v with
    | none => none
    | some (none, _) => some none
    | some (some b, item) => if b then some (some (some item)) else find call vs

end Verif.InstanceOf

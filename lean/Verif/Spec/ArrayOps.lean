import Verif.Model.ArrayOps
/-
What the methods of `Array.prototype` compute, in terms of lists.  An array is the list of its
elements; `none` is a hole.  From the model this takes the objects and the numbers only.
-/
namespace Verif.ArrayOps.Spec

variable {V : Type}

/-- Nothing stands in the way of a change: every property can be assigned to and removed, and new
ones can be added.  An array has no element beyond its length. -/
structure Plain (o : Obj V) : Prop where
  ext : o.ext = true
  lenWritable : o.lenWritable = true
  slots : ∀ k s, o.elem k = some s → s.writable = true ∧ s.configurable = true
  bound : o.len ≤ 2 ^ 53 - 1
  arrayLen : o.array = true → o.len < 2 ^ 32
  arrayEnd : o.array = true → ∀ k : Int, o.len ≤ k → k < 2 ^ 32 - 1 → o.elem k = none

/-- The object's elements are those of the list. -/
structure Holds (o : Obj V) (l : List (Option V)) : Prop where
  len : o.len = l.length
  elem : ∀ i : Nat, i < l.length → (o.elem i).map Slot.val = (l[i]?).join

/-- The object has been changed into one whose elements are those of the list; all else is as it
was. -/
structure Becomes (o o' : Obj V) (l : List (Option V)) : Prop where
  plain : Plain o'
  holds : Holds o' l
  array : o'.array = o.array
  /-- Elements beyond the new length have gone. -/
  gone : ∀ k : Int, (o'.len : Int) ≤ k → k < o.len → o'.elem k = none
  /-- Properties that are not elements have not been touched. -/
  others : ∀ k : Int, k < 0 ∨ ((o.len : Int) ≤ k ∧ (o'.len : Int) ≤ k) → o'.elem k = o.elem k

/-- A new array with these elements. -/
structure Fresh (a : Obj V) (l : List (Option V)) : Prop where
  plain : Plain a
  array : a.array = true
  holds : Holds a l
  others : ∀ k : Int, k < 0 ∨ (l.length : Int) ≤ k → a.elem k = none

/-- The place an argument stands for in a list of `len` elements: counted from the end if it is
negative, and at least 0 and at most `len`. -/
def place (len : Nat) : Num → Nat
  | .ninf => 0
  | .pinf => len
  | .fin (.ofNat n) => min n len
  | .fin (.negSucc n) => len - (n + 1)

/-- The same for an argument that may be left out. -/
def placeOr (len : Nat) : Option Num → Nat
  | none => len
  | some r => place len r

/-- How many elements `splice` removes, counted from `s`. -/
def removed (len s : Nat) : SpliceArgs V → Nat
  | .none => 0
  | .start _ => len - s
  | .full _ .ninf _ => 0
  | .full _ .pinf _ => len - s
  | .full _ (.fin n) _ => min n.toNat (len - s)

def startOf (len : Nat) : SpliceArgs V → Nat
  | .none => 0
  | .start s => place len s
  | .full s _ _ => place len s

def inserted : SpliceArgs V → List V
  | .full _ _ l => l
  | _ => []

/-- `n` elements from `s` on replaced. -/
def replaced (l : List (Option V)) (s n : Nat) (vs : List (Option V)) : List (Option V) :=
  l.take s ++ vs ++ l.drop (s + n)

def filled (l : List (Option V)) (a b : Nat) (v : V) : List (Option V) :=
  l.mapIdx fun i x => if a ≤ i ∧ i < b then some v else x

/-- The elements from `src` on, `n` of them, written over those from `dst` on. -/
def copied (l : List (Option V)) (src dst n : Nat) : List (Option V) :=
  l.take dst ++ (l.drop src).take n ++ l.drop (dst + n)

/-- The list without holes: `undefined` in their place. -/
def dense [Inhabited V] (l : List (Option V)) : List (Option V) := l.map fun x => some (x.getD default)

/-- A place counted from the end if it is negative; there is none outside of the list. -/
def exact (len : Nat) : Num → Option Nat
  | .fin (.ofNat n) => if n < len then some n else none
  | .fin (.negSucc n) => if n < len then some (len - (n + 1)) else none
  | _ => none

/-- How many elements at the front `lastIndexOf` looks at. -/
def front (len : Nat) : Option Num → Nat
  | none => len
  | some .pinf => len
  | some .ninf => 0
  | some (.fin (.ofNat n)) => min (n + 1) len
  | some (.fin (.negSucc n)) => len - n

/-- Numbers that fit `int64_t`, and the infinities. -/
def Fits : Num → Prop
  | .fin n => -(2 ^ 63) ≤ n ∧ n < 2 ^ 63
  | _ => True

/-- The element at `i` is there and is accepted. -/
def Found (eq : V → V → Bool) (x : V) (l : List (Option V)) (i : Nat) : Prop :=
  ∃ v, l[i]? = some (some v) ∧ eq v x = true

/-- What an argument of `concat` contributes. -/
inductive Part : Src V → List (Option V) → Prop
  | one (v : V) : Part (.one v) [some v]
  | many (o : Obj V) (l : List (Option V)) (h : Holds o l) : Part (.many o) l

inductive Parts : List (Src V) → List (List (Option V)) → Prop
  | nil : Parts [] []
  | cons {x : Src V} {l : List (Option V)} {xs : List (Src V)} {ls : List (List (Option V))} :
      Part x l → Parts xs ls → Parts (x :: xs) (l :: ls)

/-! ## The standard's steps

`unshift` and `splice` as the standard (ECMA-262, 23.1.3.34 and 23.1.3.31) has them, with the
operations on objects taken from the model. -/

/-- Step 4.c to 4.e of `Array.prototype.unshift`, `k` counting down to 1. -/
def unshiftMoves [Inhabited V] (argc : Nat) : Nat → Obj V → Except Err (Obj V)
  | 0, o => .ok o
  | k + 1, o => do
    let o1 ← if has o k then ArrayOps.set o (k + argc : Nat) (get o k) else del o (k + argc : Nat)
    unshiftMoves argc k o1

def assignAll : List V → Nat → Obj V → Except Err (Obj V)
  | [], _, o => .ok o
  | v :: vs, j, o => do
    let o1 ← ArrayOps.set o j v
    assignAll vs (j + 1) o1

def unshift [Inhabited V] (args : List V) (o : Obj V) : Except Err (Nat × Obj V) :=
  let n := o.len + args.length
  if args.length = 0 then do
    let o1 ← setLen o n
    .ok (n, o1)
  else if 2 ^ 53 - 1 < n then .error .type
  else do
    let o1 ← unshiftMoves args.length o.len o
    let o2 ← assignAll args 0 o1
    let o3 ← setLen o2 n
    .ok (n, o3)

/-! ## Arrays in arrays -/

/-- The elements of an array that are there. -/
def present : Items V → List (Item V)
  | .nil => []
  | .hole t => present t
  | .cons h t => h :: present t

/-- One level is taken away. -/
def level (l : List (Item V)) : List (Item V) :=
  l.flatMap fun
    | .val v => [.val v]
    | .arr l' => present l'

def levels : Nat → List (Item V) → List (Item V)
  | 0, l => l
  | n + 1, l => levels n (level l)

mutual
/-- Everything in an array, at any depth, that is not an array. -/
def leaves : Items V → List V
  | .nil => []
  | .hole t => leaves t
  | .cons h t => leavesOf h ++ leaves t

def leavesOf : Item V → List V
  | .val v => [v]
  | .arr l => leaves l
end

end Verif.ArrayOps.Spec

import Verif.Model.Exotic
import Verif.Spec.Object
import Verif.Spec.Str

/-!
What the objects of strings and typed arrays are (ECMAScript 2023, "String Exotic Objects" and
"TypedArray Exotic Objects"): an element `i` is the property whose key is the number `i` written in
decimal digits; of a string it is the unit, and never changes; of a typed array it is the element,
and there is no other property whose key is a number written in the way numbers are written.

The properties have the keys the program gave, and their descriptors are `Obj.Spec.Prp`.
-/
namespace Verif.Exotic.Spec
open Obj (Val Fields)
open Obj.Spec (Prp)

/-- What the conversions between strings and numbers have to do with each other and with decimal
digits (C63, C82): the integers which are exact are written in decimal digits and read back; a string
taken for an array index has that number; what is stored in an element is never read as undefined. -/
structure Faithful (L : Lang) : Prop where
  write : ∀ n, n < 2 ^ 53 → L.toStr (.int false n) = Str.decimal n
  read : ∀ n, n < 2 ^ 53 → L.toNum (Str.decimal n) = .int false n
  index : ∀ s i, Str.toIndex s = some i → L.toNum s = .int false i
  elem : ∀ v x, (L.conv v).1 = some x → x ≠ .undef

structure St where
  props : List (Key × Prp)
  ext : Bool
  body : Body

/-- The element a key is the name of, if there are `n` elements. -/
def element (n : Nat) : Key → Option Nat
  | .str s => (List.range n).find? fun i => Str.decimal i = s
  | .sym _ => none

/-- CanonicalNumericIndexString is not undefined. -/
def numeric (L : Lang) : Key → Bool
  | .str s => s = [45, 48] ∨ L.toStr (L.toNum s) = s
  | .sym _ => false

def find (k : Key) : List (Key × Prp) → Option Prp
  | [] => none
  | (j, p) :: l => if j = k then some p else find k l

/-- The elements there are: none if the buffer is detached. -/
def live : Body → Nat
  | .str u => u.length
  | .arr el det => if det then 0 else el.length

def isArr : Body → Bool
  | .str _ => false
  | .arr _ _ => true

/-- The own property with a key. -/
def prop (L : Lang) (s : St) (k : Key) : Option Prp :=
  match s.body with
  | .str u =>
    match find k s.props with
    | some p => some p
    | none => (element u.length k).map fun i => .data (L.char (u.getD i 0)) false true false
  | .arr el det =>
    if numeric L k then (element (live (.arr el det)) k).map fun i => .data (el.getD i .undef) true true true
    else find k s.props

/-- The property `k` becomes `p`. -/
def store (s : St) (k : Key) (p : Prp) : St :=
  if (find k s.props).isSome then { s with props := s.props.map fun q => if q.1 = k then (k, p) else q }
  else { s with props := s.props ++ [(k, p)] }

/-- An element is assigned: the value is converted, which may throw or detach the buffer; an element
which is not there is not assigned. -/
def assign (L : Lang) (s : St) (k : Key) (v : Val) : St × Out :=
  match s.body with
  | .str _ => (s, .bool false)
  | .arr el det =>
    let det := det || (L.conv v).2
    match (L.conv v).1 with
    | none => ({ s with body := .arr el det }, .throw)
    | some x =>
      match element (live (.arr el det)) k with
      | none => ({ s with body := .arr el det }, .bool true)
      | some i => ({ s with body := .arr (el.set i x) det }, .bool true)

/-- OrdinaryDefineOwnProperty. -/
def ordinary (L : Lang) (s : St) (k : Key) (f : Fields) : St × Out :=
  match prop L s k with
  | none => if s.ext then (store s k (Obj.Spec.fresh f), .bool true) else (s, .bool false)
  | some p =>
    if Obj.Spec.allowed f p then (store s k (Obj.Spec.applied f p), .bool true) else (s, .bool false)

/-- [[DefineOwnProperty]] of a valid descriptor. -/
def define (L : Lang) (s : St) (k : Key) (f : Fields) : St × Out :=
  match s.body with
  | .str u =>
    match element u.length k with
    | some i => (s, .bool (Obj.Spec.allowed f (.data (L.char (u.getD i 0)) false true false)))
    | none => ordinary L s k f
  | .arr el det =>
    if numeric L k then
      if element (live (.arr el det)) k = none then (s, .bool false)
      else if f.configurable = some false ∨ f.enumerable = some false ∨ f.writable = some false ∨
          f.get ≠ none ∨ f.set ≠ none then (s, .bool false)
      else
        match f.value with
        | none => (s, .bool true)
        | some v => assign L s k v
    else ordinary L s k f

/-- The property found in the prototypes; its other attributes do not matter. -/
def inherited (L : Lang) (k : Key) : Option Prp :=
  match L.up k with
  | .none => none
  | .data v w => some (.data v w true true)
  | .acc g s => some (.acc g s true true)

/-- The property seen: the own one, or the one of the prototypes; for a typed array a number is never
looked for in the prototypes. -/
def seen (L : Lang) (s : St) (k : Key) : Option Prp :=
  match prop L s k with
  | some p => some p
  | none =>
    match s.body with
    | .arr .. => if numeric L k then none else inherited L k
    | .str _ => inherited L k

/-- [[Set]].  `self`: the receiver is the object.  An element of a typed array is assigned if the
receiver is the typed array; for another receiver the usual rules hold, and if there is no such
element nothing happens. -/
def set (L : Lang) (self : Bool) (s : St) (k : Key) (v : Val) : St × Out :=
  let usual : St × Out :=
    match seen L s k with
    | some (.acc _ f _ _) => if f = .undef then (s, .bool false) else (s, .call f)
    | some (.data _ false _ _) => (s, .bool false)
    | _ =>
      if !self then (s, .receiver)
      else
        match prop L s k with
        | some _ => define L s k { value := some v }
        | none => define L s k { value := some v, writable := some true, enumerable := some true, configurable := some true }
  match s.body with
  | .arr el det =>
    if numeric L k then
      if self then assign L s k v
      else if element (live (.arr el det)) k = none then (s, .bool true)
      else usual
    else usual
  | .str _ => usual

/-- OrdinaryOwnPropertyKeys: the array indices in ascending order, the other strings and the symbols in
the order the properties were made. -/
def others (s : St) : List Key :=
  ((List.range (2 ^ 32 - 1)).map fun i => Key.str (Str.decimal i)).filter (fun k => k ∈ s.props.map (·.1)) ++
    ((s.props.map (·.1)).filter (fun k => match k with | .str t => ∀ i < 2 ^ 32 - 1, Str.decimal i ≠ t | .sym _ => false) ++
      (s.props.map (·.1)).filter (fun k => match k with | .str _ => false | .sym _ => true))

/-- [[OwnPropertyKeys]]: the elements first. -/
def keys (s : St) : List Key := ((List.range (live s.body)).map fun i => Key.str (Str.decimal i)) ++ others s

def step (L : Lang) (s : St) : Op → St × Out
  | .getOwn k => (s, .desc ((prop L s k).map Prp.report))
  | .define k f => if Obj.Spec.valid L.callable f then define L s k f else (s, .throw)
  | .has k => (s, .bool (seen L s k).isSome)
  | .get k =>
    match seen L s k with
    | none => (s, .value .undef)
    | some (.data v _ _ _) => (s, .value v)
    | some (.acc g _ _ _) => if g = .undef then (s, .value .undef) else (s, .call g)
  | .set self k v => set L self s k v
  | .delete k =>
    match prop L s k with
    | none => (s, .bool true)
    | some p =>
      if p.configurable ∧ ¬(isArr s.body ∧ numeric L k) then
        ({ s with props := s.props.filter fun q => q.1 ≠ k }, .bool true)
      else (s, .bool false)
  | .keys => (s, .keys (keys s))
  | .prevent => ({ s with ext := false }, .bool true)
  | .write i v =>
    match s.body, (L.conv v).1 with
    | .arr el det, some x => ({ s with body := .arr (el.set i x) det }, .unit)
    | _, _ => (s, .unit)
  | .detach =>
    match s.body with
    | .arr el _ => ({ s with body := .arr el true }, .unit)
    | .str _ => (s, .unit)

def run (L : Lang) : St → List Op → St × List Out
  | s, [] => (s, [])
  | s, op :: ops => ((run L (step L s op).1 ops).1, (step L s op).2 :: (run L (step L s op).1 ops).2)

/-- The object of a string. -/
def newStr (units : List Nat) : St :=
  { props := [(lengthKey, .data (.num units.length) false false false)], ext := true, body := .str units }

/-- A typed array. -/
def newArr (elems : List Val) : St := { props := [], ext := true, body := .arr elems false }

/-- Where the code does what it should: the key of an operation is not taken for an array index
written in another way (C26); on the object of a string it is also not another way to write the
number of an element, and not a number too large for the conversion of line 92. -/
def PlainKey (L : Lang) : Body → Key → Prop
  | _, .sym _ => True
  | .str u, .str t => ¬ Str.Spec.Odd t ∧ ∀ n, L.toNum t = .int false n → n < 2 ^ 64 ∧ (n < u.length → t = Str.decimal n)
  | .arr _ _, .str t => ¬ Str.Spec.Odd t

def Plain (L : Lang) (b : Body) : Op → Prop
  | .getOwn k | .define k _ | .has k | .get k | .delete k => PlainKey L b k
  | .set self k _ => PlainKey L b k ∧ (self = false → ∀ el det, b = .arr el det → numeric L k = false)
  | .keys => ∀ el, b ≠ .arr el true
  | .prevent | .write _ _ | .detach => True

/-- All operations are plain when they are done. -/
def PlainRun (L : Lang) : St → List Op → Prop
  | _, [] => True
  | s, op :: ops => Plain L s.body op ∧ PlainRun L (step L s op).1 ops

end Verif.Exotic.Spec

import Verif.Model.ForIn

/-!
`for (x in o)` as the standard has it: `%ForInIteratorPrototype%.next` (ECMA-262, 14.7.5.10.2.1).
Names are texts; the names seen are a list.  The objects and what they answer are the same worlds
as in the model.
-/
namespace Verif.ForIn.Spec

/-- [[Object]], [[ObjectWasVisited]], [[RemainingKeys]], [[VisitedKeys]]; and what has happened. -/
structure Iter where
  obj : Option Nat
  visited : Bool
  remaining : List (List Nat)
  seen : List (List Nat)
  hist : List Ev

/-- The strings of a list of keys. -/
def strings : List Item → List (List Nat)
  | [] => []
  | .str k :: r => k.text :: strings r
  | .sym :: r => strings r

/-- Step 6.b: the remaining keys, one after the other.  `none`: none of them is to be given. -/
def remainingLoop (w : World) (o : Nat) :
    List (List Nat) → List (List Nat) → List Ev → Option Out × List (List Nat) × List (List Nat) × List Ev
  | [], seen, h => (none, [], seen, h)
  | s :: r, seen, h =>
    if s ∈ seen then remainingLoop w o r seen h
    else
      match w.own h o s with
      | none => (some .threw, r, seen, .own o s none :: h)
      | some none => remainingLoop w o r seen (.own o s (some none) :: h)
      | some (some true) => (some (.name s), r, s :: seen, .own o s (some (some true)) :: h)
      | some (some false) => remainingLoop w o r (s :: seen) (.own o s (some (some false)) :: h)

/-- Steps 6.b to 6.d. -/
def rest (w : World) (o : Nat) (remaining seen : List (List Nat)) (h : List Ev) : Option Out × Iter :=
  match remainingLoop w o remaining seen h with
  | (some out, r, seen, h) => (some out, ⟨some o, true, r, seen, h⟩)
  | (none, r, seen, h) =>
    match w.proto h o with
    | none => (some .threw, ⟨some o, true, r, seen, .proto o none :: h⟩)
    | some true => (none, ⟨none, false, r, seen, .proto o (some true) :: h⟩)
    | some false => (none, ⟨some (o + 1), false, r, seen, .proto o (some false) :: h⟩)

/-- Step 6. -/
def round (w : World) (o : Nat) (it : Iter) : Option Out × Iter :=
  if it.visited then rest w o it.remaining it.seen it.hist
  else
    match w.keys it.hist o with
    | none => (some .threw, { it with hist := .keys o none :: it.hist })
    | some ks => rest w o (strings ks) it.seen (.keys o (some ks) :: it.hist)

def next (w : World) : Nat → Iter → Out × Iter
  | 0, it => (.stuck, it)
  | f + 1, it =>
    match it.obj with
    | none => (.done, it)
    | some o =>
      match round w o it with
      | (some out, it) => (out, it)
      | (none, it) => next w f it

def start (isObj : Bool) : Iter :=
  if isObj then ⟨some 0, false, [], [], []⟩ else ⟨none, true, [], [], []⟩

def loop (w : World) (f : Nat) : Nat → Iter → List Out × List Ev
  | 0, it => ([], it.hist)
  | n + 1, it =>
    match next w f it with
    | (.name s, it) => (.name s :: (loop w f n it).1, (loop w f n it).2)
    | (out, it) => ([out], it.hist)

/-- The names given, in turn. -/
def given : List Out → List (List Nat)
  | [] => []
  | .name s :: r => s :: given r
  | _ :: r => given r

/-! ## Objects that do not change -/

/-- The answers of a chain of objects that do not change.  An object is the list of its keys, with
what it answers about each. -/
def chainWorld (c : List (List (Item × Bool))) : World where
  keys _ o := some ((c.getD o []).map (·.1))
  own _ o s := some (((c.getD o []).find? fun p => strings [p.1] = [s]).map (·.2))
  proto _ o := some (decide (c.length ≤ o + 1))

/-- The names to be given: of each object in turn the strings that no object before has, and which
are enumerable. -/
def names : List (List (Item × Bool)) → List (List Nat) → List (List Nat)
  | [], _ => []
  | obj :: c, before =>
    (obj.filterMap fun p =>
      match p.1 with
      | .str k => if k.text ∉ before ∧ p.2 = true then some k.text else none
      | .sym => none) ++ names c (before ++ strings (obj.map (·.1)))

/-- Every object has each string once. -/
def Distinct (c : List (List (Item × Bool))) : Prop :=
  ∀ obj ∈ c, (strings (obj.map (·.1))).Nodup

end Verif.ForIn.Spec

namespace Verif.ForIn

/-! ## A condition on the keys -/

/-- A text that is not the text of a number. -/
def Plain (s : List Nat) : Prop := ∀ n, s ≠ Str.decimal n

/-- A list of keys of an object after the first: strings that are not index strings, then symbols. -/
def Later (ks : List Item) : Prop :=
  ∃ (ss : List (List Nat)) (m : Nat), (∀ s ∈ ss, Plain s) ∧
    ks = ss.map (fun s => Item.str (.heap s)) ++ List.replicate m Item.sym

/-- A list of keys of the first object: index strings, then other strings, then symbols. -/
def First (ks : List Item) : Prop :=
  ∃ (ns : List Nat) (ls : List Item), Later ls ∧ ks = ns.map (fun n => Item.str (.idx n)) ++ ls

/-- The worlds in which index strings are keys of the first object only, and come first there, and
symbols come last. -/
def Fine (w : World) : Prop :=
  (∀ h ks, w.keys h 0 = some ks → First ks) ∧
  (∀ h o ks, w.keys h (o + 1) = some ks → Later ks)

end Verif.ForIn

import Verif.Model.Destr

/-!
# Destructuring as the standard has it

`DestructuringAssignmentEvaluation` (13.15.5.2), `BindingInitialization` and
`IteratorBindingInitialization` (8.6.2, 14.3.3.1, 8.6.3), `CopyDataProperties` (7.3.26) and the
operations on iterators (7.4), directly on the pattern.  Of the model only the program (`World`),
the patterns and the type of the ends (`Ende`) are used.
-/

namespace Verif.Destr.Spec

open Verif.Destr

variable {σ : Type}

/-- Completions: a value, a throw, or a rest element with more than `fuel` items. -/
inductive C (σ A : Type) where
  | ok (s : σ) (a : A)
  | thr (s : σ) (e : V)
  | more

/-- The next step after a normal completion. -/
def C.andThen {A B : Type} (c : C σ A) (f : σ → A → C σ B) : C σ B :=
  match c with
  | .ok s a => f s a
  | .thr s e => .thr s e
  | .more => .more

/-- A step of the program. -/
def of {A : Type} : Out σ A → C σ A
  | .ok s _ a => .ok s a
  | .thr s e => .thr s e

/-- `ToBoolean` -/
def truth (W : World σ) : V → Bool
  | .undef => false
  | .null => false
  | .bool b => b
  | .obj _ => true
  | .num n => W.truthy (.num n)
  | .str n => W.truthy (.str n)

/-- `Call` -/
def call (W : World σ) (f this : V) (s : σ) : C σ V :=
  match f with
  | .obj n => if W.callable n = true then of (W.call n this s) else .thr s W.typeErr
  | _ => .thr s W.typeErr

/-- `GetMethod` -/
def method (W : World σ) (v k : V) (s : σ) : C σ V :=
  (of (W.get v k s)).andThen fun s f =>
    match f with
    | .undef => .ok s .undef
    | .null => .ok s .undef
    | .obj n => if W.callable n = true then .ok s (.obj n) else .thr s W.typeErr
    | _ => .thr s W.typeErr

/-- "If Type(v) is not Object, throw a TypeError." -/
def needObject (W : World σ) (v : V) (s : σ) : C σ Unit :=
  match v with
  | .obj _ => .ok s ()
  | _ => .thr s W.typeErr

/-- `GetIterator(v, sync)`: the iterator and `next`. -/
def iterator (W : World σ) (v : V) (s : σ) : C σ (V × V) :=
  (method W v kIter s).andThen fun s f =>
  (call W f v s).andThen fun s it =>
  (needObject W it s).andThen fun s _ =>
  (of (W.get it kNext s)).andThen fun s nx =>
  .ok s (it, nx)

/-- `IteratorStep`: the result object, or nothing at the end. -/
def advance (W : World σ) (it nx : V) (s : σ) : C σ (Option V) :=
  (call W nx it s).andThen fun s res =>
  (needObject W res s).andThen fun s _ =>
  (of (W.get res kDone s)).andThen fun s d =>
  .ok s (if truth W d then none else some res)

/-- Completions of the evaluation of elements, with the field `[[Done]]` of the iterator record. -/
inductive D (σ A : Type) where
  | ok (s : σ) (done : Bool) (a : A)
  | thr (s : σ) (done : Bool) (e : V)
  | more

/-- The next step after a normal completion. -/
def D.andThen {A B : Type} (c : D σ A) (f : σ → Bool → A → D σ B) : D σ B :=
  match c with
  | .ok s d a => f s d a
  | .thr s d e => .thr s d e
  | .more => .more

/-- Steps that leave the iterator record alone. -/
def plain {A : Type} (done : Bool) : C σ A → D σ A
  | .ok s a => .ok s done a
  | .thr s e => .thr s done e
  | .more => .more

/-- The next value of an element: `[[Done]]` becomes true at the end and when the iterator throws. -/
def value (W : World σ) (it nx : V) (done : Bool) (s : σ) : D σ V :=
  if done then .ok s true .undef
  else
    match advance W it nx s with
    | .thr s e => .thr s true e
    | .more => .more
    | .ok s none => .ok s true .undef
    | .ok s (some res) =>
      match W.get res kValue s with
      | .thr s e => .thr s true e
      | .ok s _ v => .ok s false v

/-- An elision: the value is not read. -/
def skip (W : World σ) (it nx : V) (done : Bool) (s : σ) : D σ Unit :=
  if done then .ok s true ()
  else
    match advance W it nx s with
    | .thr s e => .thr s true e
    | .more => .more
    | .ok s none => .ok s true ()
    | .ok s (some _) => .ok s false ()

/-- The values of a rest element from index `i` on. -/
def collect (W : World σ) (it nx arr : V) : Nat → Nat → σ → D σ Unit
  | 0, _, _ => .more
  | fuel + 1, i, s =>
    match value W it nx false s with
    | .thr s d e => .thr s d e
    | .more => .more
    | .ok s true _ => .ok s true ()
    | .ok s false v => collect W it nx arr fuel (i + 1) (W.addArr arr i v s)

/-- The array of a rest element. -/
def restArray (W : World σ) (fuel : Nat) (it nx : V) (done : Bool) (s : σ) : D σ V :=
  let a := W.newArr s
  if done then .ok a.1 true a.2
  else (collect W it nx a.2 fuel 0 a.1).andThen fun s d _ => .ok s d a.2

/-- `IteratorClose` with the completion of the elements. -/
def close (W : World σ) (it : V) : C σ Unit → C σ Unit
  | .more => .more
  | .ok s _ =>
    (method W it kReturn s).andThen fun s f =>
      match f with
      | .undef => .ok s ()
      | f => (call W f it s).andThen fun s res => needObject W res s
  | .thr s e =>
    match (method W it kReturn s).andThen fun s f =>
      match f with
      | .undef => .ok s ()
      | f => (call W f it s).andThen fun s _ => .ok s () with
    | .ok s _ => .thr s e
    | .thr s _ => .thr s e
    | .more => .more

/-- The properties `CopyDataProperties` copies. -/
def copy (W : World σ) (o target : V) (excluded : List V) : List V → σ → C σ Unit
  | [], s => .ok s ()
  | k :: ks, s =>
    if k ∈ excluded then copy W o target excluded ks s
    else
      (of (W.own o k s)).andThen fun s p =>
        if p = some true then
          (of (W.get o k s)).andThen fun s v =>
            copy W o target excluded ks (W.addProp target k v s)
        else copy W o target excluded ks s

/-- The object of a rest property. -/
def restObject (W : World σ) (v : V) (excluded : List V) (s : σ) : C σ V :=
  let t := W.newObj s
  let o := W.toObj v t.1
  (of (W.ownKeys o.2 o.1)).andThen fun s ks =>
  (copy W o.2 t.2 excluded ks s).andThen fun s _ => .ok s t.2

/-- The initialiser stands for `undefined`. -/
def default (W : World σ) (init : Option Nat) (v : V) (s : σ) : C σ V :=
  match init, v with
  | some e, .undef => of (W.eval e s)
  | _, v => .ok s v

/-- The evaluation of a target that is not a pattern. -/
def target (W : World σ) (t : Tgt) (s : σ) : C σ Nat :=
  match t with
  | .leaf t => of (W.ref t s)
  | _ => .ok s 0

/-- `ToPropertyKey` -/
def key (W : World σ) (v : V) (s : σ) : C σ V :=
  match v with
  | .str n => .ok s (.str n)
  | v => of (W.key v s)

/-- The evaluation of a `PropertyName`. -/
def name (W : World σ) (n : Name) (s : σ) : C σ V :=
  match n with
  | .str k => .ok s (.str k)
  | .expr e => (of (W.eval e s)).andThen fun s v => key W v s

/-- Does the store initialise a binding? -/
def storeKind : Mode → Put
  | .bind true => .initial
  | _ => .assign

mutual
/-- A target gets a value; `lref`: its reference. -/
def assign (W : World σ) (fuel : Nat) (m : Mode) (t : Tgt) (lref : Nat) (v : V) (s : σ) : C σ Unit :=
  match t with
  | .leaf _ => of (W.put (storeKind m) lref v s)
  | .arr l =>
    (iterator W v s).andThen fun s x =>
      match elements W fuel m l x.1 x.2 false s with
      | .more => .more
      | .ok s true _ => .ok s ()
      | .thr s true e => .thr s e
      | .ok s false _ => close W x.1 (.ok s ())
      | .thr s false e => close W x.1 (.thr s e)
  | .obj l =>
    match v with
    | .undef => .thr s W.typeErr
    | .null => .thr s W.typeErr
    | v => properties W fuel m l v [] s
/-- The elements of an array pattern. -/
def elements (W : World σ) (fuel : Nat) (m : Mode) (l : Elems) (it nx : V) (done : Bool) (s : σ) :
    D σ Unit :=
  match l with
  | .nil => .ok s done ()
  | .hole l => (skip W it nx done s).andThen fun s d _ => elements W fuel m l it nx d s
  | .elem t init l =>
    (plain done (target W t s)).andThen fun s _ lref =>
    (value W it nx done s).andThen fun s d v =>
    (plain d (default W init v s)).andThen fun s d v =>
    (plain d (assign W fuel m t lref v s)).andThen fun s d _ =>
    elements W fuel m l it nx d s
  | .rest t =>
    (plain done (target W t s)).andThen fun s _ lref =>
    (restArray W fuel it nx done s).andThen fun s d v =>
    plain d (assign W fuel m t lref v s)
/-- The properties of an object pattern; `seen`: the names that were read. -/
def properties (W : World σ) (fuel : Nat) (m : Mode) (l : Props) (v : V) (seen : List V) (s : σ) :
    C σ Unit :=
  match l with
  | .nil => .ok s ()
  | .prop n t init l =>
    (name W n s).andThen fun s k =>
    (target W t s).andThen fun s lref =>
    (of (W.get v k s)).andThen fun s x =>
    (default W init x s).andThen fun s x =>
    (assign W fuel m t lref x s).andThen fun s _ =>
    properties W fuel m l v (seen ++ [k]) s
  | .rest t =>
    (target W t s).andThen fun s lref =>
    (restObject W v seen s).andThen fun s x =>
    assign W fuel m t lref x s
end

/-- The pattern as a whole. -/
def pattern (W : World σ) (fuel : Nat) (m : Mode) (t : Tgt) (v : V) (s : σ) : C σ Unit :=
  assign W fuel m t 0 v s

/-- What is seen of it from outside: the value of an assignment expression is the value on the right,
a `catch` clause gets what was thrown. -/
def seen (c : C σ Unit) (v : V) : Ende σ :=
  match c with
  | .ok s _ => .norm s v
  | .thr s e => .thr s e
  | .more => .fuel

/-! ## Programs -/

/-- A step that succeeds leaves no error behind. -/
def Clean {A : Type} (o : Out σ A) : Prop := ∀ s e a, o ≠ .ok s (.set e) a

/-- No step of the program leaves an error behind that was overridden by a `finally` block, and
looking for `return` and calling it catches nothing. -/
structure Calm (W : World σ) : Prop where
  get : ∀ v k s, Clean (W.get v k s)
  call : ∀ f v s, Clean (W.call f v s)
  eval : ∀ e s, Clean (W.eval e s)
  key : ∀ v s, Clean (W.key v s)
  ref : ∀ t s, Clean (W.ref t s)
  put : ∀ p i v s, Clean (W.put p i v s)
  ownKeys : ∀ v s, Clean (W.ownKeys v s)
  own : ∀ v k s, Clean (W.own v k s)
  ret : ∀ it s s' t f, W.get it kReturn s = .ok s' t f → t = .same
  retCall : ∀ it s s' t n, W.get it kReturn s = .ok s' t (.obj n) →
    ∀ s₂ t₂ a, W.call n it s' = .ok s₂ t₂ a → t₂ = .same

/-- Reading `value` never throws. -/
def ValueSafe (W : World σ) : Prop := ∀ v s s' e, W.get v kValue s ≠ .thr s' e

/-- Targets evaluate to the same reference whatever happens, without effects: names outside of
`with`. -/
def RefFixed (W : World σ) : Prop := ∀ t, ∃ i, ∀ s, W.ref t s = .ok s .same i

mutual
/-- Is there a rest element of an array? -/
def restT : Tgt → Bool
  | .leaf _ => false
  | .arr l => restE l
  | .obj l => restP l
def restE : Elems → Bool
  | .nil => false
  | .hole l => restE l
  | .elem t _ l => restT t || restE l
  | .rest _ => true
def restP : Props → Bool
  | .nil => false
  | .prop _ t _ l => restT t || restP l
  | .rest t => restT t
end

mutual
/-- Is there a name that is not a string? -/
def compT : Tgt → Bool
  | .leaf _ => false
  | .arr l => compE l
  | .obj l => compP l
def compE : Elems → Bool
  | .nil => false
  | .hole l => compE l
  | .elem t _ l => compT t || compE l
  | .rest t => compT t
def compP : Props → Bool
  | .nil => false
  | .prop (.expr _) _ _ _ => true
  | .prop (.str _) t _ l => compT t || compP l
  | .rest t => compT t
end

end Verif.Destr.Spec

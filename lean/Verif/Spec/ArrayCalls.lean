import Verif.Model.ArrayCalls
import Verif.Spec.ArrayOps
/-
Surroundings in which the methods of `Verif.ArrayCalls` run, and what they compute.
-/
namespace Verif.ArrayCalls.Spec
open ArrayOps

variable {V R : Type}

/-! ## Surroundings that compute -/

/-- Answers, with any effects: a monad. -/
structure World (m : Type → Type) [Monad m] (V : Type) where
  has : Option V → Int → m Bool
  get : Option V → Int → m V
  call : Option V → V → Int → m V
  len : V → m (Option Nat)
  fail : {R : Type} → Err → m R
  /-- Nothing happens after a throw. -/
  fail_bind : ∀ {R S : Type} (e : Err) (f : R → m S), fail e >>= f = fail e

def run {m : Type → Type} [Monad m] (w : World m V) : Prog V R → m R
  | .done r => pure r
  | .fail e => w.fail e
  | .has s k g => do let b ← w.has s k; run w (g b)
  | .get s k g => do let v ← w.get s k; run w (g v)
  | .call a v k g => do let r ← w.call a v k; run w (g r)
  | .len v g => do let n ← w.len v; run w (g n)

/-- The calls do not change the array, whatever else they do: its elements are those of the list. -/
structure Still {m : Type → Type} [Monad m] [Inhabited V] (w : World m V) (l : List (Option V)) :
    Prop where
  has : ∀ i, (h : i < l.length) → w.has none (i : Nat) = pure l[i].isSome
  get : ∀ i, (h : i < l.length) → w.get none (i : Nat) = pure (l[i].getD default)

/-- The elements that are there, with their indices. -/
def entries : Nat → List (Option V) → List (Nat × V)
  | _, [] => []
  | k, none :: t => entries (k + 1) t
  | k, some v :: t => (k, v) :: entries (k + 1) t

/-- All elements with their indices; `undefined` for what is not there. -/
def allOf [Inhabited V] (l : List (Option V)) : List (Nat × V) :=
  l.zipIdx.map fun p => (p.2, p.1.getD default)

/-- The array with these elements. -/
def arrayOf (l : List (Option V)) : Obj V where
  elem k := if 0 ≤ k then (l[k.toNat]?).join.map fun v => { val := v } else none
  len := l.length

/-- What is returned to `flatMap` is an array with these elements, or no array. -/
structure Known {m : Type → Type} [Monad m] [Inhabited V] (w : World m V)
    (arr : V → Option (List (Option V))) : Prop where
  len : ∀ v, w.len v = pure ((arr v).map List.length)
  has : ∀ v l, arr v = some l → ∀ i, (h : i < l.length) →
    w.has (some v) (i : Nat) = pure l[i].isSome
  get : ∀ v l, arr v = some l → ∀ i, (h : i < l.length) →
    w.get (some v) (i : Nat) = pure (l[i].getD default)

/-! ## Surroundings that do as they like -/

/-- What is asked, with the answer. -/
inductive Ev (V : Type)
  | has (src : Option V) (k : Int) (b : Bool)
  | get (src : Option V) (k : Int) (v : V)
  | call (acc : Option V) (v : V) (k : Int) (r : V)
  | len (v : V) (n : Option Nat)
  /-- There was no answer to a question about the object itself: something was thrown. -/
  | threw (k : Int)
  | threwCall (acc : Option V) (v : V) (k : Int)
  | threwElse

/-- An execution: what happened, and the result if there is one. -/
inductive Exec : Prog V R → List (Ev V) → Option R → Prop
  | done (r : R) : Exec (.done r) [] (some r)
  | fail (e : Err) : Exec (.fail e) [] none
  | has {s k g t r} (b : Bool) : Exec (g b) t r → Exec (.has s k g) (.has s k b :: t) r
  | get {s k g t r} (v : V) : Exec (g v) t r → Exec (.get s k g) (.get s k v :: t) r
  | call {a v k g t r} (x : V) : Exec (g x) t r → Exec (.call a v k g) (.call a v k x :: t) r
  | len {v g t r} (n : Option Nat) : Exec (g n) t r → Exec (.len v g) (.len v n :: t) r
  | hasThrows {k g} : Exec (.has none k g) [.threw k] none
  | getThrows {k g} : Exec (.get none k g) [.threw k] none
  | callThrows {a v k g} : Exec (.call a v k g) [.threwCall a v k] none
  | hasThrows' {v k g} : Exec (.has (some v) k g) [.threwElse] none
  | getThrows' {v k g} : Exec (.get (some v) k g) [.threwElse] none
  | lenThrows {v g} : Exec (.len v g) [.threwElse] none

/-- The calls among the events: value and index. -/
def calls : List (Ev V) → List (V × Int)
  | [] => []
  | .call _ v k _ :: t => (v, k) :: calls t
  | .threwCall _ v k :: t => (v, k) :: calls t
  | _ :: t => calls t

/-- Each call is preceded by reading the element, and has the value that was read. -/
def Reads (t : List (Ev V)) : Prop :=
  ∀ t1 t2 a v k x, t = t1 ++ .call a v k x :: t2 ∨ t = t1 ++ .threwCall a v k :: t2 →
    ∃ t0, t1 = t0 ++ [.get none k v]

/-- Each element that is read was there just before. -/
def Checks (t : List (Ev V)) : Prop :=
  ∀ t1 t2 k v, t = t1 ++ .get none k v :: t2 → ∃ t0, t1 = t0 ++ [.has none k true]

/-- The calls go from the front to the back, once for an index, within the length the array had at
the start, each with the value just read. -/
structure Ascending (n : Nat) (t : List (Ev V)) : Prop where
  order : (calls t).Pairwise fun a b => a.2 < b.2
  range : ∀ c ∈ calls t, 0 ≤ c.2 ∧ c.2 < n
  reads : Reads t

/-- The same from the back to the front. -/
structure Descending (n : Nat) (t : List (Ev V)) : Prop where
  order : (calls t).Pairwise fun a b => b.2 < a.2
  range : ∀ c ∈ calls t, 0 ≤ c.2 ∧ c.2 < n
  reads : Reads t

/-- Each call gets what the one before it returned, the first one `acc`; `out` is what the last one
returned. -/
inductive Chained : V → List (Ev V) → V → Prop
  | nil (acc : V) : Chained acc [] acc
  | call {acc v k r t out} : Chained r t out → Chained acc (.call (some acc) v k r :: t) out
  | threw {acc v k t out} : Chained acc t out → Chained acc (.threwCall (some acc) v k :: t) out
  | other {acc e t out} : calls [e] = [] → Chained acc t out → Chained acc (e :: t) out

end Verif.ArrayCalls.Spec

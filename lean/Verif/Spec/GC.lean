import Verif.Model.GC
/-
What the garbage collector is meant to do, stated without mark stack, flags, thing list
and weak reference list: an ideal heap which never frees anything, on which a collection
is no operation at all.
-/
namespace Verif.GC.Spec

/-- Reachable from `roots` by following references. -/
inductive Reach (refs : Nat → List Nat) (roots : List Nat) : Nat → Prop where
  | root {t} : t ∈ roots → Reach refs roots t
  | step {t u} : Reach refs roots t → u ∈ refs t → Reach refs roots u

/-- An ideal heap: strong references, contents of the weak maps, roots, number of
allocated things. -/
structure Ideal where
  refs : Nat → List Nat
  val : Nat → Nat → Option Nat
  roots : List Nat
  fresh : Nat

def Ideal.init : Ideal := ⟨fun _ => [], fun _ _ => none, [], 0⟩

def Ideal.Live (i : Ideal) (t : Nat) : Prop := Reach i.refs i.roots t

def upd {α : Type} (f : Nat → α) (t : Nat) (x : α) : Nat → α := fun y => if y = t then x else f y

/-- The steps of the ideal heap.  Only reading a weak map or a WeakRef may notice a
collection: an entry whose key is not reachable any more may have disappeared. -/
inductive Step : Ideal → Op → Ideal → Prop where
  | allocRoot {i : Ideal} {refs gc} :
    Step i (.alloc refs none gc)
      { i with refs := upd i.refs i.fresh refs, roots := i.roots ++ [i.fresh], fresh := i.fresh + 1 }
  | allocIn {i : Ideal} {refs gc o} :
    Step i (.alloc refs (some o) gc)
      { i with
        refs := upd (upd i.refs i.fresh refs) o ((upd i.refs i.fresh refs) o ++ [i.fresh]),
        fresh := i.fresh + 1 }
  | setRefs {i : Ideal} {t refs} : Step i (.setRefs t refs) { i with refs := upd i.refs t refs }
  | setRoots {i : Ideal} {roots} : Step i (.setRoots roots) { i with roots := roots }
  | weakSet {i : Ideal} {m k v} :
    Step i (.weakSet m k v) { i with val := upd i.val m (upd (i.val m) k (some v)) }
  | weakDelete {i : Ideal} {m k} :
    Step i (.weakDelete m k) { i with val := upd i.val m (upd (i.val m) k none) }
  | weakGet {i : Ideal} {m k got} : (got = i.val m k ∨ got = none ∧ ¬ i.Live k) →
    Step i (.weakGet m k) { i with roots := i.roots ++ got.toList }
  | collect {i : Ideal} : Step i .collect i

/-- The engine only uses things it can reach.  `weakGet` on a WeakRef (`v = k`) is always
allowed; on a WeakMap it is asked for only if the value it returns is otherwise reachable
(what goes wrong without is shown in C09). -/
def Legal (i : Ideal) : Op → Prop
  | .alloc refs holder _ => (∀ t ∈ refs, i.Live t) ∧ ∀ o, holder = some o → i.Live o
  | .setRefs t refs => i.Live t ∧ ∀ u ∈ refs, i.Live u
  | .setRoots roots => ∀ u ∈ roots, i.Live u
  | .weakSet m k v => i.Live m ∧ i.Live k ∧ i.Live v
  | .weakDelete m k => i.Live m ∧ i.Live k
  | .weakGet m k => i.Live m ∧ ∀ v, i.val m k = some v → i.Live v ∨ v = k
  | .collect => True

/-- Every step of a history is legal, whatever the ideal heap answers on the way. -/
def LegalRun : Ideal → List Op → Prop
  | _, [] => True
  | i, op :: ops => Legal i op ∧ ∀ i', Step i op i' → LegalRun i' ops

inductive Run : Ideal → List Op → Ideal → Prop where
  | nil {i} : Run i [] i
  | cons {i op i' ops i''} : Step i op i' → Run i' ops i'' → Run i (op :: ops) i''

/-- The heap consisting of the graph `refs` on the things `0, …, n - 1`. -/
def ofGraph (n : Nat) (refs : Nat → List Nat) (roots : List Nat) : Heap where
  list := List.range n
  body := fun t => ⟨refs t, []⟩
  marked := fun _ => false
  scanned := fun _ => false
  roots := roots
  weak := []
  freed := []
  fresh := n

end Verif.GC.Spec

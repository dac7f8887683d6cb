import Verif.Lemmas.PropRun
import Verif.Model.Object
/-
C30: the indexed properties of an object.
-/
namespace Verif.PropStore

/-- **C30 is violated.**  An object keeps its indexed properties in a tree after an index like 100
has been stored.  When the last of them is deleted and then one of the indices 0, 1, 2 is stored,
the empty tree is "converted" to an array which is not allocated, and the new property is written
through a null pointer: `o[100] = 1; delete o[100]; o[0] = 1`. -/
theorem C30_violated :
    ∃ ops : List (Op Nat), run (fun _ => true) empty ops = none ∧
      Spec.run (fun _ => true) (fun _ => none) ops 0 = some 2 ∧
      ∀ op ∈ ops, ∀ i p, op = .put i p → i < 2 ^ 32 - 1 :=
  ⟨[.put 100 1, .del 100, .put 0 2], Option.isNone_iff_eq_none.1 (by decide +kernel), by simp [Spec.run, Spec.step], by
    intro op h i p e; subst e; simp at h; omega⟩

/-- The same with an array, and with the whole of the object: `a = []; a[100] = 1; a.length = 0;
a[0] = 1`. -/
theorem C30_violated_array : ∃ ops : List Obj.Op, ∃ last : Obj.Op, ∃ h,
    Obj.run ⟨fun _ => none, fun _ => false⟩ [] ops = some h ∧ h.length = 1 ∧
      last = .set 0 (.idx 0) (.num 1) (some 0) ∧
      Obj.step ⟨fun _ => none, fun _ => false⟩ h last = none :=
  ⟨[.createArray 0 none, .set 0 (.idx 100) (.num 1) (some 0), .set 0 Obj.lengthKey (.num 0) (some 0)],
    _, _, rfl, rfl, rfl, rfl⟩

/-- **C30**, for histories in which no index below 3 is stored while there is no indexed property
after an index above 16 had been stored: whatever is stored, deleted and cut off, and however
often the store switches between array and tree, no operation goes wrong, and afterwards each
index holds what was stored last for it and not removed since.

Missing for the full property: the histories of `C30_violated`. -/
theorem C30_partial {α : Type} (cfg : α → Bool) (ops : List (Op α))
    (hs : Spec.Safe cfg False (fun _ => none) ops) :
    ∃ s, run cfg empty ops = some s ∧ (∀ i, lookup s i = some (Spec.run cfg (fun _ => none) ops i)) ∧
      ∃ l, keys s = some l ∧ l.Pairwise (· < ·) ∧ ∀ i, i ∈ l ↔ Spec.run cfg (fun _ => none) ops i ≠ none := by
  obtain ⟨s, h1, h2⟩ := run_safe (cfg := cfg) ops False empty _ runInv_empty hs
  exact ⟨s, h1, lookup_spec h2, keys_spec h2⟩

/-- A history which switches to a tree and back to an array. -/
example :
    let ops : List (Op Nat) := [.put 5 1, .put 100 2, .put 0 3]
    let ops' : List (Op Nat) := [.del 100, .put 1 4, .put 4 5, .put 2 6, .cut 3]
    Spec.Safe (fun _ => true) False (fun _ => none) (ops ++ ops') ∧
    (run (fun _ => true) empty ops).map (·.rbt) = some true ∧
    (run (fun _ => true) empty (ops ++ ops')).map (·.rbt) = some false ∧
    (run (fun _ => true) empty (ops ++ ops')).bind keys = some [0, 1, 2] := by
  refine ⟨?_, by decide +kernel, by decide +kernel, by decide +kernel⟩
  refine ⟨⟨by decide, fun _ _ => id⟩, ⟨by decide, by omega⟩, ⟨by decide, fun _ h => ?_⟩, trivial,
    ⟨by decide, fun _ h => ?_⟩, ⟨by decide, by omega⟩, ⟨by decide, fun _ h => ?_⟩, trivial, trivial⟩
  · have := h 5; simp [Spec.step] at this
  · have := h 5; simp [Spec.step] at this
  · have := h 5; simp [Spec.step] at this

/-- The store goes wrong in no other case: if no index was ever above 16, or the object is never
without an indexed property, every history is good. -/
theorem C30_small {α : Type} (cfg : α → Bool) (ops : List (Op α)) (h : ∀ op ∈ ops, ∀ i p, op = .put i p → i ≤ 16) :
    ∃ s, run cfg empty ops = some s ∧ ∀ i, lookup s i = some (Spec.run cfg (fun _ => none) ops i) := by
  have : ∀ (ops : List (Op α)) (big : Prop) (m : Nat → Option α), ¬ big →
      (∀ op ∈ ops, ∀ i p, op = .put i p → i ≤ 16) → Spec.Safe cfg big m ops := by
    intro ops
    induction ops with
    | nil => intros; trivial
    | cons a l ih =>
      intro big m hb hl
      refine ⟨?_, ih _ _ ?_ fun op ho => hl op (by simp [ho])⟩
      · cases a with
        | put i p =>
          have := hl _ (by simp) i p rfl
          exact ⟨by omega, fun _ _ => hb⟩
        | del i => trivial
        | cut len => trivial
      · cases a with
        | put i p =>
          have := hl _ (by simp) i p rfl
          simp only [Spec.IsBig]
          intro c
          rcases c with c | c
          · exact hb c
          · omega
        | del i => simpa [Spec.IsBig] using hb
        | cut len => simpa [Spec.IsBig] using hb
  obtain ⟨s, a, b, _⟩ := C30_partial cfg ops (this ops False _ id h)
  exact ⟨s, a, b⟩

end Verif.PropStore

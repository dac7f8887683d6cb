import Verif.Lemmas.LinkedList
/-
Property C06: linked list operations are sequence operations.
-/
namespace Verif.LinkedList

/-- C06.  Start with no list and perform any sequence of properly used operations.
Then every list of the specification is in memory: walking forward gives its nodes,
walking backward gives them in opposite order, the emptiness and one-node tests
answer accordingly, and no node is in two lists or twice in one. -/
theorem C06_lists_are_sequences (h : Heap) (os : List Op)
    (hv : Spec.Valid (fun _ => none) os) :
    let h' := os.foldl step h
    let m := Spec.run (fun _ => none) os
    (∀ l xs, m l = some xs →
      walkNext h' l (xs.length + 1) (h'.next l) = some xs ∧
      walkPrev h' l (xs.length + 1) (h'.prev l) = some xs.reverse ∧
      (isEmpty h' l = true ↔ xs = []) ∧
      (has1Node h' l = true ↔ xs.length = 1) ∧
      (l :: xs).Nodup) ∧
    (∀ l xs l' xs', m l = some xs → m l' = some xs' → l ≠ l' →
      ∀ a ∈ l :: xs, a ∉ l' :: xs') := by
  intro h' m
  have hr : Rel h' m := run_rel os h _ (rel_empty h) hv
  refine ⟨?_, hr.disj⟩
  intro l xs hl
  have hs := hr.seg l xs hl
  have hnd := hr.nodup l xs hl
  have hne : l ∉ xs := (List.nodup_cons.1 hnd).1
  refine ⟨walkNext_list hs hne, walkPrev_list hs hne, isEmpty_iff hs hnd, ?_, hnd⟩
  unfold has1Node
  by_cases he : isEmpty h' l = true
  · simp [he, (isEmpty_iff hs hnd).1 he]
  · have hx : xs ≠ [] := fun e => he ((isEmpty_iff hs hnd).2 e)
    simp only [he, Bool.false_eq_true, if_false, beq_iff_eq]
    obtain ⟨h1, h2⟩ := seg_ends hs
    rw [h1, h2]
    cases xs with
    | nil => exact absurd rfl hx
    | cons x xs =>
      rcases last_cases xs with rfl | ⟨ys, y, rfl⟩
      · simp
      · simp only [List.cons_append, List.head_cons, List.length_cons, List.length_append,
          List.length_nil]
        constructor
        · intro e
          exfalso
          simp at e
          simp only [List.nodup_cons, List.mem_append, List.mem_singleton, not_or] at hnd
          exact hnd.2.1.2 e
        · intro e; omega

/-- C06, one operation in any memory: it changes exactly the sequences it is said to
change; every other list keeps its nodes. -/
theorem C06_step (h : Heap) (m : Spec.World) (hr : Rel h m) (o : Op) (hp : Spec.Pre m o) :
    Rel (step h o) (Spec.step m o) := step_rel hr o hp

/-- C06: a removed node keeps its own pointers (`hash_delete` reads the successor of a
removed entry, rjs_hash_object_inc.c:373-377). -/
theorem C06_removed_keeps_pointers (h : Heap) (l : Nat) (ys zs : List Nat) (n : Nat)
    (hs : Seg h l (ys ++ n :: zs) l) (hnd : (l :: (ys ++ n :: zs)).Nodup) :
    (remove h n).next n = (zs ++ [l]).head (by simp) ∧
    (remove h n).prev n = (l :: ys).getLast (by simp) := by
  obtain ⟨hp, hx⟩ := seg_split_node hs
  have hsub : (l :: (ys ++ n :: zs)) = (l :: ys) ++ n :: zs := rfl
  have h1 : n ≠ h.prev n := by
    rw [hp]
    intro e
    have hm := List.getLast_mem (l := l :: ys) (by simp)
    rw [← e] at hm
    rw [hsub, List.nodup_append] at hnd
    exact hnd.2.2 n hm n (by simp) rfl
  have h2 : n ≠ h.next n := by
    rw [hx]
    intro e
    have hm := List.head_mem (l := zs ++ [l]) (by simp)
    rw [← e] at hm
    simp only [List.nodup_cons, List.nodup_append, List.mem_append, List.mem_cons, not_or] at hnd
    rcases List.mem_append.1 hm with hm | hm
    · exact hnd.2.2.1.1 hm
    · rw [List.mem_singleton] at hm; exact hnd.1.2.1 hm.symm
  have e1 : (remove h n).next n = h.next n := by
    simp [remove, Heap.setNext, Heap.setPrev, h1]
  have e2 : (remove h n).prev n = h.prev n := by
    simp only [remove, Heap.setNext, Heap.setPrev]
    simp [h2]
  exact ⟨by rw [e1, hx], by rw [e2, hp]⟩

/-- A sequence of operations on two lists that meets the hypothesis. -/
def demo : List Op :=
  [.init 0, .init 1, .append 0 10, .append 0 11, .prepend 0 12, .append 1 20, .prepend 1 21,
   .remove 11, .append 1 11, .join 0 1]

example : Spec.Valid (fun _ => none) demo := by
  refine ⟨?_, ?_, ⟨rfl, ?_⟩, ⟨rfl, ?_⟩, ⟨rfl, ?_⟩, ⟨rfl, ?_⟩, ⟨rfl, ?_⟩,
    ⟨0, [12, 10, 11], rfl, by decide⟩, ⟨rfl, ?_⟩, ⟨rfl, rfl, by decide⟩, trivial⟩
  all_goals
    rintro ⟨l, xs, h, ha⟩
    rcases l with _ | _ | l <;> simp [Spec.step] at h <;> subst h <;> simp at ha

example : Spec.run (fun _ => none) demo 0 = some [12, 10, 21, 20, 11] := by decide

end Verif.LinkedList

import Verif.Lemmas.RBT
import Mathlib.Data.Nat.Log
/-
Property C05: the red black tree is an ordered set and stays balanced.
-/
namespace Verif.RBT
open Spec

/-- C05.  Begin with the empty tree and perform any sequence of insertions and removals.
No null pointer is used, and in the end the tree is in order and balanced, and holds
exactly the keys which were inserted and not removed since. -/
theorem C05_set (ops : List Op) :
    ∃ t, run .leaf ops = some t ∧ OK t ∧ ∀ k, k ∈ keys t ↔ after ops (fun _ => False) k := by
  obtain ⟨t, h1, h2, h3, h4⟩ := run_spec ops .leaf (fun _ => False) ⟨rfl, 0, rfl⟩
    (by simp [keys]) (by simp [keys])
  exact ⟨t, h1, whole_ok h2 h3, h4⟩

/-- C05.  No path in the tree is longer than twice the logarithm of the number of keys. -/
theorem C05_balanced (ops : List Op) (t : Tree) (h : run .leaf ops = some t) :
    height t ≤ 2 * Nat.log 2 (size t + 1) := by
  obtain ⟨t', h1, h2, _⟩ := C05_set ops
  rw [h] at h1
  obtain rfl := Option.some.inj h1
  obtain ⟨b, hb⟩ := h2.blackHeight
  have h3 := height_le t b hb h2.noRedRed
  rw [h2.blackRoot] at h3
  have h4 : b ≤ Nat.log 2 (size t + 1) := Nat.le_log_of_pow_le (by omega) (size_ge t b hb)
  simp at h3
  omega

/-- C05.  `rjs_rbt_next` and `rjs_rbt_prev` give the next larger and the next smaller key,
and nothing if there is none; `rjs_rbt_first` and `rjs_rbt_last` the smallest and the
largest. -/
theorem C05_neighbours (ops : List Op) (t : Tree) (h : run .leaf ops = some t) :
    let s := after ops (fun _ => False)
    (∀ k, s k → (∀ m, next t k = some m ↔ IsNext s k m) ∧
      (∀ m, prev t k = some m ↔ IsPrev s k m)) ∧
    (∀ m, first t = some m ↔ s m ∧ ∀ x, s x → m ≤ x) ∧
    (∀ m, last t = some m ↔ s m ∧ ∀ x, s x → x ≤ m) := by
  intro s
  obtain ⟨t', h1, h2, h3⟩ := C05_set ops
  rw [h] at h1
  obtain rfl := Option.some.inj h1
  have hs := h2.sorted
  refine ⟨fun k hk => ?_, fun m => ?_, fun m => ?_⟩
  · obtain ⟨a, b, e, h4, h5⟩ := next_split hs ((h3 k).2 hk)
    rw [e, List.pairwise_append, List.pairwise_cons] at hs
    obtain ⟨p1, ⟨p2, p3⟩, p4⟩ := hs
    have hmem : ∀ x, s x ↔ x ∈ a ∨ x = k ∨ x ∈ b := fun x => by
      rw [show s x ↔ x ∈ keys t from (h3 x).symm, e]; simp
    refine ⟨fun m => ?_, fun m => ?_⟩
    · rw [h4]
      constructor
      · intro hb
        cases b with
        | nil => simp at hb
        | cons y b =>
          simp only [List.head?_cons, Option.some.injEq] at hb
          subst hb
          refine ⟨(hmem _).2 (by simp), p2 _ (by simp), fun x hx hlt => ?_⟩
          rcases (hmem x).1 hx with hx | rfl | hx
          · have := p4 x hx k (by simp); omega
          · omega
          · rcases List.mem_cons.1 hx with rfl | hx
            · exact Nat.le_refl _
            · exact Nat.le_of_lt ((List.pairwise_cons.1 p3).1 x hx)
      · rintro ⟨hm, hlt, hmin⟩
        have hmb : m ∈ b := by
          rcases (hmem m).1 hm with hx | rfl | hx
          · have := p4 m hx k (by simp); omega
          · omega
          · exact hx
        cases b with
        | nil => simp at hmb
        | cons y b =>
          simp only [List.head?_cons, Option.some.injEq]
          have h6 := hmin y ((hmem y).2 (by simp)) (p2 y (by simp))
          rcases List.mem_cons.1 hmb with rfl | hx
          · rfl
          · have := (List.pairwise_cons.1 p3).1 m hx; omega
    · rw [h5]
      have hlast : ∀ y a', a = a' ++ [y] → ∀ x ∈ a', x < y := by
        rintro y a' rfl x hx
        rw [List.pairwise_append] at p1
        exact p1.2.2 x hx y (by simp)
      constructor
      · intro hb
        rcases List.eq_nil_or_concat a with rfl | ⟨a', y, rfl⟩
        · simp at hb
        · simp only [List.concat_eq_append, List.getLast?_append, List.getLast?_singleton,
            Option.some_or, Option.some.injEq] at hb
          subst hb
          refine ⟨(hmem _).2 (by simp), p4 _ (by simp) k (by simp), fun x hx hlt => ?_⟩
          rcases (hmem x).1 hx with hx | rfl | hx
          · simp only [List.concat_eq_append, List.mem_append, List.mem_singleton] at hx
            rcases hx with hx | rfl
            · exact Nat.le_of_lt (hlast y a' (by simp) x hx)
            · exact Nat.le_refl _
          · omega
          · have := p2 x hx; omega
      · rintro ⟨hm, hlt, hmax⟩
        have hma : m ∈ a := by
          rcases (hmem m).1 hm with hx | rfl | hx
          · exact hx
          · omega
          · have := p2 m hx; omega
        rcases List.eq_nil_or_concat a with rfl | ⟨a', y, rfl⟩
        · simp at hma
        · simp only [List.concat_eq_append, List.getLast?_append, List.getLast?_singleton,
            Option.some_or, Option.some.injEq]
          have h6 := hmax y ((hmem y).2 (by simp)) (p4 y (by simp) k (by simp))
          simp only [List.concat_eq_append, List.mem_append, List.mem_singleton] at hma
          rcases hma with hx | rfl
          · have := hlast y a' (by simp) m hx; omega
          · rfl
  · rw [first_eq]
    cases hk : keys t with
    | nil => simp only [List.head?_nil, reduceCtorEq, false_iff]
             rintro ⟨hm, _⟩
             have := (h3 m).2 hm
             simp [hk] at this
    | cons y b =>
      rw [hk, List.pairwise_cons] at hs
      simp only [List.head?_cons, Option.some.injEq]
      have hy : s y := (h3 y).1 (by simp [hk])
      constructor
      · rintro rfl
        refine ⟨hy, fun x hx => ?_⟩
        have := (h3 x).2 hx
        rw [hk] at this
        rcases List.mem_cons.1 this with rfl | hx
        · exact Nat.le_refl _
        · exact Nat.le_of_lt (hs.1 x hx)
      · rintro ⟨hm, hmin⟩
        have h6 := hmin y hy
        have := (h3 m).2 hm
        rw [hk] at this
        rcases List.mem_cons.1 this with rfl | hx
        · rfl
        · have := hs.1 m hx; omega
  · rw [last_eq]
    rcases List.eq_nil_or_concat (keys t) with hk | ⟨a, y, hk⟩
    · rw [hk]; simp only [List.getLast?_nil, reduceCtorEq, false_iff]
      rintro ⟨hm, _⟩
      have := (h3 m).2 hm
      simp [hk] at this
    · rw [hk]
      rw [hk, List.concat_eq_append, List.pairwise_append] at hs
      simp only [List.concat_eq_append, List.getLast?_append, List.getLast?_singleton,
            Option.some_or, Option.some.injEq]
      have hy : s y := (h3 y).1 (by simp [hk])
      have hmem : ∀ x, s x → x = y ∨ x < y := fun x hx => by
        have := (h3 x).2 hx
        rw [hk, List.concat_eq_append, List.mem_append, List.mem_singleton] at this
        rcases this with h | h
        · exact Or.inr (hs.2.2 x h y (by simp))
        · exact Or.inl h
      constructor
      · rintro rfl
        exact ⟨hy, fun x hx => by rcases hmem x hx with h | h <;> omega⟩
      · rintro ⟨hm, hmax⟩
        have h6 := hmax y hy
        rcases hmem m hm with h | h <;> omega

/-- C05.  Going from the first key to the next until there is none visits every key once,
in ascending order; backwards likewise. -/
theorem C05_walk (ops : List Op) (t : Tree) (h : run .leaf ops = some t) (n : Nat)
    (hn : size t ≤ n) :
    walk (next t) n (first t) = keys t ∧ walk (prev t) n (last t) = (keys t).reverse := by
  obtain ⟨t', h1, h2, h3⟩ := C05_set ops
  rw [h] at h1
  obtain rfl := Option.some.inj h1
  rw [size_keys] at hn
  obtain ⟨m, rfl⟩ := Nat.le.dest hn
  rw [first_eq, last_eq]
  exact ⟨walk_next h2.sorted _ [] m (by simp), walk_prev h2.sorted _ _ [] m rfl (by simp)⟩

/-- Ascending insertions, which would make an unbalanced tree a list; then a removal of an
inner node. -/
example : ∃ t, run .leaf ((List.range 10).map .insert ++ [.remove 3, .remove 5]) = some t ∧
    keys t = [0, 1, 2, 4, 6, 7, 8, 9] ∧ height t ≤ 4 ∧ next t 4 = some 6 ∧ prev t 0 = none ∧
    walk (next t) 20 (first t) = [0, 1, 2, 4, 6, 7, 8, 9] := by
  refine ⟨_, rfl, ?_⟩
  decide

example : after ((List.range 10).map .insert ++ [.remove 3]) (fun _ => False) 3 ↔ False := by
  simp [after, List.range, List.range.loop]

end Verif.RBT

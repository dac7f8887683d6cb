import Verif.Lemmas.Str
/-
Lemmas about `split` and `replaceAll`.
-/
namespace Verif.Str
open Spec

theorem occurs_drop {s p : List Nat} {start i : Nat} (hs : start ≤ s.length) :
    OccursAt (s.drop start) p i ↔ OccursAt s p (start + i) := by
  unfold OccursAt
  rw [List.length_drop]
  constructor
  · rintro ⟨h1, h2⟩
    refine ⟨by omega, fun j hj => ?_⟩
    rw [← h2 j hj, List.getElem?_drop, Nat.add_assoc]
  · rintro ⟨h1, h2⟩
    refine ⟨by omega, fun j hj => ?_⟩
    rw [← h2 j hj, List.getElem?_drop, Nat.add_assoc]

/-- The string around an occurrence. -/
theorem occurs_split {s p : List Nat} {i : Nat} (h : OccursAt s p i) :
    s = s.take i ++ p ++ s.drop (i + p.length) := by
  have h1 : (s.drop i).take p.length = p := by
    apply List.ext_getElem?
    intro j
    rw [List.getElem?_take]
    split
    · rename_i hj
      rw [List.getElem?_drop, h.2 j hj]
    · rw [List.getElem?_eq_none (by omega)]
  calc s = s.take i ++ s.drop i := (List.take_append_drop i s).symm
    _ = s.take i ++ ((s.drop i).take p.length ++ (s.drop i).drop p.length) := by
        rw [List.take_append_drop p.length (s.drop i)]
    _ = s.take i ++ p ++ s.drop (i + p.length) := by
        rw [h1, List.drop_drop, List.append_assoc]

theorem first_drop {s p : List Nat} {start i : Nat} (hs : start ≤ s.length)
    (h : FirstFrom s p start i) : FirstFrom (s.drop start) p 0 (i - start) := by
  obtain ⟨h1, h2, h3⟩ := h
  refine ⟨by omega, ?_, fun j _ hj => ?_⟩
  · rw [occurs_drop hs]
    rw [show start + (i - start) = i by omega]
    exact h2
  · rw [occurs_drop hs] at hj
    have := h3 (start + j) (by omega) hj
    omega

/-- The result of a search, as used by the loops. -/
structure Found (s p : List Nat) (start : Nat) (idx : Option Nat) : Prop where
  some : ∀ i, idx = .some i → FirstFrom s p start i
  none : idx = .none → ∀ j, start ≤ j → ¬ OccursAt s p j

theorem found_indexOf (s p : List Nat) (start : Nat) :
    ∃ idx, indexOf s p start = some idx ∧ Found s p start idx := by
  obtain ⟨r, h1, h2, h3⟩ := indexOf_spec s p start
  exact ⟨r, h1, h2, h3⟩

/-- The string from `start` on, around the first occurrence. -/
theorem first_parts {s p : List Nat} {start i : Nat} (h : FirstFrom s p start i) :
    start ≤ i ∧ i + p.length ≤ s.length ∧
    substr s start i = some ((s.drop start).take (i - start)) ∧
    s.drop start = (s.drop start).take (i - start) ++ p ++ s.drop (i + p.length) ∧
    ((s.drop start).take (i - start)).length = i - start := by
  have h1 := h.1
  have h2 := h.2.1.1
  refine ⟨h1, h2, ?_, ?_, by simp; omega⟩
  · unfold substr
    rw [if_pos ⟨by omega, h1⟩, List.drop_take]
  · have h3 := occurs_split (first_drop (by omega) h).2.1
    rw [List.drop_drop] at h3
    have : start + (i - start + p.length) = i + p.length := by omega
    rw [this] at h3
    exact h3

theorem splitLoop_spec (s sep : List Nat) (hsep : sep ≠ []) (limit : Nat) :
    ∀ (f start : Nat) (idx : Option Nat) (acc : List (List Nat)),
    start ≤ s.length → s.length - start < f → acc.length < limit → Found s sep start idx →
    ∃ xs, SplitOf sep (s.drop start) xs ∧
      splitLoop s sep limit f start idx acc = some (acc ++ xs.take (limit - acc.length))
  | 0, start, idx, acc, hs, hf, ha, hi => by omega
  | f + 1, start, idx, acc, hs, hf, ha, hi => by
    have hpos : 0 < sep.length := List.length_pos_iff.2 hsep
    cases idx with
    | none =>
      refine ⟨[s.drop start], .last _ fun i => ?_, ?_⟩
      · rw [occurs_drop hs]
        exact hi.none rfl _ (by omega)
      · have h1 : substr s start s.length = some (s.drop start) := by
          unfold substr
          rw [if_pos ⟨Nat.le_refl _, hs⟩, List.take_length]
        simp only [splitLoop, h1]
        rw [List.take_of_length_le (by simp; omega)]
    | some i =>
      have hfirst := hi.some i rfl
      obtain ⟨h1, h2, h3, h4, h5⟩ := first_parts hfirst
      simp only [splitLoop, h3]
      obtain ⟨idx', h6, h7⟩ := found_indexOf s sep (i + sep.length)
      rw [h6]
      simp only
      have hcut : ∀ xs, SplitOf sep (s.drop (i + sep.length)) xs →
          SplitOf sep (s.drop start) ((s.drop start).take (i - start) :: xs) := by
        intro xs hxs
        have := SplitOf.cut (sep := sep) ((s.drop start).take (i - start)) _ xs ?_ hxs
        · rwa [← h4] at this
        · rw [← h4, h5]
          exact first_drop hs hfirst
      split
      · rename_i hl
        -- the limit is reached: the rest can be split too
        obtain ⟨xs, h8, _⟩ := splitLoop_spec s sep hsep (acc.length + 2) f (i + sep.length) idx'
          (acc ++ [[]]) (by omega) (by omega) (by simp) h7
        refine ⟨_, hcut xs h8, ?_⟩
        rw [show limit - acc.length = 1 by omega]
        simp
      · rename_i hl
        obtain ⟨xs, h8, h9⟩ := splitLoop_spec s sep hsep limit f (i + sep.length) idx'
          (acc ++ [(s.drop start).take (i - start)]) (by omega) (by omega) (by simp; omega) h7
        refine ⟨_, hcut xs h8, ?_⟩
        rw [h9]
        obtain ⟨m, hm⟩ : ∃ m, limit - acc.length = m + 1 := ⟨limit - acc.length - 1, by omega⟩
        rw [hm]
        simp only [List.length_append, List.length_cons, List.length_nil, List.take_succ_cons,
          List.append_assoc, List.singleton_append]
        rw [show limit - (acc.length + (0 + 1)) = m by omega]

theorem splitChars_spec (s : List Nat) : ∀ (n i : Nat), i + n ≤ s.length →
    splitChars s n i = some (((s.drop i).take n).map fun c => [c])
  | 0, i, h => by simp [splitChars]
  | n + 1, i, h => by
    have hi : i < s.length := by omega
    have h1 : substr s i (i + 1) = some [s[i]] := by
      unfold substr
      rw [if_pos ⟨by omega, by omega⟩, List.drop_take]
      simp [List.drop_eq_getElem_cons hi, -List.getElem_cons_drop]
    simp only [splitChars, h1, splitChars_spec s n (i + 1) (by omega)]
    rw [List.drop_eq_getElem_cons hi, List.take_succ_cons, List.map_cons]

theorem replaceLoop_spec (s p : List Nat) (hp : p ≠ []) (rep : Nat → Option (List Nat))
    (r : Nat → List Nat) (hr : ∀ i, OccursAt s p i → rep i = some (r i)) :
    ∀ (f start : Nat) (idx : Option Nat) (acc : List Nat),
    start ≤ s.length → s.length - start < f → Found s p start idx →
    ∃ t, ReplacedBy p r start (s.drop start) t ∧
      replaceLoop s p rep f start idx acc = some (acc ++ t)
  | 0, start, idx, acc, hs, hf, hi => by omega
  | f + 1, start, idx, acc, hs, hf, hi => by
    have hpos : 0 < p.length := List.length_pos_iff.2 hp
    cases idx with
    | none =>
      refine ⟨s.drop start, .last _ _ fun i => ?_, ?_⟩
      · rw [occurs_drop hs]
        exact hi.none rfl _ (by omega)
      · simp only [replaceLoop]
        split
        · rfl
        · rw [List.drop_eq_nil_of_le (by omega)]; simp
    | some i =>
      have hfirst := hi.some i rfl
      obtain ⟨h1, h2, h3, h4, h5⟩ := first_parts hfirst
      simp only [replaceLoop, h3, hr i hfirst.2.1]
      rw [if_pos (by omega)]
      obtain ⟨idx', h6, h7⟩ := found_indexOf s p (i + p.length)
      rw [h6]
      simp only
      obtain ⟨t, h8, h9⟩ := replaceLoop_spec s p hp rep r hr f (i + p.length) idx'
        (acc ++ (s.drop start).take (i - start) ++ r i) (by omega) (by omega) h7
      refine ⟨(s.drop start).take (i - start) ++ r i ++ t, ?_, by rw [h9]; simp⟩
      have := ReplacedBy.cut (p := p) (rep := r) start ((s.drop start).take (i - start))
        (s.drop (i + p.length)) t ?_ ?_
      · rwa [← h4, h5, show start + (i - start) = i by omega] at this
      · rw [← h4, h5]; exact first_drop hs hfirst
      · rw [h5, show start + (i - start) = i by omega]; exact h8

theorem indexOf_empty (s : List Nat) (pos : Nat) :
    indexOf s [] pos = some (if pos ≤ s.length then some pos else none) := by
  unfold indexOf
  by_cases h : pos ≤ s.length
  · simp [h]
  · simp [h]

theorem between_cons (r : Nat → List Nat) (k : Nat) (s : List Nat) :
    between r k s = r k ++ match s with | [] => [] | c :: t => c :: between r (k + 1) t := by
  cases s <;> simp [between]

theorem replaceLoop_empty (s : List Nat) (rep : Nat → Option (List Nat))
    (r : Nat → List Nat) (hr : ∀ i, i ≤ s.length → rep i = some (r i)) :
    ∀ (n f k : Nat) (acc : List Nat), k + n = s.length → n < f →
      replaceLoop s [] rep f k (if k + 1 ≤ s.length then some (k + 1) else none) acc =
        some (acc ++ match s.drop k with | [] => [] | c :: t => c :: between r (k + 1) t)
  | _, 0, k, acc, hk, hf => by omega
  | 0, f + 1, k, acc, hk, hf => by
    rw [if_neg (by omega), List.drop_eq_nil_of_le (by omega)]
    simp only [replaceLoop]
    rw [if_neg (by omega)]
    simp
  | n + 1, f + 1, k, acc, hk, hf => by
    have hk' : k < s.length := by omega
    rw [if_pos (by omega)]
    have h1 : substr s k (k + 1) = some [s[k]] := by
      unfold substr
      rw [if_pos ⟨by omega, by omega⟩, List.drop_take]
      simp [List.drop_eq_getElem_cons hk', -List.getElem_cons_drop]
    simp only [replaceLoop, h1, hr (k + 1) (by omega), List.length_nil, Nat.add_zero, ne_eq,
      not_true_eq_false, if_false]
    rw [indexOf_empty]
    simp only
    rw [replaceLoop_empty s rep r hr n f (k + 1) _ (by omega) (by omega)]
    rw [List.drop_eq_getElem_cons hk']
    simp only [between_cons r (k + 1)]
    simp

theorem replaceAll_empty (s : List Nat) (rep : Nat → Option (List Nat))
    (r : Nat → List Nat) (hr : ∀ i, i ≤ s.length → rep i = some (r i)) :
    replaceAll s [] rep = some (between r 0 s) := by
  unfold replaceAll
  rw [indexOf_empty, if_pos (by omega)]
  simp only
  rw [replaceLoop]
  have h1 : substr s 0 0 = some [] := by
    unfold substr
    rw [if_pos ⟨by omega, by omega⟩]; simp
  simp only [h1, hr 0 (by omega), List.length_nil, Nat.add_zero, ne_eq,
      not_true_eq_false, if_false]
  rw [indexOf_empty]
  simp only [Nat.zero_add]
  rw [replaceLoop_empty s rep r hr s.length (s.length + 1) 0 _ (by omega) (by omega)]
  simp [between_cons r 0]

theorem splitOf_join {sep s : List Nat} {xs : List (List Nat)} (h : SplitOf sep s xs) :
    join sep xs = s ∧ xs ≠ [] := by
  induction h with
  | last s h => exact ⟨rfl, by simp⟩
  | cut a b xs h1 h2 ih =>
    refine ⟨?_, by simp⟩
    cases xs with
    | nil => exact absurd rfl ih.2
    | cons y ys => simp only [join, ih.1]

end Verif.Str

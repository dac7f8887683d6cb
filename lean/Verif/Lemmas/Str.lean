import Verif.Model.Str
import Verif.Spec.Str
/-
Lemmas about the string functions.
-/
namespace Verif.Str
open Spec

theorem isWhite_iff (c : Nat) : isWhite c = true ↔ c ∈ whites ∨ c = 0x85 := by
  simp only [isWhite, whites, Bool.or_eq_true, Bool.and_eq_true, decide_eq_true_eq, beq_iff_eq,
    List.mem_cons, List.not_mem_nil, or_false]
  omega

/-! ### Comparison -/

theorem compare_equal : ∀ a b : List Nat, compare a b = .equal ↔ a = b
  | [], [] => by simp [compare]
  | [], _ :: _ => by simp [compare]
  | _ :: _, [] => by simp [compare]
  | x :: a, y :: b => by
    simp only [compare, List.cons.injEq]
    split
    · simp; omega
    · split
      · simp; omega
      · rw [compare_equal a b]
        constructor
        · intro h; exact ⟨by omega, h⟩
        · exact And.right

theorem compare_less : ∀ a b : List Nat, compare a b = .less ↔ List.Lex (· < ·) a b
  | [], [] => by simp [compare]
  | [], _ :: _ => by simp [compare]
  | _ :: _, [] => by simp [compare]
  | x :: a, y :: b => by
    simp only [compare, List.cons_lex_cons_iff]
    split
    · rename_i h; simp [h]
    · split
      · simp; omega
      · rw [compare_less a b]
        constructor
        · intro h; exact Or.inr ⟨by omega, h⟩
        · rintro (h | h)
          · omega
          · exact h.2

theorem compare_swap : ∀ a b : List Nat, compare a b = .greater ↔ compare b a = .less
  | [], [] => by simp [compare]
  | [], _ :: _ => by simp [compare]
  | _ :: _, [] => by simp [compare]
  | x :: a, y :: b => by
    simp only [compare]
    by_cases h : x < y
    · simp [h, Nat.not_lt_of_lt h]
    · by_cases h' : y < x
      · simp [h, h']
      · simp only [h, h', if_false]
        simpa [h, h'] using compare_swap a b

/-! ### Search -/

theorem matchAt_spec (s : List Nat) : ∀ (p : List Nat) (t : Nat), t + p.length ≤ s.length →
    ∃ b, matchAt s t p = some b ∧ (b = true ↔ ∀ j, j < p.length → s[t + j]? = p[j]?)
  | [], t, h => ⟨true, rfl, by simp⟩
  | q :: qs, t, h => by
    simp only [List.length_cons] at h
    have ht : t < s.length := by omega
    simp only [matchAt, List.getElem?_eq_getElem ht]
    by_cases hq : q = s[t]
    · simp only [ne_eq, hq, not_true_eq_false, if_false]
      obtain ⟨b, h1, h2⟩ := matchAt_spec s qs (t + 1) (by omega)
      refine ⟨b, h1, h2.trans ⟨fun h j hj => ?_, fun h j hj => ?_⟩⟩
      · cases j with
        | zero => simp [List.getElem?_eq_getElem ht]
        | succ j =>
          have := h j (by simpa using hj)
          rw [List.getElem?_cons_succ, ← this]
          congr 1; omega
      · have := h (j + 1) (by simpa using hj)
        rw [List.getElem?_cons_succ] at this
        rw [← this]
        congr 1; omega
    · simp only [ne_eq, hq, not_false_eq_true, if_true]
      refine ⟨false, rfl, ?_⟩
      simp only [Bool.false_eq_true, false_iff]
      intro h'
      have := h' 0 (by simp)
      simp only [Nat.add_zero, List.getElem?_eq_getElem ht, List.getElem?_cons_zero,
        Option.some.injEq] at this
      exact hq this.symm

theorem matchAt_occurs {s p : List Nat} {t : Nat} (h : t + p.length ≤ s.length) :
    (matchAt s t p = some true ∧ OccursAt s p t) ∨
    (matchAt s t p = some false ∧ ¬ OccursAt s p t) := by
  obtain ⟨b, h1, h2⟩ := matchAt_spec s p t h
  cases b with
  | true => exact Or.inl ⟨h1, h, h2.1 rfl⟩
  | false => exact Or.inr ⟨h1, fun ho => by have := h2.2 ho.2; simp at this⟩

theorem indexLoop_spec (s p : List Nat) : ∀ (n c : Nat), c + n + p.length ≤ s.length + 1 →
    ∃ r, indexLoop s p n c = some r ∧
      (∀ i, r = some i → c ≤ i ∧ i < c + n ∧ OccursAt s p i ∧
        ∀ j, c ≤ j → OccursAt s p j → i ≤ j) ∧
      (r = none → ∀ j, c ≤ j → j < c + n → ¬ OccursAt s p j)
  | 0, c, h => ⟨none, rfl, by simp, fun _ j h1 h2 => by omega⟩
  | n + 1, c, h => by
    rcases matchAt_occurs (s := s) (p := p) (t := c) (by omega) with ⟨h1, h2⟩ | ⟨h1, h2⟩
    · refine ⟨some c, by simp [indexLoop, h1], ?_, by simp⟩
      rintro i hi
      obtain rfl := Option.some.inj hi
      exact ⟨Nat.le_refl _, by omega, h2, fun j hj _ => hj⟩
    · obtain ⟨r, h3, h4, h5⟩ := indexLoop_spec s p n (c + 1) (by omega)
      refine ⟨r, by simp [indexLoop, h1, h3], fun i hi => ?_, fun hr j hj hj2 ho => ?_⟩
      · obtain ⟨a1, a2, a3, a4⟩ := h4 i hi
        refine ⟨by omega, by omega, a3, fun j hj ho => ?_⟩
        by_cases hc : j = c
        · subst hc; exact absurd ho h2
        · exact a4 j (by omega) ho
      · by_cases hc : j = c
        · subst hc; exact absurd ho h2
        · exact h5 hr j (by omega) (by omega) ho

theorem indexOf_spec (s p : List Nat) (pos : Nat) :
    ∃ r, indexOf s p pos = some r ∧ (∀ i, r = some i → FirstFrom s p pos i) ∧
      (r = none → ∀ j, pos ≤ j → ¬ OccursAt s p j) := by
  unfold indexOf
  split
  · rename_i h
    refine ⟨some pos, rfl, fun i hi => ?_, by simp⟩
    obtain rfl := Option.some.inj hi
    exact ⟨Nat.le_refl _, ⟨by omega, fun j hj => by omega⟩, fun j hj _ => hj⟩
  · split
    · rename_i h1 h2
      refine ⟨none, rfl, by simp, fun _ j hj ho => ?_⟩
      have := ho.1
      omega
    · rename_i h1 h2
      obtain ⟨r, h3, h4, h5⟩ := indexLoop_spec s p (s.length - p.length + 1 - pos) pos (by omega)
      refine ⟨r, h3, fun i hi => ?_, fun hr j hj ho => ?_⟩
      · obtain ⟨a1, a2, a3, a4⟩ := h4 i hi
        exact ⟨a1, a3, a4⟩
      · have := ho.1
        exact h5 hr j hj (by omega) ho

theorem lastLoop_spec (s p : List Nat) : ∀ c : Nat, c + p.length ≤ s.length →
    ∃ r, lastLoop s p c = some r ∧ (∀ i, r = some i → LastUpTo s p c i) ∧
      (r = none → ∀ j, j ≤ c → ¬ OccursAt s p j)
  | 0, h => by
    rcases matchAt_occurs h with ⟨h1, h2⟩ | ⟨h1, h2⟩
    · refine ⟨some 0, by simp [lastLoop, h1], ?_, by simp⟩
      rintro i hi
      obtain rfl := Option.some.inj hi
      exact ⟨Nat.le_refl _, h2, fun j hj _ => hj⟩
    · refine ⟨none, by simp [lastLoop, h1], by simp, fun _ j hj => ?_⟩
      obtain rfl : j = 0 := by omega
      exact h2
  | c + 1, h => by
    rcases matchAt_occurs h with ⟨h1, h2⟩ | ⟨h1, h2⟩
    · refine ⟨some (c + 1), by simp [lastLoop, h1], ?_, by simp⟩
      rintro i hi
      obtain rfl := Option.some.inj hi
      exact ⟨Nat.le_refl _, h2, fun j hj _ => hj⟩
    · obtain ⟨r, h3, h4, h5⟩ := lastLoop_spec s p c (by omega)
      refine ⟨r, by simp [lastLoop, h1, h3], fun i hi => ?_, fun hr j hj ho => ?_⟩
      · obtain ⟨a1, a2, a3⟩ := h4 i hi
        refine ⟨by omega, a2, fun j hj ho => ?_⟩
        by_cases hc : j = c + 1
        · subst hc; exact absurd ho h2
        · exact a3 j (by omega) ho
      · by_cases hc : j = c + 1
        · subst hc; exact absurd ho h2
        · exact h5 hr j (by omega) ho

theorem lastIndexOf_spec (s p : List Nat) (pos : Nat) :
    ∃ r, lastIndexOf s p pos = some r ∧ (∀ i, r = some i → LastUpTo s p pos i) ∧
      (r = none → ∀ j, j ≤ pos → ¬ OccursAt s p j) := by
  unfold lastIndexOf
  split
  · exact ⟨none, rfl, by simp, fun _ j _ ho => by have := ho.1; omega⟩
  · rename_i h
    simp only
    split
    · rename_i h1
      refine ⟨_, rfl, fun i hi => ?_, by simp⟩
      obtain rfl := Option.some.inj hi
      refine ⟨by omega, ⟨by omega, fun j hj => by omega⟩, fun j hj ho => ?_⟩
      have := ho.1
      omega
    · obtain ⟨r, h3, h4, h5⟩ := lastLoop_spec s p (min pos (s.length - p.length)) (by omega)
      refine ⟨r, h3, fun i hi => ?_, fun hr j hj ho => ?_⟩
      · obtain ⟨a1, a2, a3⟩ := h4 i hi
        refine ⟨by omega, a2, fun j hj ho => a3 j ?_ ho⟩
        have := ho.1
        omega
      · have := ho.1
        exact h5 hr j (by omega) ho

/-! ### Trimming -/

theorem trimStart_spec (s : List Nat) : ∀ (n b : Nat), b + n = s.length →
    ∃ b', trimStart s n b = some b' ∧ b ≤ b' ∧ b' ≤ s.length ∧
      (∀ i, b ≤ i → i < b' → ∀ c, s[i]? = some c → isWhite c = true) ∧
      ∀ c, s[b']? = some c → isWhite c = false
  | 0, b, h => ⟨b, rfl, Nat.le_refl _, by omega, fun i h1 h2 => by omega, fun c hc => by
      rw [List.getElem?_eq_none (by omega)] at hc; simp at hc⟩
  | n + 1, b, h => by
    have hb : b < s.length := by omega
    simp only [trimStart, List.getElem?_eq_getElem hb]
    by_cases hw : isWhite s[b] = true
    · simp only [hw, Bool.not_true, Bool.false_eq_true, if_false]
      obtain ⟨b', h1, h2, h3, h4, h5⟩ := trimStart_spec s n (b + 1) (by omega)
      refine ⟨b', h1, by omega, h3, fun i hi hi' c hc => ?_, h5⟩
      by_cases he : i = b
      · subst he
        rw [List.getElem?_eq_getElem hb] at hc
        obtain rfl := Option.some.inj hc
        exact hw
      · exact h4 i (by omega) hi' c hc
    · have hw' : isWhite s[b] = false := by simpa using hw
      simp only [hw', Bool.not_false, if_true]
      refine ⟨b, rfl, Nat.le_refl _, by omega, fun i h1 h2 => by omega, fun c hc => ?_⟩
      rw [List.getElem?_eq_getElem hb] at hc
      obtain rfl := Option.some.inj hc
      exact hw'

theorem trimEnd_spec (s : List Nat) : ∀ (n e : Nat), n ≤ e → e ≤ s.length →
    ∃ e', trimEnd s n e = some e' ∧ e - n ≤ e' ∧ e' ≤ e ∧
      (∀ i, e' ≤ i → i < e → ∀ c, s[i]? = some c → isWhite c = true) ∧
      (e - n < e' → ∀ c, s[e' - 1]? = some c → isWhite c = false)
  | 0, e, h, h' => ⟨e, rfl, by omega, Nat.le_refl _, fun i h1 h2 => by omega, fun h => by omega⟩
  | n + 1, e, h, h' => by
    have hb : e - 1 < s.length := by omega
    simp only [trimEnd, List.getElem?_eq_getElem hb]
    by_cases hw : isWhite s[e - 1] = true
    · simp only [hw, Bool.not_true, Bool.false_eq_true, if_false]
      obtain ⟨e', h1, h2, h3, h4, h5⟩ := trimEnd_spec s n (e - 1) (by omega) (by omega)
      refine ⟨e', h1, by omega, by omega, fun i hi hi' c hc => ?_, fun hlt => h5 (by omega)⟩
      by_cases he : i = e - 1
      · subst he
        rw [List.getElem?_eq_getElem hb] at hc
        obtain rfl := Option.some.inj hc
        exact hw
      · exact h4 i hi (by omega) c hc
    · have hw' : isWhite s[e - 1] = false := by simpa using hw
      simp only [hw', Bool.not_false, if_true]
      refine ⟨e, rfl, by omega, Nat.le_refl _, fun i h1 h2 => by omega, fun _ c hc => ?_⟩
      rw [List.getElem?_eq_getElem hb] at hc
      obtain rfl := Option.some.inj hc
      exact hw'

/-- What `trim` does, with the white space of the code. -/
theorem trim_spec (fs fe : Bool) (s : List Nat) :
    ∃ a r b, trim fs fe s = some r ∧ s = a ++ r ++ b ∧
      (∀ c ∈ a, isWhite c = true) ∧ (∀ c ∈ b, isWhite c = true) ∧
      (fs = false → a = []) ∧ (fe = false → b = []) ∧
      (fs = true → ∀ c t, r = c :: t → isWhite c = false) ∧
      (fe = true → ∀ c t, r = t ++ [c] → isWhite c = false) ∧
      (fs = true → r = [] → b = []) := by
  obtain ⟨b', hb1, hb2, hb3, hb4⟩ : ∃ b', (if fs then trimStart s s.length 0 else some 0) = some b' ∧
      b' ≤ s.length ∧ (∀ i, i < b' → ∀ c, s[i]? = some c → isWhite c = true) ∧
      (fs = true → ∀ c, s[b']? = some c → isWhite c = false) ∧ (fs = false → b' = 0) := by
    cases fs with
    | false => exact ⟨0, rfl, by omega, fun i h => by omega, by simp, by simp⟩
    | true =>
      obtain ⟨b', h1, h2, h3, h4, h5⟩ := trimStart_spec s s.length 0 (by omega)
      exact ⟨b', by simpa using h1, h3, fun i hi => h4 i (by omega) hi, fun _ => h5, by simp⟩
  obtain ⟨hb4, hb5⟩ := hb4
  obtain ⟨e', he1, he2, he3, he4, he5, he6⟩ : ∃ e',
      (if fe then trimEnd s (s.length - b') s.length else some s.length) = some e' ∧
      b' ≤ e' ∧ e' ≤ s.length ∧
      (∀ i, e' ≤ i → ∀ c, s[i]? = some c → isWhite c = true) ∧
      (fe = true → b' < e' → ∀ c, s[e' - 1]? = some c → isWhite c = false) ∧
      (fe = false → e' = s.length) := by
    cases fe with
    | false =>
      refine ⟨s.length, rfl, hb2, by omega, fun i hi c hc => ?_, by simp, by simp⟩
      rw [List.getElem?_eq_none hi] at hc; simp at hc
    | true =>
      obtain ⟨e', h1, h2, h3, h4, h5⟩ := trimEnd_spec s (s.length - b') s.length (by omega) (by omega)
      refine ⟨e', by simpa using h1, by omega, h3, fun i hi c hc => ?_, fun _ h => h5 (by omega),
        by simp⟩
      by_cases hl : i < s.length
      · exact h4 i hi hl c hc
      · rw [List.getElem?_eq_none (by omega)] at hc; simp at hc
  have hsplit : s = s.take b' ++ (s.take e').drop b' ++ s.drop e' := by
    have h1 : s.take b' = (s.take e').take b' := by rw [List.take_take, Nat.min_eq_left he2]
    rw [h1, List.take_append_drop, List.take_append_drop]
  have hget : ∀ i, i < e' - b' → ((s.take e').drop b')[i]? = s[b' + i]? := fun i hi => by
    rw [List.getElem?_drop, List.getElem?_take_of_lt (by omega)]
  refine ⟨s.take b', (s.take e').drop b', s.drop e', ?_, hsplit, ?_, ?_, ?_, ?_, ?_, ?_, ?_⟩
  · unfold trim
    rw [hb1]
    simp only
    rw [he1]
    simp only [substr]
    rw [if_pos ⟨he3, he2⟩]
  · intro c hc
    obtain ⟨i, hi⟩ := List.mem_iff_getElem?.1 hc
    rw [List.getElem?_take] at hi
    split at hi
    · exact hb3 i (by assumption) c hi
    · simp at hi
  · intro c hc
    obtain ⟨i, hi⟩ := List.mem_iff_getElem?.1 hc
    rw [List.getElem?_drop] at hi
    exact he4 _ (by omega) c hi
  · intro h; rw [hb5 h]; rfl
  · intro h; rw [he6 h]; simp
  · intro h c t hr
    have h0 : ((s.take e').drop b')[0]? = some c := by rw [hr]; rfl
    have hlt : 0 < e' - b' := by
      rcases Nat.eq_zero_or_pos (e' - b') with h' | h'
      · have : ((s.take e').drop b').length = 0 := by simp; omega
        rw [hr] at this; simp at this
      · exact h'
    rw [hget 0 hlt] at h0
    exact hb4 h c h0
  · intro h c t hr
    have hlen : ((s.take e').drop b').length = e' - b' := by simp; omega
    have hlt : t.length + 1 = e' - b' := by rw [← hlen, hr]; simp
    have h0 : ((s.take e').drop b')[t.length]? = some c := by rw [hr]; simp
    rw [hget _ (by omega)] at h0
    have : b' + t.length = e' - 1 := by omega
    rw [this] at h0
    exact he5 h (by omega) c h0
  · intro h hr
    have hlen : ((s.take e').drop b').length = e' - b' := by simp; omega
    rw [hr] at hlen
    simp only [List.length_nil] at hlen
    have hbe : e' = b' := by omega
    subst hbe
    by_cases hl : e' < s.length
    · have h1 := hb4 h s[e'] (List.getElem?_eq_getElem hl)
      have h2 := he4 e' (Nat.le_refl _) s[e'] (List.getElem?_eq_getElem hl)
      rw [h1] at h2; simp at h2
    · exact List.drop_eq_nil_of_le (by omega)

/-! ### Padding -/

theorem padLoop_spec (cap : Nat) (p : List Nat) (hp : p ≠ []) : ∀ (f n : Nat) (d : List Nat),
    n ≤ f → d.length + n ≤ cap →
    ∃ q, padLoop cap p f n d = some (d ++ q) ∧ q.length = n ∧
      ∀ i, i < n → q[i]? = p[i % p.length]?
  | 0, n, d, hf, hc => by
    obtain rfl : n = 0 := by omega
    exact ⟨[], by simp [padLoop], rfl, fun i hi => by omega⟩
  | f + 1, n, d, hf, hc => by
    have hpl : 0 < p.length := List.length_pos_iff.2 hp
    by_cases hn : n > 0
    · by_cases hge : n ≥ p.length
      · obtain ⟨q, h1, h2, h3⟩ := padLoop_spec cap p hp f (n - p.length) (d ++ p) (by omega)
          (by simp; omega)
        refine ⟨p ++ q, ?_, by simp; omega, fun i hi => ?_⟩
        · simp only [padLoop, hn, hge, if_true, copy]
          rw [if_pos ⟨Nat.le_refl _, by omega⟩]
          simpa using h1
        · by_cases hi' : i < p.length
          · rw [List.getElem?_append_left hi', Nat.mod_eq_of_lt hi']
          · rw [List.getElem?_append_right (by omega), h3 _ (by omega),
              Nat.mod_eq_sub_mod (by omega : i ≥ p.length)]
      · obtain ⟨q, h1, h2, h3⟩ := padLoop_spec cap p hp f 0 (d ++ p.take n) (by omega)
          (by simp; omega)
        obtain rfl : q = [] := List.length_eq_zero_iff.1 h2
        refine ⟨p.take n, ?_, by simp; omega, fun i hi => ?_⟩
        · simp only [padLoop, hn, hge, if_true, if_false, copy]
          rw [if_pos ⟨by omega, by omega⟩]
          simpa using h1
        · rw [List.getElem?_take_of_lt hi, Nat.mod_eq_of_lt (by omega)]
    · obtain rfl : n = 0 := by omega
      exact ⟨[], by simp [padLoop], rfl, fun i hi => by omega⟩

theorem pad_spec (atEnd : Bool) (s : List Nat) (n : Nat) (p : List Nat) :
    ∃ r, pad atEnd s n p = some r ∧
      ((n ≤ s.length ∨ p = []) → r = s) ∧
      (s.length ≤ n → p ≠ [] → ∃ q, r = (if atEnd then s ++ q else q ++ s) ∧
        q.length = n - s.length ∧ ∀ i, i < q.length → q[i]? = p[i % p.length]?) := by
  unfold pad
  by_cases h1 : n < s.length
  · exact ⟨s, by simp [h1], fun _ => rfl, fun h => by omega⟩
  · by_cases h2 : p = []
    · subst h2
      exact ⟨s, by simp, fun _ => rfl, fun _ h => absurd rfl h⟩
    · have h2' : p.length ≠ 0 := by simpa using h2
      simp only [h1, if_false, h2']
      cases atEnd with
      | true =>
        obtain ⟨q, h3, h4, h5⟩ := padLoop_spec n p h2 (n - s.length) (n - s.length) s (by omega)
          (by omega)
        refine ⟨s ++ q, ?_, ?_, fun _ _ => ⟨q, by simp, h4, fun i hi => h5 i (by omega)⟩⟩
        · simp only [if_true, copy]
          rw [if_pos ⟨Nat.le_refl _, by simp; omega⟩]
          simp only [List.take_length, List.nil_append]
          rw [h3]
        · rintro (h | h)
          · obtain rfl : q = [] := List.length_eq_zero_iff.1 (by omega)
            simp
          · exact absurd h h2
      | false =>
        obtain ⟨q, h3, h4, h5⟩ := padLoop_spec n p h2 (n - s.length) (n - s.length) [] (by omega)
          (by simp)
        refine ⟨q ++ s, ?_, ?_, fun _ _ => ⟨q, by simp, h4, fun i hi => h5 i (by omega)⟩⟩
        · simp only [List.nil_append] at h3
          simp only [Bool.false_eq_true, if_false, h3, copy]
          rw [if_pos ⟨Nat.le_refl _, by omega⟩]
          simp
        · rintro (h | h)
          · obtain rfl : q = [] := List.length_eq_zero_iff.1 (by omega)
            simp
          · exact absurd h h2

/-! ### Array indices -/

theorem isDigit_iff (c : Nat) : isDigit c = true ↔ 48 ≤ c ∧ c ≤ 57 := by
  simp [isDigit]

theorem digit_not_white {c : Nat} (h : isDigit c = true) : isWhite c = false := by
  rw [isDigit_iff] at h
  cases hw : isWhite c with
  | false => rfl
  | true =>
    simp only [isWhite, Bool.or_eq_true, Bool.and_eq_true, decide_eq_true_eq, beq_iff_eq] at hw
    omega

abbrev val (n : Nat) (s : List Nat) : Nat := s.foldl (fun n c => n * 10 + (c - 48)) n

theorem val_ge : ∀ (s : List Nat) (n : Nat), n ≤ val n s
  | [], n => Nat.le_refl _
  | c :: s, n => by
    have := val_ge s (n * 10 + (c - 48))
    simp only [val, List.foldl_cons] at this ⊢
    omega

theorem digitsLoop_all : ∀ (s : List Nat) (n : Nat), (∀ c ∈ s, isDigit c = true) →
    val n s ≤ 0xfffffffe → digitsLoop s n = some (val n s, [])
  | [], n, _, _ => rfl
  | c :: s, n, h, hv => by
    have hc := h c (by simp)
    have hg := val_ge s (n * 10 + (c - 48))
    simp only [val, List.foldl_cons] at hg hv
    simp only [digitsLoop, hc, if_true]
    rw [if_neg (by omega), digitsLoop_all s _ (fun c hc => h c (by simp [hc])) hv]
    rfl

/-- The loop reads a run of digits which is followed by something else. -/
theorem digitsLoop_inv : ∀ (s : List Nat) (n m : Nat) (rest : List Nat),
    digitsLoop s n = some (m, rest) → ∃ ds, s = ds ++ rest ∧ (∀ c ∈ ds, isDigit c = true) ∧
      m = val n ds ∧ (∀ c t, rest = c :: t → isDigit c = false) ∧ (n ≤ 0xfffffffe → m ≤ 0xfffffffe)
  | [], n, m, rest, h => by
    simp only [digitsLoop, Option.some.injEq, Prod.mk.injEq] at h
    obtain ⟨rfl, rfl⟩ := h
    exact ⟨[], rfl, by simp, rfl, by simp, id⟩
  | c :: s, n, m, rest, h => by
    simp only [digitsLoop] at h
    split at h
    · rename_i hc
      split at h
      · simp at h
      · obtain ⟨ds, h1, h2, h3, h4, h5⟩ := digitsLoop_inv s _ m rest h
        refine ⟨c :: ds, by rw [h1]; rfl, ?_, h3, h4, fun _ => h5 (by omega)⟩
        intro x hx
        rcases List.mem_cons.1 hx with rfl | hx
        · exact hc
        · exact h2 x hx
    · rename_i hc
      simp only [Option.some.injEq, Prod.mk.injEq] at h
      obtain ⟨rfl, rfl⟩ := h
      refine ⟨[], rfl, by simp, rfl, ?_, id⟩
      intro c' t ht
      obtain ⟨rfl, _⟩ := List.cons.inj ht
      simpa using hc

theorem toIndex_decimal {s : List Nat} {n : Nat} (h : IsDecimal s n) (hn : n ≤ 0xfffffffe) :
    toIndex s = some n := by
  have hd : ∀ c ∈ s, isDigit c = true := fun c hc => (isDigit_iff c).2 (h.digits c hc)
  cases s with
  | nil => exact absurd rfl h.nonempty
  | cons c s =>
    have hc := hd c (by simp)
    have hw : (c :: s).dropWhile isWhite = c :: s := by
      simp [List.dropWhile, digit_not_white hc]
    have hv : val 0 (c :: s) = n := h.value
    simp only [toIndex, hw, hc]
    rw [digitsLoop_all (c :: s) 0 hd (by omega)]
    simpa using hv

theorem toIndex_plain {s : List Nat} {n : Nat} (ho : ¬ Odd s) (h : toIndex s = some n) :
    IsDecimal s n ∧ n ≤ 0xfffffffe := by
  unfold toIndex at h
  have hw : s.dropWhile isWhite = s := by
    cases s with
    | nil => rfl
    | cons c s =>
      cases hc : isWhite c with
      | false => simp [List.dropWhile, hc]
      | true => exact absurd (Or.inl ⟨c, s, rfl, (isWhite_iff c).1 hc⟩) ho
  rw [hw] at h
  cases s with
  | nil => simp at h
  | cons c s =>
    simp only at h
    split at h
    · simp at h
    · rename_i hc
      split at h
      · simp at h
      · rename_i m rest hl
        split at h
        · rename_i hr
          obtain rfl := Option.some.inj h
          obtain ⟨ds, h1, h2, h3, h4, h5⟩ := digitsLoop_inv _ _ _ _ hl
          have hrest : rest = [] := by
            rcases List.eq_nil_or_concat rest with h | ⟨t, x, rfl⟩
            · exact h
            · refine absurd (Or.inr (Or.inl ⟨x, ds ++ t, ?_, ?_⟩)) ho
              · rw [h1]; simp
              · rw [List.all_eq_true] at hr
                exact (isWhite_iff x).1 (hr x (by simp))
          subst hrest
          simp only [List.append_nil] at h1
          refine ⟨⟨?_, ?_, by simp, ?_⟩, h5 (by omega)⟩
          · intro x hx
            rw [h1] at hx
            exact (isDigit_iff x).1 (h2 x hx)
          · rw [h1]; exact h3.symm
          · intro t ht
            cases t with
            | nil => rfl
            | cons y t => exact absurd (Or.inr (Or.inr ⟨y, t, ht⟩)) ho
        · simp at h

theorem val_append (n : Nat) (a b : List Nat) : val n (a ++ b) = val (val n a) b := by
  simp [val, List.foldl_append]

theorem val_lin : ∀ (s : List Nat) (n : Nat), val n s = n * 10 ^ s.length + val 0 s
  | [], n => by simp [val]
  | c :: s, n => by
    have h1 := val_lin s (n * 10 + (c - 48))
    have h2 := val_lin s (0 * 10 + (c - 48))
    simp only [val, List.foldl_cons, List.length_cons] at h1 h2 ⊢
    rw [h1, h2, Nat.pow_succ, Nat.add_mul]
    simp only [Nat.zero_mul, Nat.zero_add, Nat.mul_assoc, Nat.mul_comm 10]
    omega

theorem val_lt : ∀ (s : List Nat), (∀ c ∈ s, 48 ≤ c ∧ c ≤ 57) → val 0 s < 10 ^ s.length
  | [], _ => by simp [val]
  | c :: s, h => by
    have h1 := val_lt s (fun c hc => h c (by simp [hc]))
    have h2 := val_lin s (0 * 10 + (c - 48))
    have hc := h c (by simp)
    simp only [val, List.foldl_cons, List.length_cons] at h1 h2 ⊢
    rw [h2, Nat.pow_succ]
    have : (0 * 10 + (c - 48)) * 10 ^ s.length ≤ 9 * 10 ^ s.length :=
      Nat.mul_le_mul_right _ (by omega)
    omega

/-- Strings of digits of the same length with the same value are the same. -/
theorem val_inj_len : ∀ (a b : List Nat), a.length = b.length → (∀ c ∈ a, 48 ≤ c ∧ c ≤ 57) →
    (∀ c ∈ b, 48 ≤ c ∧ c ≤ 57) → val 0 a = val 0 b → a = b
  | [], [], _, _, _, _ => rfl
  | [], _ :: _, h, _, _, _ => by simp at h
  | _ :: _, [], h, _, _, _ => by simp at h
  | x :: a, y :: b, hl, ha, hb, hv => by
    have hl' : a.length = b.length := by simpa using hl
    have hx := ha x (by simp)
    have hy := hb y (by simp)
    have ha' := fun c hc => ha c (List.mem_cons_of_mem x hc)
    have hb' := fun c hc => hb c (List.mem_cons_of_mem y hc)
    have e1 := val_lin a (0 * 10 + (x - 48))
    have e2 := val_lin b (0 * 10 + (y - 48))
    have l1 := val_lt a ha'
    have l2 := val_lt b hb'
    simp only [val, List.foldl_cons] at hv e1 e2 l1 l2
    rw [e1, e2, hl'] at hv
    rw [hl'] at l1
    have hxy : x = y := by
      rcases Nat.lt_trichotomy x y with h | h | h
      · exfalso
        have : (0 * 10 + (x - 48) + 1) * 10 ^ b.length ≤ (0 * 10 + (y - 48)) * 10 ^ b.length :=
          Nat.mul_le_mul_right _ (by omega)
        rw [Nat.add_mul, Nat.one_mul] at this
        omega
      · exact h
      · exfalso
        have : (0 * 10 + (y - 48) + 1) * 10 ^ b.length ≤ (0 * 10 + (x - 48)) * 10 ^ b.length :=
          Nat.mul_le_mul_right _ (by omega)
        rw [Nat.add_mul, Nat.one_mul] at this
        omega
    subst hxy
    rw [val_inj_len a b hl' ha' hb' (by simp only [val]; omega)]

theorem decimal_ge {s : List Nat} {n : Nat} (h : IsDecimal s n) (hl : 2 ≤ s.length) :
    10 ^ (s.length - 1) ≤ n := by
  obtain ⟨hd, hv, hne, hz⟩ := h
  cases s with
  | nil => simp at hl
  | cons c s =>
    have hc := hd c (by simp)
    have h48 : c ≠ 48 := by
      rintro rfl
      have := hz s rfl
      subst this
      simp at hl
    have e1 := val_lin s (0 * 10 + (c - 48))
    simp only [val, List.foldl_cons] at e1 hv
    rw [← hv, e1]
    have : 1 * 10 ^ s.length ≤ (0 * 10 + (c - 48)) * 10 ^ s.length :=
      Nat.mul_le_mul_right _ (by omega)
    simp only [List.length_cons, Nat.add_sub_cancel]
    omega

theorem decimal_unique {a b : List Nat} {n : Nat} (ha : IsDecimal a n) (hb : IsDecimal b n) :
    a = b := by
  have key : ∀ a b : List Nat, IsDecimal a n → IsDecimal b n → ¬ a.length < b.length := by
    intro a b ha hb hlt
    have h1 := val_lt a ha.digits
    have hv : val 0 a = n := ha.value
    have ha0 : 0 < a.length := List.length_pos_iff.2 ha.nonempty
    have h2 := decimal_ge hb (by omega)
    have h3 : 10 ^ a.length ≤ 10 ^ (b.length - 1) := Nat.pow_le_pow_right (by omega) (by omega)
    omega
  have h1 := key a b ha hb
  have h2 := key b a hb ha
  exact val_inj_len a b (by omega) ha.digits hb.digits (ha.value.trans hb.value.symm)

theorem decimal_isDecimal : ∀ n : Nat, IsDecimal (decimal n) n := by
  intro n
  induction n using Nat.strongRecOn with
  | _ n ih =>
    rw [decimal.eq_def]
    split
    · rename_i h
      refine ⟨by simp; omega, by simp, by simp, ?_⟩
      intro t ht
      exact (List.cons.inj ht).2.symm
    · rename_i h
      obtain ⟨h1, h2, h3, h4⟩ := ih (n / 10) (by omega)
      refine ⟨?_, ?_, by simp, ?_⟩
      · intro c hc
        rcases List.mem_append.1 hc with hc | hc
        · exact h1 c hc
        · simp only [List.mem_singleton] at hc; omega
      · rw [List.foldl_append, h2]
        simp
        omega
      · intro t ht
        cases hd : decimal (n / 10) with
        | nil => exact absurd hd h3
        | cons c cs =>
          rw [hd] at ht
          obtain ⟨rfl, _⟩ := List.cons.inj ht
          have := h4 cs hd
          subst this
          rw [hd] at h2
          simp at h2
          omega

end Verif.Str

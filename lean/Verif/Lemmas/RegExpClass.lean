import Verif.Spec.RegExpClass
/-
One member of a character class.
-/
namespace Verif.RegExp
open Spec (SetOf Stable)

theorem digit_iff (c : Nat) : isDigit c = true ↔ Spec.Digit c := by
  simp [isDigit, Spec.Digit]

theorem word_iff (c : Nat) : isWord c = true ↔ Spec.Word c := by
  simp only [isWord, isAlpha, Bool.or_eq_true, digit_iff, decide_eq_true_eq, Spec.Word]
  constructor
  · rintro (((h | h) | h) | h)
    · exact .inr (.inr (.inl h))
    · exact .inr (.inl h)
    · exact .inl h
    · exact .inr (.inr (.inr h))
  · rintro (h | h | h | h)
    · exact .inl (.inr h)
    · exact .inl (.inl (.inr h))
    · exact .inl (.inl (.inl h))
    · exact .inr h

/-- One member of a class. -/
theorem member_iff {white : Nat → Bool} {canon : Nat → Nat} (hst : Stable white canon)
    {a : ClassAtom} (hr : canon = id ∨ ∀ m n, a ≠ .range m n) (c : Nat) :
    matchClassAtom white canon a c = true ↔ ∃ b, SetOf white a b ∧ canon b = canon c := by
  cases a with
  | one k =>
    cases k with
    | normal k =>
      simp only [matchClassAtom, matchChar, SetOf, decide_eq_true_eq]
      constructor
      · intro h; exact ⟨k, rfl, h.symm⟩
      · rintro ⟨b, rfl, h⟩; exact h.symm
    | s =>
      simp only [matchClassAtom, matchChar, SetOf]
      exact ⟨fun h => ⟨c, h, rfl⟩, fun ⟨b, h, e⟩ => by rw [← (hst b c e).1]; exact h⟩
    | d =>
      simp only [matchClassAtom, matchChar, SetOf, digit_iff]
      exact ⟨fun h => ⟨c, h, rfl⟩, fun ⟨b, h, e⟩ => (hst b c e).2.1.1 h⟩
    | w =>
      simp only [matchClassAtom, matchChar, SetOf, word_iff]
      exact ⟨fun h => ⟨c, h, rfl⟩, fun ⟨b, h, e⟩ => (hst b c e).2.2.1 h⟩
    | S =>
      simp only [matchClassAtom, matchChar, SetOf, Bool.not_eq_true']
      refine ⟨fun h => ⟨c, by simp [h], rfl⟩, fun ⟨b, h, e⟩ => ?_⟩
      rw [← (hst b c e).1]; simpa using h
    | D =>
      simp only [matchClassAtom, matchChar, SetOf, Bool.not_eq_true', ← Bool.not_eq_true, digit_iff]
      exact ⟨fun h => ⟨c, h, rfl⟩, fun ⟨b, h, e⟩ => fun h' => h ((hst b c e).2.1.2 h')⟩
    | W =>
      simp only [matchClassAtom, matchChar, SetOf, Bool.not_eq_true', ← Bool.not_eq_true, word_iff]
      exact ⟨fun h => ⟨c, h, rfl⟩, fun ⟨b, h, e⟩ => fun h' => h ((hst b c e).2.2.2 h')⟩
  | range m n =>
    rcases hr with rfl | hr
    · simp only [matchClassAtom, SetOf, decide_eq_true_eq, id]
      exact ⟨fun h => ⟨c, h, rfl⟩, fun ⟨b, h, e⟩ => e ▸ h⟩
    · exact absurd rfl (hr m n)

/-! The positions that are tried with the flag `u` -/

/-- From a position that is not within a pair, the next such position. -/
theorem advance_whole {C : Ctx} (hu : C.u = true) {i : Nat} (hi : ¬ Spec.Mid C.str i) :
    i < advance C i ∧ ¬ Spec.Mid C.str (advance C i) ∧ ∀ q, i < q → q < advance C i → Spec.Mid C.str q := by
  unfold advance
  rw [if_neg (by simp [hu])]
  have one : ∀ q, i < q → q < i + 1 → Spec.Mid C.str q := fun q h1 h2 => by omega
  split
  · rename_i h0
    refine ⟨by omega, ?_, one⟩
    rintro ⟨a, b, -, ha, -⟩
    rw [Nat.add_sub_cancel, h0] at ha
    cases ha
  · rename_i c h0
    split
    · rename_i hl
      refine ⟨by omega, ?_, one⟩
      rintro ⟨a, b, -, ha, -, h3, h4, -⟩
      rw [Nat.add_sub_cancel, h0] at ha
      cases ha
      simp [isLead] at hl
      omega
    · rename_i hl
      have hl' : 0xd800 ≤ c ∧ c ≤ 0xdbff := by simpa [isLead] using hl
      split
      · rename_i h1
        refine ⟨by omega, ?_, one⟩
        rintro ⟨a, b, -, -, hb, -⟩
        rw [h1] at hb
        cases hb
      · rename_i c2 h1
        split
        · rename_i ht
          have ht' : 0xdc00 ≤ c2 ∧ c2 ≤ 0xdfff := by simpa [isTrail] using ht
          refine ⟨by omega, ?_, ?_⟩
          · rintro ⟨a, b, -, ha, -, h3, h4, -⟩
            have : i + 2 - 1 = i + 1 := rfl
            rw [this, h1] at ha
            cases ha
            omega
          · intro q h3 h4
            have : q = i + 1 := by omega
            subst this
            exact ⟨c, c2, by omega, by rw [Nat.add_sub_cancel]; exact h0, h1, hl'.1, hl'.2, ht'.1, ht'.2⟩
        · rename_i ht
          refine ⟨by omega, ?_, one⟩
          rintro ⟨a, b, -, -, hb, -, -, h5, h6⟩
          rw [h1] at hb
          cases hb
          exact ht (by simp [isTrail]; omega)

theorem execLoop_whole {C : Ctx} {d : Alts} {g y : Bool} {fuel : Nat} (hu : C.u = true) : ∀ (rounds idx : Nat) (r : Exec),
    ¬ Spec.Mid C.str idx → execLoop C d g y fuel rounds idx = some r →
    (∀ p gs l, r = .found p gs l → idx ≤ p ∧ ¬ Spec.Mid C.str p ∧
      ∀ q, idx ≤ q → q < p → ¬ Spec.Mid C.str q → ∃ v, run C fuel (start d q) = some (.done false v)) ∧
    (∀ l, r = .null l → y = false → ∀ q, idx ≤ q → q ≤ C.str.length → ¬ Spec.Mid C.str q →
      ∃ v, run C fuel (start d q) = some (.done false v))
  | 0, idx, r, _, h => by cases h
  | rounds + 1, idx, r, hi, h => by
    rw [execLoop] at h
    split at h
    · cases h
      exact ⟨(fun p gs l e => by cases e), fun l _ _ q h1 h2 _ => by omega⟩
    · split at h
      · cases h
      · cases h
      · cases h
        exact ⟨(fun p gs l e => by cases e), fun l e => by cases e⟩
      · rename_i v hr
        split at h
        · rename_i hy
          cases h
          exact ⟨(fun p gs l e => by cases e), fun l _ hy' => by rw [hy] at hy'; cases hy'⟩
        · obtain ⟨h1, h2, h3⟩ := advance_whole hu hi
          obtain ⟨h4, h5⟩ := execLoop_whole hu rounds _ r h2 h
          have step : ∀ q, idx ≤ q → ¬ Spec.Mid C.str q → q = idx ∨ advance C idx ≤ q := by
            intro q hq hm
            by_cases e : q = idx
            · exact .inl e
            · by_cases hl : q < advance C idx
              · exact absurd (h3 q (by omega) hl) hm
              · exact .inr (by omega)
          refine ⟨fun p gs l e => ?_, fun l e hy q hq hl hm => ?_⟩
          · obtain ⟨a1, a2, a3⟩ := h4 p gs l e
            refine ⟨by omega, a2, fun q hq hp hm => ?_⟩
            rcases step q hq hm with rfl | hs
            · exact ⟨v, hr⟩
            · exact a3 q hs hp hm
          · rcases step q hq hm with rfl | hs
            · exact ⟨v, hr⟩
            · exact h5 l e hy q hs hl hm
      · split at h
        · split at h
          · cases h
            exact ⟨(fun p gs l e => by cases e; exact ⟨Nat.le_refl _, hi, fun q h1 h2 => by omega⟩), fun l e => by cases e⟩
          · cases h
            exact ⟨(fun p gs l e => by cases e), fun l e => by cases e⟩
        · cases h
          exact ⟨(fun p gs l e => by cases e), fun l e => by cases e⟩

end Verif.RegExp

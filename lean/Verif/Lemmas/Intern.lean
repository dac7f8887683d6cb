import Verif.Model.Intern
import Verif.Lemmas.Str
/-
Lemmas about the table of property keys.
-/
namespace Verif.Str
open Spec

/-- The strings with the flag are those in the table, and have different characters. -/
structure SInv (s : Strings) : Prop where
  nodup : s.table.Nodup
  live : ∀ i, i ∈ s.table → s.chars i ≠ none
  key : ∀ i, s.chars i ≠ none → (s.key i = true ↔ i ∈ s.table)
  diff : ∀ i j, i ∈ s.table → j ∈ s.table → s.chars i = s.chars j → i = j

theorem equal_spec {s : Strings} (hs : SInv s) {i j : Nat} {a b : List Nat}
    (ha : s.chars i = some a) (hb : s.chars j = some b) : equal s i j = some (a == b) := by
  unfold equal
  rw [ha, hb]
  simp only
  by_cases hij : i = j
  · subst hij
    rw [ha] at hb
    obtain rfl := Option.some.inj hb
    simp
  · rw [if_neg hij]
    split
    · rename_i hk
      rw [Bool.and_eq_true] at hk
      have h1 := (hs.key i (by rw [ha]; simp)).1 hk.1
      have h2 := (hs.key j (by rw [hb]; simp)).1 hk.2
      have : a ≠ b := by
        rintro rfl
        exact hij (hs.diff i j h1 h2 (by rw [ha, hb]))
      simp [this]
    · split
      · rename_i hl
        have : a ≠ b := by rintro rfl; exact hl rfl
        simp [this]
      · rfl

theorem lookup_spec {s : Strings} (hs : SInv s) {i : Nat} {a : List Nat}
    (ha : s.chars i = some a) : ∀ es : List Nat, (∀ e ∈ es, e ∈ s.table) →
    ∃ r, lookup s i es = some r ∧ (∀ e, r = some e → e ∈ es ∧ s.chars e = some a) ∧
      (r = none → ∀ e ∈ es, s.chars e ≠ some a)
  | [], _ => ⟨none, rfl, by simp, by simp⟩
  | e :: es, h => by
    obtain ⟨b, hb⟩ := Option.ne_none_iff_exists'.1 (hs.live e (h e (by simp)))
    simp only [lookup, equal_spec hs hb ha]
    by_cases hab : b = a
    · subst hab
      simp only [beq_self_eq_true]
      exact ⟨some e, rfl, fun e' he => by obtain rfl := Option.some.inj he; exact ⟨by simp, hb⟩,
        by simp⟩
    · have : (b == a) = false := by simpa using hab
      simp only [this]
      obtain ⟨r, h1, h2, h3⟩ := lookup_spec hs ha es (fun x hx => h x (by simp [hx]))
      refine ⟨r, h1, fun x hx => ⟨by simp [(h2 x hx).1], (h2 x hx).2⟩, fun hr x hx => ?_⟩
      rcases List.mem_cons.1 hx with rfl | hx
      · rw [hb]; simpa using hab
      · exact h3 hr x hx

theorem toPropertyKey_spec {s : Strings} (hs : SInv s) {i : Nat} {a : List Nat}
    (ha : s.chars i = some a) : ∃ s' e, toPropertyKey s i = some (s', e) ∧ SInv s' ∧
      s'.chars = s.chars ∧ s'.chars e = some a ∧ s'.key e = true := by
  unfold toPropertyKey
  by_cases hk : s.key i = true
  · rw [if_pos hk]
    exact ⟨s, i, rfl, hs, rfl, ha, hk⟩
  · rw [if_neg hk]
    obtain ⟨r, h1, h2, h3⟩ := lookup_spec hs ha s.table (fun _ h => h)
    rw [h1]
    cases r with
    | some e =>
      obtain ⟨h4, h5⟩ := h2 e rfl
      exact ⟨s, e, rfl, hs, rfl, h5, (hs.key e (by rw [h5]; simp)).2 h4⟩
    | none =>
      have hni : i ∉ s.table := fun h => hk ((hs.key i (by rw [ha]; simp)).2 h)
      have h3' := h3 rfl
      refine ⟨_, i, rfl, ⟨?_, ?_, ?_, ?_⟩, rfl, ha, by simp⟩
      · exact List.nodup_cons.2 ⟨hni, hs.nodup⟩
      · intro j hj
        rcases List.mem_cons.1 hj with rfl | hj
        · rw [ha]; simp
        · exact hs.live j hj
      · intro j hj
        by_cases hji : j = i
        · subst hji; simp
        · simp only [hji, if_false, List.mem_cons, false_or]
          exact hs.key j hj
      · intro j k hj hk' he
        simp only at he
        rcases List.mem_cons.1 hj with rfl | hj0 <;> rcases List.mem_cons.1 hk' with rfl | hk0
        · rfl
        · exact absurd (he.symm.trans ha) (h3' k hk0)
        · exact absurd (he.trans ha) (h3' j hj0)
        · exact hs.diff j k hj0 hk0 he

theorem freeString_spec {s : Strings} (hs : SInv s) {i : Nat} {a : List Nat}
    (ha : s.chars i = some a) : ∃ s', freeString s i = some s' ∧ SInv s' ∧
      s'.chars = fun j => if j = i then none else s.chars j := by
  unfold freeString
  by_cases hk : s.key i = true
  · rw [if_pos hk]
    obtain ⟨r, h1, h2, h3⟩ := lookup_spec hs ha s.table (fun _ h => h)
    have hi : i ∈ s.table := (hs.key i (by rw [ha]; simp)).1 hk
    rw [h1]
    cases r with
    | none => exact absurd ha (h3 rfl i hi)
    | some e =>
      obtain ⟨h4, h5⟩ := h2 e rfl
      obtain rfl : e = i := hs.diff e i h4 hi (by rw [h5, ha])
      refine ⟨_, rfl, ⟨hs.nodup.erase e, ?_, ?_, ?_⟩, rfl⟩
      · intro j hj
        have := (hs.nodup.mem_erase_iff).1 hj
        simp only [this.1, if_false]
        exact hs.live j this.2
      · intro j hj
        by_cases hji : j = e
        · subst hji; simp at hj
        · simp only [hji, if_false] at hj
          simp only [hs.nodup.mem_erase_iff, ne_eq, hji, not_false_eq_true, true_and]
          exact hs.key j hj
      · intro j k hj hk' he
        have hj' := (hs.nodup.mem_erase_iff).1 hj
        have hk'' := (hs.nodup.mem_erase_iff).1 hk'
        simp only [hj'.1, hk''.1, if_false] at he
        exact hs.diff j k hj'.2 hk''.2 he
  · rw [if_neg hk]
    have hni : i ∉ s.table := fun h => hk ((hs.key i (by rw [ha]; simp)).2 h)
    have hne : ∀ j ∈ s.table, j ≠ i := fun j hj h => hni (h ▸ hj)
    refine ⟨_, rfl, ⟨hs.nodup, ?_, ?_, ?_⟩, rfl⟩
    · intro j hj
      simp only [hne j hj, if_false]
      exact hs.live j hj
    · intro j hj
      by_cases hji : j = i
      · subst hji; simp at hj
      · simp only [hji, if_false] at hj
        exact hs.key j hj
    · intro j k hj hk' he
      simp only [hne j hj, hne k hk', if_false] at he
      exact hs.diff j k hj hk' he

theorem newString_inv {s : Strings} (hs : SInv s) {i : Nat} (hi : s.chars i = none)
    (cs : List Nat) : SInv (newString s i cs) := by
  have hne : ∀ j ∈ s.table, j ≠ i := fun j hj h => hs.live j hj (h ▸ hi)
  refine ⟨hs.nodup, ?_, ?_, ?_⟩
  · intro j hj
    simp only [newString, hne j hj, if_false]
    exact hs.live j hj
  · intro j hj
    by_cases hji : j = i
    · subst hji
      simp only [newString, if_true, Bool.false_eq_true, false_iff]
      exact fun h => hne j h rfl
    · simp only [newString, hji, if_false] at hj ⊢
      exact hs.key j hj
  · intro j k hj hk' he
    simp only [newString, hne j hj, hne k hk', if_false] at he
    exact hs.diff j k hj hk' he

theorem runS_inv : ∀ (os : List SOp) (s : Strings), SInv s → ∃ s', runS s os = some s' ∧ SInv s'
  | [], s, hs => ⟨s, rfl, hs⟩
  | o :: os, s, hs => by
    have : ∃ s1, stepS s o = some s1 ∧ SInv s1 := by
      cases o with
      | new i cs =>
        simp only [stepS]
        split
        · exact ⟨_, rfl, newString_inv hs (by assumption) cs⟩
        · exact ⟨s, rfl, hs⟩
      | key i =>
        simp only [stepS]
        split
        · exact ⟨s, rfl, hs⟩
        · rename_i h
          obtain ⟨a, ha⟩ := Option.ne_none_iff_exists'.1 h
          obtain ⟨s', e, h1, h2, _⟩ := toPropertyKey_spec hs ha
          exact ⟨s', by rw [h1]; rfl, h2⟩
      | free i =>
        simp only [stepS]
        split
        · exact ⟨s, rfl, hs⟩
        · rename_i h
          obtain ⟨a, ha⟩ := Option.ne_none_iff_exists'.1 h
          obtain ⟨s', h1, h2, _⟩ := freeString_spec hs ha
          exact ⟨s', h1, h2⟩
    obtain ⟨s1, h1, h2⟩ := this
    obtain ⟨s2, h3, h4⟩ := runS_inv os s1 h2
    exact ⟨s2, by simp [runS, h1, h3], h4⟩

theorem sinv_init : SInv Strings.init :=
  ⟨List.nodup_nil, by simp [Strings.init], by simp [Strings.init], by simp [Strings.init]⟩

theorem equalVal_spec {s : Strings} (hs : SInv s) {u v : SVal} {a b : List Nat}
    (ha : u.chars s = some a) (hb : v.chars s = some b) : equalVal s u v = some (a == b) := by
  have hgen : ∀ x y : List Nat, (if x.length ≠ y.length then some false else some (x == y)) =
      some (x == y) := by
    intro x y
    split
    · rename_i h
      have : x ≠ y := by rintro rfl; exact h rfl
      simp [this]
    · rfl
  cases u with
  | idx m =>
    cases v with
    | idx n =>
      simp only [SVal.chars, Option.some.injEq] at ha hb
      subst ha hb
      simp only [equalVal]
      by_cases h : m = n
      · subst h; simp
      · have : decimal m ≠ decimal n := by
          intro he
          have h1 := (decimal_isDecimal m).value
          rw [he, (decimal_isDecimal n).value] at h1
          exact h h1.symm
        have h1 : (m == n) = false := by simpa using h
        have h2 : (decimal m == decimal n) = false := by simpa using this
        rw [h1, h2]
    | str j => simp only [equalVal, ha, hb, hgen]
  | str i =>
    cases v with
    | idx n => simp only [equalVal, ha, hb, hgen]
    | str j => exact equal_spec hs ha hb

end Verif.Str

import Verif.Lemmas.LexName

/-! Lemmas for C89: numbers. -/
namespace Verif.Lex
open Json (Out Uni isDigit isOctal isHex isBinary digits legacy intPart integer fractionPart exponentPart signPart
  IntPart numeral Numeral ends isHex_iff hexNum_of isDigit_iff)
open Json.Spec (IsDigit IsHex)
open Spec (Next Sep)

/-- Neither a digit nor a separator follows. -/
def Stop (p : Nat → Prop) (t : List Nat) : Prop := ¬ Next p t ∧ ¬ Next (· = 95) t

theorem Sep.ne_nil {p : Nat → Prop} {t ds : List Nat} (h : Sep p t ds) : t ≠ [] ∧ ds ≠ [] := by
  cases h <;> simp

theorem Sep.head {p : Nat → Prop} {t ds : List Nat} (h : Sep p t ds) : ∃ c r, t = c :: r ∧ p c := by
  cases h with
  | one h => exact ⟨_, _, rfl, h⟩
  | cons h _ => exact ⟨_, _, rfl, h⟩
  | sep h _ => exact ⟨_, _, rfl, h⟩

/-- The loop behind a digit. -/
theorem digits_any {p : Nat → Bool} (hp : p 95 = false) {need : Bool} {cs ds rest : List Nat} :
    (digits p false need true true cs = some (ds, rest) ↔
      (ds = [] ∧ rest = cs ∧ Stop (p · = true) cs) ∨
      (∃ t, cs = t ++ rest ∧ Sep (p · = true) t ds ∧ Stop (p · = true) rest) ∨
      ∃ t, cs = 95 :: (t ++ rest) ∧ Sep (p · = true) t ds ∧ Stop (p · = true) rest) ∧
    (digits p false need false true cs = some (ds, rest) ↔
      ∃ t, cs = t ++ rest ∧ Sep (p · = true) t ds ∧ Stop (p · = true) rest) := by
  induction cs generalizing ds with
  | nil =>
    constructor
    · simp only [digits]
      constructor
      · intro h
        simp at h
        obtain ⟨rfl, rfl⟩ := h
        exact Or.inl ⟨rfl, rfl, Next.nil, Next.nil⟩
      · rintro (⟨rfl, rfl, _⟩ | ⟨t, h, hs, _⟩ | ⟨t, h, _⟩)
        · simp
        · exact absurd (List.append_eq_nil_iff.1 h.symm).1 (Sep.ne_nil hs).1
        · cases h
    · simp only [digits]
      constructor
      · intro h; simp at h
      · rintro ⟨t, h, hs, _⟩
        exact absurd (List.append_eq_nil_iff.1 h.symm).1 (Sep.ne_nil hs).1
  | cons c cs ih =>
    obtain ⟨ih1, ih2⟩ := ih (ds := ds)
    -- the digit `c`
    have dig : p c = true → ∀ _ : Bool, (∃ x, digits p false need true true cs = some (x, rest) ∧ ds = c :: x) ↔
        ∃ t, c :: cs = t ++ rest ∧ Sep (p · = true) t ds ∧ Stop (p · = true) rest := by
      intro hc _
      constructor
      · rintro ⟨x, hx, rfl⟩
        rcases (ih (ds := x)).1.1 hx with ⟨rfl, rfl, hs⟩ | ⟨t, rfl, hs, hr⟩ | ⟨t, rfl, hs, hr⟩
        · exact ⟨[c], rfl, .one hc, hs⟩
        · exact ⟨c :: t, rfl, .cons hc hs, hr⟩
        · exact ⟨c :: 95 :: t, rfl, .sep hc hs, hr⟩
      · rintro ⟨t, h, hs, hr⟩
        cases hs with
        | one _ =>
          obtain ⟨rfl, rfl⟩ := List.cons.inj h
          exact ⟨[], (ih (ds := [])).1.2 (Or.inl ⟨rfl, rfl, hr⟩), rfl⟩
        | @cons _ t x _ hs =>
          obtain ⟨rfl, rfl⟩ := List.cons.inj h
          exact ⟨x, (ih (ds := x)).1.2 (Or.inr (Or.inl ⟨t, rfl, hs, hr⟩)), rfl⟩
        | @sep _ t x _ hs =>
          obtain ⟨rfl, rfl⟩ := List.cons.inj h
          exact ⟨x, (ih (ds := x)).1.2 (Or.inr (Or.inr ⟨t, rfl, hs, hr⟩)), rfl⟩
    have conv : c ≠ 95 → p c = true → ∀ sep, (digits p false need sep true (c :: cs) = some (ds, rest) ↔
        ∃ x, digits p false need true true cs = some (x, rest) ∧ ds = c :: x) := by
      intro h95 hc sep
      have hb : (c == 95) = false := by simpa using h95
      rw [digits]
      simp only [hb, Bool.and_false, Bool.false_eq_true, if_false, hc, if_true]
      cases hd : digits p false need true true cs with
      | none => simp
      | some v =>
        obtain ⟨a, b⟩ := v
        simp only [Option.some.injEq, Prod.mk.injEq]
        constructor
        · rintro ⟨rfl, rfl⟩; exact ⟨a, ⟨rfl, rfl⟩, rfl⟩
        · rintro ⟨x, ⟨rfl, rfl⟩, rfl⟩; exact ⟨rfl, rfl⟩
    by_cases h95 : c = 95
    · subst h95
      constructor
      · rw [digits]
        simp only [Bool.not_false, Bool.true_and, beq_self_eq_true, if_true]
        rw [ih2]
        constructor
        · rintro ⟨t, rfl, h⟩; exact Or.inr (Or.inr ⟨t, rfl, h⟩)
        · rintro (⟨_, _, h⟩ | ⟨t, h, hs, _⟩ | ⟨t, h, hs⟩)
          · exact absurd ⟨_, _, rfl, rfl⟩ h.2
          · obtain ⟨c, r, rfl, hc⟩ := Sep.head hs
            obtain ⟨rfl, _⟩ := List.cons.inj h
            rw [hp] at hc; cases hc
          · obtain ⟨_, rfl⟩ := List.cons.inj h; exact ⟨t, rfl, hs⟩
      · rw [digits]
        simp only [Bool.not_false, Bool.and_false, Bool.false_and, Bool.false_eq_true, if_false, hp, Bool.not_true,
          Bool.and_self, if_true]
        constructor
        · intro h; cases h
        · rintro ⟨t, h, hs, _⟩
          obtain ⟨c, r, rfl, hc⟩ := Sep.head hs
          obtain ⟨rfl, _⟩ := List.cons.inj h
          rw [hp] at hc; cases hc
    · have hb : (c == 95) = false := by simpa using h95
      by_cases hc : p c = true
      · constructor
        · rw [conv h95 hc, dig hc true]
          constructor
          · intro h; exact Or.inr (Or.inl h)
          · rintro (⟨_, _, h⟩ | h | ⟨t, h, hs⟩)
            · exact absurd ⟨c, cs, rfl, hc⟩ h.1
            · exact h
            · exact absurd (List.cons.inj h).1 h95
        · rw [conv h95 hc, dig hc true]
      · have hns : ∀ t, c :: cs = t ++ rest → ¬ Sep (p · = true) t ds := by
          intro t h hs
          obtain ⟨d, r, rfl, hd⟩ := Sep.head hs
          obtain ⟨rfl, _⟩ := List.cons.inj h
          exact hc hd
        constructor
        · rw [digits]
          simp only [hb, Bool.and_false, Bool.false_eq_true, if_false, hc, Bool.not_true]
          constructor
          · intro h
            simp at h
            obtain ⟨rfl, rfl⟩ := h
            exact Or.inl ⟨rfl, rfl, by rw [Next.cons]; exact hc, by rw [Next.cons]; exact h95⟩
          · rintro (⟨rfl, rfl, h⟩ | ⟨t, h, hs, _⟩ | ⟨t, h, hs⟩)
            · rfl
            · exact absurd hs (hns t h)
            · exact absurd (List.cons.inj h).1 h95
        · rw [digits]
          simp only [hb, Bool.and_false, Bool.false_eq_true, if_false, hc, Bool.not_true, Bool.not_false, Bool.and_self,
            if_true]
          constructor
          · intro h; cases h
          · rintro ⟨t, h, hs, _⟩; exact absurd hs (hns t h)

/-- The loop at the beginning. -/
theorem digits_iff {p : Nat → Bool} (hp : p 95 = false) {need : Bool} {cs ds rest : List Nat} :
    digits p false need false false cs = some (ds, rest) ↔
      (∃ t, cs = t ++ rest ∧ Sep (p · = true) t ds ∧ Stop (p · = true) rest) ∨
      need = false ∧ ds = [] ∧ rest = cs ∧ ¬ Next (p · = true) cs := by
  cases cs with
  | nil =>
    simp only [digits]
    constructor
    · intro h
      right
      cases need with
      | true => simp at h
      | false => simp at h; exact ⟨rfl, h.1, h.2, Next.nil⟩
    · rintro (⟨t, h, hs, _⟩ | ⟨rfl, rfl, rfl, _⟩)
      · exact absurd (List.append_eq_nil_iff.1 h.symm).1 (Sep.ne_nil hs).1
      · simp
  | cons c cs =>
    by_cases hc : p c = true
    · have h95 : c ≠ 95 := by rintro rfl; rw [hp] at hc; cases hc
      have hb : (c == 95) = false := by simpa using h95
      have e : digits p false need false false (c :: cs) = digits p false need false true (c :: cs) := by
        rw [digits, digits]; simp [hb, hc]
      rw [e, (digits_any hp).2]
      constructor
      · exact Or.inl
      · rintro (h | ⟨_, _, _, h⟩)
        · exact h
        · exact absurd ⟨c, cs, rfl, hc⟩ h
    · rw [digits]
      simp only [Bool.not_false, Bool.and_false, Bool.false_and, Bool.false_eq_true, if_false, hc, Bool.and_true]
      constructor
      · intro h
        right
        cases need with
        | true => simp at h
        | false =>
          simp at h
          exact ⟨rfl, h.1, h.2.symm, by rw [Next.cons]; exact hc⟩
      · rintro (⟨t, h, hs, _⟩ | ⟨rfl, rfl, rfl, _⟩)
        · obtain ⟨d, r, rfl, hd⟩ := Sep.head hs
          obtain ⟨rfl, _⟩ := List.cons.inj h
          exact absurd hd hc
        · simp

/-- Without separators. -/
theorem digits_plain {p : Nat → Bool} {need sep any : Bool} {cs ds rest : List Nat} :
    digits p true need sep any cs = some (ds, rest) ↔
      cs = ds ++ rest ∧ (∀ c ∈ ds, p c = true) ∧ ¬ Next (p · = true) rest ∧ (need = true → any = true ∨ ds ≠ []) := by
  induction cs generalizing sep any ds rest with
  | nil =>
    simp only [digits]
    constructor
    · intro h
      cases need <;> cases any <;> simp at h <;> obtain ⟨rfl, rfl⟩ := h <;>
        exact ⟨rfl, by simp, Next.nil, by simp⟩
    · rintro ⟨h, _, _, h4⟩
      obtain ⟨rfl, rfl⟩ := List.append_eq_nil_iff.1 h.symm
      cases need <;> cases any <;> simp at h4 ⊢
  | cons c cs ih =>
    rw [digits]
    simp only [Bool.not_true, Bool.false_and, Bool.false_eq_true, if_false]
    by_cases hc : p c = true
    · rw [if_pos hc]
      cases hd : digits p true need true true cs with
      | none =>
        constructor
        · intro h; cases h
        · rintro ⟨h, h2, h3, h4⟩
          cases ds with
          | nil => exact absurd ⟨c, cs, h.symm, hc⟩ h3
          | cons d ds =>
            obtain ⟨rfl, h'⟩ := List.cons.inj h
            replace h := h'
            rw [ih.2 ⟨h, fun x hx => h2 x (by simp [hx]), h3, fun _ => Or.inl rfl⟩] at hd
            cases hd
      | some v =>
        obtain ⟨a, b⟩ := v
        have hab := ih.1 hd
        simp only [Option.some.injEq, Prod.mk.injEq]
        constructor
        · rintro ⟨rfl, rfl⟩
          refine ⟨by rw [hab.1]; rfl, ?_, hab.2.2.1, fun _ => Or.inr (by simp)⟩
          intro x hx
          rcases List.mem_cons.1 hx with rfl | hx
          · exact hc
          · exact hab.2.1 x hx
        · rintro ⟨h, h2, h3, h4⟩
          cases ds with
          | nil => exact absurd ⟨c, cs, h.symm, hc⟩ h3
          | cons d ds =>
            obtain ⟨rfl, h'⟩ := List.cons.inj h
            replace h := h'
            have := (ih (sep := true) (any := true)).2 ⟨h, fun x hx => h2 x (by simp [hx]), h3, fun _ => Or.inl rfl⟩
            rw [hd] at this
            cases this
            exact ⟨rfl, rfl⟩
    · rw [if_neg hc]
      constructor
      · intro h
        cases need <;> cases any <;> simp at h <;> obtain ⟨rfl, rfl⟩ := h <;>
          exact ⟨rfl, by simp, by rw [Next.cons]; exact hc, by simp⟩
      · rintro ⟨h, h2, h3, h4⟩
        cases ds with
        | nil =>
          simp at h
          subst h
          cases need <;> cases any <;> simp at h4 ⊢
        | cons d ds =>
          obtain ⟨rfl, h'⟩ := List.cons.inj h
          replace h := h'
          exact absurd (h2 c (by simp)) hc

/-- The characters that make a legacy number decimal. -/
def Turn (c : Nat) : Prop := c = 56 ∨ c = 57 ∨ c = 46 ∨ c = 101 ∨ c = 69

theorem legacy_iff {cs : List Nat} {b : Nat} {ds rest : List Nat} :
    legacy cs = some (b, ds, rest) ↔ cs = ds ++ rest ∧
      ((b = 8 ∧ (∀ c ∈ ds, Spec.IsOctal c) ∧ ¬ Next (fun c => Spec.IsOctal c ∨ Turn c) rest) ∨
       (b = 10 ∧ ∃ o c d, ds = o ++ c :: d ∧ (∀ c ∈ o, Spec.IsOctal c) ∧ Turn c ∧ (∀ c ∈ d, IsDigit c) ∧
          ¬ Next IsDigit rest)) := by
  have hturn : ∀ c, isOctal c = false → ((isDigit c || c == 46 || c == 101 || c == 69) = true ↔ Turn c) := by
    intro c hc
    simp [isOctal] at hc
    simp [isDigit, Turn]; omega
  have hno : ∀ c, Turn c → ¬ Spec.IsOctal c := by intro c h1 h2; unfold Turn at h1; unfold Spec.IsOctal at h2; omega
  induction cs generalizing ds with
  | nil =>
    simp only [legacy]
    constructor
    · intro h; cases h
      exact ⟨rfl, Or.inl ⟨rfl, by simp, Next.nil⟩⟩
    · rintro ⟨h, h2⟩
      obtain ⟨rfl, rfl⟩ := List.append_eq_nil_iff.1 h.symm
      rcases h2 with ⟨rfl, _⟩ | ⟨_, o, c, d, h, _⟩
      · rfl
      · simp at h
  | cons c cs ih =>
    simp only [legacy]
    by_cases hc : isOctal c = true
    · rw [if_pos hc]
      have hc' := (isOctal_iff c).1 hc
      have tail : (c :: cs = ds ++ rest ∧
          ((b = 8 ∧ (∀ c ∈ ds, Spec.IsOctal c) ∧ ¬ Next (fun c => Spec.IsOctal c ∨ Turn c) rest) ∨
           (b = 10 ∧ ∃ o c d, ds = o ++ c :: d ∧ (∀ c ∈ o, Spec.IsOctal c) ∧ Turn c ∧ (∀ c ∈ d, IsDigit c) ∧
              ¬ Next IsDigit rest))) ↔ ∃ x, ds = c :: x ∧ legacy cs = some (b, x, rest) := by
        constructor
        · rintro ⟨h, h2⟩
          rcases h2 with ⟨rfl, h3, h4⟩ | ⟨rfl, o, d, e, rfl, h3, h4, h5, h6⟩
          · cases ds with
            | nil => exact absurd ⟨c, cs, h.symm, Or.inl hc'⟩ h4
            | cons d ds =>
              obtain ⟨rfl, h'⟩ := List.cons.inj h
              replace h := h'
              exact ⟨ds, rfl, ih.2 ⟨h, Or.inl ⟨rfl, fun x hx => h3 x (by simp [hx]), h4⟩⟩⟩
          · cases o with
            | nil =>
              obtain ⟨rfl, h'⟩ := List.cons.inj h
              replace h := h'
              exact absurd hc' (hno c h4)
            | cons y o =>
              obtain ⟨rfl, h'⟩ := List.cons.inj h
              replace h := h'
              exact ⟨o ++ d :: e, rfl, ih.2 ⟨h, Or.inr ⟨rfl, o, d, e, rfl, fun x hx => h3 x (by simp [hx]), h4, h5, h6⟩⟩⟩
        · rintro ⟨x, rfl, h⟩
          obtain ⟨h1, h2⟩ := ih.1 h
          refine ⟨by rw [h1]; rfl, ?_⟩
          have key : ∀ m : List Nat, (∀ x ∈ m, Spec.IsOctal x) → ∀ x ∈ c :: m, Spec.IsOctal x := by
            intro m hm x hx
            rcases List.mem_cons.1 hx with rfl | hx
            · exact hc'
            · exact hm x hx
          rcases h2 with ⟨rfl, h3, h4⟩ | ⟨rfl, o, d, e, rfl, h3, h4, h5, h6⟩
          · exact Or.inl ⟨rfl, key _ h3, h4⟩
          · exact Or.inr ⟨rfl, c :: o, d, e, rfl, key _ h3, h4, h5, h6⟩
      rw [tail]
      cases hl : legacy cs with
      | none => simp
      | some v =>
        obtain ⟨b', x, r⟩ := v
        simp only [Option.some.injEq, Prod.mk.injEq]
        constructor
        · rintro ⟨rfl, rfl, rfl⟩; exact ⟨x, rfl, rfl, rfl, rfl⟩
        · rintro ⟨y, rfl, rfl, rfl, rfl⟩; exact ⟨rfl, rfl, rfl⟩
    · rw [if_neg hc]
      have hc0 : isOctal c = false := by simpa using hc
      have hc' : ¬ Spec.IsOctal c := by rw [← isOctal_iff]; exact hc
      by_cases ht : Turn c
      · rw [if_pos ((hturn c hc0).2 ht)]
        have dig : ∀ {x : List Nat}, digits isDigit true true true true cs = some (x, rest) ↔
            cs = x ++ rest ∧ (∀ c ∈ x, IsDigit c) ∧ ¬ Next IsDigit rest := by
          intro x
          rw [digits_plain]
          have e1 : (fun c => isDigit c = true) = IsDigit := by funext c; rw [isDigit_iff]
          rw [e1]
          simp only [isDigit_iff]
          constructor
          · rintro ⟨a, b, c, _⟩; exact ⟨a, b, c⟩
          · rintro ⟨a, b, c⟩; exact ⟨a, b, c, fun _ => Or.inl trivial⟩
        have tail : (c :: cs = ds ++ rest ∧
          ((b = 8 ∧ (∀ c ∈ ds, Spec.IsOctal c) ∧ ¬ Next (fun c => Spec.IsOctal c ∨ Turn c) rest) ∨
           (b = 10 ∧ ∃ o c d, ds = o ++ c :: d ∧ (∀ c ∈ o, Spec.IsOctal c) ∧ Turn c ∧ (∀ c ∈ d, IsDigit c) ∧
              ¬ Next IsDigit rest))) ↔
            b = 10 ∧ ∃ x, ds = c :: x ∧ digits isDigit true true true true cs = some (x, rest) := by
          constructor
          · rintro ⟨h, h2⟩
            rcases h2 with ⟨rfl, h3, h4⟩ | ⟨rfl, o, d, e, rfl, h3, h4, h5, h6⟩
            · exfalso
              cases ds with
              | nil => exact h4 ⟨c, cs, h.symm, Or.inr ht⟩
              | cons d ds =>
                obtain ⟨rfl, h'⟩ := List.cons.inj h
                replace h := h'
                exact hc' (h3 c (by simp))
            · cases o with
              | nil =>
                obtain ⟨rfl, h'⟩ := List.cons.inj h
                replace h := h'
                exact ⟨rfl, e, rfl, dig.2 ⟨h, h5, h6⟩⟩
              | cons y o =>
                obtain ⟨rfl, h'⟩ := List.cons.inj h
                replace h := h'
                exact absurd (h3 c (by simp)) hc'
          · rintro ⟨rfl, x, rfl, h⟩
            obtain ⟨rfl, h2, h3⟩ := dig.1 h
            exact ⟨rfl, Or.inr ⟨rfl, [], c, x, rfl, by simp, ht, h2, h3⟩⟩
        rw [tail]
        cases hl : digits isDigit true true true true cs with
        | none => simp
        | some v =>
          obtain ⟨x, r⟩ := v
          simp only [Option.some.injEq, Prod.mk.injEq]
          constructor
          · rintro ⟨rfl, rfl, rfl⟩; exact ⟨rfl, x, rfl, rfl, rfl⟩
          · rintro ⟨rfl, y, rfl, rfl, rfl⟩; exact ⟨rfl, rfl, rfl⟩
      · rw [if_neg (by rw [hturn c hc0]; exact ht)]
        constructor
        · intro h; cases h
          exact ⟨rfl, Or.inl ⟨rfl, by simp, by rw [Next.cons]; exact fun h => h.elim hc' ht⟩⟩
        · rintro ⟨h, h2⟩
          rcases h2 with ⟨rfl, h3, h4⟩ | ⟨rfl, o, d, e, rfl, h3, h4, h5, h6⟩
          · cases ds with
            | nil => simp at h; rw [h]
            | cons d ds =>
              obtain ⟨rfl, h'⟩ := List.cons.inj h
              replace h := h'
              exact absurd (h3 c (by simp)) hc'
          · cases o with
            | nil =>
              obtain ⟨rfl, h'⟩ := List.cons.inj h
              replace h := h'
              exact absurd h4 ht
            | cons y o =>
              obtain ⟨rfl, h'⟩ := List.cons.inj h
              replace h := h'
              exact absurd (h3 c (by simp)) hc'

end Verif.Lex

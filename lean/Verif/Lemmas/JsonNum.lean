import Verif.Lemmas.Json
/-
Lemmas for C48: the numerals the lexer accepts.
-/
namespace Verif.Json

open Spec

variable {F : Type}

theorem digits_sound {p : Nat → Bool} (hp : p 95 = false) {noSep need sep any : Bool} {cs ds rest : List Nat}
    (h : digits p noSep need sep any cs = some (ds, rest)) :
    ∃ t, cs = t ++ rest ∧ (∀ c ∈ t, c = 95 ∨ p c = true) ∧ (95 ∉ t → ds = t) ∧
      (need = true → any = true ∨ ∃ c ∈ t, p c = true) ∧ ∀ c ∈ rest.head?, p c = false := by
  induction cs generalizing sep any ds with
  | nil =>
    unfold digits at h
    split at h
    · cases h
    · rename_i h1
      split at h
      · cases h
      · cases h
        refine ⟨[], rfl, by simp, by simp, ?_, by simp⟩
        intro hn
        simp [hn] at h1
        exact Or.inl h1
  | cons c cs ih =>
    unfold digits at h
    split at h
    · rename_i hc
      simp only [Bool.and_eq_true, beq_iff_eq] at hc
      obtain ⟨-, rfl⟩ := hc
      obtain ⟨t, h1, h2, h3, h4, h5⟩ := ih h
      refine ⟨95 :: t, by rw [h1]; rfl, ?_, by simp, ?_, h5⟩
      · intro x hx
        rcases List.mem_cons.1 hx with rfl | hx
        · exact Or.inl rfl
        · exact h2 x hx
      · intro hn
        rcases h4 hn with h4 | ⟨c, hc, hp⟩
        · exact Or.inl h4
        · exact Or.inr ⟨c, by simp [hc], hp⟩
    · split at h
      · rename_i hpc
        split at h
        · rename_i ds' rest' he
          cases h
          obtain ⟨t, h1, h2, h3, h4, h5⟩ := ih he
          refine ⟨c :: t, by rw [h1]; rfl, ?_, ?_, fun _ => Or.inr ⟨c, by simp, hpc⟩, h5⟩
          · intro x hx
            rcases List.mem_cons.1 hx with rfl | hx
            · exact Or.inr hpc
            · exact h2 x hx
          · intro hn
            rw [h3 (fun hx => hn (by simp [hx]))]
        · cases h
      · rename_i hpc
        split at h
        · cases h
        · rename_i h1
          split at h
          · cases h
          · cases h
            refine ⟨[], rfl, by simp, by simp, ?_, ?_⟩
            · intro hn
              simp [hn] at h1
              exact Or.inl h1
            · intro x hx
              cases hx
              simpa using hpc

theorem numChar_digit {c : Nat} (h : isDigit c = true) : NumChar c := Or.inl ((isDigit_iff c).1 h)

theorem numChar_octal {c : Nat} (h : isOctal c = true) : NumChar c := by
  simp only [isOctal, Bool.and_eq_true, decide_eq_true_eq] at h
  exact Or.inl (by unfold IsDigit; omega)

theorem numChar_binary {c : Nat} (h : isBinary c = true) : NumChar c := by
  simp only [isBinary, Bool.or_eq_true, beq_iff_eq] at h
  exact Or.inl (by unfold IsDigit; omega)

theorem numChar_hex {c : Nat} (h : isHex c = true) : NumChar c := by
  have := (isHex_iff c).1 h
  unfold IsHex at this
  unfold NumChar IsDigit
  omega

theorem numChar_digits {p : Nat → Bool} (hp : ∀ c, p c = true → NumChar c) {t : List Nat}
    (h : ∀ c ∈ t, c = 95 ∨ p c = true) : ∀ c ∈ t, NumChar c := by
  intro c hc
  rcases h c hc with rfl | h
  · unfold NumChar; omega
  · exact hp c h

theorem legacy_sound {cs : List Nat} {b ds rest} (h : legacy cs = some (b, ds, rest)) :
    ∃ t, cs = t ++ rest ∧ ∀ c ∈ t, NumChar c := by
  induction cs generalizing ds with
  | nil =>
    unfold legacy at h
    cases h
    exact ⟨[], rfl, by simp⟩
  | cons c cs ih =>
    unfold legacy at h
    split at h
    · rename_i hc
      split at h
      · rename_i he
        cases h
        obtain ⟨t, h1, h2⟩ := ih he
        refine ⟨c :: t, by rw [h1]; rfl, ?_⟩
        intro x hx
        rcases List.mem_cons.1 hx with rfl | hx
        · exact numChar_octal hc
        · exact h2 x hx
      · cases h
    · split at h
      · rename_i hc
        split at h
        · rename_i he
          cases h
          obtain ⟨t, h1, h2, -⟩ := digits_sound (by rfl) he
          refine ⟨c :: t, by rw [h1]; rfl, ?_⟩
          intro x hx
          rcases List.mem_cons.1 hx with rfl | hx
          · simp only [Bool.or_eq_true, beq_iff_eq] at hc
            rcases hc with ((hc | hc) | hc) | hc
            · exact numChar_digit hc
            all_goals (unfold NumChar; omega)
          · exact numChar_digits (fun _ h => numChar_digit h) h2 x hx
        · cases h
      · cases h
        exact ⟨[], rfl, by simp⟩

/-- The start of a numeral which JSON does not have. -/
def OddStart (t : List Nat) : Prop :=
  95 ∈ t ∨ ∃ c r, t = 48 :: c :: r ∧ c ≠ 46 ∧ c ≠ 101 ∧ c ≠ 69

theorem intPart_sound {b : Nat} {p : Nat → Bool} {noSep leg : Bool} {cs i} (hp : p 95 = false)
    (hn : ∀ c, p c = true → NumChar c) (h : intPart b p noSep leg cs = some i) :
    i.base = b ∧ ∃ t, cs = t ++ i.rest ∧ (∀ c ∈ t, c = 95 ∨ p c = true) ∧ (95 ∉ t → i.buf = t) ∧ t ≠ [] := by
  unfold intPart at h
  split at h
  · rename_i he
    cases h
    obtain ⟨t, h1, h2, h3, h4, -⟩ := digits_sound hp he
    refine ⟨rfl, t, h1, h2, h3, ?_⟩
    rcases h4 rfl with h | ⟨c, hc, -⟩
    · cases h
    · exact List.ne_nil_of_mem hc
  · cases h

theorem integer_sound {c0 : Nat} {cs0 : List Nat} {i} (h0 : c0 = 46 ∨ isDigit c0 = true)
    (h : integer (c0 :: cs0) = some i) :
    ∃ t, c0 :: cs0 = t ++ i.rest ∧ (∀ c ∈ t, NumChar c) ∧
      (t = [] ∧ (∃ r, i.rest = 46 :: r) ∧ i.base = 10 ∨
       t ≠ [] ∧ OddStart t ∨
       IsInt t ∧ i.buf = t ∧ i.base = 10) := by
  unfold integer at h
  split at h
  · rename_i cs he
    cases h
    exact ⟨[], he, by simp, Or.inl ⟨rfl, ⟨_, rfl⟩, rfl⟩⟩
  · rename_i c cs he
    cases he
    split at h
    · rename_i hc
      simp only [Bool.or_eq_true, decide_eq_true_eq] at hc
      obtain ⟨-, t, h1, h2, -, -⟩ := intPart_sound (by rfl) (fun _ h => numChar_binary h) h
      refine ⟨48 :: c :: t, by rw [h1]; rfl, ?_, Or.inr (Or.inl ⟨by simp, Or.inr ⟨c, t, rfl, by omega⟩⟩)⟩
      intro x hx
      simp only [List.mem_cons] at hx
      rcases hx with rfl | rfl | hx
      · unfold NumChar IsDigit; omega
      · unfold NumChar; omega
      · exact numChar_digits (fun _ h => numChar_binary h) h2 x hx
    split at h
    · rename_i hc
      simp only [Bool.or_eq_true, decide_eq_true_eq] at hc
      obtain ⟨-, t, h1, h2, -, -⟩ := intPart_sound (by rfl) (fun _ h => numChar_octal h) h
      refine ⟨48 :: c :: t, by rw [h1]; rfl, ?_, Or.inr (Or.inl ⟨by simp, Or.inr ⟨c, t, rfl, by omega⟩⟩)⟩
      intro x hx
      simp only [List.mem_cons] at hx
      rcases hx with rfl | rfl | hx
      · unfold NumChar IsDigit; omega
      · unfold NumChar; omega
      · exact numChar_digits (fun _ h => numChar_octal h) h2 x hx
    split at h
    · rename_i hc
      simp only [Bool.or_eq_true, decide_eq_true_eq] at hc
      obtain ⟨-, t, h1, h2, -, -⟩ := intPart_sound (by rfl) (fun _ h => numChar_hex h) h
      refine ⟨48 :: c :: t, by rw [h1]; rfl, ?_, Or.inr (Or.inl ⟨by simp, Or.inr ⟨c, t, rfl, by omega⟩⟩)⟩
      intro x hx
      simp only [List.mem_cons] at hx
      rcases hx with rfl | rfl | hx
      · unfold NumChar IsDigit; omega
      · unfold NumChar; omega
      · exact numChar_digits (fun _ h => numChar_hex h) h2 x hx
    split at h
    · rename_i hc
      split at h
      · rename_i b ds rest he
        cases h
        have hl : ∃ t, cs = t ++ rest ∧ ∀ c ∈ t, NumChar c := by
          unfold legacy at he
          rw [if_pos hc] at he
          split at he
          · rename_i he'
            cases he
            exact legacy_sound he'
          · cases he
        obtain ⟨t, h1, h2⟩ := hl
        refine ⟨48 :: c :: t, by rw [h1]; rfl, ?_, Or.inr (Or.inl ⟨by simp, Or.inr ⟨c, t, rfl, ?_⟩⟩)⟩
        · intro x hx
          simp only [List.mem_cons] at hx
          rcases hx with rfl | rfl | hx
          · unfold NumChar IsDigit; omega
          · exact numChar_octal hc
          · exact h2 x hx
        · simp only [isOctal, Bool.and_eq_true, decide_eq_true_eq] at hc; omega
      · cases h
    split at h
    · cases h
    split at h
    · rename_i hc
      simp only [Bool.or_eq_true, decide_eq_true_eq] at hc
      obtain ⟨-, t, h1, h2, -, h4⟩ := intPart_sound (by rfl) (fun _ h => numChar_digit h) h
      refine ⟨t, h1, numChar_digits (fun _ h => numChar_digit h) h2, Or.inr (Or.inl ⟨h4, ?_⟩)⟩
      rcases t with _ | ⟨x, _ | ⟨y, t⟩⟩
      · exact absurd rfl h4
      · exfalso
        rw [List.singleton_append] at h1
        injection h1 with e1 e2
        unfold intPart at h
        split at h
        · rename_i he
          obtain ⟨t', k1, k2, k3, k4, k5⟩ := digits_sound (by rfl) he
          cases h
          simp only at e2
          rw [← e2] at k5
          have := k5 c (by simp)
          simp [isDigit] at this; omega
        · cases h
      · simp only [List.cons_append, List.cons.injEq] at h1
        exact Or.inr ⟨y, t, by rw [← h1.1], by omega⟩
    · rename_i n1 n2 n3 n4 n5 n6
      obtain ⟨hb, t, h1, h2, h3, h4⟩ := intPart_sound (by rfl) (fun _ h => numChar_digit h) h
      refine ⟨t, h1, numChar_digits (fun _ h => numChar_digit h) h2, ?_⟩
      by_cases hu : 95 ∈ t
      · exact Or.inr (Or.inl ⟨h4, Or.inl hu⟩)
      refine Or.inr (Or.inr ⟨Or.inl ?_, h3 hu, hb⟩)
      rcases t with _ | ⟨x, _ | ⟨y, t⟩⟩
      · exact absurd rfl h4
      · rw [List.singleton_append] at h1
        injection h1 with e1 e2
        rw [e1]
      · exfalso
        simp only [List.cons_append, List.cons.injEq] at h1
        rcases h2 y (by simp) with rfl | hy
        · exact hu (by simp)
        · rw [← h1.2.1] at hy
          simp [isDigit, isOctal] at hy n4 n6
          omega
  · rename_i n1 n2
    obtain ⟨hb, t, h1, h2, h3, h4⟩ := intPart_sound (by rfl) (fun _ h => numChar_digit h) h
    refine ⟨t, h1, numChar_digits (fun _ h => numChar_digit h) h2, ?_⟩
    by_cases hu : 95 ∈ t
    · exact Or.inr (Or.inl ⟨h4, Or.inl hu⟩)
    refine Or.inr (Or.inr ⟨?_, h3 hu, hb⟩)
    have hd : ∀ c ∈ t, IsDigit c := by
      intro c hc
      rcases h2 c hc with rfl | h2
      · exact absurd hc hu
      · exact (isDigit_iff c).1 h2
    rcases t with _ | ⟨x, t⟩
    · exact absurd rfl h4
    · simp only [List.cons_append, List.cons.injEq] at h1
      by_cases hx : x = 48
      · subst hx
        rcases t with _ | ⟨y, t⟩
        · exact Or.inl rfl
        · exfalso
          exact n2 y (t ++ i.rest) (by rw [h1.1, h1.2]; rfl)
      · have := hd x (by simp)
        unfold IsDigit at this
        exact Or.inr ⟨x, t, rfl, by omega, by omega, fun c hc => hd c (by simp [hc])⟩

theorem fraction_sound {noSep : Bool} {cs : List Nat} {f t1 r1} (h : fractionPart noSep cs = some (f, t1, r1)) :
    ∃ t, cs = t ++ r1 ∧ (∀ c ∈ t, NumChar c) ∧ ((∃ r, cs = 46 :: r) → ∃ r, t = 46 :: r) ∧
      (95 ∈ t ∨ t = [46] ∨ IsFrac t ∧ t1 = t) := by
  unfold fractionPart at h
  split at h
  · rename_i cs
    split at h
    · rename_i he
      cases h
      obtain ⟨t, h1, h2, h3, -, -⟩ := digits_sound (by rfl) he
      refine ⟨46 :: t, by rw [h1]; rfl, ?_, fun _ => ⟨t, rfl⟩, ?_⟩
      · intro x hx
        rcases List.mem_cons.1 hx with rfl | hx
        · unfold NumChar; omega
        · exact numChar_digits (fun _ h => numChar_digit h) h2 x hx
      · by_cases hu : 95 ∈ t
        · exact Or.inl (by simp [hu])
        · rcases t with _ | ⟨x, t⟩
          · exact Or.inr (Or.inl rfl)
          · refine Or.inr (Or.inr ⟨Or.inr ⟨x :: t, rfl, by simp, ?_⟩, by rw [h3 hu]⟩)
            intro c hc
            rcases h2 c hc with rfl | h2
            · exact absurd hc hu
            · exact (isDigit_iff c).1 h2
    · cases h
  · rename_i hn
    cases h
    exact ⟨[], rfl, by simp, fun ⟨r, hr⟩ => absurd hr (hn r), Or.inr (Or.inr ⟨Or.inl rfl, rfl⟩)⟩

theorem sign_sound (cs : List Nat) : (signPart cs).1 ++ (signPart cs).2 = cs ∧
    ((signPart cs).1 = [] ∨ (signPart cs).1 = [43] ∨ (signPart cs).1 = [45]) := by
  cases cs with
  | nil => simp [signPart]
  | cons c cs =>
    simp only [signPart]
    split
    · rename_i h
      simp only [Bool.or_eq_true, decide_eq_true_eq] at h
      rcases h with rfl | rfl <;> simp
    · simp

theorem exponent_sound {noSep : Bool} {cs : List Nat} {f t1 r1} (h : exponentPart noSep cs = some (f, t1, r1)) :
    ∃ t, cs = t ++ r1 ∧ (∀ c ∈ t, NumChar c) ∧ (∀ c ∈ t.head?, ¬ IsDigit c) ∧
      (95 ∈ t ∨ IsExp t ∧ t1 = t) := by
  unfold exponentPart at h
  split at h
  · cases h
    exact ⟨[], rfl, by simp, by simp, Or.inr ⟨Or.inl rfl, rfl⟩⟩
  · rename_i c cs
    split at h
    · rename_i hc
      simp only [Bool.or_eq_true, decide_eq_true_eq] at hc
      split at h
      · rename_i he
        cases h
        obtain ⟨t, h1, h2, h3, h4, -⟩ := digits_sound (by rfl) he
        obtain ⟨k1, k2⟩ := sign_sound cs
        refine ⟨c :: ((signPart cs).1 ++ t), ?_, ?_, ?_, ?_⟩
        · rw [List.cons_append, List.append_assoc, ← h1, k1]
        · intro x hx
          simp only [List.mem_cons, List.mem_append] at hx
          rcases hx with rfl | hx | hx
          · unfold NumChar; omega
          · have : x = 43 ∨ x = 45 := by
              rcases k2 with k | k | k <;> rw [k] at hx <;> simp at hx <;> simp [hx]
            unfold NumChar; omega
          · exact numChar_digits (fun _ h => numChar_digit h) h2 x hx
        · simp only [List.head?_cons, Option.mem_some_iff]
          rintro x rfl
          unfold IsDigit; omega
        · by_cases hu : 95 ∈ t
          · exact Or.inl (by simp [hu])
          refine Or.inr ⟨Or.inr ⟨c, _, t, rfl, hc, k2, ?_, ?_⟩, by rw [h3 hu]⟩
          · rcases h4 rfl with h | ⟨c, hc, -⟩
            · cases h
            · exact List.ne_nil_of_mem hc
          · intro c hc
            rcases h2 c hc with rfl | h2
            · exact absurd hc hu
            · exact (isDigit_iff c).1 h2
      · cases h
    · cases h
      exact ⟨[], rfl, by simp, by simp, Or.inr ⟨Or.inl rfl, rfl⟩⟩

theorem numeral_sound {c0 : Nat} {cs0 : List Nat} {n} (h0 : c0 = 46 ∨ isDigit c0 = true)
    (h : numeral (c0 :: cs0) = some n) :
    ∃ t, c0 :: cs0 = t ++ n.rest ∧ t ≠ [] ∧ (∀ c ∈ t, NumChar c) ∧
      (OddStart t ∨ (∃ r, t = 46 :: r) ∨ (∃ a b, t = a ++ 46 :: b ∧ ∀ c ∈ b.head?, ¬ IsDigit c) ∨
        IsNumber t ∧ n.buf = t ∧ n.base = 10) := by
  unfold numeral at h
  split at h
  · cases h
  rename_i i hi
  obtain ⟨t, h1, h2, h3⟩ := integer_sound h0 hi
  have oddApp : ∀ {t : List Nat} (r : List Nat), OddStart t → OddStart (t ++ r) := by
    rintro t r (h | ⟨c, r', rfl, h⟩)
    · exact Or.inl (by simp [h])
    · exact Or.inr ⟨c, r' ++ r, by simp, h⟩
  split at h
  · rename_i hb
    split at h
    · cases h
    rename_i f1 t1 r1 hf
    split at h
    · cases h
    rename_i f2 t2 r2 he
    cases h
    obtain ⟨tf, k1, k2, k3, k4⟩ := fraction_sound hf
    obtain ⟨te, l1, l2, l3, l4⟩ := exponent_sound he
    refine ⟨t ++ tf ++ te, by simp [h1, k1, l1], ?_, ?_, ?_⟩
    · rcases h3 with ⟨-, hr, -⟩ | ⟨h, -⟩ | ⟨h, -⟩
      · obtain ⟨r, hr⟩ := k3 hr
        simp [hr]
      · simp [h]
      · rcases h with h | ⟨_, _, h, -⟩ <;> simp [h]
    · intro c hc
      simp only [List.mem_append] at hc
      rcases hc with (hc | hc) | hc
      · exact h2 c hc
      · exact k2 c hc
      · exact l2 c hc
    · rcases h3 with ⟨ht, hr, -⟩ | ⟨-, h⟩ | ⟨h, h', -⟩
      · obtain ⟨r, hr⟩ := k3 hr
        exact Or.inr (Or.inl ⟨r ++ te, by simp [ht, hr]⟩)
      · exact Or.inl (oddApp te (oddApp tf h))
      · rcases k4 with k4 | k4 | ⟨k4, k5⟩
        · exact Or.inl (Or.inl (by simp [k4]))
        · exact Or.inr (Or.inr (Or.inl ⟨t, te, by simp [k4], l3⟩))
        · rcases l4 with l4 | ⟨l4, l5⟩
          · exact Or.inl (Or.inl (by simp [l4]))
          · exact Or.inr (Or.inr (Or.inr ⟨⟨t, tf, te, rfl, h, k4, l4⟩, by simp [h', k5, l5], rfl⟩))
  · rename_i hb
    cases h
    rcases h3 with ⟨-, -, h⟩ | ⟨h, h'⟩ | ⟨-, -, h⟩
    · exact absurd h hb
    · exact ⟨t, h1, h, h2, Or.inl h'⟩
    · exact absurd h hb

theorem lexNumber_sound {U : Uni} {L : Lib F} {c0 : Nat} {cs0 rest : List Nat} {v}
    (h0 : c0 = 46 ∨ isDigit c0 = true) (h : lexNumber U L (c0 :: cs0) = .ok v rest) :
    ∃ t, c0 :: cs0 = t ++ rest ∧ t ≠ [] ∧ Number loose (sem U L) t v ∧
      ((∃ x, v = .num x) ∨ ∃ b ds, v = .big b ds) := by
  unfold lexNumber at h
  split at h
  · cases h
  rename_i n hn
  obtain ⟨t, h1, h2, h3, h4⟩ := numeral_sound h0 hn
  have hstart : ∀ r, (∃ r', t ++ r = 46 :: r') ∨ (∃ d r', IsDigit d ∧ t ++ r = d :: r') := by
    intro r
    rcases t with _ | ⟨x, t⟩
    · exact absurd rfl h2
    · simp only [List.cons_append, List.cons.injEq] at h1
      rcases h0 with h0 | h0
      · exact Or.inl ⟨t ++ r, by rw [← h1.1, h0]; rfl⟩
      · exact Or.inr ⟨x, t ++ r, by rw [← h1.1]; exact (isDigit_iff _).1 h0, rfl⟩
  split at h
  · rename_i rest' hr
    split at h
    · split at h
      · cases h
        refine ⟨t ++ [110], by simp [h1, hr], by simp, Or.inr ⟨trivial, ⟨?_, hstart _, Or.inr (Or.inl ⟨t, rfl⟩)⟩,
          Or.inr ⟨_, _, rfl⟩⟩, Or.inr ⟨_, _, rfl⟩⟩
        intro c hc
        simp only [List.mem_append, List.mem_singleton] at hc
        rcases hc with hc | rfl
        · exact h3 c hc
        · unfold NumChar; omega
      · cases h
    · cases h
  · split at h
    · cases h
      refine ⟨t, h1, h2, ?_, Or.inl ⟨_, rfl⟩⟩
      have hs := hstart []
      rw [List.append_nil] at hs
      rcases h4 with (h4 | h4) | h4 | h4 | ⟨h4, h5, h6⟩
      · exact Or.inr ⟨trivial, ⟨h3, hs, Or.inl h4⟩, Or.inl ⟨_, rfl⟩⟩
      · exact Or.inr ⟨trivial, ⟨h3, hs, Or.inr (Or.inr (Or.inr (Or.inl h4)))⟩, Or.inl ⟨_, rfl⟩⟩
      · exact Or.inr ⟨trivial, ⟨h3, hs, Or.inr (Or.inr (Or.inl h4))⟩, Or.inl ⟨_, rfl⟩⟩
      · exact Or.inr ⟨trivial, ⟨h3, hs, Or.inr (Or.inr (Or.inr (Or.inr h4)))⟩, Or.inl ⟨_, rfl⟩⟩
      · exact Or.inl ⟨h4, by rw [if_pos h6, h5]; rfl⟩
    · cases h

end Verif.Json

import Verif.Lemmas.LexPunct

/-! Lemmas for C89: escape sequences and strings. -/
namespace Verif.Lex
open Json (Out isDigit isOctal isHex isLine units hexes unicode braced simple digitNext Esc Piece escape hexNum
  isHex_iff hexNum_of isDigit_iff isLine_iff units_eq octal)
open Json.Spec (IsDigit IsHex IsLine utf16)
open Spec (Hexes Next)

theorem Next.append {p : Nat → Prop} {q : Nat} (hq : ¬ p q) (t r : List Nat) : Next p (t ++ q :: r) ↔ Next p t := by
  cases t with
  | nil =>
    constructor
    · rintro ⟨c, _, h, hc⟩; cases h; exact absurd hc hq
    · rintro ⟨c, _, h, _⟩; cases h
  | cons d t =>
    constructor
    · rintro ⟨c, _, h, hc⟩; cases h; exact ⟨_, _, rfl, hc⟩
    · rintro ⟨c, _, h, hc⟩; cases h; exact ⟨_, _, rfl, hc⟩

theorem Next.cons {p : Nat → Prop} (c : Nat) (t : List Nat) : Next p (c :: t) ↔ p c := by
  constructor
  · rintro ⟨_, _, h, hc⟩; cases h; exact hc
  · intro h; exact ⟨_, _, rfl, h⟩

theorem Next.nil {p : Nat → Prop} : ¬ Next p [] := by rintro ⟨_, _, h, _⟩; cases h

theorem isOctal_iff (c : Nat) : isOctal c = true ↔ Spec.IsOctal c := by simp [isOctal, Spec.IsOctal]

/-! ### Hexadecimal digits -/

theorem hexes_iff {n v : Nat} {cs : List Nat} {x rest} :
    (∃ b, hexes n v cs = .done b (some x) rest) ↔ ∃ ds, cs = ds ++ rest ∧ ds.length = n ∧ Hexes v ds x := by
  induction n generalizing v cs with
  | zero =>
    simp only [hexes]
    constructor
    · rintro ⟨b, h⟩; cases h; exact ⟨[], rfl, rfl, .nil⟩
    · rintro ⟨ds, rfl, h, hx⟩
      obtain rfl := List.length_eq_zero_iff.1 h
      cases hx; exact ⟨false, rfl⟩
  | succ n ih =>
    cases cs with
    | nil =>
      simp only [hexes]
      constructor
      · rintro ⟨b, h⟩; cases h
      · rintro ⟨ds, h, h2, _⟩
        have := congrArg List.length h
        simp at this; omega
    | cons c cs =>
      simp only [hexes]
      by_cases hc : isHex c = true
      · rw [if_pos hc, ih]
        constructor
        · rintro ⟨ds, rfl, h, hx⟩
          exact ⟨c :: ds, rfl, by simp [h], .cons ((isHex_iff c).1 hc) (by rwa [Nat.mul_comm 16])⟩
        · rintro ⟨ds, h1, h2, hx⟩
          cases hx with
          | nil => simp at h2
          | cons hv hx =>
            obtain ⟨rfl, rfl⟩ := List.cons.inj h1
            refine ⟨_, rfl, by simpa using h2, ?_⟩
            rw [(hexNum_of hv).2, Nat.mul_comm]; exact hx
      · rw [if_neg hc]
        constructor
        · rintro ⟨b, h⟩; cases h
        · rintro ⟨ds, h1, h2, hx⟩
          cases hx with
          | nil => simp at h2
          | cons hv hx =>
            obtain ⟨rfl, rfl⟩ := List.cons.inj h1
            exact absurd (hexNum_of hv).1 hc

theorem hexes_bad {n v : Nat} {cs : List Nat} {b o rest} (h : hexes n v cs = .done b o rest) :
    b = o.isNone := by
  induction n generalizing v cs with
  | zero => simp only [hexes] at h; cases h; rfl
  | succ n ih =>
    cases cs with
    | nil => simp only [hexes] at h; cases h; rfl
    | cons c cs =>
      simp only [hexes] at h
      split at h
      · exact ih h
      · cases h; rfl

theorem hexes_suffix {n v : Nat} {cs : List Nat} {b o rest} (h : hexes n v cs = .done b o rest) :
    ∃ m, cs = m ++ rest := by
  induction n generalizing v cs with
  | zero => simp only [hexes] at h; cases h; exact ⟨[], rfl⟩
  | succ n ih =>
    cases cs with
    | nil => simp only [hexes] at h; cases h; exact ⟨[], rfl⟩
    | cons c cs =>
      simp only [hexes] at h
      split at h
      · obtain ⟨m, rfl⟩ := ih h; exact ⟨c :: m, rfl⟩
      · cases h; exact ⟨[], rfl⟩

theorem hexes_ne_undef {n v : Nat} {cs : List Nat} : hexes n v cs ≠ .undef := by
  induction n generalizing v cs with
  | zero => simp [hexes]
  | succ n ih =>
    cases cs with
    | nil => simp [hexes]
    | cons c cs => simp only [hexes]; split; exact ih; simp

theorem braced_suffix {bad : Bool} {o : Option Nat} {cs : List Nat} {b o' rest}
    (h : braced bad o cs = .done b o' rest) : ∃ m, cs = m ++ rest := by
  induction cs generalizing bad o with
  | nil => simp only [braced] at h; cases h; exact ⟨[], rfl⟩
  | cons c cs ih =>
    simp only [braced] at h
    split at h
    · cases h; exact ⟨[c], rfl⟩
    · split at h
      · cases o with
        | none => cases h
        | some v =>
          dsimp only at h
          split at h
          · obtain ⟨m, rfl⟩ := ih h; exact ⟨c :: m, rfl⟩
          · obtain ⟨m, rfl⟩ := ih h; exact ⟨c :: m, rfl⟩
      · cases h; exact ⟨[], rfl⟩

/-- After a value that is too large there is none. -/
theorem braced_none {bad : Bool} {cs : List Nat} {b o' rest}
    (h : braced bad none cs = .done b o' rest) : o' = none := by
  cases cs with
  | nil => simp only [braced] at h; cases h; rfl
  | cons c cs =>
    simp only [braced] at h
    split at h
    · cases h; rfl
    · split at h
      · cases h
      · cases h; rfl

theorem Hexes.le {a x : Nat} {ds} (h : Hexes a ds x) : a ≤ x := by
  induction h with
  | nil => exact Nat.le_refl _
  | cons _ _ ih => omega

theorem braced_iff {a : Nat} (ha : a ≤ 0x10ffff) {cs : List Nat} {x rest} :
    braced false (some a) cs = .done false (some x) rest ↔
      ∃ ds, cs = ds ++ 125 :: rest ∧ Hexes a ds x ∧ x ≤ 0x10ffff := by
  induction cs generalizing a with
  | nil =>
    simp only [braced]
    constructor
    · intro h; cases h
    · rintro ⟨ds, h, _⟩; exact absurd h (by simp)
  | cons c cs ih =>
    simp only [braced]
    by_cases h1 : c = 125
    · subst h1
      rw [if_pos rfl]
      constructor
      · intro h; cases h; exact ⟨[], rfl, .nil, ha⟩
      · rintro ⟨ds, h, hx, _⟩
        cases hx with
        | nil => obtain ⟨_, rfl⟩ := List.cons.inj h; rfl
        | cons hv _ =>
          obtain ⟨rfl, _⟩ := List.cons.inj h
          exact absurd (hexNum_of hv).1 (by decide)
    · rw [if_neg h1]
      by_cases h2 : isHex c = true
      · rw [if_pos h2]
        by_cases h3 : 0x10ffff < a * 16 + hexNum c
        · rw [if_pos h3]
          constructor
          · intro h; exact absurd (braced_none h) (by simp)
          · rintro ⟨ds, h, hx, hle⟩
            cases hx with
            | nil => exact absurd (List.cons.inj h).1 h1
            | cons hv hx =>
              obtain ⟨rfl, _⟩ := List.cons.inj h
              have := Hexes.le hx
              rw [(hexNum_of hv).2] at h3
              omega
        · rw [if_neg h3, ih (by omega)]
          constructor
          · rintro ⟨ds, rfl, hx, hle⟩
            exact ⟨c :: ds, rfl, .cons ((isHex_iff c).1 h2) (by rwa [Nat.mul_comm 16]), hle⟩
          · rintro ⟨ds, h, hx, hle⟩
            cases hx with
            | nil => exact absurd (List.cons.inj h).1 h1
            | cons hv hx =>
              obtain ⟨rfl, h'⟩ := List.cons.inj h
              refine ⟨_, h', ?_, hle⟩
              rw [(hexNum_of hv).2, Nat.mul_comm]; exact hx
      · rw [if_neg h2]
        constructor
        · intro h; cases h
        · rintro ⟨ds, h, hx, _⟩
          cases hx with
          | nil => exact absurd (List.cons.inj h).1 h1
          | cons hv _ =>
            obtain ⟨rfl, _⟩ := List.cons.inj h
            exact absurd (hexNum_of hv).1 h2

/-- A value with an error: the text ends there. -/
theorem braced_end {a : Nat} {cs : List Nat} {b x rest} (h : braced false (some a) cs = .done b (some x) rest) :
    b = false ∨ rest = [] := by
  induction cs generalizing a with
  | nil => simp only [braced] at h; cases h; exact Or.inr rfl
  | cons c cs ih =>
    simp only [braced] at h
    split at h
    · cases h; exact Or.inl rfl
    · split at h
      · split at h
        · exact absurd (braced_none h) (by simp)
        · exact ih h
      · cases h

theorem not_hex_brace : ∀ v, ¬ IsHex 123 v := fun v h => absurd (hexNum_of h).1 (by decide)

/-- `lex_unicode_escape`. -/
theorem unicode_iff {cs : List Nat} {x rest} :
    unicode cs = .done false (some x) rest ↔ ∃ m, 117 :: cs = m ++ rest ∧ Spec.UniEsc True m x := by
  unfold unicode
  split
  · rename_i cs
    rw [braced_iff (by omega)]
    constructor
    · rintro ⟨ds, rfl, h1, h2⟩
      exact ⟨117 :: 123 :: (ds ++ [125]), by simp, .braces (Or.inr trivial) h1 h2⟩
    · rintro ⟨m, h, hu⟩
      cases hu with
      | four h1 h2 =>
        exfalso
        cases h2 with
        | nil => simp at h1
        | cons hv _ => simp at h; rw [← h.1] at hv; exact not_hex_brace _ hv
      | @braces ds _ _ h1 h2 =>
        simp at h
        exact ⟨ds, h, h1, h2⟩
  · rename_i hne
    constructor
    · intro h
      obtain ⟨ds, rfl, h1, h2⟩ := hexes_iff.1 ⟨_, h⟩
      exact ⟨117 :: ds, rfl, .four h1 h2⟩
    · rintro ⟨m, h, hu⟩
      cases hu with
      | four h1 h2 =>
        rename_i ds
        simp at h
        obtain ⟨b, hb⟩ := hexes_iff.2 ⟨ds, h, h1, h2⟩
        have := hexes_bad hb
        simp at this; subst this; exact hb
      | braces _ h1 h2 =>
        rename_i ds
        simp at h
        exact absurd h (hne _)

theorem unicode_suffix {cs : List Nat} {b o rest} (h : unicode cs = .done b o rest) :
    ∃ m, cs = m ++ rest := by
  unfold unicode at h
  split at h
  · obtain ⟨m, rfl⟩ := braced_suffix h; exact ⟨123 :: m, rfl⟩
  · exact hexes_suffix h

/-- A value with an error: the text ends there. -/
theorem unicode_end {cs : List Nat} {b x rest} (h : unicode cs = .done b (some x) rest) :
    b = false ∨ rest = [] := by
  unfold unicode at h
  split at h
  · exact braced_end h
  · left; have := hexes_bad h; simpa using this

/-! ### Escape sequences of strings -/

theorem simple_single {c v : Nat} (h : simple c = some v) : Spec.Single c v := by
  unfold simple at h
  unfold Spec.Single
  repeat' split at h
  all_goals first | (cases h; omega) | cases h

theorem simple_digit {c v : Nat} (h : simple c = some v) : isDigit c = false := by
  have := simple_single h
  simp [isDigit, Spec.Single] at *
  omega

theorem single_cases {c v : Nat} (h : Spec.Single c v) :
    simple c = some v ∨ simple c = none ∧ v = c ∧ (c = 39 ∨ c = 34 ∨ c = 92) := by
  unfold Spec.Single at h
  rcases h with h | h | h | h | h | h | h | h | h <;> (obtain ⟨rfl, rfl⟩ := h) <;> decide

theorem simple_none {c : Nat} (h : simple c = none) {v : Nat} (hs : Spec.Single c v) : v = c := by
  rcases single_cases hs with h1 | h1
  · rw [h] at h1; cases h1
  · exact h1.2.1

theorem octal_spec {c : Nat} (hc : Spec.IsOctal c) (cs : List Nat) (hz : c = 48 → Next IsDigit cs) :
    ∃ m, c :: cs = m ++ (octal (c :: cs)).2 ∧ Spec.Legacy m (octal (c :: cs)).2 (octal (c :: cs)).1 := by
  obtain ⟨h1, h2⟩ := hc
  have one : ∀ t, cs = t → ¬ Next Spec.IsOctal t → Spec.Legacy [c] t (c - 48) := by
    rintro t rfl ht
    by_cases h0 : c = 48
    · subst h0
      obtain ⟨d, r, rfl, hd⟩ := hz rfl
      refine .zero ⟨d, r, rfl, ?_⟩
      have : ¬ Spec.IsOctal d := fun h => ht ⟨d, r, rfl, h⟩
      simp only [Spec.IsOctal, IsDigit] at this hd; omega
    · exact .one (by omega) h2 ht
  match cs, hz with
  | [], hz =>
    refine ⟨[c], rfl, ?_⟩
    simp only [octal]
    exact one [] rfl Next.nil
  | [b], hz =>
    simp only [octal]
    by_cases hb : isOctal b = true
    · rw [if_pos hb]
      refine ⟨[c, b], rfl, ?_⟩
      rw [isOctal_iff] at hb
      by_cases h3 : c ≤ 51
      · exact .two h1 h3 hb Next.nil
      · exact .high (by omega) h2 hb
    · rw [if_neg hb]
      refine ⟨[c], rfl, one _ rfl ?_⟩
      rw [Next.cons, ← isOctal_iff]; exact hb
  | b :: d :: cs, hz =>
    simp only [octal]
    by_cases hb : isOctal b = true
    · by_cases h3 : c ≤ 51
      · by_cases hd : isOctal d = true
        · rw [if_pos (by simp [hb, hd, h3])]
          exact ⟨[c, b, d], rfl, .three h1 h3 ((isOctal_iff b).1 hb) ((isOctal_iff d).1 hd)⟩
        · rw [if_neg (by simp [hd]), if_pos hb]
          refine ⟨[c, b], rfl, .two h1 h3 ((isOctal_iff b).1 hb) ?_⟩
          rw [Next.cons, ← isOctal_iff]; exact hd
      · rw [if_neg (by simp [h3]), if_pos hb]
        exact ⟨[c, b], rfl, .high (by omega) h2 ((isOctal_iff b).1 hb)⟩
    · rw [if_neg (by simp [hb]), if_neg hb]
      refine ⟨[c], rfl, one _ rfl ?_⟩
      rw [Next.cons, ← isOctal_iff]; exact hb

theorem Legacy.lt {m t : List Nat} {v : Nat} (h : Spec.Legacy m t v) : v < 0x10000 := by
  cases h <;> (try simp only [Spec.IsOctal] at *) <;> omega

theorem utf16_small {v : Nat} (h : v < 0x10000) : utf16 v = [v] := by rw [utf16, if_pos h]

/-- What `\c` gives: the standard's value, and the flag of legacy sequences. -/
theorem escape_spec {c : Nat} {cs add rest : List Nat} (h : escape c cs = .done false add rest) :
    ∃ m, c :: cs = m ++ rest ∧
      (Spec.Esc True m rest add ∧ legacyEscape c cs = false ∨
        ∃ v, Spec.Legacy m rest v ∧ add = [v] ∧ legacyEscape c cs = true) := by
  unfold escape at h
  cases hs : simple c with
  | some v =>
    rw [hs] at h; cases h
    exact ⟨[c], rfl, Or.inl ⟨.single (simple_single hs), by simp [legacyEscape, simple_digit hs]⟩⟩
  | none =>
    rw [hs] at h
    dsimp only at h
    by_cases h1 : c = 120
    · subst h1
      rw [if_pos rfl] at h
      cases hx : hexes 2 0 cs with
      | undef => exact absurd hx hexes_ne_undef
      | done b o r =>
        rw [hx] at h
        cases o with
        | none => simp [Esc.piece] at h
        | some v =>
          simp only [Esc.piece] at h
          cases h
          obtain ⟨ds, rfl, h2, h3⟩ := hexes_iff.1 ⟨_, hx⟩
          refine ⟨120 :: ds, rfl, Or.inl ⟨?_, by simp [legacyEscape, isDigit]⟩⟩
          have hv : v < 0x10000 := by
            have hh : ∀ {c v : Nat}, IsHex c v → v < 16 := by
              intro c v h; unfold IsHex at h; omega
            cases h3 with
            | nil => omega
            | cons ha h3 =>
              cases h3 with
              | nil => have := hh ha; omega
              | cons hb h3 =>
                cases h3 with
                | nil => have := hh ha; have := hh hb; omega
                | cons _ _ => simp at h2
          rw [units_eq, utf16_small hv]
          exact .hex h2 h3
    · rw [if_neg h1] at h
      by_cases h2 : c = 117
      · subst h2
        rw [if_pos rfl] at h
        cases hx : unicode cs with
        | undef => rw [hx] at h; simp [Esc.piece] at h
        | done b o r =>
          rw [hx] at h
          cases o with
          | none => simp [Esc.piece] at h
          | some v =>
            simp only [Esc.piece] at h
            cases h
            obtain ⟨m, h3, h4⟩ := unicode_iff.1 hx
            exact ⟨m, h3, Or.inl ⟨by rw [units_eq]; exact .uni h4, by simp [legacyEscape, isDigit]⟩⟩
      · rw [if_neg h2] at h
        by_cases h3 : isDigit c = true
        · rw [if_pos h3] at h
          by_cases h4 : c = 48 ∧ digitNext cs = false
          · obtain ⟨rfl, hd⟩ := h4
            rw [if_pos (by simp [hd])] at h; cases h
            refine ⟨[48], rfl, Or.inl ⟨.zero ?_, by simp [legacyEscape, hd]⟩⟩
            rw [← digitNext_iff, hd]; simp
          · have hl : legacyEscape c cs = true := by
              rw [legacyEscape, h3]
              by_cases h0 : c = 48
              · have : digitNext cs = true := by
                  cases hd : digitNext cs with
                  | true => rfl
                  | false => exact absurd ⟨h0, hd⟩ h4
                simp [this]
              · simp [h0]
            rw [if_neg (by simpa using h4)] at h
            by_cases h5 : c = 56 ∨ c = 57
            · rw [if_pos (by simpa using h5)] at h; cases h
              exact ⟨[c], rfl, Or.inr ⟨c, .dec h5, rfl, hl⟩⟩
            · rw [if_neg (by simpa using h5)] at h; cases h
              have hoct : Spec.IsOctal c := by
                rw [isDigit_iff] at h3
                simp only [IsDigit] at h3
                simp only [Spec.IsOctal]; omega
              obtain ⟨m, ha, hb⟩ := octal_spec hoct cs (by
                intro h0
                rw [← digitNext_iff]
                cases hd : digitNext cs with
                | true => rfl
                | false => exact absurd ⟨h0, hd⟩ h4)
              refine ⟨m, ha, Or.inr ⟨_, hb, ?_, hl⟩⟩
              rw [units_eq, utf16_small (Legacy.lt hb)]
        · rw [if_neg h3] at h
          have hl : legacyEscape c cs = false := by simp [legacyEscape, h3]
          by_cases h4 : isLine c = true
          · rw [if_pos h4] at h; cases h
            exact ⟨[c], rfl, Or.inl ⟨.line ((isLine_iff c).1 h4), hl⟩⟩
          · rw [if_neg h4] at h; cases h
            refine ⟨[c], rfl, Or.inl ⟨?_, hl⟩⟩
            by_cases hsg : ∃ v, Spec.Single c v
            · obtain ⟨v, hv⟩ := hsg
              have := simple_none hs hv
              subst this
              rw [units_eq, utf16_small (by unfold Spec.Single at hv; omega)]
              exact .single hv
            · rw [units_eq]
              exact .other (fun v hv => hsg ⟨v, hv⟩) (by rw [← isDigit_iff]; exact h3) h1 h2
                (by rw [← isLine_iff]; exact h4)

theorem escape_suffix {c : Nat} {cs add rest : List Nat} {b} (h : escape c cs = .done b add rest) :
    rest.length ≤ cs.length := by
  have key : ∀ e : Esc, (∀ b o r, e = .done b o r → ∃ m, cs = m ++ r) → e.piece = .done b add rest →
      rest.length ≤ cs.length := by
    intro e he hp
    cases e with
    | undef => simp [Esc.piece] at hp
    | done b' o r =>
      obtain ⟨m, rfl⟩ := he _ _ _ rfl
      cases o with
      | none => simp only [Esc.piece] at hp; cases hp; simp
      | some v => simp only [Esc.piece] at hp; cases hp; simp
  unfold escape at h
  split at h
  · cases h; exact Nat.le_refl _
  · split at h
    · exact key _ (fun b o r hx => hexes_suffix hx) h
    · split at h
      · exact key _ (fun b o r hx => unicode_suffix hx) h
      · split at h
        · split at h
          · cases h; exact Nat.le_refl _
          · split at h
            · cases h; exact Nat.le_refl _
            · cases h
              match cs with
              | [] => simp [octal]
              | [b] => simp only [octal]; split <;> simp
              | b :: d :: cs => simp only [octal]; repeat' split
                                all_goals simp
                                all_goals omega
        · split at h
          · cases h; exact Nat.le_refl _
          · cases h; exact Nat.le_refl _

/-- The value of an escape sequence is the one the standard gives. -/
theorem escape_esc {m t v : List Nat} (h : Spec.Esc True m t v) :
    ∃ c r, m = c :: r ∧ escape c (r ++ t) = .done false v t ∧ legacyEscape c (r ++ t) = false := by
  cases h with
  | @single e v _ hs =>
    refine ⟨e, [], rfl, ?_, ?_⟩
    · rcases single_cases hs with h1 | ⟨h1, rfl, h2⟩
      · simp [escape, h1]
      · rcases h2 with rfl | rfl | rfl <;> simp [escape, h1, isDigit, isLine, units]
    · rcases single_cases hs with h1 | ⟨h1, rfl, h2⟩
      · simp [legacyEscape, simple_digit h1]
      · rcases h2 with rfl | rfl | rfl <;> simp [legacyEscape, isDigit]
  | @other c _ h1 h2 h3 h4 h5 =>
    refine ⟨c, [], rfl, ?_, ?_⟩
    · have hs : simple c = none := by
        cases hs : simple c with
        | none => rfl
        | some v => exact absurd (simple_single hs) (h1 v)
      rw [← isDigit_iff] at h2
      rw [← isLine_iff] at h5
      simp [escape, hs, h3, h4, h2, h5, units_eq]
    · rw [← isDigit_iff] at h2; simp [legacyEscape, h2]
  | @line c _ h1 =>
    refine ⟨c, [], rfl, ?_, ?_⟩
    · unfold IsLine at h1
      rcases h1 with rfl | rfl | rfl | rfl <;> simp [escape, simple, isDigit, isLine]
    · unfold IsLine at h1
      rcases h1 with rfl | rfl | rfl | rfl <;> simp [legacyEscape, isDigit]
  | zero h1 =>
    have hd : digitNext t = false := by
      cases hd : digitNext t with
      | false => rfl
      | true => exact absurd ((digitNext_iff t).1 hd) h1
    exact ⟨48, [], rfl, by simp [escape, simple, isDigit, hd], by simp [legacyEscape, hd]⟩
  | @hex ds n _ h1 h2 =>
    refine ⟨120, ds, rfl, ?_, by simp [legacyEscape, isDigit]⟩
    obtain ⟨b, hb⟩ := (hexes_iff (cs := ds ++ t) (rest := t)).2 ⟨ds, rfl, h1, h2⟩
    have hbad := hexes_bad hb
    simp at hbad; subst hbad
    have hv : n < 0x10000 := by
      have hh : ∀ {c v : Nat}, IsHex c v → v < 16 := by
        intro c v h; unfold IsHex at h; omega
      cases h2 with
      | nil => omega
      | cons ha h3 =>
        cases h3 with
        | nil => have := hh ha; omega
        | cons hb' h3 =>
          cases h3 with
          | nil => have := hh ha; have := hh hb'; omega
          | cons _ _ => simp at h1
    simp [escape, simple, hb, Esc.piece, units_eq, utf16_small hv]
  | @uni m n _ h1 =>
    obtain ⟨r, hr⟩ : ∃ r, m = 117 :: r := by cases h1 <;> exact ⟨_, rfl⟩
    subst hr
    refine ⟨117, r, rfl, ?_, by simp [legacyEscape, isDigit]⟩
    have := (unicode_iff (cs := r ++ t) (rest := t)).2 ⟨117 :: r, rfl, h1⟩
    simp [escape, simple, this, Esc.piece, units_eq]

theorem escape_legacy {m t : List Nat} {v : Nat} (h : Spec.Legacy m t v) :
    ∃ c r, m = c :: r ∧ escape c (r ++ t) = .done false [v] t ∧ legacyEscape c (r ++ t) = true := by
  have hno : ∀ c, 48 ≤ c → c ≤ 57 → simple c = none := by
    intro c h1 h2
    cases hs : simple c with
    | none => rfl
    | some v => have := simple_single hs; unfold Spec.Single at this; omega
  have hdig : ∀ c, 48 ≤ c → c ≤ 57 → isDigit c = true := fun c h1 h2 => (isDigit_iff c).2 ⟨h1, h2⟩
  have hun : ∀ v, v < 0x10000 → units v = [v] := fun v hv => by rw [units_eq, utf16_small hv]
  have hnot : ∀ {t : List Nat}, ¬ Next Spec.IsOctal t → t = [] ∨ ∃ c r, t = c :: r ∧ isOctal c = false := by
    intro t ht
    cases t with
    | nil => exact Or.inl rfl
    | cons c r =>
      refine Or.inr ⟨c, r, rfl, ?_⟩
      rw [Next.cons, ← isOctal_iff] at ht
      simpa using ht
  cases h with
  | zero h1 =>
    obtain ⟨d, r, rfl, hd⟩ := h1
    have h9 : isDigit d = true := by rcases hd with rfl | rfl <;> decide
    have h8 : isOctal d = false := by rcases hd with rfl | rfl <;> decide
    refine ⟨48, [], rfl, ?_, by rcases hd with rfl | rfl <;> simp [legacyEscape, digitNext, isDigit]⟩
    cases r with
    | nil => rcases hd with rfl | rfl <;> simp [escape, simple, digitNext, isDigit, octal, h8, units]
    | cons e r => rcases hd with rfl | rfl <;> simp [escape, simple, digitNext, isDigit, octal, h8, units]
  | @one a _ h1 h2 h3 =>
    refine ⟨a, [], rfl, ?_, by simp [legacyEscape, hdig a (by omega) (by omega)]; omega⟩
    have e1 : a ≠ 120 := by omega
    have e2 : a ≠ 117 := by omega
    have e3 : a ≠ 48 := by omega
    have e4 : a ≠ 56 := by omega
    have e5 : a ≠ 57 := by omega
    rcases hnot h3 with rfl | ⟨c, r, rfl, hc⟩
    · simp [escape, hno a (by omega) (by omega), hdig a (by omega) (by omega), e1, e2, e3, e4, e5, octal]
      rw [hun _ (by omega)]
    · cases r with
      | nil =>
        simp [escape, hno a (by omega) (by omega), hdig a (by omega) (by omega), e1, e2, e3, e4, e5, octal, hc]
        rw [hun _ (by omega)]
      | cons d r =>
        simp [escape, hno a (by omega) (by omega), hdig a (by omega) (by omega), e1, e2, e3, e4, e5, octal, hc]
        rw [hun _ (by omega)]
  | @two a b _ h1 h2 h3 h4 =>
    have e1 : a ≠ 120 := by omega
    have e2 : a ≠ 117 := by omega
    have e4 : a ≠ 56 := by omega
    have e5 : a ≠ 57 := by omega
    have hb := (isOctal_iff b).2 h3
    have hbd : isDigit b = true := by
      rw [isDigit_iff]; simp only [Spec.IsOctal, IsDigit] at *; omega
    have hlt : (a - 48) * 8 + (b - 48) < 0x10000 := by simp only [Spec.IsOctal] at h3; omega
    refine ⟨a, [b], rfl, ?_, by simp [legacyEscape, hdig a (by omega) (by omega), digitNext, hbd]⟩
    rcases hnot h4 with rfl | ⟨c, r, rfl, hc⟩
    · simp [escape, hno a (by omega) (by omega), hdig a (by omega) (by omega), e1, e2, e4, e5, octal, hb, digitNext, hbd]
      rw [hun _ hlt]
    · simp [escape, hno a (by omega) (by omega), hdig a (by omega) (by omega), e1, e2, e4, e5, octal, hb, digitNext, hbd, hc]
      rw [hun _ hlt]
  | @high a b _ h1 h2 h3 =>
    have e1 : a ≠ 120 := by omega
    have e2 : a ≠ 117 := by omega
    have e4 : a ≠ 56 := by omega
    have e5 : a ≠ 57 := by omega
    have e6 : ¬ a ≤ 51 := by omega
    have hb := (isOctal_iff b).2 h3
    have hbd : isDigit b = true := by
      rw [isDigit_iff]; simp only [Spec.IsOctal, IsDigit] at *; omega
    have hlt : (a - 48) * 8 + (b - 48) < 0x10000 := by simp only [Spec.IsOctal] at h3; omega
    refine ⟨a, [b], rfl, ?_, by simp [legacyEscape, hdig a (by omega) (by omega), digitNext, hbd]⟩
    cases t with
    | nil =>
      simp [escape, hno a (by omega) (by omega), hdig a (by omega) (by omega), e1, e2, e4, e5, octal, hb, digitNext, hbd]
      rw [hun _ hlt]
    | cons c r =>
      simp [escape, hno a (by omega) (by omega), hdig a (by omega) (by omega), e1, e2, e4, e5, e6, octal, hb, digitNext, hbd]
      rw [hun _ hlt]
  | @three a b c _ h1 h2 h3 h4 =>
    have e1 : a ≠ 120 := by omega
    have e2 : a ≠ 117 := by omega
    have e4 : a ≠ 56 := by omega
    have e5 : a ≠ 57 := by omega
    have hb := (isOctal_iff b).2 h3
    have hc := (isOctal_iff c).2 h4
    have hbd : isDigit b = true := by
      rw [isDigit_iff]; simp only [Spec.IsOctal, IsDigit] at *; omega
    have hlt : (a - 48) * 64 + (b - 48) * 8 + (c - 48) < 0x10000 := by simp only [Spec.IsOctal] at h3 h4; omega
    refine ⟨a, [b, c], rfl, ?_, by simp [legacyEscape, hdig a (by omega) (by omega), digitNext, hbd]⟩
    simp [escape, hno a (by omega) (by omega), hdig a (by omega) (by omega), e1, e2, e4, e5, octal, hb, digitNext, hbd, hc, h2]
    rw [hun _ hlt]
  | dec h1 =>
    rcases h1 with rfl | rfl
    · exact ⟨56, [], rfl, by simp [escape, simple, isDigit], by simp [legacyEscape, isDigit]⟩
    · exact ⟨57, [], rfl, by simp [escape, simple, isDigit], by simp [legacyEscape, isDigit]⟩

/-! ### Strings -/

theorem Esc.look {E : Prop} {q : Nat} (hq : ¬ IsDigit q) {m t r v : List Nat} :
    Spec.Esc E m (t ++ q :: r) v ↔ Spec.Esc E m t v := by
  constructor
  · intro h
    cases h with
    | single h => exact .single h
    | other a b c d e => exact .other a b c d e
    | line h => exact .line h
    | zero h => exact .zero (by rwa [Next.append hq] at h)
    | hex a b => exact .hex a b
    | uni h => exact .uni h
  · intro h
    cases h with
    | single h => exact .single h
    | other a b c d e => exact .other a b c d e
    | line h => exact .line h
    | zero h => exact .zero (by rwa [Next.append hq])
    | hex a b => exact .hex a b
    | uni h => exact .uni h

theorem Legacy.look {q : Nat} (hq : ¬ IsDigit q) {m t r : List Nat} {v : Nat} :
    Spec.Legacy m (t ++ q :: r) v ↔ Spec.Legacy m t v := by
  have h8 : ¬ (q = 56 ∨ q = 57) := by unfold IsDigit at hq; omega
  have ho : ¬ Spec.IsOctal q := by unfold IsDigit at hq; unfold Spec.IsOctal; omega
  constructor
  · intro h
    cases h with
    | zero h => exact .zero (by rwa [Next.append (p := fun c => c = 56 ∨ c = 57) h8] at h)
    | one a b c => exact .one a b (by rwa [Next.append ho] at c)
    | two a b c d => exact .two a b c (by rwa [Next.append ho] at d)
    | high a b c => exact .high a b c
    | three a b c d => exact .three a b c d
    | dec a => exact .dec a
  · intro h
    cases h with
    | zero h => exact .zero (by rwa [Next.append (p := fun c => c = 56 ∨ c = 57) h8])
    | one a b c => exact .one a b (by rwa [Next.append ho])
    | two a b c d => exact .two a b c (by rwa [Next.append ho])
    | high a b c => exact .high a b c
    | three a b c d => exact .three a b c d
    | dec a => exact .dec a

theorem lexString_sound {q : Nat} (hq : ¬ IsDigit q) {f : Nat} {bad : Bool} {t t' : StrTok} {cs rest : List Nat}
    (h : lexString q f bad t cs = .ok t' rest) :
    bad = false ∧ ∃ body s e l, cs = body ++ q :: rest ∧ Spec.Chars True q body s e l ∧
      t' = ⟨t.value ++ s, t.esc || e, t.legacy || l⟩ := by
  induction f generalizing bad t cs with
  | zero => simp [lexString] at h
  | succ f ih =>
    cases cs with
    | nil => simp [lexString] at h
    | cons c cs =>
      simp only [lexString] at h
      by_cases h1 : c = q
      · rw [if_pos h1] at h
        cases bad with
        | true => simp at h
        | false =>
          simp at h
          obtain ⟨rfl, rfl⟩ := h
          exact ⟨rfl, [], [], false, false, by simp [h1], .nil, by simp⟩
      · rw [if_neg h1] at h
        by_cases h2 : c = 10 ∨ c = 13
        · rw [if_pos (by simpa using h2)] at h; cases h
        · rw [if_neg (by simpa using h2)] at h
          by_cases h3 : c = 92
          · subst h3
            rw [if_pos rfl] at h
            cases cs with
            | nil => simp at h
            | cons d ds =>
              dsimp only at h
              cases he : escape d ds with
              | undef => rw [he] at h; cases h
              | done b add r =>
                rw [he] at h
                dsimp only at h
                obtain ⟨hb, body, s, e, l, h4, h5, h6⟩ := ih h
                simp only [Bool.or_eq_false_iff] at hb
                obtain ⟨rfl, rfl⟩ := hb
                refine ⟨rfl, ?_⟩
                obtain ⟨m, h7, h8⟩ := escape_spec he
                rw [h4] at h7 h8
                rcases h8 with ⟨h8, h9⟩ | ⟨v, h8, rfl, h9⟩
                · refine ⟨92 :: (m ++ body), add ++ s, true, l, by rw [h7]; simp, .esc ((Esc.look hq).1 h8) h5, ?_⟩
                  rw [h6, h9]; simp
                · refine ⟨92 :: (m ++ body), v :: s, true, true, by rw [h7]; simp, .legacy ((Legacy.look hq).1 h8) h5, ?_⟩
                  rw [h6, h9]; simp
          · rw [if_neg h3] at h
            obtain ⟨hb, body, s, e, l, h4, h5, h6⟩ := ih h
            refine ⟨hb, c :: body, utf16 c ++ s, e, l, by rw [h4]; simp, .char h1 h3 ?_ ?_ h5, ?_⟩
            · exact fun h => h2 (Or.inl h)
            · exact fun h => h2 (Or.inr h)
            · rw [h6, units_eq]; simp

theorem lexString_complete {q : Nat} (hq : ¬ IsDigit q) (hq' : q ≠ 92) {body s : List Nat} {e l : Bool}
    (h : Spec.Chars True q body s e l) (rest : List Nat) {f : Nat} (hf : body.length < f) (t : StrTok) :
    lexString q f false t (body ++ q :: rest) = .ok ⟨t.value ++ s, t.esc || e, t.legacy || l⟩ rest := by
  induction h generalizing f t with
  | nil =>
    obtain ⟨g, rfl⟩ : ∃ g, f = g + 1 := ⟨f - 1, by simp at hf; omega⟩
    simp [lexString]
  | @char c b s e l h1 h2 h3 h4 _ ih =>
    obtain ⟨g, rfl⟩ : ∃ g, f = g + 1 := ⟨f - 1, by omega⟩
    simp only [List.cons_append, lexString]
    rw [if_neg h1, if_neg (by simp [h3, h4]), if_neg h2, ih (by simpa using hf)]
    simp [units_eq]
  | @esc m v b s e l h1 _ ih =>
    obtain ⟨g, rfl⟩ : ∃ g, f = g + 1 := ⟨f - 1, by omega⟩
    obtain ⟨c, r, rfl, h2, h3⟩ := escape_esc ((Esc.look hq (r := rest)).2 h1)
    have e1 : 92 :: (c :: r ++ b) ++ q :: rest = 92 :: c :: (r ++ (b ++ q :: rest)) := by simp
    rw [e1]
    simp only [lexString]
    rw [if_neg (fun h => hq' h.symm), if_neg (by simp), if_pos trivial, h2]
    dsimp only
    rw [h3, Bool.false_or, ih (by simp at hf; omega)]
    simp
  | @legacy m v b s e l h1 _ ih =>
    obtain ⟨g, rfl⟩ : ∃ g, f = g + 1 := ⟨f - 1, by omega⟩
    obtain ⟨c, r, rfl, h2, h3⟩ := escape_legacy ((Legacy.look hq (r := rest)).2 h1)
    have e1 : 92 :: (c :: r ++ b) ++ q :: rest = 92 :: c :: (r ++ (b ++ q :: rest)) := by simp
    rw [e1]
    simp only [lexString]
    rw [if_neg (fun h => hq' h.symm), if_neg (by simp), if_pos trivial, h2]
    dsimp only
    rw [h3, Bool.false_or, ih (by simp at hf; omega)]
    simp

theorem lexString_fuel {q f : Nat} {bad : Bool} {t : StrTok} {cs : List Nat} (hf : cs.length < f) :
    lexString q f bad t cs ≠ .fuel := by
  induction f generalizing bad t cs with
  | zero => omega
  | succ f ih =>
    cases cs with
    | nil => simp [lexString]
    | cons c cs =>
      simp only [lexString]
      split
      · split <;> simp
      · split
        · simp
        · split
          · cases cs with
            | nil => simp
            | cons d ds =>
              dsimp only
              cases he : escape d ds with
              | undef => simp
              | done b add r =>
                dsimp only
                have := escape_suffix he
                exact ih (by simp at hf; omega)
          · exact ih (by simpa using hf)

end Verif.Lex

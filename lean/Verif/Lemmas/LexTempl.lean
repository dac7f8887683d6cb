import Verif.Lemmas.LexString

/-! Lemmas for C89: templates. -/
namespace Verif.Lex
open Json (Out isDigit isOctal isHex isLine units hexes unicode braced simple digitNext Esc Piece escape hexNum
  isHex_iff hexNum_of isDigit_iff isLine_iff units_eq octal)
open Json.Spec (IsDigit IsHex IsLine utf16)
open Spec (Hexes Next)

/-- Characters that mean nothing in a template. -/
def Plain (x : Nat) : Prop := x ≠ 96 ∧ x ≠ 92 ∧ x ≠ 36

theorem plain_hex {x : Nat} (h : isHex x = true) : Plain x := by
  simp [isHex, isDigit] at h
  unfold Plain; omega

theorem hexes_chars {n v : Nat} {cs : List Nat} {b o rest} (h : hexes n v cs = .done b o rest) :
    ∃ m, cs = m ++ rest ∧ ∀ x ∈ m, Plain x := by
  induction n generalizing v cs with
  | zero => simp only [hexes] at h; cases h; exact ⟨[], rfl, by simp⟩
  | succ n ih =>
    cases cs with
    | nil => simp only [hexes] at h; cases h; exact ⟨[], rfl, by simp⟩
    | cons c cs =>
      simp only [hexes] at h
      split at h
      · rename_i hc
        obtain ⟨m, rfl, hm⟩ := ih h
        refine ⟨c :: m, rfl, ?_⟩
        intro x hx
        rcases List.mem_cons.1 hx with rfl | hx
        · exact plain_hex hc
        · exact hm x hx
      · cases h; exact ⟨[], rfl, by simp⟩

theorem braced_chars {bad : Bool} {o : Option Nat} {cs : List Nat} {b o' rest}
    (h : braced bad o cs = .done b o' rest) : ∃ m, cs = m ++ rest ∧ ∀ x ∈ m, Plain x := by
  have h125 : ∀ x ∈ [125], Plain x := by intro x hx; simp at hx; subst hx; unfold Plain; omega
  induction cs generalizing bad o with
  | nil => simp only [braced] at h; cases h; exact ⟨[], rfl, by simp⟩
  | cons c cs ih =>
    simp only [braced] at h
    split at h
    · rename_i hc; cases h; subst hc; exact ⟨[125], rfl, h125⟩
    · split at h
      · rename_i hc
        have key : ∀ m : List Nat, (∀ x ∈ m, Plain x) → ∀ x ∈ c :: m, Plain x := by
          intro m hm x hx
          rcases List.mem_cons.1 hx with rfl | hx
          · exact plain_hex hc
          · exact hm x hx
        cases o with
        | none => cases h
        | some v =>
          dsimp only at h
          split at h
          · obtain ⟨m, rfl, hm⟩ := ih h; exact ⟨c :: m, rfl, key m hm⟩
          · obtain ⟨m, rfl, hm⟩ := ih h; exact ⟨c :: m, rfl, key m hm⟩
      · cases h; exact ⟨[], rfl, by simp⟩

theorem unicode_chars {cs : List Nat} {b o rest} (h : unicode cs = .done b o rest) :
    ∃ m, cs = m ++ rest ∧ ∀ x ∈ m, Plain x := by
  unfold unicode at h
  split at h
  · obtain ⟨m, rfl, hm⟩ := braced_chars h
    refine ⟨123 :: m, rfl, ?_⟩
    intro x hx
    rcases List.mem_cons.1 hx with rfl | hx
    · unfold Plain; omega
    · exact hm x hx
  · exact hexes_chars h

/-- The undefined shift: the value is too large before the last digit. -/
theorem braced_undef {bad : Bool} {a : Nat} {cs : List Nat} (h : braced bad (some a) cs = .undef) :
    ∃ ds c b n, cs = ds ++ c :: b ∧ Hexes a ds n ∧ Spec.IsHexDigit c ∧ 0x10ffff < n := by
  induction cs generalizing bad a with
  | nil => simp [braced] at h
  | cons c cs ih =>
    simp only [braced] at h
    split at h
    · cases h
    · split at h
      · rename_i hc
        split at h
        · rename_i hlt
          cases cs with
          | nil => simp [braced] at h
          | cons d cs =>
            simp only [braced] at h
            split at h
            · cases h
            · split at h
              · rename_i hd
                exact ⟨[c], d, cs, _, rfl, .cons ((isHex_iff c).1 hc) .nil, ⟨_, (isHex_iff d).1 hd⟩, by omega⟩
              · cases h
        · obtain ⟨ds, d, b, n, rfl, h1, h2, h3⟩ := ih h
          exact ⟨c :: ds, d, b, n, rfl, .cons ((isHex_iff c).1 hc) (by rwa [Nat.mul_comm 16]), h2, h3⟩
      · cases h

theorem unicode_undef {cs : List Nat} (h : unicode cs = .undef) :
    ∃ ds c b n, cs = 123 :: (ds ++ c :: b) ∧ Hexes 0 ds n ∧ Spec.IsHexDigit c ∧ 0x10ffff < n := by
  unfold unicode at h
  split at h
  · obtain ⟨ds, c, b, n, rfl, h1, h2, h3⟩ := braced_undef h
    exact ⟨ds, c, b, n, rfl, h1, h2, h3⟩
  · exact absurd h hexes_ne_undef

theorem read_append (m rest : List Nat) : read (m ++ rest) rest = m := by
  unfold read
  rw [List.length_append, Nat.add_sub_cancel, List.take_left']
  rfl

theorem units_fun : units = utf16 := funext units_eq

/-- What one escape sequence gives. -/
def TSpec (c : Nat) (cs : List Nat) (b : Bool) (add raw rest : List Nat) : Prop :=
  ∃ m, c :: cs = m ++ rest ∧ raw = 92 :: m.flatMap utf16 ∧
    (b = false ∧ Spec.Esc True m rest add ∨ b = true ∧ Spec.NotEsc True (c :: cs) ∧ ∀ x ∈ m, Plain x)

theorem escapeT_spec {c : Nat} {cs add raw rest : List Nat} {b} (h : escapeT c cs = .done b add raw rest) :
    rest = [] ∨ TSpec c cs b add raw rest := by
  unfold escapeT at h
  cases hs : simple c with
  | some v =>
    rw [hs] at h; cases h
    have := simple_single hs
    refine Or.inr ⟨[c], rfl, ?_, Or.inl ⟨rfl, .single this⟩⟩
    simp [utf16_small (show c < 0x10000 by unfold Spec.Single at this; omega)]
  | none =>
    rw [hs] at h
    dsimp only at h
    by_cases h1 : c = 120
    · subst h1
      rw [if_pos rfl] at h
      right
      cases hx : hexes 2 0 cs with
      | undef => exact absurd hx hexes_ne_undef
      | done b' o r =>
        rw [hx] at h
        obtain ⟨m, hm, hp⟩ := hexes_chars hx
        cases o with
        | none =>
          simp only [templEsc] at h
          cases h
          refine ⟨120 :: m, by rw [hm]; rfl, by rw [hm, read_append, units_fun]; simp [utf16], Or.inr ⟨rfl, ?_, ?_⟩⟩
          · refine ⟨120, cs, rfl, Or.inr (Or.inr (Or.inl ⟨rfl, ?_⟩))⟩
            rintro ⟨a, b, n, h2, h3, h4⟩
            obtain ⟨b', hb⟩ := hexes_iff.2 ⟨a, h2.symm, h3, h4⟩
            rw [hx] at hb; cases hb
          · intro x hx
            rcases List.mem_cons.1 hx with rfl | hx
            · unfold Plain; omega
            · exact hp x hx
        | some v =>
          simp only [templEsc] at h
          cases h
          have hb := hexes_bad hx
          simp at hb; subst hb
          have he : escape 120 cs = .done false (units v) rest := by
            simp [escape, simple, hx, Esc.piece]
          obtain ⟨m', h2, h3⟩ := escape_spec he
          obtain rfl : m' = 120 :: m := by
            rw [hm] at h2
            exact (List.append_cancel_right (as := 120 :: m) h2).symm
          refine ⟨120 :: m, h2, by rw [hm, read_append, units_fun]; simp [utf16], Or.inl ⟨rfl, ?_⟩⟩
          rcases h3 with h3 | ⟨v, h3, _, h4⟩
          · exact h3.1
          · simp [legacyEscape, isDigit] at h4
    · rw [if_neg h1] at h
      by_cases h2 : c = 117
      · subst h2
        rw [if_pos rfl] at h
        cases hx : unicode cs with
        | undef => rw [hx] at h; simp [templEsc] at h
        | done b' o r =>
          rw [hx] at h
          obtain ⟨m, hm, hp⟩ := unicode_chars hx
          cases o with
          | none =>
            simp only [templEsc] at h
            cases h
            right
            refine ⟨117 :: m, by rw [hm]; rfl, by rw [hm, read_append, units_fun]; simp [utf16], Or.inr ⟨rfl, ?_, ?_⟩⟩
            · refine ⟨117, cs, rfl, Or.inr (Or.inr (Or.inr ⟨rfl, ?_⟩))⟩
              rintro ⟨a, b, n, h2, h3⟩
              have := unicode_iff.2 ⟨_, h2.symm, h3⟩
              rw [hx] at this; cases this
            · intro x hx
              rcases List.mem_cons.1 hx with rfl | hx
              · unfold Plain; omega
              · exact hp x hx
          | some v =>
            simp only [templEsc] at h
            cases h
            rcases unicode_end hx with rfl | h9
            · right
              obtain ⟨m', h3, h4⟩ := unicode_iff.1 hx
              obtain rfl : m' = 117 :: m := by
                rw [hm] at h3
                exact (List.append_cancel_right (as := 117 :: m) h3).symm
              exact ⟨117 :: m, h3, by rw [hm, read_append, units_fun]; simp [utf16],
                Or.inl ⟨rfl, by rw [units_eq]; exact .uni h4⟩⟩
            · exact Or.inl h9
      · rw [if_neg h2] at h
        right
        by_cases h3 : c = 48
        · subst h3
          rw [if_pos rfl] at h
          have hp : ∀ x ∈ [48], Plain x := by intro x hx; simp at hx; subst hx; unfold Plain; omega
          split at h
          · rename_i hd
            cases h
            exact ⟨[48], rfl, by simp [utf16], Or.inr ⟨rfl, ⟨48, cs, rfl, Or.inl ⟨rfl, (digitNext_iff cs).1 hd⟩⟩, hp⟩⟩
          · rename_i hd
            cases h
            exact ⟨[48], rfl, by simp [utf16], Or.inl ⟨rfl, .zero (by rw [← digitNext_iff]; exact hd)⟩⟩
        · rw [if_neg h3] at h
          by_cases h4 : isDigit c = true
          · rw [if_pos h4] at h; cases h
            rw [isDigit_iff] at h4
            unfold IsDigit at h4
            refine ⟨[c], rfl, ?_, Or.inr ⟨rfl, ⟨c, cs, rfl, Or.inr (Or.inl (by omega))⟩, ?_⟩⟩
            · simp [utf16_small (show c < 0x10000 by omega)]
            · intro x hx; simp at hx; subst hx; unfold Plain; omega
          · rw [if_neg h4] at h
            by_cases h5 : isLine c = true
            · rw [if_pos h5] at h; cases h
              rw [isLine_iff] at h5
              refine ⟨[c], rfl, ?_, Or.inl ⟨rfl, .line h5⟩⟩
              simp [utf16_small (show c < 0x10000 by unfold IsLine at h5; omega)]
            · rw [if_neg h5] at h; cases h
              have he : escape c cs = .done false (units c) cs := by simp [escape, hs, h1, h2, h4, h5]
              obtain ⟨m', h6, h7⟩ := escape_spec he
              obtain rfl : m' = [c] := (List.append_cancel_right (as := [c]) h6).symm
              refine ⟨[c], rfl, by simp [units_eq], Or.inl ⟨rfl, ?_⟩⟩
              rcases h7 with h7 | ⟨v, _, _, h8⟩
              · exact h7.1
              · simp [legacyEscape, h4] at h8

theorem escapeT_undef {c : Nat} {cs : List Nat} (h : escapeT c cs = .undef) :
    ∃ ds d b n, c :: cs = 117 :: 123 :: (ds ++ d :: b) ∧ Hexes 0 ds n ∧ Spec.IsHexDigit d ∧ 0x10ffff < n := by
  unfold escapeT at h
  split at h
  · cases h
  · split at h
    · cases hx : hexes 2 0 cs with
      | undef => exact absurd hx hexes_ne_undef
      | done b o r => rw [hx] at h; cases o <;> simp [templEsc] at h
    · split at h
      · rename_i h2
        cases hx : unicode cs with
        | undef =>
          obtain ⟨ds, d, b, n, rfl, h3⟩ := unicode_undef hx
          exact ⟨ds, d, b, n, by rw [h2], h3⟩
        | done b o r => rw [hx] at h; cases o <;> simp [templEsc] at h
      · repeat' split at h
        all_goals cases h

/-- A sequence of the standard is read with its value. -/
theorem escapeT_esc {m t v : List Nat} (h : Spec.Esc True m t v) :
    ∃ c r, m = c :: r ∧ escapeT c (r ++ t) = .done false v (92 :: m.flatMap utf16) t := by
  obtain ⟨c, r, rfl, h1, h2⟩ := escape_esc h
  refine ⟨c, r, rfl, ?_⟩
  -- the same branches
  unfold escape at h1
  unfold escapeT
  cases hs : simple c with
  | some w =>
    rw [hs] at h1
    simp only [Piece.done.injEq, true_and] at h1
    obtain ⟨rfl, h4⟩ := h1
    obtain rfl : r = [] := by simpa using h4
    have := simple_single hs
    simp [utf16_small (show c < 0x10000 by unfold Spec.Single at this; omega)]
  | none =>
    rw [hs] at h1
    dsimp only at h1 ⊢
    by_cases hx : c = 120
    · subst hx
      rw [if_pos rfl] at h1 ⊢
      cases he : hexes 2 0 (r ++ t) with
      | undef => exact absurd he hexes_ne_undef
      | done b o rest =>
        rw [he] at h1
        cases o with
        | none => simp [Esc.piece] at h1
        | some n =>
          simp only [Esc.piece] at h1
          cases h1
          simp only [templEsc, read_append, units_fun]
          simp [utf16]
    · rw [if_neg hx] at h1 ⊢
      by_cases hu : c = 117
      · subst hu
        rw [if_pos rfl] at h1 ⊢
        cases he : unicode (r ++ t) with
        | undef => rw [he] at h1; simp [Esc.piece] at h1
        | done b o rest =>
          rw [he] at h1
          cases o with
          | none => simp [Esc.piece] at h1
          | some n =>
            simp only [Esc.piece] at h1
            cases h1
            simp only [templEsc, read_append, units_fun]
            simp [utf16]
      · rw [if_neg hu] at h1 ⊢
        by_cases hd : isDigit c = true
        · rw [if_pos hd] at h1
          rw [legacyEscape, hd, Bool.true_and] at h2
          simp at h2
          obtain ⟨rfl, h3⟩ := h2
          rw [if_pos (by simp [h3])] at h1
          rw [if_pos rfl, h3]
          simp only [Piece.done.injEq, true_and] at h1
          obtain ⟨rfl, h4⟩ := h1
          obtain rfl : r = [] := by simpa using h4
          simp [utf16]
        · rw [if_neg hd] at h1
          have h48 : c ≠ 48 := by rintro rfl; exact hd rfl
          rw [if_neg h48, if_neg hd]
          by_cases hl : isLine c = true
          · rw [if_pos hl] at h1 ⊢
            simp only [Piece.done.injEq, true_and] at h1
            obtain ⟨rfl, h4⟩ := h1
            obtain rfl : r = [] := by simpa using h4
            rw [isLine_iff] at hl
            simp [utf16_small (show c < 0x10000 by unfold IsLine at hl; omega)]
          · rw [if_neg hl] at h1 ⊢
            simp only [Piece.done.injEq, true_and] at h1
            obtain ⟨rfl, h4⟩ := h1
            obtain rfl : r = [] := by simpa using h4
            simp [units_eq]

/-- A sequence the standard has not. -/
theorem escapeT_bad {c : Nat} {cs : List Nat} (h : Spec.NotEsc True (c :: cs)) :
    escapeT c cs = .undef ∨ ∃ add m rest, c :: cs = m ++ rest ∧ m ≠ [] ∧ (∀ x ∈ m, Plain x) ∧
      (rest = [] ∨ escapeT c cs = .done true add (92 :: m.flatMap utf16) rest) := by
  obtain ⟨c', cs', he, h⟩ := h
  obtain ⟨rfl, rfl⟩ := List.cons.inj he
  have hs : simple c = none := by
    cases hs : simple c with
    | none => rfl
    | some v =>
      have := simple_single hs
      unfold Spec.Single at this; omega
  have p48 : ∀ x ∈ [48], Plain x := by intro x hx; simp at hx; subst hx; unfold Plain; omega
  rcases h with ⟨rfl, h⟩ | h | ⟨rfl, h⟩ | ⟨rfl, h⟩
  · right
    refine ⟨[92], [48], cs, rfl, by simp, p48, Or.inr ?_⟩
    have := (digitNext_iff cs).2 h
    simp [escapeT, simple, this, utf16]
  · right
    refine ⟨[92], [c], cs, rfl, by simp, ?_, Or.inr ?_⟩
    · intro x hx; simp at hx; subst hx; unfold Plain; omega
    · have hd : isDigit c = true := (isDigit_iff c).2 ⟨by omega, h.2⟩
      have e1 : c ≠ 120 := by omega
      have e2 : c ≠ 117 := by omega
      have e3 : c ≠ 48 := by omega
      simp [escapeT, hs, e1, e2, e3, hd, utf16_small (show c < 0x10000 by omega)]
  · right
    cases hx : hexes 2 0 cs with
    | undef => exact absurd hx hexes_ne_undef
    | done b o r =>
      obtain ⟨m, hm, hp⟩ := hexes_chars hx
      have hp' : ∀ x ∈ 120 :: m, Plain x := by
        intro x hx
        rcases List.mem_cons.1 hx with rfl | hx
        · unfold Plain; omega
        · exact hp x hx
      cases o with
      | none =>
        refine ⟨92 :: 120 :: m.flatMap utf16, 120 :: m, r, by rw [hm]; rfl, by simp, hp', Or.inr ?_⟩
        simp only [escapeT, hs, if_pos, hx, templEsc]
        rw [hm, read_append, units_fun]
        simp [utf16]
      | some v =>
        obtain ⟨ds, h1, h2, h3⟩ := hexes_iff.1 ⟨_, hx⟩
        exact absurd ⟨ds, r, v, h1.symm, h2, h3⟩ h
  · cases hx : unicode cs with
    | undef => left; simp [escapeT, simple, hx, templEsc]
    | done b o r =>
      right
      obtain ⟨m, hm, hp⟩ := unicode_chars hx
      have hp' : ∀ x ∈ 117 :: m, Plain x := by
        intro x hx
        rcases List.mem_cons.1 hx with rfl | hx
        · unfold Plain; omega
        · exact hp x hx
      cases o with
      | none =>
        refine ⟨92 :: 117 :: m.flatMap utf16, 117 :: m, r, by rw [hm]; rfl, by simp, hp', Or.inr ?_⟩
        have e : (117 : Nat) ≠ 120 := by omega
        simp only [escapeT, hs, if_neg e, if_pos, hx, templEsc]
        rw [hm, read_append, units_fun]
        simp [utf16]
      | some v =>
        rcases unicode_end hx with rfl | h9
        · obtain ⟨m', h1, h2⟩ := unicode_iff.1 hx
          exfalso
          obtain ⟨a, rfl⟩ : ∃ a, m' = 117 :: a := by cases h2 <;> exact ⟨_, rfl⟩
          exact h ⟨a, r, v, h1.symm, h2⟩
        · exact ⟨[], 117 :: m, r, by rw [hm]; rfl, by simp, hp', Or.inl h9⟩

/-! ### Looking ahead -/

theorem append_split {a b r w : List Nat} {q : Nat} (h : a ++ b = r ++ q :: w) (hq : q ∉ a) :
    ∃ b', r = a ++ b' ∧ b = b' ++ q :: w := by
  rcases List.append_eq_append_iff.1 h with ⟨c, rfl, hb⟩ | ⟨c, rfl, hb⟩
  · exact ⟨c, rfl, hb⟩
  · cases c with
    | nil => exact ⟨[], by simp, by simpa using hb.symm⟩
    | cons d c =>
      obtain ⟨rfl, _⟩ := List.cons.inj hb
      exact absurd (by simp) hq

theorem Hexes.chars {a n : Nat} {ds} (h : Hexes a ds n) : ∀ x ∈ ds, Plain x := by
  induction h with
  | nil => simp
  | cons h _ ih =>
    intro x hx
    rcases List.mem_cons.1 hx with rfl | hx
    · exact plain_hex (hexNum_of h).1
    · exact ih x hx

theorem UniEsc.chars {E : Prop} {m : List Nat} {n} (h : Spec.UniEsc E m n) : ∀ x ∈ m, Plain x := by
  cases h with
  | four _ h =>
    intro x hx
    rcases List.mem_cons.1 hx with rfl | hx
    · unfold Plain; omega
    · exact Hexes.chars h x hx
  | braces _ h _ =>
    intro x hx
    simp only [List.mem_cons, List.mem_append, List.not_mem_nil, or_false] at hx
    rcases hx with rfl | rfl | hx | rfl
    · unfold Plain; omega
    · unfold Plain; omega
    · exact Hexes.chars h x hx
    · unfold Plain; omega

theorem NotEsc.look {E : Prop} {q : Nat} (hq : q = 96 ∨ q = 36) {t w : List Nat} :
    Spec.NotEsc E (t ++ q :: w) ↔ Spec.NotEsc E t := by
  have hnp : ∀ {a : List Nat}, (∀ x ∈ a, Plain x) → q ∉ a := by
    intro a ha hm
    have := ha q hm
    unfold Plain at this; omega
  have hnd : ¬ IsDigit q := by unfold IsDigit; omega
  constructor
  · rintro ⟨c, r, hcr, hc⟩
    cases t with
    | nil => exfalso; obtain ⟨rfl, rfl⟩ := List.cons.inj hcr; omega
    | cons d t =>
      rw [List.cons_append] at hcr
      obtain ⟨rfl, rfl⟩ := List.cons.inj hcr
      clear hcr
      refine ⟨d, t, rfl, ?_⟩
      rcases hc with ⟨rfl, h⟩ | h | ⟨rfl, h⟩ | ⟨rfl, h⟩
      · exact Or.inl ⟨rfl, (Next.append hnd _ _).1 h⟩
      · exact Or.inr (Or.inl h)
      · refine Or.inr (Or.inr (Or.inl ⟨rfl, ?_⟩))
        rintro ⟨a, b, n, rfl, h1, h2⟩
        exact h ⟨a, b ++ q :: w, n, by simp, h1, h2⟩
      · refine Or.inr (Or.inr (Or.inr ⟨rfl, ?_⟩))
        rintro ⟨a, b, n, h1, h2⟩
        obtain ⟨_, rfl⟩ := List.cons.inj h1
        exact h ⟨a, b ++ q :: w, n, by simp, h2⟩
  · rintro ⟨c, r, rfl, hc⟩
    refine ⟨c, r ++ q :: w, rfl, ?_⟩
    rcases hc with ⟨rfl, h⟩ | h | ⟨rfl, h⟩ | ⟨rfl, h⟩
    · exact Or.inl ⟨rfl, (Next.append hnd _ _).2 h⟩
    · exact Or.inr (Or.inl h)
    · refine Or.inr (Or.inr (Or.inl ⟨rfl, ?_⟩))
      rintro ⟨a, b, n, h1, h2, h3⟩
      obtain ⟨b', rfl, _⟩ := append_split h1 (hnp (Hexes.chars h3))
      exact h ⟨a, b', n, rfl, h2, h3⟩
    · refine Or.inr (Or.inr (Or.inr ⟨rfl, ?_⟩))
      rintro ⟨a, b, n, h1, h2⟩
      have h1' : (117 :: a) ++ b = (117 :: r) ++ q :: w := h1
      obtain ⟨b', hb, _⟩ := append_split h1' (hnp (UniEsc.chars h2))
      exact h ⟨a, b', n, by simpa using hb.symm, h2⟩

/-! ### The loop -/

/-- The end of a part. -/
def Fin (last : Bool) (w rest : List Nat) : Prop := (last = true ∧ w = 96 :: rest) ∨ (last = false ∧ w = 36 :: 123 :: rest)

theorem Fin.cons {last w rest} (h : Fin last w rest) : ∃ q r, w = q :: r ∧ (q = 96 ∨ q = 36) := by
  rcases h with ⟨_, rfl⟩ | ⟨_, rfl⟩
  · exact ⟨_, _, rfl, Or.inl rfl⟩
  · exact ⟨_, _, rfl, Or.inr rfl⟩

theorem TChars.plain {E : Prop} {m t : List Nat} {s} (hm : ∀ x ∈ m, Plain x) (h : Spec.TChars E t s) :
    ∃ s', Spec.TChars E (m ++ t) s' := by
  induction m with
  | nil => exact ⟨s, h⟩
  | cons c m ih =>
    obtain ⟨s', hs⟩ := ih (fun x hx => hm x (by simp [hx]))
    have := hm c (by simp)
    exact ⟨_, .char this.1 this.2.1 (fun h => absurd h this.2.2) hs⟩

theorem TChars.strip {E : Prop} {m t : List Nat} {s} (hm : ∀ x ∈ m, Plain x) (h : Spec.TChars E (m ++ t) s) :
    ∃ s', Spec.TChars E t s' := by
  induction m generalizing s with
  | nil => exact ⟨s, h⟩
  | cons c m ih =>
    have hc := (hm c (by simp)).2.1
    rw [List.cons_append] at h
    generalize hg : c :: (m ++ t) = g at h
    cases h with
    | nil => cases hg
    | char _ _ _ h =>
      obtain ⟨rfl, rfl⟩ := List.cons.inj hg
      exact ih (fun x hx => hm x (by simp [hx])) h
    | esc _ _ => exact absurd (List.cons.inj hg).1 hc
    | bad _ _ => exact absurd (List.cons.inj hg).1 hc

theorem lexTempl_sound {f : Nat} {bad : Bool} {uc raw cs : List Nat} {t : TemplTok} {rest : List Nat}
    (h : lexTempl f bad uc raw cs = .ok t rest) :
    ∃ body s uc' last w, cs = body ++ w ∧ Fin last w rest ∧ Spec.TChars True body s ∧
      (∀ v, s = some v → uc' = uc ++ v) ∧
      t = templTok last (bad || s.isNone) uc' (raw ++ body.flatMap utf16) := by
  induction f generalizing bad uc raw cs with
  | zero => simp [lexTempl] at h
  | succ f ih =>
    cases cs with
    | nil => simp [lexTempl] at h
    | cons c cs =>
      simp only [lexTempl] at h
      have char : c ≠ 96 → c ≠ 92 → (c = 36 → ¬ Next (· = 123) cs) →
          lexTempl f bad (uc ++ units c) (raw ++ units c) cs = .ok t rest →
          ∃ body s uc' last w, c :: cs = body ++ w ∧ Fin last w rest ∧ Spec.TChars True body s ∧
            (∀ v, s = some v → uc' = uc ++ v) ∧
            t = templTok last (bad || s.isNone) uc' (raw ++ body.flatMap utf16) := by
        intro h1 h2 h3 h4
        obtain ⟨body, s, uc', last, w, rfl, hf, hc, hu, ht⟩ := ih h4
        refine ⟨c :: body, s.map (utf16 c ++ ·), uc', last, w, rfl, hf, .char h1 h2 ?_ hc, ?_, ?_⟩
        · intro h5 h6
          apply h3 h5
          obtain ⟨q, r, rfl, hq⟩ := hf.cons
          exact (Next.append (by omega) _ _).2 h6
        · intro v hv
          cases s with
          | none => cases hv
          | some x =>
            cases hv
            rw [hu x rfl, units_eq]; simp
        · rw [ht, units_eq]; cases s <;> simp
      by_cases h1 : c = 96
      · subst h1
        rw [if_pos rfl] at h
        cases h
        exact ⟨[], some [], uc, true, 96 :: rest, rfl, Or.inl ⟨rfl, rfl⟩, .nil, by simp, by simp⟩
      · rw [if_neg h1] at h
        by_cases h2 : c = 36
        · subst h2
          rw [if_pos rfl] at h
          have hun : units 36 = [36] := by simp [units]
          split at h
          · cases h
            exact ⟨[], some [], uc, false, 36 :: 123 :: rest, rfl, Or.inr ⟨rfl, rfl⟩, .nil, by simp, by simp⟩
          · rename_i hne
            refine char h1 (by omega) ?_ (by rw [hun]; exact h)
            rintro - ⟨_, r, rfl, rfl⟩
            exact hne _ rfl
        · rw [if_neg h2] at h
          by_cases h3 : c = 92
          · subst h3
            rw [if_pos rfl] at h
            cases cs with
            | nil => simp at h
            | cons d ds =>
              dsimp only at h
              cases he : escapeT d ds with
              | undef => rw [he] at h; cases h
              | done b add r rest' =>
                rw [he] at h
                dsimp only at h
                rcases escapeT_spec he with rfl | hsp
                · cases f <;> simp [lexTempl] at h
                · obtain ⟨m, h4, h5, h6⟩ := hsp
                  obtain ⟨body, s, uc', last, w, rfl, hf, hc, hu, ht⟩ := ih h
                  obtain ⟨q, r', rfl, hq⟩ := hf.cons
                  have hnd : ¬ IsDigit q := by unfold IsDigit; omega
                  refine ⟨92 :: (m ++ body), (if b then none else s.map (add ++ ·)), uc', last, q :: r',
                    by rw [h4]; simp, hf, ?_, ?_, ?_⟩
                  · rcases h6 with ⟨rfl, h6⟩ | ⟨rfl, h6, h7⟩
                    · simp only [Bool.false_eq_true, if_false]
                      exact .esc ((Esc.look hnd).1 h6) hc
                    · simp only [if_true]
                      obtain ⟨s', hs'⟩ := TChars.plain h7 hc
                      rw [h4, ← List.append_assoc] at h6
                      exact .bad ((NotEsc.look hq).1 h6) hs'
                  · intro v hv
                    cases b with
                    | true => cases hv
                    | false =>
                      cases s with
                      | none => cases hv
                      | some x =>
                        cases hv
                        rw [hu x rfl]; simp
                  · rw [ht, h5]
                    cases b with
                    | true => simp [utf16]
                    | false => cases s <;> simp [utf16]
          · rw [if_neg h3] at h
            exact char h1 h3 (fun h => absurd h h2) h


theorem Small.tail {a t : List Nat} (h : Spec.Small (a ++ t)) : Spec.Small t := by
  intro a' ds c b n h1 h2 h3
  exact h (a ++ a') ds c b n (by rw [h1]; simp) h2 h3

theorem lexTempl_complete {f : Nat} {bad : Bool} {uc raw body : List Nat} {s} {last w rest}
    (h : Spec.TChars True body s) (hf : Fin last w rest) (hl : body.length < f) (hb : Spec.Small body) :
    ∃ uc', (∀ v, s = some v → uc' = uc ++ v) ∧
      lexTempl f bad uc raw (body ++ w) =
        .ok (templTok last (bad || s.isNone) uc' (raw ++ body.flatMap utf16)) rest := by
  induction f generalizing bad uc raw body s with
  | zero => omega
  | succ f ih =>
    cases h with
    | nil =>
      refine ⟨uc, by simp, ?_⟩
      rcases hf with ⟨rfl, rfl⟩ | ⟨rfl, rfl⟩ <;> simp [lexTempl]
    | @char c t s h1 h2 h3 h4 =>
      obtain ⟨uc', hu, ht⟩ := ih (bad := bad) (uc := uc ++ units c) (raw := raw ++ units c) h4 (by simpa using hl)
        (Small.tail (a := [c]) hb)
      refine ⟨uc', ?_, ?_⟩
      · intro v hv
        cases s with
        | none => cases hv
        | some x =>
          cases hv
          rw [hu x rfl, units_eq]; simp
      · have e : (bad || (s.map (utf16 c ++ ·)).isNone) = (bad || s.isNone) := by cases s <;> rfl
        rw [e]
        simp only [List.cons_append, lexTempl]
        rw [if_neg h1]
        have e2 : raw ++ (c :: t).flatMap utf16 = raw ++ units c ++ t.flatMap utf16 := by simp [units_eq]
        rw [e2, ← ht]
        by_cases h5 : c = 36
        · subst h5
          rw [if_pos rfl]
          have hun : units 36 = [36] := by simp [units]
          rw [hun]
          obtain ⟨q, r, rfl, hq⟩ := hf.cons
          have h6 : ¬ Next (· = 123) (t ++ q :: r) := by rw [Next.append (by omega)]; exact h3 rfl
          split
          · rename_i heq
            exact absurd ⟨123, _, heq, rfl⟩ h6
          · rfl
        · rw [if_neg h5, if_neg h2]
    | @esc m v t s h1 h2 =>
      obtain ⟨q, r', rfl, hq⟩ := hf.cons
      have hnd : ¬ IsDigit q := by unfold IsDigit; omega
      obtain ⟨c, r, rfl, h3⟩ := escapeT_esc ((Esc.look hnd (r := r')).2 h1)
      have e1 : 92 :: (c :: r ++ t) ++ q :: r' = 92 :: c :: (r ++ (t ++ q :: r')) := by simp
      rw [e1]
      obtain ⟨uc', hu, ht⟩ := ih (bad := bad) (uc := uc ++ v) (raw := raw ++ 92 :: (c :: r).flatMap utf16) h2
        (by simp at hl; omega) (Small.tail (a := 92 :: c :: r) (by simpa using hb))
      refine ⟨uc', ?_, ?_⟩
      · intro v hv
        cases s with
        | none => cases hv
        | some x =>
          cases hv
          rw [hu x rfl]; simp
      · simp only [lexTempl]
        rw [if_neg (by omega), if_neg (by omega), if_pos trivial, h3]
        dsimp only
        rw [Bool.or_false, ht]
        cases s <;> simp [utf16]
    | @bad t s h1 h2 =>
      obtain ⟨q, r', rfl, hq⟩ := hf.cons
      have h1' := (NotEsc.look hq (w := r')).2 h1
      obtain ⟨c, r, hcr, -⟩ := id h1
      subst hcr
      rcases escapeT_bad h1' with hun | ⟨add, m, rest', h3, h4, h5, h6⟩
      · exfalso
        obtain ⟨ds, d, b, n, h7, h8, h9, h10⟩ := escapeT_undef hun
        have hd : Plain d := by
          obtain ⟨v, hv⟩ := h9
          exact plain_hex (hexNum_of hv).1
        have hqm : q ∉ 117 :: 123 :: (ds ++ [d]) := by
          intro hm
          simp only [List.mem_cons, List.mem_append, List.mem_nil_iff, or_false] at hm
          unfold Plain at hd
          rcases hm with h | h | h | h
          · omega
          · omega
          · have := Hexes.chars h8 q h
            unfold Plain at this; omega
          · omega
        have h7' : (117 :: 123 :: (ds ++ [d])) ++ b = (c :: r) ++ q :: r' := by
          have : c :: (r ++ q :: r') = 117 :: 123 :: (ds ++ d :: b) := h7
          simp [this]
        obtain ⟨b', h11, _⟩ := append_split h7' hqm
        have := hb [] ds d b' n (by rw [h11]; simp) h8 h9
        omega
      · have hqm : q ∉ m := by
          intro hm
          have := h5 q hm
          unfold Plain at this; omega
        obtain ⟨t', h7, h8⟩ := append_split (a := m) (b := rest') (r := c :: r) (q := q) (w := r') h3.symm hqm
        have hne : rest' ≠ [] := by rw [h8]; simp
        have h6 := h6.resolve_left hne
        have h6 : escapeT c (r ++ q :: r') = _ := h6
        rw [h7] at h2
        obtain ⟨s', h9⟩ := TChars.strip h5 h2
        obtain ⟨uc', hu, ht⟩ := ih (bad := true) (uc := uc ++ add) (raw := raw ++ 92 :: m.flatMap utf16) h9 (by
            rw [h7] at hl
            have : 0 < m.length := List.length_pos_iff.2 h4
            simp at hl; omega)
          (by
            rw [h7] at hb
            exact Small.tail (a := 92 :: m) (by simpa using hb))
        refine ⟨uc', by simp, ?_⟩
        have e1 : 92 :: (c :: r) ++ q :: r' = 92 :: c :: (r ++ q :: r') := by simp
        rw [e1]
        simp only [lexTempl]
        rw [if_neg (by omega), if_neg (by omega), if_pos trivial, h6]
        dsimp only
        rw [Bool.or_true, h8, ht, h7]
        simp [utf16]

theorem escapeT_suffix {c : Nat} {cs add raw rest : List Nat} {b} (h : escapeT c cs = .done b add raw rest) :
    rest.length ≤ cs.length := by
  have key : ∀ e : Esc, (∀ b o r, e = .done b o r → ∃ m, cs = m ++ r) → templEsc c cs e = .done b add raw rest →
      rest.length ≤ cs.length := by
    intro e he hp
    cases e with
    | undef => simp [templEsc] at hp
    | done b' o r =>
      obtain ⟨m, hm⟩ := he _ _ _ rfl
      have := congrArg List.length hm
      cases o with
      | none => simp only [templEsc] at hp; cases hp; simp at this; omega
      | some v => simp only [templEsc] at hp; cases hp; simp at this; omega
  unfold escapeT at h
  split at h
  · cases h; exact Nat.le_refl _
  · split at h
    · exact key _ (fun b o r hx => hexes_suffix hx) h
    · split at h
      · exact key _ (fun b o r hx => unicode_suffix hx) h
      · repeat' split at h
        all_goals (cases h; exact Nat.le_refl _)

theorem lexTempl_fuel {f : Nat} {bad : Bool} {uc raw cs : List Nat} (hf : cs.length < f) :
    lexTempl f bad uc raw cs ≠ .fuel := by
  induction f generalizing bad uc raw cs with
  | zero => omega
  | succ f ih =>
    cases cs with
    | nil => simp [lexTempl]
    | cons c cs =>
      simp only [lexTempl]
      split
      · simp
      · split
        · split
          · simp
          · exact ih (by simpa using hf)
        · split
          · cases cs with
            | nil => simp
            | cons d ds =>
              dsimp only
              cases he : escapeT d ds with
              | undef => simp
              | done b add r rest =>
                dsimp only
                have := escapeT_suffix he
                exact ih (by simp at hf; omega)
          · exact ih (by simpa using hf)

/-! ### The two strings of the token -/

theorem Esc.length_lt {m t v : List Nat} (h : Spec.Esc True m t v) : v.length < ((92 :: m).flatMap utf16).length := by
  have ge1 : ∀ c : Nat, 1 ≤ (utf16 c).length := by intro c; unfold utf16; split <;> simp
  have le2 : ∀ c : Nat, (utf16 c).length ≤ 2 := by intro c; unfold utf16; split <;> simp
  have ge : ∀ l : List Nat, l.length ≤ (l.flatMap utf16).length := by
    intro l
    induction l with
    | nil => simp
    | cons c l ih =>
      have := ge1 c
      simp only [List.flatMap_cons, List.length_append, List.length_cons]; omega
  have h92 : (utf16 92).length = 1 := by simp [utf16]
  cases h with
  | @single e w _ h => have := ge1 e; simp [h92]; omega
  | other => simp [h92]
  | line => simp [h92]; omega
  | zero => simp [utf16]
  | hex h1 h2 => have := ge (92 :: 120 :: ‹List Nat›); simp at *; omega
  | uni h =>
    rename_i n
    have := le2 n
    cases h with
    | four h1 _ => have := ge (92 :: 117 :: ‹List Nat›); simp at *; omega
    | braces _ _ _ =>
      rename_i ds _ _ _
      have := ge (92 :: 117 :: 123 :: (ds ++ [125])); simp at *; omega

theorem TChars.raw {body : List Nat} {s : List Nat} (h : Spec.TChars True body (some s)) :
    s.length ≤ (body.flatMap utf16).length ∧ (s.length = (body.flatMap utf16).length → s = body.flatMap utf16) := by
  generalize hg : some s = g at h
  induction h generalizing s with
  | nil => cases hg; simp
  | @char c t s' h1 h2 h3 h4 ih =>
    cases s' with
    | none => cases hg
    | some x =>
      cases hg
      obtain ⟨h5, h6⟩ := ih rfl
      simp only [List.flatMap_cons, List.length_append]
      refine ⟨by omega, fun h => ?_⟩
      rw [h6 (by omega)]
  | @esc m v t s' h1 h2 ih =>
    cases s' with
    | none => cases hg
    | some x =>
      cases hg
      obtain ⟨h5, h6⟩ := ih rfl
      have := Esc.length_lt h1
      simp only [List.flatMap_cons, List.flatMap_append, List.length_append] at *
      exact ⟨by omega, fun h => by omega⟩
  | bad => cases hg

theorem templTok_eq {body : List Nat} {s : Option (List Nat)} {uc last} (h : Spec.TChars True body s)
    (hu : ∀ v, s = some v → uc = v) :
    templTok last (false || s.isNone) uc (body.flatMap utf16) = ⟨last, s, body.flatMap utf16⟩ := by
  cases s with
  | none => simp [templTok]
  | some v =>
    have := hu v rfl
    subst this
    simp only [templTok, Option.isNone_some, Bool.or_false, Bool.false_eq_true, if_false, Bool.not_false, Bool.true_and,
      TemplTok.mk.injEq, true_and]
    by_cases h1 : (body.flatMap utf16).length = uc.length
    · rw [if_pos (by simpa using h1)]
      exact (TChars.raw h).2 h1.symm
    · rw [if_neg (by simpa using h1)]

end Verif.Lex

import Verif.Lemmas.LexNum3
import Verif.Lemmas.LexTempl
import Verif.Lemmas.LexPunct

/-! Lemmas for C89: the deviation in escape sequences, surrogates, undefined behaviour. -/
namespace Verif.Lex
open Json (Out Uni isDigit isHex isLine units hexes unicode braced simple digitNext Piece escape skip units_eq isLine_iff)
open Json.Spec (IsDigit IsHex IsLine utf16)
open Spec (Next Hexes)

/-! ### Empty braces -/

/-- `\u{}` -/
def empty : List Nat := [92, 117, 123, 125]

theorem infix_tail {p a b : List Nat} (h : ¬ p <:+: a ++ b) : ¬ p <:+: b := by
  rintro ⟨x, y, hxy⟩
  exact h ⟨a ++ x, y, by rw [← hxy]; simp⟩

theorem infix_head {p a b : List Nat} (h : ¬ p <:+: a ++ b) : ¬ p <:+: a := by
  rintro ⟨x, y, hxy⟩
  exact h ⟨x, y ++ b, by rw [← hxy]; simp⟩

theorem Esc.loose {E : Prop} {m t v : List Nat} (h : Spec.Esc E m t v) : Spec.Esc True m t v := by
  cases h with
  | single h => exact .single h
  | other h1 h2 h3 h4 h5 => exact .other h1 h2 h3 h4 h5
  | line h => exact .line h
  | zero h => exact .zero h
  | hex h1 h2 => exact .hex h1 h2
  | uni h => exact .uni (UniEsc.loose h)

theorem Esc.strict {m t v : List Nat} (h : Spec.Esc True m t v) (hm : m ≠ [117, 123, 125]) : Spec.Esc False m t v := by
  cases h with
  | single h => exact .single h
  | other h1 h2 h3 h4 h5 => exact .other h1 h2 h3 h4 h5
  | line h => exact .line h
  | zero h => exact .zero h
  | hex h1 h2 => exact .hex h1 h2
  | uni h =>
    cases h with
    | four h1 h2 => exact .uni (.four h1 h2)
    | @braces ds n h1 h2 h3 =>
      refine .uni (.braces (Or.inl ?_) h2 h3)
      rintro rfl
      exact hm rfl

theorem Chars.loose {E : Prop} {q : Nat} {b s : List Nat} {e l} (h : Spec.Chars E q b s e l) : Spec.Chars True q b s e l := by
  induction h with
  | nil => exact .nil
  | char h1 h2 h3 h4 _ ih => exact .char h1 h2 h3 h4 ih
  | esc h1 _ ih => exact .esc (Esc.loose h1) ih
  | legacy h1 _ ih => exact .legacy h1 ih

theorem Chars.strict {q : Nat} {b s : List Nat} {e l} (h : Spec.Chars True q b s e l) (hb : ¬ empty <:+: b) :
    Spec.Chars False q b s e l := by
  induction h with
  | nil => exact .nil
  | @char c t s e l h1 h2 h3 h4 _ ih => exact .char h1 h2 h3 h4 (ih (infix_tail (a := [c]) hb))
  | @esc m v t s e l h1 _ ih =>
    refine .esc (Esc.strict h1 ?_) (ih (infix_tail (a := 92 :: m) hb))
    rintro rfl
    exact hb ⟨[], t, rfl⟩
  | @legacy m v t s e l h1 _ ih => exact .legacy h1 (ih (infix_tail (a := 92 :: m) hb))

theorem NotEsc.loose {t : List Nat} (h : Spec.NotEsc False t) (hb : ¬ empty <:+: 92 :: t) : Spec.NotEsc True t := by
  obtain ⟨c, r, rfl, h⟩ := h
  refine ⟨c, r, rfl, ?_⟩
  rcases h with h | h | h | ⟨h1, h2⟩
  · exact Or.inl h
  · exact Or.inr (Or.inl h)
  · exact Or.inr (Or.inr (Or.inl h))
  · refine Or.inr (Or.inr (Or.inr ⟨h1, ?_⟩))
    rintro ⟨a, b, n, h3, h4⟩
    apply h2
    refine ⟨a, b, n, h3, ?_⟩
    generalize hg : 117 :: a = g at h4
    cases h4 with
    | four h5 h6 => exact .four h5 h6
    | @braces ds n h5 h6 h7 =>
      refine .braces (Or.inl ?_) h6 h7
      rintro rfl
      apply hb
      obtain ⟨_, rfl⟩ := List.cons.inj hg
      exact ⟨[], b, by rw [← h3]; rfl⟩

theorem NotEsc.strict {t : List Nat} (h : Spec.NotEsc True t) : Spec.NotEsc False t := by
  obtain ⟨c, r, rfl, h⟩ := h
  refine ⟨c, r, rfl, ?_⟩
  rcases h with h | h | h | ⟨h1, h2⟩
  · exact Or.inl h
  · exact Or.inr (Or.inl h)
  · exact Or.inr (Or.inr (Or.inl h))
  · refine Or.inr (Or.inr (Or.inr ⟨h1, ?_⟩))
    rintro ⟨a, b, n, h3, h4⟩
    exact h2 ⟨a, b, n, h3, UniEsc.loose h4⟩

theorem TChars.loose {b : List Nat} {s} (h : Spec.TChars False b s) (hb : ¬ empty <:+: b) : Spec.TChars True b s := by
  induction h with
  | nil => exact .nil
  | @char c t s h1 h2 h3 _ ih => exact .char h1 h2 h3 (ih (infix_tail (a := [c]) hb))
  | @esc m v t s h1 _ ih => exact .esc (Esc.loose h1) (ih (infix_tail (a := 92 :: m) hb))
  | @bad t s h1 _ ih => exact .bad (NotEsc.loose h1 hb) (ih (infix_tail (a := [92]) hb))

theorem TChars.strict {b : List Nat} {s} (h : Spec.TChars True b s) (hb : ¬ empty <:+: b) : Spec.TChars False b s := by
  induction h with
  | nil => exact .nil
  | @char c t s h1 h2 h3 _ ih => exact .char h1 h2 h3 (ih (infix_tail (a := [c]) hb))
  | @esc m v t s h1 _ ih =>
    refine .esc (Esc.strict h1 ?_) (ih (infix_tail (a := 92 :: m) hb))
    rintro rfl
    exact hb ⟨[], t, rfl⟩
  | @bad t s h1 _ ih => exact .bad (NotEsc.strict h1) (ih (infix_tail (a := [92]) hb))

/-! ### Surrogates -/

theorem unpaired_iff (s : List Nat) : unpaired s = false ↔ Spec.Paired s := by
  fun_induction unpaired s with
  | case1 => simp [Spec.Paired.nil]
  | case2 c =>
    simp only [Json.isTrail, Json.isLead, Bool.or_eq_false_iff, Bool.and_eq_false_iff, decide_eq_false_iff_not]
    constructor
    · intro h; exact .one (by omega) .nil
    · intro h; cases h; omega
  | case3 c d cs h =>
    simp only [Json.isTrail, Bool.and_eq_true, decide_eq_true_eq] at h
    constructor
    · intro h; cases h
    · intro h'; cases h' <;> omega
  | case4 c d cs h1 h2 h3 =>
    simp [Json.isTrail, Json.isLead] at h1 h2 h3
    constructor
    · intro h; cases h
    · intro h'; cases h' <;> omega
  | case5 c d cs h1 h2 h3 ih =>
    simp [Json.isTrail, Json.isLead] at h1 h2 h3
    rw [ih]
    constructor
    · intro h; exact .pair (by omega) (by omega) (by omega) (by omega) h
    · intro h'
      cases h' with
      | one h _ => omega
      | pair _ _ _ _ h => exact h
  | case6 c d cs h1 h2 ih =>
    simp [Json.isTrail, Json.isLead] at h1 h2
    rw [ih]
    constructor
    · intro h; exact .one (by omega) h
    · intro h'
      cases h' with
      | one _ h => exact h
      | pair _ _ _ _ h => omega

/-! ### Undefined behaviour -/

/-- A text in which a value gets too large. -/
theorem not_small {a ds b : List Nat} {c n : Nat} (h1 : Hexes 0 ds n) (h2 : Spec.IsHexDigit c) (h3 : 0x10ffff < n) :
    ¬ Spec.Small (a ++ 92 :: 117 :: 123 :: (ds ++ c :: b)) := by
  intro h
  have := h a ds c b n rfl h1 h2
  omega

theorem escape_undef {c : Nat} {cs : List Nat} (h : escape c cs = .undef) :
    ∃ ds d b n, c :: cs = 117 :: 123 :: (ds ++ d :: b) ∧ Hexes 0 ds n ∧ Spec.IsHexDigit d ∧ 0x10ffff < n := by
  unfold escape at h
  split at h
  · cases h
  · split at h
    · cases hx : hexes 2 0 cs with
      | undef => exact absurd hx hexes_ne_undef
      | done b o r => rw [hx] at h; cases o <;> simp [Json.Esc.piece] at h
    · split at h
      · rename_i h2
        cases hx : unicode cs with
        | undef =>
          obtain ⟨ds, d, b, n, rfl, h3⟩ := unicode_undef hx
          exact ⟨ds, d, b, n, by rw [h2], h3⟩
        | done b o r => rw [hx] at h; cases o <;> simp [Json.Esc.piece] at h
      · repeat' split at h
        all_goals first | cases h | (simp at h)

theorem escape_tail {c : Nat} {cs add rest : List Nat} {b} (h : escape c cs = .done b add rest) :
    ∃ m, cs = m ++ rest := by
  have key : ∀ e : Json.Esc, (∀ b o r, e = .done b o r → ∃ m, cs = m ++ r) → e.piece = .done b add rest →
      ∃ m, cs = m ++ rest := by
    intro e he hp
    cases e with
    | undef => simp [Json.Esc.piece] at hp
    | done b' o r =>
      obtain ⟨m, hm⟩ := he _ _ _ rfl
      cases o <;> simp only [Json.Esc.piece] at hp <;> cases hp <;> exact ⟨m, hm⟩
  unfold escape at h
  split at h
  · cases h; exact ⟨[], rfl⟩
  · split at h
    · exact key _ (fun b o r hx => hexes_suffix hx) h
    · split at h
      · exact key _ (fun b o r hx => unicode_suffix hx) h
      · split at h
        · split at h
          · cases h; exact ⟨[], rfl⟩
          · split at h
            · cases h; exact ⟨[], rfl⟩
            · cases h
              obtain ⟨m, hm, _⟩ := Json.octal_sound c cs
              exact ⟨m, hm⟩
        · split at h
          · cases h; exact ⟨[], rfl⟩
          · cases h; exact ⟨[], rfl⟩

theorem escapeT_tail {c : Nat} {cs add raw rest : List Nat} {b} (h : escapeT c cs = .done b add raw rest) :
    ∃ m, cs = m ++ rest := by
  have key : ∀ e : Json.Esc, (∀ b o r, e = .done b o r → ∃ m, cs = m ++ r) → templEsc c cs e = .done b add raw rest →
      ∃ m, cs = m ++ rest := by
    intro e he hp
    cases e with
    | undef => simp [templEsc] at hp
    | done b' o r =>
      obtain ⟨m, hm⟩ := he _ _ _ rfl
      cases o <;> simp only [templEsc] at hp <;> cases hp <;> exact ⟨m, hm⟩
  unfold escapeT at h
  split at h
  · cases h; exact ⟨[], rfl⟩
  · split at h
    · exact key _ (fun b o r hx => hexes_suffix hx) h
    · split at h
      · exact key _ (fun b o r hx => unicode_suffix hx) h
      · repeat' split at h
        all_goals (cases h; exact ⟨[], rfl⟩)

theorem lexString_undef {q f : Nat} {bad : Bool} {t : StrTok} {cs : List Nat} (h : lexString q f bad t cs = .undef) :
    ¬ Spec.Small cs := by
  induction f generalizing bad t cs with
  | zero => simp [lexString] at h
  | succ f ih =>
    cases cs with
    | nil => simp [lexString] at h
    | cons c cs =>
      simp only [lexString] at h
      split at h
      · split at h <;> cases h
      · split at h
        · cases h
        · split at h
          · rename_i hc
            subst hc
            cases cs with
            | nil => cases h
            | cons d ds =>
              dsimp only at h
              cases he : escape d ds with
              | undef =>
                obtain ⟨ds', d', b, n, h1, h2, h3, h4⟩ := escape_undef he
                rw [h1]
                exact not_small (a := []) h2 h3 h4
              | done b add rest =>
                rw [he] at h
                obtain ⟨a, ha⟩ := escape_tail he
                intro hs
                apply ih h
                rw [ha] at hs
                exact Small.tail (a := 92 :: d :: a) hs
          · exact fun hs => ih h (Small.tail (a := [c]) hs)

theorem lexTempl_undef {f : Nat} {bad : Bool} {uc raw cs : List Nat} (h : lexTempl f bad uc raw cs = .undef) :
    ¬ Spec.Small cs := by
  induction f generalizing bad uc raw cs with
  | zero => simp [lexTempl] at h
  | succ f ih =>
    cases cs with
    | nil => simp [lexTempl] at h
    | cons c cs =>
      simp only [lexTempl] at h
      split at h
      · cases h
      · split at h
        · split at h
          · cases h
          · exact fun hs => ih h (Small.tail (a := [c]) hs)
        · split at h
          · rename_i hc
            subst hc
            cases cs with
            | nil => cases h
            | cons d ds =>
              dsimp only at h
              cases he : escapeT d ds with
              | undef =>
                obtain ⟨ds', d', b, n, h1, h2, h3, h4⟩ := escapeT_undef he
                rw [h1]
                exact not_small (a := []) h2 h3 h4
              | done b add r rest =>
                rw [he] at h
                obtain ⟨a, ha⟩ := escapeT_tail he
                intro hs
                apply ih h
                rw [ha] at hs
                exact Small.tail (a := 92 :: d :: a) hs
          · exact fun hs => ih h (Small.tail (a := [c]) hs)

theorem identLoop_undef {U : Uni} {f : Nat} {bad : Bool} {acc cs : List Nat} (h : Json.identLoop U f bad acc cs = .undef) :
    ¬ Spec.Small cs := by
  induction f generalizing bad acc cs with
  | zero => simp [Json.identLoop] at h
  | succ f ih =>
    cases cs with
    | nil => simp only [Json.identLoop] at h; split at h <;> cases h
    | cons c cs =>
      simp only [Json.identLoop] at h
      split at h
      · rename_i hc
        subst hc
        split at h
        · rename_i ds
          cases hu : unicode ds with
          | undef =>
            obtain ⟨ds', d', b, n, h1, h2, h3, h4⟩ := unicode_undef hu
            rw [h1]
            exact not_small (a := []) h2 h3 h4
          | done b o rest =>
            rw [hu] at h
            cases o with
            | none => cases h
            | some v =>
              dsimp only at h
              split at h
              · obtain ⟨a, ha⟩ := unicode_suffix hu
                intro hs
                apply ih h
                rw [ha] at hs
                exact Small.tail (a := 92 :: 117 :: a) hs
              · cases h
        · split at h <;> cases h
      · split at h
        · exact fun hs => ih h (Small.tail (a := [c]) hs)
        · split at h <;> cases h

theorem identName_undef {U : Uni} {cs : List Nat} (h : Json.lexIdent U cs = .undef) : ¬ Spec.Small cs := by
  cases cs with
  | nil => cases h
  | cons c cs =>
    simp only [Json.lexIdent] at h
    split at h
    · rename_i hc
      subst hc
      split at h
      · rename_i ds
        cases hu : unicode ds with
        | undef =>
          obtain ⟨ds', d', b, n, h1, h2, h3, h4⟩ := unicode_undef hu
          rw [h1]
          exact not_small (a := []) h2 h3 h4
        | done b o rest =>
          rw [hu] at h
          cases o with
          | none => cases h
          | some v =>
            dsimp only at h
            split at h
            · obtain ⟨a, ha⟩ := unicode_suffix hu
              intro hs
              apply identLoop_undef h
              rw [ha] at hs
              exact Small.tail (a := 92 :: 117 :: a) hs
            · cases h
      · cases h
    · split at h
      · exact fun hs => identLoop_undef h (Small.tail (a := [c]) hs)
      · cases h

end Verif.Lex

import Verif.Lemmas.LexString
import Verif.Lemmas.Json

/-! Lemmas for C89: the input. -/
namespace Verif.Lex
open Json (isLead isTrail join decode)

/-- The positions to which reading leads. -/
inductive Reached (chars : List Nat) (crlf : Bool) : Input → Prop
  | start : Reached chars crlf ⟨chars, crlf, 0⟩
  | get {i} : Reached chars crlf i → Reached chars crlf i.get.2

/-- The position is not within a character. -/
def Clean (i : Input) : Prop :=
  ∀ p a b, i.pos = p + 1 → i.chars[p]? = some a → i.chars[p + 1]? = some b →
    ¬ (isLead a = true ∧ isTrail b = true) ∧ ¬ (i.crlf = true ∧ a = 13 ∧ b = 10)

theorem drop_one {l : List Nat} {p c : Nat} {t : List Nat} (h : l.drop p = c :: t) : l[p]? = some c ∧ l.drop (p + 1) = t := by
  constructor
  · have : (l.drop p)[0]? = some c := by rw [h]; rfl
    simpa [List.getElem?_drop] using this
  · rw [← List.drop_drop, h]; rfl

theorem drop_none {l : List Nat} {p : Nat} (h : l.drop p = []) : l[p]? = none := by
  have : (l.drop p)[0]? = none := by rw [h]; rfl
  simpa [List.getElem?_drop] using this

/-- The kinds of reading: nothing, a unit, two units. -/
inductive Step (i : Input) : Option Nat → Input → Prop
  | fin : i.chars.drop i.pos = [] → Step i none i
  | one {c t} : i.chars.drop i.pos = c :: t →
      (∀ d r, t = d :: r → ¬ (isLead c = true ∧ isTrail d = true) ∧ ¬ (i.crlf = true ∧ c = 13 ∧ d = 10)) →
      Step i (some (if i.crlf && c == 13 then 10 else c)) { i with pos := i.pos + 1 }
  | pair {c d t} : i.chars.drop i.pos = c :: d :: t → isLead c = true → isTrail d = true →
      Step i (some (join c d)) { i with pos := i.pos + 2 }
  | crlf {t} : i.chars.drop i.pos = 13 :: 10 :: t → i.crlf = true → Step i (some 10) { i with pos := i.pos + 2 }

theorem get_step (i : Input) : Step i i.get.1 i.get.2 := by
  unfold Input.get
  cases h : i.chars.drop i.pos with
  | nil => exact .fin h
  | cons c t =>
    cases t with
    | nil =>
      have := Step.one (i := i) h (by intro d r h; cases h)
      dsimp only
      split
      · rename_i hc; rwa [if_pos hc] at this
      · rename_i hc; rwa [if_neg hc] at this
    | cons d t =>
      dsimp only
      by_cases h1 : (isLead c && isTrail d) = true
      · rw [if_pos h1]
        simp only [Bool.and_eq_true] at h1
        exact .pair h h1.1 h1.2
      · rw [if_neg h1]
        simp only [Bool.and_eq_true] at h1
        by_cases h2 : (i.crlf && c == 13) = true
        · rw [if_pos h2]
          have h2' := h2
          simp only [Bool.and_eq_true, beq_iff_eq] at h2'
          obtain ⟨h3, rfl⟩ := h2'
          by_cases h4 : d = 10
          · subst h4
            exact .crlf h h3
          · rw [if_neg h4]
            have := Step.one (i := i) h (by
              rintro d' r he
              obtain ⟨rfl, _⟩ := List.cons.inj he
              exact ⟨h1, fun h => h4 h.2.2⟩)
            rwa [if_pos h2] at this
        · rw [if_neg h2]
          have := Step.one (i := i) h (by
              rintro d' r he
              obtain ⟨rfl, _⟩ := List.cons.inj he
              refine ⟨h1, fun h => h2 ?_⟩
              simp [h.1, h.2.1])
          rwa [if_neg h2] at this

theorem trail_not {d : Nat} (h : isTrail d = true) : isLead d = false ∧ d ≠ 13 ∧ d ≠ 10 := by
  simp [isTrail, isLead] at *; omega

theorem Step.clean {i j : Input} {o} (h : Step i o j) (hi : Clean i) : Clean j := by
  cases h with
  | fin _ => exact hi
  | @one c t h1 h2 =>
    intro p a b hp ha hb
    dsimp only at *
    obtain rfl : i.pos = p := by omega
    obtain ⟨h3, h4⟩ := drop_one h1
    rw [h3] at ha
    cases ha
    cases t with
    | nil => rw [drop_none h4] at hb; cases hb
    | cons d t =>
      rw [(drop_one h4).1] at hb
      cases hb
      exact h2 _ _ rfl
  | @pair c d t h1 h2 h3 =>
    intro p a b hp ha hb
    dsimp only at *
    obtain rfl : i.pos + 1 = p := by omega
    rw [(drop_one (drop_one h1).2).1] at ha
    cases ha
    have := trail_not h3
    exact ⟨fun h => (by rw [this.1] at h; cases h.1), fun h => this.2.1 h.2.1⟩
  | @crlf t h1 h2 =>
    intro p a b hp ha hb
    dsimp only at *
    obtain rfl : i.pos + 1 = p := by omega
    rw [(drop_one (drop_one h1).2).1] at ha
    cases ha
    exact ⟨fun h => (by simp [isLead] at h), fun h => (by omega)⟩

theorem Reached.clean {chars : List Nat} {crlf : Bool} {i : Input} (h : Reached chars crlf i) : Clean i := by
  induction h with
  | start => intro p a b hp; cases hp
  | get _ ih => exact (get_step _).clean ih

theorem getD_of {l : List Nat} {p c : Nat} (h : l[p]? = some c) : l.getD p 0 = c := by
  rw [List.getD_eq_getElem?_getD, h]; rfl

theorem Step.unget {i j : Input} {o} (h : Step i o j) (hi : Clean i) : j.unget o = some i := by
  obtain ⟨chars, crlf, pos⟩ := i
  cases h with
  | fin _ => rfl
  | @one c t h1 h2 =>
    dsimp only at *
    obtain ⟨h3, h4⟩ := drop_one h1
    unfold Input.unget
    dsimp only
    by_cases hp : 2 ≤ pos + 1
    · rw [if_pos hp]
      obtain ⟨p, rfl⟩ : ∃ p, pos = p + 1 := ⟨pos - 1, by omega⟩
      have hlt : p + 1 < chars.length := by
        rcases Nat.lt_or_ge (p + 1) chars.length with h | h
        · exact h
        · rw [List.getElem?_eq_none h] at h3; cases h3
      obtain ⟨b, hb⟩ : ∃ b, chars[p]? = some b := ⟨chars[p], List.getElem?_eq_getElem (by omega)⟩
      have hcl := hi p b c rfl hb h3
      simp only [Nat.add_sub_cancel]
      rw [show p + 1 + 1 - 2 = p from by omega, getD_of h3, getD_of hb]
      rw [if_neg (by rw [Bool.and_eq_true]; exact fun h => hcl.1 ⟨h.2, h.1⟩)]
      rw [if_neg (by simp only [Bool.and_eq_true, beq_iff_eq]; exact fun h => hcl.2 ⟨h.1.1, h.2, h.1.2⟩)]
    · rw [if_neg hp, if_neg (by omega)]
      simp
  | @pair c d t h1 h2 h3 =>
    dsimp only at *
    obtain ⟨h4, h5⟩ := drop_one h1
    unfold Input.unget
    dsimp only
    rw [if_pos (by omega), show pos + 2 - 1 = pos + 1 from by omega, Nat.add_sub_cancel, getD_of h4, getD_of (drop_one h5).1,
      if_pos (by rw [h2, h3]; rfl)]
  | @crlf t h1 h2 =>
    dsimp only at *
    subst h2
    obtain ⟨h4, h5⟩ := drop_one h1
    unfold Input.unget
    dsimp only
    rw [if_pos (by omega), show pos + 2 - 1 = pos + 1 from by omega, Nat.add_sub_cancel, getD_of h4, getD_of (drop_one h5).1]
    rw [if_neg (by decide), if_pos (by decide)]

theorem Step.decode {i j : Input} {o} (h : Step i o j) (hc : i.crlf = true) :
    Json.decode (i.chars.drop i.pos) = o.toList ++ Json.decode (j.chars.drop j.pos) := by
  cases h with
  | fin h1 => rw [h1]; rfl
  | @one c t h1 h2 =>
    rw [h1]
    dsimp only
    rw [(drop_one h1).2, hc]
    cases t with
    | nil => by_cases h : c = 13 <;> simp [Json.decode, h]
    | cons d t =>
      have h3 := h2 d t rfl
      rw [Json.decode]
      rw [if_neg (by rw [Bool.and_eq_true]; exact h3.1)]
      by_cases h : c = 13
      · have : d ≠ 10 := fun hd => h3.2 ⟨hc, h, hd⟩
        simp [h, this]
      · simp [h]
  | @pair c d t h1 h2 h3 =>
    rw [h1]
    dsimp only
    rw [show i.pos + 2 = i.pos + 1 + 1 from rfl, (drop_one (drop_one h1).2).2, Json.decode, if_pos (by rw [h2, h3]; rfl)]
    rfl
  | @crlf t h1 h2 =>
    rw [h1]
    dsimp only
    rw [show i.pos + 2 = i.pos + 1 + 1 from rfl, (drop_one (drop_one h1).2).2, Json.decode, if_neg (by decide)]
    rfl

theorem Reached.keeps {chars : List Nat} {crlf : Bool} {i : Input} (h : Reached chars crlf i) : i.chars = chars ∧ i.crlf = crlf := by
  induction h with
  | start => exact ⟨rfl, rfl⟩
  | @get i _ ih =>
    have := get_step i
    generalize i.get.1 = o at this
    generalize i.get.2 = j at this
    cases this <;> exact ih

end Verif.Lex

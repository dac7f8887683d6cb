import Verif.Lemmas.LexNum
import Verif.Lemmas.JsonNum

/-! Lemmas for C89: the parts of a number. -/
namespace Verif.Lex
open Json (Out Uni isDigit isOctal isHex isBinary digits legacy intPart integer fractionPart exponentPart signPart
  IntPart numeral Numeral ends isHex_iff hexNum_of isDigit_iff)
open Json.Spec (IsDigit IsHex)
open Spec (Next Sep)

theorem digit_fun : (fun c => isDigit c = true) = IsDigit := by funext c; rw [isDigit_iff]
theorem octal_fun : (fun c => isOctal c = true) = Spec.IsOctal := by funext c; rw [isOctal_iff]
theorem bin_fun : (fun c => isBinary c = true) = Spec.IsBin := by
  funext c; simp [isBinary, Spec.IsBin]
theorem hex_fun : (fun c => isHex c = true) = Spec.IsHexDigit := by
  funext c
  refine propext ⟨fun h => ⟨_, (isHex_iff c).1 h⟩, ?_⟩
  rintro ⟨v, h⟩; exact (hexNum_of h).1

theorem Sep.plain {p : Nat → Prop} {t ds : List Nat} (h : Sep p t ds) (h95 : 95 ∉ t) : ds = t ∧ ∀ c ∈ t, p c := by
  induction h with
  | one h => exact ⟨rfl, by simpa using h⟩
  | @cons c t ds h _ ih =>
    obtain ⟨rfl, h2⟩ := ih (fun hh => h95 (by simp [hh]))
    refine ⟨rfl, ?_⟩
    intro x hx
    rcases List.mem_cons.1 hx with rfl | hx
    · exact h
    · exact h2 x hx
  | sep => exact absurd (by simp) h95

theorem Sep.of_plain {p : Nat → Prop} {t : List Nat} (h : t ≠ []) (h2 : ∀ c ∈ t, p c) : Sep p t t := by
  induction t with
  | nil => exact absurd rfl h
  | cons c t ih =>
    cases t with
    | nil => exact .one (h2 c (by simp))
    | cons d t => exact .cons (h2 c (by simp)) (ih (by simp) (fun x hx => h2 x (by simp [List.mem_cons.1 hx])))

theorem digits_of {p : Nat → Bool} (hp : p 95 = false) {ns need : Bool} {t ds rest : List Nat}
    (h : Sep (p · = true) t ds) (hs : Stop (p · = true) rest) (hn : ns = true → 95 ∉ t) :
    digits p ns need false false (t ++ rest) = some (ds, rest) := by
  cases ns with
  | false => exact (digits_iff hp).2 (Or.inl ⟨t, rfl, h, hs⟩)
  | true =>
    obtain ⟨rfl, h2⟩ := Sep.plain h (hn rfl)
    exact digits_plain.2 ⟨rfl, h2, hs.1, fun _ => Or.inr (Sep.ne_nil h).1⟩

theorem digits_ok {p : Nat → Bool} (hp : p 95 = false) {ns need : Bool} {cs ds rest : List Nat}
    (h : digits p ns need false false cs = some (ds, rest)) :
    (∃ t, cs = t ++ rest ∧ Sep (p · = true) t ds ∧ (ns = true → ds = t) ∧ ¬ Next (p · = true) rest) ∨
    need = false ∧ ds = [] ∧ rest = cs ∧ ¬ Next (p · = true) cs := by
  cases ns with
  | false =>
    rcases (digits_iff hp).1 h with ⟨t, h1, h2, h3⟩ | h
    · exact Or.inl ⟨t, h1, h2, by simp, h3.1⟩
    · exact Or.inr h
  | true =>
    obtain ⟨h1, h2, h3, h4⟩ := digits_plain.1 h
    by_cases hd : ds = []
    · subst hd
      refine Or.inr ⟨?_, rfl, by simpa using h1.symm, by rw [h1]; simpa using h3⟩
      cases need with
      | false => rfl
      | true => simp at h4
    · exact Or.inl ⟨ds, h1, Sep.of_plain hd h2, fun _ => rfl, h3⟩

theorem fraction_of {ns : Bool} {f df r : List Nat} (h : Spec.Frac f df) (h1 : Stop IsDigit r) (h2 : f = [] → ¬ Next (· = 46) r)
    (hn : ns = true → 95 ∉ f) : fractionPart ns (f ++ r) = some (!f.isEmpty, df, r) := by
  cases h with
  | none =>
    unfold fractionPart
    split
    · rename_i heq; exact absurd ⟨46, _, heq, rfl⟩ (h2 rfl)
    · simp
  | point =>
    simp only [List.cons_append, List.nil_append, fractionPart]
    have : digits isDigit ns false false false r = some ([], r) := by
      cases ns with
      | false => exact (digits_iff (by decide)).2 (Or.inr ⟨rfl, rfl, rfl, by rw [digit_fun]; exact h1.1⟩)
      | true => exact digits_plain.2 ⟨rfl, by simp, by rw [digit_fun]; exact h1.1, by simp⟩
    rw [this]; simp
  | @digits t ds h =>
    simp only [List.cons_append, fractionPart]
    rw [digits_of (by decide) (by rw [digit_fun]; exact h) (by rw [digit_fun]; exact h1)
      (fun hh => fun h95 => hn hh (by simp [h95]))]
    simp

theorem fraction_ok {ns : Bool} {cs t1 r : List Nat} {fl} (h : fractionPart ns cs = some (fl, t1, r)) :
    ∃ f, cs = f ++ r ∧ Spec.Frac f t1 ∧ fl = !f.isEmpty ∧ (ns = true → t1 = f) ∧ (f = [] → ¬ Next (· = 46) r) := by
  unfold fractionPart at h
  split at h
  · rename_i cs
    split at h
    · rename_i ds rest hd
      cases h
      rcases digits_ok (by decide) hd with ⟨t, rfl, h2, h3, h4⟩ | ⟨_, rfl, rfl, _⟩
      · rw [digit_fun] at h2
        exact ⟨46 :: t, rfl, .digits h2, rfl, fun hh => by rw [h3 hh], by simp⟩
      · exact ⟨[46], rfl, .point, rfl, fun _ => rfl, by simp⟩
    · cases h
  · rename_i hne
    cases h
    refine ⟨[], rfl, .none, rfl, fun _ => rfl, ?_⟩
    rintro - ⟨_, r, rfl, rfl⟩
    exact hne _ rfl

theorem sign_of {s t : List Nat} (hs : Spec.ExpSign s) {c : Nat} {r : List Nat} (ht : t = c :: r) (hc : IsDigit c) :
    signPart (s ++ t) = (s, t) := by
  subst ht
  unfold IsDigit at hc
  rcases hs with rfl | rfl | rfl
  · simp only [List.nil_append, signPart]
    rw [if_neg (by simp; omega)]
  · rfl
  · rfl

theorem exponent_of {ns : Bool} {e de r : List Nat} (h : Spec.Exp e de) (h1 : Stop IsDigit r)
    (h2 : e = [] → ¬ Next (fun c => c = 101 ∨ c = 69) r) (hn : ns = true → 95 ∉ e) :
    exponentPart ns (e ++ r) = some (!e.isEmpty, de, r) := by
  cases h with
  | none =>
    cases r with
    | nil => rfl
    | cons c r =>
      simp only [List.nil_append, exponentPart]
      have := h2 rfl
      rw [Next.cons] at this
      rw [if_neg (by simpa using this)]
      rfl
  | @digits x s t ds hx hs ht =>
    obtain ⟨c, t', rfl, hc⟩ := Sep.head ht
    have e1 : x :: (s ++ c :: t') ++ r = x :: (s ++ (c :: t' ++ r)) := by simp
    rw [e1, exponentPart]
    rw [if_pos (by simpa using hx), sign_of hs (t := c :: t' ++ r) rfl hc]
    dsimp only
    rw [digits_of (by decide) (by rw [digit_fun]; exact ht) (by rw [digit_fun]; exact h1)
      (fun hh => fun h95 => hn hh (by
        simp only [List.mem_cons, List.mem_append] at h95 ⊢
        exact Or.inr (Or.inr h95)))]
    simp

theorem exponent_ok {ns : Bool} {cs t1 r : List Nat} {fl} (h : exponentPart ns cs = some (fl, t1, r)) :
    ∃ e, cs = e ++ r ∧ Spec.Exp e t1 ∧ fl = !e.isEmpty ∧ (ns = true → t1 = e) := by
  cases cs with
  | nil => simp only [exponentPart] at h; cases h; exact ⟨[], rfl, .none, rfl, fun _ => rfl⟩
  | cons c cs =>
    simp only [exponentPart] at h
    split at h
    · rename_i hc
      split at h
      · rename_i ds rest hd
        cases h
        obtain ⟨h1, h2⟩ := Json.sign_sound cs
        rcases digits_ok (by decide) hd with ⟨t, h3, h4, h5, _⟩ | ⟨h3, _⟩
        · rw [digit_fun] at h4
          refine ⟨c :: ((signPart cs).1 ++ t), ?_, .digits (by simpa using hc) h2 h4, rfl, fun hh => by rw [h5 hh]⟩
          simp only [List.cons_append, List.append_assoc]
          rw [← h3, h1]
        · cases h3
      · cases h
    · cases h; exact ⟨[], rfl, .none, rfl, fun _ => rfl⟩

/-! ### The integer part -/

theorem intPart_ok {b : Nat} {p : Nat → Bool} (hp : p 95 = false) {ns leg : Bool} {cs i}
    (h : intPart b p ns leg cs = some i) :
    i.base = b ∧ i.noSep = ns ∧ i.legacy = leg ∧ ∃ t, cs = t ++ i.rest ∧ Sep (p · = true) t i.buf ∧
      (ns = true → i.buf = t) ∧ ¬ Next (p · = true) i.rest := by
  unfold intPart at h
  split at h
  · rename_i ds rest hd
    cases h
    rcases digits_ok hp hd with h | ⟨h, _⟩
    · exact ⟨rfl, rfl, rfl, h⟩
    · cases h
  · cases h

/-- What the integer part may be. -/
inductive IntOk : List Nat → IntPart → Prop
  | point {cs} : IntOk (46 :: cs) ⟨10, false, false, [], 46 :: cs⟩
  | bin {x t ds r} : x = 98 ∨ x = 66 → Sep Spec.IsBin t ds → IntOk (48 :: x :: (t ++ r)) ⟨2, false, false, ds, r⟩
  | oct {x t ds r} : x = 111 ∨ x = 79 → Sep Spec.IsOctal t ds → IntOk (48 :: x :: (t ++ r)) ⟨8, false, false, ds, r⟩
  | hex {x t ds r} : x = 120 ∨ x = 88 → Sep Spec.IsHexDigit t ds → IntOk (48 :: x :: (t ++ r)) ⟨16, false, false, ds, r⟩
  | dec {t ds r} : Spec.DecInt t ds → IntOk (t ++ r) ⟨10, false, false, ds, r⟩
  | legacy {t r} : Spec.Octals t → IntOk (48 :: (t ++ r)) ⟨8, true, true, t, r⟩
  | turn {o c d r} : Spec.Octals o → Turn c → (∀ x ∈ d, IsDigit x) →
      IntOk (48 :: (o ++ c :: d ++ r)) ⟨10, true, true, o ++ c :: d, r⟩
  | eight {c d r} : c = 56 ∨ c = 57 → (∀ x ∈ d, IsDigit x) → IntOk (48 :: c :: d ++ r) ⟨10, true, true, 48 :: c :: d, r⟩

theorem integer_ok {cs i} (h : integer cs = some i) : IntOk cs i := by
  have pre : ∀ {b p cs' i}, p 95 = false → intPart b p false false cs' = some i →
      ∃ t, cs' = t ++ i.rest ∧ Sep (p · = true) t i.buf ∧ i = ⟨b, false, false, i.buf, i.rest⟩ ∧
        ¬ Next (p · = true) i.rest := by
    intro b p cs' i hp hi
    obtain ⟨h1, h2, h3, t, h4, h5, _, h6⟩ := intPart_ok hp hi
    refine ⟨t, h4, h5, ?_, h6⟩
    cases i; simp at *; exact ⟨h1, h2, h3⟩
  unfold integer at h
  split at h
  · cases h; exact .point
  · rename_i c cs
    split at h
    · rename_i hc
      obtain ⟨t, rfl, h2, h3, _⟩ := pre (by decide) h
      rw [bin_fun] at h2
      rw [h3]; exact .bin (by simpa using hc) h2
    · split at h
      · rename_i hc
        obtain ⟨t, rfl, h2, h3, _⟩ := pre (by decide) h
        rw [octal_fun] at h2
        rw [h3]; exact .oct (by simpa using hc) h2
      · split at h
        · rename_i hc
          obtain ⟨t, rfl, h2, h3, _⟩ := pre (by decide) h
          rw [hex_fun] at h2
          rw [h3]; exact .hex (by simpa using hc) h2
        · split at h
          · rename_i hc
            split at h
            · rename_i b ds rest hl
              cases h
              obtain ⟨h1, h2⟩ := legacy_iff.1 hl
              rw [h1]
              rcases h2 with ⟨rfl, h3, h4⟩ | ⟨rfl, o, d, e, rfl, h3, h4, h5, h6⟩
              · refine .legacy ⟨?_, h3⟩
                rintro rfl
                exact h4 ⟨c, cs, h1.symm, Or.inl ((isOctal_iff c).1 hc)⟩
              · refine .turn ⟨?_, h3⟩ h4 h5
                rintro rfl
                obtain ⟨rfl, _⟩ := List.cons.inj h1
                rw [isOctal_iff] at hc
                unfold Turn at h4; unfold Spec.IsOctal at hc; omega
            · cases h
          · rename_i hoct
            split at h
            · cases h
            · rename_i h95
              split at h
              · rename_i hc
                obtain ⟨h1, h2, h3, t, h4, h5, h6, h7⟩ := intPart_ok (by decide) h
                have h6 := h6 rfl
                subst h6
                rw [digit_fun] at h5 h7
                obtain ⟨b, ns, leg, buf, rest⟩ := i
                dsimp only at *
                subst h1 h2 h3
                have hc' : c = 56 ∨ c = 57 := by simpa using hc
                have hall : ∀ x ∈ buf, IsDigit x := by
                  obtain ⟨_, h8⟩ : buf = buf ∧ ∀ x ∈ buf, IsDigit x := by
                    refine ⟨rfl, ?_⟩
                    have := (digits_plain (p := isDigit) (need := true) (sep := false) (any := false)
                      (cs := 48 :: c :: cs) (ds := buf) (rest := rest)).1 (by
                        unfold intPart at h
                        split at h
                        · rename_i hd; cases h; exact hd
                        · cases h)
                    intro x hx
                    exact (isDigit_iff x).1 (this.2.1 x hx)
                  exact h8
                cases buf with
                | nil => exact absurd rfl (Sep.ne_nil h5).1
                | cons x buf =>
                  rw [List.cons_append] at h4
                  obtain ⟨rfl, h4'⟩ := List.cons.inj h4
                  cases buf with
                  | nil =>
                    exfalso
                    apply h7
                    refine ⟨c, cs, ?_, ?_⟩
                    · simpa using h4'.symm
                    · unfold IsDigit; omega
                  | cons y buf =>
                    obtain ⟨rfl, h4''⟩ := List.cons.inj h4'
                    rw [h4]
                    exact .eight hc' (fun x hx => hall x (by simp [hx]))
              · rename_i h8
                obtain ⟨t, h1, h2, h3, _⟩ := pre (by decide) h
                rw [digit_fun] at h2
                rw [h3, h1]
                have hnd : ¬ IsDigit c := by
                  simp [isOctal] at hoct
                  simp at h8
                  unfold IsDigit; omega
                refine .dec (Or.inl ?_)
                generalize hb : i.buf = buf at h2
                cases h2 with
                | one hx =>
                  obtain ⟨rfl, _⟩ := List.cons.inj h1
                  exact ⟨rfl, rfl⟩
                | cons hx hs =>
                  obtain ⟨d, r, rfl, hd⟩ := Sep.head hs
                  rw [List.cons_append] at h1
                  obtain ⟨_, h1⟩ := List.cons.inj h1
                  obtain ⟨rfl, _⟩ := List.cons.inj h1
                  exact absurd hd hnd
                | sep hx hs =>
                  rw [List.cons_append] at h1
                  obtain ⟨_, h1⟩ := List.cons.inj h1
                  obtain ⟨rfl, _⟩ := List.cons.inj h1
                  exact absurd rfl h95
  · rename_i h46 h48
    obtain ⟨t, h1, h2, h3, _⟩ := pre (by decide) h
    rw [digit_fun] at h2
    rw [h3, h1]
    refine .dec ?_
    by_cases ht : ∃ r, t = 48 :: r
    · obtain ⟨r, rfl⟩ := ht
      have hr : r = [] := by
        cases r with
        | nil => rfl
        | cons d r => exact absurd h1 (h48 _ _)
      subst hr
      left
      refine ⟨rfl, ?_⟩
      exact (Sep.plain h2 (by simp)).1
    · right
      exact ⟨h2, fun r hr => ht ⟨r, hr⟩⟩

theorem intPart_of {b : Nat} {p : Nat → Bool} (hp : p 95 = false) {ns leg : Bool} {t ds r : List Nat}
    (h : Sep (p · = true) t ds) (hs : Stop (p · = true) r) (hn : ns = true → 95 ∉ t) :
    intPart b p ns leg (t ++ r) = some ⟨b, ns, leg, ds, r⟩ := by
  unfold intPart
  rw [digits_of hp h hs hn]

/-- Not a letter of a prefix, not a digit, not a separator. -/
def AfterZero (c : Nat) : Prop :=
  ¬ IsDigit c ∧ c ≠ 95 ∧ c ≠ 98 ∧ c ≠ 66 ∧ c ≠ 111 ∧ c ≠ 79 ∧ c ≠ 120 ∧ c ≠ 88

theorem integer_dec {t ds r : List Nat} (h : Spec.DecInt t ds) (hr : ∀ c x, r = c :: x → AfterZero c) (hs : Stop IsDigit r) :
    integer (t ++ r) = some ⟨10, false, false, ds, r⟩ := by
  have hone : intPart 10 isDigit false false ([48] ++ r) = some ⟨10, false, false, [48], r⟩ :=
    intPart_of (by decide) (.one (by decide)) (by rw [digit_fun]; exact hs) (by simp)
  rcases h with ⟨rfl, rfl⟩ | ⟨h, h0⟩
  · cases r with
    | nil => exact hone
    | cons c r =>
      obtain ⟨h1, h2, h3, h4, h5, h6, h7, h8⟩ := hr c r rfl
      simp only [List.cons_append, List.nil_append, integer]
      have ho : isOctal c = false := by
        unfold IsDigit at h1; simp [isOctal]; omega
      have h9 : ¬ (c = 56 ∨ c = 57) := by unfold IsDigit at h1; omega
      rw [if_neg (by simp [h3, h4]), if_neg (by simp [h5, h6]), if_neg (by simp [h7, h8]), if_neg (by simp [ho]),
        if_neg h2, if_neg (by simpa using h9)]
      exact hone
  · obtain ⟨c, x, rfl, hc⟩ := Sep.head h
    have h48 : c ≠ 48 := by rintro rfl; exact h0 x rfl
    have h46 : c ≠ 46 := by rintro rfl; unfold IsDigit at hc; omega
    have : integer (c :: x ++ r) = intPart 10 isDigit false false (c :: x ++ r) := by
      unfold integer
      split
      · rename_i heq; exact absurd (List.cons.inj heq).1 h46
      · rename_i heq; exact absurd (List.cons.inj heq).1 h48
      · rfl
    rw [this]
    exact intPart_of (by decide) (by rw [digit_fun]; exact h) (by rw [digit_fun]; exact hs) (by simp)

theorem integer_bin {x : Nat} {t ds r : List Nat} (hx : x = 98 ∨ x = 66) (h : Sep Spec.IsBin t ds) (hs : Stop Spec.IsBin r) :
    integer (48 :: x :: (t ++ r)) = some ⟨2, false, false, ds, r⟩ := by
  simp only [integer]
  rw [if_pos (by simpa using hx)]
  exact intPart_of (by decide) (by rw [bin_fun]; exact h) (by rw [bin_fun]; exact hs) (by simp)

theorem integer_oct {x : Nat} {t ds r : List Nat} (hx : x = 111 ∨ x = 79) (h : Sep Spec.IsOctal t ds) (hs : Stop Spec.IsOctal r) :
    integer (48 :: x :: (t ++ r)) = some ⟨8, false, false, ds, r⟩ := by
  simp only [integer]
  rw [if_neg (by simp; omega), if_pos (by simpa using hx)]
  exact intPart_of (by decide) (by rw [octal_fun]; exact h) (by rw [octal_fun]; exact hs) (by simp)

theorem integer_hex {x : Nat} {t ds r : List Nat} (hx : x = 120 ∨ x = 88) (h : Sep Spec.IsHexDigit t ds)
    (hs : Stop Spec.IsHexDigit r) : integer (48 :: x :: (t ++ r)) = some ⟨16, false, false, ds, r⟩ := by
  simp only [integer]
  rw [if_neg (by simp; omega), if_neg (by simp; omega), if_pos (by simpa using hx)]
  exact intPart_of (by decide) (by rw [hex_fun]; exact h) (by rw [hex_fun]; exact hs) (by simp)

theorem integer_legacy {t r : List Nat} (h : Spec.Octals t) (hs : ¬ Next (fun c => Spec.IsOctal c ∨ Turn c) r) :
    integer (48 :: (t ++ r)) = some ⟨8, true, true, t, r⟩ := by
  obtain ⟨hne, h⟩ := h
  cases t with
  | nil => exact absurd rfl hne
  | cons c t =>
    have hc := h c (by simp)
    have hl := (legacy_iff (cs := c :: t ++ r) (b := 8) (ds := c :: t) (rest := r)).2 ⟨rfl, Or.inl ⟨rfl, h, hs⟩⟩
    simp only [List.cons_append, integer] at hl ⊢
    rw [if_neg (by simp; unfold Spec.IsOctal at hc; omega), if_neg (by simp; unfold Spec.IsOctal at hc; omega),
      if_neg (by simp; unfold Spec.IsOctal at hc; omega), if_pos ((isOctal_iff c).2 hc), hl]

/-- The digits of a decimal number with a zero in front, and what is put into the buffer. -/
theorem integer_nonOctal {i r : List Nat} (h : Spec.NonOctal i) (hs : Stop IsDigit r) :
    ∃ buf, integer (48 :: (i ++ r)) = some ⟨10, true, true, buf, r⟩ ∧ (buf = 48 :: i ∨ buf = i) := by
  obtain ⟨hne, h, x, hx, hxo⟩ := h
  -- the first digit that is not octal
  have split : ∃ o c d, i = o ++ c :: d ∧ (∀ y ∈ o, Spec.IsOctal y) ∧ ¬ Spec.IsOctal c := by
    clear hne
    induction i with
    | nil => cases hx
    | cons y i ih =>
      by_cases hy : Spec.IsOctal y
      · rcases List.mem_cons.1 hx with rfl | hx
        · exact absurd hy hxo
        · obtain ⟨o, c, d, rfl, h1, h2⟩ := ih (fun z hz => h z (by simp [hz])) hx
          refine ⟨y :: o, c, d, rfl, ?_, h2⟩
          intro z hz
          rcases List.mem_cons.1 hz with rfl | hz
          · exact hy
          · exact h1 z hz
      · exact ⟨[], y, i, rfl, by simp, hy⟩
  obtain ⟨o, c, d, rfl, h1, h2⟩ := split
  have hc := h c (by simp)
  have h89 : c = 56 ∨ c = 57 := by unfold IsDigit at hc; unfold Spec.IsOctal at h2; omega
  have hd : ∀ z ∈ d, IsDigit z := fun z hz => h z (by simp [hz])
  cases o with
  | nil =>
    refine ⟨48 :: c :: d, ?_, Or.inl rfl⟩
    simp only [List.nil_append, List.cons_append, integer]
    have ho : isOctal c = false := by simp [isOctal]; omega
    rw [if_neg (by simp; omega), if_neg (by simp; omega), if_neg (by simp; omega), if_neg (by simp [ho]),
      if_neg (by omega), if_pos (by simpa using h89)]
    have : Sep (fun c => isDigit c = true) (48 :: c :: d) (48 :: c :: d) := by
      rw [digit_fun]
      refine Sep.of_plain (by simp) ?_
      intro z hz
      simp only [List.mem_cons] at hz
      rcases hz with rfl | rfl | hz
      · unfold IsDigit; omega
      · exact hc
      · exact hd z hz
    refine intPart_of (t := 48 :: c :: d) (by decide) this (by rw [digit_fun]; exact hs) ?_
    intro _ h95
    simp only [List.mem_cons] at h95
    rcases h95 with h | h | h
    · omega
    · omega
    · have := hd 95 h; unfold IsDigit at this; omega
  | cons y o =>
    refine ⟨y :: o ++ c :: d, ?_, Or.inr rfl⟩
    have hy := h1 y (by simp)
    have hl := (legacy_iff (cs := y :: o ++ c :: d ++ r) (b := 10) (ds := y :: o ++ c :: d) (rest := r)).2
      ⟨rfl, Or.inr ⟨rfl, y :: o, c, d, rfl, h1, by unfold Turn; omega, hd, hs.1⟩⟩
    simp only [List.cons_append, integer] at hl ⊢
    rw [if_neg (by simp; unfold Spec.IsOctal at hy; omega), if_neg (by simp; unfold Spec.IsOctal at hy; omega),
      if_neg (by simp; unfold Spec.IsOctal at hy; omega), if_pos ((isOctal_iff y).2 hy), hl]

end Verif.Lex

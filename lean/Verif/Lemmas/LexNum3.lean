import Verif.Lemmas.LexNum2

/-! Lemmas for C89: whole numbers. -/
namespace Verif.Lex
open Json (Out Uni isDigit isOctal isHex isBinary digits intPart integer fractionPart exponentPart signPart
  IntPart numeral Numeral ends isHex_iff hexNum_of isDigit_iff)
open Json.Spec (IsDigit IsHex)
open Spec (Next Sep)

theorem ends_iff (U : Uni) (t : List Nat) :
    ends U t = true ↔ ¬ Next (fun c => IsDigit c ∨ Spec.IsStart U c) t := by
  cases t with
  | nil => simp [ends, Next.nil]
  | cons c t =>
    rw [Next.cons, ← isDigit_iff, ← isStart_iff]
    simp [ends]

/-! ### Text before a point -/

theorem Sep.chars {p : Nat → Prop} {t ds : List Nat} (h : Sep p t ds) : ∀ c ∈ t, p c ∨ c = 95 := by
  induction h with
  | one h => simpa using Or.inl h
  | cons h _ ih =>
    intro x hx
    rcases List.mem_cons.1 hx with rfl | hx
    · exact Or.inl h
    · exact ih x hx
  | sep h _ ih =>
    intro x hx
    simp only [List.mem_cons] at hx
    rcases hx with rfl | rfl | hx
    · exact Or.inl h
    · exact Or.inr rfl
    · exact ih x hx

theorem last_mem {a b : List Nat} (h : a ++ [46] = b) : 46 ∈ b := by rw [← h]; simp

/-- A text with a point at its end is an integer and the point. -/
theorem Num.point_end {t : List Nat} {b ds n l} (h : Spec.Num (t ++ [46]) b ds n l) :
    (∃ d, Spec.DecInt t d) ∨ ∃ i, t = 48 :: i ∧ Spec.NonOctal i := by
  have suf : ∀ {b n}, Spec.Suffix b n → 46 ∉ n := by
    rintro b n (⟨_, rfl⟩ | ⟨_, rfl⟩) <;> simp
  have dec46 : ∀ {t ds : List Nat}, Sep IsDigit t ds → 46 ∉ t := by
    intro t ds h hm
    rcases Sep.chars h 46 hm with h | h
    · unfold IsDigit at h; omega
    · omega
  have decI : ∀ {t ds : List Nat}, Spec.DecInt t ds → 46 ∉ t := by
    rintro t ds (⟨rfl, _⟩ | ⟨h, _⟩)
    · simp
    · exact dec46 h
  have ex46 : ∀ {e de : List Nat}, Spec.Exp e de → 46 ∉ e := by
    intro e de h hm
    cases h with
    | none => cases hm
    | digits hx hs ht =>
      simp only [List.mem_cons, List.mem_append] at hm
      rcases hm with h | h | h
      · omega
      · rcases hs with rfl | rfl | rfl <;> simp at h
      · exact dec46 ht h
  -- an integer, a fraction and an exponent
  have frac : ∀ {t i f df e de : List Nat}, t ++ [46] = i ++ f ++ e → 46 ∉ i → Spec.Frac f df → Spec.Exp e de → t = i := by
    intro t i f df e de heq hi hf he
    have hee : e = [] := by
      rcases List.eq_nil_or_concat e with rfl | ⟨e', x, rfl⟩
      · rfl
      · have h1 : t ++ [46] = (i ++ f ++ e') ++ [x] := by rw [heq]; simp
        have h2 := (List.append_inj_right' h1 rfl)
        simp at h2
        subst h2
        exact absurd (by simp) (ex46 he)
    subst hee
    rw [List.append_nil] at heq
    cases hf with
    | none =>
      rw [List.append_nil] at heq
      exact absurd (last_mem heq) hi
    | point => exact List.append_cancel_right heq
    | @digits y dy hy =>
      exfalso
      rcases List.eq_nil_or_concat y with rfl | ⟨y', x, rfl⟩
      · exact (Sep.ne_nil hy).1 rfl
      · have h1 : t ++ [46] = (i ++ 46 :: y') ++ [x] := by rw [heq]; simp
        have h2 := (List.append_inj_right' h1 rfl)
        simp at h2
        subst h2
        exact dec46 hy (by simp)
  generalize hg : t ++ [46] = g at h
  cases h with
  | bin hx hs hn =>
    exfalso
    have := last_mem hg
    simp only [List.mem_cons, List.mem_append] at this
    rcases this with h | h | h | h
    · omega
    · omega
    · rcases Sep.chars hs 46 h with h | h
      · unfold Spec.IsBin at h; omega
      · omega
    · exact suf hn h
  | oct hx hs hn =>
    exfalso
    have := last_mem hg
    simp only [List.mem_cons, List.mem_append] at this
    rcases this with h | h | h | h
    · omega
    · omega
    · rcases Sep.chars hs 46 h with h | h
      · unfold Spec.IsOctal at h; omega
      · omega
    · exact suf hn h
  | hex hx hs hn =>
    exfalso
    have := last_mem hg
    simp only [List.mem_cons, List.mem_append] at this
    rcases this with h | h | h | h
    · omega
    · omega
    · rcases Sep.chars hs 46 h with h | h
      · obtain ⟨v, h⟩ := h; unfold IsHex at h; omega
      · omega
    · exact suf hn h
  | int hd hn =>
    exfalso
    have := last_mem hg
    rcases List.mem_append.1 this with h | h
    · exact decI hd h
    · exact suf hn h
  | @dec i di f df e de hi hf he =>
    have := frac hg (decI hi) hf he
    subst this
    exact Or.inl ⟨_, hi⟩
  | @point y ds e de hs he =>
    exfalso
    have hne : y ++ e ≠ [] := by have := (Sep.ne_nil hs).1; simp [this]
    rcases List.eq_nil_or_concat (y ++ e) with h | ⟨y', x, h⟩
    · exact hne h
    · rw [h] at hg
      have h1 : t ++ [46] = (46 :: y') ++ [x] := by rw [hg]; simp
      have h2 := (List.append_inj_right' h1 rfl)
      simp at h2
      subst h2
      have : 46 ∈ y ++ e := by rw [h]; simp
      rcases List.mem_append.1 this with h | h
      · exact dec46 hs h
      · exact ex46 he h
  | @nonOctal i f df e de hi hf he =>
    have h46 : 46 ∉ 48 :: i := by
      intro h
      rcases List.mem_cons.1 h with h | h
      · omega
      · have := hi.2.1 46 h; unfold IsDigit at this; omega
    have := frac (t := t) (i := 48 :: i) (by rw [hg]; simp) h46 hf he
    exact Or.inr ⟨i, this, hi⟩
  | legacy ht =>
    exfalso
    have := last_mem hg
    rcases List.mem_cons.1 this with h | h
    · omega
    · have := ht.2 46 h; unfold Spec.IsOctal at this; omega

/-! ### Numbers are read -/

/-- What follows a number. -/
theorem after {U : Uni} {rest : List Nat} (h : ¬ Next (fun c => IsDigit c ∨ Spec.IsStart U c) rest) :
    Stop IsDigit rest ∧ ∀ c r, rest = c :: r → c ≠ 110 ∧ AfterZero c ∧ c ≠ 101 ∧ c ≠ 69 ∧
      ¬ Spec.IsHexDigit c ∧ ¬ Spec.IsOctal c ∧ ¬ Spec.IsBin c ∧ ¬ (c = 56 ∨ c = 57) := by
  refine ⟨⟨?_, ?_⟩, ?_⟩
  · rintro ⟨c, r, rfl, hc⟩; exact h ⟨c, r, rfl, Or.inl hc⟩
  · rintro ⟨c, r, rfl, rfl⟩; exact h ⟨95, r, rfl, Or.inr (by unfold Spec.IsStart; omega)⟩
  · rintro c r rfl
    rw [Next.cons] at h
    unfold IsDigit Spec.IsStart at h
    refine ⟨by omega, ?_, by omega, by omega, ?_, ?_, ?_, by omega⟩
    · unfold AfterZero IsDigit; omega
    · rintro ⟨v, hv⟩; unfold IsHex at hv; omega
    · unfold Spec.IsOctal; omega
    · unfold Spec.IsBin; omega

theorem numeral_ten {cs : List Nat} {i : IntPart} (hi : integer cs = some i) (hb : i.base = 10) {f df e de rest : List Nat}
    {fl el : Bool} (hf : fractionPart i.noSep i.rest = some (fl, df, e)) (he : exponentPart i.noSep e = some (el, de, rest)) :
    numeral cs = some ⟨10, i.legacy, fl || el, i.buf ++ df ++ de, rest⟩ := by
  unfold numeral
  rw [hi]
  dsimp only
  rw [if_pos hb, hf]
  dsimp only
  rw [he]

theorem numeral_other {cs : List Nat} {i : IntPart} (hi : integer cs = some i) (hb : i.base ≠ 10) :
    numeral cs = some ⟨i.base, i.legacy, false, i.buf, i.rest⟩ := by
  unfold numeral
  rw [hi]
  dsimp only
  rw [if_neg hb]

/-- The end of `lex_number`: with or without the suffix. -/
theorem lexNumber_suffix {U : Uni} {strict : Bool} {cs rest n : List Nat} {b : Bool} {base buf leg fl}
    (hn : numeral cs = some ⟨base, leg, fl, buf, n ++ rest⟩) (hb : Spec.Suffix b n)
    (hr : ¬ Next (fun c => IsDigit c ∨ Spec.IsStart U c) rest) (hbig : b = true → leg = false ∧ fl = false)
    (hst : strict = true → leg = false) :
    lexNumber U strict cs = .ok ⟨base, buf, b, leg⟩ rest := by
  have he := (ends_iff U rest).2 hr
  have hs : (strict && leg) = false := by cases strict <;> simp at hst ⊢; exact hst
  unfold lexNumber
  rw [hn]
  dsimp only
  rcases hb with ⟨rfl, rfl⟩ | ⟨rfl, rfl⟩
  · have h110 : (([] ++ rest).head? == some 110 && !leg && !fl) = false := by
      cases rest with
      | nil => rfl
      | cons c r =>
        have := ((after hr).2 c r rfl).1
        simp [this]
    rw [h110]
    simp [he, hs]
  · obtain ⟨rfl, rfl⟩ := hbig rfl
    simp [he]

theorem lexNumber_of {U : Uni} {strict : Bool} {text rest : List Nat} {base ds big leg}
    (h : Spec.Num text base ds big leg) (he : Spec.NumEnd U text rest) (hst : strict = true → leg = false)
    (hl : leg = true → 95 ∉ text ∧ (base = 8 → ¬ Next (· = 46) rest)) :
    ∃ buf, lexNumber U strict (text ++ rest) = .ok ⟨base, buf, big, leg⟩ rest ∧
      (buf = ds ∨ leg = true ∧ ds = 48 :: buf) := by
  obtain ⟨he, hp⟩ := he
  obtain ⟨hstop, haft⟩ := after he
  -- what follows a part
  have sufStop : ∀ {P : Nat → Prop} {b n}, Spec.Suffix b n → ¬ P 110 → (∀ c r, rest = c :: r → ¬ P c) → Stop P (n ++ rest) := by
    rintro P b n (⟨_, rfl⟩ | ⟨_, rfl⟩) h1 h2
    · refine ⟨?_, hstop.2⟩
      rintro ⟨c, r, hr, hc⟩
      exact h2 c r hr hc
    · constructor
      · rw [List.cons_append, Next.cons]; exact h1
      · rw [List.cons_append, Next.cons]; omega
  have expStop : ∀ {e de : List Nat}, Spec.Exp e de → Stop IsDigit (e ++ rest) ∧ (∀ c r, e ++ rest = c :: r → AfterZero c) := by
    intro e de h
    cases h with
    | none => exact ⟨hstop, fun c r hr => (haft c r hr).2.1⟩
    | @digits x s t d hx hs ht =>
      refine ⟨⟨?_, ?_⟩, ?_⟩
      · rw [List.cons_append, Next.cons]; unfold IsDigit; omega
      · rw [List.cons_append, Next.cons]; omega
      · intro c r hr
        obtain ⟨rfl, _⟩ := List.cons.inj hr
        unfold AfterZero IsDigit; omega
  have noE : ¬ Next (fun c => c = 101 ∨ c = 69) rest := by
    rintro ⟨c, r, rfl, hc⟩
    have := haft c r rfl
    omega
  have fracStop : ∀ {f df e de : List Nat}, Spec.Frac f df → Spec.Exp e de → Stop IsDigit (f ++ (e ++ rest)) ∧
      (∀ c r, f ++ (e ++ rest) = c :: r → AfterZero c) := by
    intro f df e de hf h
    have := expStop h
    cases hf with
    | none => exact this
    | point =>
      refine ⟨⟨?_, ?_⟩, ?_⟩
      · rw [List.cons_append, Next.cons]; unfold IsDigit; omega
      · rw [List.cons_append, Next.cons]; omega
      · intro c r hr
        obtain ⟨rfl, _⟩ := List.cons.inj hr
        unfold AfterZero IsDigit; omega
    | digits _ =>
      refine ⟨⟨?_, ?_⟩, ?_⟩
      · rw [List.cons_append, Next.cons]; unfold IsDigit; omega
      · rw [List.cons_append, Next.cons]; omega
      · intro c r hr
        obtain ⟨rfl, _⟩ := List.cons.inj hr
        unfold AfterZero IsDigit; omega
  have nil : ∀ t : List Nat, t ++ rest = t ++ ([] ++ rest) := by simp
  -- no point behind
  have noPoint : ∀ {f e de : List Nat}, Spec.Exp e de → f = [] → (e = [] → ¬ Next (· = 46) rest) → ¬ Next (· = 46) (e ++ rest) := by
    intro f e de h _ h2
    cases h with
    | none => exact h2 rfl
    | digits hx _ _ => rw [List.cons_append, Next.cons]; omega
  cases h with
  | @bin x t d b n hx hs hn =>
    refine ⟨ds, ?_, Or.inl rfl⟩
    have := integer_bin hx hs (sufStop hn (by unfold Spec.IsBin; omega) (fun c r hr => (haft c r hr).2.2.2.2.2.2.1))
    have e1 : 48 :: x :: (t ++ n) ++ rest = 48 :: x :: (t ++ (n ++ rest)) := by simp
    rw [e1]
    exact lexNumber_suffix (numeral_other this (by simp)) hn he (fun _ => ⟨rfl, rfl⟩) (fun _ => rfl)
  | @oct x t d b n hx hs hn =>
    refine ⟨ds, ?_, Or.inl rfl⟩
    have := integer_oct hx hs (sufStop hn (by unfold Spec.IsOctal; omega) (fun c r hr => (haft c r hr).2.2.2.2.2.1))
    have e1 : 48 :: x :: (t ++ n) ++ rest = 48 :: x :: (t ++ (n ++ rest)) := by simp
    rw [e1]
    exact lexNumber_suffix (numeral_other this (by simp)) hn he (fun _ => ⟨rfl, rfl⟩) (fun _ => rfl)
  | @hex x t d b n hx hs hn =>
    refine ⟨ds, ?_, Or.inl rfl⟩
    have := integer_hex hx hs (sufStop hn (by rintro ⟨v, h⟩; unfold IsHex at h; omega) (fun c r hr => (haft c r hr).2.2.2.2.1))
    have e1 : 48 :: x :: (t ++ n) ++ rest = 48 :: x :: (t ++ (n ++ rest)) := by simp
    rw [e1]
    exact lexNumber_suffix (numeral_other this (by simp)) hn he (fun _ => ⟨rfl, rfl⟩) (fun _ => rfl)
  | @int t d b n hd hn =>
    refine ⟨ds, ?_, Or.inl rfl⟩
    rw [List.append_assoc]
    have hz : ∀ c x, n ++ rest = c :: x → AfterZero c := by
      intro c x hx
      rcases hn with ⟨_, rfl⟩ | ⟨_, rfl⟩
      · exact (haft c x hx).2.1
      · obtain ⟨rfl, _⟩ := List.cons.inj hx
        unfold AfterZero IsDigit; omega
    have hs : Stop IsDigit (n ++ rest) := by
      refine sufStop hn (by unfold IsDigit; omega) (fun c r hr hc => ?_)
      exact hstop.1 ⟨c, r, hr, hc⟩
    have h46 : ¬ Next (· = 46) (n ++ rest) := by
      rcases hn with ⟨_, rfl⟩ | ⟨_, rfl⟩
      · rintro ⟨c, r, hr, rfl⟩
        refine hp r hr 10 (ds ++ [46] ++ []) false false ?_
        have := Spec.Num.dec hd .point .none
        simpa using this
      · rw [List.cons_append, Next.cons]; omega
    have hi := integer_dec hd hz hs
    have hf := fraction_of (ns := false) (r := n ++ rest) .none hs (fun _ => h46) (by simp)
    have hx := exponent_of (ns := false) (r := n ++ rest) .none hs (fun _ => by
      rcases hn with ⟨_, rfl⟩ | ⟨_, rfl⟩
      · exact noE
      · rw [List.cons_append, Next.cons]; omega) (by simp)
    have := numeral_ten hi rfl (f := []) hf hx
    simp at this
    exact lexNumber_suffix this hn he (fun _ => ⟨rfl, rfl⟩) (fun _ => rfl)
  | @dec i di f df e de hd hf hx =>
    refine ⟨_, ?_, Or.inl rfl⟩
    have e1 : i ++ f ++ e ++ rest = i ++ (f ++ (e ++ rest)) := by simp
    rw [e1]
    obtain ⟨h1, h2⟩ := fracStop hf hx
    obtain ⟨h3, h4⟩ := expStop hx
    have hi := integer_dec hd h2 h1
    have hf' := fraction_of (ns := false) hf h3 (fun hfe => noPoint hx hfe (by
      rintro rfl ⟨c, r, hr, rfl⟩
      subst hfe
      refine hp r hr 10 (di ++ [46] ++ []) false false ?_
      have := Spec.Num.dec hd .point .none
      simpa using this)) (by simp)
    have hx' := exponent_of (ns := false) hx hstop (fun _ => noE) (by simp)
    have := numeral_ten hi rfl (f := f) hf' hx'
    exact lexNumber_suffix (n := []) this (Or.inl ⟨rfl, rfl⟩) he (by simp) (fun _ => rfl)
  | @point t d e de hs hx =>
    refine ⟨_, ?_, Or.inl rfl⟩
    have e1 : 46 :: (t ++ e) ++ rest = (46 :: t) ++ (e ++ rest) := by simp
    rw [e1]
    obtain ⟨h3, h4⟩ := expStop hx
    have hi : integer ((46 :: t) ++ (e ++ rest)) = some ⟨10, false, false, [], (46 :: t) ++ (e ++ rest)⟩ := by
      simp [integer]
    have hf' := fraction_of (ns := false) (.digits hs) h3 (by simp) (by simp)
    have hx' := exponent_of (ns := false) hx hstop (fun _ => noE) (by simp)
    have := numeral_ten hi rfl (f := 46 :: t) hf' hx'
    simp at this
    exact lexNumber_suffix (n := []) this (Or.inl ⟨rfl, rfl⟩) he (by simp) (fun _ => rfl)
  | @nonOctal i f df e de hi hf hx =>
    obtain ⟨h95, _⟩ := hl rfl
    have e1 : 48 :: (i ++ f ++ e) ++ rest = 48 :: (i ++ (f ++ (e ++ rest))) := by simp
    rw [e1]
    obtain ⟨h1, h2⟩ := fracStop hf hx
    obtain ⟨h3, h4⟩ := expStop hx
    obtain ⟨buf, hi', hbuf⟩ := integer_nonOctal hi h1
    have hf' := fraction_of (ns := true) hf h3 (fun hfe => noPoint hx hfe (by
      rintro rfl ⟨c, r, hr, rfl⟩
      subst hfe
      refine hp r hr 10 (48 :: (i ++ [46] ++ [])) false true ?_
      have := Spec.Num.nonOctal hi .point .none
      simpa using this)) (fun _ hm => h95 (by simp [hm]))
    have hx' := exponent_of (ns := true) hx hstop (fun _ => noE) (fun _ hm => h95 (by simp [hm]))
    have := numeral_ten hi' rfl (f := f) hf' hx'
    refine ⟨buf ++ df ++ de, lexNumber_suffix (n := []) this (Or.inl ⟨rfl, rfl⟩) he (by simp) hst, ?_⟩
    rcases hbuf with rfl | rfl
    · left; simp
    · right; simp
  | @legacy t ht =>
    obtain ⟨_, h46⟩ := hl rfl
    have hi := integer_legacy ht (r := rest) (by
      rintro ⟨c, r, rfl, hc⟩
      have h1 := haft c r rfl
      have h2 := h46 rfl
      rw [Next.cons] at h2
      rcases hc with hc | hc
      · exact h1.2.2.2.2.2.1 hc
      · unfold Turn at hc; omega)
    refine ⟨ds, ?_, Or.inl rfl⟩
    rw [List.cons_append]
    exact lexNumber_suffix (n := []) (numeral_other hi (by simp)) (Or.inl ⟨rfl, rfl⟩) he (by simp) hst

/-! ### What is read is a number -/

theorem numeral_ok {cs : List Nat} {n : Numeral} (h : numeral cs = some n) :
    ∃ i, IntOk cs i ∧ integer cs = some i ∧ n.legacy = i.legacy ∧
      ((i.base ≠ 10 ∧ n = ⟨i.base, i.legacy, false, i.buf, i.rest⟩) ∨
       (i.base = 10 ∧ n.base = 10 ∧ ∃ f df e de, i.rest = f ++ (e ++ n.rest) ∧ Spec.Frac f df ∧ Spec.Exp e de ∧
         n.buf = i.buf ++ df ++ de ∧ n.float = (!f.isEmpty || !e.isEmpty) ∧ (i.noSep = true → df = f ∧ de = e) ∧
         (f = [] → ¬ Next (· = 46) (e ++ n.rest)))) := by
  unfold numeral at h
  cases hi : integer cs with
  | none => rw [hi] at h; cases h
  | some i =>
    rw [hi] at h
    dsimp only at h
    refine ⟨i, integer_ok hi, rfl, ?_⟩
    by_cases hb : i.base = 10
    · rw [if_pos hb] at h
      cases hf : fractionPart i.noSep i.rest with
      | none => rw [hf] at h; cases h
      | some v =>
        obtain ⟨f1, t1, r1⟩ := v
        rw [hf] at h
        dsimp only at h
        cases he : exponentPart i.noSep r1 with
        | none => rw [he] at h; cases h
        | some v =>
          obtain ⟨f2, t2, r2⟩ := v
          rw [he] at h
          cases h
          obtain ⟨f, h1, h2, h3, h4, h5⟩ := fraction_ok hf
          obtain ⟨e, h6, h7, h8, h9⟩ := exponent_ok he
          refine ⟨rfl, Or.inr ⟨hb, rfl, f, t1, e, t2, by rw [h1, h6], h2, h7, rfl, by rw [h3, h8],
            fun hh => ⟨h4 hh, h9 hh⟩, ?_⟩⟩
          rw [← h6]; exact h5
    · rw [if_neg hb] at h
      cases h
      exact ⟨rfl, Or.inl ⟨hb, rfl⟩⟩

theorem integer_point {t r : List Nat} (h : (∃ d, Spec.DecInt t d) ∨ ∃ i, t = 48 :: i ∧ Spec.NonOctal i) :
    ∃ buf ns leg, integer (t ++ 46 :: r) = some ⟨10, ns, leg, buf, 46 :: r⟩ := by
  have hs : Stop IsDigit (46 :: r) := by
    constructor
    · rw [Next.cons]; unfold IsDigit; omega
    · rw [Next.cons]; omega
  rcases h with ⟨d, h⟩ | ⟨i, rfl, h⟩
  · refine ⟨_, _, _, integer_dec h ?_ hs⟩
    intro c x hx
    obtain ⟨rfl, _⟩ := List.cons.inj hx
    unfold AfterZero IsDigit; omega
  · obtain ⟨buf, h1, _⟩ := integer_nonOctal h hs
    exact ⟨_, _, _, h1⟩

theorem lexNumber_ok {U : Uni} {strict : Bool} {c : Nat} {cs rest : List Nat} {t : NumTok}
    (h0 : isDigit c = true ∨ c = 46 ∧ Next IsDigit cs) (h : lexNumber U strict (c :: cs) = .ok t rest) :
    ∃ text, c :: cs = text ++ rest ∧ Spec.NumEnd U text rest ∧ (strict = true → t.legacy = false) ∧
      ((t.legacy = false ∧ Spec.Num text t.base t.text t.isBig false) ∨
       (t.legacy = true ∧ t.isBig = false ∧
         (Spec.OctalPoint text ∨ ∃ ds, Spec.Num text t.base ds false true ∧ (ds = t.text ∨ ds = 48 :: t.text)))) := by
  unfold lexNumber at h
  cases hn : numeral (c :: cs) with
  | none => rw [hn] at h; cases h
  | some n =>
    rw [hn] at h
    simp only at h
    generalize hB0 : (n.rest.head? == some 110 && !n.legacy && !n.float) = B0 at h
    generalize hR0 : (if B0 = true then n.rest.drop 1 else n.rest) = R0 at h
    by_cases hcond : (ends U R0 && !(strict && n.legacy)) = true
    · rw [if_pos hcond] at h
      rw [Bool.and_eq_true, Bool.not_eq_true'] at hcond
      obtain ⟨hends, hst⟩ := hcond
      subst hR0 hB0
      simp only [Out.ok.injEq] at h
      obtain ⟨rfl, hrest⟩ := h
      rw [hrest, ends_iff] at hends
      -- the suffix
      obtain ⟨suf, hsuf, hnr, hbig⟩ : ∃ suf, Spec.Suffix (n.rest.head? == some 110 && !n.legacy && !n.float) suf ∧
          n.rest = suf ++ rest ∧ ((n.rest.head? == some 110 && !n.legacy && !n.float) = true → n.legacy = false ∧ n.float = false) := by
        cases hb : (n.rest.head? == some 110 && !n.legacy && !n.float) with
        | false =>
          rw [hb] at hrest
          exact ⟨[], Or.inl ⟨rfl, rfl⟩, by simpa using hrest, by simp⟩
        | true =>
          rw [hb] at hrest
          simp only [Bool.and_eq_true, Bool.not_eq_true', beq_iff_eq] at hb
          refine ⟨[110], Or.inr ⟨rfl, rfl⟩, ?_, fun _ => ⟨hb.1.2, hb.2⟩⟩
          obtain ⟨⟨h1, _⟩, _⟩ := hb
          cases hr : n.rest with
          | nil => rw [hr] at h1; cases h1
          | cons x r =>
            rw [hr] at h1 hrest
            simp at h1 hrest
            subst h1
            simp [hrest]
      generalize hB : (n.rest.head? == some 110 && !n.legacy && !n.float) = B at *
      obtain ⟨i, hiok, hint, hleg, hcase⟩ := numeral_ok hn
      have hst' : strict = true → n.legacy = false := by
        intro hh; rw [hh] at hst; simpa using hst
      -- no point behind
      have noPoint : ∀ text, c :: cs = text ++ rest → ∀ r, rest = 46 :: r → ∀ b ds n l, ¬ Spec.Num (text ++ [46]) b ds n l := by
        intro text htext r hr b ds _ l hnum
        have hp := Num.point_end hnum
        rw [hr] at htext
        obtain ⟨buf, ns, leg, hi2⟩ := integer_point (r := r) hp
        rw [← htext, hint] at hi2
        cases hi2
        rcases hcase with ⟨h10, _⟩ | ⟨_, _, f, df, e, de, h1, h2, h3, _, _, _, h4⟩
        · exact h10 rfl
        · dsimp only at h1
          cases f with
          | nil =>
            apply h4 rfl
            rw [List.nil_append] at h1
            exact ⟨46, r, h1.symm, rfl⟩
          | cons x f =>
            have := congrArg List.length h1
            rw [hnr, hr] at this
            simp at this
            omega
      have fin : ∀ text, c :: cs = text ++ rest → _ → _ := fun text htext
        (hh : ((n.legacy = false ∧ Spec.Num text n.base n.buf B false) ∨
          (n.legacy = true ∧ B = false ∧
            (Spec.OctalPoint text ∨ ∃ ds, Spec.Num text n.base ds false true ∧ (ds = n.buf ∨ ds = 48 :: n.buf))))) =>
        (⟨text, htext, ⟨hends, noPoint text htext⟩, hst', hh⟩ : ∃ text, c :: cs = text ++ rest ∧ Spec.NumEnd U text rest ∧
          (strict = true → n.legacy = false) ∧
          ((n.legacy = false ∧ Spec.Num text n.base n.buf B false) ∨
          (n.legacy = true ∧ B = false ∧
            (Spec.OctalPoint text ∨ ∃ ds, Spec.Num text n.base ds false true ∧ (ds = n.buf ∨ ds = 48 :: n.buf)))))
      have noBig : n.legacy = true → B = false ∧ suf = [] := by
        intro hh
        cases B with
        | false =>
          rcases hsuf with ⟨_, h⟩ | ⟨h, _⟩
          · exact ⟨rfl, h⟩
          · cases h
        | true => have := (hbig rfl).1; rw [hh] at this; cases this
      have noFl : n.float = true → B = false ∧ suf = [] := by
        intro hh
        cases B with
        | false =>
          rcases hsuf with ⟨_, h⟩ | ⟨h, _⟩
          · exact ⟨rfl, h⟩
          · cases h
        | true => have := (hbig rfl).2; rw [hh] at this; cases this
      rcases hcase with ⟨h10, rfl⟩ | ⟨h10, hb10, f, df, e, de, h1, h2, h3, h4, h5, h6, h7⟩
      · dsimp only at *
        generalize hcs : c :: cs = text0 at *
        cases hiok with
        | point => exact absurd rfl h10
        | @bin x t ds r hx hs =>
          dsimp only at *
          exact fin (48 :: x :: (t ++ suf)) (by rw [hnr]; simp) (Or.inl ⟨rfl, .bin hx hs hsuf⟩)
        | @oct x t ds r hx hs =>
          dsimp only at *
          exact fin (48 :: x :: (t ++ suf)) (by rw [hnr]; simp) (Or.inl ⟨rfl, .oct hx hs hsuf⟩)
        | @hex x t ds r hx hs =>
          dsimp only at *
          exact fin (48 :: x :: (t ++ suf)) (by rw [hnr]; simp) (Or.inl ⟨rfl, .hex hx hs hsuf⟩)
        | dec => exact absurd rfl h10
        | @legacy t r ht =>
          dsimp only at *
          obtain ⟨hb, rfl⟩ := noBig rfl
          exact fin (48 :: t) (by rw [hnr]; simp) (Or.inr ⟨rfl, hb, Or.inr ⟨t, .legacy ht, Or.inl rfl⟩⟩)
        | turn => exact absurd rfl h10
        | eight => exact absurd rfl h10
      · generalize hcs : c :: cs = text0 at *
        cases hiok with
        | bin => cases h10
        | oct => cases h10
        | hex => cases h10
        | legacy => cases h10
        | @point cs' =>
          dsimp only at *
          obtain ⟨rfl, rfl⟩ := List.cons.inj hcs
          have hdig : Next IsDigit cs := by
            rcases h0 with h | h
            · exact absurd h (by decide)
            · exact h.2
          cases h2 with
          | none =>
            exfalso
            apply h7 rfl
            exact ⟨46, cs, h1.symm, rfl⟩
          | point =>
            exfalso
            obtain ⟨_, h1⟩ := List.cons.inj h1
            have hd : ¬ Next IsDigit (e ++ n.rest) := by
              cases h3 with
              | none =>
                obtain ⟨d, r, rfl, hd⟩ := hdig
                rintro ⟨x, y, hxy, hx⟩
                rw [List.nil_append] at hxy
                rcases hsuf with ⟨_, rfl⟩ | ⟨_, rfl⟩
                · rw [hnr] at hxy
                  exact hends ⟨x, y, hxy, Or.inl hx⟩
                · rw [hnr] at hxy
                  obtain ⟨rfl, _⟩ := List.cons.inj hxy
                  unfold IsDigit at hx; omega
              | digits hx _ _ => rw [List.cons_append, Next.cons]; unfold IsDigit; omega
            apply hd
            have h1 : cs = e ++ n.rest := h1
            rw [← h1]; exact hdig
          | @digits t ds hs =>
            obtain ⟨hb, rfl⟩ := noFl (by rw [h5]; simp)
            refine fin (46 :: (t ++ e)) ?_ (Or.inl ⟨hleg, ?_⟩)
            · rw [h1, hnr]; simp
            · rw [hb10, h4, hb]
              have := Spec.Num.point hs h3
              simpa using this
        | @dec t ds r hd =>
          dsimp only at *
          by_cases hfe : f = [] ∧ e = []
          · obtain ⟨rfl, rfl⟩ := hfe
            cases h2; cases h3
            refine fin (t ++ suf) ?_ (Or.inl ⟨hleg, ?_⟩)
            · rw [h1, hnr]; simp
            · rw [hb10, h4]
              have := Spec.Num.int hd hsuf
              simpa using this
          · have hfl : n.float = true := by
              rw [h5]
              cases f <;> cases e <;> simp at hfe ⊢
            obtain ⟨hb, rfl⟩ := noFl hfl
            refine fin (t ++ f ++ e) ?_ (Or.inl ⟨hleg, ?_⟩)
            · rw [h1, hnr]; simp
            · rw [hb10, h4, hb]
              exact .dec hd h2 h3
        | @turn o x d r ho hx hd =>
          dsimp only at *
          obtain ⟨hb, rfl⟩ := noBig hleg
          obtain ⟨rfl, rfl⟩ := h6 rfl
          refine fin (48 :: (o ++ x :: d ++ df ++ de)) (by rw [h1, hnr]; simp) (Or.inr ⟨hleg, hb, ?_⟩)
          by_cases h89 : x = 56 ∨ x = 57
          · right
            refine ⟨48 :: (o ++ x :: d ++ df ++ de), ?_, Or.inr (by rw [h4])⟩
            rw [hb10]
            refine .nonOctal ⟨by simp, ?_, x, by simp, ?_⟩ h2 h3
            · intro y hy
              simp only [List.mem_append, List.mem_cons] at hy
              rcases hy with hy | rfl | hy
              · have := ho.2 y hy; unfold Spec.IsOctal at this; unfold IsDigit; omega
              · unfold IsDigit; omega
              · exact hd y hy
            · unfold Spec.IsOctal; omega
          · left
            exact ⟨o, x, d ++ df ++ de, by simp, ho, by unfold Turn at hx; omega⟩
        | @eight x d r hx hd =>
          dsimp only at *
          obtain ⟨hb, rfl⟩ := noBig hleg
          obtain ⟨rfl, rfl⟩ := h6 rfl
          refine fin (48 :: (x :: d ++ df ++ de)) (by rw [h1, hnr]; simp) (Or.inr ⟨hleg, hb, Or.inr ?_⟩)
          refine ⟨48 :: (x :: d ++ df ++ de), ?_, Or.inl (by rw [h4]; simp)⟩
          rw [hb10]
          refine .nonOctal ⟨by simp, ?_, x, by simp, ?_⟩ h2 h3
          · intro y hy
            rcases List.mem_cons.1 hy with rfl | hy
            · unfold IsDigit; omega
            · exact hd y hy
          · unfold Spec.IsOctal; omega
    · rw [if_neg hcond] at h
      cases h

end Verif.Lex

import Verif.Lemmas.LexTempl

/-! Lemmas for C89: names, white space, regular expressions. -/
namespace Verif.Lex
open Json (Out Uni isDigit isOctal isHex isLine units unicode identLoop skip isAlpha
  isHex_iff hexNum_of isDigit_iff isLine_iff units_eq)
open Json.Spec (IsDigit IsHex IsLine utf16)
open Spec (Hexes Next)

theorem isStart_iff (U : Uni) (c : Nat) : U.isStart c = true ↔ Spec.IsStart U c := by
  unfold Uni.isStart Spec.IsStart
  split
  · simp [isAlpha]; omega
  · constructor
    · intro h; right; right; right; right; exact ⟨by omega, h⟩
    · rintro (h | h | h | h | h)
      · omega
      · omega
      · omega
      · omega
      · exact h.2

theorem isCont_iff (U : Uni) (c : Nat) : U.isCont c = true ↔ Spec.IsPart U c := by
  unfold Uni.isCont Spec.IsPart Spec.IsStart IsDigit
  split
  · simp [isAlpha, isDigit]; omega
  · simp only [Bool.or_eq_true, beq_iff_eq]
    constructor
    · rintro (((h | h) | h) | h)
      · exact Or.inr (Or.inr (Or.inl h))
      · exact Or.inr (Or.inr (Or.inr (Or.inl h)))
      · exact Or.inl (Or.inr (Or.inr (Or.inr (Or.inr ⟨by omega, h⟩))))
      · exact Or.inr (Or.inr (Or.inr (Or.inr ⟨by omega, h⟩)))
    · rintro ((h | h | h | h | h) | h | h | h | h)
      · omega
      · omega
      · omega
      · omega
      · exact Or.inl (Or.inr h.2)
      · omega
      · exact Or.inl (Or.inl (Or.inl h))
      · exact Or.inl (Or.inl (Or.inr h))
      · exact Or.inr h.2

theorem isWhite_iff {U : Uni} (hU : Spec.Fits U) (c : Nat) : U.isWhite c = true ↔ Spec.IsWhite U c := by
  unfold Uni.isWhite Spec.IsWhite IsLine
  split
  · simp; omega
  · simp only [Bool.or_eq_true, beq_iff_eq]
    constructor
    · rintro (h | h)
      · omega
      · right; right; right; right; right; right; exact ⟨by omega, h⟩
    · rintro (h | h | h | h | h | (h | h | h | h) | h)
      · omega
      · omega
      · omega
      · omega
      · exact Or.inl h
      · omega
      · omega
      · subst h; exact Or.inr hU.1
      · subst h; exact Or.inr hU.2
      · exact Or.inr h.2

/-! ### Names -/

theorem UniEsc.std {m : List Nat} {n : Nat} (h : Spec.UniEsc True m n) (hn : n ≠ 0) : Spec.UniEsc False m n := by
  cases h with
  | four h1 h2 => exact .four h1 h2
  | @braces ds _ h0 h1 h2 =>
    refine .braces (Or.inl ?_) h1 h2
    rintro rfl
    cases h1; exact hn rfl

theorem UniEsc.loose {E : Prop} {m : List Nat} {n : Nat} (h : Spec.UniEsc E m n) : Spec.UniEsc True m n := by
  cases h with
  | four h1 h2 => exact .four h1 h2
  | braces h0 h1 h2 => exact .braces (Or.inr trivial) h1 h2

theorem UniEsc.head {E : Prop} {m : List Nat} {n : Nat} (h : Spec.UniEsc E m n) : ∃ r, m = 117 :: r := by
  cases h <;> exact ⟨_, rfl⟩

theorem part_pos {U : Uni} {n : Nat} (h : Spec.IsPart U n) : n ≠ 0 ∧ n ≠ 92 := by
  unfold Spec.IsPart Spec.IsStart IsDigit at h; omega

theorem start_part {U : Uni} {n : Nat} (h : Spec.IsStart U n) : Spec.IsPart U n := Or.inl h

theorem identLoop_ok {U : Uni} {f : Nat} {bad : Bool} {acc cs s rest : List Nat}
    (h : identLoop U f bad acc cs = .ok s rest) :
    bad = false ∧ ∃ text p e, cs = text ++ rest ∧ Spec.Parts U text p e ∧ s = acc ++ p ∧ Spec.NameEnd U rest := by
  induction f generalizing bad acc cs with
  | zero => simp [identLoop] at h
  | succ f ih =>
    cases cs with
    | nil =>
      simp only [identLoop] at h
      split at h
      · cases h
      · rename_i hb
        cases h
        exact ⟨by simpa using hb, [], [], false, rfl, .nil, by simp, Next.nil, by rintro ⟨r, h⟩; cases h⟩
    | cons c cs =>
      simp only [identLoop] at h
      split at h
      · rename_i hc
        subst hc
        split at h
        · rename_i ds
          split at h
          · cases h
          · cases h
          · rename_i b v rest' hu
            split at h
            · rename_i hv
              obtain ⟨hb, text, p, e, h1, h2, h3, h4⟩ := ih h
              simp only [Bool.or_eq_false_iff] at hb
              obtain ⟨rfl, rfl⟩ := hb
              obtain ⟨m, h5, h6⟩ := unicode_iff.1 hu
              rw [isCont_iff] at hv
              refine ⟨rfl, 92 :: (m ++ text), utf16 v ++ p, true, ?_, .esc (UniEsc.std h6 (part_pos hv).1) hv h2, ?_, h4⟩
              · rw [h5, h1]; simp
              · rw [h3, units_eq]; simp
            · cases h
        · rename_i hne
          split at h
          · cases h
          · rename_i hb
            cases h
            refine ⟨by simpa using hb, [], [], false, rfl, .nil, by simp, ?_, ?_⟩
            · rw [Next.cons]; intro h; exact (part_pos h).2 rfl
            · rintro ⟨r, h⟩; cases h; exact hne _ rfl
      · rename_i hc
        split at h
        · rename_i hv
          obtain ⟨hb, text, p, e, h1, h2, h3, h4⟩ := ih h
          rw [isCont_iff] at hv
          refine ⟨hb, c :: text, utf16 c ++ p, e, by rw [h1]; rfl, .char hv h2, ?_, h4⟩
          rw [h3, units_eq]; simp
        · rename_i hv
          split at h
          · cases h
          · rename_i hb
            cases h
            refine ⟨by simpa using hb, [], [], false, rfl, .nil, by simp, ?_, ?_⟩
            · rw [Next.cons, ← isCont_iff]; exact hv
            · rintro ⟨r, h⟩; cases h; exact hc rfl

theorem identLoop_of {U : Uni} {text p rest : List Nat} {e : Bool} (h : Spec.Parts U text p e)
    (hr : Spec.NameEnd U rest) {f : Nat} (hf : text.length < f) (acc : List Nat) :
    identLoop U f false acc (text ++ rest) = .ok (acc ++ p) rest := by
  induction h generalizing f acc with
  | nil =>
    obtain ⟨g, rfl⟩ : ∃ g, f = g + 1 := ⟨f - 1, by simp at hf; omega⟩
    cases rest with
    | nil => simp [identLoop]
    | cons c rest =>
      obtain ⟨h1, h2⟩ := hr
      rw [Next.cons, ← isCont_iff] at h1
      simp only [List.nil_append, identLoop]
      by_cases hc : c = 92
      · subst hc
        rw [if_pos rfl]
        split
        · exact absurd ⟨_, rfl⟩ h2
        · simp
      · rw [if_neg hc, if_neg h1]; simp
  | @char c t s e h1 h2 ih =>
    obtain ⟨g, rfl⟩ : ∃ g, f = g + 1 := ⟨f - 1, by omega⟩
    simp only [List.cons_append, identLoop]
    rw [if_neg (part_pos h1).2, if_pos ((isCont_iff U c).2 h1), ih (by simpa using hf), units_eq]
    simp
  | @esc m n t s e h1 h2 h3 ih =>
    obtain ⟨g, rfl⟩ : ∃ g, f = g + 1 := ⟨f - 1, by omega⟩
    obtain ⟨r, rfl⟩ := UniEsc.head h1
    have hu := (unicode_iff (cs := r ++ (t ++ rest)) (rest := t ++ rest)).2 ⟨117 :: r, rfl, UniEsc.loose h1⟩
    have e1 : 92 :: (117 :: r ++ t) ++ rest = 92 :: 117 :: (r ++ (t ++ rest)) := by simp
    rw [e1]
    simp only [identLoop]
    rw [if_pos trivial, hu]
    dsimp only
    rw [if_pos ((isCont_iff U n).2 h2), Bool.or_false, ih (by simp at hf; omega), units_eq]
    simp

theorem identLoop_fuel {U : Uni} {f : Nat} {bad : Bool} {acc cs : List Nat} (hf : cs.length < f) :
    identLoop U f bad acc cs ≠ .fuel := by
  induction f generalizing bad acc cs with
  | zero => omega
  | succ f ih =>
    cases cs with
    | nil => simp only [identLoop]; split <;> simp
    | cons c cs =>
      simp only [identLoop]
      split
      · split
        · rename_i ds
          split
          · simp
          · simp
          · rename_i hu
            obtain ⟨m, hm⟩ := unicode_suffix hu
            split
            · refine ih ?_
              have := congrArg List.length hm
              simp at hf this; omega
            · simp
        · split <;> simp
      · split
        · exact ih (by simpa using hf)
        · split <;> simp

theorem Parts.esc92 {U : Uni} {text p : List Nat} {e : Bool} (h : Spec.Parts U text p e) : text.contains 92 = e := by
  induction h with
  | nil => rfl
  | @char c t s e h1 h2 ih =>
    have := (part_pos h1).2
    rw [List.contains_cons, ih]
    simp [Ne.symm this]
  | esc => simp

theorem Name.esc92 {U : Uni} {text p : List Nat} {e : Bool} (h : Spec.Name U text p e) : text.contains 92 = e := by
  cases h with
  | @char c t s _ h1 h2 =>
    have := (part_pos (start_part h1)).2
    rw [List.contains_cons, Parts.esc92 h2]
    simp [Ne.symm this]
  | esc => simp

theorem Name.ne_nil {U : Uni} {text p : List Nat} {e : Bool} (h : Spec.Name U text p e) : p ≠ [] ∧ text ≠ [] := by
  have : ∀ c, utf16 c ≠ [] := by intro c; unfold utf16; split <;> simp
  cases h with
  | @char c => exact ⟨by simp [this], by simp⟩
  | @esc _ n => exact ⟨by simp [this], by simp⟩

theorem identName_iff {U : Uni} {cs s rest : List Nat} :
    Json.lexIdent U cs = .ok s rest ↔
      ∃ text e, cs = text ++ rest ∧ Spec.Name U text s e ∧ Spec.NameEnd U rest := by
  constructor
  · intro h
    cases cs with
    | nil => simp [Json.lexIdent] at h
    | cons c cs =>
      simp only [Json.lexIdent] at h
      split at h
      · rename_i hc
        subst hc
        split at h
        · split at h
          · cases h
          · cases h
          · rename_i ds b v rest' hu
            split at h
            · rename_i hv
              obtain ⟨rfl, text, p, e, h1, h2, h3, h4⟩ := identLoop_ok h
              obtain ⟨m, h5, h6⟩ := unicode_iff.1 hu
              rw [isStart_iff] at hv
              refine ⟨92 :: (m ++ text), true, ?_, ?_, h4⟩
              · rw [h5, h1]; simp
              · rw [h3, units_eq]; exact .esc (UniEsc.std h6 (part_pos (start_part hv)).1) hv h2
            · cases h
        · cases h
      · split at h
        · rename_i hv
          obtain ⟨_, text, p, e, h1, h2, h3, h4⟩ := identLoop_ok h
          rw [isStart_iff] at hv
          refine ⟨c :: text, e, by rw [h1]; rfl, ?_, h4⟩
          rw [h3, units_eq]; exact .char hv h2
        · cases h
  · rintro ⟨text, e, rfl, hn, he⟩
    cases hn with
    | @char c t s _ h1 h2 =>
      simp only [List.cons_append, Json.lexIdent]
      rw [if_neg (part_pos (start_part h1)).2, if_pos ((isStart_iff U c).2 h1),
        identLoop_of h2 he (by simp; omega), units_eq]
    | @esc m n t s e h1 h2 h3 =>
      obtain ⟨r, rfl⟩ := UniEsc.head h1
      have hu := (unicode_iff (cs := r ++ (t ++ rest)) (rest := t ++ rest)).2 ⟨117 :: r, rfl, UniEsc.loose h1⟩
      have e1 : 92 :: (117 :: r ++ t) ++ rest = 92 :: 117 :: (r ++ (t ++ rest)) := by simp
      rw [e1]
      simp only [Json.lexIdent]
      rw [if_pos trivial, hu]
      dsimp only
      rw [if_pos ((isStart_iff U n).2 h2), identLoop_of h3 he (by simp; omega), units_eq]

theorem identName_fuel {U : Uni} {cs : List Nat} : Json.lexIdent U cs ≠ .fuel := by
  cases cs with
  | nil => simp [Json.lexIdent]
  | cons c cs =>
    simp only [Json.lexIdent]
    split
    · split
      · split
        · simp
        · simp
        · split
          · exact identLoop_fuel (by omega)
          · simp
      · simp
    · split
      · exact identLoop_fuel (by omega)
      · simp

/-- `lex_identifier`: the longest name, its code units, what is known of the word. -/
theorem lexIdent_iff {U : Uni} {cs rest : List Nat} {t : IdTok} :
    lexIdent U cs = .ok t rest ↔
      ∃ text, cs = text ++ rest ∧ Spec.Name U text t.value t.esc ∧ Spec.NameEnd U rest ∧
        t.word = Spec.wordOf t.value := by
  unfold lexIdent
  constructor
  · intro h
    cases hi : Json.lexIdent U cs with
    | ok s r =>
      rw [hi] at h
      simp only [Out.ok.injEq] at h
      obtain ⟨rfl, rfl⟩ := h
      obtain ⟨text, e, rfl, hn, he⟩ := identName_iff.1 hi
      refine ⟨text, rfl, ?_, he, wordLoop_wordTable (Name.ne_nil hn).1⟩
      dsimp only
      rw [read_append, Name.esc92 hn]; exact hn
    | err => rw [hi] at h; cases h
    | undef => rw [hi] at h; cases h
    | fuel => rw [hi] at h; cases h
  · rintro ⟨text, rfl, hn, he, hw⟩
    have hi := identName_iff.2 ⟨text, _, rfl, hn, he⟩
    rw [hi]
    dsimp only
    rw [wordLoop_wordTable (Name.ne_nil hn).1, read_append, Name.esc92 hn, ← hw]

/-! ### White space and comments -/

theorem skip_line {U : Uni} {m : List Nat} (hm : ∀ x ∈ m, ¬ IsLine x) {c : Nat} (hc : IsLine c) (t : List Nat) :
    skip U .line (m ++ c :: t) = skip U .space t := by
  induction m with
  | nil => simp only [List.nil_append, skip]; rw [if_pos ((isLine_iff c).2 hc)]
  | cons d m ih =>
    simp only [List.cons_append, skip]
    rw [if_neg (by rw [isLine_iff]; exact hm d (by simp)), ih (fun x hx => hm x (by simp [hx]))]

theorem skip_last {U : Uni} {m : List Nat} (hm : ∀ x ∈ m, ¬ IsLine x) : skip U .line m = some [] := by
  induction m with
  | nil => simp [skip]
  | cons d m ih =>
    simp only [skip]
    rw [if_neg (by rw [isLine_iff]; exact hm d (by simp)), ih (fun x hx => hm x (by simp [hx]))]

theorem skip_block_cons {U : Uni} {c : Nat} {cs : List Nat} (h : ∀ r, c :: cs ≠ 42 :: 47 :: r) :
    skip U .block (c :: cs) = skip U .block cs := by
  rw [skip]
  rintro r rfl h2
  exact h r (by rw [h2])

theorem Closes.tail {x : Nat} {m : List Nat} (h : Spec.Closes (x :: m)) : Spec.Closes m := by
  intro a b hab
  exact h (x :: a) b (by rw [List.cons_append, hab]; rfl)

theorem skip_block {U : Uni} {m : List Nat} (hm : Spec.Closes m) (t : List Nat) :
    skip U .block (m ++ 42 :: 47 :: t) = skip U .space t := by
  induction m with
  | nil => simp [skip]
  | cons d m ih =>
    rw [List.cons_append, skip_block_cons, ih (Closes.tail hm)]
    intro r hr
    obtain ⟨rfl, hr'⟩ := List.cons.inj hr
    cases m with
    | nil => simp at hr'
    | cons e m =>
      obtain ⟨rfl, -⟩ := List.cons.inj hr'
      have := hm [] (m ++ [42, 47]) rfl
      simp at this

theorem skip_stop {U : Uni} (hU : Spec.Fits U) {r : List Nat} (h : Spec.NoGap U r) : skip U .space r = some r := by
  obtain ⟨h1, h2, h3⟩ := h
  cases r with
  | nil => simp [skip]
  | cons c cs =>
    rw [skip]
    · rw [Next.cons, ← isWhite_iff hU] at h1
      rw [if_neg h1]
    · rintro d rfl rfl; exact h2 _ rfl
    · rintro d rfl rfl; exact h3 _ rfl

theorem skip_white {U : Uni} (hU : Spec.Fits U) {c : Nat} (h : Spec.IsWhite U c) (cs : List Nat) :
    skip U .space (c :: cs) = skip U .space cs := by
  have h47 : c ≠ 47 := by
    rintro rfl
    unfold Spec.IsWhite IsLine at h; omega
  rw [skip]
  · rw [if_pos ((isWhite_iff hU c).2 h)]
  · rintro d rfl; exact absurd rfl h47
  · rintro d rfl; exact absurd rfl h47

theorem skip_of {U : Uni} (hU : Spec.Fits U) {r g : List Nat} {fin : Bool} (h : Spec.Gap U fin g)
    (hf : fin = true → r = []) (hr : Spec.NoGap U r) : skip U .space (g ++ r) = some r := by
  induction h with
  | nil => exact skip_stop hU hr
  | white h1 _ ih => rw [List.cons_append, skip_white hU h1, ih hf]
  | @line _ m c t h1 h2 _ ih =>
    have e : 47 :: 47 :: (m ++ c :: t) ++ r = 47 :: 47 :: (m ++ c :: (t ++ r)) := by simp
    rw [e, skip, skip_line h1 h2, ih hf]
  | @last m h1 =>
    rw [hf rfl]
    simp only [List.append_nil, skip]
    exact skip_last h1
  | @block _ m t h1 _ ih =>
    have e : 47 :: 42 :: (m ++ 42 :: 47 :: t) ++ r = 47 :: 42 :: (m ++ 42 :: 47 :: (t ++ r)) := by simp
    rw [e, skip, skip_block h1, ih hf]

def SkipOk (U : Uni) (r : List Nat) : Json.Mode → List Nat → Prop
  | .space, cs => ∃ g, cs = g ++ r ∧ Spec.Gap U r.isEmpty g ∧ Spec.NoGap U r
  | .line, cs => (r = [] ∧ ∀ x ∈ cs, ¬ IsLine x) ∨
      ∃ m c g, cs = m ++ c :: (g ++ r) ∧ (∀ x ∈ m, ¬ IsLine x) ∧ IsLine c ∧ Spec.Gap U r.isEmpty g ∧ Spec.NoGap U r
  | .block, cs => ∃ m g, cs = m ++ 42 :: 47 :: (g ++ r) ∧ Spec.Closes m ∧ Spec.Gap U r.isEmpty g ∧ Spec.NoGap U r

theorem skip_ok {U : Uni} (hU : Spec.Fits U) (md : Json.Mode) (cs r : List Nat) :
    skip U md cs = some r → SkipOk U r md cs := by
  fun_induction skip U md cs with
  | case1 =>
    intro h
    cases h
    exact ⟨[], rfl, .nil, Next.nil, by simp, by simp⟩
  | case2 cs ih =>
    intro h
    rcases ih h with ⟨rfl, h1⟩ | ⟨m, c, g, rfl, h1, h2, h3, h4⟩
    · exact ⟨47 :: 47 :: cs, by simp, .last h1, Next.nil, by simp, by simp⟩
    · exact ⟨47 :: 47 :: (m ++ c :: g), by simp, .line h1 h2 h3, h4⟩
  | case3 cs ih =>
    intro h
    obtain ⟨m, g, rfl, h1, h2, h3⟩ := ih h
    exact ⟨47 :: 42 :: (m ++ 42 :: 47 :: g), by simp, .block h1 h2, h3⟩
  | case4 c cs hw h1 h2 ih =>
    intro h
    obtain ⟨g, rfl, h3, h4⟩ := ih h
    exact ⟨c :: g, rfl, .white ((isWhite_iff hU c).1 (by assumption)) h3, h4⟩
  | case5 c cs h1 h2 hw =>
    intro h
    cases h
    refine ⟨[], rfl, .nil, ?_, ?_, ?_⟩
    · rw [Next.cons, ← isWhite_iff hU]; assumption
    · intro r hr; obtain ⟨rfl, rfl⟩ := List.cons.inj hr; exact h1 _ rfl rfl
    · intro r hr; obtain ⟨rfl, rfl⟩ := List.cons.inj hr; exact h2 _ rfl rfl
  | case6 =>
    intro h
    cases h
    exact Or.inl ⟨rfl, by simp⟩
  | case7 c cs hc ih =>
    intro h
    obtain ⟨g, rfl, h3, h4⟩ := ih h
    exact Or.inr ⟨[], c, g, rfl, by simp, (isLine_iff c).1 hc, h3, h4⟩
  | case8 c cs hc ih =>
    intro h
    have hc' : ¬ IsLine c := by rw [← isLine_iff]; exact hc
    have key : ∀ m : List Nat, (∀ x ∈ m, ¬ IsLine x) → ∀ x ∈ c :: m, ¬ IsLine x := by
      intro m hm x hx
      rcases List.mem_cons.1 hx with rfl | hx
      · exact hc'
      · exact hm x hx
    rcases ih h with ⟨rfl, h1⟩ | ⟨m, d, g, rfl, h1, h2, h3, h4⟩
    · exact Or.inl ⟨rfl, key cs h1⟩
    · exact Or.inr ⟨c :: m, d, g, rfl, key m h1, h2, h3, h4⟩
  | case9 =>
    intro h; cases h
  | case10 cs ih =>
    intro h
    obtain ⟨g, rfl, h3, h4⟩ := ih h
    refine ⟨[], g, rfl, ?_, h3, h4⟩
    intro a b hab
    cases a with
    | nil => simpa using hab
    | cons x a =>
      have := congrArg List.length hab
      simp at this
      omega
  | case11 c cs hne ih =>
    intro h
    obtain ⟨m, g, rfl, h1, h2, h3⟩ := ih h
    refine ⟨c :: m, g, rfl, ?_, h2, h3⟩
    intro a b hab
    cases a with
    | nil =>
      simp only [List.nil_append, List.cons_append] at hab
      obtain ⟨rfl, hab'⟩ := List.cons.inj hab
      exfalso
      cases m with
      | nil => simp at hab'
      | cons e m =>
        obtain ⟨rfl, _⟩ := List.cons.inj hab'
        exact hne _ rfl rfl
    | cons x a =>
      obtain ⟨rfl, hab'⟩ := List.cons.inj hab
      exact h1 a b hab'

/-! ### The comment in the first line -/

theorem lineEnd_of {m : List Nat} (hm : ∀ x ∈ m, ¬ IsLine x) {c : Nat} (hc : IsLine c) (t : List Nat) :
    lineEnd (m ++ c :: t) = t := by
  induction m with
  | nil => simp only [List.nil_append, lineEnd]; rw [if_pos ((isLine_iff c).2 hc)]
  | cons d m ih =>
    simp only [List.cons_append, lineEnd]
    rw [if_neg (by rw [isLine_iff]; exact hm d (by simp)), ih (fun x hx => hm x (by simp [hx]))]

theorem lineEnd_spec (cs : List Nat) :
    (lineEnd cs = [] ∧ ∀ x ∈ cs, ¬ IsLine x) ∨ ∃ m c, cs = m ++ c :: lineEnd cs ∧ (∀ x ∈ m, ¬ IsLine x) ∧ IsLine c := by
  induction cs with
  | nil => exact Or.inl ⟨rfl, by simp⟩
  | cons d cs ih =>
    simp only [lineEnd]
    by_cases hd : isLine d = true
    · rw [if_pos hd]
      exact Or.inr ⟨[], d, rfl, by simp, (isLine_iff d).1 hd⟩
    · rw [if_neg hd]
      have hd' : ¬ IsLine d := by rw [← isLine_iff]; exact hd
      have key : ∀ m : List Nat, (∀ x ∈ m, ¬ IsLine x) → ∀ x ∈ d :: m, ¬ IsLine x := by
        intro m hm x hx
        rcases List.mem_cons.1 hx with rfl | hx
        · exact hd'
        · exact hm x hx
      rcases ih with ⟨h1, h2⟩ | ⟨m, c, h1, h2, h3⟩
      · exact Or.inl ⟨h1, key cs h2⟩
      · exact Or.inr ⟨d :: m, c, by rw [List.cons_append, ← h1], key m h2, h3⟩

/-! ### Regular expressions -/

theorem reBody_of {cls : Bool} {body : List Nat} (h : Spec.ReChars (· ≠ 93) cls body) (acc rest : List Nat) :
    reBody cls acc (body ++ 47 :: rest) = some (acc ++ body.flatMap utf16, rest) := by
  have hun : ∀ c, units c = utf16 c := units_eq
  have h92 : utf16 92 = [92] := by simp [utf16]
  have h91 : utf16 91 = [91] := by simp [utf16]
  have step : ∀ {c : Nat} {l : List Nat}, ¬ IsLine c → c ≠ 47 → c ≠ 92 → l ≠ [] → ∀ acc,
      reBody false acc (c :: l) = reBody (c == 91) (acc ++ units c) l := by
    intro c l h1 h2 h3 h4 acc
    cases l with
    | nil => exact absurd rfl h4
    | cons d ds =>
      rw [reBody]
      rw [if_neg (by rw [isLine_iff]; exact h1), if_neg h2, if_neg h3]
  induction h generalizing acc with
  | nil =>
    cases rest with
    | nil => simp [reBody]
    | cons d ds => simp [reBody, isLine]
  | @char c t h1 h2 h3 h4 _ ih =>
    have e : (c == 91) = false := by simpa using h4
    rw [List.cons_append, step h1 h3 h2 (by simp), e, ih]
    simp [hun]
  | @esc c t h1 _ ih =>
    simp only [List.cons_append]
    rw [reBody]
    rw [if_neg (by decide), if_neg (by decide), if_pos rfl, if_neg (by rw [isLine_iff]; exact h1), ih]
    simp [hun, h92]
  | @cls t _ ih =>
    rw [List.cons_append, step (by unfold IsLine; omega) (by decide) (by decide) (by simp)]
    rw [show (91 == 91) = true from rfl, ih]
    simp [hun]
  | @clsChar c t h1 h2 h3 _ ih =>
    simp only [List.cons_append]
    rw [reBody]
    rw [if_neg (by rw [isLine_iff]; exact h1)]
    have e : (!(c == 93)) = true := by simpa using h2
    rw [e, ih]
    simp [hun]
  | @clsEsc c t h1 h2 _ ih =>
    simp only [List.cons_append]
    rw [reBody]
    rw [if_neg (by decide)]
    rw [show (!((92 : Nat) == 93)) = true from rfl, reBody]
    rw [if_neg (by rw [isLine_iff]; exact h1)]
    have e : (!(c == 93)) = true := by simpa using h2
    rw [e, ih]
    simp [hun]
  | @clsEnd t _ ih =>
    simp only [List.cons_append]
    rw [reBody]
    rw [if_neg (by decide)]
    rw [show (!((93 : Nat) == 93)) = false from rfl, ih]
    simp [hun]

theorem reBody_ok (n : Nat) : ∀ {cls : Bool} {acc cs src rest : List Nat}, cs.length ≤ n →
    reBody cls acc cs = some (src, rest) →
    ∃ body, cs = body ++ 47 :: rest ∧ src = acc ++ body.flatMap utf16 ∧
      (¬ [92, 93] <:+: body → Spec.ReChars (· ≠ 93) cls body) := by
  have hun : ∀ c, units c = utf16 c := units_eq
  have h92 : utf16 92 = [92] := by simp [utf16]
  have sub : ∀ {a b : List Nat}, ¬ [92, 93] <:+: a ++ b → ¬ [92, 93] <:+: b := by
    intro a b h ⟨x, y, hxy⟩
    exact h ⟨a ++ x, y, by rw [← hxy]; simp⟩
  induction n with
  | zero =>
    intro cls acc cs src rest hn h
    obtain rfl := List.length_eq_zero_iff.1 (Nat.le_zero.1 hn)
    simp [reBody] at h
  | succ n ih =>
    intro cls acc cs src rest hn h
    cases cs with
    | nil => simp [reBody] at h
    | cons c cs =>
      cases cls with
      | true =>
        rw [reBody] at h
        split at h
        · cases h
        · rename_i hl
          rw [isLine_iff] at hl
          by_cases hc : c = 92
          · subst hc
            rw [show (!((92 : Nat) == 93)) = true from rfl] at h
            cases cs with
            | nil => simp [reBody] at h
            | cons d ds =>
              rw [reBody] at h
              split at h
              · cases h
              · rename_i hd
                rw [isLine_iff] at hd
                obtain ⟨body, rfl, rfl, hb⟩ := ih (by simp at hn ⊢; omega) h
                refine ⟨92 :: d :: body, rfl, by simp [hun], ?_⟩
                intro hno
                have hd93 : d ≠ 93 := by
                  rintro rfl
                  exact hno ⟨[], body, rfl⟩
                have e : (!(d == 93)) = true := by simpa using hd93
                rw [e] at hb
                exact .clsEsc hd hd93 (hb (sub (a := [92, d]) hno))
          · obtain ⟨body, rfl, rfl, hb⟩ := ih (by simpa using hn) h
            refine ⟨c :: body, rfl, by simp [hun], ?_⟩
            intro hno
            have hb := hb (sub (a := [c]) hno)
            by_cases h93 : c = 93
            · subst h93; exact .clsEnd hb
            · have e : (!(c == 93)) = true := by simpa using h93
              rw [e] at hb
              exact .clsChar hl h93 hc hb
      | false =>
        cases cs with
        | nil =>
          simp only [reBody] at h
          split at h
          · rename_i hc
            cases h
            exact ⟨[], by simp [hc], by simp, fun _ => .nil⟩
          · cases h
        | cons d ds =>
          rw [reBody] at h
          split at h
          · cases h
          · rename_i hl
            rw [isLine_iff] at hl
            split at h
            · rename_i hc
              cases h
              exact ⟨[], by simp [hc], by simp, fun _ => .nil⟩
            · rename_i h47
              split at h
              · rename_i hc
                subst hc
                split at h
                · cases h
                · rename_i hd
                  rw [isLine_iff] at hd
                  obtain ⟨body, rfl, rfl, hb⟩ := ih (by simp at hn ⊢; omega) h
                  exact ⟨92 :: d :: body, rfl, by simp [hun, h92], fun hno => .esc hd (hb (sub (a := [92, d]) hno))⟩
              · rename_i hc
                obtain ⟨body, hcs, rfl, hb⟩ := ih (by simpa using hn) h
                refine ⟨c :: body, by rw [hcs]; rfl, by simp [hun], ?_⟩
                intro hno
                have hb := hb (sub (a := [c]) hno)
                by_cases h91 : c = 91
                · subst h91; exact .cls hb
                · have e : (c == 91) = false := by simpa using h91
                  rw [e] at hb
                  exact .char hl hc h47 h91 hb

end Verif.Lex

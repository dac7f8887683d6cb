import Verif.Lemmas.LexTok

/-! Lemmas for C89: whole tokens. -/
namespace Verif.Lex
open Json (Out Uni isDigit isHex isLine units digitNext skip units_eq isLine_iff isDigit_iff)
open Json.Spec (IsDigit IsHex IsLine utf16)
open Spec (Next Hexes)

/-! ### Braces -/

/-- Open braces, `brace_level`, `template_brace_level`. -/
inductive Braces : List Bool → Int → List Int → Prop
  | nil {l} : Braces [] l []
  | brace {op l ts} : Braces op l ts → Braces (false :: op) (l + 1) ts
  | templ {op l ts} : Braces op l ts → Braces (true :: op) l (l :: ts)

theorem Braces.le {op l ts} (h : Braces op l ts) : ∀ x ∈ ts, x ≤ l := by
  induction h with
  | nil => simp
  | brace _ ih => intro x hx; have := ih x hx; omega
  | templ _ ih =>
    intro x hx
    rcases List.mem_cons.1 hx with rfl | hx
    · omega
    · exact ih x hx

theorem Braces.cont {op l ts} (h : Braces op l ts) : (op.head? == some true) = true ↔ ts.head? = some l := by
  cases h with
  | nil => simp
  | @brace op l ts h =>
    cases ts with
    | nil => simp
    | cons x ts =>
      have := h.le x (by simp)
      simp
      omega
  | templ h => simp

theorem Braces.pop {op l ts} (h : Braces op l ts) (hc : ts.head? ≠ some l) : Braces (op.drop 1) (l - 1) ts := by
  cases h with
  | nil => exact .nil
  | @brace op l ts h =>
    have : l + 1 - 1 = l := by omega
    rw [this]; exact h
  | templ h => simp at hc

theorem Braces.popT {op l ts} (h : Braces op l ts) (hc : ts.head? = some l) : Braces (op.drop 1) l (ts.drop 1) := by
  cases h with
  | nil => simp at hc
  | @brace op l ts h =>
    have := (Braces.brace h).cont.2 hc
    simp at this
  | templ h => exact h

/-! ### Beginnings of tokens -/

/-- What is to be known about the punctuators. -/
def punctOk (p : List Nat) : Bool :=
  match p with
  | [] => false
  | c :: t => c ≠ 34 && c ≠ 39 && c ≠ 96 && c ≠ 92 && c ≠ 35 && c ≠ 36 && c ≠ 95 && c < 128 && !isDigit c &&
      !(65 ≤ c && c ≤ 90) && !(97 ≤ c && c ≤ 122) && (c ≠ 46 || t = [] || t = [46, 46]) &&
      (c ≠ 123 || t = []) && (c ≠ 125 || t = []) && (c ≠ 47 || t = [] || t = [61])

theorem puncts_ok : ∀ p ∈ Spec.puncts.map chars, punctOk p = true := by decide +kernel

structure PunctHead (c : Nat) (t : List Nat) : Prop where
  h34 : c ≠ 34
  h39 : c ≠ 39
  h96 : c ≠ 96
  h92 : c ≠ 92
  h35 : c ≠ 35
  digit : ¬ IsDigit c
  start : ∀ U : Uni, ¬ Spec.IsStart U c
  dot : c = 46 → t = [] ∨ t = [46, 46]
  left : c = 123 → t = []
  right : c = 125 → t = []
  div : c = 47 → t = [] ∨ t = [61]

theorem punct_head {p : List Nat} (h : p ∈ Spec.puncts.map chars) : ∃ c t, p = c :: t ∧ PunctHead c t := by
  have := puncts_ok p h
  cases p with
  | nil => cases this
  | cons c t =>
    refine ⟨c, t, rfl, ?_⟩
    simp only [punctOk, Bool.and_eq_true, Bool.or_eq_true, decide_eq_true_eq, Bool.not_eq_true', Bool.and_eq_false_iff,
      decide_eq_false_iff_not] at this
    obtain ⟨⟨⟨⟨⟨⟨⟨⟨⟨⟨⟨⟨⟨⟨h1, h2⟩, h3⟩, h4⟩, h5⟩, h6⟩, h7⟩, h8⟩, h9⟩, h10⟩, h11⟩, h12⟩, h13⟩, h14⟩, h15⟩ := this
    refine ⟨h1, h2, h3, h4, h5, ?_, ?_, ?_, ?_, ?_, ?_⟩
    · rw [← isDigit_iff, h9]; simp
    · intro U hs; unfold Spec.IsStart at hs; omega
    · intro hc; rcases h12 with (h | h) | h
      · exact absurd hc h
      · exact Or.inl h
      · exact Or.inr h
    · intro hc; exact h13.resolve_left (by simp [hc])
    · intro hc; exact h14.resolve_left (by simp [hc])
    · intro hc; rcases h15 with (h | h) | h
      · exact absurd hc h
      · exact Or.inl h
      · exact Or.inr h

/-- There is one longest punctuator. -/
theorem lexPunct_of {w rest : List Nat} (h : Spec.Longest w rest) : lexPunct (w ++ rest) = .ok w rest := by
  rcases lexPunct_spec (w ++ rest) with ⟨p, r, h1, h2, h3⟩ | ⟨_, h2⟩
  · have e1 := h3.2 w rest h2.symm h.1
    have e2 := h.2 p r h2 h3.1
    have := List.append_inj h2 (by omega)
    rw [h1, this.1, this.2]
  · exact absurd h.1 (h2 w rest rfl)

theorem lexPunct_ok {cs w rest : List Nat} (h : lexPunct cs = .ok w rest) : cs = w ++ rest ∧ Spec.Longest w rest := by
  rcases lexPunct_spec cs with ⟨p, r, h1, h2, h3⟩ | ⟨h1, _⟩
  · rw [h1] at h
    cases h
    exact ⟨h2.symm, h3⟩
  · rw [h1] at h; cases h

theorem lexPunct_fine (cs : List Nat) : lexPunct cs ≠ .undef ∧ lexPunct cs ≠ .fuel := by
  rcases lexPunct_spec cs with ⟨p, r, h1, _⟩ | ⟨h1, _⟩ <;> simp [h1]

theorem longest_single {c : Nat} (hc : [c] ∈ Spec.puncts.map chars) (h : ∀ t, PunctHead c t → t = []) (rest : List Nat) :
    Spec.Longest [c] rest := by
  refine ⟨⟨hc, by simp⟩, ?_⟩
  intro p t hp hat
  obtain ⟨c', t', rfl, hh⟩ := punct_head hat.1
  obtain ⟨rfl, _⟩ := List.cons.inj hp
  rw [h t' hh]
  simp

theorem Num.head {w : List Nat} {b ds n l} (h : Spec.Num w b ds n l) :
    ∃ c t, w = c :: t ∧ (IsDigit c ∨ c = 46 ∧ Next IsDigit t) := by
  have dec : ∀ {t ds : List Nat}, Spec.Sep IsDigit t ds → ∃ c r, t = c :: r ∧ IsDigit c := by
    intro t ds h
    cases h with
    | one h => exact ⟨_, _, rfl, h⟩
    | cons h _ => exact ⟨_, _, rfl, h⟩
    | sep h _ => exact ⟨_, _, rfl, h⟩
  have decI : ∀ {t ds : List Nat}, Spec.DecInt t ds → ∃ c r, t = c :: r ∧ IsDigit c := by
    rintro t ds (⟨rfl, _⟩ | ⟨h, _⟩)
    · exact ⟨48, [], rfl, by unfold IsDigit; omega⟩
    · exact dec h
  have h48 : IsDigit 48 := by unfold IsDigit; omega
  cases h with
  | bin _ _ _ => exact ⟨_, _, rfl, Or.inl h48⟩
  | oct _ _ _ => exact ⟨_, _, rfl, Or.inl h48⟩
  | hex _ _ _ => exact ⟨_, _, rfl, Or.inl h48⟩
  | int h _ => obtain ⟨c, r, rfl, hc⟩ := decI h; exact ⟨_, _, rfl, Or.inl hc⟩
  | dec h _ _ => obtain ⟨c, r, rfl, hc⟩ := decI h; exact ⟨_, _, rfl, Or.inl hc⟩
  | point h _ => obtain ⟨c, r, rfl, hc⟩ := dec h; exact ⟨_, _, rfl, Or.inr ⟨rfl, c, _, rfl, hc⟩⟩
  | nonOctal _ _ _ => exact ⟨_, _, rfl, Or.inl h48⟩
  | legacy _ => exact ⟨_, _, rfl, Or.inl h48⟩

theorem Name.head {U : Uni} {w s e} (h : Spec.Name U w s e) :
    ∃ c t, w = c :: t ∧ (Spec.IsStart U c ∨ c = 92 ∧ ∃ r, t = 117 :: r) := by
  cases h with
  | char h _ => exact ⟨_, _, rfl, Or.inl h⟩
  | esc h _ _ =>
    obtain ⟨r, rfl⟩ := UniEsc.head h
    exact ⟨_, _, rfl, Or.inr ⟨rfl, _, rfl⟩⟩

/-! ### Tokens are read -/

/-- The tokens of the standard that are read: of the others see the violations. -/
def Readable (w rest : List Nat) : Tok → Prop
  | .num t => t.legacy = true → 95 ∉ w ∧ (t.base = 8 → ¬ Next (· = 46) rest)
  | .templ _ _ => Spec.Small w ∧ ¬ empty <:+: w
  | _ => True

theorem Small.head {a b : List Nat} (h : Spec.Small (a ++ b)) : Spec.Small a := by
  intro a' ds c b' n h1 h2 h3
  exact h a' ds c (b' ++ b) n (by rw [h1]; simp) h2 h3

theorem templAt_of {head last : Bool} {s : St} {body w rest : List Nat} {cooked} (h : Spec.TChars False body cooked)
    (hf : Fin last w rest) (hs : Spec.Small body) (he : ¬ empty <:+: body) :
    templAt head s (body ++ w) = .ok (.templ head ⟨last, cooked, body.flatMap utf16⟩, templSt head last s) rest := by
  have h' := TChars.loose h he
  obtain ⟨uc, hu, ht⟩ := lexTempl_complete (f := (body ++ w).length + 1) (bad := false) (uc := []) (raw := []) h' hf
    (by simp; omega) hs
  simp only [List.nil_append] at hu ht
  rw [templTok_eq h' hu] at ht
  unfold templAt
  rw [ht]

/-- The state behind a template. -/
theorem templSt_head {op : List Bool} {s : St} (hb : Braces op s.level s.templs) (last : Bool) (cooked raw) :
    Braces (Spec.after op (.templ true ⟨last, cooked, raw⟩)) (templSt true last s).level (templSt true last s).templs ∧
      (templSt true last s).first = s.first := by
  cases last with
  | true => exact ⟨hb, rfl⟩
  | false => exact ⟨.templ hb, rfl⟩

theorem templSt_cont {op : List Bool} {s : St} (hb : Braces op s.level s.templs) (hc : s.templs.head? = some s.level)
    (last : Bool) (cooked raw) :
    Braces (Spec.after op (.templ false ⟨last, cooked, raw⟩)) (templSt false last s).level (templSt false last s).templs ∧
      (templSt false last s).first = s.first := by
  cases last with
  | true => exact ⟨hb.popT hc, rfl⟩
  | false => exact ⟨hb, rfl⟩

theorem takeWhile_of {p : Nat → Bool} {a b : List Nat} (ha : ∀ c ∈ a, p c = true) (hb : ¬ Next (fun c => p c = true) b) :
    (a ++ b).takeWhile p = a ∧ (a ++ b).dropWhile p = b := by
  induction a with
  | nil =>
    cases b with
    | nil => exact ⟨rfl, rfl⟩
    | cons c b =>
      rw [Next.cons] at hb
      simp [hb]
  | cons c a ih =>
    have hc := ha c (by simp)
    obtain ⟨h1, h2⟩ := ih (fun x hx => ha x (by simp [hx]))
    simp [hc, h1, h2]

theorem takeWhile_ok {p : Nat → Bool} (a : List Nat) :
    (∀ c ∈ a.takeWhile p, p c = true) ∧ ¬ Next (fun c => p c = true) (a.dropWhile p) ∧ a.takeWhile p ++ a.dropWhile p = a := by
  induction a with
  | nil => exact ⟨by simp, Next.nil, rfl⟩
  | cons c a ih =>
    by_cases hc : p c = true
    · simp only [List.takeWhile_cons, List.dropWhile_cons, hc, if_true]
      refine ⟨?_, ih.2.1, by rw [List.cons_append, ih.2.2]⟩
      intro x hx
      rcases List.mem_cons.1 hx with rfl | hx
      · exact hc
      · exact ih.1 x hx
    · simp only [List.takeWhile_cons, List.dropWhile_cons, hc]
      refine ⟨by simp, ?_, by simp⟩
      simpa [Next.cons] using hc

theorem tokenAt_of {U : Uni} {m : Mode} {s : St} {op : List Bool} {w rest r : List Nat} {c : Nat} {tok : Tok}
    (h : Spec.Token U False (· ≠ 93) m (op.head? == some true) w rest tok) (hr : Readable w rest tok)
    (hb : Braces op s.level s.templs) (hw : w ++ rest = c :: r) :
    ∃ tok' s', tokenAt U m s c r = .ok (tok', s') rest ∧ Spec.norm tok' = Spec.norm tok ∧
      Braces (Spec.after op tok) s'.level s'.templs ∧ s'.first = s.first := by
  have hcont := hb.cont
  generalize hg : (op.head? == some true) = cont at h hcont
  cases h with
  | fin => cases hw
  | @str q body v e l u _ hq hc hu =>
    rw [List.cons_append] at hw
    obtain ⟨rfl, rfl⟩ := List.cons.inj hw
    refine ⟨_, s, ?_, rfl, hb, rfl⟩
    have h1 := lexString_complete (q := q) (by unfold IsDigit; omega) (by omega) (Chars.loose hc) rest
      (f := (body ++ [q] ++ rest).length + 1) (by simp; omega) ⟨[], false, false⟩
    have e1 : body ++ [q] ++ rest = body ++ q :: rest := by simp
    unfold tokenAt
    have e2 : (decide (q = 34) || decide (q = 39)) = true := by simpa using hq
    rw [if_pos e2]
    rw [e1] at h1 ⊢
    rw [h1]
    have e3 : unpaired v = u := by
      have := unpaired_iff v
      cases u <;> cases h : unpaired v <;> simp_all
    simp [Out.map, e3]
  | @num w rest base ds big leg hn he hst =>
    obtain ⟨buf, h1, h2⟩ := lexNumber_of hn he hst hr
    obtain ⟨c', t', rfl, hhead⟩ := Num.head hn
    rw [List.cons_append] at hw h1
    obtain ⟨rfl, rfl⟩ := List.cons.inj hw
    have h3 : tokenAt U m s c' (t' ++ rest) = .ok (.num ⟨base, buf, big, leg⟩, s) rest := by
      unfold tokenAt
      rcases hhead with hd | ⟨rfl, d, r, rfl, hd⟩
      · have e2 := (isDigit_iff c').2 hd
        unfold IsDigit at hd
        rw [if_neg (by simp; omega), if_neg (by omega), if_neg (by omega), if_neg (by omega), if_neg (by omega),
          if_neg (by omega), if_neg (by omega), if_neg (by omega), if_pos e2, h1]
        rfl
      · have e2 : digitNext (d :: r ++ rest) = true := (isDigit_iff d).2 hd
        rw [if_neg (by simp), if_pos rfl, if_pos e2, h1]
        rfl
    refine ⟨_, s, h3, ?_, hb, rfl⟩
    rcases h2 with rfl | ⟨rfl, rfl⟩ <;> simp [Spec.norm]
  | @punct w rest hl h46 hdiv hc =>
    obtain ⟨c', t, rfl, hp⟩ := punct_head hl.1.1
    have hx := lexPunct_of hl
    rw [List.cons_append] at hw
    obtain ⟨rfl, rfl⟩ := List.cons.inj hw
    rw [List.cons_append] at hx
    unfold tokenAt
    have e1 : (decide (c' = 34) || decide (c' = 39)) = false := by simp [hp.h34, hp.h39]
    have e2 : isDigit c' = false := by
      have := hp.digit
      rw [← isDigit_iff] at this
      simpa using this
    have e3 : U.isStart c' = false := by
      have := hp.start U
      rw [← isStart_iff] at this
      simpa using this
    rw [e1, if_neg (by simp), if_neg hp.h96, if_neg hp.h92, if_neg hp.h35, e2, e3, hx]
    have af : c' ≠ 123 → c' ≠ 125 → Spec.after op (.punct (c' :: t)) = op := by
      intro h1 h2
      simp [Spec.after, h1, h2]
    by_cases h1 : c' = 46
    · subst h1
      have : digitNext (t ++ rest) = false := by
        have h2 : ¬ Next IsDigit (t ++ rest) := by
          rcases hp.dot rfl with rfl | rfl
          · exact h46 rfl
          · rw [List.cons_append, Next.cons]; unfold IsDigit; omega
        rw [← digitNext_iff] at h2
        simpa using h2
      rw [if_pos rfl, this]
      exact ⟨_, s, rfl, rfl, by rw [af (by omega) (by omega)]; exact hb, rfl⟩
    · rw [if_neg h1]
      by_cases h2 : c' = 47
      · have : m.div = true := by
          cases hd : m.div with
          | true => rfl
          | false => exact absurd ((Next.cons c' t).2 h2) (hdiv hd)
        rw [if_pos h2, this]
        exact ⟨_, s, rfl, rfl, by rw [af (by omega) (by omega)]; exact hb, rfl⟩
      · rw [if_neg h2]
        by_cases h3 : c' = 123
        · have := hp.left h3
          subst h3 this
          rw [if_pos rfl]
          exact ⟨_, _, rfl, rfl, .brace hb, rfl⟩
        · rw [if_neg h3]
          by_cases h4 : c' = 125
          · have := hp.right h4
            subst h4 this
            have hne : s.templs.head? ≠ some s.level := by
              intro hh
              exact hc (hcont.2 hh) rfl
            rw [if_pos rfl, if_neg hne]
            exact ⟨_, _, rfl, rfl, hb.pop hne, rfl⟩
          · rw [if_neg h4]
            exact ⟨_, s, rfl, rfl, by rw [af h3 h4]; exact hb, rfl⟩
  | @head body cooked _ ht =>
    rw [List.cons_append] at hw
    obtain ⟨rfl, rfl⟩ := List.cons.inj hw
    have := templAt_of (head := true) (s := s) ht (w := 36 :: 123 :: rest) (rest := rest) (last := false) (Or.inr ⟨rfl, rfl⟩)
      (Small.head (Small.tail (a := [96]) hr.1)) (infix_head (infix_tail (a := [96]) hr.2))
    refine ⟨_, _, ?_, rfl, templSt_head hb false _ _⟩
    rw [← this]
    simp [tokenAt]
  | @plain body cooked _ ht =>
    rw [List.cons_append] at hw
    obtain ⟨rfl, rfl⟩ := List.cons.inj hw
    have := templAt_of (head := true) (s := s) ht (w := 96 :: rest) (rest := rest) (last := true) (Or.inl ⟨rfl, rfl⟩)
      (Small.head (Small.tail (a := [96]) hr.1)) (infix_head (infix_tail (a := [96]) hr.2))
    refine ⟨_, _, ?_, rfl, templSt_head hb true _ _⟩
    rw [← this]
    simp [tokenAt]
  | @middle body cooked _ hc ht =>
    rw [List.cons_append] at hw
    obtain ⟨rfl, rfl⟩ := List.cons.inj hw
    have := templAt_of (head := false) (s := s) ht (w := 36 :: 123 :: rest) (rest := rest) (last := false) (Or.inr ⟨rfl, rfl⟩)
      (Small.head (Small.tail (a := [125]) hr.1)) (infix_head (infix_tail (a := [125]) hr.2))
    refine ⟨_, _, ?_, rfl, templSt_cont hb (hcont.1 hc) false _ _⟩
    rw [← this]
    simp [tokenAt, hcont.1 hc]
  | @tail body cooked _ hc ht =>
    rw [List.cons_append] at hw
    obtain ⟨rfl, rfl⟩ := List.cons.inj hw
    have := templAt_of (head := false) (s := s) ht (w := 96 :: rest) (rest := rest) (last := true) (Or.inl ⟨rfl, rfl⟩)
      (Small.head (Small.tail (a := [125]) hr.1)) (infix_head (infix_tail (a := [125]) hr.2))
    refine ⟨_, _, ?_, rfl, templSt_cont hb (hcont.1 hc) true _ _⟩
    rw [← this]
    simp [tokenAt, hcont.1 hc]
  | @regexp body flags _ hd hbody hfl hre =>
    rw [List.cons_append] at hw
    obtain ⟨rfl, rfl⟩ := List.cons.inj hw
    refine ⟨_, s, ?_, rfl, hb, rfl⟩
    have h1 := reBody_of hbody.1 [] (flags ++ rest)
    obtain ⟨h2, h3⟩ := takeWhile_of (p := U.isCont) (a := flags) (b := rest) (fun c hc => (isCont_iff U c).2 (hfl c hc)) (by
      rintro ⟨c, r, h4, h5⟩
      exact hre ⟨c, r, h4, (isCont_iff U c).1 h5⟩)
    have e1 : body ++ 47 :: flags ++ rest = body ++ 47 :: (flags ++ rest) := by simp
    unfold tokenAt
    rw [if_neg (by simp), if_neg (by simp), if_pos rfl, hd]
    simp only [Bool.false_eq_true, if_false, lexRegexp]
    rw [e1, h1]
    simp [h2, h3, Out.map, units_fun]
  | @priv w v e _ hn he =>
    rw [List.cons_append] at hw
    obtain ⟨rfl, rfl⟩ := List.cons.inj hw
    refine ⟨_, s, ?_, rfl, hb, rfl⟩
    have := identName_iff.2 ⟨w, e, rfl, hn, he⟩
    simp [tokenAt, lexPrivate, this, Out.map]
  | @ident w v e _ hn he =>
    have h1 : lexIdent U (w ++ rest) = .ok ⟨v, Spec.wordOf v, e⟩ rest := lexIdent_iff.2 ⟨w, rfl, hn, he, rfl⟩
    obtain ⟨c', t, rfl, hh⟩ := Name.head hn
    rw [List.cons_append] at hw
    obtain ⟨rfl, rfl⟩ := List.cons.inj hw
    refine ⟨_, s, ?_, rfl, hb, rfl⟩
    rw [List.cons_append] at h1
    unfold tokenAt
    rcases hh with hh | ⟨rfl, r, rfl⟩
    · have e2 : isDigit c' = false := by
        have : ¬ IsDigit c' := by unfold Spec.IsStart at hh; unfold IsDigit; omega
        rw [← isDigit_iff] at this
        simpa using this
      have e1 : (decide (c' = 34) || decide (c' = 39)) = false := by
        unfold Spec.IsStart at hh
        simp; omega
      have e3 := (isStart_iff U c').2 hh
      unfold Spec.IsStart at hh
      rw [e1, if_neg (by simp), if_neg (by omega), if_neg (by omega), if_neg (by omega), if_neg (by omega), if_neg (by omega),
        if_neg (by omega), if_neg (by omega), e2, if_neg (by simp), e3, if_pos rfl, h1]
      rfl
    · rw [h1]
      simp [Out.map]

end Verif.Lex

import Verif.Model.ParseNum
import Verif.Lemmas.StrNumSound

/-! Helper lemmas for C83. -/
namespace Verif.StrNum
open Json (Uni isDigit)
open Spec (White Digits Exp Dec Modest LongExp Longest Strip FloatLit InfLike Huge Parts)

/-! ## The C string -/

theorem not_white {U : Uni} (T : Known U) {c : Nat} (h : ¬ White c) (h' : c ≠ 0x85) : U.isWhite c = false := by
  cases hw : U.isWhite c with
  | false => rfl
  | true => exact absurd (of_white T hw h') h

theorem dropWhile_all {p : Nat → Bool} : ∀ {w b : List Nat}, (∀ c, c ∈ w → p c = true) → (∀ c, b.head? = some c → p c = false) →
    (w ++ b).dropWhile p = b
  | [], [], _, _ => rfl
  | [], c :: b, _, hb => by rw [List.nil_append, List.dropWhile_cons_of_neg (by simp [hb c rfl])]
  | c :: w, b, hw, hb => by
    rw [List.cons_append, List.dropWhile_cons_of_pos (hw c List.mem_cons_self)]
    exact dropWhile_all (fun x hx => hw x (List.mem_cons_of_mem _ hx)) hb

/-- The C string is a start of the text, up to the end, white space or a null character. -/
theorem cstr_prefix (U : Uni) (b : List Nat) : ∃ z, b = cstr ((b.reverse.dropWhile U.isWhite).reverse) ++ z ∧
    ∀ c, z.head? = some c → U.isWhite c = true ∨ c = 0 := by
  have h1 : b = (b.reverse.dropWhile U.isWhite).reverse ++ (b.reverse.takeWhile U.isWhite).reverse := by
    rw [← List.reverse_append, List.takeWhile_append_dropWhile, List.reverse_reverse]
  have hw : ∀ c, c ∈ (b.reverse.takeWhile U.isWhite).reverse → U.isWhite c = true := by
    intro c hc
    rw [List.mem_reverse] at hc
    exact List.all_eq_true.1 List.all_takeWhile c hc
  revert hw h1
  generalize (b.reverse.dropWhile U.isWhite).reverse = b1
  generalize (b.reverse.takeWhile U.isWhite).reverse = ws
  intro h1 hw
  refine ⟨b1.dropWhile (· != 0) ++ ws, ?_, ?_⟩
  · unfold cstr; rw [← List.append_assoc, List.takeWhile_append_dropWhile]; exact h1
  · intro c hc
    have hd := List.head?_dropWhile_not (fun x : Nat => x != 0) b1
    cases hb : b1.dropWhile (· != 0) with
    | nil =>
      rw [hb, List.nil_append] at hc
      cases ws with
      | nil => cases hc
      | cons x ws => cases hc; exact .inl (hw _ List.mem_cons_self)
    | cons x l =>
      rw [hb] at hc hd
      cases hc
      right
      simpa using hd

theorem cstr_strip {U : Uni} (T : Known U) {s b : List Nat} (h : Strip s b) (h85 : b.head? ≠ some 0x85) :
    ∃ z, b = cstr (trim U s) ++ z ∧ ∀ c, z.head? = some c → U.isWhite c = true ∨ c = 0 := by
  obtain ⟨⟨w, rfl, hw⟩, hb⟩ := h
  have : (w ++ b).dropWhile U.isWhite = b := dropWhile_all (fun c hc => white_of T (hw c hc))
    (fun c hc => not_white T (hb c hc) (fun e => h85 (by rw [hc, e])))
  unfold trim
  rw [this]
  exact cstr_prefix U b

/-- A character that can be in a literal. -/
def Solid (c : Nat) : Prop := 33 ≤ c ∧ c < 128

theorem Solid.not {U : Uni} {c : Nat} (h : Solid c) : ¬ (U.isWhite c = true ∨ c = 0) := by
  unfold Solid at h
  unfold Uni.isWhite
  rw [if_pos h.2]
  simp; omega

/-- Literals are not cut off. -/
theorem solid_prefix {c z l r : List Nat} {bad : Nat → Prop} (hz : ∀ x, z.head? = some x → bad x) (hl : ∀ x, x ∈ l → ¬ bad x)
    (e : c ++ z = l ++ r) : ∃ r', c = l ++ r' ∧ r = r' ++ z := by
  rcases List.append_eq_append_iff.1 e with ⟨a, h1, h2⟩ | ⟨a, h1, h2⟩
  · cases a with
    | nil => exact ⟨[], by simpa using h1.symm, by simpa using h2.symm⟩
    | cons x a =>
      exfalso
      rw [h2] at hz
      exact hl x (by rw [h1]; simp) (hz x rfl)
  · exact ⟨a, h1, h2⟩

theorem digits_solid {base : Nat} {ds : List Nat} (h : Digits base ds) : ∀ c, c ∈ ds → Solid c := by
  intro c hc
  have := (h c hc).1
  unfold Solid; omega

theorem solid_append {a b : List Nat} (h : ∀ c, c ∈ a → Solid c) (h' : ∀ c, c ∈ b → Solid c) : ∀ c, c ∈ a ++ b → Solid c := by
  intro c hc
  rcases List.mem_append.1 hc with hc | hc
  · exact h c hc
  · exact h' c hc

theorem solid_cons {a : Nat} {b : List Nat} (h : Solid a) (h' : ∀ c, c ∈ b → Solid c) : ∀ c, c ∈ a :: b → Solid c := by
  intro c hc
  rcases List.mem_cons.1 hc with rfl | hc
  · exact h
  · exact h' c hc

theorem exp_solid {es : List Nat} {e : Int} (h : Exp es e) : ∀ c, c ∈ es → Solid c := by
  cases h with
  | none => intro c hc; cases hc
  | plain h _ hd => exact solid_cons (by unfold Solid; omega) (digits_solid hd)
  | plus h _ hd => exact solid_cons (by unfold Solid; omega) (solid_cons (by unfold Solid; omega) (digits_solid hd))
  | minus h _ hd => exact solid_cons (by unfold Solid; omega) (solid_cons (by unfold Solid; omega) (digits_solid hd))

theorem dec_solid {t : List Nat} {m n : Nat} {x : Int} (h : Dec t m x n) : ∀ c, c ∈ t → Solid c := by
  cases h with
  | int _ hd he => exact solid_append (digits_solid hd) (exp_solid he)
  | point _ hd hf he => exact solid_append (digits_solid hd) (solid_cons (by unfold Solid; omega) (solid_append (digits_solid hf) (exp_solid he)))
  | lead _ hf he => exact solid_cons (by unfold Solid; omega) (solid_append (digits_solid hf) (exp_solid he))

theorem sign_solid {t : List Nat} {n : Bool} (h : Spec.Sign t n) : ∀ c, c ∈ t → Solid c := by
  cases h <;> intro c hc <;> simp at hc <;> unfold Solid <;> omega

theorem floatLit_solid {t : List Nat} (h : FloatLit t) : ∀ c, c ∈ t → Solid c := by
  cases h with
  | dec hs hd => exact solid_append (sign_solid hs) (dec_solid hd)
  | inf hs =>
    refine solid_append (sign_solid hs) ?_
    intro c hc
    simp [Spec.infinity] at hc
    unfold Solid
    omega

/-! ## `strtod` and its sign -/

/-- No sign comes next. -/
def NoSign (r : List Nat) : Prop := ∀ c, r.head? = some c → c ≠ 43 ∧ c ≠ 45

theorem scanNum_nil (neg : Bool) : scanNum neg [] = .none := rfl

theorem strtod_sign {c : List Nat} (h : ∀ x, c.head? = some x → isSpace x = false) :
    ∃ sg neg r, c = sg ++ r ∧ Spec.Sign sg neg ∧ (sg = [] → NoSign r) ∧ strtod c = scanNum neg r := by
  cases c with
  | nil => exact ⟨[], false, [], rfl, .none, (fun _ x hx => by cases hx), rfl⟩
  | cons x r =>
    have hx := h x rfl
    by_cases h45 : x = 45
    · subst h45
      refine ⟨[45], true, r, rfl, .minus, (fun h => by cases h), ?_⟩
      rw [strtod, if_pos rfl]
      cases r <;> rfl
    · by_cases h43 : x = 43
      · subst h43
        refine ⟨[43], false, r, rfl, .plus, (fun h => by cases h), ?_⟩
        rw [strtod, if_neg h45, if_pos rfl]
        cases r <;> rfl
      · refine ⟨[], false, x :: r, rfl, .none, (fun _ y hy => by cases hy; exact ⟨h43, h45⟩), ?_⟩
        rw [strtod, if_neg h45, if_neg h43, if_neg]
        simp [isSpace] at hx
        omega

/-- There is one way to take off a sign. -/
theorem sign_split {sg sg' r r' : List Nat} {neg neg' : Bool} (hs : Spec.Sign sg neg) (hs' : Spec.Sign sg' neg')
    (hn : sg = [] → NoSign r) (hn' : sg' = [] → NoSign r') (e : sg ++ r = sg' ++ r') : sg = sg' ∧ neg = neg' ∧ r = r' := by
  cases hs <;> cases hs' <;> simp only [List.nil_append, List.cons_append] at e
  · exact ⟨rfl, rfl, e⟩
  · exact absurd rfl (hn rfl 43 (by rw [e]; rfl)).1
  · exact absurd rfl (hn rfl 45 (by rw [e]; rfl)).2
  · exact absurd rfl (hn' rfl 43 (by rw [← e]; rfl)).1
  · cases e; exact ⟨rfl, rfl, rfl⟩
  · cases e
  · exact absurd rfl (hn' rfl 45 (by rw [← e]; rfl)).2
  · cases e
  · cases e; exact ⟨rfl, rfl, rfl⟩

theorem dec_noSign {t u : List Nat} {m n : Nat} {x : Int} (h : Dec t m x n) : NoSign (t ++ u) := by
  intro c hc
  have := dec_next (w := u) h c hc
  exact ⟨this.1, this.2.1⟩

theorem isDec_head {t : List Nat} (h : IsDec t) : ∃ c r, t = c :: r ∧ (isDigit c = true ∨ c = 46) := by
  obtain ⟨m, x, n, h⟩ := h
  rcases dec_head h with ⟨d, r, rfl, hd⟩ | ⟨d, r, rfl, hd⟩
  · exact ⟨d, r, rfl, .inl hd⟩
  · exact ⟨46, _, rfl, .inr rfl⟩

/-! ## The size -/

theorem huge_same {m m' : Nat} {e e' : Int} (h : Same m e m' e') : Huge m' e' ↔ Huge m e := by
  have hpos : ∀ k, 0 < (2 ^ 1024 - 2 ^ 970) * 10 ^ k := fun k => Nat.mul_pos (Nat.sub_pos_of_lt (Nat.pow_lt_pow_right (by decide) (by decide))) (Nat.pow_pos (by decide))
  rcases h with ⟨rfl, rfl⟩ | ⟨k, rfl, rfl⟩
  · unfold Huge
    rw [Nat.zero_mul, Nat.zero_mul]
    have h1 := hpos (-e).toNat
    have h2 := hpos (-e').toNat
    omega
  · unfold Huge
    generalize (2 ^ 1024 - 2 ^ 970) = B
    obtain ⟨c, h1, h2⟩ : ∃ c : Nat, (-(e' - k)).toNat = (-e').toNat + c ∧ k + (e' - k).toNat = e'.toNat + c :=
      ⟨k - e'.toNat, by omega, by omega⟩
    rw [Nat.mul_assoc m', ← Nat.pow_add, h1, h2, Nat.pow_add, Nat.pow_add, ← Nat.mul_assoc, ← Nat.mul_assoc]
    exact (Nat.mul_le_mul_right_iff (Nat.pow_pos (by decide))).symm

/-- How the functions of the library and the numbers of the standard belong together, for `parseFloat` and `parseInt`. -/
structure Contract' {F : Type} (L : Lib F) (S : Spec.Sem F) : Prop extends Contract L S where
  huge : ∀ m e, L.huge m e = true ↔ Huge m e
  natDec : ∀ n, Spec.Repr n → n < 2 ^ 1024 → L.ofNat n = S.dec false n 0

/-! ## `parseFloat` -/

theorem head_space {s b z c : List Nat} (h : Strip s b) (e : b = c ++ z) :
    ∀ x, c.head? = some x → isSpace x = false := by
  intro x hx
  have hb : b.head? = some x := by
    rw [e]
    cases c with
    | nil => cases hx
    | cons y c => exact hx
  have := h.2 x hb
  unfold White at this
  simp [isSpace]; omega

theorem parseFloat_dec {F : Type} {U : Uni} {L : Lib F} {S : Spec.Sem F} (T : Known U) (C : Contract' L S) (erange : Bool)
    {s b sg t r : List Nat} {neg : Bool} {m n : Nat} {x : Int} (hs : Strip s b) (h85 : b.head? ≠ some 0x85)
    (hl : Longest FloatLit b (sg ++ t) r) (hsg : Spec.Sign sg neg) (hd : Dec t m x n) (hx : Modest x) (hh : ¬ Huge m (x - n)) :
    parseFloat U L erange s = .val (S.dec neg m (x - n)) := by
  obtain ⟨z, hz, hz'⟩ := cstr_strip T hs h85
  unfold parseFloat
  obtain ⟨sg', neg', r0, h1, h2, h3, h4⟩ := strtod_sign (head_space hs hz)
  rw [h4]
  have hsolid := floatLit_solid hl.2.1
  obtain ⟨r', e1, e2⟩ := solid_prefix hz' (fun c hc => (hsolid c hc).not) (by rw [← hz]; exact hl.1)
  rw [h1, List.append_assoc] at e1
  obtain ⟨rfl, rfl, rfl⟩ := sign_split h2 hsg h3 (fun _ => dec_noSign hd) e1
  rcases scanNum_cases neg' (t ++ r') with ⟨t', r'', m', x', n', ⟨h5, h6, h7⟩, h8, h9⟩ | ⟨h5, -⟩
  · have hle := h7 t r' rfl ⟨_, _, _, hd⟩
    have hge := hl.2.2 (sg' ++ t') (r'' ++ z) (by rw [hz, h1, h5]; simp) (.dec hsg h8)
    rw [List.length_append, List.length_append] at hge
    have ht : t = t' ∧ r' = r'' := List.append_inj h5 (by omega)
    obtain ⟨rfl, rfl⟩ := ht
    obtain ⟨rfl, rfl, rfl⟩ := dec_unique hd h8
    rcases h9 with ⟨m', e', h10, h11⟩ | ⟨-, -, h10⟩
    · rw [clamp_modest hx] at h11
      rw [h10]
      simp only
      rw [if_neg, C.dec, same_value C.laws neg' h11]
      rw [C.huge, huge_same h11]
      exact hh
    · unfold Far at h10; unfold Modest at hx; omega
  · exact absurd ⟨_, _, _, hd⟩ (h5 t r' rfl)

theorem scanNum_inf (neg : Bool) (r : List Nat) (h : ∀ c, r.head? = some c → isDigit c = false ∧ c ≠ 46) : scanNum neg r = scanInf neg r := by
  rcases scanNum_cases neg r with ⟨t, r', m, x, n, ⟨h1, h2, -⟩, -⟩ | ⟨-, h1⟩
  · obtain ⟨c, u, rfl, hc⟩ := isDec_head h2
    have := h c (by rw [h1]; rfl)
    rcases hc with hc | hc
    · rw [this.1] at hc; cases hc
    · exact absurd hc this.2
  · exact h1

theorem parseFloat_inf {F : Type} {U : Uni} {L : Lib F} {S : Spec.Sem F} (T : Known U) (C : Contract' L S)
    {s b sg r : List Nat} {neg : Bool} (hs : Strip s b) (hsg : Spec.Sign sg neg) (hb : b = sg ++ (Spec.infinity ++ r)) :
    parseFloat U L false s = .val (S.inf neg) := by
  have h85 : b.head? ≠ some 0x85 := by rw [hb]; cases hsg <;> simp [Spec.infinity]
  obtain ⟨z, hz, hz'⟩ := cstr_strip T hs h85
  unfold parseFloat
  obtain ⟨sg', neg', r0, h1, h2, h3, h4⟩ := strtod_sign (head_space hs hz)
  rw [h4]
  have hsolid := floatLit_solid (FloatLit.inf hsg)
  obtain ⟨r', e1, e2⟩ := solid_prefix (l := sg ++ Spec.infinity) (r := r) hz' (fun c hc => (hsolid c hc).not) (by rw [← hz, hb]; simp)
  rw [h1, List.append_assoc] at e1
  obtain ⟨rfl, rfl, rfl⟩ := sign_split h2 hsg h3 (fun _ c hc => by cases hc; decide) e1
  rw [scanNum_inf _ _ (fun c hc => by cases hc; decide)]
  show Res.val (if false = true then L.nan else if neg' = true then L.neg L.inf else L.inf) = _
  cases neg' with
  | true => simp [C.negInf]
  | false => simp [C.inf]

theorem lower_cases {c d : Nat} (h : lower c = d) : c = d ∨ (65 ≤ c ∧ c + 32 = d) := by
  unfold lower at h
  split at h <;> omega

theorem scanInf_like {neg : Bool} {r : List Nat} (h : scanInf neg r ≠ .none) : InfLike r := by
  unfold scanInf at h
  split at h
  · rename_i cs
    cases hm : matchText [110, 102] cs with
    | none => rw [hm] at h; exact absurd rfl h
    | some q =>
      rcases cs with _ | ⟨x, _ | ⟨y, u⟩⟩
      · cases hm
      · simp only [matchText] at hm
        split at hm <;> cases hm
      · simp only [matchText] at hm
        split at hm
        · rename_i hx
          split at hm
          · rename_i hy
            refine ⟨x, y, u, rfl, ?_, ?_⟩
            · have := lower_cases hx; omega
            · have := lower_cases hy; omega
          · cases hm
        · cases hm
  · exact absurd rfl h

theorem parseFloat_nan {F : Type} {U : Uni} {L : Lib F} {S : Spec.Sem F} (T : Known U) (C : Contract' L S) (erange : Bool)
    {s b : List Nat} (hs : Strip s b) (h85 : b.head? ≠ some 0x85) (hl : ∀ l r, b = l ++ r → ¬ FloatLit l)
    (hi : ∀ sg neg r, Spec.Sign sg neg → b = sg ++ r → ¬ InfLike r) : parseFloat U L erange s = .val S.nan := by
  obtain ⟨z, hz, hz'⟩ := cstr_strip T hs h85
  unfold parseFloat
  obtain ⟨sg', neg', r0, h1, h2, h3, h4⟩ := strtod_sign (head_space hs hz)
  rw [h4]
  rcases scanNum_cases neg' r0 with ⟨t', r'', m', x', n', ⟨h5, h6, h7⟩, h8, h9⟩ | ⟨-, h5⟩
  · exact absurd (FloatLit.dec h2 h8) (hl (sg' ++ t') (r'' ++ z) (by rw [hz, h1, h5]; simp))
  · rw [h5]
    have : scanInf neg' r0 = .none := by
      by_cases hn : scanInf neg' r0 = .none
      · exact hn
      · exfalso
        obtain ⟨x, y, u, rfl, hx, hy⟩ := scanInf_like hn
        exact hi sg' neg' _ h2 (by rw [hz, h1]; simp) ⟨x, y, u ++ z, rfl, hx, hy⟩
    rw [this, C.nan]

theorem scanInf_cases (neg : Bool) (l : List Nat) : scanInf neg l = .none ∨ ∃ r, scanInf neg l = .inf neg r := by
  unfold scanInf
  split
  · split
    · exact .inl rfl
    · split
      · exact .inr ⟨_, rfl⟩
      · exact .inr ⟨_, rfl⟩
  · exact .inl rfl

/-! ## `parseInt` -/

theorem strtoiSign_eq {c sg r : List Nat} {neg : Bool} (h : ∀ x, c.head? = some x → isSpace x = false) (hs : Spec.Sign sg neg)
    (hn : sg = [] → NoSign r) (e : c = sg ++ r) : strtoiSign c = (neg, r) := by
  have hd : c.dropWhile isSpace = c := by
    have := dropWhile_all (w := []) (b := c) (p := isSpace) (fun x hx => by cases hx) h
    simpa using this
  unfold strtoiSign
  rw [hd, e]
  cases hs with
  | none =>
    cases r with
    | nil => rfl
    | cons x r =>
      have := hn rfl x rfl
      rw [List.nil_append]
      simp only
      rw [if_neg this.1, if_neg this.2]
  | plus => rfl
  | minus => rfl

theorem isBaseDigit_iff {base c : Nat} (h : 2 ≤ base) (h' : base ≤ 36) : isBaseDigit base c = true ↔ Spec.IsDig base c := by
  unfold isBaseDigit Spec.IsDig Spec.dig isDigit
  split
  · simp only [Bool.and_eq_true, decide_eq_true_eq]
    constructor
    · intro h; rw [if_pos (by omega)]; omega
    · rintro ⟨h1, h2⟩
      split at h2
      · omega
      · split at h2 <;> omega
  · simp only [Bool.or_eq_true, Bool.and_eq_true, decide_eq_true_eq]
    constructor
    · intro h
      split
      · omega
      · split <;> omega
    · rintro ⟨h1, h2⟩
      split at h2
      · omega
      · split at h2 <;> omega

theorem value_snoc_lt {base : Nat} (hb : 1 ≤ base) (ds : List Nat) (c : Nat) :
    Spec.value base ds ≤ Spec.value base (ds ++ [c]) ∧ Spec.value base ds * base ≤ Spec.value base (ds ++ [c]) := by
  rw [value_snoc]
  have := Nat.le_mul_of_pos_right (Spec.value base ds) hb
  omega

theorem rnd_small {n : Nat} (h : n < 2 ^ 53) : rnd n = n := by unfold rnd; rw [if_pos h]

/-- The loop of `rjs_strtoi` is exact below 2^53. -/
theorem acc_small {base : Nat} (hb : 1 ≤ base) (ds : List Nat) (hd : Digits base ds) (hr : Spec.value base ds < 2 ^ 53) :
    acc base ds = Spec.value base ds := by
  induction h : ds.length generalizing ds with
  | zero =>
    have : ds = [] := List.length_eq_zero_iff.1 h
    subst this; rfl
  | succ n ih =>
    obtain ⟨ds', c, rfl⟩ : ∃ ds' c, ds = ds' ++ [c] := by
      rcases List.eq_nil_or_concat ds with rfl | ⟨l, a, rfl⟩
      · cases h
      · exact ⟨l, a, by simp⟩
    have hc : Spec.IsDig base c := hd c (by simp)
    have h1 := value_snoc_lt hb ds' c
    have := ih ds' (fun x hx => hd x (by simp [hx])) (by omega) (by simpa using h)
    unfold acc at this ⊢
    rw [List.foldl_append, this]
    simp only [List.foldl_cons, List.foldl_nil, accStep]
    rw [rnd_small (n := Spec.value base ds' * base) (by omega), digitVal_dig hc, ← value_snoc, rnd_small hr]

/-- What the code sees of the parts. -/
theorem parts_code {U : Uni} (T : Known U) {s : List Nat} {radix : Int} {sg pre ds rest : List Nat} {neg : Bool} {base : Nat}
    (h : Parts s radix sg neg pre base ds rest) (h85 : (sg ++ (pre ++ (ds ++ rest))).head? ≠ some 0x85)
    (hr : radix = 0 ∨ (2 ≤ radix ∧ radix ≤ 36)) :
    ∃ r' z, rest = r' ++ z ∧ cstr (trim U s) = sg ++ (pre ++ (ds ++ r')) ∧
      (∀ x, (cstr (trim U s)).head? = some x → isSpace x = false) ∧ (sg = [] → NoSign (pre ++ (ds ++ r'))) ∧
      strtoiSign (cstr (trim U s)) = (neg, pre ++ (ds ++ r')) ∧ strtoiBase radix.toNat (pre ++ (ds ++ r')) = (base, ds ++ r') ∧
      2 ≤ base ∧ base ≤ 36 ∧ (ds ++ r').takeWhile (isBaseDigit base) = ds ∧ (ds ++ r').dropWhile (isBaseDigit base) = r' := by
  obtain ⟨z, hz, hz'⟩ := cstr_strip T h.strip h85
  have hpre : ∀ c, c ∈ pre → Solid c := by
    by_cases hp : pre = []
    · subst hp; intro c hc; cases hc
    · rcases (h.hex hp).2.2 with rfl | rfl <;> intro c hc <;> simp at hc <;> unfold Solid <;> omega
  have hsol := solid_append (sign_solid h.sign) (solid_append hpre (digits_solid h.digits))
  obtain ⟨r', e1, e2⟩ := solid_prefix (l := sg ++ (pre ++ ds)) (r := rest) hz' (fun c hc => (hsol c hc).not)
    (by rw [← hz]; simp)
  have e3 : cstr (trim U s) = sg ++ (pre ++ (ds ++ r')) := by rw [e1]; simp
  have hsp := head_space h.strip hz
  have hhead : ∀ c, r'.head? = some c → rest.head? = some c := by
    intro c hc
    rw [e2]
    cases r' with
    | nil => cases hc
    | cons y r' => exact hc
  have hns : sg = [] → NoSign (pre ++ (ds ++ r')) := by
    intro hs c hc
    apply h.signed hs c
    cases pre with
    | cons y pre => exact hc
    | nil =>
      cases ds with
      | cons y ds => exact hc
      | nil => exact hhead c hc
  have hb36 : 2 ≤ base ∧ base ≤ 36 := by
    by_cases hp : pre = []
    · rw [(h.plain hp).1]; split <;> omega
    · rw [(h.hex hp).2.1]; omega
  have hbase : strtoiBase radix.toNat (pre ++ (ds ++ r')) = (base, ds ++ r') := by
    by_cases hp : pre = []
    · obtain ⟨hb, hx⟩ := h.plain hp
      subst hp
      have hb' : (if radix.toNat = 0 then 10 else radix.toNat) = base := by
        rw [hb]; split <;> split <;> omega
      rw [List.nil_append]
      unfold strtoiBase
      split
      · rename_i c r heq
        rw [if_neg, hb', heq]
        rintro ⟨h1, h2⟩
        have := hx (by omega) c (r ++ z) (by rw [e2, ← List.append_assoc, heq]; rfl)
        omega
      · rw [hb']
    · obtain ⟨h1, h2, h3⟩ := h.hex hp
      have : radix.toNat = 0 ∨ radix.toNat = 16 := by omega
      subst h2
      rcases h3 with rfl | rfl
      · show strtoiBase radix.toNat (48 :: 120 :: (ds ++ r')) = _
        simp only [strtoiBase]
        rw [if_pos ⟨this, .inl trivial⟩]
      · show strtoiBase radix.toNat (48 :: 88 :: (ds ++ r')) = _
        simp only [strtoiBase]
        rw [if_pos ⟨this, .inr trivial⟩]
  have htd := span_eq (p := isBaseDigit base) (ds := ds) (r := r') (fun c hc => (isBaseDigit_iff hb36.1 hb36.2).2 (h.digits c hc))
    (fun c hc => by
      cases hq : isBaseDigit base c with
      | false => rfl
      | true => exact absurd ((isBaseDigit_iff hb36.1 hb36.2).1 hq) (h.stop c (hhead c hc)))
  rw [span_while] at htd
  simp only [Prod.mk.injEq] at htd
  exact ⟨r', z, e2, e3, hsp, hns, strtoiSign_eq hsp h.sign hns e3, hbase, hb36.1, hb36.2, htd.1, htd.2⟩

theorem parseInt_base {F : Type} {U : Uni} {L : Lib F} {S : Spec.Sem F} (T : Known U) (C : Contract' L S)
    {s : List Nat} {radix : Int} {sg pre ds rest : List Nat} {neg : Bool} {base : Nat}
    (h : Parts s radix sg neg pre base ds rest) (h85 : (sg ++ (pre ++ (ds ++ rest))).head? ≠ some 0x85)
    (hr : radix = 0 ∨ (2 ≤ radix ∧ radix ≤ 36)) (h10 : base ≠ 10) (hds : ds = [] → sg = [] ∧ pre = [])
    (hv : Spec.value base ds < 2 ^ 53 ∨ ((∃ j, base = 2 ^ j) ∧ Spec.Repr (Spec.value base ds) ∧ Spec.value base ds < 2 ^ 1024)) :
    parseInt U L s radix = .val (Spec.intValue S neg base ds) := by
  obtain ⟨r', z, -, e3, -, -, hsg, hbase, hb1, hb2, htw, hdw⟩ := parts_code T h h85 hr
  unfold parseInt
  rw [if_neg (by clear hv; omega)]
  simp only
  rw [hsg]
  simp only
  rw [hbase]
  simp only
  rw [if_neg h10, htw, hdw, e3]
  by_cases hd : ds = []
  · obtain ⟨rfl, rfl⟩ := hds hd
    subst hd
    simp [Spec.intValue, C.nan]
  · have hlen : 0 < ds.length := List.length_pos_iff.2 hd
    rw [if_neg (by simp [List.isEmpty_iff, hd]), if_neg (by simp only [List.length_append]; omega)]
    have hacc : acc base ds = Spec.value base ds := by
      rcases hv with hv | ⟨⟨j, rfl⟩, hv, -⟩
      · exact acc_small (by omega) ds h.digits hv
      · exact acc_repr j ds h.digits hv
    have hrepr : Spec.Repr (Spec.value base ds) := by
      rcases hv with hv | ⟨-, hv, -⟩
      · exact ⟨_, 0, hv, by simp⟩
      · exact hv
    have hlt : Spec.value base ds < 2 ^ 1024 := by
      rcases hv with hv | ⟨-, -, hv⟩
      · exact Nat.lt_trans hv (Nat.pow_lt_pow_right (by decide) (by decide))
      · exact hv
    rw [hacc]
    unfold intResult Spec.intValue
    rw [if_neg (by omega), if_neg hd, C.natDec _ hrepr hlt, C.neg]
    cases neg <;> rfl

theorem parseInt_ten {F : Type} {U : Uni} {L : Lib F} {S : Spec.Sem F} (T : Known U) (C : Contract' L S)
    {s : List Nat} {radix : Int} {sg pre ds rest : List Nat} {neg : Bool}
    (h : Parts s radix sg neg pre 10 ds rest) (h85 : (sg ++ (pre ++ (ds ++ rest))).head? ≠ some 0x85)
    (hr : radix = 0 ∨ (2 ≤ radix ∧ radix ≤ 36)) (hp : rest.head? ≠ some 46)
    (he : ds ≠ [] → rest.head? ≠ some 101 ∧ rest.head? ≠ some 69) (hh : ¬ Huge (Spec.value 10 ds) 0) :
    parseInt U L s radix = .val (Spec.intValue S neg 10 ds) := by
  obtain ⟨r', z, hrest, e3, hsp, hns, hsg, hbase, hb1, hb2, htw, hdw⟩ := parts_code T h h85 hr
  have hpre : pre = [] := by
    by_cases hp : pre = []
    · exact hp
    · have := (h.hex hp).2.1; omega
  subst hpre
  rw [List.nil_append] at hsg hbase e3 hns
  have hhead : ∀ c, r'.head? = some c → rest.head? = some c := by
    intro c hc
    rw [hrest]
    cases r' with
    | nil => cases hc
    | cons y r' => exact hc
  have hnd : NoDig r' := fun c hc => by
    have := h.stop c (hhead c hc)
    rw [isDig10] at this
    simpa using this
  obtain ⟨sg', neg', r0, h1, h2, h3, h4⟩ := strtod_sign hsp
  rw [e3] at h1
  obtain ⟨rfl, rfl, rfl⟩ := sign_split h2 h.sign h3 hns h1.symm
  unfold parseInt
  rw [if_neg (by omega)]
  simp only
  rw [hsg]
  simp only
  rw [hbase]
  simp only
  rw [if_pos trivial, h4]
  by_cases hd : ds = []
  · subst hd
    rw [List.nil_append] at *
    rw [scanNum_inf]
    · have hn : Res.val L.nan = Res.val (Spec.intValue S neg' 10 []) := by simp [Spec.intValue, C.nan]
      rw [← hn]
      split
      · rfl
      · rcases scanInf_cases neg' r' with h | ⟨r, h⟩ <;> rw [h]
    · intro c hc
      exact ⟨hnd c hc, fun e => hp (by rw [hhead c hc, e])⟩
  · rw [if_neg (by rw [e3]; simp [List.isEmpty_iff, hd])]
    obtain ⟨g, hg, hsame⟩ := scanNum_int neg' h.digits hnd (fun e => hp (hhead 46 e)) hd
    have hexp : scanExp r' = some (0, r') := by
      cases r' with
      | nil => rfl
      | cons c r' =>
        have h101 : c ≠ 101 := fun e => (he hd).1 (by rw [hhead c rfl, e])
        have h69 : c ≠ 69 := fun e => (he hd).2 (by rw [hhead c rfl, e])
        rw [scanExp, if_neg (by omega)]
    rw [hg, hexp]
    simp only [ending]
    rw [if_neg, C.dec, same_value C.laws neg' (hsame 0)]
    · unfold Spec.intValue; rw [if_neg hd]
    · rw [C.huge, huge_same (hsame 0)]; exact hh

/-! ## Undefined steps -/

theorem strtod_undef : ∀ {c : List Nat}, strtod c = .undef → LongExp c
  | [], h => by cases h
  | x :: r, h => by
    have key : ∀ neg l, scanNum neg l = .undef → LongExp l := by
      intro neg l hl
      rcases scanNum_cases neg l with ⟨t, r, m, x, n, ⟨rfl, -⟩, -, ⟨m', e', h1, -⟩ | ⟨-, h1, -⟩⟩ | ⟨-, h1⟩
      · rw [h1] at hl; cases hl
      · exact longExp_left h1
      · rw [h1] at hl
        rcases scanInf_cases neg l with h | ⟨r, h⟩ <;> rw [h] at hl <;> cases hl
    rw [strtod] at h
    split at h
    · split at h
      · cases h
      · exact longExp_right (a := [x]) (key _ _ h)
    · split at h
      · split at h
        · cases h
        · exact longExp_right (a := [x]) (key _ _ h)
      · split at h
        · exact longExp_right (a := [x]) (strtod_undef h)
        · exact key _ _ h

theorem cstr_sub (U : Uni) (s : List Nat) : ∃ a z, s = a ++ (cstr (trim U s) ++ z) := by
  obtain ⟨z, hz, -⟩ := cstr_prefix U (s.dropWhile U.isWhite)
  refine ⟨s.takeWhile U.isWhite, z, ?_⟩
  unfold trim
  rw [← hz, List.takeWhile_append_dropWhile]

theorem cstr_longExp {U : Uni} {s : List Nat} (h : LongExp (cstr (trim U s))) : LongExp s := by
  obtain ⟨a, z, e⟩ := cstr_sub U s
  rw [e]
  exact longExp_right (longExp_left h)

/-! ## For the examples -/

theorem not_float {b : List Nat} (h : ∀ sg neg r, Spec.Sign sg neg → b = sg ++ r →
    (∀ c, r.head? = some c → isDigit c = false ∧ c ≠ 46) ∧ r.length < 8) : ∀ l r, b = l ++ r → ¬ FloatLit l := by
  intro l r e hl
  cases hl with
  | @dec sg t neg m n x hs hd =>
    rw [List.append_assoc] at e
    obtain ⟨c, u, rfl, hc⟩ := isDec_head ⟨_, _, _, hd⟩
    have := (h _ _ _ hs e).1 c rfl
    rcases hc with hc | hc
    · rw [this.1] at hc; cases hc
    · exact this.2 hc
  | @inf sg neg hs =>
    rw [List.append_assoc] at e
    have := (h _ _ _ hs e).2
    simp [Spec.infinity] at this
    omega

theorem strip_exists : ∀ s, ∃ b, Strip s b
  | [] => ⟨[], ⟨[], rfl, fun c hc => by cases hc⟩, fun c hc => by cases hc⟩
  | c :: s => by
    by_cases h : White c
    · obtain ⟨b, ⟨w, e, hw⟩, hb⟩ := strip_exists s
      refine ⟨b, ⟨c :: w, by rw [e]; rfl, fun x hx => ?_⟩, hb⟩
      rcases List.mem_cons.1 hx with rfl | hx
      · exact h
      · exact hw x hx
    · exact ⟨c :: s, ⟨[], rfl, fun c hc => by cases hc⟩, fun x hx => by cases hx; exact h⟩

theorem sign_exists : ∀ b : List Nat, ∃ sg neg r, b = sg ++ r ∧ Spec.Sign sg neg ∧ (sg = [] → NoSign r)
  | [] => ⟨[], false, [], rfl, .none, (fun _ x hx => by cases hx)⟩
  | c :: r => by
    by_cases h1 : c = 43
    · exact ⟨[43], false, r, by rw [h1]; rfl, .plus, fun h => by cases h⟩
    · by_cases h2 : c = 45
      · exact ⟨[45], true, r, by rw [h2]; rfl, .minus, fun h => by cases h⟩
      · exact ⟨[], false, c :: r, rfl, .none, fun _ x hx => by cases hx; exact ⟨h1, h2⟩⟩

theorem digits_exists (base : Nat) : ∀ b : List Nat, ∃ ds r, b = ds ++ r ∧ Digits base ds ∧ ∀ c, r.head? = some c → ¬ Spec.IsDig base c
  | [] => ⟨[], [], rfl, (fun c hc => by cases hc), (fun c hc => by cases hc)⟩
  | c :: b => by
    by_cases h : Spec.IsDig base c
    · obtain ⟨ds, r, e, h1, h2⟩ := digits_exists base b
      refine ⟨c :: ds, r, by rw [e]; rfl, fun x hx => ?_, h2⟩
      rcases List.mem_cons.1 hx with rfl | hx
      · exact h
      · exact h1 x hx
    · exact ⟨[], c :: b, rfl, (fun c hc => by cases hc), (fun x hx => by cases hx; exact h)⟩

theorem value_zeros (k : Nat) : Spec.value 2 (49 :: List.replicate k 48) = 2 ^ k := by
  induction k with
  | zero => rfl
  | succ k ih =>
    rw [List.replicate_succ', ← List.cons_append, value_snoc, ih, Nat.pow_succ]
    rfl

end Verif.StrNum

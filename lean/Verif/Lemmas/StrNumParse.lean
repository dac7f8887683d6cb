import Verif.Lemmas.Strtod

/-! Helper lemmas for C82: the whole string. -/
namespace Verif.StrNum
open Json (Uni Out isDigit isOctal isBinary isHex skip lexIdent identLoop)
open Spec (White)

/-- How the functions of the library and the numbers of the standard belong together. -/
structure Contract {F : Type} (L : Lib F) (S : Spec.Sem F) : Prop where
  dec : ∀ neg m e, L.dec neg m e = S.dec neg m e
  laws : Spec.Laws S
  neg : ∀ m e, L.neg (S.dec false m e) = S.dec true m e
  inf : L.inf = S.inf false
  negInf : L.neg L.inf = S.inf true
  nat : ∀ n, Spec.Repr n → L.ofNat n = S.nat n
  nan : L.nan = S.nan
  zero : L.zero = S.zero

/-! ## From the grammar to the result -/

theorem dec_head {t : List Nat} {m n : Nat} {x : Int} (h : Spec.Dec t m x n) :
    (∃ d r, t = d :: r ∧ isDigit d = true) ∨ (∃ d r, t = 46 :: d :: r ∧ isDigit d = true) := by
  cases h with
  | @int ds es e hn hd he =>
    cases ds with
    | nil => exact absurd rfl hn
    | cons d ds => exact .inl ⟨d, ds ++ es, rfl, digits10 hd d List.mem_cons_self⟩
  | @point ds fs es e hn hd hf he =>
    cases ds with
    | nil => exact absurd rfl hn
    | cons d ds => exact .inl ⟨d, _, rfl, digits10 hd d List.mem_cons_self⟩
  | @lead fs es e hn hf he =>
    cases fs with
    | nil => exact absurd rfl hn
    | cons d fs => exact .inr ⟨d, fs ++ es, rfl, digits10 hf d List.mem_cons_self⟩

theorem token_digit {U : Uni} (big : Bool) {d : Nat} (r : List Nat) (h : isDigit d = true) :
    token U big (d :: r) = numTok U big (d :: r) := by
  have h1 : 48 ≤ d ∧ d ≤ 57 := by simpa [isDigit] using h
  rw [token_cons big r (by omega) (by unfold Uni.isWhite; rw [if_pos (by omega)]; simp; omega), tokenAt,
    if_neg (by omega), if_neg (by omega), if_pos h]

theorem token_point {U : Uni} (big : Bool) {d : Nat} (r : List Nat) (h : isDigit d = true) :
    token U big (46 :: d :: r) = numTok U big (46 :: d :: r) := by
  rw [token_cons big _ (by decide) (by simp [Uni.isWhite]), tokenAt, if_neg (by decide), if_pos rfl,
    if_pos (by simp [h])]

theorem numTok_of {U : Uni} (T : Known U) {big : Bool} {cs w : List Nat} {t : NumTok} (h : scanNumber big cs = some (t, w))
    (hw : Stop w) (ho : t.isBig = false → t.base = 10 → strtod t.text ≠ .undef) : numTok U big cs = .ok (.num t) w := by
  unfold numTok
  rw [if_neg, lexNumber_of T h hw]
  unfold overflows
  rw [h]
  simp only [Bool.and_eq_true, Bool.not_eq_true', beq_iff_eq, not_and]
  rintro ⟨h1, h2⟩
  exact ho h1 h2

theorem strtod_modest {t : List Nat} {m n : Nat} {x : Int} (h : Spec.Dec t m x n) (hx : Spec.Modest x) :
    ∃ m' e', strtod t = .dec false m' e' [] ∧ Same m (x - n) m' e' := by
  rcases strtod_dec h with h | ⟨-, -, h⟩
  · rwa [clamp_modest hx] at h
  · unfold Far at h; unfold Spec.Modest at hx; omega

theorem scanValue_dec {F : Type} {L : Lib F} {S : Spec.Sem F} (C : Contract L S) {t : List Nat} {m n : Nat} {x : Int}
    (h : Spec.Dec t m x n) (hx : Spec.Modest x) : scanValue L (strtod t) = S.dec false m (x - n) := by
  obtain ⟨m', e', h1, h2⟩ := strtod_modest h hx
  rw [h1]
  show L.dec false m' e' = _
  rw [C.dec, same_value C.laws false h2]

theorem token_dec {U : Uni} (T : Known U) {t w : List Nat} {m n : Nat} {x : Int} (h : Spec.Dec t m x n) (hx : strtod t ≠ .undef) (hw : Stop w) :
    token U false (t ++ w) = .ok (.num ⟨10, t, false⟩) w := by
  have : numTok U false (t ++ w) = .ok (.num ⟨10, t, false⟩) w := numTok_of T (scanNumber_dec h hw) hw (fun _ _ => hx)
  rcases dec_head h with ⟨d, r, rfl, hd⟩ | ⟨d, r, rfl, hd⟩
  · rw [List.cons_append] at this ⊢
    rw [token_digit false _ hd, this]
  · rw [List.cons_append, List.cons_append] at this ⊢
    rw [token_point false _ hd, this]

theorem token_int {U : Uni} (T : Known U) {ds w : List Nat} (hn : ds ≠ []) (hd : Spec.Digits 10 ds) (hw : Stop w) :
    token U true (ds ++ w) = .ok (.num ⟨10, ds, true⟩) w := by
  have : numTok U true (ds ++ w) = .ok (.num ⟨10, ds, true⟩) w := numTok_of T (scanNumber_int hn hd hw) hw (fun h => by cases h)
  cases ds with
  | nil => exact absurd rfl hn
  | cons d ds =>
    rw [List.cons_append] at this ⊢
    rw [token_digit true _ (digits10 hd d List.mem_cons_self), this]

theorem token_other {U : Uni} (T : Known U) (big : Bool) {p ds w : List Nat} {base : Nat} (hp : Spec.Prefix p base)
    (hn : ds ≠ []) (hd : Spec.Digits base ds) (hw : Stop w) :
    token U big (p ++ (ds ++ w)) = .ok (.num ⟨base, ds, big⟩) w := by
  have : numTok U big (p ++ (ds ++ w)) = .ok (.num ⟨base, ds, big⟩) w := numTok_of T (scanNumber_other big hp hn hd hw) hw
    (fun _ h => by simp only at h; subst h; cases hp)
  obtain ⟨c, rfl⟩ : ∃ c, p = [48, c] := by cases hp <;> exact ⟨_, rfl⟩
  rw [List.cons_append] at this ⊢
  rw [token_digit big _ (by decide), this]

theorem identLoop_stop {U : Uni} (T : Known U) {t r : List Nat} (ht : ∀ c, c ∈ t → Json.isAlpha c = true) (hr : Stop r) :
    ∀ f acc, t.length < f → identLoop U f false acc (t ++ r) = .ok (acc ++ t) r := by
  induction t with
  | nil =>
    intro f acc hf
    cases f with
    | zero => simp at hf
    | succ f =>
      cases r with
      | nil => simp [identLoop]
      | cons c r =>
        have hc := hr c rfl
        have := not_cont T hc
        rw [List.nil_append, identLoop.eq_def]
        simp only
        rw [if_neg (by unfold White at hc; omega), if_neg (by simp [this])]
        simp
  | cons c t ih =>
    intro f acc hf
    cases f with
    | zero => simp at hf
    | succ f =>
      have hc := ht c (by simp)
      have hc' := hc
      simp only [Json.isAlpha, Bool.or_eq_true, Bool.and_eq_true, decide_eq_true_eq] at hc'
      have h1 : c < 128 := by omega
      rw [List.cons_append, identLoop.eq_def]
      simp only
      rw [if_neg (by omega), if_pos (by simp [Uni.isCont, h1, hc]), ih (fun x hx => ht x (by simp [hx])) f _ (by simpa using hf),
        Json.units, if_neg (by omega)]
      simp

theorem token_inf {U : Uni} (T : Known U) {w : List Nat} (hw : Stop w) (big : Bool) :
    token U big (Spec.infinity ++ w) = .ok (.ident infName) w := by
  have e1 : Spec.infinity ++ w = 73 :: ([110, 102, 105, 110, 105, 116, 121] ++ w) := rfl
  rw [e1, token_cons big _ (by decide) (by simp [Uni.isWhite]), tokenAt, if_neg (by decide), if_neg (by decide),
    if_neg (by decide), if_neg (by decide), if_pos (by simp [Uni.isStart, Json.isAlpha]), lexIdent.eq_def]
  simp only
  rw [if_neg (by decide), if_pos (by simp [Uni.isStart, Json.isAlpha]), identLoop_stop T (by decide) hw _ _ (by simp)]
  rfl

theorem token_sign {U : Uni} (big : Bool) {c : Nat} {r : List Nat} (hc : c = 43 ∨ c = 45)
    (h : ∀ d, r.head? = some d → d ≠ c ∧ d ≠ 61) :
    token U big (c :: r) = .ok (if c = 43 then .plus else .minus) r := by
  rw [token_cons big _ (by omega) (by unfold Uni.isWhite; rw [if_pos (by omega)]; simp; omega), tokenAt, if_pos hc, if_neg]
  rintro (h' | h')
  · exact (h _ h').1 rfl
  · exact (h _ h').2 rfl

theorem white_small {c : Nat} (h : White c) : Json.isLead c = false := by
  unfold White at h; simp [Json.isLead]; omega

/-- The characters of a literal. -/
def Ascii (s : List Nat) : Prop := ∀ c, c ∈ s → c < 128

theorem Ascii.append {a b : List Nat} (h : Ascii a) (h' : Ascii b) : Ascii (a ++ b) := by
  intro c hc
  rcases List.mem_append.1 hc with hc | hc
  · exact h c hc
  · exact h' c hc

theorem Ascii.cons {c : Nat} {b : List Nat} (h : c < 128) (h' : Ascii b) : Ascii (c :: b) :=
  Ascii.append (a := [c]) (fun x hx => by rw [List.mem_singleton.1 hx]; exact h) h'

theorem digits_ascii {base : Nat} {ds : List Nat} (h : Spec.Digits base ds) : Ascii ds := by
  intro c hc
  have := (h c hc).1
  omega

theorem exp_ascii {es : List Nat} {e : Int} (h : Spec.Exp es e) : Ascii es := by
  cases h with
  | none => intro c hc; cases hc
  | plain h _ hd => exact .cons (by omega) (digits_ascii hd)
  | plus h _ hd => exact .cons (by omega) (.cons (by omega) (digits_ascii hd))
  | minus h _ hd => exact .cons (by omega) (.cons (by omega) (digits_ascii hd))

theorem dec_ascii {t : List Nat} {m n : Nat} {x : Int} (h : Spec.Dec t m x n) : Ascii t := by
  cases h with
  | int _ hd he => exact (digits_ascii hd).append (exp_ascii he)
  | point _ hd hf he => exact (digits_ascii hd).append (.cons (by omega) ((digits_ascii hf).append (exp_ascii he)))
  | lead _ hf he => exact .cons (by omega) ((digits_ascii hf).append (exp_ascii he))

theorem sign_ascii {t : List Nat} {n : Bool} (h : Spec.Sign t n) : Ascii t := by
  cases h <;> intro c hc <;> simp at hc <;> omega

theorem prefix_ascii {t : List Nat} {n : Nat} (h : Spec.Prefix t n) : Ascii t := by
  cases h <;> intro c hc <;> simp at hc <;> omega

theorem body_ascii {F : Type} {S : Spec.Sem F} {E : Nat → Prop} {X : Int → Prop} {b : List Nat} {x : F} (h : Spec.Body S E X b x) : Ascii b := by
  cases h with
  | empty => intro c hc; cases hc
  | dec hs hd _ => exact (sign_ascii hs).append (dec_ascii hd)
  | inf hs => exact (sign_ascii hs).append (by unfold Ascii Spec.infinity; decide)
  | other hp _ hd _ => exact (prefix_ascii hp).append (digits_ascii hd)

theorem intBody_ascii {b : List Nat} {x : Int} (h : Spec.IntBody b x) : Ascii b := by
  cases h with
  | empty => intro c hc; cases hc
  | dec hs _ hd => exact (sign_ascii hs).append (digits_ascii hd)
  | other hp _ hd => exact (prefix_ascii hp).append (digits_ascii hd)

theorem points_text {w b w' : List Nat} (hw : ∀ c, c ∈ w → White c) (hb : Ascii b) (hw' : ∀ c, c ∈ w' → White c) :
    points (w ++ (b ++ w')) = w ++ (b ++ w') := by
  apply points_id
  intro c hc
  rcases List.mem_append.1 hc with hc | hc
  · exact white_small (hw c hc)
  · rcases List.mem_append.1 hc with hc | hc
    · have := hb c hc; simp [Json.isLead]; omega
    · exact white_small (hw' c hc)

theorem acc_prefix {p ds : List Nat} {base : Nat} (hp : Spec.Prefix p base) (hd : Spec.Digits base ds)
    (hr : Spec.Repr (Spec.value base ds)) : acc base ds = Spec.value base ds := by
  cases hp with
  | bin => exact acc_repr 1 ds hd hr
  | oct => exact acc_repr 3 ds hd hr
  | hex => exact acc_repr 4 ds hd hr

/-- A body after its sign is not taken for a longer token. -/
theorem dec_next {t w : List Nat} {m n : Nat} {x : Int} (h : Spec.Dec t m x n) :
    ∀ d, (t ++ w).head? = some d → d ≠ 43 ∧ d ≠ 45 ∧ d ≠ 61 := by
  intro d hd
  rcases dec_head h with ⟨c, r, rfl, hc⟩ | ⟨c, r, rfl, hc⟩
  · cases hd
    simp [isDigit] at hc
    omega
  · cases hd; decide

theorem parseNumber_complete {F : Type} {U : Uni} {L : Lib F} {S : Spec.Sem F} (T : Known U) (C : Contract L S)
    {s : List Nat} {x : F} (h : Spec.Lit S Spec.Repr Spec.Modest s x) : parseNumber U L s = .val x := by
  obtain ⟨w, b, w', rfl, hw, hw', hb⟩ := h
  have hs := Stop.of_all hw'
  unfold parseNumber
  rw [points_text hw (body_ascii hb) hw', token_white T false hw]
  cases hb with
  | empty =>
    have := token_white T false hw' []
    rw [List.append_nil] at this
    rw [List.nil_append, this]
    show Res.val L.zero = _
    rw [C.zero]
  | @dec sg t neg m n e hsg hd hx =>
    have hu : strtod t ≠ .undef := by
      obtain ⟨m', e', h1, -⟩ := strtod_modest hd hx
      rw [h1]; simp
    rw [List.append_assoc]
    cases hsg with
    | none =>
      rw [List.nil_append, token_dec T hd hu hs]
      show finish U false (scanValue L (strtod t)) w' = _
      rw [finish_white T false _ hw', scanValue_dec C hd hx]
    | plus =>
      rw [List.cons_append, List.nil_append, token_sign false (.inl rfl) (fun d hh => by have := dec_next hd d hh; omega),
        if_pos rfl]
      show bodyNumber U L 1 (token U false (t ++ w')) = _
      rw [token_dec T hd hu hs]
      show finish U false (scanValue L (strtod t)) w' = _
      rw [finish_white T false _ hw', scanValue_dec C hd hx]
    | minus =>
      rw [List.cons_append, List.nil_append, token_sign false (.inr rfl) (fun d hh => by have := dec_next hd d hh; omega),
        if_neg (by decide)]
      show bodyNumber U L 2 (token U false (t ++ w')) = _
      rw [token_dec T hd hu hs]
      show finish U false (L.neg (scanValue L (strtod t))) w' = _
      rw [finish_white T false _ hw', scanValue_dec C hd hx, C.neg]
  | @inf sg neg hsg =>
    rw [List.append_assoc]
    cases hsg with
    | none =>
      rw [List.nil_append, token_inf T hs]
      show finish U false L.inf w' = _
      rw [finish_white T false _ hw', C.inf]
    | plus =>
      rw [List.cons_append, List.nil_append, token_sign false (.inl rfl) (fun d hh => by cases hh; decide), if_pos rfl]
      show bodyNumber U L 1 (token U false (Spec.infinity ++ w')) = _
      rw [token_inf T hs]
      show finish U false L.inf w' = _
      rw [finish_white T false _ hw', C.inf]
    | minus =>
      rw [List.cons_append, List.nil_append, token_sign false (.inr rfl) (fun d hh => by cases hh; decide),
        if_neg (by decide)]
      show bodyNumber U L 2 (token U false (Spec.infinity ++ w')) = _
      rw [token_inf T hs]
      show finish U false (L.neg L.inf) w' = _
      rw [finish_white T false _ hw', C.negInf]
  | @other p ds base hp hn hd hE =>
    rw [List.append_assoc, token_other T false hp hn hd hs]
    have hb : base ≠ 10 := by cases hp <;> decide
    simp only [bodyNumber]
    rw [if_neg (by simp), if_neg (by simp), if_neg (by decide), if_neg hb, finish_white T false _ hw',
      acc_prefix hp hd hE, C.nat _ hE]

/-- A decimal literal with any exponent that is an `int`. -/
theorem parseNumber_dec {F : Type} {U : Uni} (L : Lib F) (T : Known U) {t : List Nat} {m n : Nat} {x : Int} (h : Spec.Dec t m x n)
    (hx : ¬ Far x) : ∃ m' e', parseNumber U L t = .val (L.dec false m' e') ∧ Same m (clamp x - n) m' e' := by
  rcases strtod_dec h with ⟨m', e', h1, h2⟩ | ⟨-, -, h1⟩
  · refine ⟨m', e', ?_, h2⟩
    have hs : Stop [] := Stop.of_all (fun c hc => by cases hc)
    have ht := token_dec T h (by rw [h1]; simp) hs
    rw [List.append_nil] at ht
    unfold parseNumber
    rw [points_id t (fun c hc => by have := dec_ascii h c hc; simp [Json.isLead]; omega), ht]
    simp only [bodyNumber]
    rw [if_neg (by simp), if_neg (by simp), if_pos trivial, if_neg (by decide), h1]
    exact finish_white T false _ (w := []) (fun c hc => by cases hc)
  · exact absurd h1 hx

theorem toBigInt_complete {U : Uni} (T : Known U) {s : List Nat} {x : Int} (h : Spec.IntLit s x) : toBigInt U s = .val x := by
  obtain ⟨w, b, w', rfl, hw, hw', hb⟩ := h
  have hs := Stop.of_all hw'
  unfold toBigInt
  rw [points_text hw (intBody_ascii hb) hw', token_white T true hw]
  cases hb with
  | empty =>
    have := token_white T true hw' []
    rw [List.append_nil] at this
    rw [List.nil_append, this]
    rfl
  | @dec sg ds neg hsg hn hd =>
    rw [List.append_assoc]
    have hnext : ∀ d, (ds ++ w').head? = some d → d ≠ 43 ∧ d ≠ 45 ∧ d ≠ 61 := by
      intro d hh
      cases ds with
      | nil => exact absurd rfl hn
      | cons c ds =>
        cases hh
        have := digits10 hd d List.mem_cons_self
        simp [isDigit] at this
        omega
    cases hsg with
    | none =>
      rw [List.nil_append, token_int T hn hd hs]
      show finish U true (digitsVal 10 ds : Int) w' = _
      rw [finish_white T true _ hw', digitsVal_eq hd]; rfl
    | plus =>
      rw [List.cons_append, List.nil_append, token_sign true (.inl rfl) (fun d hh => by have := hnext d hh; omega), if_pos rfl]
      show bodyBigInt U 1 (token U true (ds ++ w')) = _
      rw [token_int T hn hd hs]
      show finish U true (digitsVal 10 ds : Int) w' = _
      rw [finish_white T true _ hw', digitsVal_eq hd]; rfl
    | minus =>
      rw [List.cons_append, List.nil_append, token_sign true (.inr rfl) (fun d hh => by have := hnext d hh; omega),
        if_neg (by decide)]
      show bodyBigInt U 2 (token U true (ds ++ w')) = _
      rw [token_int T hn hd hs]
      show finish U true (-(digitsVal 10 ds : Int)) w' = _
      rw [finish_white T true _ hw', digitsVal_eq hd]; rfl
  | @other p ds base hp hn hd =>
    rw [List.append_assoc, token_other T true hp hn hd hs]
    simp only [bodyBigInt]
    rw [if_neg (by simp), if_neg (by decide), finish_white T true _ hw', digitsVal_eq hd]

end Verif.StrNum

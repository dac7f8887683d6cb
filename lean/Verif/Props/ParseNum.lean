import Verif.Lemmas.ParseNum
import Verif.Props.StrNum
/-
C83  `parseFloat` and `parseInt`
-/
namespace Verif.StrNum
open Json (Uni)
open Spec (White Repr Modest LongExp Strip FloatLit Longest InfLike Huge Parts Dec Digits)

/-! ## An instance -/

instance (m : Nat) (e : Int) : Decidable (Huge m e) := inferInstanceAs (Decidable (_ ≤ _))

instance (b c : Nat) : Decidable (Spec.IsDig b c) := by unfold Spec.IsDig; infer_instance

def fullSem : Spec.Sem Num := { numSem with nat := fun n => numDec false n 0 }

def fullLib : Lib Num := { numLib with huge := fun m e => decide (Huge m e), ofNat := fun n => numDec false n 0 }

theorem fullContract : Contract' fullLib fullSem where
  dec := fun _ _ _ => rfl
  laws := ⟨numLaws.scale, numLaws.zero⟩
  neg := fun _ _ => rfl
  inf := rfl
  negInf := rfl
  nat := fun _ _ => rfl
  nan := rfl
  zero := rfl
  huge := fun m e => by simp [fullLib]
  natDec := fun _ _ _ => rfl

/-! ## `parseFloat` -/

/-- The longest decimal literal at the start of the string, behind the white space, is the result.
(The exponent must be within ±19999 and the number not so large that it is infinite; the string must not
begin with U+0085: `C83_float_violated`.) -/
theorem C83_float_partial {F : Type} (U : Uni) (L : Lib F) (S : Spec.Sem F) (T : Known U) (C : Contract' L S) (erange : Bool)
    (s b sg t r : List Nat) (neg : Bool) (m n : Nat) (x : Int) (hs : Strip s b) (h85 : b.head? ≠ some 0x85)
    (hl : Longest FloatLit b (sg ++ t) r) (hsg : Spec.Sign sg neg) (hd : Dec t m x n) (hx : Modest x) (hh : ¬ Huge m (x - n)) :
    parseFloat U L erange s = .val (S.dec neg m (x - n)) := parseFloat_dec T C erange hs h85 hl hsg hd hx hh

-- " -1.5e+x"
example : parseFloat uni0 fullLib true [32, 45, 49, 46, 53, 101, 43, 120] = .val (.dec true 15 (-1)) := by decide +kernel

-- " -1.5 7"
example : Strip [32, 45, 49, 46, 53, 32, 55] [45, 49, 46, 53, 32, 55] ∧
    Longest FloatLit [45, 49, 46, 53, 32, 55] ([45] ++ [49, 46, 53]) [32, 55] ∧ Dec [49, 46, 53] 15 0 1 ∧ ¬ Huge 15 (0 - 1) := by
  have d1 : Digits 10 [49] := fun c hc => isDig10.2 (by simp at hc; subst hc; rfl)
  have d5 : Digits 10 [53] := fun c hc => isDig10.2 (by simp at hc; subst hc; rfl)
  have hd : Dec ([49] ++ 46 :: ([53] ++ [])) 15 0 1 := .point (by decide) d1 d5 .none
  refine ⟨⟨⟨[32], rfl, fun c hc => by simp at hc; subst hc; unfold White; omega⟩,
    fun c hc => by simp at hc; subst hc; unfold White; omega⟩, ⟨rfl, FloatLit.dec .minus hd, ?_⟩, hd, by decide +kernel⟩
  intro l' r' e h
  rcases Nat.lt_or_ge 4 l'.length with hlen | hlen
  · exfalso
    have h32 : 32 ∈ l' := by
      have h1 : l' = [45, 49, 46, 53, 32, 55].take l'.length := by rw [e]; simp
      have h2 : ([45, 49, 46, 53, 32, 55].take l'.length)[4]? = some 32 := by
        rw [List.getElem?_take_of_lt hlen]; rfl
      rw [← h1] at h2
      exact List.mem_of_getElem? h2
    have := floatLit_solid h 32 h32
    unfold Solid at this
    omega
  · exact hlen

/-- `Infinity` at the start, with or without sign, is infinite.  (`errno` must not be `ERANGE` before:
`C83_errno_violated`.) -/
theorem C83_infinity_partial {F : Type} (U : Uni) (L : Lib F) (S : Spec.Sem F) (T : Known U) (C : Contract' L S)
    (s b sg r : List Nat) (neg : Bool) (hs : Strip s b) (hsg : Spec.Sign sg neg) (hb : b = sg ++ (Spec.infinity ++ r)) :
    parseFloat U L false s = .val (S.inf neg) := parseFloat_inf T C hs hsg hb

-- "\n-Infinityx"
example : parseFloat uni0 fullLib false [10, 45, 73, 110, 102, 105, 110, 105, 116, 121, 120] = .val (.inf true) := by
  decide +kernel

/-- Without a literal at the start the result is NaN, unless the string begins with U+0085, or with
something like "Inf". -/
theorem C83_float_nan_partial {F : Type} (U : Uni) (L : Lib F) (S : Spec.Sem F) (T : Known U) (C : Contract' L S) (erange : Bool)
    (s b : List Nat) (hs : Strip s b) (h85 : b.head? ≠ some 0x85) (hl : ∀ l r, b = l ++ r → ¬ FloatLit l)
    (hi : ∀ sg neg r, Spec.Sign sg neg → b = sg ++ r → ¬ InfLike r) : parseFloat U L erange s = .val S.nan :=
  parseFloat_nan T C erange hs h85 hl hi

-- "", "+", ".", "e5", "-.e1", "x1"
example : ([[], [43], [46], [101, 53], [45, 46, 101, 49], [120, 49]].map (parseFloat uni0 fullLib false)).all (· == .val .nan) =
    true := by decide +kernel

/-- The standard's results: "Inf" and "INFINITY" hold no literal at the start (NaN), nor does U+0085 "1";
"1e1000" is a literal, and too large (Infinity, whatever the format of numbers is). -/
theorem C83_float_violated {F : Type} (U : Uni) (L : Lib F) (S : Spec.Sem F) (T : Known U) (C : Contract' L S) :
    (parseFloat U L false [73, 110, 102] = .val (S.inf false) ∧ ∀ l r, [73, 110, 102] = l ++ r → ¬ FloatLit l) ∧
    (parseFloat U L false [45, 73, 78, 70] = .val (S.inf true) ∧ ∀ l r, [45, 73, 78, 70] = l ++ r → ¬ FloatLit l) ∧
    (parseFloat U L false [0x85, 49] = .val (S.dec false 1 0) ∧ Strip [0x85, 49] [0x85, 49] ∧
      ∀ l r, [0x85, 49] = l ++ r → ¬ FloatLit l) ∧
    (parseFloat U L false [49, 101, 49, 48, 48, 48] = .val S.nan ∧ FloatLit [49, 101, 49, 48, 48, 48] ∧ Huge 1 1000) := by
  have hh : Huge 1 1000 := by decide +kernel
  refine ⟨⟨?_, not_float ?_⟩, ⟨?_, not_float ?_⟩, ⟨?_, ⟨⟨[], rfl, fun c hc => by cases hc⟩, ?_⟩, not_float ?_⟩, ?_, ?_, hh⟩
  · rw [← C.inf]; rfl
  · intro sg neg r hs e
    cases hs <;> simp at e
    subst e
    simp [Json.isDigit]
  · rw [← C.negInf]; rfl
  · intro sg neg r hs e
    cases hs <;> simp at e <;> subst e <;> simp [Json.isDigit]
  · rw [← C.dec]
    have h1 : U.isWhite 0x85 = true := by
      rw [Uni.isWhite, if_neg (by decide)]
      simp [(T.white 0x85 (by decide)).2 (.inr rfl)]
    have h2 : trim U [0x85, 49] = [49] := by
      unfold trim
      rw [List.dropWhile_cons_of_pos h1]
      rfl
    have h3 : L.huge 1 0 ≠ true := fun h => absurd ((C.huge _ _).1 h) (by decide +kernel)
    unfold parseFloat
    rw [h2]
    show Res.val (if L.huge 1 0 = true then _ else _) = _
    rw [if_neg h3]; rfl
  · intro c hc
    simp at hc; subst hc; unfold White; omega
  · intro sg neg r hs e
    cases hs <;> simp at e
    subst e
    simp [Json.isDigit]
  · have h3 : L.huge 1 1000 = true := (C.huge _ _).2 hh
    show Res.val (if L.huge 1 1000 = true then _ else _) = _
    rw [if_pos h3, C.nan]
  · have hd : ∀ l : List Nat, l.all Json.isDigit = true → Spec.Digits 10 l :=
      fun l h c hc => isDig10.2 (List.all_eq_true.1 h c hc)
    exact FloatLit.dec (t := [49] ++ [101, 49, 48, 48, 48]) (x := 1000) .none
      (.int (by decide) (hd _ (by decide)) (.plain (.inl rfl) (by decide) (hd _ (by decide))))

/-- A number that was too large before (`parseFloat("1e1000")`) leaves `errno` at `ERANGE`: from then on
`parseFloat("Infinity")` is NaN. -/
theorem C83_errno_violated {F : Type} (U : Uni) (L : Lib F) (S : Spec.Sem F) (C : Contract' L S) :
    parseFloat U L true Spec.infinity = .val S.nan ∧ parseFloat U L false Spec.infinity = .val (S.inf false) := by
  rw [← C.nan, ← C.inf]
  exact ⟨rfl, rfl⟩

/-! ## `parseInt` -/

/-- Every string has its parts. -/
theorem C83_parts (s : List Nat) (radix : Int) (h : radix = 0 ∨ (2 ≤ radix ∧ radix ≤ 36)) :
    ∃ sg neg pre base ds rest, Parts s radix sg neg pre base ds rest := by
  obtain ⟨b, hb⟩ := strip_exists s
  obtain ⟨sg, neg, r, rfl, hs, hn⟩ := sign_exists b
  by_cases hx : (radix = 0 ∨ radix = 16) ∧ ∃ c u, r = 48 :: c :: u ∧ (c = 120 ∨ c = 88)
  · obtain ⟨hr, c, u, rfl, hc⟩ := hx
    obtain ⟨ds, rest, rfl, h1, h2⟩ := digits_exists 16 u
    refine ⟨sg, neg, [48, c], 16, ds, rest, hb, hs, hn, fun _ => ⟨hr, rfl, ?_⟩, (fun h => by cases h), h1, h2⟩
    rcases hc with rfl | rfl
    · exact .inl rfl
    · exact .inr rfl
  · obtain ⟨ds, rest, rfl, h1, h2⟩ := digits_exists (if radix = 0 then 10 else radix.toNat) r
    refine ⟨sg, neg, [], _, ds, rest, hb, hs, hn, fun h => absurd rfl h, fun _ => ⟨rfl, fun hr c u e => ?_⟩, h1, h2⟩
    exact ⟨fun h => hx ⟨hr, c, u, e, .inl h⟩, fun h => hx ⟨hr, c, u, e, .inr h⟩⟩

/-- In a base other than ten the result is the integer the digits write, if it is below 2^53, or a double
and the base a power of two.  Without digits it is NaN if there is no sign and no prefix either. -/
theorem C83_int_partial {F : Type} (U : Uni) (L : Lib F) (S : Spec.Sem F) (T : Known U) (C : Contract' L S)
    (s : List Nat) (radix : Int) (sg pre ds rest : List Nat) (neg : Bool) (base : Nat)
    (h : Parts s radix sg neg pre base ds rest) (h85 : (sg ++ (pre ++ (ds ++ rest))).head? ≠ some 0x85)
    (hr : radix = 0 ∨ (2 ≤ radix ∧ radix ≤ 36)) (h10 : base ≠ 10) (hds : ds = [] → sg = [] ∧ pre = [])
    (hv : Spec.value base ds < 2 ^ 53 ∨ ((∃ j, base = 2 ^ j) ∧ Repr (Spec.value base ds) ∧ Spec.value base ds < 2 ^ 1024)) :
    parseInt U L s radix = .val (Spec.intValue S neg base ds) := parseInt_base T C h h85 hr h10 hds hv

/-- In base ten it is, too, if the digits are followed by no `.`, `e` or `E` and the integer is not too
large. -/
theorem C83_int10_partial {F : Type} (U : Uni) (L : Lib F) (S : Spec.Sem F) (T : Known U) (C : Contract' L S)
    (s : List Nat) (radix : Int) (sg pre ds rest : List Nat) (neg : Bool)
    (h : Parts s radix sg neg pre 10 ds rest) (h85 : (sg ++ (pre ++ (ds ++ rest))).head? ≠ some 0x85)
    (hr : radix = 0 ∨ (2 ≤ radix ∧ radix ≤ 36)) (hp : rest.head? ≠ some 46)
    (he : ds ≠ [] → rest.head? ≠ some 101 ∧ rest.head? ≠ some 69) (hh : ¬ Huge (Spec.value 10 ds) 0) :
    parseInt U L s radix = .val (Spec.intValue S neg 10 ds) := parseInt_ten T C h h85 hr hp he hh

/-- A radix that is neither 0 nor from 2 to 36: NaN, whatever the string is. -/
theorem C83_radix {F : Type} (U : Uni) (L : Lib F) (S : Spec.Sem F) (C : Contract' L S) (s : List Nat) (radix : Int)
    (h : radix ≠ 0) (h' : radix < 2 ∨ 36 < radix) : parseInt U L s radix = .val S.nan := by
  unfold parseInt
  rw [if_pos ⟨h, h'⟩, C.nan]

-- parseInt(" -0x1Fg"), parseInt("zz", 36), parseInt("12", 2), parseInt("-0"), parseInt("9007199254740993")
example : parseInt uni0 fullLib [32, 45, 48, 120, 49, 70, 103] 0 = .val (.dec true 31 0) ∧
    parseInt uni0 fullLib [122, 122] 36 = .val (.dec false 1295 0) ∧ parseInt uni0 fullLib [49, 50] 2 = .val (.dec false 1 0) ∧
    parseInt uni0 fullLib [45, 48] 0 = .val (.dec true 0 0) ∧
    parseInt uni0 fullLib [57, 48, 48, 55, 49, 57, 57, 50, 53, 52, 55, 52, 48, 57, 57, 51] 10 = .val (.dec false 9007199254740993 0) := by
  decide +kernel

-- " -0x1Fg"
example : Parts [32, 45, 48, 120, 49, 70, 103] 0 [45] true [48, 120] 16 [49, 70] [103] := by
  refine ⟨⟨⟨[32], rfl, fun c hc => by simp at hc; subst hc; unfold White; omega⟩,
    fun c hc => by simp at hc; subst hc; unfold White; omega⟩, .minus, (fun h => by cases h),
    (fun _ => ⟨.inl rfl, rfl, .inl rfl⟩), (fun h => by cases h), ?_, ?_⟩
  · intro c hc; simp at hc; rcases hc with rfl | rfl <;> decide
  · intro c hc; simp at hc; subst hc; decide

/-- `parseInt("3.7")` is 3.7, `parseInt("1e3")` is 1000, `parseInt(".5")` is 0.5; the digits are "3", "1", none. -/
theorem C83_int10_violated {F : Type} (U : Uni) (L : Lib F) (S : Spec.Sem F) (C : Contract' L S) :
    (parseInt U L [51, 46, 55] 0 = .val (S.dec false 37 (-1)) ∧ Parts [51, 46, 55] 0 [] false [] 10 [51] [46, 55]) ∧
    (parseInt U L [49, 101, 51] 0 = .val (S.dec false 1 3) ∧ Parts [49, 101, 51] 0 [] false [] 10 [49] [101, 51]) ∧
    (parseInt U L [46, 53] 10 = .val (S.dec false 5 (-1)) ∧ Parts [46, 53] 10 [] false [] 10 [] [46, 53]) := by
  have hn : ∀ m e, ¬ Huge m e → L.huge m e ≠ true := fun m e h h' => h ((C.huge m e).1 h')
  refine ⟨⟨?_, ?_⟩, ⟨?_, ?_⟩, ⟨?_, ?_⟩⟩
  · rw [← C.dec]
    show Res.val (if L.huge 37 (-1) = true then _ else _) = _
    rw [if_neg (hn _ _ (by decide +kernel))]; rfl
  · refine ⟨⟨⟨[], rfl, fun c hc => by cases hc⟩, fun c hc => by simp at hc; subst hc; unfold White; omega⟩, .none,
      (fun _ c hc => by simp at hc; omega), (fun h => absurd rfl h), (fun _ => ⟨rfl, fun _ c r e => by simp at e⟩), ?_, ?_⟩
    · intro c hc; simp at hc; subst hc; decide
    · intro c hc; simp at hc; subst hc; decide
  · rw [← C.dec]
    show Res.val (if L.huge 1 3 = true then _ else _) = _
    rw [if_neg (hn _ _ (by decide +kernel))]; rfl
  · refine ⟨⟨⟨[], rfl, fun c hc => by cases hc⟩, fun c hc => by simp at hc; subst hc; unfold White; omega⟩, .none,
      (fun _ c hc => by simp at hc; omega), (fun h => absurd rfl h), (fun _ => ⟨rfl, fun _ c r e => by simp at e⟩), ?_, ?_⟩
    · intro c hc; simp at hc; subst hc; decide
    · intro c hc; simp at hc; subst hc; decide
  · rw [← C.dec]
    show Res.val (if L.huge 5 (-1) = true then _ else _) = _
    rw [if_neg (hn _ _ (by decide +kernel))]; rfl
  · refine ⟨⟨⟨[], rfl, fun c hc => by cases hc⟩, fun c hc => by simp at hc; subst hc; unfold White; omega⟩, .none,
      (fun _ c hc => by simp at hc; omega), (fun h => absurd rfl h), (fun _ => ⟨rfl, fun _ c r e => by simp at e⟩), ?_, ?_⟩
    · intro c hc; cases hc
    · intro c hc; simp at hc; subst hc; decide

/-- `parseInt("-", 16)` is -0 and `parseInt("0x")` is 0; there are no digits, they should be NaN. -/
theorem C83_int_violated {F : Type} (U : Uni) (L : Lib F) (S : Spec.Sem F) (C : Contract' L S) :
    (parseInt U L [45] 16 = .val (S.dec true 0 0) ∧ Parts [45] 16 [45] true [] 16 [] []) ∧
    (parseInt U L [48, 120] 0 = .val (S.dec false 0 0) ∧ Parts [48, 120] 0 [] false [48, 120] 16 [] []) := by
  have h0 : L.ofNat 0 = S.dec false 0 0 := C.natDec 0 ⟨0, 0, by decide, rfl⟩ (Nat.pow_pos (by decide))
  have hl : ¬ 2 ^ 1024 ≤ 0 := Nat.not_le.2 (Nat.pow_pos (by decide))
  have hi : ∀ neg, intResult L neg 0 = if neg then L.neg (L.ofNat 0) else L.ofNat 0 := fun neg => if_neg hl
  refine ⟨⟨?_, ?_⟩, ⟨?_, ?_⟩⟩
  · show Res.val (intResult L true 0) = _
    rw [hi, h0, ← C.neg]; rfl
  · refine ⟨⟨⟨[], rfl, fun c hc => by cases hc⟩, fun c hc => by simp at hc; subst hc; unfold White; omega⟩, .minus,
      (fun h => by cases h), (fun h => absurd rfl h), (fun _ => ⟨rfl, fun _ c r e => by simp at e⟩), ?_, ?_⟩
    · intro c hc; cases hc
    · intro c hc; cases hc
  · show Res.val (intResult L false 0) = _
    rw [hi, h0]; rfl
  · refine ⟨⟨⟨[], rfl, fun c hc => by cases hc⟩, fun c hc => by simp at hc; subst hc; unfold White; omega⟩, .none,
      (fun _ c hc => by simp at hc; omega), (fun _ => ⟨.inl rfl, rfl, .inl rfl⟩), (fun h => by cases h), ?_, ?_⟩
    · intro c hc; cases hc
    · intro c hc; cases hc

/-- `parseInt` of a one and 1024 zeros in base two is NaN; it should be 2^1024, that is Infinity. -/
theorem C83_int_large_violated {F : Type} (U : Uni) (L : Lib F) (S : Spec.Sem F) (T : Known U) (C : Contract' L S) :
    parseInt U L (49 :: List.replicate 1024 48) 2 = .val S.nan ∧
    Parts (49 :: List.replicate 1024 48) 2 [] false [] 2 (49 :: List.replicate 1024 48) [] ∧
    Spec.value 2 (49 :: List.replicate 1024 48) = 2 ^ 1024 ∧ Huge (2 ^ 1024) 0 := by
  have hp : ∀ z : List Nat, (∀ c, c ∈ z → c = 48) → Parts (49 :: z) 2 [] false [] 2 (49 :: z) [] := by
    intro z hz
    refine ⟨⟨⟨[], by simp, fun c hc => by cases hc⟩, fun c hc => by simp at hc; subst hc; unfold White; omega⟩, .none,
      (fun _ c hc => by simp at hc; omega), (fun h => absurd rfl h), (fun _ => ⟨rfl, fun h => by omega⟩), ?_, ?_⟩
    · intro c hc
      rcases List.mem_cons.1 hc with rfl | hc
      · decide
      · rw [hz c hc]; decide
    · intro c hc; cases hc
  have hq := hp (List.replicate 1024 48) (fun c hc => (List.mem_replicate.1 hc).2)
  have hv := value_zeros 1024
  have hr : Spec.Repr (2 ^ 1024) := ⟨1, 1024, by decide, by rw [Nat.one_mul]⟩
  refine ⟨?_, hq, hv, ?_⟩
  · generalize hz : List.replicate 1024 48 = z at hq hv ⊢
    obtain ⟨r', z', hrest, e3, -, -, hsg, hbase, hb1, hb2, htw, hdw⟩ := parts_code T hq (by simp) (.inr ⟨by decide, by decide⟩)
    have ha : acc 2 (49 :: z) = 2 ^ 1024 := by
      have := acc_repr 1 (49 :: z) hq.digits (by rw [hv]; exact hr)
      rw [hv] at this; exact this
    unfold parseInt
    rw [if_neg (by omega)]
    simp only
    rw [hsg]
    simp only
    rw [hbase]
    simp only
    rw [e3, if_neg (by simp), if_neg (by decide), htw, hdw, ha,
      if_neg (by simp only [List.length_append, List.length_cons]; omega), intResult, if_pos (Nat.le_refl _), C.nan]
  · unfold Huge
    exact Nat.mul_le_mul (Nat.sub_le _ _) (Nat.le_refl _)

/-! ## Both -/

/-- Both are defined, unless there is an exponent with ten digits or more. -/
theorem C83_total {F : Type} (U : Uni) (L : Lib F) (erange : Bool) (s : List Nat) (radix : Int) :
    ((∃ x, parseFloat U L erange s = .val x) ∨ (parseFloat U L erange s = .undef ∧ LongExp s)) ∧
    ((∃ x, parseInt U L s radix = .val x) ∨ (parseInt U L s radix = .undef ∧ LongExp s)) := by
  constructor
  · unfold parseFloat
    split
    · rename_i h; exact .inr ⟨rfl, cstr_longExp (strtod_undef h)⟩
    · exact .inl ⟨_, rfl⟩
    · exact .inl ⟨_, rfl⟩
    · exact .inl ⟨_, rfl⟩
  · unfold parseInt
    split
    · exact .inl ⟨_, rfl⟩
    · simp only
      split
      · exact .inl ⟨_, rfl⟩
      · split
        · split
          · rename_i h; exact .inr ⟨rfl, cstr_longExp (strtod_undef h)⟩
          · exact .inl ⟨_, rfl⟩
          · exact .inl ⟨_, rfl⟩
          · exact .inl ⟨_, rfl⟩
        · split
          · exact .inl ⟨_, rfl⟩
          · exact .inl ⟨_, rfl⟩

/-- `parseFloat("1e9999999999")` and `parseInt("1e9999999999")` are undefined. -/
theorem C83_undef_violated {F : Type} (U : Uni) (L : Lib F) (erange : Bool) :
    parseFloat U L erange [49, 101, 57, 57, 57, 57, 57, 57, 57, 57, 57, 57] = .undef ∧
    parseInt U L [49, 101, 57, 57, 57, 57, 57, 57, 57, 57, 57, 57] 0 = .undef := by
  constructor <;> rfl

end Verif.StrNum

import Verif.Model.DateText
import Verif.Spec.DateText
import Verif.Lemmas.DateSet

/-!
# Dates as text
-/

namespace Verif.Date

open Spec

/-! ## Digits -/

/-- The value of digits, after the value `v`. -/
def val (v : Nat) (ds : List Nat) : Nat := ds.foldl (fun v c => v * 10 + (c - 48)) v

/-- `ds` are digits with the value `n`. -/
structure DigitsOf (ds : List Nat) (n : Nat) : Prop where
  digit : ∀ c ∈ ds, Str.isDigit c = true
  ne : ds ≠ []
  val : val 0 ds = n

theorem val_le (ds : List Nat) : ∀ v, v ≤ val v ds := by
  induction ds with
  | nil => intro v; exact Nat.le_refl _
  | cons c ds ih =>
    intro v
    have := ih (v * 10 + (c - 48))
    simp only [val, List.foldl_cons] at *
    omega

theorem val_snoc (v : Nat) (ds : List Nat) (c : Nat) :
    val v (ds ++ [c]) = val v ds * 10 + (c - 48) := by
  simp [val, List.foldl_append]

theorem digit_le {c : Nat} (h : Str.isDigit c = true) : 48 ≤ c ∧ c ≤ 57 := by
  simp only [Str.isDigit, Bool.and_eq_true, decide_eq_true_eq] at h
  exact h

theorem isDigit_of {c : Nat} (h : 48 ≤ c ∧ c ≤ 57) : Str.isDigit c = true := by
  simp only [Str.isDigit, Bool.and_eq_true, decide_eq_true_eq]
  exact h

/-- What follows does not begin with a digit. -/
def Ends (rest : List Nat) : Prop := ∀ c s, rest = c :: s → Str.isDigit c = false

theorem numLoop_step {len c : Nat} {cs : List Nat} {r v : Nat} (h : Str.isDigit c = true)
    (hv : v * 10 + (c - 48) ≤ 2147483647) :
    numLoop len (c :: cs) r (v : Int) =
      if 0 < len ∧ len ≤ r + 1 then .ok (r + 1, ((v * 10 + (c - 48) : Nat) : Int), cs)
      else numLoop len cs (r + 1) ((v * 10 + (c - 48) : Nat) : Int) := by
  have := digit_le h
  have e : (v : Int) * 10 + ((c : Int) - 48) = ((v * 10 + (c - 48) : Nat) : Int) := by omega
  rw [numLoop, if_pos h, e, if_neg (by omega)]

theorem numLoop_free {ds : List Nat} {rest : List Nat} (hr : Ends rest) : ∀ {r v : Nat},
    (∀ c ∈ ds, Str.isDigit c = true) → val v ds ≤ 2147483647 →
    numLoop 0 (ds ++ rest) r (v : Int) = .ok (r + ds.length, (val v ds : Int), rest) := by
  induction ds with
  | nil =>
    intro r v _ _
    cases rest with
    | nil => rfl
    | cons c s =>
      have := hr c s rfl
      simp [numLoop, this, val]
  | cons c ds ih =>
    intro r v hd hv
    have h1 := val_le ds (v * 10 + (c - 48))
    have h2 : val v (c :: ds) = val (v * 10 + (c - 48)) ds := rfl
    rw [List.cons_append, numLoop_step (hd c (by simp)) (by omega), if_neg (by omega),
      ih (fun x hx => hd x (by simp [hx])) (by omega), h2]
    simp only [List.length_cons]
    congr 2; omega

theorem numLoop_len {len : Nat} {ds : List Nat} {rest : List Nat} : ∀ {r v : Nat},
    (∀ c ∈ ds, Str.isDigit c = true) → ds ≠ [] → r + ds.length = len → val v ds ≤ 2147483647 →
    numLoop len (ds ++ rest) r (v : Int) = .ok (len, (val v ds : Int), rest) := by
  induction ds with
  | nil => intro r v _ h; exact absurd rfl h
  | cons c ds ih =>
    intro r v hd _ hl hv
    have h1 := val_le ds (v * 10 + (c - 48))
    have h2 : val v (c :: ds) = val (v * 10 + (c - 48)) ds := rfl
    simp only [List.length_cons] at hl
    rw [List.cons_append, numLoop_step (hd c (by simp)) (by omega)]
    cases ds with
    | nil =>
      simp only [List.length_nil] at hl
      rw [if_pos (by omega)]
      have : r + 1 = len := by omega
      rw [this]; rfl
    | cons d ds =>
      simp only [List.length_cons] at hl
      rw [if_neg (by omega), ih (fun x hx => hd x (by simp [hx])) (by simp)
        (by simp only [List.length_cons]; omega) (by omega), h2]

theorem number_free {ds rest : List Nat} {n : Nat} (h : DigitsOf ds n) (hr : Ends rest)
    (hn : n ≤ 2147483647) : number 0 (ds ++ rest) = .ok ((n : Int), rest) := by
  have := numLoop_free (r := 0) (v := 0) hr h.digit (by rw [h.val]; exact hn)
  have h0 : ds.length ≠ 0 := by
    intro h0; exact h.ne (List.eq_nil_of_length_eq_zero h0)
  simp only [Int.ofNat_zero, Nat.cast_zero] at this
  simp only [number, this, bind, Except.bind, h.val]
  rw [if_neg (by omega)]; rfl

theorem number_len {ds rest : List Nat} {n len : Nat} (h : DigitsOf ds n) (hl : ds.length = len)
    (hn : n ≤ 2147483647) : number len (ds ++ rest) = .ok ((n : Int), rest) := by
  have := numLoop_len (rest := rest) (r := 0) (v := 0) h.digit h.ne (by omega)
    (show val 0 ds ≤ _ by rw [h.val]; exact hn) (len := len)
  have h0 : ds.length ≠ 0 := by
    intro h0; exact h.ne (List.eq_nil_of_length_eq_zero h0)
  simp only [Nat.cast_zero] at this
  simp only [number, this, bind, Except.bind, h.val]
  rw [if_neg (by omega)]; rfl

/-! ## Printed numbers -/

theorem dec_length (w : Nat) : ∀ n, (dec w n).length = w := by
  induction w with
  | zero => intro n; rfl
  | succ w ih => intro n; simp [dec, ih]

theorem dec_digit (w : Nat) : ∀ n, ∀ c ∈ dec w n, Str.isDigit c = true := by
  induction w with
  | zero => intro n c h; simp [dec] at h
  | succ w ih =>
    intro n c h
    simp only [dec, List.mem_append, List.mem_singleton] at h
    rcases h with h | h
    · exact ih _ c h
    · subst h; exact isDigit_of (by omega)

theorem dec_val (w : Nat) : ∀ n, n < 10 ^ w → val 0 (dec w n) = n := by
  induction w with
  | zero => intro n h; simp at h; subst h; rfl
  | succ w ih =>
    intro n h
    rw [Nat.pow_succ] at h
    rw [dec, val_snoc, ih _ (by omega)]
    omega

theorem dec_digits {w n : Nat} (hw : 0 < w) (h : n < 10 ^ w) : DigitsOf (dec w n) n :=
  ⟨dec_digit w n, by
    intro h0
    have := dec_length w n
    rw [h0] at this; simp at this; omega, dec_val w n h⟩

theorem digitsRev_digit (f : Nat) : ∀ n, ∀ c ∈ digitsRev f n, Str.isDigit c = true := by
  induction f with
  | zero => intro n c h; simp [digitsRev] at h
  | succ f ih =>
    intro n c h
    simp only [digitsRev, List.mem_cons] at h
    rcases h with h | h
    · subst h; exact isDigit_of (by omega)
    · split at h
      · simp at h
      · exact ih _ c h

theorem digitsRev_val (f : Nat) : ∀ n, n < f → val 0 (digitsRev f n).reverse = n := by
  induction f with
  | zero => intro n h; omega
  | succ f ih =>
    intro n h
    simp only [digitsRev, List.reverse_cons]
    rw [val_snoc]
    split
    · simp [val]; omega
    · rw [ih _ (by omega)]; omega

theorem digitsRev_dec (w : Nat) : ∀ f n, n < f → n < 10 ^ (w + 1) →
    List.replicate (w + 1 - (digitsRev f n).length) 48 ++ (digitsRev f n).reverse = dec (w + 1) n := by
  induction w with
  | zero =>
    intro f n hf h
    cases f with
    | zero => omega
    | succ f =>
      have : n / 10 = 0 := by omega
      simp [digitsRev, dec, this]
  | succ w ih =>
    intro f n hf h
    cases f with
    | zero => omega
    | succ f =>
      rw [Nat.pow_succ] at h
      rw [dec]
      simp only [digitsRev, List.reverse_cons, List.length_cons]
      rw [← List.append_assoc]
      congr 1
      split
      · rename_i h0
        rw [h0]
        have hz : ∀ v, dec v 0 = List.replicate v 48 := by
          intro v
          induction v with
          | zero => rfl
          | succ v ihv => rw [dec, ihv, List.replicate_succ']
        rw [hz]; simp
      · rename_i h0
        have e := ih f (n / 10) (by omega) (by omega)
        rw [← e]
        congr 2; omega

theorem val_replicate (k : Nat) (ds : List Nat) : val 0 (List.replicate k 48 ++ ds) = val 0 ds := by
  induction k with
  | zero => rfl
  | succ k ih =>
    rw [List.replicate_succ, List.cons_append]
    exact ih

theorem zeros_digits (w n : Nat) : DigitsOf (zeros w (decimal n)) n := by
  refine ⟨?_, ?_, ?_⟩
  · intro c h
    simp only [zeros, decimal, List.mem_append, List.mem_reverse] at h
    rcases h with h | h
    · rw [List.eq_of_mem_replicate h]; rfl
    · exact digitsRev_digit _ _ c h
  · intro h
    simp [zeros, decimal, digitsRev] at h
  · simp only [zeros, decimal]
    rw [val_replicate, digitsRev_val _ _ (by omega)]

theorem zeros_dec {w n : Nat} (h : n < 10 ^ (w + 1)) :
    zeros (w + 1) (decimal n) = dec (w + 1) n := by
  simp only [zeros, decimal, List.length_reverse]
  exact digitsRev_dec w (n + 1) n (by omega) h

theorem fmt_dec {w : Nat} {x : Int} (h0 : 0 ≤ x) (h : x.toNat < 10 ^ (w + 1)) :
    fmt (w + 1) x = dec (w + 1) x.toNat := by
  unfold fmt
  rw [if_neg (by omega), show x.natAbs = x.toNat by omega, zeros_dec h]

theorem number2 {x : Int} {rest : List Nat} (h0 : 0 ≤ x) (h : x ≤ 99) :
    number 2 (dec 2 x.toNat ++ rest) = .ok (x, rest) := by
  rw [number_len (dec_digits (by omega) (show x.toNat < 10 ^ 2 by omega)) (dec_length _ _) (by omega)]
  congr 2; omega

theorem number3 {x : Int} {rest : List Nat} (h0 : 0 ≤ x) (h : x ≤ 999) :
    number 3 (dec 3 x.toNat ++ rest) = .ok (x, rest) := by
  rw [number_len (dec_digits (by omega) (show x.toNat < 10 ^ 3 by omega)) (dec_length _ _) (by omega)]
  congr 2; omega

theorem number2_nil {x : Int} (h0 : 0 ≤ x) (h : x ≤ 99) :
    number 2 (dec 2 x.toNat) = .ok (x, []) := by
  have := number2 (rest := []) h0 h
  rwa [List.append_nil] at this

theorem number3_nil {x : Int} (h0 : 0 ≤ x) (h : x ≤ 999) :
    number 3 (dec 3 x.toNat) = .ok (x, []) := by
  have := number3 (rest := []) h0 h
  rwa [List.append_nil] at this

/-! ## Years -/

/-- `ys` is read as the year `y`, and begins with a sign or a digit. -/
structure YearText (ys : List Nat) (y : Int) : Prop where
  head : ∃ c s, ys = c :: s ∧ (c = 43 ∨ c = 45 ∨ Str.isDigit c = true)
  read : ∀ rest, Ends rest → parseYear (ys ++ rest) = .ok (y, rest)

theorem digit_not_white {c : Nat} (h : Str.isDigit c = true) : Str.isWhite c = false := by
  have := digit_le h
  have e : c = 48 ∨ c = 49 ∨ c = 50 ∨ c = 51 ∨ c = 52 ∨ c = 53 ∨ c = 54 ∨ c = 55 ∨ c = 56 ∨ c = 57 := by
    omega
  rcases e with e | e | e | e | e | e | e | e | e | e <;> subst e <;> decide

theorem eatup_cons {c : Nat} {s : List Nat} (h : Str.isWhite c = false) : eatup (c :: s) = c :: s := by
  simp [eatup, List.dropWhile, h]

theorem eatup_digits {ds rest : List Nat} {n : Nat} (h : DigitsOf ds n) :
    eatup (ds ++ rest) = ds ++ rest := by
  cases ds with
  | nil => exact absurd rfl h.ne
  | cons c ds => exact eatup_cons (digit_not_white (h.digit c (by simp)))

theorem yearText_plain {ds : List Nat} {n : Nat} (h : DigitsOf ds n) (hn : n ≤ 2147483647) :
    YearText ds (n : Int) := by
  refine ⟨?_, ?_⟩
  · cases hd : ds with
    | nil => exact absurd hd h.ne
    | cons c s => exact ⟨c, s, rfl, Or.inr (Or.inr (h.digit c (by simp [hd])))⟩
  · intro rest hr
    rw [← number_free h hr hn]
    unfold parseYear
    split
    · rename_i s he
      cases hd : ds with
      | nil => exact absurd hd h.ne
      | cons c ds' =>
        rw [hd] at he
        simp only [List.cons_append, List.cons.injEq] at he
        have := digit_le (h.digit c (by simp [hd]))
        omega
    · rename_i s he
      cases hd : ds with
      | nil => exact absurd hd h.ne
      | cons c ds' =>
        rw [hd] at he
        simp only [List.cons_append, List.cons.injEq] at he
        have := digit_le (h.digit c (by simp [hd]))
        omega
    · rfl

theorem yearText_plus {ds : List Nat} {n : Nat} (h : DigitsOf ds n) (hn : n ≤ 2147483647) :
    YearText (43 :: ds) (n : Int) := by
  refine ⟨⟨43, ds, rfl, Or.inl rfl⟩, ?_⟩
  intro rest hr
  simp only [List.cons_append, parseYear]
  rw [eatup_digits h, number_free h hr hn]

theorem yearText_minus {ds : List Nat} {n : Nat} (h : DigitsOf ds n) (hn : n ≤ 2147483647)
    (h0 : n ≠ 0) : YearText (45 :: ds) (-(n : Int)) := by
  refine ⟨⟨45, ds, rfl, Or.inr (Or.inl rfl)⟩, ?_⟩
  intro rest hr
  simp only [List.cons_append, parseYear]
  rw [eatup_digits h, number_free h hr hn]
  simp only [bind, Except.bind]
  rw [if_neg (by omega)]; rfl

theorem yearText_iso {long : Bool} {y : Int} (h : y.natAbs ≤ 999999) :
    YearText (isoYear long y) y := by
  unfold isoYear
  split
  · have := yearText_minus (dec_digits (w := 6) (n := y.natAbs) (by omega) (by omega)) (by omega)
      (by omega)
    rwa [show -((y.natAbs : Nat) : Int) = y by omega] at this
  · split
    · have := yearText_plus (dec_digits (w := 6) (n := y.toNat) (by omega) (by omega)) (by omega)
      rwa [show ((y.toNat : Nat) : Int) = y by omega] at this
    · rename_i h1 h2
      have := yearText_plain (dec_digits (w := 4) (n := y.toNat) (by omega) (by
        have : ¬9999 < y := fun h => h2 (Or.inr h)
        omega)) (by omega)
      rwa [show ((y.toNat : Nat) : Int) = y by omega] at this

/-- The years of `toISOString`. -/
theorem yearText_fmt {y : Int} (h : y.natAbs ≤ 2147483647) : YearText (fmt 4 y) y := by
  unfold fmt
  split
  · have := yearText_minus (zeros_digits 3 y.natAbs) h (by omega)
    rwa [show -((y.natAbs : Nat) : Int) = y by omega] at this
  · have := yearText_plain (zeros_digits 4 y.natAbs) h
    rwa [show ((y.natAbs : Nat) : Int) = y by omega] at this

/-- The years of `toString` and `toUTCString`. -/
theorem yearText_fmtYear {y : Int} (h : y.natAbs ≤ 2147483647) : YearText (fmtYear y) y := by
  have e : fmt 4 (y.natAbs : Int) = zeros 4 (decimal y.natAbs) := by
    unfold fmt
    rw [if_neg (by omega), Int.natAbs_natCast]
  unfold fmtYear
  rw [e]
  split
  · have := yearText_minus (zeros_digits 4 y.natAbs) h (by omega)
    rw [show -((y.natAbs : Nat) : Int) = y by omega] at this
    exact this
  · have := yearText_plain (zeros_digits 4 y.natAbs) h
    rw [show ((y.natAbs : Nat) : Int) = y by omega] at this
    exact this

end Verif.Date

import Verif.Spec.Raw
import Verif.Lemmas.NumConv
import Verif.Lemmas.BigInt
/-
Helper lemmas for elements in memory.
-/
namespace Verif.Raw
open NumConv BigInt Spec
open NumConv.Spec (IntOf Modular Nearest)
open Value (W)

/-! ### Bytes -/

theorem number_append (a b : List Byte) : number (a ++ b) = number a + 256 ^ a.length * number b := by
  induction a with
  | nil => simp [number]
  | cons x a ih =>
    simp only [List.cons_append, number, ih, List.length_cons, Nat.pow_succ]
    rw [Nat.mul_add, Nat.add_assoc, ← Nat.mul_assoc, Nat.mul_comm 256 (256 ^ a.length)]

theorem number_lt (l : List Byte) : number l < 256 ^ l.length := by
  induction l with
  | nil => simp [number]
  | cons b l ih =>
    simp only [number, List.length_cons, Nat.pow_succ]
    have := b.isLt
    omega

theorem p256 (n : Nat) : 256 ^ n = 2 ^ (8 * n) := by
  rw [Nat.pow_mul]

theorem orLittle_eq (l : List Byte) (s : Nat) : orLittle s l = number l * 2 ^ s := by
  induction l generalizing s with
  | nil => simp [orLittle, number]
  | cons b l ih =>
    simp only [orLittle, ih, number]
    have h1 : b.toNat <<< s < 2 ^ (s + 8) := by
      rw [Nat.shiftLeft_eq, Nat.pow_add, Nat.mul_comm]
      exact Nat.mul_lt_mul_of_pos_left b.isLt (Nat.pow_pos (by decide))
    rw [← Nat.shiftLeft_eq (number l), Nat.or_comm, ← Nat.shiftLeft_add_eq_or_of_lt h1, Nat.shiftLeft_eq,
      Nat.shiftLeft_eq, Nat.add_mul, Nat.add_comm, Nat.pow_add, Nat.mul_comm 256, Nat.mul_assoc,
      Nat.mul_comm 256]

theorem orBig_eq (l : List Byte) : orBig l = number l.reverse := by
  induction l with
  | nil => simp [orBig, number]
  | cons b l ih =>
    have h := number_lt l.reverse
    rw [List.length_reverse, p256] at h
    simp only [orBig, ih, List.reverse_cons]
    rw [← Nat.shiftLeft_add_eq_or_of_lt h, number_append, List.length_reverse, p256, Nat.shiftLeft_eq]
    simp only [number, Nat.mul_zero, Nat.add_zero]
    rw [Nat.add_comm, Nat.mul_comm]

theorem byteOf_zero (x : Int) : ((byteOf x 0).toNat : Int) = x % 256 := by
  simp [byteOf, BitVec.toNat_ofInt]
  omega

theorem byteOf_succ (x : Int) (k : Nat) : byteOf x (k + 1) = byteOf (x / 256) k := by
  unfold byteOf
  congr 1
  rw [show 8 * (k + 1) = 8 + 8 * k by omega, Int.pow_add, Int.ediv_ediv_of_nonneg (by decide)]
  rfl

theorem number_bytes (n : Nat) (x : Int) : ((number (bytes true n x) : Nat) : Int) = x % 2 ^ (8 * n) := by
  induction n generalizing x with
  | zero => simp [bytes, number]
  | succ n ih =>
    have hb : bytes true (n + 1) x = byteOf x 0 :: bytes true n (x / 256) := by
      simp only [bytes, if_true, List.range_succ_eq_map, List.map_cons, List.map_map]
      refine congrArg _ (List.map_congr_left fun i _ => ?_)
      exact byteOf_succ x i
    rw [hb]
    simp only [number]
    rw [Int.natCast_add, Int.natCast_mul, ih, byteOf_zero]
    have hp : (2 : Int) ^ (8 * (n + 1)) = 256 * 2 ^ (8 * n) := by
      rw [show 8 * (n + 1) = 8 + 8 * n by omega, Int.pow_add]
      rfl
    rw [hp]
    generalize (2 : Int) ^ (8 * n) = P at *
    rw [Int.emod_def x (256 * P), ← Int.ediv_ediv_of_nonneg (by decide), Int.emod_def (x / 256) P,
      Int.mul_assoc, Int.mul_sub]
    have : ((256 : Nat) : Int) = 256 := rfl
    rw [this]
    omega

theorem bytes_length (little : Bool) (n : Nat) (x : Int) : (bytes little n x).length = n := by
  simp [bytes]

theorem bytes_false (n : Nat) (x : Int) : bytes false n x = (bytes true n x).reverse := by
  apply List.ext_getElem
  · simp [bytes]
  · intro i h1 h2
    simp [bytes]

/-! ### Lists -/

theorem overwrite_length {mem b : List Byte} {off : Nat} (h : off + b.length ≤ mem.length) :
    (overwrite mem off b).length = mem.length := by
  simp [overwrite]; omega

theorem overwrite_in {mem b : List Byte} {off : Nat} (h : off + b.length ≤ mem.length) :
    ((overwrite mem off b).drop off).take b.length = b := by
  unfold overwrite
  rw [List.append_assoc, List.drop_append_of_le_length (by simp; omega), List.drop_of_length_le (by simp),
    List.nil_append, List.take_append_of_le_length (Nat.le_refl _), List.take_length]

theorem overwrite_out {mem b : List Byte} {off i : Nat} (h : off + b.length ≤ mem.length)
    (hi : i < off ∨ off + b.length ≤ i) : (overwrite mem off b)[i]? = mem[i]? := by
  unfold overwrite
  rcases hi with hi | hi
  · rw [List.append_assoc, List.getElem?_append_left (by simp; omega), List.getElem?_take_of_lt hi]
  · rw [List.getElem?_append_right (by simp; omega), List.getElem?_drop]
    congr 1
    simp
    omega

/-! ### Integers as numbers -/

theorem pow_split {p : Nat} (h : p ≤ 52) : 2 ^ p * 2 ^ (52 - p) = 2 ^ 52 := by
  rw [← Nat.pow_add]; congr 1; omega

theorem encInt_isInt {i : Int} (h : i.natAbs < 2 ^ 53) : IsInt (dec (encInt i)) i := by
  unfold encInt
  by_cases h0 : i = 0
  · subst h0
    simp [dec, IsInt]
  · rw [if_neg h0]
    simp only
    generalize ha : i.natAbs = a at *
    have ha0 : a ≠ 0 := by omega
    have hp1 : 2 ^ a.log2 ≤ a := Nat.log2_self_le ha0
    have hp2 : a < 2 ^ (a.log2 + 1) := Nat.lt_log2_self
    have hp3 : a.log2 < 53 := (Nat.log2_lt ha0).2 h
    generalize a.log2 = p at *
    have hs := pow_split (p := p) (by omega)
    have hf : (a - 2 ^ p) * 2 ^ (52 - p) < 2 ^ 52 := by
      rw [← hs]
      exact Nat.mul_lt_mul_of_pos_right (by rw [Nat.pow_succ] at hp2; omega) (Nat.pow_pos (by decide))
    have hm : (a - 2 ^ p) * 2 ^ (52 - p) + 2 ^ 52 = a * 2 ^ (52 - p) := by
      rw [Nat.sub_mul, hs]
      have : 2 ^ p * 2 ^ (52 - p) ≤ a * 2 ^ (52 - p) := Nat.mul_le_mul_right _ hp1
      omega
    generalize (a - 2 ^ p) * 2 ^ (52 - p) = f at *
    generalize hS : (if i < 0 then 2 ^ 63 else 0 : Nat) = S
    have hS' : (i < 0 ∧ S = 2 ^ 63) ∨ (¬ i < 0 ∧ S = 0) := by
      rw [← hS]; by_cases hi : i < 0
      · left; simp [hi]
      · right; simp [hi]
    have hn : (BitVec.ofNat 64 (S + (1023 + p) * 2 ^ 52 + f)).toNat = S + (1023 + p) * 2 ^ 52 + f := by
      rw [BitVec.toNat_ofNat, Nat.mod_eq_of_lt]
      rcases hS' with ⟨-, rfl⟩ | ⟨-, rfl⟩ <;> omega
    have e1 : (S + (1023 + p) * 2 ^ 52 + f) / 2 ^ 52 % 2 ^ 11 = 1023 + p := by
      rcases hS' with ⟨-, rfl⟩ | ⟨-, rfl⟩ <;> omega
    have e2 : (S + (1023 + p) * 2 ^ 52 + f) % 2 ^ 52 = f := by
      rcases hS' with ⟨-, rfl⟩ | ⟨-, rfl⟩ <;> omega
    have e3 : (S + (1023 + p) * 2 ^ 52 + f) / 2 ^ 63 = 1 ↔ i < 0 := by
      rcases hS' with ⟨hi, rfl⟩ | ⟨hi, rfl⟩ <;> simp only [hi, iff_true, iff_false] <;> omega
    unfold dec
    simp only [hn, e1, e2]
    rw [if_neg (by omega), if_neg (by omega)]
    simp only [IsInt, ha, hm, decide_eq_true_eq, e3, and_true]
    rw [show (((1023 + p : Nat) : Int) - 1075).toNat = 0 by omega,
      show (-(((1023 + p : Nat) : Int) - 1075)).toNat = 52 - p by omega]
    simp

/-! ### Big integers -/

theorem digits2 {n : Nat} (h : n < 2 ^ 64) : Digits [n % base, n / base] := by
  rw [digits_cons, digits_cons]
  refine ⟨Nat.mod_lt _ (by decide), ?_, Digits.nil⟩
  rw [Nat.div_lt_iff_lt_mul (by decide)]
  exact h

theorem val2 (n : Nat) : val [n % base, n / base] = n := by
  simp only [val_cons, val_nil, Nat.mul_zero, Nat.add_zero]
  exact Nat.mod_add_div n base

theorem fromUint64_spec {n : Nat} (h : n < 2 ^ 64) : (fromUint64 n).WF ∧ (fromUint64 n).toInt = n := by
  refine ⟨WF.strip (digits2 h), ?_⟩
  unfold fromUint64
  rw [toInt_strip]
  simp only [BI.toInt, val2]
  rfl

theorem fromInt64_spec {i : Int} (h1 : -(2 ^ 63) < i) (h2 : i < 2 ^ 63) :
    ∃ x, fromInt64 i = some x ∧ x.WF ∧ x.toInt = i := by
  unfold fromInt64
  rw [if_neg (by omega)]
  refine ⟨_, rfl, WF.strip (digits2 (by omega)), ?_⟩
  rw [toInt_strip]
  simp only [BI.toInt, val2]
  by_cases hi : i < 0
  · simp only [hi, decide_true, if_true]; omega
  · simp only [hi, decide_false, Bool.false_eq_true, if_false]; omega

/-- The low 64 bits of the digits. -/
theorem low64 {x : BI} (h : x.WF) : ∃ i : Int, (∃ k : Int, i = val x.mag + k * 2 ^ 64) ∧
    -(2 ^ 63) ≤ i ∧ i < 2 ^ 63 ∧
    toInt64 x = (if x.neg then (if i = -(2 ^ 63) then none else some (-i)) else some i) := by
  obtain ⟨neg, mag⟩ := x
  have hd := h.digits
  have hb : base = 2 ^ 32 := rfl
  match mag, hd, h with
  | [], _, h =>
    refine ⟨0, ⟨0, by simp⟩, by decide, by decide, ?_⟩
    have := h.sign
    cases neg <;> simp_all [toInt64]
  | [d], hd, _ =>
    have h1 := (digits_cons.1 hd).1
    refine ⟨d, ⟨0, by simp⟩, by omega, by omega, by simp [toInt64]⟩
  | d :: d' :: ds, hd, _ =>
    have h1 := (digits_cons.1 hd).1
    have h2 := (digits_cons.1 (digits_cons.1 hd).2).1
    have hor : (d ||| (d' <<< 32) : Nat) = d + 2 ^ 32 * d' := by
      rw [Nat.or_comm, ← Nat.shiftLeft_add_eq_or_of_lt (by omega), Nat.shiftLeft_eq]; omega
    obtain ⟨⟨k, hk⟩, h3, h4⟩ := wrapS_modular 64 (by decide) ((d ||| (d' <<< 32) : Nat) : Int)
    refine ⟨wrapS 64 ((d ||| (d' <<< 32) : Nat) : Int), ⟨k - val ds, ?_⟩, h3, by simpa using h4, by simp [toInt64]⟩
    rw [hk, hor]
    simp only [val_cons, hb]
    generalize val ds = V
    rw [Int.sub_mul]
    push_cast
    omega

/-- The magnitude modulo `2 ^ 64` is not the one whose negation is undefined. -/
def BigOk (x : BI) : Prop := x.neg = true → val x.mag % 2 ^ 64 ≠ 2 ^ 63

theorem toInt64_spec {x : BI} (h : x.WF) (ho : BigOk x) :
    ∃ i, toInt64 x = some i ∧ (∃ k : Int, i = x.toInt + k * 2 ^ 64) ∧ -(2 ^ 63) ≤ i ∧ i < 2 ^ 63 := by
  obtain ⟨i, ⟨k, hk⟩, h1, h2, h3⟩ := low64 h
  rw [h3]
  by_cases hn : x.neg = true
  · have := ho hn
    rw [if_pos hn, if_neg (by omega)]
    refine ⟨_, rfl, ⟨-k, ?_⟩, by omega, by omega⟩
    simp only [BI.toInt, hn, if_true]
    rw [hk, Int.neg_mul]; omega
  · rw [if_neg hn]
    refine ⟨_, rfl, ⟨k, ?_⟩, h1, h2⟩
    simp [BI.toInt, hn, hk]

end Verif.Raw

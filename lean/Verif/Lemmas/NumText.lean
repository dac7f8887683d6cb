import Verif.Model.NumText
import Verif.Spec.NumText
import Verif.Lemmas.NumStr
import Mathlib.Tactic.Linarith
import Mathlib.Tactic.Ring

/-!
Helper lemmas for C92: the digits of `rjs_dtoa` are those of the number rounded half to even.
-/
namespace Verif.NumText
open Spec
open NumStr (val_append val_zeros chr)
open NumStr.Spec (val chars)

/-- Rounding to the nearest integer, half to even. -/
def even (B S : Nat) : Nat := if S < 2 * (B % S) ∨ 2 * (B % S) = S ∧ B / S % 2 = 1 then B / S + 1 else B / S

theorem even_mul {c : Nat} (hc : 0 < c) (B S : Nat) : even (c * B) (c * S) = even B S := by
  unfold even
  rw [Nat.mul_div_mul_left _ _ hc, Nat.mul_mod_mul_left]
  have e1 : (c * S < 2 * (c * (B % S))) ↔ S < 2 * (B % S) := by
    rw [show 2 * (c * (B % S)) = c * (2 * (B % S)) by ring]
    exact Nat.mul_lt_mul_left hc
  have e2 : (2 * (c * (B % S)) = c * S) ↔ 2 * (B % S) = S := by
    rw [show 2 * (c * (B % S)) = c * (2 * (B % S)) by ring]
    exact Nat.mul_right_inj (by omega)
  simp only [e1, e2]

theorem val_lt {l : List Nat} (h : ∀ d ∈ l, d < 10) : val l < 10 ^ l.length := by
  induction l with
  | nil => simp [val]
  | cons d l ih =>
    have h1 := ih fun x hx => h x (List.mem_cons_of_mem _ hx)
    have h2 := h d List.mem_cons_self
    simp only [val, List.length_cons, Nat.pow_succ]
    nlinarith [Nat.pos_pow_length l]
where
  Nat.pos_pow_length (l : List Nat) : 0 < 10 ^ l.length := Nat.pow_pos (by omega)

theorem val_ge {l : List Nat} {d : Nat} (h : l.head? = some d) (hd : d ≠ 0) : 10 ^ (l.length - 1) ≤ val l := by
  cases l with
  | nil => cases h
  | cons a l =>
    simp only [List.head?_cons, Option.some.injEq] at h
    subst h
    simp only [val, List.length_cons, Nat.add_sub_cancel]
    have : 0 < 10 ^ l.length := Nat.pow_pos (by omega)
    have h1 : 1 ≤ a := by omega
    nlinarith

theorem val_rev_cons (d : Nat) (s : List Nat) : val (d :: s).reverse = val s.reverse * 10 + d := by
  rw [List.reverse_cons, val_append]
  simp [val]

/-- The digits made by the loop. -/
theorem gen_spec (S : Nat) (hS : 0 < S) : ∀ (n b : Nat) (s : List Nat), b < 10 * S →
    ∃ t m, (gen S n b s).1 = t ++ s ∧ t.length = m + 1 ∧ m ≤ n ∧ (∀ d ∈ t, d < 10) ∧
      val t.reverse * S + (gen S n b s).2 = b * 10 ^ m ∧ (gen S n b s).2 < S ∧
      ((gen S n b s).2 = 0 ∨ m = n) ∧ t.getLast? = some (b / S)
  | 0, b, s, hb => by
    refine ⟨[b / S], 0, rfl, rfl, Nat.le_refl _, ?_, ?_, Nat.mod_lt _ hS, Or.inr rfl, rfl⟩
    · simp only [List.mem_singleton, forall_eq]
      exact (Nat.div_lt_iff_lt_mul hS).2 hb
    · simp only [gen, List.reverse_singleton, val]
      have := Nat.div_add_mod b S
      rw [Nat.mul_comm S] at this
      simp
      omega
  | n + 1, b, s, hb => by
    have hd : b / S < 10 := (Nat.div_lt_iff_lt_mul hS).2 hb
    have hdm := Nat.div_add_mod b S
    rw [Nat.mul_comm S] at hdm
    by_cases h0 : b % S = 0
    · refine ⟨[b / S], 0, ?_, rfl, Nat.zero_le _, ?_, ?_, ?_, Or.inl ?_, rfl⟩
      · simp [gen, h0]
      · simpa using hd
      · simp only [gen, h0, if_true, List.reverse_singleton, val]
        simp; omega
      · simpa [gen, h0] using hS
      · simp [gen, h0]
    · have hlt := Nat.mod_lt b hS
      obtain ⟨t, m, e1, e2, e3, e4, e5, e6, e7, e8⟩ := gen_spec S hS n (b % S * 10) (b / S :: s) (by omega)
      have hg : gen S (n + 1) b s = gen S n (b % S * 10) (b / S :: s) := by simp [gen, h0]
      rw [hg]
      refine ⟨t ++ [b / S], m + 1, ?_, by simp [e2], by omega, ?_, ?_, e6, ?_, by simp⟩
      · rw [e1]; simp
      · intro d hm
        rcases List.mem_append.1 hm with hm | hm
        · exact e4 d hm
        · rw [List.mem_singleton.1 hm]; exact hd
      · rw [List.reverse_append, List.reverse_singleton, val_append, List.length_reverse, e2]
        simp only [val, List.length_nil, Nat.pow_zero, Nat.mul_one, Nat.add_zero]
        have : b * 10 ^ (m + 1) = (b / S * S + b % S) * 10 ^ (m + 1) := by rw [hdm]
        rw [this, Nat.pow_succ, Nat.add_mul, Nat.add_mul]
        have e5' := e5
        rw [Nat.mul_assoc (b % S) 10, Nat.mul_comm 10] at e5'
        rw [Nat.add_assoc, e5']
        ring
      · rcases e7 with e7 | e7
        · exact Or.inl e7
        · exact Or.inr (by omega)

theorem roundoff_spec : ∀ (t : List Nat), (∀ d ∈ t, d < 10) →
    (roundoff t = none → val t.reverse + 1 = 10 ^ t.length) ∧
    (∀ t', roundoff t = some t' → (∀ d ∈ t', d < 10) ∧ t' ≠ [] ∧ t'.length ≤ t.length ∧
      val t'.reverse * 10 ^ (t.length - t'.length) = val t.reverse + 1 ∧
      ∀ x, t.getLast? = some x → x ≠ 0 → ∃ y, t'.getLast? = some y ∧ y ≠ 0)
  | [], _ => by simp [roundoff, val]
  | d :: s, h => by
    have hs : ∀ x ∈ s, x < 10 := fun x hx => h x (List.mem_cons_of_mem _ hx)
    have hd := h d List.mem_cons_self
    obtain ⟨a1, a2⟩ := roundoff_spec s hs
    by_cases h9 : d = 9
    · have e : roundoff (d :: s) = roundoff s := by simp [roundoff, h9]
      rw [e]
      refine ⟨fun hn => ?_, fun t' ht => ?_⟩
      · rw [val_rev_cons, List.length_cons, Nat.pow_succ, ← a1 hn, h9]; omega
      · obtain ⟨b1, b2, b3, b4, b5⟩ := a2 t' ht
        refine ⟨b1, b2, by simp; omega, ?_, ?_⟩
        · rw [val_rev_cons, List.length_cons, show s.length + 1 - t'.length = s.length - t'.length + 1 by omega,
            Nat.pow_succ, ← Nat.mul_assoc, b4, h9]
          omega
        · intro x hx h0
          cases s with
          | nil => simp [roundoff] at ht
          | cons c s => exact b5 x (by simpa [List.getLast?_cons_cons] using hx) h0
    · have e : roundoff (d :: s) = some ((d + 1) :: s) := by simp [roundoff, h9]
      rw [e]
      refine ⟨fun hn => (nomatch hn), fun t' ht => ?_⟩
      simp only [Option.some.injEq] at ht
      subst ht
      refine ⟨?_, by simp, Nat.le_refl _, ?_, ?_⟩
      · intro x hx
        rcases List.mem_cons.1 hx with rfl | hx
        · omega
        · exact hs x hx
      · rw [val_rev_cons, val_rev_cons]; simp; omega
      · intro x hx h0
        cases s with
        | nil => exact ⟨d + 1, by simp, by omega⟩
        | cons c s => exact ⟨x, by simpa [List.getLast?_cons_cons] using hx, h0⟩

theorem strip_spec : ∀ (t : List Nat), (∀ d ∈ t, d < 10) → (∃ x, t.getLast? = some x ∧ x ≠ 0) →
    (∀ d ∈ strip t, d < 10) ∧ strip t ≠ [] ∧ (strip t).length ≤ t.length ∧
      val (strip t).reverse * 10 ^ (t.length - (strip t).length) = val t.reverse ∧
      ∃ x, (strip t).getLast? = some x ∧ x ≠ 0
  | [], _, h => by obtain ⟨x, h, _⟩ := h; cases h
  | d :: s, h, ⟨x, hx, h0⟩ => by
    have hs : ∀ x ∈ s, x < 10 := fun x hx => h x (List.mem_cons_of_mem _ hx)
    by_cases hd : d = 0
    · cases s with
      | nil =>
        simp only [List.getLast?_singleton, Option.some.injEq] at hx
        omega
      | cons c s =>
        obtain ⟨b1, b2, b3, b4, b5⟩ := strip_spec (c :: s) hs ⟨x, by simpa [List.getLast?_cons_cons] using hx, h0⟩
        have e : strip (d :: c :: s) = strip (c :: s) := by rw [strip, if_pos hd]
        rw [e]
        refine ⟨b1, b2, by rw [List.length_cons]; omega, ?_, b5⟩
        rw [val_rev_cons, List.length_cons, show (c :: s).length + 1 - (strip (c :: s)).length =
          (c :: s).length - (strip (c :: s)).length + 1 by omega, Nat.pow_succ, ← Nat.mul_assoc, b4, hd]
        omega
    · have e : strip (d :: s) = d :: s := by rw [strip, if_neg hd]
      rw [e]
      exact ⟨h, by simp, Nat.le_refl _, by simp, x, hx, h0⟩

theorem val_odd {t : List Nat} (h : t ≠ []) : val t.reverse % 2 = t.headD 0 % 2 := by
  cases t with
  | nil => exact absurd rfl h
  | cons d s => rw [val_rev_cons]; simp; omega

theorem head_reverse {t : List Nat} {x : Nat} (h : t.getLast? = some x) : t.reverse.head? = some x := by
  rw [List.head?_reverse, h]

/-- The digits are those of the number rounded half to even. -/
theorem digits_spec (b S : Nat) (k : Int) (n : Nat) (hS : 0 < S) (h1 : S ≤ b) (h2 : b < 10 * S) :
    ∃ ds : List Nat, ∃ c : Nat, digits b S k (n + 1) = (ds, k + 1 + c) ∧ (c = 0 ∨ c = 1 ∧ ds = [1]) ∧ (∀ d ∈ ds, d < 10) ∧
      (∃ x, ds.head? = some x ∧ x ≠ 0) ∧ ds.length ≤ n + 1 ∧
      val ds * 10 ^ (n + 1 + c - ds.length) = even (b * 10 ^ n) S := by
  obtain ⟨t, m, e1, e2, e3, e4, e5, e6, e7, e8⟩ := gen_spec S hS n b [] h2
  rw [List.append_nil] at e1
  have hq : b / S ≠ 0 := by
    have := Nat.div_pos h1 hS
    omega
  have htne : t ≠ [] := by intro hc; rw [hc] at e2; simp at e2
  -- the rounded value
  have hB : b * 10 ^ n = (val t.reverse * 10 ^ (n - m)) * S + (gen S n b []).2 := by
    have hp : b * 10 ^ n = b * 10 ^ m * 10 ^ (n - m) := by rw [Nat.mul_assoc, ← Nat.pow_add, Nat.add_sub_cancel' e3]
    rw [hp, ← e5, Nat.add_mul]
    rcases e7 with e7 | e7
    · rw [e7]; ring
    · rw [e7]; simp
  have hdiv : b * 10 ^ n / S = val t.reverse * 10 ^ (n - m) := by
    rw [hB, Nat.mul_comm _ S, Nat.mul_add_div hS, Nat.div_eq_of_lt e6, Nat.add_zero]
  have hmod : b * 10 ^ n % S = (gen S n b []).2 := by
    rw [hB, Nat.mul_comm _ S, Nat.mul_add_mod, Nat.mod_eq_of_lt e6]
  have hup : up S (gen S n b []).2 (gen S n b []).1 = true ↔
      (S < 2 * (b * 10 ^ n % S) ∨ 2 * (b * 10 ^ n % S) = S ∧ b * 10 ^ n / S % 2 = 1) := by
    rw [hmod, hdiv, e1]
    unfold up
    simp only [Bool.and_eq_true, Bool.or_eq_true, decide_eq_true_eq, ne_eq]
    rw [← val_odd htne]
    constructor
    · rintro ⟨a, b⟩
      have : m = n := by rcases e7 with e7 | e7 <;> omega
      rcases b with b | b
      · exact Or.inl b
      · refine Or.inr ⟨b.1, ?_⟩
        rw [this]; simpa using b.2
    · intro a
      have hr : (gen S n b []).2 ≠ 0 := by rcases a with a | a <;> omega
      have : m = n := by rcases e7 with e7 | e7 <;> omega
      refine ⟨hr, ?_⟩
      rw [this] at a
      simpa using a
  unfold digits
  simp only [Nat.add_sub_cancel]
  by_cases hu : up S (gen S n b []).2 (gen S n b []).1 = true
  · rw [if_pos hu]
    have hev : even (b * 10 ^ n) S = val t.reverse * 10 ^ (n - m) + 1 := by
      unfold even; rw [if_pos (hup.1 hu), hdiv]
    have hm : m = n := by
      rcases e7 with e7 | e7
      · have := hup.1 hu
        rw [hmod, e7] at this
        omega
      · exact e7
    rw [hm, Nat.sub_self, Nat.pow_zero, Nat.mul_one] at hev
    rw [e1]
    obtain ⟨r1, r2⟩ := roundoff_spec t e4
    cases hr : roundoff t with
    | none =>
      refine ⟨[1], 1, by simp; omega, Or.inr ⟨rfl, rfl⟩, by simp, ⟨1, rfl, by omega⟩, by simp, ?_⟩
      rw [hev, r1 hr, e2, hm]
      simp [val]
    | some t' =>
      obtain ⟨b1, b2, b3, b4, b5⟩ := r2 t' hr
      obtain ⟨c1, c2, c3, c4, x, c5, c6⟩ := strip_spec t' b1 (b5 _ e8 hq)
      refine ⟨(strip t').reverse, 0, by simp, Or.inl rfl, by simpa using c1, ⟨x, head_reverse c5, c6⟩, ?_, ?_⟩
      · simp; omega
      · rw [hev, ← b4, ← c4, Nat.mul_assoc, ← Nat.pow_add, List.length_reverse]
        congr 2
        omega
  · rw [if_neg hu, e1]
    have hev : even (b * 10 ^ n) S = val t.reverse * 10 ^ (n - m) := by
      unfold even; rw [if_neg (fun c => hu (hup.2 c)), hdiv]
    obtain ⟨c1, c2, c3, c4, x, c5, c6⟩ := strip_spec t e4 ⟨_, e8, hq⟩
    refine ⟨(strip t).reverse, 0, by simp, Or.inl rfl, by simpa using c1, ⟨x, head_reverse c5, c6⟩, ?_, ?_⟩
    · simp; omega
    · rw [hev, ← c4, Nat.mul_assoc, ← Nat.pow_add, List.length_reverse]
      congr 2
      omega

theorem findUp_spec (p q : Nat) : ∀ fuel k, q * 10 ^ k ≤ p → p < q * 10 ^ (k + fuel + 1) →
    q * 10 ^ findUp p q fuel k ≤ p ∧ p < q * 10 ^ (findUp p q fuel k + 1)
  | 0, k, h1, h2 => by simpa [findUp] using ⟨h1, h2⟩
  | fuel + 1, k, h1, h2 => by
    unfold findUp
    by_cases h : q * 10 ^ (k + 1) ≤ p
    · rw [if_pos h]
      exact findUp_spec p q fuel (k + 1) h (by rwa [show k + 1 + fuel + 1 = k + (fuel + 1) + 1 by omega])
    · rw [if_neg h]
      exact ⟨h1, by omega⟩

theorem findDown_spec (p q : Nat) : ∀ fuel j, p * 10 ^ j < q * 10 → q ≤ p * 10 ^ (j + fuel) →
    q ≤ p * 10 ^ findDown p q fuel j ∧ p * 10 ^ findDown p q fuel j < q * 10
  | 0, j, h1, h2 => by simpa [findDown] using ⟨h2, h1⟩
  | fuel + 1, j, h1, h2 => by
    unfold findDown
    by_cases h : p * 10 ^ j < q
    · rw [if_pos h]
      refine findDown_spec p q fuel (j + 1) ?_ (by rwa [show j + 1 + fuel = j + (fuel + 1) by omega])
      rw [Nat.pow_succ, ← Nat.mul_assoc]; omega
    · rw [if_neg h]
      exact ⟨by omega, h1⟩

theorem scale_spec (p q : Nat) (hp : 0 < p) (hq : 0 < q) :
    0 < (scale p q).2.1 ∧ (scale p q).2.1 ≤ (scale p q).1 ∧ (scale p q).1 < 10 * (scale p q).2.1 ∧
    ((∃ k : Nat, scale p q = (p, q * 10 ^ k, (k : Int))) ∨ ∃ j : Nat, scale p q = (p * 10 ^ j, q, -(j : Int))) := by
  unfold scale
  by_cases h : q ≤ p
  · rw [if_pos h]
    have hlt : p < q * 10 ^ (0 + p + 1) := by
      have h1 : p < 10 ^ (p + 1) := Nat.lt_of_lt_of_le (Nat.lt_succ_self p) (Nat.le_of_lt (Nat.lt_pow_self (by omega)))
      rw [Nat.zero_add]
      exact Nat.lt_of_lt_of_le h1 (Nat.le_mul_of_pos_left _ hq)
    obtain ⟨a1, a2⟩ := findUp_spec p q p 0 (by simpa using h) hlt
    refine ⟨Nat.mul_pos hq (Nat.pow_pos (by omega)), a1, ?_, Or.inl ⟨_, rfl⟩⟩
    rw [Nat.pow_succ] at a2
    show p < 10 * (q * 10 ^ findUp p q p 0)
    rw [Nat.mul_comm 10, Nat.mul_assoc]
    exact a2
  · rw [if_neg h]
    have hle : q ≤ p * 10 ^ (0 + q) := by
      rw [Nat.zero_add]
      exact Nat.le_trans (Nat.le_of_lt (Nat.lt_pow_self (by omega : 1 < 10))) (Nat.le_mul_of_pos_left _ hp)
    obtain ⟨a1, a2⟩ := findDown_spec p q q 0 (by simp; omega) hle
    refine ⟨hq, a1, ?_, Or.inr ⟨_, rfl⟩⟩
    show p * 10 ^ findDown p q q 0 < 10 * q
    omega

end Verif.NumText

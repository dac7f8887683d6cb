import Verif.Model.NumStr
import Verif.Spec.NumStr
/-
Lemmas on the layout of numbers.
-/
namespace Verif.NumStr
open Spec

theorem val_append (a b : List Nat) : val (a ++ b) = val a * 10 ^ b.length + val b := by
  induction a with
  | nil => simp [val]
  | cons d a ih =>
    simp only [List.cons_append, val, ih, List.length_append, Nat.pow_add, Nat.add_mul, Nat.mul_assoc]
    omega

theorem val_zeros (n : Nat) : val (List.replicate n 0) = 0 := by
  induction n with
  | zero => rfl
  | succ n ih => simp [List.replicate_succ, val, ih]

/-- The first loop finds the power of ten above the exponent. -/
theorem upLoop_spec (fuel : Nat) : ∀ j left : Nat, left < 10 ^ (j + 1 + fuel) → 10 ^ j ≤ left →
    ∃ k, upLoop fuel (10 ^ (j + 1)) left = 10 ^ (k + 1) ∧ 10 ^ k ≤ left ∧ left < 10 ^ (k + 1) := by
  induction fuel with
  | zero => intro j left h1 h2; exact ⟨j, rfl, h2, h1⟩
  | succ fuel ih =>
    intro j left h1 h2
    unfold upLoop
    split
    · rename_i hv
      rw [← Nat.pow_succ]
      exact ih (j + 1) left (by rw [show j + 1 + 1 + fuel = j + 1 + (fuel + 1) by omega]; exact h1) hv
    · rename_i hv
      exact ⟨j, rfl, h2, by omega⟩

/-- The second loop writes the digits. -/
theorem downLoop_spec (j : Nat) : ∀ fuel left : Nat, left < 10 ^ (j + 1) → j < fuel →
    ∃ l, downLoop fuel (10 ^ j) left = chars l ∧ l.length = j + 1 ∧ val l = left ∧ (∀ d ∈ l, d < 10) ∧
      l.head? = some (left / 10 ^ j) := by
  induction j with
  | zero =>
    intro fuel left h1 h2
    obtain ⟨f, rfl⟩ : ∃ f, fuel = f + 1 := ⟨fuel - 1, by omega⟩
    refine ⟨[left], ?_, rfl, by simp [val], by simpa using h1, by simp⟩
    cases f <;> simp [downLoop, chars, chr]
  | succ j ih =>
    intro fuel left h1 h2
    obtain ⟨f, rfl⟩ : ∃ f, fuel = f + 1 := ⟨fuel - 1, by omega⟩
    have hp : 0 < 10 ^ (j + 1) := Nat.pow_pos (by decide)
    obtain ⟨l, e1, e2, e3, e4, -⟩ := ih f (left % 10 ^ (j + 1)) (Nat.mod_lt _ hp) (by omega)
    refine ⟨left / 10 ^ (j + 1) :: l, ?_, by simp [e2], ?_, ?_, rfl⟩
    · unfold downLoop
      rw [if_pos hp, show 10 ^ (j + 1) / 10 = 10 ^ j by rw [Nat.pow_succ]; exact Nat.mul_div_cancel _ (by decide),
        e1]
      rfl
    · rw [val, e2, e3, Nat.mul_comm]
      exact Nat.div_add_mod ..
    · intro d hd
      rcases List.mem_cons.1 hd with rfl | hd
      · rw [Nat.div_lt_iff_lt_mul hp, ← Nat.pow_succ']
        exact h1
      · exact e4 d hd

/-- The exponent is written in decimal. -/
theorem exponent_spec (left : Nat) (h : 0 < left) :
    ∃ l, downLoop (left + 2) (upLoop (left + 1) 10 left / 10) left = chars l ∧ IsDec left l ∧
      10 ^ (l.length - 1) ≤ left := by
  obtain ⟨k, e1, e2, e3⟩ := upLoop_spec (left + 1) 0 left
    (Nat.lt_trans (Nat.lt_pow_self (by decide : 1 < 10)) (Nat.pow_lt_pow_right (by decide) (by omega)))
    (by simp; omega)
  have hk : k < left := Nat.lt_of_lt_of_le (Nat.lt_pow_self (by decide : 1 < 10)) e2
  obtain ⟨l, f1, f2, f3, f4, f5⟩ := downLoop_spec k (left + 2) left e3 (by omega)
  refine ⟨l, ?_, ⟨f4, f3, ?_, ?_⟩, ?_⟩
  · rw [show upLoop (left + 1) 10 left = 10 ^ (k + 1) from e1, Nat.pow_succ,
      Nat.mul_div_cancel _ (by decide)]
    exact f1
  · rw [f5]
    have := Nat.div_pos e2 (Nat.pow_pos (n := k) (by decide : 0 < 10))
    simp only [ne_eq, Option.some.injEq]
    omega
  · intro e; rw [e] at f2; simp at f2
  · rw [f2]; exact e2

theorem copy_all (ds : List Nat) : copy ds.length ds = some (chars ds, []) := by
  simp [copy, chars, chr]

theorem copy_le {n : Nat} {ds : List Nat} (h : n ≤ ds.length) :
    copy n ds = some (chars (ds.take n), ds.drop n) := by
  unfold copy; rw [if_pos h]; rfl

/-- The text, as the standard has it. -/
theorem body_spec (ds : List Nat) (n : Int) (hne : ds ≠ []) :
    ∃ b, body ds n = some b ∧ ∀ neg, Layout neg ds n ((if neg then [45] else []) ++ b) ∧
      (-400 ≤ n → n ≤ 400 → ds.length ≤ 17 → b.length ≤ 25) := by
  have hlen : 0 < ds.length := List.length_pos_iff.2 hne
  unfold body
  simp only
  split
  · rename_i h
    rw [copy_all]
    refine ⟨_, rfl, fun neg => ⟨⟨_, rfl, ?_, by omega⟩, ?_⟩⟩
    · intro _
      refine ⟨fun _ => ?_, by omega, by omega⟩
      congr 2; omega
    · intro _ _ h17
      simp [chars]; omega
  · rename_i h1
    split
    · rename_i h
      have hl : n.toNat ≤ ds.length := by omega
      rw [copy_le hl]
      simp only
      rw [show ((ds.length : Int) - n).toNat = (ds.drop n.toNat).length by simp; omega, copy_all]
      refine ⟨_, rfl, fun neg => ⟨⟨_, rfl, ?_, by omega⟩, ?_⟩⟩
      · intro _
        exact ⟨by omega, fun _ _ => by simp, by omega⟩
      · intro _ _ h17
        simp [chars]; omega
    · split
      · rename_i h
        rw [copy_all]
        refine ⟨_, rfl, fun neg => ⟨⟨_, rfl, ?_, by omega⟩, ?_⟩⟩
        · intro _
          exact ⟨by omega, by omega, fun _ => by simp⟩
        · intro _ _ h17
          simp [chars]; omega
      · rename_i h2 h3
        rw [copy_le (by omega : 1 ≤ ds.length)]
        obtain ⟨d, rest, rfl⟩ := List.exists_cons_of_ne_nil hne
        simp only [List.drop_succ_cons, List.drop_zero, List.take_succ_cons, List.take_zero]
        have hmid : fraction ((d :: rest).length : Int) rest = some (if rest = [] then [] else [46] ++ chars rest) := by
          unfold fraction
          by_cases hr : rest = []
          · subst hr; simp
          · have : 0 < rest.length := List.length_pos_iff.2 hr
            rw [if_pos (by simp; omega), if_neg hr,
              show (((d :: rest).length : Int) - 1).toNat = rest.length by simp, copy_all]
            rfl
        rw [hmid]
        simp only
        have hout : ¬ (-5 ≤ n ∧ n ≤ 21) := by omega
        have h400 : ∀ l : List Nat, 10 ^ (l.length - 1) ≤ (n - 1).natAbs → -400 ≤ n → n ≤ 400 →
            l.length ≤ 3 := by
          intro l h ha hb
          rcases Nat.lt_or_ge l.length 4 with hc | hc
          · omega
          · have := Nat.pow_le_pow_right (by decide : 0 < 10) (show 3 ≤ l.length - 1 by omega)
            omega
        by_cases hs : n - 1 < 0
        · obtain ⟨l, e1, e2, e3⟩ := exponent_spec (1 - n).toNat (by omega)
          have hn : (1 - n).toNat = (n - 1).natAbs := by omega
          rw [if_pos hs]
          simp only
          rw [e1]
          refine ⟨_, rfl, fun neg => ⟨⟨_, rfl, by omega, fun _ => ⟨l, hn ▸ e2, d, rest, rfl, ?_⟩⟩, ?_⟩⟩
          · rw [if_pos hs]; simp
          · intro ha hb hk
            have := h400 l (hn ▸ e3) ha hb
            split <;> simp [chars] at * <;> omega
        · obtain ⟨l, e1, e2, e3⟩ := exponent_spec (n - 1).toNat (by omega)
          have hn : (n - 1).toNat = (n - 1).natAbs := by omega
          rw [if_neg hs]
          simp only
          rw [e1]
          refine ⟨_, rfl, fun neg => ⟨⟨_, rfl, by omega, fun _ => ⟨l, hn ▸ e2, d, rest, rfl, ?_⟩⟩, ?_⟩⟩
          · rw [if_neg hs]; simp
          · intro ha hb hk
            have := h400 l (hn ▸ e3) ha hb
            split <;> simp [chars] at * <;> omega

end Verif.NumStr

import Verif.Lemmas.BufferRun
import Verif.Props.Raw
/-
Arguments: the conversions of the model are those of the specification.
-/
namespace Verif.Buffer
open NumConv Spec
open NumConv.Spec (IsTrunc)
open Raw (Byte Ty Val Fpu)

variable {s s' : State}

theorem integer_ioi (x : Num) :
    match ioi x with
    | .fin i => ∃ neg, Integer x (some i) neg
    | .pinf => Integer x none false
    | .ninf => Integer x none true := by
  cases x with
  | nan => exact ⟨false, .nan⟩
  | inf neg => cases neg <;> exact .inf _
  | fin neg m e => exact ⟨neg, .fin neg m e _ (cut_isTrunc neg m e)⟩

theorem integer_unique {x : Num} {i j : Option Int} {a b : Bool} (h : Integer x i a) (h' : Integer x j b) : i = j ∧ (i = none → a = b) := by
  cases h with
  | nan => cases h'; exact ⟨rfl, fun h => by cases h⟩
  | inf neg => cases h'; exact ⟨rfl, fun _ => rfl⟩
  | fin neg m e i hi =>
    cases h' with
    | fin _ _ _ j hj => exact ⟨by rw [isTrunc_unique hi hj], fun h => by cases h⟩

theorem toIndex_some {x : Num} {i : Nat} (h : toIndex x = some i) : Index x i := by
  have hi := integer_ioi x
  unfold toIndex at h
  cases hx : ioi x with
  | fin j =>
    rw [hx] at h hi
    simp only at h hi
    split at h
    next hc =>
      obtain ⟨neg, hi⟩ := hi
      have := Option.some.inj h
      refine ⟨neg, ?_, by omega⟩
      rw [show ((i : Nat) : Int) = j by omega]
      exact hi
    · cases h
  | pinf => rw [hx] at h; cases h
  | ninf => rw [hx] at h; cases h

theorem index_toIndex {x : Num} {i : Nat} (h : Index x i) : toIndex x = some i := by
  have hi := integer_ioi x
  obtain ⟨neg, h1, h2⟩ := h
  unfold toIndex
  cases hx : ioi x with
  | fin j =>
    rw [hx] at hi
    obtain ⟨neg', hi⟩ := hi
    obtain ⟨e, -⟩ := integer_unique h1 hi
    have e := Option.some.inj e
    simp only
    rw [if_pos (by omega)]
    congr 1
    omega
  | pinf =>
    rw [hx] at hi
    have := (integer_unique h1 hi).1
    cases this
  | ninf =>
    rw [hx] at hi
    have := (integer_unique h1 hi).1
    cases this

theorem noIndex_toIndex {x : Num} (h : NoIndex x) : toIndex x = none := by
  cases hx : toIndex x with
  | none => rfl
  | some i => exact absurd (toIndex_some hx) (h i)

theorem clamp_rel {len : Nat} {x : Num} {k : Nat} (h : Clamp len x k) : rel len x = k := by
  have hi := integer_ioi x
  obtain ⟨i, neg, h1, h2⟩ := h
  unfold rel
  cases hx : ioi x with
  | fin j =>
    rw [hx] at hi
    obtain ⟨neg', hi⟩ := hi
    obtain ⟨rfl, -⟩ := integer_unique h1 hi
    simp only at h2 ⊢
    split
    next hn => rw [if_pos hn] at h2; omega
    next hn => rw [if_neg hn] at h2; omega
  | pinf =>
    rw [hx] at hi
    obtain ⟨rfl, e⟩ := integer_unique h1 hi
    have := e rfl
    subst this
    simp at h2 ⊢
    exact h2.symm
  | ninf =>
    rw [hx] at hi
    obtain ⟨rfl, e⟩ := integer_unique h1 hi
    have := e rfl
    subst this
    simp at h2 ⊢
    exact h2.symm

theorem rel_clamp (len : Nat) (x : Num) : Clamp len x (rel len x) := by
  have hi := integer_ioi x
  unfold rel
  cases hx : ioi x with
  | fin j =>
    rw [hx] at hi
    obtain ⟨neg, hi⟩ := hi
    refine ⟨_, neg, hi, ?_⟩
    simp only
    split <;> omega
  | pinf =>
    rw [hx] at hi
    exact ⟨_, _, hi, by simp⟩
  | ninf =>
    rw [hx] at hi
    exact ⟨_, _, hi, by simp⟩

theorem bytes_att {b : Nat} {m : List Byte} (h : Bytes s b m) : ∃ k L, Att s b k L ∧ mem s k = some m := by
  obtain ⟨k, L, B, h1, h2, h3⟩ := h
  exact ⟨k, L, h1, by simp [mem, h2, h3]⟩

theorem att_bytes {b k L : Nat} {m : List Byte} (h : Att s b k L) (hm : mem s k = some m) : Bytes s b m := by
  obtain ⟨B, h1, h2⟩ := mem_some hm
  exact ⟨k, L, B, h, h1, h2⟩

theorem gone_detached {b : Nat} (h : Gone s b) : detached s b = true := by
  by_cases hd : detached s b = true
  · exact hd
  · obtain ⟨k, L, ha⟩ := not_detached hd
    exact absurd ha (h k L)

/-- A buffer is detached, or has its bytes. -/
theorem gone_or (hI : Inv s) (b : Nat) : Gone s b ∨ ∃ m, Bytes s b m := by
  by_cases hd : detached s b = true
  · exact Or.inl (detached_true hd)
  · obtain ⟨k, L, ha⟩ := not_detached hd
    obtain ⟨m, hm, -⟩ := hI.att ha
    exact Or.inr ⟨m, att_bytes ha hm⟩

/-- The index of an element. -/
theorem validIndex_isInt {V : View} {n : Num} {i : Nat} {k L : Nat} (ha : Att s V.buf k L) (hn : Raw.Spec.IsInt n i) (hi : i < V.alen) :
    validIndex s V n = some i := by
  unfold validIndex
  rw [if_neg (by rw [attached_ok ha]; decide)]
  cases n with
  | nan => exact hn.elim
  | inf _ => exact hn.elim
  | fin neg m e =>
    obtain ⟨h1, h2⟩ := hn
    have hneg : neg = false := by
      cases neg with
      | false => rfl
      | true => have := h2.1 rfl; omega
    have hd : 0 < den e := by unfold den; exact Nat.pow_pos (by decide)
    have h1 : num m e = i * den e := by simpa [num, den] using h1
    simp only
    rw [h1, Nat.mul_mod_left, Nat.mul_div_cancel _ hd]
    rw [if_pos ⟨rfl, hneg, hi⟩]

theorem isInt_validIndex {V : View} {n : Num} {i : Nat} (h : validIndex s V n = some i) : Raw.Spec.IsInt n i ∧ i < V.alen ∧ ∃ k L, Att s V.buf k L := by
  have hv := validIndex_some h
  refine ⟨?_, hv.2, hv.1⟩
  unfold validIndex at h
  split at h
  · cases h
  cases n with
  | nan => cases h
  | inf _ => cases h
  | fin neg m e =>
    simp only at h
    split at h
    next hc =>
      have := Option.some.inj h
      have hd : 0 < den e := by unfold den; exact Nat.pow_pos (by decide)
      subst this
      refine ⟨?_, by rw [hc.2.1]; exact ⟨fun h => (by cases h), fun h => absurd h (Int.not_lt.2 (Int.natCast_nonneg _))⟩⟩
      show num m e = _
      rw [Int.natAbs_natCast]
      exact (Nat.div_mul_cancel (Nat.dvd_of_mod_eq_zero hc.1)).symm
    · cases h

end Verif.Buffer

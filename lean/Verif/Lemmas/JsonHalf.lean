import Verif.Spec.JsonValue
/-
Numbers for which the assumptions of C47 can be shown: 0, -0, 0.5 and -0.5.
-/
namespace Verif.Json

open Spec NumStr.Spec

theorem val_zero : ∀ {l : List Nat}, val l = 0 → ∀ d ∈ l, d = 0
  | [], _, d, hd => by cases hd
  | x :: l, h, d, hd => by
    have hp : 0 < 10 ^ l.length := Nat.pow_pos (by omega)
    rw [val] at h
    have h1 : x * 10 ^ l.length = 0 := by omega
    have hx : x = 0 := (Nat.mul_eq_zero.1 h1).resolve_right (by omega)
    rcases List.mem_cons.1 hd with rfl | hd
    · exact hx
    · exact val_zero (by omega) d hd

theorem val_zeros : ∀ {l : List Nat}, (∀ d ∈ l, d = 0) → val l = 0
  | [], _ => rfl
  | x :: l, h => by
    rw [val, h x (by simp), val_zeros fun d hd => h d (by simp [hd])]
    omega

/-- The characters in front of the exponent. -/
def front (t : List Nat) : List Nat := t.takeWhile (· ≠ 101)

theorem front_denotes {t : List Nat} {s : Nat} {x : Int} (h : Denotes t false s x) :
    (s = 0 ↔ ∀ c ∈ front t, c = 48 ∨ c = 46) := by
  obtain ⟨i, f, e, pt, ex, hi, hf, -, hpt, hex, rfl, hv⟩ := h
  have hs : s = 0 ↔ val (i ++ f) = 0 := by
    have p : ∀ n : Nat, 10 ^ n ≠ 0 := fun n => Nat.ne_of_gt (Nat.pow_pos (by omega))
    constructor
    · rintro rfl
      simp only [Nat.zero_mul, Nat.mul_eq_zero, p, or_false] at hv
      exact hv
    · intro h0
      rw [h0] at hv
      simp only [Nat.zero_mul] at hv
      have := hv.symm
      simp only [Nat.mul_eq_zero, p, or_false] at this
      exact this
  have hne : ∀ c ∈ chars i ++ pt, (decide (c ≠ 101)) = true := by
    intro c hc
    rw [decide_eq_true_iff]
    rcases List.mem_append.1 hc with hc | hc
    · obtain ⟨d, hd, rfl⟩ := List.mem_map.1 hc
      have := hi d hd; omega
    · rcases hpt with ⟨rfl, -⟩ | ⟨rfl, -⟩
      · rcases List.mem_append.1 hc with hc | hc
        · simp at hc; omega
        · obtain ⟨d, hd, rfl⟩ := List.mem_map.1 hc
          have := hf d hd; omega
      · cases hc
  have hfr : front ((if false = true then [45] else []) ++ chars i ++ pt ++ ex) = chars i ++ pt := by
    have h1 : (if false = true then [45] else []) ++ chars i ++ pt ++ ex = (chars i ++ pt) ++ ex := by simp
    rw [h1, front, List.takeWhile_append_of_pos hne]
    rcases hex with ⟨rfl, -⟩ | ⟨sg, l, rfl, -⟩ <;> simp
  rw [hfr, hs]
  constructor
  · intro h c hc
    have h := val_zero h
    rcases List.mem_append.1 hc with hc | hc
    · obtain ⟨d, hd, rfl⟩ := List.mem_map.1 hc
      left; rw [h d (by simp [hd])]
    · rcases hpt with ⟨rfl, -⟩ | ⟨rfl, -⟩
      · rcases List.mem_append.1 hc with hc | hc
        · right; simpa using hc
        · obtain ⟨d, hd, rfl⟩ := List.mem_map.1 hc
          left; rw [h d (by simp [hd])]
      · cases hc
  · intro h
    refine val_zeros fun d hd => ?_
    have hd' : d + 48 ∈ chars i ++ pt := by
      rcases List.mem_append.1 hd with hd | hd
      · exact List.mem_append.2 (Or.inl (List.mem_map.2 ⟨d, hd, rfl⟩))
      · rcases hpt with ⟨rfl, -⟩ | ⟨-, rfl⟩
        · exact List.mem_append.2 (Or.inr (List.mem_append.2 (Or.inr (List.mem_map.2 ⟨d, hd, rfl⟩))))
        · cases hd
    have := h _ hd'
    omega

open Classical in
/-- The numbers 0, -0, 0.5, -0.5. -/
noncomputable def halves : Lib (Fin 4) where
  strtod t := if Denotes t false 5 (-1) then 2 else 0
  strtoi _ _ := 0
  neg x := if x = 0 then 1 else if x = 2 then 3 else if x = 1 then 0 else 2
  inf := 0
  nan := 0
  view x := if x = 0 then .index 0 else if x = 1 then .negZero else .dec (x = 3) [5] 0

theorem zero_half {t : List Nat} (h : Denotes t false 0 0) : ¬ Denotes t false 5 (-1) := by
  intro h'
  have := (front_denotes h).1 rfl
  have := (front_denotes h').2 this
  omega

theorem contract_halves : Contract halves where
  index x n hx t ht := by
    revert hx
    match x with
    | 0 => intro hx; injection hx with hx; subst hx; exact if_neg (zero_half ht)
    | 1 => intro hx; cases hx
    | 2 => intro hx; cases hx
    | 3 => intro hx; cases hx
  digits x neg ds k hx := by
    have : ds = [5] ∧ k = 0 := by
      match x with
      | 0 => cases hx
      | 1 => cases hx
      | 2 => injection hx with h1 h2 h3; exact ⟨h2.symm, h3.symm⟩
      | 3 => injection hx with h1 h2 h3; exact ⟨h2.symm, h3.symm⟩
    obtain ⟨rfl, rfl⟩ := this
    simp
  decimal x neg ds k hx t ht := by
    match x with
    | 0 => cases hx
    | 1 => cases hx
    | 2 =>
      injection hx with h1 h2 h3; subst h1; subst h2; subst h3
      have ht : Denotes t false 5 (-1) := ht
      have : halves.strtod t = 2 := if_pos ht
      rw [this]; rfl
    | 3 =>
      injection hx with h1 h2 h3; subst h1; subst h2; subst h3
      have ht : Denotes t false 5 (-1) := ht
      have : halves.strtod t = 2 := if_pos ht
      rw [this]; rfl
  zero := by
    have h : Denotes [48] false 0 0 :=
      ⟨[0], [], 0, [], [], by simp, by simp, by simp, Or.inr ⟨rfl, rfl⟩, Or.inl ⟨rfl, rfl⟩, rfl, by simp [val]⟩
    have : halves.strtod [48] = 0 := if_neg (zero_half h)
    rw [this]; rfl

end Verif.Json

import Verif.Lemmas.NumStr
/-
C63: numbers are laid out as the standard says, and the text denotes the number.
-/
namespace Verif.NumStr
open Spec

/-- **C63**: for all digits which `rjs_dtoa` can give (1 to 17 digits, an exponent within the
range of a double) the text is the one of the standard; nothing is read or written out of
bounds. -/
theorem C63_layout (neg : Bool) (ds : List Nat) (n : Int) (hne : ds ≠ []) (hk : ds.length ≤ 17)
    (h1 : -400 ≤ n) (h2 : n ≤ 400) :
    ∃ out, fmt neg ds n = .ok out ∧ Layout neg ds n out := by
  obtain ⟨b, e1, e2⟩ := body_spec ds n hne
  have hl := (e2 neg).2 h1 h2 hk
  refine ⟨(if neg then [45] else []) ++ b, ?_, (e2 neg).1⟩
  unfold fmt
  rw [e1]
  simp only
  rw [if_pos (by cases neg <;> simp <;> omega)]

/-- A text laid out like this denotes the number `ds * 10 ^ (n - k)`. -/
theorem C63_value (neg : Bool) (ds : List Nat) (n : Int) (out : List Nat) (hne : ds ≠ [])
    (hd : ∀ d ∈ ds, d < 10) (h : Layout neg ds n out) :
    Denotes out neg (val ds) (n - ds.length) := by
  have hlen : 0 < ds.length := List.length_pos_iff.2 hne
  obtain ⟨b, rfl, h1, h2⟩ := h
  by_cases hr : -5 ≤ n ∧ n ≤ 21
  · obtain ⟨a1, a2, a3⟩ := h1 hr
    by_cases hc : n ≥ ds.length
    · refine ⟨ds ++ List.replicate (n.toNat - ds.length) 0, [], 0, [], [], ?_, by simp, by simp [hne],
        Or.inr ⟨rfl, rfl⟩, Or.inl ⟨rfl, rfl⟩, ?_, ?_⟩
      · intro d hm
        rcases List.mem_append.1 hm with hm | hm
        · exact hd d hm
        · rw [List.mem_replicate] at hm; omega
      · rw [a1 hc]; simp [chars]
      · simp only [List.append_nil, val_append, val_zeros, List.length_replicate, List.length_nil]
        simp
        rw [show (-(n - (ds.length : Int))).toNat = 0 by omega]
        simp
    · by_cases hp : 0 < n
      · refine ⟨ds.take n.toNat, ds.drop n.toNat, 0, _, [], fun d hm => hd d (List.mem_of_mem_take hm),
          fun d hm => hd d (List.mem_of_mem_drop hm), ?_, Or.inl ⟨rfl, ?_⟩, Or.inl ⟨rfl, rfl⟩, ?_, ?_⟩
        · rw [Ne, List.take_eq_nil_iff]; simp only [hne, or_false]; omega
        · rw [Ne, List.drop_eq_nil_iff]; omega
        · rw [a2 (by omega) hp]; simp
        · rw [List.take_append_drop]
          simp only [List.length_drop]
          rw [show (0 - ((ds.length - n.toNat : Nat) : Int)).toNat = 0 by omega,
            show (((ds.length - n.toNat : Nat) : Int) - 0).toNat = (-(n - (ds.length : Int))).toNat by omega,
            show (n - (ds.length : Int)).toNat = 0 by omega]
      · refine ⟨[0], List.replicate (-n).toNat 0 ++ ds, 0, _, [], by simp, ?_, by simp,
          Or.inl ⟨rfl, by simp [hne]⟩, Or.inl ⟨rfl, rfl⟩, ?_, ?_⟩
        · intro d hm
          rcases List.mem_append.1 hm with hm | hm
          · rw [List.mem_replicate] at hm; omega
          · exact hd d hm
        · rw [a3 (by omega)]; simp [chars]
        · simp only [List.cons_append, List.nil_append, val, val_append, val_zeros, Nat.zero_mul, Nat.zero_add,
            List.length_append, List.length_replicate]
          rw [show (0 - (((-n).toNat + ds.length : Nat) : Int)).toNat = 0 by omega,
            show ((((-n).toNat + ds.length : Nat) : Int) - 0).toNat = (-(n - (ds.length : Int))).toNat by omega,
            show (n - (ds.length : Int)).toNat = 0 by omega]
  · obtain ⟨ex, ⟨x1, x2, -, x4⟩, d, rest, rfl, rfl⟩ := h2 hr
    refine ⟨[d], rest, n - 1, if rest = [] then [] else [46] ++ chars rest,
      [101] ++ (if n - 1 < 0 then [45] else [43]) ++ chars ex, by simpa using hd d (by simp),
      fun x hm => hd x (by simp [hm]), by simp, ?_, Or.inr ⟨_, ex, rfl, x1, x4, ?_⟩, ?_, ?_⟩
    · by_cases hrest : rest = []
      · exact Or.inr ⟨by simp [hrest], hrest⟩
      · exact Or.inl ⟨by simp [hrest], hrest⟩
    · by_cases hs : n - 1 < 0
      · exact Or.inr ⟨by simp [hs], by omega⟩
      · exact Or.inl ⟨by simp [hs], by omega⟩
    · simp
    · simp only [List.cons_append, List.nil_append, List.length_cons]
      rw [show (n - 1 - (rest.length : Int)).toNat = (n - ((rest.length + 1 : Nat) : Int)).toNat by omega,
        show ((rest.length : Int) - (n - 1)).toNat = (-(n - ((rest.length + 1 : Nat) : Int))).toNat by omega]

-- 1234.5 is `1234.5`, -0.00012 is `-0.00012`, 1.5e-7 is `1.5e-7`, 1e21 is `1e+21`.
example : fmt false [1, 2, 3, 4, 5] 4 = .ok ("1234.5".toList.map Char.toNat) ∧
    fmt true [1, 2] (-3) = .ok ("-0.00012".toList.map Char.toNat) ∧
    fmt false [1, 5] (-6) = .ok ("1.5e-7".toList.map Char.toNat) ∧
    fmt false [1] 22 = .ok ("1e+21".toList.map Char.toNat) ∧
    fmt false [1] 21 = .ok ("100000000000000000000".toList.map Char.toNat) := by decide +kernel

end Verif.NumStr

import Verif.Lemmas.RegNum

/-! # C100: the numbers of quantifiers and back references are read as written -/

namespace Verif.RegNum

open Spec

/-- For every text behind an atom that begins a quantifier: it is read as a quantifier with these limits and this
rest if and only if the grammar has it so, as long as the numbers are below 2^63; and it is a SyntaxError
only if the grammar has no quantifier there.

Partial: greater numbers are undefined behaviour (`C100_quant_violated`). -/
theorem C100_quant_partial (t : List Char) (hb : begins t) :
    (∀ q r, quant t = .ok q r ↔
      Quantifier t q r ∧ q.min < 2 ^ 63 ∧ ∀ m, q.max = some m → m < 2 ^ 63) ∧
    (quant t = .syntax → ∀ q r, ¬ Quantifier t q r) ∧
    (quant t = .ub → ∀ q r, Quantifier t q r → 2 ^ 63 ≤ q.min ∨ ∃ m, q.max = some m ∧ 2 ^ 63 ≤ m) := by
  have lim : ∀ k, k ≤ int64Max ↔ k < 2 ^ 63 := fun k => by unfold int64Max; omega
  have fits : ∀ n m, Fits n m ↔ (n < 2 ^ 63 ∧ ∀ k, m = some k → k < 2 ^ 63) := fun n m => by
    unfold Fits; simp only [lim]
  have back : ∀ q r, Quantifier t q r → (Fits q.min q.max → quant t = .ok q r) ∧ (¬ Fits q.min q.max → quant t = .ub) := by
    intro q r h
    cases h with
    | short hp =>
      obtain ⟨p1, p2⟩ := quant_prefix hp
      exact ⟨fun hf => (p1 hf).trans rfl, p2⟩
    | greedy hp hn =>
      obtain ⟨p1, p2⟩ := quant_prefix hp
      exact ⟨fun hf => (p1 hf).trans (lazy_ok.2 (.inr ⟨hn, rfl, rfl⟩)), p2⟩
  refine ⟨fun q r => ⟨fun h => ?_, fun ⟨h, h1⟩ => (back q r h).1 ((fits _ _).2 h1)⟩, ?_, ?_⟩
  · have hq := quant_ok hb h
    refine ⟨hq, (fits _ _).1 (Classical.byContradiction fun hf => ?_)⟩
    rw [(back q r hq).2 hf] at h
    cases h
  · intro h q r hq
    by_cases hf : Fits q.min q.max
    · rw [(back q r hq).1 hf] at h; cases h
    · rw [(back q r hq).2 hf] at h; cases h
  · intro h q r hq
    refine Classical.byContradiction fun hc => ?_
    have hf : Fits q.min q.max := (fits _ _).2 ⟨by
      refine Classical.byContradiction fun h1 => hc (.inl (by omega)), fun k hk =>
      Classical.byContradiction fun h1 => hc (.inr ⟨k, hk, by omega⟩)⟩
    rw [(back q r hq).1 hf] at h
    cases h

/-- Without one of these characters the atom is matched once, and nothing is read. -/
theorem C100_no_quant (t : List Char) (hb : ¬ begins t) : quant t = .ok ⟨1, some 1, true⟩ t := by
  have ne : ∀ c r, c ∈ ['*', '+', '?', '{'] → t ≠ c :: r := fun c r hc e => hb ⟨c, r, e, hc⟩
  unfold quant
  split
  · exact absurd rfl (ne _ _ (by decide))
  · exact absurd rfl (ne _ _ (by decide))
  · exact absurd rfl (ne _ _ (by decide))
  · exact absurd rfl (ne _ _ (by decide))
  · rfl

/-- A back reference to `n` below 2^31 that begins with no zero is taken with the number written if there is
such a group, and is a SyntaxError otherwise.

Partial: greater numbers are undefined behaviour (`C100_backref_violated`, `C100_wrapped_violated`). -/
theorem C100_backref_partial (groups n : Nat) (t rest : List Char) (h : Number t n rest)
    (hz : ∀ r, t ≠ '0' :: r) (hn : n < 2 ^ 31) :
    backRef groups t = if n < groups then .ok n rest else .syntax := by
  obtain ⟨ds, hne, hd, rfl, rfl, hs⟩ := h
  cases ds with
  | nil => exact absurd rfl hne
  | cons d ds =>
    have h1 : d < 10 := hd d (List.mem_cons_self ..)
    have h0 : d ≠ 0 := fun e => hz (ds.map char ++ rest) (by rw [e]; rfl)
    rw [List.map_cons, List.cons_append, backRef, digit_char h1]
    obtain ⟨k, rfl⟩ : ∃ k, d = k + 1 := ⟨d - 1, by omega⟩
    simp only
    rw [digits_eq intMax ds (k + 1) rest (fun x hx => hd x (List.mem_cons_of_mem _ hx)) hs
      (by unfold intMax; omega)]
    have e : (k + 1) * 10 ^ ds.length + value ds = value ((k + 1) :: ds) := rfl
    rw [e, if_pos (by unfold intMax; omega)]
    by_cases hg : value ((k + 1) :: ds) < groups
    · simp only [hg, if_true, Nat.not_le.2 hg, if_false]
    · simp only [hg, if_false, Nat.not_lt.1 hg, if_true]

/-- `a{2,010}?b`. -/
example : quant "{2,010}?b".toList = .ok ⟨2, some 10, false⟩ ['b'] := by decide
example : begins "{2,010}?b".toList := ⟨'{', _, rfl, by decide⟩
example : quant "{3,2}".toList = .syntax := by decide
example : quant "{3,}+".toList = .ok ⟨3, none, true⟩ ['+'] := by decide
example : Number "12)".toList 12 [')'] :=
  ⟨[1, 2], by simp, by simp, by decide, by decide, fun d hd r => by
    have : d = 0 ∨ d = 1 ∨ d = 2 ∨ d = 3 ∨ d = 4 ∨ d = 5 ∨ d = 6 ∨ d = 7 ∨ d = 8 ∨ d = 9 := by omega
    rcases this with rfl | rfl | rfl | rfl | rfl | rfl | rfl | rfl | rfl | rfl <;> simp [char]⟩
example : backRef 13 "12)".toList = .ok 12 [')'] := by decide

/-- `/a{9223372036854775808}/` is a pattern of the standard; reading it leaves the range of `int64_t`. -/
theorem C100_quant_violated : ∃ t q, Quantifier t q [] ∧ quant t = .ub := by
  refine ⟨"{9223372036854775808}".toList, ⟨9223372036854775808, some 9223372036854775808, true⟩, ?_, by decide⟩
  refine .greedy (.exact ⟨[9,2,2,3,3,7,2,0,3,6,8,5,4,7,7,5,8,0,8], by simp, by decide, by decide, by decide,
    fun d hd r => ?_⟩) (by simp)
  have : d = 0 ∨ d = 1 ∨ d = 2 ∨ d = 3 ∨ d = 4 ∨ d = 5 ∨ d = 6 ∨ d = 7 ∨ d = 8 ∨ d = 9 := by omega
  rcases this with rfl | rfl | rfl | rfl | rfl | rfl | rfl | rfl | rfl | rfl <;> simp [char]

/-- `/(a)\2147483648/` has to be a SyntaxError; reading it leaves the range of `int`. -/
theorem C100_backref_violated : backRef 2 "2147483648".toList = .ub := by decide

/-- With numbers modulo 2^32 the check takes `/(a)\4294967295/` with the index −1, for which `match_back_ref`
(rjs_regexp.c:2269-2275) reads in front of the array of captures, and `/(a)\4294967297/` as `/(a)\1/`. -/
theorem C100_wrapped_violated :
    (digitsWrap 4 "294967295".toList = -1 ∧ taken 2 (-1) = true) ∧
    digitsWrap 4 "294967297".toList = 1 ∧ taken 2 1 = true := by decide

end Verif.RegNum

import Verif.Spec.RegNum

/-! Helper lemmas for C100. -/

namespace Verif.RegNum

open Spec

theorem digit_char {d : Nat} (h : d < 10) : digit (char d) = some d := by
  have : d = 0 ∨ d = 1 ∨ d = 2 ∨ d = 3 ∨ d = 4 ∨ d = 5 ∨ d = 6 ∨ d = 7 ∨ d = 8 ∨ d = 9 := by omega
  rcases this with rfl | rfl | rfl | rfl | rfl | rfl | rfl | rfl | rfl | rfl <;> decide

theorem digit_some {c : Char} {d : Nat} (h : digit c = some d) : d < 10 ∧ c = char d := by
  unfold digit at h
  split at h
  · rename_i hc
    simp only [Option.some.injEq] at h
    have h0 : '0'.toNat = 48 := by decide
    have h9 : '9'.toNat = 57 := by decide
    rw [h0, h9] at hc
    rw [h0] at h
    refine ⟨by omega, ?_⟩
    unfold char
    rw [show 48 + d = c.toNat by omega, Char.ofNat_toNat]
  · cases h

theorem digit_none {c : Char} (h : digit c = none) : ∀ d, d < 10 → c ≠ char d := by
  intro d hd e
  rw [e, digit_char hd] at h
  cases h

/-- No digit at the beginning. -/
def Stops (rest : List Char) : Prop := ∀ d, d < 10 → ∀ r, rest ≠ char d :: r

theorem stops_digit {c : Char} {r : List Char} (h : Stops (c :: r)) : digit c = none := by
  cases hd : digit c with
  | none => rfl
  | some d =>
    obtain ⟨h1, h2⟩ := digit_some hd
    exact absurd (by rw [h2]) (h d h1 r)

theorem stops_none {c : Char} {r : List Char} (h : digit c = none) : Stops (c :: r) := by
  intro d hd u e
  simp only [List.cons.injEq] at e
  exact digit_none h d hd e.1

theorem digits_eq (lim : Nat) : ∀ (ds : List Nat) (v : Nat) (rest : List Char), (∀ d ∈ ds, d < 10) → Stops rest →
    v ≤ lim → digits lim v (ds.map char ++ rest) =
      if v * 10 ^ ds.length + value ds ≤ lim then .ok (v * 10 ^ ds.length + value ds) rest else .ub
  | [], v, [], _, _, hv => by simp [digits, value, hv]
  | [], v, c :: r, _, hs, hv => by
    simp [digits, value, hv, stops_digit hs]
  | d :: ds, v, rest, hd, hs, hv => by
    have h1 : d < 10 := hd d (List.mem_cons_self ..)
    have hp : 1 ≤ 10 ^ ds.length := Nat.pow_pos (by decide)
    have e : v * 10 ^ (d :: ds).length + value (d :: ds) = (v * 10 + d) * 10 ^ ds.length + value ds := by
      simp only [List.length_cons, value, Nat.pow_succ, Nat.add_mul, Nat.mul_assoc, Nat.add_assoc]
      rw [Nat.mul_comm 10 (10 ^ ds.length)]
    have big : v * 10 + d ≤ (v * 10 + d) * 10 ^ ds.length := Nat.le_mul_of_pos_right _ hp
    rw [e, List.map_cons, List.cons_append, digits, digit_char h1]
    simp only
    split
    · rw [if_neg (by omega)]
    · split
      · rw [if_neg (by omega)]
      · exact digits_eq lim ds _ rest (fun x hx => hd x (List.mem_cons_of_mem _ hx)) hs (by omega)

/-- Every text is digits and a rest. -/
theorem split_digits : ∀ t : List Char, ∃ ds rest, t = List.map char ds ++ rest ∧ (∀ d ∈ ds, d < 10) ∧ Stops rest
  | [] => ⟨[], [], rfl, by simp, by intro d _ r h; cases h⟩
  | c :: r => by
    cases hd : digit c with
    | none => exact ⟨[], c :: r, rfl, by simp, stops_none hd⟩
    | some d =>
      obtain ⟨h1, h2⟩ := digit_some hd
      obtain ⟨ds, rest, e, h3, h4⟩ := split_digits r
      refine ⟨d :: ds, rest, by rw [e, h2]; rfl, ?_, h4⟩
      intro x hx
      rcases List.mem_cons.1 hx with rfl | hx
      · exact h1
      · exact h3 x hx

theorem number_eq {t rest : List Char} {n : Nat} (h : Number t n rest) :
    number t = if n ≤ int64Max then .ok n rest else .ub := by
  obtain ⟨ds, hne, hd, rfl, rfl, hs⟩ := h
  cases ds with
  | nil => exact absurd rfl hne
  | cons d ds =>
    have h1 : d < 10 := hd d (List.mem_cons_self ..)
    rw [List.map_cons, List.cons_append, number, digit_char h1]
    simp only
    rw [digits_eq int64Max ds d rest (fun x hx => hd x (List.mem_cons_of_mem _ hx)) hs
      (by unfold int64Max; omega)]
    rfl

/-- Either digits begin the text, or it is a SyntaxError. -/
theorem number_total (t : List Char) : (∃ n rest, Number t n rest) ∨ (number t = .syntax ∧ ∀ n rest, ¬ Number t n rest) := by
  obtain ⟨ds, rest, e, hd, hs⟩ := split_digits t
  by_cases hne : ds = []
  · right
    subst hne
    simp only [List.map_nil, List.nil_append] at e
    subst e
    refine ⟨?_, ?_⟩
    · cases t with
      | nil => rfl
      | cons c r => rw [number, stops_digit hs]
    · intro n rest h
      obtain ⟨ds, h1, h2, h3, _, _⟩ := h
      cases ds with
      | nil => exact h1 rfl
      | cons d ds => exact hs d (h2 d (List.mem_cons_self ..)) _ h3
  · exact .inl ⟨_, rest, ds, hne, hd, e, rfl, hs⟩

theorem number_ok {t rest : List Char} {n : Nat} (h : number t = .ok n rest) : Number t n rest := by
  rcases number_total t with ⟨m, r, hm⟩ | ⟨hs, _⟩
  · have := number_eq hm
    rw [this] at h
    split at h
    · simp only [Res.ok.injEq] at h
      obtain ⟨rfl, rfl⟩ := h
      exact hm
    · cases h
  · rw [hs] at h; cases h

theorem lazy_ok {n : Nat} {m : Option Nat} {r u : List Char} {q : Quant} :
    lazy n m r = .ok q u ↔ (r = '?' :: u ∧ q = ⟨n, m, false⟩) ∨ ((∀ w, r ≠ '?' :: w) ∧ r = u ∧ q = ⟨n, m, true⟩) := by
  unfold lazy
  split
  · rename_i r
    simp only [Res.ok.injEq, List.cons.injEq, true_and]
    constructor
    · rintro ⟨rfl, rfl⟩; exact .inl ⟨rfl, rfl⟩
    · rintro (⟨rfl, rfl⟩ | ⟨h, _⟩)
      · exact ⟨rfl, rfl⟩
      · exact absurd rfl (h r)
  · rename_i r hr
    simp only [Res.ok.injEq]
    constructor
    · rintro ⟨rfl, rfl⟩; exact .inr ⟨fun w e => hr w e, rfl, rfl⟩
    · rintro (⟨rfl, rfl⟩ | ⟨_, rfl, rfl⟩)
      · exact absurd rfl (hr u)
      · exact ⟨rfl, rfl⟩

theorem lazy_spec {t : List Char} {n : Nat} {m : Option Nat} {r u : List Char} {q : Quant} (hp : Prefix t n m r)
    (h : lazy n m r = .ok q u) : Quantifier t q u := by
  rcases lazy_ok.1 h with ⟨rfl, rfl⟩ | ⟨h1, rfl, rfl⟩
  · exact .short hp
  · exact .greedy hp h1

theorem number_head {t rest : List Char} {n : Nat} (h : Number t n rest) : ∀ r, t ≠ '}' :: r := by
  obtain ⟨ds, hne, hd, rfl, _, _⟩ := h
  intro r e
  cases ds with
  | nil => exact hne rfl
  | cons d ds =>
    simp only [List.map_cons, List.cons_append, List.cons.injEq] at e
    have := digit_char (hd d (List.mem_cons_self ..))
    rw [e.1] at this
    exact absurd this (by simp [show digit '}' = none by decide])

/-- The numbers fit. -/
def Fits (n : Nat) (m : Option Nat) : Prop := n ≤ int64Max ∧ ∀ k, m = some k → k ≤ int64Max

theorem quant_prefix {t r : List Char} {n : Nat} {m : Option Nat} (h : Prefix t n m r) :
    (Fits n m → quant t = lazy n m r) ∧ (¬ Fits n m → quant t = .ub) := by
  have z : ∀ k : Option Nat, (∀ j, k = some j → j ≤ 1) → ∀ i, i ≤ 1 → Fits i k := fun k hk i hi =>
    ⟨by unfold int64Max; omega, fun j hj => by have := hk j hj; unfold int64Max; omega⟩
  cases h with
  | star => exact ⟨fun _ => rfl, fun hf => absurd (z none (by simp) 0 (by omega)) hf⟩
  | plus => exact ⟨fun _ => rfl, fun hf => absurd (z none (by simp) 1 (by omega)) hf⟩
  | ques => exact ⟨fun _ => rfl, fun hf => absurd (z (some 1) (by simp) 0 (by omega)) hf⟩
  | exact hn =>
    have e : ∀ t, quant ('{' :: t) = braces t := fun _ => rfl
    rw [e, braces, number_eq hn]
    refine ⟨fun hf => by rw [if_pos hf.1]; rfl, fun hf => ?_⟩
    rw [if_neg (fun hle => hf ⟨hle, fun k hk => by simp only [Option.some.injEq] at hk; exact hk ▸ hle⟩)]
  | atLeast hn =>
    have e : ∀ t, quant ('{' :: t) = braces t := fun _ => rfl
    rw [e, braces, number_eq hn]
    refine ⟨fun hf => by rw [if_pos hf.1]; rfl, fun hf => ?_⟩
    rw [if_neg (fun hle => hf ⟨hle, by simp⟩)]
  | between hn hm hle =>
    rename_i t u k
    have e : ∀ t, quant ('{' :: t) = braces t := fun _ => rfl
    have hu := number_head hm
    rw [e, braces, number_eq hn]
    by_cases h1 : n ≤ int64Max
    · rw [if_pos h1]
      have e1 : behind n (',' :: u) = second n u := by
        rw [behind]
        exact hu
      simp only [e1, second, number_eq hm]
      by_cases h2 : k ≤ int64Max
      · rw [if_pos h2]
        refine ⟨fun _ => by simp only [Nat.not_lt.2 hle, if_false], fun hf => ?_⟩
        exact absurd ⟨h1, fun j hj => by simp only [Option.some.injEq] at hj; exact hj ▸ h2⟩ hf
      · rw [if_neg h2]
        exact ⟨fun hf => absurd (hf.2 k rfl) h2, fun _ => rfl⟩
    · rw [if_neg h1]
      exact ⟨fun hf => absurd hf.1 h1, fun _ => rfl⟩

theorem behind_ok {n : Nat} {t r u : List Char} {q : Quant} (hn : Number t n r) (h : behind n r = .ok q u) :
    Quantifier ('{' :: t) q u := by
  unfold behind at h
  split at h
  · exact lazy_spec (.atLeast hn) h
  · rename_i v _
    unfold second at h
    split at h
    · cases h
    · cases h
    · rename_i m w hm
      split at h
      · cases h
      · split at h
        · exact lazy_spec (.between hn (number_ok hm) (by omega)) h
        · cases h
  · exact lazy_spec (.exact hn) h
  · cases h

theorem quant_ok {t u : List Char} {q : Quant} (hb : begins t) (h : quant t = .ok q u) : Quantifier t q u := by
  obtain ⟨c, r, rfl, hc⟩ := hb
  simp only [List.mem_cons, List.not_mem_nil, or_false] at hc
  rcases hc with rfl | rfl | rfl | rfl
  · exact lazy_spec (.star r) h
  · exact lazy_spec (.plus r) h
  · exact lazy_spec (.ques r) h
  · have e : quant ('{' :: r) = braces r := rfl
    rw [e] at h
    unfold braces at h
    split at h
    · cases h
    · cases h
    · rename_i n w hn
      exact behind_ok (number_ok hn) h

end Verif.RegNum

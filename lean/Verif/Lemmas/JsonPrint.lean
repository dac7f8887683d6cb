import Verif.Lemmas.JsonLines
import Verif.Spec.JsonValue
import Verif.Props.NumStr
import Verif.Lemmas.Str
/-
Lemmas for C47: `stringify` gives a JSON text which denotes the value.
-/
namespace Verif.Json

open Spec

variable {F : Type}

/-! ### Characters -/

theorem codePoints_ascii {a : List Nat} (h : ∀ c ∈ a, c < 0xd800) (r : List Nat) :
    codePoints (a ++ r) = a ++ codePoints r := by
  induction a with
  | nil => rfl
  | cons c a ih =>
    have := h c (by simp)
    rw [List.cons_append, codePoints_cons (by omega), ih fun x hx => h x (by simp [hx])]; rfl

theorem hexChar_isHex {n : Nat} (h : n < 16) : IsHex (hexChar n) n := by
  unfold hexChar IsHex
  split <;> omega

theorem hexChar_lt {n : Nat} (h : n < 16) : hexChar n < 0xd800 := by
  unfold hexChar
  split <;> omega

/-- The text of one character of a string. -/
def Writes (t : List Nat) (s : List Nat) : Prop :=
  ∃ b, (∀ r, codePoints (t ++ r) = b ++ codePoints r) ∧
    ∀ t' s', Chars strict 34 t' s' → Chars strict 34 (b ++ t') (s ++ s')

theorem writes_esc {e v : Nat} (h : Escape e v) : Writes [92, e] [v] := by
  refine ⟨[92, e], fun r => codePoints_ascii ?_ r, fun t' s' h' => .esc h h'⟩
  unfold Escape at h
  intro c hc
  simp only [List.mem_cons, List.not_mem_nil, or_false] at hc
  omega

theorem quoteChar_writes {c : Nat} (h : c < 0x110000) : Writes (quoteChar c) (utf16 c) := by
  have small : c < 65536 → utf16 c = [c] := fun h => by rw [utf16, if_pos h]
  unfold quoteChar
  split
  · rename_i hc; subst hc; exact writes_esc (by unfold Escape; omega)
  split
  · rename_i hc; subst hc; exact writes_esc (by unfold Escape; omega)
  split
  · rename_i hc; subst hc; exact writes_esc (by unfold Escape; omega)
  split
  · rename_i hc; subst hc; exact writes_esc (by unfold Escape; omega)
  split
  · rename_i hc; subst hc; exact writes_esc (by unfold Escape; omega)
  split
  · rename_i hc; subst hc; exact writes_esc (by unfold Escape; omega)
  split
  · rename_i hc; subst hc; exact writes_esc (by unfold Escape; omega)
  split
  · rename_i hc
    simp only [Bool.or_eq_true, Bool.and_eq_true, decide_eq_true_eq] at hc
    rw [small (by omega)]
    refine ⟨_, fun r => codePoints_ascii ?_ r, fun t' s' h' => ?_⟩
    · intro x hx
      simp only [List.mem_cons, List.not_mem_nil, or_false] at hx
      rcases hx with rfl | rfl | rfl | rfl | rfl | rfl
      · omega
      · omega
      all_goals exact hexChar_lt (by omega)
    · have := Chars.hex (D := strict) (q := 34) (hexChar_isHex (n := c / 4096) (by omega))
        (hexChar_isHex (n := c / 256 % 16) (by omega)) (hexChar_isHex (n := c / 16 % 16) (by omega))
        (hexChar_isHex (n := c % 16) (by omega)) h'
      rw [show ((c / 4096 * 16 + c / 256 % 16) * 16 + c / 16 % 16) * 16 + c % 16 = c by omega] at this
      exact this
  · rename_i h1 h2 h3 h4 h5 h6 h7 h8
    simp only [Bool.or_eq_true, Bool.and_eq_true, decide_eq_true_eq] at h8
    refine ⟨[c], fun r => ?_, fun t' s' h' => .raw h6 h7 (Or.inl (by omega)) h'⟩
    rw [units_eq, utf16]
    split
    · rw [List.singleton_append, codePoints_cons (by omega)]; rfl
    · simp only [List.cons_append, List.nil_append]
      rw [codePoints, if_pos (by omega)]
      simp only [List.cons.injEq, and_true]
      omega

theorem quoteLoop_writes {s : List Nat} (h : ∀ c ∈ s, c < 65536) :
    ∃ b, Chars strict 34 b s ∧ ∀ r, codePoints (quoteLoop s ++ r) = b ++ codePoints r := by
  have one : ∀ {t c s b}, Writes t c → Chars strict 34 b s → (∀ r, codePoints (quoteLoop s ++ r) = b ++ codePoints r) →
      ∃ b, Chars strict 34 b (c ++ s) ∧ ∀ r, codePoints (t ++ quoteLoop s ++ r) = b ++ codePoints r := by
    rintro t c s b ⟨b', h1, h2⟩ h3 h4
    refine ⟨b' ++ b, h2 _ _ h3, fun r => ?_⟩
    rw [List.append_assoc, h1, h4, List.append_assoc]
  fun_induction quoteLoop s with
  | case1 => exact ⟨[], .nil, fun r => rfl⟩
  | case2 c =>
    have hc := h c (by simp)
    obtain ⟨b, h1, h2⟩ := quoteChar_writes (c := c) (by omega)
    have := h2 [] [] .nil
    rw [utf16, if_pos hc] at this
    refine ⟨b, by simpa using this, h1⟩
  | case3 c d cs hp ih =>
    simp only [Bool.and_eq_true, isLead, isTrail, decide_eq_true_eq] at hp
    obtain ⟨b, h1, h2⟩ := ih fun x hx => h x (by simp [hx])
    have hw := quoteChar_writes (c := join c d) (by unfold join; omega)
    have e : utf16 (join c d) = [c, d] := by
      unfold join utf16
      rw [if_neg (by omega)]
      simp only [List.cons.injEq, and_true]
      omega
    rw [e] at hw
    exact one hw h1 h2
  | case4 c d cs hp ih =>
    obtain ⟨b, h1, h2⟩ := ih fun x hx => h x (List.mem_cons_of_mem _ hx)
    have hc := h c (by simp)
    have hw := quoteChar_writes (c := c) (by omega)
    rw [utf16, if_pos hc] at hw
    exact one hw h1 h2

theorem quote_writes {s : List Nat} (h : ∀ c ∈ s, c < 65536) :
    ∃ b, Str strict b s ∧ ∀ r, codePoints (quote s ++ r) = b ++ codePoints r := by
  obtain ⟨b, h1, h2⟩ := quoteLoop_writes h
  refine ⟨34 :: (b ++ [34]), ⟨34, b, rfl, Or.inl rfl, h1⟩, fun r => ?_⟩
  rw [quote, List.cons_append, codePoints_cons (by omega), List.append_assoc, h2, List.singleton_append,
    codePoints_cons (by omega)]
  simp

/-! ### Numbers -/

theorem chars_digit {l : List Nat} (h : ∀ d ∈ l, d < 10) : ∀ c ∈ NumStr.Spec.chars l, IsDigit c := by
  intro c hc
  simp only [NumStr.Spec.chars, List.mem_map] at hc
  obtain ⟨d, hd, rfl⟩ := hc
  have := h d hd
  unfold IsDigit; omega

theorem isInt_chars {d : Nat} {l : List Nat} (h : ∀ x ∈ d :: l, x < 10) (hd : d ≠ 0) :
    IsInt (NumStr.Spec.chars (d :: l)) := by
  have := h d (by simp)
  have hc := chars_digit (l := l) fun x hx => h x (by simp [hx])
  exact Or.inr ⟨d + 48, NumStr.Spec.chars l, by simp [NumStr.Spec.chars, Nat.add_comm], by omega, by omega, hc⟩

theorem layout_number {ds : List Nat} {n : Int} {b : List Nat} (hne : ds ≠ []) (hd : ∀ d ∈ ds, d < 10)
    (h0 : ds.head? ≠ some 0) (h : NumStr.Spec.Layout false ds n b) : IsNumber b := by
  obtain ⟨d, l, rfl⟩ := List.exists_cons_of_ne_nil hne
  have hd0 : d ≠ 0 := by simpa using h0
  obtain ⟨b', hb, h1, h2⟩ := h
  simp only [Bool.false_eq_true, if_false, List.nil_append] at hb
  subst hb
  by_cases hr : -5 ≤ n ∧ n ≤ 21
  · obtain ⟨a1, a2, a3⟩ := h1 hr
    by_cases hc : n ≥ ((d :: l).length : Int)
    · refine ⟨b, [], [], by simp, ?_, Or.inl rfl, Or.inl rfl⟩
      rw [a1 hc, show List.replicate (n.toNat - (d :: l).length) 48 =
        NumStr.Spec.chars (List.replicate (n.toNat - (d :: l).length) 0) by simp [NumStr.Spec.chars],
        NumStr.Spec.chars, NumStr.Spec.chars, ← List.map_append]
      refine isInt_chars (l := l ++ _) ?_ hd0
      intro x hx
      simp only [List.mem_cons, List.mem_append, List.mem_replicate] at hx
      rcases hx with rfl | hx | hx
      · exact hd x (by simp)
      · exact hd x (by simp [hx])
      · omega
    · by_cases hp : 0 < n
      · obtain ⟨m, hm⟩ : ∃ m, n.toNat = m + 1 := ⟨n.toNat - 1, by omega⟩
        refine ⟨NumStr.Spec.chars ((d :: l).take n.toNat), 46 :: NumStr.Spec.chars ((d :: l).drop n.toNat), [], ?_, ?_,
          Or.inr ⟨_, rfl, ?_, chars_digit fun x hx => hd x (List.mem_of_mem_drop hx)⟩, Or.inl rfl⟩
        · rw [a2 (by omega) hp]; simp
        · rw [hm, List.take_succ_cons]
          refine isInt_chars ?_ hd0
          intro x hx
          rcases List.mem_cons.1 hx with rfl | hx
          · exact hd x (by simp)
          · exact hd x (List.mem_cons_of_mem _ (List.mem_of_mem_take hx))
        · simp only [NumStr.Spec.chars, ne_eq, List.map_eq_nil_iff, List.drop_eq_nil_iff]
          omega
      · refine ⟨[48], 46 :: (List.replicate (-n).toNat 48 ++ NumStr.Spec.chars (d :: l)), [], ?_, Or.inl rfl,
          Or.inr ⟨_, rfl, by simp [NumStr.Spec.chars], ?_⟩, Or.inl rfl⟩
        · rw [a3 (by omega)]; simp
        · intro c hc
          rcases List.mem_append.1 hc with hc | hc
          · rw [List.mem_replicate] at hc
            unfold IsDigit; omega
          · exact chars_digit hd c hc
  · obtain ⟨ex, ⟨x1, x2, -, x4⟩, d', rest, he, rfl⟩ := h2 hr
    cases he
    refine ⟨NumStr.Spec.chars [d], if l = [] then [] else [46] ++ NumStr.Spec.chars l,
      [101] ++ (if n - 1 < 0 then [45] else [43]) ++ NumStr.Spec.chars ex, by simp, ?_, ?_, ?_⟩
    · exact isInt_chars (by simpa using hd d (by simp)) hd0
    · by_cases hl : l = []
      · exact Or.inl (by simp [hl])
      · exact Or.inr ⟨NumStr.Spec.chars l, by simp [hl], by simp [NumStr.Spec.chars, hl],
          chars_digit fun x hx => hd x (by simp [hx])⟩
    · refine Or.inr ⟨101, if n - 1 < 0 then [45] else [43], NumStr.Spec.chars ex, by simp, Or.inl rfl, ?_, ?_,
        chars_digit x1⟩
      · split <;> simp
      · simp [NumStr.Spec.chars, x4]

theorem foldl_val (s : List Nat) (a : Nat) :
    s.foldl (fun n c => n * 10 + (c - 48)) a = a * 10 ^ s.length + NumStr.Spec.val (s.map (· - 48)) := by
  induction s generalizing a with
  | nil => simp [NumStr.Spec.val]
  | cons c s ih =>
    simp only [List.foldl_cons, ih, List.length_cons, List.map_cons, NumStr.Spec.val, List.length_map, Nat.pow_succ,
      Nat.add_mul]
    rw [Nat.mul_assoc, Nat.mul_comm 10 (10 ^ s.length)]
    omega

theorem decimal_number (n : Nat) : IsNumber (Str.decimal n) ∧ NumStr.Spec.Denotes (Str.decimal n) false n 0 := by
  obtain ⟨h1, h2, h3, h4⟩ := Str.decimal_isDecimal n
  generalize Str.decimal n = s at *
  constructor
  · refine ⟨s, [], [], by simp, ?_, Or.inl rfl, Or.inl rfl⟩
    rcases s with _ | ⟨c, s⟩
    · exact absurd rfl h3
    · by_cases hc : c = 48
      · subst hc
        rw [h4 s rfl]
        exact Or.inl rfl
      · have := h1 c (by simp)
        exact Or.inr ⟨c, s, rfl, by omega, by omega, fun x hx => h1 x (by simp [hx])⟩
  · refine ⟨s.map (· - 48), [], 0, [], [], ?_, by simp, by simpa using h3, Or.inr ⟨rfl, rfl⟩, Or.inl ⟨rfl, rfl⟩, ?_, ?_⟩
    · intro d hd
      simp only [List.mem_map] at hd
      obtain ⟨c, hc, rfl⟩ := hd
      have := h1 c hc
      omega
    · simp only [NumStr.Spec.chars, List.map_map, Bool.false_eq_true, if_false, List.nil_append, List.append_nil]
      refine ((List.map_congr_left (g := id) fun c hc => ?_).trans (List.map_id s)).symm
      have := h1 c hc
      simp only [Function.comp, id]; omega
    · rw [foldl_val, Nat.zero_mul, Nat.zero_add] at h2
      simp [h2]

/-- A text is a JSON text of a value equal to `v`. -/
def Shows (U : Uni) (L : Lib F) (t : List Nat) (v : Val F) : Prop :=
  ∃ b v', Equal L v v' ∧ G strict (sem U L) .value b v' ∧ ∀ r, codePoints (t ++ r) = b ++ codePoints r

theorem ascii_of_number {t : List Nat} (h : IsNumber t) : ∀ c ∈ t, c < 0xd800 := by
  intro c hc
  have := number_chars h c hc
  unfold IsDigit at this; omega

theorem shows_number {U : Uni} {L : Lib F} {t : List Nat} {x : F} (h : IsNumber t) (hx : L.strtod t = x) :
    Shows U L t (.num x) :=
  ⟨t, .num x, .num x, hx ▸ .num (w := []) .nil (Or.inl ⟨h, rfl⟩), codePoints_ascii (ascii_of_number h)⟩

theorem isNumber_zero : IsNumber [48] := ⟨[48], [], [], rfl, Or.inl rfl, Or.inl rfl, Or.inl rfl⟩

theorem number_shows (U : Uni) {L : Lib F} (hL : Contract L) {x : F} (h1 : L.view x ≠ .nan) (h2 : L.view x ≠ .inf) :
    ∃ t, number L x = .ok t ∧ Shows U L t (.num x) := by
  unfold number
  cases hv : L.view x with
  | nan => exact absurd hv h1
  | inf => exact absurd hv h2
  | negZero =>
    exact ⟨[48], rfl, [48], .num (L.strtod [48]), .zero hv hL.zero, .num (w := []) .nil (Or.inl ⟨isNumber_zero, rfl⟩),
      codePoints_ascii (by simp)⟩
  | index n =>
    obtain ⟨d1, d2⟩ := decimal_number n
    exact ⟨_, rfl, shows_number d1 (hL.index x n hv _ d2)⟩
  | dec neg ds k =>
    obtain ⟨g1, g2, g3, g4, g5, g6⟩ := hL.digits x neg ds k hv
    obtain ⟨out, e1, b, e2, e3⟩ := NumStr.C63_layout neg ds k g1 g2 g5 g6
    have hb : NumStr.Spec.Layout false ds k b := ⟨b, by simp, e3⟩
    have hn := layout_number g1 g3 g4 hb
    have hden := NumStr.C63_value false ds k b g1 g3 hb
    have hx := hL.decimal x neg ds k hv b hden
    simp only [e1]
    refine ⟨out, rfl, ?_⟩
    cases neg with
    | false =>
      simp only [Bool.false_eq_true, if_false, List.nil_append] at e2 hx
      subst e2
      exact shows_number hn hx
    | true =>
      simp only [if_true, List.singleton_append] at e2 hx
      subst e2
      refine ⟨45 :: b, .num x, .num x, ?_, codePoints_ascii ?_⟩
      · exact hx ▸ .neg (w := []) .nil hn
      · intro c hc
        rcases List.mem_cons.1 hc with rfl | hc
        · omega
        · exact ascii_of_number hn c hc

/-! ### Keys -/

theorem toIndex_le {s : List Nat} {i : Nat} (h : Str.toIndex s = some i) : i ≤ 0xfffffffe := by
  have loop : ∀ (cs : List Nat) n m rest, Str.digitsLoop cs n = some (m, rest) → n ≤ 0xfffffffe → m ≤ 0xfffffffe := by
    intro cs
    induction cs with
    | nil => intro n m rest h hn; cases h; exact hn
    | cons c cs ih =>
      intro n m rest h hn
      rw [Str.digitsLoop] at h
      split at h
      · split at h
        · cases h
        · rename_i hle
          exact ih _ _ _ h (by omega)
      · cases h; exact hn
  unfold Str.toIndex at h
  split at h
  · cases h
  · split at h
    · cases h
    · split at h
      · cases h
      · rename_i hl
        split at h
        · cases h; exact loop _ _ _ _ hl (by omega)
        · cases h

theorem resolve_keyOf (k : List Nat) : Str.resolve (keyOf k) = Str.resolve k := by
  unfold keyOf
  cases h : Str.resolve k with
  | index i =>
    have : Str.toIndex k = some i := by
      unfold Str.resolve at h
      split at h
      · cases h; assumption
      · cases h
    simp [Str.resolve, Str.toIndex_decimal (Str.decimal_isDecimal i) (toIndex_le this)]
  | name s =>
    have : s = k := by
      unfold Str.resolve at h
      split at h
      · cases h
      · cases h; rfl
    rw [this] at h ⊢
    exact h

theorem keyOf_keyOf (k : List Nat) : keyOf (keyOf k) = keyOf k := by
  rw [keyOf, resolve_keyOf]; rfl

/-- Two keys in the order of own keys. -/
def Before (a b : List Nat) : Prop := a ≠ b ∧ precedes a b = true

theorem before_of_not {a b : List Nat} (ha : keyOf a = a) (hb : keyOf b = b) (hne : a ≠ b)
    (h : ¬ precedes a b = true) : Before b a := by
  refine ⟨fun e => hne e.symm, ?_⟩
  unfold precedes at h ⊢
  cases h1 : Str.resolve a with
  | index i =>
    cases h2 : Str.resolve b with
    | index j =>
      rw [h1, h2] at h
      simp only [decide_eq_true_eq] at h ⊢
      rcases Nat.lt_or_ge j i with h3 | h3
      · exact h3
      · exfalso
        have : i = j := by omega
        subst this
        apply hne
        rw [← ha, ← hb]
        unfold keyOf
        rw [h1, h2]
    | name s => rw [h1, h2] at h; exact absurd rfl h
  | name s =>
    cases h2 : Str.resolve b with
    | index j => rfl
    | name t => rfl

theorem before_trans {a b c : List Nat} (h : ¬ precedes a b = true) (h' : precedes a c = true) : precedes b c = true := by
  unfold precedes at *
  cases h1 : Str.resolve a <;> cases h2 : Str.resolve b <;> cases h3 : Str.resolve c <;> rw [h1, h2] at h <;>
    rw [h1, h3] at h' <;> simp at h h' ⊢
  omega

/-- The properties of an object. -/
def Ordered (l : List (List Nat × Val F)) : Prop :=
  (l.map Prod.fst).Pairwise Before ∧ ∀ k ∈ l.map Prod.fst, keyOf k = k

theorem place_keys (k : List Nat) (v : Val F) (l : List (List Nat × Val F)) :
    ∀ x, x ∈ (place k v l).map Prod.fst ↔ x = k ∨ x ∈ l.map Prod.fst := by
  induction l with
  | nil => simp [place]
  | cons p l ih =>
    intro x
    unfold place
    split
    · simp only [List.map_cons, List.mem_cons, ih]
      constructor
      · rintro (h | h | h) <;> simp [h]
      · rintro (h | h | h) <;> simp [h]
    · simp

theorem place_ordered {k : List Nat} (v : Val F) {l : List (List Nat × Val F)} (hk : keyOf k = k) (h : Ordered l)
    (hn : k ∉ l.map Prod.fst) : Ordered (place k v l) := by
  refine ⟨?_, ?_⟩
  · obtain ⟨h, hc⟩ := h
    induction l with
    | nil => simp [place]
    | cons p l ih =>
      simp only [List.map_cons, List.pairwise_cons, List.mem_cons, not_or] at h hn hc
      unfold place
      split
      · rename_i hp
        rw [List.map_cons, List.pairwise_cons]
        refine ⟨?_, ih hn.2 h.2 fun k hk => hc k (Or.inr hk)⟩
        intro x hx
        rw [place_keys] at hx
        rcases hx with rfl | hx
        · exact ⟨fun e => hn.1 e.symm, hp⟩
        · exact h.1 x hx
      · rename_i hp
        simp only [List.map_cons, List.pairwise_cons, List.mem_cons]
        refine ⟨?_, h⟩
        rintro x (rfl | hx)
        · exact before_of_not (hc _ (Or.inl rfl)) hk (fun e => hn.1 e.symm) hp
        · exact ⟨fun e => hn.2 (e ▸ hx), before_trans hp (h.1 x hx).2⟩
  · intro x hx
    rw [place_keys] at hx
    rcases hx with rfl | hx
    · exact hk
    · exact h.2 x hx

theorem create_ordered {l : List (List Nat × Val F)} (h : Ordered l) (k : List Nat) (v : Val F) :
    Ordered (create l k v) := by
  unfold create
  split
  · have e : (l.map fun p => if p.1 = keyOf k then (keyOf k, v) else p).map Prod.fst = l.map Prod.fst := by
      rw [List.map_map]
      refine List.map_congr_left fun p _ => ?_
      simp only [Function.comp]
      split
      · rename_i h; exact h.symm
      · rfl
    unfold Ordered
    rw [e]
    exact h
  · rename_i hn
    exact place_ordered v (keyOf_keyOf k) h (by simpa using hn)

theorem fold_ordered (defs : List (List Nat × Val F)) {l : List (List Nat × Val F)} (h : Ordered l) :
    Ordered (defs.foldl (fun l p => create l p.1 p.2) l) := by
  induction defs generalizing l with
  | nil => exact h
  | cons p defs ih => exact ih (create_ordered h _ _)

theorem place_last {k : List Nat} (v : Val F) {l : List (List Nat × Val F)}
    (h : ∀ p ∈ l, precedes p.1 k = true) : place k v l = l ++ [(k, v)] := by
  induction l with
  | nil => rfl
  | cons p l ih =>
    rw [place, if_pos (h p (by simp)), ih fun q hq => h q (by simp [hq])]; rfl

/-- Defining the properties of an object in their order makes the object. -/
theorem fold_create {l acc : List (List Nat × Val F)} (h : Ordered (acc ++ l)) :
    l.foldl (fun l p => create l p.1 p.2) acc = acc ++ l := by
  induction l generalizing acc with
  | nil => simp
  | cons p l ih =>
    obtain ⟨k, v⟩ := p
    have hk : keyOf k = k := h.2 k (by simp)
    have h1 := h.1
    rw [List.map_append, List.map_cons, List.pairwise_append] at h1
    have hb : ∀ q ∈ acc, Before q.1 k := fun q hq => h1.2.2 q.1 (List.mem_map_of_mem hq) k (by simp)
    have e : create acc k v = acc ++ [(k, v)] := by
      unfold create
      rw [hk, if_neg, place_last v fun q hq => (hb q hq).2]
      simp only [List.contains_iff_mem, List.mem_map, not_exists, not_and]
      rintro q hq rfl
      exact (hb q hq).1 rfl
    rw [List.foldl_cons, e, ih (by simpa using h)]
    simp

theorem Ordered.congr {l l' : List (List Nat × Val F)} (h : Ordered l) (e : l'.map Prod.fst = l.map Prod.fst) :
    Ordered l' := by
  unfold Ordered
  rw [e]
  exact h

theorem place_mem {k : List Nat} {v : Val F} {l : List (List Nat × Val F)} {p} (h : p ∈ place k v l) :
    p = (k, v) ∨ p ∈ l := by
  induction l with
  | nil => simpa [place] using h
  | cons q l ih =>
    unfold place at h
    split at h
    · rcases List.mem_cons.1 h with h | h
      · right; simp [h]
      · rcases ih h with h | h
        · exact Or.inl h
        · right; simp [h]
    · rcases List.mem_cons.1 h with h | h
      · exact Or.inl h
      · exact Or.inr h

theorem create_mem {k : List Nat} {v : Val F} {l : List (List Nat × Val F)} {p} (h : p ∈ create l k v) :
    p = (keyOf k, v) ∨ p ∈ l := by
  unfold create at h
  split at h
  · simp only [List.mem_map] at h
    obtain ⟨q, hq, rfl⟩ := h
    split
    · exact Or.inl rfl
    · exact Or.inr hq
  · exact place_mem h

theorem fold_mem {defs acc : List (List Nat × Val F)} {p}
    (h : p ∈ defs.foldl (fun l p => create l p.1 p.2) acc) : p ∈ acc ∨ ∃ q ∈ defs, p = (keyOf q.1, q.2) := by
  induction defs generalizing acc with
  | nil => exact Or.inl h
  | cons q defs ih =>
    rcases ih h with h | ⟨q', hq, h⟩
    · rcases create_mem h with h | h
      · exact Or.inr ⟨q, by simp, h⟩
      · exact Or.inl h
    · exact Or.inr ⟨q', by simp [hq], h⟩

theorem keyOf_units {k : List Nat} (h : ∀ c ∈ k, c < 65536) : ∀ c ∈ keyOf k, c < 65536 := by
  intro c hc
  unfold keyOf at hc
  split at hc
  · rename_i i _
    have := (Str.decimal_isDecimal i).digits c hc
    omega
  · rename_i s hs
    unfold Str.resolve at hs
    split at hs
    · cases hs
    · cases hs
      exact h c hc

/-! ### Values -/

theorem Space.append {S : Sem F} {a b : List Nat} (ha : Space strict S a) (hb : Space strict S b) :
    Space strict S (a ++ b) := by
  rw [space_iff] at *
  intro c hc
  rcases List.mem_append.1 hc with hc | hc
  · exact ha c hc
  · exact hb c hc

theorem G.space {S : Sem F} {w b : List Nat} {v : Val F} (hw : Space strict S w) (h : G strict S .value b v) :
    G strict S .value (w ++ b) v := by
  cases h with
  | literal h1 h2 => rw [← List.append_assoc]; exact .literal (Space.append hw h1) h2
  | spelled h => exact h.elim
  | word h => exact h.elim
  | str h1 h2 => rw [← List.append_assoc]; exact .str (Space.append hw h1) h2
  | num h1 h2 => rw [← List.append_assoc]; exact .num (Space.append hw h1) h2
  | neg h1 h2 => rw [← List.append_assoc]; exact .neg (Space.append hw h1) h2
  | sign h => exact h.elim
  | arr h1 h2 => rw [← List.append_assoc]; exact .arr (Space.append hw h1) h2
  | obj h1 h2 => rw [← List.append_assoc]; exact .obj (Space.append hw h1) h2

/-- The gap and the indentation are white space. -/
def White (l : List Nat) : Prop := ∀ c ∈ l, IsSpace c

theorem White.ascii {l : List Nat} (h : White l) : ∀ c ∈ l, c < 0xd800 := by
  intro c hc
  have := h c hc
  unfold IsSpace at this; omega

theorem newLine_white {gap : Option (List Nat)} {indent : List Nat} (h : White indent) : White (newLine gap indent) := by
  cases gap with
  | none => simp [newLine, White]
  | some g =>
    intro c hc
    rcases List.mem_cons.1 hc with rfl | hc
    · unfold IsSpace; omega
    · exact h c hc

theorem deeper_white {gap : Option (List Nat)} {indent : List Nat} (hg : ∀ g, gap = some g → White g) (h : White indent) :
    White (deeper gap indent) := by
  cases gap with
  | none => exact h
  | some g =>
    intro c hc
    rcases List.mem_append.1 hc with hc | hc
    · exact h c hc
    · exact hg g rfl c hc

theorem colon_eq (gap : Option (List Nat)) : ∃ w, colon gap = 58 :: w ∧ White w := by
  cases gap with
  | none => exact ⟨[], rfl, by simp [White]⟩
  | some g => exact ⟨[32], rfl, by simp [White, IsSpace]⟩

/-- Serializing a value succeeds, and shows it. -/
def Prints (U : Uni) (L : Lib F) (v : Val F) : Prop :=
  ∀ gap indent, (∀ g, gap = some g → White g) → White indent →
    ∃ t, serialize L gap indent v = .ok t ∧ Shows U L t v

theorem Equal.arr_append {L : Lib F} {v v' : Val F} {l l' : List (Val F)} (h1 : Equal L v v')
    (h2 : Equal L (.arr l) (.arr l')) : Equal L (.arr (v :: l)) (.arr (v' :: l')) := .arrCons h1 h2

theorem items_prints {U : Uni} {L : Lib F} {gap : Option (List Nat)} {indent : List Nat}
    (hg : ∀ g, gap = some g → White g) (hi : White indent) (l : List (Val F)) (v : Val F)
    (h : ∀ x ∈ v :: l, Prints U L x) :
    ∃ t, (∀ first, items L gap indent first (v :: l) = .ok ((if first = true then [] else [44]) ++ t)) ∧
      ∃ b l', Equal L (.arr (v :: l)) (.arr l') ∧ (∀ r, codePoints (t ++ r) = b ++ codePoints r) ∧
        ∀ first acc w, White w → G strict (sem U L) (.items first acc) (b ++ (w ++ [93])) (.arr (acc ++ l')) := by
  have hn := newLine_white (gap := gap) hi
  induction l generalizing v with
  | nil =>
    obtain ⟨s, h1, b, v', h2, h3, h4⟩ := h v (by simp) gap indent hg hi
    refine ⟨newLine gap indent ++ s, fun first => ?_, newLine gap indent ++ b, [v'], .arrCons h2 .arrNil, fun r => ?_, ?_⟩
    · simp [items, h1]
    · rw [List.append_assoc, codePoints_ascii hn.ascii, h4, List.append_assoc]
    · intro first acc w hw
      exact .itemsLast (G.space (space_iff.2 hn) h3) (space_iff.2 hw)
  | cons u l ih =>
    obtain ⟨s, h1, b, v', h2, h3, h4⟩ := h v (by simp) gap indent hg hi
    obtain ⟨t, k1, b', l', k2, k3, k4⟩ := ih u fun x hx => h x (List.mem_cons_of_mem _ hx)
    refine ⟨newLine gap indent ++ s ++ 44 :: t, fun first => ?_, newLine gap indent ++ b ++ 44 :: b', v' :: l',
      .arrCons h2 k2, fun r => ?_, ?_⟩
    · rw [items, h1]
      simp only
      rw [k1 false]
      simp
    · rw [List.append_assoc, List.append_assoc, codePoints_ascii hn.ascii, h4, List.cons_append,
        codePoints_cons (by omega), k3]
      simp
    · intro first acc w hw
      have := G.itemsCons (first := first) (acc := acc) (w := []) (G.space (space_iff.2 hn) h3) .nil (k4 false (acc ++ [v']) w hw)
      simpa using this

theorem members_prints {U : Uni} {L : Lib F} {gap : Option (List Nat)} {indent : List Nat}
    (hg : ∀ g, gap = some g → White g) (hi : White indent) (l : List (List Nat × Val F)) (p : List Nat × Val F)
    (h : ∀ x ∈ p :: l, Prints U L x.2) (hk : ∀ x ∈ p :: l, ∀ c ∈ x.1, c < 65536) :
    ∃ t, (∀ first, members L gap indent first (p :: l) = .ok ((if first = true then [] else [44]) ++ t)) ∧
      ∃ b l', Equal L (.obj (p :: l)) (.obj l') ∧ l'.map Prod.fst = (p :: l).map Prod.fst ∧
        (∀ r, codePoints (t ++ r) = b ++ codePoints r) ∧
        ∀ first acc w, White w → G strict (sem U L) (.members first acc) (b ++ (w ++ [125]))
          (.obj (l'.foldl (fun l p => create l p.1 p.2) acc)) := by
  have hn := newLine_white (gap := gap) hi
  obtain ⟨cw, hc1, hc2⟩ := colon_eq gap
  induction l generalizing p with
  | nil =>
    obtain ⟨k, v⟩ := p
    obtain ⟨s, h1, b, v', h2, h3, h4⟩ := h (k, v) (by simp) gap indent hg hi
    obtain ⟨q, q1, q2⟩ := quote_writes (hk (k, v) (by simp))
    refine ⟨newLine gap indent ++ quote k ++ 58 :: cw ++ s, fun first => ?_,
      newLine gap indent ++ q ++ 58 :: cw ++ b, [(k, v')], .objCons h2 .objNil, rfl, fun r => ?_, ?_⟩
    · simp only at h1
      simp [members, h1, hc1]
    · simp only [List.append_assoc, List.cons_append]
      rw [codePoints_ascii hn.ascii, q2, codePoints_cons (by omega), codePoints_ascii hc2.ascii, h4]
    · intro first acc w hw
      have := G.membersLast (first := first) (acc := acc) (w' := []) (space_iff.2 hn) (Or.inl q1) .nil
        (G.space (space_iff.2 hc2) h3) (space_iff.2 hw)
      simp only [List.append_assoc, List.cons_append, List.nil_append] at this ⊢
      exact this
  | cons u l ih =>
    obtain ⟨k, v⟩ := p
    obtain ⟨s, h1, b, v', h2, h3, h4⟩ := h (k, v) (by simp) gap indent hg hi
    obtain ⟨q, q1, q2⟩ := quote_writes (hk (k, v) (by simp))
    obtain ⟨t, k1, b', l', k2, k3, k4, k5⟩ := ih u (fun x hx => h x (List.mem_cons_of_mem _ hx))
      (fun x hx => hk x (List.mem_cons_of_mem _ hx))
    refine ⟨newLine gap indent ++ quote k ++ 58 :: cw ++ s ++ 44 :: t, fun first => ?_,
      newLine gap indent ++ q ++ 58 :: cw ++ b ++ 44 :: b', (k, v') :: l', .objCons h2 k2, by simp [k3], fun r => ?_, ?_⟩
    · simp only at h1
      rw [members, h1]
      simp only
      rw [k1 false]
      simp [hc1]
    · simp only [List.append_assoc, List.cons_append]
      rw [codePoints_ascii hn.ascii, q2, codePoints_cons (by omega), codePoints_ascii hc2.ascii, h4,
        codePoints_cons (by omega), k4]
    · intro first acc w hw
      have := G.membersCons (first := first) (acc := acc) (w' := []) (w'' := []) (space_iff.2 hn) (Or.inl q1) .nil
        (G.space (space_iff.2 hc2) h3) .nil (k5 false (create acc k v') w hw)
      simpa using this

theorem prints {U : Uni} {L : Lib F} (hL : Contract L) {v : Val F} (h : JsonValue L create v) : Prints U L v := by
  induction h with
  | null =>
    intro gap indent _ _
    exact ⟨wNull, by simp [serialize], wNull, .null, .null, .literal (w := []) .nil (Or.inl ⟨rfl, rfl⟩), codePoints_ascii (by decide)⟩
  | bool b =>
    intro gap indent _ _
    cases b with
    | true => exact ⟨wTrue, by simp [serialize], wTrue, .bool true, .bool _, .literal (w := []) .nil (Or.inr (Or.inl ⟨rfl, rfl⟩)),
        codePoints_ascii (by decide)⟩
    | false => exact ⟨wFalse, by simp [serialize], wFalse, .bool false, .bool _, .literal (w := []) .nil (Or.inr (Or.inr ⟨rfl, rfl⟩)),
        codePoints_ascii (by decide)⟩
  | num h1 h2 =>
    intro gap indent _ _
    obtain ⟨t, h3, h4⟩ := number_shows U hL h1 h2
    exact ⟨t, by rw [serialize, h3], h4⟩
  | @str s hs =>
    intro gap indent _ _
    obtain ⟨b, h1, h2⟩ := quote_writes hs
    exact ⟨quote s, by simp [serialize], b, .str s, .str s, .str (w := []) .nil h1, h2⟩
  | @arr l _ ih =>
    intro gap indent hg hi
    cases l with
    | nil =>
      exact ⟨[91, 93], by simp [serialize, items], [91, 93], .arr [], .arrNil,
        .arr (w := []) .nil (.itemsClose (w := []) (Or.inl rfl) .nil), codePoints_ascii (by decide)⟩
    | cons v l =>
      have hd := deeper_white hg hi
      obtain ⟨t, h1, b, l', h2, h3, h4⟩ := items_prints hg hd l v ih
      have hn := newLine_white (gap := gap) hi
      refine ⟨91 :: (t ++ newLine gap indent ++ [93]), ?_, 91 :: (b ++ (newLine gap indent ++ [93])), .arr l', h2, ?_, ?_⟩
      · rw [serialize, h1 true]
        simp
      · have := h4 true [] _ hn
        rw [List.nil_append] at this
        exact .arr (w := []) .nil this
      · intro r
        simp only [List.append_assoc, List.cons_append, List.nil_append]
        rw [codePoints_cons (by omega), h3, codePoints_ascii hn.ascii, codePoints_cons (by omega)]
  | obj defs hk hv ih =>
    intro gap indent hg hi
    have ho : Ordered (defs.foldl (fun l p => create l p.1 p.2) []) :=
      fold_ordered defs ⟨by simp, by simp⟩
    have hmem : ∀ p ∈ defs.foldl (fun l p => create l p.1 p.2) [], Prints U L p.2 ∧ ∀ c ∈ p.1, c < 65536 := by
      intro p hp
      rcases fold_mem hp with hp | ⟨q, hq, rfl⟩
      · cases hp
      · exact ⟨ih q hq, keyOf_units (hk q hq)⟩
    generalize defs.foldl (fun l p => create l p.1 p.2) [] = l at ho hmem
    cases l with
    | nil =>
      exact ⟨[123, 125], by simp [serialize, members], [123, 125], .obj [], .objNil,
        .obj (w := []) .nil (.membersClose (w := []) (Or.inl rfl) .nil), codePoints_ascii (by decide)⟩
    | cons p l =>
      have hd := deeper_white hg hi
      obtain ⟨t, h1, b, l', h2, h3, h4, h5⟩ := members_prints hg hd l p (fun x hx => (hmem x hx).1) (fun x hx => (hmem x hx).2)
      have hn := newLine_white (gap := gap) hi
      refine ⟨123 :: (t ++ newLine gap indent ++ [125]), ?_, 123 :: (b ++ (newLine gap indent ++ [125])), .obj l', h2, ?_, ?_⟩
      · rw [serialize, h1 true]
        simp
      · have := h5 true [] _ hn
        rw [fold_create (acc := []) (by simpa using ho.congr h3), List.nil_append] at this
        exact .obj (w := []) .nil this
      · intro r
        simp only [List.append_assoc, List.cons_append, List.nil_append]
        rw [codePoints_cons (by omega), h4, codePoints_ascii hn.ascii, codePoints_cons (by omega)]

end Verif.Json

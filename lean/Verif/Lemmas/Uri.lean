import Verif.Model.Uri
import Verif.Spec.Uri
/-
Lemmas on the URI functions.
-/
namespace Verif.Uri
open Spec

/-! ### Bits -/

theorem shl_or (h l k : Nat) (hl : l < 2 ^ k) : (h <<< k) ||| l = h * 2 ^ k + l := by
  rw [← Nat.shiftLeft_add_eq_or_of_lt hl, Nat.shiftLeft_eq]

theorem and_mask (n : Nat) (k : Nat) : n &&& (2 ^ k - 1) = n % 2 ^ k := Nat.and_two_pow_sub_one_eq_mod n k

theorem shr (n k : Nat) : n >>> k = n / 2 ^ k := Nat.shiftRight_eq_div_pow n k

theorem or8 (n : Nat) (h : n ≤ 3) : n ||| 8 = 8 + n := by
  obtain rfl | rfl | rfl | rfl : n = 0 ∨ n = 1 ∨ n = 2 ∨ n = 3 := by omega
  all_goals rfl

theorem orc (n : Nat) (h : n ≤ 1) : n ||| 12 = 12 + n := by
  obtain rfl | rfl : n = 0 ∨ n = 1 := by omega
  all_goals rfl

theorem isHex_lt {c n : Nat} (h : IsHex c n) : n < 16 := by
  rcases h with h | h | h <;> omega

theorem isHex_xdigit {c n : Nat} (h : IsHex c n) : isXdigit c = true ∧ hexVal c = n := by
  unfold IsHex at h
  unfold isXdigit hexVal
  constructor
  · simp only [Bool.or_eq_true, Bool.and_eq_true, decide_eq_true_eq]; omega
  · split
    · omega
    · split <;> omega

theorem xdigit_isHex {c : Nat} (h : isXdigit c = true) : IsHex c (hexVal c) := by
  simp only [isXdigit, Bool.or_eq_true, Bool.and_eq_true, decide_eq_true_eq] at h
  unfold IsHex hexVal
  split
  · omega
  · split <;> omega

theorem byte_eq {a b x y : Nat} (ha : IsHex a x) (hb : IsHex b y) :
    (hexVal a <<< 4) ||| hexVal b = x * 16 + y := by
  rw [(isHex_xdigit ha).2, (isHex_xdigit hb).2, shl_or _ _ _ (isHex_lt hb)]

theorem cont_iff (v : Nat) (h : v < 256) : (v &&& 0xc0 = 0x80) ↔ Cont v := by
  have : ∀ v, v < 256 → ((v &&& 0xc0 = 0x80) ↔ (0x80 ≤ v ∧ v < 0xc0)) := by decide +kernel
  exact this v h

theorem cont_bits (uc v : Nat) (h : Cont v) : (uc <<< 6) ||| (v &&& 0x3f) = uc * 64 + (v - 0x80) := by
  rw [show (0x3f : Nat) = 2 ^ 6 - 1 from rfl, and_mask, shl_or _ _ _ (Nat.mod_lt _ (by decide))]
  have := h.1
  have := h.2
  omega

theorem leadByte_spec (v : Nat) (h : v < 256) : leadByte v =
    if v < 0x80 then some (0, v)
    else if v < 0xc0 then none
    else if v < 0xe0 then some (1, v - 0xc0)
    else if v < 0xf0 then some (2, v - 0xe0)
    else if v < 0xf8 then some (3, v - 0xf0)
    else none := by
  have : ∀ v, v < 256 → leadByte v =
    if v < 0x80 then some (0, v)
    else if v < 0xc0 then none
    else if v < 0xe0 then some (1, v - 0xc0)
    else if v < 0xf0 then some (2, v - 0xe0)
    else if v < 0xf8 then some (3, v - 0xf0)
    else none := by decide +kernel
  exact this v h

theorem appendUc_scalar (u : Nat) (h : Scalar u) : appendUc u = utf16 u := by
  unfold appendUc utf16 Scalar at *
  rw [show (0x3ff : Nat) = 2 ^ 10 - 1 from rfl, and_mask, shr]
  split <;> split
  · omega
  · have e1 : (u - 0x10000) / 2 ^ 10 < 1024 := by omega
    simp only [List.cons.injEq, and_true]
    constructor <;> omega
  · rfl
  · omega

/-! ### Encoding -/

theorem hexChar_spec (n : Nat) (h : n < 16) : hexChar n = some (hexDigit n) := by
  unfold hexChar hexDigit
  rw [if_pos (by omega)]
  split <;> split <;> first | omega | (congr 1; omega)

theorem escs_spec (l : List (Nat × Nat)) (h : ∀ p ∈ l, p.1 < 16 ∧ p.2 < 16) :
    escs l = some (l.flatMap fun p => [37, hexDigit p.1, hexDigit p.2]) := by
  induction l with
  | nil => rfl
  | cons p l ih =>
    obtain ⟨hi, lo⟩ := p
    have hp := h (hi, lo) (by simp)
    rw [escs, ih (fun p hp => h p (by simp [hp])), esc, hexChar_spec _ hp.1, hexChar_spec _ hp.2]
    rfl

theorem encUc_spec (u : Nat) (h : u < 0x110000) : encUc u = some ((utf8 u).flatMap pct) := by
  have m4 := and_mask u 4
  have m3 : ∀ n, n &&& 3 = n % 4 := fun n => and_mask n 2
  have mf : ∀ n, n &&& 0xf = n % 16 := fun n => and_mask n 4
  unfold encUc utf8
  simp only [shr, m3, mf]
  by_cases h1 : u ≤ 0x7f
  · rw [if_pos h1, if_pos (by omega), escs_spec]
    · simp [pct]
    · simp; omega
  rw [if_neg h1, if_neg (by omega : ¬ u < 0x80)]
  by_cases h2 : u ≤ 0x7ff
  · rw [if_pos h2, if_pos (by omega), orc _ (by omega), or8 _ (by omega), escs_spec]
    · simp only [pct, List.flatMap_cons, List.flatMap_nil, List.append_nil, List.cons_append,
        List.nil_append, List.cons.injEq, true_and, and_true, Option.some.injEq]
      refine ⟨?_, ?_, ?_, ?_⟩ <;> (congr 1; omega)
    · simp; omega
  rw [if_neg h2, if_neg (by omega : ¬ u < 0x800)]
  by_cases h3 : u ≤ 0xffff
  · rw [if_pos h3, if_pos (by omega), or8 _ (by omega), or8 _ (by omega), escs_spec]
    · simp only [pct, List.flatMap_cons, List.flatMap_nil, List.append_nil, List.cons_append,
        List.nil_append, List.cons.injEq, true_and, and_true, Option.some.injEq]
      refine ⟨?_, ?_, ?_, ?_, ?_, ?_⟩ <;> (congr 1; omega)
    · simp; omega
  rw [if_neg h3, if_neg (by omega : ¬ u < 0x10000), or8 _ (by omega), or8 _ (by omega),
    or8 _ (by omega), escs_spec]
  · simp only [pct, List.flatMap_cons, List.flatMap_nil, List.append_nil, List.cons_append,
        List.nil_append, List.cons.injEq, true_and, and_true, Option.some.injEq]
    refine ⟨?_, ?_, ?_, ?_, ?_, ?_, ?_, ?_⟩ <;> (congr 1; omega)
  · simp; omega

theorem plain_lt {comp : Bool} {u : Nat} (h : u ∈ plain comp) : u < 128 := by
  have : ∀ b : Bool, ∀ u ∈ plain b, u < 128 := by decide
  exact this comp u h

theorem escape_iff (comp : Bool) (c : Nat) : escape comp c = false ↔ c ∈ plain comp := by
  by_cases hc : c < 128
  · have : ∀ b : Bool, ∀ c < 128, (escape b c = false ↔ c ∈ plain b) := by decide +kernel
    exact this comp c hc
  · constructor
    · intro h
      exfalso
      have h1 : mark c = false := by simp [mark]; omega
      have h2 : isAlnum c = false := by simp [isAlnum]; omega
      have h3 : reserved c = false := by simp [reserved]; omega
      cases comp <;> simp [escape, h1, h2, h3] at h
    · intro h; exact absurd (plain_lt h) hc

theorem pairToUc_spec (l t : Nat) (hl : isLead l = true) (ht : isTrail t = true) :
    Scalar (pairToUc l t) ∧ utf16 (pairToUc l t) = [l, t] ∧ 0x10000 ≤ pairToUc l t := by
  simp only [isLead, isTrail, Bool.and_eq_true, decide_eq_true_eq] at hl ht
  have e : pairToUc l t = (l - 0xd800) * 1024 + (t - 0xdc00) + 0x10000 := by
    unfold pairToUc; rw [shl_or _ _ _ (by omega)]
  rw [e]
  refine ⟨Or.inr (by omega), ?_, by omega⟩
  unfold utf16
  rw [if_neg (by omega)]
  simp only [List.cons.injEq, and_true]
  omega

/-- One round of the encoder: it throws at a lone surrogate, or handles one scalar value. -/
theorem encStep_spec (comp : Bool) (c : Nat) (rest : List Nat) (hc : c < 65536) :
    (∃ u r, Scalar u ∧ c :: rest = utf16 u ++ r ∧
      encStep comp c rest = .ok (if u ∈ plain comp then [u] else (utf8 u).flatMap pct) r) ∨
    (encStep comp c rest = .throw ∧ ∀ u r, Scalar u → c :: rest ≠ utf16 u ++ r) := by
  unfold encStep
  by_cases he : escape comp c = false
  · have hp := (escape_iff comp c).1 he
    have hlt := plain_lt hp
    left
    refine ⟨c, rest, Or.inl (by omega), ?_, ?_⟩
    · unfold utf16; rw [if_pos (by omega)]; rfl
    · simp [he, hp]
  have hnp : c ∉ plain comp := fun h => he ((escape_iff comp c).2 h)
  simp only [Bool.not_eq_false] at he
  simp only [he, Bool.not_true, Bool.false_eq_true, if_false]
  have hhead : ∀ u r, Scalar u → c :: rest = utf16 u ++ r →
      (u = c ∧ (c < 0xd800 ∨ 0xe000 ≤ c)) ∨
      (isLead c = true ∧ ∃ t r', rest = t :: r' ∧ isTrail t = true) := by
    intro u r hu h
    unfold utf16 at h
    split at h
    · left
      simp only [List.cons_append, List.nil_append, List.cons.injEq] at h
      unfold Scalar at hu
      omega
    · right
      simp only [List.cons_append, List.nil_append, List.cons.injEq] at h
      unfold Scalar at hu
      refine ⟨by simp [isLead]; omega, _, r, h.2, by simp [isTrail]; omega⟩
  by_cases ht : isTrail c = true
  · right
    rw [if_pos ht]
    refine ⟨rfl, fun u r hu h => ?_⟩
    simp only [isTrail, Bool.and_eq_true, decide_eq_true_eq] at ht
    rcases hhead u r hu h with h | h
    · omega
    · have := h.1
      simp only [isLead, Bool.and_eq_true, decide_eq_true_eq] at this
      omega
  rw [if_neg ht]
  by_cases hl : isLead c = true
  · rw [if_pos hl]
    have hl' := hl
    simp only [isLead, Bool.and_eq_true, decide_eq_true_eq] at hl'
    cases rest with
    | nil =>
      right
      refine ⟨rfl, fun u r hu h => ?_⟩
      rcases hhead u r hu h with h | ⟨_, t, r', h, _⟩
      · omega
      · cases h
    | cons t rest =>
      simp only
      by_cases ht' : isTrail t = true
      · left
        obtain ⟨h1, h2, h3⟩ := pairToUc_spec c t hl ht'
        refine ⟨pairToUc c t, rest, h1, by rw [h2]; rfl, ?_⟩
        have hlt : pairToUc c t < 0x110000 := by unfold Scalar at h1; omega
        rw [encUc_spec _ hlt]
        simp only [ht', Bool.not_true, Bool.false_eq_true, if_false]
        rw [if_neg (fun h => by have := plain_lt h; omega)]
      · right
        simp only [Bool.not_eq_true] at ht'
        simp only [ht', Bool.not_false, if_true, true_and]
        intro u r hu h
        rcases hhead u r hu h with h | ⟨_, t', r', h, h4⟩
        · omega
        · obtain ⟨rfl, _⟩ := List.cons.inj h
          rw [ht'] at h4; cases h4
  · left
    rw [if_neg hl]
    simp only [isLead, isTrail, Bool.and_eq_true, decide_eq_true_eq] at hl ht
    refine ⟨c, rest, by unfold Scalar; omega, ?_, ?_⟩
    · unfold utf16; rw [if_pos hc]; rfl
    · rw [encUc_spec _ (by omega), if_neg hnp]

theorem utf16_ne (u : Nat) : utf16 u ≠ [] := by unfold utf16; split <;> simp

/-- The UTF-16 of scalar values is a prefix code. -/
theorem utf16_prefix {u v : Nat} (hu : Scalar u) (hv : Scalar v) {r r' : List Nat}
    (h : utf16 u ++ r = utf16 v ++ r') : u = v ∧ r = r' := by
  unfold utf16 Scalar at *
  split at h <;> split at h <;>
    simp only [List.cons_append, List.nil_append, List.cons.injEq] at h
  · exact h
  · omega
  · omega
  · refine ⟨by omega, h.2.2⟩

theorem encLoop_spec (comp : Bool) (f : Nat) (s acc : List Nat) (hf : s.length < f)
    (hs : ∀ c ∈ s, c < 65536) :
    (∃ us, TextOf s us ∧ encLoop comp f s acc = .ok (acc ++ encoded comp us)) ∨
    (encLoop comp f s acc = .throw ∧ ∀ us, ¬ TextOf s us) := by
  induction f generalizing s acc with
  | zero => omega
  | succ f ih =>
    cases s with
    | nil => exact Or.inl ⟨[], ⟨by simp, rfl⟩, by simp [encLoop, encoded]⟩
    | cons c rest =>
      rw [encLoop]
      rcases encStep_spec comp c rest (hs c (by simp)) with ⟨u, r, h1, h2, h3⟩ | ⟨h1, h2⟩
      · rw [h3]
        simp only
        have hlen : r.length < f := by
          have := congrArg List.length h2
          have h0 := List.length_pos_iff.2 (utf16_ne u)
          simp only [List.length_cons, List.length_append] at this hf
          omega
        rcases ih r (acc ++ _) hlen (fun c hc => hs c (by rw [h2]; simp [hc])) with
          ⟨us, h4, h5⟩ | ⟨h4, h5⟩
        · left
          refine ⟨u :: us, ⟨?_, by rw [h2, h4.2]; rfl⟩, ?_⟩
          · intro v hv
            rcases List.mem_cons.1 hv with rfl | hv
            · exact h1
            · exact h4.1 v hv
          · rw [h5]; simp [encoded]
        · right
          refine ⟨h4, fun us hus => ?_⟩
          cases us with
          | nil => exact absurd hus.2 (by simp)
          | cons v us =>
            have := hus.2
            rw [h2, List.flatMap_cons] at this
            obtain ⟨rfl, h6⟩ := utf16_prefix h1 (hus.1 v (by simp)) this
            exact h5 us ⟨fun w hw => hus.1 w (by simp [hw]), h6⟩
      · right
        rw [h1]
        refine ⟨rfl, fun us hus => ?_⟩
        cases us with
        | nil => exact absurd hus.2 (by simp)
        | cons v us => exact h2 v (us.flatMap utf16) (hus.1 v (by simp)) (by rw [hus.2]; rfl)

/-! ### Decoding -/

theorem isPct_length {e bs : List Nat} (h : IsPct e bs) : e.length = 3 * bs.length := by
  induction h with
  | nil => rfl
  | cons a b x y e bs h1 h2 h3 ih => simp only [List.length_cons, ih]; omega

/-- The loop over the continuation bytes: it throws, or the escapes of `n` continuation bytes are
there. -/
theorem contLoop_spec (n uc : Nat) (s : List Nat) (h : n * 3 ≤ s.length) :
    (∃ e bs r, s = e ++ r ∧ IsPct e bs ∧ bs.length = n ∧ (∀ b ∈ bs, Cont b) ∧
      contLoop n uc s = .ok [bs.foldl (fun u b => u * 64 + (b - 0x80)) uc] r) ∨
    (contLoop n uc s = .throw ∧ ∀ e bs r, s = e ++ r → IsPct e bs → bs.length = n →
      ¬ ∀ b ∈ bs, Cont b) := by
  induction n generalizing uc s with
  | zero => exact Or.inl ⟨[], [], s, rfl, .nil, rfl, by simp, rfl⟩
  | succ n ih =>
    match s, h with
    | p :: a :: b :: s, h =>
      rw [contLoop]
      have hinv : ∀ e bs r, p :: a :: b :: s = e ++ r → IsPct e bs → bs.length = n + 1 →
          p = 37 ∧ ∃ x y e' bs', IsHex a x ∧ IsHex b y ∧ e = 37 :: a :: b :: e' ∧
            bs = (x * 16 + y) :: bs' ∧ IsPct e' bs' ∧ s = e' ++ r ∧ bs'.length = n := by
        intro e bs r h1 h2 h3
        cases h2 with
        | nil => simp at h3
        | cons a' b' x y e' bs' ha hb h5 =>
          simp only [List.cons_append, List.cons.injEq] at h1
          obtain ⟨rfl, rfl, rfl, h6⟩ := h1
          exact ⟨rfl, x, y, e', bs', ha, hb, rfl, rfl, h5, h6, by simpa using h3⟩
      by_cases hp : p = 37
      · rw [if_neg (Decidable.not_not.2 hp)]
        by_cases hab : isXdigit a = true ∧ isXdigit b = true
        · have ha := xdigit_isHex hab.1
          have hb := xdigit_isHex hab.2
          rw [if_neg (by simp [hab.1, hab.2])]
          simp only
          rw [byte_eq ha hb]
          have la := isHex_lt ha
          have lb := isHex_lt hb
          have huniq : ∀ {c x y}, IsHex c x → IsHex c y → x = y := fun h1 h2 => by
            rw [← (isHex_xdigit h1).2, (isHex_xdigit h2).2]
          by_cases hc : Cont (hexVal a * 16 + hexVal b)
          · rw [if_neg (Decidable.not_not.2 ((cont_iff _ (by omega)).2 hc)), cont_bits _ _ hc]
            rcases ih (uc * 64 + (hexVal a * 16 + hexVal b - 0x80)) s
              (by simp only [List.length_cons] at h; omega) with
              ⟨e, bs, r, h1, h2, h3, h4, h5⟩ | ⟨h1, h2⟩
            · left
              refine ⟨37 :: a :: b :: e, (hexVal a * 16 + hexVal b) :: bs, r, by rw [hp, h1]; rfl,
                .cons a b _ _ e bs ha hb h2, by simp [h3], ?_, by rw [h5, List.foldl_cons]⟩
              intro v hv
              rcases List.mem_cons.1 hv with rfl | hv
              · exact hc
              · exact h4 v hv
            · right
              refine ⟨h1, fun e bs r h3 h4 h5 h6 => ?_⟩
              obtain ⟨_, x, y, e', bs', ha', hb', rfl, rfl, h7, h8, h9⟩ := hinv e bs r h3 h4 h5
              exact h2 e' bs' r h8 h7 h9 (fun v hv => h6 v (by simp [hv]))
          · right
            rw [if_pos (fun h => hc ((cont_iff _ (by omega)).1 h))]
            refine ⟨rfl, fun e bs r h3 h4 h5 h6 => ?_⟩
            obtain ⟨_, x, y, e', bs', ha', hb', rfl, rfl, h7, h8, h9⟩ := hinv e bs r h3 h4 h5
            have := h6 (x * 16 + y) (by simp)
            rw [huniq ha' ha, huniq hb' hb] at this
            exact hc this
        · right
          rw [if_pos (by
            simp only [Bool.or_eq_true, Bool.not_eq_true', ← Bool.not_eq_true]
            by_cases h1 : isXdigit a = true
            · exact Or.inr fun h2 => hab ⟨h1, h2⟩
            · exact Or.inl h1)]
          refine ⟨rfl, fun e bs r h3 h4 h5 h6 => ?_⟩
          obtain ⟨_, x, y, e', bs', ha', hb', rfl, rfl, h7, h8, h9⟩ := hinv e bs r h3 h4 h5
          exact hab ⟨(isHex_xdigit ha').1, (isHex_xdigit hb').1⟩
      · right
        rw [if_pos hp]
        exact ⟨rfl, fun e bs r h3 h4 h5 _ => hp (hinv e bs r h3 h4 h5).1⟩
    | [], h => simp at h
    | [_], h => simp at h; omega
    | [_, _], h => simp at h; omega

/-- The number of continuation bytes of a first byte. -/
theorem form_lead {bs : List Nat} {u : Nat} (h : Form bs u) :
    ∃ a t, bs = a :: t ∧ a < 256 ∧ (∀ b ∈ t, Cont b) ∧ ∃ bits, leadByte a = some (t.length, bits) ∧
      u = t.foldl (fun u b => u * 64 + (b - 0x80)) bits := by
  rcases h with ⟨a, rfl, h1, hu⟩ | ⟨a, b, rfl, h1, h2, h3, hu⟩ |
    ⟨a, b, c, rfl, h1, h2, h3, h4, hu⟩ | ⟨a, b, c, d, rfl, h1, h2, h3, h4, h5, hu⟩
  · refine ⟨a, [], rfl, by omega, by simp, a, ?_, by simpa only [List.foldl] using hu⟩
    rw [leadByte_spec _ (by omega), if_pos h1]; rfl
  · refine ⟨a, [b], rfl, by omega, by simpa using h3, a - 0xc0, ?_, by simpa only [List.foldl] using hu⟩
    rw [leadByte_spec _ (by omega), if_neg (by omega), if_neg (by omega), if_pos h2]; rfl
  · refine ⟨a, [b, c], rfl, by omega, by simp [h3, h4], a - 0xe0, ?_, ?_⟩
    · rw [leadByte_spec _ (by omega), if_neg (by omega), if_neg (by omega), if_neg (by omega),
        if_pos h2]; rfl
    · simp only [List.foldl]; omega
  · refine ⟨a, [b, c, d], rfl, by omega, by simp [h3, h4, h5], a - 0xf0, ?_, ?_⟩
    · rw [leadByte_spec _ (by omega), if_neg (by omega), if_neg (by omega), if_neg (by omega),
        if_neg (by omega), if_pos h2]; rfl
    · simp only [List.foldl]; omega

theorem lead_form {a : Nat} {t : List Nat} {n bits : Nat} (ha : a < 256)
    (h : leadByte a = some (n, bits)) (hn : t.length = n) (ht : ∀ b ∈ t, Cont b) :
    Form (a :: t) (t.foldl (fun u b => u * 64 + (b - 0x80)) bits) := by
  rw [leadByte_spec _ ha] at h
  split at h
  · cases h
    obtain rfl := List.length_eq_zero_iff.1 hn
    exact Or.inl ⟨a, rfl, by assumption, rfl⟩
  split at h
  · cases h
  split at h
  · cases h
    match t, hn with
    | [b], _ => exact Or.inr (Or.inl ⟨a, b, rfl, by omega, by omega, ht b (by simp), rfl⟩)
  split at h
  · cases h
    match t, hn with
    | [b, c], _ =>
      refine Or.inr (Or.inr (Or.inl ⟨a, b, c, rfl, by omega, by omega, ht b (by simp),
        ht c (by simp), ?_⟩))
      simp only [List.foldl]; omega
  split at h
  · cases h
    match t, hn with
    | [b, c, d], _ =>
      refine Or.inr (Or.inr (Or.inr ⟨a, b, c, d, rfl, by omega, by omega, ht b (by simp),
        ht c (by simp), ht d (by simp), ?_⟩))
      simp only [List.foldl]; omega
  · cases h

theorem isHex_unique {c x y : Nat} (h1 : IsHex c x) (h2 : IsHex c y) : x = y := by
  rw [← (isHex_xdigit h1).2, (isHex_xdigit h2).2]

theorem isPct_prefix {e bs e' bs' r r' : List Nat} (h1 : IsPct e bs) (h2 : IsPct e' bs')
    (h : e ++ r = e' ++ r') (hl : bs.length = bs'.length) : e = e' ∧ bs = bs' ∧ r = r' := by
  induction h1 generalizing e' bs' with
  | nil =>
    cases h2 with
    | nil => exact ⟨rfl, rfl, h⟩
    | cons => simp at hl
  | cons a b x y e bs ha hb h3 ih =>
    cases h2 with
    | nil => simp at hl
    | cons a' b' x' y' e' bs' ha' hb' h4 =>
      simp only [List.cons_append, List.cons.injEq, true_and] at h
      obtain ⟨rfl, rfl, h⟩ := h
      obtain ⟨rfl, rfl, rfl⟩ := ih h4 h (by simpa using hl)
      rw [isHex_unique ha ha', isHex_unique hb hb']
      exact ⟨rfl, rfl, rfl⟩

theorem form_prefix {e bs e' bs' r r' : List Nat} {u u' : Nat} (h1 : IsPct e bs)
    (h2 : IsPct e' bs') (h : e ++ r = e' ++ r') (f1 : Form bs u) (f2 : Form bs' u') :
    e = e' ∧ bs = bs' ∧ r = r' ∧ u = u' := by
  obtain ⟨a, t, rfl, ha, hc, bits, h3, h4⟩ := form_lead f1
  obtain ⟨a', t', rfl, ha', hc', bits', h3', h4'⟩ := form_lead f2
  have haa : a = a' := by
    cases h1 with
    | cons a b x y e bs hax hby h5 =>
      cases h2 with
      | cons a' b' x' y' e' bs' hax' hby' h6 =>
        simp only [List.cons_append, List.cons.injEq, true_and] at h
        obtain ⟨rfl, rfl, h⟩ := h
        rw [isHex_unique hax hax', isHex_unique hby hby']
  subst haa
  rw [h3] at h3'
  simp only [Option.some.injEq, Prod.mk.injEq] at h3'
  obtain ⟨hl, rfl⟩ := h3'
  obtain ⟨rfl, h7, rfl⟩ := isPct_prefix h1 h2 h (by simp [hl])
  obtain ⟨_, rfl⟩ := List.cons.inj h7
  exact ⟨rfl, rfl, rfl, by rw [h4, h4']⟩

theorem reserved_iff (c : Nat) : reserved c = true ↔ c ∈ reservedSet := by
  simp [reserved, reservedSet, or_assoc]

theorem reserved_lt {c : Nat} (h : reserved c = true) : c < 128 := by
  rw [reserved_iff] at h
  revert c
  decide

/-- One round of the decoder. -/
theorem decStep_spec (comp : Bool) (c : Nat) (rest : List Nat) :
    (c ≠ 37 ∧ decStep comp c rest = .ok [c] rest) ∨
    (∃ e bs u r, c :: rest = e ++ r ∧ IsPct e bs ∧ Form bs u ∧
      decStep comp c rest = .ok (if comp = false ∧ u ∈ reservedSet ∧ bs = [u] then e else appendUc u) r) ∨
    (c = 37 ∧ decStep comp c rest = .throw ∧
      ∀ e bs u r, c :: rest = e ++ r → IsPct e bs → ¬ Form bs u) ∨
    (∃ a n, c = 37 ∧ rest = [a] ∧ IsHex a n ∧ decStep comp c rest = .ub) := by
  unfold decStep
  by_cases hc : c = 37
  case neg => left; exact ⟨hc, by rw [if_pos hc]⟩
  right
  rw [if_neg (Decidable.not_not.2 hc)]
  subst hc
  -- the shape of escapes at the start
  have hinv : ∀ e bs u r, 37 :: rest = e ++ r → IsPct e bs → Form bs u →
      ∃ a b r', rest = a :: b :: r' ∧ isXdigit a = true ∧ isXdigit b = true ∧
        ∃ x y e' bs', IsHex a x ∧ IsHex b y ∧ e = 37 :: a :: b :: e' ∧
          bs = (x * 16 + y) :: bs' ∧ IsPct e' bs' ∧ r' = e' ++ r := by
    intro e bs u r h1 h2 h3
    cases h2 with
    | nil => obtain ⟨_, _, h, _⟩ := form_lead h3; cases h
    | cons a b x y e' bs' ha hb h5 =>
      simp only [List.cons_append, List.cons.injEq, true_and] at h1
      exact ⟨a, b, e' ++ r, h1, (isHex_xdigit ha).1, (isHex_xdigit hb).1, x, y, e', bs', ha, hb,
        rfl, rfl, h5, rfl⟩
  cases rest with
  | nil =>
    right; left
    refine ⟨by trivial, by trivial, fun e bs u r h1 h2 h3 => ?_⟩
    obtain ⟨_, _, _, h, _⟩ := hinv e bs u r h1 h2 h3
    cases h
  | cons a rest =>
    simp only
    by_cases hax : isXdigit a = true
    case neg =>
      right; left
      simp only [Bool.not_eq_true] at hax
      rw [hax]
      refine ⟨by trivial, by trivial, fun e bs u r h1 h2 h3 => ?_⟩
      obtain ⟨a', _, _, h, h4, _⟩ := hinv e bs u r h1 h2 h3
      obtain ⟨rfl, _⟩ := List.cons.inj h
      rw [hax] at h4; cases h4
    · rw [hax]
      simp only [Bool.not_true, Bool.false_eq_true, if_false]
      have ha := xdigit_isHex hax
      cases rest with
      | nil =>
        right; right
        exact ⟨a, _, by trivial, rfl, ha, rfl⟩
      | cons b rest =>
        simp only
        by_cases hbx : isXdigit b = true
        case neg =>
          right; left
          simp only [Bool.not_eq_true] at hbx
          rw [hbx]
          refine ⟨by trivial, by trivial, fun e bs u r h1 h2 h3 => ?_⟩
          obtain ⟨a', b', _, h, _, h4, _⟩ := hinv e bs u r h1 h2 h3
          simp only [List.cons.injEq] at h
          rw [← h.2.1, hbx] at h4; cases h4
        · rw [hbx]
          simp only [Bool.not_true, Bool.false_eq_true, if_false]
          have hb := xdigit_isHex hbx
          rw [byte_eq ha hb]
          generalize hx : hexVal a = x at ha
          generalize hy : hexVal b = y at hb
          have hxl := isHex_lt ha
          have hyl := isHex_lt hb
          generalize hv : x * 16 + y = v
          have hvl : v < 256 := by omega
          by_cases hr : (comp = false ∧ v ∈ reservedSet)
          · left
            have hres := (reserved_iff v).2 hr.2
            have hlt := reserved_lt hres
            refine ⟨[37, a, b], [v], v, rest, rfl, ?_, Or.inl ⟨v, rfl, hlt, rfl⟩, ?_⟩
            · rw [← hv]; exact .cons a b x y [] [] ha hb .nil
            · simp [hr.1, hres, (reserved_iff v).1 hres]
          · rw [if_neg (by
              simp only [Bool.and_eq_true, Bool.not_eq_true', reserved_iff]
              exact hr)]
            -- all escapes at the start begin with the byte `v`
            have hinv' : ∀ e bs u r, 37 :: a :: b :: rest = e ++ r → IsPct e bs → Form bs u →
                ∃ e' bs', e = 37 :: a :: b :: e' ∧ bs = v :: bs' ∧ IsPct e' bs' ∧
                  rest = e' ++ r := by
              intro e bs u r h1 h2 h3
              obtain ⟨a', b', r', h4, _, _, x', y', e', bs', h5, h6, h7, h8, h9, h10⟩ :=
                hinv e bs u r h1 h2 h3
              simp only [List.cons.injEq] at h4
              rw [← h4.1] at h5 h7
              rw [← h4.2.1] at h6 h7
              refine ⟨e', bs', h7, ?_, h9, by rw [h4.2.2, h10]⟩
              rw [h8, ← hv, isHex_unique h5 ha, isHex_unique h6 hb]
            cases hlb : leadByte v with
            | none =>
              right; left
              refine ⟨by trivial, by trivial, fun e bs u r h1 h2 h3 => ?_⟩
              obtain ⟨e', bs', rfl, rfl, h4, h5⟩ := hinv' e bs u r h1 h2 h3
              obtain ⟨_, _, h6, _, _, _, h7, _⟩ := form_lead h3
              obtain ⟨rfl, _⟩ := List.cons.inj h6
              rw [hlb] at h7; cases h7
            | some q =>
              obtain ⟨n, bits⟩ := q
              simp only
              have hform : ∀ e bs u r, 37 :: a :: b :: rest = e ++ r → IsPct e bs → Form bs u →
                  ∃ e' bs', e = 37 :: a :: b :: e' ∧ bs = v :: bs' ∧ IsPct e' bs' ∧
                    rest = e' ++ r ∧ bs'.length = n ∧ ∀ b ∈ bs', Cont b := by
                intro e bs u r h1 h2 h3
                obtain ⟨e', bs', rfl, rfl, h4, h5⟩ := hinv' e bs u r h1 h2 h3
                obtain ⟨_, _, h6, _, h6', _, h7, _⟩ := form_lead h3
                obtain ⟨rfl, rfl⟩ := List.cons.inj h6
                rw [hlb] at h7
                simp only [Option.some.injEq, Prod.mk.injEq] at h7
                exact ⟨e', _, rfl, rfl, h4, h5, h7.1.symm, h6'⟩
              by_cases hn : rest.length < n * 3
              · right; left
                rw [if_pos hn]
                refine ⟨by trivial, by trivial, fun e bs u r h1 h2 h3 => ?_⟩
                obtain ⟨e', bs', rfl, rfl, h4, h5, h6, _⟩ := hform e bs u r h1 h2 h3
                have := isPct_length h4
                rw [h5, List.length_append] at hn
                omega
              · rw [if_neg hn]
                rcases contLoop_spec n bits rest (by omega) with
                  ⟨e, bs, r, h1, h2, h3, h4, h5⟩ | ⟨h1, h2⟩
                · left
                  rw [h5]
                  simp only
                  refine ⟨37 :: a :: b :: e, v :: bs, _, r, by rw [h1]; rfl, ?_,
                    lead_form hvl hlb h3 h4, ?_⟩
                  · rw [← hv]; exact .cons a b x y e bs ha hb h2
                  · rw [if_neg]
                    rintro ⟨h6, h7⟩
                    obtain ⟨rfl, _⟩ := List.cons.inj h7.2
                    exact hr ⟨h6, h7.1⟩
                · right; left
                  rw [h1]
                  refine ⟨by trivial, by trivial, fun e bs u r h3 h4 h5 => ?_⟩
                  obtain ⟨e', bs', rfl, rfl, h6, h7, h8, h9⟩ := hform e bs u r h3 h4 h5
                  exact h2 e' bs' r h7 h6 h8 h9

theorem utf8_form (u : Nat) (h : Scalar u) : Form (utf8 u) u := by
  unfold Scalar at h
  unfold utf8 Form Cont
  split
  · exact Or.inl ⟨u, rfl, by assumption, rfl⟩
  split
  · exact Or.inr (Or.inl ⟨_, _, rfl, by omega, by omega, by omega, by omega⟩)
  split
  · exact Or.inr (Or.inr (Or.inl ⟨_, _, _, rfl, by omega, by omega, by omega, by omega, by omega⟩))
  · exact Or.inr (Or.inr (Or.inr ⟨_, _, _, _, rfl, by omega, by omega, by omega, by omega, by omega,
      by omega⟩))

theorem utf8_one (u v : Nat) (h : utf8 u = [v]) : u = v ∧ u < 0x80 := by
  unfold utf8 at h
  repeat' split at h
  all_goals first | (simp at h; done) | skip
  exact ⟨(List.cons.inj h).1, by assumption⟩

theorem hasBad_append {r : List Nat} (x : List Nat) (h : HasBad r) : HasBad (x ++ r) := by
  obtain ⟨a, e, b, bs, u, rfl, h2⟩ := h
  exact ⟨x ++ a, e, b, bs, u, by simp, h2⟩

theorem truncated_append {r : List Nat} (x : List Nat) (h : Truncated r) : Truncated (x ++ r) := by
  obtain ⟨a, c, n, rfl, h2⟩ := h
  exact ⟨x ++ a, c, n, by simp, h2⟩

theorem form_pos {e bs r : List Nat} {u : Nat} (h1 : IsPct e bs) (h2 : Form bs u) :
    r.length + 3 ≤ (e ++ r).length := by
  obtain ⟨a, t, rfl, _⟩ := form_lead h2
  have := isPct_length h1
  simp only [List.length_cons] at this
  rw [List.length_append]
  omega

/-- What the decoder gives. -/
theorem decLoop_sound (comp : Bool) (f : Nat) (s acc : List Nat) (hf : s.length < f) :
    (decLoop comp f s acc = .throw) ∨ (decLoop comp f s acc = .ub ∧ Truncated s) ∨
    (∃ o, decLoop comp f s acc = .ok (acc ++ o) ∧ (Decoded comp s o ∨ HasBad s)) := by
  induction f generalizing s acc with
  | zero => omega
  | succ f ih =>
    cases s with
    | nil => exact Or.inr (Or.inr ⟨[], by simp [decLoop], Or.inl .nil⟩)
    | cons c rest =>
      rw [decLoop]
      rcases decStep_spec comp c rest with ⟨hc, h⟩ | ⟨e, bs, u, r, h1, h2, h3, h4⟩ | ⟨hc, h, _⟩ |
        ⟨a, n, rfl, rfl, h1, h2⟩
      · rw [h]
        simp only
        rcases ih rest (acc ++ [c]) (by simpa using hf) with h1 | ⟨h1, h2⟩ | ⟨o, h1, h2⟩
        · exact Or.inl h1
        · exact Or.inr (Or.inl ⟨h1, truncated_append [c] h2⟩)
        · refine Or.inr (Or.inr ⟨c :: o, by simpa using h1, ?_⟩)
          rcases h2 with h2 | h2
          · exact Or.inl (.lit c rest o hc h2)
          · exact Or.inr (hasBad_append [c] h2)
      · rw [h4]
        simp only
        have hl := form_pos (r := r) h2 h3
        rw [← h1] at hl
        rcases ih r (acc ++ _) (by simp only [List.length_cons] at hl hf; omega) with
          h5 | ⟨h5, h6⟩ | ⟨o, h5, h6⟩
        · exact Or.inl h5
        · exact Or.inr (Or.inl ⟨h5, by rw [h1]; exact truncated_append e h6⟩)
        · refine Or.inr (Or.inr ⟨_, by rw [h5, List.append_assoc], ?_⟩)
          by_cases hgood : Scalar u ∧ bs = utf8 u
          · rcases h6 with h6 | h6
            · left
              rw [h1]
              have := Decoded.esc (comp := comp) u e r o hgood.1 (hgood.2 ▸ h2) h6
              have hif : (if comp = false ∧ u ∈ reservedSet ∧ bs = [u] then e else appendUc u) =
                  if comp = false ∧ u ∈ reservedSet then e else utf16 u := by
                rw [appendUc_scalar u hgood.1]
                by_cases hr : u ∈ reservedSet
                · have hlt := reserved_lt ((reserved_iff u).2 hr)
                  have : bs = [u] := by rw [hgood.2]; unfold utf8; rw [if_pos hlt]
                  simp [hr, this]
                · simp [hr]
              rw [hif]
              exact this
            · exact Or.inr (by rw [h1]; exact hasBad_append e h6)
          · exact Or.inr ⟨[], e, r, bs, u, by simpa using h1, h2, h3, hgood⟩
      · rw [h]; exact Or.inl rfl
      · rw [h2]; exact Or.inr (Or.inl ⟨rfl, [], a, n, rfl, h1⟩)

/-- The decoder gives what the language defines. -/
theorem decLoop_complete (comp : Bool) {s o : List Nat} (h : Decoded comp s o) (f : Nat)
    (acc : List Nat) (hf : s.length < f) : decLoop comp f s acc = .ok (acc ++ o) := by
  induction h generalizing f acc with
  | nil =>
    cases f with
    | zero => omega
    | succ f => simp [decLoop]
  | lit c s o hc h ih =>
    cases f with
    | zero => omega
    | succ f =>
      rw [decLoop, decStep.eq_def, if_pos hc]
      simp only
      rw [ih f _ (by simpa using hf)]
      simp
  | esc u e s o hu he h ih =>
    cases f with
    | zero => omega
    | succ f =>
      have hform := utf8_form u hu
      have hl := form_pos (r := s) he hform
      generalize ht : e ++ s = t at hf hl ⊢
      cases t with
      | nil => simp at hl
      | cons c rest =>
        rw [decLoop]
        have hc37 : c = 37 := by
          obtain ⟨v, vs, hv, _⟩ := form_lead hform
          rw [hv] at he
          cases he with
          | cons => simp only [List.cons_append, List.cons.injEq] at ht; exact ht.1.symm
        rcases decStep_spec comp c rest with ⟨hc, h⟩ | ⟨e', bs, u', r, h1, h2, h3, h4⟩ |
          ⟨_, h1, h2⟩ | ⟨a, n, rfl, rfl, h1, h2⟩
        · exact absurd hc37 hc
        · rw [h4]
          simp only
          rw [h1] at ht
          obtain ⟨rfl, rfl, rfl, rfl⟩ := form_prefix he h2 ht hform h3
          rw [ih f _ (by simp only [List.length_cons] at hl hf; omega), List.append_assoc]
          congr 3
          rw [appendUc_scalar u hu]
          by_cases hr : u ∈ reservedSet
          · have hlt := reserved_lt ((reserved_iff u).2 hr)
            have : utf8 u = [u] := by unfold utf8; rw [if_pos hlt]
            simp [hr, this]
          · simp [hr]
        · exact absurd hform (h2 e _ u s ht.symm he)
        · simp at hl

/-- A bad sequence has two bytes at least. -/
theorem hasBad_length {s : List Nat} (h : HasBad s) : 6 ≤ s.length := by
  obtain ⟨a, e, b, bs, u, rfl, h1, h2, h3⟩ := h
  have hl := isPct_length h1
  have : 2 ≤ bs.length := by
    rcases h2 with ⟨a, rfl, h4, rfl⟩ | ⟨a, b, rfl, _⟩ | ⟨a, b, c, rfl, _⟩ | ⟨a, b, c, d, rfl, _⟩
    · exact absurd ⟨Or.inl (by omega), by unfold utf8; rw [if_pos h4]⟩ h3
    all_goals simp
  simp only [List.length_append]
  omega

/-! ### Round trip -/

theorem hexDigit_isHex (n : Nat) (h : n < 16) : IsHex (hexDigit n) n := by
  unfold IsHex hexDigit
  split <;> omega

theorem pct_isPct (bs : List Nat) (h : ∀ b ∈ bs, b < 256) : IsPct (bs.flatMap pct) bs := by
  induction bs with
  | nil => exact .nil
  | cons b bs ih =>
    have hb := h b (by simp)
    have := IsPct.cons _ _ _ _ _ _ (hexDigit_isHex (b / 16) (by omega))
      (hexDigit_isHex (b % 16) (by omega)) (ih fun b hb => h b (by simp [hb]))
    rw [show b / 16 * 16 + b % 16 = b by omega] at this
    exact this

theorem utf8_lt (u : Nat) (h : Scalar u) : ∀ b ∈ utf8 u, b < 256 := by
  obtain ⟨a, t, h1, h2, h3, _⟩ := form_lead (utf8_form u h)
  rw [h1]
  intro b hb
  rcases List.mem_cons.1 hb with rfl | hb
  · exact h2
  · have := (h3 b hb).2; omega

theorem encoded_decoded (comp : Bool) (us : List Nat) (h : ∀ u ∈ us, Scalar u) :
    Decoded comp (encoded comp us) (us.flatMap utf16) := by
  induction us with
  | nil => exact .nil
  | cons u us ih =>
    have hu := h u (by simp)
    have ih := ih fun u hu => h u (by simp [hu])
    unfold encoded at *
    rw [List.flatMap_cons, List.flatMap_cons]
    split
    · rename_i hp
      have hlt := plain_lt hp
      have : utf16 u = [u] := by unfold utf16; rw [if_pos (by omega)]
      rw [this]
      refine .lit u _ _ ?_ ih
      rintro rfl
      revert hp
      cases comp <;> decide
    · rename_i hp
      have := Decoded.esc (comp := comp) u _ _ _ hu (pct_isPct _ (utf8_lt u hu)) ih
      rw [if_neg] at this
      · exact this
      · rintro ⟨rfl, hr⟩
        exact hp (by simp [plain, hr])

end Verif.Uri

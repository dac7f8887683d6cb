import Verif.Lemmas.Uri
import Verif.Spec.Conv
/-
Lemmas on the encoding converter.
-/
namespace Verif.Conv
open Spec Uri
open Uri.Spec (Scalar utf8 utf16 Cont)

theorem and1f (n : Nat) : n &&& 0x1f = n % 32 := and_mask n 5
theorem and0f (n : Nat) : n &&& 0x0f = n % 16 := and_mask n 4
theorem and07 (n : Nat) : n &&& 0x07 = n % 8 := and_mask n 3
theorem and3f (n : Nat) : n &&& 0x3f = n % 64 := and_mask n 6
theorem and3ff (n : Nat) : n &&& 0x3ff = n % 1024 := and_mask n 10
theorem andff (n : Nat) : n &&& 0xff = n % 256 := and_mask n 8

theorem or80 (n : Nat) (h : n < 64) : n ||| 0x80 = 0x80 + n := by
  have := shl_or 2 n 6 h
  rw [Nat.or_comm]; exact this
theorem orc0 (n : Nat) (h : n < 64) : n ||| 0xc0 = 0xc0 + n := by
  have := shl_or 3 n 6 h
  rw [Nat.or_comm]; exact this
theorem ore0 (n : Nat) (h : n < 32) : n ||| 0xe0 = 0xe0 + n := by
  have := shl_or 7 n 5 h
  rw [Nat.or_comm]; exact this
theorem orf0 (n : Nat) (h : n < 16) : n ||| 0xf0 = 0xf0 + n := by
  have := shl_or 15 n 4 h
  rw [Nat.or_comm]; exact this

theorem lead2 (a : Nat) (h1 : 0xc0 ≤ a) (h2 : a < 0xe0) :
    a &&& 0xe0 = 0xc0 := by
  have : ∀ a, a < 256 → 0xc0 ≤ a → a < 0xe0 → a &&& 0xe0 = 0xc0 := by decide +kernel
  exact this a (by omega) h1 h2
theorem lead3 (a : Nat) (h1 : 0xe0 ≤ a) (h2 : a < 0xf0) :
    a &&& 0xe0 ≠ 0xc0 ∧ a &&& 0xf0 = 0xe0 := by
  have : ∀ a, a < 256 → 0xe0 ≤ a → a < 0xf0 → a &&& 0xe0 ≠ 0xc0 ∧ a &&& 0xf0 = 0xe0 := by
    decide +kernel
  exact this a (by omega) h1 h2
theorem lead4 (a : Nat) (h1 : 0xf0 ≤ a) (h2 : a < 0xf8) :
    a &&& 0xe0 ≠ 0xc0 ∧ a &&& 0xf0 ≠ 0xe0 ∧ a &&& 0xf8 = 0xf0 := by
  have : ∀ a, a < 256 → 0xf0 ≤ a → a < 0xf8 →
      a &&& 0xe0 ≠ 0xc0 ∧ a &&& 0xf0 ≠ 0xe0 ∧ a &&& 0xf8 = 0xf0 := by
    decide +kernel
  exact this a (by omega) h1 h2

theorem bits2 (a b k : Nat) (hb : b < 2 ^ k) : (a <<< k) ||| b = a * 2 ^ k + b := shl_or a b k hb

theorem shl_shl_or (a b j k : Nat) (hb : b < 2 ^ k) :
    (a <<< (k + j)) ||| (b <<< j) = ((a <<< k) ||| b) <<< j := by
  rw [Nat.shiftLeft_or_distrib, Nat.shiftLeft_add]

theorem bits3 (a b c k : Nat) (hb : b < 2 ^ k) (hc : c < 2 ^ k) :
    ((a <<< (k + k)) ||| (b <<< k)) ||| c = (a * 2 ^ k + b) * 2 ^ k + c := by
  rw [shl_shl_or _ _ _ _ hb, shl_or _ _ _ hc, shl_or _ _ _ hb]

theorem bits4 (a b c d k : Nat) (hb : b < 2 ^ k) (hc : c < 2 ^ k) (hd : d < 2 ^ k) :
    (((a <<< (k + k + k)) ||| (b <<< (k + k))) ||| (c <<< k)) ||| d =
      ((a * 2 ^ k + b) * 2 ^ k + c) * 2 ^ k + d := by
  rw [Nat.add_assoc k k k, shl_shl_or _ _ _ _ hb, shl_or _ _ _ hb, bits3 _ _ _ _ hc hd]

/-- `to_uc` at the start of the bytes of a character, and on a part of them. -/
def Reads (e : Enc) (u : Nat) : Prop :=
  (∀ r, toUc e (enc e u ++ r) = .ok (enc e u).length u) ∧
  (∀ p q, p ++ q = enc e u → q ≠ [] → toUc e p = .more)

theorem reads_utf8 (u : Nat) (hu : Scalar u) : Reads .utf8 u := by
  unfold Scalar at hu
  unfold Reads
  simp only [enc, toUc]
  unfold utf8
  by_cases h1 : u < 0x80
  · rw [if_pos h1]
    refine ⟨fun r => by simp [utf8ToUc, h1], fun p q h hq => ?_⟩
    match p, h with
    | [], _ => rfl
    | [x], h => simp only [List.cons_append, List.nil_append, List.cons.injEq] at h; exact absurd h.2 hq
    | x :: y :: p, h => simp at h
  rw [if_neg h1]
  by_cases h2 : u < 0x800
  · rw [if_pos h2]
    have l := lead2 (0xc0 + u / 64) (by omega) (by omega)
    have l0 : ¬ (0xc0 + u / 64 < 0x80) := by omega
    refine ⟨fun r => ?_, fun p q h hq => ?_⟩
    · simp only [List.cons_append, List.nil_append, utf8ToUc]
      rw [if_neg l0, if_pos l, and1f, and3f, bits2 _ _ 6 (by omega),
        show (0xc0 + u / 64) % 32 * 2 ^ 6 + (0x80 + u % 64) % 64 = u by omega]
      rfl
    · match p, h with
      | [], _ => rfl
      | [x], h =>
        simp only [List.cons_append, List.nil_append, List.cons.injEq] at h
        obtain ⟨rfl, _⟩ := h
        simp only [utf8ToUc]
        rw [if_neg l0, if_pos l]
      | [x, y], h =>
        simp only [List.cons_append, List.nil_append, List.cons.injEq] at h
        exact absurd h.2.2 hq
      | x :: y :: z :: p, h => simp at h
  rw [if_neg h2]
  by_cases h3 : u < 0x10000
  · rw [if_pos h3]
    have l := lead3 (0xe0 + u / 4096) (by omega) (by omega)
    have l0 : ¬ (0xe0 + u / 4096 < 0x80) := by omega
    refine ⟨fun r => ?_, fun p q h hq => ?_⟩
    · simp only [List.cons_append, List.nil_append, utf8ToUc]
      rw [if_neg l0, if_neg l.1, if_pos l.2, and0f, and3f, and3f,
        bits3 _ _ _ 6 (by omega) (by omega),
        show ((0xe0 + u / 4096) % 16 * 2 ^ 6 + (0x80 + u / 64 % 64) % 64) * 2 ^ 6 +
          (0x80 + u % 64) % 64 = u by omega]
      rfl
    · match p, h with
      | [], _ => rfl
      | [x], h =>
        simp only [List.cons_append, List.nil_append, List.cons.injEq] at h
        obtain ⟨rfl, _⟩ := h
        simp only [utf8ToUc]
        rw [if_neg l0, if_neg l.1, if_pos l.2]
      | [x, y], h =>
        simp only [List.cons_append, List.nil_append, List.cons.injEq] at h
        obtain ⟨rfl, _⟩ := h
        simp only [utf8ToUc]
        rw [if_neg l0, if_neg l.1, if_pos l.2]
      | [x, y, z], h =>
        simp only [List.cons_append, List.nil_append, List.cons.injEq] at h
        exact absurd h.2.2.2 hq
      | x :: y :: z :: w :: p, h => simp at h
  rw [if_neg h3]
  have l := lead4 (0xf0 + u / 262144) (by omega) (by omega)
  have l0 : ¬ (0xf0 + u / 262144 < 0x80) := by omega
  refine ⟨fun r => ?_, fun p q h hq => ?_⟩
  · simp only [List.cons_append, List.nil_append, utf8ToUc]
    rw [if_neg l0, if_neg l.1, if_neg l.2.1, if_pos l.2.2, and07, and3f, and3f, and3f,
      bits4 _ _ _ _ 6 (by omega) (by omega) (by omega),
      show (((0xf0 + u / 262144) % 8 * 2 ^ 6 + (0x80 + u / 4096 % 64) % 64) * 2 ^ 6 +
        (0x80 + u / 64 % 64) % 64) * 2 ^ 6 + (0x80 + u % 64) % 64 = u by omega]
    rfl
  · match p, h with
    | [], _ => rfl
    | [x], h =>
      simp only [List.cons_append, List.nil_append, List.cons.injEq] at h
      obtain ⟨rfl, _⟩ := h
      simp only [utf8ToUc]
      rw [if_neg l0, if_neg l.1, if_neg l.2.1, if_pos l.2.2]
    | [x, y], h =>
      simp only [List.cons_append, List.nil_append, List.cons.injEq] at h
      obtain ⟨rfl, _⟩ := h
      simp only [utf8ToUc]
      rw [if_neg l0, if_neg l.1, if_neg l.2.1, if_pos l.2.2]
    | [x, y, z], h =>
      simp only [List.cons_append, List.nil_append, List.cons.injEq] at h
      obtain ⟨rfl, _⟩ := h
      simp only [utf8ToUc]
      rw [if_neg l0, if_neg l.1, if_neg l.2.1, if_pos l.2.2]
    | [x, y, z, w], h =>
      simp only [List.cons_append, List.nil_append, List.cons.injEq] at h
      exact absurd h.2.2.2.2 hq
    | x :: y :: z :: w :: v :: p, h => simp at h

/-- The two forms with 16 bit units. -/
theorem reads_ucs2 (w : Nat → Nat → Nat) (b : Nat → List Nat)
    (hb : ∀ c, c < 65536 → ∃ x y, b c = [x, y] ∧ w x y = c) (u : Nat) (hu : Scalar u) :
    (∀ r, ucs2ToUc w ((utf16 u).flatMap b ++ r) = .ok ((utf16 u).flatMap b).length u) ∧
    (∀ p q, p ++ q = (utf16 u).flatMap b → q ≠ [] → ucs2ToUc w p = .more) := by
  unfold Scalar at hu
  by_cases h : u < 0x10000
  · have h16 : utf16 u = [u] := by unfold utf16; rw [if_pos h]
    obtain ⟨x, y, hxy, hw⟩ := hb u h
    have hl : isLead u = false := by
      simp only [isLead, Bool.and_eq_false_iff, decide_eq_false_iff_not]; omega
    rw [h16]
    simp only [List.flatMap_cons, List.flatMap_nil, List.append_nil, hxy]
    refine ⟨fun r => by simp [ucs2ToUc, hw, hl], fun p q h hq => ?_⟩
    match p, h with
    | [], _ => rfl
    | [_], _ => rfl
    | [_, _], h =>
      simp only [List.cons_append, List.nil_append, List.cons.injEq] at h
      exact absurd h.2.2 hq
    | _ :: _ :: _ :: _, h => simp at h
  · have h16 : utf16 u = [0xd800 + (u - 0x10000) / 1024, 0xdc00 + (u - 0x10000) % 1024] := by
      unfold utf16; rw [if_neg h]
    obtain ⟨x, y, hxy, hw⟩ := hb (0xd800 + (u - 0x10000) / 1024) (by omega)
    obtain ⟨x', y', hxy', hw'⟩ := hb (0xdc00 + (u - 0x10000) % 1024) (by omega)
    have hl : isLead (0xd800 + (u - 0x10000) / 1024) = true := by
      simp only [isLead, Bool.and_eq_true, decide_eq_true_eq]; omega
    have ht : isTrail (0xdc00 + (u - 0x10000) % 1024) = true := by
      simp only [isTrail, Bool.and_eq_true, decide_eq_true_eq]; omega
    have hp : pairToUc (0xd800 + (u - 0x10000) / 1024) (0xdc00 + (u - 0x10000) % 1024) = u := by
      unfold pairToUc; rw [shl_or _ _ _ (by omega)]; omega
    rw [h16]
    simp only [List.flatMap_cons, List.flatMap_nil, List.append_nil, hxy, hxy']
    refine ⟨fun r => by simp [ucs2ToUc, hw, hw', hl, ht, hp], fun p q h hq => ?_⟩
    match p, h with
    | [], _ => rfl
    | [_], _ => rfl
    | [a, b], h =>
      simp only [List.cons_append, List.nil_append, List.cons.injEq] at h
      obtain ⟨rfl, rfl, _⟩ := h
      simp [ucs2ToUc, hw, hl]
    | [a, b, c], h =>
      simp only [List.cons_append, List.nil_append, List.cons.injEq] at h
      obtain ⟨rfl, rfl, _⟩ := h
      simp [ucs2ToUc, hw, hl]
    | [_, _, _, _], h =>
      simp only [List.cons_append, List.nil_append, List.cons.injEq] at h
      exact absurd h.2.2.2.2 hq
    | _ :: _ :: _ :: _ :: _ :: _, h => simp at h

theorem ucs4_ok (u : Nat) (h : u < 0x110000) :
    ucs4ToUc (u % 256) (u / 256 % 256) (u / 65536 % 256) (u / 16777216) = .ok 4 u := by
  unfold ucs4ToUc
  rw [if_neg (by omega), bits4 _ _ _ _ 8 (by omega) (by omega) (by omega),
    show ((u / 16777216 * 2 ^ 8 + u / 65536 % 256) * 2 ^ 8 + u / 256 % 256) * 2 ^ 8 + u % 256 = u by
      omega]

theorem reads (e : Enc) (u : Nat) (hu : Scalar u) : Reads e u := by
  have hlt : u < 0x110000 := by unfold Scalar at hu; omega
  cases e with
  | utf8 => exact reads_utf8 u hu
  | u2le =>
    refine reads_ucs2 _ _ (fun c hc => ⟨c % 256, c / 256, rfl, ?_⟩) u hu
    show (c % 256) ||| ((c / 256) <<< 8) = c
    rw [Nat.or_comm, shl_or _ _ _ (by omega)]; omega
  | u2be =>
    refine reads_ucs2 _ _ (fun c hc => ⟨c / 256, c % 256, rfl, ?_⟩) u hu
    show (c % 256) ||| ((c / 256) <<< 8) = c
    rw [Nat.or_comm, shl_or _ _ _ (by omega)]; omega
  | u4le =>
    refine ⟨fun r => ?_, fun p q h hq => ?_⟩
    · simp only [enc, List.cons_append, List.nil_append, toUc, List.length_cons, List.length_nil]
      exact ucs4_ok u hlt
    · match p, h with
      | [], _ => rfl
      | [_], _ => rfl
      | [_, _], _ => rfl
      | [_, _, _], _ => rfl
      | [_, _, _, _], h =>
        simp only [enc, List.cons_append, List.nil_append, List.cons.injEq] at h
        exact absurd h.2.2.2.2 hq
      | _ :: _ :: _ :: _ :: _ :: _, h => simp [enc] at h
  | u4be =>
    refine ⟨fun r => ?_, fun p q h hq => ?_⟩
    · simp only [enc, List.cons_append, List.nil_append, toUc, List.length_cons, List.length_nil]
      exact ucs4_ok u hlt
    · match p, h with
      | [], _ => rfl
      | [_], _ => rfl
      | [_, _], _ => rfl
      | [_, _, _], _ => rfl
      | [_, _, _, _], h =>
        simp only [enc, List.cons_append, List.nil_append, List.cons.injEq] at h
        exact absurd h.2.2.2.2 hq
      | _ :: _ :: _ :: _ :: _ :: _, h => simp [enc] at h

/-- `from_uc` for a scalar value. -/
theorem writes (e : Enc) (u len : Nat) (hu : Scalar u) :
    fromUc e u len = if (enc e u).length ≤ len then .ok (enc e u)
      else if e = .utf8 then .ub else .full := by
  have hlt : u < 0x110000 := by unfold Scalar at hu; omega
  unfold Scalar at hu
  cases e with
  | utf8 =>
    simp only [fromUc, enc, if_true]
    unfold utf8FromUc utf8 write
    simp only [and3f, shr]
    by_cases h1 : u < 0x80
    · simp only [if_pos h1]
    simp only [if_neg h1]
    by_cases h2 : u < 0x800
    · simp only [if_pos h2]
      rw [orc0 _ (by omega), or80 _ (by omega)]
    simp only [if_neg h2]
    by_cases h3 : u < 0x10000
    · simp only [if_pos h3]
      rw [ore0 _ (by omega), or80 _ (by omega), or80 _ (by omega)]
    simp only [if_neg h3]
    rw [if_pos (by omega), orf0 _ (by omega), or80 _ (by omega), or80 _ (by omega),
      or80 _ (by omega)]
  | u2le =>
    simp only [fromUc, enc, reduceCtorEq, if_false]
    unfold ucs2FromUc utf16 write le2
    simp only [and3ff, shr]
    by_cases h : u < 0x10000
    · rw [if_neg (by omega), if_pos h]
      simp only [List.flatMap_cons, List.flatMap_nil, List.append_nil, List.length_cons,
        List.length_nil]
      rw [show u / 2 ^ 8 % 256 = u / 256 by omega]
      split <;> split <;> first | rfl | omega
    · rw [if_pos (by omega), if_neg h]
      simp only [List.flatMap_cons, List.flatMap_nil, List.append_nil, List.length_cons,
        List.length_nil, List.cons_append, List.nil_append]
      rw [show ((u - 65536) / 2 ^ 10 + 55296) % 65536 = 55296 + (u - 65536) / 1024 by omega,
        show ((u - 65536) % 1024 + 56320) % 65536 = 56320 + (u - 65536) % 1024 by omega,
        show (55296 + (u - 65536) / 1024) / 2 ^ 8 % 256 = (55296 + (u - 65536) / 1024) / 256 by omega,
        show (56320 + (u - 65536) % 1024) / 2 ^ 8 % 256 = (56320 + (u - 65536) % 1024) / 256 by omega]
      split <;> split <;> first | rfl | omega
  | u2be =>
    simp only [fromUc, enc, reduceCtorEq, if_false]
    unfold ucs2FromUc utf16 write be2
    simp only [and3ff, shr]
    by_cases h : u < 0x10000
    · rw [if_neg (by omega), if_pos h]
      simp only [List.flatMap_cons, List.flatMap_nil, List.append_nil, List.length_cons,
        List.length_nil]
      rw [show u / 2 ^ 8 % 256 = u / 256 by omega]
      split <;> split <;> first | rfl | omega
    · rw [if_pos (by omega), if_neg h]
      simp only [List.flatMap_cons, List.flatMap_nil, List.append_nil, List.length_cons,
        List.length_nil, List.cons_append, List.nil_append]
      rw [show ((u - 65536) / 2 ^ 10 + 55296) % 65536 = 55296 + (u - 65536) / 1024 by omega,
        show ((u - 65536) % 1024 + 56320) % 65536 = 56320 + (u - 65536) % 1024 by omega,
        show (55296 + (u - 65536) / 1024) / 2 ^ 8 % 256 = (55296 + (u - 65536) / 1024) / 256 by omega,
        show (56320 + (u - 65536) % 1024) / 2 ^ 8 % 256 = (56320 + (u - 65536) % 1024) / 256 by omega]
      split <;> split <;> first | rfl | omega
  | u4le =>
    simp only [fromUc, enc, reduceCtorEq, if_false, write, andff, shr, List.length_cons,
      List.length_nil]
    rw [show u / 2 ^ 24 % 256 = u / 16777216 by omega]
    split <;> split <;> first | rfl | omega
  | u4be =>
    simp only [fromUc, enc, reduceCtorEq, if_false, write, andff, shr, List.length_cons,
      List.length_nil]
    rw [show u / 2 ^ 24 % 256 = u / 16777216 by omega]
    split <;> split <;> first | rfl | omega

theorem enc_pos (e : Enc) (u : Nat) : 0 < (enc e u).length := by
  cases e <;> simp only [enc, utf8, utf16] <;> repeat' split
  all_goals simp

theorem enc_le (e : Enc) (u : Nat) : (enc e u).length ≤ 4 := by
  cases e <;> simp only [enc, utf8, utf16] <;> repeat' split
  all_goals simp

theorem encText_cons (e : Enc) (u : Nat) (us : List Nat) :
    encText e (u :: us) = enc e u ++ encText e us := rfl

theorem encText_append (e : Enc) (us vs : List Nat) :
    encText e (us ++ vs) = encText e us ++ encText e vs := by simp [encText]

/-- Why the loop has stopped before the text `us`, with the bytes `r` of it and room for `ol`
bytes. -/
def Stopped (ein eout : Enc) (us r : List Nat) (ol : Nat) (code : Code) : Prop :=
  (r = [] ∧ code = .ok) ∨ ∃ u vs, us = u :: vs ∧
    ((r.length < (enc ein u).length ∧ code = .ok) ∨
     (ol < (enc eout u).length ∧ ((code = .ok ∧ ol = 0) ∨ code = .false)))

theorem runLoop_spec (ein eout : Enc) (us : List Nat) (hus : Text us) (f : Nat)
    (p q : List Nat) (hpq : p ++ q = encText ein us) (ol : Nat) (out : List Nat)
    (hroom : eout ≠ .utf8 ∨ (encText eout us).length ≤ ol) (hf : p.length < f) :
    ∃ us1 us2 r code, us = us1 ++ us2 ∧ p = encText ein us1 ++ r ∧
      runLoop ein eout f p ol out = .done code r (out ++ encText eout us1) ∧
      (encText eout us1).length ≤ ol ∧
      Stopped ein eout us2 r (ol - (encText eout us1).length) code := by
  induction us generalizing f p ol out with
  | nil =>
    have hp : p = [] := (List.append_eq_nil_iff.1 hpq).1
    subst hp
    cases f with
    | zero => simp at hf
    | succ f =>
      refine ⟨[], [], [], .ok, rfl, rfl, ?_, by simp [encText], Or.inl ⟨rfl, rfl⟩⟩
      simp [runLoop, encText]
  | cons u us ih =>
    have hu := hus u (by simp)
    cases f with
    | zero => simp at hf
    | succ f =>
      have hrd := reads ein u hu
      rw [encText_cons] at hpq
      rw [runLoop]
      by_cases hguard : p.length ≠ 0 ∧ ol ≠ 0
      case neg =>
        rw [if_neg hguard]
        refine ⟨[], u :: us, p, .ok, rfl, rfl, by simp [encText], by simp [encText], ?_⟩
        by_cases hp : p.length = 0
        · exact Or.inl ⟨List.length_eq_zero_iff.1 hp, rfl⟩
        · have hol : ol = 0 := by omega
          refine Or.inr ⟨u, us, rfl, Or.inr ⟨?_, Or.inl ⟨rfl, by simp [hol]⟩⟩⟩
          have := enc_pos eout u
          simp [hol]; omega
      rw [if_pos hguard]
      by_cases hlen : p.length < (enc ein u).length
      · -- a part of a character
        have hq : ∃ q', p ++ q' = enc ein u ∧ q' ≠ [] := by
          have h1 : p = (enc ein u).take p.length := by
            have := congrArg (List.take p.length) hpq
            rw [List.take_left, List.take_append_of_le_length (by omega)] at this
            exact this
          refine ⟨(enc ein u).drop p.length, ?_, ?_⟩
          · have := List.take_append_drop p.length (enc ein u)
            rw [← h1] at this
            exact this
          · intro h
            have := congrArg List.length h
            simp at this
            omega
        obtain ⟨q', h1, h2⟩ := hq
        rw [hrd.2 p q' h1 h2]
        exact ⟨[], u :: us, p, .ok, rfl, rfl, by simp [encText], by simp [encText],
          Or.inr ⟨u, us, rfl, Or.inl ⟨hlen, rfl⟩⟩⟩
      · have hp : ∃ p', p = enc ein u ++ p' := by
          refine ⟨p.drop (enc ein u).length, ?_⟩
          have := congrArg (List.take (enc ein u).length) hpq
          rw [List.take_left, List.take_append_of_le_length (by omega)] at this
          have h2 := List.take_append_drop (enc ein u).length p
          rw [this] at h2
          exact h2.symm
        obtain ⟨p', rfl⟩ := hp
        rw [List.append_assoc] at hpq
        have hpq' := List.append_cancel_left hpq
        rw [hrd.1 p']
        simp only
        rw [writes eout u ol hu]
        by_cases hfit : (enc eout u).length ≤ ol
        · rw [if_pos hfit]
          simp only
          rw [List.drop_left]
          have hpos := enc_pos ein u
          rw [List.length_append] at hf
          obtain ⟨us1, us2, r, code, h1, h2, h3, h4, h5⟩ := ih (fun v hv => hus v (by simp [hv])) f p'
            hpq' (ol - (enc eout u).length) (out ++ enc eout u) (by
              refine hroom.imp_right fun h => ?_
              rw [encText_cons, List.length_append] at h
              omega) (by omega)
          refine ⟨u :: us1, us2, r, code, by rw [h1]; rfl, by rw [h2, encText_cons]; simp, ?_, ?_, ?_⟩
          · rw [h3, encText_cons]; simp
          · rw [encText_cons, List.length_append]; omega
          · rw [encText_cons, List.length_append, ← Nat.sub_sub]; exact h5
        · rw [if_neg hfit]
          have hne : eout ≠ .utf8 := by
            refine hroom.resolve_right fun h => ?_
            rw [encText_cons, List.length_append] at h
            omega
          rw [if_neg hne]
          exact ⟨[], u :: us, _, .false, rfl, rfl, by simp [encText], by simp [encText],
            Or.inr ⟨u, us, rfl, Or.inr ⟨by simp [encText]; omega, Or.inr rfl⟩⟩⟩

/-! ### Any input -/

theorem toUc_pos {e : Enc} {s : List Nat} {n uc : Nat} (h : toUc e s = .ok n uc) : 0 < n := by
  have h2 : ∀ w s, ucs2ToUc w s = .ok n uc → 0 < n := by
    intro w s h
    unfold ucs2ToUc at h
    repeat' split at h
    all_goals first | (cases h; done) | (cases h; omega)
  have h4 : ∀ a b c d, ucs4ToUc a b c d = .ok n uc → 0 < n := by
    intro a b c d h
    unfold ucs4ToUc at h
    split at h <;> cases h
    omega
  unfold toUc at h
  split at h
  · unfold utf8ToUc at h
    repeat' split at h
    all_goals first | (cases h; done) | (cases h; omega)
  · exact h2 _ _ h
  · exact h2 _ _ h
  · exact h4 _ _ _ _ h
  · cases h
  · exact h4 _ _ _ _ h
  · cases h

theorem fromUc_safe {e : Enc} (he : e ≠ .utf8) (uc len : Nat) :
    fromUc e uc len ≠ .ub ∧ ∀ bs, fromUc e uc len = .ok bs → bs.length ≤ len ∧ bs ≠ [] := by
  have hw : ∀ bs, write len bs = .ok bs ∨ (write len bs = .ub ∧ len < bs.length) := by
    intro bs; unfold write; split
    · exact Or.inl rfl
    · exact Or.inr ⟨rfl, by omega⟩
  have hwok : ∀ bs : List Nat, bs ≠ [] → bs.length ≤ len →
      write len bs ≠ .ub ∧ ∀ bs', write len bs = .ok bs' → bs'.length ≤ len ∧ bs' ≠ [] := by
    intro bs h0 h
    rcases hw bs with h1 | ⟨h1, h2⟩
    · rw [h1]
      exact ⟨by simp, fun bs' h' => by cases h'; exact ⟨h, h0⟩⟩
    · omega
  have hfull : FRes.full ≠ .ub ∧ ∀ bs, FRes.full = .ok bs → bs.length ≤ len ∧ bs ≠ [] :=
    ⟨by simp, fun bs h => by cases h⟩
  cases e with
  | utf8 => exact absurd rfl he
  | u2le =>
    simp only [fromUc, ucs2FromUc]
    repeat' split
    all_goals first | exact hfull | exact hwok _ (by simp [le2]) (by simp [le2]; omega)
  | u2be =>
    simp only [fromUc, ucs2FromUc]
    repeat' split
    all_goals first | exact hfull | exact hwok _ (by simp [be2]) (by simp [be2]; omega)
  | u4le =>
    simp only [fromUc]
    split
    · exact hfull
    · exact hwok _ (by simp) (by simp; omega)
  | u4be =>
    simp only [fromUc]
    split
    · exact hfull
    · exact hwok _ (by simp) (by simp; omega)

theorem toUc_noub {e : Enc} (h1 : e ≠ .u4le) (h2 : e ≠ .u4be) (s : List Nat) : toUc e s ≠ .ub := by
  have hu : ∀ w, ucs2ToUc w s ≠ .ub := by
    intro w h
    unfold ucs2ToUc at h
    repeat' split at h
    all_goals cases h
  cases e with
  | utf8 =>
    intro h
    simp only [toUc] at h
    unfold utf8ToUc at h
    repeat' split at h
    all_goals cases h
  | u2le => exact hu _
  | u2be => exact hu _
  | u4le => exact absurd rfl h1
  | u4be => exact absurd rfl h2

theorem runLoop_safe {ein eout : Enc} (h1 : ein ≠ .u4le) (h2 : ein ≠ .u4be) (h3 : eout ≠ .utf8)
    (f : Nat) (s : List Nat) (ol : Nat) (out : List Nat) (hf : s.length < f) :
    ∃ code r o, runLoop ein eout f s ol out = .done code r (out ++ o) ∧ o.length ≤ ol := by
  induction f generalizing s ol out with
  | zero => omega
  | succ f ih =>
    rw [runLoop]
    split
    · rename_i hg
      cases ht : toUc ein s with
      | ub => exact absurd ht (toUc_noub h1 h2 s)
      | err => exact ⟨.err, s, [], by simp, by simp⟩
      | more => exact ⟨.ok, s, [], by simp, by simp⟩
      | ok n uc =>
        simp only
        have hfr := fromUc_safe h3 uc ol
        have hn := toUc_pos ht
        cases hw : fromUc eout uc ol with
        | ub => exact absurd hw hfr.1
        | err => exact ⟨.err, s, [], by simp, by simp⟩
        | full => exact ⟨.false, s, [], by simp, by simp⟩
        | ok bs =>
          simp only
          have hbs := hfr.2 bs hw
          obtain ⟨code, r, o, h4, h5⟩ := ih (s.drop n) (ol - bs.length) (out ++ bs)
            (by rw [List.length_drop]; omega)
          exact ⟨code, r, bs ++ o, by rw [h4]; simp, by rw [List.length_append]; omega⟩
    · exact ⟨.ok, s, [], by simp, by simp⟩

/-! ### The growing buffer -/

theorem encText_eq_nil {e : Enc} {us : List Nat} (h : encText e us = []) : us = [] := by
  cases us with
  | nil => rfl
  | cons u us =>
    have := enc_pos e u
    rw [encText_cons] at h
    have := congrArg List.length h
    rw [List.length_append, List.length_nil] at this
    omega

theorem bufLoop_spec (ein eout : Enc) (he : eout ≠ .utf8) (f : Nat) (us : List Nat) (hus : Text us)
    (cap : Nat) (buf : List Nat) (ovf : Bool) (hcap : buf.length ≤ cap)
    (hf : 2 * (encText ein us).length + (if ovf then 0 else 1) ≤ f)
    (hne : ovf = true → us ≠ []) :
    bufLoop ein eout f (encText ein us) cap buf ovf = .ok (buf ++ encText eout us) := by
  induction f generalizing us cap buf ovf with
  | zero =>
    cases ovf with
    | false => simp at hf
    | true =>
      have hl : (encText ein us).length = 0 := by
        simp only [if_true] at hf; omega
      exact absurd (encText_eq_nil (List.length_eq_zero_iff.1 hl)) (hne rfl)
  | succ f ih =>
    rw [bufLoop]
    by_cases hs : us = []
    · subst hs
      have : ovf = false := by cases ovf with
        | false => rfl
        | true => exact absurd rfl (hne rfl)
      subst this
      simp [encText]
    have hpos : 0 < (encText ein us).length :=
      List.length_pos_iff.2 fun h => hs (encText_eq_nil h)
    rw [if_pos (Or.inl (by omega))]
    generalize hc : (if cap - buf.length < (encText ein us).length ∨ ovf = true then
      max 32 (max ((encText ein us).length + buf.length) (cap * 2)) else cap) = cap'
    -- enough room
    have hcap' : (encText ein us).length ≤ cap' - buf.length ∧ buf.length ≤ cap' ∧
        (ovf = true → 4 ≤ cap' - buf.length) := by
      split at hc
      · subst hc
        refine ⟨by omega, by omega, fun _ => ?_⟩
        by_cases h : cap < 4 <;> omega
      · rename_i hn
        subst hc
        exact ⟨by omega, hcap, fun h => absurd (Or.inr h) hn⟩
    obtain ⟨us1, us2, r, code, h1, h2, h3, h4, h5⟩ := runLoop_spec ein eout us hus
      ((encText ein us).length + 1) (encText ein us) [] (by simp) (cap' - buf.length) [] (Or.inl he)
      (by omega)
    simp only
    rw [run, h3]
    have hr : r = encText ein us2 := by
      rw [h1, encText_append] at h2
      exact (List.append_cancel_left h2).symm
    subst hr
    have hlen : (encText ein us).length = (encText ein us1).length + (encText ein us2).length := by
      rw [h1, encText_append, List.length_append]
    have hres : buf ++ encText eout us = (buf ++ encText eout us1) ++ encText eout us2 := by
      rw [h1, encText_append]; simp
    have hus2 : Text us2 := fun u hu => hus u (by rw [h1]; simp [hu])
    have hpr : us1 ≠ [] → 0 < (encText ein us1).length ∧ 0 < (encText eout us1).length := fun h =>
      ⟨List.length_pos_iff.2 fun h' => h (encText_eq_nil h'),
        List.length_pos_iff.2 fun h' => h (encText_eq_nil h')⟩
    rw [List.nil_append]
    rw [hres]
    rcases h5 with ⟨h5, rfl⟩ | ⟨u, vs, rfl, ⟨h5, _⟩ | ⟨h5, ⟨rfl, h6⟩ | rfl⟩⟩
    · -- everything is done
      have := encText_eq_nil h5
      subst this
      have h0 : us1 ≠ [] := by rintro rfl; exact hs h1
      simp only
      rw [if_neg (by have := hpr h0; omega)]
      refine ih [] hus2 cap' _ false (by rw [List.length_append]; omega) ?_ (by simp)
      have := hpr h0
      cases ovf <;> simp_all [encText] <;> omega
    · rw [encText_cons, List.length_append] at h5; omega
    · -- no room is left
      have h0 : us1 ≠ [] := by
        rintro rfl
        simp [encText] at h6
        omega
      have := hpr h0
      simp only
      rw [if_neg (by omega)]
      refine ih _ hus2 cap' _ false (by rw [List.length_append]; omega) ?_ (by simp)
      cases ovf <;> simp only [Bool.false_eq_true, if_false, if_true] at hf ⊢ <;> omega
    · simp only
      refine ih _ hus2 cap' _ true (by rw [List.length_append]; omega) ?_ (by simp)
      by_cases h0 : us1 = []
      · subst h0
        have hov : ovf = false := by
          cases ovf with
          | false => rfl
          | true =>
            have := hcap'.2.2 rfl
            have := enc_le eout u
            simp [encText] at h5
            omega
        subst hov
        simp only [Bool.false_eq_true, if_false, if_true] at hf ⊢
        omega
      · have := hpr h0
        cases ovf <;> simp only [Bool.false_eq_true, if_false, if_true] at hf ⊢ <;> omega

/-- UTF-8 output which is not longer than the input. -/
theorem bufLoop_utf8 (ein : Enc) (f : Nat) (us : List Nat) (hus : Text us) (cap : Nat)
    (buf : List Nat) (hcap : buf.length ≤ cap) (hf : 2 ≤ f)
    (hlen : (encText .utf8 us).length ≤ (encText ein us).length) :
    bufLoop ein .utf8 f (encText ein us) cap buf false = .ok (buf ++ encText .utf8 us) := by
  obtain ⟨f, rfl⟩ : ∃ g, f = g + 2 := ⟨f - 2, by omega⟩
  rw [bufLoop]
  by_cases hs : us = []
  · subst hs; simp [encText]
  have hpos : 0 < (encText ein us).length :=
    List.length_pos_iff.2 fun h => hs (encText_eq_nil h)
  rw [if_pos (Or.inl (by omega))]
  generalize hc : (if cap - buf.length < (encText ein us).length ∨ false = true then
    max 32 (max ((encText ein us).length + buf.length) (cap * 2)) else cap) = cap'
  have hcap' : (encText ein us).length ≤ cap' - buf.length := by
    split at hc
    · subst hc; omega
    · rename_i hn
      subst hc
      omega
  obtain ⟨us1, us2, r, code, h1, h2, h3, h4, h5⟩ := runLoop_spec ein .utf8 us hus
    ((encText ein us).length + 1) (encText ein us) [] (by simp) (cap' - buf.length) []
    (Or.inr (by omega)) (by omega)
  simp only
  rw [run, h3]
  have hr : r = encText ein us2 := by
    rw [h1, encText_append] at h2
    exact (List.append_cancel_left h2).symm
  subst hr
  have hl : (encText .utf8 us).length = (encText .utf8 us1).length + (encText .utf8 us2).length := by
    rw [h1, encText_append, List.length_append]
  rcases h5 with ⟨h5, rfl⟩ | ⟨u, vs, rfl, ⟨h5, _⟩ | ⟨h5, _⟩⟩
  · have := encText_eq_nil h5
    subst this
    have h0 : us1 ≠ [] := by rintro rfl; exact hs h1
    have hp : 0 < (encText .utf8 us1).length :=
      List.length_pos_iff.2 fun h' => h0 (encText_eq_nil h')
    simp only [List.nil_append]
    rw [if_neg (by omega), bufLoop]
    simp [encText, h1]
  · rw [encText_cons, List.length_append] at h5; omega
  · rw [encText_cons, List.length_append] at hl; omega

end Verif.Conv

import Verif.Lemmas.Uri
/-
Properties C23 and C24: URI encoding and decoding.
-/
namespace Verif.Uri
open Spec

/-- C23.  The encoding of a text is the one of the language: the unescaped characters stay, the
others become the escapes of their UTF-8. -/
theorem C23_encode (comp : Bool) (s us : List Nat) (h : TextOf s us) :
    encode comp s = .ok (encoded comp us) := by
  have hlt : ∀ c ∈ s, c < 65536 := by
    intro c hc
    rw [h.2, List.mem_flatMap] at hc
    obtain ⟨u, hu, hc⟩ := hc
    have := h.1 u hu
    unfold Scalar at this
    unfold utf16 at hc
    split at hc
    · simp at hc; omega
    · simp at hc; omega
  rcases encLoop_spec comp (s.length + 1) s [] (by omega) hlt with ⟨us', h1, h2⟩ | ⟨_, h2⟩
  · have : us' = us := by
      have e := h1.2.symm.trans h.2
      have h1' := h1.1
      have h' := h.1
      clear h1 h h2 hlt
      induction us' generalizing us with
      | nil =>
        cases us with
        | nil => rfl
        | cons u us =>
          have := utf16_ne u
          simp only [List.flatMap_nil, List.flatMap_cons] at e
          exact absurd (List.append_eq_nil_iff.1 e.symm).1 this
      | cons v vs ih =>
        cases us with
        | nil =>
          simp only [List.flatMap_nil, List.flatMap_cons] at e
          exact absurd (List.append_eq_nil_iff.1 e).1 (utf16_ne v)
        | cons u us =>
          simp only [List.flatMap_cons] at e
          obtain ⟨rfl, e2⟩ := utf16_prefix (h1' v (by simp)) (h' u (by simp)) e
          rw [ih us e2 (fun w hw => h1' w (by simp [hw])) (fun w hw => h' w (by simp [hw]))]
    rw [encode, h2, this]
    simp
  · exact absurd h (h2 us)

/-- C23.  A string which is no text (it has a lone surrogate) is refused. -/
theorem C23_lone_surrogate (comp : Bool) (s : List Nat) (hs : ∀ c ∈ s, c < 65536)
    (h : ¬ ∃ us, TextOf s us) : encode comp s = .throw := by
  rcases encLoop_spec comp (s.length + 1) s [] (by omega) hs with ⟨us, h1, _⟩ | ⟨h1, _⟩
  · exact absurd ⟨us, h1⟩ h
  · exact h1

/-- C23.  Decoding the encoding gives the string back, for both pairs of functions. -/
theorem C23_round_trip (comp : Bool) (s us : List Nat) (h : TextOf s us) :
    ∃ e, encode comp s = .ok e ∧ decode comp e = .ok s ∧
      ∀ c ∈ e, c ∈ plain comp ∨ c = 37 := by
  refine ⟨_, C23_encode comp s us h, ?_, ?_⟩
  · rw [decode, decLoop_complete comp (encoded_decoded comp us h.1) _ _ (by omega), h.2]
    rfl
  · intro c hc
    unfold encoded at hc
    rw [List.mem_flatMap] at hc
    obtain ⟨u, hu, hc⟩ := hc
    split at hc
    · left; simp at hc; subst hc; assumption
    · rw [List.mem_flatMap] at hc
      obtain ⟨b, hb, hc⟩ := hc
      have hlt := utf8_lt u (h.1 u hu) b hb
      have hd : ∀ n, n < 16 → hexDigit n ∈ plain comp := by
        have : ∀ b : Bool, ∀ n < 16, hexDigit n ∈ plain b := by decide
        exact this comp
      simp only [pct, List.mem_cons, List.not_mem_nil, or_false] at hc
      rcases hc with rfl | rfl | rfl
      · right; rfl
      · left; exact hd _ (by omega)
      · left; exact hd _ (by omega)

/-- The text "a é€😀/" is encoded to "a%20%C3%A9%E2%82%AC%F0%9F%98%80%2F" and back. -/
example : TextOf [97, 32, 0xe9, 0x20ac, 0xd83d, 0xde00, 47] [97, 32, 0xe9, 0x20ac, 0x1f600, 47] := by
  constructor
  · unfold Scalar; decide
  · decide
example : encode true [32, 0xd83d, 0xde00, 47] =
    .ok ([37, 50, 48] ++ [37, 70, 48, 37, 57, 70, 37, 57, 56, 37, 56, 48] ++ [37, 50, 70]) ∧
    encode false [47] = .ok [47] ∧ encode true [0xd83d, 97] = .throw := by decide +kernel

/-! ### C24 -/

/-- C24 is violated: "%1" is read past its end. -/
theorem C24_violated_read : decode true [37, 49] = .ub := by decide +kernel

/-- C24 is violated: "%C0%80" (not the shortest form), "%ED%A0%80" (a surrogate) and
"%F7%BF%BF%BF" (too large) are decoded. -/
theorem C24_violated_strict :
    decode true [37, 67, 48, 37, 56, 48] = .ok [0] ∧
    decode true [37, 69, 68, 37, 65, 48, 37, 56, 48] = .ok [0xd800] ∧
    decode true [37, 70, 55, 37, 66, 70, 37, 66, 70, 37, 66, 70] = .ok [0xdfbf, 0xdfff] := by
  decide +kernel

/-- C24, partial: on strings which do not end in `%` and one hexadecimal digit, nothing outside of
the string is read. -/
theorem C24_safe_partial (comp : Bool) (s : List Nat) (h : ¬ Truncated s) :
    decode comp s = .throw ∨ ∃ o, decode comp s = .ok o := by
  rcases decLoop_sound comp (s.length + 1) s [] (by omega) with h1 | ⟨_, h1⟩ | ⟨o, h1, _⟩
  · exact Or.inl h1
  · exact absurd h1 h
  · exact Or.inr ⟨_, h1⟩

/-- C24, partial: on strings without escapes of sequences which only look like UTF-8, the result
is the one of the language, and everything which the language does not decode is refused. -/
theorem C24_strict_partial (comp : Bool) (s : List Nat) (h : ¬ Truncated s) (hb : ¬ HasBad s) :
    (∀ o, decode comp s = .ok o ↔ Decoded comp s o) ∧
    ((¬ ∃ o, Decoded comp s o) → decode comp s = .throw) := by
  have hc : ∀ o, Decoded comp s o → decode comp s = .ok o := fun o ho => by
    rw [decode, decLoop_complete comp ho _ _ (by omega)]; rfl
  rcases decLoop_sound comp (s.length + 1) s [] (by omega) with h1 | ⟨_, h1⟩ | ⟨o, h1, h2⟩
  · refine ⟨fun o => ⟨fun h2 => ?_, hc o⟩, fun _ => h1⟩
    rw [decode, h1] at h2; cases h2
  · exact absurd h1 h
  · have h2 := h2.resolve_right hb
    refine ⟨fun o' => ⟨fun h3 => ?_, hc o'⟩, fun h3 => absurd ⟨o, h2⟩ h3⟩
    rw [decode, h1] at h3
    cases h3
    exact h2

/-- C24.  What the language decodes is decoded, whatever else is true. -/
theorem C24_complete (comp : Bool) (s o : List Nat) (h : Decoded comp s o) :
    decode comp s = .ok o := by
  rw [decode, decLoop_complete comp h _ _ (by omega)]; rfl

/-- "a%20" satisfies the hypotheses and is decoded to "a ". -/
example : ¬ Truncated [97, 37, 50, 48] ∧ ¬ HasBad [97, 37, 50, 48] ∧ decode true [97, 37, 50, 48] = .ok [97, 32] := by
  refine ⟨?_, fun h => absurd (hasBad_length h) (by decide), by decide +kernel⟩
  rintro ⟨a, c, n, h, _⟩
  have hl : a.length = 2 := by have := congrArg List.length h; simp at this; omega
  match a, hl with
  | [x, y], _ => simp at h

end Verif.Uri

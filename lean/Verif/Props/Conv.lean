import Verif.Lemmas.Conv
/-
Property C25: encoding conversion.
-/
namespace Verif.Conv
open Spec
open Uri.Spec (Scalar)

/-- C25 is violated: the conversion to UTF-8 writes past the end of its buffer.  One byte of room
and the character U+00E9 are enough. -/
theorem C25_violated : run .u2le .utf8 [0xe9, 0] 1 = .ub := by decide +kernel

/-- C25 is violated also through `rjs_conv_to_buffer`, which leaves room for as many bytes as the
input has (32 at least): eleven euro signs from UTF-16. -/
theorem C25_violated_buffer :
    toBuffer .u2le .utf8 (encText .u2le (List.replicate 11 0x20ac)) 0 [] = .ub := by
  decide +kernel

/-- C25, partial: a call with any part of a text as input and room for `ol` bytes converts whole
characters, does not write more than the room (except to UTF-8, where the room must be
enough), and stops only at the end of the input, in an incomplete character, or
if there is no room for the next one. -/
theorem C25_run_partial (ein eout : Enc) (us : List Nat) (hus : Text us) (p q : List Nat)
    (hpq : p ++ q = encText ein us) (ol : Nat)
    (hroom : eout ≠ .utf8 ∨ (encText eout us).length ≤ ol) :
    ∃ us1 us2 r code, us = us1 ++ us2 ∧ p = encText ein us1 ++ r ∧
      run ein eout p ol = .done code r (encText eout us1) ∧ (encText eout us1).length ≤ ol ∧
      code ≠ .err ∧
      (r = [] ∨ ∃ u vs, us2 = u :: vs ∧ (r.length < (enc ein u).length ∨
        ol - (encText eout us1).length < (enc eout u).length)) := by
  obtain ⟨us1, us2, r, code, h1, h2, h3, h4, h5⟩ := runLoop_spec ein eout us hus (p.length + 1) p q hpq
    ol [] hroom (by omega)
  refine ⟨us1, us2, r, code, h1, h2, by simpa [run] using h3, h4, ?_, ?_⟩
  · rcases h5 with ⟨_, rfl⟩ | ⟨u, vs, rfl, ⟨_, rfl⟩ | ⟨_, ⟨rfl, _⟩ | rfl⟩⟩ <;> simp
  · rcases h5 with ⟨rfl, _⟩ | ⟨u, vs, rfl, ⟨h, _⟩ | ⟨h, _⟩⟩
    · exact Or.inl rfl
    · exact Or.inr ⟨u, vs, rfl, Or.inl h⟩
    · exact Or.inr ⟨u, vs, rfl, Or.inr h⟩

/-- Conversion in many calls: each call gets what the last one has left, a further part of the
input, and some room.  The outputs and what is left at the end. -/
def stream (ein eout : Enc) : List Nat → List (List Nat × Nat) → Option (List Nat × List Nat)
  | pend, [] => some ([], pend)
  | pend, (c, ol) :: cs =>
    match run ein eout (pend ++ c) ol with
    | .done .err _ _ => none
    | .done _ r o => (stream ein eout r cs).map fun x => (o ++ x.1, x.2)
    | _ => none

/-- C25, partial (not for UTF-8 output): however the text is cut into calls and whatever the room
of each, the outputs together are the conversion of the start of the text, and the rest is
what is left. -/
theorem C25_stream_partial (ein eout : Enc) (he : eout ≠ .utf8) (us : List Nat) (hus : Text us)
    (calls : List (List Nat × Nat)) (h : (calls.map (·.1)).flatten = encText ein us) :
    ∃ us1 us2, us = us1 ++ us2 ∧
      stream ein eout [] calls = some (encText eout us1, encText ein us2) := by
  have key : ∀ (calls : List (List Nat × Nat)) (us pend : List Nat), Text us →
      pend ++ (calls.map (·.1)).flatten = encText ein us →
      ∃ us1 us2, us = us1 ++ us2 ∧
        stream ein eout pend calls = some (encText eout us1, encText ein us2) := by
    intro calls
    induction calls with
    | nil =>
      intro us pend hus h
      exact ⟨[], us, rfl, by simp at h; simp [stream, encText, h]⟩
    | cons c cs ih =>
      obtain ⟨c, ol⟩ := c
      intro us pend hus h
      simp only [List.map_cons, List.flatten_cons] at h
      rw [← List.append_assoc] at h
      obtain ⟨us1, us2, r, code, h1, h2, h3, h4, h5, _⟩ := C25_run_partial ein eout us hus _ _ h ol
        (Or.inl he)
      have hr : r ++ (cs.map (·.1)).flatten = encText ein us2 := by
        rw [h2, h1, encText_append, List.append_assoc] at h
        exact List.append_cancel_left h
      obtain ⟨us3, us4, h6, h7⟩ := ih us2 r (fun u hu => hus u (by rw [h1]; simp [hu])) hr
      refine ⟨us1 ++ us3, us4, by rw [h1, h6]; simp, ?_⟩
      rw [stream, h3]
      cases code with
      | err => exact absurd rfl h5
      | _ => simp [h7, encText_append]
  exact key calls us [] hus (by simpa using h)

/-- C25, partial: `rjs_conv_to_buffer` appends the conversion of the text to the buffer, for all
encodings but UTF-8, and for UTF-8 if the output is not longer than the input. -/
theorem C25_buffer_partial (ein eout : Enc) (us : List Nat) (hus : Text us) (cap : Nat)
    (buf : List Nat) (hcap : buf.length ≤ cap)
    (hroom : eout ≠ .utf8 ∨ (encText eout us).length ≤ (encText ein us).length) :
    toBuffer ein eout (encText ein us) cap buf = .ok (buf ++ encText eout us) := by
  by_cases he : eout = .utf8
  · subst he
    have hlen := hroom.resolve_left (by simp)
    by_cases hs : us = []
    · subst hs; simp [toBuffer, encText, bufLoop]
    · have hpos : 0 < (encText ein us).length :=
        List.length_pos_iff.2 fun h => hs (encText_eq_nil h)
      exact bufLoop_utf8 ein _ us hus cap buf hcap (by omega) hlen
  · exact bufLoop_spec ein eout he _ us hus cap buf false hcap (by simp) (by simp)

/-- C25, partial: there and back gives the same bytes. -/
theorem C25_round_trip_partial (e1 e2 : Enc) (h1 : e1 ≠ .utf8) (us : List Nat) (hus : Text us)
    (h2 : e2 ≠ .utf8 ∨ (encText e2 us).length ≤ (encText e1 us).length) :
    ∃ bs, toBuffer e1 e2 (encText e1 us) 0 [] = .ok bs ∧
      toBuffer e2 e1 bs 0 [] = .ok (encText e1 us) :=
  ⟨encText e2 us, C25_buffer_partial e1 e2 us hus 0 [] (by simp) h2,
    C25_buffer_partial e2 e1 us hus 0 [] (by simp) (Or.inl h1)⟩

/-- C25, partial: with any input, text or not, nothing is written past the end of the buffer
(except to UTF-8; the four byte encodings shift a byte into the sign bit if it is above
127). -/
theorem C25_any_input_partial (ein eout : Enc) (h1 : ein ≠ .u4le) (h2 : ein ≠ .u4be)
    (h3 : eout ≠ .utf8) (s : List Nat) (ol : Nat) :
    ∃ code r out, run ein eout s ol = .done code r out ∧ out.length ≤ ol := by
  obtain ⟨code, r, o, h4, h5⟩ := runLoop_safe h1 h2 h3 (s.length + 1) s ol [] (by omega)
  exact ⟨code, r, o, by simpa [run] using h4, h5⟩

/-- "aé€😀" is a text; from UTF-8 to UTF-16LE with room for 3 bytes, one character is converted. -/
example : Text [97, 0xe9, 0x20ac, 0x1f600] ∧
    run .utf8 .u2le [97, 0xc3, 0xa9] 3 = .done .false [0xc3, 0xa9] [97, 0] ∧
    toBuffer .utf8 .u2be (encText .utf8 [97, 0xe9, 0x20ac, 0x1f600]) 0 [] =
      .ok [0, 97, 0, 0xe9, 0x20, 0xac, 0xd8, 0x3d, 0xde, 0x00] := by
  refine ⟨?_, by decide +kernel, by decide +kernel⟩
  unfold Text Scalar; decide

end Verif.Conv

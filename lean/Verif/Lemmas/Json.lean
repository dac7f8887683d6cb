import Verif.Spec.Json
/-
Helper lemmas for C47 and C48: the lexical analyser accepts only what the loose grammar allows.
-/
namespace Verif.Json
open Spec

variable {F : Type}

/-- The parameters of the grammar. -/
def sem (U : Uni) (L : Lib F) : Sem F := ⟨L.strtod, L.neg, create, U.isWhite, U.isCont⟩

/-! ### Characters -/

theorem codePoints_cons {c : Nat} (h : ¬ (0xd800 ≤ c ∧ c ≤ 0xdbff)) (cs : List Nat) :
    codePoints (c :: cs) = c :: codePoints cs := by
  cases cs with
  | nil => rfl
  | cons d ds => rw [codePoints, if_neg (fun h' => h h'.1)]

theorem lines_cons {c : Nat} (h : c ≠ 13) (cs : List Nat) : lines (c :: cs) = c :: lines cs := by
  cases cs with
  | nil => simp [lines, h]
  | cons d ds => rw [lines, if_neg h]

theorem codePoints_head (d : Nat) (cs : List Nat) :
    ∃ x r, codePoints (d :: cs) = x :: r ∧ (x = 10 → d = 10) := by
  cases cs with
  | nil => exact ⟨d, [], rfl, id⟩
  | cons e es =>
    rw [codePoints]
    split
    · exact ⟨_, _, rfl, fun h => by omega⟩
    · exact ⟨_, _, rfl, id⟩

theorem decode_eq (t : List Nat) : decode t = lines (codePoints t) := by
  fun_induction decode t with
  | case1 => rfl
  | case2 => rfl
  | case3 c => simp [codePoints, lines, *]
  | case4 c d cs h ih =>
    simp only [isLead, isTrail, Bool.and_eq_true, decide_eq_true_eq] at h
    have e : join c d = 0x10000 + (c - 0xd800) * 0x400 + (d - 0xdc00) := by unfold join; omega
    rw [codePoints, if_pos h, lines_cons (by omega), ih, e]
  | case5 cs h1 ih =>
    rw [codePoints_cons (by omega), codePoints_cons (by omega), lines, if_pos rfl, if_pos rfl, ih]
  | case6 d cs h2 h1 ih =>
    rw [codePoints_cons (by omega)]
    obtain ⟨x, r, e, hx⟩ := codePoints_head d cs
    rw [ih, e, lines, if_pos rfl, if_neg (fun h => h2 (hx h))]
  | case7 c d cs h1 h2 ih =>
    rw [codePoints, if_neg (by simpa [isLead, isTrail] using h1), lines_cons h2, ih]

theorem units_eq (c : Nat) : units c = utf16 c := by
  unfold units utf16
  by_cases h : 0xffff < c
  · rw [if_pos h, if_neg (by omega)]
    simp only [Nat.add_comm]
  · rw [if_neg h, if_pos (by omega)]

theorem isLine_iff (c : Nat) : isLine c = true ↔ IsLine c := by
  simp [isLine, IsLine, or_assoc]

theorem isHex_iff (c : Nat) : isHex c = true ↔ IsHex c (hexNum c) := by
  simp only [isHex, isDigit, hexNum, IsHex, Bool.or_eq_true, Bool.and_eq_true, decide_eq_true_eq]
  constructor
  · rintro ((h | h) | h)
    · left; refine ⟨h.1, h.2, ?_⟩; rw [if_neg (by omega), if_neg (by omega)]
    · right; left; refine ⟨h.1, h.2, ?_⟩; rw [if_pos h]; omega
    · right; right; refine ⟨h.1, h.2, ?_⟩; rw [if_neg (by omega), if_pos h]; omega
  · rintro (h | h | h)
    · exact Or.inl (Or.inl ⟨h.1, h.2.1⟩)
    · exact Or.inl (Or.inr ⟨h.1, h.2.1⟩)
    · exact Or.inr ⟨h.1, h.2.1⟩

theorem hexNum_of {c v : Nat} (h : IsHex c v) : isHex c = true ∧ hexNum c = v := by
  simp only [isHex, isDigit, hexNum, Bool.or_eq_true, Bool.and_eq_true, decide_eq_true_eq]
  rcases h with h | h | h
  · refine ⟨Or.inl (Or.inl ⟨h.1, h.2.1⟩), ?_⟩; rw [if_neg (by omega), if_neg (by omega)]; omega
  · refine ⟨Or.inl (Or.inr ⟨h.1, h.2.1⟩), ?_⟩; rw [if_pos ⟨h.1, h.2.1⟩]; omega
  · refine ⟨Or.inr ⟨h.1, h.2.1⟩, ?_⟩; rw [if_neg (by omega), if_pos ⟨h.1, h.2.1⟩]; omega

theorem isDigit_iff (c : Nat) : isDigit c = true ↔ IsDigit c := by
  simp [isDigit, IsDigit]

/-! ### White space -/

/-- What has been skipped. -/
def Skipped (S : Sem F) (cs r : List Nat) : Prop :=
  ∃ w, cs = w ++ r ∧ (Space loose S w ∨
    r = [] ∧ ∃ w' m, w = w' ++ 47 :: 47 :: m ∧ Space loose S w' ∧ ∀ x ∈ m, ¬ IsLine x)

theorem Skipped.cons {S : Sem F} {pre cs r : List Nat} (hp : ∀ w, Space loose S w → Space loose S (pre ++ w))
    (h : Skipped S cs r) : Skipped S (pre ++ cs) r := by
  obtain ⟨w, rfl, h | ⟨h1, w', m, h2, h3, h4⟩⟩ := h
  · exact ⟨pre ++ w, by simp, Or.inl (hp w h)⟩
  · exact ⟨pre ++ w, by simp, Or.inr ⟨h1, pre ++ w', m, by simp [h2], hp w' h3, h4⟩⟩

theorem skip_sound (U : Uni) (L : Lib F) (mode : Mode) (cs : List Nat) : ∀ r, skip U mode cs = some r →
    match mode with
    | .space => Skipped (sem U L) cs r
    | .line => ∀ pre, (∀ x ∈ pre, ¬ IsLine x) → Skipped (sem U L) (47 :: 47 :: (pre ++ cs)) r
    | .block => ∀ pre, Skipped (sem U L) (47 :: 42 :: (pre ++ cs)) r := by
  fun_induction skip U mode cs with
  | case1 => intro r h; cases h; exact ⟨[], rfl, Or.inl .nil⟩
  | case2 cs ih => intro r h; exact ih r h [] (by simp)
  | case3 cs ih => intro r h; exact ih r h []
  | case4 c cs h1 h2 hw ih =>
    intro r h
    exact Skipped.cons (pre := [c]) (fun w hw' => .other trivial hw hw') (ih r h)
  | case5 c cs h1 h2 hw =>
    intro r h; cases h; exact ⟨[], rfl, Or.inl .nil⟩
  | case6 =>
    intro r h pre hp; cases h
    exact ⟨47 :: 47 :: pre, by simp, Or.inr ⟨rfl, [], pre, rfl, .nil, hp⟩⟩
  | case7 c cs hl ih =>
    intro r h pre hp
    have := Skipped.cons (pre := 47 :: 47 :: (pre ++ [c]))
      (fun w hw => by simpa using Space.line (S := sem U L) trivial hp ((isLine_iff c).1 hl) hw) (ih r h)
    simpa using this
  | case8 c cs hl ih =>
    intro r h pre hp
    have := ih r h (pre ++ [c]) (by
      intro x hx
      rcases List.mem_append.1 hx with hx | hx
      · exact hp x hx
      · simp at hx; subst hx; exact fun h => hl ((isLine_iff x).2 h))
    simpa using this
  | case9 => intro r h; cases h
  | case10 cs ih =>
    intro r h pre
    have := Skipped.cons (pre := 47 :: 42 :: (pre ++ [42, 47]))
      (fun w hw => by simpa using Space.block (S := sem U L) (m := pre) trivial hw) (ih r h)
    simpa using this
  | case11 c cs hx ih =>
    intro r h pre
    have := ih r h (pre ++ [c])
    simpa using this

/-! ### Escape sequences -/

theorem hexes_sound {n v : Nat} {cs : List Nat} {bad o rest} (h : hexes n v cs = .done bad o rest) :
    ∃ m, cs = m ++ rest ∧ (∀ c ∈ m, isHex c = true) ∧ m.length ≤ n ∧
      (o ≠ none → m.length = n ∧ bad = false) := by
  induction n generalizing v cs with
  | zero => simp [hexes] at h; exact ⟨[], by simp [h], by simp, by simp, by simp [h]⟩
  | succ n ih =>
    cases cs with
    | nil => simp [hexes] at h; exact ⟨[], by simp [h], by simp, by simp, by simp [← h.2.1]⟩
    | cons c cs =>
      rw [hexes] at h
      split at h
      · obtain ⟨m, h1, h2, h3, h4⟩ := ih h
        refine ⟨c :: m, by simp [h1], ?_, by simp; omega, fun ho => by simp [h4 ho]⟩
        intro x hx
        rcases List.mem_cons.1 hx with rfl | hx
        · assumption
        · exact h2 x hx
      · simp only [Esc.done.injEq] at h
        exact ⟨[], by simp [h], by simp, by simp, fun ho => absurd h.2.1.symm ho⟩

theorem braced_sound {bad : Bool} {o : Option Nat} {cs : List Nat} {bad' o' rest}
    (h : braced bad o cs = .done bad' o' rest) :
    ∃ m, cs = m ++ rest ∧ ∀ c ∈ m, isHex c = true ∨ c = 125 := by
  induction cs generalizing bad o with
  | nil => simp [braced] at h; exact ⟨[], by simp [h], by simp⟩
  | cons c cs ih =>
    rw [braced.eq_def] at h
    simp only at h
    split at h
    · simp only [Esc.done.injEq] at h
      exact ⟨[c], by simp [h], by simp [*]⟩
    · split at h
      · rename_i hx
        have key : ∀ (m : List Nat), (∀ x ∈ m, isHex x = true ∨ x = 125) →
            ∀ x ∈ c :: m, isHex x = true ∨ x = 125 := by
          intro m hm x hx'
          rcases List.mem_cons.1 hx' with rfl | hx'
          · exact Or.inl hx
          · exact hm x hx'
        split at h
        · cases h
        · split at h
          · obtain ⟨m, h1, h2⟩ := ih h; exact ⟨c :: m, by simp [h1], key m h2⟩
          · obtain ⟨m, h1, h2⟩ := ih h; exact ⟨c :: m, by simp [h1], key m h2⟩
      · simp only [Esc.done.injEq] at h
        exact ⟨[], by simp [h], by simp⟩

theorem hexes_four {cs : List Nat} {bad o rest} (h : hexes 4 0 cs = .done bad o rest) :
    (∃ a b c d w x y z, cs = a :: b :: c :: d :: rest ∧ IsHex a w ∧ IsHex b x ∧ IsHex c y ∧ IsHex d z ∧
      o = some (((w * 16 + x) * 16 + y) * 16 + z) ∧ bad = false) ∨
    (o = none ∧ bad = true ∧ ∃ m, cs = m ++ rest ∧ (∀ c ∈ m, isHex c = true) ∧ ¬ FourHex cs) := by
  have e0 : ∀ {c v}, ¬ isHex c = true → ¬ IsHex c v := fun h h' => h (hexNum_of h').1
  rcases cs with _ | ⟨a, cs⟩
  · simp [hexes] at h
    exact Or.inr ⟨h.2.1.symm, h.1, [], by simp [h], by simp, by rintro ⟨_, _, _, _, _, _, _, _, _, h, _⟩; cases h⟩
  by_cases ha : isHex a = true
  rotate_left
  · simp [hexes, ha] at h
    exact Or.inr ⟨h.2.1.symm, h.1, [], by simp [h], by simp, by
      rintro ⟨_, _, _, _, _, _, _, _, _, h, h1, h2, h3, h4⟩; cases h; exact e0 ha h1⟩
  rw [hexes, if_pos ha] at h
  rcases cs with _ | ⟨b, cs⟩
  · simp [hexes] at h
    exact Or.inr ⟨h.2.1.symm, h.1, [a], by simp [h], by simp [ha], by rintro ⟨_, _, _, _, _, _, _, _, _, h, _⟩; cases h⟩
  by_cases hb : isHex b = true
  rotate_left
  · simp [hexes, hb] at h
    exact Or.inr ⟨h.2.1.symm, h.1, [a], by simp [h], by simp [ha], by
      rintro ⟨_, _, _, _, _, _, _, _, _, h, h1, h2, h3, h4⟩; cases h; exact e0 hb h2⟩
  rw [hexes, if_pos hb] at h
  rcases cs with _ | ⟨c, cs⟩
  · simp [hexes] at h
    exact Or.inr ⟨h.2.1.symm, h.1, [a, b], by simp [h], by simp [ha, hb], by rintro ⟨_, _, _, _, _, _, _, _, _, h, _⟩; cases h⟩
  by_cases hc : isHex c = true
  rotate_left
  · simp [hexes, hc] at h
    exact Or.inr ⟨h.2.1.symm, h.1, [a, b], by simp [h], by simp [ha, hb], by
      rintro ⟨_, _, _, _, _, _, _, _, _, h, h1, h2, h3, h4⟩; cases h; exact e0 hc h3⟩
  rw [hexes, if_pos hc] at h
  rcases cs with _ | ⟨d, cs⟩
  · simp [hexes] at h
    exact Or.inr ⟨h.2.1.symm, h.1, [a, b, c], by simp [h], by simp [ha, hb, hc], by rintro ⟨_, _, _, _, _, _, _, _, _, h, _⟩; cases h⟩
  by_cases hd : isHex d = true
  rotate_left
  · simp [hexes, hd] at h
    exact Or.inr ⟨h.2.1.symm, h.1, [a, b, c], by simp [h], by simp [ha, hb, hc], by
      rintro ⟨_, _, _, _, _, _, _, _, _, h, h1, h2, h3, h4⟩; cases h; exact e0 hd h4⟩
  rw [hexes, if_pos hd] at h
  simp only [hexes, Esc.done.injEq] at h
  refine Or.inl ⟨a, b, c, d, _, _, _, _, by rw [h.2.2], (isHex_iff a).1 ha, (isHex_iff b).1 hb, (isHex_iff c).1 hc,
    (isHex_iff d).1 hd, ?_, h.1.symm⟩
  rw [← h.2.1]; simp

theorem unicode_sound {cs : List Nat} {bad o rest} (h : unicode cs = .done bad o rest) :
    (∃ m, cs = 123 :: (m ++ rest) ∧ ∀ c ∈ m, EscChar c) ∨
    (∃ a b c d w x y z, cs = a :: b :: c :: d :: rest ∧ IsHex a w ∧ IsHex b x ∧ IsHex c y ∧ IsHex d z ∧
      o = some (((w * 16 + x) * 16 + y) * 16 + z) ∧ bad = false) ∨
    (o = none ∧ bad = true ∧ ∃ m, cs = m ++ rest ∧ (∀ c ∈ m, EscChar c) ∧ ¬ FourHex cs) := by
  unfold unicode at h
  split at h
  · obtain ⟨m, h1, h2⟩ := braced_sound h
    refine Or.inl ⟨m, by rw [h1], fun c hc => ?_⟩
    rcases h2 c hc with h2 | h2
    · exact Or.inl ⟨_, (isHex_iff c).1 h2⟩
    · exact Or.inr (Or.inr h2)
  · rcases hexes_four h with h | ⟨h1, h2, m, h3, h4, h5⟩
    · exact Or.inr (Or.inl h)
    · exact Or.inr (Or.inr ⟨h1, h2, m, h3, fun c hc => Or.inl ⟨_, (isHex_iff c).1 (h4 c hc)⟩, h5⟩)

theorem not_fourHex_brace (l : List Nat) : ¬ FourHex (123 :: l) := by
  rintro ⟨_, _, _, _, _, _, _, _, _, h, h1, -⟩
  cases h
  unfold IsHex at h1; omega

theorem FourHex.append {l : List Nat} (h : FourHex l) (r : List Nat) : FourHex (l ++ r) := by
  obtain ⟨a, b, c, d, r', w, x, y, z, rfl, h⟩ := h
  exact ⟨a, b, c, d, r' ++ r, w, x, y, z, by simp, h⟩

/-- What an escape sequence adds to a string. -/
def Adds (d : Nat) (ds add rest : List Nat) : Prop :=
  ∃ m, ds = m ++ rest ∧ ∀ q b s r, rest = b ++ q :: r → Chars loose q b s →
    Chars loose q (92 :: d :: (m ++ b)) (add ++ s)

theorem Adds.esc {d v : Nat} (h : Escape d v) (rest : List Nat) : Adds d rest [v] rest :=
  ⟨[], rfl, fun _ _ _ _ _ hs => .esc h hs⟩

theorem Adds.odd {d : Nat} {ds add rest : List Nat} (m : List Nat) (hm : ds = m ++ rest) (h1 : ∀ v, ¬ Escape d v)
    (h2 : ∀ c ∈ m, EscChar c) (h3 : d = 117 → ¬ FourHex ds) : Adds d ds add rest := by
  refine ⟨m, hm, fun q b s r hr hs => .odd trivial ⟨h1, h2, ?_⟩ hs⟩
  rintro ⟨hd, hf⟩
  refine h3 hd ?_
  rw [hm, hr]
  simpa using FourHex.append hf (q :: r)

theorem Adds.uni {ds : List Nat} {bad o rest add} (h : unicode ds = .done bad o rest)
    (hadd : ∀ v, o = some v → add = utf16 v) : Adds 117 ds add rest := by
  have h1 : ∀ v, ¬ Escape 117 v := by intro v; unfold Escape; omega
  rcases unicode_sound h with ⟨m, e, hm⟩ | ⟨a, b, c, d, w, x, y, z, e, ha, hb, hc, hd, ho, -⟩ | ⟨-, -, m, e, hm, h5⟩
  · refine .odd (123 :: m) (by simp [e]) h1 ?_ fun _ => e ▸ not_fourHex_brace _
    intro c hc
    rcases List.mem_cons.1 hc with rfl | hc
    · exact Or.inr (Or.inl rfl)
    · exact hm c hc
  · refine ⟨[a, b, c, d], by simp [e], fun q t s r _ hs => ?_⟩
    rw [hadd _ ho, utf16, if_pos (by unfold IsHex at ha hb hc hd; omega)]
    exact .hex ha hb hc hd hs
  · exact .odd m e h1 hm fun _ => h5

theorem simple_some {c v : Nat} (h : simple c = some v) : Escape c v ∨ ∀ v, ¬ Escape c v := by
  unfold simple at h
  unfold Escape
  repeat' split at h
  all_goals first | cases h | skip
  all_goals first | (left; omega) | (right; omega)

theorem simple_none {c : Nat} (h : simple c = none) :
    c ≠ 98 ∧ c ≠ 102 ∧ c ≠ 110 ∧ c ≠ 114 ∧ c ≠ 116 := by
  unfold simple at h
  repeat' split at h
  all_goals first | cases h | skip
  all_goals omega

theorem simple_ne {c v : Nat} (h : simple c = some v) : c ≠ 117 := by
  rintro rfl; simp [simple] at h

theorem octal_sound (c : Nat) (cs : List Nat) : ∃ m, cs = m ++ (octal (c :: cs)).2 ∧ ∀ x ∈ m, isOctal x = true := by
  rcases cs with _ | ⟨b, _ | ⟨d, cs⟩⟩
  · exact ⟨[], rfl, by simp⟩
  · simp only [octal]
    split
    · exact ⟨[b], rfl, by simpa⟩
    · exact ⟨[], rfl, by simp⟩
  · simp only [octal]
    split
    · rename_i h
      simp only [Bool.and_eq_true] at h
      exact ⟨[b, d], rfl, by simp [h]⟩
    · split
      · exact ⟨[b], rfl, by simpa⟩
      · exact ⟨[], rfl, by simp⟩

theorem escChar_octal {c : Nat} (h : isOctal c = true) : EscChar c := by
  simp only [isOctal, Bool.and_eq_true, decide_eq_true_eq] at h
  exact Or.inl ⟨c - 48, Or.inl (by omega)⟩

theorem adds_other {c : Nat} {cs add : List Nat} (hs : simple c = none) (hu : c ≠ 117)
    (hadd : add = utf16 c ∨ ¬ (c = 34 ∨ c = 92 ∨ c = 47)) : Adds c cs add cs := by
  have hn := simple_none hs
  by_cases hq : c = 34 ∨ c = 92 ∨ c = 47
  · have : add = [c] := by
      rcases hadd with h | h
      · rw [h, utf16, if_pos (by omega)]
      · exact absurd hq h
    rw [this]
    exact .esc (by unfold Escape; omega) cs
  · exact .odd [] rfl (by unfold Escape; intro v; omega) (by simp) fun h => absurd h hu

theorem escape_sound {c : Nat} {cs add rest : List Nat} (h : escape c cs = .done false add rest) :
    Adds c cs add rest := by
  unfold escape at h
  split at h
  · rename_i v hv
    simp only [Piece.done.injEq] at h
    obtain ⟨-, rfl, rfl⟩ := h
    rcases simple_some hv with h | h
    · exact .esc h cs
    · exact .odd [] rfl h (by simp) fun h => absurd h (simple_ne hv)
  rename_i hn
  split at h
  · rename_i hc
    subst hc
    cases hx : hexes 2 0 cs with
    | undef => rw [hx] at h; cases h
    | done bad o r =>
      rw [hx] at h
      obtain ⟨m, h1, h2, -, -⟩ := hexes_sound hx
      cases o with
      | none => simp [Esc.piece] at h
      | some v =>
        simp only [Esc.piece, Piece.done.injEq] at h
        obtain ⟨-, rfl, rfl⟩ := h
        exact .odd m h1 (by unfold Escape; intro v; omega) (fun c hc => Or.inl ⟨_, (isHex_iff c).1 (h2 c hc)⟩)
          (by omega)
  split at h
  · rename_i hc
    subst hc
    cases hx : unicode cs with
    | undef => rw [hx] at h; cases h
    | done bad o r =>
      rw [hx] at h
      cases o with
      | none => simp [Esc.piece] at h
      | some v =>
        simp only [Esc.piece, Piece.done.injEq] at h
        obtain ⟨-, rfl, rfl⟩ := h
        exact .uni hx (by intro v' hv'; cases hv'; exact units_eq v)
  rename_i hc
  split at h
  · rename_i hd
    simp only [isDigit, Bool.and_eq_true, decide_eq_true_eq] at hd
    split at h
    · simp only [Piece.done.injEq] at h
      obtain ⟨-, rfl, rfl⟩ := h
      exact adds_other hn hc (Or.inr (by omega))
    split at h
    · simp only [Piece.done.injEq] at h
      obtain ⟨-, rfl, rfl⟩ := h
      exact adds_other hn hc (Or.inr (by omega))
    · simp only [Piece.done.injEq] at h
      obtain ⟨-, rfl, rfl⟩ := h
      obtain ⟨m, h1, h2⟩ := octal_sound c cs
      exact .odd m h1 (by unfold Escape; intro v; omega) (fun x hx => escChar_octal (h2 x hx)) (by omega)
  split at h
  · rename_i hl
    simp only [Piece.done.injEq] at h
    obtain ⟨-, rfl, rfl⟩ := h
    refine adds_other hn hc (Or.inr ?_)
    rw [isLine_iff] at hl
    unfold IsLine at hl; omega
  · simp only [Piece.done.injEq] at h
    obtain ⟨-, rfl, rfl⟩ := h
    exact adds_other hn hc (Or.inl (units_eq c))

theorem escapeT_sound {c : Nat} {cs add rest : List Nat} {bad : Bool} (h : escapeT c cs = .done bad add rest) :
    Adds c cs add rest := by
  unfold escapeT at h
  split at h
  · rename_i v hv
    simp only [Piece.done.injEq] at h
    obtain ⟨-, rfl, rfl⟩ := h
    rcases simple_some hv with h | h
    · exact .esc h cs
    · exact .odd [] rfl h (by simp) fun h => absurd h (simple_ne hv)
  rename_i hn
  split at h
  · rename_i hc
    subst hc
    cases hx : hexes 2 0 cs with
    | undef => rw [hx] at h; cases h
    | done bad o r =>
      rw [hx] at h
      obtain ⟨m, h1, h2, -, -⟩ := hexes_sound hx
      have : r = rest := by
        cases o <;> simp only [Esc.keep, Piece.done.injEq] at h <;> exact h.2.2
      subst this
      exact .odd m h1 (by unfold Escape; intro v; omega) (fun c hc => Or.inl ⟨_, (isHex_iff c).1 (h2 c hc)⟩)
          (by omega)
  split at h
  · rename_i hc
    subst hc
    cases hx : unicode cs with
    | undef => rw [hx] at h; cases h
    | done bad o r =>
      rw [hx] at h
      cases o with
      | none =>
        simp only [Esc.keep, Piece.done.injEq] at h
        obtain ⟨-, rfl, rfl⟩ := h
        exact .uni hx (by intro v' hv'; cases hv')
      | some v =>
        simp only [Esc.keep, Piece.done.injEq] at h
        obtain ⟨-, rfl, rfl⟩ := h
        exact .uni hx (by intro v' hv'; cases hv'; exact units_eq v)
  rename_i hc
  split at h
  · split at h <;>
    · simp only [Piece.done.injEq] at h
      obtain ⟨-, rfl, rfl⟩ := h
      exact adds_other hn hc (Or.inr (by omega))
  split at h
  · rename_i hd
    simp only [isDigit, Bool.and_eq_true, decide_eq_true_eq] at hd
    simp only [Piece.done.injEq] at h
    obtain ⟨-, rfl, rfl⟩ := h
    exact adds_other hn hc (Or.inr (by omega))
  split at h
  · rename_i hl
    simp only [Piece.done.injEq] at h
    obtain ⟨-, rfl, rfl⟩ := h
    refine adds_other hn hc (Or.inr ?_)
    rw [isLine_iff] at hl
    unfold IsLine at hl; omega
  · simp only [Piece.done.injEq] at h
    obtain ⟨-, rfl, rfl⟩ := h
    exact adds_other hn hc (Or.inl (units_eq c))

/-! ### Strings -/

theorem lexString_sound {q : Nat} {f : Nat} {bad : Bool} {acc cs s rest : List Nat}
    (h : lexString q f bad acc cs = .ok s rest) :
    bad = false ∧ ∃ b s', cs = b ++ q :: rest ∧ s = acc ++ s' ∧ Chars loose q b s' := by
  induction f generalizing bad acc cs with
  | zero => cases h
  | succ f ih =>
    cases cs with
    | nil => cases h
    | cons c cs =>
      rw [lexString.eq_def] at h
      simp only at h
      split at h
      · split at h
        · cases h
        · rename_i hc hb
          cases h
          exact ⟨by simpa using hb, [], [], by simp [hc], by simp, .nil⟩
      · rename_i hcq
        split at h
        · cases h
        split at h
        · rename_i hc
          subst hc
          cases cs with
          | nil => cases h
          | cons d ds =>
            simp only at h
            cases hx : escape d ds with
            | undef => rw [hx] at h; cases h
            | done b add r =>
              rw [hx] at h
              simp only at h
              obtain ⟨h1, b', s', h2, h3, h4⟩ := ih h
              simp only [Bool.or_eq_false_iff] at h1
              obtain ⟨h1, rfl⟩ := h1
              obtain ⟨m, h5, h6⟩ := escape_sound hx
              exact ⟨h1, 92 :: d :: (m ++ b'), add ++ s', by simp [h5, h2], by simp [h3], h6 q b' s' rest h2 h4⟩
        · rename_i hc
          obtain ⟨h1, b', s', h2, h3, h4⟩ := ih h
          refine ⟨h1, c :: b', utf16 c ++ s', by simp [h2], by simp [h3, units_eq], .raw hcq hc (Or.inr trivial) h4⟩

theorem lexTemplate_sound {f : Nat} {acc cs s rest : List Nat} (h : lexTemplate f acc cs = .ok s rest) :
    ∃ b s', cs = b ++ 96 :: rest ∧ s = acc ++ s' ∧ Chars loose 96 b s' := by
  induction f generalizing acc cs with
  | zero => cases h
  | succ f ih =>
    cases cs with
    | nil => cases h
    | cons c cs =>
      rw [lexTemplate.eq_def] at h
      simp only at h
      split at h
      · rename_i hc
        cases h
        exact ⟨[], [], by simp [hc], by simp, .nil⟩
      · rename_i hcq
        split at h
        · rename_i hc
          subst hc
          cases cs with
          | nil => cases h
          | cons d ds =>
            simp only at h
            cases hx : escapeT d ds with
            | undef => rw [hx] at h; cases h
            | done b add r =>
              rw [hx] at h
              simp only at h
              obtain ⟨b', s', h2, h3, h4⟩ := ih h
              obtain ⟨m, h5, h6⟩ := escapeT_sound hx
              exact ⟨92 :: d :: (m ++ b'), add ++ s', by simp [h5, h2], by simp [h3], h6 96 b' s' rest h2 h4⟩
        · rename_i hc
          obtain ⟨b', s', h2, h3, h4⟩ := ih h
          exact ⟨c :: b', utf16 c ++ s', by simp [h2], by simp [h3, units_eq], .raw hcq hc (Or.inr trivial) h4⟩

end Verif.Json

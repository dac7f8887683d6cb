import Verif.Lemmas.JsonComplete
/-
Lemmas for C48: a JSON text remains one when the ends of lines become line feeds.
-/
namespace Verif.Json

open Spec

variable {F : Type}

theorem lines_append {b : List Nat} (hb : ∀ c ∈ b.head?, c ≠ 10) (a : List Nat) :
    lines (a ++ b) = lines a ++ lines b := by
  fun_induction lines a with
  | case1 => rfl
  | case2 =>
    cases b with
    | nil => rfl
    | cons d b =>
      have : d ≠ 10 := hb d (by simp)
      simp [lines, this]
  | case3 c h =>
    rw [List.singleton_append, lines_cons h]; rfl
  | case4 cs ih => simp [lines, ih]
  | case5 d cs hd ih =>
    rw [List.cons_append] at ih
    simp [lines, hd, ih]
  | case6 c d cs hc ih =>
    rw [List.cons_append, lines_cons hc, ih]; rfl

theorem lines_fixed {a : List Nat} (h : 13 ∉ a) (b : List Nat) : lines (a ++ b) = a ++ lines b := by
  induction a with
  | nil => rfl
  | cons c a ih =>
    simp only [List.mem_cons, not_or] at h
    rw [List.cons_append, lines_cons (fun e => h.1 e.symm), ih h.2]; rfl

/-- Texts of tokens. -/
def Clean (t : List Nat) : Prop := t ≠ [] ∧ 13 ∉ t ∧ 10 ∉ t

theorem lines_clean {t : List Nat} (h : Clean t) (w r : List Nat) :
    lines (w ++ (t ++ r)) = lines w ++ (t ++ lines r) := by
  rw [lines_append, lines_fixed h.2.1]
  obtain ⟨hn, -, h⟩ := h
  cases t with
  | nil => exact absurd rfl hn
  | cons c t =>
    simp only [List.cons_append, List.head?_cons, Option.mem_some_iff]
    rintro x rfl rfl
    exact h (by simp)

theorem lines_mem {c : Nat} {w : List Nat} (h : c ∈ lines w) : c ∈ w ∨ c = 10 := by
  fun_induction lines w with
  | case1 => cases h
  | case2 => right; simpa using h
  | case3 => left; exact h
  | case4 cs ih =>
    rcases List.mem_cons.1 h with h | h
    · exact Or.inr h
    · rcases ih h with h | h
      · left; simp [h]
      · exact Or.inr h
  | case5 d cs hd ih =>
    rcases List.mem_cons.1 h with h | h
    · exact Or.inr h
    · rcases ih h with h | h
      · left; exact List.mem_cons_of_mem _ h
      · exact Or.inr h
  | case6 c' d cs hc ih =>
    rcases List.mem_cons.1 h with h | h
    · left; simp [h]
    · rcases ih h with h | h
      · left; exact List.mem_cons_of_mem _ h
      · exact Or.inr h

theorem space_iff {S : Sem F} {w : List Nat} : Space strict S w ↔ ∀ c ∈ w, IsSpace c := by
  constructor
  · intro h
    induction h with
    | nil => simp
    | char hc _ ih =>
      intro c h
      rcases List.mem_cons.1 h with rfl | h
      · exact hc
      · exact ih c h
    | other h => exact h.elim
    | line h => exact h.elim
    | block h => exact h.elim
  · intro h
    induction w with
    | nil => exact .nil
    | cons c w ih => exact .char (h c (by simp)) (ih fun x hx => h x (by simp [hx]))

theorem Space.lines {S : Sem F} {w : List Nat} (h : Space strict S w) : Space strict S (Spec.lines w) := by
  rw [space_iff] at h ⊢
  intro c hc
  rcases lines_mem hc with hc | rfl
  · exact h c hc
  · unfold IsSpace; omega

theorem Chars.clean {b s : List Nat} (h : Chars strict 34 b s) : 13 ∉ b ∧ 10 ∉ b := by
  induction h with
  | nil => simp
  | @raw c t s h1 h2 h3 _ ih =>
    have h3 : 32 ≤ c := h3.elim id False.elim
    simp only [List.mem_cons, not_or]
    exact ⟨⟨by omega, ih.1⟩, ⟨by omega, ih.2⟩⟩
  | @esc e v t s h _ ih =>
    unfold Escape at h
    simp only [List.mem_cons, not_or]
    exact ⟨⟨by omega, by omega, ih.1⟩, ⟨by omega, by omega, ih.2⟩⟩
  | hex ha hb hc hd _ ih =>
    unfold IsHex at ha hb hc hd
    simp only [List.mem_cons, not_or]
    exact ⟨⟨by omega, by omega, by omega, by omega, by omega, by omega, ih.1⟩,
      ⟨by omega, by omega, by omega, by omega, by omega, by omega, ih.2⟩⟩
  | odd h => exact h.elim

theorem Str.clean {t s : List Nat} (h : Str strict t s) : Clean t := by
  obtain ⟨q, b, rfl, rfl | ⟨h, -⟩, hb⟩ := h
  · obtain ⟨h1, h2⟩ := Chars.clean hb
    exact ⟨by simp, by simp [h1], by simp [h2]⟩
  · exact h.elim

theorem number_clean {t : List Nat} (h : IsNumber t) : Clean t := by
  have hc := number_chars h
  unfold IsDigit at hc
  obtain ⟨c, r, rfl, -⟩ := isNumber_ne_nil h
  exact ⟨by simp, fun h => by have := hc 13 h; omega, fun h => by have := hc 10 h; omega⟩

theorem literal_clean {t : List Nat} {v : Val F} (h : Literal t v) : Clean t := by
  rcases h with ⟨rfl, -⟩ | ⟨rfl, -⟩ | ⟨rfl, -⟩ <;> exact ⟨by simp, by decide, by decide⟩

theorem clean_one {c : Nat} (h : 14 ≤ c) : Clean [c] := ⟨by simp, by simp; omega, by simp; omega⟩

theorem lines_one {c : Nat} (h : 14 ≤ c) (w r : List Nat) : lines (w ++ c :: r) = lines w ++ c :: lines r :=
  lines_clean (clean_one h) w r

theorem G.lines {S : Sem F} {k : Kind F} {t : List Nat} {v : Val F} (h : G strict S k t v) :
    G strict S k (Spec.lines t) v ∧ ∀ r, Spec.lines (t ++ r) = Spec.lines t ++ Spec.lines r := by
  induction h with
  | @literal w t v hw ht =>
    have h := lines_clean (literal_clean ht) w
    have h0 := h []
    simp only [List.append_nil, Spec.lines] at h0
    refine ⟨h0 ▸ .literal (Space.lines hw) ht, fun r => ?_⟩
    rw [List.append_assoc, h, h0, List.append_assoc]
  | spelled h => exact h.elim
  | word h => exact h.elim
  | @str w t s hw ht =>
    have h := lines_clean (Str.clean ht) w
    have h0 := h []
    simp only [List.append_nil, Spec.lines] at h0
    refine ⟨h0 ▸ .str (Space.lines hw) ht, fun r => ?_⟩
    rw [List.append_assoc, h, h0, List.append_assoc]
  | @num w t v hw ht =>
    have hn : IsNumber t := ht.elim (fun h => h.1) fun h => h.1.elim
    have h := lines_clean (number_clean hn) w
    have h0 := h []
    simp only [List.append_nil, Spec.lines] at h0
    refine ⟨h0 ▸ .num (Space.lines hw) ht, fun r => ?_⟩
    rw [List.append_assoc, h, h0, List.append_assoc]
  | @neg w t hw hn =>
    have h : ∀ r, Spec.lines (w ++ 45 :: (t ++ r)) = Spec.lines w ++ 45 :: (t ++ Spec.lines r) := by
      intro r
      rw [lines_one (by decide), lines_fixed (number_clean hn).2.1]
    have h0 := h []
    simp only [List.append_nil, Spec.lines] at h0
    refine ⟨h0 ▸ .neg (Space.lines hw) hn, fun r => ?_⟩
    rw [List.append_assoc, List.cons_append, h, h0, List.append_assoc, List.cons_append]
  | sign h => exact h.elim
  | @arr w t v hw _ ih =>
    refine ⟨by rw [lines_one (by decide)]; exact .arr (Space.lines hw) ih.1, fun r => ?_⟩
    rw [List.append_assoc, List.cons_append, lines_one (by decide), ih.2, lines_one (by decide)]
    simp
  | @obj w t v hw _ ih =>
    refine ⟨by rw [lines_one (by decide)]; exact .obj (Space.lines hw) ih.1, fun r => ?_⟩
    rw [List.append_assoc, List.cons_append, lines_one (by decide), ih.2, lines_one (by decide)]
    simp
  | @itemsClose first acc w hf hw =>
    refine ⟨by rw [lines_one (by decide)]; exact .itemsClose hf (Space.lines hw), fun r => ?_⟩
    rw [List.append_assoc, List.singleton_append, lines_one (by decide), lines_one (by decide)]
    simp [Spec.lines]
  | @itemsLast first acc a v w _ hw ih =>
    refine ⟨by rw [ih.2, lines_one (by decide)]; exact .itemsLast ih.1 (Space.lines hw), fun r => ?_⟩
    rw [List.append_assoc, List.append_assoc, List.singleton_append, ih.2, lines_one (by decide), ih.2,
      lines_one (by decide)]
    simp [Spec.lines]
  | @itemsCons first acc a v w b u _ hw _ ih ihb =>
    refine ⟨by rw [ih.2, lines_one (by decide)]; exact .itemsCons ih.1 (Space.lines hw) ihb.1, fun r => ?_⟩
    rw [List.append_assoc, List.append_assoc, List.cons_append, ih.2, lines_one (by decide), ihb.2, ih.2,
      lines_one (by decide)]
    simp
  | @membersClose first acc w hf hw =>
    refine ⟨by rw [lines_one (by decide)]; exact .membersClose hf (Space.lines hw), fun r => ?_⟩
    rw [List.append_assoc, List.singleton_append, lines_one (by decide), lines_one (by decide)]
    simp [Spec.lines]
  | @membersLast first acc w k s w' a v w'' hw hk hw' _ hw'' ih =>
    have hc : Clean k := hk.elim Str.clean (fun h => h.1.elim)
    have h : ∀ r, Spec.lines (w ++ (k ++ (w' ++ 58 :: (a ++ (w'' ++ 125 :: r))))) =
        Spec.lines w ++ (k ++ (Spec.lines w' ++ 58 :: (Spec.lines a ++ (Spec.lines w'' ++ 125 :: Spec.lines r)))) := by
      intro r
      rw [lines_clean hc, lines_one (by decide), ih.2, lines_one (by decide)]
    have h0 := h []
    simp only [Spec.lines] at h0
    refine ⟨h0 ▸ .membersLast (Space.lines hw) hk (Space.lines hw') ih.1 (Space.lines hw''), fun r => ?_⟩
    have := h r
    rw [h0]
    simpa using this
  | @membersCons first acc w k s w' a v w'' b u hw hk hw' _ hw'' _ ih ihb =>
    have hc : Clean k := hk.elim Str.clean (fun h => h.1.elim)
    have h : ∀ r, Spec.lines (w ++ (k ++ (w' ++ 58 :: (a ++ (w'' ++ 44 :: (b ++ r)))))) =
        Spec.lines w ++ (k ++ (Spec.lines w' ++ 58 :: (Spec.lines a ++ (Spec.lines w'' ++ 44 :: (Spec.lines b ++ Spec.lines r))))) := by
      intro r
      rw [lines_clean hc, lines_one (by decide), ih.2, lines_one (by decide), ihb.2]
    have h0 := h []
    simp only [Spec.lines, List.append_nil] at h0
    refine ⟨h0 ▸ .membersCons (Space.lines hw) hk (Space.lines hw') ih.1 (Space.lines hw'') ihb.1, fun r => ?_⟩
    have := h r
    rw [h0]
    simpa using this

theorem Text.lines {S : Sem F} {t : List Nat} {v : Val F} (h : Text strict S t v) : Text strict S (Spec.lines t) v := by
  obtain ⟨a, w, rfl, ha, hw | ⟨h, -⟩⟩ := h
  · obtain ⟨h1, h2⟩ := G.lines ha
    exact ⟨Spec.lines a, Spec.lines w, h2 w, h1, Or.inl (Space.lines hw)⟩
  · exact h.elim

/-- Every JSON text is accepted, with its value. -/
theorem parse_complete {U : Uni} {L : Lib F} {text : List Nat} {v : Val F}
    (h : Text strict (sem U L) (codePoints text) v) : parse U L text = .ok v := by
  obtain ⟨a, w, hd, ha, hw | ⟨h, -⟩⟩ := Text.lines h
  · rw [← decode_eq] at hd
    have hs : Sep w := by simpa using Sep.space hw Sep.nil
    have h1 := (complete U L ha w hs).1 (2 * (decode text).length + 1) (by rw [hd, List.length_append]; omega)
    have h2 : token U L w = .ok .eof [] := by
      have := skip_complete U hw (r := []) (by simp)
      rw [List.append_nil] at this
      rw [token, this]
      rfl
    rw [parse, hd]
    rw [hd] at h1
    rw [h1]
    simp only [h2]
  · exact h.elim

end Verif.Json

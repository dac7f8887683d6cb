import Verif.Lemmas.JsonLines
/-
Lemmas for C48: texts which are not JSON.
-/
namespace Verif.Json

open Spec

variable {F : Type}

/-- The beginning of a value. -/
theorem value_inv {S : Sem F} {c : Nat} {cs : List Nat} {v : Val F} (h : G strict S .value (c :: cs) v)
    (hc : ¬ IsSpace c) :
    Literal (c :: cs) v ∨ (c = 34 ∧ ∃ s, Str strict (c :: cs) s) ∨ IsNumber (c :: cs) ∨ (c = 45 ∧ IsNumber cs) ∨
      (c = 91 ∧ G strict S (.items true []) cs v) ∨ (c = 123 ∧ G strict S (.members true []) cs v) := by
  generalize ht : c :: cs = t at h
  have nil : ∀ {w t : List Nat}, Space strict S w → c :: cs = w ++ t → w = [] := by
    intro w t hw h
    cases w with
    | nil => rfl
    | cons x w =>
      injection h with h1 h2
      exact absurd (space_iff.1 hw x (by simp)) (h1 ▸ hc)
  cases h with
  | literal hw h => cases nil hw ht; exact Or.inl (by simpa using h)
  | spelled h => exact h.elim
  | word h => exact h.elim
  | str hw h =>
    cases nil hw ht
    rw [List.nil_append] at ht ⊢
    refine Or.inr (Or.inl ⟨?_, _, h⟩)
    obtain ⟨q, b, rfl, rfl | ⟨h, -⟩, -⟩ := h
    · injection ht
    · exact h.elim
  | num hw h =>
    cases nil hw ht
    exact Or.inr (Or.inr (Or.inl (h.elim (fun h => h.1) fun h => h.1.elim)))
  | neg hw h =>
    cases nil hw ht
    cases ht
    exact Or.inr (Or.inr (Or.inr (Or.inl ⟨rfl, h⟩)))
  | sign h => exact h.elim
  | arr hw h =>
    cases nil hw ht
    cases ht
    exact Or.inr (Or.inr (Or.inr (Or.inr (Or.inl ⟨rfl, h⟩))))
  | obj hw h =>
    cases nil hw ht
    cases ht
    exact Or.inr (Or.inr (Or.inr (Or.inr (Or.inr ⟨rfl, h⟩))))

theorem text_inv {S : Sem F} {t : List Nat} {c : Nat} {v : Val F} (h : Text strict S (t ++ [c]) v)
    (hc : ¬ IsSpace c) : G strict S .value (t ++ [c]) v := by
  obtain ⟨a, w, h1, h2, h3 | ⟨h, -⟩⟩ := h
  · rcases List.eq_nil_or_concat w with rfl | ⟨w', x, rfl⟩
    · rw [h1, List.append_nil]; exact h2
    · rw [List.concat_eq_append, ← List.append_assoc] at h1
      have := (List.append_inj' h1 rfl).2
      injection this with this
      subst this
      exact absurd (space_iff.1 h3 c (by simp)) hc
  · exact h.elim

/-- The first character of a value. -/
theorem value_first {S : Sem F} {c : Nat} {cs : List Nat} {v : Val F} (h : G strict S .value (c :: cs) v)
    (hc : ¬ IsSpace c) :
    c = 110 ∨ c = 116 ∨ c = 102 ∨ c = 34 ∨ IsDigit c ∨ c = 45 ∨ c = 91 ∨ c = 123 := by
  rcases value_inv h hc with h | ⟨h, -⟩ | h | ⟨h, -⟩ | ⟨h, -⟩ | ⟨h, -⟩
  · rcases h with ⟨h, -⟩ | ⟨h, -⟩ | ⟨h, -⟩ <;> injection h with h <;> omega
  · omega
  · obtain ⟨d, r, he, hd⟩ := isNumber_ne_nil h
    cases he
    exact Or.inr (Or.inr (Or.inr (Or.inr (Or.inl hd))))
  all_goals omega

/-- The last character of a value is not a comma. -/
theorem value_last {S : Sem F} {k : Kind F} {t : List Nat} {v : Val F} (h : G strict S k t v) :
    ∀ a, t ≠ a ++ [44] := by
  have app : ∀ (w x : List Nat), x ≠ [] → (∀ a, x ≠ a ++ [44]) → ∀ a, w ++ x ≠ a ++ [44] := by
    intro w x hx h a he
    rcases List.eq_nil_or_concat x with rfl | ⟨y, c, rfl⟩
    · exact hx rfl
    · rw [List.concat_eq_append, ← List.append_assoc] at he
      have := (List.append_inj' he rfl).2
      exact h y (by rw [List.concat_eq_append, this])
  have mem : ∀ x : List Nat, 44 ∉ x → ∀ a, x ≠ a ++ [44] := by
    rintro x h a rfl
    exact h (by simp)
  have num : ∀ {t}, IsNumber t → 44 ∉ t := by
    intro t h hm
    have := number_chars h 44 hm
    unfold IsDigit at this; omega
  induction h with
  | literal _ h =>
    refine app _ _ (literal_alpha h).1 (mem _ ?_)
    intro hm
    have := (literal_alpha h).2 44 hm
    simp [isAlpha] at this
  | spelled h => exact h.elim
  | word h => exact h.elim
  | str _ h =>
    refine app _ _ (Str.ne_nil h) ?_
    obtain ⟨q, b, rfl, rfl | ⟨h, -⟩, -⟩ := h
    · exact app [34] (b ++ [34]) (by simp) (app b [34] (by simp) (mem _ (by simp)))
    · exact h.elim
  | num _ h => exact app _ _ (Number.ne_nil h) (mem _ (num (h.elim (fun h => h.1) fun h => h.1.elim)))
  | neg _ h => exact app _ _ (by simp) (mem _ (by simp [num h]))
  | sign h => exact h.elim
  | @arr w t _ _ h ih => exact app _ _ (by simp) (app [91] t (G.ne_nil h) ih)
  | @obj w t _ _ h ih => exact app _ _ (by simp) (app [123] t (G.ne_nil h) ih)
  | itemsClose => exact app _ _ (by simp) (mem _ (by simp))
  | itemsLast => exact app _ _ (by simp) (app _ _ (by simp) (mem _ (by simp)))
  | @itemsCons _ _ _ _ _ b _ _ _ h _ ih => exact app _ _ (by simp) (app _ _ (by simp) (app [44] b (G.ne_nil h) ih))
  | membersClose => exact app _ _ (by simp) (mem _ (by simp))
  | membersLast =>
    exact app _ _ (by simp) (app _ _ (by simp) (app _ _ (by simp) (app [58] _ (by simp) (app _ _ (by simp)
      (app _ _ (by simp) (mem _ (by simp)))))))
  | @membersCons _ _ _ _ _ _ _ _ _ b _ _ _ _ _ _ h _ ih =>
    exact app _ _ (by simp) (app _ _ (by simp) (app _ _ (by simp) (app [58] _ (by simp) (app _ _ (by simp)
      (app _ _ (by simp) (app [44] b (G.ne_nil h) ih))))))

/-- `[1,]` -/
theorem not_strict_comma {S : Sem F} (v : Val F) : ¬ Text strict S [91, 49, 44, 93] v := by
  intro h
  have h : G strict S .value [91, 49, 44, 93] v := text_inv (t := [91, 49, 44]) h (by unfold IsSpace; omega)
  rcases value_inv h (by unfold IsSpace; omega) with h | ⟨h, -⟩ | h | ⟨h, -⟩ | ⟨-, h⟩ | ⟨h, -⟩
  · rcases h with ⟨h, -⟩ | ⟨h, -⟩ | ⟨h, -⟩ <;> cases h
  · omega
  · obtain ⟨d, r, he, hd⟩ := isNumber_ne_nil h
    cases he; unfold IsDigit at hd; omega
  · omega
  · generalize ht : [49, 44, 93] = t at h
    generalize hk : Kind.items true [] = k at h
    cases h with
    | itemsClose _ hw =>
      rename_i w
      have := (List.append_inj' (s₁ := [49, 44]) (t₁ := [93]) ht rfl).1
      have := space_iff.1 hw 49 (by rw [← this]; simp)
      unfold IsSpace at this; omega
    | @itemsLast _ _ a _ w ha hw =>
      rw [← List.append_assoc] at ht
      have ht := (List.append_inj' (s₁ := [49, 44]) (t₁ := [93]) ht rfl).1
      rcases List.eq_nil_or_concat w with rfl | ⟨w', x, rfl⟩
      · exact value_last ha [49] (by simpa using ht.symm)
      · rw [List.concat_eq_append, ← List.append_assoc] at ht
        have := (List.append_inj' (s₁ := [49]) (t₁ := [44]) ht rfl).2
        injection this with this
        have := space_iff.1 hw 44 (by simp [← this])
        unfold IsSpace at this; omega
    | @itemsCons _ _ a _ w b _ ha hw hb =>
      rw [← List.append_assoc] at ht
      obtain ⟨-, hb'⟩ := split_unique (x := 44) (a := [49]) (b := [93]) (c := a ++ w) (d := b) (by simpa using ht)
        (by simp) (by simp)
      subst hb'
      generalize ht' : [93] = t at hb
      generalize hk' : Kind.items false _ = k at hb
      cases hb with
      | itemsClose hf _ =>
        injection hk' with h1 h2
        rcases hf with hf | hf
        · rw [hf] at h1; cases h1
        · exact hf
      | itemsLast ha _ =>
        rw [← List.append_assoc] at ht'
        have he := (List.append_inj' (s₁ := []) (t₁ := [93]) ht' rfl).1
        exact G.ne_nil ha (List.append_eq_nil_iff.1 he.symm).1
      | itemsCons =>
        have : (44 : Nat) ∈ [93] := by rw [ht']; simp
        simp at this
      | _ => cases hk'
    | _ => cases hk
  · omega

/-- `{a:1}` -/
theorem not_strict_key {S : Sem F} (v : Val F) : ¬ Text strict S [123, 97, 58, 49, 125] v := by
  intro h
  have h : G strict S .value [123, 97, 58, 49, 125] v := text_inv (t := [123, 97, 58, 49]) h (by unfold IsSpace; omega)
  rcases value_inv h (by unfold IsSpace; omega) with h | ⟨h, -⟩ | h | ⟨h, -⟩ | ⟨h, -⟩ | ⟨-, h⟩
  · rcases h with ⟨h, -⟩ | ⟨h, -⟩ | ⟨h, -⟩ <;> cases h
  · omega
  · obtain ⟨d, r, he, hd⟩ := isNumber_ne_nil h
    cases he; unfold IsDigit at hd; omega
  · omega
  · omega
  · have key : ∀ w k r s, Space strict S w → [97, 58, 49, 125] = w ++ (k ++ r) →
        (Str strict k s ∨ strict .key ∧ k ≠ [] ∧ Name strict S k s) → False := by
      intro w k r s hw ht hk
      obtain ⟨q, b, rfl, rfl | ⟨h, -⟩, -⟩ := hk.elim id fun h => h.1.elim
      · cases w with
        | nil => simp at ht
        | cons x w =>
          injection ht with h1 h2
          have := space_iff.1 hw x (by simp)
          unfold IsSpace at this; omega
      · exact h
    generalize ht : [97, 58, 49, 125] = t at h
    generalize hk : Kind.members true [] = k at h
    cases h with
    | membersClose _ hw =>
      have := (List.append_inj' (s₁ := [97, 58, 49]) (t₁ := [125]) ht rfl).1
      have := space_iff.1 hw 97 (by rw [← this]; simp)
      unfold IsSpace at this; omega
    | membersLast hw hk' => exact key _ _ _ _ hw ht hk'
    | membersCons hw hk' => exact key _ _ _ _ hw ht hk'
    | _ => cases hk

theorem not_strict_first {S : Sem F} {c : Nat} {cs : List Nat} {l : Nat}
    (hc : ¬ IsSpace c ∧ ¬ (c = 110 ∨ c = 116 ∨ c = 102 ∨ c = 34 ∨ IsDigit c ∨ c = 45 ∨ c = 91 ∨ c = 123))
    (hl : ¬ IsSpace l) (v : Val F) : ¬ Text strict S (c :: (cs ++ [l])) v := by
  intro h
  have h := text_inv (t := c :: cs) h hl
  exact hc.2 (value_first h hc.1)

/-- A string which is not one of JSON. -/
theorem not_strict_str {S : Sem F} {cs : List Nat} (hb : ∀ s, ¬ Chars strict 34 cs s) (v : Val F) :
    ¬ Text strict S (34 :: (cs ++ [34])) v := by
  intro h
  have h := text_inv (t := 34 :: cs) h (by unfold IsSpace; omega)
  rcases value_inv h (by unfold IsSpace; omega) with h | ⟨-, s, h⟩ | h | ⟨h, -⟩ | ⟨h, -⟩ | ⟨h, -⟩
  · rcases h with ⟨h, -⟩ | ⟨h, -⟩ | ⟨h, -⟩ <;> (injection h with h; omega)
  · obtain ⟨q, b, he, hq, hs⟩ := h
    injection he with h1 h2
    subst h1
    have := (List.append_inj' h2 rfl).1
    subst this
    exact hb s hs
  · obtain ⟨d, r, he, hd⟩ := isNumber_ne_nil h
    cases he; unfold IsDigit at hd; omega
  all_goals omega

theorem no_tab (s : List Nat) : ¬ Chars strict 34 [9] s := by
  intro h
  cases h with
  | raw _ _ h => exact h.elim (by omega) id

theorem no_hex (s : List Nat) : ¬ Chars strict 34 [92, 120, 52, 49] s := by
  intro h
  generalize ht : [92, 120, 52, 49] = t at h
  cases h with
  | nil => cases ht
  | raw _ h => injection ht with h1; exact h h1.symm
  | esc h =>
    injection ht with _ h2
    injection h2 with h1
    unfold Escape at h; omega
  | hex => injection ht with _ h2; injection h2 with h1; omega
  | odd h => exact h

/-- A numeral which is not one of JSON. -/
theorem not_strict_number {S : Sem F} {t : List Nat} {l : Nat} (ht : OddNumber (t ++ [l])) (hl : ¬ IsSpace l) (v : Val F) :
    ¬ Text strict S (t ++ [l]) v := by
  intro h
  have h := text_inv h hl
  have hn := odd_not_number ht
  obtain ⟨-, hs, -⟩ := ht
  generalize t ++ [l] = t at *
  rcases hs with ⟨r, rfl⟩ | ⟨d, r, hd, rfl⟩
  · have := value_first h (by unfold IsSpace; omega)
    unfold IsDigit at this; omega
  · unfold IsDigit at hd
    rcases value_inv h (by unfold IsSpace; omega) with h | ⟨h, -⟩ | h | ⟨h, -⟩ | ⟨h, -⟩ | ⟨h, -⟩
    · rcases h with ⟨h, -⟩ | ⟨h, -⟩ | ⟨h, -⟩ <;> (injection h with h; omega)
    · omega
    · exact hn h
    all_goals omega

end Verif.Json

import Verif.Lemmas.JsonNum
/-
Lemmas for C48: names, tokens, and the texts the parser accepts.
-/
namespace Verif.Json

open Spec

variable {F : Type}

/-! ### Names -/

theorem unicode_chars {cs : List Nat} {bad o rest} (h : unicode cs = .done bad o rest) :
    ∃ m, cs = m ++ rest ∧ ∀ c ∈ m, EscChar c := by
  rcases unicode_sound h with ⟨m, e, hm⟩ | ⟨a, b, c, d, w, x, y, z, e, ha, hb, hc, hd, -⟩ | ⟨-, -, m, e, hm, -⟩
  · refine ⟨123 :: m, e, fun c hc => ?_⟩
    rcases List.mem_cons.1 hc with rfl | hc
    · exact Or.inr (Or.inl rfl)
    · exact hm c hc
  · refine ⟨[a, b, c, d], e, fun c' hc' => Or.inl ?_⟩
    simp only [List.mem_cons, List.not_mem_nil, or_false] at hc'
    rcases hc' with rfl | rfl | rfl | rfl
    · exact ⟨_, ha⟩
    · exact ⟨_, hb⟩
    · exact ⟨_, hc⟩
    · exact ⟨_, hd⟩
  · exact ⟨m, e, hm⟩

theorem identLoop_sound {U : Uni} {L : Lib F} {f : Nat} {bad : Bool} {acc cs s rest : List Nat}
    (h : identLoop U f bad acc cs = .ok s rest) :
    ∃ t s', cs = t ++ rest ∧ s = acc ++ s' ∧ Name loose (sem U L) t s' := by
  induction f generalizing bad acc cs with
  | zero => cases h
  | succ f ih =>
    have base : ∀ {cs}, (if bad = true then Out.err else .ok acc cs) = .ok s rest →
        ∃ t s', cs = t ++ rest ∧ s = acc ++ s' ∧ Name loose (sem U L) t s' := by
      intro cs h
      split at h
      · cases h
      · cases h
        exact ⟨[], [], rfl, by simp, .nil⟩
    cases cs with
    | nil => exact base h
    | cons c cs =>
      rw [identLoop.eq_def] at h
      simp only at h
      split at h
      · rename_i hc
        subst hc
        split at h
        · rename_i ds
          split at h
          · cases h
          · cases h
          · rename_i b v r hx
            split at h
            · obtain ⟨t, s', h1, h2, h3⟩ := ih h
              obtain ⟨m, h4, h5⟩ := unicode_chars hx
              exact ⟨92 :: 117 :: (m ++ t), utf16 v ++ s', by simp [h4, h1], by simp [h2, units_eq],
                .esc trivial h5 h3⟩
            · cases h
        · exact base h
      · split at h
        · rename_i hc
          obtain ⟨t, s', h1, h2, h3⟩ := ih h
          exact ⟨c :: t, utf16 c ++ s', by simp [h1], by simp [h2, units_eq], .raw hc h3⟩
        · exact base h

theorem isCont_of_start {U : Uni} {c : Nat} (h : U.isStart c = true) : U.isCont c = true := by
  unfold Uni.isStart at h
  unfold Uni.isCont
  split
  · rename_i hc
    rw [if_pos hc] at h
    simp only [Bool.or_eq_true] at h ⊢
    rcases h with (h | h) | h
    · exact Or.inl (Or.inl (Or.inl h))
    · exact Or.inl (Or.inr h)
    · exact Or.inr h
  · rename_i hc
    rw [if_neg hc] at h
    simp [h]

theorem lexIdent_sound {U : Uni} {L : Lib F} {cs s rest : List Nat} (h : lexIdent U cs = .ok s rest) :
    ∃ t, cs = t ++ rest ∧ t ≠ [] ∧ Name loose (sem U L) t s := by
  cases cs with
  | nil => cases h
  | cons c cs =>
    rw [lexIdent.eq_def] at h
    simp only at h
    split at h
    · rename_i hc
      subst hc
      split at h
      · split at h
        · cases h
        · cases h
        · rename_i b v r hx
          split at h
          · obtain ⟨t, s', h1, h2, h3⟩ := identLoop_sound (L := L) h
            obtain ⟨m, h4, h5⟩ := unicode_chars hx
            exact ⟨92 :: 117 :: (m ++ t), by simp [h4, h1], by simp, by
              rw [h2, units_eq]; exact .esc trivial h5 h3⟩
          · cases h
      · cases h
    · split at h
      · rename_i hc
        obtain ⟨t, s', h1, h2, h3⟩ := identLoop_sound (L := L) h
        exact ⟨c :: t, by simp [h1], by simp, by rw [h2, units_eq]; exact .raw (isCont_of_start hc) h3⟩
      · cases h

/-! ### Tokens -/

/-- The text of a token. -/
def TokText (S : Sem F) : Tok F → List Nat → Prop
  | .eof, t => t = []
  | .punct c, t => t = [c]
  | .str s, t => Str loose t s
  | .num v, t => Number loose S t v ∧ ((∃ x, v = .num x) ∨ ∃ b ds, v = .big b ds)
  | .ident s, t => t ≠ [] ∧ Name loose S t s

theorem Out.map_ok {α β : Type} {g : α → β} {o : Out α} {b : β} {rest} (h : o.map g = .ok b rest) :
    ∃ a, o = .ok a rest ∧ b = g a := by
  cases o <;> simp only [Out.map] at h <;> cases h
  exact ⟨_, rfl, rfl⟩

theorem tokenAt_sound {U : Uni} {L : Lib F} {cs rest : List Nat} {tok} (h : tokenAt U L cs = .ok tok rest) :
    (∃ t, cs = t ++ rest ∧ TokText (sem U L) tok t) ∧ (cs = [] ↔ tok = .eof) := by
  cases cs with
  | nil =>
    cases h
    exact ⟨⟨[], rfl, rfl⟩, by simp⟩
  | cons c cs =>
    rw [tokenAt.eq_def] at h
    simp only at h
    split at h
    · rename_i hc
      simp only [Bool.or_eq_true, decide_eq_true_eq] at hc
      obtain ⟨s, h1, rfl⟩ := Out.map_ok h
      obtain ⟨-, b, s', h2, h3, h4⟩ := lexString_sound h1
      refine ⟨⟨c :: (b ++ [c]), by simp [h2], c, b, rfl, ?_, by simpa [h3] using h4⟩, by simp⟩
      rcases hc with hc | hc
      · exact Or.inl hc
      · exact Or.inr ⟨trivial, Or.inl hc⟩
    split at h
    · rename_i hc
      subst hc
      obtain ⟨s, h1, rfl⟩ := Out.map_ok h
      obtain ⟨b, s', h2, h3, h4⟩ := lexTemplate_sound h1
      exact ⟨⟨96 :: (b ++ [96]), by simp [h2], 96, b, rfl, Or.inr ⟨trivial, Or.inr rfl⟩, by simpa [h3] using h4⟩,
        by simp⟩
    split at h
    · rename_i hc
      obtain ⟨v, h1, rfl⟩ := Out.map_ok h
      obtain ⟨t, h2, h3, h4, h5⟩ := lexNumber_sound (Or.inl hc) h1
      exact ⟨⟨t, h2, h4, h5⟩, by simp⟩
    split at h
    · cases h
      exact ⟨⟨[c], rfl, rfl⟩, by simp⟩
    split at h
    · obtain ⟨s, h1, rfl⟩ := Out.map_ok h
      obtain ⟨t, h2, h3, h4⟩ := lexIdent_sound (L := L) h1
      exact ⟨⟨t, h2, h3, h4⟩, by simp⟩
    split at h
    · rename_i hc
      obtain ⟨v, h1, rfl⟩ := Out.map_ok h
      obtain ⟨t, h2, h3, h4, h5⟩ := lexNumber_sound (Or.inr hc) h1
      exact ⟨⟨t, h2, h4, h5⟩, by simp⟩
    split at h
    · obtain ⟨s, h1, rfl⟩ := Out.map_ok h
      obtain ⟨t, h2, h3, h4⟩ := lexIdent_sound (L := L) h1
      exact ⟨⟨t, h2, h3, h4⟩, by simp⟩
    · cases h

theorem token_sound {U : Uni} {L : Lib F} {cs rest : List Nat} {tok} (h : token U L cs = .ok tok rest)
    (hn : tok ≠ .eof) :
    ∃ w t, cs = w ++ (t ++ rest) ∧ Space loose (sem U L) w ∧ TokText (sem U L) tok t := by
  unfold token at h
  split at h
  · cases h
  · rename_i r hs
    obtain ⟨⟨t, h1, h2⟩, h3⟩ := tokenAt_sound h
    obtain ⟨w, h4, h5 | ⟨h5, -⟩⟩ := skip_sound U L .space cs r hs
    · exact ⟨w, t, by rw [h4, h1], h5, h2⟩
    · exact absurd (h3.1 h5) hn

theorem token_eof {U : Uni} {L : Lib F} {cs rest : List Nat} (h : token U L cs = .ok .eof rest) :
    Skipped (sem U L) cs [] := by
  unfold token at h
  split at h
  · cases h
  · rename_i r hs
    have := (tokenAt_sound h).2.2 rfl
    subst this
    exact skip_sound U L .space cs [] hs

/-! ### Values -/

theorem word_sound {L : Lib F} {s : List Nat} {v} (h : word L s = some v) :
    Literal s v ∨ OddWord s ∧ ∃ x, v = .num x := by
  unfold word at h
  repeat' split at h
  all_goals cases h
  · exact Or.inl (Or.inl ⟨‹_›, rfl⟩)
  · exact Or.inl (Or.inr (Or.inl ⟨‹_›, rfl⟩))
  · exact Or.inl (Or.inr (Or.inr ⟨‹_›, rfl⟩))
  · exact Or.inr ⟨Or.inl ‹_›, _, rfl⟩
  · exact Or.inr ⟨Or.inr ‹_›, _, rfl⟩

theorem signed_sound {U : Uni} {L : Lib F} {cs rest : List Nat} {v} (h : signed U L cs = .ok v rest) :
    ∃ w t, cs = w ++ (t ++ rest) ∧ Space loose (sem U L) w ∧ ((∃ x, v = .num x) ∨ ∃ b ds, v = .big b ds) ∧
      (Number loose (sem U L) t v ∨ (t ≠ [] ∧ ∃ s, Name loose (sem U L) t s ∧ OddWord s)) := by
  unfold signed at h
  split at h
  · rename_i ht
    cases h
    obtain ⟨w, t, h1, h2, h3, h4⟩ := token_sound ht (by simp)
    exact ⟨w, t, h1, h2, h4, Or.inl h3⟩
  · rename_i s r ht
    obtain ⟨w, t, h1, h2, h3, h4⟩ := token_sound ht (by simp)
    split at h
    · cases h
      exact ⟨w, t, h1, h2, Or.inl ⟨_, rfl⟩, Or.inr ⟨h3, s, h4, Or.inl ‹_›⟩⟩
    · split at h
      · cases h
        exact ⟨w, t, h1, h2, Or.inl ⟨_, rfl⟩, Or.inr ⟨h3, s, h4, Or.inr ‹_›⟩⟩
      · cases h
  all_goals cases h

theorem isNumber_ne_nil {t : List Nat} (h : IsNumber t) : ∃ c r, t = c :: r ∧ IsDigit c := by
  obtain ⟨i, f, e, rfl, h | ⟨d, ds, h, h1, h2, -⟩, -⟩ := h
  · exact ⟨48, f ++ e, by simp [h], by unfold IsDigit; omega⟩
  · exact ⟨d, ds ++ (f ++ e), by simp [h], by unfold IsDigit; omega⟩

theorem not_isNumber_name {U : Uni} {L : Lib F} {t s : List Nat} (h : Name loose (sem U L) t s)
    (hs : OddWord s) : ¬ IsNumber t := by
  intro hn
  obtain ⟨c, r, rfl, hc⟩ := isNumber_ne_nil hn
  unfold IsDigit at hc
  cases h with
  | raw _ _ =>
    rename_i s' _ _
    rw [utf16, if_pos (by omega)] at hs
    simp only [OddWord, List.singleton_append, List.cons.injEq] at hs
    omega
  | esc _ _ _ => omega

theorem number_chars {t : List Nat} (h : IsNumber t) :
    ∀ c ∈ t, IsDigit c ∨ c = 46 ∨ c = 101 ∨ c = 69 ∨ c = 43 ∨ c = 45 := by
  obtain ⟨i, f, e, rfl, hi, hf, he⟩ := h
  intro c hc
  simp only [List.mem_append] at hc
  rcases hc with (hc | hc) | hc
  · rcases hi with rfl | ⟨d, ds, rfl, h1, h2, h3⟩
    · simp at hc; unfold IsDigit; omega
    · rcases List.mem_cons.1 hc with rfl | hc
      · unfold IsDigit; omega
      · exact Or.inl (h3 c hc)
  · rcases hf with rfl | ⟨ds, rfl, -, h3⟩
    · cases hc
    · rcases List.mem_cons.1 hc with rfl | hc
      · omega
      · exact Or.inl (h3 c hc)
  · rcases he with rfl | ⟨x, sg, ds, rfl, h1, h2, -, h3⟩
    · cases hc
    · simp only [List.mem_cons, List.mem_append] at hc
      rcases hc with rfl | hc | hc
      · omega
      · have : c = 43 ∨ c = 45 := by
          rcases h2 with rfl | rfl | rfl <;> simp at hc <;> simp [hc]
        omega
      · exact Or.inl (h3 c hc)

theorem split_unique {x : Nat} {a b c d : List Nat} (h : a ++ x :: b = c ++ x :: d) (ha : x ∉ a) (hb : x ∉ b) :
    a = c ∧ b = d := by
  induction a generalizing c with
  | nil =>
    cases c with
    | nil => simpa using h
    | cons y c =>
      simp only [List.nil_append, List.cons_append, List.cons.injEq] at h
      exact absurd (by rw [h.2]; simp) hb
  | cons y a ih =>
    cases c with
    | nil =>
      simp only [List.nil_append, List.cons_append, List.cons.injEq] at h
      exact absurd (by rw [h.1]; simp) ha
    | cons z c =>
      simp only [List.cons_append, List.cons.injEq] at h
      obtain ⟨h1, h2⟩ := ih h.2 (fun hx => ha (by simp [hx]))
      exact ⟨by rw [h.1, h1], h2⟩

theorem odd_not_number {t : List Nat} (h : OddNumber t) : ¬ IsNumber t := by
  intro hn
  have hc := number_chars hn
  unfold IsDigit at hc
  obtain ⟨-, -, h | ⟨r, h⟩ | ⟨r, h⟩ | ⟨c, r, h, h1⟩ | ⟨a, b, h, h1⟩⟩ := h
  · have := hc 95 h; omega
  · have := hc 110 (by simp [h]); omega
  · obtain ⟨c, r', hr, hd⟩ := isNumber_ne_nil hn
    rw [h] at hr
    cases hr
    unfold IsDigit at hd; omega
  · obtain ⟨i, f, e, rfl, hi, hf, he⟩ := hn
    rcases hi with rfl | ⟨d, ds, rfl, h2, -⟩
    · rcases hf with rfl | ⟨ds, rfl, -⟩
      · rcases he with rfl | ⟨x, sg, ds, rfl, h2, -⟩
        · simp at h
        · simp only [List.append_nil, List.singleton_append, List.cons.injEq] at h
          omega
      · simp only [List.append_assoc, List.cons_append, List.nil_append, List.cons.injEq] at h
        omega
    · simp only [List.append_assoc, List.cons_append, List.cons.injEq] at h
      omega
  · obtain ⟨i, f, e, rfl, hi, hf, he⟩ := hn
    have ni : 46 ∉ i := by
      rcases hi with rfl | ⟨d, ds, rfl, h2, h3, h4⟩
      · simp
      · simp only [List.mem_cons, not_or]
        refine ⟨by omega, fun h => ?_⟩
        have := h4 46 h
        unfold IsDigit at this; omega
    have ne : 46 ∉ e := by
      rcases he with rfl | ⟨x, sg, ds, rfl, h2, h3, -, h4⟩
      · simp
      · simp only [List.mem_cons, List.mem_append, not_or]
        refine ⟨by omega, ?_, fun h => ?_⟩
        · rcases h3 with rfl | rfl | rfl <;> simp
        · have := h4 46 h
          unfold IsDigit at this; omega
    rcases hf with rfl | ⟨ds, rfl, h2, h3⟩
    · have : 46 ∈ i ++ [] ++ e := by rw [h]; simp
      simp [ni, ne] at this
    · have nd : 46 ∉ ds := fun h => by
        have := h3 46 h
        unfold IsDigit at this; omega
      obtain ⟨-, rfl⟩ := split_unique (a := i) (b := ds ++ e) (by simpa using h) ni (by simp [nd, ne])
      rcases ds with _ | ⟨d, ds⟩
      · exact h2 rfl
      · exact h1 d (by simp) (h3 d (by simp))

theorem signed_minus {U : Uni} {L : Lib F} {w cs rest : List Nat} {v} (hw : Space loose (sem U L) w)
    (h : negate L (signed U L cs) = .ok v rest) :
    ∃ a, 45 :: cs = a ++ rest ∧ G loose (sem U L) .value (w ++ a) v := by
  cases hs : signed U L cs with
  | ok v' r =>
    rw [hs] at h
    obtain ⟨w', t, h1, h2, h3, h4⟩ := signed_sound hs
    have hv : r = rest ∧ ((∃ x, v = .num x) ∨ ∃ b ds, v = .big b ds) ∧ ∀ x, v' = .num x → v = .num (L.neg x) := by
      rcases h3 with ⟨x, rfl⟩ | ⟨b, ds, rfl⟩
      · simp only [negate] at h
        cases h
        exact ⟨rfl, Or.inl ⟨_, rfl⟩, fun y hy => by cases hy; rfl⟩
      · simp only [negate] at h
        cases h
        exact ⟨rfl, Or.inl ⟨_, rfl⟩, fun y hy => by cases hy⟩
    obtain ⟨rfl, hv1, hv2⟩ := hv
    refine ⟨45 :: (w' ++ t), by simp [h1], ?_⟩
    by_cases hb : w' = [] ∧ IsNumber t
    · obtain ⟨rfl, hb⟩ := hb
      rcases h4 with (⟨-, h4⟩ | ⟨-, h4, -⟩) | ⟨-, s, h4, h5⟩
      · rw [hv2 _ h4]
        exact .neg hw hb
      · exact absurd hb (odd_not_number h4)
      · exact absurd hb (not_isNumber_name h4 h5)
    · refine .sign trivial hw (Or.inr rfl) h2 (fun h => hb h.2) ?_ hv1
      rcases h4 with h4 | h4
      · exact Or.inl ⟨v', h4⟩
      · exact Or.inr h4
  | err => rw [hs] at h; cases h
  | undef => rw [hs] at h; cases h
  | fuel => rw [hs] at h; cases h

theorem signed_plus {U : Uni} {L : Lib F} {w cs rest : List Nat} {v} (hw : Space loose (sem U L) w)
    (h : signed U L cs = .ok v rest) :
    ∃ a, 43 :: cs = a ++ rest ∧ G loose (sem U L) .value (w ++ a) v := by
  obtain ⟨w', t, h1, h2, h3, h4⟩ := signed_sound h
  refine ⟨43 :: (w' ++ t), by simp [h1], .sign trivial hw (Or.inl rfl) h2 (by omega) ?_ h3⟩
  rcases h4 with h4 | h4
  · exact Or.inl ⟨v, h4⟩
  · exact Or.inr h4

theorem keyTok_sound {S : Sem F} {tok : Tok F} {k t : List Nat} (h : keyTok tok = some k) (ht : TokText S tok t) :
    (Str loose t k ∨ loose .key ∧ t ≠ [] ∧ Name loose S t k) := by
  cases tok <;> simp only [keyTok] at h <;> cases h
  · exact Or.inl ht
  · exact Or.inr ⟨trivial, ht⟩

theorem parser_sound (U : Uni) (L : Lib F) (f : Nat) :
    (∀ cs v rest, value U L f cs = .ok v rest → ∃ a, cs = a ++ rest ∧ G loose (sem U L) .value a v) ∧
    (∀ acc cs v rest, array U L f acc cs = .ok v rest →
      ∃ a, cs = a ++ rest ∧ ∀ first, G loose (sem U L) (.items first acc) a v) ∧
    (∀ acc cs v rest, object U L f acc cs = .ok v rest →
      ∃ a, cs = a ++ rest ∧ ∀ first, G loose (sem U L) (.members first acc) a v) := by
  induction f with
  | zero => exact ⟨fun _ _ _ h => (by rw [value] at h; cases h), fun _ _ _ _ h => (by rw [array] at h; cases h),
      fun _ _ _ _ h => (by rw [object] at h; cases h)⟩
  | succ f ih =>
    obtain ⟨ihv, iha, iho⟩ := ih
    refine ⟨?_, ?_, ?_⟩
    · intro cs v rest h
      rw [value] at h
      split at h
      · rename_i c r ht
        obtain ⟨w, t, h1, h2, h3⟩ := token_sound ht (by simp)
        simp only [TokText] at h3
        subst h3
        split at h
        · rename_i hc
          obtain ⟨a, h4, h5⟩ := iha _ _ _ _ h
          exact ⟨w ++ 91 :: a, by simp [h1, h4, hc], .arr h2 (h5 true)⟩
        split at h
        · rename_i hc
          obtain ⟨a, h4, h5⟩ := iho _ _ _ _ h
          exact ⟨w ++ 123 :: a, by simp [h1, h4, hc], .obj h2 (h5 true)⟩
        split at h
        · rename_i hc
          obtain ⟨a, h4, h5⟩ := signed_plus h2 h
          refine ⟨w ++ a, ?_, h5⟩
          rw [h1, hc, List.append_assoc, ← h4]; rfl
        split at h
        · rename_i hc
          obtain ⟨a, h4, h5⟩ := signed_minus h2 h
          refine ⟨w ++ a, ?_, h5⟩
          rw [h1, hc, List.append_assoc, ← h4]; rfl
        · cases h
      · rename_i ht
        cases h
        obtain ⟨w, t, h1, h2, h3⟩ := token_sound ht (by simp)
        exact ⟨w ++ t, by simp [h1], .str h2 h3⟩
      · rename_i ht
        cases h
        obtain ⟨w, t, h1, h2, h3, -⟩ := token_sound ht (by simp)
        exact ⟨w ++ t, by simp [h1], .num h2 h3⟩
      · rename_i s r ht
        split at h
        · rename_i v' hw
          cases h
          obtain ⟨w, t, h1, h2, h3, h4⟩ := token_sound ht (by simp)
          refine ⟨w ++ t, by simp [h1], ?_⟩
          rcases word_sound hw with h5 | ⟨h5, x, rfl⟩
          · exact .spelled trivial h2 h3 h4 h5
          · exact .word trivial h2 h3 h4 h5
        · cases h
      all_goals cases h
    · intro acc cs v rest h
      rw [array] at h
      split at h
      · rename_i tok r ht
        split at h
        · cases h
          obtain ⟨w, t, h1, h2, h3⟩ := token_sound ht (by simp)
          simp only [TokText] at h3
          subst h3
          exact ⟨w ++ [93], by simp [h1], fun _ => .itemsClose (Or.inr trivial) h2⟩
        · split at h
          · rename_i v' r' hv
            obtain ⟨a, h1, h2⟩ := ihv _ _ _ hv
            split at h
            · rename_i ht'
              cases h
              obtain ⟨w, t, h3, h4, h5⟩ := token_sound ht' (by simp)
              simp only [TokText] at h5
              subst h5
              exact ⟨a ++ (w ++ [93]), by simp [h1, h3], fun _ => .itemsLast h2 h4⟩
            · rename_i ht'
              obtain ⟨w, t, h3, h4, h5⟩ := token_sound ht' (by simp)
              simp only [TokText] at h5
              subst h5
              obtain ⟨b, h6, h7⟩ := iha _ _ _ _ h
              exact ⟨a ++ (w ++ 44 :: b), by simp [h1, h3, h6], fun _ => .itemsCons h2 h4 (h7 false)⟩
            all_goals cases h
          all_goals cases h
      all_goals cases h
    · intro acc cs v rest h
      rw [object] at h
      split at h
      · rename_i tok r ht
        split at h
        · cases h
          obtain ⟨w, t, h1, h2, h3⟩ := token_sound ht (by simp)
          simp only [TokText] at h3
          subst h3
          exact ⟨w ++ [125], by simp [h1], fun _ => .membersClose (Or.inr trivial) h2⟩
        · split at h
          · cases h
          · rename_i k hk
            obtain ⟨w, t, h1, h2, h3⟩ := token_sound ht (by rintro rfl; cases hk)
            have hkey := keyTok_sound hk h3
            split at h
            · rename_i ht'
              obtain ⟨w', t', k1, k2, k3⟩ := token_sound ht' (by simp)
              simp only [TokText] at k3
              subst k3
              split at h
              · rename_i v' r'' hv
                obtain ⟨a, l1, l2⟩ := ihv _ _ _ hv
                split at h
                · rename_i ht''
                  cases h
                  obtain ⟨w'', t'', m1, m2, m3⟩ := token_sound ht'' (by simp)
                  simp only [TokText] at m3
                  subst m3
                  exact ⟨w ++ (t ++ (w' ++ 58 :: (a ++ (w'' ++ [125])))), by simp [h1, k1, l1, m1],
                    fun _ => .membersLast h2 hkey k2 l2 m2⟩
                · rename_i ht''
                  obtain ⟨w'', t'', m1, m2, m3⟩ := token_sound ht'' (by simp)
                  simp only [TokText] at m3
                  subst m3
                  obtain ⟨b, n1, n2⟩ := iho _ _ _ _ h
                  exact ⟨w ++ (t ++ (w' ++ 58 :: (a ++ (w'' ++ 44 :: b)))), by simp [h1, k1, l1, m1, n1],
                    fun _ => .membersCons h2 hkey k2 l2 m2 (n2 false)⟩
                all_goals cases h
              all_goals cases h
            all_goals cases h
      all_goals cases h

theorem parse_sound {U : Uni} {L : Lib F} {text : List Nat} {v} (h : parse U L text = .ok v) :
    Text loose (sem U L) (lines (codePoints text)) v := by
  rw [← decode_eq]
  unfold parse at h
  split at h
  · rename_i v' rest hv
    split at h
    · rename_i ht
      cases h
      obtain ⟨a, h1, h2⟩ := (parser_sound U L _).1 _ _ _ hv
      obtain ⟨w, h3, h4⟩ := token_eof ht
      simp only [List.append_nil] at h3
      subst h3
      refine ⟨a, rest, h1, h2, ?_⟩
      rcases h4 with h4 | ⟨-, h4⟩
      · exact Or.inl h4
      · exact Or.inr ⟨trivial, h4⟩
    all_goals cases h
  all_goals cases h

end Verif.Json

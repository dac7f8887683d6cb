import Verif.Lemmas.JsonParse
/-
Lemmas for C48: the parser always comes to an end, and the only step which can be undefined is an
escape sequence `\u{`.
-/
namespace Verif.Json

open Spec

variable {F : Type}

/-- The text has `\u{`. -/
def HasBrace (cs : List Nat) : Prop := ∃ a b, cs = a ++ 92 :: 117 :: 123 :: b

theorem HasBrace.append {cs : List Nat} (h : HasBrace cs) (t : List Nat) : HasBrace (t ++ cs) := by
  obtain ⟨a, b, rfl⟩ := h
  exact ⟨t ++ a, b, by simp⟩

/-- The end is reached, and the result is defined unless the text has `\u{`. -/
def Fine {α : Type} (o : Out α) (cs : List Nat) : Prop := o ≠ .fuel ∧ (o = .undef → HasBrace cs)

theorem Fine.err {α : Type} (cs : List Nat) : Fine (Out.err : Out α) cs := ⟨by simp, by simp⟩
theorem Fine.ok {α : Type} (a : α) (rest cs : List Nat) : Fine (Out.ok a rest) cs := ⟨by simp, by simp⟩
theorem Fine.undef {α : Type} {cs : List Nat} (h : HasBrace cs) : Fine (Out.undef : Out α) cs := ⟨by simp, fun _ => h⟩

theorem Fine.append {α : Type} {o : Out α} {cs : List Nat} (h : Fine o cs) (t : List Nat) : Fine o (t ++ cs) :=
  ⟨h.1, fun h' => (h.2 h').append t⟩

theorem Fine.map {α β : Type} {g : α → β} {o : Out α} {cs : List Nat} (h : Fine o cs) : Fine (o.map g) cs := by
  cases o with
  | ok => exact .ok _ _ _
  | err => exact .err _
  | undef => exact .undef (h.2 rfl)
  | fuel => exact absurd rfl h.1

theorem Fine.if_bad {α : Type} {bad : Bool} {acc : α} {rest cs : List Nat} :
    Fine (if bad = true then Out.err else Out.ok acc rest) cs := by
  split
  · exact .err _
  · exact .ok _ _ _

theorem hexes_ne_undef (n v : Nat) (cs : List Nat) : hexes n v cs ≠ .undef := by
  fun_induction hexes n v cs with
  | case1 => simp
  | case2 => simp
  | case3 n v c cs h ih => exact ih
  | case4 => simp

theorem unicode_undef {cs : List Nat} (h : unicode cs = .undef) : ∃ r, cs = 123 :: r := by
  unfold unicode at h
  split at h
  · exact ⟨_, rfl⟩
  · exact absurd h (hexes_ne_undef 4 0 cs)

theorem escape_undef {c : Nat} {cs : List Nat} (h : escape c cs = .undef) : c = 117 ∧ ∃ r, cs = 123 :: r := by
  unfold escape at h
  split at h
  · cases h
  split at h
  · cases hx : hexes 2 0 cs with
    | undef => exact absurd hx (hexes_ne_undef 2 0 cs)
    | done b o r => rw [hx] at h; cases o <;> cases h
  split at h
  · rename_i hc
    cases hx : unicode cs with
    | undef => exact ⟨hc, unicode_undef hx⟩
    | done b o r => rw [hx] at h; cases o <;> cases h
  repeat' split at h
  all_goals cases h

theorem escapeT_undef {c : Nat} {cs : List Nat} (h : escapeT c cs = .undef) : c = 117 ∧ ∃ r, cs = 123 :: r := by
  unfold escapeT at h
  split at h
  · cases h
  split at h
  · cases hx : hexes 2 0 cs with
    | undef => exact absurd hx (hexes_ne_undef 2 0 cs)
    | done b o r => rw [hx] at h; cases o <;> cases h
  split at h
  · rename_i hc
    cases hx : unicode cs with
    | undef => exact ⟨hc, unicode_undef hx⟩
    | done b o r => rw [hx] at h; cases o <;> cases h
  repeat' split at h
  all_goals cases h

theorem hexes_suffix {n v : Nat} {cs : List Nat} {b o r} (h : hexes n v cs = .done b o r) : ∃ m, cs = m ++ r := by
  obtain ⟨m, h, -⟩ := hexes_sound h
  exact ⟨m, h⟩

theorem escape_suffix {c : Nat} {cs : List Nat} {b add r} (h : escape c cs = .done b add r) : ∃ m, cs = m ++ r := by
  unfold escape at h
  split at h
  · cases h; exact ⟨[], rfl⟩
  split at h
  · cases hx : hexes 2 0 cs with
    | undef => rw [hx] at h; cases h
    | done b o r => rw [hx] at h; cases o <;> cases h <;> exact hexes_suffix hx
  split at h
  · cases hx : unicode cs with
    | undef => rw [hx] at h; cases h
    | done b o r =>
      obtain ⟨m, hm, -⟩ := unicode_chars hx
      rw [hx] at h; cases o <;> cases h <;> exact ⟨m, hm⟩
  split at h
  · split at h
    · cases h; exact ⟨[], rfl⟩
    split at h
    · cases h; exact ⟨[], rfl⟩
    · cases h
      obtain ⟨m, hm, -⟩ := octal_sound c cs
      exact ⟨m, hm⟩
  split at h <;> (cases h; exact ⟨[], rfl⟩)

theorem escapeT_suffix {c : Nat} {cs : List Nat} {b add r} (h : escapeT c cs = .done b add r) : ∃ m, cs = m ++ r := by
  obtain ⟨m, h, -⟩ := escapeT_sound h
  exact ⟨m, h⟩

theorem lexString_fine (q : Nat) (f : Nat) (bad : Bool) (acc cs : List Nat) (h : cs.length < f) :
    Fine (lexString q f bad acc cs) cs := by
  induction f generalizing bad acc cs with
  | zero => omega
  | succ f ih =>
    cases cs with
    | nil => exact .err _
    | cons c cs =>
      rw [lexString.eq_def]
      simp only
      simp only [List.length_cons] at h
      split
      · exact .if_bad
      split
      · exact .err _
      split
      · rename_i hc
        subst hc
        cases cs with
        | nil => exact .err _
        | cons d ds =>
          simp only
          simp only [List.length_cons] at h
          cases hx : escape d ds with
          | undef =>
            obtain ⟨rfl, r, rfl⟩ := escape_undef hx
            exact .undef ⟨[], r, rfl⟩
          | done b add r =>
            obtain ⟨m, rfl⟩ := escape_suffix hx
            simp only [List.length_append] at h
            exact (ih _ _ r (by omega)).append (92 :: d :: m)
      · exact (ih _ _ cs (by omega)).append [c]

theorem lexTemplate_fine (f : Nat) (acc cs : List Nat) (h : cs.length < f) :
    Fine (lexTemplate f acc cs) cs := by
  induction f generalizing acc cs with
  | zero => omega
  | succ f ih =>
    cases cs with
    | nil => exact .err _
    | cons c cs =>
      rw [lexTemplate.eq_def]
      simp only
      simp only [List.length_cons] at h
      split
      · exact .ok _ _ _
      split
      · rename_i hc
        subst hc
        cases cs with
        | nil => exact .err _
        | cons d ds =>
          simp only
          simp only [List.length_cons] at h
          cases hx : escapeT d ds with
          | undef =>
            obtain ⟨rfl, r, rfl⟩ := escapeT_undef hx
            exact .undef ⟨[], r, rfl⟩
          | done b add r =>
            obtain ⟨m, rfl⟩ := escapeT_suffix hx
            simp only [List.length_append] at h
            exact (ih _ r (by omega)).append (92 :: d :: m)
      · exact (ih _ cs (by omega)).append [c]

theorem lexNumber_fine (U : Uni) (L : Lib F) (cs : List Nat) : Fine (lexNumber U L cs) cs := by
  unfold lexNumber
  repeat' split
  all_goals first | exact .err _ | exact .ok _ _ _

theorem identLoop_fine (U : Uni) (f : Nat) (bad : Bool) (acc cs : List Nat) (h : cs.length < f) :
    Fine (identLoop U f bad acc cs) cs := by
  induction f generalizing bad acc cs with
  | zero => omega
  | succ f ih =>
    cases cs with
    | nil => exact .if_bad
    | cons c cs =>
      rw [identLoop.eq_def]
      simp only
      simp only [List.length_cons] at h
      split
      · rename_i hc
        subst hc
        split
        · rename_i ds
          split
          · rename_i hx
            obtain ⟨r, rfl⟩ := unicode_undef hx
            exact .undef ⟨[], r, rfl⟩
          · exact .err _
          · rename_i b v r hx
            split
            · obtain ⟨m, rfl, -⟩ := unicode_chars hx
              simp only [List.length_append, List.length_cons] at h
              exact (ih _ _ r (by omega)).append (92 :: 117 :: m)
            · exact .err _
        · exact .if_bad
      · split
        · exact (ih _ _ cs (by omega)).append [c]
        · exact .if_bad

theorem lexIdent_fine (U : Uni) (cs : List Nat) : Fine (lexIdent U cs) cs := by
  cases cs with
  | nil => exact .err _
  | cons c cs =>
    rw [lexIdent.eq_def]
    simp only
    split
    · rename_i hc
      subst hc
      split
      · split
        · rename_i hx
          obtain ⟨r, rfl⟩ := unicode_undef hx
          exact .undef ⟨[], r, rfl⟩
        · exact .err _
        · rename_i b v r hx
          split
          · obtain ⟨m, rfl, -⟩ := unicode_chars hx
            exact (identLoop_fine U _ _ _ r (by omega)).append (92 :: 117 :: m)
          · exact .err _
      · exact .err _
    · split
      · exact (identLoop_fine U _ _ _ cs (by omega)).append [c]
      · exact .err _

theorem tokenAt_fine (U : Uni) (L : Lib F) (cs : List Nat) : Fine (tokenAt U L cs) cs := by
  cases cs with
  | nil => exact .ok _ _ _
  | cons c cs =>
    rw [tokenAt.eq_def]
    simp only
    split
    · exact (lexString_fine _ _ _ _ cs (by omega)).map.append [c]
    split
    · exact (lexTemplate_fine _ _ cs (by omega)).map.append [c]
    split
    · exact (lexNumber_fine U L _).map
    split
    · exact .ok _ _ _
    split
    · exact (lexIdent_fine U _).map
    split
    · exact (lexNumber_fine U L _).map
    split
    · exact (lexIdent_fine U _).map
    · exact .err _

theorem token_fine (U : Uni) (L : Lib F) (cs : List Nat) : Fine (token U L cs) cs := by
  unfold token
  split
  · exact .err _
  · rename_i r hs
    obtain ⟨w, h, -⟩ := skip_sound U L .space cs r hs
    rw [h]
    exact (tokenAt_fine U L r).append w

/-! ### Tokens and values are not empty -/

theorem Str.ne_nil {D : Dev → Prop} {t s : List Nat} (h : Str D t s) : t ≠ [] := by
  obtain ⟨q, b, rfl, -⟩ := h; simp

theorem Number.ne_nil {D : Dev → Prop} {S : Sem F} {t : List Nat} {v} (h : Number D S t v) : t ≠ [] := by
  rcases h with ⟨h, -⟩ | ⟨-, ⟨-, ⟨r, rfl⟩ | ⟨d, r, -, rfl⟩, -⟩, -⟩
  · obtain ⟨c, r, rfl, -⟩ := isNumber_ne_nil h; simp
  · simp
  · simp

theorem TokText.ne_nil {S : Sem F} {tok : Tok F} {t : List Nat} (h : TokText S tok t) (hn : tok ≠ .eof) : t ≠ [] := by
  cases tok with
  | eof => exact absurd rfl hn
  | punct c => simp only [TokText] at h; simp [h]
  | str s => exact Str.ne_nil h
  | num v => exact Number.ne_nil h.1
  | ident s => exact h.1

theorem token_shorter {U : Uni} {L : Lib F} {cs rest : List Nat} {tok} (h : token U L cs = .ok tok rest)
    (hn : tok ≠ .eof) : ∃ p, cs = p ++ rest ∧ rest.length < cs.length := by
  obtain ⟨w, t, h1, -, h2⟩ := token_sound h hn
  refine ⟨w ++ t, by simp [h1], ?_⟩
  have := List.length_pos_iff.2 (TokText.ne_nil h2 hn)
  rw [h1]; simp only [List.length_append]; omega

theorem G.ne_nil {D : Dev → Prop} {S : Sem F} {k : Kind F} {t : List Nat} {v} (h : G D S k t v) : t ≠ [] := by
  cases h with
  | literal _ h => rcases h with ⟨h, -⟩ | ⟨h, -⟩ | ⟨h, -⟩ <;> simp [h]
  | spelled _ _ h => simp [h]
  | word _ _ h => simp [h]
  | str _ h => simp [Str.ne_nil h]
  | num _ h => simp [Number.ne_nil h]
  | neg => simp
  | sign => simp
  | arr => simp
  | obj => simp
  | itemsClose => simp
  | itemsLast => simp
  | itemsCons => simp
  | membersClose => simp
  | membersLast => simp
  | membersCons => simp

theorem value_shorter {U : Uni} {L : Lib F} {f : Nat} {cs rest : List Nat} {v} (h : value U L f cs = .ok v rest) :
    ∃ p, cs = p ++ rest ∧ rest.length < cs.length := by
  obtain ⟨a, rfl, ha⟩ := (parser_sound U L f).1 _ _ _ h
  have := List.length_pos_iff.2 (G.ne_nil ha)
  exact ⟨a, rfl, by simp only [List.length_append]; omega⟩

/-! ### The parser -/

theorem signed_fine (U : Uni) (L : Lib F) (cs : List Nat) : Fine (signed U L cs) cs := by
  have := token_fine U L cs
  unfold signed
  split
  · exact .ok _ _ _
  · split
    · exact .ok _ _ _
    · split
      · exact .ok _ _ _
      · exact .err _
  · exact .err _
  · exact .err _
  · rename_i h; exact .undef (this.2 h)
  · rename_i h; exact absurd h this.1

theorem negate_fine (U : Uni) (L : Lib F) (cs : List Nat) : Fine (negate L (signed U L cs)) cs := by
  have := signed_fine U L cs
  cases hs : signed U L cs with
  | ok v rest =>
    obtain ⟨-, -, -, -, h, -⟩ := signed_sound hs
    rcases h with ⟨x, rfl⟩ | ⟨b, ds, rfl⟩ <;> exact .ok _ _ _
  | err => exact .err _
  | undef => exact .undef (this.2 hs)
  | fuel => exact absurd hs this.1

theorem parser_fine (U : Uni) (L : Lib F) (f : Nat) :
    (∀ cs, 2 * cs.length + 1 ≤ f → Fine (value U L f cs) cs) ∧
    (∀ acc cs, 2 * cs.length + 2 ≤ f → Fine (array U L f acc cs) cs) ∧
    (∀ acc cs, 2 * cs.length + 2 ≤ f → Fine (object U L f acc cs) cs) := by
  induction f with
  | zero => exact ⟨fun _ h => by omega, fun _ _ h => by omega, fun _ _ h => by omega⟩
  | succ f ih =>
    obtain ⟨ihv, iha, iho⟩ := ih
    refine ⟨?_, ?_, ?_⟩
    · intro cs hf
      have hc := token_fine U L cs
      rw [value]
      split
      · rename_i c r ht
        obtain ⟨p, h1, h2⟩ := token_shorter ht (by simp)
        split
        · rw [h1]; exact (iha _ r (by omega)).append p
        split
        · rw [h1]; exact (iho _ r (by omega)).append p
        split
        · rw [h1]; exact (signed_fine U L r).append p
        split
        · rw [h1]; exact (negate_fine U L r).append p
        · exact .err _
      · exact .ok _ _ _
      · exact .ok _ _ _
      · split
        · exact .ok _ _ _
        · exact .err _
      · exact .err _
      · exact .err _
      · rename_i h; exact .undef (hc.2 h)
      · rename_i h; exact absurd h hc.1
    · intro acc cs hf
      have hc := token_fine U L cs
      rw [array]
      split
      · split
        · exact .ok _ _ _
        · have hv := ihv cs (by omega)
          split
          · rename_i r hval
            obtain ⟨p, h1, h2⟩ := value_shorter hval
            have hc := token_fine U L r
            split
            · exact .ok _ _ _
            · rename_i r' ht
              obtain ⟨p', h3, h4⟩ := token_shorter ht (by simp)
              rw [h1, h3, ← List.append_assoc]
              exact (iha _ r' (by omega)).append _
            · exact .err _
            · exact .err _
            · rename_i h; rw [h1]; exact .undef ((hc.2 h).append p)
            · rename_i h; exact absurd h hc.1
          · exact .err _
          · rename_i h; exact .undef (hv.2 h)
          · rename_i h; exact absurd h hv.1
      · exact .err _
      · rename_i h; exact .undef (hc.2 h)
      · rename_i h; exact absurd h hc.1
    · intro acc cs hf
      have hc := token_fine U L cs
      rw [object]
      split
      · rename_i tok r ht
        split
        · exact .ok _ _ _
        · split
          · exact .err _
          · rename_i k hk
            obtain ⟨p, h1, h2⟩ := token_shorter ht (by rintro rfl; cases hk)
            have hc := token_fine U L r
            split
            · rename_i r1 ht1
              obtain ⟨p1, h3, h4⟩ := token_shorter ht1 (by simp)
              have hv := ihv r1 (by omega)
              split
              · rename_i v r2 hval
                obtain ⟨p2, h5, h6⟩ := value_shorter hval
                have hc := token_fine U L r2
                split
                · exact .ok _ _ _
                · rename_i r3 ht3
                  obtain ⟨p3, h7, h8⟩ := token_shorter ht3 (by simp)
                  rw [h1, h3, h5, h7]
                  exact ((((iho _ r3 (by omega)).append p3).append p2).append p1).append p
                · exact .err _
                · exact .err _
                · rename_i h; rw [h1, h3, h5]; exact .undef ((((hc.2 h).append p2).append p1).append p)
                · rename_i h; exact absurd h hc.1
              · exact .err _
              · rename_i h; rw [h1, h3]; exact .undef (((hv.2 h).append p1).append p)
              · rename_i h; exact absurd h hv.1
            · exact .err _
            · exact .err _
            · rename_i h; rw [h1]; exact .undef ((hc.2 h).append p)
            · rename_i h; exact absurd h hc.1
      · exact .err _
      · rename_i h; exact .undef (hc.2 h)
      · rename_i h; exact absurd h hc.1

theorem parse_fine (U : Uni) (L : Lib F) (text : List Nat) :
    parse U L text ≠ .fuel ∧ (parse U L text = .undef → HasBrace (lines (codePoints text))) := by
  rw [← decode_eq]
  have hv := (parser_fine U L _).1 (decode text) (Nat.le_refl _)
  unfold parse
  split
  · rename_i v rest hval
    obtain ⟨p, h1, -⟩ := value_shorter hval
    have hc := token_fine U L rest
    split
    · simp
    · simp
    · simp
    · rename_i h; rw [h1]; exact ⟨by simp, fun _ => (hc.2 h).append p⟩
    · rename_i h; exact absurd h hc.1
  · simp
  · rename_i h; exact ⟨by simp, fun _ => hv.2 h⟩
  · rename_i h; exact absurd h hv.1

end Verif.Json

import Verif.Lemmas.StrNumParse

/-! Helper lemmas for C82: what is accepted is in the grammar, without comments and escapes. -/
namespace Verif.StrNum
open Json (Uni Out isDigit isOctal isBinary isHex skip lexIdent identLoop)
open Spec (White)

/-- None of what the script analyser accepts beyond the grammar. -/
structure Clean (s : List Nat) : Prop where
  comment : Spec.NoComment s
  escape : 92 ∉ s
  next : 0x85 ∉ s
  sign : Spec.SignClose s

theorem Clean.suffix {a b : List Nat} (h : Clean (a ++ b)) : Clean b where
  comment := fun x y => ⟨fun e => (h.comment (a ++ x) y).1 (by rw [e]; simp), fun e => (h.comment (a ++ x) y).2 (by rw [e]; simp)⟩
  escape := fun hc => h.escape (List.mem_append.2 (.inr hc))
  next := fun hc => h.next (List.mem_append.2 (.inr hc))
  sign := fun x c d y e => h.sign (a ++ x) c d y (by rw [e]; simp)

theorem Clean.points {s : List Nat} (h : Clean s) : Clean (points s) where
  comment := fun x y =>
    ⟨fun e => by obtain ⟨a, b, e'⟩ := points_pair e (by decide) (by decide); exact (h.comment a b).1 e',
     fun e => by obtain ⟨a, b, e'⟩ := points_pair e (by decide) (by decide); exact (h.comment a b).2 e'⟩
  escape := fun hc => h.escape (points_mem hc (by decide))
  next := fun hc => h.next (points_mem hc (by decide))
  sign := fun x c d y e hc hw => by
    have hw' := hw
    unfold White at hw'
    obtain ⟨a, b, e'⟩ := points_pair e (by omega) (by omega)
    exact h.sign a c d b e' hc hw

theorem skip_clean {U : Uni} (T : Known U) : ∀ (cs r : List Nat), skip U .space cs = some r → Clean cs →
    ∃ w, cs = w ++ r ∧ ∀ c, c ∈ w → White c
  | [], r, h, _ => by
    rw [skip] at h; cases h
    exact ⟨[], rfl, fun c hc => by cases hc⟩
  | c :: cs, r, h, hcl => by
    by_cases h47 : c = 47
    · subst h47
      rw [skip.eq_def] at h
      split at h
      · rename_i heq; cases heq
      · rename_i cs' _ heq; simp only [List.cons.injEq] at heq
        rw [heq.2] at hcl; exact absurd rfl (hcl.comment [] cs').1
      · rename_i cs' _ heq; simp only [List.cons.injEq] at heq
        rw [heq.2] at hcl; exact absurd rfl (hcl.comment [] cs').2
      · rename_i c' cs' _ _ heq; cases heq
        rw [if_neg (by simp [Uni.isWhite])] at h
        cases h
        exact ⟨[], rfl, fun c hc => by cases hc⟩
      all_goals first | (rename_i heq _; cases heq; done) | (rename_i heq; cases heq; done) | simp_all
    · rw [skip_cons cs h47] at h
      split at h
      · rename_i hw
        have hc' : c ≠ 0x85 := fun e => hcl.next (by rw [e]; exact List.mem_cons_self)
        obtain ⟨w, h1, h2⟩ := skip_clean T cs r h (hcl.suffix (a := [c]))
        refine ⟨c :: w, by rw [h1]; rfl, fun x hx => ?_⟩
        rcases List.mem_cons.1 hx with rfl | hx
        · exact of_white T hw hc'
        · exact h2 x hx
      · cases h
        exact ⟨[], rfl, fun c hc => by cases hc⟩

theorem token_clean {U : Uni} (T : Known U) {big : Bool} {cs rest : List Nat} {t : Tok} (h : token U big cs = .ok t rest)
    (hc : Clean cs) : ∃ w r, cs = w ++ r ∧ (∀ c, c ∈ w → White c) ∧ tokenAt U big r = .ok t rest := by
  unfold token at h
  cases hs : skip U .space cs with
  | none => rw [hs] at h; cases h
  | some r =>
    rw [hs] at h
    obtain ⟨w, h1, h2⟩ := skip_clean T cs r hs hc
    exact ⟨w, r, h1, h2, h⟩

/-! ## Tokens -/

theorem intDigits_sound {base : Nat} {p : Nat → Bool} {cs : List Nat} {b : Nat} {ds r : List Nat}
    (h : intDigits base p cs = some (b, ds, r)) :
    b = base ∧ ds ≠ [] ∧ cs = ds ++ r ∧ ∀ c, c ∈ ds → p c = true := by
  unfold intDigits at h
  split at h
  · cases h
  · rename_i ds' r' hne heq
    obtain ⟨h1, h2, -⟩ := span_sound heq
    simp only [Option.some.injEq, Prod.mk.injEq] at h
    obtain ⟨rfl, rfl, rfl⟩ := h
    refine ⟨rfl, ?_, h1, h2⟩
    rintro rfl
    exact hne rfl

theorem expPart_sound {cs t r : List Nat} (h : expPart cs = some (t, r)) : cs = t ++ r ∧ ∃ e, Spec.Exp t e := by
  unfold expPart at h
  split at h
  · cases h; exact ⟨rfl, 0, .none⟩
  · rename_i c cs
    split at h
    · rename_i hc
      split at h
      · cases h
      · rename_i ds rest hne heq
        simp only [Option.some.injEq, Prod.mk.injEq] at h
        obtain ⟨rfl, rfl⟩ := h
        obtain ⟨h1, h2, -⟩ := span_sound heq
        have hn : ds ≠ [] := by rintro rfl; exact hne rfl
        have hd : Spec.Digits 10 ds := fun c hc => isDig10.2 (h2 c hc)
        cases cs with
        | nil => cases ds with
          | nil => exact absurd rfl hn
          | cons d ds => cases h1
        | cons d cs =>
          simp only [expSign] at h1 ⊢
          by_cases hs : d = 43 ∨ d = 45
          · rw [if_pos hs] at h1 ⊢
            simp only at h1
            refine ⟨by rw [h1]; simp, ?_⟩
            rcases hs with rfl | rfl
            · exact ⟨_, .plus hc hn hd⟩
            · exact ⟨_, .minus hc hn hd⟩
          · rw [if_neg hs] at h1 ⊢
            simp only at h1
            exact ⟨by rw [h1]; simp, _, .plain hc hn hd⟩
    · cases h; exact ⟨rfl, 0, .none⟩

theorem fracPart_sound {cs : List Nat} : cs = (fracPart cs).1 ++ (fracPart cs).2 ∧
    ((fracPart cs).1 = [] ∨ ∃ fs, (fracPart cs).1 = 46 :: fs ∧ Spec.Digits 10 fs) := by
  unfold fracPart
  split
  · rename_i cs
    cases hs : cs.span isDigit with
    | mk ds r =>
      obtain ⟨h1, h2, -⟩ := span_sound hs
      refine ⟨?_, .inr ⟨_, rfl, fun c hc => isDig10.2 (h2 c hc)⟩⟩
      rw [h1]; rfl
  · exact ⟨rfl, .inl rfl⟩

/-- How the integer part can be written. -/
theorem intPart_sound {cs : List Nat} {base : Nat} {ds r : List Nat} (h : intPart cs = some (base, ds, r)) :
    (base = 10 ∧ ds = [] ∧ cs = r ∧ r.head? = some 46) ∨
    (base = 10 ∧ ds ≠ [] ∧ Spec.Digits 10 ds ∧ cs = ds ++ r) ∨
    (∃ p, Spec.Prefix p base ∧ ds ≠ [] ∧ Spec.Digits base ds ∧ cs = p ++ (ds ++ r)) := by
  have dec : ∀ l, intDigits 10 isDigit l = some (base, ds, r) → base = 10 ∧ ds ≠ [] ∧ Spec.Digits 10 ds ∧ l = ds ++ r := by
    intro l hl
    obtain ⟨h1, h2, h3, h4⟩ := intDigits_sound hl
    exact ⟨h1, h2, fun c hc => isDig10.2 (h4 c hc), h3⟩
  unfold intPart at h
  split at h
  · cases h; exact .inl ⟨rfl, rfl, rfl, rfl⟩
  · split at h
    · rename_i hc
      obtain ⟨rfl, h2, rfl, h4⟩ := intDigits_sound h
      exact .inr (.inr ⟨_, .bin hc, h2, fun c hc => isDig2.2 (h4 c hc), rfl⟩)
    split at h
    · rename_i hc
      obtain ⟨rfl, h2, rfl, h4⟩ := intDigits_sound h
      exact .inr (.inr ⟨_, .oct hc, h2, fun c hc => isDig8.2 (h4 c hc), rfl⟩)
    split at h
    · rename_i hc
      obtain ⟨rfl, h2, rfl, h4⟩ := intDigits_sound h
      exact .inr (.inr ⟨_, .hex hc, h2, fun c hc => isDig16.2 (h4 c hc), rfl⟩)
    split at h
    · cases h
    · exact .inr (.inl (dec _ h))
  · exact .inr (.inl (dec _ h))

/-- The text of a number token. -/
def Text (big : Bool) (cs : List Nat) (t : NumTok) (rest : List Nat) : Prop :=
  (t.base = 10 ∧ big = false ∧ cs = t.text ++ rest ∧ ∃ m x n, Spec.Dec t.text m x n) ∨
  (t.base = 10 ∧ big = true ∧ cs = t.text ++ rest ∧ t.text ≠ [] ∧ Spec.Digits 10 t.text) ∨
  (t.base = 10 ∧ big = true ∧ cs = rest ∧ cs.head? = some 46) ∨
  ∃ p, Spec.Prefix p t.base ∧ t.text ≠ [] ∧ Spec.Digits t.base t.text ∧ cs = p ++ (t.text ++ rest)

theorem text_sound {big : Bool} {cs : List Nat} {base : Nat} {ds r1 t r2 : List Nat}
    (h1 : intPart cs = some (base, ds, r1)) (h2 : tail big base r1 = some (t, r2))
    (hp : ∀ r, cs = 46 :: r → (r.head?.map isDigit).getD false = true) (isBig : Bool) :
    Text big cs ⟨base, ds ++ t, isBig⟩ r2 := by
  unfold tail at h2
  split at h2
  · rename_i hb
    obtain ⟨rfl, rfl⟩ := hb
    cases hx : expPart (fracPart r1).2 with
    | none => rw [hx] at h2; cases h2
    | some q =>
      obtain ⟨es, r3⟩ := q
      rw [hx] at h2
      simp only [Option.some.injEq, Prod.mk.injEq] at h2
      obtain ⟨rfl, rfl⟩ := h2
      obtain ⟨h3, e, he⟩ := expPart_sound hx
      obtain ⟨h4, h5⟩ := @fracPart_sound r1
      have hr1 : r1 = (fracPart r1).1 ++ (es ++ r3) := by rw [← h3]; exact h4
      refine .inl ⟨rfl, rfl, ?_, ?_⟩
      · rcases intPart_sound h1 with ⟨-, rfl, rfl, -⟩ | ⟨-, -, -, rfl⟩ | ⟨p, hpre, -⟩
        · simp only [List.nil_append, List.append_assoc]; exact hr1
        · simp only [List.append_assoc]; rw [← hr1]
        · cases hpre
      · rcases intPart_sound h1 with ⟨-, rfl, rfl, hh⟩ | ⟨-, hn, hd, rfl⟩ | ⟨p, hpre, -⟩
        · rcases h5 with h5 | ⟨fs, h5, hf⟩
          · rw [h5] at hr1
            cases hes : cs with
            | nil => rw [hes] at hh; cases hh
            | cons c cs' =>
              rw [hes] at hh; cases hh
              have : fracPart cs = (46 :: (cs'.span isDigit).1, (cs'.span isDigit).2) := by rw [hes]; rfl
              rw [this] at h5; cases h5
          · rw [h5] at hr1 ⊢
            have := hp _ hr1
            cases fs with
            | nil =>
              exfalso
              change ((es ++ r3).head?.map isDigit).getD false = true at this
              have hsp : fracPart cs = (46 :: ((es ++ r3).span isDigit).1, ((es ++ r3).span isDigit).2) := by
                rw [hr1]; rfl
              rw [hsp] at h5
              simp only [List.cons.injEq, true_and] at h5
              cases hl : es ++ r3 with
              | nil => rw [hl] at this; cases this
              | cons d l =>
                rw [hl] at this
                have hd : isDigit d = true := this
                rw [hl, span_while] at h5
                simp [List.takeWhile, hd] at h5
            | cons f fs => exact ⟨_, _, _, .lead (by simp) hf he⟩
        · rcases h5 with h5 | ⟨fs, h5, hf⟩
          · rw [h5]; exact ⟨_, _, _, .int hn hd he⟩
          · rw [h5]; exact ⟨_, _, _, .point hn hd hf he⟩
        · cases hpre
  · rename_i hb
    cases h2
    rw [List.append_nil]
    rcases intPart_sound h1 with ⟨rfl, rfl, rfl, hh⟩ | ⟨rfl, hn, hd, rfl⟩ | ⟨p, hpre, hn, hd, rfl⟩
    · have : big = true := by cases big <;> simp_all
      exact .inr (.inr (.inl ⟨rfl, this, rfl, hh⟩))
    · have : big = true := by cases big <;> simp_all
      exact .inr (.inl ⟨rfl, this, rfl, hn, hd⟩)
    · exact .inr (.inr (.inr ⟨p, hpre, hn, hd, rfl⟩))

theorem scanNumber_sound {big : Bool} {cs rest : List Nat} {t : NumTok} (h : scanNumber big cs = some (t, rest))
    (hp : ∀ r, cs = 46 :: r → (r.head?.map isDigit).getD false = true) : t.isBig = big → Text big cs t rest := by
  intro hb
  unfold scanNumber at h
  split at h
  · cases h
  · rename_i base ds r1 h1
    split at h
    · cases h
    · rename_i t' r2 h2
      split at h
      · rename_i hc
        simp only [Option.some.injEq, Prod.mk.injEq] at h
        obtain ⟨rfl, -⟩ := h
        rw [hc.2.1] at hb; cases hb
      · simp only [Option.some.injEq, Prod.mk.injEq] at h
        obtain ⟨rfl, rfl⟩ := h
        exact text_sound h1 h2 hp big

theorem lexNumber_scan {U : Uni} {big : Bool} {cs rest : List Nat} {t : NumTok} (h : lexNumber U big cs = some (t, rest)) :
    scanNumber big cs = some (t, rest) := by
  unfold lexNumber at h
  split at h
  · cases h
  · split at h
    · rw [← h]; assumption
    · cases h

theorem lexNumber_sound {U : Uni} {big : Bool} {cs rest : List Nat} {t : NumTok} (h : lexNumber U big cs = some (t, rest))
    (hp : ∀ r, cs = 46 :: r → (r.head?.map isDigit).getD false = true) : t.isBig = big → Text big cs t rest :=
  scanNumber_sound (lexNumber_scan h) hp

theorem scanNumber_big {cs rest : List Nat} {t : NumTok} (h : scanNumber true cs = some (t, rest)) : t.isBig = true := by
  unfold scanNumber at h
  split at h
  · cases h
  · split at h
    · cases h
    · split at h
      · rename_i hx; cases hx.2.1
      · simp only [Option.some.injEq, Prod.mk.injEq] at h; rw [← h.1]

theorem numTok_ok {U : Uni} {big : Bool} {cs rest : List Nat} {t : Tok} (h : numTok U big cs = .ok t rest) :
    ∃ n, t = .num n ∧ lexNumber U big cs = some (n, rest) := by
  unfold numTok at h
  split at h
  · cases h
  · split at h
    · cases h
    · rename_i n r heq
      cases h
      exact ⟨n, rfl, heq⟩

theorem map_ok {α β : Type} {f : α → β} {o : Out α} {b : β} {r : List Nat} (h : o.map f = .ok b r) : ∃ a, o = .ok a r ∧ b = f a := by
  cases o <;> cases h
  exact ⟨_, rfl, rfl⟩

/-- What tokens are. -/
theorem tokenAt_sound {U : Uni} {big : Bool} {cs rest : List Nat} {t : Tok} (h : tokenAt U big cs = .ok t rest) :
    match t with
    | .fin => cs = []
    | .num n => lexNumber U big cs = some (n, rest) ∧ ∀ r, cs = 46 :: r → (r.head?.map isDigit).getD false = true
    | .plus => cs = 43 :: rest
    | .minus => cs = 45 :: rest
    | .ident s => lexIdent U cs = .ok s rest
    | .other => True := by
  cases cs with
  | nil => cases h; rfl
  | cons c cs =>
    simp only [tokenAt] at h
    split at h
    · rename_i hc
      split at h
      · cases h; trivial
      · rcases hc with rfl | rfl
        · cases h; rfl
        · cases h; rfl
    · split at h
      · rename_i hc
        subst hc
        split at h
        · rename_i hd
          obtain ⟨n, rfl, hn⟩ := numTok_ok h
          exact ⟨hn, fun r e => by cases e; exact hd⟩
        · cases h; trivial
      · rename_i hc
        split at h
        · obtain ⟨n, rfl, hn⟩ := numTok_ok h
          exact ⟨hn, fun r e => by cases e; exact absurd rfl hc⟩
        · split at h
          · split at h
            · obtain ⟨s, h1, rfl⟩ := map_ok h
              exact h1
            · cases h; trivial
          · split at h
            · obtain ⟨s, h1, rfl⟩ := map_ok h
              exact h1
            · cases h; trivial

theorem finish_sound {α : Type} {U : Uni} (T : Known U) {big : Bool} {x y : α} {rest : List Nat}
    (h : finish U big x rest = .val y) (hc : Clean rest) : y = x ∧ ∀ c, c ∈ rest → White c := by
  unfold finish at h
  split at h
  · rename_i heq
    obtain ⟨w, r, rfl, h2, h3⟩ := token_clean T heq hc
    have := tokenAt_sound h3
    simp only at this
    subst this
    cases h
    exact ⟨rfl, by simpa using h2⟩
  all_goals cases h

/-- An identifier without escapes. -/
theorem identLoop_plain {U : Uni} : ∀ (f : Nat) (bad : Bool) (acc cs s rest : List Nat), 92 ∉ cs →
    identLoop U f bad acc cs = .ok s rest → ∃ pre, cs = pre ++ rest ∧ s = acc ++ pre.flatMap Json.units
  | 0, bad, acc, cs, s, rest, _, h => by rw [identLoop] at h; cases h
  | f + 1, bad, acc, [], s, rest, _, h => by
    rw [identLoop] at h
    split at h
    · cases h
    · cases h; exact ⟨[], rfl, by simp⟩
  | f + 1, bad, acc, c :: cs, s, rest, hn, h => by
    have hc : c ≠ 92 := fun e => hn (by rw [e]; exact List.mem_cons_self)
    rw [identLoop.eq_def] at h
    simp only at h
    rw [if_neg hc] at h
    split at h
    · obtain ⟨pre, rfl, rfl⟩ := identLoop_plain f bad _ cs s rest (fun hx => hn (List.mem_cons_of_mem _ hx)) h
      exact ⟨c :: pre, rfl, by simp⟩
    · split at h
      · cases h
      · cases h; exact ⟨[], rfl, by simp⟩

theorem lexIdent_plain {U : Uni} {cs s rest : List Nat} (hn : 92 ∉ cs) (h : lexIdent U cs = .ok s rest) :
    ∃ pre, cs = pre ++ rest ∧ s = pre.flatMap Json.units := by
  cases cs with
  | nil => rw [lexIdent] at h; cases h
  | cons c cs =>
    have hc : c ≠ 92 := fun e => hn (by rw [e]; exact List.mem_cons_self)
    rw [lexIdent.eq_def] at h
    simp only at h
    rw [if_neg hc] at h
    split at h
    · obtain ⟨pre, rfl, rfl⟩ := identLoop_plain _ _ _ cs s rest (fun hx => hn (List.mem_cons_of_mem _ hx)) h
      exact ⟨c :: pre, rfl, by simp⟩
    · cases h

theorem units_back : ∀ pre l : List Nat, pre.flatMap Json.units = l → Ascii l → pre = l
  | [], l, h, _ => h
  | c :: pre, l, h, ha => by
    subst h
    rw [List.flatMap_cons] at ha ⊢
    by_cases hc : 0xffff < c
    · exfalso
      rw [Json.units, if_pos hc] at ha
      have := ha _ (List.mem_append.2 (.inl List.mem_cons_self))
      omega
    · rw [Json.units, if_neg hc] at ha ⊢
      rw [← units_back pre _ rfl (fun x hx => ha x (List.mem_append.2 (.inr hx)))]
      rfl

theorem inf_sound {U : Uni} {cs rest : List Nat} (hn : 92 ∉ cs) (h : lexIdent U cs = .ok infName rest) :
    cs = Spec.infinity ++ rest := by
  obtain ⟨pre, rfl, h2⟩ := lexIdent_plain hn h
  have := units_back pre infName h2.symm (by unfold Ascii infName; decide)
  rw [this]; rfl

/-! ## The whole string -/

theorem prefix_base {p : List Nat} {base : Nat} (h : Spec.Prefix p base) : base ≠ 10 := by
  cases h <;> decide

/-- What is behind the sign. -/
theorem bodyNumber_sound {F : Type} {U : Uni} {L : Lib F} (S : Spec.Sem F) (T : Known U) {sign : Nat} {sg : List Nat} {neg : Bool}
    {r : List Nat} {x : F} (hsg : Spec.Sign sg neg) (h0 : sign = 0 → sg = [])
    (h : bodyNumber U L sign (tokenAt U false r) = .val x) (hc : Clean r) :
    ∃ b w' y, r = b ++ w' ∧ (∀ c, c ∈ w' → White c) ∧ Spec.Body S (fun _ => True) (fun _ => True) (sg ++ b) y := by
  cases ht : tokenAt U false r with
  | err => rw [ht] at h; cases h
  | undef => rw [ht] at h; cases h
  | fuel => rw [ht] at h; cases h
  | ok t rest =>
    rw [ht] at h
    have hs := tokenAt_sound ht
    cases t with
    | plus => cases h
    | minus => cases h
    | other => cases h
    | fin =>
      simp only at hs
      subst hs
      simp only [bodyNumber] at h
      split at h
      · cases h
      · rename_i hz
        have := h0 (by omega)
        subst this
        cases hsg
        exact ⟨[], [], _, rfl, (fun c hc => by cases hc), .empty⟩
    | ident s =>
      simp only at hs
      simp only [bodyNumber] at h
      split at h
      · rename_i hi
        subst hi
        have := inf_sound hc.escape hs
        subst this
        obtain ⟨-, hw⟩ := finish_sound T h hc.suffix
        exact ⟨_, rest, _, rfl, hw, .inf hsg⟩
      · cases h
    | num n =>
      simp only at hs
      simp only [bodyNumber] at h
      split at h
      · cases h
      · rename_i hb
        split at h
        · cases h
        · rename_i hbig
          have key := lexNumber_sound hs.1 hs.2 (by simpa using hbig)
          rcases key with ⟨-, -, e, m, ex, k, hd⟩ | ⟨_, hf, _⟩ | ⟨_, hf, _⟩ | ⟨p, hp, hn, hd, e⟩
          · rw [e] at hc
            obtain ⟨-, hw⟩ := finish_sound T h hc.suffix
            exact ⟨_, rest, _, e, hw, .dec hsg hd trivial⟩
          · cases hf
          · cases hf
          · have hsz : sign = 0 := by
              have : n.base ≠ 10 := prefix_base hp
              by_cases hz : sign = 0
              · exact hz
              · exact absurd ⟨hz, this⟩ hb
            have := h0 hsz
            subst this
            rw [e, ← List.append_assoc] at hc
            obtain ⟨-, hw⟩ := finish_sound T h hc.suffix
            exact ⟨p ++ n.text, rest, S.nat (Spec.value n.base n.text), by rw [e, List.append_assoc], hw, Spec.Body.other (p := p) hp hn hd trivial⟩

theorem body_token {F : Type} {U : Uni} {L : Lib F} (T : Known U) {sign : Nat} {cs : List Nat} {x : F}
    (h : bodyNumber U L sign (token U false cs) = .val x) (hc : Clean cs) :
    ∃ w r, cs = w ++ r ∧ (∀ c, c ∈ w → White c) ∧ bodyNumber U L sign (tokenAt U false r) = .val x := by
  cases ht : token U false cs with
  | err => rw [ht] at h; cases h
  | undef => rw [ht] at h; cases h
  | fuel => rw [ht] at h; cases h
  | ok t rest =>
    obtain ⟨w, r, h1, h2, h3⟩ := token_clean T ht hc
    rw [ht] at h
    exact ⟨w, r, h1, h2, by rw [h3]; exact h⟩

theorem white_lt {c : Nat} (h : White c) : c < 0x10000 := by unfold White at h; omega

theorem back_text {s w b w' : List Nat} (h : points s = w ++ (b ++ w')) (hw : ∀ c, c ∈ w → White c) (hb : Ascii b)
    (hw' : ∀ c, c ∈ w' → White c) : s = w ++ (b ++ w') := by
  apply points_back s _ h
  intro c hc
  rcases List.mem_append.1 hc with hc | hc
  · exact white_lt (hw c hc)
  · rcases List.mem_append.1 hc with hc | hc
    · have := hb c hc; omega
    · exact white_lt (hw' c hc)

/-- Nothing white behind a sign. -/
theorem sign_gap {c : Nat} {w r : List Nat} (h : Clean (c :: (w ++ r))) (hc : c = 43 ∨ c = 45) (hw : ∀ d, d ∈ w → White d) :
    w = [] := by
  cases w with
  | nil => rfl
  | cons d w => exact absurd (hw d List.mem_cons_self) (h.sign [] c d (w ++ r) rfl hc)

theorem parseNumber_sound {F : Type} {U : Uni} {L : Lib F} (S : Spec.Sem F) (T : Known U) {s : List Nat} {x : F} (hc : Clean s)
    (h : parseNumber U L s = .val x) : ∃ y, Spec.Lit S (fun _ => True) (fun _ => True) s y := by
  have hcp := hc.points
  unfold parseNumber at h
  have signed : ∀ (sign c : Nat) (neg : Bool) (w rest : List Nat), Spec.Sign [c] neg → sign ≠ 0 → c = 43 ∨ c = 45 →
      (∀ c, c ∈ w → White c) → points s = w ++ c :: rest → bodyNumber U L sign (token U false rest) = .val x →
      ∃ y, Spec.Lit S (fun _ => True) (fun _ => True) s y := by
    intro sign c neg w rest hsg hz hcc hw he hb
    rw [he] at hcp
    have hcs : Clean (c :: rest) := hcp.suffix
    obtain ⟨w2, r, rfl, h2, h3⟩ := body_token T hb (hcs.suffix (a := [c]))
    have := sign_gap hcs hcc h2
    subst this
    obtain ⟨b, w', y, rfl, h5, h6⟩ := bodyNumber_sound S T hsg (fun e => absurd e hz) h3 (hcs.suffix (a := [c]))
    have := back_text (b := [c] ++ b) (by rw [he]; simp) hw (body_ascii h6) h5
    exact ⟨y, w, _, w', this, hw, h5, h6⟩
  split at h
  · rename_i rest ht
    obtain ⟨w, r, h1, h2, h3⟩ := token_clean T ht hcp
    have := tokenAt_sound h3
    simp only at this
    subst this
    exact signed 1 43 false w rest .plus (by decide) (.inl rfl) h2 h1 h
  · rename_i rest ht
    obtain ⟨w, r, h1, h2, h3⟩ := token_clean T ht hcp
    have := tokenAt_sound h3
    simp only at this
    subst this
    exact signed 2 45 true w rest .minus (by decide) (.inr rfl) h2 h1 h
  · obtain ⟨w, r, h1, h2, h3⟩ := body_token T h hcp
    rw [h1] at hcp
    obtain ⟨b, w', y, rfl, h5, h6⟩ := bodyNumber_sound S T .none (fun _ => rfl) h3 hcp.suffix
    rw [List.nil_append] at h6
    exact ⟨y, w, b, w', back_text h1 h2 (body_ascii h6) h5, h2, h5, h6⟩

/-! ## BigInts -/

theorem bodyBigInt_sound {U : Uni} (T : Known U) {sign : Nat} {sg : List Nat} {neg : Bool}
    {r : List Nat} {x : Int} (hsg : Spec.Sign sg neg) (h0 : sign = 0 → sg = [])
    (h : bodyBigInt U sign (tokenAt U true r) = .val x) (hc : Clean r) :
    ∃ b w' y, r = b ++ w' ∧ (∀ c, c ∈ w' → White c) ∧ Spec.IntBody (sg ++ b) y := by
  cases ht : tokenAt U true r with
  | err => rw [ht] at h; cases h
  | undef => rw [ht] at h; cases h
  | fuel => rw [ht] at h; cases h
  | ok t rest =>
    rw [ht] at h
    have hs := tokenAt_sound ht
    cases t with
    | plus => cases h
    | minus => cases h
    | other => cases h
    | ident s => cases h
    | fin =>
      simp only at hs
      subst hs
      simp only [bodyBigInt] at h
      split at h
      · cases h
      · rename_i hz
        have := h0 (by omega)
        subst this
        cases hsg
        exact ⟨[], [], _, rfl, (fun c hc => by cases hc), .empty⟩
    | num n =>
      simp only at hs
      simp only [bodyBigInt] at h
      split at h
      · cases h
      · rename_i hb
        have hbig : n.isBig = true := scanNumber_big (lexNumber_scan hs.1)
        have key := lexNumber_sound hs.1 hs.2 hbig
        rcases key with ⟨_, hf, _⟩ | ⟨-, -, e, hn, hd⟩ | ⟨_, -, e, hh⟩ | ⟨p, hp, hn, hd, e⟩
        · cases hf
        · rw [e] at hc
          obtain ⟨-, hw⟩ := finish_sound T h hc.suffix
          exact ⟨_, rest, _, e, hw, .dec hsg hn hd⟩
        · subst e
          obtain ⟨-, hw⟩ := finish_sound T h hc
          exfalso
          cases r with
          | nil => cases hh
          | cons c r =>
            cases hh
            have := hw 46 List.mem_cons_self
            unfold White at this
            omega
        · have hsz : sign = 0 := by
            have : n.base ≠ 10 := prefix_base hp
            by_cases hz : sign = 0
            · exact hz
            · exact absurd ⟨hz, this⟩ hb
          have := h0 hsz
          subst this
          rw [e, ← List.append_assoc] at hc
          obtain ⟨-, hw⟩ := finish_sound T h hc.suffix
          exact ⟨p ++ n.text, rest, (Spec.value n.base n.text : Nat), by rw [e, List.append_assoc], hw, Spec.IntBody.other (p := p) hp hn hd⟩

theorem bigBody_token {U : Uni} (T : Known U) {sign : Nat} {cs : List Nat} {x : Int}
    (h : bodyBigInt U sign (token U true cs) = .val x) (hc : Clean cs) :
    ∃ w r, cs = w ++ r ∧ (∀ c, c ∈ w → White c) ∧ bodyBigInt U sign (tokenAt U true r) = .val x := by
  cases ht : token U true cs with
  | err => rw [ht] at h; cases h
  | undef => rw [ht] at h; cases h
  | fuel => rw [ht] at h; cases h
  | ok t rest =>
    obtain ⟨w, r, h1, h2, h3⟩ := token_clean T ht hc
    rw [ht] at h
    exact ⟨w, r, h1, h2, by rw [h3]; exact h⟩

theorem toBigInt_sound {U : Uni} (T : Known U) {s : List Nat} {x : Int} (hc : Clean s)
    (h : toBigInt U s = .val x) : ∃ y, Spec.IntLit s y := by
  have hcp := hc.points
  unfold toBigInt at h
  have signed : ∀ (sign c : Nat) (neg : Bool) (w rest : List Nat), Spec.Sign [c] neg → sign ≠ 0 → c = 43 ∨ c = 45 →
      (∀ c, c ∈ w → White c) → points s = w ++ c :: rest → bodyBigInt U sign (token U true rest) = .val x →
      ∃ y, Spec.IntLit s y := by
    intro sign c neg w rest hsg hz hcc hw he hb
    rw [he] at hcp
    have hcs : Clean (c :: rest) := hcp.suffix
    obtain ⟨w2, r, rfl, h2, h3⟩ := bigBody_token T hb (hcs.suffix (a := [c]))
    have := sign_gap hcs hcc h2
    subst this
    obtain ⟨b, w', y, rfl, h5, h6⟩ := bodyBigInt_sound T hsg (fun e => absurd e hz) h3 (hcs.suffix (a := [c]))
    have := back_text (b := [c] ++ b) (by rw [he]; simp) hw (intBody_ascii h6) h5
    exact ⟨y, w, _, w', this, hw, h5, h6⟩
  split at h
  · rename_i rest ht
    obtain ⟨w, r, h1, h2, h3⟩ := token_clean T ht hcp
    have := tokenAt_sound h3
    simp only at this
    subst this
    exact signed 1 43 false w rest .plus (by decide) (.inl rfl) h2 h1 h
  · rename_i rest ht
    obtain ⟨w, r, h1, h2, h3⟩ := token_clean T ht hcp
    have := tokenAt_sound h3
    simp only at this
    subst this
    exact signed 2 45 true w rest .minus (by decide) (.inr rfl) h2 h1 h
  · obtain ⟨w, r, h1, h2, h3⟩ := bigBody_token T h hcp
    rw [h1] at hcp
    obtain ⟨b, w', y, rfl, h5, h6⟩ := bodyBigInt_sound T .none (fun _ => rfl) h3 hcp.suffix
    rw [List.nil_append] at h6
    exact ⟨y, w, b, w', back_text h1 h2 (intBody_ascii h6) h5, h2, h5, h6⟩

/-! ## Ends and undefined steps -/

/-- What undefined steps need: a backslash, or an exponent with ten digits. -/
def Bad (big : Bool) (cs : List Nat) : Prop := 92 ∈ cs ∨ (big = false ∧ Spec.LongExp cs)

theorem Bad.suffix {big : Bool} {a b : List Nat} (h : Bad big b) : Bad big (a ++ b) := by
  rcases h with h | ⟨h, h'⟩
  · exact .inl (List.mem_append.2 (.inr h))
  · exact .inr ⟨h, longExp_right h'⟩

theorem points_prefix : ∀ (l s b : List Nat), points s = l ++ b → (∀ c, c ∈ l → c < 0x10000) → ∃ b', s = l ++ b'
  | [], s, b, _, _ => ⟨s, rfl⟩
  | c :: l, s, b, h, hl => by
    rw [List.cons_append] at h
    obtain ⟨c', t, rfl⟩ := points_ne_nil h
    obtain ⟨rfl, h2⟩ := points_head h (hl c List.mem_cons_self)
    obtain ⟨b', rfl⟩ := points_prefix l t b h2 (fun x hx => hl x (List.mem_cons_of_mem _ hx))
    exact ⟨b', rfl⟩

theorem bad_points {big : Bool} {s : List Nat} (h : Bad big (points s)) : Bad big s := by
  rcases h with h | ⟨h, a, c, sg, ds, b, e, hc, hsg, hd, hl⟩
  · exact .inl (points_mem h (by decide))
  · obtain ⟨a', r', h1, h2⟩ := points_split s a _ e
    have e2 : points r' = (c :: (sg ++ ds)) ++ b := by rw [h2]; simp
    obtain ⟨b', rfl⟩ := points_prefix _ _ _ e2 (fun x hx => by
      rcases List.mem_cons.1 hx with rfl | hx
      · omega
      · rcases List.mem_append.1 hx with hx | hx
        · rcases hsg with rfl | rfl | rfl <;> simp at hx <;> omega
        · have := digits_ascii hd x hx; omega)
    exact .inr ⟨h, a', c, sg, ds, b', by rw [h1]; simp, hc, hsg, hd, hl⟩

/-- Not out of fuel, and undefined only for a reason. -/
def Okay {α : Type} (big : Bool) (o : Out α) (cs : List Nat) : Prop := o ≠ .fuel ∧ (o = .undef → Bad big cs)

theorem overflows_bad {big : Bool} {cs : List Nat} (hp : ∀ r, cs = 46 :: r → (r.head?.map isDigit).getD false = true)
    (h : overflows big cs = true) : Bad big cs := by
  unfold overflows at h
  split at h
  · cases h
  · rename_i t rest hs
    simp only [Bool.and_eq_true, Bool.not_eq_true', beq_iff_eq] at h
    obtain ⟨⟨h1, h2⟩, h3⟩ := h
    cases big with
    | true => rw [scanNumber_big hs] at h1; cases h1
    | false =>
      rcases scanNumber_sound hs hp h1 with ⟨-, -, e, m, x, n, hd⟩ | ⟨-, hf, -⟩ | ⟨-, hf, -⟩ | ⟨p, hpre, -⟩
      · rcases strtod_dec hd with ⟨m', e', h4, -⟩ | ⟨-, h4, -⟩
        · rw [h4] at h3; cases h3
        · exact .inr ⟨rfl, by rw [e]; exact longExp_left h4⟩
      · cases hf
      · cases hf
      · exact absurd h2 (prefix_base hpre)

theorem numTok_okay (U : Uni) (big : Bool) (cs : List Nat) (hp : ∀ r, cs = 46 :: r → (r.head?.map isDigit).getD false = true) :
    Okay big (numTok U big cs) cs := by
  unfold numTok Okay
  split
  · rename_i h; exact ⟨by simp, fun _ => overflows_bad hp h⟩
  · split <;> simp

theorem tokenAt_okay (U : Uni) (big : Bool) (cs : List Nat) : Okay big (tokenAt U big cs) cs := by
  have hid : ∀ l, Okay big ((lexIdent U l).map Tok.ident) l := by
    intro l
    have := (Json.lexIdent_fine U l).map (g := Tok.ident)
    refine ⟨this.1, fun h => ?_⟩
    obtain ⟨a, b, rfl⟩ := this.2 h
    exact .inl (by simp)
  unfold tokenAt
  repeat' split
  all_goals first
    | exact hid _
    | exact ⟨by simp, by simp⟩
    | (rename_i c cs _ h46 hdig; exact numTok_okay _ _ _ (fun r e => by cases e; exact hdig))
    | (rename_i c cs _ h46 hdig; exact numTok_okay _ _ _ (fun r e => by cases e; exact absurd rfl h46))

theorem skip_suffix (U : Uni) : ∀ (m : Json.Mode) (cs r : List Nat), skip U m cs = some r → ∃ a, cs = a ++ r := by
  intro m cs
  fun_induction skip U m cs with
  | case1 => intro r h; cases h; exact ⟨[], rfl⟩
  | case2 cs ih => intro r h; obtain ⟨a, rfl⟩ := ih r h; exact ⟨47 :: 47 :: a, rfl⟩
  | case3 cs ih => intro r h; obtain ⟨a, rfl⟩ := ih r h; exact ⟨47 :: 42 :: a, rfl⟩
  | case4 c cs _ _ _ ih => intro r h; obtain ⟨a, rfl⟩ := ih r h; exact ⟨c :: a, rfl⟩
  | case5 => intro r h; cases h; exact ⟨[], rfl⟩
  | case6 => intro r h; cases h; exact ⟨[], rfl⟩
  | case7 c cs _ ih => intro r h; obtain ⟨a, rfl⟩ := ih r h; exact ⟨c :: a, rfl⟩
  | case8 c cs _ ih => intro r h; obtain ⟨a, rfl⟩ := ih r h; exact ⟨c :: a, rfl⟩
  | case9 => intro r h; cases h
  | case10 cs ih => intro r h; obtain ⟨a, rfl⟩ := ih r h; exact ⟨42 :: 47 :: a, rfl⟩
  | case11 c cs _ ih => intro r h; obtain ⟨a, rfl⟩ := ih r h; exact ⟨c :: a, rfl⟩

theorem token_okay (U : Uni) (big : Bool) (cs : List Nat) : Okay big (token U big cs) cs := by
  unfold token
  split
  · exact ⟨by simp, by simp⟩
  · rename_i r h
    obtain ⟨a, rfl⟩ := skip_suffix U _ _ _ h
    have := tokenAt_okay U big r
    exact ⟨this.1, fun h => (this.2 h).suffix⟩

theorem tokenAt_suffix {U : Uni} {big : Bool} {cs rest : List Nat} {t : Tok} (h : tokenAt U big cs = .ok t rest)
    (ht : t = .plus ∨ t = .minus) : ∃ a, cs = a ++ rest := by
  have := tokenAt_sound h
  rcases ht with rfl | rfl
  · exact ⟨[43], this⟩
  · exact ⟨[45], this⟩

theorem token_suffix {U : Uni} {big : Bool} {cs rest : List Nat} {t : Tok} (h : token U big cs = .ok t rest)
    (ht : t = .plus ∨ t = .minus) : ∃ a, cs = a ++ rest := by
  unfold token at h
  split at h
  · cases h
  · rename_i r hr
    obtain ⟨a, rfl⟩ := skip_suffix U _ _ _ hr
    obtain ⟨b, rfl⟩ := tokenAt_suffix h ht
    exact ⟨a ++ b, by simp⟩

/-- The same for results. -/
def Good {α : Type} (big : Bool) (o : Res α) (cs : List Nat) : Prop := o ≠ .fuel ∧ (o = .undef → Bad big cs)

theorem numTok_rest {U : Uni} {big : Bool} {cs rest : List Nat} {n : NumTok} (h : lexNumber U big cs = some (n, rest)) :
    ∃ a, cs = a ++ rest := by
  replace h := lexNumber_scan h
  unfold scanNumber at h
  split at h
  · cases h
  · rename_i base ds r1 h1
    have e1 : ∃ a, cs = a ++ r1 := by
      rcases intPart_sound h1 with ⟨-, -, rfl, -⟩ | ⟨-, -, -, rfl⟩ | ⟨p, -, -, -, rfl⟩
      · exact ⟨[], rfl⟩
      · exact ⟨ds, rfl⟩
      · exact ⟨p ++ ds, by simp⟩
    split at h
    · cases h
    · rename_i t r2 h2
      have e2 : ∃ a, r1 = a ++ r2 := by
        unfold tail at h2
        split at h2
        · split at h2
          · cases h2
          · rename_i t' r' hx
            simp only [Option.some.injEq, Prod.mk.injEq] at h2
            obtain ⟨-, rfl⟩ := h2
            obtain ⟨h3, -⟩ := expPart_sound hx
            obtain ⟨h4, -⟩ := @fracPart_sound r1
            exact ⟨(fracPart r1).1 ++ t', by rw [List.append_assoc, ← h3]; exact h4⟩
        · cases h2; exact ⟨[], rfl⟩
      obtain ⟨a, rfl⟩ := e1
      obtain ⟨b, rfl⟩ := e2
      split at h
      · simp only [Option.some.injEq, Prod.mk.injEq] at h
        exact ⟨a ++ b ++ r2.take 1, by rw [← h.2, List.append_assoc, List.append_assoc, List.take_append_drop]⟩
      · simp only [Option.some.injEq, Prod.mk.injEq] at h
        exact ⟨a ++ b, by rw [← h.2]; simp⟩

theorem ident_rest {U : Uni} : ∀ (f : Nat) (bad : Bool) (acc cs s rest : List Nat),
    identLoop U f bad acc cs = .ok s rest → ∃ a, cs = a ++ rest
  | 0, bad, acc, cs, s, rest, h => by rw [identLoop] at h; cases h
  | f + 1, bad, acc, [], s, rest, h => by
    rw [identLoop] at h
    split at h
    · cases h
    · cases h; exact ⟨[], rfl⟩
  | f + 1, bad, acc, c :: cs, s, rest, h => by
    rw [identLoop.eq_def] at h
    simp only at h
    split at h
    · split at h
      · split at h
        · cases h
        · cases h
        · rename_i ds _ _ b v r hx
          split at h
          · obtain ⟨m, rfl, -⟩ := Json.unicode_chars hx
            obtain ⟨a, rfl⟩ := ident_rest f _ _ r s rest h
            exact ⟨c :: 117 :: (m ++ a), by simp⟩
          · cases h
      · split at h
        · cases h
        · cases h; exact ⟨[], rfl⟩
    · split at h
      · obtain ⟨a, rfl⟩ := ident_rest f _ _ cs s rest h
        exact ⟨c :: a, rfl⟩
      · split at h
        · cases h
        · cases h; exact ⟨[], rfl⟩

theorem lexIdent_rest {U : Uni} {cs s rest : List Nat} (h : lexIdent U cs = .ok s rest) : ∃ a, cs = a ++ rest := by
  cases cs with
  | nil => rw [lexIdent] at h; cases h
  | cons c cs =>
    rw [lexIdent.eq_def] at h
    simp only at h
    split at h
    · split at h
      · split at h
        · cases h
        · cases h
        · rename_i b v r hx
          split at h
          · obtain ⟨m, rfl, -⟩ := Json.unicode_chars hx
            obtain ⟨a, rfl⟩ := ident_rest _ _ _ r s rest h
            exact ⟨c :: 117 :: (m ++ a), by simp⟩
          · cases h
      · cases h
    · split at h
      · obtain ⟨a, rfl⟩ := ident_rest _ _ _ cs s rest h
        exact ⟨c :: a, rfl⟩
      · cases h

/-- What is left of a number or a name is the end of the text. -/
theorem token_rest {U : Uni} {big : Bool} {cs rest : List Nat} {t : Tok} (h : token U big cs = .ok t rest)
    (ht : (∃ n, t = .num n) ∨ ∃ s, t = .ident s) : ∃ a, cs = a ++ rest := by
  unfold token at h
  split at h
  · cases h
  · rename_i r hr
    obtain ⟨a, rfl⟩ := skip_suffix U _ _ _ hr
    have := tokenAt_sound h
    rcases ht with ⟨n, rfl⟩ | ⟨s, rfl⟩
    · obtain ⟨b, rfl⟩ := numTok_rest this.1
      exact ⟨a ++ b, by simp⟩
    · obtain ⟨b, rfl⟩ := lexIdent_rest this
      exact ⟨a ++ b, by simp⟩

theorem finish_good {α : Type} (U : Uni) (big : Bool) (x : α) (rest : List Nat) : Good big (finish U big x rest) rest := by
  have := token_okay U big rest
  unfold finish
  split
  · exact ⟨by simp, by simp⟩
  · exact ⟨by simp, by simp⟩
  · exact ⟨by simp, by simp⟩
  · rename_i h; exact ⟨by simp, fun _ => this.2 h⟩
  · rename_i h; exact absurd h this.1

theorem Good.suffix {α : Type} {big : Bool} {o : Res α} {a b : List Nat} (h : Good big o b) : Good big o (a ++ b) :=
  ⟨h.1, fun e => (h.2 e).suffix⟩

theorem bodyNumber_good {F : Type} (U : Uni) (L : Lib F) (sign : Nat) (cs : List Nat) :
    Good false (bodyNumber U L sign (token U false cs)) cs := by
  have hk := token_okay U false cs
  cases ht : token U false cs with
  | err => exact ⟨by simp [bodyNumber], by simp [bodyNumber]⟩
  | undef => exact ⟨by simp [bodyNumber], fun _ => hk.2 ht⟩
  | fuel => exact absurd ht hk.1
  | ok t rest =>
    cases t with
    | fin =>
      simp only [bodyNumber]
      split <;> exact ⟨by simp, by simp⟩
    | plus => exact ⟨by simp [bodyNumber], by simp [bodyNumber]⟩
    | minus => exact ⟨by simp [bodyNumber], by simp [bodyNumber]⟩
    | other => exact ⟨by simp [bodyNumber], by simp [bodyNumber]⟩
    | num n =>
      obtain ⟨a, rfl⟩ := token_rest ht (.inl ⟨n, rfl⟩)
      simp only [bodyNumber]
      split
      · exact ⟨by simp, by simp⟩
      · split
        · exact ⟨by simp, by simp⟩
        · exact (finish_good _ _ _ _).suffix
    | ident s =>
      obtain ⟨a, rfl⟩ := token_rest ht (.inr ⟨s, rfl⟩)
      simp only [bodyNumber]
      split
      · exact (finish_good _ _ _ _).suffix
      · exact ⟨by simp, by simp⟩

theorem parseNumber_okay {F : Type} (U : Uni) (L : Lib F) (s : List Nat) : Good false (parseNumber U L s) s := by
  have key : Good false (parseNumber U L s) (points s) := by
    unfold parseNumber
    split
    · rename_i rest ht
      obtain ⟨a, e⟩ := token_suffix ht (.inl rfl)
      rw [e]
      exact (bodyNumber_good U L 1 rest).suffix
    · rename_i rest ht
      obtain ⟨a, e⟩ := token_suffix ht (.inr rfl)
      rw [e]
      exact (bodyNumber_good U L 2 rest).suffix
    · exact bodyNumber_good U L 0 _
  exact ⟨key.1, fun h => bad_points (key.2 h)⟩

theorem bodyBigInt_good (U : Uni) (sign : Nat) (cs : List Nat) : Good true (bodyBigInt U sign (token U true cs)) cs := by
  have hk := token_okay U true cs
  cases ht : token U true cs with
  | err => exact ⟨by simp [bodyBigInt], by simp [bodyBigInt]⟩
  | undef => exact ⟨by simp [bodyBigInt], fun _ => hk.2 ht⟩
  | fuel => exact absurd ht hk.1
  | ok t rest =>
    cases t with
    | fin =>
      simp only [bodyBigInt]
      split <;> exact ⟨by simp, by simp⟩
    | plus => exact ⟨by simp [bodyBigInt], by simp [bodyBigInt]⟩
    | minus => exact ⟨by simp [bodyBigInt], by simp [bodyBigInt]⟩
    | other => exact ⟨by simp [bodyBigInt], by simp [bodyBigInt]⟩
    | ident s => exact ⟨by simp [bodyBigInt], by simp [bodyBigInt]⟩
    | num n =>
      obtain ⟨a, rfl⟩ := token_rest ht (.inl ⟨n, rfl⟩)
      simp only [bodyBigInt]
      split
      · exact ⟨by simp, by simp⟩
      · exact (finish_good _ _ _ _).suffix

theorem toBigInt_okay (U : Uni) (s : List Nat) : Good true (toBigInt U s) s := by
  have key : Good true (toBigInt U s) (points s) := by
    unfold toBigInt
    split
    · rename_i rest ht
      obtain ⟨a, e⟩ := token_suffix ht (.inl rfl)
      rw [e]
      exact (bodyBigInt_good U 1 rest).suffix
    · rename_i rest ht
      obtain ⟨a, e⟩ := token_suffix ht (.inr rfl)
      rw [e]
      exact (bodyBigInt_good U 2 rest).suffix
    · exact bodyBigInt_good U 0 _
  exact ⟨key.1, fun h => bad_points (key.2 h)⟩

/-! ## What is not in the grammar -/

/-- A character of a literal without white space. -/
def Plain (c : Nat) : Prop := c < 128 ∧ c ≠ 47 ∧ c ≠ 92 ∧ ¬ White c

theorem digits_plain {base : Nat} {ds : List Nat} (h : Spec.Digits base ds) : ∀ c, c ∈ ds → Plain c := by
  intro c hc
  have := (h c hc).1
  unfold Plain White
  omega

theorem plain_append {a b : List Nat} (h : ∀ c, c ∈ a → Plain c) (h' : ∀ c, c ∈ b → Plain c) : ∀ c, c ∈ a ++ b → Plain c := by
  intro c hc
  rcases List.mem_append.1 hc with hc | hc
  · exact h c hc
  · exact h' c hc

theorem plain_cons {a : Nat} {b : List Nat} (h : Plain a) (h' : ∀ c, c ∈ b → Plain c) : ∀ c, c ∈ a :: b → Plain c := by
  intro c hc
  rcases List.mem_cons.1 hc with rfl | hc
  · exact h
  · exact h' c hc

theorem exp_plain {es : List Nat} {e : Int} (h : Spec.Exp es e) : ∀ c, c ∈ es → Plain c := by
  cases h with
  | none => intro c hc; cases hc
  | plain h _ hd => exact plain_cons (by unfold Plain White; omega) (digits_plain hd)
  | plus h _ hd => exact plain_cons (by unfold Plain White; omega) (plain_cons (by unfold Plain White; omega) (digits_plain hd))
  | minus h _ hd => exact plain_cons (by unfold Plain White; omega) (plain_cons (by unfold Plain White; omega) (digits_plain hd))

theorem dec_plain {t : List Nat} {m n : Nat} {x : Int} (h : Spec.Dec t m x n) : ∀ c, c ∈ t → Plain c := by
  cases h with
  | int _ hd he => exact plain_append (digits_plain hd) (exp_plain he)
  | point _ hd hf he =>
    exact plain_append (digits_plain hd) (plain_cons (by unfold Plain White; omega) (plain_append (digits_plain hf) (exp_plain he)))
  | lead _ hf he => exact plain_cons (by unfold Plain White; omega) (plain_append (digits_plain hf) (exp_plain he))

theorem sign_plain {t : List Nat} {n : Bool} (h : Spec.Sign t n) : ∀ c, c ∈ t → Plain c := by
  cases h <;> intro c hc <;> simp at hc <;> unfold Plain White <;> omega

theorem prefix_plain {t : List Nat} {n : Nat} (h : Spec.Prefix t n) : ∀ c, c ∈ t → Plain c := by
  cases h <;> intro c hc <;> simp at hc <;> unfold Plain White <;> omega

theorem body_plain {F : Type} {S : Spec.Sem F} {E : Nat → Prop} {X : Int → Prop} {b : List Nat} {x : F} (h : Spec.Body S E X b x) :
    ∀ c, c ∈ b → Plain c := by
  cases h with
  | empty => intro c hc; cases hc
  | dec hs hd _ => exact plain_append (sign_plain hs) (dec_plain hd)
  | inf hs =>
    refine plain_append (sign_plain hs) ?_
    intro c hc
    simp [Spec.infinity] at hc
    unfold Plain White
    omega
  | other hp _ hd _ => exact plain_append (prefix_plain hp) (digits_plain hd)

theorem lit_chars {F : Type} {S : Spec.Sem F} {E : Nat → Prop} {X : Int → Prop} {s : List Nat} {x : F} (h : Spec.Lit S E X s x) :
    ∀ c, c ∈ s → White c ∨ Plain c := by
  obtain ⟨w, b, w', rfl, hw, hw', hb⟩ := h
  intro c hc
  rcases List.mem_append.1 hc with hc | hc
  · exact .inl (hw c hc)
  · rcases List.mem_append.1 hc with hc | hc
    · exact .inr (body_plain hb c hc)
    · exact .inl (hw' c hc)

theorem not_lit_char {F : Type} {S : Spec.Sem F} {E : Nat → Prop} {X : Int → Prop} {s : List Nat} {c : Nat} (hc : c ∈ s)
    (h : c = 47 ∨ c = 92 ∨ c = 0x85) (x : F) : ¬ Spec.Lit S E X s x := by
  intro hl
  have := lit_chars hl c hc
  unfold Plain White at this
  omega

end Verif.StrNum

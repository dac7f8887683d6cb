import Verif.Lemmas.LexTok2

/-! Lemmas for C89: what is read is a token; whole texts. -/
namespace Verif.Lex
open Json (Out Uni isDigit isHex isLine units digitNext skip units_eq isLine_iff isDigit_iff)
open Json.Spec (IsDigit IsHex IsLine utf16)
open Spec (Next Hexes)

/-- The tokens of the code that are known to be those of the standard: of the others see the
violations. -/
def Usual (w : List Nat) : Tok → Prop
  | .str _ _ => ¬ empty <:+: w
  | .templ _ _ => ¬ empty <:+: w
  | .regexp _ _ => ¬ [92, 93] <:+: w
  | .num _ => ¬ Spec.OctalPoint w
  | _ => True

theorem ReChars.mono {P Q : Nat → Prop} (h : ∀ c, P c → Q c) {cls t} (ht : Spec.ReChars P cls t) : Spec.ReChars Q cls t := by
  induction ht with
  | nil => exact .nil
  | char h1 h2 h3 h4 _ ih => exact .char h1 h2 h3 h4 ih
  | esc h1 _ ih => exact .esc h1 ih
  | cls _ ih => exact .cls ih
  | clsChar h1 h2 h3 _ ih => exact .clsChar h1 h2 h3 ih
  | clsEsc h1 h2 _ ih => exact .clsEsc h1 (h _ h2) ih
  | clsEnd _ ih => exact .clsEnd ih

theorem map_ok {α β : Type} {g : α → β} {o : Out α} {b rest} (h : o.map g = .ok b rest) : ∃ a, o = .ok a rest ∧ b = g a := by
  cases o with
  | ok a r => cases h; exact ⟨a, rfl, rfl⟩
  | err => cases h
  | undef => cases h
  | fuel => cases h

theorem templAt_ok {head : Bool} {s s' : St} {cs rest : List Nat} {tok} (h : templAt head s cs = .ok (tok, s') rest) :
    ∃ body last w cooked, cs = body ++ w ∧ Fin last w rest ∧ Spec.TChars True body cooked ∧
      tok = .templ head ⟨last, cooked, body.flatMap utf16⟩ ∧ s' = templSt head last s := by
  unfold templAt at h
  cases ht : lexTempl (cs.length + 1) false [] [] cs with
  | ok t r =>
    rw [ht] at h
    cases h
    obtain ⟨body, c, uc, last, w, h1, h2, h3, h4, h5⟩ := lexTempl_sound ht
    simp only [List.nil_append] at h4 h5
    rw [templTok_eq h3 h4] at h5
    exact ⟨body, last, w, c, h1, h2, h3, by rw [h5], by rw [h5]⟩
  | err => rw [ht] at h; cases h
  | undef => rw [ht] at h; cases h
  | fuel => rw [ht] at h; cases h

/-- The result of a token: its text, the braces, what it is. -/
def Good (U : Uni) (m : Mode) (op : List Bool) (first : Bool) (cs rest : List Nat) (tok : Tok) (s' : St) : Prop :=
  ∃ w, cs = w ++ rest ∧ Braces (Spec.after op tok) s'.level s'.templs ∧ s'.first = first ∧
    (Usual w tok → ∃ tok', Spec.Std U m (op.head? == some true) w rest tok' ∧ Spec.norm tok = Spec.norm tok')

theorem punct_good {U : Uni} {m : Mode} {op : List Bool} {s : St} {c : Nat} {cs rest p : List Nat}
    (hb : Braces op s.level s.templs) (h : lexPunct (c :: cs) = .ok p rest) (h123 : c ≠ 123) (h125 : c ≠ 125)
    (h46 : c = 46 → ¬ Next IsDigit cs) (h47 : c = 47 → m.div = true) :
    Good U m op s.first (c :: cs) rest (.punct p) s := by
  obtain ⟨h1, h2⟩ := lexPunct_ok h
  obtain ⟨c', t, rfl, hp⟩ := punct_head h2.1.1
  rw [List.cons_append] at h1
  obtain ⟨rfl, rfl⟩ := List.cons.inj h1
  refine ⟨c :: t, rfl, ?_, rfl, fun _ => ⟨_, ?_, rfl⟩⟩
  · simpa [Spec.after, h123, h125] using hb
  · refine .punct h2 ?_ ?_ ?_
    · intro h
      obtain ⟨rfl, rfl⟩ := List.cons.inj h
      exact h46 rfl
    · intro hd hn
      rw [Next.cons] at hn
      rw [h47 hn] at hd
      cases hd
    · intro _ h
      exact h125 (List.cons.inj h).1

theorem num_good {U : Uni} {m : Mode} {op : List Bool} {s : St} {c : Nat} {cs rest : List Nat} {t : NumTok}
    (hb : Braces op s.level s.templs) (h : lexNumber U m.strict (c :: cs) = .ok t rest)
    (h0 : isDigit c = true ∨ c = 46 ∧ Next IsDigit cs) :
    Good U m op s.first (c :: cs) rest (.num t) s := by
  obtain ⟨w, h1, h2, h3, h4⟩ := lexNumber_ok h0 h
  refine ⟨w, h1, hb, rfl, fun hu => ?_⟩
  rcases h4 with ⟨h5, h6⟩ | ⟨h5, h6, h7 | ⟨ds, h7, h8⟩⟩
  · refine ⟨_, .num h6 h2 (fun _ => rfl), ?_⟩
    rw [← h5]
  · exact absurd h7 hu
  · refine ⟨_, .num h7 h2 (fun hs => ?_), ?_⟩
    · have := h3 hs
      rw [h5] at this
      exact this
    · obtain ⟨base, text, isBig, legacy⟩ := t
      dsimp only at *
      subst h5 h6
      rcases h8 with rfl | rfl <;> simp [Spec.norm]

theorem tokenAt_ok {U : Uni} {m : Mode} {s s' : St} {op : List Bool} {c : Nat} {cs rest : List Nat} {tok : Tok}
    (hb : Braces op s.level s.templs) (hg : Spec.NoGap U (c :: cs)) (h : tokenAt U m s c cs = .ok (tok, s') rest) :
    Good U m op s.first (c :: cs) rest tok s' := by
  have hcont := hb.cont
  unfold tokenAt at h
  by_cases h1 : (decide (c = 34) || decide (c = 39)) = true
  · rw [if_pos h1] at h
    obtain ⟨t, h2, h3⟩ := map_ok h
    cases h3
    simp only [Bool.or_eq_true, decide_eq_true_eq] at h1
    obtain ⟨-, body, v, e, l, rfl, h4, rfl⟩ := lexString_sound (by unfold IsDigit; omega) h2
    refine ⟨c :: (body ++ [c]), by simp, hb, rfl, fun hu => ⟨_, .str h1 (Chars.strict h4 ?_) ?_, rfl⟩⟩
    · exact infix_head (infix_tail (a := [c]) hu)
    · simpa using unpaired_iff v
  rw [if_neg h1] at h
  by_cases h46 : c = 46
  · rw [if_pos h46] at h
    by_cases hd : digitNext cs = true
    · rw [if_pos hd] at h
      obtain ⟨t, h2, h3⟩ := map_ok h
      cases h3
      exact num_good hb h2 (Or.inr ⟨h46, (digitNext_iff cs).1 hd⟩)
    · rw [if_neg hd] at h
      obtain ⟨t, h2, h3⟩ := map_ok h
      cases h3
      exact punct_good hb h2 (by omega) (by omega) (fun _ => by rw [← digitNext_iff]; exact hd) (by omega)
  rw [if_neg h46] at h
  by_cases h47 : c = 47
  · rw [if_pos h47] at h
    subst h47
    by_cases hd : m.div = true
    · rw [if_pos hd] at h
      obtain ⟨t, h2, h3⟩ := map_ok h
      cases h3
      exact punct_good hb h2 (by omega) (by omega) (by omega) (fun _ => hd)
    · rw [if_neg hd] at h
      obtain ⟨⟨src, flags⟩, h2, h3⟩ := map_ok h
      cases h3
      unfold lexRegexp at h2
      cases hr : reBody false [] cs with
      | none => rw [hr] at h2; cases h2
      | some v =>
        obtain ⟨src', r⟩ := v
        rw [hr] at h2
        cases h2
        obtain ⟨body, rfl, rfl, h3⟩ := reBody_ok cs.length (Nat.le_refl _) hr
        obtain ⟨t1, t2, t3⟩ := takeWhile_ok (p := U.isCont) r
        refine ⟨47 :: (body ++ 47 :: r.takeWhile U.isCont), by simp [t3], hb, rfl, fun hu => ⟨_, .regexp (by simpa using hd)
          ⟨ReChars.mono (fun _ _ => trivial) (h3 (infix_head (infix_tail (a := [47]) hu))), ?_, ?_⟩
          (fun c hc => (isCont_iff U c).1 (t1 c hc)) ?_, ?_⟩⟩
        · rintro rfl
          exact hg.2.1 _ rfl
        · rintro r' rfl
          exact hg.2.2 _ rfl
        · rintro ⟨c, r', h4, h5⟩
          exact t2 ⟨c, r', h4, (isCont_iff U c).2 h5⟩
        · simp [units_fun]
  rw [if_neg h47] at h
  by_cases h96 : c = 96
  · rw [if_pos h96] at h
    subst h96
    obtain ⟨body, last, w, cooked, rfl, h2, h3, rfl, rfl⟩ := templAt_ok h
    rcases h2 with ⟨rfl, rfl⟩ | ⟨rfl, rfl⟩
    · exact ⟨96 :: (body ++ [96]), by simp, (templSt_head hb true _ _).1, (templSt_head hb true cooked []).2, fun hu =>
        ⟨_, .plain (TChars.strict h3 (infix_head (infix_tail (a := [96]) hu))), rfl⟩⟩
    · exact ⟨96 :: (body ++ [36, 123]), by simp, (templSt_head hb false _ _).1, (templSt_head hb false cooked []).2, fun hu =>
        ⟨_, .head (TChars.strict h3 (infix_head (infix_tail (a := [96]) hu))), rfl⟩⟩
  rw [if_neg h96] at h
  by_cases h123 : c = 123
  · rw [if_pos h123] at h
    subst h123
    cases h
    exact ⟨[123], rfl, .brace hb, rfl, fun _ => ⟨_, .punct (longest_single (by decide) (fun t h => h.left rfl) _) (by simp)
      (fun _ => by rw [Next.cons]; omega) (by simp), rfl⟩⟩
  rw [if_neg h123] at h
  by_cases h125 : c = 125
  · rw [if_pos h125] at h
    subst h125
    by_cases ht : s.templs.head? = some s.level
    · rw [if_pos ht] at h
      have hc := hcont.2 ht
      obtain ⟨body, last, w, cooked, rfl, h2, h3, rfl, rfl⟩ := templAt_ok h
      rcases h2 with ⟨rfl, rfl⟩ | ⟨rfl, rfl⟩
      · exact ⟨125 :: (body ++ [96]), by simp, (templSt_cont hb ht true _ _).1, (templSt_cont hb ht true cooked []).2, fun hu =>
          ⟨_, .tail hc (TChars.strict h3 (infix_head (infix_tail (a := [125]) hu))), rfl⟩⟩
      · exact ⟨125 :: (body ++ [36, 123]), by simp, (templSt_cont hb ht false _ _).1, (templSt_cont hb ht false cooked []).2, fun hu =>
          ⟨_, .middle hc (TChars.strict h3 (infix_head (infix_tail (a := [125]) hu))), rfl⟩⟩
    · rw [if_neg ht] at h
      cases h
      exact ⟨[125], rfl, hb.pop ht, rfl, fun _ => ⟨_, .punct (longest_single (by decide) (fun t h => h.right rfl) _) (by simp)
        (fun _ => by rw [Next.cons]; omega) (fun hc => absurd (hcont.1 hc) ht), rfl⟩⟩
  rw [if_neg h125] at h
  by_cases h92 : c = 92
  · rw [if_pos h92] at h
    split at h
    · obtain ⟨t, h2, h3⟩ := map_ok h
      cases h3
      obtain ⟨w, h4, h5, h6, h7⟩ := lexIdent_iff.1 h2
      refine ⟨w, h4, hb, rfl, fun _ => ⟨_, .ident h5 h6, ?_⟩⟩
      rw [← h7]
    · obtain ⟨t, h2, h3⟩ := map_ok h
      cases h3
      exact punct_good hb h2 h123 h125 (by omega) (by omega)
  rw [if_neg h92] at h
  by_cases h35 : c = 35
  · rw [if_pos h35] at h
    subst h35
    obtain ⟨t, h2, h3⟩ := map_ok h
    cases h3
    obtain ⟨v, h4, rfl⟩ := map_ok h2
    obtain ⟨w, e, rfl, h5, h6⟩ := identName_iff.1 h4
    exact ⟨35 :: w, rfl, hb, rfl, fun _ => ⟨_, .priv h5 h6, rfl⟩⟩
  rw [if_neg h35] at h
  by_cases hd : isDigit c = true
  · rw [if_pos hd] at h
    obtain ⟨t, h2, h3⟩ := map_ok h
    cases h3
    exact num_good hb h2 (Or.inl hd)
  rw [if_neg hd] at h
  by_cases hs : U.isStart c = true
  · rw [if_pos hs] at h
    obtain ⟨t, h2, h3⟩ := map_ok h
    cases h3
    obtain ⟨w, h4, h5, h6, h7⟩ := lexIdent_iff.1 h2
    refine ⟨w, h4, hb, rfl, fun _ => ⟨_, .ident h5 h6, ?_⟩⟩
    rw [← h7]
  rw [if_neg hs] at h
  obtain ⟨t, h2, h3⟩ := map_ok h
  cases h3
  exact punct_good hb h2 h123 h125 (by omega) (by omega)

/-! ### The beginning of a token -/

theorem hashbang_else {cs : List Nat} (h : ∀ r, cs ≠ 35 :: 33 :: r) : hashbang cs = cs := by
  unfold hashbang
  split
  · rename_i r; exact absurd rfl (h r)
  · rfl

theorem lineEnd_nil {m : List Nat} (hm : ∀ x ∈ m, ¬ IsLine x) : lineEnd m = [] := by
  rcases lineEnd_spec m with ⟨h, _⟩ | ⟨a, c, h1, h2, h3⟩
  · exact h
  · exact absurd h3 (hm c (by rw [h1]; simp))

theorem Token.head35 {U : Uni} {E P m cont w rest tok} (h : Spec.Token U E P m cont w rest tok) : ∀ r, w ++ rest ≠ 35 :: 33 :: r := by
  intro r hr
  cases h with
  | fin => cases hr
  | str hq _ _ => rw [List.cons_append] at hr; have := (List.cons.inj hr).1; omega
  | num hn _ _ =>
    obtain ⟨c, t, rfl, hh⟩ := Num.head hn
    rw [List.cons_append] at hr; have := (List.cons.inj hr).1
    unfold IsDigit at hh; omega
  | punct hl _ _ _ =>
    obtain ⟨c, t, rfl, hh⟩ := punct_head hl.1.1
    rw [List.cons_append] at hr; exact hh.h35 (List.cons.inj hr).1
  | head _ => rw [List.cons_append] at hr; have := (List.cons.inj hr).1; omega
  | plain _ => rw [List.cons_append] at hr; have := (List.cons.inj hr).1; omega
  | middle _ _ => rw [List.cons_append] at hr; have := (List.cons.inj hr).1; omega
  | tail _ _ => rw [List.cons_append] at hr; have := (List.cons.inj hr).1; omega
  | regexp _ _ _ _ => rw [List.cons_append] at hr; have := (List.cons.inj hr).1; omega
  | priv hn _ =>
    obtain ⟨c, t, rfl, hh⟩ := Name.head hn
    rw [List.cons_append] at hr
    have := (List.cons.inj (List.cons.inj hr).2).1
    unfold Spec.IsStart at hh; omega
  | ident hn _ =>
    obtain ⟨c, t, rfl, hh⟩ := Name.head hn
    rw [List.cons_append] at hr
    have := (List.cons.inj hr).1
    unfold Spec.IsStart at hh; omega

theorem begin_of {U : Uni} {first : Bool} {g r : List Nat} {s : St} (hs : s.first = first) (h : Spec.Before U first g r)
    (hr : ∀ t, r ≠ 35 :: 33 :: t) : ∃ b, begin s (g ++ r) = b ++ r ∧ Spec.Gap U r.isEmpty b := by
  obtain ⟨h', b, rfl, h1, h2, h3, h4⟩ := h
  refine ⟨b, ?_, h3⟩
  unfold begin
  rw [hs]
  cases first with
  | false => rw [h1 rfl]; simp
  | true =>
    rw [if_pos rfl]
    generalize hf : (b ++ r).isEmpty = fin at h2
    cases h2 with
    | none =>
      rw [List.nil_append]
      apply hashbang_else
      intro t ht
      cases b with
      | nil => exact hr t ht
      | cons c b =>
        rw [List.cons_append] at ht
        have hc := (List.cons.inj ht).1
        generalize r.isEmpty = fin' at h3
        cases h3 with
        | white h _ => unfold Spec.IsWhite IsLine at h; omega
        | line _ _ _ => omega
        | last _ => omega
        | block _ _ => omega
    | @line _ m c hm hc =>
      have e : 35 :: 33 :: (m ++ [c]) ++ b ++ r = 35 :: 33 :: (m ++ c :: (b ++ r)) := by simp
      rw [e]
      exact lineEnd_of hm hc _
    | @last m hm =>
      rw [List.isEmpty_iff] at hf
      rw [List.append_assoc, hf, List.append_nil]
      exact lineEnd_nil hm

theorem begin_ok {U : Uni} {s : St} {cs b r : List Nat} (h : begin s cs = b ++ r) (h1 : Spec.Gap U r.isEmpty b) (h2 : Spec.NoGap U r) :
    ∃ g, cs = g ++ r ∧ Spec.Before U s.first g r := by
  unfold begin at h
  cases hs : s.first with
  | false =>
    rw [hs] at h
    exact ⟨b, by simpa using h, [], b, rfl, fun _ => rfl, .none, h1, h2⟩
  | true =>
    rw [hs, if_pos rfl] at h
    by_cases hh : ∃ t, cs = 35 :: 33 :: t
    · obtain ⟨t, rfl⟩ := hh
      have h : lineEnd t = b ++ r := h
      rcases lineEnd_spec t with ⟨h3, h4⟩ | ⟨m, c, h3, h4, h5⟩
      · rw [h3] at h
        have hbr := h.symm
        rw [List.append_eq_nil_iff] at hbr
        obtain ⟨rfl, rfl⟩ := hbr
        exact ⟨35 :: 33 :: t, by simp, 35 :: 33 :: t, [], by simp, by simp, .last h4, h1, h2⟩
      · rw [h] at h3
        refine ⟨35 :: 33 :: (m ++ [c]) ++ b, by rw [h3]; simp, 35 :: 33 :: (m ++ [c]), b, rfl, by simp, .line h4 h5, h1, h2⟩
    · rw [hashbang_else (fun t ht => hh ⟨t, ht⟩)] at h
      exact ⟨b, h, [], b, rfl, fun _ => rfl, .none, h1, h2⟩

/-! ### `rjs_lex_get_token` -/

theorem token_of {U : Uni} (hU : Spec.Fits U) {m : Mode} {s : St} {op : List Bool} {g w rest : List Nat} {tok : Tok}
    (hb : Braces op s.level s.templs) (hg : Spec.Before U s.first g (w ++ rest))
    (h : Spec.Token U False (· ≠ 93) m (op.head? == some true) w rest tok) (hr : Readable w rest tok) :
    ∃ tok' s', token U m s (g ++ (w ++ rest)) = .ok (tok', s') rest ∧ Spec.norm tok' = Spec.norm tok ∧
      Braces (Spec.after op tok) s'.level s'.templs ∧ s'.first = false := by
  obtain ⟨b, h1, h2⟩ := begin_of rfl hg (Token.head35 h)
  have h3 := skip_of hU h2 (fun h => List.isEmpty_iff.1 h) (by obtain ⟨_, _, _, _, _, _, h⟩ := hg; exact h)
  unfold token
  rw [h1, h3]
  cases hw : w ++ rest with
  | nil =>
    obtain ⟨rfl, rfl⟩ := List.append_eq_nil_iff.1 hw
    cases h with
    | fin => exact ⟨_, _, rfl, rfl, hb, rfl⟩
    | num hn _ _ => obtain ⟨_, _, h, _⟩ := Num.head hn; cases h
    | punct hl _ _ _ => obtain ⟨_, _, h, _⟩ := punct_head hl.1.1; cases h
    | ident hn _ => obtain ⟨_, _, h, _⟩ := Name.head hn; cases h
  | cons c r =>
    obtain ⟨tok', s', h4, h5, h6, h7⟩ := tokenAt_of (s := { s with first := false }) h hr hb hw
    exact ⟨tok', s', h4, h5, h6, h7⟩

theorem token_ok {U : Uni} (hU : Spec.Fits U) {m : Mode} {s s' : St} {op : List Bool} {cs rest : List Nat} {tok : Tok}
    (hb : Braces op s.level s.templs) (h : token U m s cs = .ok (tok, s') rest) :
    ∃ g w, cs = g ++ (w ++ rest) ∧ Spec.Before U s.first g (w ++ rest) ∧
      Braces (Spec.after op tok) s'.level s'.templs ∧ s'.first = false ∧
      (Usual w tok → ∃ tok', Spec.Std U m (op.head? == some true) w rest tok' ∧ Spec.norm tok = Spec.norm tok') := by
  unfold token at h
  cases hk : skip U .space (begin s cs) with
  | none => rw [hk] at h; cases h
  | some r =>
    rw [hk] at h
    obtain ⟨b, h1, h2, h3⟩ := skip_ok hU .space _ _ hk
    obtain ⟨g, h4, h5⟩ := begin_ok h1 h2 h3
    cases r with
    | nil =>
      cases h
      exact ⟨g, [], h4, h5, hb, rfl, fun _ => ⟨_, .fin, rfl⟩⟩
    | cons c r =>
      obtain ⟨w, h6, h7, h8, h9⟩ := tokenAt_ok (s := { s with first := false }) hb h3 h
      rw [h6] at h4 h5
      exact ⟨g, w, h4, h5, h7, h8, h9⟩

/-! ### Undefined behaviour, end of the loops -/

theorem map_undef {α β : Type} {g : α → β} {o : Out α} (h : o.map g = .undef) : o = .undef := by
  cases o <;> first | rfl | cases h

theorem map_fuel {α β : Type} {g : α → β} {o : Out α} (h : o.map g = .fuel) : o = .fuel := by
  cases o <;> first | rfl | cases h

theorem lexNumber_fine (U : Uni) (strict : Bool) (cs : List Nat) :
    lexNumber U strict cs ≠ .undef ∧ lexNumber U strict cs ≠ .fuel := by
  unfold lexNumber
  split
  · simp
  · simp only; repeat' split
    all_goals simp

theorem lexIdent_undef {U : Uni} {cs : List Nat} (h : lexIdent U cs = .undef) : ¬ Spec.Small cs := by
  unfold lexIdent at h
  cases hi : Json.lexIdent U cs with
  | ok s r => rw [hi] at h; cases h
  | err => rw [hi] at h; cases h
  | undef => exact identName_undef hi
  | fuel => rw [hi] at h; cases h

theorem lexIdent_fuel {U : Uni} {cs : List Nat} : lexIdent U cs ≠ .fuel := by
  intro h
  unfold lexIdent at h
  cases hi : Json.lexIdent U cs with
  | ok s r => rw [hi] at h; cases h
  | err => rw [hi] at h; cases h
  | undef => rw [hi] at h; cases h
  | fuel => exact identName_fuel hi

theorem lexRegexp_fine (U : Uni) (cs : List Nat) : lexRegexp U cs ≠ .undef ∧ lexRegexp U cs ≠ .fuel := by
  unfold lexRegexp
  split <;> simp

theorem templAt_undef {head : Bool} {s : St} {cs : List Nat} (h : templAt head s cs = .undef) : ¬ Spec.Small cs := by
  unfold templAt at h
  cases hi : lexTempl (cs.length + 1) false [] [] cs with
  | ok t r => rw [hi] at h; cases h
  | err => rw [hi] at h; cases h
  | undef => exact lexTempl_undef hi
  | fuel => rw [hi] at h; cases h

theorem templAt_fuel {head : Bool} {s : St} {cs : List Nat} : templAt head s cs ≠ .fuel := by
  intro h
  unfold templAt at h
  cases hi : lexTempl (cs.length + 1) false [] [] cs with
  | ok t r => rw [hi] at h; cases h
  | err => rw [hi] at h; cases h
  | undef => rw [hi] at h; cases h
  | fuel => exact lexTempl_fuel (by omega) hi

/-- Undefined behaviour only with large values; the loops end. -/
def Fine {α : Type} (cs : List Nat) (o : Out α) : Prop := (o = .undef → ¬ Spec.Small cs) ∧ o ≠ .fuel

theorem Fine.map {α β : Type} {cs : List Nat} {o : Out α} (h : Fine cs o) (g : α → β) : Fine cs (o.map g) :=
  ⟨fun h' => h.1 (map_undef h'), fun h' => h.2 (map_fuel h')⟩

theorem Fine.tail {α : Type} {c : Nat} {cs : List Nat} {o : Out α} (h : Fine cs o) : Fine (c :: cs) o :=
  ⟨fun h' hs => h.1 h' (Small.tail (a := [c]) hs), h.2⟩

theorem Fine.of {α : Type} {cs : List Nat} {o : Out α} (h : o ≠ .undef ∧ o ≠ .fuel) : Fine cs o :=
  ⟨fun h' => absurd h' h.1, h.2⟩

theorem tokenAt_fine {U : Uni} {m : Mode} {s : St} {c : Nat} {cs : List Nat} : Fine (c :: cs) (tokenAt U m s c cs) := by
  have num := fun g : NumTok → Tok × St => (Fine.of (cs := c :: cs) (lexNumber_fine U m.strict (c :: cs))).map g
  have pun := fun g : List Nat → Tok × St => (Fine.of (cs := c :: cs) (lexPunct_fine (c :: cs))).map g
  have idn : Fine (c :: cs) (lexIdent U (c :: cs)) := ⟨fun h => lexIdent_undef h, lexIdent_fuel⟩
  have tmp : ∀ h, Fine (c :: cs) (templAt h s cs) := fun _ => Fine.tail ⟨fun h => templAt_undef h, templAt_fuel⟩
  have okk : ∀ t : Tok × St, Fine (c :: cs) (Out.ok t cs) := fun _ => ⟨fun h => (nomatch h), fun h => (nomatch h)⟩
  unfold tokenAt
  split
  · exact (Fine.tail ⟨fun h => lexString_undef h, lexString_fuel (by omega)⟩).map _
  · split
    · split
      · exact num _
      · exact pun _
    · split
      · split
        · exact pun _
        · exact (Fine.of (lexRegexp_fine U cs)).map _
      · split
        · exact tmp _
        · split
          · exact okk _
          · split
            · split
              · exact tmp _
              · exact okk _
            · split
              · split
                · exact idn.map _
                · exact pun _
              · split
                · refine Fine.map ?_ _
                  unfold lexPrivate
                  exact Fine.map (Fine.tail ⟨fun h => identName_undef h, identName_fuel⟩) _
                · split
                  · exact num _
                  · split
                    · exact idn.map _
                    · exact pun _

theorem token_fine {U : Uni} (hU : Spec.Fits U) {m : Mode} {s : St} {cs : List Nat} :
    (token U m s cs = .undef → ¬ Spec.Small cs) ∧ token U m s cs ≠ .fuel := by
  unfold token
  cases hk : skip U .space (begin s cs) with
  | none => exact ⟨fun h => (nomatch h), fun h => (nomatch h)⟩
  | some r =>
    cases r with
    | nil => exact ⟨fun h => (nomatch h), fun h => (nomatch h)⟩
    | cons c r =>
      refine ⟨fun h => ?_, tokenAt_fine.2⟩
      obtain ⟨b, h1, h2, h3⟩ := skip_ok hU .space _ _ hk
      obtain ⟨g, h4, h5⟩ := begin_ok h1 h2 h3
      rw [h4]
      exact fun hs => tokenAt_fine.1 h (Small.tail hs)

/-! ### Whole texts -/

theorem after_norm {op : List Bool} {a b : Tok} (h : Spec.norm a = Spec.norm b) : Spec.after op a = Spec.after op b := by
  cases a <;> cases b <;> simp [Spec.norm] at h <;> first | rfl | (subst h; rfl) | (obtain ⟨rfl, rfl⟩ := h; rfl)

theorem tokens_of {U : Uni} (hU : Spec.Fits U) {first : Bool} {op : List Bool} {ms : List Mode} {cs last : List Nat} {toks : List Tok}
    (h : Spec.Source U (fun m cont w rest tok => Spec.Token U False (· ≠ 93) m cont w rest tok ∧ Readable w rest tok)
      first op ms cs toks last) {s : St} (hb : Braces op s.level s.templs) (hf : s.first = first) :
    ∃ toks', tokens U ms s cs = .ok toks' last ∧ toks'.map Spec.norm = toks.map Spec.norm := by
  induction h generalizing s with
  | nil => exact ⟨[], rfl, rfl⟩
  | @cons first op m ms g w rest tok toks last h1 h2 _ ih =>
    subst hf
    obtain ⟨tok', s', h3, h4, h5, h6⟩ := token_of hU hb h1 h2.1 h2.2
    obtain ⟨toks', h7, h8⟩ := ih h5 h6
    refine ⟨tok' :: toks', ?_, by simp [h4, h8]⟩
    simp [tokens, h3, h7, Out.map]

theorem tokens_ok {U : Uni} (hU : Spec.Fits U) {op : List Bool} {ms : List Mode} {s : St} {cs last : List Nat} {toks : List Tok}
    (hb : Braces op s.level s.templs) (h : tokens U ms s cs = .ok toks last) :
    Spec.Source U (fun m cont w rest tok => Usual w tok → ∃ tok', Spec.Std U m cont w rest tok' ∧ Spec.norm tok = Spec.norm tok')
      s.first op ms cs toks last := by
  induction ms generalizing s cs toks op with
  | nil => cases h; exact .nil
  | cons m ms ih =>
    simp only [tokens] at h
    cases ht : token U m s cs with
    | ok v rest =>
      obtain ⟨tok, s'⟩ := v
      rw [ht] at h
      obtain ⟨toks', h1, rfl⟩ := map_ok h
      obtain ⟨g, w, rfl, h2, h3, h4, h5⟩ := token_ok hU hb ht
      have := ih h3 h1
      rw [h4] at this
      exact .cons h2 h5 this
    | err => rw [ht] at h; cases h
    | undef => rw [ht] at h; cases h
    | fuel => rw [ht] at h; cases h

end Verif.Lex

import Verif.Lemmas.LexTrie
import Verif.Lemmas.Json
import Verif.Spec.Lex

/-! Lemmas for C89: punctuators and words. -/
namespace Verif.Lex
open Json (Out isDigit digitNext)

variable {α : Type}

/-- What has been found on the way to a word. -/
def Way (f : List Nat → Option α) (n : List Nat) (tt : Option α) (buf : List Nat) : Prop :=
  match tt with
  | none => buf = n ∧ ∀ w r, w ++ r = n → r ≠ [] → f w = none
  | some t => ∃ m, n = m ++ buf ∧ f m = some t ∧
      ∀ w r, w ++ r = n → r ≠ [] → f w ≠ none → w.length ≤ m.length

theorem Way.buf_le {f : List Nat → Option α} {n tt buf} (h : Way f n tt buf) : buf.length ≤ n.length := by
  cases tt with
  | none => rw [h.1]; exact Nat.le_refl _
  | some t => obtain ⟨m, rfl, _⟩ := h; simp

theorem split_last {w r n : List Nat} {c : Nat} (h : w ++ r = n ++ [c]) (hr : r ≠ []) :
    ∃ r', w ++ r' = n := by
  rcases List.eq_nil_or_concat r with rfl | ⟨r', x, rfl⟩
  · exact absurd rfl hr
  · rw [List.concat_eq_append, ← List.append_assoc] at h
    exact ⟨r', List.append_inj_left' h rfl⟩

theorem split_long {w r n cs : List Nat} {c : Nat} (h : w ++ r = n ++ c :: cs) :
    (∃ r', w ++ r' = n) ∨ ∃ k, w = n ++ [c] ++ k := by
  rcases List.append_eq_append_iff.1 h with ⟨a, h1, h2⟩ | ⟨a, h1, h2⟩
  · exact Or.inl ⟨a, h1.symm⟩
  · cases a with
    | nil => exact Or.inl ⟨[], by simpa using h1⟩
    | cons x a =>
      obtain ⟨rfl, h3⟩ := List.cons.inj h2
      exact Or.inr ⟨a, by simp [h1]⟩

theorem Way.next {f : List Nat → Option α} {n tt buf} (h : Way f n tt buf) (c : Nat) :
    Way f (n ++ [c]) ((f n).or tt) ((if (f n).isSome then [] else buf) ++ [c]) := by
  cases hf : f n with
  | some t =>
    simp only [Option.some_or, Option.isSome_some, if_true, List.nil_append]
    refine ⟨n, rfl, hf, ?_⟩
    intro w r hw hr _
    obtain ⟨r', rfl⟩ := split_last hw hr
    simp
  | none =>
    simp only [Option.none_or, Option.isSome_none, Bool.false_eq_true, if_false]
    cases tt with
    | none =>
      refine ⟨by rw [h.1], ?_⟩
      intro w r hw hr
      obtain ⟨r', hr'⟩ := split_last hw hr
      cases r' with
      | nil => rw [List.append_nil] at hr'; rw [hr', hf]
      | cons x r' => exact h.2 w _ hr' (by simp)
    | some t =>
      obtain ⟨m, h1, h2, h3⟩ := h
      refine ⟨m, by rw [h1]; simp, h2, ?_⟩
      intro w r hw hr hne
      obtain ⟨r', hr'⟩ := split_last hw hr
      cases r' with
      | nil => rw [List.append_nil] at hr'; rw [hr', hf] at hne; exact absurd rfl hne
      | cons x r' => exact h3 w _ hr' (by simp) hne

/-- The word found is the longest one. -/
def Best (f : List Nat → Option α) (text : List Nat) (o : Out α) : Prop :=
  (∃ t w rest, o = .ok t rest ∧ w ++ rest = text ∧ f w = some t ∧
    ∀ w' r', w' ++ r' = text → f w' ≠ none → w'.length ≤ w.length) ∨
  (o = .err ∧ ∀ w' r', w' ++ r' = text → f w' = none)

theorem Way.stop {f : List Nat → Option α} {n tt buf} (h : Way f n tt buf) (cs : List Nat)
    (hcs : ∀ w r, w ++ r = n ++ cs → f w ≠ none → ∃ r', w ++ r' = n) :
    Best f (n ++ cs) (match (f n).or tt with
      | some t => .ok t ((if (f n).isSome then [] else buf) ++ cs)
      | none => .err) := by
  cases hf : f n with
  | some t =>
    simp only [Option.some_or, Option.isSome_some, if_true, List.nil_append]
    refine Or.inl ⟨t, n, cs, rfl, rfl, hf, ?_⟩
    intro w r hw hne
    obtain ⟨r', rfl⟩ := hcs w r hw hne
    simp
  | none =>
    simp only [Option.none_or, Option.isSome_none, Bool.false_eq_true, if_false]
    cases tt with
    | none =>
      refine Or.inr ⟨rfl, ?_⟩
      intro w r hw
      cases hfw : f w with
      | none => rfl
      | some t =>
        obtain ⟨r', hr'⟩ := hcs w r hw (by rw [hfw]; simp)
        cases r' with
        | nil => rw [List.append_nil] at hr'; rw [hr', hf] at hfw; exact absurd hfw (by simp)
        | cons x r' => rw [h.2 w _ hr' (by simp)] at hfw; exact absurd hfw (by simp)
    | some t =>
      obtain ⟨m, h1, h2, h3⟩ := h
      refine Or.inl ⟨t, m, buf ++ cs, rfl, by rw [h1]; simp, h2, ?_⟩
      intro w r hw hne
      obtain ⟨r', hr'⟩ := hcs w r hw hne
      cases r' with
      | nil => rw [List.append_nil] at hr'; rw [hr', hf] at hne; exact absurd rfl hne
      | cons x r' => exact h3 w _ hr' (by simp) hne

theorem prefix_closed {tab : List (Entry α)} {names f} (h : Inv tab names f) (n k : List Nat)
    (hk : n ++ k ∈ names) : n ∈ names := by
  have : ∀ k : List Nat, n ++ k.reverse ∈ names → n ∈ names := by
    intro k
    induction k with
    | nil => simp
    | cons x k ih' => intro hk; exact ih' (h.par _ x (by simpa using hk))
  exact this k.reverse (by simpa using hk)

theorem punctLoop_best {tab : List (Entry α)} {names f} (h : Inv tab names f)
    (hlen : ∀ m ∈ names, m.length < 8) {p : Nat} {n tt buf} (hp : names[p]? = some n)
    (hw : Way f n tt buf) (cs : List Nat) : Best f (n ++ cs) (punctLoop tab p tt buf cs) := by
  induction cs generalizing p n tt buf with
  | nil =>
    obtain ⟨e, he⟩ := h.entry hp
    have hs := hw.stop [] (fun w r hr _ => ⟨r, by simpa using hr⟩)
    have hres := h.res p e n he hp
    simp only [punctLoop, he, Option.bind_some, hres]
    cases hf : f n with
    | some t => simpa [hf] using hs
    | none =>
      cases tt with
      | none => simpa [hf] using hs
      | some t => simpa [hf] using hs
  | cons c cs ih =>
    obtain ⟨e, he⟩ := h.entry hp
    have hres := h.res p e n he hp
    have hb : (if e.result.isSome then [] else buf).length < 8 := by
      have := hw.buf_le
      have := hlen n (List.mem_of_getElem? hp)
      split <;> simp <;> omega
    unfold punctLoop
    rw [he]
    dsimp only
    rw [if_pos hb]
    rcases h.find hp he c with ⟨i, h1, h2⟩ | ⟨h1, h2⟩
    · rw [h1]
      dsimp only
      have := ih h2 (hw.next c)
      rw [hres]
      simpa using this
    · rw [h1]
      dsimp only
      rw [hres]
      refine hw.stop (c :: cs) ?_
      intro w r hr hne
      rcases split_long hr with hx | ⟨k, rfl⟩
      · exact hx
      · exfalso
        refine hne (h.out _ (fun hm => h2 (prefix_closed h _ k hm)))

/-! ### The punctuators -/

theorem lastOf_self (ws : List (List Nat)) (m : List Nat) :
    lastOf (ws.map (fun w => (w, w))) m = if m ∈ ws then some m else none := by
  have : ∀ o : Option (List Nat), (ws.map (fun w => (w, w))).foldl
      (fun o w => if m = w.1 then some w.2 else o) o = if m ∈ ws then some m else o := by
    induction ws with
    | nil => simp
    | cons w ws ih =>
      intro o
      simp only [List.map_cons, List.foldl_cons, ih, List.mem_cons]
      by_cases h1 : m = w
      · subst h1; simp
      · simp [h1]
  exact this none

theorem puncts_iff (m : List Nat) : m ∈ punctuators.map chars ↔ m ∈ Spec.puncts.map chars := by
  have h : ∀ a ∈ punctuators.map chars, a ∈ Spec.puncts.map chars := by decide +kernel
  have h' : ∀ a ∈ Spec.puncts.map chars, a ∈ punctuators.map chars := by decide +kernel
  exact ⟨h m, h' m⟩

theorem digitNext_iff (t : List Nat) : digitNext t = true ↔ Spec.Next Json.Spec.IsDigit t := by
  cases t with
  | nil => simp [digitNext, Spec.Next]
  | cons c r =>
    simp only [digitNext, Json.isDigit_iff, Spec.Next]
    constructor
    · intro h; exact ⟨c, r, rfl, h⟩
    · rintro ⟨_, _, h, hd⟩; cases h; exact hd

/-- `lex_punctuator` gives the longest punctuator. -/
theorem lexPunct_spec (cs : List Nat) :
    (∃ p rest, lexPunct cs = .ok p rest ∧ p ++ rest = cs ∧ Spec.Longest p rest) ∨
    (lexPunct cs = .err ∧ ∀ p t, p ++ t = cs → ¬ Spec.PunctAt p t) := by
  obtain ⟨names, h, hn⟩ := buildTable_inv (punctuators.map (fun w => (chars w, chars w)))
  have hmap : punctuators.map (fun w => (chars w, chars w)) = (punctuators.map chars).map (fun w => (w, w)) := by
    rw [List.map_map]; rfl
  have hf : ∀ m, lastOf (punctuators.map (fun w => (chars w, chars w))) m =
      if m ∈ Spec.puncts.map chars then some m else none := by
    intro m
    rw [hmap, lastOf_self]
    simp only [puncts_iff]
  have hlen : ∀ m ∈ names, m.length < 8 := by
    intro m hm
    rcases (hn m).1 hm with rfl | ⟨w, hw, hp⟩
    · simp
    · have h1 : ∀ w ∈ punctuators.map (fun w => (chars w, chars w)), w.1.length < 8 := by decide +kernel
      have := hp.length_le
      have := h1 w hw
      omega
  have hb := punctLoop_best h hlen h.root (tt := none) (buf := []) (n := [])
    ⟨rfl, fun w r hw hr => by simp at hw; exact absurd hw.2 hr⟩ cs
  rw [List.nil_append] at hb
  rcases hb with ⟨t, w, rest, h1, h2, h3, h4⟩ | ⟨h1, h2⟩
  · rw [hf] at h3
    have hw : w ∈ Spec.puncts.map chars := by
      by_cases hw : w ∈ Spec.puncts.map chars
      · exact hw
      · rw [if_neg hw] at h3; exact absurd h3 (by simp)
    rw [if_pos hw] at h3
    obtain rfl : w = t := Option.some.inj h3
    left
    unfold lexPunct
    rw [show punctLoop punctTable 0 none [] cs = .ok w rest from h1]
    dsimp only
    have hmax : ∀ p' t', p' ++ t' = cs → p' ∈ Spec.puncts.map chars → p'.length ≤ w.length := by
      intro p' t' hp hm
      exact h4 p' t' hp (by rw [hf, if_pos hm]; simp)
    by_cases hq : (w = quesDot && digitNext rest) = true
    · rw [if_pos hq]
      simp only [Bool.and_eq_true, decide_eq_true_eq] at hq
      obtain ⟨rfl, hd⟩ := hq
      refine ⟨[63], 46 :: rest, rfl, by rw [← h2]; rfl, ⟨by decide +kernel, fun h => by simp at h⟩, ?_⟩
      intro p' t' hp hat
      have hp' : p' ++ t' = cs := by rw [hp, ← h2]; rfl
      have hl := hmax p' t' hp' hat.1
      have hl2 : p'.length ≤ 2 := hl
      simp only [List.length_singleton]
      rcases Nat.lt_or_ge p'.length 2 with hlt | hge
      · omega
      · exfalso
        have he : p' = quesDot := by
          have := List.append_inj (s₁ := p') (s₂ := quesDot) (t₁ := t') (t₂ := rest) (by rw [hp', h2]) (by simp [quesDot]; omega)
          exact this.1
        subst he
        have ht : t' = rest := by
          have := hp'.trans h2.symm
          exact List.append_cancel_left this
        subst ht
        exact hat.2 rfl ((digitNext_iff _).1 hd)
    · rw [if_neg hq]
      refine ⟨w, rest, rfl, h2, ⟨hw, ?_⟩, ?_⟩
      · rintro rfl hd
        apply hq
        rw [(digitNext_iff _).2 hd]; rfl
      · intro p' t' hp hat
        exact hmax p' t' (hp.trans h2) hat.1
  · right
    refine ⟨by unfold lexPunct; rw [show punctLoop punctTable 0 none [] cs = .err from h1], ?_⟩
    intro p t hp hat
    have := h2 p t hp
    rw [hf, if_pos hat.1] at this
    exact absurd this (by simp)

/-! ### Words -/

/-- What `lex_identifier` finds out about a word. -/
theorem wordLoop_wordTable {s : List Nat} (hs : s ≠ []) : wordLoop wordTable 0 s = Spec.wordOf s := by
  obtain ⟨names, h, hn⟩ := buildTable_inv (reservedWords.map (fun w => (chars w, Word.reserved)) ++
    strictWords.map (fun w => (chars w, Word.strict)) ++ knownWords.map (fun w => (chars w, Word.known)))
  have h1 := wordLoop_eq h h.root hs
  rw [List.nil_append] at h1
  rw [show wordLoop wordTable 0 s = _ from h1]
  have key : ∀ (ws : List String) (k : Word) (o : Option Word),
      (ws.map (fun w => (chars w, k))).foldl (fun o w => if s = w.1 then some w.2 else o) o =
        if s ∈ ws.map chars then some k else o := by
    intro ws k
    induction ws with
    | nil => simp
    | cons w ws ih =>
      intro o
      simp only [List.map_cons, List.foldl_cons, ih, List.mem_cons]
      by_cases h1 : s = chars w
      · rw [if_pos (Or.inl h1), if_pos h1]; split <;> rfl
      · rw [if_neg h1]; simp only [h1, false_or]
  unfold lastOf
  rw [List.foldl_append, List.foldl_append, key, key, key]
  unfold Spec.wordOf
  have e1 : ∀ s, s ∈ reservedWords.map chars ↔ s ∈ Spec.reserved.map chars := fun s => Iff.rfl
  have e2 : s ∈ strictWords.map chars ↔ s ∈ Spec.strictReserved.map chars := by
    have h : ∀ a ∈ strictWords.map chars, a ∈ Spec.strictReserved.map chars := by decide +kernel
    have h' : ∀ a ∈ Spec.strictReserved.map chars, a ∈ strictWords.map chars := by decide +kernel
    exact ⟨h s, h' s⟩
  have e3 : ∀ s, s ∈ knownWords.map chars ↔ s ∈ Spec.contextual.map chars := fun s => Iff.rfl
  have d1 : ∀ a ∈ Spec.reserved.map chars, a ∉ Spec.strictReserved.map chars ∧ a ∉ Spec.contextual.map chars := by
    decide +kernel
  have d2 : ∀ a ∈ Spec.strictReserved.map chars, a ∉ Spec.contextual.map chars := by decide +kernel
  simp only [e1, e2, e3]
  by_cases hr : s ∈ Spec.reserved.map chars
  · simp only [if_pos hr, if_neg (d1 s hr).2, if_neg (d1 s hr).1]
  · by_cases hst : s ∈ Spec.strictReserved.map chars
    · simp only [if_neg hr, if_pos hst, if_neg (d2 s hst)]
    · simp only [if_neg hr, if_neg hst]

end Verif.Lex

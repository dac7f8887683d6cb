import Verif.Model.Lex

/-! Lemmas for C89: the tables made by `lextab.c`. -/
namespace Verif.Lex
open Json (Out)

variable {α : Type}

/-- The entries reached from a link; links go to entries made before. -/
inductive Chain (tab : List (Entry α)) : Nat → Option Nat → List Nat → Prop
  | nil {b} : Chain tab b none []
  | cons {b i e l} : i < b → tab[i]? = some e → Chain tab i e.next l → Chain tab b (some i) (i :: l)

theorem Chain.mono {tab tab' : List (Entry α)} {b b' : Nat} {o l} (h : Chain tab b o l) (hb : b ≤ b')
    (ht : ∀ (i : Nat) (e : Entry α), tab[i]? = some e → ∃ e' : Entry α, tab'[i]? = some e' ∧ e'.next = e.next) :
    Chain tab' b' o l := by
  induction h generalizing b' with
  | nil => exact .nil
  | cons hi he _ ih =>
    obtain ⟨e', h1, h2⟩ := ht _ _ he
    exact .cons (by omega) h1 (by rw [h2]; exact ih (Nat.le_refl _))

theorem find_chain {tab : List (Entry α)} {c b f : Nat} {o l} (h : Chain tab b o l) (hf : b ≤ f) :
    (∃ i e, find tab c f o = .entry i ∧ i ∈ l ∧ tab[i]? = some e ∧ e.c = c) ∨
    (find tab c f o = .none ∧ ∀ i ∈ l, ∀ e, tab[i]? = some e → e.c ≠ c) := by
  induction h generalizing f with
  | nil => right; exact ⟨by unfold find; rfl, fun i hi => by cases hi⟩
  | @cons b i e l hi he hl ih =>
    obtain ⟨g, rfl⟩ : ∃ g, f = g + 1 := ⟨f - 1, by omega⟩
    simp only [find, he]
    by_cases hc : e.c = c
    · left; exact ⟨i, e, by rw [if_pos hc], by simp, he, hc⟩
    · rw [if_neg hc]
      rcases ih (f := g) (by omega) with ⟨j, e', h1, h2, h3, h4⟩ | ⟨h1, h2⟩
      · left; exact ⟨j, e', h1, by simp [h2], h3, h4⟩
      · right
        refine ⟨h1, ?_⟩
        intro j hj e' he'
        rcases List.mem_cons.1 hj with rfl | hj
        · rw [he] at he'; cases he'; exact hc
        · exact h2 j hj e' he'

/-- Every entry of the table stands for a word, the one spelled on the way to it. -/
structure Inv (tab : List (Entry α)) (names : List (List Nat)) (f : List Nat → Option α) : Prop where
  len : names.length = tab.length
  root : names[0]? = some []
  nodup : names.Nodup
  chain : ∀ (p : Nat) (e : Entry α) (n : List Nat), tab[p]? = some e → names[p]? = some n →
    ∃ l, Chain tab tab.length e.child l ∧
      (∀ i ∈ l, ∃ (x : Nat) (e' : Entry α), names[i]? = some (n ++ [x]) ∧ tab[i]? = some e' ∧ e'.c = x) ∧
      ∀ (i x : Nat), names[i]? = some (n ++ [x]) → i ∈ l
  res : ∀ (i : Nat) (e : Entry α) (n : List Nat), tab[i]? = some e → names[i]? = some n → e.result = f n
  out : ∀ m, m ∉ names → f m = none
  par : ∀ m x, m ++ [x] ∈ names → m ∈ names

theorem Inv.entry {tab : List (Entry α)} {names f} (h : Inv tab names f) {p : Nat} {n}
    (hp : names[p]? = some n) : ∃ e, tab[p]? = some e := by
  have : p < names.length := (List.getElem?_eq_some_iff.1 hp).1
  rw [h.len] at this
  exact ⟨_, List.getElem?_eq_getElem this⟩

theorem Inv.inj {tab : List (Entry α)} {names f} (h : Inv tab names f) {i j : Nat} {n}
    (hi : names[i]? = some n) (hj : names[j]? = some n) : i = j := by
  obtain ⟨h1, h2⟩ := List.getElem?_eq_some_iff.1 hi
  obtain ⟨h3, h4⟩ := List.getElem?_eq_some_iff.1 hj
  have hn := List.pairwise_iff_getElem.1 h.nodup
  rcases Nat.lt_trichotomy i j with hlt | heq | hlt
  · exact absurd (h2.trans h4.symm) (hn i j h1 h3 hlt)
  · exact heq
  · exact absurd (h4.trans h2.symm) (hn j i h3 h1 hlt)

/-- The children of an entry. -/
theorem Inv.find {tab : List (Entry α)} {names f} (h : Inv tab names f) {p : Nat} {n e}
    (hp : names[p]? = some n) (he : tab[p]? = some e) (c : Nat) :
    (∃ i, Lex.find tab c tab.length e.child = .entry i ∧ names[i]? = some (n ++ [c])) ∨
    (Lex.find tab c tab.length e.child = .none ∧ n ++ [c] ∉ names) := by
  obtain ⟨l, hl, h1, h2⟩ := h.chain p e n he hp
  rcases find_chain (c := c) hl (Nat.le_refl _) with ⟨i, e', ha, hb, hc, hd⟩ | ⟨ha, hb⟩
  · left
    obtain ⟨x, e'', h3, h4, h5⟩ := h1 i hb
    rw [hc] at h4; cases h4
    exact ⟨i, ha, by rw [h3, ← h5, hd]⟩
  · right
    refine ⟨ha, ?_⟩
    intro hm
    obtain ⟨i, hi⟩ := List.mem_iff_getElem?.1 hm
    have hil := h2 i c hi
    obtain ⟨x, e'', h3, h4, h5⟩ := h1 i hil
    refine hb i hil e'' h4 ?_
    rw [hi] at h3
    have := List.append_cancel_left (Option.some.inj h3)
    rw [h5]; exact (List.cons.inj this).1.symm

theorem Inv.child {tab : List (Entry α)} {names f} (h : Inv tab names f) {p : Nat} {n}
    (hp : names[p]? = some n) (c : Nat) :
    (∃ i, Lex.child tab p c = .entry i ∧ names[i]? = some (n ++ [c])) ∨
    (Lex.child tab p c = .none ∧ n ++ [c] ∉ names) := by
  obtain ⟨e, he⟩ := h.entry hp
  have := h.find hp he c
  simpa only [Lex.child, he] using this

theorem Inv.start : Inv (Lex.start (α := α)) [[]] (fun _ => none) where
  len := rfl
  root := rfl
  nodup := by simp
  chain := by
    intro p e n he hn
    cases p with
    | succ p => simp [Lex.start] at he
    | zero =>
      simp [Lex.start] at he hn
      subst he; subst hn
      refine ⟨[], .nil, by simp, ?_⟩
      intro i x hi
      cases i <;> simp at hi
  res := by
    intro i e n he _
    cases i with
    | succ p => simp [Lex.start] at he
    | zero => simp [Lex.start] at he; subst he; rfl
  out := fun _ _ => rfl
  par := by intro m x h; simp at h

theorem addChild_get {tab : List (Entry α)} {p : Nat} {e} (he : tab[p]? = some e) (c i : Nat) :
    (addChild tab p c)[i]? =
      if i = p then some { e with child := some tab.length }
      else if i = tab.length then some ⟨c, e.child, none, none⟩ else tab[i]? := by
  have hp : p < tab.length := (List.getElem?_eq_some_iff.1 he).1
  simp only [addChild, he]
  by_cases h1 : i = p
  · subst h1
    rw [if_pos rfl, List.getElem?_append_left (by simpa using hp), List.getElem?_set_self hp]
  · rw [if_neg h1]
    by_cases h2 : i = tab.length
    · subst h2
      rw [if_pos rfl, List.getElem?_append_right (by simp)]
      simp
    · rw [if_neg h2]
      by_cases h3 : i < tab.length
      · rw [List.getElem?_append_left (by simpa using h3), List.getElem?_set_ne (fun h => h1 h.symm)]
      · rw [List.getElem?_eq_none (by simp; omega), List.getElem?_eq_none (by omega)]

theorem addChild_length {tab : List (Entry α)} {p : Nat} {e} (he : tab[p]? = some e) (c : Nat) :
    (addChild tab p c).length = tab.length + 1 := by
  simp [addChild, he]

/-- A new child. -/
theorem Inv.add {tab : List (Entry α)} {names f} (h : Inv tab names f) {p : Nat} {n} {c : Nat}
    (hp : names[p]? = some n) (hc : n ++ [c] ∉ names) :
    Inv (addChild tab p c) (names ++ [n ++ [c]]) f := by
  obtain ⟨e, he⟩ := h.entry hp
  have hpl : p < tab.length := (List.getElem?_eq_some_iff.1 he).1
  have hlen := addChild_length he c
  have hget := addChild_get he c
  have hname : ∀ i, (names ++ [n ++ [c]])[i]? = if i = tab.length then some (n ++ [c]) else names[i]? := by
    intro i
    by_cases h1 : i = tab.length
    · subst h1; rw [if_pos rfl, List.getElem?_append_right (by rw [h.len]; exact Nat.le_refl _)]; simp [h.len]
    · rw [if_neg h1]
      by_cases h2 : i < tab.length
      · rw [List.getElem?_append_left (by rw [h.len]; exact h2)]
      · rw [List.getElem?_eq_none (by simp [h.len]; omega), List.getElem?_eq_none (by rw [h.len]; omega)]
  have hnl : ∀ {i m}, names[i]? = some m → i ≠ tab.length := by
    intro i m hi
    have := (List.getElem?_eq_some_iff.1 hi).1
    rw [h.len] at this; omega
  have hkeep : ∀ (i : Nat) (e' : Entry α), tab[i]? = some e' → ∃ e'' : Entry α, (addChild tab p c)[i]? = some e'' ∧ e''.next = e'.next ∧
      e''.c = e'.c ∧ e''.result = e'.result := by
    intro i e' hi
    rw [hget]
    by_cases h1 : i = p
    · subst h1; rw [if_pos rfl]; rw [he] at hi; cases hi; exact ⟨_, rfl, rfl, rfl, rfl⟩
    · rw [if_neg h1, if_neg (by have := (List.getElem?_eq_some_iff.1 hi).1; omega)]
      exact ⟨_, hi, rfl, rfl, rfl⟩
  refine ⟨by simp [hlen, h.len], ?_, ?_, ?_, ?_, ?_, ?_⟩
  · rw [hname, if_neg (by omega)]; exact h.root
  · refine List.nodup_append.2 ⟨h.nodup, by simp, ?_⟩
    intro a ha b hb
    simp only [List.mem_singleton] at hb
    subst hb
    intro hab; subst hab; exact hc ha
  · intro q e' m hq hm
    rw [hget] at hq
    rw [hname] at hm
    by_cases h1 : q = p
    · -- the parent
      subst h1
      rw [if_pos rfl] at hq; cases hq
      rw [if_neg (by omega), hp] at hm; cases hm
      obtain ⟨l, hl, ha, hb⟩ := h.chain q e n he hp
      refine ⟨tab.length :: l, .cons (by omega) (by rw [hget, if_neg (by omega), if_pos rfl]) ?_, ?_, ?_⟩
      · exact hl.mono (Nat.le_refl _) (fun i e' hi => by obtain ⟨e'', x, y, _⟩ := hkeep i e' hi; exact ⟨e'', x, y⟩)
      · intro i hi
        rcases List.mem_cons.1 hi with rfl | hi
        · exact ⟨c, _, by rw [hname, if_pos rfl], by rw [hget, if_neg (by omega), if_pos rfl], rfl⟩
        · obtain ⟨x, e', h3, h4, h5⟩ := ha i hi
          obtain ⟨e'', h6, h7, h8, _⟩ := hkeep i e' h4
          exact ⟨x, e'', by rw [hname, if_neg (hnl h3)]; exact h3, h6, by rw [h8, h5]⟩
      · intro i x hi
        rw [hname] at hi
        by_cases h2 : i = tab.length
        · subst h2; simp
        · rw [if_neg h2] at hi; exact List.mem_cons_of_mem _ (hb i x hi)
    · rw [if_neg h1] at hq
      by_cases h2 : q = tab.length
      · -- the new entry
        subst h2
        rw [if_pos rfl] at hq hm; cases hq; cases hm
        refine ⟨[], .nil, by simp, ?_⟩
        intro i x hi
        rw [hname] at hi
        exfalso
        by_cases h3 : i = tab.length
        · rw [if_pos h3] at hi
          have := congrArg List.length (Option.some.inj hi)
          simp at this
        · rw [if_neg h3] at hi
          -- its parent would be in the table
          exact hc (h.par _ _ (List.mem_of_getElem? hi))
      · rw [if_neg h2] at hq hm
        obtain ⟨l, hl, ha, hb⟩ := h.chain q e' m hq hm
        refine ⟨l, ?_, ?_, ?_⟩
        · refine hl.mono (by omega) (fun i e' hi => by obtain ⟨e'', x, y, _⟩ := hkeep i e' hi; exact ⟨e'', x, y⟩)
        · intro i hi
          obtain ⟨x, e', h3, h4, h5⟩ := ha i hi
          obtain ⟨e'', h6, h7, h8, _⟩ := hkeep i e' h4
          exact ⟨x, e'', by rw [hname, if_neg (hnl h3)]; exact h3, h6, by rw [h8, h5]⟩
        · intro i x hi
          rw [hname] at hi
          by_cases h3 : i = tab.length
          · exfalso
            rw [if_pos h3] at hi
            have h4 := List.append_inj_left' (Option.some.inj hi) rfl
            exact h1 (h.inj hm (h4 ▸ hp))
          · rw [if_neg h3] at hi; exact hb i x hi
  · intro i e' m hi hm
    rw [hget] at hi
    rw [hname] at hm
    by_cases h1 : i = p
    · subst h1
      rw [if_pos rfl] at hi; cases hi
      rw [if_neg (by omega)] at hm
      exact h.res i e m he hm
    · rw [if_neg h1] at hi
      by_cases h2 : i = tab.length
      · subst h2
        rw [if_pos rfl] at hi hm; cases hi; cases hm
        exact (h.out _ hc).symm
      · rw [if_neg h2] at hi hm
        exact h.res i e' m hi hm
  · intro m hm
    exact h.out m (fun hx => hm (List.mem_append_left _ hx))
  · intro m x hm
    rcases List.mem_append.1 hm with hm | hm
    · exact List.mem_append_left _ (h.par m x hm)
    · simp only [List.mem_singleton] at hm
      rw [List.append_inj_left' hm rfl]
      exact List.mem_append_left _ (List.mem_of_getElem? hp)

/-- The loop of `build_token`. -/
theorem Inv.insert {tab : List (Entry α)} {names f} (h : Inv tab names f) {p : Nat} {n}
    (hp : names[p]? = some n) (cs : List Nat) :
    ∃ names', Inv (Lex.insert tab p cs).1 names' f ∧ names'[(Lex.insert tab p cs).2]? = some (n ++ cs) ∧
      ∀ m, m ∈ names' ↔ m ∈ names ∨ ∃ k, k <+: cs ∧ m = n ++ k := by
  induction cs generalizing tab names p n with
  | nil =>
    refine ⟨names, h, by simpa [Lex.insert] using hp, ?_⟩
    intro m
    constructor
    · exact Or.inl
    · rintro (hm | ⟨k, hk, rfl⟩)
      · exact hm
      · rw [List.prefix_nil.1 hk, List.append_nil]; exact List.mem_of_getElem? hp
  | cons c cs ih =>
    have key : ∀ (tab' : List (Entry α)) (names' : List (List Nat)) (i : Nat), Inv tab' names' f →
        names'[i]? = some (n ++ [c]) → (∀ m, m ∈ names' ↔ m ∈ names ∨ m = n ++ [c]) →
        ∃ names'', Inv (Lex.insert tab' i cs).1 names'' f ∧
          names''[(Lex.insert tab' i cs).2]? = some (n ++ c :: cs) ∧
          ∀ m, m ∈ names'' ↔ m ∈ names ∨ ∃ k, k <+: c :: cs ∧ m = n ++ k := by
      intro tab' names' i h' hi hm'
      obtain ⟨names'', h1, h2, h3⟩ := ih h' hi
      refine ⟨names'', h1, by simpa using h2, ?_⟩
      intro m
      rw [h3, hm']
      constructor
      · rintro ((hm | hm) | ⟨k, hk, rfl⟩)
        · exact Or.inl hm
        · exact Or.inr ⟨[c], by simp, hm⟩
        · exact Or.inr ⟨c :: k, by simpa using hk, by simp⟩
      · rintro (hm | ⟨k, hk, rfl⟩)
        · exact Or.inl (Or.inl hm)
        · cases k with
          | nil => rw [List.append_nil]; exact Or.inl (Or.inl (List.mem_of_getElem? hp))
          | cons d k =>
            obtain ⟨rfl, hk'⟩ := List.cons_prefix_cons.1 hk
            exact Or.inr ⟨k, hk', by simp⟩
    rcases h.child hp c with ⟨i, h1, h2⟩ | ⟨h1, h2⟩
    · have e : Lex.insert tab p (c :: cs) = Lex.insert tab i cs := by rw [Lex.insert, h1]
      rw [e]
      refine key tab names i h h2 (fun m => ⟨Or.inl, ?_⟩)
      rintro (hm | rfl)
      · exact hm
      · exact List.mem_of_getElem? h2
    · have e : Lex.insert tab p (c :: cs) = Lex.insert (addChild tab p c) tab.length cs := by
        rw [Lex.insert, h1]
      rw [e]
      refine key _ _ _ (h.add hp h2) ?_ (fun m => ?_)
      · rw [List.getElem?_append_right (by rw [h.len]; exact Nat.le_refl _)]; simp [h.len]
      · simp

/-- The results, with one more. -/
def upd (f : List Nat → Option α) (w : List Nat) (r : α) (m : List Nat) : Option α :=
  if m = w then some r else f m

theorem Inv.build {tab : List (Entry α)} {names f} (h : Inv tab names f) (w : List Nat) (r : α) :
    ∃ names', Inv (buildToken tab w r) names' (upd f w r) ∧
      ∀ m, m ∈ names' ↔ m ∈ names ∨ m <+: w := by
  obtain ⟨names', h1, h2, h3⟩ := h.insert h.root w
  rw [List.nil_append] at h2
  obtain ⟨e, he⟩ := h1.entry h2
  have hlt := (List.getElem?_eq_some_iff.1 he).1
  refine ⟨names', ?_, ?_⟩
  · have hget : ∀ i, (buildToken tab w r)[i]? =
        if i = (Lex.insert tab 0 w).2 then some { e with result := some r } else (Lex.insert tab 0 w).1[i]? := by
      intro i
      simp only [buildToken, he]
      by_cases hi : i = (Lex.insert tab 0 w).2
      · subst hi; rw [if_pos rfl, List.getElem?_set_self hlt]
      · rw [if_neg hi, List.getElem?_set_ne (fun h => hi h.symm)]
    have hlen : (buildToken tab w r).length = (Lex.insert tab 0 w).1.length := by simp [buildToken, he]
    have hkeep : ∀ (i : Nat) (e' : Entry α), (Lex.insert tab 0 w).1[i]? = some e' → ∃ e'' : Entry α,
        (buildToken tab w r)[i]? = some e'' ∧ e''.next = e'.next ∧ e''.c = e'.c := by
      intro i e' hi
      rw [hget]
      by_cases h1 : i = (Lex.insert tab 0 w).2
      · subst h1; rw [if_pos rfl]; rw [he] at hi; cases hi; exact ⟨_, rfl, rfl, rfl⟩
      · rw [if_neg h1]; exact ⟨_, hi, rfl, rfl⟩
    have hback : ∀ (i : Nat) (e'' : Entry α), (buildToken tab w r)[i]? = some e'' → ∃ e' : Entry α,
        (Lex.insert tab 0 w).1[i]? = some e' ∧ e'.child = e''.child := by
      intro i e'' hi
      rw [hget] at hi
      by_cases h1 : i = (Lex.insert tab 0 w).2
      · subst h1; rw [if_pos rfl] at hi; cases hi; exact ⟨e, he, rfl⟩
      · rw [if_neg h1] at hi; exact ⟨_, hi, rfl⟩
    refine ⟨by rw [h1.len, hlen], h1.root, h1.nodup, ?_, ?_, ?_, h1.par⟩
    · intro p e'' n hp hn
      obtain ⟨e', ha, hb⟩ := hback p e'' hp
      obtain ⟨l, hl, hc, hd⟩ := h1.chain p e' n ha hn
      refine ⟨l, ?_, ?_, hd⟩
      · rw [← hb, hlen]
        exact hl.mono (Nat.le_refl _) (fun i e' hi => by obtain ⟨x, y, z, _⟩ := hkeep i e' hi; exact ⟨x, y, z⟩)
      · intro i hi
        obtain ⟨x, e', h3, h4, h5⟩ := hc i hi
        obtain ⟨e'', h6, h7, h8⟩ := hkeep i e' h4
        exact ⟨x, e'', h3, h6, by rw [h8, h5]⟩
    · intro i e' n hi hn
      rw [hget] at hi
      by_cases hx : i = (Lex.insert tab 0 w).2
      · subst hx
        rw [if_pos rfl] at hi; cases hi
        rw [h2] at hn; cases hn
        simp [upd]
      · rw [if_neg hx] at hi
        have hne : n ≠ w := by
          rintro rfl
          exact hx (h1.inj hn h2)
        rw [upd, if_neg hne]
        exact h1.res i e' n hi hn
    · intro m hm
      have hne : m ≠ w := by
        rintro rfl
        exact hm (List.mem_of_getElem? h2)
      rw [upd, if_neg hne]
      exact h1.out m hm
  · intro m
    rw [h3]
    constructor
    · rintro (hm | ⟨k, hk, rfl⟩)
      · exact Or.inl hm
      · exact Or.inr (by simpa using hk)
    · rintro (hm | hm)
      · exact Or.inl hm
      · exact Or.inr ⟨m, hm, by simp⟩

/-- The last entry of a list for a word. -/
def lastOf (ws : List (List Nat × α)) (m : List Nat) : Option α :=
  ws.foldl (fun o w => if m = w.1 then some w.2 else o) none

/-- A table made from a list of words. -/
theorem foldl_table (ws : List (List Nat × α)) {tab : List (Entry α)} {names f} (h : Inv tab names f) :
    ∃ names', Inv (ws.foldl (fun tab w => buildToken tab w.1 w.2) tab) names'
        (fun m => ws.foldl (fun o w => if m = w.1 then some w.2 else o) (f m)) ∧
      ∀ m, m ∈ names' ↔ m ∈ names ∨ ∃ w ∈ ws, m <+: w.1 := by
  induction ws generalizing tab names f with
  | nil => exact ⟨names, h, by simp⟩
  | cons w ws ih =>
    obtain ⟨n1, h1, h2⟩ := h.build w.1 w.2
    obtain ⟨n2, h3, h4⟩ := ih h1
    refine ⟨n2, h3, ?_⟩
    intro m
    rw [h4, h2]
    simp only [List.mem_cons, exists_eq_or_imp]
    rw [or_assoc]

theorem buildTable_inv (ws : List (List Nat × α)) :
    ∃ names, Inv (buildTable ws) names (lastOf ws) ∧
      ∀ m, m ∈ names ↔ m = [] ∨ ∃ w ∈ ws, m <+: w.1 := by
  obtain ⟨n, h1, h2⟩ := foldl_table ws (Inv.start (α := α))
  exact ⟨n, h1, fun m => by rw [h2]; simp⟩

/-- Looking up a word. -/
theorem wordLoop_eq {tab : List (Entry α)} {names f} (h : Inv tab names f) {p : Nat} {n}
    (hp : names[p]? = some n) {cs : List Nat} (hc : cs ≠ []) : wordLoop tab p cs = f (n ++ cs) := by
  induction cs generalizing p n with
  | nil => exact absurd rfl hc
  | cons c cs ih =>
    have hpre : ∀ k, n ++ [c] ++ k ∈ names → n ++ [c] ∈ names := by
      intro k hk
      have : ∀ k : List Nat, n ++ [c] ++ k.reverse ∈ names → n ++ [c] ∈ names := by
        intro k
        induction k with
        | nil => simp
        | cons x k ih' => intro hk; exact ih' (h.par _ x (by simpa using hk))
      exact this k.reverse (by simpa using hk)
    rcases h.child hp c with ⟨i, h1, h2⟩ | ⟨h1, h2⟩
    · unfold wordLoop
      rw [h1]
      cases cs with
      | nil =>
        obtain ⟨e, he⟩ := h.entry h2
        simp only [he, Option.bind_some]
        exact h.res i e _ he h2
      | cons d cs =>
        have := ih h2 (by simp)
        simpa using this
    · unfold wordLoop
      rw [h1]
      dsimp only
      rw [h.out]
      intro hm
      exact h2 (hpre cs (by simpa using hm))

end Verif.Lex

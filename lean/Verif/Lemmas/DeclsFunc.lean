import Verif.Lemmas.DeclsScopes

/- Functions: parameters, the body, and the pops at the end. -/

namespace Verif.Decls

/-- All items of a declaration are parameters of a list. -/
def ParOnly (ys : List Nat) (c : Scope) : Prop := ∀ y k, look c y = some k ↔ (y ∈ ys ∧ k = .param)

theorem parOnly_nil (d : Nat) : ParOnly [] ⟨d, []⟩ := by
  intro y k; simp [look_nil]

theorem addParams_run {ps : Bool} {F : Fn} : ∀ (xs ys : List Nat) (st : PS) (c : Scope) (r : List Scope),
    st.stack = c :: r → c.Uniq → ParOnly ys c →
    ∃ st' c' dup, addParams ps F xs st = some (st', dup) ∧ st'.stack = c' :: r ∧ c'.id = c.id ∧
      c'.Uniq ∧ st'.next = st.next ∧ st'.tabs = st.tabs ∧ st'.imps = st.imps ∧
      ParOnly (ys ++ xs) c' ∧ (dup = false ↔ xs.Nodup ∧ ∀ x ∈ xs, x ∉ ys) ∧
      st'.err = (st.err || (dup && ps))
  | [], ys, st, c, r, hs, hu, hp => by
    refine ⟨st, c, false, rfl, hs, rfl, hu, rfl, rfl, rfl, by simpa using hp, by simp, by simp⟩
  | x :: xs, ys, st, c, r, hs, hu, hp => by
    cases hx : look c x with
    | none =>
      have ha : addItem ps F .param x st = some ({ st with stack := c.add x .param :: r }, false) := by
        unfold addItem
        rw [hs]
        simp [hx, refDecl]
      have hxy : x ∉ ys := by
        intro hm
        have := (hp x .param).2 ⟨hm, rfl⟩
        rw [hx] at this; cases this
      have hp' : ParOnly (ys ++ [x]) (c.add x .param) := by
        intro y k
        rw [look_add]
        by_cases e : x = y
        · subst e
          simp only [hx, Option.none_or, ↓reduceIte, Option.some.injEq, List.mem_append,
            List.mem_singleton, or_true, true_and]
          exact eq_comm
        · simp only [e, ↓reduceIte, Option.or_none, List.mem_append, List.mem_singleton]
          rw [hp y k]
          have : ¬ y = x := fun h => e h.symm
          simp [this]
      obtain ⟨st', c', dup, h1, h2, h3, h4, h5, h6, h7, h8, h9, h10⟩ :=
        addParams_run (ps := ps) (F := F) xs (ys ++ [x]) { st with stack := c.add x .param :: r }
          (c.add x .param) r rfl (hu.add hx) hp'
      refine ⟨st', c', dup, by simp [addParams, ha, h1], h2, h3, h4, h5, h6, h7, by simpa using h8,
        ?_, h10⟩
      rw [h9]
      simp only [List.nodup_cons, List.mem_cons, List.mem_append, List.not_mem_nil, or_false]
      constructor
      · rintro ⟨g1, g2⟩
        refine ⟨⟨fun hm => g2 x hm (Or.inr rfl), g1⟩, ?_⟩
        rintro z (rfl | hz)
        · exact hxy
        · exact fun hm => g2 z hz (Or.inl hm)
      · rintro ⟨⟨g0, g1⟩, g2⟩
        refine ⟨g1, ?_⟩
        rintro z hz (hm | hm)
        · exact g2 z (Or.inr hz) hm
        · subst hm; exact g0 hz
    | some k0 =>
      obtain ⟨hm, hk⟩ := (hp x k0).1 hx
      subst hk
      have ha : addItem ps F .param x st = some (flag ps st, true) := by
        unfold addItem
        rw [hs]
        simp [hx, canDup]
      obtain ⟨st', c', dup, h1, h2, h3, h4, h5, h6, h7, h8, h9, h10⟩ :=
        addParams_run (ps := ps) (F := F) xs ys (flag ps st) c r hs hu hp
      refine ⟨st', c', true, by simp [addParams, ha, h1], h2, h3, h4, h5, h6, h7, ?_, ?_, ?_⟩
      · intro y k
        rw [h8 y k]
        simp only [List.mem_append, List.mem_cons]
        constructor
        · rintro ⟨h | h, e⟩ <;> simp [h, e]
        · rintro ⟨h | h | h, e⟩
          · simp [h, e]
          · subst h; simp [hm, e]
          · simp [h, e]
      · simp only [Bool.true_eq_false, List.mem_cons, false_iff, not_and]
        intro _ h
        exact h x (Or.inl rfl) hm
      · rw [h10]; cases dup <;> cases ps <;> simp [flag]

/-- The names of an effect, without saying which kind of declaration. -/
structure NE (b : St) (ys : List Nat) (c c' : Scope) : Prop where
  par : ParOnly ys c
  old : ∀ x k, look c x = some k → look c' x = some k
  new : ∀ x k, look c x = none → look c' x = some k →
    VF true b x k ∨ (x ∈ LN true b ∧ k = .lex)
  has : ∀ x, isV true b x → look c' x ≠ none
  uq : c'.Uniq

theorem NE.params {b : St} {ys : List Nat} {c c' : Scope} (h : NE b ys c c') :
    SameNames (names (· == .param) c') ys := by
  refine ⟨nodup_names h.uq _, ?_⟩
  intro x
  rw [mem_names h.uq]
  constructor
  · rintro ⟨k, hk, hp⟩
    have : k = .param := by simpa using hp
    subst this
    cases hc : look c x with
    | some j => exact ((h.par x j).1 hc).1
    | none =>
      rcases h.new x _ hc hk with (⟨e, _⟩ | ⟨e, _⟩) | ⟨_, e⟩ <;> cases e
  · intro hx
    exact ⟨.param, h.old x _ ((h.par x .param).2 ⟨hx, rfl⟩), rfl⟩

theorem NE.vars {b : St} {ys : List Nat} {c c' : Scope} (h : NE b ys c c')
    (hdj : ∀ x ∈ LN true b, ¬ isV true b x) (L : List Nat)
    (hL : ∀ x, x ∈ L ↔ isV true b x ∧ x ∉ ys) :
    SameNames (names (fun k => k == .var || k == .fn) c') L := by
  refine ⟨nodup_names h.uq _, ?_⟩
  intro x
  rw [mem_names h.uq, hL]
  constructor
  · rintro ⟨k, hk, hp⟩
    cases hc : look c x with
    | some j =>
      have h1 := h.old x j hc
      rw [hk] at h1; cases h1
      have := ((h.par x k).1 hc).2
      subst this
      simp at hp
    | none =>
      refine ⟨?_, fun hm => ?_⟩
      · rcases h.new x k hc hk with h1 | ⟨_, e⟩
        · exact h1.isV
        · subst e; simp at hp
      · have := (h.par x .param).2 ⟨hm, rfl⟩
        rw [hc] at this; cases this
  · rintro ⟨hv, hn⟩
    cases hk : look c' x with
    | none => exact absurd hk (h.has x hv)
    | some k =>
      refine ⟨k, rfl, ?_⟩
      have hc : look c x = none := by
        cases hc : look c x with
        | none => rfl
        | some j => exact absurd ((h.par x j).1 hc).1 hn
      rcases h.new x k hc hk with (⟨e, _⟩ | ⟨e, _⟩) | ⟨e, _⟩
      · simp [e]
      · simp [e]
      · exact absurd hv (hdj x e)

theorem NE.lexs {b : St} {ys : List Nat} {c c' : Scope} (h : NE b ys c c')
    (hdj : ∀ x ∈ LN true b, ¬ isV true b x) (hfr : ∀ x ∈ LN true b, look c x = none)
    (hh : ∀ x ∈ LN true b, look c' x ≠ none) :
    SameNames (names (· == .lex) c') (LN true b) ∧
      (∀ x, look c' x = some .lex ↔ x ∈ LN true b) := by
  have key : ∀ x, look c' x = some .lex ↔ x ∈ LN true b := by
    intro x
    constructor
    · intro hk
      cases hc : look c x with
      | some j =>
        have h1 := h.old x j hc
        rw [hk] at h1; cases h1
        have := ((h.par x .lex).1 hc).2
        cases this
      | none =>
        rcases h.new x _ hc hk with (⟨e, _⟩ | ⟨e, _⟩) | ⟨e, _⟩
        · cases e
        · cases e
        · exact e
    · intro hx
      cases hk : look c' x with
      | none => exact absurd hk (hh x hx)
      | some k =>
        rcases h.new x k (hfr x hx) hk with h1 | ⟨_, e⟩
        · exact absurd h1.isV (hdj x hx)
        · rw [e]
  refine ⟨⟨nodup_names h.uq _, ?_⟩, key⟩
  intro x
  rw [mem_names h.uq, ← key]
  constructor
  · rintro ⟨k, hk, hp⟩
    have : k = .lex := by simpa using hp
    rw [← this]; exact hk
  · intro hk; exact ⟨.lex, hk, rfl⟩

/-- `func_pop` with the declarations found. -/
theorem funcPop_eq {h : Hdr} {strict dup : Bool} {p v l : Nat} {st : PS} {P V L : Scope}
    (hp : find st p = P) (hv : find st v = V) (hl : find st l = L) :
    funcPop h strict dup p v l st = popFunc p v l
      { st with
        err := st.err || ((h.useStrict && !h.simple) || (dup && (h.noDup || strict)) ||
          (p != l && P.items.any fun i => look L i.1 == some .lex))
        tabs := st.tabs ++ [funcTab P V L] } := by
  subst hp hv hl
  unfold funcPop paramClash
  by_cases e : p = l
  · subst e
    simp [flag, find, Bool.or_assoc]
  · have : (p != l) = true := bne_iff_ne.2 e
    rw [this]
    simp [flag, find, e, Bool.or_assoc]

theorem popIf_pop {st : PS} {c : Scope} {r : List Scope} (hs : st.stack = c :: r) {d : Nat}
    (hd : c.id = d) : (popIf d st).stack = r ∧ (popIf d st).next = st.next ∧
      (popIf d st).imps = st.imps ∧ (popIf d st).err = st.err ∧ (popIf d st).tabs = st.tabs := by
  rw [popIf_of hs hd]
  simp [pop, hs]

theorem popIf_skip {st : PS} {d : Nat} (h : ∀ c ∈ st.stack, c.id ≠ d) : popIf d st = st := by
  unfold popIf
  split
  · rfl
  · next c r hs => rw [if_neg (h c (by rw [hs]; exact List.mem_cons_self))]

/-- The stack a function's body is parsed on: four cases, by which of the three
declarations are separate. -/
inductive FPre (p v l : Nat) (P : Scope) (base : List Scope) : List Scope → List Scope → Prop where
  | one : v = p → l = p → FPre p v l P base [P] base
  | lex (L : Scope) : v = p → l = p + 1 → L = ⟨l, []⟩ → FPre p v l P base [L, P] base
  | var (V : Scope) : v = p + 1 → l = p + 1 → V = ⟨v, []⟩ → FPre p v l P base [V] (P :: base)
  | both (L V : Scope) : v = p + 1 → l = p + 2 → L = ⟨l, []⟩ → V = ⟨v, []⟩ →
      FPre p v l P base [L, V] (P :: base)

theorem bodyPush_pre {expr sep : Bool} {st : PS} {P : Scope} {base : List Scope}
    (hs : st.stack = P :: base) (hn : st.next = P.id + 1) :
    ∃ cur rest, FPre P.id (varOf P.id expr) (lexOf P.id expr sep) P base cur rest ∧
      (bodyPush expr sep st).stack = cur ++ rest ∧
      lexOf P.id expr sep < (bodyPush expr sep st).next ∧
      (expr = false → varOf P.id expr = P.id) ∧ (expr = true → varOf P.id expr = P.id + 1) ∧
      (bodyPush expr sep st).err = st.err ∧ (bodyPush expr sep st).imps = st.imps ∧
      (bodyPush expr sep st).tabs = st.tabs := by
  cases expr <;> cases sep
  · exact ⟨_, _, .one rfl rfl, hs, by simp [bodyPush, lexOf, varOf, hn], by simp [varOf], by simp,
      rfl, rfl, rfl⟩
  · exact ⟨_, _, .lex ⟨P.id + 1, []⟩ rfl rfl rfl, by simp [bodyPush, push, hs, hn],
      by simp [bodyPush, push, lexOf, varOf, hn], by simp [varOf], by simp, rfl, rfl, rfl⟩
  · exact ⟨_, _, .var ⟨P.id + 1, []⟩ rfl rfl rfl, by simp [bodyPush, push, hs, hn],
      by simp [bodyPush, push, lexOf, varOf, hn], by simp, by simp [varOf], rfl, rfl, rfl⟩
  · exact ⟨_, _, .both ⟨P.id + 2, []⟩ ⟨P.id + 1, []⟩ rfl rfl rfl rfl, by simp [bodyPush, push, hs, hn],
      by simp [bodyPush, push, lexOf, varOf, hn], by simp, by simp [varOf], rfl, rfl, rfl⟩

theorem FPre.good {p v l n : Nat} {P : Scope} {base cur rest : List Scope}
    (h : FPre p v l P base cur rest) (hP : P.id = p) (hu : P.Uniq) (hlt : ∀ c ∈ base, c.id < p)
    (hn : l < n) : Good ⟨false, v, l⟩ cur rest n := by
  cases h with
  | one h1 h2 =>
    subst h1 h2 hP
    refine ⟨?_, by simp, ⟨[], by simp⟩, by simp, by simpa using hu⟩
    intro c hc
    rcases List.mem_append.1 hc with e | e
    · rw [List.mem_singleton.1 e]; exact hn
    · have := hlt c e; omega
  | lex L h1 h2 h3 =>
    subst h1 h3 hP
    refine ⟨?_, by simp [h2], ⟨[l], by simp⟩, by simp, by simp [hu, uniq_nil]⟩
    intro c hc
    simp only [List.cons_append, List.nil_append, List.mem_cons] at hc
    rcases hc with rfl | rfl | e
    · exact hn
    · show c.id < n; omega
    · have := hlt c e; omega
  | var V h1 h2 h3 =>
    subst h3 hP
    refine ⟨?_, by simp, ⟨[], by simp⟩, by simp [h1, h2], by simp [uniq_nil]⟩
    intro c hc
    simp only [List.cons_append, List.nil_append, List.mem_cons] at hc
    rcases hc with rfl | rfl | e
    · show v < n; omega
    · omega
    · have := hlt c e; omega
  | both L V h1 h2 h3 h4 =>
    subst h3 h4 hP
    refine ⟨?_, by simp [h1, h2], ⟨[l], by simp⟩, by simp, by simp [uniq_nil]⟩
    intro c hc
    simp only [List.cons_append, List.nil_append, List.mem_cons] at hc
    rcases hc with rfl | rfl | rfl | e
    · exact hn
    · show v < n; omega
    · omega
    · have := hlt c e; omega

theorem FPre.top {p v l : Nat} {P : Scope} {base cur rest : List Scope}
    (h : FPre p v l P base cur rest) (hP : P.id = p) : Top ⟨false, v, l⟩ true cur := by
  cases h with
  | one h1 h2 => subst h1 h2 hP; exact ⟨by simp, by simp [lexK]⟩
  | lex L h1 h2 h3 => subst h1 h3 hP; exact ⟨by simp, by simp [lexK]⟩
  | var V h1 h2 h3 => subst h3 hP; exact ⟨by simp [h1, h2], by simp [lexK]⟩
  | both L V h1 h2 h3 h4 => subst h3 h4 hP; exact ⟨by simp, by simp [lexK]⟩

theorem FPre.items {p v l : Nat} {P : Scope} {base cur rest : List Scope} {ys : List Nat}
    (h : FPre p v l P base cur rest) (hp : ParOnly ys P) :
    ∀ c ∈ cur, ∀ x k, look c x = some k → x ∈ ys ∧ k = .param := by
  cases h <;> simp_all [look_nil, hp] <;> exact fun x k hk => (hp x k).1 hk

theorem FPre.inv {p v l : Nat} {P : Scope} {base cur rest : List Scope} {ys : List Nat}
    (h : FPre p v l P base cur rest) (hp : ParOnly ys P) : Inv ⟨false, v, l⟩ true cur := by
  have hi := h.items hp
  refine ⟨?_, ?_⟩
  · cases h <;> simp_all [Mono, look_nil]
  · cases cur with
    | nil => trivial
    | cons c tl =>
      intro _ c' hc' x hx
      have := (hi c' (List.mem_cons_of_mem _ hc') x _ hx).2
      cases this

/-- What is known at the end of a function's body. -/
structure FPost (h : Hdr) (b : St) (p v l : Nat) (P : Scope) (base : List Scope) (st : PS)
    (P' V' L' : Scope) : Prop where
  fp : find st p = P'
  fv : find st v = V'
  fl : find st l = L'
  pops : ∀ st3 : PS, st3.stack = st.stack → (popFunc p v l st3).stack = base ∧
    (popFunc p v l st3).next = st3.next ∧ (popFunc p v l st3).imps = st3.imps ∧
    (popFunc p v l st3).err = st3.err ∧ (popFunc p v l st3).tabs = st3.tabs

theorem popFunc_one {p : Nat} {base : List Scope} {P : Scope} {st : PS} (hP : P.id = p)
    (hb : ∀ c ∈ base, c.id < p) (hs : st.stack = P :: base) :
    (popFunc p p p st).stack = base ∧ (popFunc p p p st).next = st.next ∧
      (popFunc p p p st).imps = st.imps ∧ (popFunc p p p st).err = st.err ∧
      (popFunc p p p st).tabs = st.tabs := by
  have h1 := popIf_pop hs hP
  have h2 : popIf p (popIf p st) = popIf p st := by
    apply popIf_skip
    intro c hc
    rw [h1.1] at hc
    have := hb c hc; omega
  unfold popFunc
  rw [h2, h2]
  exact h1

theorem popFunc_lex {p l : Nat} {base : List Scope} {P L : Scope} {st : PS} (hP : P.id = p)
    (hL : L.id = l) (hb : ∀ c ∈ base, c.id < p) (hs : st.stack = L :: P :: base) :
    (popFunc p p l st).stack = base ∧ (popFunc p p l st).next = st.next ∧
      (popFunc p p l st).imps = st.imps ∧ (popFunc p p l st).err = st.err ∧
      (popFunc p p l st).tabs = st.tabs := by
  obtain ⟨a1, a2, a3, a4, a5⟩ := popIf_pop hs hL
  obtain ⟨b1, b2, b3, b4, b5⟩ := popIf_pop a1 hP
  have h2 : popIf p (popIf p (popIf l st)) = popIf p (popIf l st) := by
    apply popIf_skip
    intro c hc
    rw [b1] at hc
    have := hb c hc; omega
  unfold popFunc
  rw [h2]
  exact ⟨b1, b2.trans a2, b3.trans a3, b4.trans a4, b5.trans a5⟩

theorem popFunc_var {p v : Nat} {base : List Scope} {P V : Scope} {st : PS} (hP : P.id = p)
    (hV : V.id = v) (hpv : p < v) (hb : ∀ c ∈ base, c.id < p) (hs : st.stack = V :: P :: base) :
    (popFunc p v v st).stack = base ∧ (popFunc p v v st).next = st.next ∧
      (popFunc p v v st).imps = st.imps ∧ (popFunc p v v st).err = st.err ∧
      (popFunc p v v st).tabs = st.tabs := by
  obtain ⟨a1, a2, a3, a4, a5⟩ := popIf_pop hs hV
  have h2 : popIf v (popIf v st) = popIf v st := by
    apply popIf_skip
    intro c hc
    rw [a1] at hc
    rcases List.mem_cons.1 hc with e | e
    · subst e; omega
    · have := hb c e; omega
  obtain ⟨b1, b2, b3, b4, b5⟩ := popIf_pop a1 hP
  unfold popFunc
  rw [h2]
  exact ⟨b1, b2.trans a2, b3.trans a3, b4.trans a4, b5.trans a5⟩

theorem popFunc_both {p v l : Nat} {base : List Scope} {P V L : Scope} {st : PS} (hP : P.id = p)
    (hV : V.id = v) (hL : L.id = l) (hs : st.stack = L :: V :: P :: base) :
    (popFunc p v l st).stack = base ∧ (popFunc p v l st).next = st.next ∧
      (popFunc p v l st).imps = st.imps ∧ (popFunc p v l st).err = st.err ∧
      (popFunc p v l st).tabs = st.tabs := by
  obtain ⟨a1, a2, a3, a4, a5⟩ := popIf_pop hs hL
  obtain ⟨b1, b2, b3, b4, b5⟩ := popIf_pop a1 hV
  obtain ⟨c1, c2, c3, c4, c5⟩ := popIf_pop b1 hP
  unfold popFunc
  exact ⟨c1, c2.trans (b2.trans a2), c3.trans (b3.trans a3), c4.trans (b4.trans a4),
    c5.trans (b5.trans a5)⟩

theorem find_at {st : PS} {pre : List Scope} {c : Scope} {r : List Scope}
    (hs : st.stack = pre ++ c :: r) {d : Nat} (hd : c.id = d) (hpre : ∀ a ∈ pre, a.id ≠ d) :
    find st d = c := by
  unfold find
  rw [hs]
  have : pre.find? (fun a => a.id == d) = none := by
    simp only [List.find?_eq_none, beq_iff_eq]; exact hpre
  simp [this, hd]

/-- The three tables and the check of parameters, once the body is parsed without
an error. -/
structure FTabs (h : Hdr) (b : St) (p l : Nat) (P' V' L' : Scope) : Prop where
  tab : SameTab (funcTab P' V' L') (.func h.params (varNames h b) (LN true b))
  clash : (p != l && P'.items.any fun i => look L' i.1 == some .lex) = false →
    ∀ x ∈ h.params, x ∉ LN true b
  noClash : (∀ x ∈ h.params, x ∉ LN true b) →
    (p != l && P'.items.any fun i => look L' i.1 == some .lex) = false

theorem he_ne {F : Fn} {b : St} {ys : List Nat} {c c' : Scope} (hf : lexK F c .fn = false)
    (h : HE F true b c c') (hp : ParOnly ys c) (hu : c'.Uniq) : NE b ys c c' := by
  refine ⟨hp, h.old, ?_, fun x hx => h.has x (Or.inl hx), hu⟩
  intro x k h1 h2
  rcases h.new x k h1 h2 with h3 | ⟨h3, h4⟩
  · exact Or.inl h3
  · refine Or.inr ⟨h3, ?_⟩
    cases k with
    | lex => rfl
    | fn => rw [hf] at h4; cases h4
    | _ => cases h4

theorem te_ne {b : St} {ys : List Nat} {c c' : Scope} (h : TE true b c c') (hp : ParOnly ys c)
    (hu : c'.Uniq) : NE b ys c c' :=
  ⟨hp, h.old, fun x k h1 h2 => Or.inl (h.new x k h1 h2), h.has, hu⟩

theorem mem_varNames {h : Hdr} {b : St} (x : Nat) :
    x ∈ varNames h b ↔ isV true b x ∧ (h.expr = true ∨ x ∉ h.params) := by
  unfold varNames isV
  simp only [List.mem_filter, List.mem_append, Bool.or_eq_true, Bool.not_eq_true', List.contains_eq_mem,
    decide_eq_false_iff_not]

/-- The check of the parameters, from what the items are. -/
theorem clash_iff {b : St} {ps : List Nat} {P' L' : Scope}
    (hdj : ∀ x ∈ LN true b, ¬ isV true b x)
    (hlx : ∀ x, look L' x = some .lex ↔ x ∈ LN true b)
    (h1 : ∀ x k, (x, k) ∈ P'.items → x ∈ ps ∨ isV true b x)
    (h2 : ∀ x ∈ ps, ∃ k, (x, k) ∈ P'.items) :
    (P'.items.any fun i => look L' i.1 == some .lex) = false ↔ ∀ x ∈ ps, x ∉ LN true b := by
  rw [List.any_eq_false]
  constructor
  · intro h x hx hm
    obtain ⟨k, hk⟩ := h2 x hx
    have := h (x, k) hk
    rw [(hlx x).2 hm] at this
    exact this rfl
  · rintro h ⟨x, k⟩ hk he
    have he' : look L' x = some .lex := by simpa using he
    have hm := (hlx x).1 he'
    rcases h1 x k hk with h3 | h3
    · exact h x h3 hm
    · exact hdj x hm h3

theorem NE.items {b : St} {ys : List Nat} {c c' : Scope} (h : NE b ys c c')
    (hnl : ∀ x, look c' x ≠ some .lex) : ∀ x k, (x, k) ∈ c'.items → x ∈ ys ∨ isV true b x := by
  intro x k hk
  have h1 := look_of_mem h.uq hk
  cases hc : look c x with
  | some j => exact Or.inl ((h.par x j).1 hc).1
  | none =>
    rcases h.new x k hc h1 with h2 | ⟨_, e⟩
    · exact Or.inr h2.isV
    · subst e; exact absurd h1 (hnl x)

theorem fpost {h : Hdr} {b : St} {p v l : Nat} {P : Scope} {base cur cur' rest : List Scope} {st : PS}
    (hpre : FPre p v l P base cur rest) (hP : P.id = p) (hpar : ParOnly h.params P) (hu : P.Uniq)
    (hb : ∀ c ∈ base, c.id < p) (hexp : h.expr = false ↔ v = p)
    (hs : st.stack = cur' ++ rest) (hids : cur'.map (·.id) = cur.map (·.id))
    (huq : ∀ c ∈ cur', c.Uniq) :
    ∃ P' V' L', FPost h b p v l P base st P' V' L' ∧
      (OkAt ⟨false, v, l⟩ true b cur → Eff ⟨false, v, l⟩ true b cur cur' → FTabs h b p l P' V' L') := by
  cases hpre with
  | one h1 h2 =>
    subst h1 h2
    match cur', hids with
    | [c], hids =>
      have hc : c.id = l := by simpa [hP] using hids
      have hst : st.stack = c :: base := hs
      refine ⟨c, c, c, ⟨find_at (pre := []) hst hc (by simp), find_at (pre := []) hst hc (by simp),
        find_at (pre := []) hst hc (by simp),
        fun st3 h3 => popFunc_one hc hb (h3.trans hst)⟩, ?_⟩
      intro hok heff
      have hn : NE b h.params P c := he_ne (by simp [lexK, hP]) heff.1 hpar (huq c List.mem_cons_self)
      have hfr : ∀ x ∈ LN true b, look P x = none := fun x hx => hok.fresh P rfl x hx
      have hx := hn.lexs hok.dj hfr (fun x hx => heff.1.has x (Or.inr hx))
      refine ⟨⟨hn.params, hn.vars hok.dj _ ?_, hx.1⟩, ?_, ?_⟩
      · intro x
        rw [mem_varNames]
        have : h.expr = false := hexp.2 rfl
        simp [this]
      · intro _ x hx hm
        have := hfr x hm
        rw [(hpar x .param).2 ⟨hx, rfl⟩] at this
        cases this
      · intro _; simp
    | _ :: _ :: _, hids => exact absurd hids (by simp)
  | lex L h1 h2 h3 =>
    subst h1 h3
    match cur', hids with
    | [d, c], hids =>
      have hdc : d.id = l ∧ c.id = v := by simpa [hP] using hids
      have hst : st.stack = d :: c :: base := hs
      have hfc : find st v = c := find_at (pre := [d]) hst hdc.2 (by
        intro a ha; rw [List.mem_singleton.1 ha, hdc.1]; omega)
      refine ⟨c, c, d, ⟨hfc, hfc, find_at (pre := []) hst hdc.1 (by simp),
        fun st3 h3 => popFunc_lex hdc.2 hdc.1 hb (h3.trans hst)⟩, ?_⟩
      intro hok heff
      have hn : NE b h.params P c := te_ne heff.2.1 hpar (huq c (by simp))
      have hd : NE b [] ⟨l, []⟩ d := he_ne (by simp [lexK]) heff.1 (parOnly_nil _) (huq d (by simp))
      have hx := hd.lexs hok.dj (fun x _ => look_nil _ _) (fun x hx => heff.1.has x (Or.inr hx))
      have hcl := clash_iff (ps := h.params) (P' := c) hok.dj hx.2 (hn.items (fun x hxl => by
          cases hc : look P x with
          | some j =>
            have h1 := hn.old x j hc
            rw [hxl] at h1; cases h1
            have := ((hpar x .lex).1 hc).2
            cases this
          | none =>
            rcases heff.2.1.new x _ hc hxl with ⟨e, _⟩ | ⟨e, _⟩ <;> cases e))
        (fun x hx => ⟨.param, look_some_mem (hn.old x .param ((hpar x .param).2 ⟨hx, rfl⟩))⟩)
      have hpl : (v != l) = true := bne_iff_ne.2 (by omega)
      refine ⟨⟨hn.params, hn.vars hok.dj _ ?_, hx.1⟩, ?_, ?_⟩
      · intro x
        rw [mem_varNames]
        have : h.expr = false := hexp.2 rfl
        simp [this]
      · rw [hpl, Bool.true_and]; exact hcl.1
      · rw [hpl, Bool.true_and]; exact hcl.2
    | _ :: _ :: _ :: _, hids => exact absurd hids (by simp)
  | var V h1 h2 h3 =>
    have hvl : v = l := by omega
    subst hvl h3
    match cur', hids with
    | [d], hids =>
      have hdv : d.id = v := by simpa using hids
      have hst : st.stack = d :: P :: base := hs
      have hfp : find st p = P := find_at (pre := [d]) hst hP (by
        intro a ha; rw [List.mem_singleton.1 ha, hdv]; omega)
      refine ⟨P, d, d, ⟨hfp, find_at (pre := []) hst hdv (by simp), find_at (pre := []) hst hdv (by simp),
        fun st3 h3 => popFunc_var hP hdv (by omega) hb (h3.trans hst)⟩, ?_⟩
      intro hok heff
      have hd : NE b [] ⟨v, []⟩ d := he_ne (by simp [lexK]) heff.1 (parOnly_nil _) (huq d (by simp))
      have hx := hd.lexs hok.dj (fun x _ => look_nil _ _) (fun x hx => heff.1.has x (Or.inr hx))
      have hcl := clash_iff (ps := h.params) (P' := P) hok.dj hx.2
        (fun x k hk => Or.inl ((hpar x k).1 (look_of_mem hu hk)).1)
        (fun x hx => ⟨.param, look_some_mem ((hpar x .param).2 ⟨hx, rfl⟩)⟩)
      have hpl : (p != v) = true := bne_iff_ne.2 (by omega)
      have hex : h.expr = true := by
        cases he : h.expr with
        | true => rfl
        | false => have := hexp.1 he; omega
      refine ⟨⟨?_, hd.vars hok.dj _ ?_, hx.1⟩, ?_, ?_⟩
      · refine ⟨nodup_names hu _, fun x => ?_⟩
        rw [mem_names hu]
        constructor
        · rintro ⟨k, hk, _⟩; exact ((hpar x k).1 hk).1
        · intro hx; exact ⟨.param, (hpar x .param).2 ⟨hx, rfl⟩, rfl⟩
      · intro x
        rw [mem_varNames]
        simp [hex]
      · rw [hpl, Bool.true_and]; exact hcl.1
      · rw [hpl, Bool.true_and]; exact hcl.2
  | both L V h1 h2 h3 h4 =>
    subst h3 h4
    match cur', hids with
    | [d, c], hids =>
      have hdc : d.id = l ∧ c.id = v := by simpa using hids
      have hst : st.stack = d :: c :: P :: base := hs
      have hfp : find st p = P := find_at (pre := [d, c]) hst hP (by
        intro a ha
        rcases List.mem_cons.1 ha with e | e
        · rw [e, hdc.1]; omega
        · rw [List.mem_singleton.1 e, hdc.2]; omega)
      have hfv : find st v = c := find_at (pre := [d]) hst hdc.2 (by
        intro a ha; rw [List.mem_singleton.1 ha, hdc.1]; omega)
      refine ⟨P, c, d, ⟨hfp, hfv, find_at (pre := []) hst hdc.1 (by simp),
        fun st3 h3 => popFunc_both hP hdc.2 hdc.1 (h3.trans hst)⟩, ?_⟩
      intro hok heff
      have hd : NE b [] ⟨l, []⟩ d := he_ne (by simp [lexK]) heff.1 (parOnly_nil _) (huq d (by simp))
      have hc : NE b [] ⟨v, []⟩ c := te_ne heff.2.1 (parOnly_nil _) (huq c (by simp))
      have hx := hd.lexs hok.dj (fun x _ => look_nil _ _) (fun x hx => heff.1.has x (Or.inr hx))
      have hcl := clash_iff (ps := h.params) (P' := P) hok.dj hx.2
        (fun x k hk => Or.inl ((hpar x k).1 (look_of_mem hu hk)).1)
        (fun x hx => ⟨.param, look_some_mem ((hpar x .param).2 ⟨hx, rfl⟩)⟩)
      have hpl : (p != l) = true := bne_iff_ne.2 (by omega)
      have hex : h.expr = true := by
        cases he : h.expr with
        | true => rfl
        | false => have := hexp.1 he; omega
      refine ⟨⟨?_, hc.vars hok.dj _ ?_, hx.1⟩, ?_, ?_⟩
      · refine ⟨nodup_names hu _, fun x => ?_⟩
        rw [mem_names hu]
        constructor
        · rintro ⟨k, hk, _⟩; exact ((hpar x k).1 hk).1
        · intro hx; exact ⟨.param, (hpar x .param).2 ⟨hx, rfl⟩, rfl⟩
      · intro x
        rw [mem_varNames]
        simp [hex]
      · rw [hpl, Bool.true_and]; exact hcl.1
      · rw [hpl, Bool.true_and]; exact hcl.2

/-- A whole function leaves the stack as it was; it is accepted just when the
standard's rules hold, up to the two known deviations. -/
structure FRes (ps : Bool) (h : Hdr) (b : St) (st st' : PS) : Prop where
  stack : st'.stack = st.stack
  next : st.next ≤ st'.next
  mono : st'.err = false → st.err = false
  acc : st'.err = false → st'.imps = st.imps ∧ FuncOk ps h b ∧ Early (ps || h.useStrict) b ∧
    ∃ T, st'.tabs = st.tabs ++ T ∧
      SameTabs T (Tabs b ++ [.func h.params (varNames h b) (LN true b)])
  comp : st.err = false → st.imps.Nodup → FuncOk ps h b → Early (ps || h.useStrict) b →
    NoForClash b → NoFnThenVar true b → st'.err = false

theorem func_run {ps : Bool} {h : Hdr} {b : St} (hb : Run false (ps || h.useStrict) b) (st : PS)
    (hlt : ∀ c ∈ st.stack, c.id < st.next) (hgr : Grammar false b) (hnb : NoBareCatch b) :
    ∃ st', function ps h (fun G => parse (ps || h.useStrict) G b) st = some st' ∧
      FRes ps h b st st' := by
  obtain ⟨q, P, dup, h1, h2, h3, h4, h5, h6, h7, h8, h9, h10⟩ :=
    addParams_run (ps := ps) (F := ⟨false, st.next, st.next⟩) h.params [] (push st) ⟨st.next, []⟩
      st.stack rfl (uniq_nil _) (parOnly_nil _)
  have hP : P.id = st.next := h3
  have hpar : ParOnly h.params P := by simpa using h8
  obtain ⟨cur, rest, g1, g2, g3, g4, g5, g6, g7, g8⟩ :=
    bodyPush_pre (expr := h.expr) (sep := !ps) (st := flag (dup && !h.simple) q) (P := P)
      (base := st.stack) h2 (by show q.next = _; rw [h5, hP]; rfl)
  rw [hP] at g1 g3 g4 g5
  generalize hB : bodyPush h.expr (!ps) (flag (dup && !h.simple) q) = B at *
  have hgood := g1.good hP h4 hlt g3
  have htop := g1.top hP
  obtain ⟨s2, cur', e2, r2⟩ := hb _ true cur rest B hgood htop g2 hgr hnb
  have hexp : h.expr = false ↔ varOf st.next h.expr = st.next := by
    cases he : h.expr <;> simp [varOf]
  obtain ⟨P', V', L', fp, ft⟩ := fpost (b := b) g1 hP hpar h4 hlt hexp r2.stack r2.ids r2.uq
  have hfb : funcBody ps h st = some (B, dup) := by
    simp only [funcBody, h1, Option.map_some, hB]
  refine ⟨_, by simp only [function, hfb, Option.bind_some, e2, Option.map_some]; rfl, ?_⟩
  rw [funcPop_eq fp.fp fp.fv fp.fl]
  obtain ⟨p1, p2, p3, p4, p5⟩ := fp.pops
    { s2 with
      err := s2.err || ((h.useStrict && !h.simple) || (dup && (h.noDup || (ps || h.useStrict))) ||
        (st.next != lexOf st.next h.expr (!ps) && P'.items.any fun i => look L' i.1 == some .lex))
      tabs := s2.tabs ++ [funcTab P' V' L'] } rfl
  have hBerr : B.err = (st.err || (dup && ps) || (dup && !h.simple)) := by
    rw [g6]; show (q.err || _) = _; rw [h10]; rfl
  have hinv := g1.inv hpar
  have hdup : dup = false ↔ h.params.Nodup := by rw [h9]; simp
  refine ⟨p1, ?_, ?_, ?_, ?_⟩
  · rw [p2]
    have a1 := r2.next
    have a2 : lexOf st.next h.expr (!ps) ≥ st.next := by
      unfold lexOf varOf; split <;> split <;> omega
    show st.next ≤ s2.next
    omega
  · intro he
    rw [p4] at he
    simp only [Bool.or_eq_false_iff] at he
    have := r2.mono he.1
    rw [hBerr] at this
    simp only [Bool.or_eq_false_iff] at this
    exact this.1.1
  · intro he
    rw [p4] at he
    simp only [Bool.or_eq_false_iff] at he
    obtain ⟨e0, ⟨e1, e2'⟩, e3⟩ := he
    have hb0 := r2.mono e0
    rw [hBerr] at hb0
    simp only [Bool.or_eq_false_iff] at hb0
    have a := r2.acc hinv e0
    have ftab := ft a.ok a.eff
    obtain ⟨T, t1, t2⟩ := a.tabs
    refine ⟨?_, ⟨?_, ?_, ftab.clash e3, listOk_of_ok a.ok⟩, a.early, T ++ [funcTab P' V' L'], ?_, ?_⟩
    · rw [p3]
      show s2.imps = _
      rw [a.imps, IN_grammar hgr, g7]
      simp only [List.append_nil]
      exact h7
    · cases hd : dup with
      | false => exact Or.inl (hdup.1 hd)
      | true =>
        right
        simp only [hd, Bool.true_and, Bool.not_eq_false', Bool.or_eq_false_iff] at hb0 e2'
        exact ⟨hb0.2, hb0.1.2, e2'.2.2, e2'.1⟩
    · intro hus
      simpa [hus] using e1
    · rw [p5]
      show s2.tabs ++ _ = _
      rw [t1, g8]
      show q.tabs ++ T ++ _ = _
      rw [h6]
      simp [push]
    · exact t2.append ⟨ftab.tab, trivial⟩
  · intro he hin hfo hea hfc hfv
    obtain ⟨f1, f2, f3, f4⟩ := hfo
    have hd : (dup && (ps || !h.simple || h.noDup || h.useStrict)) = false := by
      rcases f1 with f1 | ⟨a1, a2, a3, a4⟩
      · rw [hdup.2 f1]; rfl
      · simp [a1, a2, a3, a4]
    have hB0 : B.err = false := by
      rw [hBerr, he]
      cases hdd : dup <;> simp_all
    have hok : OkAt ⟨false, varOf st.next h.expr, lexOf st.next h.expr (!ps)⟩ true b cur := by
      have hit := g1.items hpar
      refine ⟨f4.1, ?_, ?_, ?_⟩
      · rintro x hx (hv | hv)
        · exact (f4.2 x hx).1 hv
        · exact (f4.2 x hx).2 hv
      · intro c hc x hx
        cases hk : look c x with
        | none => rfl
        | some k =>
          exact absurd hx (f3 x (hit c (List.mem_of_mem_head? hc) x k hk).1)
      · intro c hc x k _ hk
        rw [(hit c hc x k hk).2]; rfl
    have hnf : NoFn true b cur := by
      intro x _ c hc hk
      have := (g1.items hpar c hc x _ hk).2
      cases this
    have hin' : (B.imps ++ IN b).Nodup := by
      rw [IN_grammar hgr, g7]
      simp only [List.append_nil]
      show (q.imps).Nodup
      rw [h7]; exact hin
    have e2' := r2.comp hinv hB0 hok hea hfc hfv hnf hin'
    have a := r2.acc hinv e2'
    have ftab := ft a.ok a.eff
    rw [p4]
    simp only [e2', Bool.false_or, ftab.noClash f3, Bool.or_false, Bool.or_eq_false_iff]
    refine ⟨?_, ?_⟩
    · cases hus : h.useStrict with
      | false => rfl
      | true => simp [f2 hus]
    · cases hdd : dup with
      | false => rfl
      | true =>
        simp only [hdd, Bool.true_and, Bool.or_eq_false_iff] at hd
        simp [hd.1.1.1, hd.1.2, hd.2]

end Verif.Decls

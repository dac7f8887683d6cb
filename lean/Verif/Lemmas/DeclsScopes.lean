import Verif.Lemmas.DeclsRes

/- Blocks, loops, `with`, `catch` and classes: parts that open a declaration of
their own. -/

namespace Verif.Decls

/-- All items of a declaration are lexical names of a list. -/
def LexOnly (xs : List Nat) (c : Scope) : Prop := ∀ y k, look c y = some k ↔ (y ∈ xs ∧ k = .lex)

theorem lexOnly_nil (d : Nat) : LexOnly [] ⟨d, []⟩ := by
  intro y k; simp [look_nil]

/-- Names of a binding, added to a declaration on top. -/
theorem addAll_lex {ps : Bool} {F : Fn} : ∀ (xs ys : List Nat) (st : PS) (c : Scope) (r : List Scope),
    st.stack = c :: r → c.Uniq →
    ∃ st' c', addAll ps F .lex xs st = some st' ∧ st'.stack = c' :: r ∧ c'.id = c.id ∧ c'.Uniq ∧
      st'.next = st.next ∧ st'.tabs = st.tabs ∧ st'.imps = st.imps ∧
      (st'.err = false → st.err = false) ∧
      (LexOnly ys c → st'.err = false → LexOnly (ys ++ xs) c' ∧ xs.Nodup ∧ ∀ x ∈ xs, x ∉ ys) ∧
      (LexOnly ys c → st.err = false → xs.Nodup → (∀ x ∈ xs, x ∉ ys) → st'.err = false)
  | [], ys, st, c, r, hs, hu => by
    refine ⟨st, c, rfl, hs, rfl, hu, rfl, rfl, rfl, id, ?_, fun _ h _ _ => h⟩
    intro h _
    simpa using h
  | x :: xs, ys, st, c, r, hs, hu => by
    have ha : add ps F .lex x st = _ := add_lex hs rfl
    by_cases hx : look c x = none
    · rw [if_pos hx] at ha
      obtain ⟨st', c', h1, h2, h3, h4, h5, h6, h7, h8, h9, h10⟩ :=
        addAll_lex (ps := ps) (F := F) xs (ys ++ [x]) { st with stack := c.add x .lex :: r } (c.add x .lex) r
          rfl (hu.add hx)
      have hlo : LexOnly ys c → LexOnly (ys ++ [x]) (c.add x .lex) := by
        intro hy y k
        rw [look_add]
        have hxy : x ∉ ys := by
          intro hm
          have := (hy x .lex).2 ⟨hm, rfl⟩
          rw [hx] at this; cases this
        by_cases e : x = y
        · subst e
          simp only [hx, Option.none_or, ↓reduceIte, Option.some.injEq, List.mem_append,
            List.mem_singleton, or_true, true_and]
          exact eq_comm
        · simp only [e, ↓reduceIte, Option.or_none, List.mem_append, List.mem_singleton]
          rw [hy y k]
          have : ¬ y = x := fun h => e h.symm
          simp [this]
      refine ⟨st', c', by simp [addAll, ha, h1], h2, h3, h4, h5, h6, h7, h8, ?_, ?_⟩
      · intro hy he
        obtain ⟨g1, g2, g3⟩ := h9 (hlo hy) he
        refine ⟨by simpa using g1, ?_, ?_⟩
        · simp only [List.nodup_cons]
          refine ⟨?_, g2⟩
          intro hm
          exact g3 x hm (by simp)
        · intro z hz
          rcases List.mem_cons.1 hz with e | e
          · subst e
            intro hm
            have := (hy z .lex).2 ⟨hm, rfl⟩
            rw [hx] at this; cases this
          · intro hm; exact g3 z e (by simp [hm])
      · intro hy he hn hd
        simp only [List.nodup_cons] at hn
        refine h10 (hlo hy) he hn.2 ?_
        intro z hz hm
        rcases List.mem_append.1 hm with hm | hm
        · exact hd z (List.mem_cons_of_mem _ hz) hm
        · rw [List.mem_singleton.1 hm] at hz; exact hn.1 hz
    · rw [if_neg hx] at ha
      obtain ⟨st', c', h1, h2, h3, h4, h5, h6, h7, h8, h9, h10⟩ :=
        addAll_lex (ps := ps) (F := F) xs ys (flag true st) c r hs hu
      have hbad : st'.err = false → False := fun he => by
        have := h8 he; simp [flag] at this
      refine ⟨st', c', by simp [addAll, ha, h1], h2, h3, h4, h5, h6, h7,
        fun he => (hbad he).elim, fun _ he => (hbad he).elim, ?_⟩
      intro hy _ _ hd
      exfalso
      cases hk : look c x with
      | none => exact hx hk
      | some k => exact hd x List.mem_cons_self ((hy x k).1 hk).1

/-- Leaving the inner declaration, the effect on the outer ones is that of the
whole part. -/
theorem eff_drop {F : Fn} {t : Bool} {s b : St} {c c' : Scope} {cur cur' : List Scope}
    (h : Eff F false b (c :: cur) (c' :: cur')) (hne : cur ≠ []) (hv : VN s = VN b)
    (hl : LN t s = []) (hf : FN t s = []) : Eff F t s cur cur' := by
  have hVF : ∀ x k, VF false b x k → VF t s x k := by
    rintro x k (⟨h1, h2⟩ | ⟨h1, h2⟩)
    · exact Or.inl ⟨h1, hv ▸ h2⟩
    · rw [FN_false] at h2; cases h2
  have hV : ∀ x, isV t s x → isV false b x := by
    rintro x (h1 | h1)
    · exact Or.inl (hv ▸ h1)
    · rw [hf] at h1; cases h1
  cases cur with
  | nil => exact absurd rfl hne
  | cons d tl =>
    cases cur' with
    | nil => exact h.2.elim
    | cons d' tl' =>
      obtain ⟨_, h1, h2⟩ := h
      refine ⟨⟨h1.id, h1.old, fun x k a b => Or.inl (hVF x k (h1.new x k a b)), ?_⟩,
        Pair.imp (fun a b o => ⟨o.id, o.old, fun x k a b => hVF x k (o.new x k a b),
          fun x hx => o.has x (hV x hx)⟩) h2⟩
      rintro x (hx | hx)
      · exact h1.has x (hV x hx)
      · rw [hl] at hx; cases hx

theorem ok_drop {F : Fn} {t : Bool} {s b : St} {c : Scope} {cur : List Scope}
    (h : OkAt F false b (c :: cur)) (hv : VN s = VN b) (hl : LN t s = []) (hf : FN t s = []) :
    OkAt F t s cur := by
  refine ⟨by rw [hl]; exact List.nodup_nil, ?_, ?_, ?_⟩
  · intro x hx; rw [hl] at hx; cases hx
  · intro d _ x hx; rw [hl] at hx; cases hx
  · rintro d hd x k (hx | hx) hk
    · exact h.free d (List.mem_cons_of_mem _ hd) x k (Or.inl (hv ▸ hx)) hk
    · rw [hf] at hx; cases hx

theorem ok_lift {F : Fn} {t : Bool} {s b : St} {c : Scope} {cur : List Scope}
    (h : OkAt F t s cur) (hv : VN s = VN b) (hok : ListOk false b)
    (hc1 : ∀ x ∈ LN false b, look c x = none)
    (hc2 : ∀ x ∈ VN b, ∀ k, look c x = some k → lexK F c k = false) :
    OkAt F false b (c :: cur) := by
  have hV : ∀ x, isV false b x → x ∈ VN b := by
    rintro x (h1 | h1)
    · exact h1
    · rw [FN_false] at h1; cases h1
  refine ⟨hok.1, ?_, ?_, ?_⟩
  · intro x hx hvx
    exact (hok.2 x hx).1 (hV x hvx)
  · intro d hd x hx
    simp only [List.head?_cons, Option.mem_def, Option.some.injEq] at hd
    subst hd
    exact hc1 x hx
  · intro d hd x k hvx hk
    rcases List.mem_cons.1 hd with e | e
    · subst e; exact hc2 x (hV x hvx) k hk
    · exact h.free d e x k (Or.inl (hv ▸ hV x hvx)) hk

theorem listOk_of_ok {F : Fn} {t : Bool} {b : St} {cur : List Scope} (h : OkAt F t b cur) :
    ListOk t b :=
  ⟨h.nd, fun x hx => ⟨fun hv => h.dj x hx (Or.inl hv), fun hv => h.dj x hx (Or.inr hv)⟩⟩

theorem listOk_nil {b : St} (h : LN false b = []) : ListOk false b := by
  refine ⟨by rw [h]; exact List.nodup_nil, ?_⟩
  intro x hx; rw [h] at hx; cases hx

theorem inv_push {F : Fn} {t : Bool} {cur : List Scope} {xs : List Nat} {c : Scope}
    (h : Inv F t cur) (hc : LexOnly xs c) : Inv F false (c :: cur) := by
  refine ⟨⟨?_, h.1⟩, fun e => by cases e⟩
  intro x k hx hk
  rw [((hc x k).1 hx).2] at hk
  cases hk

theorem top_push {F : Fn} {cur rest : List Scope} {n : Nat} {c : Scope}
    (hg : Good F cur rest n) (hc : n ≤ c.id) : Top F false (c :: cur) := by
  refine ⟨?_, fun e => by cases e⟩
  intro d hd
  simp only [List.head?_cons, Option.mem_def, Option.some.injEq] at hd
  subst hd
  simp only [Bool.false_eq_true, false_iff, not_and]
  intro _ e
  obtain ⟨a, ha, hae⟩ := List.mem_map.1 hg.mem
  have h1 := hg.lt a (List.mem_append_left _ ha)
  have h2 : a.id = F.l := hae
  omega

theorem nofn_lift {t : Bool} {s b : St} {cur : List Scope} {xs : List Nat} {c : Scope}
    (h : NoFn t s cur) (hv : VN s = VN b) (hnv : NV s = VN b) (hc : LexOnly xs c) :
    NoFn false b (c :: cur) := by
  intro x hx d hd hk
  rcases List.mem_cons.1 hd with e | e
  · subst e
    have := ((hc x _).1 hk).2
    cases this
  · refine h x ?_ d e hk
    cases t <;> simp_all

/-- The table of a declaration with the names `xs` and the lexical names of the
statement list parsed in it. -/
theorem scopeTab_ok {F : Fn} {b : St} {xs L : List Nat} {c c' : Scope} {cur : List Scope}
    (hc : LexOnly xs c) (hu : c'.Uniq) (h : HE F false b c c') (ho : OkAt F false b (c :: cur))
    (hL : ∀ x, x ∈ L ↔ x ∈ xs ∨ x ∈ LN false b) : SameTab (scopeTab c') (.scope L) := by
  refine ⟨nodup_names hu _, ?_⟩
  intro x
  rw [mem_names hu, hL]
  constructor
  · rintro ⟨k, hk, hp⟩
    cases hx : look c x with
    | some j => exact Or.inl ((hc x j).1 hx).1
    | none =>
      rcases h.new x k hx hk with h1 | h1
      · rcases h1 with ⟨e, _⟩ | ⟨_, e⟩
        · subst e; simp at hp
        · rw [FN_false] at e; cases e
      · exact Or.inr h1.1
  · rintro (hx | hx)
    · exact ⟨.lex, h.old x .lex ((hc x .lex).2 ⟨hx, rfl⟩), rfl⟩
    · cases hk : look c' x with
      | none => exact absurd hk (h.has x (Or.inr hx))
      | some k =>
        refine ⟨k, rfl, ?_⟩
        rcases h.new x k (ho.fresh c rfl x hx) hk with h1 | ⟨_, h1⟩
        · exact absurd h1.isV (ho.dj x hx)
        · cases k <;> simp_all [lexK]

theorem IN_grammar : ∀ {s : St}, Grammar false s → IN s = [] := by
  intro s
  induction s with
  | cons s r ih1 ih2 => intro h; simp [IN, ih1 h.1, ih2 h.2]
  | imp x => intro h; cases h
  | _ => intro _; rfl

theorem find_pop {st : PS} {c : Scope} {r : List Scope} (hs : st.stack = c :: r)
    (hne : ∀ d ∈ r, d.id ≠ c.id) (x : Nat) : find (pop st) x = find st x := by
  unfold find pop
  rw [hs]
  simp only [List.cons_append, List.find?_append, List.find?_cons]
  by_cases h : c.id = x
  · subst h
    have : r.find? (fun d => d.id == c.id) = none := by
      simp only [List.find?_eq_none, beq_iff_eq]
      exact hne
    simp [this]
  · have : (c.id == x) = false := by simpa using h
    simp [this]

/-- What happens from the push of a declaration with names to the end of the
part parsed in it. -/
structure Scoped (ps0 ps : Bool) (F : Fn) (b : St) (xs : List Nat) (cur rest : List Scope) (st s1 s2 : PS)
    (c1 c2 : Scope) (cur2 : List Scope) : Prop where
  add : addAll ps0 F .lex xs (push st) = some s1
  par : parse ps F b s1 = some s2
  n1 : s1.next = st.next + 1
  k1 : s1.stack = c1 :: cur ++ rest
  i1 : c1.id = st.next
  i2 : c2.id = st.next
  ids : cur2.map (·.id) = cur.map (·.id)
  lt : ∀ d ∈ cur2 ++ rest, d.id < st.next
  fnd : find s2 st.next = c2
  mono1 : s1.err = false → st.err = false
  lex1 : s1.err = false → LexOnly xs c1 ∧ xs.Nodup
  com1 : st.err = false → xs.Nodup → s1.err = false
  tabs : s1.tabs = st.tabs
  imps : s1.imps = st.imps
  res : Res ps F false b (c1 :: cur) rest s1 s2 (c2 :: cur2)

theorem scoped_run {ps0 ps : Bool} {F : Fn} {t : Bool} {b : St} {xs : List Nat} {cur rest : List Scope}
    {st : PS} (hb : Run false ps b) (hg : Good F cur rest st.next)
    (hs : st.stack = cur ++ rest) (hgr : Grammar false b) (hnb : NoBareCatch b) :
    ∃ s1 s2 c1 c2 cur2, Scoped ps0 ps F b xs cur rest st s1 s2 c1 c2 cur2 := by
  obtain ⟨s1, c1, h1, h2, h3, h4, h5, h6, h7, h8, h9, h10⟩ :=
    addAll_lex (ps := ps0) (F := F) xs [] (push st) ⟨st.next, []⟩ (cur ++ rest)
      (by simp [push, hs]) (uniq_nil _)
  have hn1 : s1.next = st.next + 1 := h5
  have hi1 : c1.id = st.next := h3
  have hg1 : Good F (c1 :: cur) rest s1.next := by
    refine hg.push.of_ids ?_ (by rw [hn1]; exact Nat.le_refl _) ?_
    · simp [hi1]
    · intro d hd
      rcases List.mem_cons.1 hd with e | e
      · subst e; exact h4
      · exact hg.uq d e
  obtain ⟨s2, cur', e2, r2⟩ := hb F false (c1 :: cur) rest s1 hg1
    (top_push hg (by omega)) h2 hgr hnb
  cases cur' with
  | nil => exact absurd r2.ids (by simp)
  | cons c2 cur2 =>
    have hids := r2.ids
    simp only [List.map_cons, List.cons.injEq] at hids
    have hlt : ∀ d ∈ cur2 ++ rest, d.id < st.next := by
      exact (hg.of_ids hids.2 (Nat.le_refl _)
        (fun c hc => r2.uq c (List.mem_cons_of_mem _ hc))).lt
    have hg2 := hg1.of_ids r2.ids r2.next r2.uq
    have hfind : find s2 c2.id = c2 := find_cur r2.stack hg2.nd List.mem_cons_self
    have hi2 : c2.id = st.next := hids.1.trans hi1
    exact ⟨s1, s2, c1, c2, cur2,
      { add := h1, par := e2, n1 := hn1, k1 := h2, i1 := hi1, i2 := hi2, ids := hids.2
        lt := hlt
        fnd := by rw [← hi2]; exact hfind
        mono1 := h8
        lex1 := fun he => by
          have := h9 (lexOnly_nil _) he
          exact ⟨by simpa using this.1, this.2.1⟩
        com1 := fun he hn => h10 (lexOnly_nil _) he hn (by simp)
        tabs := h6, imps := h7, res := r2 }⟩

theorem scoped_res {ps0 ps' ps : Bool} {F : Fn} {t : Bool} {s b : St} {xs L : List Nat}
    {cur rest : List Scope} {st s1 s2 st' : PS} {c1 c2 : Scope} {cur2 : List Scope}
    (hsc : Scoped ps0 ps' F b xs cur rest st s1 s2 c1 c2 cur2)
    (hg : Good F cur rest st.next) (hgr : Grammar false b)
    (hv : VN s = VN b) (hl : LN t s = []) (hf : FN t s = []) (hnv : NV s = VN b) (hi : IN s = [])
    (htb : Tabs s = Tabs b ++ [.scope L]) (hL : ∀ x, x ∈ L ↔ x ∈ xs ∨ x ∈ LN false b)
    (e : Bool) (hst : st'.stack = cur2 ++ rest) (hnx : st'.next = s2.next) (him : st'.imps = s2.imps)
    (htt : st'.tabs = s2.tabs ++ [scopeTab c2]) (her : st'.err = (s2.err || e))
    (hacc : Inv F t cur → e = false → s2.err = false → LexOnly xs c1 → xs.Nodup → ListOk false b → (∀ x ∈ xs, x ∉ VN b) →
      Early ps' b → Early ps s)
    (hea : Early ps s → xs.Nodup ∧ ListOk false b ∧ (∀ x ∈ xs, x ∉ VN b ∧ x ∉ LN false b) ∧
      Early ps' b)
    (hfc : NoForClash s → NoForClash b) (hfv : NoFnThenVar t s → NoFnThenVar false b)
    (hcomp : Inv F t cur → s2.err = false → LexOnly xs c1 → HE F false b c1 c2 → Early ps s → NoForClash s → e = false)
    (hblk : ∀ b', s = .block b' → Inv F t cur → st'.err = false →
      ∃ c, find st' st.next = c ∧ HE F false b' ⟨st.next, []⟩ c) :
    Res ps F t s cur rest st st' cur2 := by
  have hr := hsc.res
  exact
    { stack := hst, ids := hsc.ids
      next := by have := hsc.n1; have := hr.next; omega
      uq := fun c hc => hr.uq c (List.mem_cons_of_mem _ hc)
      mono := fun he => by
        rw [her, Bool.or_eq_false_iff] at he
        exact hsc.mono1 (hr.mono he.1)
      acc := fun hinv he => by
        rw [her, Bool.or_eq_false_iff] at he
        have e1 := hr.mono he.1
        obtain ⟨l1, l2⟩ := hsc.lex1 e1
        have a := hr.acc (inv_push hinv l1) he.1
        obtain ⟨T, t1, t2⟩ := a.tabs
        have hxv : ∀ x ∈ xs, x ∉ VN b := by
          intro x hx hxv
          have := a.ok.free c1 List.mem_cons_self x .lex (Or.inl hxv) ((l1 x .lex).2 ⟨hx, rfl⟩)
          cases this
        refine ⟨hsc.mono1 e1, ok_drop a.ok hv hl hf, eff_drop a.eff hg.ne_nil hv hl hf,
          hacc hinv he.2 he.1 l1 l2 (listOk_of_ok a.ok) hxv a.early, ?_, ?_, T ++ [scopeTab c2], ?_, ?_⟩
        · rw [him, a.imps, hsc.imps, hi, IN_grammar hgr]
        · rw [hi]; simp
        · rw [htt, t1, hsc.tabs]; simp
        · rw [htb]
          exact t2.append ⟨scopeTab_ok l1 (hr.uq c2 List.mem_cons_self) a.eff.1 a.ok hL, trivial⟩
      comp := fun hinv he ho h1 h2 h3 h4 h5 => by
        obtain ⟨g1, g2, g3, g4⟩ := hea h1
        have e1 := hsc.com1 he g1
        obtain ⟨l1, _⟩ := hsc.lex1 e1
        have hok : OkAt F false b (c1 :: cur) := by
          refine ok_lift ho hv g2 ?_ ?_
          · intro x hx
            cases hk : look c1 x with
            | none => rfl
            | some k => exact absurd hx (g3 x ((l1 x k).1 hk).1).2
          · intro x hx k hk
            exact absurd hx (g3 x ((l1 x k).1 hk).1).1
        have hin : (s1.imps ++ IN b).Nodup := by
          rw [hsc.imps, IN_grammar hgr]
          rw [hi] at h5
          exact h5
        have e2 := hr.comp (inv_push hinv l1) e1 hok g4 (hfc h2) (hfv h3)
          (nofn_lift h4 hv hnv l1) hin
        have a := hr.acc (inv_push hinv l1) e2
        rw [her, e2, hcomp hinv e2 l1 a.eff.1 h1 h2]; rfl
      blk := hblk }

theorem leave_of {st : PS} {c : Scope} {r : List Scope} {d : Nat} (hs : st.stack = c :: r)
    (hf : find st d = c) :
    leave d st = { st with stack := r, popped := c :: st.popped, tabs := st.tabs ++ [scopeTab c] } := by
  unfold leave noteScope pop
  simp only [hs, hf]

theorem run_block {ps : Bool} {b : St} (m : Bool) (hb : Run false ps b) : Run m ps (.block b) := by
  intro F t cur rest st hg ht hs hgr hnb
  obtain ⟨s1, s2, c1, c2, cur2, h⟩ := scoped_run (ps0 := ps) (t := t) (xs := []) hb hg hs hgr hnb
  have e1 : s1 = push st := by have := h.add; simp only [addAll, Option.some.injEq] at this; exact this.symm
  have e2 := leave_of (h.res.stack) h.fnd
  refine ⟨leave st.next s2, cur2, by have := h.par; rw [e1] at this; simp [parse, this], ?_⟩
  rw [e2]
  refine scoped_res (L := LN false b) h hg hgr rfl rfl rfl rfl rfl rfl (by simp) false rfl rfl rfl rfl (by simp)
    (fun _ _ _ _ _ h1 _ h2 => ⟨h1, h2⟩) (fun h1 => ⟨List.nodup_nil, h1.1, by simp, h1.2⟩) id id
    (fun _ _ _ _ _ _ => rfl) ?_
  intro b' hb' hinv he
  cases hb'
  have he' : s2.err = false := he
  refine ⟨c2, ?_, ?_⟩
  · have : find (pop s2) st.next = find s2 st.next := by
      refine find_pop h.res.stack ?_ _
      intro d hd
      have := h.lt d hd
      rw [h.i2]; omega
    refine Eq.trans ?_ (this.trans h.fnd)
    unfold find pop
    rw [h.res.stack]
    rfl
  · have hc1 : c1 = ⟨st.next, []⟩ := by
      have := h.k1
      rw [e1] at this
      simp only [push, hs, List.cons_append, List.cons.injEq] at this
      exact this.1.symm
    have l1 : LexOnly [] c1 := by rw [hc1]; exact lexOnly_nil _
    rw [← hc1]
    exact (h.res.acc (inv_push hinv l1) he').eff.1

theorem run_with {ps : Bool} {b : St} (m : Bool) (hb : Run false ps b) : Run m ps (.withSt b) := by
  intro F t cur rest st hg ht hs hgr hnb
  obtain ⟨s1, s2, c1, c2, cur2, h⟩ := scoped_run (ps0 := ps) (t := t) (xs := []) hb hg hs hgr.2 hnb
  have e1 : s1 = push st := by have := h.add; simp only [addAll, Option.some.injEq] at this; exact this.symm
  have e2 := leave_of (h.res.stack) h.fnd
  refine ⟨leave st.next s2, cur2, by have := h.par; rw [e1] at this; simp [parse, this], ?_⟩
  rw [e2]
  exact scoped_res (L := []) h hg hgr.2 rfl rfl rfl rfl rfl rfl (by simp [hgr.1]) false rfl rfl rfl
    rfl (by simp) (fun _ _ _ _ _ _ _ h2 => h2)
    (fun h1 => ⟨List.nodup_nil, listOk_nil hgr.1, by simp, h1⟩) id id
    (fun _ _ _ _ _ _ => rfl) (fun _ hb => by cases hb)

/-- A class body, without the binding of a class declaration. -/
theorem run_cls {b : St} (m ps : Bool) (x : Option Nat) (hb : Run false true b) :
    Run m ps (.cls x false b) := by
  intro F t cur rest st hg ht hs hgr hnb
  obtain ⟨s1, s2, c1, c2, cur2, h⟩ := scoped_run (ps0 := true) (t := t) (xs := x.toList) hb hg hs hgr.2.2 hnb
  have e2 := leave_of (h.res.stack) h.fnd
  refine ⟨leave st.next s2, cur2, by simp [parse, h.add, h.par], ?_⟩
  rw [e2]
  exact scoped_res (L := x.toList) h hg hgr.2.2 hgr.2.1.symm rfl rfl hgr.2.1.symm rfl rfl
    (by simp [hgr.1]) false rfl rfl rfl
    rfl (by simp) (fun _ _ _ _ _ _ _ h2 => h2)
    (fun h1 => ⟨by cases x <;> simp, listOk_nil hgr.1, by simp [hgr.1, hgr.2.1], h1⟩) id id
    (fun _ _ _ _ _ _ => rfl) (fun _ hb => by cases hb)

theorem popIf_of {st : PS} {c : Scope} {r : List Scope} {d : Nat} (hs : st.stack = c :: r)
    (hc : c.id = d) : popIf d st = pop st := by
  unfold popIf
  simp [hs, hc]

theorem run_for {ps : Bool} {b : St} (m : Bool) (xs : List Nat) (hb : Run false ps b) :
    Run m ps (.forLex xs b) := by
  intro F t cur rest st hg ht hs hgr hnb
  obtain ⟨s1, s2, c1, c2, cur2, h⟩ := scoped_run (ps0 := ps) (t := t) (xs := xs) hb hg hs hgr.2 hnb
  have hnn : c1.id < s1.next := by have := h.n1; have := h.i1; omega
  have key : ∀ e : Bool, popIf st.next (noteScope st.next (flag e s2))
      = { s2 with stack := cur2 ++ rest, popped := c2 :: s2.popped, err := s2.err || e
                  tabs := s2.tabs ++ [scopeTab c2] } := by
    intro e
    have h1 : (noteScope st.next (flag e s2)).stack = c2 :: (cur2 ++ rest) := h.res.stack
    rw [popIf_of h1 h.i2]
    have h2 : find (flag e s2) st.next = c2 := h.fnd
    simp only [pop, h1]
    simp only [noteScope, h2]
    rfl
  refine ⟨popIf st.next (noteScope st.next (if isBlock b then clash st.next s1.next s2 else s2)),
    cur2, by simp only [parse, h.add, Option.bind_some, h.par, Option.map_some], ?_⟩
  by_cases hblk : isBlock b = true
  · obtain ⟨b', rfl⟩ : ∃ b', b = .block b' := by
      clear h hb hgr hnb
      cases b <;> simp_all [isBlock]
    simp only [isBlock, ↓reduceIte]
    unfold clash
    rw [key]
    refine scoped_res (L := xs) h hg hgr.2 rfl rfl rfl rfl rfl rfl (by simp [hgr.1]) _ rfl rfl rfl
      rfl rfl (fun _ _ _ _ h1 _ h2 h3 => ⟨h1, h2, h3⟩)
      (fun h1 => ⟨h1.1, listOk_nil hgr.1, by simp [hgr.1]; exact h1.2.1, h1.2.2⟩) (fun h => h.2) id
      ?_ (fun _ hb => by cases hb)
    intro hinv he l1 hhe hea hfc
    obtain ⟨d, hd1, hd2⟩ := h.res.blk b' rfl (inv_push hinv l1) he
    rw [h.fnd, hd1, List.any_eq_false]
    rintro ⟨x, k⟩ hi
    have hk := look_of_mem (h.res.uq c2 List.mem_cons_self) hi
    cases k with
    | var => simp
    | _ =>
      have hx : x ∈ xs := by
        cases hc : look c1 x with
        | some j => exact ((l1 x j).1 hc).1
        | none =>
          rcases hhe.new x _ hc hk with h1 | h1
          · rcases h1 with h1 | h1
            · exact absurd h1.1 (by simp)
            · rw [FN_false] at h1; exact absurd h1.2 (List.not_mem_nil)
          · rw [hgr.1] at h1; exact absurd h1.1 (List.not_mem_nil)
      cases hdx : look d x with
      | none => simp [hdx]
      | some j =>
        exfalso
        rcases hd2.new x j (look_nil _ _) hdx with h1 | h1
        · rcases h1 with h1 | h1
          · exact hea.2.1 x hx h1.2
          · rw [FN_false] at h1; exact absurd h1.2 (List.not_mem_nil)
        · exact hfc.1 x hx h1.1
  · have hk2 := key false
    have hfl : flag false s2 = s2 := by simp [flag]
    rw [hfl] at hk2
    rw [if_neg hblk, hk2]
    have hfc : NoForClash (.forLex xs b) → NoForClash b := by
      cases b <;> first | exact id | simp [isBlock] at hblk
    exact scoped_res (L := xs) h hg hgr.2 rfl rfl rfl rfl rfl rfl (by simp [hgr.1]) false rfl rfl rfl
      rfl rfl (fun _ _ _ _ h1 _ h2 h3 => ⟨h1, h2, h3⟩)
      (fun h1 => ⟨h1.1, listOk_nil hgr.1, by simp [hgr.1]; exact h1.2.1, h1.2.2⟩) hfc id
      (fun _ _ _ _ _ _ => rfl) (fun _ hb => by cases hb)

theorem run_catch {ps : Bool} {b : St} (m : Bool) (xs : List Nat) (hb : Run false ps b) :
    Run m ps (.tryCatch (some xs) b) := by
  intro F t cur rest st hg ht hs hgr hnb
  have hbb : Run false ps (.block b) := run_block false hb
  obtain ⟨s1, s2, c1, c2, cur2, h⟩ := scoped_run (ps0 := ps) (t := t) (xs := xs) hbb hg hs hgr hnb
  have hpar : ∃ s2', parse ps F b (push s1) = some s2' ∧ leave s1.next s2' = s2 := by
    have := h.par
    simp only [parse, Option.map_eq_some_iff] at this
    exact this
  obtain ⟨s2', p1, p2⟩ := hpar
  have e2 := leave_of (h.res.stack) h.fnd
  refine ⟨_, cur2, by
    simp only [parse, h.add, Option.bind_some, p1, Option.map_some, p2]; rfl, ?_⟩
  unfold clash
  have hfp : ∀ x, find (leave st.next s2) x = find s2 x := by
    intro x
    have : find (leave st.next s2) x = find (pop s2) x := by
      rw [e2]
      unfold find pop
      rw [h.res.stack]; rfl
    rw [this]
    refine find_pop h.res.stack ?_ _
    intro d hd
    have := h.lt d hd
    rw [h.i2]; omega
  rw [hfp, hfp, h.fnd]
  have hst : (leave st.next s2).stack = cur2 ++ rest := by rw [e2]; rfl
  refine scoped_res (L := xs) h hg hgr rfl rfl rfl rfl rfl (by simp [Tabs]) (by simp [LN]) _ hst
    (by rw [e2]; rfl) (by rw [e2]; rfl) (by rw [e2]; rfl)
    (by rw [e2]; rfl) ?_ ?_ id id ?_ (fun _ hb => by cases hb)
  · intro hinv he he2 l1 h1 _ h3 h4
    refine ⟨h1, ?_, h4.1, h4.2⟩
    intro x hx
    refine ⟨?_, h3 x hx⟩
    intro hm
    obtain ⟨d, hd1, hd2⟩ := h.res.blk b rfl (inv_push hinv l1) he2
    rw [hd1, List.any_eq_false] at he
    have hl := h.res.acc (inv_push hinv l1) he2
    have hk := hl.eff.1.old x .lex ((l1 x .lex).2 ⟨hx, rfl⟩)
    have := he (x, .lex) (look_some_mem hk)
    have hne := hd2.has x (Or.inr hm)
    cases hdx : look d x with
    | none => exact hne hdx
    | some j => simp [hdx] at this
  · intro h1
    exact ⟨h1.1, listOk_nil rfl, fun x hx => ⟨(h1.2.1 x hx).2, by simp [LN]⟩, h1.2.2⟩
  · intro hinv he l1 hhe hea hfc
    obtain ⟨d, hd1, hd2⟩ := h.res.blk b rfl (inv_push hinv l1) he
    rw [hd1, List.any_eq_false]
    rintro ⟨x, k⟩ hi
    have hk := look_of_mem (h.res.uq c2 List.mem_cons_self) hi
    cases k with
    | var => simp
    | _ =>
      have hx : x ∈ xs := by
        cases hc : look c1 x with
        | some j => exact ((l1 x j).1 hc).1
        | none =>
          rcases hhe.new x _ hc hk with h1 | h1
          · rcases h1 with h1 | h1
            · exact absurd h1.1 (by simp)
            · rw [FN_false] at h1; exact absurd h1.2 (List.not_mem_nil)
          · exact absurd h1.1 (List.not_mem_nil)
      cases hdx : look d x with
      | none => simp [hdx]
      | some j =>
        exfalso
        rcases hd2.new x j (look_nil _ _) hdx with h1 | h1
        · rcases h1 with h1 | h1
          · exact (hea.2.1 x hx).2 h1.2
          · rw [FN_false] at h1; exact absurd h1.2 (List.not_mem_nil)
        · exact (hea.2.1 x hx).1 h1.1

end Verif.Decls

import Verif.Lemmas.DeclsEff

/- The result of parsing a part of a program, and its simple cases. -/

namespace Verif.Decls

theorem SameTabs.append : ∀ {a b c d : List Tab}, SameTabs a b → SameTabs c d →
    SameTabs (a ++ c) (b ++ d)
  | [], [], _, _, _, h => h
  | _ :: _, _ :: _, _, _, h1, h => ⟨h1.1, SameTabs.append h1.2 h⟩
  | [], _ :: _, _, _, h1, _ => h1.elim
  | _ :: _, [], _, _, h1, _ => h1.elim

/-- What is known when no error was reported. -/
structure Acc (ps : Bool) (F : Fn) (t : Bool) (s : St) (cur : List Scope) (st st' : PS)
    (cur' : List Scope) : Prop where
  e0 : st.err = false
  ok : OkAt F t s cur
  eff : Eff F t s cur cur'
  early : Early ps s
  imps : st'.imps = st.imps ++ IN s
  impsNd : st.imps.Nodup → (st.imps ++ IN s).Nodup
  tabs : ∃ T, st'.tabs = st.tabs ++ T ∧ SameTabs T (Tabs s)

/-- The result of parsing `s`. -/
structure Res (ps : Bool) (F : Fn) (t : Bool) (s : St) (cur rest : List Scope) (st st' : PS)
    (cur' : List Scope) : Prop where
  stack : st'.stack = cur' ++ rest
  ids : cur'.map (·.id) = cur.map (·.id)
  next : st.next ≤ st'.next
  uq : ∀ c ∈ cur', c.Uniq
  mono : st'.err = false → st.err = false
  acc : Inv F t cur → st'.err = false → Acc ps F t s cur st st' cur'
  comp : Inv F t cur → st.err = false → OkAt F t s cur → Early ps s → NoForClash s →
    NoFnThenVar t s → NoFn t s cur → (st.imps ++ IN s).Nodup → st'.err = false
  blk : ∀ b, s = .block b → Inv F t cur → st'.err = false →
    ∃ c, find st' st.next = c ∧ HE F false b ⟨st.next, []⟩ c

/-- Parsing `s` gives a result, in any function. -/
def Run (m ps : Bool) (s : St) : Prop :=
  ∀ (F : Fn) (t : Bool) (cur rest : List Scope) (st : PS), Good F cur rest st.next → Top F t cur →
    st.stack = cur ++ rest → Grammar m s → NoBareCatch s →
    ∃ st' cur', parse ps F s st = some st' ∧ Res ps F t s cur rest st st' cur'

theorem eff_refl {F : Fn} {t : Bool} {s : St} (hv : VN s = []) (hf : FN t s = []) (hl : LN t s = []) :
    ∀ {cur : List Scope}, cur ≠ [] → Eff F t s cur cur
  | [], h => absurd rfl h
  | c :: tl, _ => by
    refine ⟨⟨rfl, fun _ _ h => h, ?_, ?_⟩, Pair.refl fun a _ => ⟨rfl, fun _ _ h => h, ?_, ?_⟩⟩
    · intro x k h1 h2; rw [h1] at h2; cases h2
    · rintro x ((h | h) | h)
      · rw [hv] at h; cases h
      · rw [hf] at h; cases h
      · rw [hl] at h; cases h
    · intro x k h1 h2; rw [h1] at h2; cases h2
    · rintro x (h | h)
      · rw [hv] at h; cases h
      · rw [hf] at h; cases h

theorem ok_empty {F : Fn} {t : Bool} {s : St} (hv : VN s = []) (hf : FN t s = []) (hl : LN t s = [])
    (cur : List Scope) : OkAt F t s cur := by
  refine ⟨by rw [hl]; exact List.nodup_nil, ?_, ?_, ?_⟩
  · intro x hx; rw [hl] at hx; cases hx
  · intro c _ x hx; rw [hl] at hx; cases hx
  · rintro c _ x k (h | h) _
    · rw [hv] at h; cases h
    · rw [hf] at h; cases h

theorem run_nil (m ps : Bool) : Run m ps .nil := by
  intro F t cur rest st hg ht hs _ _
  refine ⟨st, cur, rfl, ?_⟩
  exact
    { stack := hs, ids := rfl, next := Nat.le_refl _, uq := hg.uq, mono := id
      acc := fun _ he => ⟨he, ok_empty rfl rfl rfl _, eff_refl rfl rfl rfl hg.ne_nil, trivial,
        by simp [IN], by simp [IN], [], by simp, trivial⟩
      comp := fun _ he _ _ _ _ _ _ => he
      blk := fun b e => by cases e }

theorem run_imp (m ps : Bool) (x : Nat) : Run m ps (.imp x) := by
  intro F t cur rest st hg ht hs _ _
  refine ⟨addImport x st, cur, rfl, ?_⟩
  by_cases hx : x ∈ st.imps
  · have h1 : addImport x st = flag true st := by simp [addImport, hx]
    rw [h1]
    exact
      { stack := hs, ids := rfl, next := Nat.le_refl _, uq := hg.uq
        mono := fun h => by simp [flag] at h
        acc := fun _ h => by simp [flag] at h
        comp := fun _ he _ _ _ _ _ hn => by
          simp only [IN, List.nodup_append] at hn
          exact absurd rfl (hn.2.2 x hx x (List.mem_singleton.2 rfl))
        blk := fun b e => by cases e }
  · have h1 : addImport x st = { st with imps := st.imps ++ [x] } := by simp [addImport, hx]
    rw [h1]
    exact
      { stack := hs, ids := rfl, next := Nat.le_refl _, uq := hg.uq
        mono := fun h => h
        acc := fun _ he => ⟨he, ok_empty rfl rfl rfl _, eff_refl rfl rfl rfl hg.ne_nil, trivial,
          rfl, fun hn => by
            simp only [IN, List.nodup_append]
            refine ⟨hn, by simp, ?_⟩
            intro a ha b hb e
            rw [List.mem_singleton.1 hb] at e
            exact hx (e ▸ ha), [], by simp, trivial⟩
        comp := fun _ he _ _ _ _ _ _ => he
        blk := fun b e => by cases e }

theorem run_cons {m ps : Bool} {s r : St} (h1 : Run m ps s) (h2 : Run m ps r) :
    Run m ps (.cons s r) := by
  intro F t cur rest st hg ht hs hgr hnb
  obtain ⟨s1, cur1, e1, r1⟩ := h1 F t cur rest st hg ht hs hgr.1 hnb.1
  obtain ⟨s2, cur2, e2, r2⟩ := h2 F t cur1 rest s1 (hg.of_ids r1.ids r1.next r1.uq)
    (ht.of_ids r1.ids) r1.stack hgr.2 hnb.2
  refine ⟨s2, cur2, by simp [parse, e1, e2], ?_⟩
  exact
    { stack := r2.stack, ids := r2.ids.trans r1.ids, next := Nat.le_trans r1.next r2.next
      uq := r2.uq, mono := fun h => r1.mono (r2.mono h)
      acc := fun hi he => by
        have a1 := r1.acc hi (r2.mono he)
        have a2 := r2.acc (inv_step a1.eff a1.ok ht hi) he
        obtain ⟨T1, t1, t1'⟩ := a1.tabs
        obtain ⟨T2, t2, t2'⟩ := a2.tabs
        refine ⟨a1.e0, ok_cons a1.eff ht a1.ok a2.ok, eff_cons a1.eff a2.eff,
          ⟨a1.early, a2.early⟩, ?_, ?_, T1 ++ T2, ?_, t1'.append t2'⟩
        · rw [a2.imps, a1.imps]; simp [IN]
        · intro hn
          have := a2.impsNd (by rw [a1.imps]; exact a1.impsNd hn)
          rw [a1.imps] at this
          simpa [IN] using this
        · rw [t2, t1]; simp
      comp := fun hi he ho hea hfc hfv hnf hin => by
        have hin' : (st.imps ++ IN s ++ IN r).Nodup := by simpa [IN] using hin
        have c1 := r1.comp hi he (ok_left ho) hea.1 hfc.1 hfv.1 (nofn_left hnf)
          (by rw [List.nodup_append] at hin'; exact hin'.1)
        have a1 := r1.acc hi c1
        exact r2.comp (inv_step a1.eff a1.ok ht hi) c1 (ok_right a1.eff ht ho) hea.2 hfc.2
          hfv.2.1 (nofn_right a1.eff ho hfv hnf) (by rw [a1.imps]; exact hin')
      blk := fun b e => by cases e }

/-- Parts with the same names and rules have the same results. -/
theorem Res.congr {ps : Bool} {F : Fn} {t : Bool} {s s' : St} {cur rest : List Scope} {st st' : PS}
    {cur' : List Scope} (h : Res ps F t s cur rest st st' cur')
    (hl : LN t s' = LN t s) (hv : VN s' = VN s) (hf : FN t s' = FN t s) (hi : IN s' = IN s)
    (htb : Tabs s' = Tabs s) (hnv : NV s' = NV s)
    (hea : Early ps s' ↔ Early ps s) (hfc : NoForClash s' → NoForClash s)
    (hfv : NoFnThenVar t s' → NoFnThenVar t s) (hb : ∀ b, s' ≠ .block b) :
    Res ps F t s' cur rest st st' cur' := by
  have hisV : ∀ x, isV t s' x ↔ isV t s x := by intro x; unfold isV; rw [hv, hf]
  have hVF : ∀ x k, VF t s x k → VF t s' x k := by intro x k; unfold VF; rw [hv, hf]; exact id
  have hok : OkAt F t s cur → OkAt F t s' cur := fun o =>
    ⟨hl ▸ o.nd, fun x hx hv' => o.dj x (hl ▸ hx) ((hisV x).1 hv'),
      fun c hc x hx => o.fresh c hc x (hl ▸ hx),
      fun c hc x k hv' hk => o.free c hc x k ((hisV x).1 hv') hk⟩
  have hok' : OkAt F t s' cur → OkAt F t s cur := fun o =>
    ⟨hl ▸ o.nd, fun x hx hv' => o.dj x (hl ▸ hx) ((hisV x).2 hv'),
      fun c hc x hx => o.fresh c hc x (hl ▸ hx),
      fun c hc x k hv' hk => o.free c hc x k ((hisV x).2 hv') hk⟩
  have hte : ∀ c c', TE t s c c' → TE t s' c c' := fun c c' o =>
    ⟨o.id, o.old, fun x k a b => hVF x k (o.new x k a b), fun x hx => o.has x ((hisV x).1 hx)⟩
  have hhe : ∀ c c', HE F t s c c' → HE F t s' c c' := fun c c' o =>
    ⟨o.id, o.old, fun x k a b => (o.new x k a b).imp (hVF x k) (fun h => ⟨hl ▸ h.1, h.2⟩),
      fun x hx => o.has x (hx.imp (hisV x).1 (fun h => hl ▸ h))⟩
  have heff : Eff F t s cur cur' → Eff F t s' cur cur' := by
    cases cur <;> cases cur' <;> intro o <;> try exact o.elim
    exact ⟨hhe _ _ o.1, Pair.imp hte o.2⟩
  exact
    { stack := h.stack, ids := h.ids, next := h.next, uq := h.uq, mono := h.mono
      acc := fun hinv he => by
        have a := h.acc hinv he
        exact ⟨a.e0, hok a.ok, heff a.eff, hea.2 a.early, hi ▸ a.imps, hi ▸ a.impsNd, htb ▸ a.tabs⟩
      comp := fun hinv he ho h1 h2 h3 h4 h5 =>
        h.comp hinv he (hok' ho) (hea.1 h1) (hfc h2) (hfv h3)
          (by unfold NoFn at h4 ⊢; rw [hv, hnv] at h4; exact h4) (hi ▸ h5)
      blk := fun b e => absurd e (hb b) }

/-- The result of adding one name. -/
structure ResN (F : Fn) (t : Bool) (s : St) (cur rest : List Scope) (st st' : PS)
    (cur' : List Scope) : Prop where
  stack : st'.stack = cur' ++ rest
  ids : cur'.map (·.id) = cur.map (·.id)
  next : st'.next = st.next
  imps : st'.imps = st.imps
  tabs : st'.tabs = st.tabs
  uq : ∀ c ∈ cur', c.Uniq
  mono : st'.err = false → st.err = false
  acc : Inv F t cur → st'.err = false → OkAt F t s cur ∧ Eff F t s cur cur'
  comp : Inv F t cur → st.err = false → OkAt F t s cur → NoFn t s cur → st'.err = false

theorem ResN.toRes {ps : Bool} {F : Fn} {t : Bool} {s : St} {cur rest : List Scope} {st st' : PS}
    {cur' : List Scope} (h : ResN F t s cur rest st st' cur') (hi : IN s = []) (htb : Tabs s = [])
    (hea : Early ps s) (hb : ∀ b, s ≠ .block b) : Res ps F t s cur rest st st' cur' :=
  { stack := h.stack, ids := h.ids, next := Nat.le_of_eq h.next.symm, uq := h.uq, mono := h.mono
    acc := fun hinv he => ⟨h.mono he, (h.acc hinv he).1, (h.acc hinv he).2, hea,
      by rw [hi, h.imps]; simp, by rw [hi]; simp, [], by rw [h.tabs]; simp, by rw [htb]; trivial⟩
    comp := fun hinv he ho _ _ _ hn _ => h.comp hinv he ho hn
    blk := fun b e => absurd e (hb b) }

/-- A lexical item on top. -/
theorem resN_lex {ps : Bool} {F : Fn} {t : Bool} {s : St} {x : Nat} {k : Kind} {c : Scope}
    {tl rest : List Scope} {st : PS} (hg : Good F (c :: tl) rest st.next)
    (hs : st.stack = c :: tl ++ rest) (hk : isLex F c k = true)
    (hl : LN t s = [x]) (hv : VN s = []) (hf : FN t s = []) :
    ∃ st' cur', add ps F k x st = some st' ∧ ResN F t s (c :: tl) rest st st' cur' := by
  rw [add_lex hs hk]
  by_cases hx : look c x = none
  · refine ⟨_, c.add x k :: tl, by rw [if_pos hx], ?_⟩
    have hok : OkAt F t s (c :: tl) := by
      refine ⟨by rw [hl]; simp, ?_, ?_, ?_⟩
      · rintro y _ (h | h)
        · rw [hv] at h; cases h
        · rw [hf] at h; cases h
      · intro d hd y hy
        simp only [List.head?_cons, Option.mem_def, Option.some.injEq] at hd
        subst hd
        rw [hl] at hy
        rw [List.mem_singleton.1 hy]; exact hx
      · rintro d _ y j (h | h) _
        · rw [hv] at h; cases h
        · rw [hf] at h; cases h
    have heff : Eff F t s (c :: tl) (c.add x k :: tl) := by
      refine ⟨⟨rfl, ?_, ?_, ?_⟩, Pair.refl fun a _ => ⟨rfl, fun _ _ h => h, ?_, ?_⟩⟩
      · intro y j hy; rw [look_add, hy]; rfl
      · intro y j h1 h2
        rw [look_add, h1] at h2
        by_cases e : x = y
        · subst e
          simp at h2
          subst h2
          refine Or.inr ⟨by rw [hl]; simp, ?_⟩
          rw [← hg.isLex_eq]; exact hk
        · simp [e] at h2
      · rintro y ((h | h) | h)
        · rw [hv] at h; cases h
        · rw [hf] at h; cases h
        · rw [hl] at h
          rw [List.mem_singleton.1 h, look_add_self k hx]; simp
      · intro y j h1 h2; rw [h1] at h2; cases h2
      · rintro y (h | h)
        · rw [hv] at h; cases h
        · rw [hf] at h; cases h
    exact
      { stack := rfl, ids := rfl, next := rfl, imps := rfl, tabs := rfl
        uq := by
          intro d hd
          rcases List.mem_cons.1 hd with h | h
          · subst h; exact (hg.uq c List.mem_cons_self).add hx
          · exact hg.uq d (List.mem_cons_of_mem _ h)
        mono := id
        acc := fun _ _ => ⟨hok, heff⟩
        comp := fun _ he _ _ => he }
  · refine ⟨_, c :: tl, by rw [if_neg hx], ?_⟩
    exact
      { stack := hs, ids := rfl, next := rfl, imps := rfl, tabs := rfl, uq := hg.uq
        mono := fun h => by simp [flag] at h
        acc := fun _ h => by simp [flag] at h
        comp := fun _ _ ho _ => absurd (ho.fresh c rfl x (by rw [hl]; simp)) hx }

theorem walkOne_look (x : Nat) (k : Kind) (c : Scope) (y : Nat) :
    look (walkOne x k c).1 y = (look c y).or (if x = y then some k else none) := by
  unfold walkOne
  split
  · next k0 h =>
    by_cases e : x = y
    · subst e; rw [h]; rfl
    · simp [e]
  · exact look_add c x y k

/-- A variable or function item of the function. -/
theorem resN_var {ps : Bool} {F : Fn} {t : Bool} {s : St} {x : Nat} {k : Kind} {c : Scope}
    {tl rest : List Scope} {st : PS} (hg : Good F (c :: tl) rest st.next) (ht : Top F t (c :: tl))
    (hs : st.stack = c :: tl ++ rest) (hk : isLex F c k = false) (hkp : k ≠ .param)
    (hVF : ∀ y j, VF t s y j ↔ (y = x ∧ j = k)) (hVN : t = false → VN s = [x])
    (hl : LN t s = []) :
    ∃ st' cur', add ps F k x st = some st' ∧ ResN F t s (c :: tl) rest st st' cur' := by
  have hisV : ∀ y, isV t s y ↔ y = x := by
    intro y
    constructor
    · rintro (h | h)
      · exact ((hVF y .var).1 (Or.inl ⟨rfl, h⟩)).1
      · exact ((hVF y .fn).1 (Or.inr ⟨rfl, h⟩)).1
    · intro e; exact ((hVF y k).2 ⟨e, rfl⟩).isV
  have hklex : ∀ d ∈ c :: tl, lexK F d k = false := fun d hd =>
    ((hVF x k).2 ⟨rfl, rfl⟩).nonlex ht hd
  rw [add_var hs hg hk hkp]
  cases hx : look c x with
  | some k0 =>
    refine ⟨_, c :: tl, rfl, ?_⟩
    refine
      { stack := hs, ids := rfl, next := rfl, imps := rfl, tabs := rfl, uq := hg.uq
        mono := fun h => by simp [flag] at h; exact h.1
        acc := fun hinv he => ?_
        comp := fun _ he ho _ => ?_ }
    · simp only [flag, Bool.or_eq_false_iff] at he
      have hk0 : lexK F c k0 = false := by rw [← hg.isLex_eq]; exact he.2
      have hbelow := hinv.1.1 x k0 hx hk0
      refine ⟨⟨by rw [hl]; simp, ?_, ?_, ?_⟩, ⟨⟨rfl, fun _ _ h => h, ?_, ?_⟩,
        Pair.refl fun a ha => ⟨rfl, fun _ _ h => h, ?_, ?_⟩⟩⟩
      · intro y hy; rw [hl] at hy; cases hy
      · intro d _ y hy; rw [hl] at hy; cases hy
      · intro d hd y j hv hj
        rw [(hisV y).1 hv] at hj
        rcases List.mem_cons.1 hd with e | e
        · subst e; rw [hx] at hj; cases hj; exact hk0
        · obtain ⟨j', h1, h2⟩ := hbelow d e
          rw [h1] at hj; cases hj; exact h2
      · intro y j h1 h2; rw [h1] at h2; cases h2
      · rintro y (h | h)
        · rw [(hisV y).1 h, hx]; simp
        · rw [hl] at h; cases h
      · intro y j h1 h2; rw [h1] at h2; cases h2
      · intro y hy
        obtain ⟨j', h1, _⟩ := hbelow a ha
        rw [(hisV y).1 hy, h1]; simp
    · have := ho.free c List.mem_cons_self x k0 ((hisV x).2 rfl) hx
      rw [← hg.isLex_eq] at this
      simp [flag, he, this]
  | none =>
    refine ⟨_, c.add x k :: tl.map (fun c => (walkOne x k c).1), rfl, ?_⟩
    refine
      { stack := rfl, ids := ?_, next := rfl, imps := rfl, tabs := rfl, uq := ?_
        mono := fun h => by simp only [flag, Bool.or_eq_false_iff] at h; exact h.1
        acc := fun hinv he => ?_
        comp := fun hinv he ho hnf => ?_ }
    · simp [Scope.add, walkOne_id]
    · intro d hd
      rcases List.mem_cons.1 hd with e | e
      · subst e; exact (hg.uq c List.mem_cons_self).add hx
      · obtain ⟨a, ha, rfl⟩ := List.mem_map.1 e
        exact walkOne_uniq x k (hg.uq a (List.mem_cons_of_mem _ ha))
    · simp only [flag, Bool.or_eq_false_iff, List.any_eq_false] at he
      have hw : ∀ a ∈ tl, ∀ j, look a x = some j → lexK F a j = false := by
        intro a ha j hj
        have := he.2 a ha
        simp only [walkOne, hj] at this
        cases j <;> simp_all [lexK]
      refine ⟨⟨by rw [hl]; simp, ?_, ?_, ?_⟩, ⟨⟨rfl, ?_, ?_, ?_⟩,
        Pair.map fun a ha => ⟨walkOne_id x k a, ?_, ?_, ?_⟩⟩⟩
      · intro y hy; rw [hl] at hy; cases hy
      · intro d _ y hy; rw [hl] at hy; cases hy
      · intro d hd y j hv hj
        rw [(hisV y).1 hv] at hj
        rcases List.mem_cons.1 hd with e | e
        · subst e; rw [hx] at hj; cases hj
        · exact hw d e j hj
      · intro y j hy; rw [look_add, hy]; rfl
      · intro y j h1 h2
        rw [look_add, h1] at h2
        by_cases e : x = y
        · subst e
          simp at h2
          exact Or.inl ((hVF _ _).2 ⟨rfl, h2.symm⟩)
        · simp [e] at h2
      · rintro y (h | h)
        · rw [(hisV y).1 h, look_add_self k hx]; simp
        · rw [hl] at h; cases h
      · intro y j hy; rw [walkOne_look, hy]; rfl
      · intro y j h1 h2
        rw [walkOne_look, h1] at h2
        by_cases e : x = y
        · subst e
          simp at h2
          exact (hVF _ _).2 ⟨rfl, h2.symm⟩
        · simp [e] at h2
      · intro y hy
        rw [(hisV y).1 hy, walkOne_look]
        cases look a x <;> simp
    · simp only [flag, he, Bool.false_or, List.any_eq_false]
      intro a ha
      cases hj : look a x with
      | none => simp [walkOne, hj]
      | some j =>
        have h1 := ho.free a (List.mem_cons_of_mem _ ha) x j ((hisV x).2 rfl) hj
        have h2 : j ≠ .fn := by
          intro e
          subst e
          cases t with
          | true => exact hinv.2 rfl a ha x hj hx
          | false =>
            exact hnf x (by simp [hVN rfl]) a (List.mem_cons_of_mem _ ha) hj
        cases j <;> simp_all [walkOne, lexK]

theorem run_var (m ps : Bool) (x : Nat) : Run m ps (.var x) := by
  intro F t cur rest st hg ht hs _ _
  cases cur with
  | nil => exact absurd rfl hg.ne_nil
  | cons c tl =>
    have hVF : ∀ y j, VF t (.var x) y j ↔ (y = x ∧ j = .var) := by
      intro y j
      simp only [VF, VN, FN, List.mem_singleton, List.not_mem_nil, and_false, or_false]
      exact and_comm
    obtain ⟨st', cur', e, r⟩ := resN_var (ps := ps) (k := .var) (x := x) hg ht hs rfl (by simp) hVF
      (fun _ => rfl) rfl
    exact ⟨st', cur', e, r.toRes rfl rfl trivial (by simp)⟩

theorem run_lex (m ps : Bool) (x : Nat) : Run m ps (.lex x) := by
  intro F t cur rest st hg ht hs _ _
  cases cur with
  | nil => exact absurd rfl hg.ne_nil
  | cons c tl =>
    obtain ⟨st', cur', e, r⟩ := resN_lex (ps := ps) (t := t) (s := .lex x) (k := .lex) (x := x) hg hs
      rfl rfl rfl rfl
    exact ⟨st', cur', e, r.toRes rfl rfl trivial (by simp)⟩

end Verif.Decls

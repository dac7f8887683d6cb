import Verif.Lemmas.OperatorsNum
import Verif.Lemmas.Str
/-
Lemmas for C87: conversions and operators as runs.
-/
namespace Verif.Operators
open Verif.NumConv (Num num den)
open Verif.BigInt (BI)

variable {σ : Type}

theorem Is.unique {v : V} {p q : P} (h : Is v p) (h' : Is v q) : p = q := by
  cases h <;> cases h' <;> rfl

theorem Is.total (v : V) : (∃ p, Is v p) ∨ ∃ o, v = .obj o := by
  cases v with
  | undef => exact .inl ⟨_, .undef⟩
  | null => exact .inl ⟨_, .null⟩
  | bool b => exact .inl ⟨_, .bool b⟩
  | num n => exact .inl ⟨_, .num n⟩
  | str s => exact .inl ⟨_, .str s⟩
  | sym i => exact .inl ⟨_, .sym i⟩
  | big x => exact .inl ⟨_, .big x⟩
  | obj o => exact .inr ⟨o, rfl⟩

theorem Is.not_obj {o : Nat} {p : P} (h : Is (.obj o) p) : False := by cases h

theorem agree_unique {α β : Type} {R : α → β → Prop} (hR : ∀ a b b', R a b → R a b' → b = b')
    {x : Except Exc α} {r r' : Except Exc β} (h : Agree R x r) (h' : Agree R x r') : r = r' := by
  cases x <;> cases r <;> cases r' <;> simp only [Agree] at h h'
  · rw [← h, ← h']
  · rw [hR _ _ _ h h']

theorem andThen_ok {α β : Type} {m : M σ α} {f : α → M σ β} {s s' : σ} {a : α}
    (h : m s = (.ok a, s')) : m.andThen f s = f a s' := by simp [M.andThen, h]

theorem andThen_err {α β : Type} {m : M σ α} {f : α → M σ β} {s s' : σ} {e : Exc}
    (h : m s = (.error e, s')) : m.andThen f s = (.error e, s') := by simp [M.andThen, h]

/-- A call result as `ordLoop` looks at it. -/
private theorem ord_obj {W : World σ} {o : Nat} {k : Key} {ks : List Key} {s s' : σ} {f : Nat}
    (h : W.get o k s = (.ok (.obj f), s')) (hc : W.callable f = true) :
    ordLoop W o (k :: ks) s = (W.call f (.obj o) []).andThen
      (fun | .obj _ => ordLoop W o ks | v => ret v) s' := by
  rw [ordLoop, andThen_ok h]
  simp only [hc, if_true]
  rfl

private theorem ord_skip {W : World σ} {o : Nat} {k : Key} {ks : List Key} {s s' : σ} {v : V}
    (h : W.get o k s = (.ok v, s')) (hc : ∀ f, v = .obj f → W.callable f = false) :
    ordLoop W o (k :: ks) s = ordLoop W o ks s' := by
  rw [ordLoop, andThen_ok h]
  cases v with
  | obj f => simp [hc f rfl]
  | _ => rfl

theorem ordinary_run {W : World σ} {o : Nat} {ks : List Key} {s : σ} {r : Except Exc P} {s' : σ}
    (h : Ordinary W o ks s r s') :
    Agree Is (ordLoop W o ks s).1 r ∧ (ordLoop W o ks s).2 = s' := by
  induction h with
  | none => exact ⟨rfl, rfl⟩
  | getErr h => rw [ordLoop, andThen_err h]; exact ⟨rfl, rfl⟩
  | skip h hc _ ih => rw [ord_skip h hc]; exact ih
  | callErr h hc hcall => rw [ord_obj h hc, andThen_err hcall]; exact ⟨rfl, rfl⟩
  | prim h hc hcall hp =>
    rw [ord_obj h hc, andThen_ok hcall]
    cases hp <;> exact ⟨by constructor, rfl⟩
  | obj h hc hcall _ ih => rw [ord_obj h hc, andThen_ok hcall]; exact ih

theorem ordinary_total (W : World σ) (o : Nat) : ∀ (ks : List Key) (s : σ),
    ∃ r s', Ordinary W o ks s r s'
  | [], s => ⟨_, _, .none⟩
  | k :: ks, s => by
    rcases hg : W.get o k s with ⟨_ | v, s'⟩
    · exact ⟨_, _, .getErr hg⟩
    · by_cases hf : ∃ f, v = .obj f ∧ W.callable f = true
      · obtain ⟨f, rfl, hc⟩ := hf
        rcases hcall : W.call f (.obj o) [] s' with ⟨_ | w, s''⟩
        · exact ⟨_, _, .callErr hg hc hcall⟩
        · rcases Is.total w with ⟨p, hp⟩ | ⟨i, rfl⟩
          · exact ⟨_, _, .prim hg hc hcall hp⟩
          · obtain ⟨r, t, h⟩ := ordinary_total W o ks s''
            exact ⟨_, _, .obj hg hc hcall h⟩
      · obtain ⟨r, t, h⟩ := ordinary_total W o ks s'
        refine ⟨_, _, .skip hg ?_ h⟩
        intro f hv
        cases hc : W.callable f
        · rfl
        · exact absurd ⟨f, hv, hc⟩ hf

private theorem ordToPrim_eq (W : World σ) (o : Nat) (h : Hint) :
    ordToPrim W o h = ordLoop W o (order h) := by cases h <;> rfl

private theorem hint_eq (h : Hint) : h.value = .str (.units (ascii (hintStr h))) := by
  cases h <;> rfl

private theorem obj_call {W : World σ} {o : Nat} {h : Hint} {s s' : σ} {f : Nat}
    (hg : W.get o .toPrimitive s = (.ok (.obj f), s')) (hc : W.callable f = true) :
    objToPrim W o h s = (W.call f (.obj o) [.str (.units (ascii (hintStr h)))]).andThen
      (fun | .obj _ => throw' .typeError | v => ret v) s' := by
  unfold objToPrim
  rw [andThen_ok (a := some f) (s' := s')]
  · simp only [hint_eq]; rfl
  · unfold getMethod
    rw [andThen_ok hg]
    simp [hc, ret]

theorem toPrim_run {W : World σ} {h : Hint} {a : V} {s : σ} {r : Except Exc P} {s' : σ}
    (H : ToPrim W h a s r s') :
    Agree Is (toPrim W h a s).1 r ∧ (toPrim W h a s).2 = s' := by
  cases H with
  | prim hp =>
    have : toPrim W h a s = (.ok a, s) := by cases hp <;> rfl
    rw [this]; exact ⟨hp, rfl⟩
  | getErr hg =>
    simp only [toPrim, objToPrim, getMethod]
    rw [andThen_err (andThen_err hg)]; exact ⟨rfl, rfl⟩
  | @notFn o s v s' hg h1 h2 h3 =>
    simp only [toPrim, objToPrim, getMethod]
    rw [andThen_err (e := .typeError) (s' := s')]
    · exact ⟨rfl, rfl⟩
    · rw [andThen_ok hg]
      cases v with
      | undef => exact absurd rfl h1
      | null => exact absurd rfl h2
      | obj f => simp [h3 f rfl, throw']
      | _ => rfl
  | @ordinary o s v s' r s'' hg hv ho =>
    simp only [toPrim, objToPrim, getMethod]
    rw [andThen_ok (a := none) (s' := s')]
    · simp only [ordToPrim_eq]; exact ordinary_run ho
    · rw [andThen_ok hg]; rcases hv with rfl | rfl <;> rfl
  | callErr hg hc hcall =>
    simp only [toPrim]
    rw [obj_call hg hc, andThen_err hcall]; exact ⟨rfl, rfl⟩
  | exotic hg hc hcall hp =>
    simp only [toPrim]
    rw [obj_call hg hc, andThen_ok hcall]
    cases hp <;> exact ⟨by constructor, rfl⟩
  | object hg hc hcall =>
    simp only [toPrim]
    rw [obj_call hg hc, andThen_ok hcall]
    exact ⟨rfl, rfl⟩

theorem toPrim_total (W : World σ) (h : Hint) (a : V) (s : σ) : ∃ r s', ToPrim W h a s r s' := by
  rcases Is.total a with ⟨p, hp⟩ | ⟨o, rfl⟩
  · exact ⟨_, _, .prim hp⟩
  · rcases hg : W.get o .toPrimitive s with ⟨_ | v, s'⟩
    · exact ⟨_, _, .getErr hg⟩
    · by_cases hn : v = .undef ∨ v = .null
      · obtain ⟨r, t, ho⟩ := ordinary_total W o (order h) s'
        exact ⟨_, _, .ordinary hg hn ho⟩
      · rw [not_or] at hn
        by_cases hf : ∃ f, v = .obj f ∧ W.callable f = true
        · obtain ⟨f, rfl, hc⟩ := hf
          rcases hcall : W.call f (.obj o) [.str (.units (ascii (hintStr h)))] s' with ⟨_ | w, s''⟩
          · exact ⟨_, _, .callErr hg hc hcall⟩
          · rcases Is.total w with ⟨p, hp⟩ | ⟨i, rfl⟩
            · exact ⟨_, _, .exotic hg hc hcall hp⟩
            · exact ⟨_, _, .object hg hc hcall⟩
        · refine ⟨_, _, .notFn hg hn.1 hn.2 ?_⟩
          intro f hv
          cases hc : W.callable f
          · rfl
          · exact absurd ⟨f, hv, hc⟩ hf

theorem toPrim_iff {W : World σ} {h : Hint} {a : V} {s : σ} {r : Except Exc P} {s' : σ} :
    ToPrim W h a s r s' ↔ Agree Is (toPrim W h a s).1 r ∧ (toPrim W h a s).2 = s' := by
  refine ⟨toPrim_run, fun ⟨h1, h2⟩ => ?_⟩
  obtain ⟨r0, s0, h0⟩ := toPrim_total W h a s
  obtain ⟨g1, g2⟩ := toPrim_run h0
  have := agree_unique (R := Is) (fun _ _ _ a b => a.unique b) h1 g1
  subst this; subst h2; subst g2
  exact h0

/-! ### Conversions -/

/-- A step without effect on the state: what it gives. -/
def Pure {β α : Type} (R : β → α → Prop) (m : M σ β) (r : Except Exc α) : Prop :=
  ∀ s, (m s).2 = s ∧ Agree R (m s).1 r

theorem pure_ret {β α : Type} {R : β → α → Prop} {x : β} {a : α} (h : R x a) :
    Pure (σ := σ) R (ret x) (.ok a) := fun _ => ⟨rfl, h⟩

theorem pure_throw {β α : Type} {R : β → α → Prop} (e : Exc) :
    Pure (σ := σ) R (throw' e) (.error e) := fun _ => ⟨rfl, rfl⟩

theorem pure_bind {β α γ δ : Type} {R : β → α → Prop} {S : γ → δ → Prop} {m : M σ β}
    {r : Except Exc α} {f : β → M σ γ} {g : α → Except Exc δ} (h : Pure R m r)
    (hf : ∀ x a, R x a → Pure S (f x) (g a)) : Pure S (m.andThen f) (r.bind g) := by
  intro s
  obtain ⟨h1, h2⟩ := h s
  rcases hm : m s with ⟨x | x, t⟩
  · rw [andThen_err hm]; rw [hm] at h1 h2
    cases r with
    | error e => exact ⟨h1, h2⟩
    | ok a => exact h2.elim
  · rw [andThen_ok hm]; rw [hm] at h1 h2
    cases r with
    | error e => exact h2.elim
    | ok a =>
      dsimp only at h1
      subst h1
      exact hf x a h2 t

theorem conv_iff {W : World σ} {h : Hint} {a : V} {α β : Type} {f : P → Except Exc α}
    {g : V → M σ β} {R : β → α → Prop} (hR : ∀ x y z, R x y → R x z → y = z)
    (hg : ∀ v p, Is v p → Pure R (g v) (f p)) {s : σ} {r : Except Exc α} {s' : σ} :
    Conv W h f a s r s' ↔
      Agree R ((toPrim W h a).andThen g s).1 r ∧ ((toPrim W h a).andThen g s).2 = s' := by
  obtain ⟨r0, s0, h0⟩ := toPrim_total W h a s
  have h1 := toPrim_run h0
  have key : ∃ r1, Conv W h f a s r1 s0 ∧
      Agree R ((toPrim W h a).andThen g s).1 r1 ∧ ((toPrim W h a).andThen g s).2 = s0 ∧
      ∀ r s', Conv W h f a s r s' → r = r1 ∧ s' = s0 := by
    rcases hm : toPrim W h a s with ⟨x | v, t⟩
    · rw [andThen_err hm]
      rw [hm] at h1
      cases r0 with
      | ok p => exact h1.1.elim
      | error e =>
        refine ⟨_, .err h0, h1.1, h1.2, ?_⟩
        intro r s' hc
        cases hc with
        | err ht =>
          have h2 := toPrim_run ht
          rw [hm] at h2
          exact ⟨by rw [← h2.1, ← h1.1], by rw [← h2.2, ← h1.2]⟩
        | val ht => have h2 := toPrim_run ht; rw [hm] at h2; exact h2.1.elim
    · rw [andThen_ok hm]
      rw [hm] at h1
      cases r0 with
      | error e => exact h1.1.elim
      | ok p =>
        obtain ⟨hp, ht⟩ := h1
        dsimp only at ht
        subst ht
        have := hg v p hp t
        refine ⟨_, .val h0, this.2, this.1, ?_⟩
        intro r s' hc
        cases hc with
        | err ht => have h2 := toPrim_run ht; rw [hm] at h2; exact h2.1.elim
        | val ht =>
          have h2 := toPrim_run ht
          rw [hm] at h2
          exact ⟨by rw [hp.unique h2.1], h2.2.symm⟩
  obtain ⟨r1, k1, k2, k3, k4⟩ := key
  constructor
  · intro hc
    obtain ⟨rfl, rfl⟩ := k4 _ _ hc
    exact ⟨k2, k3⟩
  · rintro ⟨hc1, hc2⟩
    have := agree_unique hR hc1 k2
    subst this; subst hc2; subst k3
    exact k1

/-- A binary operator as a run. -/
theorem binary_iff {W : World σ} {h : Hint} {a b : V} {α β γ δ : Type} {f : P → Except Exc α}
    {ma mb : M σ β} {R : β → α → Prop} (hR : ∀ x y z, R x y → R x z → y = z)
    (ha : ∀ s r s', Conv W h f a s r s' ↔ Agree R (ma s).1 r ∧ (ma s).2 = s')
    (hb : ∀ s r s', Conv W h f b s r s' ↔ Agree R (mb s).1 r ∧ (mb s).2 = s')
    (hta : ∀ s, ∃ r s', Conv W h f a s r s') (htb : ∀ s, ∃ r s', Conv W h f b s r s')
    {Q : α → α → Except Exc δ → Prop} {k : β → β → M σ γ}
    {S : γ → δ → Prop}
    (hk : ∀ x y u v, R x u → R y v → ∀ s, (k x y s).2 = s ∧ ∀ r, Q u v r ↔ Agree S (k x y s).1 r)
    {s : σ} {r : Except Exc δ} {s' : σ} :
    Binary W h f Q a b s r s' ↔
      Agree S ((ma.andThen fun x => mb.andThen fun y => k x y) s).1 r ∧
      ((ma.andThen fun x => mb.andThen fun y => k x y) s).2 = s' := by
  obtain ⟨r1, s1, c1⟩ := hta s
  have d1 := (ha _ _ _).mp c1
  obtain ⟨r2, s2, c2⟩ := htb s1
  have d2 := (hb _ _ _).mp c2
  have uniqA : ∀ r t, Conv W h f a s r t → r = r1 ∧ t = s1 := by
    intro r t c
    have d := (ha _ _ _).mp c
    exact ⟨agree_unique hR d.1 d1.1, by rw [← d.2, d1.2]⟩
  have uniqB : ∀ r t, Conv W h f b s1 r t → r = r2 ∧ t = s2 := by
    intro r t c
    have d := (hb _ _ _).mp c
    exact ⟨agree_unique hR d.1 d2.1, by rw [← d.2, d2.2]⟩
  rcases hma : ma s with ⟨e | x, t⟩
  · rw [andThen_err hma]
    rw [hma] at d1
    obtain ⟨d1, hs1⟩ := d1
    dsimp only at hs1
    subst hs1
    cases r1 with
    | ok u => exact d1.elim
    | error e' =>
      have : e = e' := d1
      subst this
      constructor
      · intro hB
        cases hB with
        | left c => obtain ⟨h1, h2⟩ := uniqA _ _ c; injection h1 with h1; subst h1; exact ⟨rfl, h2.symm⟩
        | right c _ => have := (uniqA _ _ c).1; cases this
        | both c _ _ => have := (uniqA _ _ c).1; cases this
      · rintro ⟨h1, h2⟩
        cases r with
        | ok _ => exact h1.elim
        | error e'' =>
          have h1 : e = e'' := h1
          have h2 : t = s' := h2
          subst h1; subst h2
          exact .left c1
  · rw [andThen_ok hma]
    rw [hma] at d1
    obtain ⟨d1, hs1⟩ := d1
    dsimp only at hs1
    subst hs1
    cases r1 with
    | error e => exact d1.elim
    | ok u =>
      have hxu : R x u := d1
      rcases hmb : mb t with ⟨e | y, t2⟩
      · rw [andThen_err hmb]
        rw [hmb] at d2
        obtain ⟨d2, hs2⟩ := d2
        dsimp only at hs2
        subst hs2
        cases r2 with
        | ok v => exact d2.elim
        | error e' =>
          have : e = e' := d2
          subst this
          constructor
          · intro hB
            cases hB with
            | left c => have := (uniqA _ _ c).1; cases this
            | right c c' =>
              obtain ⟨h1, rfl⟩ := uniqA _ _ c
              obtain ⟨h3, rfl⟩ := uniqB _ _ c'
              injection h3 with h3; subst h3
              exact ⟨rfl, rfl⟩
            | both c c' _ =>
              obtain ⟨h1, rfl⟩ := uniqA _ _ c
              have := (uniqB _ _ c').1; cases this
          · rintro ⟨h1, h2⟩
            cases r with
            | ok _ => exact h1.elim
            | error e'' =>
              have h1 : e = e'' := h1
              have h2 : t2 = s' := h2
              subst h1; subst h2
              exact .right c1 c2
      · rw [andThen_ok hmb]
        rw [hmb] at d2
        obtain ⟨d2, hs2⟩ := d2
        dsimp only at hs2
        subst hs2
        cases r2 with
        | error e => exact d2.elim
        | ok v =>
          have hyv : R y v := d2
          obtain ⟨k1, k2⟩ := hk x y u v hxu hyv t2
          constructor
          · intro hB
            cases hB with
            | left c => have := (uniqA _ _ c).1; cases this
            | right c c' =>
              obtain ⟨h1, rfl⟩ := uniqA _ _ c
              have := (uniqB _ _ c').1; cases this
            | both c c' hq =>
              obtain ⟨h1, rfl⟩ := uniqA _ _ c
              obtain ⟨h3, rfl⟩ := uniqB _ _ c'
              injection h1 with h1; subst h1
              injection h3 with h3; subst h3
              exact ⟨(k2 _).mp hq, k1⟩
          · rintro ⟨h1, h2⟩
            rw [k1] at h2
            subst h2
            exact .both c1 c2 ((k2 _).mpr h1)

theorem conv_total (W : World σ) (h : Hint) {α : Type} (f : P → Except Exc α) (a : V) (s : σ) :
    ∃ r s', Conv W h f a s r s' := by
  obtain ⟨r, s', ht⟩ := toPrim_total W h a s
  cases r with
  | error e => exact ⟨_, _, .err ht⟩
  | ok p => exact ⟨_, _, .val ht⟩

/-! ### Pure conversions -/

theorem strToNum_eq {W : World σ} (hW : IndexNum W) (s : SV) : strToNum W s = W.strNum s.chars := by
  cases s with
  | idx n => exact Subtype.ext (hW n.val n.isLt).symm
  | units l => rfl

theorem toNumberP_pure {W : World σ} (hW : IndexNum W) {v : V} {p : P} (h : Is v p) :
    Pure (· = ·) (toNumberP W v) (numOf W p) := by
  cases h with
  | undef => exact pure_ret rfl
  | null => exact pure_ret rfl
  | bool b => cases b <;> exact pure_ret rfl
  | num n => exact pure_ret rfl
  | str s => exact pure_ret (strToNum_eq hW s)
  | sym i => exact pure_throw _
  | big x => exact pure_throw _

/-- The value of a Numeric. -/
inductive NumIs : V → Numeric → Prop
  | n (x : Dbl) : NumIs (.num x) (.n x)
  | b (x : Big) : NumIs (.big x) (.b x)

theorem NumIs.unique {v : V} {p q : Numeric} (h : NumIs v p) (h' : NumIs v q) : p = q := by
  cases h <;> cases h' <;> rfl

/-- The second half of `toNumeric`. -/
def numericP (W : World σ) : V → M σ V
  | .big x => ret (.big x)
  | p => (toNumber W p).andThen fun n => ret (.num n)

theorem toNumeric_eq (W : World σ) (v : V) :
    toNumeric W v = (toPrim W .number v).andThen (numericP W) := rfl

theorem toNumber_prim (W : World σ) {v : V} {p : P} (h : Is v p) : toNumber W v = toNumberP W v := by
  cases h <;> rfl

theorem toStr_prim (W : World σ) {v : V} {p : P} (h : Is v p) : toStr W v = toStringP W v := by
  cases h <;> rfl

theorem numericP_pure {W : World σ} (hW : IndexNum W) {v : V} {p : P} (h : Is v p) :
    Pure NumIs (numericP W v) (numericOf W p) := by
  have key : (numericP W v = (toNumberP W v).andThen fun n => ret (.num n)) →
      numericOf W p = (numOf W p).map .n → Pure NumIs (numericP W v) (numericOf W p) := by
    intro h1 h2
    rw [h1, h2]
    have := pure_bind (S := NumIs) (f := fun n => ret (.num n)) (g := fun n => .ok (.n n))
      (toNumberP_pure hW h) (by rintro x a rfl; exact pure_ret (.n _))
    have e : (numOf W p).map Numeric.n = (numOf W p).bind fun n => .ok (.n n) := by
      cases numOf W p <;> rfl
    rw [e]; exact this
  cases h with
  | big x => exact pure_ret (.b x)
  | _ => exact key rfl rfl

theorem toNumeric_prim (W : World σ) {v : V} {p : P} (h : Is v p) :
    toNumeric W v = numericP W v := by
  cases h <;> rfl

theorem toNumeric_pure {W : World σ} (hW : IndexNum W) {v : V} {p : P} (h : Is v p) :
    Pure NumIs (toNumeric W v) (numericOf W p) := by
  rw [toNumeric_prim W h]; exact numericP_pure hW h

theorem toStringP_pure (W : World σ) {v : V} {p : P} (h : Is v p) :
    Pure (fun s l => s.chars = l) (toStringP W v) (strOf W p) := by
  cases h with
  | bool b => cases b <;> exact pure_ret rfl
  | sym i => exact pure_throw _
  | _ => exact pure_ret rfl

theorem toStr_pure (W : World σ) {v : V} {p : P} (h : Is v p) :
    Pure (fun s l => s.chars = l) (toStr W v) (strOf W p) := by
  rw [toStr_prim W h]; exact toStringP_pure W h

theorem numericOp_pure (fn : Dbl → Dbl → Dbl) (fb : Big → Big → Except Exc Big) {v w : V}
    {x y : Numeric} (hv : NumIs v x) (hw : NumIs w y) :
    Pure (σ := σ) Is (numericOp fn fb v w) (numericResult fn fb x y) := by
  cases hv with
  | n a =>
    cases hw with
    | n b => exact pure_ret (.num _)
    | b b => exact pure_throw _
  | b a =>
    cases hw with
    | n b => exact pure_throw _
    | b b =>
      simp only [numericOp, numericResult]
      cases fb a b with
      | error e => exact pure_throw _
      | ok z => exact pure_ret (.big z)

theorem pure_binary {γ δ : Type} {S : γ → δ → Prop} (hS : ∀ x y z, S x y → S x z → y = z)
    {m : M σ γ} {e : Except Exc δ} (h : Pure S m e) (s : σ) :
    (m s).2 = s ∧ ∀ r, r = e ↔ Agree S (m s).1 r :=
  ⟨(h s).1, fun _ => ⟨fun hr => hr ▸ (h s).2, fun hr => agree_unique hS hr (h s).2⟩⟩

theorem isStr_ty {v : V} {p : P} (h : Is v p) : v.ty = .str ↔ p.isStr = true := by
  cases h <;> simp [V.ty, P.isStr]

/-! ### Comparison -/

theorem str_test (r : Rel) (a b : List Nat) :
    r.test (ofStr (Str.compare a b)) = true ↔ r.OnStr a b := by
  have h1 := Str.compare_less a b
  have h2 := Str.compare_equal a b
  have h3 := Str.compare_swap a b
  have h4 := Str.compare_less b a
  cases r <;> simp only [Rel.OnStr, ← h1, ← h2, ← h4, ← h3] <;>
    cases Str.compare a b <;> simp [Rel.test, ofStr]

theorem cmpNumeric_spec {v w : V} {x y : Numeric} (hv : NumIs v x) (hw : NumIs w y) :
    ∃ c, cmpNumeric (σ := σ) v w = ret c ∧ CmpSpec c x.ext y.ext := by
  cases hv with
  | n a =>
    cases hw with
    | n b => exact ⟨_, rfl, numCmp_spec _ _⟩
    | b b => exact ⟨_, rfl, (compareNumber_spec b.2 a.2).swap⟩
  | b a =>
    cases hw with
    | n b => exact ⟨_, rfl, compareNumber_spec a.2 b.2⟩
    | b b => exact ⟨_, rfl, bigCmp_spec a.2 b.2⟩

end Verif.Operators

import Verif.Lemmas.OperatorsEq
/-
Lemmas for C87: the operators.
-/
namespace Verif.Operators
open Verif.NumConv (Num num den)
open Verif.BigInt (BI)

variable {σ : Type}

theorem agree_eq {α : Type} {x r : Except Exc α} : Agree (· = ·) x r ↔ x = r := by
  cases x <;> cases r <;> simp [Agree]

theorem andThen_assoc {α β γ : Type} (m : M σ α) (f : α → M σ β) (g : β → M σ γ) :
    (m.andThen f).andThen g = m.andThen fun x => (f x).andThen g := by
  funext s
  simp only [M.andThen]
  rcases m s with ⟨e | a, t⟩ <;> rfl

theorem andThen_ret {α : Type} (m : M σ α) : m.andThen ret = m := by
  funext s
  simp only [M.andThen]
  rcases m s with ⟨e | a, t⟩ <;> rfl

theorem conv_prim {W : World σ} {h : Hint} {a : V} (s : σ) (r : Except Exc P) (s' : σ) :
    Conv W h .ok a s r s' ↔ Agree Is (toPrim W h a s).1 r ∧ (toPrim W h a s).2 = s' := by
  have := conv_iff (W := W) (h := h) (a := a) (f := .ok) (g := ret) (R := Is)
    (fun _ _ _ x y => x.unique y) (fun v p hv => pure_ret hv) (s := s) (r := r) (s' := s')
  rw [andThen_ret] at this
  exact this

/-- `do_bc_compare` on two primitive values and the test of the result. -/
def relPrim (W : World σ) (rl : Rel) (p1 p2 : V) : M σ Bool :=
  M.andThen (match p1, p2 with
    | .str x, .str y => ret (ofStr (Str.compare x.chars y.chars))
    | .str x, .big y =>
      match W.strBig x.chars with
      | none => ret .undefined
      | some n => ret (ofBI (BigInt.compare n.1 y.1))
    | .big x, .str y =>
      match W.strBig y.chars with
      | none => ret .undefined
      | some n => ret (ofBI (BigInt.compare x.1 n.1))
    | p1, p2 =>
      (toNumeric W p1).andThen fun n1 =>
      (toNumeric W p2).andThen fun n2 =>
        cmpNumeric n1 n2) fun c => ret (rl.test c)

theorem rel_eq (W : World σ) (rl : Rel) (a b : V) :
    rel W rl a b = (toPrim W .none a).andThen fun x => (toPrim W .none b).andThen fun y =>
      relPrim W rl x y := by
  unfold rel compare
  rw [andThen_assoc]
  congr 1
  funext x
  rw [andThen_assoc]
  rfl

/-- The general case. -/
theorem relNumeric {W : World σ} (hW : IndexNum W) (rl : Rel) {v w : V} {p q : P} (hv : Is v p)
    (hw : Is w q) (s : σ) :
    let m := ((toNumeric W v).andThen fun n1 => (toNumeric W w).andThen fun n2 =>
      cmpNumeric n1 n2).andThen fun c => ret (rl.test c)
    (m s).2 = s ∧ ∀ r, (match numericOf W p, numericOf W q with
      | .error e, _ => r = .error e
      | .ok _, .error e => r = .error e
      | .ok x, .ok y => Decides r (rl.On x.ext y.ext)) ↔ (m s).1 = r := by
  intro m
  have h1 := toNumeric_pure hW hv s
  have h2 := toNumeric_pure hW hw s
  rcases e1 : toNumeric W v s with ⟨e | x, t⟩
  · have em : m s = (.error e, t) := andThen_err (andThen_err e1)
    rw [e1] at h1
    obtain ⟨ht, ha⟩ := h1
    rw [em]
    refine ⟨ht, fun r => ?_⟩
    cases hn : numericOf W p with
    | ok _ => rw [hn] at ha; exact ha.elim
    | error e' =>
      rw [hn] at ha
      have : e = e' := ha
      subst this
      exact eq_comm
  · rw [e1] at h1
    obtain ⟨ht, ha⟩ := h1
    dsimp only at ht
    subst ht
    cases hn : numericOf W p with
    | error e' => rw [hn] at ha; exact ha.elim
    | ok u =>
      rw [hn] at ha
      rcases e2 : toNumeric W w t with ⟨e | y, t2⟩
      · have em : m t = (.error e, t2) := by
          show M.andThen _ _ _ = _
          rw [andThen_err]; rw [andThen_ok e1, andThen_err e2]
        rw [e2] at h2
        obtain ⟨ht, hb⟩ := h2
        rw [em]
        refine ⟨ht, fun r => ?_⟩
        cases hn' : numericOf W q with
        | ok _ => rw [hn'] at hb; exact hb.elim
        | error e' =>
          rw [hn'] at hb
          have : e = e' := hb
          subst this
          exact eq_comm
      · rw [e2] at h2
        obtain ⟨ht, hb⟩ := h2
        dsimp only at ht
        subst ht
        cases hn' : numericOf W q with
        | error e' => rw [hn'] at hb; exact hb.elim
        | ok z =>
          rw [hn'] at hb
          obtain ⟨c, ec, hc⟩ := cmpNumeric_spec (σ := σ) ha hb
          have em : m t2 = (.ok (rl.test c), t2) := by
            show M.andThen _ _ _ = _
            rw [andThen_ok (a := c) (s' := t2)]
            · rfl
            · rw [andThen_ok e1, andThen_ok e2, ec]; rfl
          rw [em]
          refine ⟨rfl, fun r => ?_⟩
          have hd : Decides (.ok (rl.test c)) (rl.On u.ext z.ext) := decides_ok.mpr (hc.test rl)
          constructor
          · intro h; exact decides_unique hd h
          · rintro rfl; exact hd

theorem relPrim_spec {W : World σ} (hW : IndexNum W) (rl : Rel) {v w : V} {p q : P} (hv : Is v p)
    (hw : Is w q) (s : σ) :
    (relPrim W rl v w s).2 = s ∧ ∀ r, RelP W rl p q r ↔ Agree (· = ·) (relPrim W rl v w s).1 r := by
  have dec : ∀ (c : Bool) (A : Prop), (c = true ↔ A) → ∀ r, Decides r A ↔ Agree (· = ·) (.ok c) r := by
    intro c A h r
    rw [agree_eq]
    constructor
    · intro h'; exact (decides_eq h' h).symm
    · rintro rfl; exact ⟨c, rfl, h⟩
  have none : ∀ A : Big → Prop, ¬ ∃ x, (none : Option Big) = some x ∧ A x := by
    rintro A ⟨x, hx, -⟩; cases hx
  have some' : ∀ (y : Big) (A : Big → Prop), (∃ x, some y = some x ∧ A x) ↔ A y := by
    intro y A
    constructor
    · rintro ⟨x, hx, h⟩; injection hx with hx; subst hx; exact h
    · intro h; exact ⟨y, rfl, h⟩
  have g := relNumeric hW rl hv hw s
  have gen := And.intro g.1 (fun r => (g.2 r).trans agree_eq.symm)
  cases hv with
  | str a =>
    cases hw with
    | str b => exact ⟨rfl, dec _ _ (str_test rl _ _)⟩
    | big b =>
      cases h : W.strBig a.chars with
      | none =>
        have e : relPrim W rl (.str a) (.big b) = ret (rl.test .undefined) := by
          simp only [relPrim, h]; rfl
        rw [e]
        refine ⟨rfl, ?_⟩
        simp only [RelP, h]
        refine dec _ _ ?_
        constructor
        · intro h'; cases rl <;> cases h'
        · intro h'; exact (none _ h').elim
      | some n =>
        have e : relPrim W rl (.str a) (.big b) = ret (rl.test (ofBI (BigInt.compare n.1 b.1))) := by
          simp only [relPrim, h]; rfl
        rw [e]
        refine ⟨rfl, ?_⟩
        simp only [RelP, h]
        refine dec _ _ ?_
        rw [some']
        exact (bigCmp_spec n.2 b.2).test rl
    | _ => exact gen
  | big a =>
    cases hw with
    | str b =>
      cases h : W.strBig b.chars with
      | none =>
        have e : relPrim W rl (.big a) (.str b) = ret (rl.test .undefined) := by
          simp only [relPrim, h]; rfl
        rw [e]
        refine ⟨rfl, ?_⟩
        simp only [RelP, h]
        refine dec _ _ ?_
        constructor
        · intro h'; cases rl <;> cases h'
        · intro h'; exact (none _ h').elim
      | some n =>
        have e : relPrim W rl (.big a) (.str b) = ret (rl.test (ofBI (BigInt.compare a.1 n.1))) := by
          simp only [relPrim, h]; rfl
        rw [e]
        refine ⟨rfl, ?_⟩
        simp only [RelP, h]
        refine dec _ _ ?_
        rw [some']
        exact (bigCmp_spec a.2 n.2).test rl
    | _ => exact gen
  | _ => cases hw <;> exact gen

end Verif.Operators

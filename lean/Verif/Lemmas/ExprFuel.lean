import Verif.Model.Expr

/-
Fuel in the model of the expression parser: more of it changes nothing, what is
left is shorter than what was there, and `enough` is enough.
-/

namespace Verif.Expr

/-- `a` is out of fuel or the same as `b`. -/
def R.le (a b : R) : Prop := a = .fuel ∨ a = b

theorem R.le_refl (a : R) : R.le a a := .inr rfl

theorem R.le_fuel (a : R) : R.le .fuel a := .inl rfl

theorem R.le_bind {a b : R} {k l : E → List Tok → R} (h : R.le a b) (hk : ∀ e r, R.le (k e r) (l e r)) :
    R.le (a.bind k) (b.bind l) := by
  rcases h with h | h
  · subst h; exact .inl rfl
  · subst h
    cases a with
    | fuel => exact .inl rfl
    | bad => exact .inr rfl
    | ok e r => exact hk e r

theorem R.le_uncons {ts : List Tok} {k l : Tok → List Tok → R} (hk : ∀ e r, R.le (k e r) (l e r)) :
    R.le (uncons ts k) (uncons ts l) := by
  cases ts with
  | nil => exact .inr rfl
  | cons e r => exact hk e r

theorem R.le_ite {c : Prop} [Decidable c] {a b a' b' : R} (h : R.le a a') (h' : R.le b b') :
    R.le (if c then a else b) (if c then a' else b') := by
  by_cases hc : c
  · simp only [hc, ↓reduceIte]; exact h
  · simp only [hc, ↓reduceIte]; exact h'

/-- All functions at fuel `n` are below those at fuel `m`. -/
structure Mono (n m : Nat) : Prop where
  expr : ∀ f p ts, R.le (expr n f p ts) (expr m f p ts)
  loop : ∀ f p q e ts, R.le (loop n f p q e ts) (loop m f p q e ts)
  indexX : ∀ f ts, R.le (indexX n f ts) (indexX m f ts)
  argsX : ∀ f h ts, R.le (argsX n f h ts) (argsX m f h ts)
  parens : ∀ f a ts, R.le (parens n f a ts) (parens m f a ts)
  newX : ∀ f ts, R.le (newX n f ts) (newX m f ts)
  superX : ∀ f ts, R.le (superX n f ts) (superX m f ts)
  yieldX : ∀ f ts, R.le (yieldX n f ts) (yieldX m f ts)
  chain : ∀ f b ts, R.le (chain n f b ts) (chain m f b ts)
  more : ∀ f b ts, R.le (more n f b ts) (more m f b ts)

set_option maxHeartbeats 2000000 in
theorem mono_succ : ∀ n, Mono n (n + 1) := by
  intro n
  induction n with
  | zero =>
    constructor
    · intros; exact .inl (by rw [Verif.Expr.expr])
    · intros; exact .inl (by rw [Verif.Expr.loop])
    · intros; exact .inl (by rw [Verif.Expr.indexX])
    · intros; exact .inl (by rw [Verif.Expr.argsX])
    · intros; exact .inl (by rw [Verif.Expr.parens])
    · intros; exact .inl (by rw [Verif.Expr.newX])
    · intros; exact .inl (by rw [Verif.Expr.superX])
    · intros; exact .inl (by rw [Verif.Expr.yieldX])
    · intros; exact .inl (by rw [Verif.Expr.chain])
    · intros; exact .inl (by rw [Verif.Expr.more])
  | succ n ih =>
    constructor
    · intro f p ts
      cases ts with
      | nil => simp only [Verif.Expr.expr]; exact R.le_refl _
      | cons t ts =>
        rw [Verif.Expr.expr, Verif.Expr.expr]
        apply R.le_ite (ih.loop _ _ _ _ _)
        cases prefixOp f t.k with
        | some ol =>
          obtain ⟨o, l⟩ := ol
          apply R.le_ite (R.le_refl _)
          apply R.le_bind (ih.expr _ _ _)
          intro e r
          exact R.le_ite (ih.loop _ _ _ _ _) (R.le_refl _)
        | none =>
          simp only
          split
          · exact R.le_ite (ih.loop _ _ _ _ _) (R.le_refl _)
          · exact R.le_bind (ih.parens _ _ _) fun e r => R.le_ite (R.le_refl _) (ih.loop _ _ _ _ _)
          · exact R.le_ite (R.le_refl _) (R.le_bind (ih.superX _ _) fun e r => ih.loop _ _ _ _ _)
          · exact R.le_ite (R.le_refl _) (R.le_bind (ih.newX _ _) fun e r => ih.loop _ _ _ _ _)
          · apply R.le_ite (R.le_bind (ih.yieldX _ _) fun e r => ih.loop _ _ _ _ _)
            apply R.le_ite
            · exact R.le_ite (ih.loop _ _ _ _ _) (R.le_refl _)
            · exact R.le_ite (ih.loop _ _ _ _ _) (R.le_refl _)
    · intro f p q e ts
      cases ts with
      | nil => simp only [Verif.Expr.loop]; exact R.le_refl _
      | cons t ts =>
        rw [Verif.Expr.loop, Verif.Expr.loop]
        split
        · apply R.le_ite (R.le_refl _)
          apply R.le_uncons
          intro u r
          apply R.le_ite (ih.loop _ _ _ _ _)
          split
          · exact ih.loop _ _ _ _ _
          · exact R.le_refl _
        · exact R.le_ite (R.le_refl _) (R.le_bind (ih.indexX _ _) fun _ _ => ih.loop _ _ _ _ _)
        · exact R.le_ite (R.le_refl _) (R.le_bind (ih.argsX _ _ _) fun _ _ => ih.loop _ _ _ _ _)
        · exact R.le_ite (R.le_refl _) (ih.loop _ _ _ _ _)
        · exact R.le_ite (R.le_refl _) (R.le_bind (ih.chain _ _ _) fun _ _ => ih.loop _ _ _ _ _)
        · apply R.le_ite (R.le_refl _)
          exact R.le_ite (R.le_refl _) (R.le_bind (ih.expr _ _ _) fun _ _ => ih.loop _ _ _ _ _)
        · apply R.le_ite (R.le_refl _)
          apply R.le_bind (ih.expr _ _ _)
          intro a r
          apply R.le_uncons
          intro u r'
          exact R.le_ite (R.le_bind (ih.expr _ _ _) fun _ _ => ih.loop _ _ _ _ _) (R.le_refl _)
        · apply R.le_ite (R.le_refl _)
          exact R.le_ite (R.le_bind (ih.expr _ _ _) fun _ _ => ih.loop _ _ _ _ _) (R.le_refl _)
        · exact R.le_ite (R.le_refl _) (R.le_bind (ih.expr _ _ _) fun _ _ => ih.loop _ _ _ _ _)
        · exact R.le_ite (R.le_refl _) (R.le_ite (ih.loop _ _ _ _ _) (R.le_refl _))
        · exact R.le_ite (R.le_refl _) (R.le_ite (ih.loop _ _ _ _ _) (R.le_refl _))
        · apply R.le_ite (R.le_refl _)
          split
          · exact R.le_bind (ih.expr _ _ _) fun _ _ => ih.loop _ _ _ _ _
          · exact R.le_refl _
        · exact R.le_refl _
    · intro f ts
      rw [Verif.Expr.indexX, Verif.Expr.indexX]
      exact R.le_bind (ih.expr _ _ _) fun _ _ => R.le_refl _
    · intro f h ts
      rw [Verif.Expr.argsX, Verif.Expr.argsX]
      apply R.le_ite (R.le_refl _)
      apply R.le_bind (ih.expr _ _ _)
      intro e r
      apply R.le_uncons
      intro u r'
      apply R.le_ite (R.le_refl _)
      exact R.le_ite (R.le_bind (ih.argsX _ _ _) fun _ _ => R.le_refl _) (R.le_refl _)
    · intro f a ts
      rw [Verif.Expr.parens, Verif.Expr.parens]
      apply R.le_ite (R.le_refl _)
      apply R.le_bind (ih.expr _ _ _)
      intro e r
      apply R.le_uncons
      intro u r'
      apply R.le_ite (R.le_refl _)
      exact R.le_ite (ih.parens _ _ _) (R.le_refl _)
    · intro f ts
      rw [Verif.Expr.newX, Verif.Expr.newX]
      apply R.le_ite
      · exact R.le_bind (ih.expr _ _ _) fun _ _ => R.le_refl _
      · apply R.le_bind (ih.expr _ _ _)
        intro e r
        exact R.le_ite (R.le_bind (ih.argsX _ _ _) fun _ _ => R.le_refl _) (R.le_refl _)
    · intro f ts
      cases ts with
      | nil => simp only [Verif.Expr.superX]; exact R.le_refl _
      | cons t ts =>
        rw [Verif.Expr.superX, Verif.Expr.superX]
        apply R.le_ite (R.le_refl _)
        apply R.le_ite (R.le_bind (ih.indexX _ _) fun _ _ => R.le_refl _)
        exact R.le_ite (R.le_bind (ih.argsX _ _ _) fun _ _ => R.le_refl _) (R.le_refl _)
    · intro f ts
      cases ts with
      | nil => simp only [Verif.Expr.yieldX]; exact R.le_refl _
      | cons t ts =>
        rw [Verif.Expr.yieldX, Verif.Expr.yieldX]
        apply R.le_ite (R.le_refl _)
        apply R.le_ite (R.le_bind (ih.expr _ _ _) fun _ _ => R.le_refl _)
        exact R.le_ite (R.le_bind (ih.expr _ _ _) fun _ _ => R.le_refl _) (R.le_refl _)
    · intro f b ts
      cases ts with
      | nil => simp only [Verif.Expr.chain]; exact R.le_refl _
      | cons t ts =>
        rw [Verif.Expr.chain, Verif.Expr.chain]
        apply R.le_ite (R.le_bind (ih.argsX _ _ _) fun _ _ => ih.more _ _ _)
        apply R.le_ite (R.le_bind (ih.indexX _ _) fun _ _ => ih.more _ _ _)
        apply R.le_ite (ih.more _ _ _)
        split
        · exact ih.more _ _ _
        · exact R.le_refl _
    · intro f b ts
      cases ts with
      | nil => simp only [Verif.Expr.more]; exact R.le_refl _
      | cons t ts =>
        rw [Verif.Expr.more, Verif.Expr.more]
        split
        · exact ih.chain _ _ _
        · exact ih.chain _ _ _
        · exact ih.chain _ _ _
        · exact ih.chain _ _ _
        · exact R.le_refl _

theorem R.le_trans {a b c : R} (h : R.le a b) (h' : R.le b c) : R.le a c := by
  rcases h with h | h
  · exact .inl h
  · subst h; exact h'

theorem mono {n m : Nat} (h : n ≤ m) : Mono n m := by
  induction h with
  | refl => constructor <;> intros <;> exact R.le_refl _
  | step _ ih =>
    have s := mono_succ
    constructor
    · intros; exact R.le_trans (ih.expr _ _ _) ((s _).expr _ _ _)
    · intros; exact R.le_trans (ih.loop _ _ _ _ _) ((s _).loop _ _ _ _ _)
    · intros; exact R.le_trans (ih.indexX _ _) ((s _).indexX _ _)
    · intros; exact R.le_trans (ih.argsX _ _ _) ((s _).argsX _ _ _)
    · intros; exact R.le_trans (ih.parens _ _ _) ((s _).parens _ _ _)
    · intros; exact R.le_trans (ih.newX _ _) ((s _).newX _ _)
    · intros; exact R.le_trans (ih.superX _ _) ((s _).superX _ _)
    · intros; exact R.le_trans (ih.yieldX _ _) ((s _).yieldX _ _)
    · intros; exact R.le_trans (ih.chain _ _ _) ((s _).chain _ _ _)
    · intros; exact R.le_trans (ih.more _ _ _) ((s _).more _ _ _)

theorem R.le_eq {a b r : R} (h : R.le a b) (ha : a = r) (hr : r ≠ .fuel) : b = r := by
  rcases h with h | h
  · exact absurd (ha.symm.trans h) hr
  · exact h.symm.trans ha

/-- The result is not out of fuel and, if it is a tree, has a property. -/
def R.SF (P : E → List Tok → Prop) : R → Prop
  | .fuel => False
  | .bad => True
  | .ok e r => P e r

theorem R.sf_bind {P Q : E → List Tok → Prop} {a : R} {k : E → List Tok → R} (h : R.SF P a)
    (hk : ∀ e r, P e r → R.SF Q (k e r)) : R.SF Q (a.bind k) := by
  cases a with
  | fuel => exact h
  | bad => trivial
  | ok e r => exact hk e r h

theorem R.sf_uncons {Q : E → List Tok → Prop} {ts : List Tok} {k : Tok → List Tok → R}
    (hk : ∀ e r, ts = e :: r → R.SF Q (k e r)) : R.SF Q (uncons ts k) := by
  cases ts with
  | nil => trivial
  | cons e r => exact hk e r rfl

theorem R.sf_ite {P : E → List Tok → Prop} {c : Prop} [Decidable c] {a b : R} (h : R.SF P a)
    (h' : R.SF P b) : R.SF P (if c then a else b) := by
  by_cases hc : c
  · simp only [hc, ↓reduceIte]; exact h
  · simp only [hc, ↓reduceIte]; exact h'

theorem R.sf_mono {P Q : E → List Tok → Prop} {a : R} (h : R.SF P a) (hk : ∀ e r, P e r → Q e r) :
    R.SF Q a := by
  cases a with
  | fuel => exact h
  | bad => trivial
  | ok e r => exact hk e r h

/-- With so much fuel every function ends, and leaves less than it got. -/
structure Fin (n : Nat) : Prop where
  expr : ∀ f p (ts : List Tok), 3 * ts.length + 1 ≤ n →
    R.SF (fun _ r => r.length < ts.length) (expr n f p ts)
  loop : ∀ f p q e (ts : List Tok), 3 * ts.length + 1 ≤ n →
    R.SF (fun _ r => r.length ≤ ts.length) (loop n f p q e ts)
  indexX : ∀ f (ts : List Tok), 3 * ts.length + 2 ≤ n →
    R.SF (fun _ r => r.length < ts.length) (indexX n f ts)
  argsX : ∀ f h (ts : List Tok), 3 * ts.length + 2 ≤ n →
    R.SF (fun _ r => r.length < ts.length) (argsX n f h ts)
  parens : ∀ f a (ts : List Tok), 3 * ts.length + 2 ≤ n →
    R.SF (fun _ r => r.length < ts.length) (parens n f a ts)
  newX : ∀ f (ts : List Tok), 3 * ts.length + 2 ≤ n →
    R.SF (fun _ r => r.length < ts.length) (newX n f ts)
  superX : ∀ f (ts : List Tok), 3 * ts.length + 1 ≤ n →
    R.SF (fun _ r => r.length < ts.length) (superX n f ts)
  yieldX : ∀ f (ts : List Tok), 3 * ts.length + 2 ≤ n →
    R.SF (fun _ r => r.length ≤ ts.length) (yieldX n f ts)
  chain : ∀ f b (ts : List Tok), 3 * ts.length + 1 ≤ n →
    R.SF (fun _ r => r.length < ts.length) (chain n f b ts)
  more : ∀ f b (ts : List Tok), 3 * ts.length + 2 ≤ n →
    R.SF (fun _ r => r.length ≤ ts.length) (more n f b ts)

theorem headIs_length {k : TK} {ts : List Tok} (h : headIs k ts = true) :
    ts.tail.length < ts.length := by
  cases ts with
  | nil => cases h
  | cons t r => simp

set_option maxHeartbeats 2000000 in
theorem fin : ∀ n, Fin n := by
  intro n
  induction n with
  | zero => constructor <;> intros <;> omega
  | succ n ih =>
    constructor
    · intro f p ts hn
      cases ts with
      | nil => rw [Verif.Expr.expr]; trivial
      | cons t ts =>
        simp only [List.length_cons] at hn ⊢
        have hl : ∀ p q e (r : List Tok), r.length ≤ ts.length →
            R.SF (fun _ r => r.length < ts.length + 1) (Verif.Expr.loop n f p q e r) := by
          intro p q e r hr
          exact R.sf_mono (ih.loop _ _ _ _ _ (by omega)) (fun _ r h => by omega)
        rw [Verif.Expr.expr]
        apply R.sf_ite (hl _ _ _ _ (Nat.le_refl _))
        cases prefixOp f t.k with
        | some ol =>
          obtain ⟨o, l⟩ := ol
          apply R.sf_ite
          · trivial
          apply R.sf_bind (ih.expr _ _ _ (by omega))
          intro e r hr
          exact R.sf_ite (hl _ _ _ _ (by omega)) trivial
        | none =>
          simp only
          split
          · exact R.sf_ite (hl _ _ _ _ (Nat.le_refl _)) trivial
          · apply R.sf_bind (ih.parens _ _ _ (by omega))
            intro e r hr
            apply R.sf_ite
            · trivial
            · exact hl _ _ _ _ (by omega)
          · apply R.sf_ite
            · trivial
            · exact R.sf_bind (ih.superX _ _ (by omega)) fun e r hr => hl _ _ _ _ (by omega)
          · apply R.sf_ite
            · trivial
            · exact R.sf_bind (ih.newX _ _ (by omega)) fun e r hr => hl _ _ _ _ (by omega)
          · apply R.sf_ite (R.sf_bind (ih.yieldX _ _ (by omega)) fun e r hr => hl _ _ _ _ (by omega))
            apply R.sf_ite
            · exact R.sf_ite (hl _ _ _ _ (Nat.le_refl _)) trivial
            · exact R.sf_ite (hl _ _ _ _ (Nat.le_refl _)) trivial
    · intro f p q e ts hn
      cases ts with
      | nil => rw [Verif.Expr.loop]; exact Nat.le_refl _
      | cons t ts =>
        simp only [List.length_cons] at hn ⊢
        have hl : ∀ p q e (r : List Tok), r.length ≤ ts.length →
            R.SF (fun _ r => r.length ≤ ts.length + 1) (Verif.Expr.loop n f p q e r) := by
          intro p q e r hr
          exact R.sf_mono (ih.loop _ _ _ _ _ (by omega)) (fun _ r h => by omega)
        have hs : R.SF (fun _ r => r.length ≤ ts.length + 1) (.ok e (t :: ts)) := by
          simp [R.SF]
        rw [Verif.Expr.loop]
        split
        · apply R.sf_ite hs
          apply R.sf_uncons
          intro u r hr
          subst hr
          simp only [List.length_cons] at hl ⊢
          apply R.sf_ite (hl _ _ _ _ (by omega))
          split
          · exact hl _ _ _ _ (by omega)
          · trivial
        · exact R.sf_ite hs (R.sf_bind (ih.indexX _ _ (by omega)) fun _ _ h => hl _ _ _ _ (by omega))
        · exact R.sf_ite hs (R.sf_bind (ih.argsX _ _ _ (by omega)) fun _ _ h => hl _ _ _ _ (by omega))
        · exact R.sf_ite hs (hl _ _ _ _ (by omega))
        · exact R.sf_ite hs (R.sf_bind (ih.chain _ _ _ (by omega)) fun _ _ h => hl _ _ _ _ (by omega))
        · apply R.sf_ite hs
          exact R.sf_ite hs (R.sf_bind (ih.expr _ _ _ (by omega)) fun _ _ h => hl _ _ _ _ (by omega))
        · apply R.sf_ite hs
          apply R.sf_bind (ih.expr _ _ _ (by omega))
          intro a r hr
          apply R.sf_uncons
          intro u r' hr'
          subst hr'
          simp only [List.length_cons] at hr
          exact R.sf_ite (R.sf_bind (ih.expr _ _ _ (by omega)) fun _ _ h => hl _ _ _ _ (by omega))
            trivial
        · apply R.sf_ite hs
          exact R.sf_ite (R.sf_bind (ih.expr _ _ _ (by omega)) fun _ _ h => hl _ _ _ _ (by omega))
            trivial
        · exact R.sf_ite hs (R.sf_bind (ih.expr _ _ _ (by omega)) fun _ _ h => hl _ _ _ _ (by omega))
        · exact R.sf_ite hs (R.sf_ite (hl _ _ _ _ (by omega)) trivial)
        · exact R.sf_ite hs (R.sf_ite (hl _ _ _ _ (by omega)) trivial)
        · apply R.sf_ite hs
          split
          · exact R.sf_bind (ih.expr _ _ _ (by omega)) fun _ _ h => hl _ _ _ _ (by omega)
          · trivial
        · exact hs
    · intro f ts hn
      rw [Verif.Expr.indexX]
      apply R.sf_bind (ih.expr _ _ _ (by omega))
      intro e r hr
      apply R.sf_uncons
      intro u r' hr'
      subst hr'
      simp only [List.length_cons] at hr
      refine R.sf_ite ?_ trivial
      show r'.length < ts.length
      omega
    · intro f h ts hn
      rw [Verif.Expr.argsX]
      by_cases hh : headIs .rpar ts = true
      · simp only [hh, ↓reduceIte]
        exact headIs_length hh
      · simp only [hh, ↓reduceIte, Bool.false_eq_true]
        have hlen : (if headIs .dots ts = true then ts.tail else ts).length ≤ ts.length := by
          split
          · simp
          · exact Nat.le_refl _
        apply R.sf_bind (ih.expr _ _ _ (by omega))
        intro e r hr
        apply R.sf_uncons
        intro u r' hr'
        subst hr'
        simp only [List.length_cons] at hr
        refine R.sf_ite ?_ (R.sf_ite ?_ trivial)
        · show r'.length < ts.length
          omega
        · apply R.sf_bind (ih.argsX _ _ _ (by omega))
          intro a r'' h''
          show r''.length < ts.length
          omega
    · intro f a ts hn
      rw [Verif.Expr.parens]
      by_cases hh : headIs .rpar ts = true
      · simp only [hh, ↓reduceIte]
        cases a with
        | none => trivial
        | some e => exact headIs_length hh
      · simp only [hh, ↓reduceIte, Bool.false_eq_true]
        apply R.sf_bind (ih.expr _ _ _ (by omega))
        intro e r hr
        apply R.sf_uncons
        intro u r' hr'
        subst hr'
        simp only [List.length_cons] at hr
        refine R.sf_ite ?_ (R.sf_ite ?_ trivial)
        · show r'.length < ts.length
          omega
        · exact R.sf_mono (ih.parens _ _ _ (by omega)) fun _ _ h => by omega
    · intro f ts hn
      rw [Verif.Expr.newX]
      apply R.sf_ite
      · exact R.sf_bind (ih.expr _ _ _ (by omega)) fun e r h => h
      · apply R.sf_bind (ih.expr _ _ _ (by omega))
        intro e r hr
        refine R.sf_ite ?_ hr
        have : r.tail.length ≤ r.length := by simp
        apply R.sf_bind (ih.argsX _ _ _ (by omega))
        intro a r' h'
        show r'.length < ts.length
        omega
    · intro f ts hn
      cases ts with
      | nil => rw [Verif.Expr.superX]; trivial
      | cons t ts =>
        simp only [List.length_cons] at hn ⊢
        rw [Verif.Expr.superX]
        apply R.sf_ite
        · apply R.sf_uncons
          intro u r hr
          subst hr
          refine R.sf_ite ?_ trivial
          show r.length < _
          simp only [List.length_cons]
          omega
        apply R.sf_ite
        · apply R.sf_bind (ih.indexX _ _ (by omega))
          intro a r hr
          show r.length < _
          omega
        refine R.sf_ite ?_ trivial
        apply R.sf_bind (ih.argsX _ _ _ (by omega))
        intro a r hr
        show r.length < _
        omega
    · intro f ts hn
      cases ts with
      | nil => rw [Verif.Expr.yieldX]; exact Nat.le_refl _
      | cons t ts =>
        simp only [List.length_cons] at hn ⊢
        have hs : R.SF (fun _ r => r.length ≤ ts.length + 1) (.ok (.yield_ false .hole) (t :: ts)) := by
          simp [R.SF]
        rw [Verif.Expr.yieldX]
        apply R.sf_ite hs
        apply R.sf_ite
        · apply R.sf_bind (ih.expr _ _ _ (by omega))
          intro a r hr
          show r.length ≤ _
          omega
        refine R.sf_ite ?_ hs
        apply R.sf_bind (ih.expr _ _ (t :: ts) (by simp only [List.length_cons]; omega))
        intro a r hr
        simp only [List.length_cons] at hr
        show r.length ≤ _
        omega
    · intro f b ts hn
      cases ts with
      | nil => rw [Verif.Expr.chain]; trivial
      | cons t ts =>
        simp only [List.length_cons] at hn ⊢
        have hm : ∀ b (r : List Tok), r.length ≤ ts.length →
            R.SF (fun _ r => r.length < ts.length + 1) (Verif.Expr.more n f b r) := by
          intro b r hr
          exact R.sf_mono (ih.more _ _ _ (by omega)) (fun _ r h => by omega)
        rw [Verif.Expr.chain]
        apply R.sf_ite (R.sf_bind (ih.argsX _ _ _ (by omega)) fun _ _ h => hm _ _ (by omega))
        apply R.sf_ite (R.sf_bind (ih.indexX _ _ (by omega)) fun _ _ h => hm _ _ (by omega))
        apply R.sf_ite (hm _ _ (by omega))
        split
        · exact hm _ _ (by omega)
        · trivial
    · intro f b ts hn
      cases ts with
      | nil => rw [Verif.Expr.more]; exact Nat.le_refl _
      | cons t ts =>
        have hc : R.SF (fun _ r => r.length ≤ (t :: ts).length) (Verif.Expr.chain n f b (t :: ts)) :=
          R.sf_mono (ih.chain _ _ _ (by omega)) (fun _ r h => by omega)
        rw [Verif.Expr.more]
        split
        · simp only [List.length_cons] at hn ⊢
          exact R.sf_mono (ih.chain _ _ _ (by omega)) (fun _ r h => by omega)
        · exact hc
        · exact hc
        · exact hc
        · exact Nat.le_refl _

theorem parse_fin (f : Fl) (ts : List Tok) :
    R.SF (fun _ r => r.length < ts.length) (parse f ts) :=
  (fin _).expr _ _ _ (by unfold enough; omega)

/-- `parse` gives whatever any amount of fuel gives. -/
theorem parse_of_expr {n : Nat} {f : Fl} {ts : List Tok} {r : R} (h : expr n f LOWEST ts = r)
    (hr : r ≠ .fuel) : parse f ts = r := by
  rcases Nat.le_total n (enough ts) with hle | hle
  · exact R.le_eq ((mono hle).expr _ _ _) h hr
  · have hf := parse_fin f ts
    have hne : parse f ts ≠ .fuel := by
      intro h'
      rw [h'] at hf
      exact hf
    exact (h.symm.trans (R.le_eq ((mono hle).expr _ _ _) rfl hne)).symm

end Verif.Expr

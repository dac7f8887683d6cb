import Verif.Spec.RegExp
/-
The ways of the standard are determined.
-/
namespace Verif.RegExp.Spec

theorem split_unique {P : Nat → Prop} : ∀ {pre pre' post post' : List Nat} {i i' : Nat},
    pre ++ i :: post = pre' ++ i' :: post' → (∀ j, j ∈ pre → P j) → (∀ j, j ∈ pre' → P j) →
    ¬ P i → ¬ P i' → i = i'
  | [], [], _, _, _, _, h, _, _, _, _ => by
    simp only [List.nil_append, List.cons.injEq] at h; exact h.1
  | [], b :: _, _, _, _, _, h, _, h2, n1, _ => by
    simp only [List.nil_append, List.cons_append, List.cons.injEq] at h
    exact absurd (h2 b (by simp)) (h.1 ▸ n1)
  | a :: _, [], _, _, _, _, h, h1, _, _, n2 => by
    simp only [List.nil_append, List.cons_append, List.cons.injEq] at h
    exact absurd (h1 a (by simp)) (h.1 ▸ n2)
  | a :: pre, b :: pre', _, _, _, _, h, h1, h2, n1, n2 => by
    simp only [List.cons_append, List.cons.injEq] at h
    exact split_unique h.2 (fun j hj => h1 j (by simp [hj])) (fun j hj => h2 j (by simp [hj])) n1 n2

theorem ref_same {ids : List Nat} {x : St} {pre pre' post post' : List Nat} {i i' s s' e e' : Nat}
    (h : ids = pre ++ i :: post) (h' : ids = pre' ++ i' :: post')
    (hp : ∀ j, j ∈ pre → x.caps j = none) (hp' : ∀ j, j ∈ pre' → x.caps j = none)
    (hc : x.caps i = some (s, e)) (hc' : x.caps i' = some (s', e')) : s = s' ∧ e = e' := by
  have : i = i' := split_unique (P := fun j => x.caps j = none) (h.symm.trans h') hp hp'
    (by simp [hc]) (by simp [hc'])
  subst this
  rw [hc] at hc'
  injection hc' with hc'
  injection hc' with a b
  exact ⟨a, b⟩

theorem refWays_unique {I : Input} {fwd : Bool} {ids : List Nat} {x : St} {ys zs : List St}
    (h : RefWays I fwd ids x ys) (h' : RefWays I fwd ids x zs) : ys = zs := by
  have out : ∀ {pre post : List Nat} {i s e : Nat}, ids = pre ++ i :: post →
      x.caps i = some (s, e) → ¬ ∀ j, j ∈ ids → x.caps j = none := by
    intro pre post i s e h hc ha
    have := ha i (by rw [h]; simp)
    rw [hc] at this
    cases this
  cases h with
  | unset h =>
    cases h' with
    | unset => rfl
    | forward _ _ _ _ _ h1 _ h2 => exact absurd h (out h1 h2)
    | backward _ _ _ _ _ h1 _ h2 => exact absurd h (out h1 h2)
    | differs _ _ _ _ _ h1 _ h2 => exact absurd h (out h1 h2)
  | forward _ _ _ _ _ h1 hp h2 hf hl hs =>
    cases h' with
    | unset h => exact absurd h (out h1 h2)
    | forward _ _ _ _ _ g1 gp g2 =>
      obtain ⟨rfl, rfl⟩ := ref_same h1 g1 hp gp h2 g2; rfl
    | backward _ _ _ _ _ _ _ _ gf => rw [hf] at gf; cases gf
    | differs _ _ _ _ _ g1 gp g2 gf _ =>
      obtain ⟨rfl, rfl⟩ := ref_same h1 g1 hp gp h2 g2
      exact absurd ⟨hl, hs⟩ (gf hf)
  | backward _ _ _ _ _ h1 hp h2 hf hl hs =>
    cases h' with
    | unset h => exact absurd h (out h1 h2)
    | forward _ _ _ _ _ _ _ _ gf => rw [hf] at gf; cases gf
    | backward _ _ _ _ _ g1 gp g2 =>
      obtain ⟨rfl, rfl⟩ := ref_same h1 g1 hp gp h2 g2; rfl
    | differs _ _ _ _ _ g1 gp g2 _ gf =>
      obtain ⟨rfl, rfl⟩ := ref_same h1 g1 hp gp h2 g2
      exact absurd ⟨hl, hs⟩ (gf hf)
  | differs _ _ _ _ _ h1 hp h2 hf hb =>
    cases h' with
    | unset h => exact absurd h (out h1 h2)
    | forward _ _ _ _ _ g1 gp g2 gf gl gs =>
      obtain ⟨rfl, rfl⟩ := ref_same h1 g1 hp gp h2 g2
      exact absurd ⟨gl, gs⟩ (hf gf)
    | backward _ _ _ _ _ g1 gp g2 gf gl gs =>
      obtain ⟨rfl, rfl⟩ := ref_same h1 g1 hp gp h2 g2
      exact absurd ⟨gl, gs⟩ (hb gf)
    | differs => rfl

mutual
theorem ways_unique {I : Input} : ∀ {fwd : Bool} {n : Node} {x : St} {ys : List St},
    Ways I fwd n x ys → ∀ (zs : List St), Ways I fwd n x zs → ys = zs
  | _, _, _, _, .char .. => by intro zs h; cases h; rfl
  | _, _, _, _, .cond .. => by intro zs h; cases h; rfl
  | _, _, _, _, .ref _ _ _ _ h1 => by intro zs h; cases h with | ref _ _ _ _ h2 => exact refWays_unique h1 h2
  | _, _, _, _, .sub _ _ _ _ h1 => by
    have ih := ways_unique h1
    intro zs h; cases h with | sub _ _ _ _ h2 => exact ih _ h2
  | _, _, _, _, .group _ _ _ _ _ h1 => by
    have ih := ways_unique h1
    intro zs h; cases h with | group _ _ _ _ _ h2 => rw [ih _ h2]
  | _, _, _, _, .look _ _ _ _ _ _ h1 => by
    have ih := ways_unique h1
    intro zs h
    cases h with
    | look _ _ _ _ _ _ h2 => have := ih _ h2; injection this with a _; rw [a]
    | lookFail _ _ _ _ h2 => have := ih _ h2; cases this
  | _, _, _, _, .lookFail _ _ _ _ h1 => by
    have ih := ways_unique h1
    intro zs h
    cases h with
    | look _ _ _ _ _ _ h2 => have := ih _ h2; cases this
    | lookFail _ _ _ _ h2 => rfl
  | _, _, _, _, .lookNot _ _ _ _ h1 => by
    have ih := ways_unique h1
    intro zs h
    cases h with
    | lookNot _ _ _ _ h2 => rfl
    | lookNotFail _ _ _ _ _ _ h2 => have := ih _ h2; cases this
  | _, _, _, _, .lookNotFail _ _ _ _ _ _ h1 => by
    have ih := ways_unique h1
    intro zs h
    cases h with
    | lookNot _ _ _ _ h2 => have := ih _ h2; cases this
    | lookNotFail _ _ _ _ _ _ h2 => rfl
  | _, _, _, _, .repDone .. => by
    intro zs h
    cases h with
    | repDone => rfl
    | repMust _ _ _ _ _ _ _ _ h => exact absurd rfl h
    | repGreedy _ _ _ _ _ _ h => exact absurd rfl h
    | repLazy _ _ _ _ _ _ h => exact absurd rfl h
  | _, _, _, _, .repMust _ _ _ _ _ _ _ _ h0 h1 h2 => by
    have ih1 := ways_unique h1
    have ih2 := allWays_unique h2
    intro zs h
    cases h with
    | repDone => exact absurd rfl h0
    | repMust _ _ _ _ _ _ _ _ _ g1 g2 =>
      have := ih1 _ g1
      subst this
      exact ih2 _ g2
  | _, _, _, _, .repGreedy _ _ _ _ _ _ h0 h1 h2 => by
    have ih1 := ways_unique h1
    have ih2 := allWays_unique h2
    intro zs h
    cases h with
    | repDone => exact absurd rfl h0
    | repGreedy _ _ _ _ _ _ _ g1 g2 =>
      have := ih1 _ g1
      subst this
      rw [ih2 _ g2]
  | _, _, _, _, .repLazy _ _ _ _ _ _ h0 h1 h2 => by
    have ih1 := ways_unique h1
    have ih2 := allWays_unique h2
    intro zs h
    cases h with
    | repDone => exact absurd rfl h0
    | repLazy _ _ _ _ _ _ _ g1 g2 =>
      have := ih1 _ g1
      subst this
      rw [ih2 _ g2]
  | _, _, _, _, .seqNil .. => by intro zs h; cases h; rfl
  | _, _, _, _, .seqCons _ _ _ _ _ _ h1 h2 => by
    have ih1 := ways_unique h1
    have ih2 := allWays_unique h2
    intro zs h
    cases h with
    | seqCons _ _ _ _ _ _ g1 g2 =>
      have := ih1 _ g1
      subst this
      exact ih2 _ g2
  | _, _, _, _, .altsOne _ _ _ _ h1 => by
    have ih := ways_unique h1
    intro zs h; cases h with | altsOne _ _ _ _ h2 => exact ih _ h2
  | _, _, _, _, .altsCons _ _ _ _ _ _ _ h1 h2 => by
    have ih1 := ways_unique h1
    have ih2 := ways_unique h2
    intro zs h
    cases h with
    | altsCons _ _ _ _ _ _ _ g1 g2 => rw [ih1 _ g1, ih2 _ g2]
theorem allWays_unique {I : Input} : ∀ {fwd : Bool} {n : Node} {xs ys : List St},
    AllWays I fwd n xs ys → ∀ (zs : List St), AllWays I fwd n xs zs → ys = zs
  | _, _, _, _, .nil .. => by intro zs h; cases h; rfl
  | _, _, _, _, .cons _ _ _ _ _ _ h1 h2 => by
    have ih1 := ways_unique h1
    have ih2 := allWays_unique h2
    intro zs h
    cases h with
    | cons _ _ _ _ _ _ g1 g2 => rw [ih1 _ g1, ih2 _ g2]
end

theorem match_unique {I : Input} {d : Alts} {pos : Nat} {o o' : Option St}
    (h : Match I d pos o) (h' : Match I d pos o') : o = o' := by
  obtain ⟨ys, h1, rfl⟩ := h
  obtain ⟨zs, h2, rfl⟩ := h'
  rw [ways_unique h1 _ h2]

end Verif.RegExp.Spec

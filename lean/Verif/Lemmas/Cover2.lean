import Verif.Lemmas.Cover

/-! Helper lemmas for C94: targets and bindings. -/

namespace Verif.Cover

open Spec

variable {strict : Bool}

/-! ## Targets -/

/-- Either everything is right, or something is refused. -/
def Either {α : Type} (c k : Bool) (x : Res α) (a : α) (t : Bool) : Prop :=
  (c = true ∧ k = true ∧ x = .ok a ∧ t = true) ∨ ((c = false ∨ k = false ∨ x = .err) ∧ t = false)

theorem Either.map {α β : Type} {c k t : Bool} {x : Res α} {a : α} {f : α → β} (h : Either c k x a t) :
    Either c k (x.bind fun a => .ok (f a)) (f a) t := by
  rcases h with ⟨rfl, rfl, rfl, rfl⟩ | ⟨h, rfl⟩
  · exact .inl ⟨rfl, rfl, rfl, rfl⟩
  · refine .inr ⟨?_, rfl⟩
    rcases h with rfl | rfl | rfl
    · exact .inl rfl
    · exact .inr (.inl rfl)
    · exact .inr (.inr rfl)

def TD (strict : Bool) (e : S) : Prop :=
  Either (cov strict false e) (checkLh strict (tree e)) (conv strict false (tree e)) (pattern e)
    (target strict e)

def ED (strict : Bool) (e : S) : Prop :=
  Either (cov strict false e) (lhElem strict (tree e)) (convElem strict false (tree e)) (patElem e)
    (elementOk strict e)

theorem elem_dich (e : S) (h : tameElem strict e = true) (ht : tameTarget strict e = true → TD strict e) :
    ED strict e := by
  cases e with
  | assi t r =>
    simp only [tameElem, Bool.and_eq_true] at h
    simp only [ED, Either, cov, tree, lhElem, convElem, patElem, elementOk, valid_cov h.1.2 h.2]
    cases htt : target strict t with
    | false => right; simp
    | true =>
      have := left_ready t htt
      rw [this.1, this.2]
      cases hc : cov strict false r with
      | false => right; simp
      | true => left; exact ⟨rfl, rfl, rfl, rfl⟩
  | id _ => exact Either.map (f := fun p => (p, (none : Option Node))) (ht h)
  | lit => exact Either.map (f := fun p => (p, (none : Option Node))) (ht h)
  | member _ => exact Either.map (f := fun p => (p, (none : Option Node))) (ht h)
  | op _ _ => exact Either.map (f := fun p => (p, (none : Option Node))) (ht h)
  | paren _ _ => exact Either.map (f := fun p => (p, (none : Option Node))) (ht h)
  | arr _ => exact Either.map (f := fun p => (p, (none : Option Node))) (ht h)
  | obj _ => exact Either.map (f := fun p => (p, (none : Option Node))) (ht h)
  | arrow _ _ => exact Either.map (f := fun p => (p, (none : Option Node))) (ht h)

/-- No conversion meets an assertion. -/
def NC {α : Type} (x : Res α) : Prop := x ≠ .crash

theorem NC.bind {α β : Type} {x : Res α} {f : α → Res β} (hx : NC x) (hf : ∀ a, NC (f a)) : NC (x.bind f) := by
  cases x with
  | ok a => exact hf a
  | err => nofun
  | crash => exact absurd rfl hx

theorem NC.ok {α : Type} (a : α) : NC (Res.ok a) := nofun

mutual
theorem conv_nc (b : Bool) : ∀ n : Node, NC (conv strict b n)
  | .id n => by simp only [conv]; split <;> nofun
  | .lit => by simp only [conv]; nofun
  | .member _ => NC.ok _
  | .op _ _ => by simp only [conv]; nofun
  | .paren _ => by simp only [conv]; nofun
  | .arr l => by simp only [conv]; exact (convItems_nc b l none).bind fun _ => .ok _
  | .obj l => by simp only [conv]; exact (convMems_nc b l).bind fun _ => .ok _
  | .pat _ => NC.ok _
  | .assi _ _ => by simp only [conv]; nofun
  | .arrow _ _ => by simp only [conv]; nofun
theorem convElem_nc (b : Bool) : ∀ n : Node, NC (convElem strict b n)
  | .assi a r => by simp only [convElem]; exact (conv_nc b a).bind fun _ => .ok _
  | .id n => by simp only [convElem]; exact (conv_nc b (.id n)).bind fun _ => .ok _
  | .lit => nofun
  | .member _ => NC.ok _
  | .op _ _ => nofun
  | .paren _ => nofun
  | .arr l => by
    simp only [convElem, conv]
    exact ((convItems_nc b l none).bind fun _ => .ok _).bind fun _ => .ok _
  | .obj l => by
    simp only [convElem, conv]
    exact ((convMems_nc b l).bind fun _ => .ok _).bind fun _ => .ok _
  | .pat _ => NC.ok _
  | .arrow _ _ => nofun
theorem convItems_nc (b : Bool) : ∀ (l : NItems) (o : Option Bool), NC (convItems strict b o l)
  | .nil, none => NC.ok _
  | .nil, some c => by cases c <;> nofun
  | .hole l, none => by simp only [convItems]; exact (convItems_nc b l none).bind fun _ => .ok _
  | .hole l, some _ => by simp only [convItems]; nofun
  | .item e l, none => by
    rw [convItems_item]
    exact (convElem_nc b e).bind fun _ => (convItems_nc b l none).bind fun _ => .ok _
  | .item e l, some _ => by simp only [convItems]; nofun
  | .spread e c l, none => by
    simp only [convItems]
    exact (conv_nc b e).bind fun _ => (convItems_nc b l (some c)).bind fun _ => .ok _
  | .spread e c l, some _ => by simp only [convItems]; nofun
theorem convMems_nc (b : Bool) : ∀ l : NMems, NC (convMems strict b l)
  | .nil => NC.ok _
  | .short n l => by simp only [convMems]; exact (convMems_nc b l).bind fun _ => .ok _
  | .shortInit n e l => by simp only [convMems]; exact (convMems_nc b l).bind fun _ => .ok _
  | .prop k v l => by
    rw [convMems_prop]
    exact (convElem_nc b v).bind fun _ => (convMems_nc b l).bind fun _ => .ok _
  | .spread e l => by
    simp only [convMems]
    exact (conv_nc b e).bind fun _ => (convMems_nc b l).bind fun _ => .ok _
  | .method _ => nofun
end

/-- A failure in either part is a failure. -/
theorem bind_err_left {α β : Type} {x : Res α} {f : α → Res β} (h : x = .err) : x.bind f = .err := by
  rw [h]; rfl

theorem bind_err_right {α β γ : Type} {x : Res α} {y : Res β} {f : α → β → Res γ} (hx : NC x) (h : y = .err) :
    (x.bind fun a => y.bind (f a)) = .err := by
  cases x with
  | ok a => subst h; rfl
  | err => rfl
  | crash => exact absurd rfl hx

theorem Either.pair {α β γ : Type} {c1 k1 t1 c2 k2 t2 : Bool} {x : Res α} {y : Res β} {a : α} {b : β}
    {f : α → β → γ} (h1 : Either c1 k1 x a t1) (h2 : Either c2 k2 y b t2) (hx : NC x) :
    Either (c1 && c2) (k1 && k2) (x.bind fun a => y.bind fun b => .ok (f a b)) (f a b) (t1 && t2) := by
  rcases h1 with ⟨rfl, rfl, rfl, rfl⟩ | ⟨h, rfl⟩
  · rcases h2 with ⟨rfl, rfl, rfl, rfl⟩ | ⟨h, rfl⟩
    · exact .inl ⟨rfl, rfl, rfl, rfl⟩
    · refine .inr ⟨?_, rfl⟩
      rcases h with rfl | rfl | rfl
      · exact .inl rfl
      · exact .inr (.inl rfl)
      · exact .inr (.inr rfl)
  · refine .inr ⟨?_, rfl⟩
    rcases h with rfl | rfl | rfl
    · exact .inl rfl
    · exact .inr (.inl rfl)
    · exact .inr (.inr rfl)

theorem Either.bad {α : Type} {c k : Bool} {x : Res α} {a : α} (h : c = false ∨ k = false ∨ x = .err) :
    Either c k x a false := .inr ⟨h, rfl⟩

/-- A rest property of a tame source is a simple target. -/
theorem rest_target {e : S} (h : isPattern e = false) (ht : tameTarget strict e = true) :
    (isSimple strict e && valid strict e) = target strict e := by
  cases e with
  | id n => simp only [isSimple, valid, target, Bool.and_true]
  | member o => simp only [isSimple, valid, target, Bool.true_and]
  | paren c e =>
    simp only [tameTarget, Bool.and_eq_true] at ht
    have h1 : isSimple strict e = false := by simpa using ht.1.1
    simp only [isSimple, target, h1, Bool.false_and, Bool.and_false]
  | arr l => cases h
  | obj l => cases h
  | lit => rfl
  | op a b => rfl
  | assi a b => rfl
  | arrow a b => rfl

mutual
theorem target_dich : ∀ e : S, tameTarget strict e = true → TD strict e
  | .id n, _ => by
    cases h : nameOk strict n with
    | false => exact .inr ⟨.inr (.inl h), h⟩
    | true =>
      refine .inl ⟨rfl, h, ?_, h⟩
      simp only [tree, conv, Bool.false_and, Bool.false_eq_true, if_false, pattern]
  | .lit, _ => .bad (.inr (.inl rfl))
  | .member o, h => by
    simp only [tameTarget, Bool.and_eq_true] at h
    simp only [TD, cov, target, valid_cov h.1 h.2]
    cases hc : cov strict false o with
    | false => exact .bad (.inl rfl)
    | true => exact .inl ⟨rfl, rfl, rfl, rfl⟩
  | .op _ _, _ => .bad (.inr (.inl rfl))
  | .paren c e, h => by
    simp only [tameTarget, Bool.and_eq_true] at h
    have h1 : isSimple strict e = false := by simpa using h.1.1
    simp only [TD, target, h1, Bool.and_false, Bool.false_and]
    exact .bad (.inr (.inr rfl))
  | .arr l, h => by
    simp only [tameTarget] at h
    have := target_items l h
    simp only [TD, cov, tree, checkLh, conv, pattern, target]
    exact this.map
  | .obj l, h => by
    simp only [tameTarget, Bool.and_eq_true] at h
    have := target_mems l h.2
    simp only [TD, cov, tree, checkLh, conv, pattern, target, h.1, Bool.or_true, Bool.true_and]
    exact this.map
  | .assi _ _, _ => .bad (.inr (.inl rfl))
  | .arrow _ _, _ => .bad (.inr (.inl rfl))
theorem target_items : ∀ l : Items, tameElems strict l = true →
    Either (covItems strict l) (lhItems strict none (treeItems l))
      (convItems strict false none (treeItems l)) (patItems l) (elements strict l)
  | .nil, _ => .inl ⟨rfl, rfl, rfl, rfl⟩
  | .hole l, h => by
    simp only [tameElems] at h
    simp only [covItems, treeItems, lhItems, convItems, patItems, elements]
    exact (target_items l h).map
  | .item e l, h => by
    rw [tameElems_item, Bool.and_eq_true] at h
    rw [treeItems, lhItems_item, convItems_item, patItems_item, elements_item]
    simp only [covItems]
    exact (elem_dich e h.1 (target_dich e)).pair (target_items l h.2) (convElem_nc _ _)
  | .spread e c l, h => by
    simp only [tameElems, Bool.and_eq_true] at h
    have he := target_dich e h.1
    simp only [covItems, treeItems, lhItems, convItems, patItems, elements]
    cases l with
    | nil =>
      cases c with
      | true =>
        simp only [treeItems, lhItems, Bool.not_true, Bool.and_false, Bool.false_and]
        exact .bad (.inr (.inl rfl))
      | false =>
        have h2 : Either true true (convItems strict false (some false) (treeItems .nil)) PItems.nil true :=
          .inl ⟨rfl, rfl, rfl, rfl⟩
        have := he.pair (f := fun p l => PItems.rest p l) h2 (conv_nc _ _)
        simp only [Bool.and_true] at this
        simp only [covItems, treeItems, lhItems, Bool.not_false, Bool.and_true, Bool.true_and, patItems]
        exact this
    | hole l =>
      simp only [treeItems, lhItems, Bool.and_false]
      exact .bad (.inr (.inl rfl))
    | item e l =>
      simp only [treeItems, lhItems, Bool.and_false]
      exact .bad (.inr (.inl rfl))
    | spread e c l =>
      simp only [treeItems, lhItems, Bool.and_false]
      exact .bad (.inr (.inl rfl))
theorem target_mems : ∀ l : Mems, tameProps strict l = true →
    Either (covMems strict l) (lhMems strict false (treeMems l))
      (convMems strict false (treeMems l)) (patMems l) (properties strict l)
  | .nil, _ => .inl ⟨rfl, rfl, rfl, rfl⟩
  | .short n l, h => by
    simp only [tameProps] at h
    simp only [covMems, treeMems, lhMems, convMems, patMems, properties]
    have h1 : Either true (simple strict (.id n)) (Res.ok ()) () (nameOk strict n) := by
      cases h : nameOk strict n with
      | false => exact .bad (.inr (.inl h))
      | true => exact .inl ⟨rfl, h, rfl, rfl⟩
    have := h1.pair (f := fun _ l => PMems.prop n (.leaf (.id n)) l) (target_mems l h) (.ok _)
    simp only [Bool.true_and] at this
    exact this
  | .shortInit n e l, h => by
    simp only [tameProps, Bool.and_eq_true] at h
    simp only [covMems, treeMems, lhMems, convMems, patMems, properties, valid_cov h.1.1 h.1.2]
    have h1 : Either (cov strict false e) (simple strict (.id n)) (Res.ok ()) ()
        (nameOk strict n && cov strict false e) := by
      cases h : nameOk strict n with
      | false => exact .bad (.inr (.inl h))
      | true =>
        cases hc : cov strict false e with
        | false => exact .bad (.inl rfl)
        | true => exact .inl ⟨rfl, h, rfl, rfl⟩
    exact h1.pair (f := fun _ l => PMems.propInit n (.leaf (.id n)) (tree e) l) (target_mems l h.2) (.ok _)
  | .prop k v l, h => by
    rw [tameProps_prop, Bool.and_eq_true] at h
    rw [treeMems, lhMems_prop, convMems_prop, patMems_prop, properties_prop]
    simp only [covMems]
    exact (elem_dich v h.1 (target_dich v)).pair (target_mems l h.2) (convElem_nc _ _)
  | .spread e c l, h => by
    simp only [tameProps, Bool.and_eq_true] at h
    have hp : isPattern e = false := by simpa using h.1.1.1
    have hc : c = false := by simpa using h.1.1.2
    subst hc
    have he := target_dich e h.1.2
    have hr := rest_target hp h.1.2
    simp only [covMems, treeMems, lhMems, convMems, patMems, properties]
    cases l with
    | nil =>
      have h2 : Either true true (convMems strict false (treeMems .nil)) PMems.nil true :=
        .inl ⟨rfl, rfl, rfl, rfl⟩
      have := he.pair (f := fun p l => PMems.rest p l) h2 (conv_nc _ _)
      simp only [Bool.and_true] at this
      simp only [covMems, treeMems, lhMems, Bool.not_false, Bool.and_true, Bool.true_and, patMems, hr]
      exact this
    | short n l => simp only [treeMems, lhMems, Bool.and_false]; exact .bad (.inr (.inl rfl))
    | shortInit n e l => simp only [treeMems, lhMems, Bool.and_false]; exact .bad (.inr (.inl rfl))
    | prop k v l => simp only [treeMems, lhMems, Bool.and_false]; exact .bad (.inr (.inl rfl))
    | spread e c l => simp only [treeMems, lhMems, Bool.and_false]; exact .bad (.inr (.inl rfl))
    | method l => simp only [treeMems, lhMems, Bool.and_false]; exact .bad (.inr (.inl rfl))
  | .method l, h => .bad (.inr (.inr rfl))
end

end Verif.Cover

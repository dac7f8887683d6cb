import Verif.Lemmas.Cover2

/-! Helper lemmas for C94: parameters of arrow functions. -/

namespace Verif.Cover

open Spec

variable {strict : Bool}

/-- An element of a binding pattern, a parameter. -/
def bindElemOk (strict : Bool) : S → Bool
  | .assi t e => binding strict t && valid strict e
  | e => binding strict e

def tameBindElem (strict : Bool) : S → Bool
  | .assi t e => tameBind strict t && tame strict e && noInit e
  | e => tameBind strict e

theorem bindElements_item (e : S) (l : Items) :
    bindElements strict (.item e l) = (bindElemOk strict e && bindElements strict l) := by
  cases e <;> simp only [bindElements, bindElemOk]

theorem bindProperties_prop (k : Nat) (e : S) (l : Mems) :
    bindProperties strict (.prop k e l) = (bindElemOk strict e && bindProperties strict l) := by
  cases e <;> simp only [bindProperties, bindElemOk]

theorem params_arg (e : S) (l : Args) :
    params strict (.arg e l) = (bindElemOk strict e && params strict l) := by
  cases e <;> simp only [params, bindElemOk]

theorem tameBindElems_item (e : S) (l : Items) :
    tameBindElems strict (.item e l) = (tameBindElem strict e && tameBindElems strict l) := by
  cases e <;> simp only [tameBindElems, tameBindElem]

theorem tameBindProps_prop (k : Nat) (e : S) (l : Mems) :
    tameBindProps strict (.prop k e l) = (tameBindElem strict e && tameBindProps strict l) := by
  cases e <;> simp only [tameBindProps, tameBindElem]

theorem tameArgs_arg (e : S) (l : Args) :
    tameArgs strict (.arg e l) = (tameBindElem strict e && tameArgs strict l) := by
  cases e <;> simp only [tameArgs, tameBindElem]

/-- A binding is ready behind an assignment. -/
theorem binding_left (t : S) (h : binding strict t = true) :
    conv strict true (left t) = .ok (pattern t) := by
  cases t with
  | id n =>
    have h' : (strict && restricted n) = false := by
      simpa only [binding, nameOk, Bool.not_eq_true', restricted] using h
    simp only [left, conv, Bool.true_and, h', Bool.false_eq_true, if_false, pattern]
  | arr l => rfl
  | obj l => rfl
  | lit => cases h
  | member o => cases h
  | op a b => cases h
  | paren c e => cases h
  | assi a b => cases h
  | arrow a b => cases h

mutual
theorem target_binding : ∀ e : S, tameBind strict e = true → target strict e = binding strict e
  | .id _, _ => rfl
  | .lit, _ => rfl
  | .member _, h => by simp only [tameBind, Bool.false_eq_true] at h
  | .op _ _, _ => rfl
  | .paren c e, h => by
    simp only [tameBind, Bool.and_eq_true] at h
    have h1 : isSimple strict e = false := by simpa using h.1.1
    simp only [target, binding, h1, Bool.and_false, Bool.false_and]
  | .arr l, h => by simp only [tameBind] at h; simp only [target, binding, elements_binding l h]
  | .obj l, h => by
    simp only [tameBind, Bool.and_eq_true] at h; simp only [target, binding, properties_binding l h.2]
  | .assi _ _, _ => rfl
  | .arrow _ _, _ => rfl
theorem element_binding : ∀ e : S, tameBindElem strict e = true → elementOk strict e = bindElemOk strict e
  | .assi t r, h => by
    simp only [tameBindElem, Bool.and_eq_true] at h
    simp only [elementOk, bindElemOk, target_binding t h.1.1]
  | .id _, _ => rfl
  | .lit, _ => rfl
  | .member _, h => by simp only [tameBindElem, tameBind, Bool.false_eq_true] at h
  | .op _ _, _ => rfl
  | .paren c e, h => by
    simp only [tameBindElem, tameBind, Bool.and_eq_true] at h
    have h1 : isSimple strict e = false := by simpa using h.1.1
    simp only [elementOk, bindElemOk, target, binding, h1, Bool.and_false, Bool.false_and]
  | .arr l, h => by
    simp only [tameBindElem, tameBind] at h
    simp only [elementOk, bindElemOk, target, binding, elements_binding l h]
  | .obj l, h => by
    simp only [tameBindElem, tameBind, Bool.and_eq_true] at h
    simp only [elementOk, bindElemOk, target, binding, properties_binding l h.2]
  | .arrow _ _, _ => rfl
theorem elements_binding : ∀ l : Items, tameBindElems strict l = true →
    elements strict l = bindElements strict l
  | .nil, _ => rfl
  | .hole l, h => by
    simp only [tameBindElems] at h; simp only [elements, bindElements, elements_binding l h]
  | .item e l, h => by
    rw [tameBindElems_item, Bool.and_eq_true] at h
    rw [elements_item, bindElements_item, element_binding e h.1, elements_binding l h.2]
  | .spread e c l, h => by
    simp only [tameBindElems, Bool.and_eq_true] at h
    cases l with
    | nil => simp only [elements, bindElements, target_binding e h.1]
    | hole l => rfl
    | item e l => rfl
    | spread e c l => rfl
theorem properties_binding : ∀ l : Mems, tameBindProps strict l = true →
    properties strict l = bindProperties strict l
  | .nil, _ => rfl
  | .short n l, h => by
    simp only [tameBindProps, Bool.and_eq_true] at h
    simp only [properties, bindProperties, properties_binding l h.2]
  | .shortInit n e l, h => by
    simp only [tameBindProps, Bool.and_eq_true] at h
    simp only [properties, bindProperties, properties_binding l h.2]
  | .prop k v l, h => by
    rw [tameBindProps_prop, Bool.and_eq_true] at h
    rw [properties_prop, bindProperties_prop, element_binding v h.1, properties_binding l h.2]
  | .spread e c l, h => by
    simp only [tameBindProps, Bool.and_eq_true] at h
    have hp : isPattern e = false := by simpa using h.1.1.1
    cases l with
    | nil =>
      cases e with
      | id n => simp only [properties, bindProperties, isSimple, valid, Bool.and_true]
      | member o => simp only [tameBind, Bool.false_eq_true] at h; exact absurd h.1.2 (by trivial)
      | paren c e =>
        simp only [tameBind, Bool.and_eq_true] at h
        have h1 : isSimple strict e = false := by simpa using h.1.2.1.1
        simp only [properties, bindProperties, isSimple, h1, Bool.and_false, Bool.false_and]
      | arr l => cases hp
      | obj l => cases hp
      | lit => simp only [properties, bindProperties, isSimple, Bool.and_false, Bool.false_and]
      | op a b => simp only [properties, bindProperties, isSimple, Bool.and_false, Bool.false_and]
      | assi a b => simp only [properties, bindProperties, isSimple, Bool.and_false, Bool.false_and]
      | arrow a b => simp only [properties, bindProperties, isSimple, Bool.and_false, Bool.false_and]
    | short n l => cases h.2
    | shortInit n e l => cases h.2
    | prop k v l => cases h.2
    | spread e c l => cases h.2
    | method l => cases h.2
  | .method l, h => rfl
end

/-! ## Conversion -/

def BD (strict : Bool) (e : S) : Prop :=
  Either (cov strict false e) true (conv strict true (tree e)) (pattern e) (binding strict e)

def BED (strict : Bool) (e : S) : Prop :=
  Either (cov strict false e) true (convElem strict true (tree e)) (patElem e) (bindElemOk strict e)

theorem bind_elem_dich (e : S) (h : tameBindElem strict e = true)
    (ht : tameBind strict e = true → BD strict e) : BED strict e := by
  cases e with
  | assi t r =>
    simp only [tameBindElem, Bool.and_eq_true] at h
    simp only [BED, Either, cov, tree, convElem, patElem, bindElemOk, valid_cov h.1.2 h.2,
      target_binding t h.1.1]
    cases htt : binding strict t with
    | false => right; simp
    | true =>
      rw [binding_left t htt]
      cases hc : cov strict false r with
      | false => right; simp
      | true => left; exact ⟨rfl, trivial, rfl, rfl⟩
  | id _ => exact Either.map (f := fun p => (p, (none : Option Node))) (ht h)
  | lit => exact Either.map (f := fun p => (p, (none : Option Node))) (ht h)
  | member _ => exact Either.map (f := fun p => (p, (none : Option Node))) (ht h)
  | op _ _ => exact Either.map (f := fun p => (p, (none : Option Node))) (ht h)
  | paren _ _ => exact Either.map (f := fun p => (p, (none : Option Node))) (ht h)
  | arr _ => exact Either.map (f := fun p => (p, (none : Option Node))) (ht h)
  | obj _ => exact Either.map (f := fun p => (p, (none : Option Node))) (ht h)
  | arrow _ _ => exact Either.map (f := fun p => (p, (none : Option Node))) (ht h)

mutual
theorem binding_dich : ∀ e : S, tameBind strict e = true → BD strict e
  | .id n, _ => by
    cases h : nameOk strict n with
    | false =>
      have h' : (strict && restricted n) = true := by
        simpa only [nameOk, Bool.not_eq_false', restricted] using h
      refine .inr ⟨.inr (.inr ?_), h⟩
      simp only [tree, conv, Bool.true_and, h', if_true]
    | true => exact .inl ⟨rfl, rfl, binding_left (.id n) h, h⟩
  | .lit, _ => .bad (.inr (.inr rfl))
  | .member o, h => by simp only [tameBind, Bool.false_eq_true] at h
  | .op _ _, _ => .bad (.inr (.inr rfl))
  | .paren c e, h => .bad (.inr (.inr rfl))
  | .arr l, h => by
    simp only [tameBind] at h
    have := binding_items l h
    simp only [BD, cov, tree, conv, pattern, binding]
    exact this.map
  | .obj l, h => by
    simp only [tameBind, Bool.and_eq_true] at h
    have := binding_mems l h.2
    simp only [BD, cov, tree, conv, pattern, binding, h.1, Bool.or_true, Bool.true_and]
    exact this.map
  | .assi _ _, _ => .bad (.inr (.inr rfl))
  | .arrow _ _, _ => .bad (.inr (.inr rfl))
theorem binding_items : ∀ l : Items, tameBindElems strict l = true →
    Either (covItems strict l) true
      (convItems strict true none (treeItems l)) (patItems l) (bindElements strict l)
  | .nil, _ => .inl ⟨rfl, rfl, rfl, rfl⟩
  | .hole l, h => by
    simp only [tameBindElems] at h
    simp only [covItems, treeItems, convItems, patItems, bindElements]
    exact (binding_items l h).map
  | .item e l, h => by
    rw [tameBindElems_item, Bool.and_eq_true] at h
    rw [treeItems, convItems_item, patItems_item, bindElements_item]
    simp only [covItems]
    exact (bind_elem_dich e h.1 (binding_dich e)).pair (binding_items l h.2) (convElem_nc _ _)
  | .spread e c l, h => by
    simp only [tameBindElems, Bool.and_eq_true] at h
    have he := binding_dich e h.1
    simp only [covItems, treeItems, convItems, patItems, bindElements]
    have bad : ∀ x : Res PItems, x = .err →
        ((conv strict true (tree e)).bind fun p => x.bind fun l => .ok (PItems.rest p l)) = .err :=
      fun x hx => bind_err_right (conv_nc _ _) hx
    cases l with
    | nil =>
      cases c with
      | true =>
        simp only [Bool.not_true, Bool.false_and]
        exact .bad (.inr (.inr (bad _ rfl)))
      | false =>
        have h2 : Either true true (convItems strict true (some false) (treeItems .nil)) PItems.nil true :=
          .inl ⟨rfl, rfl, rfl, rfl⟩
        have := he.pair (f := fun p l => PItems.rest p l) h2 (conv_nc _ _)
        simp only [Bool.and_true] at this
        simp only [covItems, treeItems, Bool.not_false, Bool.and_true, Bool.true_and, patItems]
        exact this
    | hole l => exact .bad (.inr (.inr (bad _ rfl)))
    | item e l => exact .bad (.inr (.inr (bad _ rfl)))
    | spread e c l => exact .bad (.inr (.inr (bad _ rfl)))
theorem binding_mems : ∀ l : Mems, tameBindProps strict l = true →
    Either (covMems strict l) true
      (convMems strict true (treeMems l)) (patMems l) (bindProperties strict l)
  | .nil, _ => .inl ⟨rfl, rfl, rfl, rfl⟩
  | .short n l, h => by
    simp only [tameBindProps, Bool.and_eq_true] at h
    simp only [covMems, treeMems, convMems, patMems, bindProperties, h.1, Bool.true_and]
    exact (binding_mems l h.2).map
  | .shortInit n e l, h => by
    simp only [tameBindProps, Bool.and_eq_true] at h
    simp only [covMems, treeMems, convMems, patMems, bindProperties, h.1.1.1, Bool.true_and,
      valid_cov h.1.1.2 h.1.2]
    have h1 : Either (cov strict false e) true (Res.ok ()) () (cov strict false e) := by
      cases hc : cov strict false e with
      | false => exact .bad (.inl rfl)
      | true => exact .inl ⟨rfl, rfl, rfl, rfl⟩
    exact h1.pair (f := fun _ l => PMems.propInit n (.leaf (.id n)) (tree e) l) (binding_mems l h.2) (.ok _)
  | .prop k v l, h => by
    rw [tameBindProps_prop, Bool.and_eq_true] at h
    rw [treeMems, convMems_prop, patMems_prop, bindProperties_prop]
    simp only [covMems]
    exact (bind_elem_dich v h.1 (binding_dich v)).pair (binding_mems l h.2) (convElem_nc _ _)
  | .spread e c l, h => by
    have heq := properties_binding _ h
    simp only [tameBindProps, Bool.and_eq_true] at h
    have hp : isPattern e = false := by simpa using h.1.1.1
    have hc : c = false := by simpa using h.1.1.2
    subst hc
    have he := binding_dich e h.1.2
    cases l with
    | nil =>
      have hb : bindProperties strict (.spread e false .nil) = binding strict e := by
        cases e with
        | id n => rfl
        | arr l => cases hp
        | obj l => cases hp
        | lit => rfl
        | member o => rfl
        | op a b => rfl
        | paren c e => rfl
        | assi a b => rfl
        | arrow a b => rfl
      have h2 : Either true true (convMems strict true (treeMems .nil)) PMems.nil true :=
        .inl ⟨rfl, rfl, rfl, rfl⟩
      have := he.pair (f := fun p l => PMems.rest p l) h2 (conv_nc _ _)
      simp only [Bool.and_true] at this
      rw [hb]
      simp only [covMems, treeMems, convMems, Bool.and_true, patMems]
      exact this
    | short n l => cases h.2
    | shortInit n e l => cases h.2
    | prop k v l => cases h.2
    | spread e c l => cases h.2
    | method l => cases h.2
  | .method l, h => .bad (.inr (.inr rfl))
end

/-! ## No assertion -/

theorem paramItems_mk (x : Pat × Option Node) (l : PItems) :
    paramItems (mkItem x l) = (paramOk x.1 && paramItems l) := by
  obtain ⟨p, o⟩ := x
  cases o <;> simp only [mkItem, paramItems]

theorem paramMems_mk (k : Nat) (x : Pat × Option Node) (l : PMems) :
    paramMems (mkProp k x l) = (paramOk x.1 && paramMems l) := by
  obtain ⟨p, o⟩ := x
  cases o <;> simp only [mkProp, paramMems]

mutual
theorem param_binding : ∀ e : S, binding strict e = true → paramOk (pattern e) = true
  | .id _, _ => rfl
  | .arr l, h => by simp only [binding] at h; simp only [pattern, paramOk]; exact param_items l h
  | .obj l, h => by simp only [binding] at h; simp only [pattern, paramOk]; exact param_mems l h
  | .lit, h => nomatch h
  | .member _, h => nomatch h
  | .op _ _, h => nomatch h
  | .paren _ _, h => nomatch h
  | .assi _ _, h => nomatch h
  | .arrow _ _, h => nomatch h
theorem param_elem : ∀ e : S, bindElemOk strict e = true → paramOk (patElem e).1 = true
  | .assi t r, h => by
    simp only [bindElemOk, Bool.and_eq_true] at h
    simp only [patElem]
    exact param_binding t h.1
  | .id _, _ => rfl
  | .arr l, h => by
    simp only [bindElemOk, binding] at h; simp only [patElem, pattern, paramOk]; exact param_items l h
  | .obj l, h => by
    simp only [bindElemOk, binding] at h; simp only [patElem, pattern, paramOk]; exact param_mems l h
  | .lit, h => nomatch h
  | .member _, h => nomatch h
  | .op _ _, h => nomatch h
  | .paren _ _, h => nomatch h
  | .arrow _ _, h => nomatch h
theorem param_items : ∀ l : Items, bindElements strict l = true → paramItems (patItems l) = true
  | .nil, _ => rfl
  | .hole l, h => by simp only [bindElements] at h; simp only [patItems, paramItems, param_items l h]
  | .item e l, h => by
    rw [bindElements_item, Bool.and_eq_true] at h
    rw [patItems_item, paramItems_mk, param_elem e h.1, param_items l h.2]; rfl
  | .spread e c l, h => by
    cases l with
    | nil =>
      simp only [bindElements, Bool.and_eq_true] at h
      simp only [patItems, paramItems, param_binding e h.2, Bool.and_true]
    | hole l => cases h
    | item e l => cases h
    | spread e c l => cases h
theorem param_mems : ∀ l : Mems, bindProperties strict l = true → paramMems (patMems l) = true
  | .nil, _ => rfl
  | .short n l, h => by
    simp only [bindProperties, Bool.and_eq_true] at h
    simp only [patMems, paramMems, paramOk, param_mems l h.2, Bool.and_true]
  | .shortInit n e l, h => by
    simp only [bindProperties, Bool.and_eq_true] at h
    simp only [patMems, paramMems, paramOk, param_mems l h.2, Bool.and_true]
  | .prop k v l, h => by
    rw [bindProperties_prop, Bool.and_eq_true] at h
    rw [patMems_prop, paramMems_mk, param_elem v h.1, param_mems l h.2]; rfl
  | .spread e c l, h => by
    cases e with
    | id n =>
      cases l with
      | nil => rfl
      | short n l => cases h
      | shortInit n e l => cases h
      | prop k v l => cases h
      | spread e c l => cases h
      | method l => cases h
    | arr l => cases h
    | obj l => cases h
    | lit => cases h
    | member o => cases h
    | op a b => cases h
    | paren c e => cases h
    | assi a b => cases h
    | arrow a b => cases h
  | .method l, h => nomatch h
end

/-! ## Parameters -/

def treeArgs : Args → NArgs
  | .nil => .nil
  | .arg e l => .arg (tree e) (treeArgs l)

def covArgs (strict : Bool) : Args → Bool
  | .nil => true
  | .arg e l => cov strict false e && covArgs strict l

theorem toParams_arg (e : Node) (l : NArgs) :
    toParams strict (.arg e l) =
      (convElem strict true e).bind fun x => (toParams strict l).bind fun l => .ok (mkItem x l) := by
  cases e <;> simp only [toParams, convElem] <;> cases conv strict true _ <;> rfl

theorem treeParams_arg (e : S) (l : Args) : treeParams (.arg e l) = mkItem (patElem e) (treeParams l) := by
  cases e <;> simp only [treeParams, patElem, mkItem]

theorem params_dich : ∀ l : Args, tameArgs strict l = true →
    Either (covArgs strict l) true (toParams strict (treeArgs l)) (treeParams l) (params strict l)
  | .nil, _ => .inl ⟨rfl, rfl, rfl, rfl⟩
  | .arg e l, h => by
    rw [tameArgs_arg, Bool.and_eq_true] at h
    rw [treeArgs, toParams_arg, treeParams_arg, params_arg]
    simp only [covArgs]
    exact (bind_elem_dich e h.1 (binding_dich e)).pair (params_dich l h.2) (convElem_nc _ _)

theorem params_ok : ∀ l : Args, params strict l = true → paramItems (treeParams l) = true
  | .nil, _ => rfl
  | .arg e l, h => by
    rw [params_arg, Bool.and_eq_true] at h
    rw [treeParams_arg, paramItems_mk, param_elem e h.1, params_ok l h.2]; rfl

end Verif.Cover

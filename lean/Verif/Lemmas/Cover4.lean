import Verif.Lemmas.Cover3

/-! Helper lemmas for C94: the parser. -/

namespace Verif.Cover

open Spec

variable {strict : Bool}

/-! ## What the first pass needs -/

mutual
/-- Every assignment and every arrow function in the source is tame. -/
def fine (strict : Bool) : S → Bool
  | .id _ => true
  | .lit => true
  | .member o => fine strict o
  | .op a b => fine strict a && fine strict b
  | .paren _ e => fine strict e
  | .arr l => fineItems strict l
  | .obj l => fineMems strict l
  | .assi l r => tameLeft strict l && fine strict r
  | .arrow ps b => tameArgs strict ps && tame strict b
def fineItems (strict : Bool) : Items → Bool
  | .nil => true
  | .hole l => fineItems strict l
  | .item e l => fine strict e && fineItems strict l
  | .spread e _ l => fine strict e && fineItems strict l
def fineMems (strict : Bool) : Mems → Bool
  | .nil => true
  | .short _ l => fineMems strict l
  | .shortInit _ e l => fine strict e && fineMems strict l
  | .prop _ v l => fine strict v && fineMems strict l
  | .spread e _ l => fine strict e && fineMems strict l
  | .method l => fineMems strict l
end

mutual
theorem fine_tame : ∀ s : S, tame strict s = true → fine strict s = true
  | .id _, _ => rfl
  | .lit, _ => rfl
  | .member o, h => by simp only [tame] at h; simp only [fine, fine_tame o h]
  | .op a b, h => by
    simp only [tame, Bool.and_eq_true] at h
    simp only [fine, fine_tame a h.1, fine_tame b h.2, Bool.and_true]
  | .paren _ e, h => by simp only [tame, Bool.and_eq_true] at h; simp only [fine, fine_tame e h.2]
  | .arr l, h => by simp only [tame] at h; simp only [fine, fineItems_tame l h]
  | .obj l, h => by simp only [tame] at h; simp only [fine, fineMems_tame l h]
  | .assi l r, h => by
    simp only [tame, Bool.and_eq_true] at h
    simp only [fine, h.1, fine_tame r h.2, Bool.and_true]
  | .arrow ps b, h => h
theorem fineItems_tame : ∀ l : Items, tameItems strict l = true → fineItems strict l = true
  | .nil, _ => rfl
  | .hole l, h => by simp only [tameItems] at h; simp only [fineItems, fineItems_tame l h]
  | .item e l, h => by
    simp only [tameItems, Bool.and_eq_true] at h
    simp only [fineItems, fine_tame e h.1, fineItems_tame l h.2, Bool.and_true]
  | .spread e _ l, h => by
    simp only [tameItems, Bool.and_eq_true] at h
    simp only [fineItems, fine_tame e h.1, fineItems_tame l h.2, Bool.and_true]
theorem fineMems_tame : ∀ l : Mems, tameMems strict l = true → fineMems strict l = true
  | .nil, _ => rfl
  | .short _ l, h => by simp only [tameMems] at h; simp only [fineMems, fineMems_tame l h]
  | .shortInit _ e l, h => by
    simp only [tameMems, Bool.and_eq_true] at h
    simp only [fineMems, fine_tame e h.1, fineMems_tame l h.2, Bool.and_true]
  | .prop _ v l, h => by
    simp only [tameMems, Bool.and_eq_true] at h
    simp only [fineMems, fine_tame v h.1, fineMems_tame l h.2, Bool.and_true]
  | .spread e _ l, h => by
    simp only [tameMems, Bool.and_eq_true] at h
    simp only [fineMems, fine_tame e h.1, fineMems_tame l h.2, Bool.and_true]
  | .method l, h => by simp only [tameMems] at h; simp only [fineMems, fineMems_tame l h]
end

theorem fine_elem (e : S) (h : tameElem strict e = true) (ht : tameTarget strict e = true → fine strict e = true) :
    fine strict e = true := by
  cases e with
  | assi t r =>
    simp only [tameElem, Bool.and_eq_true] at h
    simp only [fine, h.1.1, fine_tame r h.1.2, Bool.and_true]
  | id _ => exact ht h
  | lit => exact ht h
  | member _ => exact ht h
  | op _ _ => exact ht h
  | paren _ _ => exact ht h
  | arr _ => exact ht h
  | obj _ => exact ht h
  | arrow _ _ => exact ht h

mutual
theorem fine_target : ∀ s : S, tameTarget strict s = true → fine strict s = true
  | .id _, _ => rfl
  | .lit, _ => rfl
  | .member o, h => by
    simp only [tameTarget, Bool.and_eq_true] at h; simp only [fine, fine_tame o h.1]
  | .op a b, h => by
    simp only [tameTarget, Bool.and_eq_true] at h
    simp only [fine, fine_tame a h.1, fine_tame b h.2, Bool.and_true]
  | .paren _ e, h => by simp only [tameTarget, Bool.and_eq_true] at h; simp only [fine, fine_tame e h.2]
  | .arr l, h => by simp only [tameTarget] at h; simp only [fine, fine_elems l h]
  | .obj l, h => by simp only [tameTarget, Bool.and_eq_true] at h; simp only [fine, fine_props l h.2]
  | .assi l r, h => by
    simp only [tameTarget, Bool.and_eq_true] at h
    simp only [fine, h.1, fine_tame r h.2, Bool.and_true]
  | .arrow ps b, h => h
theorem fine_elems : ∀ l : Items, tameElems strict l = true → fineItems strict l = true
  | .nil, _ => rfl
  | .hole l, h => by simp only [tameElems] at h; simp only [fineItems, fine_elems l h]
  | .item e l, h => by
    rw [tameElems_item, Bool.and_eq_true] at h
    simp only [fineItems, fine_elem e h.1 (fine_target e), fine_elems l h.2, Bool.and_true]
  | .spread e _ l, h => by
    simp only [tameElems, Bool.and_eq_true] at h
    simp only [fineItems, fine_target e h.1, fine_elems l h.2, Bool.and_true]
theorem fine_props : ∀ l : Mems, tameProps strict l = true → fineMems strict l = true
  | .nil, _ => rfl
  | .short _ l, h => by simp only [tameProps] at h; simp only [fineMems, fine_props l h]
  | .shortInit _ e l, h => by
    simp only [tameProps, Bool.and_eq_true] at h
    simp only [fineMems, fine_tame e h.1.1, fine_props l h.2, Bool.and_true]
  | .prop _ v l, h => by
    rw [tameProps_prop, Bool.and_eq_true] at h
    simp only [fineMems, fine_elem v h.1 (fine_target v), fine_props l h.2, Bool.and_true]
  | .spread e _ l, h => by
    simp only [tameProps, Bool.and_eq_true] at h
    simp only [fineMems, fine_target e h.1.2, fine_props l h.2, Bool.and_true]
  | .method l, h => by simp only [tameProps] at h; simp only [fineMems, fine_props l h]
end

theorem fine_left (s : S) (h : tameLeft strict s = true) : fine strict s = true := by
  cases s with
  | id _ => rfl
  | lit => rfl
  | member o => simp only [tameLeft, Bool.and_eq_true] at h; simp only [fine, fine_tame o h.1]
  | op a b =>
    simp only [tameLeft, Bool.and_eq_true] at h
    simp only [fine, fine_tame a h.1, fine_tame b h.2, Bool.and_true]
  | paren c e => simp only [tameLeft, Bool.and_eq_true] at h; simp only [fine, fine_tame e h.1.2]
  | arr l => exact fine_elems l h
  | obj l => exact fine_props l h
  | assi l r =>
    simp only [tameLeft, Bool.and_eq_true] at h
    simp only [fine, h.1, fine_tame r h.2, Bool.and_true]
  | arrow ps b => exact h

/-! ## Tame bindings are tame targets -/

mutual
theorem left_bind : ∀ s : S, tameBind strict s = true → tameLeft strict s = true ∧ tameTarget strict s = true
  | .id _, _ => ⟨rfl, rfl⟩
  | .lit, _ => ⟨rfl, rfl⟩
  | .member o, h => by simp only [tameBind, Bool.false_eq_true] at h
  | .op a b, h => ⟨h, h⟩
  | .paren c e, h => by
    refine ⟨?_, h⟩
    simp only [tameBind, Bool.and_eq_true] at h
    simp only [tameLeft, h.1.1, h.1.2, h.2, Bool.true_or, Bool.and_true]
  | .arr l, h => by
    simp only [tameBind] at h
    simp only [tameLeft, tameTarget, elems_bind l h, and_self]
  | .obj l, h => by
    simp only [tameBind, Bool.and_eq_true] at h
    simp only [tameLeft, tameTarget, props_bind l h.2, h.1, Bool.and_true, and_self]
  | .assi l r, h => ⟨h, h⟩
  | .arrow ps b, h => ⟨h, h⟩
theorem elem_bind : ∀ s : S, tameBindElem strict s = true → tameElem strict s = true
  | .assi t r, h => by
    simp only [tameBindElem, Bool.and_eq_true] at h
    simp only [tameElem, (left_bind t h.1.1).1, h.1.2, h.2, Bool.and_true]
  | .id _, _ => rfl
  | .lit, _ => rfl
  | .member o, h => by simp only [tameBindElem, tameBind, Bool.false_eq_true] at h
  | .op a b, h => h
  | .paren c e, h => h
  | .arr l, h => by
    simp only [tameBindElem, tameBind] at h
    simp only [tameElem, tameTarget, elems_bind l h]
  | .obj l, h => by
    simp only [tameBindElem, tameBind, Bool.and_eq_true] at h
    simp only [tameElem, tameTarget, props_bind l h.2, h.1, Bool.and_true]
  | .arrow ps b, h => h
theorem elems_bind : ∀ l : Items, tameBindElems strict l = true → tameElems strict l = true
  | .nil, _ => rfl
  | .hole l, h => by simp only [tameBindElems] at h; simp only [tameElems, elems_bind l h]
  | .item e l, h => by
    rw [tameBindElems_item, Bool.and_eq_true] at h
    rw [tameElems_item, elem_bind e h.1, elems_bind l h.2]; rfl
  | .spread e _ l, h => by
    simp only [tameBindElems, Bool.and_eq_true] at h
    simp only [tameElems, (left_bind e h.1).2, elems_bind l h.2, Bool.and_true]
theorem props_bind : ∀ l : Mems, tameBindProps strict l = true → tameProps strict l = true
  | .nil, _ => rfl
  | .short _ l, h => by
    simp only [tameBindProps, Bool.and_eq_true] at h; simp only [tameProps, props_bind l h.2]
  | .shortInit _ e l, h => by
    simp only [tameBindProps, Bool.and_eq_true] at h
    simp only [tameProps, h.1.1.2, h.1.2, props_bind l h.2, Bool.and_true]
  | .prop _ v l, h => by
    rw [tameBindProps_prop, Bool.and_eq_true] at h
    rw [tameProps_prop, elem_bind v h.1, props_bind l h.2]; rfl
  | .spread e _ l, h => by
    simp only [tameBindProps, Bool.and_eq_true] at h
    have hl : tameProps strict l = true := by
      cases l with
      | nil => rfl
      | short n l => cases h.2
      | shortInit n e l => cases h.2
      | prop k v l => cases h.2
      | spread e c l => cases h.2
      | method l => cases h.2
    simp only [tameProps, h.1.1.1, h.1.1.2, (left_bind e h.1.2).2, hl, Bool.and_true]
  | .method l, h => by simp only [tameBindProps] at h; simp only [tameProps, props_bind l h]
end

def fineArgs (strict : Bool) : Args → Bool
  | .nil => true
  | .arg e l => fine strict e && fineArgs strict l

theorem fine_args : ∀ l : Args, tameArgs strict l = true → fineArgs strict l = true
  | .nil, _ => rfl
  | .arg e l, h => by
    rw [tameArgs_arg, Bool.and_eq_true] at h
    simp only [fineArgs, fine_elem e (elem_bind e h.1) (fine_target e), fine_args l h.2, Bool.and_true]

/-! ## The left side of an assignment -/

theorem protos_tree : ∀ l : Mems, protos (treeMems l) = protoCount l
  | .nil => rfl
  | .short _ l => by simp only [treeMems, protos, protoCount, protos_tree l]
  | .shortInit _ _ l => by simp only [treeMems, protos, protoCount, protos_tree l]
  | .prop k _ l => by simp only [treeMems, protos, protoCount, protos_tree l, Nat.add_comm]
  | .spread _ _ l => by simp only [treeMems, protos, protoCount, protos_tree l]
  | .method l => by simp only [treeMems, protos, protoCount, protos_tree l]

/-- What `parse_assi_expr` makes of its left side. -/
theorem left_dich (l : S) (h : tameLeft strict l = true) :
    Either (cov strict true l) (isLiteral (tree l) || simple strict (tree l)) (toLh strict (tree l)) (left l)
      (target strict l) := by
  cases l with
  | arr l =>
    have := target_items l h
    simp only [cov, tree, isLiteral, Bool.true_or, toLh, checkLh, left, target]
    rcases this with ⟨h1, h2, h3, h4⟩ | ⟨h1, h2⟩
    · refine .inl ⟨h1, rfl, ?_, h4⟩
      simp only [h2, if_true, h3, Res.bind]
    · rw [h2]
      rcases h1 with h1 | h1 | h1
      · exact .bad (.inl h1)
      · refine .bad (.inr (.inr ?_))
        simp only [h1, Bool.false_eq_true, if_false]
      · refine .bad (.inr (.inr ?_))
        simp only [h1, Res.bind, ite_self]
  | obj l =>
    have := target_mems l h
    simp only [cov, tree, isLiteral, Bool.true_or, Bool.true_and, toLh, checkLh, left, target]
    rcases this with ⟨h1, h2, h3, h4⟩ | ⟨h1, h2⟩
    · refine .inl ⟨h1, rfl, ?_, h4⟩
      simp only [h2, if_true, h3, Res.bind]
    · rw [h2]
      rcases h1 with h1 | h1 | h1
      · exact .bad (.inl h1)
      · refine .bad (.inr (.inr ?_))
        simp only [h1, Bool.false_eq_true, if_false]
      · refine .bad (.inr (.inr ?_))
        simp only [h1, Res.bind, ite_self]
  | id n =>
    rw [simple_tree]
    cases hn : isSimple strict (.id n) with
    | false =>
      have : target strict (.id n) = false := hn
      rw [this]
      exact .bad (.inr (.inl rfl))
    | true => exact .inl ⟨rfl, rfl, (left_simple (.id n) hn).1, hn⟩
  | member o =>
    simp only [tameLeft, Bool.and_eq_true] at h
    rw [simple_tree]
    simp only [cov, target, valid_cov h.1 h.2, isSimple, Bool.or_true]
    cases hc : cov strict false o with
    | false => exact .bad (.inl rfl)
    | true => exact .inl ⟨rfl, rfl, (left_simple (strict := strict) (.member o) rfl).1, rfl⟩
  | paren c e =>
    simp only [tameLeft, Bool.and_eq_true] at h
    rw [simple_tree]
    simp only [cov, target, h.1.1, Bool.true_and, tree, isLiteral, Bool.false_or, isSimple]
    cases hn : isSimple strict e with
    | false => exact .bad (.inr (.inl rfl))
    | true =>
      have hi : noInit e = true := by simpa [hn] using h.2
      rw [valid_cov h.1.2 hi]
      cases hc : cov strict false e with
      | false => exact .bad (.inl rfl)
      | true => exact .inl ⟨rfl, rfl, (left_simple (.paren c e) hn).1, rfl⟩
  | lit => exact .bad (.inr (.inl rfl))
  | op a b => exact .bad (.inr (.inl rfl))
  | assi a b => exact .bad (.inr (.inl rfl))
  | arrow a b => exact .bad (.inr (.inl rfl))

/-! ## The parser -/

/-- The answer of the standard. -/
def ans {α : Type} (c : Bool) (a : α) : Res α := if c then .ok a else .err

theorem ans_bind {α β : Type} {c d : Bool} {a : α} {f : α → Res β} {b : β}
    (h : c = true → f a = ans d b) : (ans c a).bind f = ans (c && d) b := by
  cases c with
  | true => exact h rfl
  | false => rfl

theorem ans_ok {α : Type} (a : α) : Res.ok a = ans true a := rfl

theorem ans_map {α β : Type} {c : Bool} {a : α} {f : α → β} :
    ((ans c a).bind fun a => .ok (f a)) = ans c (f a) := by cases c <;> rfl

theorem ans_map₂ {α β γ : Type} {c d : Bool} {a : α} {b : β} {f : α → β → γ} :
    ((ans c a).bind fun a => (ans d b).bind fun b => .ok (f a b)) = ans (c && d) (f a b) := by
  cases c <;> cases d <;> rfl

mutual
theorem build_eq : ∀ (s : S) (eq : Bool), fine strict s = true →
    build strict eq s = ans (cov strict eq s) (tree s)
  | .id _, _, _ => rfl
  | .lit, _, _ => rfl
  | .member o, _, h => by
    simp only [fine] at h
    simp only [build, build_eq o false h, cov, tree, ans_map]
  | .op a b, _, h => by
    simp only [fine, Bool.and_eq_true] at h
    simp only [build, build_eq a false h.1, build_eq b false h.2, cov, tree, ans_map₂]
  | .paren _ e, _, h => by
    simp only [fine] at h
    simp only [build, build_eq e false h, cov, tree, ans_map]
  | .arr l, _, h => by
    simp only [fine] at h
    simp only [build, buildItems_eq l h, cov, tree, ans_map]
  | .obj l, eq, h => by
    simp only [fine] at h
    simp only [build, buildMems_eq l h, cov, tree]
    rw [Bool.and_comm]
    refine ans_bind fun _ => ?_
    rw [protos_tree]
    by_cases hp : protoCount l ≤ 1
    · have : ¬ 1 < protoCount l := by omega
      simp [ans, hp, this]
    · have : 1 < protoCount l := by omega
      cases eq <;> simp [ans, hp, this]
  | .assi l r, _, h => by
    simp only [fine, Bool.and_eq_true] at h
    simp only [build, build_eq l true (fine_left l h.1), build_eq r false h.2, cov, tree]
    rcases left_dich l h.1 with ⟨h1, h2, h3, h4⟩ | ⟨h1, h2⟩
    · rw [h1, h4]
      simp only [ans, if_true, Res.bind, h2, h3, Bool.true_and]
      cases cov strict false r <;> rfl
    · rw [h2]
      simp only [Bool.false_and]
      rcases h1 with h1 | h1 | h1
      · rw [h1]; rfl
      · cases cov strict true l with
        | false => rfl
        | true => simp only [ans, if_true, Res.bind, h1, Bool.false_eq_true, if_false]
      · cases cov strict true l with
        | false => rfl
        | true => simp only [ans, if_true, Res.bind, h1, Bool.false_eq_true, if_false, ite_self]
  | .arrow ps b, _, h => by
    simp only [fine, Bool.and_eq_true] at h
    simp only [build, buildArgs_eq ps (fine_args ps h.1), build_eq b false (fine_tame b h.2), cov, tree]
    rcases params_dich ps h.1 with ⟨h1, _, h3, h4⟩ | ⟨h1, h2⟩
    · rw [h1, h4]
      simp only [ans, if_true, Res.bind, h3, params_ok ps h4, Bool.true_and, valid_eq b h.2]
      cases cov strict false b with
      | false => rfl
      | true => simp only [if_true, check_tree, Bool.true_and]
    · rw [h2]
      simp only [Bool.false_and]
      rcases h1 with h1 | h1 | h1
      · rw [h1]; rfl
      · cases h1
      · cases covArgs strict ps with
        | false => rfl
        | true => simp only [ans, if_true, Res.bind, h1, Bool.false_eq_true, if_false]
theorem buildItems_eq : ∀ l : Items, fineItems strict l = true →
    buildItems strict l = ans (covItems strict l) (treeItems l)
  | .nil, _ => rfl
  | .hole l, h => by
    simp only [fineItems] at h
    simp only [buildItems, buildItems_eq l h, covItems, treeItems, ans_map]
  | .item e l, h => by
    simp only [fineItems, Bool.and_eq_true] at h
    simp only [buildItems, build_eq e false h.1, buildItems_eq l h.2, covItems, treeItems, ans_map₂]
  | .spread e c l, h => by
    simp only [fineItems, Bool.and_eq_true] at h
    simp only [buildItems, build_eq e false h.1, buildItems_eq l h.2, covItems, treeItems]
    exact ans_map₂ (f := fun e l => NItems.spread e c l)
theorem buildMems_eq : ∀ l : Mems, fineMems strict l = true →
    buildMems strict l = ans (covMems strict l) (treeMems l)
  | .nil, _ => rfl
  | .short n l, h => by
    simp only [fineMems] at h
    simp only [buildMems, buildMems_eq l h, covMems, treeMems, ans_map]
  | .shortInit n e l, h => by
    simp only [fineMems, Bool.and_eq_true] at h
    simp only [buildMems, build_eq e false h.1, buildMems_eq l h.2, covMems, treeMems]
    exact ans_map₂ (f := fun e l => NMems.shortInit n e l)
  | .prop k v l, h => by
    simp only [fineMems, Bool.and_eq_true] at h
    simp only [buildMems, build_eq v false h.1, buildMems_eq l h.2, covMems, treeMems]
    exact ans_map₂ (f := fun e l => NMems.prop k e l)
  | .spread e c l, h => by
    simp only [fineMems, Bool.and_eq_true] at h
    simp only [buildMems, build_eq e false h.1, buildMems_eq l h.2, covMems, treeMems]
    exact ans_map₂ (f := fun e l => NMems.spread e l)
  | .method l, h => by
    simp only [fineMems] at h
    simp only [buildMems, buildMems_eq l h, covMems, treeMems, ans_map]
theorem buildArgs_eq : ∀ l : Args, fineArgs strict l = true →
    buildArgs strict l = ans (covArgs strict l) (treeArgs l)
  | .nil, _ => rfl
  | .arg e l, h => by
    simp only [fineArgs, Bool.and_eq_true] at h
    simp only [buildArgs, build_eq e false h.1, buildArgs_eq l h.2, covArgs, treeArgs]
    exact ans_map₂ (f := fun e l => NArgs.arg e l)
end

theorem parse_eq (s : S) (h : tame strict s = true) :
    parse strict s = if valid strict s then .ok (tree s) else .err := by
  rw [parse, build_eq s false (fine_tame s h), valid_eq s h]
  cases cov strict false s with
  | false => rfl
  | true => simp only [ans, if_true, Res.bind, check_tree, Bool.true_and]

end Verif.Cover

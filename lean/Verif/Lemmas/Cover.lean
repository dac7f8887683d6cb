import Verif.Spec.Cover

/-! Helper lemmas for C94. -/

namespace Verif.Cover

open Spec

variable {strict : Bool}

/-! ## What is read before the late check -/

mutual
/-- Valid but for `n = e` in object literals. -/
def cov (strict : Bool) : Bool → S → Bool
  | _, .id _ => true
  | _, .lit => true
  | _, .member o => cov strict false o
  | _, .op a b => cov strict false a && cov strict false b
  | _, .paren _ e => cov strict false e
  | _, .arr l => covItems strict l
  | eq, .obj l => (eq || decide (protoCount l ≤ 1)) && covMems strict l
  | _, .assi l r => target strict l && cov strict false r
  | _, .arrow ps b => params strict ps && valid strict b
def covItems (strict : Bool) : Items → Bool
  | .nil => true
  | .hole l => covItems strict l
  | .item e l => cov strict false e && covItems strict l
  | .spread e _ l => cov strict false e && covItems strict l
def covMems (strict : Bool) : Mems → Bool
  | .nil => true
  | .short _ l => covMems strict l
  | .shortInit _ e l => cov strict false e && covMems strict l
  | .prop _ v l => cov strict false v && covMems strict l
  | .spread e _ l => cov strict false e && covMems strict l
  | .method l => covMems strict l
end

mutual
theorem check_tree : ∀ s : S, check (tree s) = noInit s
  | .id _ => rfl
  | .lit => rfl
  | .member o => by simp only [tree, check, noInit, check_tree o]
  | .op a b => by simp only [tree, check, noInit, check_tree a, check_tree b]
  | .paren _ e => by simp only [tree, check, noInit, check_tree e]
  | .arr l => by simp only [tree, check, noInit, checkItems_tree l]
  | .obj l => by simp only [tree, check, noInit, checkMems_tree l]
  | .assi _ r => by simp only [tree, check, noInit, check_tree r]
  | .arrow _ _ => rfl
theorem checkItems_tree : ∀ l : Items, checkItems (treeItems l) = noInitItems l
  | .nil => rfl
  | .hole l => by simp only [treeItems, checkItems, noInitItems, checkItems_tree l]
  | .item e l => by simp only [treeItems, checkItems, noInitItems, checkItems_tree l, check_tree e]
  | .spread e _ l => by simp only [treeItems, checkItems, noInitItems, checkItems_tree l, check_tree e]
theorem checkMems_tree : ∀ l : Mems, checkMems (treeMems l) = noInitMems l
  | .nil => rfl
  | .short _ l => by simp only [treeMems, checkMems, noInitMems, checkMems_tree l]
  | .shortInit _ _ _ => rfl
  | .prop _ v l => by simp only [treeMems, checkMems, noInitMems, checkMems_tree l, check_tree v]
  | .spread e _ l => by simp only [treeMems, checkMems, noInitMems, checkMems_tree l, check_tree e]
  | .method l => by simp only [treeMems, checkMems, noInitMems, checkMems_tree l]
end

theorem and_swap (a b c d : Bool) : (a && b && (c && d)) = (a && c && (b && d)) := by
  cases a <;> cases b <;> cases c <;> cases d <;> rfl

mutual
theorem valid_eq : ∀ s : S, tame strict s = true → valid strict s = (cov strict false s && noInit s)
  | .id _, _ => rfl
  | .lit, _ => rfl
  | .member o, h => by simp only [tame] at h; simp only [valid, cov, noInit, valid_eq o h]
  | .op a b, h => by
    simp only [tame, Bool.and_eq_true] at h
    simp only [valid, cov, noInit, valid_eq a h.1, valid_eq b h.2, and_swap]
  | .paren c e, h => by
    simp only [tame, Bool.and_eq_true] at h
    simp only [valid, cov, noInit, valid_eq e h.2, h.1, Bool.true_and]
  | .arr l, h => by simp only [tame] at h; simp only [valid, cov, noInit, validItems_eq l h]
  | .obj l, h => by
    simp only [tame] at h
    simp only [valid, cov, noInit, validMems_eq l h, Bool.false_or, Bool.and_assoc]
  | .assi l r, h => by
    simp only [tame, Bool.and_eq_true] at h
    simp only [valid, cov, noInit, valid_eq r h.2, Bool.and_assoc]
  | .arrow ps b, _ => by simp only [valid, cov, noInit, Bool.and_true]
theorem validItems_eq : ∀ l : Items, tameItems strict l = true →
    validItems strict l = (covItems strict l && noInitItems l)
  | .nil, _ => rfl
  | .hole l, h => by
    simp only [tameItems] at h; simp only [validItems, covItems, noInitItems, validItems_eq l h]
  | .item e l, h => by
    simp only [tameItems, Bool.and_eq_true] at h
    simp only [validItems, covItems, noInitItems, valid_eq e h.1, validItems_eq l h.2, and_swap]
  | .spread e _ l, h => by
    simp only [tameItems, Bool.and_eq_true] at h
    simp only [validItems, covItems, noInitItems, valid_eq e h.1, validItems_eq l h.2, and_swap]
theorem validMems_eq : ∀ l : Mems, tameMems strict l = true →
    validMems strict l = (covMems strict l && noInitMems l)
  | .nil, _ => rfl
  | .short _ l, h => by
    simp only [tameMems] at h; simp only [validMems, covMems, noInitMems, validMems_eq l h]
  | .shortInit _ _ _, _ => by simp only [validMems, noInitMems, Bool.and_false]
  | .prop _ v l, h => by
    simp only [tameMems, Bool.and_eq_true] at h
    simp only [validMems, covMems, noInitMems, valid_eq v h.1, validMems_eq l h.2, and_swap]
  | .spread e _ l, h => by
    simp only [tameMems, Bool.and_eq_true] at h
    simp only [validMems, covMems, noInitMems, valid_eq e h.1, validMems_eq l h.2, and_swap]
  | .method l, h => by
    simp only [tameMems] at h; simp only [validMems, covMems, noInitMems, validMems_eq l h]
end

/-- Initialisers: tame, and without `n = e`. -/
theorem valid_cov {s : S} (h : tame strict s = true) (hn : noInit s = true) :
    valid strict s = cov strict false s := by rw [valid_eq s h, hn, Bool.and_true]

/-! ## Simple targets -/

theorem simple_tree : ∀ s : S, simple strict (tree s) = isSimple strict s
  | .id n => rfl
  | .lit => rfl
  | .member _ => rfl
  | .op _ _ => rfl
  | .paren _ e => by simp only [tree, simple, isSimple, simple_tree e]
  | .arr _ => rfl
  | .obj _ => rfl
  | .assi _ _ => rfl
  | .arrow _ _ => rfl

/-- A simple target without its parentheses. -/
theorem left_simple : ∀ s : S, isSimple strict s = true →
    toLh strict (tree s) = .ok (left s) ∧ checkLh strict (left s) = true ∧
    conv strict false (left s) = .ok (pattern s)
  | .id n, h => by
    have h' : simple strict (.id n) = true := h
    refine ⟨?_, h', ?_⟩
    · simp only [tree, toLh, checkLh, h', if_true, left]
    · simp only [left, conv, Bool.false_and, pattern, Bool.false_eq_true, if_false]
  | .member o, h => by
    refine ⟨?_, rfl, rfl⟩
    simp only [tree, toLh, checkLh, simple, if_true, left]
  | .paren c e, h => by
    simp only [isSimple] at h
    have := left_simple e h
    refine ⟨?_, this.2.1, this.2.2⟩
    simp only [tree, toLh, checkLh, if_true]
    exact this.1
  | .lit, h => nomatch h
  | .op _ _, h => nomatch h
  | .arr _, h => nomatch h
  | .obj _, h => nomatch h
  | .assi _ _, h => nomatch h
  | .arrow _ _, h => nomatch h

/-- The left side of an assignment in a pattern is ready. -/
theorem left_ready (t : S) (h : target strict t = true) :
    checkLh strict (left t) = true ∧ conv strict false (left t) = .ok (pattern t) := by
  cases t with
  | arr l => exact ⟨rfl, rfl⟩
  | obj l => exact ⟨rfl, rfl⟩
  | id n => exact (left_simple (.id n) h).2
  | member o => exact (left_simple (.member o) rfl).2
  | paren c e =>
    simp only [target, Bool.and_eq_true] at h
    exact (left_simple e h.1.2).2
  | lit => cases h
  | op a b => cases h
  | assi a b => cases h
  | arrow a b => cases h

/-! ## Elements -/

/-- An element of a pattern. -/
def elementOk (strict : Bool) : S → Bool
  | .assi t e => target strict t && valid strict e
  | e => target strict e

def lhElem (strict : Bool) : Node → Bool
  | .assi a _ => checkLh strict a
  | e => checkLh strict e

/-- The pattern and the initialiser. -/
def convElem (strict b : Bool) : Node → Res (Pat × Option Node)
  | .assi a r => (conv strict b a).bind fun p => .ok (p, some r)
  | e => (conv strict b e).bind fun p => .ok (p, none)

def patElem : S → Pat × Option Node
  | .assi t e => (pattern t, some (tree e))
  | e => (pattern e, none)

def tameElem (strict : Bool) : S → Bool
  | .assi t e => tameLeft strict t && tame strict e && noInit e
  | e => tameTarget strict e

def mkItem (x : Pat × Option Node) (l : PItems) : PItems :=
  match x.2 with
  | none => .elem x.1 l
  | some e => .elemInit x.1 e l

def mkProp (k : Nat) (x : Pat × Option Node) (l : PMems) : PMems :=
  match x.2 with
  | none => .prop k x.1 l
  | some e => .propInit k x.1 e l

theorem elements_item (e : S) (l : Items) :
    elements strict (.item e l) = (elementOk strict e && elements strict l) := by
  cases e <;> simp only [elements, elementOk]

theorem properties_prop (k : Nat) (e : S) (l : Mems) :
    properties strict (.prop k e l) = (elementOk strict e && properties strict l) := by
  cases e <;> simp only [properties, elementOk]

theorem lhItems_item (e : Node) (l : NItems) :
    lhItems strict none (.item e l) = (lhElem strict e && lhItems strict none l) := by
  cases e <;> simp only [lhItems, lhElem]

theorem lhMems_prop (k : Nat) (e : Node) (l : NMems) :
    lhMems strict false (.prop k e l) = (lhElem strict e && lhMems strict false l) := by
  cases e <;> simp only [lhMems, lhElem]

theorem convItems_item (b : Bool) (e : Node) (l : NItems) :
    convItems strict b none (.item e l) =
      (convElem strict b e).bind fun x => (convItems strict b none l).bind fun l => .ok (mkItem x l) := by
  cases e <;> simp only [convItems, convElem] <;> cases conv strict b _ <;> rfl

theorem convMems_prop (b : Bool) (k : Nat) (e : Node) (l : NMems) :
    convMems strict b (.prop k e l) =
      (convElem strict b e).bind fun x => (convMems strict b l).bind fun l => .ok (mkProp k x l) := by
  cases e <;> simp only [convMems, convElem] <;> cases conv strict b _ <;> rfl

theorem patItems_item (e : S) (l : Items) : patItems (.item e l) = mkItem (patElem e) (patItems l) := by
  cases e <;> simp only [patItems, patElem, mkItem]

theorem patMems_prop (k : Nat) (e : S) (l : Mems) :
    patMems (.prop k e l) = mkProp k (patElem e) (patMems l) := by
  cases e <;> simp only [patMems, patElem, mkProp]

theorem tameElems_item (e : S) (l : Items) :
    tameElems strict (.item e l) = (tameElem strict e && tameElems strict l) := by
  cases e <;> simp only [tameElems, tameElem]

theorem tameProps_prop (k : Nat) (e : S) (l : Mems) :
    tameProps strict (.prop k e l) = (tameElem strict e && tameProps strict l) := by
  cases e <;> simp only [tameProps, tameElem]

end Verif.Cover

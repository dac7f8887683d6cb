import Verif.Model.Cover

/-!
# Assignment patterns and arrow parameters as the standard has them

The early errors of 13.2.5.1 (object literals), 13.15.1 and 13.15.5.1 (assignment patterns), 15.3.1
(arrow functions) and the grammars `AssignmentPattern` and `BindingPattern`, directly on the source; and
the tree a valid source stands for.  Of the model only the sources and the trees are used.
-/

namespace Verif.Cover.Spec

open Verif.Cover

/-- In strict mode neither `eval` nor `arguments` is a target. -/
def nameOk (strict : Bool) (n : Nat) : Bool := !(strict && (n == 1 || n == 2))

/-- `AssignmentTargetType` is simple. -/
def isSimple (strict : Bool) : S → Bool
  | .id n => nameOk strict n
  | .member _ => true
  | .paren _ e => isSimple strict e
  | _ => false

/-- How often `__proto__: v` stands in an object literal. -/
def protoCount : Mems → Nat
  | .nil => 0
  | .short _ l => protoCount l
  | .shortInit _ _ l => protoCount l
  | .prop k _ l => protoCount l + if k = kProto then 1 else 0
  | .spread _ _ l => protoCount l
  | .method l => protoCount l

mutual
/-- Valid expressions. -/
def valid (strict : Bool) : S → Bool
  | .id _ => true
  | .lit => true
  | .member o => valid strict o
  | .op a b => valid strict a && valid strict b
  | .paren comma e => !comma && valid strict e
  | .arr l => validItems strict l
  | .obj l => decide (protoCount l ≤ 1) && validMems strict l
  | .assi l r => target strict l && valid strict r
  | .arrow ps b => params strict ps && valid strict b
def validItems (strict : Bool) : Items → Bool
  | .nil => true
  | .hole l => validItems strict l
  | .item e l => valid strict e && validItems strict l
  | .spread e _ l => valid strict e && validItems strict l
/-- `n = e` is no property of an object. -/
def validMems (strict : Bool) : Mems → Bool
  | .nil => true
  | .short _ l => validMems strict l
  | .shortInit _ _ _ => false
  | .prop _ v l => valid strict v && validMems strict l
  | .spread e _ l => valid strict e && validMems strict l
  | .method l => validMems strict l
/-- `DestructuringAssignmentTarget`: a pattern or a simple target. -/
def target (strict : Bool) : S → Bool
  | .arr l => elements strict l
  | .obj l => properties strict l
  | .id n => nameOk strict n
  | .member o => valid strict o
  | .paren comma e => !comma && isSimple strict e && valid strict e
  | _ => false
/-- `ArrayAssignmentPattern`: nothing, not even a comma, follows a rest element. -/
def elements (strict : Bool) : Items → Bool
  | .nil => true
  | .hole l => elements strict l
  | .item (.assi t e) l => target strict t && valid strict e && elements strict l
  | .item e l => target strict e && elements strict l
  | .spread e comma l => match l with
    | .nil => !comma && target strict e
    | _ => false
/-- `ObjectAssignmentPattern`: the rest property is no pattern, and nothing follows it. -/
def properties (strict : Bool) : Mems → Bool
  | .nil => true
  | .short n l => nameOk strict n && properties strict l
  | .shortInit n e l => nameOk strict n && valid strict e && properties strict l
  | .prop _ (.assi t e) l => target strict t && valid strict e && properties strict l
  | .prop _ v l => target strict v && properties strict l
  | .spread e comma l => match l with
    | .nil => !comma && isSimple strict e && valid strict e
    | _ => false
  | .method _ => false
/-- `BindingIdentifier` or `BindingPattern`. -/
def binding (strict : Bool) : S → Bool
  | .id n => nameOk strict n
  | .arr l => bindElements strict l
  | .obj l => bindProperties strict l
  | _ => false
def bindElements (strict : Bool) : Items → Bool
  | .nil => true
  | .hole l => bindElements strict l
  | .item (.assi t e) l => binding strict t && valid strict e && bindElements strict l
  | .item e l => binding strict e && bindElements strict l
  | .spread e comma l => match l with
    | .nil => !comma && binding strict e
    | _ => false
/-- The rest property is a name. -/
def bindProperties (strict : Bool) : Mems → Bool
  | .nil => true
  | .short n l => nameOk strict n && bindProperties strict l
  | .shortInit n e l => nameOk strict n && valid strict e && bindProperties strict l
  | .prop _ (.assi t e) l => binding strict t && valid strict e && bindProperties strict l
  | .prop _ v l => binding strict v && bindProperties strict l
  | .spread (.id n) comma l => match l with
    | .nil => !comma && nameOk strict n
    | _ => false
  | .spread _ _ _ => false
  | .method _ => false
/-- `ArrowParameters` -/
def params (strict : Bool) : Args → Bool
  | .nil => true
  | .arg (.assi t e) l => binding strict t && valid strict e && params strict l
  | .arg e l => binding strict e && params strict l
end

mutual
/-- The tree of an expression. -/
def tree : S → Node
  | .id n => .id n
  | .lit => .lit
  | .member o => .member (tree o)
  | .op a b => .op (tree a) (tree b)
  | .paren _ e => .paren (tree e)
  | .arr l => .arr (treeItems l)
  | .obj l => .obj (treeMems l)
  | .assi l r => .assi (left l) (tree r)
  | .arrow ps b => .arrow (treeParams ps) (tree b)
def treeItems : Items → NItems
  | .nil => .nil
  | .hole l => .hole (treeItems l)
  | .item e l => .item (tree e) (treeItems l)
  | .spread e comma l => .spread (tree e) comma (treeItems l)
def treeMems : Mems → NMems
  | .nil => .nil
  | .short n l => .short n (treeMems l)
  | .shortInit n e l => .shortInit n (tree e) (treeMems l)
  | .prop k v l => .prop k (tree v) (treeMems l)
  | .spread e _ l => .spread (tree e) (treeMems l)
  | .method l => .method (treeMems l)
/-- The left side of an assignment: a pattern, or a target without its parentheses. -/
def left : S → Node
  | .arr l => .pat (.arr (patItems l))
  | .obj l => .pat (.obj (patMems l))
  | .paren _ e => left e
  | .id n => .id n
  | .member o => .member (tree o)
  | _ => .lit
/-- The pattern of a literal. -/
def pattern : S → Pat
  | .arr l => .arr (patItems l)
  | .obj l => .obj (patMems l)
  | .paren _ e => pattern e
  | .id n => .leaf (.id n)
  | .member o => .leaf (.member (tree o))
  | _ => .leaf .lit
def patItems : Items → PItems
  | .nil => .nil
  | .hole l => .hole (patItems l)
  | .item (.assi t e) l => .elemInit (pattern t) (tree e) (patItems l)
  | .item e l => .elem (pattern e) (patItems l)
  | .spread e _ l => .rest (pattern e) (patItems l)
def patMems : Mems → PMems
  | .nil => .nil
  | .short n l => .prop n (.leaf (.id n)) (patMems l)
  | .shortInit n e l => .propInit n (.leaf (.id n)) (tree e) (patMems l)
  | .prop k (.assi t e) l => .propInit k (pattern t) (tree e) (patMems l)
  | .prop k v l => .prop k (pattern v) (patMems l)
  | .spread e _ l => .rest (pattern e) (patMems l)
  | .method l => patMems l
def treeParams : Args → PItems
  | .nil => .nil
  | .arg (.assi t e) l => .elemInit (pattern t) (tree e) (treeParams l)
  | .arg e l => .elem (pattern e) (treeParams l)
end

/-! ## The sources the engine reads rightly -/

mutual
/-- No property `n = e` in an object literal of the expression (patterns and functions aside). -/
def noInit : S → Bool
  | .id _ => true
  | .lit => true
  | .member o => noInit o
  | .op a b => noInit a && noInit b
  | .paren _ e => noInit e
  | .arr l => noInitItems l
  | .obj l => noInitMems l
  | .assi _ r => noInit r
  | .arrow _ _ => true
def noInitItems : Items → Bool
  | .nil => true
  | .hole l => noInitItems l
  | .item e l => noInit e && noInitItems l
  | .spread e _ l => noInit e && noInitItems l
def noInitMems : Mems → Bool
  | .nil => true
  | .short _ l => noInitMems l
  | .shortInit _ _ _ => false
  | .prop _ v l => noInit v && noInitMems l
  | .spread e _ l => noInit e && noInitMems l
  | .method l => noInitMems l
end

/-- Array and object literals. -/
def isPattern : S → Bool
  | .arr _ => true
  | .obj _ => true
  | _ => false

mutual
/-- None of the sources named in C94 occurs in the expression: `(e,)`; … -/
def tame (strict : Bool) : S → Bool
  | .id _ => true
  | .lit => true
  | .member o => tame strict o
  | .op a b => tame strict a && tame strict b
  | .paren comma e => !comma && tame strict e
  | .arr l => tameItems strict l
  | .obj l => tameMems strict l
  | .assi l r => tameLeft strict l && tame strict r
  | .arrow ps b => tameArgs strict ps && tame strict b
def tameItems (strict : Bool) : Items → Bool
  | .nil => true
  | .hole l => tameItems strict l
  | .item e l => tame strict e && tameItems strict l
  | .spread e _ l => tame strict e && tameItems strict l
def tameMems (strict : Bool) : Mems → Bool
  | .nil => true
  | .short _ l => tameMems strict l
  | .shortInit _ e l => tame strict e && tameMems strict l
  | .prop _ v l => tame strict v && tameMems strict l
  | .spread e _ l => tame strict e && tameMems strict l
  | .method l => tameMems strict l
/-- … left of `=`: `n = e` in an object literal before a point; … -/
def tameLeft (strict : Bool) : S → Bool
  | .arr l => tameElems strict l
  | .obj l => tameProps strict l
  | .member o => tame strict o && noInit o
  | .paren comma e => !comma && tame strict e && (!isSimple strict e || noInit e)
  | .id _ => true
  | .lit => true
  | .op a b => tame strict a && tame strict b
  | .assi l r => tameLeft strict l && tame strict r
  | .arrow ps b => tameArgs strict ps && tame strict b
/-- … inside of a pattern: a simple target in parentheses, several `__proto__`; … -/
def tameTarget (strict : Bool) : S → Bool
  | .arr l => tameElems strict l
  | .obj l => decide (protoCount l ≤ 1) && tameProps strict l
  | .member o => tame strict o && noInit o
  | .paren comma e => !isSimple strict e && !comma && tame strict e
  | .id _ => true
  | .lit => true
  | .op a b => tame strict a && tame strict b
  | .assi l r => tameLeft strict l && tame strict r
  | .arrow ps b => tameArgs strict ps && tame strict b
/-- … `n = e` in an object literal in an initialiser; … -/
def tameElems (strict : Bool) : Items → Bool
  | .nil => true
  | .hole l => tameElems strict l
  | .item (.assi t e) l => tameLeft strict t && tame strict e && noInit e && tameElems strict l
  | .item e l => tameTarget strict e && tameElems strict l
  | .spread e _ l => tameTarget strict e && tameElems strict l
/-- … a pattern or a comma after `...` in an object pattern; … -/
def tameProps (strict : Bool) : Mems → Bool
  | .nil => true
  | .short _ l => tameProps strict l
  | .shortInit _ e l => tame strict e && noInit e && tameProps strict l
  | .prop _ (.assi t e) l => tameLeft strict t && tame strict e && noInit e && tameProps strict l
  | .prop _ v l => tameTarget strict v && tameProps strict l
  | .spread e comma l => !isPattern e && !comma && tameTarget strict e && tameProps strict l
  | .method l => tameProps strict l
/-- … in parameters of arrow functions: a member or a name in parentheses as target, in strict mode `eval` and
`arguments` alone in braces, anything behind a rest property. -/
def tameBind (strict : Bool) : S → Bool
  | .arr l => tameBindElems strict l
  | .obj l => decide (protoCount l ≤ 1) && tameBindProps strict l
  | .member _ => false
  | .paren comma e => !isSimple strict e && !comma && tame strict e
  | .id _ => true
  | .lit => true
  | .op a b => tame strict a && tame strict b
  | .assi l r => tameLeft strict l && tame strict r
  | .arrow ps b => tameArgs strict ps && tame strict b
def tameBindElems (strict : Bool) : Items → Bool
  | .nil => true
  | .hole l => tameBindElems strict l
  | .item (.assi t e) l => tameBind strict t && tame strict e && noInit e && tameBindElems strict l
  | .item e l => tameBind strict e && tameBindElems strict l
  | .spread e _ l => tameBind strict e && tameBindElems strict l
def tameBindProps (strict : Bool) : Mems → Bool
  | .nil => true
  | .short n l => nameOk strict n && tameBindProps strict l
  | .shortInit n e l => nameOk strict n && tame strict e && noInit e && tameBindProps strict l
  | .prop _ (.assi t e) l => tameBind strict t && tame strict e && noInit e && tameBindProps strict l
  | .prop _ v l => tameBind strict v && tameBindProps strict l
  | .spread e comma l => !isPattern e && !comma && tameBind strict e &&
    (match l with
     | .nil => true
     | _ => false)
  | .method l => tameBindProps strict l
def tameArgs (strict : Bool) : Args → Bool
  | .nil => true
  | .arg (.assi t e) l => tameBind strict t && tame strict e && noInit e && tameArgs strict l
  | .arg e l => tameBind strict e && tameArgs strict l
end

end Verif.Cover.Spec

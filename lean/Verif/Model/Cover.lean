/-!
# Expressions that turn out to be patterns

The parser (rjs_parser.c) reads `[…]`, `{…}` and `(…)` as expressions and makes patterns of them when
`=` or `=>` follows.  The model has these conversions, the checks made on the way and the late check of
object literals (`check_expr`).

Simplifications: tokens are not modelled, the source is the tree of the cover grammar; `yield`, `await`
and function bodies in braces are left out; after the first error the answer is a SyntaxError, whatever
the parser finds afterwards.
-/

namespace Verif.Cover

/-- The name `__proto__`, written without brackets. -/
def kProto : Nat := 0

/-- `eval` and `arguments`. -/
def restricted (n : Nat) : Bool := n == 1 || n == 2

mutual
/-- Source: the cover grammar of assignment expressions. -/
inductive S where
  | id (n : Nat)
  /-- an expression without parts (literals, `this`) -/
  | lit
  /-- `o.x` -/
  | member (o : S)
  /-- an operator, a call, a comma between expressions -/
  | op (a b : S)
  /-- `( e )`; `comma`: `( e , )` -/
  | paren (comma : Bool) (e : S)
  | arr (l : Items)
  | obj (l : Mems)
  /-- `l = r` -/
  | assi (l r : S)
  /-- `( ps ) => b` -/
  | arrow (ps : Args) (b : S)
/-- The inside of `[…]`; `comma`: is the spread element followed by a comma?  (A comma behind the last
element has no meaning elsewhere.) -/
inductive Items where
  | nil
  | hole (l : Items)
  | item (e : S) (l : Items)
  | spread (e : S) (comma : Bool) (l : Items)
/-- The inside of `{…}`: `n`, `n = e`, `k: v`, `...e`, methods. -/
inductive Mems where
  | nil
  | short (n : Nat) (l : Mems)
  | shortInit (n : Nat) (e : S) (l : Mems)
  | prop (k : Nat) (v : S) (l : Mems)
  | spread (e : S) (comma : Bool) (l : Mems)
  | method (l : Mems)
/-- What stands before `=>`. -/
inductive Args where
  | nil
  | arg (e : S) (l : Args)
end

mutual
/-- Syntax trees (rjs_ast.h): expressions; `pat`: `RJS_AST_ArrayBinding`, `RJS_AST_ObjectBinding`. -/
inductive Node where
  | id (n : Nat)
  | lit
  | member (o : Node)
  | op (a b : Node)
  | paren (e : Node)
  | arr (l : NItems)
  | obj (l : NMems)
  | pat (p : Pat)
  | assi (l r : Node)
  | arrow (ps : PItems) (b : Node)
/-- Elements; `comma`: `RJS_AST_LastElision` follows, if it is the last. -/
inductive NItems where
  | nil
  | hole (l : NItems)
  | item (e : Node) (l : NItems)
  | spread (e : Node) (comma : Bool) (l : NItems)
/-- Properties (the comma behind a spread leaves no trace). -/
inductive NMems where
  | nil
  | short (n : Nat) (l : NMems)
  | shortInit (n : Nat) (e : Node) (l : NMems)
  | prop (k : Nat) (v : Node) (l : NMems)
  | spread (e : Node) (l : NMems)
  | method (l : NMems)
/-- Patterns. -/
inductive Pat where
  | leaf (n : Node)
  | arr (l : PItems)
  | obj (l : PMems)
/-- Elements and parameters. -/
inductive PItems where
  | nil
  | hole (l : PItems)
  | elem (p : Pat) (l : PItems)
  | elemInit (p : Pat) (e : Node) (l : PItems)
  | rest (p : Pat) (l : PItems)
inductive PMems where
  | nil
  | prop (k : Nat) (p : Pat) (l : PMems)
  | propInit (k : Nat) (p : Pat) (e : Node) (l : PMems)
  | rest (p : Pat) (l : PMems)
end

/-- The end of the parser: a tree, a SyntaxError, a failed assertion. -/
inductive Res (α : Type) where
  | ok (a : α)
  | err
  | crash
  deriving DecidableEq

/-- The next step. -/
def Res.bind {α β : Type} (x : Res α) (f : α → Res β) : Res β :=
  match x with
  | .ok a => f a
  | .err => .err
  | .crash => .crash

/-- `check_simple_assi_target_internal` (rjs_parser.c:2087-2123). -/
def simple (strict : Bool) : Node → Bool
  | .id n => !(strict && restricted n)
  | .member _ => true
  | .paren e => simple strict e
  | _ => false

mutual
/-- `check_lh_expr` (rjs_parser.c:2373-2473). -/
def checkLh (strict : Bool) : Node → Bool
  | .arr l => lhItems strict none l
  | .obj l => lhMems strict false l
  | .pat _ => true
  | .paren _ => true
  | n => simple strict n
/-- Its loop over elements (rjs_parser.c:2387-2417); `rest`: a spread element came before, and was it
followed by a comma? -/
def lhItems (strict : Bool) : Option Bool → NItems → Bool
  | none, .nil => true
  | some comma, .nil => !comma
  | none, .hole l => lhItems strict none l
  | none, .spread e comma l => checkLh strict e && lhItems strict (some comma) l
  | none, .item (.assi a _) l => checkLh strict a && lhItems strict none l
  | none, .item e l => checkLh strict e && lhItems strict none l
  | some _, _ => false
/-- Its loop over properties (rjs_parser.c:2421-2460). -/
def lhMems (strict : Bool) : Bool → NMems → Bool
  | _, .nil => true
  | false, .short n l => simple strict (.id n) && lhMems strict false l
  | false, .shortInit n _ l => simple strict (.id n) && lhMems strict false l
  | false, .prop _ (.assi a _) l => checkLh strict a && lhMems strict false l
  | false, .prop _ v l => checkLh strict v && lhMems strict false l
  | false, .spread e l => checkLh strict e && lhMems strict true l
  | false, .method l => lhMems strict false l
  | true, _ => false
end

mutual
/-- `expr_to_binding` (rjs_parser.c:3069-3114); the name is refused at the end of the function by
`no_strict_list_pop` (943-981). -/
def conv (strict binding : Bool) : Node → Res Pat
  | .id n => if binding && strict && restricted n then .err else .ok (.leaf (.id n))
  | .member o => .ok (.leaf (.member o))
  | .pat p => .ok p
  | .arr l => (convItems strict binding none l).bind fun l => .ok (.arr l)
  | .obj l => (convMems strict binding l).bind fun l => .ok (.obj l)
  | _ => .err
/-- `array_to_binding` (rjs_parser.c:2942-3001). -/
def convItems (strict binding : Bool) : Option Bool → NItems → Res PItems
  | none, .nil => .ok .nil
  | some comma, .nil => if comma then .err else .ok .nil
  | none, .hole l => (convItems strict binding none l).bind fun l => .ok (.hole l)
  | none, .spread e comma l =>
    (conv strict binding e).bind fun p =>
    (convItems strict binding (some comma) l).bind fun l => .ok (.rest p l)
  | none, .item (.assi a r) l =>
    (conv strict binding a).bind fun p =>
    (convItems strict binding none l).bind fun l => .ok (.elemInit p r l)
  | none, .item e l =>
    (conv strict binding e).bind fun p =>
    (convItems strict binding none l).bind fun l => .ok (.elem p l)
  | some _, _ => .err
/-- `object_to_binding` (rjs_parser.c:3004-3066): names that stand alone are not checked, and neither is
what follows a rest property. -/
def convMems (strict binding : Bool) : NMems → Res PMems
  | .nil => .ok .nil
  | .short n l => (convMems strict binding l).bind fun l => .ok (.prop n (.leaf (.id n)) l)
  | .shortInit n e l => (convMems strict binding l).bind fun l => .ok (.propInit n (.leaf (.id n)) e l)
  | .prop k (.assi a r) l =>
    (conv strict binding a).bind fun p =>
    (convMems strict binding l).bind fun l => .ok (.propInit k p r l)
  | .prop k v l =>
    (conv strict binding v).bind fun p =>
    (convMems strict binding l).bind fun l => .ok (.prop k p l)
  | .spread e l =>
    (conv strict binding e).bind fun p =>
    (convMems strict binding l).bind fun l => .ok (.rest p l)
  | .method _ => .err
end

/-- `expr_to_lh` (rjs_parser.c:4389-4425). -/
def toLh (strict : Bool) (n : Node) : Res Node :=
  if checkLh strict n then
    match n with
    | .arr l => (convItems strict false none l).bind fun l => .ok (.pat (.arr l))
    | .obj l => (convMems strict false l).bind fun l => .ok (.pat (.obj l))
    | .paren e => toLh strict e
    | n => .ok n
  else .err

mutual
/-- `check_expr_ast` (rjs_parser.c:2144-2299): the left side of an assignment, patterns and functions
are not looked at. -/
def check : Node → Bool
  | .arr l => checkItems l
  | .obj l => checkMems l
  | .paren e => check e
  | .member o => check o
  | .op a b => check a && check b
  | .assi _ r => check r
  | _ => true
def checkItems : NItems → Bool
  | .nil => true
  | .hole l => checkItems l
  | .item e l => check e && checkItems l
  | .spread e _ l => check e && checkItems l
def checkMems : NMems → Bool
  | .nil => true
  | .short _ l => checkMems l
  | .shortInit _ _ _ => false
  | .prop _ v l => check v && checkMems l
  | .spread e l => check e && checkMems l
  | .method l => checkMems l
end

/-- The properties `__proto__: v` (rjs_parser.c:3567-3599). -/
def protos : NMems → Nat
  | .nil => 0
  | .short _ l => protos l
  | .shortInit _ _ l => protos l
  | .prop k _ l => (if k = kProto then 1 else 0) + protos l
  | .spread _ l => protos l
  | .method l => protos l

mutual
/-- Does `binding_param` (rjs_parser.c:1115-1154) end without `assert(0)`? -/
def paramOk : Pat → Bool
  | .leaf (.id _) => true
  | .leaf _ => false
  | .arr l => paramItems l
  | .obj l => paramMems l
/-- `binding_element_list_param` (rjs_parser.c:1157-1205). -/
def paramItems : PItems → Bool
  | .nil => true
  | .hole l => paramItems l
  | .elem p l => paramOk p && paramItems l
  | .elemInit p _ l => paramOk p && paramItems l
  | .rest p l => paramOk p && paramItems l
def paramMems : PMems → Bool
  | .nil => true
  | .prop _ p l => paramOk p && paramMems l
  | .propInit _ p _ l => paramOk p && paramMems l
  | .rest p l => paramOk p && paramMems l
end

/-- What is known of an argument before `=>`. -/
inductive NArgs where
  | nil
  | arg (e : Node) (l : NArgs)

/-- `args_to_params` (rjs_parser.c:3136-3187; without rest parameters, which `parse_binding` has read). -/
def toParams (strict : Bool) : NArgs → Res PItems
  | .nil => .ok .nil
  | .arg (.assi a r) l =>
    (conv strict true a).bind fun p =>
    (toParams strict l).bind fun l => .ok (.elemInit p r l)
  | .arg e l =>
    (conv strict true e).bind fun p =>
    (toParams strict l).bind fun l => .ok (.elem p l)

/-- Is it an array or object literal (rjs_parser.c:4442)? -/
def isLiteral : Node → Bool
  | .arr _ => true
  | .obj _ => true
  | _ => false

mutual
/-- The parser; `eq`: the next token is `=` (rjs_parser.c:3561-3562).
`parse_parentheses_or_params` (3192-3308), `parse_array_literal` (3311-3393), `parse_object_literal`
(3396-3608), `parse_assi_expr` (4428-4485), `parse_arrow_function` (4490-4580). -/
def build (strict : Bool) : Bool → S → Res Node
  | _, .id n => .ok (.id n)
  | _, .lit => .ok .lit
  | _, .member o => (build strict false o).bind fun o => .ok (.member o)
  | _, .op a b => (build strict false a).bind fun a => (build strict false b).bind fun b => .ok (.op a b)
  | _, .paren _ e => (build strict false e).bind fun e => .ok (.paren e)
  | _, .arr l => (buildItems strict l).bind fun l => .ok (.arr l)
  | eq, .obj l =>
    (buildMems strict l).bind fun l => if !eq && 1 < protos l then .err else .ok (.obj l)
  | _, .assi l r =>
    (build strict true l).bind fun a =>
    if isLiteral a || simple strict a then
      (toLh strict a).bind fun a =>
      (build strict false r).bind fun r => .ok (.assi a r)
    else .err
  | _, .arrow ps b =>
    (buildArgs strict ps).bind fun as =>
    (toParams strict as).bind fun ps =>
    if paramItems ps then
      (build strict false b).bind fun b => if check b then .ok (.arrow ps b) else .err
    else .crash
def buildItems (strict : Bool) : Items → Res NItems
  | .nil => .ok .nil
  | .hole l => (buildItems strict l).bind fun l => .ok (.hole l)
  | .item e l => (build strict false e).bind fun e => (buildItems strict l).bind fun l => .ok (.item e l)
  | .spread e comma l =>
    (build strict false e).bind fun e => (buildItems strict l).bind fun l => .ok (.spread e comma l)
def buildMems (strict : Bool) : Mems → Res NMems
  | .nil => .ok .nil
  | .short n l => (buildMems strict l).bind fun l => .ok (.short n l)
  | .shortInit n e l =>
    (build strict false e).bind fun e => (buildMems strict l).bind fun l => .ok (.shortInit n e l)
  | .prop k v l =>
    (build strict false v).bind fun v => (buildMems strict l).bind fun l => .ok (.prop k v l)
  | .spread e _ l =>
    (build strict false e).bind fun e => (buildMems strict l).bind fun l => .ok (.spread e l)
  | .method l => (buildMems strict l).bind fun l => .ok (.method l)
def buildArgs (strict : Bool) : Args → Res NArgs
  | .nil => .ok .nil
  | .arg e l => (build strict false e).bind fun e => (buildArgs strict l).bind fun l => .ok (.arg e l)
end

/-- An expression statement (the expression is read and then checked, rjs_parser.c:7270-7273). -/
def parse (strict : Bool) (s : S) : Res Node :=
  (build strict false s).bind fun n => if check n then .ok n else .err

end Verif.Cover

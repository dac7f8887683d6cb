/-
The parser of expressions (src/lib/rjs_parser.c:3193-3308, 3611-3753, 3813-4893,
4897-5703): one function for all priorities, with the priority of the operator
read last.

A text is a list of tokens, each with a mark that a line terminator stands in
front of it (`tok->location.first_line != parser->last_line`).

Simplifications: object and array literals (and so patterns), functions with
parenthesised parameters or a block as body written with `=>`, `async`
functions written with `=>`, and `import` are left out; function and class
expressions, templates, `new.target` are single tokens.  A text with `() =>` or
`(…) =>` is no text of the model (`bad`).  The list of a comma expression is
nested to the left.  A reported error (`parse_error`) ends the parsing: no text
with one is accepted.  Escaped key words, locations, where `super` and private
names may stand at all, and the lists for later checks (`no_strict_list`,
`contains_list`) are left out, except that `eval`, `arguments` and `yield` are
no parameters in strict mode.
-/

namespace Verif.Expr

/-- Binary operators; `in_` and `inst` are written as words. -/
inductive Bin where
  | add | sub | mul | div | mod | exp | lt | gt | le | ge | inst | in_ | eq | ne | seq | sne
  | shl | shr | ushr | band | bxor | bor | and | or | ques
  deriving DecidableEq, Repr

/-- Unary operators in front of their operand. -/
inductive Un where
  | plus | neg | rev | not | del | void | typeof | await | inc | dec
  deriving DecidableEq, Repr

/-- Tokens (`RJS_TokenType`; reserved words are identifiers with flags).
`lit t`: a string, regular expression, BigInt or a number other than 0 and 1,
with its truth value; `prim`: any other primary expression that is a single
token here; `id 0` is `undefined`, `id 1` `arguments`, `id 2` `eval`;
`assi 0` is `=`, `assi k` another assignment operator. -/
inductive TK where
  | lit (t : Bool) (n : Nat)
  | prim (n : Nat)
  | this | null | tru | fls
  | id (n : Nat)
  | templ (n : Nat)
  | priv (n : Nat)
  | new_ | super_ | delete_ | void_ | typeof_ | await_ | yield_
  | lpar | rpar | lbrack | rbrack | dot | quesDot | quest | colon | comma | dots | arrow
  | tilde | bang | incr | decr
  | assi (k : Nat)
  | op (o : Bin)
  | other (n : Nat)
  deriving DecidableEq, Repr

/-- A token, with the mark of a line terminator in front of it. -/
structure Tok where
  k : TK
  nl : Bool
  deriving DecidableEq, Repr

/-- The tree (`RJS_Ast`, src/lib/rjs_ast_internal.h).  `params`:
`RJS_AST_ArrowParams`; `hole`: no operand; `anil`, `acons`, `alast`: lists of
arguments, `alast` for `RJS_AST_LastElision`. -/
inductive E where
  | atom (k : TK)
  | id (k : TK)
  | privRef (n : Nat)
  | paren (e : E)
  | un (o : Un) (e : E)
  | post (inc : Bool) (e : E)
  | bin (o : Bin) (a b : E)
  | cond (c a b : E)
  | assign (k : Nat) (a b : E)
  | comma (a b : E)
  | call (f a : E)
  | newE (f a : E)
  | member (e : E) (k : TK)
  | index (e i : E)
  | privMember (e : E) (n : Nat)
  | tag (e : E) (k : TK)
  | superMember (k : TK)
  | superIndex (i : E)
  | superCall (a : E)
  | opt (e : E)
  | optBase (e : E)
  | arrowFn (k : TK) (b : E)
  | params (k : TK)
  | yield_ (star : Bool) (e : E)
  | hole
  | anil
  | acons (spread : Bool) (e r : E)
  | alast
  deriving DecidableEq, Repr

/-- `parser->flags`: `IN`, `YIELD`, `AWAIT`, `STRICT`. -/
structure Fl where
  inn : Bool
  yld : Bool
  awt : Bool
  strict : Bool
  deriving DecidableEq, Repr

/-- A result: out of fuel (never reached, see the theorems), a SyntaxError, or a
tree and the tokens left. -/
inductive R where
  | fuel
  | bad
  | ok (e : E) (r : List Tok)
  deriving DecidableEq, Repr

def R.bind : R → (E → List Tok → R) → R
  | .ok e r, k => k e r
  | .bad, _ => .bad
  | .fuel, _ => .fuel

/-- `Priority` (rjs_parser.c:60-83). -/
abbrev LOWEST : Nat := 0
abbrev COMMA : Nat := 1
abbrev ASSI : Nat := 2
abbrev COND : Nat := 3
abbrev QUES : Nat := 4
abbrev OR : Nat := 5
abbrev AND : Nat := 6
abbrev BOR : Nat := 7
abbrev BXOR : Nat := 8
abbrev BAND : Nat := 9
abbrev EQ : Nat := 10
abbrev REL : Nat := 11
abbrev SHIFT : Nat := 12
abbrev ADD : Nat := 13
abbrev MUL : Nat := 14
abbrev EXP : Nat := 15
abbrev UNARY : Nat := 16
abbrev UPDATE : Nat := 17
abbrev LH : Nat := 18
abbrev NEW : Nat := 19
abbrev MEMBER : Nat := 20
abbrev HIGHEST : Nat := 21

/-- The token is of type `RJS_TOKEN_IDENTIFIER`: names and all reserved words. -/
def isName : TK → Bool
  | .id _ | .this | .null | .tru | .fls | .new_ | .super_ | .delete_ | .void_ | .typeof_ | .await_
  | .yield_ | .op .in_ | .op .inst => true
  | _ => false

/-- Tokens that are an expression by themselves (rjs_parser.c:4909-4959,
5059-5066, 5085-5092). -/
def isAtom : TK → Bool
  | .lit _ _ | .prim _ | .this | .null | .tru | .fls | .templ _ => true
  | _ => false

/-- `is_identifier_reference` (rjs_parser.c:1680-1704) and `check_identifier_reference`
(rjs_parser.c:1994-2034). -/
def idRef (f : Fl) : TK → Bool
  | .id _ => true
  | .yield_ => !f.yld && !f.strict
  | .await_ => !f.awt
  | _ => false

/-- The names that may not be parameters in strict mode (`check_binding_identifier`,
1956-1963, with the check of the list at the function's end). -/
def badParam : TK → Bool
  | .id 1 | .id 2 | .yield_ => true
  | _ => false

/-- `check_simple_assi_target_internal` (rjs_parser.c:2088-2123). -/
def target (f : Fl) : E → Bool
  | .id k => !(f.strict && (k == .id 1 || k == .id 2))
  | .member _ _ | .index _ _ | .privMember _ _ | .superMember _ | .superIndex _ => true
  | .paren e => target f e
  | _ => false

/-- `check_delete_operand_internal` (rjs_parser.c:2038-2066). -/
def delOk (f : Fl) : E → Bool
  | .id _ | .privMember _ _ | .opt _ => !f.strict
  | .paren e => delOk f e
  | _ => true

/-- `expr_to_lh` (rjs_parser.c:4390-4425): parentheses around a target go. -/
def strip : E → E
  | .paren e => strip e
  | e => e

/-- The operators in front (rjs_parser.c:4975-5058, 5095-5115): the operator and its
priority. -/
def prefixOp (f : Fl) : TK → Option (Un × Nat)
  | .op .add => some (.plus, UNARY)
  | .op .sub => some (.neg, UNARY)
  | .tilde => some (.rev, UNARY)
  | .bang => some (.not, UNARY)
  | .incr => some (.inc, UPDATE)
  | .decr => some (.dec, UPDATE)
  | .delete_ => some (.del, UNARY)
  | .void_ => some (.void, UNARY)
  | .typeof_ => some (.typeof, UNARY)
  | .await_ => if f.awt then some (.await, UNARY) else none
  | _ => none

/-- The checks of the operand (rjs_parser.c:3890-3891, 5041-5042). -/
def unOk (f : Fl) : Un → E → Bool
  | .inc, e | .dec, e => target f e
  | .del, e => delOk f e
  | _, _ => true

/-- The rows of the loop's `switch` for binary operators (rjs_parser.c:5244-5450, 5614-5630):
the test of `last_prio`, the operator's priority, the right operand's. -/
def row : Bin → (Nat → Bool) × Nat × Nat
  | .add | .sub => (fun q => decide (ADD ≤ q), ADD, MUL)
  | .mul | .div | .mod => (fun q => decide (MUL ≤ q), MUL, EXP)
  | .exp => (fun q => decide (UPDATE ≤ q), EXP, EXP)
  | .lt | .gt | .le | .ge | .inst | .in_ => (fun q => decide (REL ≤ q), REL, SHIFT)
  | .eq | .ne | .seq | .sne => (fun q => decide (EQ ≤ q), EQ, REL)
  | .shl | .shr | .ushr => (fun q => decide (SHIFT ≤ q), SHIFT, ADD)
  | .band => (fun q => decide (BAND ≤ q), BAND, EQ)
  | .bxor => (fun q => decide (BXOR ≤ q), BXOR, BAND)
  | .bor => (fun q => decide (BOR ≤ q), BOR, BXOR)
  | .and => (fun q => decide (AND ≤ q), AND, BOR)
  | .or => (fun q => decide (OR ≤ q), OR, AND)
  | .ques => (fun q => decide (BOR ≤ q) || q == QUES, QUES, BOR)

/-- `in` is an operator only with the flag (rjs_parser.c:5622); otherwise it ends the
expression. -/
def isOp (f : Fl) (o : Bin) : Bool := o != .in_ || f.inn

/-- The truth value known for the left operand (rjs_parser.c:3956-3964). -/
def truth : E → Option Bool
  | .atom (.lit t _) => some t
  | .atom .tru => some true
  | .atom .fls => some false
  | .atom .null => some false
  | _ => none

/-- `parse_logic_and_expr`, `parse_logic_or_expr`, `parse_ques_expr` and
`parse_binary_expr` (rjs_parser.c:3920-4080) once the right operand is read: a constant left
operand is decided at once. -/
def mkBin : Bin → E → E → E
  | .and, a, b => match truth a with
    | some true => b
    | some false => a
    | none => .bin .and a b
  | .or, a, b => match truth a with
    | some true => a
    | some false => b
    | none => .bin .or a b
  | .ques, a, b => if a = .atom .null ∨ a = .id (.id 0) then b else .bin .ques a b
  | o, a, b => .bin o a b

/-- The end of `parse_cond_expr` (rjs_parser.c:4358-4380). -/
def mkCond (c a b : E) : E :=
  match truth c with
  | some true => a
  | some false => b
  | none => .cond c a b

/-- The tokens `parse_yield_expr` takes for the beginning of an operand
(rjs_parser.c:4110-4124); object and array literals are left out. -/
def opensOperand (k : TK) : Bool :=
  isName k || isAtom k || k == .op .add || k == .op .sub || k == .incr || k == .decr || k == .bang
    || k == .tilde || k == .lpar

/-- The next token is of a kind. -/
def headIs (k : TK) : List Tok → Bool
  | [] => false
  | t :: _ => t.k == k

/-- The next token and what is behind it; the end of the text is an error. -/
def uncons (ts : List Tok) (k : Tok → List Tok → R) : R :=
  match ts with
  | [] => .bad
  | u :: r => k u r

/-- The parameters if the tree is `RJS_AST_ArrowParams` (rjs_parser.c:4509-4527). -/
def paramsOf : E → Option TK
  | .params k => some k
  | _ => none

mutual

/-- `parse_expr_prio` (rjs_parser.c:4897-5681) up to the loop. -/
def expr : Nat → Fl → Nat → List Tok → R
  | 0, _, _, _ => .fuel
  | _ + 1, _, _, [] => .bad
  | n + 1, f, p, t :: ts =>
    if isAtom t.k then loop n f p HIGHEST (.atom t.k) ts
    else match prefixOp f t.k with
    | some (o, l) =>
      if l < p then .bad
      else (expr n f UNARY ts).bind fun e r =>
        if unOk f o e then loop n f p l (.un o e) r else .bad
    | none =>
      match t.k with
      | .priv m =>
        if f.inn && headIs (.op .in_) ts && decide (p ≤ REL) then loop n f p HIGHEST (.privRef m) ts
        else .bad
      | .lpar => (parens n f none ts).bind fun e r =>
          if decide (p ≤ ASSI) && headIs .arrow r then .bad else loop n f p HIGHEST (.paren e) r
      | .super_ =>
        if LH < p then .bad
        else (superX n f ts).bind fun e r => loop n f p LH e r
      | .new_ =>
        if NEW < p then .bad
        else (newX n f ts).bind fun e r => loop n f p NEW e r
      | k =>
        if k == .yield_ && f.yld && decide (p ≤ ASSI) then
          (yieldX n f ts).bind fun e r => loop n f p ASSI e r
        else if decide (p ≤ ASSI) && headIs .arrow ts then
          if idRef f k && !(f.strict && badParam k) then loop n f p HIGHEST (.params k) ts else .bad
        else if idRef f k then loop n f p HIGHEST (.id k) ts
        else .bad

/-- The loop of `parse_expr_prio` (rjs_parser.c:5186-5672); `q` is `last_prio`. -/
def loop : Nat → Fl → Nat → Nat → E → List Tok → R
  | 0, _, _, _, _, _ => .fuel
  | _ + 1, _, _, _, e, [] => .ok e []
  | n + 1, f, p, q, e, t :: ts =>
    match t.k with
    | .dot =>
      if q < LH then .ok e (t :: ts)
      else uncons ts fun u r =>
        if isName u.k then loop n f p LH (.member e u.k) r
        else match u.k with
          | .priv m => loop n f p LH (.privMember e m) r
          | _ => .bad
    | .lbrack =>
      if q < LH then .ok e (t :: ts)
      else (indexX n f ts).bind fun i r => loop n f p LH (.index e i) r
    | .lpar =>
      if q < LH || LH < p then .ok e (t :: ts)
      else (argsX n f false ts).bind fun a r => loop n f p LH (.call e a) r
    | .templ m =>
      if q < LH then .ok e (t :: ts)
      else loop n f p LH (.tag e (.templ m)) ts
    | .quesDot =>
      if q < LH then .ok e (t :: ts)
      else (chain n f (.optBase e) ts).bind fun c r => loop n f p LH (.opt c) r
    | .op o =>
      if !(isOp f o) then .ok e (t :: ts)
      else if !((row o).1 q) || (row o).2.1 < p then .ok e (t :: ts)
      else (expr n f (row o).2.2 ts).bind fun b r => loop n f p (row o).2.1 (mkBin o e b) r
    | .quest =>
      if q < QUES || COND < p then .ok e (t :: ts)
      else (expr n { f with inn := true } ASSI ts).bind fun a r =>
        uncons r fun u r' =>
          if u.k = .colon then (expr n f ASSI r').bind fun b r'' => loop n f p COND (mkCond e a b) r''
          else .bad
    | .assi k =>
      if q < LH || ASSI < p then .ok e (t :: ts)
      else if target f e then
        (expr n f ASSI ts).bind fun b r =>
          loop n f p ASSI (.assign k (if k = 0 then strip e else e) b) r
      else .bad
    | .comma =>
      if COMMA ≤ p then .ok e (t :: ts)
      else (expr n f ASSI ts).bind fun b r => loop n f p COMMA (.comma e b) r
    | .incr =>
      if t.nl || q < LH || UPDATE < p then .ok e (t :: ts)
      else if target f e then loop n f p UPDATE (.post true e) ts else .bad
    | .decr =>
      if t.nl || q < LH || UPDATE < p then .ok e (t :: ts)
      else if target f e then loop n f p UPDATE (.post false e) ts else .bad
    | .arrow =>
      if t.nl || ASSI < p then .ok e (t :: ts)
      else match paramsOf e with
        | some k => (expr n { f with yld := false, awt := false } ASSI ts).bind fun b r =>
            loop n f p ASSI (.arrowFn k b) r
        | none => .bad
    | _ => .ok e (t :: ts)

/-- `parse_expr_in` and the `]` behind it (rjs_parser.c:4324-4328, 3718-3721). -/
def indexX : Nat → Fl → List Tok → R
  | 0, _, _ => .fuel
  | n + 1, f, ts =>
    (expr n { f with inn := true } LOWEST ts).bind fun i r =>
      uncons r fun u r' => if u.k = .rbrack then .ok i r' else .bad

/-- `parse_arguments` (rjs_parser.c:3612-3676) behind the `(`; `h` is `has_arg`. -/
def argsX : Nat → Fl → Bool → List Tok → R
  | 0, _, _, _ => .fuel
  | n + 1, f, h, ts =>
    if headIs .rpar ts then .ok (if h then .alast else .anil) ts.tail
    else
      (expr n { f with inn := true } ASSI (if headIs .dots ts then ts.tail else ts)).bind fun e r =>
        uncons r fun u r' =>
          if u.k = .rpar then .ok (.acons (headIs .dots ts) e .anil) r'
          else if u.k = .comma then
            (argsX n f true r').bind fun a r'' => .ok (.acons (headIs .dots ts) e a) r''
          else .bad

/-- `parse_parentheses_or_params` (rjs_parser.c:3193-3308) behind the `(`; `acc` is what the
comma expression holds so far. -/
def parens : Nat → Fl → Option E → List Tok → R
  | 0, _, _, _ => .fuel
  | n + 1, f, acc, ts =>
    if headIs .rpar ts then acc.elim .bad fun e => .ok e ts.tail
    else
      (expr n { f with inn := true } ASSI ts).bind fun e r =>
        uncons r fun u r' =>
          if u.k = .rpar then .ok ((acc.map fun a => E.comma a e).getD e) r'
          else if u.k = .comma then parens n f (some ((acc.map fun a => E.comma a e).getD e)) r'
          else .bad

/-- `parse_new_expr` (rjs_parser.c:3815-3874) behind `new`. -/
def newX : Nat → Fl → List Tok → R
  | 0, _, _ => .fuel
  | n + 1, f, ts =>
    if headIs .new_ ts then (expr n f NEW ts).bind fun e r => .ok (.newE e .anil) r
    else (expr n f MEMBER ts).bind fun e r =>
      if headIs .lpar r then (argsX n f false r.tail).bind fun a r' => .ok (.newE e a) r'
      else .ok (.newE e .anil) r

/-- `parse_super_expr` (rjs_parser.c:3680-3753) behind `super`. -/
def superX : Nat → Fl → List Tok → R
  | 0, _, _ => .fuel
  | _ + 1, _, [] => .bad
  | n + 1, f, t :: ts =>
    if t.k = .dot then
      uncons ts fun u r => if isName u.k then .ok (.superMember u.k) r else .bad
    else if t.k = .lbrack then (indexX n f ts).bind fun i r => .ok (.superIndex i) r
    else if t.k = .lpar then (argsX n f false ts).bind fun a r => .ok (.superCall a) r
    else .bad

/-- `parse_yield_expr` (rjs_parser.c:4086-4150) behind `yield`. -/
def yieldX : Nat → Fl → List Tok → R
  | 0, _, _ => .fuel
  | _ + 1, _, [] => .ok (.yield_ false .hole) []
  | n + 1, f, t :: ts =>
    if t.nl then .ok (.yield_ false .hole) (t :: ts)
    else if t.k = .op .mul then (expr n f ASSI ts).bind fun e r => .ok (.yield_ true e) r
    else if opensOperand t.k then (expr n f ASSI (t :: ts)).bind fun e r => .ok (.yield_ false e) r
    else .ok (.yield_ false .hole) (t :: ts)

/-- `parse_opt_expr` (rjs_parser.c:4799-4893), one turn: the part behind `?.` or inside the
chain; `b` is `left`. -/
def chain : Nat → Fl → E → List Tok → R
  | 0, _, _, _ => .fuel
  | _ + 1, _, _, [] => .bad
  | n + 1, f, b, t :: ts =>
    if t.k = .lpar then (argsX n f false ts).bind fun a r => more n f (.call b a) r
    else if t.k = .lbrack then (indexX n f ts).bind fun i r => more n f (.index b i) r
    else if isName t.k then more n f (.member b t.k) ts
    else match t.k with
      | .priv m => more n f (.privMember b m) ts
      | _ => .bad

/-- The end of a turn (rjs_parser.c:4870-4885): whether the chain goes on. -/
def more : Nat → Fl → E → List Tok → R
  | 0, _, _, _ => .fuel
  | _ + 1, _, b, [] => .ok b []
  | n + 1, f, b, t :: ts =>
    match t.k with
    | .dot => chain n f b ts
    | .lpar | .lbrack | .templ _ => chain n f b (t :: ts)
    | _ => .ok b (t :: ts)

end

/-- Enough fuel for a text. -/
def enough (ts : List Tok) : Nat := 4 * ts.length + 8

/-- `parse_expr_in` (rjs_parser.c:5707-5710) and `parse_expr` (rjs_parser.c:5685-5688): the expression at
the beginning of a text. -/
def parse (f : Fl) (ts : List Tok) : R := expr (enough ts) f LOWEST ts

end Verif.Expr

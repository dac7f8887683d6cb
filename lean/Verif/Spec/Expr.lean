import Verif.Model.Expr

/-
The grammar of expressions of the standard (ECMA-262, 13.2 - 13.16, 15.3, 15.5),
as derivations: `G d f nt u e` says that the tokens `u` are derived from the
non-terminal `nt` with the parameters `f` ([In], [Yield], [Await], and strict
mode for the early errors) and have the tree `e`.  Only tokens and trees are
shared with the model.
-/

namespace Verif.Expr

/-- The non-terminals, in the order of the standard; `callee` is the
MemberExpression behind `new`; `chain b` is OptionalChain applied to `b`;
`alist h` is what stands behind `(` in Arguments (`h`: behind a comma). -/
inductive NT where
  | primary | member | callee | newX | call | args | alist (h : Bool) | chain (b : E) | optional | lhs
  | update | unary | exp | mul | add | shift | rel | eq | band | bxor | bor | and | or
  | coal | short | cond | assign | expr
  deriving DecidableEq, Repr

/-- Two switches.  `loose`: with the productions the parser takes beyond the
standard's; `tight`: without those it does not take.  The standard is
`⟨false, false⟩`. -/
structure Dial where
  loose : Bool
  tight : Bool
  deriving DecidableEq, Repr

/-- Productions with a single non-terminal on the right. -/
def Unit : NT → NT → Bool
  | .member, .primary | .callee, .member | .newX, .member | .lhs, .newX | .lhs, .call | .lhs, .optional
  | .update, .lhs | .unary, .update | .exp, .unary | .mul, .exp | .add, .mul | .shift, .add
  | .rel, .shift | .eq, .rel | .band, .eq | .bxor, .band | .bor, .bxor | .and, .bor | .or, .and
  | .short, .or | .short, .coal | .cond, .short | .assign, .cond | .expr, .assign => true
  | _, _ => false

/-- The binary operators: the non-terminals of the whole, of the left and of the
right operand.  (`??`: CoalesceExpressionHead is CoalesceExpression or
BitwiseORExpression, so there are two rows.) -/
inductive Row : Bin → NT → NT → NT → Prop
  | exp : Row .exp .exp .update .exp
  | mul : Row .mul .mul .mul .exp
  | div : Row .div .mul .mul .exp
  | mod : Row .mod .mul .mul .exp
  | add : Row .add .add .add .mul
  | sub : Row .sub .add .add .mul
  | shl : Row .shl .shift .shift .add
  | shr : Row .shr .shift .shift .add
  | ushr : Row .ushr .shift .shift .add
  | lt : Row .lt .rel .rel .shift
  | gt : Row .gt .rel .rel .shift
  | le : Row .le .rel .rel .shift
  | ge : Row .ge .rel .rel .shift
  | inst : Row .inst .rel .rel .shift
  | in_ : Row .in_ .rel .rel .shift
  | eq : Row .eq .eq .eq .rel
  | ne : Row .ne .eq .eq .rel
  | seq : Row .seq .eq .eq .rel
  | sne : Row .sne .eq .eq .rel
  | band : Row .band .band .band .eq
  | bxor : Row .bxor .bxor .bxor .band
  | bor : Row .bor .bor .bor .bxor
  | and : Row .and .and .and .bor
  | or : Row .or .or .or .and
  | coal1 : Row .ques .coal .bor .bor
  | coal2 : Row .ques .coal .coal .bor

/-- The operators in front of a UnaryExpression. -/
inductive Pre : Fl → TK → Un → NT → Prop
  | plus (f : Fl) : Pre f (.op .add) .plus .unary
  | neg (f : Fl) : Pre f (.op .sub) .neg .unary
  | rev (f : Fl) : Pre f .tilde .rev .unary
  | not (f : Fl) : Pre f .bang .not .unary
  | del (f : Fl) : Pre f .delete_ .del .unary
  | void (f : Fl) : Pre f .void_ .void .unary
  | typeof (f : Fl) : Pre f .typeof_ .typeof .unary
  | await (f : Fl) : f.awt = true → Pre f .await_ .await .unary
  | inc (f : Fl) : Pre f .incr .inc .update
  | dec (f : Fl) : Pre f .decr .dec .update

/-- Literals, `this`, function and class expressions, templates. -/
inductive Atomic : TK → Prop
  | lit (t : Bool) (n : Nat) : Atomic (.lit t n)
  | prim (n : Nat) : Atomic (.prim n)
  | this : Atomic .this
  | null : Atomic .null
  | tru : Atomic .tru
  | fls : Atomic .fls
  | templ (n : Nat) : Atomic (.templ n)

/-- IdentifierName: any word. -/
inductive Word : TK → Prop
  | id (n : Nat) : Word (.id n)
  | this : Word .this
  | null : Word .null
  | tru : Word .tru
  | fls : Word .fls
  | new : Word .new_
  | super : Word .super_
  | delete : Word .delete_
  | void : Word .void_
  | typeof : Word .typeof_
  | await : Word .await_
  | yield : Word .yield_
  | in_ : Word (.op .in_)
  | inst : Word (.op .inst)

/-- IdentifierReference (13.1, with the early error for `yield` in strict mode). -/
inductive IdRef (f : Fl) : TK → Prop
  | id (n : Nat) : IdRef f (.id n)
  | yield : f.yld = false → f.strict = false → IdRef f .yield_
  | await : f.awt = false → IdRef f .await_

/-- BindingIdentifier as a parameter: in strict mode neither `arguments` nor
`eval`. -/
def BindId (f : Fl) (k : TK) : Prop := IdRef f k ∧ (f.strict = true → k ≠ .id 1 ∧ k ≠ .id 2)

/-- AssignmentTargetType is simple (13.2 - 13.3, 8.6.4). -/
inductive Simple (f : Fl) : E → Prop
  | id {k : TK} : (f.strict = true → k ≠ .id 1 ∧ k ≠ .id 2) → Simple f (.id k)
  | member (e : E) (k : TK) : Simple f (.member e k)
  | index (e i : E) : Simple f (.index e i)
  | priv (e : E) (n : Nat) : Simple f (.privMember e n)
  | superMember (k : TK) : Simple f (.superMember k)
  | superIndex (i : E) : Simple f (.superIndex i)
  | paren {e : E} : Simple f e → Simple f (.paren e)

/-- What `delete` may not have as its operand in strict mode (13.5.1.1): a name, a
private member, also at the end of an optional chain, also in parentheses. -/
inductive NoDelete : E → Prop
  | id (k : TK) : NoDelete (.id k)
  | priv (e : E) (n : Nat) : NoDelete (.privMember e n)
  | optPriv (e : E) (n : Nat) : NoDelete (.opt (.privMember e n))
  | paren {e : E} : NoDelete e → NoDelete (.paren e)

/-- What the parser does not take although the standard does: any optional
chain. -/
inductive NoDeleteOpt : E → Prop
  | opt (e : E) : NoDeleteOpt (.opt e)
  | paren {e : E} : NoDeleteOpt e → NoDeleteOpt (.paren e)

/-- The rules for the operand of an operator in front. -/
def PreOk (d : Dial) (f : Fl) : Un → E → Prop
  | .inc, e => Simple f e
  | .dec, e => Simple f e
  | .del, e => f.strict = true → ¬ NoDelete e ∧ (d.tight = true → ¬ NoDeleteOpt e)
  | _, _ => True

/-- A target without the parentheses around it. -/
def bare : E → E
  | .paren e => bare e
  | e => e

/-- The left side of an assignment in the tree: `=` has its target without the
parentheses, which mean nothing for it. -/
def lhsTree (k : Nat) (e : E) : E := if k = 0 then bare e else e

/-- The kind of a text's first token. -/
def first (u : List Tok) : Option TK := u.head?.map (·.k)

/-- The productions. -/
inductive G (d : Dial) : Fl → NT → List Tok → E → Prop
  | unit {f : Fl} {a b : NT} {u : List Tok} {e : E} : Unit a b = true → G d f b u e → G d f a u e
  -- PrimaryExpression
  | atom {f : Fl} {k : TK} {n : Bool} : Atomic k → G d f .primary [⟨k, n⟩] (.atom k)
  | ident {f : Fl} {k : TK} {n : Bool} : IdRef f k → G d f .primary [⟨k, n⟩] (.id k)
  | paren {f : Fl} {u : List Tok} {e : E} {n m : Bool} : G d { f with inn := true } .expr u e →
      G d f .primary (⟨.lpar, n⟩ :: u ++ [⟨.rpar, m⟩]) (.paren e)
  | parenComma {f : Fl} {u : List Tok} {e : E} {n m l : Bool} : d.loose = true →
      G d { f with inn := true } .expr u e →
      G d f .primary (⟨.lpar, n⟩ :: u ++ [⟨.comma, l⟩, ⟨.rpar, m⟩]) (.paren e)
  -- MemberExpression and CallExpression
  | dot {f : Fl} {nt : NT} {u : List Tok} {e : E} {k : TK} {n m : Bool} : nt = .member ∨ nt = .call →
      G d f nt u e → Word k → G d f nt (u ++ [⟨.dot, n⟩, ⟨k, m⟩]) (.member e k)
  | dotPriv {f : Fl} {nt : NT} {u : List Tok} {e : E} {k : Nat} {n m : Bool} :
      nt = .member ∨ nt = .call →
      G d f nt u e → G d f nt (u ++ [⟨.dot, n⟩, ⟨.priv k, m⟩]) (.privMember e k)
  | index {f : Fl} {nt : NT} {u v : List Tok} {e i : E} {n m : Bool} : nt = .member ∨ nt = .call →
      G d f nt u e → G d { f with inn := true } .expr v i →
      G d f nt (u ++ ⟨.lbrack, n⟩ :: v ++ [⟨.rbrack, m⟩]) (.index e i)
  | tag {f : Fl} {nt : NT} {u : List Tok} {e : E} {k : Nat} {n : Bool} : nt = .member ∨ nt = .call →
      G d f nt u e → G d f nt (u ++ [⟨.templ k, n⟩]) (.tag e (.templ k))
  | superDot {f : Fl} {k : TK} {n m l : Bool} : Word k →
      G d f .member [⟨.super_, n⟩, ⟨.dot, m⟩, ⟨k, l⟩] (.superMember k)
  | superIndex {f : Fl} {v : List Tok} {i : E} {n m l : Bool} :
      G d { f with inn := true } .expr v i →
      G d f .member (⟨.super_, n⟩ :: ⟨.lbrack, m⟩ :: v ++ [⟨.rbrack, l⟩]) (.superIndex i)
  | newArgs {f : Fl} {u v : List Tok} {e a : E} {n : Bool} :
      (d.tight = true → first u ≠ some .new_ ∧ first u ≠ some .super_) →
      G d f .callee u e → G d f .args v a → G d f .member (⟨.new_, n⟩ :: u ++ v) (.newE e a)
  | newBare {f : Fl} {u : List Tok} {e : E} {n : Bool} :
      (d.tight = true → first u ≠ some .new_ ∧ first u ≠ some .super_) →
      G d f .callee u e → G d f .newX (⟨.new_, n⟩ :: u) (.newE e .anil)
  | newNew {f : Fl} {u : List Tok} {e : E} {n : Bool} : d.tight = false →
      G d f .newX u e → G d f .newX (⟨.new_, n⟩ :: u) (.newE e .anil)
  | newNewMember {f : Fl} {nt : NT} {u : List Tok} {e : E} {n : Bool} : d.loose = true →
      first u = some .new_ → nt = .newX ∨ nt = .callee →
      G d f nt u e → G d f .member (⟨.new_, n⟩ :: u) (.newE e .anil)
  | newOpt {f : Fl} {u v : List Tok} {e c : E} {n : Bool} : d.loose = true →
      G d f .callee u e → G d f (.chain (.optBase e)) v c →
      G d f .callee (u ++ ⟨.quesDot, n⟩ :: v) (.opt c)
  | call {f : Fl} {nt : NT} {u v : List Tok} {e a : E} : nt = .member ∨ nt = .call →
      G d f nt u e → G d f .args v a → G d f .call (u ++ v) (.call e a)
  | superCall {f : Fl} {v : List Tok} {a : E} {n : Bool} : G d f .args v a →
      G d f .call (⟨.super_, n⟩ :: v) (.superCall a)
  -- Arguments
  | args {f : Fl} {v : List Tok} {a : E} {n : Bool} : G d f (.alist false) v a →
      G d f .args (⟨.lpar, n⟩ :: v) a
  | alistEnd {f : Fl} {h n : Bool} : G d f (.alist h) [⟨.rpar, n⟩] (if h then .alast else .anil)
  | alistLast {f : Fl} {h n : Bool} {u : List Tok} {e : E} : G d { f with inn := true } .assign u e →
      G d f (.alist h) (u ++ [⟨.rpar, n⟩]) (.acons false e .anil)
  | alistLastSpread {f : Fl} {h n m : Bool} {u : List Tok} {e : E} :
      G d { f with inn := true } .assign u e →
      G d f (.alist h) (⟨.dots, m⟩ :: u ++ [⟨.rpar, n⟩]) (.acons true e .anil)
  | alistMore {f : Fl} {h n : Bool} {u v : List Tok} {e a : E} :
      G d { f with inn := true } .assign u e → G d f (.alist true) v a →
      G d f (.alist h) (u ++ ⟨.comma, n⟩ :: v) (.acons false e a)
  | alistMoreSpread {f : Fl} {h n m : Bool} {u v : List Tok} {e a : E} :
      G d { f with inn := true } .assign u e → G d f (.alist true) v a →
      G d f (.alist h) (⟨.dots, m⟩ :: u ++ ⟨.comma, n⟩ :: v) (.acons true e a)
  -- OptionalExpression
  | opt {f : Fl} {nt : NT} {u v : List Tok} {e c : E} {n : Bool} :
      nt = .member ∨ nt = .call ∨ nt = .optional →
      G d f nt u e → G d f (.chain (.optBase e)) v c →
      G d f .optional (u ++ ⟨.quesDot, n⟩ :: v) (.opt c)
  | chArgs {f : Fl} {b a : E} {v : List Tok} : G d f .args v a → G d f (.chain b) v (.call b a)
  | chIndex {f : Fl} {b i : E} {v : List Tok} {n m : Bool} : G d { f with inn := true } .expr v i →
      G d f (.chain b) (⟨.lbrack, n⟩ :: v ++ [⟨.rbrack, m⟩]) (.index b i)
  | chName {f : Fl} {b : E} {k : TK} {n : Bool} : Word k → G d f (.chain b) [⟨k, n⟩] (.member b k)
  | chPriv {f : Fl} {b : E} {k : Nat} {n : Bool} : G d f (.chain b) [⟨.priv k, n⟩] (.privMember b k)
  | chMoreArgs {f : Fl} {b c a : E} {u v : List Tok} : G d f (.chain b) u c → G d f .args v a →
      G d f (.chain b) (u ++ v) (.call c a)
  | chMoreIndex {f : Fl} {b c i : E} {u v : List Tok} {n m : Bool} : G d f (.chain b) u c →
      G d { f with inn := true } .expr v i →
      G d f (.chain b) (u ++ ⟨.lbrack, n⟩ :: v ++ [⟨.rbrack, m⟩]) (.index c i)
  | chMoreName {f : Fl} {b c : E} {u : List Tok} {k : TK} {n m : Bool} : G d f (.chain b) u c →
      Word k → G d f (.chain b) (u ++ [⟨.dot, n⟩, ⟨k, m⟩]) (.member c k)
  | chMorePriv {f : Fl} {b c : E} {u : List Tok} {k : Nat} {n m : Bool} : G d f (.chain b) u c →
      G d f (.chain b) (u ++ [⟨.dot, n⟩, ⟨.priv k, m⟩]) (.privMember c k)
  | chDotArgs {f : Fl} {b c a : E} {u v : List Tok} {n : Bool} : d.loose = true →
      G d f (.chain b) u c → G d f .args v a →
      G d f (.chain b) (u ++ ⟨.dot, n⟩ :: v) (.call c a)
  | chDotIndex {f : Fl} {b c i : E} {u v : List Tok} {n m l : Bool} : d.loose = true →
      G d f (.chain b) u c → G d { f with inn := true } .expr v i →
      G d f (.chain b) (u ++ ⟨.dot, l⟩ :: ⟨.lbrack, n⟩ :: v ++ [⟨.rbrack, m⟩]) (.index c i)
  -- UpdateExpression, UnaryExpression
  | post {f : Fl} {u : List Tok} {e : E} {i : Bool} : G d f .lhs u e → Simple f e →
      G d f .update (u ++ [⟨if i then .incr else .decr, false⟩]) (.post i e)
  | pre {f : Fl} {u : List Tok} {e : E} {k : TK} {o : Un} {nt : NT} {n : Bool} : Pre f k o nt →
      G d f .unary u e → PreOk d f o e → G d f nt (⟨k, n⟩ :: u) (.un o e)
  -- binary operators
  | bin {f : Fl} {u v : List Tok} {a b : E} {o : Bin} {nt l r : NT} {n : Bool} : Row o nt l r →
      (o = .in_ → f.inn = true) → G d f l u a → G d f r v b →
      G d f nt (u ++ ⟨.op o, n⟩ :: v) (.bin o a b)
  | privIn {f : Fl} {v : List Tok} {b : E} {k : Nat} {n m : Bool} : f.inn = true → G d f .shift v b →
      G d f .rel (⟨.priv k, n⟩ :: ⟨.op .in_, m⟩ :: v) (.bin .in_ (.privRef k) b)
  -- ConditionalExpression
  | cond {f : Fl} {u v w : List Tok} {c a b : E} {n m : Bool} : G d f .short u c →
      G d { f with inn := true } .assign v a → G d f .assign w b →
      G d f .cond (u ++ ⟨.quest, n⟩ :: v ++ ⟨.colon, m⟩ :: w) (.cond c a b)
  -- AssignmentExpression
  | assign {f : Fl} {u v : List Tok} {a b : E} {k : Nat} {n : Bool} : G d f .lhs u a → Simple f a →
      G d f .assign v b → G d f .assign (u ++ ⟨.assi k, n⟩ :: v) (.assign k (lhsTree k a) b)
  | arrow {f : Fl} {v : List Tok} {b : E} {k : TK} {n : Bool} : BindId f k →
      G d { f with yld := false, awt := false } .assign v b →
      G d f .assign (⟨k, n⟩ :: ⟨.arrow, false⟩ :: v) (.arrowFn k b)
  | yield {f : Fl} {n : Bool} : f.yld = true → G d f .assign [⟨.yield_, n⟩] (.yield_ false .hole)
  | yieldE {f : Fl} {v : List Tok} {e : E} {n : Bool} {t : Tok} : f.yld = true → t.nl = false →
      (d.tight = true → ∀ k, t.k ≠ .priv k) →
      G d f .assign (t :: v) e → G d f .assign (⟨.yield_, n⟩ :: t :: v) (.yield_ false e)
  | yieldStar {f : Fl} {v : List Tok} {e : E} {n : Bool} : f.yld = true → G d f .assign v e →
      G d f .assign (⟨.yield_, n⟩ :: ⟨.op .mul, false⟩ :: v) (.yield_ true e)
  -- Expression
  | comma {f : Fl} {u v : List Tok} {a b : E} {n : Bool} : G d f .expr u a → G d f .assign v b →
      G d f .expr (u ++ ⟨.comma, n⟩ :: v) (.comma a b)

/-- The grammar of the standard. -/
abbrev Std : Dial := ⟨false, false⟩

/-- The standard's grammar without the texts the parser does not take as the
standard says. -/
abbrev Sub : Dial := ⟨false, true⟩

/-- The standard's grammar with what the parser takes beyond it. -/
abbrev Super : Dial := ⟨true, true⟩

/-- What may stand behind an expression without belonging to it: the end, a
closing bracket, `:`, a token that is part of no expression, or, on a new line, a
token that can only begin another one. -/
inductive Ends : Option Tok → Prop
  | eof : Ends none
  | close {t : Tok} : t.k = .rpar ∨ t.k = .rbrack ∨ t.k = .colon ∨ t.k = .dots ∨ (∃ n, t.k = .other n) →
      Ends (some t)
  | word {t : Tok} : t.nl = true → Word t.k → t.k ≠ .op .in_ → t.k ≠ .op .inst → Ends (some t)
  | atom {t : Tok} : t.nl = true → Atomic t.k → (∀ n, t.k ≠ .templ n) → Ends (some t)
  | sign {t : Tok} : t.nl = true →
      t.k = .incr ∨ t.k = .decr ∨ t.k = .bang ∨ t.k = .tilde ∨ (∃ n, t.k = .priv n) → Ends (some t)

/-- No two neighbours for which the parser decides at once: a literal in front of
`&&`, `||`, `??` or `?`, and `undefined` in front of `??`. -/
def NoFold : List Tok → Prop
  | a :: b :: r =>
    ((∃ t n, a.k = .lit t n) ∨ a.k = .tru ∨ a.k = .fls ∨ a.k = .null →
        b.k ≠ .op .and ∧ b.k ≠ .op .or ∧ b.k ≠ .op .ques ∧ b.k ≠ .quest)
    ∧ (a.k = .id 0 → b.k ≠ .op .ques) ∧ NoFold (b :: r)
  | _ => True

/-- Two kinds that stand side by side somewhere. -/
def Beside (u : List Tok) (a b : TK → Prop) : Prop :=
  ∃ x s t y, u = x ++ s :: t :: y ∧ a s.k ∧ b t.k

def Has (u : List Tok) (k : TK) : Prop := ∃ t ∈ u, t.k = k

/-- A text without what the parser refuses or reads in its own way: `new` in front
of `new` or `super`, `yield` in front of a private name, and in strict mode
`delete` together with `?.`. -/
structure Plain (f : Fl) (u : List Tok) : Prop where
  new : ¬ Beside u (· = .new_) (fun k => k = .new_ ∨ k = .super_)
  yield : ¬ Beside u (· = .yield_) (fun k => ∃ n, k = .priv n)
  del : f.strict = true → Has u .delete_ → ¬ Has u .quesDot

/-- A text without what the parser takes beyond the standard: `,` in front of `)`,
`.` in front of `(` or `[`, `new` in front of `new` and `new` together with
`?.`. -/
structure Careful (u : List Tok) : Prop where
  comma : ¬ Beside u (· = .comma) (· = .rpar)
  dot : ¬ Beside u (· = .dot) (fun k => k = .lpar ∨ k = .lbrack)
  new : ¬ Beside u (· = .new_) (· = .new_)
  opt : Has u .new_ → ¬ Has u .quesDot

/-- A text with its constants exchanged for others about which the parser decides
nothing. -/
def calm : TK → TK
  | .lit _ n => .prim n
  | .null | .tru | .fls => .this
  | .id 0 => .id 3
  | k => k

def calmT (u : List Tok) : List Tok := u.map fun t => ⟨calm t.k, t.nl⟩

/-- The same in a tree. -/
def calmE : E → E
  | .atom k => .atom (calm k)
  | .id k => .id (calm k)
  | .paren e => .paren (calmE e)
  | .un o e => .un o (calmE e)
  | .post i e => .post i (calmE e)
  | .bin o a b => .bin o (calmE a) (calmE b)
  | .cond c a b => .cond (calmE c) (calmE a) (calmE b)
  | .assign k a b => .assign k (calmE a) (calmE b)
  | .comma a b => .comma (calmE a) (calmE b)
  | .call f a => .call (calmE f) (calmE a)
  | .newE f a => .newE (calmE f) (calmE a)
  | .member e k => .member (calmE e) (calm k)
  | .index e i => .index (calmE e) (calmE i)
  | .privMember e n => .privMember (calmE e) n
  | .tag e k => .tag (calmE e) (calm k)
  | .superMember k => .superMember (calm k)
  | .superIndex i => .superIndex (calmE i)
  | .superCall a => .superCall (calmE a)
  | .opt e => .opt (calmE e)
  | .optBase e => .optBase (calmE e)
  | .arrowFn k b => .arrowFn (calm k) (calmE b)
  | .yield_ s e => .yield_ s (calmE e)
  | .acons s e r => .acons s (calmE e) (calmE r)
  | e => e

/-- A meaning of trees, as far as constants, the logical operators and `?:` go (ECMA-262, 13.2.3,
13.13, 13.14): a tree changes a state and gives a value or throws (`none`). -/
structure Meaning (V S : Type) where
  ev : E → S → Option V × S
  truthy : V → Bool
  nullish : V → Bool
  lit : ∀ t n s, ∃ v, ev (.atom (.lit t n)) s = (some v, s) ∧ truthy v = t
  tru : ∀ s, ∃ v, ev (.atom .tru) s = (some v, s) ∧ truthy v = true
  fls : ∀ s, ∃ v, ev (.atom .fls) s = (some v, s) ∧ truthy v = false
  null : ∀ s, ∃ v, ev (.atom .null) s = (some v, s) ∧ truthy v = false ∧ nullish v = true
  and : ∀ a b s, ev (.bin .and a b) s =
    match ev a s with
    | (none, s) => (none, s)
    | (some v, s) => if truthy v then ev b s else (some v, s)
  or : ∀ a b s, ev (.bin .or a b) s =
    match ev a s with
    | (none, s) => (none, s)
    | (some v, s) => if truthy v then (some v, s) else ev b s
  ques : ∀ a b s, ev (.bin .ques a b) s =
    match ev a s with
    | (none, s) => (none, s)
    | (some v, s) => if nullish v then ev b s else (some v, s)
  cond : ∀ c a b s, ev (.cond c a b) s =
    match ev c s with
    | (none, s) => (none, s)
    | (some v, s) => if truthy v then ev a s else ev b s

end Verif.Expr

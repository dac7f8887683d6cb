/-
Declarations as the parser records them (src/lib/rjs_parser.c): the stack of
declarations `parser->decl_stack`, the items added to them by `decl_item_add`,
the early errors about names declared twice, and the tables of names the code
generator makes of each declaration (src/lib/rjs_code_gen_inc.c:40-199).

A declaration (`RJS_AstDecl`) is a `Scope`: a number standing for its address
and its items in order.  Items are only ever added to declarations on the
stack; a declaration taken off the stack is kept in `popped`, where it can
still be read.  `none` stands for a failed assertion (`decl_top`, 491-500) or
for following `decl->bot` of the bottom declaration (`decl_item_add`, 642):
both are outside what the C code defines.

Simplifications: names are numbers; `let`, `const`, strict constants and
classes are one kind (`lex`), as no decision here tells them apart; the
handling of the name `arguments` in `func_pop` (1315-1362) is left out, and so
are warnings, positions and the recovery after a syntax error other than a
repeated declaration.  Statements and expressions which open no declaration are
the list of the statements, functions and classes in them; a `switch` is a
block; a function in a parameter's initializer is written before the function
itself.
-/

namespace Verif.Decls

/-- `RJS_AstDeclType` (src/lib/rjs_ast_internal.h); `LET`, `CONST`, `STRICT`
and `CLASS` are `lex`. -/
inductive Kind where
  | param | var | lex | fn
  deriving DecidableEq, Repr

/-- What is known of a function besides its body: its parameters' names, whether
the list has initializers or computed names (`has_expr`), whether it is simple
(`simple`), whether the body begins with "use strict", and whether the function
is an arrow function or a method (rjs_parser.c:1115-1215, 1297-1318). -/
structure Hdr where
  params : List Nat
  expr : Bool
  simple : Bool
  useStrict : Bool
  noDup : Bool
  deriving DecidableEq, Repr

/-- The parts of a program that declare names or open a declaration.  A `try`
statement is a block, a `tryCatch` part and a block, one after another. -/
inductive St where
  | nil
  | cons (s r : St)
  | var (x : Nat)
  | lex (x : Nat)
  | imp (x : Nat)
  | block (b : St)
  | forLex (xs : List Nat) (b : St)
  | withSt (b : St)
  | tryCatch (ps : Option (List Nat)) (b : St)
  | func (h : Hdr) (b : St)
  | fnDecl (x : Nat) (h : Hdr) (b : St)
  | fnExpr (x : Option Nat) (h : Hdr) (b : St)
  | cls (x : Option Nat) (isDecl : Bool) (b : St)
  deriving DecidableEq, Repr

/-- `RJS_AstDecl` (src/lib/rjs_ast_internal.h): its address and `item_list`
(with `item_hash` as the index by name). -/
structure Scope where
  id : Nat
  items : List (Nat × Kind)
  deriving DecidableEq, Repr

/-- `hash_lookup(&decl->item_hash, id)`. -/
def look (c : Scope) (x : Nat) : Option Kind :=
  (c.items.find? fun p => p.1 == x).map (·.2)

/-- `hash_insert` and `ast_list_append` of a new item (rjs_parser.c:612-613,
637-638). -/
def Scope.add (c : Scope) (x : Nat) (k : Kind) : Scope :=
  { c with items := c.items ++ [(x, k)] }

/-- The tables made by `binding_init_table` (rjs_code_gen_inc.c:40-199) for a
block-like declaration and for a function: names to create. -/
inductive Tab where
  | scope (lex : List Nat)
  | func (params vars lexs : List Nat)
  deriving DecidableEq, Repr

/-- The parser's state: `decl_stack`, the address of the next declaration, the
declarations taken off the stack, the local names of imports
(rjs_parser.c:8530-8548), whether an error was reported (`parse_error`), and the
tables. -/
structure PS where
  stack : List Scope
  next : Nat
  popped : List Scope
  imps : List Nat
  err : Bool
  tabs : List Tab
  deriving DecidableEq, Repr

/-- The function on top of `func_stack` as `decl_item_add` sees it: whether it is
a module, `var_decl` and `lex_decl`. -/
structure Fn where
  mod : Bool
  v : Nat
  l : Nat
  deriving DecidableEq, Repr

/-- `decl_push` (rjs_parser.c:466-488). -/
def push (st : PS) : PS :=
  { st with stack := ⟨st.next, []⟩ :: st.stack, next := st.next + 1 }

/-- `decl_pop` (rjs_parser.c:762-772). -/
def pop (st : PS) : PS :=
  match st.stack with
  | [] => st
  | c :: r => { st with stack := r, popped := c :: st.popped }

/-- The declaration at an address, on the stack or not. -/
def find (st : PS) (d : Nat) : Scope :=
  ((st.stack ++ st.popped).find? fun c => c.id == d).getD ⟨d, []⟩

/-- `parse_error`: the error is counted, parsing goes on. -/
def flag (e : Bool) (st : PS) : PS := { st with err := st.err || e }

/-- `decl_is_lex` (rjs_parser.c:503-540), with `top` the declaration on top. -/
def isLex (F : Fn) (top : Scope) : Kind → Bool
  | .lex => true
  | .var => false
  | .param => false
  | .fn => F.mod || F.l != top.id

/-- One turn of the walk to the upper declarations (rjs_parser.c:621-639): an
item of a kind other than `VAR` and `PARAMETER` is an error, no item means one
is added. -/
def walkOne (x : Nat) (k : Kind) (c : Scope) : Scope × Bool :=
  match look c x with
  | some k0 => (c, k0 != .var && k0 != .param)
  | none => (c.add x k, false)

/-- The walk to the upper declarations up to `ref_decl` (rjs_parser.c:616-645). -/
def walk (ref x : Nat) (k : Kind) : List Scope → Option (List Scope × Bool)
  | [] => none
  | c :: r =>
    if c.id = ref then some ((walkOne x k c).1 :: r, (walkOne x k c).2)
    else (walk ref x k r).map fun p => ((walkOne x k c).1 :: p.1, (walkOne x k c).2 || p.2)

/-- `can_dup` (rjs_parser.c:588-597): `ps` says whether the parser is in strict
mode. -/
def canDup (ps : Bool) (F : Fn) (top : Scope) (k0 k : Kind) : Bool :=
  if k0 = .param ∧ k = .param then !ps
  else !isLex F top k && !isLex F top k0

/-- `ref_decl` (rjs_parser.c:578-581). -/
def refDecl (F : Fn) (top : Scope) (k : Kind) : Nat :=
  if isLex F top k = true ∨ k = .param then top.id else F.v

/-- `decl_item_add` (rjs_parser.c:566-662); the second part of the result is
`*dup`. -/
def addItem (ps : Bool) (F : Fn) (k : Kind) (x : Nat) (st : PS) : Option (PS × Bool) :=
  match st.stack with
  | [] => none
  | c :: r =>
    match look c x with
    | some k0 => some (flag (!canDup ps F c k0 k) st, true)
    | none =>
      if refDecl F c k = c.id then some ({ st with stack := c.add x k :: r }, false)
      else (walk (refDecl F c k) x k r).map fun p =>
        (flag p.2 { st with stack := c.add x k :: p.1 }, false)

/-- `decl_item_add` where `*dup` is not asked for. -/
def add (ps : Bool) (F : Fn) (k : Kind) (x : Nat) (st : PS) : Option PS :=
  (addItem ps F k x st).map (·.1)

/-- `binding_lex` (rjs_parser.c:6145) over the names of a binding. -/
def addAll (ps : Bool) (F : Fn) (k : Kind) : List Nat → PS → Option PS
  | [], st => some st
  | x :: xs, st => (add ps F k x st).bind (addAll ps F k xs)

/-- `binding_element_list_param` (rjs_parser.c:1115-1200) over the parameters'
names, with `has_dup`. -/
def addParams (ps : Bool) (F : Fn) : List Nat → PS → Option (PS × Bool)
  | [], st => some (st, false)
  | x :: xs, st => (addItem ps F .param x st).bind fun q =>
      (addParams ps F xs q.1).map fun w => (w.1, q.2 || w.2)

/-- `hash_add_import` (rjs_parser.c:8530-8548). -/
def addImport (x : Nat) (st : PS) : PS :=
  if x ∈ st.imps then flag true st else { st with imps := st.imps ++ [x] }

/-- The names of the items of certain kinds (`binding_init_table`,
rjs_code_gen_inc.c:40-121). -/
def names (p : Kind → Bool) (c : Scope) : List Nat :=
  (c.items.filter fun i => p i.2).map (·.1)

/-- `rjs_code_gen_binding_init_table` (rjs_code_gen_inc.c:782): lexical and
function items. -/
def scopeTab (c : Scope) : Tab := .scope (names (fun k => k == .lex || k == .fn) c)

/-- The tables of a script, of eval code and of a function
(rjs_code_gen_inc.c:141-147, 157-199). -/
def funcTab (p v l : Scope) : Tab :=
  .func (names (· == .param) p) (names (fun k => k == .var || k == .fn) v) (names (· == .lex) l)

/-- The tables of a module (rjs_code_gen_inc.c:150-155). -/
def modTab (v l : Scope) : Tab :=
  .func [] (names (· == .var) v) (names (fun k => k == .lex || k == .fn) l)

/-- The table of declaration `d` is noted. -/
def noteScope (d : Nat) (st : PS) : PS :=
  { st with tabs := st.tabs ++ [scopeTab (find st d)] }

/-- The end of `parse_block` (rjs_parser.c:2778-2782), with the block's
declaration `d` noted for the code generator. -/
def leave (d : Nat) (st : PS) : PS := pop (noteScope d st)

/-- A pop made only when `d` is the declaration on top (rjs_parser.c:1386-1393,
6640-6644). -/
def popIf (d : Nat) (st : PS) : PS :=
  match st.stack with
  | [] => st
  | c :: _ => if c.id = d then pop st else st

/-- The check that no item of `d` other than `VAR` is also an item of the block's
declaration `db` (rjs_parser.c:6612-6635, 6936-6960). -/
def clash (d db : Nat) (st : PS) : PS :=
  flag ((find st d).items.any fun i => i.2 != .var && (look (find st db) i.1).isSome) st

/-- Whether the statement's AST is a `RJS_AST_Block` (rjs_parser.c:6615). -/
def isBlock : St → Bool
  | .block _ => true
  | _ => false

/-- `func_body` (rjs_parser.c:1232-1281) without the parameters: the
declarations for variables and for lexical names are pushed where they are
separate.  `one` is the script and eval case. -/
def bodyPush (expr sep : Bool) (st : PS) : PS :=
  let st := if expr then push st else st
  if sep then push st else st

/-- `func->var_decl` for a parameter declaration at `p`. -/
def varOf (p : Nat) (expr : Bool) : Nat := if expr then p + 1 else p

/-- `func->lex_decl`. -/
def lexOf (p : Nat) (expr sep : Bool) : Nat := if sep then varOf p expr + 1 else varOf p expr

/-- `func_body`: the parameters' declaration and items, the error for repeated
names in a list that is not simple, and the further declarations.  The second
part of the result is `has_dup`. -/
def funcBody (ps : Bool) (h : Hdr) (st : PS) : Option (PS × Bool) :=
  (addParams ps ⟨false, st.next, st.next⟩ h.params (push st)).map fun q =>
    (bodyPush h.expr (!ps) (flag (q.2 && !h.simple) q.1), q.2)

/-- The check of the parameters against the lexical items (rjs_parser.c:1364-1384). -/
def paramClash (p l : Nat) (st : PS) : PS :=
  if p = l then st
  else flag ((find st p).items.any fun i => look (find st l) i.1 == some .lex) st

/-- The pops of `func_pop` (rjs_parser.c:1386-1393). -/
def popFunc (p v l : Nat) (st : PS) : PS := popIf p (popIf v (popIf l st))

/-- `func_pop` (rjs_parser.c:1284-1402) after a body parsed in a function whose
strictness is `strict` and with the tables noted. -/
def funcPop (h : Hdr) (strict dup : Bool) (p v l : Nat) (st : PS) : PS :=
  let st := flag (h.useStrict && !h.simple) st
  let st := flag (dup && (h.noDup || strict)) st
  let st := paramClash p l st
  let st := { st with tabs := st.tabs ++ [funcTab (find st p) (find st v) (find st l)] }
  popFunc p v l st

/-- A whole function, with `body` what the parser does with its body
(`parse_func_body`, rjs_parser.c:7487-7540; methods 7955-7997; arrow functions
4545-4551). -/
def function (ps : Bool) (h : Hdr) (body : Fn → PS → Option PS) (st : PS) : Option PS :=
  let v := varOf st.next h.expr
  let l := lexOf st.next h.expr (!ps)
  (funcBody ps h st).bind fun q =>
    (body ⟨false, v, l⟩ q.1).map
      (funcPop h (ps || h.useStrict) q.2 st.next v l)

/-- The parser over a part of a program; `ps` is `RJS_PARSE_FL_STRICT`, `F` the
function on top.
`block`: `parse_block` (2735-2795), `switch` (6748-6800).
`forLex`: 6490-6646.  `withSt`: 6830-6836.  `tryCatch`: 6912-6965; without a
parameter no declaration is pushed, but one is popped.
`fnDecl`, `fnExpr`: `parse_hoistable_decl` (7612-7745).
`cls`: `parse_class` (8270-8430). -/
def parse : (ps : Bool) → (F : Fn) → St → PS → Option PS
  | _, _, .nil, st => some st
  | ps, F, .cons s r, st => (parse ps F s st).bind (parse ps F r)
  | ps, F, .var x, st => add ps F .var x st
  | ps, F, .lex x, st => add ps F .lex x st
  | _, _, .imp x, st => some (addImport x st)
  | ps, F, .block b, st => (parse ps F b (push st)).map (leave st.next)
  | ps, F, .forLex xs b, st =>
    (addAll ps F .lex xs (push st)).bind fun s1 =>
      (parse ps F b s1).map fun s2 =>
        popIf st.next (noteScope st.next
          (if isBlock b then clash st.next s1.next s2 else s2))
  | ps, F, .withSt b, st => (parse ps F b (push st)).map (leave st.next)
  | ps, F, .tryCatch none b, st =>
    (parse ps F b (push st)).map fun s1 => pop (leave st.next s1)
  | ps, F, .tryCatch (some xs) b, st =>
    (addAll ps F .lex xs (push st)).bind fun s1 =>
      (parse ps F b (push s1)).map fun s2 =>
        clash st.next s1.next (leave st.next (leave s1.next s2))
  | ps, _, .func h b, st => function ps h (fun G => parse (ps || h.useStrict) G b) st
  | ps, F, .fnDecl x h b, st =>
    (function ps h (fun G => parse (ps || h.useStrict) G b) st).bind (add ps F .fn x)
  | ps, F, .fnExpr x h b, st =>
    (function ps h (fun G => parse (ps || h.useStrict) G b) (push st)).bind fun s1 =>
      (addAll ps F .lex x.toList s1).map (leave st.next)
  | ps, F, .cls x isDecl b, st =>
    (addAll true F .lex x.toList (push st)).bind fun s1 =>
      ((parse true F b s1).map (leave st.next)).bind fun s2 =>
        if isDecl then addAll ps F .lex x.toList s2 else some s2

/-- A parser at the beginning. -/
def start : PS := ⟨[], 0, [], [], false, []⟩

/-- `parse_script` (rjs_parser.c:9345-9400) and `parse_eval` (9490-9540): one
declaration for parameters, variables and lexical names. -/
def script (ps : Bool) (s : St) : Option PS :=
  (parse ps ⟨false, 0, 0⟩ s (push start)).map fun st =>
    popFunc 0 0 0 { st with tabs := st.tabs ++ [funcTab (find st 0) (find st 0) (find st 0)] }

/-- `parse_module` (rjs_parser.c:9600-9670): strict mode, function declarations
lexical, imports in a list of their own. -/
def moduleP (s : St) : Option PS :=
  (parse true ⟨true, 0, 0⟩ s (push start)).map fun st =>
    popFunc 0 0 0 { st with tabs := st.tabs ++ [modTab (find st 0) (find st 0)] }

end Verif.Decls

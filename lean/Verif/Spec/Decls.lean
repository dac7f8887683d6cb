import Verif.Model.Decls

/-
The early errors of the standard about declared names, and the names each scope
declares (ECMA-262: 8.2.4 LexicallyDeclaredNames, 8.2.6 VarDeclaredNames,
8.2.8-8.2.10 the TopLevel versions, 14.2.1, 14.7.4.1, 14.7.5.1, 14.12.1,
14.15.1, 15.1.1, 15.2.1, 16.1.1, 16.2.1.1), without Annex B.  Only the syntax of
programs is shared with the model.
-/

namespace Verif.Decls

/-- LexicallyDeclaredNames of a statement list (`t = false`), or
TopLevelLexicallyDeclaredNames (`t = true`), where function declarations do not
count. -/
def LN (t : Bool) : St → List Nat
  | .cons s r => LN t s ++ LN t r
  | .lex x => [x]
  | .fnDecl x _ _ => if t then [] else [x]
  | .cls x true _ => x.toList
  | _ => []

/-- The names of the function declarations that count as variables: those of a
statement list at the top of a function or script. -/
def FN (t : Bool) : St → List Nat
  | .cons s r => FN t s ++ FN t r
  | .fnDecl x _ _ => if t then [x] else []
  | _ => []

/-- VarDeclaredNames: through blocks, not into functions. -/
def VN : St → List Nat
  | .cons s r => VN s ++ VN r
  | .var x => [x]
  | .block b => VN b
  | .forLex _ b => VN b
  | .withSt b => VN b
  | .tryCatch _ b => VN b
  | _ => []

/-- The local names of import declarations. -/
def IN : St → List Nat
  | .cons s r => IN s ++ IN r
  | .imp x => [x]
  | _ => []

/-- The rule for a statement list: "It is a Syntax Error if the
LexicallyDeclaredNames contains any duplicate entries", "… if any element of the
LexicallyDeclaredNames also occurs in the VarDeclaredNames". -/
def ListOk (t : Bool) (b : St) : Prop :=
  (LN t b).Nodup ∧ ∀ x ∈ LN t b, x ∉ VN b ∧ x ∉ FN t b

/-- The rules for a function: parameters repeated only in a simple list of a
function that is neither strict, nor an arrow function, nor a method; "use
strict" only with a simple list; no parameter also a lexical name of the body;
and the rule for the body's statement list. -/
def FuncOk (ps : Bool) (h : Hdr) (b : St) : Prop :=
  (h.params.Nodup ∨ (h.simple = true ∧ ps = false ∧ h.useStrict = false ∧ h.noDup = false))
  ∧ (h.useStrict = true → h.simple = true)
  ∧ (∀ x ∈ h.params, x ∉ LN true b)
  ∧ ListOk true b

/-- All the rules inside a part of a program; `ps`: the code is strict mode
code. -/
def Early : (ps : Bool) → St → Prop
  | ps, .cons s r => Early ps s ∧ Early ps r
  | ps, .block b => ListOk false b ∧ Early ps b
  | ps, .forLex xs b => xs.Nodup ∧ (∀ x ∈ xs, x ∉ VN b) ∧ Early ps b
  | ps, .withSt b => Early ps b
  | ps, .tryCatch none b => ListOk false b ∧ Early ps b
  | ps, .tryCatch (some xs) b =>
    xs.Nodup ∧ (∀ x ∈ xs, x ∉ LN false b ∧ x ∉ VN b) ∧ ListOk false b ∧ Early ps b
  | ps, .func h b => FuncOk ps h b ∧ Early (ps || h.useStrict) b
  | ps, .fnDecl _ h b => FuncOk ps h b ∧ Early (ps || h.useStrict) b
  | ps, .fnExpr _ h b => FuncOk ps h b ∧ Early (ps || h.useStrict) b
  | _, .cls _ _ b => Early true b
  | _, _ => True

/-- The rules for a script. -/
def ScriptOk (ps : Bool) (s : St) : Prop := ListOk true s ∧ Early ps s

/-- The rules for a module: imported names are lexically declared names. -/
def ModuleOk (s : St) : Prop :=
  (IN s ++ LN false s).Nodup ∧ (∀ x ∈ IN s ++ LN false s, x ∉ VN s) ∧ Early true s

/-- The variables a function creates apart from its parameters
(FunctionDeclarationInstantiation, 10.2.11 steps 27 and 28): with parameter
expressions there is a separate environment. -/
def varNames (h : Hdr) (b : St) : List Nat :=
  (VN b ++ FN true b).filter fun x => h.expr || !(h.params.contains x)

/-- The names every scope of a program declares, in the order the scopes end. -/
def Tabs : St → List Tab
  | .cons s r => Tabs s ++ Tabs r
  | .block b => Tabs b ++ [.scope (LN false b)]
  | .forLex xs b => Tabs b ++ [.scope xs]
  | .withSt b => Tabs b ++ [.scope []]
  | .tryCatch none b => Tabs b ++ [.scope (LN false b)]
  | .tryCatch (some xs) b => Tabs b ++ [.scope (LN false b), .scope xs]
  | .func h b => Tabs b ++ [.func h.params (varNames h b) (LN true b)]
  | .fnDecl _ h b => Tabs b ++ [.func h.params (varNames h b) (LN true b)]
  | .fnExpr x h b => Tabs b ++ [.func h.params (varNames h b) (LN true b), .scope x.toList]
  | .cls x _ b => Tabs b ++ [.scope x.toList]
  | _ => []

/-- The scopes of a script. -/
def ScriptTabs (s : St) : List Tab := Tabs s ++ [.func [] (VN s ++ FN true s) (LN true s)]

/-- The scopes of a module. -/
def ModuleTabs (s : St) : List Tab := Tabs s ++ [.func [] (VN s) (LN false s)]

/-- A list holds just the names of another, each once. -/
def SameNames (a b : List Nat) : Prop := a.Nodup ∧ ∀ x, x ∈ a ↔ x ∈ b

/-- A table recorded by the parser holds the names the standard says. -/
def SameTab : Tab → Tab → Prop
  | .scope a, .scope b => SameNames a b
  | .func p v l, .func p' v' l' => SameNames p p' ∧ SameNames v v' ∧ SameNames l l'
  | _, _ => False

/-- Two lists of tables agree one by one. -/
def SameTabs : List Tab → List Tab → Prop
  | [], [] => True
  | a :: as, b :: bs => SameTab a b ∧ SameTabs as bs
  | _, _ => False

/-- What the grammar says of a part of a program: imports only at the top of a
module (`m`); the body of `for` and `with` a statement, which declares nothing
lexically; nothing but functions and classes among a class's elements. -/
def Grammar : (m : Bool) → St → Prop
  | m, .cons s r => Grammar m s ∧ Grammar m r
  | m, .imp _ => m = true
  | _, .block b => Grammar false b
  | _, .forLex _ b => LN false b = [] ∧ Grammar false b
  | _, .withSt b => LN false b = [] ∧ Grammar false b
  | _, .tryCatch _ b => Grammar false b
  | _, .func _ b => Grammar false b
  | _, .fnDecl _ _ b => Grammar false b
  | _, .fnExpr _ _ b => Grammar false b
  | _, .cls _ _ b => LN false b = [] ∧ VN b = [] ∧ Grammar false b
  | _, _ => True

/-- No `catch` without a parameter. -/
def NoBareCatch : St → Prop
  | .cons s r => NoBareCatch s ∧ NoBareCatch r
  | .block b => NoBareCatch b
  | .forLex _ b => NoBareCatch b
  | .withSt b => NoBareCatch b
  | .tryCatch none _ => False
  | .tryCatch (some _) b => NoBareCatch b
  | .func _ b => NoBareCatch b
  | .fnDecl _ _ b => NoBareCatch b
  | .fnExpr _ _ b => NoBareCatch b
  | .cls _ _ b => NoBareCatch b
  | _ => True

/-- No block that is the body of a `for` loop declares a name of the loop. -/
def NoForClash : St → Prop
  | .cons s r => NoForClash s ∧ NoForClash r
  | .block b => NoForClash b
  | .forLex xs (.block b) => (∀ x ∈ xs, x ∉ LN false b) ∧ NoForClash b
  | .forLex _ b => NoForClash b
  | .withSt b => NoForClash b
  | .tryCatch _ b => NoForClash b
  | .func _ b => NoForClash b
  | .fnDecl _ _ b => NoForClash b
  | .fnExpr _ _ b => NoForClash b
  | .cls _ _ b => NoForClash b
  | _ => True

/-- The names of `var` declarations below the statement list itself: inside a
block, a loop with lexical names, a `with` or a `catch`. -/
def NV : St → List Nat
  | .cons s r => NV s ++ NV r
  | .block b => VN b
  | .forLex _ b => VN b
  | .withSt b => VN b
  | .tryCatch _ b => VN b
  | _ => []

/-- In no function (or script) a top-level function declaration is followed by a
`var` of its name in an inner block; `t` says whether the part is at the top of
a function. -/
def NoFnThenVar : (t : Bool) → St → Prop
  | t, .cons s r => NoFnThenVar t s ∧ NoFnThenVar t r ∧ ∀ x ∈ FN t s, x ∉ NV r
  | _, .block b => NoFnThenVar false b
  | _, .forLex _ b => NoFnThenVar false b
  | _, .withSt b => NoFnThenVar false b
  | _, .tryCatch _ b => NoFnThenVar false b
  | _, .func _ b => NoFnThenVar true b
  | _, .fnDecl _ _ b => NoFnThenVar true b
  | _, .fnExpr _ _ b => NoFnThenVar true b
  | _, .cls _ _ b => NoFnThenVar false b
  | _, _ => True

/-- The parser takes the program: it reaches the end and has reported no
error. -/
def Accepts (o : Option PS) : Prop := ∃ st, o = some st ∧ st.err = false

end Verif.Decls

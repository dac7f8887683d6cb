import Verif.Model.GlobalDecl

/-!
What the standard says about the declarations of scripts and `eval` (ECMA-262, 16.1.7, 19.2.1.3,
9.1.1.4, B.3.4), in terms of what is there before and after.
-/
namespace Verif.GlobalDecl.Spec
open Obj (Val P)

/-- What can be seen of the global environment: the own properties of the global object and their
order, whether it is extensible, the rest of it, the lexical bindings, and the names in
[[VarNames]]. -/
structure View where
  own : Obj.Name → Option P
  keys : List Obj.Name
  ext : Bool
  items : PropStore.Store P
  lex : Nat → Option Binding
  var : Nat → Prop

/-- The property of that name. -/
def find (n : Obj.Name) : List (Obj.Name × P) → Option P
  | [] => none
  | (m, p) :: l => if m = n then some p else find n l

/-- The binding of that name. -/
def findB (n : Nat) : List (Nat × Binding) → Option Binding
  | [] => none
  | (m, b) :: l => if m = n then some b else findB n l

def view (g : Global) : View where
  own n := find n g.obj.named
  keys := g.obj.named.map (·.1)
  ext := g.obj.ext
  items := g.obj.store
  lex n := findB n g.lex
  var n := n ∈ g.vars

/-! ## Declarations -/

/-- LexicallyDeclaredNames. -/
def LexName (ds : List Decl) (n : Nat) : Prop := ∃ c, .lex n c ∈ ds

/-- The names of functions. -/
def FuncName (ds : List Decl) (n : Nat) : Prop := ∃ f, .func n f ∈ ds

/-- VarDeclaredNames: functions at the top are treated like variables. -/
def VarName (ds : List Decl) (n : Nat) : Prop := .var n ∈ ds ∨ FuncName ds n

/-- The function a name gets: the last one. -/
def Func (ds : List Decl) (n : Nat) (f : Val) : Prop :=
  ∃ a b, ds = a ++ .func n f :: b ∧ ¬ FuncName b n

/-- The early errors of a script (16.1.1). -/
structure Accepted (ds : List Decl) : Prop where
  /-- No lexical name twice. -/
  once : ∀ a b c n x y, ds ≠ a ++ .lex n x :: b ++ .lex n y :: c
  apart : ∀ n, LexName ds n → ¬ VarName ds n

/-- No function twice. -/
def NoRepeat (ds : List Decl) : Prop := ∀ a b c n f f', ds ≠ a ++ .func n f :: b ++ .func n f' :: c

/-! ## Scripts -/

/-- A SyntaxError (16.1.7, steps 3 and 4). -/
def Clash (v : View) (ds : List Decl) : Prop :=
  (∃ n, LexName ds n ∧ (v.var n ∨ (v.lex n).isSome ∨ ∃ p, v.own (.str n) = some p ∧ p.c = false)) ∨
  (∃ n, VarName ds n ∧ (v.lex n).isSome)

/-- CanDeclareGlobalVar. -/
def CanVar (v : View) (n : Nat) : Prop := (v.own (.str n)).isSome ∨ v.ext = true

/-- CanDeclareGlobalFunction. -/
def CanFunc (v : View) (n : Nat) : Prop :=
  match v.own (.str n) with
  | none => v.ext = true
  | some p => p.c = true ∨ ((∃ x, p.body = .data x) ∧ p.w = true ∧ p.e = true)

/-- A TypeError (16.1.7, steps 8 and 10). -/
def Barred (v : View) (ds : List Decl) : Prop :=
  (∃ n, FuncName ds n ∧ ¬ CanFunc v n) ∨ (∃ n, VarName ds n ∧ ¬ CanVar v n)

/-- The property for a function. -/
def funcProp (D : Bool) (f : Val) : Option P → P
  | some p => if p.c then ⟨true, true, D, .data f⟩ else { p with body := .data f }
  | none => ⟨true, true, D, .data f⟩

/-- The variables after the declarations; `D`: they can be deleted. -/
structure Vars (D : Bool) (v : View) (ds : List Decl) (v' : View) : Prop where
  func : ∀ n f, Func ds n f → v'.own (.str n) = some (funcProp D f (v.own (.str n)))
  var : ∀ n, VarName ds n → ¬ FuncName ds n →
    v'.own (.str n) = some ((v.own (.str n)).getD ⟨true, true, D, .data .undef⟩)
  other : ∀ n, ¬ VarName ds n → v'.own (.str n) = v.own (.str n)
  sym : ∀ n, v'.own (.sym n) = v.own (.sym n)
  ext : v'.ext = v.ext
  items : v'.items = v.items
  names : ∀ n, v'.var n ↔ v.var n ∨ VarName ds n

/-- A new lexical binding: not initialised, not deletable. -/
def fresh (c : Bool) : Binding := ⟨c, c, false, none⟩

/-- The lexical bindings after the declarations. -/
structure Lexs (l : Nat → Option Binding) (ds : List Decl) (l' : Nat → Option Binding) : Prop where
  new : ∀ n c, .lex n c ∈ ds → l' n = some (fresh c)
  other : ∀ n, ¬ LexName ds n → l' n = l n

/-- The names of functions, in the order in which they are made: by the last declaration. -/
def funcOrder : List Decl → List Nat
  | [] => []
  | .func n _ :: ds => if n ∈ funcOrder ds then funcOrder ds else n :: funcOrder ds
  | _ :: ds => funcOrder ds

/-- The names of variables, by the first declaration. -/
def varOrder : List Decl → List Nat
  | [] => []
  | .var n :: ds => n :: (varOrder ds).filter (· ≠ n)
  | _ :: ds => varOrder ds

/-- The order of the properties: the new ones come last, functions first. -/
def Order (v : View) (ds : List Decl) (v' : View) : Prop :=
  v'.keys = v.keys ++
    (((funcOrder ds ++ (varOrder ds).filter (· ∉ funcOrder ds)).map Obj.Name.str).filter (v.own · = none))

/-! ## Eval -/

/-- An environment between the `eval` and the environment of the variables has the name and is one
of those which are looked at: not of a `with` statement, not of a catch clause (19.2.1.3, step 3.d;
B.3.4). -/
def Between (frames : List Frame) (n : Nat) : Prop := ∃ l, .block l ∈ frames ∧ (findB n l).isSome

/-- The same with the other environments, as far as these have the name or throw. -/
def BetweenAny (frames : List Frame) (n : Nat) : Prop :=
  Between frames n ∨ (∃ l, .catch_ l ∈ frames ∧ (findB n l).isSome) ∨ (∃ h, .with_ h ∈ frames ∧ h n ≠ .no)

/-- A binding in a function, made by `eval`. -/
def made (v : Val) : Binding := ⟨false, false, true, some v⟩

/-- The variables of a function after the declarations. -/
structure Locals (l : Nat → Option Binding) (ds : List Decl) (l' : Nat → Option Binding) : Prop where
  func : ∀ n f, Func ds n f → l' n = some (match l n with
    | none => made f
    | some b => { b with value := some f })
  var : ∀ n, VarName ds n → ¬ FuncName ds n → l' n = some ((l n).getD (made .undef))
  other : ∀ n, ¬ VarName ds n → l' n = l n

/-- Everything after an `eval` of strict code is in its own environment. -/
structure Strict (ds : List Decl) (l : Nat → Option Binding) : Prop where
  lex : ∀ n c, .lex n c ∈ ds → l n = some (fresh c)
  func : ∀ n f, Func ds n f → l n = some (made f)
  var : ∀ n, VarName ds n → ¬ FuncName ds n → l n = some (made .undef)
  other : ∀ n, ¬ LexName ds n → ¬ VarName ds n → l n = none

/-! ## Histories -/

/-- The programs which pass the early errors. -/
def Fine : Op → Prop
  | .script ds => Accepted ds
  | .eval _ ds => Accepted ds
  | _ => True

end Verif.GlobalDecl.Spec

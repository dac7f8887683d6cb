import Verif.Model.Object

/-!
Model of the declarations of scripts and of `eval`: `/repo/src/lib/rjs_script.c`:337-484,
`/repo/src/lib/rjs_eval_opt.c`:40-222, 344-410, the global environment
(`/repo/src/lib/rjs_global_env.c`), and the parts of declarative and object environments they use
(`/repo/src/lib/rjs_decl_env.c`:175-370, `/repo/src/lib/rjs_object_env.c`:51-170).

The global object is an ordinary object (`Verif.Model.Object`), of whose prototypes only the
properties found there are kept.  Names of variables are strings which are no array indices.  The
binding cache is C37.  Functions are values.  `none` is a failed assertion.

Simplifications.  `HasBinding` of a `with` statement answers or throws, but changes nothing.  No
memory is exhausted.
-/
namespace Verif.GlobalDecl
open Obj (Val P Desc)

/-- The key of a variable. -/
def key (n : Nat) : Obj.Key := .name (.str n)

/-- `RJS_ValueBinding` (include/rjs_decl_env.h); `value` is `none` without
`RJS_BINDING_FL_INITIALIZED`. -/
structure Binding where
  imm : Bool
  strict : Bool
  deletable : Bool
  value : Option Val
  deriving DecidableEq

/-- A declarative environment. -/
abbrev Decls := List (Nat × Binding)

/-- `rjs_decl_env_lookup_binding`. -/
def look (n : Nat) : Decls → Option Binding
  | [] => none
  | (m, b) :: l => if m = n then some b else look n l

/-- Changing a binding. -/
def put (n : Nat) (b : Binding) : Decls → Decls
  | [] => []
  | (m, c) :: l => if m = n then (m, b) :: l else (m, c) :: put n b l

/-- `rjs_decl_env_op_create_mutable_binding`, `..._create_immutable_binding`
(rjs_decl_env.c:192-242). -/
def create (n : Nat) (b : Binding) (l : Decls) : Option Decls :=
  match look n l with
  | some _ => none
  | none => some (l ++ [(n, b)])

/-- `rjs_decl_env_op_initialize_binding` (rjs_decl_env.c:253-268). -/
def initB (n : Nat) (v : Val) (l : Decls) : Option Decls :=
  match look n l with
  | none => none
  | some b => if b.value.isSome then none else some (put n { b with value := some v } l)

/-- `rjs_decl_env_op_set_mutable_binding` (rjs_decl_env.c:280-313) in sloppy mode; an error leaves
the environment as it is. -/
def assign (n : Nat) (v : Val) (l : Decls) : Option Decls :=
  match look n l with
  | none =>
    match create n ⟨false, false, true, none⟩ l with
    | none => none
    | some l => initB n v l
  | some b =>
    if b.value.isNone || b.imm then some l else some (put n { b with value := some v } l)

/-- `RJS_GlobalEnv`; `inh` is what the prototypes of the global object have. -/
structure Global where
  obj : Obj.Obj
  inh : Nat → Option Desc
  lex : Decls
  /-- `var_name_hash`. -/
  vars : List Nat

/-- Results. -/
inductive Res
  | ok
  | syntax
  | type
  /-- A setter is called. -/
  | call (f : Val)
  deriving DecidableEq

/-- `rjs_env_has_restricted_global_property` (rjs_global_env.c:325-354). -/
def restricted (o : Obj.Obj) (n : Nat) : Option Bool :=
  match Obj.getOwn o (key n) with
  | none => none
  | some none => some false
  | some (some d) => some !d.c

/-- `rjs_env_can_declare_global_var` (rjs_global_env.c:364-384). -/
def canVar (o : Obj.Obj) (n : Nat) : Option Bool :=
  match Obj.getOwn o (key n) with
  | none => none
  | some (some _) => some true
  | some none => some o.ext

/-- `rjs_env_can_declare_global_function` (rjs_global_env.c:394-433). -/
def canFunc (o : Obj.Obj) (n : Nat) : Option Bool :=
  match Obj.getOwn o (key n) with
  | none => none
  | some none => some o.ext
  | some (some d) => some (d.c || (Obj.isData d && d.w && d.e))

/-- The end of `rjs_ordinary_object_op_set` (rjs_object.c:1071-1117), the receiver being the global
object. -/
def setFound (o : Obj.Obj) (n : Nat) (v : Val) (d : Desc) : Option (Obj.Obj × Res) :=
  if Obj.isData d then
    if !d.w then some (o, .ok)
    else
      match Obj.getOwn o (key n) with
      | none => none
      | some (some ed) =>
        if Obj.isAcc ed then some (o, .ok)
        else if !ed.w then some (o, .ok)
        else (Obj.defineOrdinary o (key n) { hasV := true, value := v, get := ed.get, set := ed.set }).map fun x => (x.1, .ok)
      | some none =>
        (Obj.defineOrdinary o (key n)
          { hasV := true, hasW := true, hasE := true, hasC := true, w := true, e := true, c := true, value := v }).map
            fun x => (x.1, .ok)
  else if d.set = .undef then some (o, .ok)
  else some (o, .call d.set)

/-- `rjs_set` of a property of the global object which does not throw (rjs_object.c:1040-1122,
rjs_operation.h). -/
def setObj (o : Obj.Obj) (inh : Nat → Option Desc) (n : Nat) (v : Val) : Option (Obj.Obj × Res) :=
  match Obj.getOwn o (key n) with
  | none => none
  | some (some d) => setFound o n v d
  | some none =>
    setFound o n v ((inh n).getD
      { hasV := true, hasW := true, hasE := true, hasC := true, w := true, e := true, c := true })

/-- `rjs_define_property_or_throw`. -/
def defineOrThrow (o : Obj.Obj) (n : Nat) (d : Desc) : Option (Obj.Obj × Res) :=
  (Obj.defineOrdinary o (key n) d).map fun x => (x.1, if x.2 then .ok else .type)

/-- `RJS_PROP_FL_DATA | WRITABLE | ENUMERABLE`, and `CONFIGURABLE` if `del`. -/
def dataDesc (v : Val) (del : Bool) : Desc :=
  { hasV := true, hasW := true, hasE := true, hasC := true, w := true, e := true, c := del, value := v }

/-- Defining and then setting. -/
def defineAndSet (o : Obj.Obj) (inh : Nat → Option Desc) (n : Nat) (d : Desc) (v : Val) :
    Option (Obj.Obj × Res) :=
  match defineOrThrow o n d with
  | some (o, .ok) => setObj o inh n v
  | r => r

/-- Adding a name to `var_name_hash`. -/
def addVar (n : Nat) (l : List Nat) : List Nat := if n ∈ l then l else l ++ [n]

/-- The change of the object followed by the change of `var_name_hash`. -/
def withVar (g : Global) (n : Nat) : Option (Obj.Obj × Res) → Option (Res × Global)
  | none => none
  | some (o, .ok) => some (.ok, { g with obj := o, vars := addVar n g.vars })
  | some (o, r) => some (r, { g with obj := o })

/-- `rjs_env_create_global_var_binding` (rjs_global_env.c:444-484), with
`object_env_op_create_mutable_binding` and `object_env_op_initialize_binding`
(rjs_object_env.c:92-158). -/
def createVar (g : Global) (n : Nat) (del : Bool) : Option (Res × Global) :=
  match Obj.getOwn g.obj (key n) with
  | none => none
  | some (some _) => withVar g n (some (g.obj, .ok))
  | some none =>
    if g.obj.ext then withVar g n (defineAndSet g.obj g.inh n (dataDesc .undef del) .undef)
    else withVar g n (some (g.obj, .ok))

/-- `rjs_env_create_global_function_binding` (rjs_global_env.c:496-547). -/
def createFunc (g : Global) (n : Nat) (v : Val) (del : Bool) : Option (Res × Global) :=
  match Obj.getOwn g.obj (key n) with
  | none => none
  | some none => withVar g n (defineAndSet g.obj g.inh n (dataDesc v del) v)
  | some (some d) =>
    if d.c then withVar g n (defineAndSet g.obj g.inh n (dataDesc v del) v)
    else withVar g n (defineAndSet g.obj g.inh n { hasV := true, value := v } v)

/-- `global_env_op_delete_binding` (rjs_global_env.c:144-182): the result and the new state. -/
def deleteBinding (g : Global) (n : Nat) : Option (Bool × Global) :=
  match look n g.lex with
  | some b => if b.deletable then some (true, { g with lex := g.lex.filter (·.1 ≠ n) }) else some (false, g)
  | none =>
    match Obj.getOwn g.obj (key n) with
    | none => none
    | some none => some (false, g)
    | some (some _) =>
      match Obj.delete g.obj (key n) with
      | none => none
      | some (o, true) => some (true, { g with obj := o, vars := g.vars.filter (· ≠ n) })
      | some (o, false) => some (false, { g with obj := o })

/-! ## Scripts -/

/-- A declaration at the top of a script, in the order of the text. -/
inductive Decl
  | var (n : Nat)
  | func (n : Nat) (f : Val)
  /-- `let` and `class`, or `const`. -/
  | lex (n : Nat) (const : Bool)
  deriving DecidableEq

/-- `var_grp`: an item for each name, where it comes first (`decl_item_add`, rjs_parser.c:566-690;
`binding_init_table` with VAR and FUNC, rjs_code_gen_inc.c:141-146). -/
def varTable : List Decl → List Nat → List Nat
  | [], acc => acc
  | .var n :: ds, acc => varTable ds (if n ∈ acc then acc else acc ++ [n])
  | .func n _ :: ds, acc => varTable ds (if n ∈ acc then acc else acc ++ [n])
  | .lex _ _ :: ds, acc => varTable ds acc

/-- Replacing the function of a name, if there is one (rjs_parser.c:736-742). -/
def replace (n : Nat) (f : Val) : List (Nat × Val) → Option (List (Nat × Val))
  | [] => none
  | (m, g) :: l => if m = n then some ((m, f) :: l) else (replace n f l).map ((m, g) :: ·)

/-- `func_grp` (`func_decl_ref_new`, rjs_parser.c:710-758). -/
def funcTable : List Decl → List (Nat × Val) → List (Nat × Val)
  | [], acc => acc
  | .func n f :: ds, acc => funcTable ds ((replace n f acc).getD (acc ++ [(n, f)]))
  | .var _ :: ds, acc => funcTable ds acc
  | .lex _ _ :: ds, acc => funcTable ds acc

/-- `lex_grp`. -/
def lexTable : List Decl → List (Nat × Bool)
  | [] => []
  | .lex n c :: ds => (n, c) :: lexTable ds
  | .var _ :: ds => lexTable ds
  | .func _ _ :: ds => lexTable ds

/-- A loop that ends with the first error. -/
def each {α σ : Type} (f : α → σ → Option (Res × σ)) : List α → σ → Option (Res × σ)
  | [], g => some (.ok, g)
  | a :: as, g =>
    match f a g with
    | some (.ok, g) => each f as g
    | r => r

/-- One loop after the other. -/
def andThen {σ : Type} (x : Option (Res × σ)) (k : σ → Option (Res × σ)) : Option (Res × σ) :=
  match x with
  | some (.ok, g) => k g
  | r => r

/-- An error if the answer is yes. -/
def errIf {σ : Type} (r : Res) (x : Option Bool) (g : σ) : Option (Res × σ) :=
  x.map fun b => (if b then r else .ok, g)

/-- rjs_script.c:356-381. -/
def checkLex (x : Nat × Bool) (g : Global) : Option (Res × Global) :=
  if x.1 ∈ g.vars then some (.syntax, g)
  else if (look x.1 g.lex).isSome then some (.syntax, g)
  else errIf .syntax (restricted g.obj x.1) g

/-- rjs_script.c:383-396. -/
def checkVar (n : Nat) (g : Global) : Option (Res × Global) :=
  errIf .syntax (some (look n g.lex).isSome) g

/-- rjs_script.c:398-413. -/
def checkCanFunc (x : Nat × Val) (g : Global) : Option (Res × Global) :=
  errIf .type ((canFunc g.obj x.1).map (!·)) g

/-- rjs_script.c:415-430. -/
def checkCanVar (n : Nat) (g : Global) : Option (Res × Global) :=
  errIf .type ((canVar g.obj n).map (!·)) g

/-- A new lexical binding (rjs_script.c:439-443, rjs_eval_opt.c:140-144). -/
def newLex (const : Bool) : Binding := if const then ⟨true, true, false, none⟩ else ⟨false, false, false, none⟩

/-- `global_env_op_create_mutable_binding`, `..._immutable_binding` (rjs_global_env.c:79-102); an
existing name is a ReferenceError there, which stands for `none` here. -/
def addLex (x : Nat × Bool) (g : Global) : Option (Res × Global) :=
  (create x.1 (newLex x.2) g.lex).map fun l => (.ok, { g with lex := l })

/-- `rjs_global_declaration_instantiation` (rjs_script.c:337-484). -/
def script (ds : List Decl) (g : Global) : Option (Res × Global) :=
  andThen (each checkLex (lexTable ds) g) fun g =>
  andThen (each checkVar (varTable ds []) g) fun g =>
  andThen (each checkCanFunc (funcTable ds []) g) fun g =>
  andThen (each checkCanVar (varTable ds []) g) fun g =>
  andThen (each addLex (lexTable ds) g) fun g =>
  andThen (each (fun x g => createFunc g x.1 x.2 false) (funcTable ds []) g) fun g =>
  each (fun n g => createVar g n false) (varTable ds []) g

/-! ## Eval -/

/-- What `HasBinding` of a `with` statement answers. -/
inductive Has
  | no
  | yes
  | throws
  deriving DecidableEq

/-- An environment between the `eval` and the environment of the variables. -/
inductive Frame
  /-- A block or the like. -/
  | block (l : Decls)
  /-- The parameter of a catch clause. -/
  | catch_ (l : Decls)
  | with_ (has : Nat → Has)

/-- `rjs_env_has_binding` taken for a truth value (rjs_eval_opt.c:88): an error is not zero. -/
def Frame.hasTrue : Frame → Nat → Bool
  | .block l, n => (look n l).isSome
  | .catch_ l, n => (look n l).isSome
  | .with_ h, n => h n != .no

/-- The state: the global environment, the variables of the function in which `eval` is called
directly (`none`: in the global code, or indirectly), the new environment of the `eval`
(rjs_eval_opt.c:386). -/
structure World where
  g : Global
  fn : Option Decls
  inner : Decls

/-- `var_env` (rjs_eval_opt.c:359-390). -/
inductive VarEnv
  | global
  | fn (l : Decls)
  | inner

/-- rjs_eval_opt.c:359-390. -/
def varEnv (strict : Bool) (w : World) : VarEnv :=
  if strict then .inner
  else
    match w.fn with
    | some l => .fn l
    | none => .global

/-- On the global environment. -/
def onG (f : Global → Option (Res × Global)) (w : World) : Option (Res × World) :=
  (f w.g).map fun x => (x.1, { w with g := x.2 })

/-- The names of one environment (rjs_eval_opt.c:82-93). -/
def checkFrame (ns : List Nat) (f : Frame) (w : World) : Option (Res × World) :=
  each (fun n w => errIf .syntax (some (f.hasTrue n)) w) ns w

/-- A function or variable in a declarative environment (rjs_eval_opt.c:173-179, 202-206); `over`
says that a binding that exists is assigned. -/
def declare (n : Nat) (v : Val) (over : Bool) (l : Decls) : Option Decls :=
  match look n l with
  | none =>
    match create n ⟨false, false, true, none⟩ l with
    | none => none
    | some l => initB n v l
  | some _ => if over then assign n v l else some l

/-- Creating a function (rjs_eval_opt.c:169-180) or a variable (193-209). -/
def evalDeclare (strict : Bool) (n : Nat) (v : Val) (over : Bool) (w : World) : Option (Res × World) :=
  match varEnv strict w with
  | .global => onG (fun g => if over then createFunc g n v true else createVar g n true) w
  | .fn l => (declare n v over l).map fun l => (.ok, { w with fn := some l })
  | .inner => (declare n v over w.inner).map fun l => (.ok, { w with inner := l })

/-- Whether the variables are global. -/
def isGlobal (strict : Bool) (w : World) : Bool :=
  match varEnv strict w with
  | .global => true
  | _ => false

/-- `rjs_eval_declaration_instantiation` (rjs_eval_opt.c:40-222). -/
def eval (strict : Bool) (frames : List Frame) (ds : List Decl) (w : World) : Option (Res × World) :=
  andThen (if !strict && isGlobal strict w then each (fun n => onG (checkVar n)) (varTable ds []) w else some (.ok, w)) fun w =>
  andThen (if !strict then each (checkFrame (varTable ds [])) (.block w.inner :: frames) w else some (.ok, w)) fun w =>
  andThen (if isGlobal strict w then each (fun x => onG (checkCanFunc x)) (funcTable ds []) w else some (.ok, w)) fun w =>
  andThen (if isGlobal strict w then each (fun n => onG (checkCanVar n)) (varTable ds []) w else some (.ok, w)) fun w =>
  andThen (each (fun x w => (create x.1 (newLex x.2) w.inner).map fun l => (.ok, { w with inner := l })) (lexTable ds) w) fun w =>
  andThen (each (fun x w => evalDeclare strict x.1 x.2 true w) (funcTable ds []) w) fun w =>
  each (fun n w => evalDeclare strict n .undef false w) (varTable ds []) w

/-! ## Histories -/

/-- What happens to the global environment. -/
inductive Op
  | script (ds : List Decl)
  /-- An `eval` whose variables are global. -/
  | eval (frames : List Frame) (ds : List Decl)
  | delete (n : Nat)
  /-- The program initialises or assigns a lexical binding. -/
  | init (n : Nat) (v : Val)
  | assign (n : Nat) (v : Val)
  /-- The program changes the global object. -/
  | user (o : Obj.Obj) (inh : Nat → Option Desc)

/-- One step. -/
def step (g : Global) : Op → Option Global
  | .script ds => (script ds g).map (·.2)
  | .eval fs ds => (eval false fs ds ⟨g, none, []⟩).map (·.2.g)
  | .delete n => (deleteBinding g n).map (·.2)
  | .init n v => (initB n v g.lex).map fun l => { g with lex := l }
  | .assign n v => if (look n g.lex).isSome then (assign n v g.lex).map fun l => { g with lex := l } else some g
  | .user o inh => some { g with obj := o, inh := inh }

/-- Several steps. -/
def run : Global → List Op → Option Global
  | g, [] => some g
  | g, op :: ops => (step g op).bind fun g => run g ops

/-- The global environment at the beginning (`rjs_global_env_new`, rjs_global_env.c:255-277). -/
def Global.new (o : Obj.Obj) (inh : Nat → Option Desc) : Global := ⟨o, inh, [], []⟩

end Verif.GlobalDecl

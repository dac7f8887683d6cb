/-!
# Control flow: statements, their byte code, and the interpreter's state stack

The compilation of statements to byte code commands (`src/lib/rjs_bc_gen.c`), the resolution of
`break`/`continue` targets by the parser (`src/lib/rjs_parser.c`) and the part of the interpreter
that runs jumps, `try` statements and the unwinding of the state stack (`src/lib/rjs_bc_call.c`,
`src/lib/rjs_native_stack.c`, `src/lib/rjs_iterator.c`, `src/lib/rjs_error.c`).

Expressions are arbitrary: one command runs a whole expression and either gives a value or throws.
Everything user code can do is a parameter (`Ex`, `World`).

Simplifications: byte code offsets are command indexes (`stub` commands are empty in the C code and
no-ops here) and jumps are not limited to 16 bits; registers are the generator's own (the later
packing of registers into 256 slots by `bc_gen_alloc_reg` is not modelled); the states an expression
pushes for itself are not modelled; `yield`, `await` and tail calls are not modelled; values are not
reference counted.
-/

namespace Verif.Flow

/-- What a call into user code leaves in `rt->error_flag`/`rt->error` when it completes normally:
the fields untouched, cleared (the callee caught something: `rjs_catch`,
`src/lib/rjs_error.c:350-363`), or set to the value of a throw that a `finally` of the callee has
overridden (`src/lib/rjs_bc_call.c:1325-1353` does not clear the flag). -/
inductive Fx (V : Type) where
  | keep
  | clear
  | stale (v : V)

/-- The result of running user code: the new state of the world and a value, or a thrown value. -/
inductive Res (σ V A : Type) where
  | ok (w : σ) (a : A) (fx : Fx V)
  | thr (w : σ) (v : V)

/-- An expression: reads the lexical environment (the declarations in scope, innermost first) and
the world. -/
abbrev Ex (σ V : Type) := List Nat → σ → Res σ V V

/-- What the interpreter asks of values and of user objects.  `openIt of v` is `GetIterator`
(`of`) or the enumeration of `v`'s properties; `stepIt` gives the next value, or nothing at the end
(`rjs_iterator_step`/`rjs_iterator_value`); `closeIt` calls the iterator's `return` method, a result
that is not an object counting as a thrown `TypeError` (`src/lib/rjs_iterator.c:278-294`);
`perIter` copies the loop variables to a new environment (`bc_next_lex_env`,
`src/lib/rjs_bc_call.c:103-108`). -/
structure World (σ V : Type) where
  undef : V
  ofBool : Bool → V
  truthy : V → Bool
  truthy_ofBool : ∀ b, truthy (ofBool b) = b
  strictEq : V → V → Bool
  openIt : Bool → V → σ → Res σ V V
  stepIt : Bool → V → σ → Res σ V (Option V)
  closeIt : V → σ → Res σ V Unit
  perIter : List Nat → σ → σ

/-- Statements (`include/rjs_ast*`, dispatch at `src/lib/rjs_bc_gen.c:4020-4150`).  `nil`/`cons`
are statement lists; `case` is a clause of a switch followed by the other clauses (`none`: the
default clause); the numbers name declaration scopes and labels. -/
inductive Stmt (σ V : Type) where
  | nil
  | cons (s rest : Stmt σ V)
  /-- empty statement, function declaration, `debugger` -/
  | empty
  /-- expression statement -/
  | expr (e : Ex σ V)
  /-- `var`, `let`, `const` and class declarations -/
  | decl (e : Ex σ V)
  | block (d : Nat) (b : Stmt σ V)
  /-- `else` absent: `nil` -/
  | ite (c : Ex σ V) (s t : Stmt σ V)
  | doWhile (s : Stmt σ V) (c : Ex σ V)
  | while_ (c : Ex σ V) (s : Stmt σ V)
  | for_ (d : Option Nat) (init cond step : Option (Ex σ V)) (s : Stmt σ V)
  /-- `for`-`in` (`of = false`) and `for`-`of` (`of = true`) -/
  | forIn (of : Bool) (d : Option Nat) (e : Ex σ V) (bind : V → Ex σ V) (s : Stmt σ V)
  | switch (d : Nat) (e : Ex σ V) (cases : Stmt σ V)
  | case (c : Option (Ex σ V)) (b rest : Stmt σ V)
  /-- `hc`, `hf`: there is a catch, a finally block; `cd`: the catch parameter -/
  | try_ (b : Stmt σ V) (hc : Bool) (cd : Option (Nat × (V → Ex σ V))) (c : Stmt σ V)
      (hf : Bool) (f : Stmt σ V)
  | with_ (e : Ex σ V) (d : Nat) (s : Stmt σ V)
  | throw_ (e : Ex σ V)
  | ret (e : Option (Ex σ V))
  | brk (l : Option Nat)
  | cont (l : Option Nat)
  | labelled (n : Nat) (s : Stmt σ V)

/-! ## The parser: which jumps are accepted -/

/-- An entry of `func->break_stack`/`func->continue_stack` (`RJS_AstJumpStack`) as the parser sees
it: the labels of the statement and whether a `break` without label stops here. -/
abbrev PTgt := List Nat × Bool

/-- The label of the default clause (`default_lid`, `src/lib/rjs_bc_gen.c:3474-3480`), the clauses
having the labels from `nl` on. -/
def defLab {σ V : Type} : Stmt σ V → Nat → Option Nat
  | .case (some _) _ rest, nl => defLab rest (nl + 1)
  | .case none _ _, nl => some nl
  | _, _ => none

/-- The jumps and labels the parser accepts.  `lb`: `func->label_stack`; `ls`: the labels of this
very statement; `bs`, `cs`: `func->break_stack`, `func->continue_stack`
(`src/lib/rjs_parser.c:1406-1445`).  `break`: 7015-7083; `continue`: 7085-7143; labels: 7284-7330;
the statements that push: block 2758, if 6291, do 6328, while 6373, for 6598, switch 6748,
with 6832, try 6905-6907 (only around the try block). -/
def parse {σ V : Type} : List Nat → List Nat → List PTgt → List PTgt → Stmt σ V → Bool
  | _, _, _, _, .nil => true
  | lb, _, bs, cs, .cons s r => parse lb [] bs cs s && parse lb [] bs cs r
  | _, _, _, _, .empty => true
  | _, _, _, _, .expr _ => true
  | _, _, _, _, .decl _ => true
  | lb, ls, bs, cs, .block _ b => parse lb [] ((ls, false) :: bs) cs b
  | lb, ls, bs, cs, .ite _ s t =>
      parse lb [] ((ls, false) :: bs) cs s && parse lb [] ((ls, false) :: bs) cs t
  | lb, ls, bs, cs, .doWhile s _ => parse lb [] ((ls, true) :: bs) ((ls, true) :: cs) s
  | lb, ls, bs, cs, .while_ _ s => parse lb [] ((ls, true) :: bs) ((ls, true) :: cs) s
  | lb, ls, bs, cs, .for_ _ _ _ _ s => parse lb [] ((ls, true) :: bs) ((ls, true) :: cs) s
  | lb, ls, bs, cs, .forIn _ _ _ _ s => parse lb [] ((ls, true) :: bs) ((ls, true) :: cs) s
  | lb, ls, bs, cs, .switch _ _ c => clauses lb ((ls, true) :: bs) cs c
  | _, _, _, _, .case _ _ _ => false
  | lb, ls, bs, cs, .try_ b hc _ c hf f =>
      parse lb [] ((ls, false) :: bs) cs b && (hc || hf) &&
        (!hc || parse lb [] bs cs c) && (!hf || parse lb [] bs cs f)
  | lb, ls, bs, cs, .with_ _ _ s => parse lb [] ((ls, false) :: bs) cs s
  | _, _, _, _, .throw_ _ => true
  | _, _, _, _, .ret _ => true
  | _, _, bs, _, .brk none => bs.any (·.2)
  | lb, ls, bs, _, .brk (some n) =>
      decide (n ∈ lb) && (decide (n ∈ ls) || bs.any (fun t => decide (n ∈ t.1)))
  | _, _, _, cs, .cont none => !cs.isEmpty
  | lb, _, _, cs, .cont (some n) => decide (n ∈ lb) && cs.any (fun t => decide (n ∈ t.1))
  | lb, ls, bs, cs, .labelled n s => !decide (n ∈ lb) && parse (n :: lb) (n :: ls) bs cs s
where
  /-- The clauses of a switch (`src/lib/rjs_parser.c:6753-6788`); a second default clause is an
  error (6769-6775). -/
  clauses {σ V : Type} : List Nat → List PTgt → List PTgt → Stmt σ V → Bool
  | lb, bs, cs, .case c b r =>
      parse lb [] bs cs b && (c.isSome || (defLab r 0).isNone) && clauses lb bs cs r
  | _, _, _, .nil => true
  | _, _, _, _ => false

/-! ## The generator -/

/-- The commands of statements (`gen/` tables; `src/lib/rjs_bc_call.c:1091-1215` for those of the
control flow).  `ex` runs an expression into a register, `bind` a binding assignment. -/
inductive Cmd (σ V : Type) where
  | ex (e : Ex σ V) (dest : Nat)
  | bind (f : V → Ex σ V) (src : Nat)
  | loadU (dest : Nat)
  | dup (src dest : Nat)
  | seq (a b dest : Nat)
  | pushEnv (d : Nat)
  | nextEnv
  | pushIt (of : Bool) (src : Nat)
  | forStep (done value : Nat)
  | jmp (l : Nat)
  | jT (r l : Nat)
  | jF (r l : Nat)
  | pushTry (lc lf : Nat)
  | catchE (dest : Nat)
  | fin
  | tryEnd
  | pop
  | throwR (r : Nat)
  | retR (r : Nat)
  | stub (l : Nat)

/-- A jump destination: label, `stack_depth` of the label, return value register
(`RJS_AstJumpStack` with `bg->label.items[].stack_depth`). -/
structure J where
  l : Nat
  d : Nat
  rv : Option Nat
deriving Repr, DecidableEq

/-- An entry of the break or continue stack with its destination. -/
structure Tgt where
  names : List Nat
  brk : Bool
  j : J
deriving Repr

/-- The destination of `break`/`continue` (`src/lib/rjs_parser.c:7037-7063`, `7107-7126`). -/
def lookup (bs : List Tgt) : Option Nat → Option J
  | none => (bs.find? (·.brk)).map (·.j)
  | some n => (bs.find? (fun t => decide (n ∈ t.names))).map (·.j)

/-- What the generator knows at a statement: `bg->stack_depth`, `bg->rv_reg`, the jump stacks, and
the label of the next switch clause (`cc->label`). -/
structure Env where
  d : Nat
  rv : Option Nat
  bs : List Tgt
  cs : List Tgt
  clab : Nat

/-- Code with the next free register and label (`bc_reg_add`, `bc_label_add`,
`src/lib/rjs_bc_gen.c:168-204`). -/
structure G (σ V : Type) where
  code : List (Cmd σ V)
  nr : Nat
  nl : Nat

variable {σ V : Type}

/-- `if (bg->rv_reg != -1) load_undefined` (e.g. `src/lib/rjs_bc_gen.c:2408-2412`). -/
def loadRv (rv : Option Nat) : List (Cmd σ V) :=
  match rv with
  | some r => [.loadU r]
  | none => []

/-- `bc_gen_jump_stmt` (`src/lib/rjs_bc_gen.c:2683-2728`). -/
def jump (E : Env) (j : J) : List (Cmd σ V) :=
  List.replicate (E.d - j.d) .pop ++
    (match E.rv, j.rv with
     | some r, some r' => if r = r' then [] else [.dup r r']
     | _, _ => []) ++ [.jmp j.l]

/-- An optional `push_lex_env`. -/
def pushD (d : Option Nat) : List (Cmd σ V) :=
  match d with
  | some i => [.pushEnv i]
  | none => []

/-- An optional `pop_state`. -/
def popD (d : Option Nat) : List (Cmd σ V) :=
  match d with
  | some _ => [.pop]
  | none => []

/-- An optional `next_lex_env`. -/
def nextD (d : Option Nat) : List (Cmd σ V) :=
  match d with
  | some _ => [.nextEnv]
  | none => []

/-- Stack depth added by an optional environment. -/
def depD (d : Option Nat) : Nat :=
  match d with
  | some _ => 1
  | none => 0

/-- An optional expression into a register. -/
def exO (e : Option (Ex σ V)) (r : Nat) : List (Cmd σ V) :=
  match e with
  | some e => [.ex e r]
  | none => []

/-- Registers taken by an optional expression. -/
def regO (e : Option (Ex σ V)) : Nat :=
  match e with
  | some _ => 1
  | none => 0

/-- An optional loop condition (`src/lib/rjs_bc_gen.c:3153-3163`). -/
def condO (e : Option (Ex σ V)) (r l : Nat) : List (Cmd σ V) :=
  match e with
  | some e => [.ex e r, .jF r l]
  | none => []

/-- The environment and the binding of a catch parameter (`src/lib/rjs_bc_gen.c:3580-3603`). -/
def catchO (cd : Option (Nat × (V → Ex σ V))) (r : Nat) : List (Cmd σ V) :=
  match cd with
  | some (i, g) => [.pushEnv i, .bind g r]
  | none => []

/-- The clause conditions of a switch (`src/lib/rjs_bc_gen.c:3447-3481`): registers `cr`, `tr` and
a label each. -/
def genConds (rid : Nat) : Stmt σ V → Nat → Nat → G σ V
  | .case (some e) _ rest, nr, nl =>
      let r := genConds rid rest (nr + 2) (nl + 1)
      ⟨[.ex e nr, .seq rid nr (nr + 1), .jT (nr + 1) nl] ++ r.code, r.nr, r.nl⟩
  | .case none _ rest, nr, nl => genConds rid rest nr (nl + 1)
  | _, nr, nl => ⟨[], nr, nl⟩

/-- `bc_gen_stmt` and what it calls (`src/lib/rjs_bc_gen.c:2326-2728`, `3088-3710`, `4018-4163`).
`ls`: the labels of the statement. -/
def gen : Env → List Nat → Stmt σ V → Nat → Nat → G σ V
  | _, _, .nil, nr, nl => ⟨[], nr, nl⟩
  | E, _, .cons s r, nr, nl =>
      let a := gen E [] s nr nl
      let b := gen E [] r a.nr a.nl
      ⟨a.code ++ b.code, b.nr, b.nl⟩
  | _, _, .empty, nr, nl => ⟨[], nr, nl⟩
  | E, _, .expr e, nr, nl =>
      match E.rv with
      | some r => ⟨[.ex e r], nr, nl⟩
      | none => ⟨[.ex e nr], nr + 1, nl⟩
  | _, _, .decl e, nr, nl => ⟨[.ex e nr], nr + 1, nl⟩
  | E, ls, .block d b, nr, nl =>
      match b with
      | .nil => ⟨[], nr, nl⟩
      | b =>
        let a := gen { E with d := E.d + 1, bs := ⟨ls, false, ⟨nl, E.d + 1, E.rv⟩⟩ :: E.bs } [] b
          nr (nl + 1)
        ⟨[.pushEnv d] ++ (a.code ++ [.stub nl, .pop]), a.nr, a.nl⟩
  | E, ls, .ite c s t, nr, nl =>
      let E' := { E with bs := ⟨ls, false, ⟨nl + 1, E.d, E.rv⟩⟩ :: E.bs }
      let a := gen E' [] s (nr + 1) (nl + 2)
      let b := gen E' [] t a.nr a.nl
      ⟨loadRv E.rv ++ ([.ex c nr, .jF nr nl] ++ (a.code ++ ([.jmp (nl + 1), .stub nl] ++
        (b.code ++ [.stub (nl + 1)])))), b.nr, b.nl⟩
  | E, ls, .doWhile s c, nr, nl =>
      let E' := { E with bs := ⟨ls, true, ⟨nl + 1, E.d, E.rv⟩⟩ :: E.bs,
                         cs := ⟨ls, true, ⟨nl + 2, E.d, E.rv⟩⟩ :: E.cs }
      let a := gen E' [] s (nr + 1) (nl + 3)
      ⟨loadRv E.rv ++ ([.stub nl] ++ (a.code ++
        [.stub (nl + 2), .ex c nr, .jT nr nl, .stub (nl + 1)])), a.nr, a.nl⟩
  | E, ls, .while_ c s, nr, nl =>
      let E' := { E with bs := ⟨ls, true, ⟨nl + 1, E.d, E.rv⟩⟩ :: E.bs,
                         cs := ⟨ls, true, ⟨nl, E.d, E.rv⟩⟩ :: E.cs }
      let a := gen E' [] s (nr + 1) (nl + 2)
      ⟨loadRv E.rv ++ ([.stub nl, .ex c nr, .jF nr (nl + 1)] ++ (a.code ++
        [.jmp nl, .stub (nl + 1)])), a.nr, a.nl⟩
  | E, ls, .for_ d init cond step s, nr, nl =>
      let dd := E.d + depD d
      let r1 := nr + regO init
      let r2 := r1 + regO cond
      let E' := { E with d := dd, bs := ⟨ls, true, ⟨nl + 2, dd, E.rv⟩⟩ :: E.bs,
                         cs := ⟨ls, true, ⟨nl + 1, dd, E.rv⟩⟩ :: E.cs }
      let a := gen E' [] s r2 (nl + 3)
      ⟨pushD d ++ (exO init nr ++ (loadRv E.rv ++ (nextD d ++ ([.stub nl] ++
        (condO cond r1 (nl + 2) ++ (a.code ++ ([.stub (nl + 1)] ++ (nextD d ++ (exO step a.nr ++
        ([.jmp nl, .stub (nl + 2)] ++ popD d)))))))))), a.nr + regO step, a.nl⟩
  | E, ls, .forIn of d e f s, nr, nl =>
      let E' := { E with d := E.d + 1 + depD d,
                         bs := ⟨ls, true, ⟨nl + 1, E.d + 1, E.rv⟩⟩ :: E.bs,
                         cs := ⟨ls, true, ⟨nl, E.d + 1, E.rv⟩⟩ :: E.cs }
      let a := gen E' [] s (nr + 3) (nl + 2)
      ⟨pushD d ++ ([.ex e nr] ++ (popD d ++ ([.pushIt of nr] ++ (loadRv E.rv ++
        ([.stub nl, .forStep (nr + 1) (nr + 2), .jF (nr + 1) (nl + 1)] ++ (pushD d ++
        ([.bind f (nr + 2)] ++ (a.code ++ (popD d ++
        [.jmp nl, .stub (nl + 1), .pop]))))))))), a.nr, a.nl⟩
  | E, ls, .switch d e cases, nr, nl =>
      let q := genConds nr cases (nr + 1) (nl + 1)
      let E' := { E with d := E.d + 1, bs := ⟨ls, true, ⟨nl, E.d + 1, E.rv⟩⟩ :: E.bs,
                         clab := nl + 1 }
      let a := gen E' [] cases q.nr q.nl
      ⟨[.ex e nr] ++ (loadRv E.rv ++ ([.pushEnv d] ++ (q.code ++
        ([.jmp ((defLab cases (nl + 1)).getD nl)] ++ (a.code ++ [.stub nl, .pop]))))), a.nr, a.nl⟩
  | E, _, .case _ b rest, nr, nl =>
      let a := gen E [] b nr nl
      let r := gen { E with clab := E.clab + 1 } [] rest a.nr a.nl
      ⟨[.stub E.clab] ++ (a.code ++ r.code), r.nr, r.nl⟩
  | E, ls, .try_ b hc cd c hf f, nr, nl =>
      let a := gen { E with d := E.d + 1, bs := ⟨ls, false, ⟨nl + 3, E.d + 1, E.rv⟩⟩ :: E.bs } [] b
        nr (nl + 4)
      let k := gen { E with d := E.d + 1 + depD (cd.map Prod.fst) } [] c (a.nr + 1) a.nl
      let kc : G σ V := match hc with
        | true => ⟨[.catchE a.nr] ++ (catchO cd a.nr ++ (k.code ++ popD (cd.map Prod.fst))), k.nr, k.nl⟩
        | false => ⟨[], a.nr, a.nl⟩
      let z := gen { E with d := E.d + 1, rv := E.rv.map (fun _ => kc.nr) } [] f
        (kc.nr + (if E.rv.isSome then 1 else 0)) kc.nl
      let zc : G σ V := match hf with
        | true => ⟨[.fin] ++ (loadRv (E.rv.map (fun _ => kc.nr)) ++ z.code), z.nr, z.nl⟩
        | false => ⟨[], kc.nr, kc.nl⟩
      ⟨loadRv E.rv ++ ([.pushTry nl (nl + 1)] ++ (a.code ++ ([.jmp (nl + 1), .stub nl] ++ (kc.code ++
        ([.stub (nl + 1), .stub (nl + 3)] ++ (zc.code ++ [.tryEnd, .stub (nl + 2), .pop])))))),
        zc.nr, zc.nl⟩
  | E, ls, .with_ e d s, nr, nl =>
      let a := gen { E with d := E.d + 1, bs := ⟨ls, false, ⟨nl, E.d + 1, E.rv⟩⟩ :: E.bs } [] s
        (nr + 1) (nl + 1)
      ⟨[.ex e nr] ++ (loadRv E.rv ++ ([.pushEnv d] ++ (a.code ++ [.stub nl, .pop]))), a.nr, a.nl⟩
  | _, _, .throw_ e, nr, nl => ⟨[.ex e nr, .throwR nr], nr + 1, nl⟩
  | _, _, .ret (some e), nr, nl => ⟨[.ex e nr, .retR nr], nr + 1, nl⟩
  | _, _, .ret none, nr, nl => ⟨[.loadU nr, .retR nr], nr + 1, nl⟩
  | E, ls, .brk l, nr, nl =>
      if l.any (fun n => decide (n ∈ ls)) then ⟨[], nr, nl⟩
      else match lookup E.bs l with
        | some j => ⟨jump E j, nr, nl⟩
        | none => ⟨[], nr, nl⟩
  | E, _, .cont l, nr, nl =>
      match lookup E.cs l with
      | some j => ⟨jump E j, nr, nl⟩
      | none => ⟨[], nr, nl⟩
  | E, ls, .labelled n s, nr, nl => gen E (n :: ls) s nr nl

/-- The code of a function body (`src/lib/rjs_bc_gen.c:4554`; no return value register). -/
def genFunc (s : Stmt σ V) : List (Cmd σ V) :=
  (gen ⟨0, none, [], [], 0⟩ [] s 0 0).code

/-- The code of an `eval` text (`src/lib/rjs_bc_gen.c:4458-4472`, `4554-4564`): the value of the
last statement is returned. -/
def genEval (s : Stmt σ V) : List (Cmd σ V) :=
  [.loadU 0] ++ ((gen ⟨0, some 0, [], [], 0⟩ [] s 1 0).code ++ [.retR 0])

/-! ## The interpreter -/

/-- `RJS_TryState` (`src/lib/include/rjs_native_stack.h:52-57`). -/
inductive Phase where
  | try_ | catch_ | fin | end_
deriving Repr, DecidableEq

/-- `RJS_TryNextOp` (`src/lib/include/rjs_native_stack.h:60-64`); also the way of leaving the run
loop: `normal` stands for `RJS_OK`, `throw` for `RJS_ERR`, `ret` for `RJS_RETURN`. -/
inductive Op where
  | normal | throw | ret
deriving Repr, DecidableEq

/-- An entry of the state stack (`RJS_State`, `src/lib/include/rjs_native_stack.h:76-120`). -/
inductive Ent (V : Type) where
  | env
  | iter (of : Bool) (it : V) (done : Bool)
  | tr (ph : Phase) (op : Op) (err : V) (cip fip : Nat) (nip : Option Nat)

/-- The running script context with `rt->error_flag` and `rt->error`. -/
structure M (σ V : Type) where
  ip : Nat
  w : σ
  regs : Nat → V
  env : List Nat
  stk : List (Ent V)
  flag : Bool
  err : V
  retv : V

/-- How a call ends; `stuck` is a failed assertion. -/
inductive Fin (σ V : Type) where
  | val (w : σ) (v : V)
  | thr (w : σ) (v : V)
  | stuck

/-- Write a register. -/
def setR (regs : Nat → V) (r : Nat) (v : V) : Nat → V := fun i => if i = r then v else regs i

/-- The error fields after user code that completed normally. -/
def applyFx (W : World σ V) (fx : Fx V) (flag : Bool) (err : V) : Bool × V :=
  match fx with
  | .keep => (flag, err)
  | .clear => (false, W.undef)
  | .stale v => (true, v)

/-- `rjs_catch` reads the error (`src/lib/rjs_error.c:350-363`). -/
def caught (W : World σ V) (m : M σ V) : V := if m.flag then m.err else W.undef

/-- `rjs_iterator_close` (`src/lib/rjs_iterator.c:265-302`): with the error flag set the error value
(not the flag) is saved and restored. -/
def closeM (W : World σ V) (it : V) (m : M σ V) : M σ V × Bool :=
  match W.closeIt it m.w with
  | .ok w _ fx =>
      let fe := applyFx W fx m.flag m.err
      ({ m with w := w, flag := fe.1, err := if m.flag then m.err else fe.2 }, true)
  | .thr w v => ({ m with w := w, flag := true, err := if m.flag then m.err else v }, false)

/-- The unwinding at `ret:`/`error:` (`src/lib/rjs_bc_call.c:1325-1371`) with the pops of
`src/lib/rjs_native_stack.c:80-165`.  A state of a `try` statement whose try or catch block is left
restarts the run loop. -/
def unwind (W : World σ V) : List (Ent V) → Op → M σ V → M σ V ⊕ Fin σ V
  | [], r, m =>
      match r with
      | .throw => .inr (.thr m.w (caught W m))
      | _ => .inr (.val m.w m.retv)
  | .env :: k, r, m => unwind W k r { m with env := m.env.tail }
  | .iter of it done :: k, r, m =>
      if of && !done then
        match closeM W it m with
        | (m', true) => unwind W k r m'
        | (m', false) => unwind W k .throw m'
      else unwind W k r m
  | .tr ph op err c f n :: k, r, m =>
      let op' := match r with
        | .throw => Op.throw
        | .ret => Op.ret
        | .normal => op
      match ph with
      | .try_ =>
          .inl { m with
            stk := .tr ph op' (if r = .throw then m.err else err) c f n :: k
            ip := if r = .throw then c else f }
      | .catch_ =>
          .inl { m with
            stk := .tr ph op' (if r = .throw then m.err else err) c f n :: k
            ip := f }
      | .fin => unwind W k r m
      | .end_ => .inr .stuck

/-- The position of a label (`lab->cmd_off`). -/
def pos (code : List (Cmd σ V)) (l : Nat) : Nat :=
  code.findIdx (fun c => match c with
    | .stub k => k == l
    | _ => false)

/-- One expression into a continuation, or the unwinding of its throw. -/
def runEx (W : World σ V) (m : M σ V) (r : Res σ V V) (k : V → M σ V → M σ V) : M σ V ⊕ Fin σ V :=
  match r with
  | .ok w v fx =>
      let fe := applyFx W fx m.flag m.err
      .inl (k v { m with w := w, flag := fe.1, err := fe.2, ip := m.ip + 1 })
  | .thr w v => unwind W m.stk .throw { m with w := w, flag := true, err := v }

/-- `bc_pop_state` (`src/lib/rjs_bc_call.c:1091-1140`). -/
def popState (W : World σ V) (m : M σ V) : M σ V ⊕ Fin σ V :=
  match m.stk with
  | [] => .inr .stuck
  | .env :: k => .inl { m with ip := m.ip + 1, env := m.env.tail, stk := k }
  | .iter of it done :: k =>
      if of && !done then
        match closeM W it m with
        | (m', true) => .inl { m' with ip := m.ip + 1, stk := k }
        | (m', false) => unwind W k .throw m'
      else .inl { m with ip := m.ip + 1, stk := k }
  | .tr ph op err c f n :: k =>
      match ph with
      | .try_ => .inl { m with stk := .tr ph op err c f (some (m.ip + 1)) :: k, ip := f }
      | .catch_ => .inl { m with stk := .tr ph op err c f (some (m.ip + 1)) :: k, ip := f }
      | .fin =>
          match op with
          | .normal => .inl { m with ip := m.ip + 1, stk := k }
          | .throw => .inl { m with ip := m.ip + 1, stk := k }
          | .ret => unwind W k .ret m
      | .end_ =>
          match op with
          | .normal =>
              match n with
              | some a => .inl { m with ip := a, stk := k }
              | none => .inl { m with ip := m.ip + 1, stk := k }
          | .throw => unwind W k .throw { m with err := err, flag := true }
          | .ret => unwind W k .ret m

/-- `bc_for_step` with `rjs_iter_state_step` (`src/lib/rjs_bc_call.c:137-140`,
`src/lib/rjs_native_stack.c:290-325`). -/
def forStepM (W : World σ V) (done value : Nat) (m : M σ V) : M σ V ⊕ Fin σ V :=
  match m.stk with
  | .iter of it dn :: k =>
      if dn then
        .inl { m with ip := m.ip + 1,
                      regs := setR (setR m.regs value W.undef) done (W.ofBool false) }
      else
        match W.stepIt of it m.w with
        | .ok w (some v) fx =>
            .inl { m with
              ip := m.ip + 1
              w := w
              regs := setR (setR m.regs value v) done (W.ofBool true)
              flag := (applyFx W fx m.flag m.err).1
              err := (applyFx W fx m.flag m.err).2 }
        | .ok w none fx =>
            .inl { m with
              ip := m.ip + 1
              w := w
              regs := setR (setR m.regs value W.undef) done (W.ofBool false)
              stk := .iter of it true :: k
              flag := (applyFx W fx m.flag m.err).1
              err := (applyFx W fx m.flag m.err).2 }
        | .thr w v => unwind W (.iter of it true :: k) .throw { m with w := w, flag := true, err := v }
  | _ => .inr .stuck

/-- Set the phase of the `try` state on top (`bc_finally`, `bc_try_end`,
`src/lib/rjs_bc_call.c:1168-1177`). -/
def setPhase (ph : Phase) (m : M σ V) : M σ V ⊕ Fin σ V :=
  match m.stk with
  | .tr _ op err c f n :: k => .inl { m with ip := m.ip + 1, stk := .tr ph op err c f n :: k }
  | _ => .inr .stuck

/-- One command (`src/lib/rjs_bc_call.c:72-140`, `1091-1215`). -/
def exec (W : World σ V) (code : List (Cmd σ V)) (m : M σ V) : Cmd σ V → M σ V ⊕ Fin σ V
  | .ex e dest => runEx W m (e m.env m.w) (fun v m' => { m' with regs := setR m'.regs dest v })
  | .bind f src => runEx W m (f (m.regs src) m.env m.w) (fun _ m' => m')
  | .loadU dest => .inl { m with ip := m.ip + 1, regs := setR m.regs dest W.undef }
  | .dup src dest => .inl { m with ip := m.ip + 1, regs := setR m.regs dest (m.regs src) }
  | .seq a b dest =>
      .inl { m with ip := m.ip + 1,
                    regs := setR m.regs dest (W.ofBool (W.strictEq (m.regs a) (m.regs b))) }
  | .pushEnv d => .inl { m with ip := m.ip + 1, env := d :: m.env, stk := .env :: m.stk }
  | .nextEnv => .inl { m with ip := m.ip + 1, w := W.perIter m.env m.w }
  | .pushIt of src =>
      runEx W m (W.openIt of (m.regs src) m.w)
        (fun it m' => { m' with stk := .iter of it false :: m'.stk })
  | .forStep done value => forStepM W done value m
  | .jmp l => .inl { m with ip := pos code l }
  | .jT r l => .inl { m with ip := if W.truthy (m.regs r) then pos code l else m.ip + 1 }
  | .jF r l => .inl { m with ip := if W.truthy (m.regs r) then m.ip + 1 else pos code l }
  | .pushTry lc lf =>
      .inl { m with
        ip := m.ip + 1
        stk := .tr .try_ .normal W.undef (pos code lc) (pos code lf) none :: m.stk }
  | .catchE dest =>
      match m.stk with
      | .tr _ _ err c f n :: k =>
          .inl { m with
            ip := m.ip + 1
            stk := .tr .catch_ .normal err c f n :: k
            regs := setR m.regs dest (caught W m)
            flag := false
            err := if m.flag then W.undef else m.err }
      | _ => .inr .stuck
  | .fin => setPhase .fin m
  | .tryEnd => setPhase .end_ m
  | .pop => popState W m
  | .throwR r => unwind W m.stk .throw { m with flag := true, err := m.regs r }
  | .retR r => unwind W m.stk .ret { m with retv := m.regs r }
  | .stub _ => .inl { m with ip := m.ip + 1 }

/-- One turn of the run loop (`src/lib/rjs_bc_call.c:1299-1323`): past the end of the code the call
returns. -/
def step (W : World σ V) (code : List (Cmd σ V)) (m : M σ V) : M σ V ⊕ Fin σ V :=
  match code[m.ip]? with
  | some c => exec W code m c
  | none => unwind W m.stk .normal m

/-- `k` turns. -/
def run (W : World σ V) (code : List (Cmd σ V)) : Nat → M σ V ⊕ Fin σ V → M σ V ⊕ Fin σ V
  | 0, x => x
  | k + 1, .inl m => run W code k (step W code m)
  | _ + 1, .inr f => .inr f

/-- A call begins: no states, no error, the return value undefined. -/
def start (W : World σ V) (env : List Nat) (w : σ) : M σ V :=
  ⟨0, w, fun _ => W.undef, env, [], false, W.undef, W.undef⟩

end Verif.Flow

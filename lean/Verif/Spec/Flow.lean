import Verif.Model.Flow

/-!
# The standard's evaluation of statements

ECMA-262 (2023), chapter 14: completion records, `UpdateEmpty`, `LoopContinues`, label sets,
`IteratorClose` and the evaluation of each statement.  The statements, the expressions and the world
are those of `Verif.Model.Flow`; nothing else of the model is used.  Loops take fuel: `none` means
that the fuel is used up.
-/

namespace Verif.Flow.Spec

open Verif.Flow

/-- Completion records (6.2.4); the value of a break, continue or normal completion may be empty. -/
inductive Comp (V : Type) where
  | normal (v : Option V)
  | brk (v : Option V) (t : Option Nat)
  | cont (v : Option V) (t : Option Nat)
  | ret (v : V)
  | thr (v : V)

variable {σ V : Type}

/-- UpdateEmpty (6.2.4.3). -/
def upd (c : Comp V) (v : Option V) : Comp V :=
  match c with
  | .normal none => .normal v
  | .brk none t => .brk v t
  | .cont none t => .cont v t
  | c => c

/-- The value of a completion that goes on. -/
def value : Comp V → Option V
  | .normal v => v
  | .brk v _ => v
  | .cont v _ => v
  | _ => none

/-- LoopContinues (14.7.1.1). -/
def loopContinues (c : Comp V) (ls : List Nat) : Bool :=
  match c with
  | .normal _ => true
  | .cont _ none => true
  | .cont _ (some n) => decide (n ∈ ls)
  | _ => false

/-- The end of a breakable statement (14.1.1 LabelledEvaluation): a break without target ends here. -/
def breakable (W : World σ V) (c : Comp V) : Comp V :=
  match c with
  | .brk none none => .normal (some W.undef)
  | .brk v none => .normal v
  | c => c

/-- The end of a labelled statement (14.13.4 LabelledEvaluation): a break with this target ends here. -/
def breakAt (k : Nat) (c : Comp V) : Comp V :=
  match c with
  | .brk v (some i) => if i = k then .normal v else .brk v (some i)
  | c => c

/-- Repeat a step, at most `n` times, until it gives a result. -/
def iterate {α β : Type} (f : α → Option (α ⊕ β)) : Nat → α → Option β
  | 0, _ => none
  | n + 1, a =>
      match f a with
      | none => none
      | some (.inl a') => iterate f n a'
      | some (.inr b) => some b

/-- Outcomes. -/
abbrev Out (σ V : Type) := Option (σ × Comp V)

/-- Go on with the value of an expression, or complete with its throw (`?`). -/
def andThen {A : Type} (r : Res σ V A) (k : σ → A → Out σ V) : Out σ V :=
  match r with
  | .ok w a _ => k w a
  | .thr w v => some (w, .thr v)

/-- Statement lists (14.2.2): the value of the list is that of the last statement with a value. -/
def seqC (r : Out σ V) (k : σ → Out σ V) : Out σ V :=
  match r with
  | none => none
  | some (w, .normal v) =>
      match k w with
      | none => none
      | some (w', c) => some (w', upd c v)
  | some (w, c) => some (w, c)

/-- Change the completion of an outcome. -/
def mapC (f : Comp V → Comp V) (r : Out σ V) : Out σ V :=
  r.map (fun p => (p.1, f p.2))

/-- IteratorClose (7.4.9). -/
def iteratorClose (W : World σ V) (it : V) (w : σ) (c : Comp V) : σ × Comp V :=
  match W.closeIt it w with
  | .ok w' _ _ => (w', c)
  | .thr w' v =>
      match c with
      | .thr u => (w', .thr u)
      | _ => (w', .thr v)

/-- CaseClauseIsSelected, applied to the clauses in order (14.12.2): the number of the selected
clause. -/
def select (W : World σ V) (env : List Nat) (x : V) : Stmt σ V → σ → Res σ V (Option Nat)
  | .case (some e) _ rest, w =>
      match e env w with
      | .thr w' v => .thr w' v
      | .ok w' v fx =>
          if W.strictEq x v then .ok w' (some 0) fx
          else
            match select W env x rest w' with
            | .ok w'' r fx => .ok w'' (r.map (· + 1)) fx
            | .thr w'' v => .thr w'' v
  | .case none _ rest, w =>
      match select W env x rest w with
      | .ok w'' r fx => .ok w'' (r.map (· + 1)) fx
      | .thr w'' v => .thr w'' v
  | _, w => .ok w none .keep

/-- The number of the default clause. -/
def defaultClause : Stmt σ V → Option Nat
  | .case (some _) _ rest => (defaultClause rest).map (· + 1)
  | .case none _ _ => some 0
  | _ => none

/-- The number of clauses. -/
def clauseCount : Stmt σ V → Nat
  | .case _ _ rest => clauseCount rest + 1
  | _ => 0

/-- One turn of a loop body (14.7): with a completion that does not continue the loop, `done` says
what comes out; otherwise `next` goes on with the last value. -/
def turn {α : Type} (r : Out σ V) (ls : List Nat) (v : V) (next : σ → V → Option (α ⊕ (σ × Comp V)))
    (done : σ → Comp V → σ × Comp V) : Option (α ⊕ (σ × Comp V)) :=
  match r with
  | none => none
  | some (w, c) =>
      if loopContinues c ls then next w ((value c).getD v)
      else some (.inr (done w (upd c (some v))))

/-- Evaluate the condition of a loop; without condition it holds. -/
def test {α : Type} (W : World σ V) (c : Option (Ex σ V)) (env : List Nat) (w : σ)
    (yes no : σ → Option (α ⊕ (σ × Comp V))) : Option (α ⊕ (σ × Comp V)) :=
  match c with
  | none => yes w
  | some e =>
      match e env w with
      | .thr w' v => some (.inr (w', .thr v))
      | .ok w' v _ => if W.truthy v then yes w' else no w'

/-- An optional expression evaluated for its effect. -/
def effect (e : Option (Ex σ V)) (env : List Nat) (w : σ) (k : σ → Out σ V) : Out σ V :=
  match e with
  | none => k w
  | some e => andThen (e env w) (fun w' _ => k w')

/-- The environment with an optional declaration scope. -/
def within (d : Option Nat) (env : List Nat) : List Nat :=
  match d with
  | some i => i :: env
  | none => env

/-- CreatePerIterationEnvironment (14.7.4.4), with declarations only. -/
def perIteration (W : World σ V) (d : Option Nat) (env : List Nat) (w : σ) : σ :=
  match d with
  | some _ => W.perIter env w
  | none => w

/-- The increment of a `for` loop (14.7.4.3 steps 3.e, 3.f). -/
def increment (e : Option (Ex σ V)) (env : List Nat) (w : σ) (v : V) : Option ((σ × V) ⊕ (σ × Comp V)) :=
  match e with
  | none => some (.inl (w, v))
  | some e =>
      match e env w with
      | .ok w' _ _ => some (.inl (w', v))
      | .thr w' x => some (.inr (w', .thr x))

/-- The next value of an iteration (14.7.5.7 steps 6.a to 6.e): at the end the loop is complete; a
throw of the iterator does not close it. -/
def nextValue (r : Res σ V (Option V)) (v : V) (k : σ → V → Option ((σ × V) ⊕ (σ × Comp V))) :
    Option ((σ × V) ⊕ (σ × Comp V)) :=
  match r with
  | .thr w x => some (.inr (w, .thr x))
  | .ok w none _ => some (.inr (w, .normal (some v)))
  | .ok w (some x) _ => k w x

/-- The end of an iteration by an abrupt completion: `for`-`of` closes the iterator, `for`-`in` does
not (14.7.5.7 steps 6.h and 6.l). -/
def closing (W : World σ V) (of : Bool) (it : V) (w : σ) (c : Comp V) : σ × Comp V :=
  if of then iteratorClose W it w c else (w, c)

/-- The binding of the loop variable (14.7.5.7 steps 6.g, 6.h). -/
def bound (r : Res σ V V) (close : σ → Comp V → σ × Comp V) (k : σ → Option ((σ × V) ⊕ (σ × Comp V))) :
    Option ((σ × V) ⊕ (σ × Comp V)) :=
  match r with
  | .thr w x => some (.inr (close w (.thr x)))
  | .ok w _ _ => k w

/-- A try block with a catch clause: the clause takes a throw of the block (14.15.3). -/
def handle (hc : Bool) (r : Out σ V) (k : σ → V → Out σ V) : Out σ V :=
  match hc, r with
  | true, some (w, .thr v) => k w v
  | _, r => r

/-- CatchClauseEvaluation (14.15.2): the block in the scope of the parameter. -/
def withParam (cd : Option (Nat × (V → Ex σ V))) (v : V) (env : List Nat) (w : σ)
    (k : List Nat → σ → Out σ V) : Out σ V :=
  match cd with
  | none => k env w
  | some (i, g) => andThen (g v (i :: env) w) (fun w' _ => k (i :: env) w')

/-- A finally block that completes normally leaves the completion `c`, otherwise its own counts. -/
def override (c : Comp V) (o : Out σ V) : Out σ V :=
  match o with
  | some (w', .normal _) => some (w', c)
  | o => o

/-- A statement with a finally block (14.15.3). -/
def finishing (hf : Bool) (r : Out σ V) (f : σ → Out σ V) : Out σ V :=
  match hf, r with
  | true, some (w, c) => override c (f w)
  | _, r => r

/-- Evaluation of statements, LabelledEvaluation with label set `ls` (chapter 14).  `skip` is the
number of clauses a switch jumps over. -/
def eval (W : World σ V) (n : Nat) : List Nat → Nat → Stmt σ V → List Nat → σ → Out σ V
  | _, _, .nil, _, w => some (w, .normal none)
  | _, _, .cons s r, env, w => seqC (eval W n [] 0 s env w) (fun w' => eval W n [] 0 r env w')
  | _, _, .empty, _, w => some (w, .normal none)
  | _, _, .expr e, env, w => andThen (e env w) (fun w' v => some (w', .normal (some v)))
  | _, _, .decl e, env, w => andThen (e env w) (fun w' _ => some (w', .normal none))
  | _, _, .block d b, env, w => eval W n [] 0 b (d :: env) w
  | _, _, .ite c s t, env, w =>
      mapC (upd · (some W.undef)) (andThen (c env w) (fun w' v =>
        if W.truthy v then eval W n [] 0 s env w' else eval W n [] 0 t env w'))
  | ls, _, .doWhile s c, env, w =>
      mapC (breakable W) (iterate (fun p : σ × V =>
        turn (eval W n [] 0 s env p.1) ls p.2
          (fun w' v => test W (some c) env w' (fun w'' => some (.inl (w'', v)))
            (fun w'' => some (.inr (w'', .normal (some v)))))
          (fun w' c => (w', c))) n (w, W.undef))
  | ls, _, .while_ c s, env, w =>
      mapC (breakable W) (iterate (fun p : σ × V =>
        test W (some c) env p.1
          (fun w' => turn (eval W n [] 0 s env w') ls p.2
            (fun w'' v => some (.inl (w'', v))) (fun w'' c => (w'', c)))
          (fun w' => some (.inr (w', .normal (some p.2))))) n (w, W.undef))
  | ls, _, .for_ d init cond step s, env, w =>
      let env' := within d env
      effect init env' w (fun w0 =>
        mapC (breakable W) (iterate (fun p : σ × V =>
          test W cond env' p.1
            (fun w' => turn (eval W n [] 0 s env' w') ls p.2
              (fun w'' v => increment step env' (perIteration W d env' w'') v)
              (fun w'' c => (w'', c)))
            (fun w' => some (.inr (w', .normal (some p.2)))))
          n (perIteration W d env' w0, W.undef)))
  | ls, _, .forIn of d e f s, env, w =>
      andThen (e (within d env) w) (fun w0 x =>
        andThen (W.openIt of x w0) (fun w1 it =>
          mapC (breakable W) (iterate (fun p : σ × V =>
            nextValue (W.stepIt of it p.1) p.2 (fun w' v =>
              bound (f v (within d env) w') (closing W of it) (fun w'' =>
                turn (eval W n [] 0 s (within d env) w'') ls p.2
                  (fun w3 v => some (.inl (w3, v))) (closing W of it))))
            n (w1, W.undef))))
  | _, _, .switch d e cases, env, w =>
      andThen (e env w) (fun w0 x =>
        mapC (breakable W) (mapC (upd · (some W.undef))
          (andThen (select W (d :: env) x cases w0) (fun w1 i =>
            eval W n [] ((i <|> defaultClause cases).getD (clauseCount cases)) cases (d :: env) w1))))
  | _, 0, .case _ b rest, env, w =>
      seqC (eval W n [] 0 b env w) (fun w' => eval W n [] 0 rest env w')
  | _, k + 1, .case _ _ rest, env, w => eval W n [] k rest env w
  | _, _, .try_ b hc cd c hf f, env, w =>
      mapC (upd · (some W.undef)) (finishing hf
        (handle hc (eval W n [] 0 b env w) (fun w' v =>
          withParam cd v env w' (fun env' w'' => eval W n [] 0 c env' w'')))
        (fun w' => eval W n [] 0 f env w'))
  | _, _, .with_ e d s, env, w =>
      andThen (e env w) (fun w' _ => mapC (upd · (some W.undef)) (eval W n [] 0 s (d :: env) w'))
  | _, _, .throw_ e, env, w => andThen (e env w) (fun w' v => some (w', .thr v))
  | _, _, .ret none, _, w => some (w, .ret W.undef)
  | _, _, .ret (some e), env, w => andThen (e env w) (fun w' v => some (w', .ret v))
  | _, _, .brk l, _, w => some (w, .brk none l)
  | _, _, .cont l, _, w => some (w, .cont none l)
  | ls, _, .labelled k s, env, w =>
      mapC (breakAt k) (eval W n (k :: ls) 0 s env w)

/-- The result of a call of a function with body `s` (10.2.1.4). -/
def callResult (W : World σ V) (o : σ × Comp V) : Option (Fin σ V) :=
  match o with
  | (w, .normal _) => some (.val w W.undef)
  | (w, .ret v) => some (.val w v)
  | (w, .thr v) => some (.thr w v)
  | _ => none

/-- The result of `eval` of a text (19.2.1.1). -/
def evalResult (W : World σ V) (o : σ × Comp V) : Option (Fin σ V) :=
  match o with
  | (w, .normal v) => some (.val w (v.getD W.undef))
  | (w, .ret v) => some (.val w v)
  | (w, .thr v) => some (.thr w v)
  | _ => none

/-! ## The early errors of jumps and labels -/

/-- ContainsUndefinedBreakTarget, ContainsUndefinedContinueTarget, ContainsDuplicateLabels and the
rules for `break` and `continue` without label (8.3, 14.8.1, 14.9.1, 14.13.1), as one judgement:
`lb` the labels around, `ll` those of the iteration statements around, `ls` the labels of this
statement, `inB`, `inL` inside a breakable statement, inside a loop. -/
def valid : List Nat → List Nat → List Nat → Bool → Bool → Stmt σ V → Prop
  | _, _, _, _, _, .nil => True
  | lb, ll, _, inB, inL, .cons s r => valid lb ll [] inB inL s ∧ valid lb ll [] inB inL r
  | _, _, _, _, _, .empty => True
  | _, _, _, _, _, .expr _ => True
  | _, _, _, _, _, .decl _ => True
  | lb, ll, _, inB, inL, .block _ b => valid lb ll [] inB inL b
  | lb, ll, _, inB, inL, .ite _ s t => valid lb ll [] inB inL s ∧ valid lb ll [] inB inL t
  | lb, ll, ls, _, _, .doWhile s _ => valid lb (ls ++ ll) [] true true s
  | lb, ll, ls, _, _, .while_ _ s => valid lb (ls ++ ll) [] true true s
  | lb, ll, ls, _, _, .for_ _ _ _ _ s => valid lb (ls ++ ll) [] true true s
  | lb, ll, ls, _, _, .forIn _ _ _ _ s => valid lb (ls ++ ll) [] true true s
  | lb, ll, _, _, inL, .switch _ _ c => clauses lb ll inL c
  | _, _, _, _, _, .case _ _ _ => False
  | lb, ll, _, inB, inL, .try_ b hc _ c hf f =>
      valid lb ll [] inB inL b ∧ (hc = true ∨ hf = true) ∧ (hc = true → valid lb ll [] inB inL c) ∧
        (hf = true → valid lb ll [] inB inL f)
  | lb, ll, _, inB, inL, .with_ _ _ s => valid lb ll [] inB inL s
  | _, _, _, _, _, .throw_ _ => True
  | _, _, _, _, _, .ret _ => True
  | _, _, _, inB, _, .brk none => inB = true
  | lb, _, _, _, _, .brk (some n) => n ∈ lb
  | _, _, _, _, inL, .cont none => inL = true
  | _, ll, _, _, _, .cont (some n) => n ∈ ll
  | lb, ll, ls, inB, inL, .labelled n s => n ∉ lb ∧ valid (n :: lb) ll (n :: ls) inB inL s
where
  /-- The clauses of a switch; at most one is the default clause. -/
  clauses : List Nat → List Nat → Bool → Stmt σ V → Prop
  | lb, ll, inL, .case c b r =>
      valid lb ll [] true inL b ∧ (c.isNone = true → defaultClause r = none) ∧ clauses lb ll inL r
  | _, _, _, .nil => True
  | _, _, _, _ => False

/-- The result of a call agrees with the completion of the body, but for the value of a body that
falls off its end. -/
def CallAgrees (o : σ × Comp V) (f : Fin σ V) : Prop :=
  match o with
  | (w, .normal _) => ∃ x, f = .val w x
  | (w, .ret v) => f = .val w v
  | (w, .thr v) => f = .thr w v
  | _ => False

/-- Labels stand in front of statements (not of statement lists), and not in front of a `try`
statement. -/
def canLabel : Stmt σ V → Bool
  | .cons _ _ => false
  | .try_ _ _ _ _ _ _ => false
  | _ => true

/-- Every label of the program is of this kind. -/
def LabelsPlain : Stmt σ V → Prop
  | .cons s r => LabelsPlain s ∧ LabelsPlain r
  | .block _ b => LabelsPlain b
  | .ite _ s t => LabelsPlain s ∧ LabelsPlain t
  | .doWhile s _ => LabelsPlain s
  | .while_ _ s => LabelsPlain s
  | .for_ _ _ _ _ s => LabelsPlain s
  | .forIn _ _ _ _ s => LabelsPlain s
  | .switch _ _ c => LabelsPlain c
  | .case _ b r => LabelsPlain b ∧ LabelsPlain r
  | .try_ b _ _ c _ f => LabelsPlain b ∧ LabelsPlain c ∧ LabelsPlain f
  | .with_ _ _ s => LabelsPlain s
  | .labelled _ s => canLabel s = true ∧ LabelsPlain s
  | _ => True

/-! ## The programs of the agreement theorem -/

/-- User code that leaves the pending error alone when it completes normally. -/
def Keeps {A : Type} (r : Res σ V A) : Prop :=
  match r with
  | .ok _ _ .keep => True
  | .ok _ _ _ => False
  | .thr _ _ => True

/-- An expression that always leaves the pending error alone. -/
def Quiet (e : Ex σ V) : Prop := ∀ env w, Keeps (e env w)

/-- Iterators that always leave the pending error alone. -/
def QuietWorld (W : World σ V) : Prop :=
  (∀ of v w, Keeps (W.openIt of v w)) ∧ (∀ of it w, Keeps (W.stepIt of it w)) ∧
    (∀ it w, Keeps (W.closeIt it w))

/-- Statements that, unless they throw or return, complete with a value. -/
def writes : Stmt σ V → Bool
  | .nil => false
  | .cons s r =>
      match s with
      | .empty => writes r
      | .decl _ => writes r
      | s => writes s
  | .empty => false
  | .decl _ => false
  | .block _ b => writes b
  | .labelled _ s => writes s
  | .brk _ => false
  | .cont _ => false
  | .case _ _ _ => false
  | _ => true

/-- The programs on which the code agrees with the standard: expressions leave the pending error
alone; a `finally` block has no `return`, no jump out of it and no `for`-`of`; and, where completion
values count (`rvm`), a `catch` block starts with a statement that has a value.  `fin`: inside a
`finally` block; `ka`: the value of falling off the end counts, so no `return` may stand in a `try`
statement; `kt`: no `return` here. -/
def Ok (rvm fin ka kt : Bool) : Stmt σ V → Prop
  | .nil => True
  | .cons s r => Ok rvm fin ka kt s ∧ Ok rvm fin ka kt r
  | .empty => True
  | .expr e => Quiet e
  | .decl e => Quiet e
  | .block _ b => Ok rvm fin ka kt b
  | .ite c s t => Quiet c ∧ Ok rvm fin ka kt s ∧ Ok rvm fin ka kt t
  | .doWhile s c => Quiet c ∧ Ok rvm fin ka kt s
  | .while_ c s => Quiet c ∧ Ok rvm fin ka kt s
  | .for_ _ i c t s =>
      (∀ e ∈ i, Quiet e) ∧ (∀ e ∈ c, Quiet e) ∧ (∀ e ∈ t, Quiet e) ∧ Ok rvm fin ka kt s
  | .forIn of _ e f s => Quiet e ∧ (∀ v, Quiet (f v)) ∧ (of = true → fin = false) ∧ Ok rvm fin ka kt s
  | .switch _ e c => Quiet e ∧ Ok rvm fin ka kt c
  | .case c b r => (∀ e ∈ c, Quiet e) ∧ Ok rvm fin ka kt b ∧ Ok rvm fin ka kt r
  | .try_ b hc cd c hf f =>
      Ok rvm fin ka (ka || kt) b ∧
        (hc = true → Ok rvm fin ka (ka || kt) c ∧ (∀ p ∈ cd, ∀ v, Quiet (p.2 v)) ∧ (rvm = true → writes c = true)) ∧
        (hf = true → Ok false true true true f ∧ parse [] [] [] [] f = true)
  | .with_ e _ s => Quiet e ∧ Ok rvm fin ka kt s
  | .throw_ e => Quiet e
  | .ret x => kt = false ∧ ∀ e ∈ x, Quiet e
  | .brk _ => True
  | .cont _ => True
  | .labelled _ s => Ok rvm fin ka kt s

end Verif.Flow.Spec

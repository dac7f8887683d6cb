import Verif.Lemmas.FlowTop

/-!
# C84: statements run as the standard says

The generator's code for a function body or an `eval` text, run by the interpreter, against the
standard's evaluation of the statements (`Verif.Spec.Flow`).
-/

namespace Verif.Flow

open Spec

variable {σ V : Type}

/-! ## A small world for the examples

Values are numbers, `100` is `undefined`; iterators count up to 5 in the state of the world.  The
iterator `7` throws `77` when closed, the iterator `8` catches something when closed. -/

/-- The world of the examples. -/
def toy : World Nat Nat where
  undef := 100
  ofBool b := if b then 1 else 0
  truthy v := v != 0 && v != 100
  truthy_ofBool := by decide
  strictEq a b := a == b
  openIt _ v w := .ok w v .keep
  stepIt _ _ w := if w < 5 then .ok (w + 1) (some w) .keep else .ok w none .keep
  closeIt it w := if it = 7 then .thr w 77 else if it = 8 then .ok w () .clear else .ok w () .keep
  perIter _ w := w

/-- A constant. -/
def con (v : Nat) : Ex Nat Nat := fun _ w => .ok w v .keep

/-- A binding that does nothing. -/
def skip : Nat → Ex Nat Nat := fun _ _ w => .ok w 100 .keep

/-- A binding that writes the value to the state of the world. -/
def put : Nat → Ex Nat Nat := fun v _ _ => .ok v v .keep

/-- A statement list. -/
def list (l : List (Stmt Nat Nat)) : Stmt Nat Nat := l.foldr .cons .nil

/-- A block. -/
def blk (l : List (Stmt Nat Nat)) : Stmt Nat Nat := .block 0 (list l)

theorem quiet_con (v : Nat) : Quiet (con v) := fun _ _ => trivial
theorem quiet_skip (v : Nat) : Quiet (skip v) := fun _ _ => trivial

/-- The same world without the odd iterators. -/
def calm : World Nat Nat := { toy with closeIt := fun it w => if it = 7 then .thr w 77 else .ok (w + 10) () .keep }

theorem quiet_calm : QuietWorld calm := by
  refine ⟨fun _ _ _ => trivial, ?_, ?_⟩
  · intro of it w
    show Keeps (if w < 5 then Res.ok (w + 1) (some w) .keep else Res.ok w none .keep)
    split <;> trivial
  · intro it w
    show Keeps (if it = 7 then Res.thr w 77 else Res.ok (w + 10) () .keep)
    split <;> trivial

/-! ## Agreement -/

/-- Calls of functions: on the programs `Ok … ka = true` the call gives exactly the standard's
result, and runs forever exactly when the standard's evaluation does. -/
theorem C84_call_partial (W : World σ V) (hW : QuietWorld W) (s : Stmt σ V)
    (hp : parse [] [] [] [] s = true) (hok : Ok false false true false s) (env : List Nat) (w : σ)
    (f : Fin σ V) :
    (∃ k, run W (genFunc s) k (.inl (start W env w)) = .inr f) ↔
      ∃ n o, eval W n [] 0 s env w = some o ∧ callResult W o = some f := by
  constructor
  · rintro ⟨k, hk⟩
    obtain ⟨o, ho⟩ := func_none hW s true hp hok env w k f hk
    obtain ⟨j, g, h1, h2, h3⟩ := func_result hW s true hp hok env w k o ho
    refine ⟨k, o, ho, ?_⟩
    rw [run_end_eq hk h1]
    exact h3 rfl
  · rintro ⟨n, o, ho, hf⟩
    obtain ⟨j, g, h1, h2, h3⟩ := func_result hW s true hp hok env w n o ho
    rw [h3 rfl] at hf
    cases hf
    exact ⟨j, h1⟩

/-- With `return` inside `try` statements too: the call agrees with the standard's completion but for
the value of a body that falls off its end. -/
theorem C84_return_partial (W : World σ V) (hW : QuietWorld W) (s : Stmt σ V)
    (hp : parse [] [] [] [] s = true) (hok : Ok false false false false s) (env : List Nat) (w : σ) :
    (∀ n o, eval W n [] 0 s env w = some o →
      ∃ k f, run W (genFunc s) k (.inl (start W env w)) = .inr f ∧ CallAgrees o f) ∧
    (∀ k f, run W (genFunc s) k (.inl (start W env w)) = .inr f →
      ∃ n o, eval W n [] 0 s env w = some o ∧ CallAgrees o f) := by
  constructor
  · intro n o ho
    obtain ⟨j, g, h1, h2, h3⟩ := func_result hW s false hp hok env w n o ho
    exact ⟨j, g, h1, h2⟩
  · intro k f hk
    obtain ⟨o, ho⟩ := func_none hW s false hp hok env w k f hk
    obtain ⟨j, g, h1, h2, h3⟩ := func_result hW s false hp hok env w k o ho
    refine ⟨k, o, ho, ?_⟩
    rw [run_end_eq hk h1]
    exact h2

/-- `eval` texts: the completion value too is the standard's. -/
theorem C84_eval_partial (W : World σ V) (hW : QuietWorld W) (s : Stmt σ V)
    (hp : parse [] [] [] [] s = true) (hok : Ok true false false false s) (env : List Nat) (w : σ)
    (f : Fin σ V) :
    (∃ k, run W (genEval s) k (.inl (start W env w)) = .inr f) ↔
      ∃ n o, eval W n [] 0 s env w = some o ∧ evalResult W o = some f := by
  constructor
  · rintro ⟨k, hk⟩
    obtain ⟨o, ho⟩ := eval_none hW s hp hok env w k f hk
    obtain ⟨j, g, h1, h2⟩ := eval_result hW s hp hok env w k o ho
    refine ⟨k, o, ho, ?_⟩
    rw [run_end_eq hk h1]
    exact h2
  · rintro ⟨n, o, ho, hf⟩
    obtain ⟨j, g, h1, h2⟩ := eval_result hW s hp hok env w n o ho
    rw [h2] at hf
    cases hf
    exact ⟨j, h1⟩

/-- A failed assertion is never reached. -/
theorem C84_safe_partial (W : World σ V) (hW : QuietWorld W) (s : Stmt σ V)
    (hp : parse [] [] [] [] s = true) (env : List Nat) (w : σ) (k : Nat) :
    (Ok false false false false s → run W (genFunc s) k (.inl (start W env w)) ≠ .inr .stuck) ∧
    (Ok true false false false s → run W (genEval s) k (.inl (start W env w)) ≠ .inr .stuck) := by
  constructor
  · intro hok hk
    obtain ⟨n, ⟨w', c⟩, ho, h⟩ := (C84_return_partial W hW s hp hok env w).2 k _ hk
    cases c <;> simp [CallAgrees] at h
  · intro hok hk
    obtain ⟨n, ⟨w', c⟩, ho, h⟩ := (C84_eval_partial W hW s hp hok env w .stuck).1 ⟨k, hk⟩
    cases c <;> simp [evalResult] at h

/-! ### Examples: programs of the theorems -/

/-- `l: for (let x of it) { for (y in o) { if (1) continue l; } }`, then `return` in a `for`-`of` in a
`try` with catch and finally. -/
def prog1 : Stmt Nat Nat := list [
  .labelled 9 (.forIn true (some 4) (con 2) skip (blk [.forIn false none (con 1) skip
    (.ite (con 1) (.cont (some 9)) .nil)])),
  .switch 1 (con 3) (.case (some (con 1)) (.expr (con 11)) (.case none (.expr (con 22))
    (.case (some (con 4)) (list [.expr (con 33), .brk none]) .nil))),
  .try_ (blk [.throw_ (con 5)]) true (some (3, put)) (blk [.expr (con 6)]) true (blk [.expr (con 7)])]

example : QuietWorld calm ∧ parse [] [] [] [] prog1 = true ∧ Ok false false true false prog1 ∧
    Ok true false false false prog1 := by
  refine ⟨quiet_calm, by decide, ?_, ?_⟩ <;>
    simp [prog1, list, blk, Ok, quiet_con, quiet_skip, writes, parse] <;> exact fun _ _ _ => trivial

example : run calm (genFunc prog1) 200 (.inl (start calm [] 0)) = .inr (.val 5 100) := rfl
example : run calm (genEval prog1) 200 (.inl (start calm [] 0)) = .inr (.val 5 6) := rfl
example : eval calm 10 [] 0 prog1 [] 0 = some (5, .normal (some 6)) := rfl

/-- `try { for (x of it) return 1 } finally { 2 }`: the iterator is closed, then the block runs. -/
def prog2 : Stmt Nat Nat := list [
  .try_ (blk [.forIn true none (con 2) skip (.ret (some (con 1)))]) false none .nil true
    (blk [.expr (fun _ w => .ok (w + 100) 2 .keep)])]

example : parse [] [] [] [] prog2 = true ∧ Ok false false false false prog2 := by
  refine ⟨by decide, ?_⟩
  simp [prog2, list, blk, Ok, quiet_con, quiet_skip, parse]
  exact fun _ _ => trivial

example : run calm (genFunc prog2) 100 (.inl (start calm [] 0)) = .inr (.val 111 1) := rfl
example : eval calm 10 [] 0 prog2 [] 0 = some (111, .ret 1) := rfl

/-! ## Labels and jumps -/

/-- The jumps and labels the parser accepts are valid by the standard's early errors. -/
theorem C84_jumps_valid (s : Stmt σ V) (h : parse [] [] [] [] s = true) :
    valid [] [] [] false false s :=
  (parse_valid s).1 [] [] [] [] [] false false
    ⟨(by intro n; simp), (by intro n hn; cases hn), rfl, rfl⟩ (by intro n hn; cases hn) h

/-- Valid jumps and labels are accepted, when no label stands in front of a `try` statement. -/
theorem C84_jumps_accepted_partial (s : Stmt σ V) (hl : LabelsPlain s) (h : valid [] [] [] false false s) :
    parse [] [] [] [] s = true :=
  (valid_parse s).1 [] [] [] [] [] false false
    ⟨(by intro n; simp), (by intro n hn; cases hn), rfl, rfl⟩ (by intro n hn; cases hn)
    (by intro n hn; cases hn) (fun _ => rfl) hl h

example : LabelsPlain prog1 ∧ valid [] [] [] false false prog1 := by
  constructor <;> simp [prog1, list, blk, LabelsPlain, canLabel, valid, valid.clauses, defaultClause]

/-! ## Where the code differs from the standard -/

/-- `l: try {} catch (e) { break l }` is valid, but rejected. -/
theorem C84_label_try_violated :
    ∃ s : Stmt Nat Nat, valid [] [] [] false false s ∧ parse [] [] [] [] s = false :=
  ⟨.labelled 5 (.try_ (blk []) true (some (1, skip)) (blk [.brk (some 5)]) false .nil),
    by simp [blk, list, valid], by decide⟩

/-- `while (1) { try { return 1 } finally { break } } return 2` gives 1: a jump out of a finally block
does not replace the pending return. -/
theorem C84_finally_jump_violated :
    ∃ s : Stmt Nat Nat, parse [] [] [] [] s = true ∧
      run calm (genFunc s) 100 (.inl (start calm [] 0)) = .inr (.val 0 1) ∧
      eval calm 10 [] 0 s [] 0 = some (0, .ret 2) :=
  ⟨list [.while_ (con 1) (blk [.try_ (blk [.ret (some (con 1))]) false none .nil true
      (blk [.brk none])]), .ret (some (con 2))], by decide, rfl, rfl⟩

/-- `eval("try { 1; throw 3 } catch {}")` gives 1 instead of undefined. -/
theorem C84_catch_value_violated :
    ∃ s : Stmt Nat Nat, parse [] [] [] [] s = true ∧
      run calm (genEval s) 100 (.inl (start calm [] 0)) = .inr (.val 0 1) ∧
      eval calm 10 [] 0 s [] 0 = some (0, .normal (some calm.undef)) :=
  ⟨list [.try_ (blk [.expr (con 1), .throw_ (con 3)]) true none (blk []) false .nil], by decide, rfl, rfl⟩

/-- `try { return 1 } finally { try { try { return 2 } finally { throw 9 } } catch {} }` gives 2
instead of 1: there is one slot for the values of pending returns. -/
theorem C84_return_slot_violated :
    ∃ s : Stmt Nat Nat, parse [] [] [] [] s = true ∧
      run calm (genFunc s) 100 (.inl (start calm [] 0)) = .inr (.val 0 2) ∧
      eval calm 10 [] 0 s [] 0 = some (0, .ret 1) :=
  ⟨list [.try_ (blk [.ret (some (con 1))]) false none .nil true (blk [.try_ (blk [.try_
      (blk [.ret (some (con 2))]) false none .nil true (blk [.throw_ (con 9)])]) true none (blk [])
      false .nil])], by decide, rfl, rfl⟩

/-- `try { try { return 1 } finally { throw 9 } } catch {}` returns 1 instead of undefined. -/
theorem C84_fall_off_violated :
    ∃ s : Stmt Nat Nat, parse [] [] [] [] s = true ∧
      run calm (genFunc s) 100 (.inl (start calm [] 0)) = .inr (.val 0 1) ∧
      (eval calm 10 [] 0 s [] 0).bind (callResult calm) = some (.val 0 calm.undef) :=
  ⟨list [.try_ (blk [.try_ (blk [.ret (some (con 1))]) false none .nil true (blk [.throw_ (con 9)])])
      true none (blk []) false .nil], by decide, rfl, rfl⟩

/-- `try { throw 1 } finally { try { for (x of it) break } catch (e) { … } }`, where closing the
iterator throws 77: the clause gets the pending 1 instead of 77. -/
theorem C84_close_pending_violated :
    ∃ s : Stmt Nat Nat, parse [] [] [] [] s = true ∧
      run calm (genFunc s) 100 (.inl (start calm [] 0)) = .inr (.thr 1 1) ∧
      eval calm 10 [] 0 s [] 0 = some (77, .thr 1) :=
  ⟨list [.try_ (blk [.throw_ (con 1)]) false none .nil true (blk [.try_ (blk [.forIn true none (con 7)
      skip (.brk none)]) true (some (3, put)) (blk []) false .nil])], by decide, rfl, rfl⟩

/-- `try { for (x of it) throw 1 } catch (e) { … }`, where the iterator's `return` method catches
something: the clause gets undefined instead of 1. -/
theorem C84_close_catches_violated :
    ∃ s : Stmt Nat Nat, parse [] [] [] [] s = true ∧
      run toy (genFunc s) 100 (.inl (start toy [] 0)) = .inr (.val 100 100) ∧
      (eval toy 10 [] 0 s [] 0).bind (callResult toy) = some (.val 1 100) :=
  ⟨list [.try_ (blk [.forIn true none (con 8) skip (.throw_ (con 1))]) true (some (3, put)) (blk [])
      false .nil], by decide, rfl, rfl⟩

end Verif.Flow

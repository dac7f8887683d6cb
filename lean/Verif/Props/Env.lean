import Verif.Lemmas.EnvTrace
import Verif.Lemmas.EnvCells
import Verif.Lemmas.EnvTail

/-!
# C36, C37, C67: environments

The specification (`Verif/Spec/Env.lean`) is the text of ECMA-262 §9.1: records hold the bindings,
and a name is resolved by walking outwards every time.  `Verif/Spec/EnvCode.lean` describes the
programs (`Code`: which scope encloses which, what each declares, in which scope each binding name
is used) and the executions of them.
-/

namespace Verif.Env

/-! ## C37 -/

/-- **C37 (partial).**  For every program and every execution of it, as specified, in which no
direct eval declares anything, no property of the global object is deleted and no function calls
itself in tail position: the engine, with its cached indices and outer stacks, performs every
operation without a fault (no element beyond a vector, no freed binding, no failed assertion) and
gives exactly the specified answers, in particular the same environment for every name resolved
and the same value for every name read.

Missing: direct eval, deletion of global properties and tail calls, for which the claim is false
(`C37_violated_*`, `C67_violated`). -/
theorem C37_partial {P : Code} (hP : P.WF) {obj : List (Name × Val)} {ops : List Op}
    {w : Spec.World} {os : List Spec.Answer} (he : Execution P [0] (start obj) ops w os) :
    ∃ s, run (init P.names obj) ops = .ok (s, os.map ans) :=
  run_ok hP he (start_ok hP obj)

/-- The specification leaves no choice: the answers of an execution are determined. -/
theorem C37_determined {rs : List Spec.Record} {o : Option Nat} {n : Nat} {a a' : Option Nat}
    (h : Spec.Found rs o n a) (h' : Spec.Found rs o n a') : a = a' := h.unique h'

/-! ### An execution

`const x = 1; function f () { const c = v; return c }`: scope 0 is the global one, scope 1 the
function.  Binding names: 0 is `x` in the script, 1 is `c` in the function, 2 is `x` in the
function. -/

/-- The program of the example. -/
def exampleCode : Code where
  names := [10, 20, 10]
  scopeOf b := if b = 0 then 0 else 1
  kind _ := .func
  parent _ := 0
  depth σ := if σ = 0 then 0 else 1
  decls σ := if σ = 1 then [(1, true, true)] else []

/-- It is a sensible program. -/
theorem exampleCode_ok : exampleCode.WF where
  depth0 := rfl
  up := by intro σ h; simp [exampleCode, h]
  shallow := by intro σ; simp only [exampleCode]; split <;> omega
  kinds := by intro σ; simp [exampleCode]
  few := by intro σ; simp only [exampleCode]; split <;> simp
  plain := by intro σ h; simp [exampleCode] at h
  known := by
    intro σ d hd
    simp only [exampleCode] at hd ⊢
    split at hd
    · simp only [List.mem_singleton] at hd; subst hd; decide
    · simp at hd

/-- Declare `x`, call `f`, read `c` too early, initialise it, read it, assign it, read `x` too
early, initialise it, call `f` again: the second call finds everything through the cache. -/
def exampleOps : List Op :=
  [.declare 0 0 true true, .resolve 0 0,
   .enter .func 0 [(1, true, true)] [], .resolve 1 1, .get 1 false, .init 1 5, .get 1 false,
   .set 1 6 false, .get 1 false, .resolve 1 2, .get 2 false, .init 0 7, .get 2 false,
   .enter .func 0 [(1, true, true)] [], .resolve 2 1, .resolve 2 2, .init 3 8, .get 3 false,
   .get 4 true, .get 1 true]

/-- The answers specified. -/
def exampleAnswers : List Spec.Answer :=
  [.done, .record (some 0), .record (some 1), .record (some 1), .referenceError, .done, .value 5,
   .typeError, .value 5, .record (some 0), .referenceError, .done, .value 7, .record (some 2),
   .record (some 2), .record (some 0), .done, .value 8, .value 7, .value 5]

/-- The fault a run stops with. -/
def faultOf (r : Except Fault (State × List Out)) : Option Fault :=
  match r with
  | .ok _ => none
  | .error f => some f

theorem fault_of {r : Except Fault (State × List Out)} {f : Fault} (h : faultOf r = some f) :
    r = .error f := by
  cases r with
  | ok _ => exact absurd h (by simp [faultOf])
  | error g => simp only [faultOf, Option.some.injEq] at h; rw [h]

theorem setStep {w : Spec.World} {r v : Nat} {strict : Bool} {x : Spec.Reference} {e : Nat}
    {rec rec' : Spec.Record} {o : Spec.Answer} (hx : w.references[r]? = some x)
    (hb : x.base = some e) (hr : w.records[e]? = some rec)
    (ho : rec.assign x.name v strict = (rec', o)) :
    Spec.Step w (.set r v strict) (w.set e rec') o := by
  have h := Spec.Step.set (v := v) (strict := strict) hx hb hr
  rw [ho] at h
  exact h

/-- The execution satisfies the hypotheses of `C37_partial` and `C36`. -/
theorem exampleExecution : ∃ w, Execution exampleCode [0] (start [(30, 3)]) exampleOps w
    exampleAnswers := by
  have few : ∀ (w : Spec.World) (r0 : Spec.Record), w.records[0]? = some r0 →
      r0.bindings.length < 65536 → ∀ r, w.records[0]? = some r → r.bindings.length < 65536 := by
    intro w r0 h h' r hr
    rw [h] at hr
    simp only [Option.some.injEq] at hr
    rw [← hr]; exact h'
  unfold exampleOps exampleAnswers
  apply Exists.intro
  apply Execution.cons (.declare (by decide) rfl (few _ _ rfl (by decide))) rfl (.declare rfl rfl)
  apply Execution.cons (.resolve (by decide) rfl) rfl (.resolve (.here rfl rfl))
  apply Execution.cons (.enter (σ := 1) (by decide) rfl) rfl (.enter rfl rfl)
  apply Execution.cons (.resolve (by decide) rfl) rfl (.resolve (.here rfl rfl))
  apply Execution.cons .get rfl (.get rfl rfl rfl rfl)
  apply Execution.cons .init rfl (.init rfl rfl rfl rfl)
  apply Execution.cons .get rfl (.get rfl rfl rfl rfl)
  apply Execution.cons .set rfl
  · exact setStep rfl rfl rfl rfl
  apply Execution.cons .get rfl (.get rfl rfl rfl rfl)
  apply Execution.cons (.resolve (by decide) rfl) rfl (.resolve (.outside rfl rfl (.here rfl rfl)))
  apply Execution.cons .get rfl (.get rfl rfl rfl rfl)
  apply Execution.cons .init rfl (.init rfl rfl rfl rfl)
  apply Execution.cons .get rfl (.get rfl rfl rfl rfl)
  apply Execution.cons (.enter (σ := 1) (by decide) rfl) rfl (.enter rfl rfl)
  apply Execution.cons (.resolve (by decide) rfl) rfl (.resolve (.here rfl rfl))
  apply Execution.cons (.resolve (by decide) rfl) rfl (.resolve (.outside rfl rfl (.here rfl rfl)))
  apply Execution.cons .init rfl (.init rfl rfl rfl rfl)
  apply Execution.cons .get rfl (.get rfl rfl rfl rfl)
  apply Execution.cons .get rfl (.get rfl rfl rfl rfl)
  apply Execution.cons .get rfl (.get rfl rfl rfl rfl)
  exact .nil

/-- What the engine answers. -/
example : ∃ s, run (init exampleCode.names [(30, 3)]) exampleOps = .ok (s, exampleAnswers.map ans) := by
  obtain ⟨w, h⟩ := exampleExecution
  exact C37_partial exampleCode_ok h

/-- The second resolution of `x` in the function is answered from the cache: the name carries the
index 1, one environment outwards, and the index 0 of the binding there. -/
example : (run (init exampleCode.names [(30, 3)]) exampleOps).toOption.map
    (fun p => p.1.names[2]?) = some (some { name := 10, envIdx := 1, bindIdx := 0 }) := by rfl

/-! ### Where the claim is false

Each theorem shows a program as a list of operations, the answers specified for it and what the
engine does. -/

/-- **C37 is false: a deleted global property.**
`globalThis.x = 1; function f () { return x }; f(); delete globalThis.x; f()`: the second call must
throw a ReferenceError; the engine returns undefined, because the name is cached as found in the
global environment. -/
theorem C37_violated_global :
    let P : Code := { exampleCode with names := [7], scopeOf := fun _ => 1, decls := fun _ => [] }
    let ops : List Op := [.enter .func 0 [] [], .resolve 1 0, .get 0 false, .delProp 0 7,
      .enter .func 0 [] [], .resolve 2 0, .get 1 false]
    (∃ w, Spec.Run (start [(7, 1)]) (ops.filterMap (act P)) w
      [.record (some 1), .record (some 0), .value 1, .done, .record (some 2), .record none,
       .referenceError]) ∧
    ∃ s, run (init P.names [(7, 1)]) ops = .ok (s,
      [.env (some 1), .env (some 0), .val 1, .done, .env (some 2), .env (some 0), .val undef]) := by
  intros
  refine ⟨?_, _, rfl⟩
  apply Exists.intro
  apply Spec.Run.cons (.enter rfl rfl)
  apply Spec.Run.cons (.resolve (.outside rfl rfl (.here rfl rfl)))
  apply Spec.Run.cons (.get rfl rfl rfl rfl)
  apply Spec.Run.cons (.delProp rfl)
  apply Spec.Run.cons (.enter rfl rfl)
  apply Spec.Run.cons (.resolve (.outside rfl rfl (.outside rfl rfl .nowhere)))
  apply Spec.Run.cons (.getNowhere rfl rfl)
  exact .nil

/-- The binding names of the eval examples: names 1 to 9, one binding name each. -/
def evalCode : Code where
  names := [0, 1, 2, 3, 4, 5, 6, 7, 8, 9]
  scopeOf _ := 0
  kind _ := .func
  parent _ := 0
  depth _ := 0
  decls _ := []

/-- **C37 is false: a variable of a direct eval, the wrong binding.**
`function o () { let q = 2; { let p = 1; function f (s) { eval(s); return q } f(""); return f("var y") } }`:
the second call must return 2; the engine returns 1, the value of `p`, because eval switches off
the cache of the function alone and the walk applies the cached index of `q` to the block.
(1: q, 2: p, 3: y; environments 1: o, 2: the block, 3 and 4: f.) -/
theorem C37_violated_eval_wrong :
    let ops : List Op := [.enter .func 0 [(1, false, false)] [], .direct 1 1, .init 0 2,
      .enter .decl 1 [(2, false, false)] [], .direct 2 2, .init 1 1,
      .enter .func 2 [] [], .resolve 3 1, .get 2 false,
      .enter .func 2 [] [], .evalVar 4 3, .resolve 4 1, .get 3 false]
    (∃ w, Spec.Run (start []) (ops.filterMap (act evalCode)) w
      [.record (some 1), .record (some 1), .done, .record (some 2), .record (some 2), .done,
       .record (some 3), .record (some 1), .value 2,
       .record (some 4), .done, .record (some 1), .value 2]) ∧
    ∃ s, run (init evalCode.names []) ops = .ok (s,
      [.env (some 1), .env (some 1), .done, .env (some 2), .env (some 2), .done,
       .env (some 3), .env (some 1), .val 2,
       .env (some 4), .done, .env (some 2), .val 1]) := by
  intros
  refine ⟨?_, _, rfl⟩
  apply Exists.intro
  apply Spec.Run.cons (.enter rfl rfl)
  apply Spec.Run.cons (.direct rfl rfl)
  apply Spec.Run.cons (.init rfl rfl rfl rfl)
  apply Spec.Run.cons (.enter rfl rfl)
  apply Spec.Run.cons (.direct rfl rfl)
  apply Spec.Run.cons (.init rfl rfl rfl rfl)
  apply Spec.Run.cons (.enter rfl rfl)
  apply Spec.Run.cons (.resolve (.outside rfl rfl (.outside rfl rfl (.here rfl rfl))))
  apply Spec.Run.cons (.get rfl rfl rfl rfl)
  apply Spec.Run.cons (.enter rfl rfl)
  apply Spec.Run.cons (.evalVar rfl)
  apply Spec.Run.cons (.resolve (.outside rfl rfl (.outside rfl rfl (.here rfl rfl))))
  apply Spec.Run.cons (.get rfl rfl rfl rfl)
  exact .nil

/-- **C37 is false: a variable of a direct eval, no binding at all.**
`globalThis.x = 9; function g (s) { eval(s); { let a; return x } } g("var x"); g("")`: the second
call must return 9; the engine takes `x` to be in the environment of `g` and fails an assertion
(with assertions compiled out, it reads through a null pointer).
(1: a, 2: x in the block, 3: x in the eval code; environments 1 and 3: g, 2 and 4: the block.) -/
theorem C37_violated_eval_null :
    let names := [0, 1, 2, 2]
    let P : Code := { evalCode with names := names }
    let ops : List Op := [.enter .func 0 [] [], .evalVar 1 3, .enter .decl 1 [(1, false, false)] [],
      .resolve 2 2, .get 0 false,
      .enter .func 0 [] [], .enter .decl 3 [(1, false, false)] [], .resolve 4 2, .get 1 false]
    (∃ w, Spec.Run (start [(2, 9)]) (ops.filterMap (act P)) w
      [.record (some 1), .done, .record (some 2), .record (some 1), .value 0,
       .record (some 3), .record (some 4), .record (some 0), .value 9]) ∧
    run (init names [(2, 9)]) ops = .error .assert := by
  intros
  refine ⟨?_, fault_of (by decide +kernel)⟩
  apply Exists.intro
  apply Spec.Run.cons (.enter rfl rfl)
  apply Spec.Run.cons (.evalVar rfl)
  apply Spec.Run.cons (.enter rfl rfl)
  apply Spec.Run.cons (.resolve (.outside rfl rfl (.here rfl rfl)))
  apply Spec.Run.cons (.get rfl rfl rfl rfl)
  apply Spec.Run.cons (.enter rfl rfl)
  apply Spec.Run.cons (.enter rfl rfl)
  apply Spec.Run.cons (.resolve (.outside rfl rfl (.outside rfl rfl (.here rfl rfl))))
  apply Spec.Run.cons (.get rfl rfl rfl rfl)
  exact .nil

/-- **C37 is false: a function of a direct eval, beyond the vector.**
`globalThis.k = 9; function h (s) { eval(s); return k } h("function k () {}"); h("")`: the second
call must return 9; the engine reads beyond the end of the vector of bindings.
(1: k in h, 2: k in the eval code.) -/
theorem C37_violated_eval_beyond :
    let names := [0, 1, 1]
    let P : Code := { evalCode with names := names }
    let ops : List Op := [.enter .func 0 [] [], .evalFunc 1 2 5, .resolve 1 1, .get 0 false,
      .enter .func 0 [] [], .resolve 2 1, .get 1 false]
    (∃ w, Spec.Run (start [(1, 9)]) (ops.filterMap (act P)) w
      [.record (some 1), .done, .record (some 1), .value 5,
       .record (some 2), .record (some 0), .value 9]) ∧
    run (init names [(1, 9)]) ops = .error .oob := by
  intros
  refine ⟨?_, rfl⟩
  apply Exists.intro
  apply Spec.Run.cons (.enter rfl rfl)
  apply Spec.Run.cons (.evalFunc rfl)
  apply Spec.Run.cons (.resolve (.here rfl rfl))
  apply Spec.Run.cons (.get rfl rfl rfl rfl)
  apply Spec.Run.cons (.enter rfl rfl)
  apply Spec.Run.cons (.resolve (.outside rfl rfl (.here rfl rfl)))
  apply Spec.Run.cons (.get rfl rfl rfl rfl)
  exact .nil

/-- **C37 is false: a freed binding.**
`globalThis.k = 9; function h () { eval("function k () {}"); k; delete k; return k } h()`: the call
must return 9; the engine reads the binding that `delete` has freed. -/
theorem C37_violated_eval_freed :
    let names := [0, 1, 1]
    let P : Code := { evalCode with names := names }
    let ops : List Op := [.enter .func 0 [] [], .evalFunc 1 2 5, .resolve 1 1, .get 0 false,
      .resolve 1 1, .delete 1 false, .resolve 1 1, .get 2 false]
    (∃ w, Spec.Run (start [(1, 9)]) (ops.filterMap (act P)) w
      [.record (some 1), .done, .record (some 1), .value 5,
       .record (some 1), .truth true, .record (some 0), .value 9]) ∧
    run (init names [(1, 9)]) ops = .error .freed := by
  intros
  refine ⟨?_, rfl⟩
  apply Exists.intro
  apply Spec.Run.cons (.enter rfl rfl)
  apply Spec.Run.cons (.evalFunc rfl)
  apply Spec.Run.cons (.resolve (.here rfl rfl))
  apply Spec.Run.cons (.get rfl rfl rfl rfl)
  apply Spec.Run.cons (.resolve (.here rfl rfl))
  apply Spec.Run.cons (.delete rfl rfl rfl rfl)
  apply Spec.Run.cons (.resolve (.outside rfl rfl (.here rfl rfl)))
  apply Spec.Run.cons (.get rfl rfl rfl rfl)
  exact .nil

/-! ## C36 -/

/-- The name is bound in record `e` when operation `j` runs: at once if the record is not the
global one, else after its declaration. -/
def Declared (P : Code) (ops : List Op) (e n j : Nat) : Prop :=
  e ≠ 0 ∨ ∃ k b imm st, k < j ∧ ops[k]? = some (.declare 0 b imm st) ∧ P.name b = n

/-- The binding `n` of record `e` as operation `j` finds it. -/
theorem binding_at {P : Code} {obj : List (Name × Val)} {ops : List Op}
    {w : Spec.World} {os : List Spec.Answer} (hP : P.WF)
    (he : Execution P [0] (start obj) ops w os) {e n : Nat} {recE : Spec.Record}
    {dE : Spec.Binding} (hrE : w.records[e]? = some recE) (hdE : Spec.get recE.bindings n = some dE) :
    ∃ ws : Nat → Spec.World, ws ops.length = w ∧
      (∀ i j, i ≤ j → j ≤ ops.length → Later (ws i) (ws j)) ∧
      ∀ (j r : Nat) (op : Op), ops[j]? = some op → Uses op r →
        w.references[r]? = some { name := n, base := some e } → Declared P ops e n j →
        ∃ a o rec d, act P op = some a ∧ Spec.Step (ws j) a (ws (j + 1)) o ∧ os[j]? = some o ∧
          (ws j).references[r]? = some { name := n, base := some e } ∧
          (ws j).records[e]? = some rec ∧ find rec.bindings n = some d ∧
          d.mutable = dE.mutable ∧ d.strict = dE.strict ∧ rec.inObject n = false := by
  rw [get_eq_find] at hdE
  obtain ⟨ws, h0, hend, hlater, hpt⟩ := exec_worlds hP he (start_ok hP obj)
  refine ⟨ws, hend, hlater, ?_⟩
  intro j r op hop hu href hdecl
  obtain ⟨sc, s, sc', a, o, hs, hal, ha, hst, ho⟩ := hpt j op hop
  have hjl : j < ops.length := (List.getElem?_eq_some_iff.mp hop).1
  have hle : Later (ws j) w := by rw [← hend]; exact hlater j ops.length (by omega) (Nat.le_refl _)
  obtain ⟨x, hx⟩ := uses_ref hu ha hst
  have hxe := hle.refs r x hx
  rw [href] at hxe
  simp only [Option.some.injEq] at hxe
  subst hxe
  have hb : ∃ rec d, (ws j).records[e]? = some rec ∧ find rec.bindings n = some d := by
    rcases hdecl with he0 | ⟨k, b, imm, st, hk, hopk, hbn⟩
    · exact bound_at hP hs hle he0 hx hrE hdE
    · obtain ⟨_, _, _, ak, _, _, _, hak, hstk, _⟩ := hpt k _ hopk
      obtain ⟨rec, d, hr, hd⟩ := declared_bound hak hstk
      obtain ⟨rec', hr', hrl⟩ := (hlater (k + 1) j (by omega) (by omega)).recs 0 rec hr
      obtain ⟨d', hd', _⟩ := hrl.keep _ d hd
      by_cases he0 : e = 0
      · subst he0
        rw [hbn] at hd'
        exact ⟨rec', d', hr', hd'⟩
      · exact bound_at hP hs hle he0 hx hrE hdE
  obtain ⟨rec, d, hr, hd⟩ := hb
  obtain ⟨rec', hr', hrl⟩ := hle.recs e rec hr
  rw [hrE] at hr'
  simp only [Option.some.injEq] at hr'
  subst hr'
  obtain ⟨d', hd', hm, hst', _⟩ := hrl.keep n d hd
  rw [hdE] at hd'
  simp only [Option.some.injEq] at hd'
  subst hd'
  have hin : rec.inObject n = false := by
    obtain ⟨env, σ, henv, hσ, hE⟩ := hs.at hr
    have hk := hE.inObject n
    rw [hk]
    cases hkk : env.kind with
    | decl => rfl
    | func => rfl
    | global => rw [hd]; rfl
    | withObj =>
      exfalso
      by_cases he0 : e = 0
      · have := (hE.zero he0).2.1
        rw [hkk] at this
        simp at this
      · obtain ⟨hσ0, hkind, _⟩ := hE.pos he0
        rw [hkk] at hkind
        have hlay := hE.bnames
        unfold layout at hlay
        rw [if_neg hσ0, hP.plain σ hkind.symm] at hlay
        have : n ∈ rec.bindings.map Prod.fst := by
          rw [← find_isSome_iff, hd]; rfl
        rw [hlay] at this
        simp at this
  exact ⟨a, o, rec, d, ha, hst, ho, hx, hr, hd, hm.symm, hst'.symm, hin⟩

/-- What initialising a binding does. -/
theorem init_effect {P : Code} {w w' : Spec.World} {r v n e : Nat} {a : Spec.Action}
    {o : Spec.Answer} {rec : Spec.Record} {d : Spec.Binding} (ha : act P (.init r v) = some a)
    (hst : Spec.Step w a w' o) (hx : w.references[r]? = some { name := n, base := some e })
    (hr : w.records[e]? = some rec) (hf : find rec.bindings n = some d)
    (hin : rec.inObject n = false) :
    d.value = none ∧ ∃ rec' d', w'.records[e]? = some rec' ∧
      find rec'.bindings n = some d' ∧ d'.value = some v := by
  simp only [act, Option.some.injEq] at ha
  subst ha
  cases hst with
  | init hx' hb hr' ho =>
    rw [hx] at hx'
    simp only [Option.some.injEq] at hx'
    subst hx'
    simp only [Option.some.injEq] at hb
    subst hb
    rw [hr] at hr'
    simp only [Option.some.injEq] at hr'
    subst hr'
    unfold Spec.Record.initialize at ho
    rw [if_neg (by simp [hin])] at ho
    simp only [get_eq_find, hf] at ho
    cases hv : d.value with
    | some _ => rw [hv] at ho; simp at ho
    | none =>
      rw [hv] at ho
      simp only [Option.some.injEq] at ho
      refine ⟨rfl, { rec with bindings := Spec.put rec.bindings n { d with value := some v } },
        { d with value := some v }, ?_, ?_, rfl⟩
      · simp only [Spec.World.set]
        rw [List.getElem?_set, if_pos rfl, if_pos (List.getElem?_eq_some_iff.mp hr).1, ← ho]
      · simp only [find_spec_put, if_true]

/-- **C36.**  In every execution covered by `C37_partial` the engine answers as specified, and for
every binding `n` of a declarative record (or of the declarative part of the global one) that
operation `i` initialises with `v`, through whatever reference:

* every read and every assignment before operation `i` throws a ReferenceError;
* no other operation initialises it;
* if it is immutable, every later read gives `v`, and every later assignment throws a TypeError if
  the binding or the code is strict and is ignored otherwise. -/
theorem C36 {P : Code} (hP : P.WF) {obj : List (Name × Val)} {ops : List Op}
    {w : Spec.World} {os : List Spec.Answer} (he : Execution P [0] (start obj) ops w os) :
    ∃ s, run (init P.names obj) ops = .ok (s, os.map ans) ∧
    ∀ (e n : Nat) (rec : Spec.Record) (d : Spec.Binding) (i r v : Nat),
      w.records[e]? = some rec → Spec.get rec.bindings n = some d →
      ops[i]? = some (.init r v) → w.references[r]? = some { name := n, base := some e } →
      Declared P ops e n i →
      ∀ (j r' : Nat), w.references[r']? = some { name := n, base := some e } →
        Declared P ops e n j →
        (∀ st, ops[j]? = some (.get r' st) →
          (j < i → (os.map ans)[j]? = some .refErr) ∧
          (i < j → d.mutable = false → (os.map ans)[j]? = some (.val v))) ∧
        (∀ v' st, ops[j]? = some (.set r' v' st) →
          (j < i → (os.map ans)[j]? = some .refErr) ∧
          (i < j → d.mutable = false →
            (os.map ans)[j]? = some (if d.strict || st then .typeErr else .done))) ∧
        (∀ v', ops[j]? = some (.init r' v') → j = i) := by
  obtain ⟨s, hrun⟩ := C37_partial hP he
  refine ⟨s, hrun, ?_⟩
  intro e n recE dE i r v hrE hdE hi hri hdi j r' hrj hdj
  obtain ⟨ws, hend, hlater, hpt⟩ := binding_at hP he hrE hdE
  have hil : i < ops.length := (List.getElem?_eq_some_iff.mp hi).1
  obtain ⟨ai, oi, reci, di, hai, hsti, hoi, hxi, hreci, hfi, hmi, hsi, hini⟩ :=
    hpt i r _ hi (Or.inl ⟨v, rfl⟩) hri hdi
  -- the binding before and after operation `i`
  have hinit := init_effect hai hsti hxi hreci hfi hini
  -- what operation `j` finds there
  have hfound : ∀ op, ops[j]? = some op → Uses op r' → ∃ a o rec d, act P op = some a ∧
      Spec.Step (ws j) a (ws (j + 1)) o ∧ os[j]? = some o ∧
      (ws j).references[r']? = some { name := n, base := some e } ∧
      (ws j).records[e]? = some rec ∧ find rec.bindings n = some d ∧
      d.mutable = dE.mutable ∧ d.strict = dE.strict ∧ rec.inObject n = false ∧
      (j ≤ i → d.value = none) ∧ (i < j → d.value.isSome = true) ∧
      (i < j → dE.mutable = false → d.value = some v) := by
    intro op hop hu
    have hjl : j < ops.length := (List.getElem?_eq_some_iff.mp hop).1
    obtain ⟨a, o, rec, d, ha, hst, ho, hx, hr, hf, hm, hs, hin⟩ := hpt j r' op hop hu hrj hdj
    refine ⟨a, o, rec, d, ha, hst, ho, hx, hr, hf, hm, hs, hin, ?_, ?_, ?_⟩
    · intro hji
      obtain ⟨rec', hr', hrl⟩ := (hlater j i hji (by omega)).recs e rec hr
      rw [hreci] at hr'
      simp only [Option.some.injEq] at hr'
      subst hr'
      obtain ⟨d', hd', _, _, hv, _⟩ := hrl.keep n d hf
      rw [hfi] at hd'
      simp only [Option.some.injEq] at hd'
      subst hd'
      cases hdv : d.value with
      | none => rfl
      | some v0 =>
        have := hv (by rw [hdv]; rfl)
        rw [hinit.1] at this
        simp at this
    all_goals
      intro hij
      obtain ⟨_, rec1, d1, hr1, hf1, hv1⟩ := hinit
      obtain ⟨rec', hr', hrl⟩ := (hlater (i + 1) j (by omega) (by omega)).recs e rec1 hr1
      rw [hr] at hr'
      simp only [Option.some.injEq] at hr'
      subst hr'
      obtain ⟨d', hd', hm', _, hsome, hval⟩ := hrl.keep n d1 hf1
      rw [hf] at hd'
      simp only [Option.some.injEq] at hd'
      subst hd'
    · exact hsome (by rw [hv1]; rfl)
    · intro hmut
      exact hval (by rw [← hm', hm]; exact hmut) v hv1
  refine ⟨?_, ?_, ?_⟩
  · intro st hop
    obtain ⟨a, o, rec, d, ha, hst, ho, hx, hr, hf, hm, hs, hin, h1, h2, h3⟩ :=
      hfound _ hop (Or.inr (Or.inl ⟨st, rfl⟩))
    simp only [act, Option.some.injEq] at ha
    subst ha
    generalize ws (j + 1) = w' at hst
    rw [List.getElem?_map, ho]
    cases hst with
    | getNowhere hx' hb =>
      rw [hx] at hx'
      simp only [Option.some.injEq] at hx'
      subst hx'
      simp at hb
    | get hx' hb hr' hread =>
      rw [hx] at hx'
      simp only [Option.some.injEq] at hx'
      subst hx'
      simp only [Option.some.injEq] at hb
      subst hb
      rw [hr] at hr'
      simp only [Option.some.injEq] at hr'
      subst hr'
      unfold Spec.Record.read at hread
      rw [if_neg (by simp [hin])] at hread
      simp only [get_eq_find, hf] at hread
      constructor
      · intro hji
        rw [h1 (by omega)] at hread
        simp only [Option.some.injEq] at hread
        rw [← hread]; rfl
      · intro hij hmut
        rw [h3 hij hmut] at hread
        simp only [Option.some.injEq] at hread
        rw [← hread]; rfl
  · intro v' st hop
    obtain ⟨a, o, rec, d, ha, hst, ho, hx, hr, hf, hm, hs, hin, h1, h2, h3⟩ :=
      hfound _ hop (Or.inr (Or.inr ⟨v', st, rfl⟩))
    simp only [act, Option.some.injEq] at ha
    subst ha
    generalize ws (j + 1) = w' at hst
    rw [List.getElem?_map, ho]
    cases hst with
    | setNowhere hx' hb _ =>
      rw [hx] at hx'
      simp only [Option.some.injEq] at hx'
      subst hx'
      simp at hb
    | setNowhereStrict hx' hb =>
      rw [hx] at hx'
      simp only [Option.some.injEq] at hx'
      subst hx'
      simp at hb
    | set hx' hb hr' =>
      rw [hx] at hx'
      simp only [Option.some.injEq] at hx'
      subst hx'
      simp only [Option.some.injEq] at hb
      subst hb
      rw [hr] at hr'
      simp only [Option.some.injEq] at hr'
      subst hr'
      unfold Spec.Record.assign
      rw [if_neg (by simp [hin])]
      simp only [get_eq_find, hf]
      constructor
      · intro hji
        simp only [h1 (by omega : j ≤ i)]
        rfl
      · intro hij hmut
        simp only [h3 hij hmut]
        rw [if_neg (by rw [hm, hmut]; simp), hs]
        cases dE.strict <;> cases st <;> rfl
  · intro v' hop
    obtain ⟨a, o, rec, d, ha, hst, ho, hx, hr, hf, hm, hs, hin, h1, h2, h3⟩ :=
      hfound _ hop (Or.inl ⟨v', rfl⟩)
    obtain ⟨hnone, rec1, d1, hr1, hf1, hv1⟩ := init_effect ha hst hx hr hf hin
    rcases Nat.lt_trichotomy i j with hij | hij | hij
    · have := h2 hij
      rw [hnone] at this
      simp at this
    · exact hij.symm
    · obtain ⟨rec', hr', hrl⟩ := (hlater (j + 1) i (by omega) (by omega)).recs e rec1 hr1
      rw [hreci] at hr'
      simp only [Option.some.injEq] at hr'
      subst hr'
      obtain ⟨d', hd', _, _, hsome, _⟩ := hrl.keep n d1 hf1
      rw [hfi] at hd'
      simp only [Option.some.injEq] at hd'
      subst hd'
      have := hsome (by rw [hv1]; rfl)
      rw [hinit.1] at this
      simp at this

/-- **C36 at the level of bindings.**  Whatever state the engine is in, and whatever operations
follow, direct eval and deletions included, only tail calls excepted: a binding that is immutable,
initialised and not deletable is still there afterwards, with the same value; and no binding
becomes uninitialised again or changes its attributes. -/
theorem C36_binding {s s' : State} {ops : List Op} {os : List Out}
    (hop : ∀ e l, Op.tail e l ∉ ops) (h : run s ops = .ok (s', os)) {c : Nat} {x : Cell}
    (hx : s.cells[c]? = some (some x)) (hd : x.deletable = false) :
    ∃ x', s'.cells[c]? = some (some x') ∧ x'.deletable = false ∧ x'.immutable = x.immutable ∧
      x'.strict = x.strict ∧ (x.initialized = true → x'.initialized = true) ∧
      (x.initialized = true → x.immutable = true → x'.value = x.value) := by
  rcases (run_fine hop h).kept c x hx with ⟨h1, _⟩ | ⟨x', h1, h2, h3⟩
  · rw [hd] at h1; simp at h1
  · exact ⟨x', h1, by rw [h2]; exact hd, h3⟩

/-- A state with an immutable binding, and what follows it: eval code declares in the same
function, assigns and deletes. -/
example : (run (init [1, 2] []) [.enter .func 0 [(0, true, true)] [], .direct 1 0, .init 0 4]).toOption.map
    (fun p => p.1.cells) = some [some { deletable := false, immutable := true, strict := true, initialized := true, value := 4, idx := 0 }] := rfl

example : (run (init [1, 2] []) [.enter .func 0 [(0, true, true)] [], .direct 1 0, .init 0 4,
    .evalVar 1 1, .set 0 5 false, .delete 0 false, .get 0 false]).toOption.map (fun p => p.2) =
    some [.env (some 1), .env (some 1), .done, .done, .typeErr, .bool false, .val 4] := rfl

/-! ## C67 -/

/-- **C67 is false.**  `function f (n) { keep(() => n); if (n) return f(n - 1) } f(1)`: the first
arrow function must go on reading 1.  The engine reuses the environment of the first call for the
second, so it reads 0.  (Binding names: 0 is `n` in `f`, 1 is `n` in the arrow function.  The
specified execution enters a new record for the second call.) -/
theorem C67_violated :
    let names := [5, 5]
    let P : Code := { evalCode with names := names }
    let first : List Op := [.enter .func 0 [(0, false, false)] [], .direct 1 0, .init 0 1]
    let second : List Op := [.enter .func 0 [(0, false, false)] [], .direct 2 0, .init 1 0,
      .enter .func 1 [] [], .resolve 3 1, .get 2 false]
    let tailCall : List Op := [.tail 1 [(0, false, false)], .direct 1 0, .init 1 0,
      .enter .func 1 [] [], .resolve 2 1, .get 2 false]
    (∃ w, Spec.Run (start []) ((first ++ second).filterMap (act P)) w
      [.record (some 1), .record (some 1), .done, .record (some 2), .record (some 2), .done,
       .record (some 3), .record (some 1), .value 1]) ∧
    ∃ s, run (init names []) (first ++ tailCall) = .ok (s,
      [.env (some 1), .env (some 1), .done, .done, .env (some 1), .done,
       .env (some 2), .env (some 1), .val 0]) := by
  intros
  refine ⟨?_, _, rfl⟩
  apply Exists.intro
  apply Spec.Run.cons (.enter rfl rfl)
  apply Spec.Run.cons (.direct rfl rfl)
  apply Spec.Run.cons (.init rfl rfl rfl rfl)
  apply Spec.Run.cons (.enter rfl rfl)
  apply Spec.Run.cons (.direct rfl rfl)
  apply Spec.Run.cons (.init rfl rfl rfl rfl)
  apply Spec.Run.cons (.enter rfl rfl)
  apply Spec.Run.cons (.resolve (.outside rfl rfl (.here rfl rfl)))
  apply Spec.Run.cons (.get rfl rfl rfl rfl)
  exact .nil

/-- **C67 is false.**  With parameter expressions the variable environment is not a function
environment, and the tail call treats it as one all the same. -/
theorem C67_violated_cast :
    run (init [5] []) [.enter .func 0 [(0, false, false)] [], .enter .decl 1 [(0, false, false)] [],
      .tail 2 [(0, false, false)]] = .error .cast := rfl

/-- **C67 (partial).**  What holds of a tail call: it succeeds on a function environment only, the
bindings of every other environment stay as they were (the list of back references apart, and the
bindings of `e` are exactly the ones freed), and the callee starts with exactly the bindings
declared, each a new one, uninitialised.

Missing: a new environment for the call, see `C67_violated`. -/
theorem C67_partial {s s' : State} {e : Nat} {decls : List (Nat × Bool × Bool)} {o : Out}
    (h : step s (.tail e decls) = .ok (s', o)) :
    ∃ env env' : Env, s.envs[e]? = some env ∧ env.kind = .func ∧ s'.envs[e]? = some env' ∧
      env'.kind = .func ∧ env'.outer = env.outer ∧
      (∀ (e' : Nat) (x : Env), e' ≠ e → s.envs[e']? = some x →
        ∃ l, s'.envs[e']? = some { x with backRefs := l }) ∧
      (∀ (c : Nat), c < s.cells.length → (∀ n, (n, c) ∉ env.hash) → s'.cells[c]? = s.cells[c]?) ∧
      (∀ (c n : Nat), c < s.cells.length → (n, c) ∈ env.hash → s'.cells[c]? = some none) ∧
      env'.hash.map (fun p => some p.1) =
        decls.map (fun d => (s.names[d.1]?).map BName.name) ∧
      ∀ (c n : Nat), (n, c) ∈ env'.hash → s.cells.length ≤ c ∧
        ∃ x, s'.cells[c]? = some (some x) ∧ x.initialized = false := by
  simp only [step] at h
  obtain ⟨env, he, h⟩ := bindOk h
  have he := env_of he
  by_cases hk : env.kind = .func
  · rw [if_neg (by simp [hk])] at h
    obtain ⟨s1, h1, h⟩ := bindOk h
    obtain ⟨s2, h2, h⟩ := bindOk h
    simp only [Except.ok.injEq, Prod.mk.injEq] at h
    obtain ⟨rfl, _⟩ := h
    unfold clearEnv at h1
    obtain ⟨env0, he0, h1⟩ := bindOk h1
    have he0 := env_of he0
    rw [he] at he0
    simp only [Option.some.injEq] at he0
    subst he0
    simp only [Except.ok.injEq] at h1
    have hlt : e < s.envs.length := (List.getElem?_eq_some_iff.mp he).1
    have henv1 : s1.envs[e]? = some
        { env with cache := true, hash := [], vec := [], stack := none, backRefs := [] } := by
      rw [← h1, List.getElem?_map, List.getElem?_set, if_pos rfl, if_pos hlt]
      rfl
    have hc1 : s1.cells = freeAll s.cells env.hash := by rw [← h1]
    have hl1 : s1.cells.length = s.cells.length := by rw [hc1, freeAll_length]
    have hn1 : s1.names = s.names := by rw [← h1]
    obtain ⟨_, _, hcells, _, henvs, env', he', hk', ho', fresh, hf, hnames, hfresh⟩ :=
      declareAll_effect h2 henv1
    simp only [List.nil_append] at hf
    refine ⟨env, env', he, hk, he', hk'.trans hk, ho', ?_, ?_, ?_, ?_, ?_⟩
    · intro e' x hne hx
      refine ⟨x.backRefs.filter fun r => r != e, ?_⟩
      rw [henvs e' hne, ← h1, List.getElem?_map, List.getElem?_set,
        if_neg (fun h => hne h.symm), hx]
      rfl
    · intro c hc hnot
      rw [hcells c (by omega), hc1, freeAll_other hnot]
    · intro c n hc hin
      rw [hcells c (by omega), hc1]
      exact freeAll_listed (Or.inl ⟨n, hin⟩) hc
    · rw [hf, hnames, hn1]
    · intro c n hin
      rw [hf] at hin
      obtain ⟨h3, h4⟩ := hfresh _ hin
      exact ⟨by simp only at h3; omega, h4⟩
  · rw [if_pos (by simp [hk])] at h
    simp at h

/-- A tail call that succeeds, with another environment about. -/
example : ((run (init [5, 6] []) [.enter .func 0 [(0, false, false)] [],
    .enter .func 0 [(1, false, false)] [], .tail 1 [(0, false, false)]]).toOption.map
      fun p => (p.1.cells.map Option.isSome, p.1.envs.map fun x => x.hash)) =
    some ([false, true, true], [[], [(5, 2)], [(6, 1)]]) := rfl

end Verif.Env

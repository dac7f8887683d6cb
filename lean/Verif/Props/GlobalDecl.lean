import Verif.Lemmas.GlobalDecl4

/-!
C90.  The declarations of scripts and `eval`.
-/
namespace Verif.GlobalDecl
open Obj (Val P Desc)
open Spec (view)

/-! ### Examples -/

/-- A global object with the properties 0 (writable, enumerable, not configurable), 1 (neither),
2 (configurable, an accessor). -/
def exObj : Obj.Obj :=
  { Obj.new none false with named := [(.str 0, ⟨true, true, false, .data (.num 7)⟩), (.str 1, ⟨false, false, false, .data .undef⟩),
      (.str 2, ⟨false, false, true, .acc .undef .undef⟩)] }

def exG : Global := ⟨exObj, fun _ => none, [(5, ⟨true, true, false, some (.num 1)⟩)], [0]⟩

/-- `var a, b; let c; function b(){}`. -/
def exDs : List Decl := [.var 0, .var 3, .lex 4 true, .func 3 (.num 9), .func 2 (.num 8)]

theorem exAccepted : Spec.Accepted exDs := by
  constructor
  · intro a b c n x y h
    have h1 := congrArg (List.countP fun d => match d with | .lex _ _ => true | _ => false) h
    simp [exDs, List.countP_append, List.countP_cons] at h1
    omega
  · rintro n ⟨c, h⟩ h2
    simp [exDs] at h
    obtain ⟨rfl, _⟩ := h
    rcases h2 with h2 | ⟨f, h2⟩ <;> simp [exDs] at h2

/-! ### Scripts -/

/-- **C90.** `GlobalDeclarationInstantiation`: whatever the state of the global environment and the
declarations of a script, the declarations are refused with a SyntaxError iff a lexical name is
already a variable, a lexical binding or a property which cannot be removed, or a variable is
already a lexical binding; they are refused with a TypeError iff that is not so and a function or
variable cannot be declared; nothing has changed then.  Otherwise exactly the variables, functions
(the last of each name) and lexical bindings come into being which the standard lists, and
everything else stays as it was. -/
theorem C90_script (ds : List Decl) (ha : Spec.Accepted ds) (g : Global) :
    ∃ r g', script ds g = some (r, g') ∧
      (r = .syntax ↔ Spec.Clash (view g) ds) ∧
      (r = .type ↔ ¬ Spec.Clash (view g) ds ∧ Spec.Barred (view g) ds) ∧
      (r ≠ .ok → g' = g) ∧ (∀ f, r ≠ .call f) ∧
      (r = .ok → Spec.Vars false (view g) ds (view g') ∧ Spec.Lexs (view g).lex ds (view g').lex) := by
  rcases script_cases ha g with ⟨h, e⟩ | ⟨h, h', e⟩ | ⟨h, h', g', e, hv, hl, _⟩
  · exact ⟨_, _, e, by simp [h], by simp [h], fun _ => rfl, by simp, by simp⟩
  · exact ⟨_, _, e, by simp [h], by simp [h, h'], fun _ => rfl, by simp, by simp⟩
  · exact ⟨_, _, e, by simp [h], by simp [h'], by simp, by simp, fun _ => ⟨hv, hl⟩⟩

example : ∃ g', script exDs exG = some (.ok, g') ∧ g'.obj.named =
      [(.str 0, ⟨true, true, false, .data (.num 7)⟩), (.str 1, ⟨false, false, false, .data .undef⟩),
       (.str 2, ⟨true, true, false, .data (.num 8)⟩), (.str 3, ⟨true, true, false, .data (.num 9)⟩)] ∧
      g'.vars = [0, 3, 2] ∧ g'.lex = [(5, ⟨true, true, false, some (.num 1)⟩), (4, ⟨true, true, false, none⟩)] :=
  ⟨_, rfl, by decide, by decide, by decide⟩

example : (script [.lex 0 false] exG).map (·.1) = some .syntax ∧ (script [.var 5] exG).map (·.1) = some .syntax ∧
    (script [.func 1 (.num 9)] exG).map (·.1) = some .type ∧ (script [.lex 2 false] exG).map (·.1) = some .ok := by decide

/-- **C90, partial.** The order in which the properties are made, if no function is declared twice:
functions first.  (What is missing: `C90_order_violated`.) -/
theorem C90_order_partial (ds : List Decl) (ha : Spec.Accepted ds) (hn : Spec.NoRepeat ds) (g g' : Global)
    (h : script ds g = some (.ok, g')) : Spec.Order (view g) ds (view g') := by
  rcases script_cases ha g with ⟨_, e⟩ | ⟨_, _, e⟩ | ⟨_, _, g2, e, _, _, _, _, hk⟩
  · rw [e] at h; cases h
  · rw [e] at h; cases h
  · rw [e] at h; cases h
    rw [order_eq hn] at hk
    exact hk

example : Spec.NoRepeat exDs := by
  intro a b c n f f' h
  have h1 := congrArg (List.countP fun d => match d with | .func m _ => decide (m = n) | _ => false) h
  simp [exDs, List.countP_append, List.countP_cons] at h1
  split at h1 <;> split at h1 <;> omega

/-- **C90, violated.** `function a(){} function b(){} function a(){}` makes `a` before `b`; the
standard goes by the last declaration of each function (16.1.7, step 7). -/
theorem C90_order_violated : ∃ ds g g', Spec.Accepted ds ∧ script ds g = some (.ok, g') ∧ ¬ Spec.Order (view g) ds (view g') := by
  refine ⟨[.func 10 (.num 1), .func 11 (.num 2), .func 10 (.num 3)], exG, _, ?_, rfl, ?_⟩
  · constructor
    · intro a b c n x y h
      have h1 := congrArg (List.countP fun d => match d with | .lex _ _ => true | _ => false) h
      simp [List.countP_append] at h1
    · rintro n ⟨c, h⟩
      simp at h
  · unfold Spec.Order
    decide

/-! ### Eval -/

/-- **C90.** `EvalDeclarationInstantiation` with global variables (sloppy code): a SyntaxError iff a
variable is a lexical binding of the global environment or an environment on the way has it or
throws when asked; a TypeError as in scripts; nothing has changed then.  Otherwise the variables
are made, deletable, and the lexical bindings in the new environment. -/
theorem C90_eval (ds : List Decl) (ha : Spec.Accepted ds) (frames : List Frame) (g : Global) :
    ∃ r w, eval false frames ds ⟨g, none, []⟩ = some (r, w) ∧
      (r = .syntax ↔ ∃ n, Spec.VarName ds n ∧ (((view g).lex n).isSome ∨ Spec.BetweenAny frames n)) ∧
      (r = .type ↔ (¬ ∃ n, Spec.VarName ds n ∧ (((view g).lex n).isSome ∨ Spec.BetweenAny frames n)) ∧ Spec.Barred (view g) ds) ∧
      (r ≠ .ok → w = ⟨g, none, []⟩) ∧ (∀ f, r ≠ .call f) ∧ w.fn = none ∧
      (r = .ok → Spec.Vars true (view g) ds (view w.g) ∧ (view w.g).lex = (view g).lex ∧
        Spec.Lexs (fun _ => none) ds (fun n => Spec.findB n w.inner) ∧ (Spec.NoRepeat ds → Spec.Order (view g) ds (view w.g))) := by
  rcases eval_global_cases ha frames ⟨g, none, []⟩ rfl rfl with ⟨h, e⟩ | ⟨h, h', e⟩ | ⟨h, h', w, e, hf, hv, hl, _, hi, hk⟩
  · refine ⟨_, _, e, ?_, ?_, fun _ => rfl, by simp, rfl, by simp⟩
    · exact ⟨fun _ => h, fun _ => rfl⟩
    · exact ⟨fun h => (nomatch h), fun h1 => absurd h h1.1⟩
  · refine ⟨_, _, e, ?_, ?_, fun _ => rfl, by simp, rfl, by simp⟩
    · exact ⟨fun h => (nomatch h), fun h1 => absurd h1 h⟩
    · exact ⟨fun _ => ⟨h, h'⟩, fun _ => rfl⟩
  · refine ⟨_, _, e, ?_, ?_, by simp, by simp, hf, fun _ => ⟨hv, restricted_to_view hl, hi, fun hn => ?_⟩⟩
    · exact ⟨fun h => (nomatch h), fun h1 => absurd h1 h⟩
    · exact ⟨fun h => (nomatch h), fun h1 => absurd h1.2 h'⟩
    · rw [order_eq hn] at hk
      exact hk

example : ∃ w, eval false [.block [(6, ⟨false, false, false, some .undef⟩)]] exDs ⟨exG, none, []⟩ = some (.ok, w) ∧ w.g.obj.named =
      [(.str 0, ⟨true, true, false, .data (.num 7)⟩), (.str 1, ⟨false, false, false, .data .undef⟩),
       (.str 2, ⟨true, true, true, .data (.num 8)⟩), (.str 3, ⟨true, true, true, .data (.num 9)⟩)] ∧
      w.inner = [(4, ⟨true, true, false, none⟩)] :=
  ⟨_, rfl, by decide, by decide⟩

example : (eval false [.block [(6, ⟨false, false, false, some .undef⟩)]] [.var 6] ⟨exG, none, []⟩).map (·.1) = some .syntax := by decide

/-- **C90, partial.** The SyntaxErrors are those of the standard if neither a `with` statement nor a
catch clause on the way has one of the names.  (What is missing: `C90_with_violated`,
`C90_catch_violated`, `C90_throw_violated`.) -/
theorem C90_eval_partial (ds : List Decl) (ha : Spec.Accepted ds) (frames : List Frame) (g : Global)
    (h1 : ∀ l n, .catch_ l ∈ frames → Spec.VarName ds n → Spec.findB n l = none)
    (h2 : ∀ h n, .with_ h ∈ frames → Spec.VarName ds n → h n = .no) :
    ∃ r w, eval false frames ds ⟨g, none, []⟩ = some (r, w) ∧
      (r = .syntax ↔ ∃ n, Spec.VarName ds n ∧ (((view g).lex n).isSome ∨ Spec.Between frames n)) := by
  obtain ⟨r, w, e, hs, _⟩ := C90_eval ds ha frames g
  refine ⟨r, w, e, hs.trans ?_⟩
  constructor
  · rintro ⟨n, hv, h | h | ⟨l, hl, hb⟩ | ⟨k, hk, hb⟩⟩
    · exact ⟨n, hv, .inl h⟩
    · exact ⟨n, hv, .inr h⟩
    · rw [h1 l n hl hv] at hb; cases hb
    · exact absurd (h2 k n hk hv) hb
  · rintro ⟨n, hv, h | h⟩
    · exact ⟨n, hv, .inl h⟩
    · exact ⟨n, hv, .inr (.inl h)⟩

example : (∀ l n, .catch_ l ∈ [Frame.catch_ [(8, Spec.made .undef)]] → Spec.VarName exDs n → Spec.findB n l = none) := by
  intro l n h hv
  simp at h
  subst h
  rcases hv with hv | ⟨f, hv⟩ <;> simp [exDs] at hv
  · rcases hv with rfl | rfl <;> rfl
  · rcases hv with ⟨rfl, _⟩ | ⟨rfl, _⟩ <;> rfl

/-- What the standard asks of `eval` with global variables is refused here. -/
def Refused (frames : List Frame) (ds : List Decl) (g : Global) : Prop :=
  Spec.Accepted ds ∧ (¬ ∃ n, Spec.VarName ds n ∧ (((view g).lex n).isSome ∨ Spec.Between frames n)) ∧ ¬ Spec.Barred (view g) ds ∧
    eval false frames ds ⟨g, none, []⟩ = some (.syntax, ⟨g, none, []⟩)

theorem refused_var {frames : List Frame} (n : Nat) (hb : ∀ l, .block l ∉ frames) (ha : Spec.BetweenAny frames n) :
    Refused frames [.var n] ⟨(Obj.new none false), fun _ => none, [], []⟩ := by
  have hacc : Spec.Accepted [.var n] := by
    constructor
    · intro a b c m x y h
      have h1 := congrArg (List.countP fun d => match d with | .lex _ _ => true | _ => false) h
      simp [List.countP_append] at h1
    · rintro m ⟨c, h⟩
      simp at h
  refine ⟨hacc, ?_, ?_, ?_⟩
  · rintro ⟨m, _, h | ⟨l, h, _⟩⟩
    · simp [view, Spec.findB] at h
    · exact hb l h
  · rintro (⟨m, ⟨f, h⟩, _⟩ | ⟨m, _, h⟩)
    · simp at h
    · exact h (.inr rfl)
  · obtain ⟨r, w, e, hs, _, hw, _⟩ := C90_eval [.var n] hacc frames ⟨(Obj.new none false), fun _ => none, [], []⟩
    have hr : r = .syntax := hs.2 ⟨n, .inl (by simp), .inr ha⟩
    subst hr
    rw [e, hw (by simp)]

/-- **C90, violated.** `with ({x: 1}) { eval("var x = 2") }` is a SyntaxError; the standard does not
look at the environments of `with` statements (19.2.1.3, step 3.d.i). -/
theorem C90_with_violated : ∃ has : Nat → Has, has 0 = .yes ∧ ∃ g, Refused [.with_ has] [.var 0] g :=
  ⟨fun _ => .yes, rfl, _, refused_var 0 (by simp) (.inr (.inr ⟨fun _ => .yes, by simp, by simp⟩))⟩

/-- **C90, violated.** `try { throw 1 } catch (e) { eval("var e") }` is a SyntaxError; B.3.4 allows
it. -/
theorem C90_catch_violated : ∃ l g, Refused [.catch_ l] [.var 0] g :=
  ⟨[(0, Spec.made (.num 1))], _, refused_var 0 (by simp) (.inr (.inl ⟨[(0, Spec.made (.num 1))], by simp, rfl⟩))⟩

/-- **C90, violated.** A `with` statement whose object throws in its `has` trap makes `eval` throw a
SyntaxError; the standard does not ask, and an error of the trap would not be a SyntaxError. -/
theorem C90_throw_violated : ∃ has : Nat → Has, has 0 = .throws ∧ ∃ g, Refused [.with_ has] [.var 0] g :=
  ⟨fun _ => .throws, rfl, _, refused_var 0 (by simp) (.inr (.inr ⟨fun _ => .throws, by simp, by simp⟩))⟩

/-- **C90.** A direct `eval` of sloppy code in a function: a SyntaxError iff an environment on the
way has the name or throws; nothing has changed then.  Otherwise the variables are made in the
function, the lexical bindings in the new environment, and the global environment does not change.
The functions must not meet a binding that cannot be assigned. -/
theorem C90_eval_func (ds : List Decl) (ha : Spec.Accepted ds) (frames : List Frame) (g : Global) (l : Decls)
    (hb : ∀ n b, Spec.FuncName ds n → Spec.findB n l = some b → b.value.isSome ∧ b.imm = false) :
    ∃ r w, eval false frames ds ⟨g, some l, []⟩ = some (r, w) ∧ w.g = g ∧
      (r = .syntax ∨ r = .ok) ∧ (r = .syntax ↔ ∃ n, Spec.VarName ds n ∧ Spec.BetweenAny frames n) ∧
      (r = .syntax → w = ⟨g, some l, []⟩) ∧
      (r = .ok → Spec.Lexs (fun _ => none) ds (fun n => Spec.findB n w.inner) ∧
        ∃ l', w.fn = some l' ∧ Spec.Locals (fun n => Spec.findB n l) ds (fun n => Spec.findB n l')) := by
  rcases eval_fn_cases ha frames ⟨g, some l, []⟩ rfl rfl hb with ⟨h, e⟩ | ⟨h, inner, l', e, hi, hl⟩
  · exact ⟨_, _, e, rfl, .inl rfl, ⟨fun _ => h, fun _ => rfl⟩, fun _ => rfl, fun h => (nomatch h)⟩
  · exact ⟨_, _, e, rfl, .inr rfl, ⟨fun h => (nomatch h), fun h1 => absurd h1 h⟩, fun h => (nomatch h), fun _ => ⟨hi, l', rfl, hl⟩⟩

example : ∃ w, eval false [] exDs ⟨exG, some [(0, ⟨false, false, false, some (.num 3)⟩), (2, ⟨false, false, false, some (.num 4)⟩)], []⟩ =
      some (.ok, w) ∧ w.fn = some [(0, ⟨false, false, false, some (.num 3)⟩), (2, ⟨false, false, false, some (.num 8)⟩),
        (3, ⟨false, false, true, some (.num 9)⟩)] ∧ w.inner = [(4, ⟨true, true, false, none⟩)] :=
  ⟨_, rfl, by decide, by decide⟩

/-- **C90.** `eval` of strict code never fails here and changes nothing outside its own
environment. -/
theorem C90_eval_strict (ds : List Decl) (ha : Spec.Accepted ds) (frames : List Frame) (g : Global) (fn : Option Decls) :
    ∃ inner, eval true frames ds ⟨g, fn, []⟩ = some (.ok, ⟨g, fn, inner⟩) ∧ Spec.Strict ds (fun n => Spec.findB n inner) := by
  obtain ⟨inner, e, mid, h1, h2⟩ := eval_strict ha frames ⟨g, fn, []⟩ rfl
  refine ⟨inner, e, ?_, ?_, ?_, ?_⟩
  · intro n c h
    rw [h2.other n (ha.apart n ⟨c, h⟩)]
    exact h1.new n c h
  · intro n f h
    have hf : Spec.FuncName ds n := funcName_iff.2 ⟨f, h⟩
    have := h2.func n f h
    rw [h1.other n (fun hl => ha.apart n hl (.inr hf))] at this
    exact this
  · intro n h hf
    have := h2.var n h hf
    rw [h1.other n (fun hl => ha.apart n hl h)] at this
    exact this
  · intro n hl hv
    rw [h2.other n hv]
    exact h1.other n hl

example : ∃ inner, eval true [.with_ fun _ => .throws] exDs ⟨exG, none, []⟩ = some (.ok, ⟨exG, none, inner⟩) ∧ inner =
      [(4, ⟨true, true, false, none⟩), (3, ⟨false, false, true, some (.num 9)⟩), (2, ⟨false, false, true, some (.num 8)⟩),
        (0, ⟨false, false, true, some .undef⟩)] :=
  ⟨_, rfl, rfl⟩

/-! ### Deletion -/

/-- **C90, partial.** `delete x` on a global name which is a lexical binding or an own property of
the global object: a lexical binding that is not deletable and a property that is not configurable
stay, with the answer no; a property that is configurable disappears, and nothing else does.  (What
is missing: `C90_delete_violated`.) -/
theorem C90_delete_partial (g : Global) (hk : (view g).keys.Nodup) (n : Nat)
    (h : ((view g).lex n).isSome ∨ ((view g).own (.str n)).isSome) :
    ∃ b g', deleteBinding g n = some (b, g') ∧
      (∀ c, (view g).lex n = some c → c.deletable = false → b = false ∧ g' = g) ∧
      ((view g).lex n = none → ∀ p, (view g).own (.str n) = some p → b = p.c ∧ (p.c = false → g' = g) ∧
        (p.c = true → (view g').own = (fun m => if m = .str n then none else (view g).own m) ∧ (view g').ext = (view g).ext ∧
          (view g').items = (view g).items ∧ (view g').lex = (view g).lex ∧ ∀ m, (view g').var m ↔ (view g).var m ∧ m ≠ n)) := by
  unfold deleteBinding
  rw [look_eq]
  simp only [view] at h hk ⊢
  cases hl : Spec.findB n g.lex with
  | some c =>
    simp only
    cases hd : c.deletable with
    | true =>
      refine ⟨_, _, rfl, ?_, by simp⟩
      intro c' hc hd'
      cases hc; rw [hd] at hd'; cases hd'
    | false => exact ⟨_, _, rfl, fun _ _ _ => ⟨rfl, rfl⟩, by simp⟩
  | none =>
    rw [hl] at h
    have h := h.resolve_left (by simp)
    obtain ⟨p, hp⟩ := Option.isSome_iff_exists.1 h
    have hpc : (Obj.descOf p).c = p.c := by unfold Obj.descOf; split <;> rfl
    simp only
    rw [getOwn_eq, hp]
    simp only [Option.map_some, Obj.delete]
    rw [getOwn_eq, hp]
    simp only [Option.map_some, hpc]
    cases hc : p.c with
    | false =>
      refine ⟨_, _, rfl, by simp, ?_⟩
      intro _ q hq
      cases hq
      exact ⟨hc.symm, fun _ => rfl, by simp [hc]⟩
    | true =>
      simp only [Obj.propDelete, key, findName_eq, hp, if_true]
      refine ⟨_, _, rfl, by simp, ?_⟩
      intro _ q hq
      cases hq
      refine ⟨hc.symm, by simp [hc], fun _ => ⟨?_, rfl, rfl, rfl, ?_⟩⟩
      · funext m
        exact find_remove hk
      · intro m
        simp

example : (deleteBinding exG 2).map (fun x => (x.1, x.2.obj.named.map (·.1))) = some (true, [.str 0, .str 1]) ∧
    (deleteBinding exG 0).map (·.1) = some false ∧ (deleteBinding exG 5).map (·.1) = some false := by decide

/-- **C90, violated.** `delete x` answers no when `x` is neither a lexical binding nor an own property
of the global object (`delete toString`); the standard answers yes (9.1.1.4.7, step 5). -/
theorem C90_delete_violated : ∃ g n, (view g).lex n = none ∧ (view g).own (.str n) = none ∧ (g.inh n).isSome ∧
    deleteBinding g n = some (false, g) :=
  ⟨⟨(Obj.new none false), fun _ => some {}, [], []⟩, 3, rfl, rfl, rfl, rfl⟩

/-! ### Histories -/

/-- **C90.** At no time is a name both a lexical binding and a variable of the global environment,
and no lexical name is there twice: after any scripts, `eval`s, deletions, assignments and changes
of the global object. -/
theorem C90_disjoint (o : Obj.Obj) (inh : Nat → Option Desc) (ops : List Op) (hf : ∀ op ∈ ops, Spec.Fine op) (g : Global)
    (h : run (Global.new o inh) ops = some g) :
    (g.lex.map (·.1)).Nodup ∧ ∀ n, ((view g).lex n).isSome → ¬ (view g).var n := by
  obtain ⟨hi, _⟩ := run_keeps hf (inv_new o inh) h
  exact ⟨hi.nodup, fun n hn => hi.apart n (mem_names.2 hn)⟩

/-- **C90.** A lexical binding of the global environment stays for ever: it is constant or not as it
was, it does not become uninitialised, and the value of an initialised constant does not change. -/
theorem C90_lexical_forever (o : Obj.Obj) (inh : Nat → Option Desc) (ops ops' : List Op)
    (hf : ∀ op ∈ ops ++ ops', Spec.Fine op) (g g' : Global)
    (h : run (Global.new o inh) ops = some g) (h' : run g ops' = some g') (n : Nat) (b : Binding) (hb : (view g).lex n = some b) :
    ∃ b', (view g').lex n = some b' ∧ b'.imm = b.imm ∧ b'.strict = b.strict ∧ (b.value.isSome → b'.value.isSome) ∧
      (b.imm = true → b.value.isSome → b'.value = b.value) := by
  obtain ⟨hi, _⟩ := run_keeps (fun op h => hf op (by simp [h])) (inv_new o inh) h
  obtain ⟨_, hk⟩ := run_keeps (fun op h => hf op (by simp [h])) hi h'
  exact hk n b hb

/-- A history: a script, initialisation, a clash, deletion, `eval`. -/
def exOps : List Op := [.script exDs, .init 4 (.num 1), .assign 4 (.num 2), .script [.var 4], .delete 4, .delete 3, .eval [] [.var 6]]

example : ∃ g, run (Global.new exObj fun _ => none) exOps = some g ∧ g.lex = [(4, ⟨true, true, false, some (.num 1)⟩)] ∧
    g.vars = [3, 2, 0, 6] :=
  ⟨_, rfl, by decide, by decide⟩

/-- **C90.** No assertion fails: the instantiation of declarations and the deletion of a name are
always defined. -/
theorem C90_defined (g : Global) : (∀ ds, Spec.Accepted ds → (script ds g).isSome) ∧
    (∀ ds frames, Spec.Accepted ds → (eval false frames ds ⟨g, none, []⟩).isSome) ∧
    (∀ n, (deleteBinding g n).isSome) := by
  refine ⟨fun ds ha => ?_, fun ds fs ha => ?_, fun n => ?_⟩
  · obtain ⟨r, g', e, _⟩ := C90_script ds ha g
    rw [e]; rfl
  · obtain ⟨r, g', e, _⟩ := C90_eval ds ha fs g
    rw [e]; rfl
  · unfold deleteBinding
    split
    · split <;> rfl
    · rw [getOwn_eq]
      cases hp : Spec.find (.str n) g.obj.named with
      | none => rfl
      | some p =>
        simp only [Option.map_some, Obj.delete]
        rw [getOwn_eq, hp]
        simp only [Option.map_some]
        cases (Obj.descOf p).c with
        | false => rfl
        | true =>
          simp only [Obj.propDelete, key, findName_eq, hp, if_true]
          rfl

end Verif.GlobalDecl

import Verif.Lemmas.DeclsTop

/-
C85: declarations in the parser.  A program is accepted only when the standard's
early errors about names declared twice do not apply, and the tables of names
handed to the code generator hold for every scope just the names the standard
says it declares.  This fails for a `catch` without a parameter, for imported
names, and in the other direction for two forms of valid programs.
-/

namespace Verif.Decls

/-- `"use strict"`-free header of a function with the given parameters. -/
private def hdr (ps : List Nat) : Hdr := ⟨ps, false, true, false, false⟩

/-- `let a; function f(p) { var a; { let p; var b } } { var c; function g() {} } for (let i…) { }`
as a list (a=0, f=1, p=2, b=3, c=4, g=5, i=6). -/
private def prog : St :=
  .cons (.lex 0) (.cons
    (.fnDecl 1 (hdr [2]) (.cons (.var 0) (.block (.cons (.lex 2) (.var 3)))))
    (.cons (.block (.cons (.var 4) (.fnDecl 5 (hdr []) .nil)))
      (.cons (.forLex [6] (.block (.var 7)))
        (.tryCatch (some [8]) (.lex 9)))))

/-- **No undefined step.**  Parsing a script or module whose `catch` clauses all
have a parameter never asks for the top of an empty stack nor walks off its
bottom, and leaves the stack empty.
Partial: without the condition the claim is false, see
`C85_bare_catch_violated`. -/
theorem C85_safe_partial (ps : Bool) (s : St) (hnb : NoBareCatch s) :
    (Grammar false s → ∃ st, script ps s = some st ∧ st.stack = []) ∧
    (Grammar true s → ∃ st, moduleP s = some st ∧ st.stack = []) := by
  refine ⟨fun hgr => ?_, fun hgr => ?_⟩
  · obtain ⟨st, h1, h2, _⟩ := script_res (ps := ps) hgr hnb
    exact ⟨st, h1, h2⟩
  · obtain ⟨st, h1, h2, _⟩ := module_res hgr hnb
    exact ⟨st, h1, h2⟩

/-- **Soundness for scripts and eval code.**  An accepted script breaks none of
the standard's rules on repeated declarations, in any of its functions and
blocks.  Partial: `catch` clauses with a parameter only. -/
theorem C85_script_sound_partial (ps : Bool) (s : St) (hgr : Grammar false s) (hnb : NoBareCatch s)
    (h : Accepts (script ps s)) : ScriptOk ps s := by
  obtain ⟨st, h1, _, h3, _⟩ := script_res (ps := ps) hgr hnb
  obtain ⟨st', e1, e2⟩ := h
  rw [h1] at e1; cases e1
  exact (h3 e2).1

/-- **Soundness for modules.**  Partial: `catch` clauses with a parameter only,
and only for modules none of whose imported names is declared again by the
module itself, see `C85_import_violated`. -/
theorem C85_module_sound_partial (s : St) (hgr : Grammar true s) (hnb : NoBareCatch s)
    (himp : ∀ x ∈ IN s, x ∉ LN false s ∧ x ∉ VN s) (h : Accepts (moduleP s)) : ModuleOk s := by
  obtain ⟨st, h1, _, h3, _⟩ := module_res hgr hnb
  obtain ⟨st', e1, e2⟩ := h
  rw [h1] at e1; cases e1
  obtain ⟨a1, a2, a3, _⟩ := h3 e2
  refine ⟨?_, ?_, a3⟩
  · rw [List.nodup_append]
    refine ⟨a1, a2.1, ?_⟩
    intro x hx y hy e
    subst e
    exact (himp x hx).1 hy
  · intro x hx
    rcases List.mem_append.1 hx with hx | hx
    · exact (himp x hx).2
    · exact (a2.2 x hx).1

/-- **Completeness for scripts.**  A script that breaks no rule is accepted.
Partial: not when the block of a `for` loop declares a name of the loop
(`C85_for_block_violated`) nor when a function declaration is followed by a
`var` of its name in an inner block (`C85_inner_var_violated`). -/
theorem C85_script_complete_partial (ps : Bool) (s : St) (hgr : Grammar false s)
    (hnb : NoBareCatch s) (hfc : NoForClash s) (hfv : NoFnThenVar true s) (h : ScriptOk ps s) :
    Accepts (script ps s) := by
  obtain ⟨st, h1, _, _, h4⟩ := script_res (ps := ps) hgr hnb
  exact ⟨st, h1, h4 h hfc hfv⟩

/-- **Completeness for modules**, with the same conditions. -/
theorem C85_module_complete_partial (s : St) (hgr : Grammar true s) (hnb : NoBareCatch s)
    (hfc : NoForClash s) (hfv : NoFnThenVar false s) (h : ModuleOk s) : Accepts (moduleP s) := by
  obtain ⟨st, h1, _, _, h4⟩ := module_res hgr hnb
  refine ⟨st, h1, h4 ?_ ⟨?_, ?_⟩ h.2.2 hfc hfv⟩
  · have := h.1; rw [List.nodup_append] at this; exact this.1
  · have := h.1; rw [List.nodup_append] at this; exact this.2.1
  · intro x hx
    refine ⟨h.2.1 x (List.mem_append_right _ hx), ?_⟩
    rw [FN_false]; simp

/-- **Tables of a script.**  For every scope of an accepted script, in the order
the scopes end, the table given to the code generator holds each name the
standard declares there, once, and no other: parameters, variables (functions
included) and lexical names for a function, lexical names for a block. -/
theorem C85_script_tables_partial (ps : Bool) (s : St) (hgr : Grammar false s) (hnb : NoBareCatch s)
    (st : PS) (h : script ps s = some st) (he : st.err = false) :
    SameTabs st.tabs (ScriptTabs s) := by
  obtain ⟨st', h1, _, h3, _⟩ := script_res (ps := ps) hgr hnb
  rw [h1] at h; cases h
  exact (h3 he).2

/-- **Tables of a module**, and its list of imported names. -/
theorem C85_module_tables_partial (s : St) (hgr : Grammar true s) (hnb : NoBareCatch s)
    (st : PS) (h : moduleP s = some st) (he : st.err = false) :
    SameTabs st.tabs (ModuleTabs s) ∧ st.imps = IN s := by
  obtain ⟨st', h1, _, h3, _⟩ := module_res hgr hnb
  rw [h1] at h; cases h
  obtain ⟨_, _, _, a4, a5⟩ := h3 he
  exact ⟨a4, a5⟩

/-- A program with functions, blocks, a loop and a `catch` meets all the
conditions, and is accepted. -/
example : Grammar false prog ∧ NoBareCatch prog ∧ NoForClash prog ∧ NoFnThenVar true prog ∧
    ScriptOk false prog ∧ ∃ st, script false prog = some st ∧ st.err = false ∧
      st.tabs = [.scope [2], .func [2] [0, 3] [], .func [] [] [], .scope [5], .scope [], .scope [6],
        .scope [9], .scope [8], .func [] [1, 4, 7] [0]] := by
  refine ⟨?_, ?_, ?_, ?_, ?_, ?_⟩
  · simp [prog, hdr, Grammar, LN]
  · simp [prog, NoBareCatch]
  · simp [prog, NoForClash, LN]
  · simp [prog, NoFnThenVar, FN, NV, VN]
  · simp [prog, hdr, ScriptOk, ListOk, Early, FuncOk, LN, VN, FN]
  · exact ⟨_, rfl, by decide +kernel, by decide +kernel⟩

/-- A module with imports meets the conditions, and is accepted. -/
example : Grammar true (.cons (.imp 1) (.cons (.imp 2) prog)) ∧
    ModuleOk (.cons (.imp 21) (.cons (.imp 22) prog)) ∧
    ∃ st, moduleP (.cons (.imp 21) (.cons (.imp 22) prog)) = some st ∧ st.err = false := by
  refine ⟨?_, ?_, ?_⟩
  · simp [prog, hdr, Grammar, LN]
  · simp [prog, hdr, ModuleOk, ListOk, Early, FuncOk, LN, VN, FN, IN]
  · exact ⟨_, rfl, by decide +kernel⟩

/-- The hypotheses of soundness are met by programs that are rejected, too: the
parser finds the repeated name. -/
example : ∃ st, script false (.cons (.lex 1) (.block (.block (.var 1)))) = some st ∧ st.err = true :=
  ⟨_, rfl, by decide +kernel⟩

/-- **Defect: `catch` without a parameter.**  The parser pushes no declaration
for it but pops one.  The valid script `try {} catch {} let x` runs into
`decl_top`'s assertion; in a function, two such `catch` clauses and a `var` walk
off the bottom of the stack; and after one, a `let` is accepted but its name is
in no table. -/
theorem C85_bare_catch_violated :
    (∃ s, Grammar false s ∧ ScriptOk false s ∧ script false s = none) ∧
    (∃ b, Grammar false (.fnDecl 1 (hdr []) b) ∧ ScriptOk false (.fnDecl 1 (hdr []) b) ∧
      script false (.fnDecl 1 (hdr []) b) = none) ∧
    (∃ b st, Grammar false (.fnDecl 1 (hdr []) b) ∧ ScriptOk false (.fnDecl 1 (hdr []) b) ∧
      script false (.fnDecl 1 (hdr []) b) = some st ∧ st.err = false ∧
      ¬ SameTabs st.tabs (ScriptTabs (.fnDecl 1 (hdr []) b))) := by
  refine ⟨⟨.cons (.tryCatch none .nil) (.lex 1), ?_, ?_, by decide +kernel⟩,
    ⟨.cons (.tryCatch none .nil) (.cons (.tryCatch none .nil) (.var 3)), ?_, ?_, by decide +kernel⟩,
    ⟨.cons (.tryCatch none .nil) (.lex 2), _, ?_, ?_, rfl, by decide +kernel, ?_⟩⟩
  · simp [Grammar]
  · simp [ScriptOk, ListOk, Early, LN, VN, FN]
  · simp [Grammar]
  · simp [hdr, ScriptOk, ListOk, Early, FuncOk, LN, VN, FN]
  · simp [Grammar]
  · simp [hdr, ScriptOk, ListOk, Early, FuncOk, LN, VN, FN]
  · intro h
    have h1 := h.2.1.2.2.2 2
    revert h1
    have : names (· == .lex) ⟨2, []⟩ = [] := rfl
    simp [LN]
    decide +kernel

/-- **Defect: `for (let i …) { let i }`.**  Valid, as the block is a scope of its
own; rejected, as the check meant for `var` names looks at all of them. -/
theorem C85_for_block_violated :
    ∃ s st, Grammar false s ∧ NoBareCatch s ∧ NoFnThenVar true s ∧ ScriptOk false s ∧
      script false s = some st ∧ st.err = true := by
  refine ⟨.forLex [1] (.block (.lex 1)), _, ?_, ?_, ?_, ?_, rfl, by decide +kernel⟩
  · simp [Grammar, LN]
  · simp [NoBareCatch]
  · simp [NoFnThenVar]
  · simp [ScriptOk, ListOk, Early, LN, VN, FN]

/-- **Defect: `function f() {} { var f }`.**  Valid, and accepted with the two
statements exchanged; rejected, as the walk to the upper declarations takes any
function for a lexical name. -/
theorem C85_inner_var_violated :
    ∃ f v st st', Grammar false (.cons f v) ∧ NoBareCatch (.cons f v) ∧ NoForClash (.cons f v) ∧
      ScriptOk false (.cons f v) ∧ ScriptOk false (.cons v f) ∧
      script false (.cons f v) = some st ∧ st.err = true ∧
      script false (.cons v f) = some st' ∧ st'.err = false := by
  refine ⟨.fnDecl 1 (hdr []) .nil, .block (.var 1), _, _, ?_, ?_, ?_, ?_, ?_, rfl, by decide +kernel, rfl,
    by decide +kernel⟩
  · simp [Grammar]
  · simp [NoBareCatch]
  · simp [NoForClash]
  · simp [hdr, ScriptOk, ListOk, Early, FuncOk, LN, VN, FN]
  · simp [hdr, ScriptOk, ListOk, Early, FuncOk, LN, VN, FN]

/-- **Defect: an imported name declared again.**  `import {a} from "m"; let a` is
accepted: imports are kept in a list of their own. -/
theorem C85_import_violated :
    ∃ s, Grammar true s ∧ NoBareCatch s ∧ Accepts (moduleP s) ∧ ¬ ModuleOk s := by
  refine ⟨.cons (.imp 1) (.lex 1), ?_, ?_, ⟨_, rfl, by decide +kernel⟩, ?_⟩
  · simp [Grammar]
  · simp [NoBareCatch]
  · simp [ModuleOk, IN, LN]

end Verif.Decls

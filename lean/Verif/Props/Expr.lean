import Verif.Lemmas.ExprComplete
import Verif.Lemmas.ExprSound
import Verif.Lemmas.ExprCalm

/-
C86: the parser of expressions.  It always ends, and apart from named deviations
it reads exactly the texts of the standard's grammar, with the trees of that
grammar: precedence, associativity, `new`, calls, optional chains, `in` in the
head of `for`, `yield`, arrows, targets of assignments.
-/

namespace Verif.Expr

private def tk (l : List TK) : List Tok := l.map (⟨·, false⟩)

/-- Not in strict mode, no generator, no async function. -/
private def f0 : Fl := ⟨true, false, false, false⟩

private theorem m_new {d : Dial} {f : Fl} {u : List Tok} {e : E} (h : G d f .member u e) :
    G d f .newX u e := .unit rfl h

private theorem p_mem {d : Dial} {f : Fl} {u : List Tok} {e : E} (h : G d f .primary u e) :
    G d f .member u e := .unit rfl h

private theorem m_lhs {d : Dial} {f : Fl} {u : List Tok} {e : E} (h : G d f .member u e) :
    G d f .lhs u e := .unit rfl (m_new h)

private theorem l_un {d : Dial} {f : Fl} {u : List Tok} {e : E} (h : G d f .lhs u e) :
    G d f .unary u e := .unit (b := .update) rfl (.unit rfl h)

private theorem u_add {d : Dial} {f : Fl} {u : List Tok} {e : E} (h : G d f .unary u e) :
    G d f .add u e := .unit (b := .mul) rfl (.unit (b := .exp) rfl (.unit rfl h))

private theorem a_shift {d : Dial} {f : Fl} {u : List Tok} {e : E} (h : G d f .add u e) :
    G d f .shift u e := .unit rfl h

private theorem r_bor {d : Dial} {f : Fl} {u : List Tok} {e : E} (h : G d f .rel u e) :
    G d f .bor u e :=
  .unit (b := .bxor) rfl (.unit (b := .band) rfl (.unit (b := .eq) rfl (.unit rfl h)))

private theorem b_assign {d : Dial} {f : Fl} {u : List Tok} {e : E} (h : G d f .bor u e) :
    G d f .assign u e :=
  .unit (b := .cond) rfl (.unit (b := .short) rfl (.unit (b := .or) rfl (.unit (b := .and) rfl (.unit rfl h))))

private theorem un_bor {d : Dial} {f : Fl} {u : List Tok} {e : E} (h : G d f .unary u e) :
    G d f .bor u e := r_bor (.unit rfl (a_shift (u_add h)))

private theorem un_expr {d : Dial} {f : Fl} {u : List Tok} {e : E} (h : G d f .unary u e) :
    G d f .expr u e := .unit rfl (b_assign (un_bor h))

private theorem idp (d : Dial) (f : Fl) (n : Nat) :
    G d f .primary (tk [.id n]) (.id (.id n)) := .ident (.id n)

/-- **The parser ends.**  Whatever the tokens and the surroundings, the parser of
expressions comes back with an error or with a tree and fewer tokens; the fuel
of the model never runs out. -/
theorem C86_total (f : Fl) (ts : List Tok) :
    parse f ts = .bad ∨ ∃ e r, parse f ts = .ok e r ∧ r.length < ts.length := by
  have h := parse_fin f ts
  cases hp : parse f ts with
  | fuel => rw [hp] at h; exact h.elim
  | bad => exact .inl rfl
  | ok e r => rw [hp] at h; exact .inr ⟨e, r, rfl, h⟩

-- Both happen: `a +` and `a + b )`.
example : parse f0 (tk [.id 5, .op .add]) = .bad := by decide +kernel
example : parse f0 (tk [.id 5, .op .add, .id 6, .rpar])
    = .ok (.bin .add (.id (.id 5)) (.id (.id 6))) (tk [.rpar]) := by decide +kernel

/-- **Completeness.**  A text of the standard's Expression, followed by something
that cannot belong to it, is read to its end and with the tree the standard gives
it.  Partial: the text must be `Plain` and without decided constants (`NoFold`);
what happens otherwise is in the `_violated` theorems. -/
theorem C86_complete_partial (f : Fl) (u rest : List Tok) (e : E) (h : G Std f .expr u e)
    (hp : Plain f u) (hn : NoFold u) (hr : Ends rest.head?) : parse f (u ++ rest) = .ok e rest :=
  complete rfl rfl (std_sub h hp) hn hr

/-- **Shape, whatever the constants.**  A plain text of the standard's Expression,
with constants decided or not, has the standard's tree once its constants are
exchanged for `this` and the like: precedence and association do not depend on
constants. -/
theorem C86_shape_partial (f : Fl) (u rest : List Tok) (e : E) (h : G Std f .expr u e)
    (hp : Plain f u) (hr : Ends rest.head?) : parse f (calmT u ++ rest) = .ok (calmE e) rest :=
  complete rfl rfl (std_sub (calm_derives h) (calm_plain hp)) (calm_noFold u) hr

/-- **Soundness.**  What the parser takes is, up to the place where it stops, a
text of the standard's Expression widened by four named productions (`Super`).
Partial: without decided constants, and for texts not followed by `=>` (then
what was read are parameters). -/
theorem C86_sound_partial (f : Fl) (ts r : List Tok) (e : E) (h : parse f ts = .ok e r)
    (hr : headIs .arrow r = false) :
    ∃ u, ts = u ++ r ∧ (NoFold u → G Super f .expr u e) :=
  sound h hr

private theorem ends_arrow {r : List Tok} (h : Ends r.head?) : headIs .arrow r = false := by
  cases r with
  | nil => rfl
  | cons t r =>
    simp only [List.head?_cons] at h
    have : t.k ≠ .arrow := by
      intro ht
      cases h with
      | close h => rw [ht] at h; simp at h
      | word _ h => rw [ht] at h; cases h
      | atom _ h => rw [ht] at h; cases h
      | sign _ h => rw [ht] at h; simp at h
    simpa [headIs] using this

/-- **Exactness.**  On texts that keep clear of the named deviations the parser
accepts just the standard's Expressions, with the standard's trees. -/
theorem C86_exact_partial (f : Fl) (u rest : List Tok) (e : E) (hp : Plain f u) (hc : Careful u)
    (hn : NoFold u) (hr : Ends rest.head?) :
    parse f (u ++ rest) = .ok e rest ↔ G Std f .expr u e := by
  constructor
  · intro h
    obtain ⟨u', h1, h2⟩ := sound h (ends_arrow hr)
    have : u = u' := List.append_cancel_right h1
    subst this
    exact super_std (h2 hn) (by intro h; cases h) hc
  · intro h
    exact C86_complete_partial f u rest e h hp hn hr

/-- **One tree.**  The standard's grammar gives a plain text one tree only, up to
the constants in it. -/
theorem C86_unambiguous (f : Fl) (u : List Tok) (e e' : E) (h : G Std f .expr u e)
    (h' : G Std f .expr u e') (hp : Plain f u) : calmE e = calmE e' := by
  have h1 := C86_shape_partial f u [] e h hp .eof
  have h2 := C86_shape_partial f u [] e' h' hp .eof
  rw [h1] at h2
  injection h2

private theorem beside_cons {s : Tok} {u : List Tok} {a b : TK → Prop} :
    Beside (s :: u) a b ↔ (∃ t r, u = t :: r ∧ a s.k ∧ b t.k) ∨ Beside u a b := by
  constructor
  · rintro ⟨x, s', t, y, h, h1, h2⟩
    cases x with
    | nil => cases h; exact .inl ⟨t, y, rfl, h1, h2⟩
    | cons z x => cases h; exact .inr ⟨x, s', t, y, rfl, h1, h2⟩
  · rintro (⟨t, r, rfl, h1, h2⟩ | ⟨x, s', t, y, rfl, h1, h2⟩)
    · exact ⟨[], s, t, r, rfl, h1, h2⟩
    · exact ⟨s :: x, s', t, y, rfl, h1, h2⟩

private theorem beside_nil {a b : TK → Prop} : ¬ Beside [] a b := by
  rintro ⟨x, s, t, y, h, _⟩
  cases x <;> cases h

/-- `-a ** b` is no expression, `a ** b ** c` associates to the right,
`a - b - c` to the left, `a + b * c`. -/
private def sample : List Tok :=
  tk [.id 5, .op .sub, .id 6, .op .sub, .op .sub, .id 7, .op .mul, .id 5, .op .exp, .id 6, .op .exp, .id 7]

private def sampleE : E :=
  .bin .sub (.bin .sub (.id (.id 5)) (.id (.id 6)))
    (.bin .mul (.un .neg (.id (.id 7)))
      (.bin .exp (.id (.id 5)) (.bin .exp (.id (.id 6)) (.id (.id 7)))))

private theorem sample_plain : Plain f0 sample ∧ Careful sample ∧ NoFold sample := by
  refine ⟨⟨?_, ?_, nofun⟩, ⟨?_, ?_, ?_, ?_⟩, ?_⟩ <;>
    simp [sample, tk, beside_cons, beside_nil, Has, NoFold]

private theorem sample_std : G Std f0 .expr sample sampleE := by
  have l (n : Nat) : G Std f0 .update (tk [.id n]) (.id (.id n)) := .unit rfl (m_lhs (p_mem (idp _ _ n)))
  have e1 : G Std f0 .exp (tk [.id 6, .op .exp, .id 7]) _ := .bin .exp nofun (l 6) (.unit (b := .unary) rfl (.unit rfl (l 7)))
  have e2 : G Std f0 .exp (tk [.id 5, .op .exp, .id 6, .op .exp, .id 7]) _ := .bin .exp nofun (l 5) e1
  have n1 : G Std f0 .mul (tk [.op .sub, .id 7]) _ :=
    .unit (b := .exp) rfl (.unit rfl (.pre (.neg f0) (.unit rfl (l 7)) trivial))
  have m1 : G Std f0 .mul (tk [.op .sub, .id 7, .op .mul, .id 5, .op .exp, .id 6, .op .exp, .id 7]) _ :=
    .bin .mul nofun n1 e2
  have s1 : G Std f0 .add (tk [.id 5, .op .sub, .id 6]) _ :=
    .bin .sub nofun (u_add (.unit rfl (l 5)))
      (.unit (b := .exp) rfl (.unit (b := .unary) rfl (.unit rfl (l 6))))
  have s2 : G Std f0 .add sample sampleE := .bin .sub nofun s1 m1
  exact .unit rfl (b_assign (r_bor (.unit rfl (a_shift s2))))

-- The hypotheses of all the above hold for `a - b - -c * a ** b ** c` before `)`.
example : parse f0 (sample ++ tk [.rpar]) = .ok sampleE (tk [.rpar]) :=
  C86_complete_partial f0 sample _ _ sample_std sample_plain.1 sample_plain.2.2 (.close (.inl rfl))

example : G Std f0 .expr sample sampleE :=
  (C86_exact_partial f0 sample [] _ sample_plain.1 sample_plain.2.1 sample_plain.2.2 .eof).1
    (by decide +kernel)

example : ∃ u, sample = u ++ [] ∧ (NoFold u → G Super f0 .expr u sampleE) :=
  C86_sound_partial f0 sample [] sampleE (by decide +kernel) rfl

example (e : E) (h : G Std f0 .expr sample e) : calmE sampleE = calmE e :=
  C86_unambiguous f0 sample _ e sample_std h sample_plain.1

-- `-a ** b` has no tree at all.
example (e : E) : ¬ G Std f0 .expr (tk [.op .sub, .id 5, .op .exp, .id 6]) e := by
  intro h
  have := C86_complete_partial f0 _ [] e h
    ⟨by simp [tk, beside_cons, beside_nil], by simp [tk, beside_cons, beside_nil], nofun⟩
    (by simp [tk, NoFold]) .eof
  revert this
  have : parse f0 (tk [.op .sub, .id 5, .op .exp, .id 6] ++ [])
      = .ok (.un .neg (.id (.id 5))) (tk [.op .exp, .id 6]) := by decide +kernel
  rw [this]
  intro h
  injection h with _ h
  cases h

/-- **Decided constants.**  The tree the parser makes when the left operand of `&&`, `||`, `??` or
`?:` is a constant means the same as the operator applied to its operands, in every meaning of
trees.  Partial: not with `undefined` in front of `??` (`C86_undefined_violated`). -/
theorem C86_fold_partial {V S : Type} (m : Meaning V S) (o : Bin) (c a b : E) (s : S)
    (h : ¬ (o = .ques ∧ a = .id (.id 0))) :
    m.ev (mkBin o a b) s = m.ev (.bin o a b) s ∧ m.ev (mkCond c a b) s = m.ev (.cond c a b) s := by
  have ht : ∀ e t, truth e = some t → ∃ v, m.ev e s = (some v, s) ∧ m.truthy v = t := by
    intro e t he
    unfold truth at he
    split at he <;> cases he
    · exact m.lit _ _ s
    · exact m.tru s
    · exact m.fls s
    · obtain ⟨v, h1, h2, _⟩ := m.null s
      exact ⟨v, h1, h2⟩
  constructor
  · unfold mkBin
    split
    · split
      · rename_i h1
        obtain ⟨v, e1, e2⟩ := ht _ _ h1
        simp [m.and, e1, e2]
      · rename_i h1
        obtain ⟨v, e1, e2⟩ := ht _ _ h1
        simp [m.and, e1, e2]
      · rfl
    · split
      · rename_i h1
        obtain ⟨v, e1, e2⟩ := ht _ _ h1
        simp [m.or, e1, e2]
      · rename_i h1
        obtain ⟨v, e1, e2⟩ := ht _ _ h1
        simp [m.or, e1, e2]
      · rfl
    · split
      · rename_i h1
        rcases h1 with rfl | rfl
        · obtain ⟨v, e1, _, e2⟩ := m.null s
          simp [m.ques, e1, e2]
        · exact absurd ⟨rfl, rfl⟩ h
      · rfl
    · rfl
  · unfold mkCond
    split
    · rename_i h1
      obtain ⟨v, e1, e2⟩ := ht _ _ h1
      simp [m.cond, e1, e2]
    · rename_i h1
      obtain ⟨v, e1, e2⟩ := ht _ _ h1
      simp [m.cond, e1, e2]
    · rfl

/-- A meaning: truth values and `null`, everything else throws. -/
def exEv : E → Option (Option Bool)
  | .atom (.lit t _) => some (some t)
  | .atom .tru => some (some true)
  | .atom .fls => some (some false)
  | .atom .null => some none
  | .bin .and a b => (exEv a).bind fun v => if v.getD false then exEv b else some v
  | .bin .or a b => (exEv a).bind fun v => if v.getD false then some v else exEv b
  | .bin .ques a b => (exEv a).bind fun v => if v.isNone then exEv b else some v
  | .cond c a b => (exEv c).bind fun v => if v.getD false then exEv a else exEv b
  | _ => none

example : Meaning (Option Bool) _root_.Unit where
  ev e s := (exEv e, s)
  truthy v := v.getD false
  nullish v := v.isNone
  lit t n s := ⟨some t, rfl, rfl⟩
  tru s := ⟨some true, rfl, rfl⟩
  fls s := ⟨some false, rfl, rfl⟩
  null s := ⟨none, rfl, rfl, rfl⟩
  and a b s := by simp only [exEv]; cases exEv a <;> simp; split <;> rfl
  or a b s := by simp only [exEv]; cases exEv a <;> simp; split <;> rfl
  ques a b s := by simp only [exEv]; cases exEv a <;> simp; split <;> rfl
  cond c a b s := by simp only [exEv]; cases exEv c <;> simp; split <;> rfl

-- `true && a` is read as `a`, `0 || a` as `a`, `null ?? a` as `a`.
example : parse f0 (tk [.tru, .op .and, .id 5]) = .ok (mkBin .and (.atom .tru) (.id (.id 5))) [] := by decide +kernel
example : parse f0 (tk [.lit false 0, .op .or, .id 5]) = .ok (mkBin .or (.atom (.lit false 0)) (.id (.id 5))) [] := by
  decide +kernel
example : mkBin .ques (.atom .null) (.id (.id 5)) = .id (.id 5) := by decide

/-! ### Where the parser and the standard part -/

/-- `new new X()()`: the standard's reading constructs with the object the inner
`new` makes; the parser's calls the object constructed from it. -/
theorem C86_new_new_violated :
    G Std f0 .expr (tk [.new_, .new_, .id 5, .lpar, .rpar, .lpar, .rpar])
        (.newE (.newE (.id (.id 5)) .anil) .anil)
    ∧ parse f0 (tk [.new_, .new_, .id 5, .lpar, .rpar, .lpar, .rpar])
        = .ok (.call (.newE (.newE (.id (.id 5)) .anil) .anil) .anil) [] := by
  refine ⟨?_, by decide +kernel⟩
  have a : G Std f0 .args (tk [.lpar, .rpar]) .anil := .args (.alistEnd (h := false))
  have i : G Std f0 .member (tk [.new_, .id 5, .lpar, .rpar]) _ :=
    .newArgs (by intro h; cases h) (.unit rfl (p_mem (idp _ _ 5))) a
  exact un_expr (l_un (m_lhs (.newArgs (u := tk [.new_, .id 5, .lpar, .rpar]) (by intro h; cases h) (.unit rfl i) a)))

/-- `new super.x()` is an expression and the parser refuses it. -/
theorem C86_new_super_violated :
    G Std f0 .expr (tk [.new_, .super_, .dot, .id 6, .lpar, .rpar]) (.newE (.superMember (.id 6)) .anil)
    ∧ parse f0 (tk [.new_, .super_, .dot, .id 6, .lpar, .rpar]) = .bad := by
  refine ⟨?_, by decide +kernel⟩
  exact un_expr (l_un (m_lhs (.newArgs (u := tk [.super_, .dot, .id 6]) (by intro h; cases h)
    (.unit rfl (.superDot (.id 6))) (.args (.alistEnd (h := false))))))

/-- `new a?.b()` is no expression (an early error in the standard, too); the parser
takes it. -/
theorem C86_new_opt_violated :
    (∀ e, ¬ G Std f0 .expr (tk [.new_, .id 5, .quesDot, .id 6, .lpar, .rpar]) e)
    ∧ parse f0 (tk [.new_, .id 5, .quesDot, .id 6, .lpar, .rpar])
        = .ok (.newE (.opt (.call (.member (.optBase (.id (.id 5))) (.id 6)) .anil)) .anil) [] := by
  have hp : parse f0 (tk [.new_, .id 5, .quesDot, .id 6, .lpar, .rpar])
        = .ok (.newE (.opt (.call (.member (.optBase (.id (.id 5))) (.id 6)) .anil)) .anil) [] := by
    decide +kernel
  refine ⟨fun e h => ?_, hp⟩
  have := C86_complete_partial f0 _ [] e h
    ⟨by simp [tk, beside_cons, beside_nil], by simp [tk, beside_cons, beside_nil], nofun⟩
    (by simp [tk, NoFold]) .eof
  rw [List.append_nil, hp] at this
  cases this
  exact new_no_opt h _ _ rfl

/-- `(a,)` is no expression; the parser takes it as `(a)`. -/
theorem C86_paren_comma_violated :
    (∀ e, ¬ G Std f0 .expr (tk [.lpar, .id 5, .comma, .rpar]) e)
    ∧ parse f0 (tk [.lpar, .id 5, .comma, .rpar]) = .ok (.paren (.id (.id 5))) [] := by
  have hp : parse f0 (tk [.lpar, .id 5, .comma, .rpar]) = .ok (.paren (.id (.id 5))) [] := by
    decide +kernel
  refine ⟨fun e h => ?_, hp⟩
  have := C86_complete_partial f0 _ [] e h
    ⟨by simp [tk, beside_cons, beside_nil], by simp [tk, beside_cons, beside_nil], nofun⟩
    (by simp [tk, NoFold]) .eof
  rw [List.append_nil, hp] at this
  cases this
  have := (pts_of rfl h (by intro b hb; cases hb)).2.2
  revert this
  decide +kernel

/-- `a?.b.(c)` is no expression; the parser takes it as `a?.b(c)`. -/
theorem C86_dot_paren_violated :
    (∀ e, ¬ G Std f0 .expr (tk [.id 5, .quesDot, .id 6, .dot, .lpar, .id 7, .rpar]) e)
    ∧ parse f0 (tk [.id 5, .quesDot, .id 6, .dot, .lpar, .id 7, .rpar])
        = parse f0 (tk [.id 5, .quesDot, .id 6, .lpar, .id 7, .rpar])
    ∧ parse f0 (tk [.id 5, .quesDot, .id 6, .dot, .lpar, .id 7, .rpar]) ≠ .bad := by
  have hp : parse f0 (tk [.id 5, .quesDot, .id 6, .dot, .lpar, .id 7, .rpar])
        = .ok (.opt (.call (.member (.optBase (.id (.id 5))) (.id 6))
            (.acons false (.id (.id 7)) .anil))) [] := by
    decide +kernel
  refine ⟨fun e h => ?_, by decide +kernel, by decide +kernel⟩
  have := C86_complete_partial f0 _ [] e h
    ⟨by simp [tk, beside_cons, beside_nil], by simp [tk, beside_cons, beside_nil], nofun⟩
    (by simp [tk, NoFold]) .eof
  rw [List.append_nil, hp] at this
  cases this
  have := (pts_of rfl h (by intro b hb; cases hb)).2.2
  revert this
  decide +kernel

/-- `(true && a) = 5` is no expression; the parser, having decided the `&&`, takes it
as `a = 5`. -/
theorem C86_folded_target_violated :
    (∀ e, ¬ G Std f0 .expr (tk [.lpar, .tru, .op .and, .id 5, .rpar, .assi 0, .lit true 5]) e)
    ∧ parse f0 (tk [.lpar, .tru, .op .and, .id 5, .rpar, .assi 0, .lit true 5])
        = .ok (.assign 0 (.id (.id 5)) (.atom (.lit true 5))) [] := by
  refine ⟨fun e h => ?_, by decide +kernel⟩
  have := C86_shape_partial f0 _ [] e h
    ⟨by simp [tk, beside_cons, beside_nil], by simp [tk, beside_cons, beside_nil], nofun⟩ .eof
  revert this
  have : parse f0 (calmT (tk [.lpar, .tru, .op .and, .id 5, .rpar, .assi 0, .lit true 5]) ++ []) = .bad := by
    decide +kernel
  rw [this]
  nofun

/-- `undefined ?? a`: the tree the parser makes is that of `a`, though `undefined` is
an ordinary name that may be bound to something else. -/
theorem C86_undefined_violated :
    G Std f0 .expr (tk [.id 0, .op .ques, .id 5]) (.bin .ques (.id (.id 0)) (.id (.id 5)))
    ∧ parse f0 (tk [.id 0, .op .ques, .id 5]) = .ok (.id (.id 5)) [] := by
  refine ⟨?_, by decide +kernel⟩
  have b (n : Nat) : G Std f0 .bor (tk [.id n]) (.id (.id n)) := un_bor (l_un (m_lhs (p_mem (idp _ _ n))))
  have c : G Std f0 .coal (tk [.id 0, .op .ques, .id 5]) _ := .bin .coal1 nofun (b 0) (b 5)
  exact .unit (b := .assign) rfl (.unit (b := .cond) rfl (.unit (b := .short) rfl (.unit rfl c)))

/-- Strict `delete a?.b` is an expression and the parser refuses it. -/
theorem C86_delete_opt_violated :
    G Std { f0 with strict := true } .expr (tk [.delete_, .id 5, .quesDot, .id 6])
        (.un .del (.opt (.member (.optBase (.id (.id 5))) (.id 6))))
    ∧ parse { f0 with strict := true } (tk [.delete_, .id 5, .quesDot, .id 6]) = .bad := by
  refine ⟨?_, by decide +kernel⟩
  have o : G Std { f0 with strict := true } .optional (tk [.id 5, .quesDot, .id 6]) _ :=
    .opt (.inl rfl) (p_mem (idp _ _ 5)) (.chName (.id 6))
  exact un_expr (.pre (.del _) (l_un (.unit rfl o)) fun _ => ⟨nofun, by intro h; cases h⟩)

/-- `yield #x in o` is an expression; the parser stops behind `yield`. -/
theorem C86_yield_private_violated :
    G Std { f0 with yld := true } .expr (tk [.yield_, .priv 5, .op .in_, .id 6])
        (.yield_ false (.bin .in_ (.privRef 5) (.id (.id 6))))
    ∧ parse { f0 with yld := true } (tk [.yield_, .priv 5, .op .in_, .id 6])
        = .ok (.yield_ false .hole) (tk [.priv 5, .op .in_, .id 6]) := by
  refine ⟨?_, by decide +kernel⟩
  have p : G Std { f0 with yld := true } .rel (tk [.priv 5, .op .in_, .id 6]) _ :=
    .privIn rfl (a_shift (u_add (l_un (m_lhs (p_mem (idp _ _ 6))))))
  exact .unit rfl (.yieldE (t := ⟨.priv 5, false⟩) rfl rfl (by intro h; cases h) (b_assign (r_bor p)))

end Verif.Expr

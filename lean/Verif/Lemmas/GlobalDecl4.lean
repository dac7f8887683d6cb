import Verif.Lemmas.GlobalDecl3

/-! Lemmas about the declarations of scripts and `eval`: `eval`, deletion, histories. -/
namespace Verif.GlobalDecl
open Obj (Val P Desc)
open Spec (find findB view View)

/-- The new environment of an `eval`. -/
theorem inner_loop {ds : List Decl} (ha : Spec.Accepted ds) {w : World} (hi : w.inner = []) :
    ∃ l, each (fun x w => (create x.1 (newLex x.2) w.inner).map fun l => (.ok, { w with inner := l })) (lexTable ds) w =
        some (.ok, { w with inner := l }) ∧ Spec.Lexs (fun _ => none) ds (fun n => findB n l) := by
  obtain ⟨l, e1, e2, e3, _⟩ := lexs_loop (get := World.inner) (upd := fun w l => { w with inner := l })
    (f := fun x w => (create x.1 (newLex x.2) w.inner).map fun l => (.ok, { w with inner := l })) (fun _ _ => rfl)
    (fun _ _ => rfl) (fun _ _ _ => rfl) (fun _ => rfl) (xs := lexTable ds) (s := w) (nodup_lexTable ha.once) (by
      intro x _
      rw [hi]; rfl)
  refine ⟨l, e1, ?_, ?_⟩
  · intro n c h
    exact e2 _ (mem_lexTable.2 h)
  · intro n h
    show findB n l = none
    rw [e3 n (fun hm => h (mem_lexs.1 hm)), hi]
    rfl

/-- `eval` whose variables are global. -/
theorem eval_global_cases {ds : List Decl} (ha : Spec.Accepted ds) (frames : List Frame) (w : World) (hw : w.fn = none)
    (hi : w.inner = []) :
    ((∃ n, Spec.VarName ds n ∧ (((view w.g).lex n).isSome ∨ Spec.BetweenAny frames n)) ∧
      eval false frames ds w = some (.syntax, w)) ∨
    ((¬ ∃ n, Spec.VarName ds n ∧ (((view w.g).lex n).isSome ∨ Spec.BetweenAny frames n)) ∧ Spec.Barred (view w.g) ds ∧
      eval false frames ds w = some (.type, w)) ∨
    ((¬ ∃ n, Spec.VarName ds n ∧ (((view w.g).lex n).isSome ∨ Spec.BetweenAny frames n)) ∧ ¬ Spec.Barred (view w.g) ds ∧
      ∃ w', eval false frames ds w = some (.ok, w') ∧ w'.fn = none ∧ Spec.Vars true (view w.g) ds (view w'.g) ∧
        w'.g.lex = w.g.lex ∧ w'.g.inh = w.g.inh ∧ Spec.Lexs (fun _ => none) ds (fun n => findB n w'.inner) ∧
        (view w'.g).keys = (view w.g).keys ++
        (((funcTable ds []).map (·.1) ++ (varTable ds []).filter (· ∉ (funcTable ds []).map (·.1))).map Obj.Name.str).filter
          fun m => (view w.g).own m = none) := by
  have hig : ∀ w : World, w.fn = none → isGlobal false w = true := by
    intro w hw
    simp [isGlobal, varEnv, hw]
  obtain ⟨g, fn, inner⟩ := w
  simp only at hi hw
  subst hi
  unfold eval
  simp only [Bool.not_false, Bool.true_and, hig ⟨g, fn, []⟩ hw, if_true]
  rw [each_onG, var_check]
  by_cases h1 : ∃ n, Spec.VarName ds n ∧ ((view g).lex n).isSome
  · rw [if_pos h1]
    obtain ⟨n, a, b⟩ := h1
    exact .inl ⟨⟨n, a, .inl b⟩, rfl⟩
  rw [if_neg h1]
  simp only [Option.map_some, andThen]
  rw [frames_check]
  by_cases h2 : ∃ n, Spec.VarName ds n ∧ Spec.BetweenAny frames n
  · rw [if_pos (by obtain ⟨n, a, b⟩ := h2; exact ⟨n, a, between_empty.2 b⟩)]
    obtain ⟨n, a, b⟩ := h2
    exact .inl ⟨⟨n, a, .inr b⟩, rfl⟩
  rw [if_neg (by rintro ⟨n, a, b⟩; exact h2 ⟨n, a, between_empty.1 b⟩)]
  have hc : ¬ ∃ n, Spec.VarName ds n ∧ (((view g).lex n).isSome ∨ Spec.BetweenAny frames n) := by
    rintro ⟨n, a, b | b⟩
    · exact h1 ⟨n, a, b⟩
    · exact h2 ⟨n, a, b⟩
  simp only [hig ⟨g, fn, []⟩ hw, if_true]
  rw [each_onG, func_check]
  by_cases h3 : ∃ n, Spec.FuncName ds n ∧ ¬ Spec.CanFunc (view g) n
  · rw [if_pos h3]
    exact .inr (.inl ⟨hc, .inl h3, rfl⟩)
  rw [if_neg h3]
  simp only [Option.map_some, hig ⟨g, fn, []⟩ hw, if_true]
  rw [each_onG, canvar_check]
  by_cases h4 : ∃ n, Spec.VarName ds n ∧ ¬ Spec.CanVar (view g) n
  · rw [if_pos h4]
    exact .inr (.inl ⟨hc, .inr h4, rfl⟩)
  rw [if_neg h4]
  have hb : ¬ Spec.Barred (view g) ds := fun h => h.elim h3 h4
  refine .inr (.inr ⟨hc, hb, ?_⟩)
  simp only [Option.map_some]
  obtain ⟨l, e1, e2⟩ := inner_loop (w := ⟨g, fn, []⟩) ha rfl
  rw [e1]
  simp only
  obtain ⟨g1, g2, f1, f2, f3, f4, f5, f6⟩ := vars_made (D := true) (ds := ds) (g := g) hb
  rw [each_eval_global (f := fun x g => createFunc g x.1 x.2 true) (fun _ _ => by simp) (w := ⟨g, fn, l⟩) hw, f1]
  simp only [Option.map_some]
  rw [each_eval_global (nm := fun x => x) (val := fun _ => .undef) (f := fun x g => createVar g x true) (fun _ _ => by simp)
    (w := ⟨g1, fn, l⟩) hw, f2]
  exact ⟨_, rfl, hw, f3, f4, f5, e2, f6⟩

/-- `eval` in a function. -/
theorem eval_fn_cases {ds : List Decl} (ha : Spec.Accepted ds) (frames : List Frame) (w : World) {l : Decls} (hw : w.fn = some l)
    (hi : w.inner = []) (hb : ∀ n b, Spec.FuncName ds n → findB n l = some b → b.value.isSome ∧ b.imm = false) :
    ((∃ n, Spec.VarName ds n ∧ Spec.BetweenAny frames n) ∧ eval false frames ds w = some (.syntax, w)) ∨
    ((¬ ∃ n, Spec.VarName ds n ∧ Spec.BetweenAny frames n) ∧
      ∃ inner l', eval false frames ds w = some (.ok, ⟨w.g, some l', inner⟩) ∧
        Spec.Lexs (fun _ => none) ds (fun n => findB n inner) ∧
        Spec.Locals (fun n => findB n l) ds (fun n => findB n l')) := by
  have hig : isGlobal false w = false := by
    simp [isGlobal, varEnv, hw]
  obtain ⟨g, fn, inner⟩ := w
  simp only at hi hw
  subst hi
  unfold eval
  simp only [Bool.not_false, Bool.true_and, hig, Bool.false_eq_true, if_false, if_true, andThen]
  rw [frames_check]
  by_cases h2 : ∃ n, Spec.VarName ds n ∧ Spec.BetweenAny frames n
  · rw [if_pos (by obtain ⟨n, a, b⟩ := h2; exact ⟨n, a, between_empty.2 b⟩)]
    exact .inl ⟨h2, rfl⟩
  rw [if_neg (by rintro ⟨n, a, b⟩; exact h2 ⟨n, a, between_empty.1 b⟩)]
  refine .inr ⟨h2, ?_⟩
  simp only [hig, Bool.false_eq_true, if_false]
  obtain ⟨m, e1, e2⟩ := inner_loop (w := ⟨g, fn, []⟩) ha rfl
  rw [e1]
  simp only
  obtain ⟨s1, l', f1, f2, f3⟩ := locals_made (strict := false) (get := fun w : World => w.fn.getD []) (good := fun w => w.fn.isSome = true)
    (upd := fun w l => { w with fn := some l })
    (f := fun x w => evalDeclare false x.1 x.2 true w) (k := fun n w => evalDeclare false n .undef false w)
    (by
      intro x s hs
      obtain ⟨l, hl⟩ := Option.isSome_iff_exists.1 hs
      simp [evalDeclare, varEnv, hl])
    (by
      intro x s hs
      obtain ⟨l, hl⟩ := Option.isSome_iff_exists.1 hs
      simp [evalDeclare, varEnv, hl])
    (fun _ _ _ => rfl) (fun _ _ _ => rfl)
    (by
      intro s hs
      obtain ⟨l, hl⟩ := Option.isSome_iff_exists.1 hs
      cases s
      simp only at hl ⊢
      subst hl; rfl)
    (fun _ _ _ => rfl) (ds := ds) (s := ⟨g, fn, m⟩) (by simp [hw]) (by simpa [hw] using hb)
  rw [f1]
  simp only
  rw [f2]
  refine ⟨m, l', rfl, e2, ?_⟩
  simpa [hw] using f3

/-- `eval` of strict code. -/
theorem eval_strict {ds : List Decl} (ha : Spec.Accepted ds) (frames : List Frame) (w : World) (hi : w.inner = []) :
    ∃ inner, eval true frames ds w = some (.ok, { w with inner := inner }) ∧
      ∃ mid : Nat → Option Binding, Spec.Lexs (fun _ => none) ds mid ∧ Spec.Locals mid ds (fun n => findB n inner) := by
  have hig : isGlobal true w = false := rfl
  unfold eval
  simp only [Bool.not_true, Bool.false_and, hig, Bool.false_eq_true, if_false, andThen]
  obtain ⟨m, e1, e2⟩ := inner_loop ha hi
  rw [e1]
  simp only
  obtain ⟨s1, l', f1, f2, f3⟩ := locals_made (strict := true) (get := World.inner) (good := fun _ => True)
    (upd := fun w l => { w with inner := l })
    (f := fun x w => evalDeclare true x.1 x.2 true w) (k := fun n w => evalDeclare true n .undef false w)
    (fun _ _ _ => rfl) (fun _ _ _ => rfl)
    (fun _ _ _ => rfl) (fun _ _ _ => rfl) (fun _ _ => rfl)
    (fun _ _ _ => trivial) (ds := ds) (s := { w with inner := m }) trivial (by
      intro n b hf hb
      have hl : ¬ Spec.LexName ds n := fun h => ha.apart n h (.inr hf)
      have := e2.other n hl
      simp only at this hb
      rw [this] at hb
      cases hb)
  rw [f1]
  simp only
  rw [f2]
  exact ⟨l', rfl, _, e2, f3⟩

/-! ### Deletion -/

theorem find_none {n : Obj.Name} {l : List (Obj.Name × P)} : find n l = none ↔ n ∉ l.map (·.1) := by
  induction l with
  | nil => simp [find]
  | cons x l ih =>
    simp only [find, List.map_cons, List.mem_cons, not_or]
    by_cases h : x.1 = n
    · simp [h]
    · have : ¬ n = x.1 := fun e => h e.symm
      simp [h, this, ih]

theorem find_remove {n m : Obj.Name} {l : List (Obj.Name × P)} (hl : (l.map (·.1)).Nodup) :
    find m (Obj.removeName n l) = if m = n then none else find m l := by
  induction l with
  | nil => simp [find, Obj.removeName]
  | cons x l ih =>
    obtain ⟨k, p⟩ := x
    simp only [List.map_cons, List.nodup_cons] at hl
    simp only [Obj.removeName]
    by_cases hk : k = n
    · subst hk
      rw [if_pos rfl]
      by_cases hm : m = k
      · subst hm
        rw [if_pos rfl]; exact find_none.2 hl.1
      · have : ¬ k = m := fun e => hm e.symm
        simp [hm, find, this]
    · rw [if_neg hk]
      simp only [find]
      rw [ih hl.2]
      by_cases hm : k = m
      · have : ¬ m = n := fun e => hk (hm.trans e)
        simp [hm, this]
      · simp [hm]

/-! ### Histories -/

/-- What holds at all times. -/
structure Inv (g : Global) : Prop where
  nodup : (g.lex.map (·.1)).Nodup
  apart : ∀ n ∈ g.lex.map (·.1), n ∉ g.vars
  kept : ∀ x ∈ g.lex, x.2.deletable = false

theorem mem_names {l : Decls} {n : Nat} : n ∈ l.map (·.1) ↔ (findB n l).isSome := by
  induction l with
  | nil => simp [findB]
  | cons x l ih =>
    simp only [List.map_cons, List.mem_cons, findB]
    by_cases h : x.1 = n
    · simp [h]
    · have : ¬ n = x.1 := fun e => h e.symm
      simp [h, this, ih]

theorem findB_mem {l : Decls} {n : Nat} {b : Binding} (h : findB n l = some b) : (n, b) ∈ l := by
  induction l with
  | nil => cases h
  | cons x l ih =>
    obtain ⟨k, c⟩ := x
    simp only [findB] at h
    split at h
    · rename_i hk
      cases h; simp [hk]
    · exact List.mem_cons_of_mem _ (ih h)

theorem restricted_to_view {g g' : Global} (h : g'.lex = g.lex) : (view g').lex = (view g).lex := by
  simp [view, h]

theorem inv_of {g g' : Global} (h : Inv g) (hl : g'.lex = g.lex) (hv : ∀ n ∈ g'.vars, n ∈ g.vars ∨ (findB n g.lex).isSome = false) :
    Inv g' := by
  refine ⟨by rw [hl]; exact h.nodup, ?_, by rw [hl]; exact h.kept⟩
  intro n hn hm
  rw [hl] at hn
  rcases hv n hm with h1 | h1
  · exact h.apart n hn h1
  · rw [mem_names] at hn
    rw [hn] at h1; cases h1

theorem put_inv {g : Global} {n : Nat} {b b' : Binding} (h : Inv g) (hb : findB n g.lex = some b) (hd : b'.deletable = b.deletable) :
    Inv { g with lex := put n b' g.lex } := by
  refine ⟨by simp only [names_put]; exact h.nodup, by simp only [names_put]; exact h.apart, ?_⟩
  have : ∀ l : Decls, (∀ x ∈ l, x.2.deletable = false) → b'.deletable = false → ∀ x ∈ put n b' l, x.2.deletable = false := by
    intro l
    induction l with
    | nil => intro _ _ x hx; cases hx
    | cons y l ih =>
      intro h1 h2 x hx
      simp only [put] at hx
      split at hx
      · rcases List.mem_cons.1 hx with rfl | hx
        · exact h2
        · exact h1 x (List.mem_cons_of_mem _ hx)
      · rcases List.mem_cons.1 hx with rfl | hx
        · exact h1 _ (by simp)
        · exact ih (fun z hz => h1 z (List.mem_cons_of_mem _ hz)) h2 x hx
  exact this g.lex h.kept (by rw [hd]; exact h.kept _ (findB_mem hb))

/-- A binding that is kept. -/
def Keeps (l l' : Decls) : Prop :=
  ∀ n b, findB n l = some b → ∃ b', findB n l' = some b' ∧ b'.imm = b.imm ∧ b'.strict = b.strict ∧
    (b.value.isSome → b'.value.isSome) ∧ (b.imm = true → b.value.isSome → b'.value = b.value)

theorem Keeps.refl (l : Decls) : Keeps l l := fun _ b h => ⟨b, h, rfl, rfl, id, fun _ _ => rfl⟩

theorem Keeps.trans {l l' l'' : Decls} (h : Keeps l l') (h' : Keeps l' l'') : Keeps l l'' := by
  intro n b hb
  obtain ⟨b1, a1, a2, a3, a4, a5⟩ := h n b hb
  obtain ⟨b2, c1, c2, c3, c4, c5⟩ := h' n b1 a1
  refine ⟨b2, c1, c2.trans a2, c3.trans a3, fun hv => c4 (a4 hv), fun hi hv => ?_⟩
  rw [c5 (a2.trans hi) (a4 hv), a5 hi hv]

theorem keeps_put {l : Decls} {n : Nat} {b : Binding} {v : Val} (hb : findB n l = some b) (h : b.imm = true → b.value = none) :
    Keeps l (put n { b with value := some v } l) := by
  intro m c hc
  rw [findB_put, hb]
  by_cases hm : m = n
  · subst hm
    rw [hb] at hc
    cases hc
    refine ⟨{ b with value := some v }, by simp, rfl, rfl, fun _ => rfl, fun hi hv => ?_⟩
    rw [h hi] at hv; cases hv
  · exact ⟨c, by simp [hm, hc], rfl, rfl, id, fun _ _ => rfl⟩

/-- The lexical bindings of a script. -/
theorem lex_grows {ds : List Decl} {g g' : Global} {r : Res} (ha : Spec.Accepted ds) (h : Inv g) (hs : script ds g = some (r, g')) :
    Inv g' ∧ Keeps g.lex g'.lex := by
  rcases script_cases ha g with ⟨_, h1⟩ | ⟨_, _, h1⟩ | ⟨hc, hb, g2, h1, hv, hl, hn, _⟩
  · rw [h1] at hs; cases hs; exact ⟨h, Keeps.refl _⟩
  · rw [h1] at hs; cases hs; exact ⟨h, Keeps.refl _⟩
  · rw [h1] at hs
    cases hs
    have hcl : ∀ n, Spec.LexName ds n → findB n g.lex = none ∧ n ∉ g.vars := by
      intro n hx
      constructor
      · cases hf : findB n g.lex with
        | none => rfl
        | some b => exact absurd (.inl ⟨n, hx, .inr (.inl (by simp [view, hf]))⟩) hc
      · intro hm
        exact hc (.inl ⟨n, hx, .inl hm⟩)
    have hnm : g'.lex.map (·.1) = g.lex.map (·.1) ++ (lexTable ds).map (·.1) := by
      rw [hn, List.map_append, List.map_map]; rfl
    refine ⟨⟨?_, ?_, ?_⟩, ?_⟩
    · rw [hnm, List.nodup_append]
      refine ⟨h.nodup, nodup_lexTable ha.once, ?_⟩
      rintro a hx b hy rfl
      rw [mem_names, (hcl _ (mem_lexs.1 hy)).1] at hx
      cases hx
    · intro n hx hm
      rw [hnm, List.mem_append] at hx
      have hm' := (hv.names n).1 hm
      rcases hx with hx | hx
      · rcases hm' with hm | hm
        · exact h.apart n hx hm
        · exact hc (.inr ⟨n, hm, mem_names.1 hx⟩)
      · have hx := mem_lexs.1 hx
        rcases hm' with hm | hm
        · exact (hcl n hx).2 hm
        · exact ha.apart n hx hm
    · intro x hx
      rw [hn, List.mem_append] at hx
      rcases hx with hx | hx
      · exact h.kept x hx
      · obtain ⟨y, _, rfl⟩ := List.mem_map.1 hx
        simp only [newLex]
        split <;> rfl
    · intro n b hb
      refine ⟨b, ?_, rfl, rfl, id, fun _ _ => rfl⟩
      rw [hn, findB_append, hb]; rfl

theorem eval_keeps {ds : List Decl} {frames : List Frame} {g : Global} {r : Res} {w : World} (ha : Spec.Accepted ds) (h : Inv g)
    (hs : eval false frames ds ⟨g, none, []⟩ = some (r, w)) : Inv w.g ∧ Keeps g.lex w.g.lex := by
  rcases eval_global_cases ha frames ⟨g, none, []⟩ rfl rfl with ⟨_, h1⟩ | ⟨_, _, h1⟩ | ⟨hc, hb, w', h1, _, hv, hl, _⟩
  · rw [h1] at hs; cases hs; exact ⟨h, Keeps.refl _⟩
  · rw [h1] at hs; cases hs; exact ⟨h, Keeps.refl _⟩
  · rw [h1] at hs
    cases hs
    refine ⟨inv_of h hl ?_, by rw [hl]; exact Keeps.refl _⟩
    intro n hn
    rcases (hv.names n).1 hn with hn | hn
    · exact .inl hn
    · right
      cases hf : findB n g.lex with
      | none => rfl
      | some b => exact absurd ⟨n, hn, .inl (by simp [view, hf])⟩ hc

theorem delete_keeps {g g' : Global} {n : Nat} {b : Bool} (h : Inv g) (hs : deleteBinding g n = some (b, g')) :
    Inv g' ∧ g'.lex = g.lex := by
  unfold deleteBinding at hs
  rw [look_eq] at hs
  cases hl : findB n g.lex with
  | some c =>
    rw [hl] at hs
    have hk : c.deletable = false := h.kept _ (findB_mem hl)
    simp only [hk, Bool.false_eq_true, if_false] at hs
    cases hs
    exact ⟨h, rfl⟩
  | none =>
    rw [hl] at hs
    simp only at hs
    rw [getOwn_eq] at hs
    cases hf : find (.str n) g.obj.named with
    | none =>
      rw [hf] at hs
      cases hs
      exact ⟨h, rfl⟩
    | some p =>
      rw [hf] at hs
      simp only [Option.map_some] at hs
      split at hs
      · cases hs
      · cases hs
        refine ⟨inv_of h rfl ?_, rfl⟩
        intro m hm
        exact .inl (List.mem_filter.1 hm).1
      · cases hs
        exact ⟨inv_of h rfl (fun m hm => .inl hm), rfl⟩

theorem step_keeps {g g' : Global} {op : Op} (hop : Spec.Fine op) (h : Inv g) (hs : step g op = some g') : Inv g' ∧ Keeps g.lex g'.lex := by
  cases op with
  | script ds =>
    simp only [step, Option.map_eq_some_iff] at hs
    obtain ⟨⟨r, g2⟩, hs, rfl⟩ := hs
    exact lex_grows hop h hs
  | eval fs ds =>
    simp only [step, Option.map_eq_some_iff] at hs
    obtain ⟨⟨r, w⟩, hs, rfl⟩ := hs
    exact eval_keeps hop h hs
  | delete n =>
    simp only [step, Option.map_eq_some_iff] at hs
    obtain ⟨⟨r, g2⟩, hs, rfl⟩ := hs
    obtain ⟨h1, h2⟩ := delete_keeps h hs
    exact ⟨h1, by rw [h2]; exact Keeps.refl _⟩
  | init n v =>
    simp only [step, initB, look_eq, Option.map_eq_some_iff] at hs
    obtain ⟨l, hs, rfl⟩ := hs
    cases hb : findB n g.lex with
    | none => rw [hb] at hs; cases hs
    | some b =>
      rw [hb] at hs
      simp only at hs
      split at hs
      · cases hs
      · rename_i hv
        cases hs
        refine ⟨put_inv h hb rfl, keeps_put hb ?_⟩
        intro _
        cases hbv : b.value with
        | none => rfl
        | some v => rw [hbv] at hv; exact absurd rfl hv
  | assign n v =>
    simp only [step, look_eq] at hs
    cases hb : findB n g.lex with
    | none =>
      rw [hb] at hs
      cases hs
      exact ⟨h, Keeps.refl _⟩
    | some b =>
      rw [hb] at hs
      simp only [Option.isSome_some, if_true, assign, look_eq, hb, Option.map_eq_some_iff] at hs
      obtain ⟨l, hs, rfl⟩ := hs
      split at hs
      · cases hs
        exact ⟨h, Keeps.refl _⟩
      · rename_i hv
        cases hs
        refine ⟨put_inv h hb rfl, keeps_put hb ?_⟩
        intro hi
        rw [hi, Bool.or_true] at hv
        exact absurd rfl hv
  | user o inh =>
    cases hs
    exact ⟨⟨h.nodup, h.apart, h.kept⟩, Keeps.refl _⟩

theorem run_keeps {g g' : Global} {ops : List Op} (hop : ∀ op ∈ ops, Spec.Fine op) (h : Inv g) (hs : run g ops = some g') :
    Inv g' ∧ Keeps g.lex g'.lex := by
  induction ops generalizing g with
  | nil => cases hs; exact ⟨h, Keeps.refl _⟩
  | cons op ops ih =>
    simp only [run, Option.bind_eq_some_iff] at hs
    obtain ⟨g1, h1, h2⟩ := hs
    obtain ⟨a1, a2⟩ := step_keeps (hop op (by simp)) h h1
    obtain ⟨b1, b2⟩ := ih (fun op h => hop op (List.mem_cons_of_mem _ h)) a1 h2
    exact ⟨b1, a2.trans b2⟩

theorem inv_new (o : Obj.Obj) (inh : Nat → Option Desc) : Inv (Global.new o inh) :=
  ⟨by simp [Global.new], by simp [Global.new], by simp [Global.new]⟩

end Verif.GlobalDecl

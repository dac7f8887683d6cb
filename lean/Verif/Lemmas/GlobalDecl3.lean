import Verif.Lemmas.GlobalDecl2

/-! Lemmas about the declarations of scripts and `eval`: order of properties, `eval`. -/
namespace Verif.GlobalDecl
open Obj (Val P Desc)
open Spec (find findB view View)

/-! ### Order -/

theorem varTable_order {F : List Nat} {ds : List Decl} {acc : List Nat} (hF : ∀ n, Spec.FuncName ds n → n ∈ F) :
    (varTable ds acc).filter (· ∉ F) = acc.filter (· ∉ F) ++ ((Spec.varOrder ds).filter (· ∉ acc)).filter (· ∉ F) := by
  induction ds generalizing acc with
  | nil => simp [varTable, Spec.varOrder]
  | cons d ds ih =>
    have hF' : ∀ n, Spec.FuncName ds n → n ∈ F := fun n ⟨f, h⟩ => hF n ⟨f, List.mem_cons_of_mem _ h⟩
    cases d with
    | lex n c => simp only [varTable, Spec.varOrder]; exact ih hF'
    | var n =>
      simp only [varTable, Spec.varOrder]
      rw [ih hF']
      by_cases h : n ∈ acc
      · simp only [h, if_true, List.filter_cons, not_true, decide_false, Bool.false_eq_true, if_false]
        congr 2
        rw [List.filter_filter]
        apply List.filter_congr
        intro x _
        by_cases hx : x ∈ acc
        · simp [hx]
        · have : x ≠ n := fun e => hx (e ▸ h)
          simp [hx, this]
      · simp only [h, if_false, List.filter_cons, not_false_eq_true, decide_true, if_true, List.filter_append, List.append_assoc]
        congr 1
        have : ((Spec.varOrder ds).filter fun x => decide (x ∉ acc ++ [n])) =
            ((Spec.varOrder ds).filter fun x => decide (x ≠ n)).filter fun x => decide (x ∉ acc) := by
          rw [List.filter_filter]
          apply List.filter_congr
          intro x _
          simp [not_or]
        rw [this]
        by_cases hn : n ∈ F <;> simp [hn]
    | func n f =>
      simp only [varTable, Spec.varOrder]
      have hn : n ∈ F := hF n ⟨f, by simp⟩
      rw [ih hF']
      by_cases h : n ∈ acc
      · simp only [h, if_true]
      · simp only [h, if_false, List.filter_append]
        have h1 : [n].filter (fun x => decide (x ∉ F)) = [] := by simp [hn]
        rw [h1, List.append_nil]
        congr 1
        rw [List.filter_filter, List.filter_filter]
        apply List.filter_congr
        intro x _
        by_cases hx : x = n
        · subst hx; simp [hn]
        · simp [hx]

theorem mem_funcOrder {ds : List Decl} {n : Nat} : n ∈ Spec.funcOrder ds ↔ Spec.FuncName ds n := by
  induction ds with
  | nil => simp [Spec.funcOrder, Spec.FuncName]
  | cons d ds ih =>
    unfold Spec.FuncName at ih ⊢
    cases d with
    | lex m c => simp [Spec.funcOrder, ih]
    | var m => simp [Spec.funcOrder, ih]
    | func m f =>
      simp only [Spec.funcOrder]
      have hr : (∃ f', Decl.func n f' ∈ Decl.func m f :: ds) ↔ n = m ∨ ∃ f', Decl.func n f' ∈ ds := by
        constructor
        · rintro ⟨f', h⟩
          rcases List.mem_cons.1 h with h | h
          · injection h with h; exact .inl h
          · exact .inr ⟨f', h⟩
        · rintro (rfl | ⟨f', h⟩)
          · exact ⟨f, by simp⟩
          · exact ⟨f', List.mem_cons_of_mem _ h⟩
      rw [hr, ← ih]
      split
      · rename_i h
        constructor
        · exact .inr
        · rintro (rfl | h') <;> assumption
      · simp

theorem NoRepeat.tail {d : Decl} {ds : List Decl} (h : Spec.NoRepeat (d :: ds)) : Spec.NoRepeat ds := by
  intro a b c n f f' he
  exact h (d :: a) b c n f f' (by rw [he]; simp)

theorem NoRepeat.head {n : Nat} {f : Val} {ds : List Decl} (h : Spec.NoRepeat (.func n f :: ds)) : ¬ Spec.FuncName ds n := by
  rintro ⟨f', hm⟩
  obtain ⟨b, c, rfl⟩ := List.append_of_mem hm
  exact h [] b c n f f' (by simp)

theorem funcTable_order {ds : List Decl} {acc : List (Nat × Val)} (h : Spec.NoRepeat ds)
    (ha : ∀ n, Spec.FuncName ds n → n ∉ acc.map (·.1)) :
    (funcTable ds acc).map (·.1) = acc.map (·.1) ++ Spec.funcOrder ds := by
  induction ds generalizing acc with
  | nil => simp [funcTable, Spec.funcOrder]
  | cons d ds ih =>
    have ha' : ∀ n, Spec.FuncName ds n → n ∉ acc.map (·.1) := fun n ⟨f, hf⟩ => ha n ⟨f, List.mem_cons_of_mem _ hf⟩
    cases d with
    | lex n c => simp only [funcTable, Spec.funcOrder]; exact ih (NoRepeat.tail h) ha'
    | var n => simp only [funcTable, Spec.funcOrder]; exact ih (NoRepeat.tail h) ha'
    | func n f =>
      simp only [funcTable, Spec.funcOrder]
      have hn := NoRepeat.head h
      rw [replace_none.2 (ha n ⟨f, by simp⟩), if_neg (fun hm => hn (mem_funcOrder.1 hm))]
      simp only [Option.getD_none]
      rw [ih (NoRepeat.tail h)]
      · simp
      · intro m hm
        simp only [List.map_append, List.map_cons, List.map_nil, List.mem_append, List.mem_singleton, not_or]
        exact ⟨ha' m hm, fun e => hn (e ▸ hm)⟩

theorem order_eq {ds : List Decl} (h : Spec.NoRepeat ds) :
    (funcTable ds []).map (·.1) ++ (varTable ds []).filter (· ∉ (funcTable ds []).map (·.1)) =
      Spec.funcOrder ds ++ (Spec.varOrder ds).filter (· ∉ Spec.funcOrder ds) := by
  have h1 : (funcTable ds []).map (·.1) = Spec.funcOrder ds := by
    have := funcTable_order (acc := []) h (by simp)
    simpa using this
  rw [h1, varTable_order (fun n hn => mem_funcOrder.2 hn)]
  simp

/-! ### Loops on the global environment inside `eval` -/

theorem each_onG {α : Type} {f : α → Global → Option (Res × Global)} {xs : List α} {w : World} :
    each (fun x => onG (f x)) xs w = (each f xs w.g).map fun r => (r.1, { w with g := r.2 }) := by
  induction xs generalizing w with
  | nil => rfl
  | cons x xs ih =>
    simp only [each, onG]
    cases hf : f x w.g with
    | none => rfl
    | some y =>
      obtain ⟨r, g⟩ := y
      cases r with
      | ok => simp only [Option.map_some]; rw [ih]
      | _ => rfl

theorem each_eval_global {α : Type} {nm : α → Nat} {val : α → Val} {over : Bool} {f : α → Global → Option (Res × Global)}
    (hf : ∀ x g, f x g = if over then createFunc g (nm x) (val x) true else createVar g (nm x) true)
    {xs : List α} {w : World} (hw : w.fn = none) :
    each (fun x w => evalDeclare false (nm x) (val x) over w) xs w = (each f xs w.g).map fun r => (r.1, { w with g := r.2 }) := by
  induction xs generalizing w with
  | nil => rfl
  | cons x xs ih =>
    have h1 : evalDeclare false (nm x) (val x) over w = onG (f x) w := by
      unfold evalDeclare varEnv
      simp only [Bool.false_eq_true, if_false, hw]
      unfold onG
      rw [hf]
    simp only [each]
    rw [h1]
    unfold onG
    cases hf : f x w.g with
    | none => rfl
    | some y =>
      obtain ⟨r, g⟩ := y
      cases r with
      | ok => simp only [Option.map_some]; rw [ih (w := { w with g := g }) hw]
      | _ => rfl

/-! ### Environments between -/

theorem hasTrue_iff (f : Frame) (n : Nat) : f.hasTrue n = true ↔ Spec.BetweenAny [f] n := by
  unfold Spec.BetweenAny Spec.Between
  cases f with
  | block l => simp [Frame.hasTrue, look_eq]
  | catch_ l => simp [Frame.hasTrue, look_eq]
  | with_ h => simp [Frame.hasTrue]

theorem betweenAny_cons {f : Frame} {fs : List Frame} {n : Nat} :
    Spec.BetweenAny (f :: fs) n ↔ Spec.BetweenAny [f] n ∨ Spec.BetweenAny fs n := by
  unfold Spec.BetweenAny Spec.Between
  simp only [List.mem_cons, List.not_mem_nil, or_false]
  constructor
  · rintro (⟨l, h | h, h1⟩ | ⟨l, h | h, h1⟩ | ⟨l, h | h, h1⟩)
    · exact .inl (.inl ⟨l, h, h1⟩)
    · exact .inr (.inl ⟨l, h, h1⟩)
    · exact .inl (.inr (.inl ⟨l, h, h1⟩))
    · exact .inr (.inr (.inl ⟨l, h, h1⟩))
    · exact .inl (.inr (.inr ⟨l, h, h1⟩))
    · exact .inr (.inr (.inr ⟨l, h, h1⟩))
  · rintro ((⟨l, h, h1⟩ | ⟨l, h, h1⟩ | ⟨l, h, h1⟩) | (⟨l, h, h1⟩ | ⟨l, h, h1⟩ | ⟨l, h, h1⟩))
    · exact .inl ⟨l, .inl h, h1⟩
    · exact .inr (.inl ⟨l, .inl h, h1⟩)
    · exact .inr (.inr ⟨l, .inl h, h1⟩)
    · exact .inl ⟨l, .inr h, h1⟩
    · exact .inr (.inl ⟨l, .inr h, h1⟩)
    · exact .inr (.inr ⟨l, .inr h, h1⟩)

theorem betweenAny_mem {fs : List Frame} {n : Nat} : Spec.BetweenAny fs n ↔ ∃ f ∈ fs, Spec.BetweenAny [f] n := by
  induction fs with
  | nil =>
    simp [Spec.BetweenAny, Spec.Between]
  | cons f fs ih =>
    rw [betweenAny_cons, ih]
    simp

open Classical in
theorem frames_check (ds : List Decl) (fs : List Frame) (w : World) :
    each (checkFrame (varTable ds [])) fs w =
      some (if ∃ n, Spec.VarName ds n ∧ Spec.BetweenAny fs n then .syntax else .ok, w) := by
  rw [each_clash (q := fun f => ∃ n, Spec.VarName ds n ∧ Spec.BetweenAny [f] n) (r := .syntax) (by simp)]
  · congr 3
    simp only [eq_iff_iff]
    constructor
    · rintro ⟨f, hf, n, h1, h2⟩
      exact ⟨n, h1, betweenAny_mem.2 ⟨f, hf, h2⟩⟩
    · rintro ⟨n, h1, h2⟩
      obtain ⟨f, hf, h2⟩ := betweenAny_mem.1 h2
      exact ⟨f, hf, n, h1, h2⟩
  · intro f _
    refine ⟨decide (∃ n, Spec.VarName ds n ∧ Spec.BetweenAny [f] n), ?_, by simp⟩
    unfold checkFrame
    rw [each_clash (q := fun n => Spec.BetweenAny [f] n) (r := .syntax) (by simp)]
    · simp only [mem_vars, decide_eq_true_eq]
    · intro n _
      exact ⟨f.hasTrue n, rfl, hasTrue_iff f n⟩

theorem between_empty {fs : List Frame} {n : Nat} : Spec.BetweenAny (.block [] :: fs) n ↔ Spec.BetweenAny fs n := by
  rw [betweenAny_cons]
  constructor
  · rintro (h | h)
    · rw [← hasTrue_iff] at h; cases h
    · exact h
  · exact .inr

/-! ### Declarative environments -/

theorem findB_put {n m : Nat} {b : Binding} {l : Decls} :
    findB m (put n b l) = if m = n ∧ (findB n l).isSome then some b else findB m l := by
  induction l with
  | nil => simp [put, findB]
  | cons x l ih =>
    obtain ⟨k, c⟩ := x
    simp only [put]
    by_cases hk : k = n
    · simp only [hk, if_true, findB]
      by_cases hm : n = m
      · subst hm; simp
      · have hm' : ¬ m = n := fun h => hm h.symm
        simp [hm, hm']
    · simp only [hk, if_false, findB]
      rw [ih]
      by_cases hkm : k = m
      · have : ¬ m = n := fun h => hk (hkm.trans h)
        simp [hkm, this]
      · simp [hkm]

theorem names_put {n : Nat} {b : Binding} {l : Decls} : (put n b l).map (·.1) = l.map (·.1) := by
  induction l with
  | nil => rfl
  | cons x l ih =>
    simp only [put]
    split
    · rfl
    · simp [ih]

theorem make_eq {n : Nat} {v : Val} {l : Decls} (h : findB n l = none) :
    ∃ l', (match create n ⟨false, false, true, none⟩ l with
      | none => none
      | some l => initB n v l) = some l' ∧ ∀ m, findB m l' = if m = n then some (Spec.made v) else findB m l := by
  rw [create_eq h]
  have h1 : findB n (l ++ [(n, (⟨false, false, true, none⟩ : Binding))]) = some ⟨false, false, true, none⟩ := by
    rw [findB_append, h]; simp [findB]
  refine ⟨put n (Spec.made v) (l ++ [(n, ⟨false, false, true, none⟩)]), ?_, ?_⟩
  · simp only [initB, look_eq, h1]; rfl
  · intro m
    rw [findB_put, h1]
    by_cases hm : m = n
    · simp [hm]
    · have : ¬ n = m := fun e => hm e.symm
      simp [hm, findB_append, findB, this]

/-- What a declaration makes of a binding. -/
def after (over : Bool) (v : Val) : Option Binding → Binding
  | none => Spec.made v
  | some b => if over then { b with value := some v } else b

theorem declare_eq {n : Nat} {v : Val} {over : Bool} {l : Decls}
    (h : over = true → ∀ b, findB n l = some b → b.value.isSome ∧ b.imm = false) :
    ∃ l', declare n v over l = some l' ∧ ∀ m, findB m l' = if m = n then some (after over v (findB n l)) else findB m l := by
  unfold declare
  rw [look_eq]
  cases hl : findB n l with
  | none =>
    obtain ⟨l', h1, h2⟩ := make_eq (v := v) hl
    exact ⟨l', h1, h2⟩
  | some b =>
    cases over with
    | false =>
      refine ⟨l, rfl, ?_⟩
      intro m
      by_cases hm : m = n
      · subst hm; simp [hl, after]
      · simp [hm]
    | true =>
      obtain ⟨h1, h2⟩ := h rfl b hl
      refine ⟨put n { b with value := some v } l, ?_, ?_⟩
      · unfold assign
        rw [look_eq, hl]
        have : (b.value.isNone || b.imm) = false := by
          rw [h2]
          cases hv : b.value with
          | none => rw [hv] at h1; cases h1
          | some v => rfl
        simp [this]
      · intro m
        rw [findB_put, hl]
        simp [after]

theorem declare_loop {σ α : Type} {nm : α → Nat} {val : α → Val} {over : Bool} {get : σ → Decls} {good : σ → Prop}
    {f : α → σ → Option (Res × σ)} {upd : σ → Decls → σ}
    (hf : ∀ x s, good s → f x s = (declare (nm x) (val x) over (get s)).map fun l => (.ok, upd s l))
    (hu : ∀ s l, good s → get (upd s l) = l) (huu : ∀ s l l', upd (upd s l) l' = upd s l')
    (hself : ∀ s, good s → upd s (get s) = s) (hgood : ∀ s l, good s → good (upd s l)) :
    ∀ {xs : List α} {s : σ}, good s → (xs.map nm).Nodup →
      (over = true → ∀ x ∈ xs, ∀ b, findB (nm x) (get s) = some b → b.value.isSome ∧ b.imm = false) →
      ∃ l, each f xs s = some (.ok, upd s l) ∧ (∀ x ∈ xs, findB (nm x) l = some (after over (val x) (findB (nm x) (get s)))) ∧
        (∀ n, n ∉ xs.map nm → findB n l = findB n (get s))
  | [], s, hg, _, _ => ⟨get s, by simp [each, hself s hg], by simp, by simp⟩
  | x :: xs, s, hg, hn, hx => by
    simp only [List.map_cons, List.nodup_cons] at hn
    have hne : ∀ y ∈ xs, nm y ≠ nm x := fun y hy h => hn.1 (h ▸ List.mem_map_of_mem hy)
    obtain ⟨l1, e1, e2⟩ := declare_eq (n := nm x) (v := val x) (over := over) (l := get s) (fun h => hx h x (by simp))
    have hfx : f x s = some (.ok, upd s l1) := by rw [hf _ _ hg, e1]; rfl
    obtain ⟨l, h1, h2, h3⟩ := declare_loop hf hu huu hself hgood (xs := xs) (s := upd s l1) (hgood _ _ hg) hn.2 (by
      intro ho y hy b hb
      rw [hu _ _ hg, e2, if_neg (hne y hy)] at hb
      exact hx ho y (List.mem_cons_of_mem _ hy) b hb)
    rw [hu _ _ hg] at h3
    refine ⟨l, ?_, ?_, ?_⟩
    · simp only [each]
      rw [hfx]
      simp only [h1, huu]
    · intro y hy
      rcases List.mem_cons.1 hy with rfl | hy
      · rw [h3 _ hn.1, e2, if_pos rfl]
      · rw [h2 y hy, hu _ _ hg, e2, if_neg (hne y hy)]
    · intro n hnn
      simp only [List.map_cons, List.mem_cons, not_or] at hnn
      rw [h3 n hnn.2, e2, if_neg hnn.1]

/-- Functions and then variables in a declarative environment. -/
theorem locals_made {strict : Bool} {σ : Type} {get : σ → Decls} {good : σ → Prop} {upd : σ → Decls → σ}
    {f : Nat × Val → σ → Option (Res × σ)} {k : Nat → σ → Option (Res × σ)}
    (hf : ∀ x s, good s → f x s = (declare x.1 x.2 true (get s)).map fun l => (.ok, upd s l))
    (hk : ∀ x s, good s → k x s = (declare x .undef false (get s)).map fun l => (.ok, upd s l))
    (hu : ∀ s l, good s → get (upd s l) = l) (huu : ∀ s l l', upd (upd s l) l' = upd s l')
    (hself : ∀ s, good s → upd s (get s) = s) (hgood : ∀ s l, good s → good (upd s l))
    {ds : List Decl} {s : σ} (hs : good s)
    (hb : ∀ n b, Spec.FuncName ds n → findB n (get s) = some b → b.value.isSome ∧ b.imm = false) :
    ∃ s1 l, each f (funcTable ds []) s = some (.ok, s1) ∧ each k (varTable ds []) s1 = some (.ok, upd s l) ∧
      Spec.Locals (fun n => findB n (get s)) ds (fun n => findB n l) := by
  obtain ⟨l1, a1, a2, a3⟩ := declare_loop hf hu huu hself hgood (xs := funcTable ds []) hs (nodup_funcTable (by simp))
    (fun _ x hx b h => hb _ b (mem_funcs.1 (List.mem_map_of_mem hx)) h)
  obtain ⟨l, b1, b2, b3⟩ := declare_loop (nm := fun x => x) (val := fun _ => .undef) hk hu huu hself hgood (xs := varTable ds []) (s := upd s l1) (hgood _ _ hs)
    (by rw [List.map_id']; exact nodup_varTable (by simp)) (by intro h; cases h)
  rw [hu _ _ hs] at b2 b3
  rw [huu] at b1
  refine ⟨upd s l1, l, a1, b1, ⟨?_, ?_, ?_⟩⟩
  · intro n f hfn
    have hm : (n, f) ∈ funcTable ds [] := (mem_funcTable (by simp)).2 (.inl hfn)
    have hv : n ∈ varTable ds [] := mem_vars.2 (.inr (funcName_iff.2 ⟨f, hfn⟩))
    have e1 : findB n l1 = some (after true f (findB n (get s))) := a2 _ hm
    have e2 := b2 _ hv
    show findB n l = _
    rw [e2, e1]
    cases findB n (get s) <;> rfl
  · intro n hv hfn
    have e2 := b2 _ (mem_vars.2 hv)
    show findB n l = _
    rw [e2, a3 n (fun h => hfn (mem_funcs.1 h))]
    cases findB n (get s) <;> rfl
  · intro n hv
    show findB n l = _
    rw [b3 n (fun h => hv (mem_vars.1 (by simpa using h))), a3 n (fun h => hv (.inr (mem_funcs.1 h)))]

end Verif.GlobalDecl

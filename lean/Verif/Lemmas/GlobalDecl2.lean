import Verif.Lemmas.GlobalDecl

/-! Lemmas about the declarations of scripts and `eval`: the loops on the global environment. -/
namespace Verif.GlobalDecl
open Obj (Val P Desc)
open Spec (find findB view View)

/-- Properties put into the global object. -/
structure Put {α : Type} (name : α → Nat) (val : α → Option P → P) (xs : List α) (g g' : Global) : Prop where
  new : ∀ x ∈ xs, (view g').own (.str (name x)) = some (val x ((view g).own (.str (name x))))
  old : ∀ m, (∀ x ∈ xs, m ≠ .str (name x)) → (view g').own m = (view g).own m
  ext : g'.obj.ext = g.obj.ext
  items : g'.obj.store = g.obj.store
  lex : g'.lex = g.lex
  inh : g'.inh = g.inh
  names : ∀ n, n ∈ g'.vars ↔ n ∈ g.vars ∨ n ∈ xs.map name
  keys : (view g').keys = (view g).keys ++ (xs.map fun x => Obj.Name.str (name x)).filter fun m => (view g).own m = none

theorem put_loop {α : Type} {name : α → Nat} {val : α → Option P → P} {f : α → Global → Option (Res × Global)}
    {good : View → α → Prop}
    (hf : ∀ g x, good (view g) x → f x g = some (.ok, g.with (name x) (val x ((view g).own (.str (name x))))))
    (hg : ∀ v v' x, v.own (.str (name x)) = v'.own (.str (name x)) → v.ext = v'.ext → good v x → good v' x) :
    ∀ {xs : List α} {g : Global}, (xs.map name).Nodup → (∀ x ∈ xs, good (view g) x) →
      ∃ g', each f xs g = some (.ok, g') ∧ Put name val xs g g'
  | [], g, _, _ => ⟨g, rfl, ⟨by simp, fun _ _ => rfl, rfl, rfl, rfl, rfl, by simp, by simp⟩⟩
  | x :: xs, g, hn, hx => by
    simp only [List.map_cons, List.nodup_cons] at hn
    have hne : ∀ y ∈ xs, name y ≠ name x := fun y hy h => hn.1 (h ▸ List.mem_map_of_mem hy)
    have hown := view_with g (name x) (val x ((view g).own (.str (name x))))
    obtain ⟨g', h1, h2⟩ := put_loop hf hg (xs := xs) (g := g.with (name x) (val x ((view g).own (.str (name x))))) hn.2 (by
      intro y hy
      refine hg (view g) _ y ?_ rfl (hx y (List.mem_cons_of_mem _ hy))
      rw [hown]
      simp [hne y hy])
    refine ⟨g', ?_, ?_⟩
    · simp only [each]
      rw [hf g x (hx x (by simp))]
      exact h1
    · refine ⟨?_, ?_, h2.ext, h2.items, h2.lex, h2.inh, ?_, ?_⟩
      · intro y hy
        rcases List.mem_cons.1 hy with rfl | hy
        · rw [h2.old, hown]
          · simp
          · intro z hz h
            injection h with h
            exact hne z hz h.symm
        · rw [h2.new y hy, hown]
          simp [hne y hy]
      · intro m hm
        rw [h2.old m (fun y hy => hm y (List.mem_cons_of_mem _ hy)), hown]
        simp [hm x (by simp)]
      · intro n
        rw [h2.names n]
        simp only [Global.with, mem_addVar, List.map_cons, List.mem_cons]
        constructor
        · rintro ((h | h) | h)
          · exact .inl h
          · exact .inr (.inl h)
          · exact .inr (.inr h)
        · rintro (h | h | h)
          · exact .inl (.inl h)
          · exact .inl (.inr h)
          · exact .inr h
      · rw [h2.keys]
        have hk : (view (g.with (name x) (val x ((view g).own (.str (name x)))))).keys =
            (view g).keys ++ (if (view g).own (.str (name x)) = none then [.str (name x)] else []) := keys_place
        rw [hk, List.append_assoc]
        congr 1
        have hfil : ((xs.map fun x => Obj.Name.str (name x)).filter fun m =>
              decide ((view (g.with (name x) (val x ((view g).own (.str (name x)))))).own m = none)) =
            (xs.map fun x => Obj.Name.str (name x)).filter fun m => decide ((view g).own m = none) := by
          apply List.filter_congr
          intro m hm
          obtain ⟨y, hy, rfl⟩ := List.mem_map.1 hm
          rw [hown]
          simp [hne y hy]
        rw [hfil]
        simp only [List.map_cons, List.filter_cons]
        by_cases h : (view g).own (.str (name x)) = none <;> simp [h]

theorem CanFunc.congr {v v' : View} {n : Nat} (h1 : v.own (.str n) = v'.own (.str n)) (h2 : v.ext = v'.ext)
    (h : Spec.CanFunc v n) : Spec.CanFunc v' n := by
  unfold Spec.CanFunc at h ⊢
  rw [← h1, ← h2]; exact h

theorem CanVar.congr {v v' : View} {n : Nat} (h1 : v.own (.str n) = v'.own (.str n)) (h2 : v.ext = v'.ext)
    (h : Spec.CanVar v n) : Spec.CanVar v' n := by
  unfold Spec.CanVar at h ⊢
  rw [← h1, ← h2]; exact h

theorem funcs_loop {D : Bool} {fs : List (Nat × Val)} {g : Global} (hn : (fs.map (·.1)).Nodup)
    (hc : ∀ x ∈ fs, Spec.CanFunc (view g) x.1) :
    ∃ g', each (fun x g => createFunc g x.1 x.2 D) fs g = some (.ok, g') ∧
      Put (·.1) (fun x => Spec.funcProp D x.2) fs g g' :=
  put_loop (name := fun x : Nat × Val => x.1) (val := fun x => Spec.funcProp D x.2) (good := fun v x => Spec.CanFunc v x.1)
    (fun _ _ h => createFunc_eq h) (fun _ _ _ => CanFunc.congr) hn hc

theorem vars_loop {D : Bool} {ns : List Nat} {g : Global} (hn : ns.Nodup) (hc : ∀ n ∈ ns, Spec.CanVar (view g) n) :
    ∃ g', each (fun n g => createVar g n D) ns g = some (.ok, g') ∧
      Put id (fun _ o => o.getD ⟨true, true, D, .data .undef⟩) ns g g' :=
  put_loop (name := id) (val := fun _ o => o.getD ⟨true, true, D, .data .undef⟩) (good := fun v n => Spec.CanVar v n)
    (fun _ _ h => createVar_eq h) (fun _ _ _ => CanVar.congr) (by simpa using hn) hc

/-! ### Lexical bindings -/

theorem findB_append {n : Nat} {l m : Decls} : findB n (l ++ m) = (findB n l).or (findB n m) := by
  induction l with
  | nil => rfl
  | cons x l ih =>
    simp only [List.cons_append, findB]
    split
    · rfl
    · exact ih

theorem create_eq {n : Nat} {b : Binding} {l : Decls} (h : findB n l = none) : create n b l = some (l ++ [(n, b)]) := by
  unfold create
  rw [look_eq, h]

theorem newLex_eq (c : Bool) : newLex c = Spec.fresh c := by cases c <;> rfl

/-- The loop that makes lexical bindings, in any state. -/
theorem lexs_loop {σ : Type} {get : σ → Decls} {f : Nat × Bool → σ → Option (Res × σ)} {upd : σ → Decls → σ}
    (hf : ∀ x s, f x s = (create x.1 (newLex x.2) (get s)).map fun l => (.ok, upd s l))
    (hu : ∀ s l, get (upd s l) = l) (huu : ∀ s l l', upd (upd s l) l' = upd s l') (hself : ∀ s, upd s (get s) = s) :
    ∀ {xs : List (Nat × Bool)} {s : σ}, (xs.map (·.1)).Nodup → (∀ x ∈ xs, findB x.1 (get s) = none) →
      ∃ l, each f xs s = some (.ok, upd s l) ∧ (∀ x ∈ xs, findB x.1 l = some (Spec.fresh x.2)) ∧
        (∀ n, n ∉ xs.map (·.1) → findB n l = findB n (get s)) ∧ l = get s ++ xs.map fun x => (x.1, newLex x.2)
  | [], s, _, _ => ⟨get s, by simp [each, hself], by simp, by simp, by simp⟩
  | x :: xs, s, hn, hx => by
    simp only [List.map_cons, List.nodup_cons] at hn
    have h0 := create_eq (b := newLex x.2) (hx x (by simp))
    have hfx : f x s = some (.ok, upd s (get s ++ [(x.1, newLex x.2)])) := by rw [hf, h0]; rfl
    have hl : ∀ n, n ≠ x.1 → findB n (get s ++ [(x.1, newLex x.2)]) = findB n (get s) := by
      intro n hne
      rw [findB_append]
      have : findB n [(x.1, newLex x.2)] = none := by simp only [findB]; rw [if_neg (fun h => hne h.symm)]
      rw [this, Option.or_none]
    obtain ⟨l, h1, h2, h3, h4⟩ := lexs_loop hf hu huu hself (xs := xs) (s := upd s (get s ++ [(x.1, newLex x.2)])) hn.2 (by
      intro y hy
      rw [hu, hl]
      · exact hx y (List.mem_cons_of_mem _ hy)
      · rintro h
        exact hn.1 (h ▸ List.mem_map_of_mem hy))
    rw [hu] at h3 h4
    refine ⟨l, ?_, ?_, ?_, ?_⟩
    · simp only [each]
      rw [hfx]
      simp only [h1, huu]
    · intro y hy
      rcases List.mem_cons.1 hy with rfl | hy
      · rw [h3 _ hn.1, findB_append, hx y (by simp), newLex_eq]
        simp [findB]
      · exact h2 y hy
    · intro n hnn
      simp only [List.map_cons, List.mem_cons, not_or] at hnn
      rw [h3 n hnn.2, hl n hnn.1]
    · rw [h4]; simp

/-! ### The whole -/

theorem mem_funcs {ds : List Decl} {n : Nat} : n ∈ (funcTable ds []).map (·.1) ↔ Spec.FuncName ds n := by
  rw [funcName_iff]
  constructor
  · rintro h
    obtain ⟨⟨m, f⟩, h0, rfl⟩ := List.mem_map.1 h
    rcases (mem_funcTable (by simp)).1 h0 with h | ⟨_, h⟩
    · exact ⟨f, h⟩
    · cases h
  · rintro ⟨f, h⟩
    exact List.mem_map.2 ⟨(n, f), (mem_funcTable (by simp)).2 (.inl h), rfl⟩

theorem mem_vars {ds : List Decl} {n : Nat} : n ∈ varTable ds [] ↔ Spec.VarName ds n := by
  rw [mem_varTable]; simp

theorem mem_lexs {ds : List Decl} {n : Nat} : n ∈ (lexTable ds).map (·.1) ↔ Spec.LexName ds n := by
  constructor
  · intro h
    obtain ⟨⟨m, c⟩, h0, rfl⟩ := List.mem_map.1 h
    exact ⟨c, mem_lexTable.1 h0⟩
  · rintro ⟨c, h⟩
    exact List.mem_map.2 ⟨(n, c), mem_lexTable.2 h, rfl⟩

/-- Creating functions and then variables. -/
theorem vars_made {D : Bool} {ds : List Decl} {g : Global} (hb : ¬ Spec.Barred (view g) ds) :
    ∃ g1 g2, each (fun x g => createFunc g x.1 x.2 D) (funcTable ds []) g = some (.ok, g1) ∧
      each (fun n g => createVar g n D) (varTable ds []) g1 = some (.ok, g2) ∧
      Spec.Vars D (view g) ds (view g2) ∧ g2.lex = g.lex ∧ g2.inh = g.inh ∧
      (view g2).keys = (view g).keys ++
        (((funcTable ds []).map (·.1) ++ (varTable ds []).filter (· ∉ (funcTable ds []).map (·.1))).map Obj.Name.str).filter
          fun m => (view g).own m = none := by
  have hcf : ∀ n, Spec.FuncName ds n → Spec.CanFunc (view g) n := fun n h => Classical.byContradiction fun h1 => hb (.inl ⟨n, h, h1⟩)
  have hcv : ∀ n, Spec.VarName ds n → Spec.CanVar (view g) n := fun n h => Classical.byContradiction fun h1 => hb (.inr ⟨n, h, h1⟩)
  obtain ⟨g1, h1, p1⟩ := funcs_loop (D := D) (fs := funcTable ds []) (g := g) (nodup_funcTable (by simp))
    (fun x hx => hcf _ (mem_funcs.1 (List.mem_map_of_mem hx)))
  have hown1 : ∀ n, Spec.VarName ds n → ¬ Spec.FuncName ds n → (view g1).own (.str n) = (view g).own (.str n) := by
    intro n _ hf
    apply p1.old
    intro x hx h
    injection h with h
    exact hf (mem_funcs.1 (h ▸ List.mem_map_of_mem hx))
  have hsome : ∀ n, Spec.FuncName ds n → ((view g1).own (.str n)).isSome := by
    intro n hf
    obtain ⟨⟨m, f⟩, hx, rfl⟩ := List.mem_map.1 (mem_funcs.2 hf)
    have := p1.new _ hx
    simp only at this
    rw [this]; rfl
  obtain ⟨g2, h2, p2⟩ := vars_loop (D := D) (ns := varTable ds []) (g := g1) (nodup_varTable (by simp)) (by
    intro n hn
    by_cases hf : Spec.FuncName ds n
    · exact .inl (hsome n hf)
    · have hv := mem_vars.1 hn
      exact CanVar.congr (hown1 n hv hf).symm p1.ext.symm (hcv n hv))
  refine ⟨g1, g2, h1, h2, ⟨?_, ?_, ?_, ?_, ?_, ?_, ?_⟩, by rw [p2.lex, p1.lex], by rw [p2.inh, p1.inh], ?_⟩
  · intro n f hf
    have hm : (n, f) ∈ funcTable ds [] := (mem_funcTable (by simp)).2 (.inl hf)
    have hv : n ∈ varTable ds [] := mem_vars.2 (.inr (funcName_iff.2 ⟨f, hf⟩))
    have e1 := p1.new _ hm
    have e2 := p2.new _ hv
    simp only [id_eq] at e1 e2
    rw [e2, e1]; rfl
  · intro n hv hf
    have e2 := p2.new _ (mem_vars.2 hv)
    simp only [id_eq] at e2
    rw [e2, hown1 n hv hf]
  · intro n hv
    rw [p2.old, p1.old]
    · intro x hx h
      injection h with h
      exact hv (.inr (mem_funcs.1 (h ▸ List.mem_map_of_mem hx)))
    · intro x hx h
      injection h with h
      exact hv (mem_vars.1 (h ▸ hx))
  · intro n
    rw [p2.old _ (by simp), p1.old _ (by simp)]
  · exact p2.ext.trans p1.ext
  · exact p2.items.trans p1.items
  · intro n
    show n ∈ g2.vars ↔ n ∈ g.vars ∨ _
    rw [p2.names, p1.names, List.map_id, mem_vars, mem_funcs]
    constructor
    · rintro ((h | h) | h)
      · exact .inl h
      · exact .inr (.inr h)
      · exact .inr h
    · rintro (h | h)
      · exact .inl (.inl h)
      · exact .inr h
  · rw [p2.keys, p1.keys, List.append_assoc, List.map_append, List.filter_append]
    congr 1
    congr 1
    · rw [List.map_map]; rfl
    · simp only [id_eq]
      rw [List.filter_map, List.filter_map, List.filter_filter]
      congr 1
      apply List.filter_congr
      intro n hn
      simp only [Function.comp_apply]
      by_cases hf : Spec.FuncName ds n
      · have h3 := hsome n hf
        have h4 : n ∈ (funcTable ds []).map (·.1) := mem_funcs.2 hf
        simp only [h4, not_true, decide_false, Bool.and_false]
        cases ho : (view g1).own (.str n) with
        | none => rw [ho] at h3; cases h3
        | some p => simp
      · have h4 : n ∉ (funcTable ds []).map (·.1) := fun h => hf (mem_funcs.1 h)
        rw [hown1 n (mem_vars.1 hn) hf]
        simp only [h4, not_false_eq_true, decide_true, Bool.and_true]

/-! ### Checks -/

theorem restricted_eq (o : Obj.Obj) (n : Nat) :
    restricted o n = some ((find (.str n) o.named).any fun p => !p.c) := by
  unfold restricted
  rw [getOwn_eq]
  cases find (.str n) o.named with
  | none => rfl
  | some p =>
    have : (Obj.descOf p).c = p.c := by unfold Obj.descOf; split <;> rfl
    simp [this]

theorem canVar_eq (g : Global) (n : Nat) : ∃ b, canVar g.obj n = some b ∧ (b = true ↔ Spec.CanVar (view g) n) := by
  unfold canVar Spec.CanVar
  rw [getOwn_eq]
  simp only [view]
  cases find (.str n) g.obj.named with
  | none => exact ⟨_, rfl, by simp⟩
  | some p => exact ⟨_, rfl, by simp⟩

theorem canFunc_eq (g : Global) (n : Nat) : ∃ b, canFunc g.obj n = some b ∧ (b = true ↔ Spec.CanFunc (view g) n) := by
  unfold canFunc Spec.CanFunc
  rw [getOwn_eq]
  simp only [view]
  cases find (.str n) g.obj.named with
  | none => exact ⟨_, rfl, Iff.rfl⟩
  | some p =>
    refine ⟨_, rfl, ?_⟩
    obtain ⟨w, e, c, b⟩ := p
    cases b with
    | data v => simp [Obj.descOf, Obj.isData]
    | acc x y => simp [Obj.descOf, Obj.isData]

open Classical in
theorem each_clash {α σ : Type} {f : α → σ → Option (Res × σ)} {q : α → Prop} {r : Res} (hr : r ≠ .ok) {g : σ} {l : List α}
    (h : ∀ a ∈ l, ∃ b : Bool, f a g = some (if b then r else .ok, g) ∧ (b = true ↔ q a)) :
    each f l g = some (if ∃ a ∈ l, q a then r else .ok, g) := by
  rw [each_check (p := fun a => decide (q a)) hr]
  · congr 2
    by_cases h1 : ∃ a ∈ l, q a
    · rw [if_pos h1, if_pos (by simpa using h1)]
    · rw [if_neg h1, if_neg (by simpa using h1)]
  · intro a ha
    obtain ⟨b, h1, h2⟩ := h a ha
    rw [h1]
    cases b with
    | true => simp [h2.1 rfl]
    | false =>
      have : ¬ q a := fun hq => by have := h2.2 hq; cases this
      simp [this]

open Classical in
theorem lex_check (g : Global) (ds : List Decl) :
    each checkLex (lexTable ds) g = some (if ∃ n, Spec.LexName ds n ∧ ((view g).var n ∨ ((view g).lex n).isSome ∨
      ∃ p, (view g).own (.str n) = some p ∧ p.c = false) then .syntax else .ok, g) := by
  rw [each_clash (q := fun x => (view g).var x.1 ∨ ((view g).lex x.1).isSome ∨ ∃ p, (view g).own (.str x.1) = some p ∧ p.c = false)
    (r := .syntax) (by simp)]
  · congr 3
    simp only [eq_iff_iff]
    constructor
    · rintro ⟨⟨n, c⟩, h, h1⟩
      exact ⟨n, ⟨c, mem_lexTable.1 h⟩, h1⟩
    · rintro ⟨n, ⟨c, h⟩, h1⟩
      exact ⟨(n, c), mem_lexTable.2 h, h1⟩
  · rintro ⟨n, c⟩ _
    unfold checkLex
    simp only [view]
    by_cases h1 : n ∈ g.vars
    · rw [if_pos h1]
      exact ⟨true, rfl, by simp [h1]⟩
    · rw [if_neg h1, look_eq]
      by_cases h2 : (findB n g.lex).isSome = true
      · rw [if_pos h2]
        exact ⟨true, rfl, by simp [h2]⟩
      · rw [if_neg h2, restricted_eq]
        refine ⟨(find (.str n) g.obj.named).any fun p => !p.c, rfl, ?_⟩
        cases find (.str n) g.obj.named with
        | none => simp [h1, h2]
        | some p => simp [h1, h2]

open Classical in
theorem var_check (g : Global) (ds : List Decl) :
    each checkVar (varTable ds []) g = some (if ∃ n, Spec.VarName ds n ∧ ((view g).lex n).isSome then .syntax else .ok, g) := by
  rw [each_clash (q := fun n => ((view g).lex n).isSome = true) (r := .syntax) (by simp)]
  · simp only [mem_vars]
  · intro n _
    unfold checkVar errIf
    rw [look_eq]
    exact ⟨(findB n g.lex).isSome, rfl, Iff.rfl⟩

open Classical in
theorem func_check (g : Global) (ds : List Decl) :
    each checkCanFunc (funcTable ds []) g = some (if ∃ n, Spec.FuncName ds n ∧ ¬ Spec.CanFunc (view g) n then .type else .ok, g) := by
  rw [each_clash (q := fun x => ¬ Spec.CanFunc (view g) x.1) (r := .type) (by simp)]
  · congr 3
    simp only [eq_iff_iff]
    constructor
    · rintro ⟨x, h, h1⟩
      exact ⟨x.1, mem_funcs.1 (List.mem_map_of_mem h), h1⟩
    · rintro ⟨n, h, h1⟩
      obtain ⟨x, h0, rfl⟩ := List.mem_map.1 (mem_funcs.2 h)
      exact ⟨x, h0, h1⟩
  · intro x _
    unfold checkCanFunc errIf
    obtain ⟨b, h1, h2⟩ := canFunc_eq g x.1
    rw [h1]
    refine ⟨!b, rfl, ?_⟩
    rw [← h2]; cases b <;> simp

open Classical in
theorem canvar_check (g : Global) (ds : List Decl) :
    each checkCanVar (varTable ds []) g = some (if ∃ n, Spec.VarName ds n ∧ ¬ Spec.CanVar (view g) n then .type else .ok, g) := by
  rw [each_clash (q := fun n => ¬ Spec.CanVar (view g) n) (r := .type) (by simp)]
  · simp only [mem_vars]
  · intro n _
    unfold checkCanVar errIf
    obtain ⟨b, h1, h2⟩ := canVar_eq g n
    rw [h1]
    refine ⟨!b, rfl, ?_⟩
    rw [← h2]; cases b <;> simp

theorem addLex_eq (x : Nat × Bool) (g : Global) : addLex x g = (create x.1 (newLex x.2) g.lex).map fun l => (.ok, { g with lex := l }) := rfl

/-- Everything that can happen. -/
theorem script_cases {ds : List Decl} (ha : Spec.Accepted ds) (g : Global) :
    (Spec.Clash (view g) ds ∧ script ds g = some (.syntax, g)) ∨
    (¬ Spec.Clash (view g) ds ∧ Spec.Barred (view g) ds ∧ script ds g = some (.type, g)) ∨
    (¬ Spec.Clash (view g) ds ∧ ¬ Spec.Barred (view g) ds ∧ ∃ g', script ds g = some (.ok, g') ∧
      Spec.Vars false (view g) ds (view g') ∧ Spec.Lexs (view g).lex ds (view g').lex ∧
      g'.lex = (g.lex ++ (lexTable ds).map fun x => (x.1, newLex x.2)) ∧
      g'.inh = g.inh ∧
      (view g').keys = (view g).keys ++
        (((funcTable ds []).map (·.1) ++ (varTable ds []).filter (· ∉ (funcTable ds []).map (·.1))).map Obj.Name.str).filter
          fun m => (view g).own m = none) := by
  unfold script
  rw [lex_check]
  by_cases h1 : ∃ n, Spec.LexName ds n ∧ ((view g).var n ∨ ((view g).lex n).isSome ∨
      ∃ p, (view g).own (.str n) = some p ∧ p.c = false)
  · rw [if_pos h1]
    exact .inl ⟨.inl h1, rfl⟩
  rw [if_neg h1]
  simp only [andThen]
  rw [var_check]
  by_cases h2 : ∃ n, Spec.VarName ds n ∧ ((view g).lex n).isSome
  · rw [if_pos h2]
    exact .inl ⟨.inr h2, rfl⟩
  rw [if_neg h2]
  have hc : ¬ Spec.Clash (view g) ds := fun h => h.elim h1 h2
  simp only
  rw [func_check]
  by_cases h3 : ∃ n, Spec.FuncName ds n ∧ ¬ Spec.CanFunc (view g) n
  · rw [if_pos h3]
    exact .inr (.inl ⟨hc, .inl h3, rfl⟩)
  rw [if_neg h3]
  simp only
  rw [canvar_check]
  by_cases h4 : ∃ n, Spec.VarName ds n ∧ ¬ Spec.CanVar (view g) n
  · rw [if_pos h4]
    exact .inr (.inl ⟨hc, .inr h4, rfl⟩)
  rw [if_neg h4]
  have hb : ¬ Spec.Barred (view g) ds := fun h => h.elim h3 h4
  refine .inr (.inr ⟨hc, hb, ?_⟩)
  simp only
  obtain ⟨l, e1, e2, e3, e4⟩ := lexs_loop (get := Global.lex) (upd := fun g l => { g with lex := l }) addLex_eq
    (fun _ _ => rfl) (fun _ _ _ => rfl) (fun _ => rfl) (xs := lexTable ds) (s := g) (nodup_lexTable ha.once) (by
      rintro ⟨n, c⟩ hx
      cases hf : findB n g.lex with
      | none => rfl
      | some b => exact absurd ⟨n, ⟨c, mem_lexTable.1 hx⟩, .inr (.inl (by simp [view, hf]))⟩ h1)
  rw [e1]
  simp only
  obtain ⟨g1, g2, f1, f2, f3, f4, f5, f6⟩ := vars_made (D := false) (ds := ds) (g := { g with lex := l }) hb
  rw [f1]
  refine ⟨g2, f2, ?_, ?_, ?_, f5, f6⟩
  · exact ⟨f3.func, f3.var, f3.other, f3.sym, f3.ext, f3.items, f3.names⟩
  · refine ⟨?_, ?_⟩
    · intro n c h
      show findB n g2.lex = _
      rw [f4]
      exact e2 _ (mem_lexTable.2 h)
    · intro n h
      show findB n g2.lex = _
      rw [f4]
      exact e3 _ (fun hm => h (mem_lexs.1 hm))
  · rw [f4]; exact e4

end Verif.GlobalDecl

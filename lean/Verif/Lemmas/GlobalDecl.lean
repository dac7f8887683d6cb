import Verif.Spec.GlobalDecl

/-! Lemmas about the declarations of scripts and `eval`: tables, and single bindings. -/
namespace Verif.GlobalDecl
open Obj (Val P Desc)
open Spec (find findB view)

/-! ### Lists -/

theorem look_eq : look = findB := by
  funext n l
  induction l with
  | nil => rfl
  | cons x l ih => simp [look, findB, ih]

theorem findName_eq : Obj.findName = find := by
  funext n l
  induction l with
  | nil => rfl
  | cons x l ih => simp [Obj.findName, find, ih]

theorem find_append {n : Obj.Name} {l m : List (Obj.Name × P)} : find n (l ++ m) = (find n l).or (find n m) := by
  induction l with
  | nil => rfl
  | cons x l ih =>
    simp only [List.cons_append, find]
    split
    · rfl
    · exact ih

theorem find_set {n m : Obj.Name} {p : P} {l : List (Obj.Name × P)} (h : (find n l).isSome) :
    find m (Obj.setName n p l) = if m = n then some p else find m l := by
  induction l with
  | nil => cases h
  | cons x l ih =>
    obtain ⟨k, q⟩ := x
    simp only [find] at h
    simp only [Obj.setName]
    by_cases hk : k = n
    · subst hk
      simp only [if_true, find]
      by_cases hm : m = k
      · subst hm; simp
      · rw [if_neg (fun h => hm h.symm), if_neg hm, if_neg (fun h => hm h.symm)]
    · rw [if_neg hk] at h ⊢
      simp only [find]
      rw [ih h]
      by_cases hm : k = m
      · subst hm; rw [if_pos rfl, if_neg hk, if_pos rfl]
      · rw [if_neg hm, if_neg hm]

theorem set_self {n : Obj.Name} {p : P} {l : List (Obj.Name × P)} (h : find n l = some p) : Obj.setName n p l = l := by
  induction l with
  | nil => rfl
  | cons x l ih =>
    obtain ⟨k, q⟩ := x
    simp only [find] at h
    simp only [Obj.setName]
    split at h
    · next hk => rw [if_pos hk]; cases h; rfl
    · next hk => rw [if_neg hk, ih h]

theorem keys_set {n : Obj.Name} {p : P} {l : List (Obj.Name × P)} : (Obj.setName n p l).map (·.1) = l.map (·.1) := by
  induction l with
  | nil => rfl
  | cons x l ih =>
    obtain ⟨k, q⟩ := x
    simp only [Obj.setName]
    split
    · rfl
    · simp [ih]

/-- A property is put in its place, or at the end. -/
def place (n : Obj.Name) (p : P) (l : List (Obj.Name × P)) : List (Obj.Name × P) :=
  if (find n l).isSome then Obj.setName n p l else l ++ [(n, p)]

theorem find_place {n m : Obj.Name} {p : P} {l : List (Obj.Name × P)} :
    find m (place n p l) = if m = n then some p else find m l := by
  unfold place
  split
  · next h => exact find_set h
  · next h =>
    have h0 : find n l = none := by simpa using h
    rw [find_append]
    by_cases hm : m = n
    · subst hm; simp [h0, find]
    · rw [if_neg hm]
      have h2 : find m [(n, p)] = none := by simp only [find]; rw [if_neg (fun h => hm h.symm)]
      rw [h2, Option.or_none]

theorem keys_place {n : Obj.Name} {p : P} {l : List (Obj.Name × P)} :
    (place n p l).map (·.1) = l.map (·.1) ++ (if find n l = none then [n] else []) := by
  unfold place
  by_cases h : find n l = none
  · rw [if_pos h, if_neg (by simp [h])]; simp
  · rw [if_neg h, if_pos (by cases hf : find n l with
      | none => exact absurd hf h
      | some p => rfl), keys_set, List.append_nil]

theorem getOwn_eq (o : Obj.Obj) (n : Nat) : Obj.getOwn o (key n) = some ((find (.str n) o.named).map Obj.descOf) := by
  unfold Obj.getOwn key Obj.propLookup
  rw [findName_eq]
  cases h : find (.str n) o.named <;> simp [h]

/-! ### Single bindings of the global object -/

theorem setObj_own {o : Obj.Obj} {inh : Nat → Option Desc} {n : Nat} {v : Val} {e c : Bool}
    (h : find (.str n) o.named = some ⟨true, e, c, .data v⟩) : setObj o inh n v = some (o, .ok) := by
  unfold setObj
  rw [getOwn_eq, h]
  simp only [Option.map, setFound, getOwn_eq, h, Obj.descOf, Obj.isData, Obj.isAcc, Obj.defineOrdinary, Obj.validateAndApply,
    Obj.noFlags, Obj.check, Obj.isGeneric, Bool.or_self, Bool.or_true, Bool.true_or, if_true, Bool.not_true, Bool.false_eq_true, if_false,
    Bool.false_and, Bool.not_false]
  have hl : Obj.propLookup o (key n) = some (some ⟨true, e, c, .data v⟩) := by
    unfold Obj.propLookup key; rw [findName_eq]; simp [h]
  have hc : Obj.change ⟨true, e, c, .data v⟩ { hasV := true, value := v, get := .undef, set := .undef }
      { hasV := true, hasW := true, hasE := true, hasC := true, w := true, e := e, c := c, value := v } = ⟨true, e, c, .data v⟩ := rfl
  have hu : Obj.propUpdate o (key n) ⟨true, e, c, .data v⟩ = some o := by
    unfold Obj.propUpdate key
    rw [findName_eq]
    simp [h, set_self h]
  have hif : ∀ (x : Bool), (if (!if x = false then true else true) = true then some (o, false) else some (o, true)) = some (o, true) := by
    intro x; cases x <;> rfl
  cases c <;> simp [hl, hc, hu]

theorem defineOrThrow_new {o : Obj.Obj} {n : Nat} {d : Desc} (h : find (.str n) o.named = none) (he : o.ext = true) :
    defineOrThrow o n d = some ({ o with named := place (.str n) (Obj.newProp d) o.named }, .ok) := by
  unfold defineOrThrow Obj.defineOrdinary
  rw [getOwn_eq, h]
  simp [Obj.validateAndApply, he, Obj.propAdd, key, place, h]

theorem defineOrThrow_old {o : Obj.Obj} {n : Nat} {d : Desc} {p : P} (h : find (.str n) o.named = some p)
    (hn : Obj.noFlags d = false) (hc : Obj.check d (Obj.descOf p) = true) :
    defineOrThrow o n d = some ({ o with named := place (.str n) (Obj.change p d (Obj.descOf p)) o.named }, .ok) := by
  unfold defineOrThrow Obj.defineOrdinary
  rw [getOwn_eq, h]
  have hl : Obj.propLookup o (key n) = some (some p) := by
    unfold Obj.propLookup key; rw [findName_eq]; simp [h]
  simp only [Option.map, Obj.validateAndApply, hn, hc, hl]
  simp [Obj.propUpdate, key, findName_eq, h, place]

/-- The global environment with a property changed and a name added. -/
def Global.with (g : Global) (n : Nat) (p : P) : Global :=
  { g with obj := { g.obj with named := place (.str n) p g.obj.named }, vars := addVar n g.vars }

theorem defineAndSet_eq {g : Global} {n : Nat} {d : Desc} {v : Val} {e c : Bool}
    (h : defineOrThrow g.obj n d = some ({ g.obj with named := place (.str n) ⟨true, e, c, .data v⟩ g.obj.named }, .ok)) :
    withVar g n (defineAndSet g.obj g.inh n d v) = some (.ok, g.with n ⟨true, e, c, .data v⟩) := by
  unfold defineAndSet
  rw [h]
  simp only
  rw [setObj_own (e := e) (c := c) (by simp [find_place])]
  rfl

theorem createFunc_eq {g : Global} {n : Nat} {v : Val} {del : Bool} (h : Spec.CanFunc (view g) n) :
    createFunc g n v del = some (.ok, g.with n (Spec.funcProp del v ((view g).own (.str n)))) := by
  unfold createFunc
  rw [getOwn_eq]
  unfold Spec.CanFunc at h
  simp only [view] at h ⊢
  cases hf : find (.str n) g.obj.named with
  | none =>
    rw [hf] at h
    exact defineAndSet_eq (defineOrThrow_new hf h)
  | some p =>
    rw [hf] at h
    simp only [Option.map, Spec.funcProp]
    have hdc : (Obj.descOf p).c = p.c := by unfold Obj.descOf; split <;> rfl
    rw [hdc]
    by_cases hc : p.c = true
    · rw [if_pos hc, if_pos hc]
      have h1 : Obj.change p (dataDesc v del) (Obj.descOf p) = ⟨true, true, del, .data v⟩ := by
        obtain ⟨w, e, c, b⟩ := p
        cases b <;> rfl
      rw [← h1]
      have h2 := defineOrThrow_old (d := dataDesc v del) hf (by simp [Obj.noFlags, dataDesc]) (by unfold Obj.check; rw [hdc, hc]; rfl)
      rw [h1] at h2 ⊢
      exact defineAndSet_eq h2
    · rw [if_neg hc, if_neg hc]
      simp only at h
      have hc' : p.c = false := by simpa using hc
      rcases h with h | ⟨⟨x, hx⟩, hw, he⟩
      · exact absurd h hc
      · obtain ⟨w, e, c, b⟩ := p
        simp only at hx hw he hc'
        subst hx hw he hc'
        have h2 := defineOrThrow_old (d := { hasV := true, value := v }) hf rfl rfl
        exact defineAndSet_eq h2

theorem createVar_eq {g : Global} {n : Nat} {del : Bool} (h : Spec.CanVar (view g) n) :
    createVar g n del = some (.ok, g.with n (((view g).own (.str n)).getD ⟨true, true, del, .data .undef⟩)) := by
  unfold createVar
  rw [getOwn_eq]
  unfold Spec.CanVar at h
  simp only [view] at h ⊢
  cases hf : find (.str n) g.obj.named with
  | none =>
    rw [hf] at h
    have he : g.obj.ext = true := by simpa using h
    simp only [Option.map, he, if_true, Option.getD]
    exact defineAndSet_eq (defineOrThrow_new hf he)
  | some p =>
    simp only [Option.map, withVar, Option.getD, Global.with]
    congr 3
    unfold place
    rw [hf]
    simp [set_self hf]

/-! ### Views -/

theorem mem_addVar {m n : Nat} {l : List Nat} : m ∈ addVar n l ↔ m ∈ l ∨ m = n := by
  unfold addVar
  split
  · next h =>
    constructor
    · exact Or.inl
    · rintro (h1 | rfl)
      · exact h1
      · exact h
  · simp

theorem view_with (g : Global) (n : Nat) (p : P) : (view (g.with n p)).own = fun m => if m = .str n then some p else (view g).own m := by
  funext m
  exact find_place

/-! ### Tables -/

theorem mem_varTable {ds : List Decl} {acc : List Nat} {n : Nat} :
    n ∈ varTable ds acc ↔ n ∈ acc ∨ Spec.VarName ds n := by
  induction ds generalizing acc with
  | nil => simp [varTable, Spec.VarName, Spec.FuncName]
  | cons d ds ih =>
    have hm : ∀ k, n ∈ (if k ∈ acc then acc else acc ++ [k]) ↔ n ∈ acc ∨ n = k := by
      intro k
      have := @mem_addVar n k acc
      unfold addVar at this
      exact this
    cases d with
    | var k =>
      simp only [varTable, ih, hm, Spec.VarName, Spec.FuncName, List.mem_cons, Decl.var.injEq, reduceCtorEq, false_or]
      constructor
      · rintro ((h | h) | h | h)
        · exact .inl h
        · exact .inr (.inl (.inl h))
        · exact .inr (.inl (.inr h))
        · exact .inr (.inr h)
      · rintro (h | (h | h) | h)
        · exact .inl (.inl h)
        · exact .inl (.inr h)
        · exact .inr (.inl h)
        · exact .inr (.inr h)
    | func k f =>
      simp only [varTable, ih, hm, Spec.VarName, Spec.FuncName, List.mem_cons, Decl.func.injEq, reduceCtorEq, false_or]
      constructor
      · rintro ((h | h) | h | ⟨f', h⟩)
        · exact .inl h
        · exact .inr (.inr ⟨f, .inl ⟨h, rfl⟩⟩)
        · exact .inr (.inl h)
        · exact .inr (.inr ⟨f', .inr h⟩)
      · rintro (h | h | ⟨f', ⟨h, _⟩ | h⟩)
        · exact .inl (.inl h)
        · exact .inr (.inl h)
        · exact .inl (.inr h)
        · exact .inr (.inr ⟨f', h⟩)
    | lex k c => simp [varTable, ih, Spec.VarName, Spec.FuncName]

theorem nodup_varTable {ds : List Decl} {acc : List Nat} (h : acc.Nodup) : (varTable ds acc).Nodup := by
  induction ds generalizing acc with
  | nil => exact h
  | cons d ds ih =>
    have hm : ∀ k, (if k ∈ acc then acc else acc ++ [k]).Nodup := by
      intro k
      split
      · exact h
      · next hk =>
        rw [List.nodup_append]
        refine ⟨h, by simp, ?_⟩
        intro a ha b hb
        rw [List.mem_singleton.1 hb]
        rintro rfl
        exact hk ha
    cases d with
    | var k => exact ih (hm k)
    | func k f => exact ih (hm k)
    | lex k c => exact ih h

theorem mem_lexTable {ds : List Decl} {n : Nat} {c : Bool} : (n, c) ∈ lexTable ds ↔ .lex n c ∈ ds := by
  induction ds with
  | nil => simp [lexTable]
  | cons d ds ih => cases d <;> simp [lexTable, ih]

theorem nodup_lexTable {ds : List Decl} (h : ∀ a b c n x y, ds ≠ a ++ Decl.lex n x :: b ++ Decl.lex n y :: c) :
    ((lexTable ds).map (·.1)).Nodup := by
  induction ds with
  | nil => simp [lexTable]
  | cons d ds ih =>
    have h1 : ∀ a b c n x y, ds ≠ a ++ Decl.lex n x :: b ++ Decl.lex n y :: c := by
      rintro a b c n x y rfl
      exact h (d :: a) b c n x y rfl
    cases d with
    | var n => exact ih h1
    | func n f => exact ih h1
    | lex n x =>
      simp only [lexTable, List.map_cons, List.nodup_cons]
      refine ⟨?_, ih h1⟩
      intro hm
      obtain ⟨⟨m, y⟩, hy, rfl⟩ := List.mem_map.1 hm
      rw [mem_lexTable] at hy
      obtain ⟨b, c, rfl⟩ := List.append_of_mem hy
      exact h [] b c m x y rfl

theorem replace_none {n : Nat} {f : Val} {l : List (Nat × Val)} : replace n f l = none ↔ n ∉ l.map (·.1) := by
  induction l with
  | nil => simp [replace]
  | cons x l ih =>
    obtain ⟨m, g⟩ := x
    simp only [replace]
    by_cases h : m = n
    · subst h; simp
    · rw [if_neg h]
      simp only [Option.map_eq_none_iff, ih, List.map_cons, List.mem_cons, not_or]
      exact ⟨fun h1 => ⟨fun h2 => h h2.symm, h1⟩, fun h1 => h1.2⟩

theorem replace_some {n : Nat} {f : Val} {l l' : List (Nat × Val)} (h : replace n f l = some l') :
    l'.map (·.1) = l.map (·.1) ∧ (l.map (·.1)).Nodup → (∀ m g, (m, g) ∈ l' ↔ (m = n ∧ g = f) ∨ (m ≠ n ∧ (m, g) ∈ l)) := by
  induction l generalizing l' with
  | nil => cases h
  | cons x l ih =>
    obtain ⟨k, g0⟩ := x
    rintro ⟨h1, h2⟩ m g
    simp only [replace] at h
    simp only [List.map_cons, List.nodup_cons] at h2
    by_cases hk : k = n
    · subst hk
      rw [if_pos rfl] at h
      cases h
      simp only [List.mem_cons, Prod.mk.injEq]
      constructor
      · rintro (⟨rfl, rfl⟩ | h3)
        · exact .inl ⟨rfl, rfl⟩
        · refine .inr ⟨?_, .inr h3⟩
          rintro rfl
          exact h2.1 (List.mem_map.2 ⟨_, h3, rfl⟩)
      · rintro (⟨rfl, rfl⟩ | ⟨h3, ⟨h4, _⟩ | h4⟩)
        · exact .inl ⟨rfl, rfl⟩
        · exact absurd h4 h3
        · exact .inr h4
    · rw [if_neg hk] at h
      cases hr : replace n f l with
      | none => rw [hr] at h; cases h
      | some l1 =>
        rw [hr] at h
        cases h
        have h3 : l1.map (·.1) = l.map (·.1) := by simpa using h1
        have h4 := ih hr ⟨h3, h2.2⟩ m g
        simp only [List.mem_cons, Prod.mk.injEq, h4]
        constructor
        · rintro (⟨rfl, rfl⟩ | h | ⟨h, h'⟩)
          · exact .inr ⟨hk, .inl ⟨rfl, rfl⟩⟩
          · exact .inl h
          · exact .inr ⟨h, .inr h'⟩
        · rintro (h | ⟨h, ⟨rfl, rfl⟩ | h'⟩)
          · exact .inr (.inl h)
          · exact .inl ⟨rfl, rfl⟩
          · exact .inr (.inr ⟨h, h'⟩)

theorem replace_names {n : Nat} {f : Val} {l l' : List (Nat × Val)} (h : replace n f l = some l') : l'.map (·.1) = l.map (·.1) := by
  induction l generalizing l' with
  | nil => cases h
  | cons x l ih =>
    obtain ⟨k, g0⟩ := x
    simp only [replace] at h
    split at h
    · cases h; rfl
    · cases hr : replace n f l with
      | none => rw [hr] at h; cases h
      | some l1 => rw [hr] at h; cases h; simp [ih hr]

theorem nodup_step {n : Nat} {f : Val} {acc : List (Nat × Val)} (h : (acc.map (·.1)).Nodup) :
    (((replace n f acc).getD (acc ++ [(n, f)])).map (·.1)).Nodup := by
  cases hr : replace n f acc with
  | some l => simp only [Option.getD]; rw [replace_names hr]; exact h
  | none =>
    simp only [Option.getD, List.map_append, List.map_cons, List.map_nil]
    rw [List.nodup_append]
    refine ⟨h, by simp, ?_⟩
    intro a ha b hb
    rw [List.mem_singleton.1 hb]
    rintro rfl
    exact replace_none.1 hr ha

theorem nodup_funcTable {ds : List Decl} {acc : List (Nat × Val)} (h : (acc.map (·.1)).Nodup) :
    ((funcTable ds acc).map (·.1)).Nodup := by
  induction ds generalizing acc with
  | nil => exact h
  | cons d ds ih =>
    cases d with
    | var k => exact ih h
    | lex k c => exact ih h
    | func k f => exact ih (nodup_step h)

theorem func_cons {d : Decl} {ds : List Decl} {n : Nat} {f : Val} :
    Spec.Func (d :: ds) n f ↔ Spec.Func ds n f ∨ (d = .func n f ∧ ¬ Spec.FuncName ds n) := by
  constructor
  · rintro ⟨a, b, h, hb⟩
    cases a with
    | nil =>
      obtain ⟨rfl, rfl⟩ := List.cons.inj h
      exact .inr ⟨rfl, hb⟩
    | cons x a =>
      obtain ⟨rfl, rfl⟩ := List.cons.inj h
      exact .inl ⟨a, b, rfl, hb⟩
  · rintro (⟨a, b, rfl, hb⟩ | ⟨rfl, h⟩)
    · exact ⟨d :: a, b, rfl, hb⟩
    · exact ⟨[], ds, rfl, h⟩

theorem funcName_iff {ds : List Decl} {n : Nat} : Spec.FuncName ds n ↔ ∃ f, Spec.Func ds n f := by
  induction ds with
  | nil =>
    constructor
    · rintro ⟨f, h⟩; cases h
    · rintro ⟨f, a, b, h, _⟩; cases a <;> cases h
  | cons d ds ih =>
    constructor
    · rintro ⟨f, h⟩
      by_cases h1 : Spec.FuncName ds n
      · obtain ⟨f', h2⟩ := ih.1 h1
        exact ⟨f', func_cons.2 (.inl h2)⟩
      · rcases List.mem_cons.1 h with h | h
        · exact ⟨f, func_cons.2 (.inr ⟨h.symm, h1⟩)⟩
        · exact absurd ⟨f, h⟩ h1
    · rintro ⟨f, a, b, h, _⟩
      exact ⟨f, by rw [h]; simp⟩

theorem mem_funcTable {ds : List Decl} {acc : List (Nat × Val)} (ha : (acc.map (·.1)).Nodup) {n : Nat} {f : Val} :
    (n, f) ∈ funcTable ds acc ↔ Spec.Func ds n f ∨ (¬ Spec.FuncName ds n ∧ (n, f) ∈ acc) := by
  induction ds generalizing acc with
  | nil =>
    simp only [funcTable]
    constructor
    · intro h
      exact .inr ⟨(by rintro ⟨f, h⟩; cases h), h⟩
    · rintro (⟨a, b, h, _⟩ | ⟨_, h⟩)
      · cases a <;> cases h
      · exact h
  | cons d ds ih =>
    have hfn : ∀ d', (∀ f, d' ≠ Decl.func n f) → (Spec.FuncName (d' :: ds) n ↔ Spec.FuncName ds n) := by
      intro d' hd
      constructor
      · rintro ⟨f, h⟩
        rcases List.mem_cons.1 h with h | h
        · exact absurd h.symm (hd f)
        · exact ⟨f, h⟩
      · rintro ⟨f, h⟩; exact ⟨f, List.mem_cons_of_mem _ h⟩
    cases d with
    | var k =>
      simp only [funcTable]
      rw [ih ha, func_cons, hfn _ (by simp)]
      simp
    | lex k c =>
      simp only [funcTable]
      rw [ih ha, func_cons, hfn _ (by simp)]
      simp
    | func k g =>
      simp only [funcTable]
      rw [ih (nodup_step ha), func_cons]
      have hstep : (n, f) ∈ (replace k g acc).getD (acc ++ [(k, g)]) ↔ (n = k ∧ f = g) ∨ (n ≠ k ∧ (n, f) ∈ acc) := by
        cases hr : replace k g acc with
        | some l => exact replace_some hr ⟨replace_names hr, ha⟩ n f
        | none =>
          have h0 := replace_none.1 hr
          simp only [Option.getD, List.mem_append, List.mem_singleton, Prod.mk.injEq]
          constructor
          · rintro (h | h)
            · refine .inr ⟨?_, h⟩
              rintro rfl
              exact h0 (List.mem_map.2 ⟨_, h, rfl⟩)
            · exact .inl h
          · rintro (h | ⟨_, h⟩)
            · exact .inr h
            · exact .inl h
      rw [hstep]
      by_cases hk : n = k
      · subst hk
        have : Spec.FuncName (.func n g :: ds) n := ⟨g, by simp⟩
        simp only [this, not_true, false_and, or_false, true_and, ne_eq, Decl.func.injEq]
        constructor
        · rintro (h | ⟨h, rfl⟩)
          · exact .inl h
          · exact .inr ⟨rfl, h⟩
        · rintro (h | ⟨rfl, h⟩)
          · exact .inl h
          · exact .inr ⟨h, rfl⟩
      · rw [hfn _ (by intro f h; injection h with h _; exact hk h.symm)]
        simp only [hk, false_and, ne_eq, not_false_eq_true, true_and, false_or, Decl.func.injEq]
        constructor
        · rintro (h | h)
          · exact .inl (.inl h)
          · exact .inr h
        · rintro ((h | ⟨⟨h, _⟩, _⟩) | h)
          · exact .inl h
          · exact absurd h.symm hk
          · exact .inr h

/-! ### Loops -/

theorem each_check {α σ : Type} {f : α → σ → Option (Res × σ)} {p : α → Bool} {r : Res} (hr : r ≠ .ok) {g : σ} :
    ∀ {l : List α}, (∀ a ∈ l, f a g = some (if p a then r else .ok, g)) →
      each f l g = some (if l.any p then r else .ok, g)
  | [], _ => rfl
  | a :: l, h => by
    simp only [each]
    rw [h a (by simp)]
    cases hp : p a with
    | true =>
      simp only [if_true, List.any_cons, hp, Bool.true_or]
      cases r with
      | ok => exact absurd rfl hr
      | _ => rfl
    | false =>
      simp only [Bool.false_eq_true, if_false, List.any_cons, hp, Bool.false_or]
      exact each_check hr (fun a ha => h a (List.mem_cons_of_mem _ ha))

end Verif.GlobalDecl

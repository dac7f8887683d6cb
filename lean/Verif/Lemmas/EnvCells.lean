import Verif.Lemmas.EnvBase

/-! What any operation at all may do to a binding. -/

namespace Verif.Env

/-- The bindings afterwards: a binding keeps its attributes, stays initialised, keeps its value if
it is immutable and initialised, and is freed only if it is deletable. -/
def Kept (l l' : List (Option Cell)) : Prop :=
  ∀ (c : Nat) (x : Cell), l[c]? = some (some x) →
    (x.deletable = true ∧ l'[c]? = some none) ∨
    ∃ x', l'[c]? = some (some x') ∧ x'.deletable = x.deletable ∧ x'.immutable = x.immutable ∧
      x'.strict = x.strict ∧ (x.initialized = true → x'.initialized = true) ∧
      (x.initialized = true → x.immutable = true → x'.value = x.value)

theorem Kept.refl (l : List (Option Cell)) : Kept l l :=
  fun _ x hx => Or.inr ⟨x, hx, rfl, rfl, rfl, id, fun _ _ => rfl⟩

theorem Kept.of_eq {l l' : List (Option Cell)} (h : l' = l) : Kept l l' := by
  subst h; exact Kept.refl _

/-- Freed bindings stay freed. -/
def Freed (l l' : List (Option Cell)) : Prop := ∀ c : Nat, l[c]? = some none → l'[c]? = some none

theorem Kept.trans {a b c : List (Option Cell)} (h : Kept a b) (h' : Kept b c)
    (hf : Freed b c) : Kept a c := by
  intro i x hx
  rcases h i x hx with ⟨hd, h1⟩ | ⟨x1, h1, e1, e2, e3, e4, e5⟩
  · exact Or.inl ⟨hd, hf i h1⟩
  · rcases h' i x1 h1 with ⟨hd, h2⟩ | ⟨x2, h2, f1, f2, f3, f4, f5⟩
    · exact Or.inl ⟨by rw [← e1]; exact hd, h2⟩
    · exact Or.inr ⟨x2, h2, f1.trans e1, f2.trans e2, f3.trans e3, fun hi => f4 (e4 hi),
        fun hi hm => (f5 (e4 hi) (e2.trans hm)).trans (e5 hi hm)⟩

theorem bindOk {α β : Type} {m : Except Fault α} {f : α → Except Fault β} {b : β}
    (h : (m >>= f) = .ok b) : ∃ a, m = .ok a ∧ f a = .ok b := by
  cases m with
  | error e => simp [bind, Except.bind] at h
  | ok a => exact ⟨a, rfl, h⟩

/-- Both at once. -/
structure Fine (l l' : List (Option Cell)) : Prop where
  kept : Kept l l'
  freed : Freed l l'

theorem Fine.refl (l : List (Option Cell)) : Fine l l := ⟨Kept.refl l, fun _ h => h⟩

theorem Fine.of_eq {l l' : List (Option Cell)} (h : l' = l) : Fine l l' := by
  subst h; exact Fine.refl _

theorem Fine.trans {a b c : List (Option Cell)} (h : Fine a b) (h' : Fine b c) : Fine a c :=
  ⟨h.kept.trans h'.kept h'.freed, fun i hi => h'.freed i (h.freed i hi)⟩

theorem Fine.append (l m : List (Option Cell)) : Fine l (l ++ m) := by
  constructor
  · intro c x hx
    refine Or.inr ⟨x, ?_, rfl, rfl, rfl, id, fun _ _ => rfl⟩
    rw [List.getElem?_append_left (List.getElem?_eq_some_iff.mp hx).1]
    exact hx
  · intro c hx
    rw [List.getElem?_append_left (List.getElem?_eq_some_iff.mp hx).1]
    exact hx

theorem Fine.set {l : List (Option Cell)} {c : Nat} {x : Cell} {y : Option Cell}
    (hx : l[c]? = some (some x))
    (hy : (x.deletable = true ∧ y = none) ∨ ∃ x', y = some x' ∧ x'.deletable = x.deletable ∧
      x'.immutable = x.immutable ∧ x'.strict = x.strict ∧
      (x.initialized = true → x'.initialized = true) ∧
      (x.initialized = true → x.immutable = true → x'.value = x.value)) : Fine l (l.set c y) := by
  have hlt : c < l.length := (List.getElem?_eq_some_iff.mp hx).1
  constructor
  · intro i z hz
    rw [List.getElem?_set]
    by_cases hi : c = i
    · subst hi
      rw [if_pos rfl, if_pos hlt]
      rw [hx] at hz
      simp only [Option.some.injEq] at hz
      subst hz
      rcases hy with ⟨h1, h2⟩ | ⟨x', h1, h2⟩
      · exact Or.inl ⟨h1, by rw [h2]⟩
      · exact Or.inr ⟨x', by rw [h1], h2⟩
    · rw [if_neg hi]
      exact Or.inr ⟨z, hz, rfl, rfl, rfl, id, fun _ _ => rfl⟩
  · intro i hi
    rw [List.getElem?_set]
    by_cases hci : c = i
    · subst hci
      rw [hx] at hi
      simp at hi
    · rw [if_neg hci]; exact hi

theorem State.cell_of {s : State} {c : Nat} {x : Cell} (h : s.cell c = .ok x) :
    s.cells[c]? = some (some x) := by
  unfold State.cell at h
  split at h
  · rename_i y hy
    simp only [Except.ok.injEq] at h
    rw [hy, h]
  · simp at h
  · simp at h

theorem lookup_cells {s s' : State} {e b : Nat} {slot : Bool} {r : Option Nat}
    (h : lookup s e b slot = .ok (s', r)) : s'.cells = s.cells := by
  unfold lookup at h
  obtain ⟨env, _, h⟩ := bindOk h
  obtain ⟨bn, _, h⟩ := bindOk h
  split at h
  · split at h
    · simp only [Except.ok.injEq, Prod.mk.injEq] at h; rw [← h.1]
    · simp at h
  · split at h
    · simp only [Except.ok.injEq, Prod.mk.injEq] at h; rw [← h.1]
    · split at h
      · obtain ⟨x, _, h⟩ := bindOk h
        simp only [Except.ok.injEq, Prod.mk.injEq] at h; rw [← h.1]
      · simp only [Except.ok.injEq, Prod.mk.injEq] at h; rw [← h.1]

theorem declCreate_fine {s s' : State} {e b : Nat} {imm strict del : Bool}
    (h : declCreate s e b imm strict del = .ok s') : Fine s.cells s'.cells := by
  unfold declCreate at h
  obtain ⟨⟨s1, r⟩, h1, h⟩ := bindOk h
  have hc := lookup_cells h1
  cases r with
  | some _ => simp at h
  | none =>
    simp only at h
    unfold addBinding at h
    obtain ⟨env, _, h⟩ := bindOk h
    obtain ⟨bn, _, h⟩ := bindOk h
    simp only [Except.ok.injEq] at h
    rw [← h, ← hc]
    exact Fine.append _ _

theorem declInit_fine {s s' : State} {e b v : Nat} {o : Out}
    (h : declInit s e b v = .ok (s', o)) : Fine s.cells s'.cells := by
  unfold declInit at h
  obtain ⟨⟨s1, r⟩, h1, h⟩ := bindOk h
  have hc := lookup_cells h1
  cases r with
  | none => simp at h
  | some c =>
    simp only at h
    obtain ⟨x, hx, h⟩ := bindOk h
    have hx := State.cell_of hx
    split at h
    · simp at h
    · rename_i hi
      simp only [Except.ok.injEq, Prod.mk.injEq] at h
      rw [← h.1, ← hc]
      exact Fine.set hx (Or.inr ⟨_, rfl, rfl, rfl, rfl, fun _ => rfl, fun h' => absurd h' hi⟩)

theorem declSet_fine {s s' : State} {e b v : Nat} {strict : Bool} {o : Out}
    (h : declSet s e b v strict = .ok (s', o)) : Fine s.cells s'.cells := by
  unfold declSet at h
  obtain ⟨⟨s1, r⟩, h1, h⟩ := bindOk h
  have hc := lookup_cells h1
  cases r with
  | none =>
    simp only at h
    split at h
    · simp only [Except.ok.injEq, Prod.mk.injEq] at h
      rw [← h.1]; exact Fine.of_eq hc
    · obtain ⟨s2, h2, h⟩ := bindOk h
      rw [← hc]
      exact (declCreate_fine h2).trans (declInit_fine h)
  | some c =>
    simp only at h
    obtain ⟨x, hx, h⟩ := bindOk h
    have hx := State.cell_of hx
    split at h
    · simp only [Except.ok.injEq, Prod.mk.injEq] at h
      rw [← h.1]; exact Fine.of_eq hc
    · split at h
      · split at h
        all_goals
          simp only [Except.ok.injEq, Prod.mk.injEq] at h
          rw [← h.1]; exact Fine.of_eq hc
      · rename_i him
        simp only [Except.ok.injEq, Prod.mk.injEq] at h
        rw [← h.1, ← hc]
        exact Fine.set hx (Or.inr ⟨_, rfl, rfl, rfl, rfl, id, fun _ h' => absurd h' him⟩)

theorem declGet_fine {s s' : State} {e b : Nat} {o : Out}
    (h : declGet s e b = .ok (s', o)) : Fine s.cells s'.cells := by
  unfold declGet at h
  obtain ⟨⟨s1, r⟩, h1, h⟩ := bindOk h
  have hc := lookup_cells h1
  cases r with
  | none => simp at h
  | some c =>
    simp only at h
    obtain ⟨x, hx, h⟩ := bindOk h
    split at h
    all_goals
      simp only [Except.ok.injEq, Prod.mk.injEq] at h
      rw [← h.1]; exact Fine.of_eq hc

theorem declDelete_fine {s s' : State} {e b : Nat} {o : Out}
    (h : declDelete s e b = .ok (s', o)) : Fine s.cells s'.cells := by
  unfold declDelete at h
  obtain ⟨⟨s1, r⟩, h1, h⟩ := bindOk h
  have hc := lookup_cells h1
  cases r with
  | none => simp at h
  | some c =>
    simp only at h
    obtain ⟨x, hx, h⟩ := bindOk h
    have hx := State.cell_of hx
    obtain ⟨env, _, h⟩ := bindOk h
    obtain ⟨bn, _, h⟩ := bindOk h
    split at h
    · simp only [Except.ok.injEq, Prod.mk.injEq] at h
      rw [← h.1]; exact Fine.of_eq hc
    · rename_i hd
      simp only [Except.ok.injEq, Prod.mk.injEq] at h
      rw [← h.1, ← hc]
      exact Fine.set hx (Or.inl ⟨by simpa using hd, rfl⟩)

theorem declHas_fine {s s' : State} {e b : Nat} {r : Bool}
    (h : declHas s e b = .ok (s', r)) : Fine s.cells s'.cells := by
  unfold declHas at h
  obtain ⟨⟨s1, r1⟩, h1, h⟩ := bindOk h
  simp only [Except.ok.injEq, Prod.mk.injEq] at h
  rw [← h.1]
  exact Fine.of_eq (lookup_cells h1)

theorem objSet_fine {s s' : State} {e b v : Nat} {strict : Bool} {o : Out}
    (h : objSet s e b v strict = .ok (s', o)) : Fine s.cells s'.cells := by
  unfold objSet at h
  obtain ⟨env, _, h⟩ := bindOk h
  obtain ⟨bn, _, h⟩ := bindOk h
  split at h
  all_goals
    simp only [Except.ok.injEq, Prod.mk.injEq] at h
    rw [← h.1]; exact Fine.refl _

theorem objGet_fine {s s' : State} {e b : Nat} {strict : Bool} {o : Out}
    (h : objGet s e b strict = .ok (s', o)) : Fine s.cells s'.cells := by
  unfold objGet at h
  obtain ⟨env, _, h⟩ := bindOk h
  obtain ⟨bn, _, h⟩ := bindOk h
  split at h
  all_goals
    simp only [Except.ok.injEq, Prod.mk.injEq] at h
    rw [← h.1]; exact Fine.refl _

theorem objDelete_fine {s s' : State} {e b : Nat} {o : Out}
    (h : objDelete s e b = .ok (s', o)) : Fine s.cells s'.cells := by
  unfold objDelete at h
  obtain ⟨env, _, h⟩ := bindOk h
  obtain ⟨bn, _, h⟩ := bindOk h
  simp only [Except.ok.injEq, Prod.mk.injEq] at h
  rw [← h.1]; exact Fine.refl _

theorem envHas_fine {s s' : State} {e b : Nat} {r : Bool}
    (h : envHas s e b = .ok (s', r)) : Fine s.cells s'.cells := by
  unfold envHas at h
  obtain ⟨env, _, h⟩ := bindOk h
  split at h
  · obtain ⟨r1, _, h⟩ := bindOk h
    simp only [Except.ok.injEq, Prod.mk.injEq] at h
    rw [← h.1]; exact Fine.refl _
  · obtain ⟨⟨s1, r1⟩, h1, h⟩ := bindOk h
    have hf := declHas_fine h1
    simp only at h
    split at h
    · simp only [Except.ok.injEq, Prod.mk.injEq] at h
      rw [← h.1]; exact hf
    · obtain ⟨r2, _, h⟩ := bindOk h
      simp only [Except.ok.injEq, Prod.mk.injEq] at h
      rw [← h.1]; exact hf
  · exact declHas_fine h

theorem envCreate_fine {s s' : State} {e b : Nat} {imm strict del : Bool} {o : Out}
    (h : envCreate s e b imm strict del = .ok (s', o)) : Fine s.cells s'.cells := by
  unfold envCreate at h
  obtain ⟨env, _, h⟩ := bindOk h
  split at h
  · obtain ⟨bn, _, h⟩ := bindOk h
    split at h
    · simp at h
    · simp only [Except.ok.injEq, Prod.mk.injEq] at h
      rw [← h.1]; exact Fine.refl _
  · obtain ⟨⟨s1, r1⟩, h1, h⟩ := bindOk h
    have hf := declHas_fine h1
    simp only at h
    split at h
    · simp only [Except.ok.injEq, Prod.mk.injEq] at h
      rw [← h.1]; exact hf
    · obtain ⟨s2, h2, h⟩ := bindOk h
      simp only [Except.ok.injEq, Prod.mk.injEq] at h
      rw [← h.1]; exact hf.trans (declCreate_fine h2)
  · obtain ⟨s2, h2, h⟩ := bindOk h
    simp only [Except.ok.injEq, Prod.mk.injEq] at h
    rw [← h.1]; exact declCreate_fine h2

theorem envInit_fine {s s' : State} {e b v : Nat} {o : Out}
    (h : envInit s e b v = .ok (s', o)) : Fine s.cells s'.cells := by
  unfold envInit at h
  obtain ⟨env, _, h⟩ := bindOk h
  split at h
  · exact objSet_fine h
  · obtain ⟨⟨s1, r1⟩, h1, h⟩ := bindOk h
    have hf := declHas_fine h1
    simp only at h
    split at h
    · exact hf.trans (declInit_fine h)
    · exact hf.trans (objSet_fine h)
  · exact declInit_fine h

theorem envSet_fine {s s' : State} {e b v : Nat} {strict : Bool} {o : Out}
    (h : envSet s e b v strict = .ok (s', o)) : Fine s.cells s'.cells := by
  unfold envSet at h
  obtain ⟨env, _, h⟩ := bindOk h
  split at h
  · exact objSet_fine h
  · obtain ⟨⟨s1, r1⟩, h1, h⟩ := bindOk h
    have hf := declHas_fine h1
    simp only at h
    split at h
    · exact hf.trans (declSet_fine h)
    · exact hf.trans (objSet_fine h)
  · exact declSet_fine h

theorem envGet_fine {s s' : State} {e b : Nat} {strict : Bool} {o : Out}
    (h : envGet s e b strict = .ok (s', o)) : Fine s.cells s'.cells := by
  unfold envGet at h
  obtain ⟨env, _, h⟩ := bindOk h
  split at h
  · exact objGet_fine h
  · obtain ⟨⟨s1, r1⟩, h1, h⟩ := bindOk h
    have hf := declHas_fine h1
    simp only at h
    split at h
    · exact hf.trans (declGet_fine h)
    · exact hf.trans (objGet_fine h)
  · exact declGet_fine h

theorem envDelete_fine {s s' : State} {e b : Nat} {o : Out}
    (h : envDelete s e b = .ok (s', o)) : Fine s.cells s'.cells := by
  unfold envDelete at h
  obtain ⟨env, _, h⟩ := bindOk h
  split at h
  · exact objDelete_fine h
  · obtain ⟨⟨s1, r1⟩, h1, h⟩ := bindOk h
    have hf := declHas_fine h1
    simp only at h
    split at h
    · exact hf.trans (declDelete_fine h)
    · obtain ⟨r2, _, h⟩ := bindOk h
      split at h
      · exact hf.trans (objDelete_fine h)
      · simp only [Except.ok.injEq, Prod.mk.injEq] at h
        rw [← h.1]; exact hf
  · exact declDelete_fine h

theorem buildStack_cells {s s' : State} {e : Nat} (h : buildStack s e = .ok s') :
    s'.cells = s.cells := by
  unfold buildStack at h
  obtain ⟨env, _, h⟩ := bindOk h
  split at h
  · simp only [Except.ok.injEq] at h; rw [← h]
  · split at h
    · simp only [Except.ok.injEq] at h; rw [← h]
    · obtain ⟨l, _, h⟩ := bindOk h
      simp only [Except.ok.injEq] at h; rw [← h]

theorem walk_fine {n : Nat} {s s' : State} {b : Nat} {o : Option Nat} {nc : Bool}
    {r : Option Nat × Bool} (h : walk n s b o nc = .ok (s', r)) : Fine s.cells s'.cells := by
  induction n generalizing s o nc with
  | zero => unfold walk at h; simp at h
  | succ n ih =>
    cases o with
    | none =>
      unfold walk at h
      simp only [Except.ok.injEq, Prod.mk.injEq] at h
      rw [← h.1]; exact Fine.refl _
    | some e =>
      unfold walk at h
      obtain ⟨env, _, h⟩ := bindOk h
      obtain ⟨⟨s1, r1⟩, h1, h⟩ := bindOk h
      have hf := envHas_fine h1
      simp only at h
      split at h
      · simp only [Except.ok.injEq, Prod.mk.injEq] at h
        rw [← h.1]; exact hf
      · exact hf.trans (ih h)

theorem resolve_fine {s s' : State} {e b : Nat} {r : Option Nat}
    (h : resolve s e b = .ok (s', r)) : Fine s.cells s'.cells := by
  unfold resolve at h
  obtain ⟨env, _, h⟩ := bindOk h
  obtain ⟨bn, _, h⟩ := bindOk h
  split at h
  · split at h
    · simp only [Except.ok.injEq, Prod.mk.injEq] at h
      rw [← h.1]; exact Fine.refl _
    · obtain ⟨s1, h1, h⟩ := bindOk h
      have hc := buildStack_cells h1
      obtain ⟨env', _, h⟩ := bindOk h
      split at h
      · simp at h
      · split at h
        · simp only [Except.ok.injEq, Prod.mk.injEq] at h
          rw [← h.1]; exact Fine.of_eq hc
        · simp at h
  · obtain ⟨⟨s1, r1, nc⟩, h1, h⟩ := bindOk h
    have hf := walk_fine h1
    simp only at h
    split at h
    · simp only [Except.ok.injEq, Prod.mk.injEq] at h
      rw [← h.1]; exact hf
    · split at h
      · obtain ⟨fenv, _, h⟩ := bindOk h
        obtain ⟨bn', _, h⟩ := bindOk h
        obtain ⟨s2, h2, h⟩ := bindOk h
        have hc := buildStack_cells h2
        simp only [Except.ok.injEq, Prod.mk.injEq] at h
        rw [← h.1, hc]; exact hf
      · simp only [Except.ok.injEq, Prod.mk.injEq] at h
        rw [← h.1]; exact hf

theorem declareAll_fine {l : List (Nat × Bool × Bool)} {s s' : State} {e : Nat}
    (h : declareAll s e l = .ok s') : Fine s.cells s'.cells := by
  induction l generalizing s with
  | nil =>
    unfold declareAll at h
    simp only [Except.ok.injEq] at h
    rw [← h]; exact Fine.refl _
  | cons d l ih =>
    obtain ⟨b, imm, strict⟩ := d
    unfold declareAll at h
    obtain ⟨s1, h1, h⟩ := bindOk h
    exact (declCreate_fine h1).trans (ih h)

theorem step_fine {s s' : State} {op : Op} {o : Out} (hop : ∀ e l, op ≠ .tail e l)
    (h : step s op = .ok (s', o)) : Fine s.cells s'.cells := by
  cases op with
  | enter kind outer decls obj =>
    unfold step at h
    obtain ⟨s1, h1, h⟩ := bindOk h
    obtain ⟨s2, h2, h⟩ := bindOk h
    simp only [Except.ok.injEq, Prod.mk.injEq] at h
    rw [← h.1]
    have hc : s1.cells = s.cells := by
      unfold newEnv at h1
      simp only at h1
      obtain ⟨d, _, h1⟩ := bindOk h1
      simp only [bind, Except.bind, Except.ok.injEq] at h1
      rw [← h1]
    rw [← hc]
    exact declareAll_fine h2
  | declare e b imm strict => exact envCreate_fine h
  | resolve e b =>
    unfold step at h
    obtain ⟨⟨s1, r⟩, h1, h⟩ := bindOk h
    simp only [Except.ok.injEq, Prod.mk.injEq] at h
    rw [← h.1]
    show Fine s.cells s1.cells
    exact resolve_fine h1
  | direct e b =>
    unfold step at h
    simp only [Except.ok.injEq, Prod.mk.injEq] at h
    rw [← h.1]; exact Fine.refl _
  | init r v =>
    unfold step at h
    obtain ⟨x, _, h⟩ := bindOk h
    split at h
    · simp at h
    · exact envInit_fine h
  | get r strict =>
    unfold step at h
    obtain ⟨x, _, h⟩ := bindOk h
    split at h
    · simp only [Except.ok.injEq, Prod.mk.injEq] at h
      rw [← h.1]; exact Fine.refl _
    · exact envGet_fine h
  | set r v strict =>
    unfold step at h
    obtain ⟨x, _, h⟩ := bindOk h
    split at h
    · split at h
      · simp only [Except.ok.injEq, Prod.mk.injEq] at h
        rw [← h.1]; exact Fine.refl _
      · exact objSet_fine h
    · exact envSet_fine h
  | delete r strict =>
    unfold step at h
    obtain ⟨x, _, h⟩ := bindOk h
    split at h
    · simp only [Except.ok.injEq, Prod.mk.injEq] at h
      rw [← h.1]; exact Fine.refl _
    · exact envDelete_fine h
  | putProp e n v =>
    unfold step at h
    obtain ⟨x, _, h⟩ := bindOk h
    simp only [Except.ok.injEq, Prod.mk.injEq] at h
    rw [← h.1]; exact Fine.refl _
  | delProp e n =>
    unfold step at h
    obtain ⟨x, _, h⟩ := bindOk h
    simp only [Except.ok.injEq, Prod.mk.injEq] at h
    rw [← h.1]; exact Fine.refl _
  | evalVar e b =>
    unfold step at h
    obtain ⟨env, _, h⟩ := bindOk h
    split at h
    · obtain ⟨r, _, h⟩ := bindOk h
      split at h
      · simp only [Except.ok.injEq, Prod.mk.injEq] at h
        rw [← h.1]; exact Fine.refl _
      · exact objSet_fine h
    · obtain ⟨⟨s1, r⟩, h1, h⟩ := bindOk h
      have hf := envHas_fine h1
      simp only at h
      split at h
      · simp only [Except.ok.injEq, Prod.mk.injEq] at h
        rw [← h.1]; exact hf
      · obtain ⟨⟨s2, _⟩, h2, h⟩ := bindOk h
        obtain ⟨⟨s3, _⟩, h3, h⟩ := bindOk h
        obtain ⟨s4, h4, h⟩ := bindOk h
        simp only [Except.ok.injEq, Prod.mk.injEq] at h
        have hc : s4.cells = s3.cells := by
          unfold disableCache at h4
          obtain ⟨x, _, h4⟩ := bindOk h4
          simp only [Except.ok.injEq] at h4
          rw [← h4]
        rw [← h.1, hc]
        exact (hf.trans (envCreate_fine h2)).trans (envInit_fine h3)
  | evalFunc e b v =>
    unfold step at h
    obtain ⟨env, _, h⟩ := bindOk h
    split at h
    · exact objSet_fine h
    · obtain ⟨⟨s1, r⟩, h1, h⟩ := bindOk h
      have hf := envHas_fine h1
      simp only at h
      split at h
      · exact hf.trans (envSet_fine h)
      · obtain ⟨⟨s2, _⟩, h2, h⟩ := bindOk h
        exact (hf.trans (envCreate_fine h2)).trans (envInit_fine h)
  | tail e l => exact absurd rfl (hop e l)

theorem run_fine {ops : List Op} {s s' : State} {os : List Out}
    (hop : ∀ e l, Op.tail e l ∉ ops) (h : run s ops = .ok (s', os)) : Fine s.cells s'.cells := by
  induction ops generalizing s s' os with
  | nil =>
    unfold run at h
    simp only [Except.ok.injEq, Prod.mk.injEq] at h
    rw [← h.1]; exact Fine.refl _
  | cons op ops ih =>
    unfold run at h
    obtain ⟨⟨s1, o⟩, h1, h⟩ := bindOk h
    obtain ⟨⟨s2, l⟩, h2, h⟩ := bindOk h
    simp only [Except.ok.injEq, Prod.mk.injEq] at h
    rw [← h.1]
    exact (step_fine (fun e l he => hop e l (by rw [he]; exact List.mem_cons_self)) h1).trans
      (ih (fun e l hm => hop e l (List.mem_cons_of_mem _ hm)) h2)

end Verif.Env

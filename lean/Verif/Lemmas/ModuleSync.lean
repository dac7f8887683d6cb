import Verif.Lemmas.ModuleOnce
import Verif.Spec.Module
/-
Evaluation of modules without top level `await`: the depth first search.
-/
namespace Verif.Module

/-- Nothing of the module is in the trace. -/
def Silent (t : List Event) (x : Nat) : Prop :=
  .start x ∉ t ∧ .done x ∉ t ∧ ∀ e, .fail x e ∉ t

/-- The module has been evaluated without error. -/
def Good (B : Nat → Prop) (s : St) (x : Nat) : Prop := (s.mods x).status = .evaluated ∧ ¬ B x

/-- What holds at any time, also when an error is being thrown.  `B`: the modules abandoned after
an error; `σ`: the stack. -/
structure Base (G : Graph) (B : Nat → Prop) (s : St) (σ : List Nat) : Prop where
  order : ∀ x, (s.mods x).order = 0
  pending : ∀ x, (s.mods x).pending = 0
  parents : ∀ x, (s.mods x).parents = []
  running : ∀ x, (s.mods x).running = false
  sync : ∀ x, (s.mods x).status ≠ .evaluatingAsync
  nodup : σ.Nodup
  size : ∀ x, (s.mods x).status ≠ .linked → x < G.size
  linked : ∀ x, (s.mods x).status = .linked →
    (s.mods x).root = none ∧ (s.mods x).err = none ∧ ¬ B x ∧ Silent s.trace x
  stack : ∀ x, x ∈ σ ↔ (s.mods x).status = .evaluating
  fresh : ∀ x, x ∈ σ → (s.mods x).root = none ∧ (s.mods x).err = none ∧ ¬ B x
  bad : ∀ x, B x → (s.mods x).status = .evaluated ∧ (s.mods x).root = some x ∧
    (s.mods x).err ≠ none
  good : ∀ x, Good B s x → (s.mods x).err = none ∧ .done x ∈ s.trace ∧
    ∃ r, (s.mods x).root = some r ∧ (s.mods r).root = some r ∧ Good B s r ∧
      Reach G x r ∧ Reach G r x
  closed : ∀ x, Good B s x → ∀ d ∈ G.requests x, Good B s d
  ord : Ordered G s.trace
  errs : ∀ x e, (s.mods x).err = some e → ∃ y, Reach G x y ∧ .fail y e ∈ s.trace
  excl : ∀ x e, .done x ∈ s.trace → .fail x e ∉ s.trace
  started : ∀ x, .done x ∈ s.trace → .start x ∈ s.trace

/-- What holds during the search.  `V`: the requested modules already visited, for each module;
`π`: the modules whose evaluation is going on, the last one first; `i`: the next index. -/
structure Inv (G : Graph) (B : Nat → Prop) (V : Nat → List Nat) (s : St) (σ π : List Nat)
    (i : Nat) : Prop extends Base G B s σ where
  desc : σ.Pairwise (fun a b => (s.mods b).dfs < (s.mods a).dfs)
  below : ∀ x ∈ σ, (s.mods x).dfs < i
  ancLe : ∀ x ∈ σ, (s.mods x).anc ≤ (s.mods x).dfs
  anc : ∀ x ∈ σ, ∃ y ∈ σ, (s.mods y).dfs = (s.mods x).anc ∧ Reach G x y
  path : ∀ x ∈ π, x ∈ σ ∧ Silent s.trace x
  shut : ∀ x ∈ σ, x ∉ π → (s.mods x).anc < (s.mods x).dfs ∧ .done x ∈ s.trace ∧
    ∀ d ∈ G.requests x, d ∈ V x
  visited : ∀ x ∈ σ, ∀ d ∈ V x, Good B s d ∨ (d ∈ σ ∧ (s.mods x).anc ≤ (s.mods d).dfs)
  top : ∀ x ∈ σ, ∃ q, π.head? = some q ∧ Reach G x q

/-- The modules visited before are unchanged. -/
def Kept (s s' : St) : Prop := ∀ x, (s.mods x).status ≠ .linked → s'.mods x = s.mods x

theorem Kept.rfl {s : St} : Kept s s := fun _ _ => Eq.refl _

theorem Kept.trans {a b c : St} (h : Kept a b) (k : Kept b c) : Kept a c := fun x hx => by
  have h1 := h x hx
  rw [← h1]
  exact k x (by rw [h1]; exact hx)

/-! ## Fuel -/

/-- How many modules are still to be visited. -/
def left (G : Graph) (s : St) : Nat := (List.range G.size).countP (fun x => (s.mods x).status = .linked)

theorem countP_lt {p q : Nat → Bool} {m : Nat} : ∀ {l : List Nat}, m ∈ l → (∀ x, q x = true → p x = true) →
    p m = true → q m = false → l.countP q < l.countP p
  | [], h, _, _, _ => by simp at h
  | a :: l, h, hpq, hp, hq => by
    simp only [List.countP_cons]
    have hle : l.countP q ≤ l.countP p := List.countP_mono_left fun x _ => hpq x
    rcases List.mem_cons.1 h with h | h
    · subst h; simp [hp, hq]; omega
    · have := countP_lt h hpq hp hq
      cases hqa : q a
      · simp; omega
      · simp [hpq a hqa]; omega

theorem left_le {G : Graph} {s s' : St}
    (h : ∀ x, (s.mods x).status ≠ .linked → (s'.mods x).status ≠ .linked) :
    left G s' ≤ left G s := by
  refine List.countP_mono_left fun x _ hx => ?_
  simp only [decide_eq_true_eq] at hx ⊢
  apply Decidable.byContradiction; intro k
  exact h x k hx

theorem Kept.seen {s s' : St} (h : Kept s s') (x : Nat) (hx : (s.mods x).status ≠ .linked) :
    (s'.mods x).status ≠ .linked := by rw [h x hx]; exact hx

theorem left_lt {G : Graph} {s : St} {m : Nat} {v : Mod} (hm : m < G.size)
    (hl : (s.mods m).status = .linked) (hv : v.status ≠ .linked) :
    left G (set s m v) < left G s := by
  refine countP_lt (m := m) (by simpa using hm) (fun x hx => ?_) (by simp [hl]) (by simp [hv])
  have hx := of_decide_eq_true hx
  simp only [decide_eq_true_eq, set_mods] at hx ⊢
  by_cases h : x = m
  · rw [if_pos h] at hx; exact absurd hx hv
  · rw [if_neg h] at hx; exact hx

/-! ## Beginning to evaluate a module -/

theorem Inv.push {G : Graph} {B : Nat → Prop} {V : Nat → List Nat} {s : St} {σ π : List Nat}
    {i m : Nat} (I : Inv G B V s σ π i) (hm : m < G.size) (hl : (s.mods m).status = .linked)
    (hq : ∀ q, π.head? = some q → m ∈ G.requests q) :
    Inv G B (fun x => if x = m then [] else V x)
      (set s m { s.mods m with status := .evaluating, dfs := i, anc := i })
      (m :: σ) (m :: π) (i + 1) := by
  obtain ⟨hr, he, hB, hsil⟩ := I.linked m hl
  have hmσ : m ∉ σ := fun h => by have := (I.stack m).1 h; rw [hl] at this; cases this
  have gd : ∀ x, Good B (set s m { s.mods m with status := .evaluating, dfs := i, anc := i }) x ↔
      Good B s x := by
    intro x
    unfold Good
    by_cases hx : x = m
    · subst hx; simp [hl]
    · simp [hx]
  have ne : ∀ {x}, x ∈ σ → x ≠ m := fun h k => hmσ (k ▸ h)
  constructor
  · -- Base
    constructor
    · intro x; by_cases hx : x = m <;> simp [hx, I.order]
    · intro x; by_cases hx : x = m <;> simp [hx, I.pending]
    · intro x; by_cases hx : x = m <;> simp [hx, I.parents]
    · intro x; by_cases hx : x = m <;> simp [hx, I.running]
    · intro x; by_cases hx : x = m <;> simp [hx, I.sync]
    · exact List.nodup_cons.2 ⟨hmσ, I.nodup⟩
    · intro x; by_cases hx : x = m
      · subst hx; simp [hm]
      · simpa [hx] using I.size x
    · intro x; by_cases hx : x = m
      · subst hx; simp
      · simpa [hx] using I.linked x
    · intro x; by_cases hx : x = m
      · subst hx; simp
      · simpa [hx] using I.stack x
    · intro x hx'
      by_cases hx : x = m
      · subst hx; simp [hr, he, hB]
      · simp only [List.mem_cons, hx, false_or] at hx'
        simpa [hx] using I.fresh x hx'
    · intro x hx'
      have hx : x ≠ m := fun k => hB (k ▸ hx')
      simpa [hx] using I.bad x hx'
    · intro x hx'
      rw [gd] at hx'
      have hx : x ≠ m := by rintro rfl; have := hx'.1; rw [hl] at this; cases this
      obtain ⟨h1, h2, r, h3, h4, h5, h6⟩ := I.good x hx'
      have hrm : r ≠ m := by rintro rfl; have := h5.1; rw [hl] at this; cases this
      refine ⟨by simpa [hx] using h1, h2, r, by simpa [hx] using h3, by simpa [hrm] using h4,
        (gd r).2 h5, h6⟩
    · intro x hx' d hd
      exact (gd d).2 (I.closed x ((gd x).1 hx') d hd)
    · exact I.ord
    · intro x e; by_cases hx : x = m
      · subst hx; simp [he]
      · simpa [hx] using I.errs x e
    · exact I.excl
    · exact I.started
  · refine List.pairwise_cons.2 ⟨fun x hx => ?_, I.desc.imp_of_mem fun ha hb h => ?_⟩
    · simpa [ne hx] using I.below x hx
    · simpa [ne ha, ne hb] using h
  · intro x hx'
    by_cases hx : x = m
    · subst hx; simp
    · simp only [List.mem_cons, hx, false_or] at hx'
      have := I.below x hx'
      simp [hx]; omega
  · intro x hx'
    by_cases hx : x = m
    · subst hx; simp
    · simp only [List.mem_cons, hx, false_or] at hx'
      simpa [hx] using I.ancLe x hx'
  · intro x hx'
    by_cases hx : x = m
    · subst hx; exact ⟨x, by simp, by simp, .refl x⟩
    · simp only [List.mem_cons, hx, false_or] at hx'
      obtain ⟨y, hy, h1, h2⟩ := I.anc x hx'
      exact ⟨y, by simp [hy], by simpa [hx, ne hy] using h1, h2⟩
  · intro x hx'
    by_cases hx : x = m
    · subst hx; exact ⟨by simp, hsil⟩
    · simp only [List.mem_cons, hx, false_or] at hx'
      exact ⟨by simp [(I.path x hx').1], (I.path x hx').2⟩
  · intro x hx' hn
    simp only [List.mem_cons, not_or] at hn
    simp only [List.mem_cons, hn.1, false_or] at hx'
    have := I.shut x hx' hn.2
    simpa [hn.1] using this
  · intro x hx' d hd
    by_cases hx : x = m
    · subst hx; simp at hd
    · simp only [List.mem_cons, hx, false_or] at hx'
      simp only [hx, if_false] at hd
      rcases I.visited x hx' d hd with h | ⟨h1, h2⟩
      · exact Or.inl ((gd d).2 h)
      · exact Or.inr ⟨by simp [h1], by simpa [hx, ne h1] using h2⟩
  · intro x hx'
    refine ⟨m, rfl, ?_⟩
    by_cases hx : x = m
    · subst hx; exact .refl x
    · simp only [List.mem_cons, hx, false_or] at hx'
      obtain ⟨q, h1, h2⟩ := I.top x hx'
      exact h2.trans (.single (hq q h1))

/-! ## After the evaluation of a requested module -/

theorem wait_none {s : St} {m t : Nat} (h : (s.mods t).order = 0) : visit.wait s m t = s := by
  unfold visit.wait; rw [if_neg (by simp [h])]

theorem set_set_order {s : St} {m : Nat} {a : Nat} (h : ∀ x, (s.mods x).order = 0) (x : Nat) :
    ((set s m { s.mods m with anc := a }).mods x).order = 0 := by
  by_cases hx : x = m <;> simp [hx, h]

/-- The request `d` of the module at the top of the path has been evaluated. -/
theorem Inv.visitOk {G : Graph} {B : Nat → Prop} {V : Nat → List Nat} {s : St} {σ π : List Nat}
    {i m d : Nat} (I : Inv G B V s σ (m :: π) i) (hd : d ∈ G.requests m)
    (h : d ∈ σ ∨ Good B s d) :
    ∃ s', visit s m d = .ok (s', none) ∧ s'.trace = s.trace ∧ (∀ x, x ≠ m → s'.mods x = s.mods x) ∧
      (s'.mods m).anc ≤ (s.mods m).anc ∧ (s'.mods m).dfs = (s.mods m).dfs ∧
      (s'.mods m).status = (s.mods m).status ∧ (s'.mods m).cap = (s.mods m).cap ∧
      (d ∈ σ → (s'.mods m).anc ≤ (s.mods d).anc) ∧
      Inv G B (fun x => if x = m then d :: V m else V x) s' σ (m :: π) i := by
  have hmσ : m ∈ σ := (I.path m (by simp)).1
  have hme := (I.stack m).1 hmσ
  by_cases hdσ : d ∈ σ
  · -- on the stack
    have hde := (I.stack d).1 hdσ
    let s' := set s m { s.mods m with anc := min (s.mods m).anc (s.mods d).anc }
    have hs' : visit s m d = .ok (s', none) := by
      unfold Module.visit
      rw [if_pos hde]
      simp only
      rw [wait_none (set_set_order I.order d)]
      rfl
    have gd : ∀ x, Good B s' x ↔ Good B s x := by
      intro x; unfold Good
      by_cases hx : x = m
      · subst hx; simp [s']
      · simp [s', hx]
    have hdfs : ∀ x, (s'.mods x).dfs = (s.mods x).dfs := by
      intro x; by_cases hx : x = m
      · subst hx; simp [s']
      · simp [s', hx]
    have hanc : (s'.mods m).anc = min (s.mods m).anc (s.mods d).anc := by simp [s']
    have hanc' : ∀ x, x ≠ m → (s'.mods x).anc = (s.mods x).anc := by intro x hx; simp [s', hx]
    have hancle : ∀ x, (s'.mods x).anc ≤ (s.mods x).anc := by
      intro x; by_cases hx : x = m
      · subst hx; rw [hanc]; omega
      · rw [hanc' x hx]; exact Nat.le_refl _
    refine ⟨s', hs', rfl, fun x hx => by simp [s', hx], hancle m, hdfs m, by simp [s'], by simp [s'],
      fun _ => by rw [hanc]; omega, ?_⟩
    constructor
    · constructor
      · intro x; by_cases hx : x = m <;> simp [s', hx, I.order]
      · intro x; by_cases hx : x = m <;> simp [s', hx, I.pending]
      · intro x; by_cases hx : x = m <;> simp [s', hx, I.parents]
      · intro x; by_cases hx : x = m <;> simp [s', hx, I.running]
      · intro x; by_cases hx : x = m <;> simp [s', hx, I.sync]
      · exact I.nodup
      · intro x; by_cases hx : x = m
        · subst hx; simpa [s'] using I.size x
        · simpa [s', hx] using I.size x
      · intro x; by_cases hx : x = m
        · subst hx; simpa [s'] using I.linked x
        · simpa [s', hx] using I.linked x
      · intro x; by_cases hx : x = m
        · subst hx; simpa [s'] using I.stack x
        · simpa [s', hx] using I.stack x
      · intro x; by_cases hx : x = m
        · subst hx; simpa [s'] using I.fresh x
        · simpa [s', hx] using I.fresh x
      · intro x; by_cases hx : x = m
        · subst hx; simpa [s'] using I.bad x
        · simpa [s', hx] using I.bad x
      · intro x hx'
        have hg := (gd x).1 hx'
        obtain ⟨h1, h2, r, h3, h4, h5, h6⟩ := I.good x hg
        have nm : ∀ {y}, Good B s y → y ≠ m := by
          rintro y hy rfl; have := hy.1; rw [hme] at this; cases this
        refine ⟨by simpa [s', nm hg] using h1, h2, r, by simpa [s', nm hg] using h3,
          by simpa [s', nm h5] using h4, (gd r).2 h5, h6⟩
      · intro x hx' d hd
        exact (gd d).2 (I.closed x ((gd x).1 hx') d hd)
      · exact I.ord
      · intro x e; by_cases hx : x = m
        · subst hx; simpa [s'] using I.errs x e
        · simpa [s', hx] using I.errs x e
      · exact I.excl
      · exact I.started
    · refine I.desc.imp fun h => ?_
      rw [hdfs, hdfs]; exact h
    · intro x hx; rw [hdfs]; exact I.below x hx
    · intro x hx; rw [hdfs]; exact Nat.le_trans (hancle x) (I.ancLe x hx)
    · intro x hx
      by_cases hxm : x = m
      · subst hxm
        rw [hanc]
        rcases Nat.le_total (s.mods x).anc (s.mods d).anc with h | h
        · obtain ⟨y, hy, h1, h2⟩ := I.anc x hx
          exact ⟨y, hy, by rw [hdfs]; omega, h2⟩
        · obtain ⟨y, hy, h1, h2⟩ := I.anc d hdσ
          exact ⟨y, hy, by rw [hdfs]; omega, .step hd h2⟩
      · obtain ⟨y, hy, h1, h2⟩ := I.anc x hx
        exact ⟨y, hy, by rw [hdfs, hanc' x hxm]; exact h1, h2⟩
    · exact I.path
    · intro x hx hn
      have hxm : x ≠ m := by rintro rfl; simp at hn
      obtain ⟨h1, h2, h3⟩ := I.shut x hx hn
      refine ⟨by rw [hdfs, hanc' x hxm]; exact h1, h2, ?_⟩
      simp only [hxm, if_false]; exact h3
    · intro x hx c hc
      by_cases hxm : x = m
      · subst hxm
        simp only [if_true] at hc
        rcases List.mem_cons.1 hc with hc | hc
        · subst hc
          refine Or.inr ⟨hdσ, ?_⟩
          rw [hdfs, hanc]
          have := I.ancLe c hdσ
          omega
        · rcases I.visited x hx c hc with h | ⟨h1, h2⟩
          · exact Or.inl ((gd c).2 h)
          · exact Or.inr ⟨h1, by rw [hdfs]; exact Nat.le_trans (hancle x) h2⟩
      · simp only [hxm, if_false] at hc
        rcases I.visited x hx c hc with h | ⟨h1, h2⟩
        · exact Or.inl ((gd c).2 h)
        · exact Or.inr ⟨h1, by rw [hdfs]; exact Nat.le_trans (hancle x) h2⟩
    · exact I.top
  · -- already evaluated
    have hg : Good B s d := h.resolve_left hdσ
    obtain ⟨h1, h2, r, h3, h4, h5, h6⟩ := I.good d hg
    have hs' : visit s m d = .ok (s, none) := by
      unfold Module.visit
      rw [if_neg (by rw [hg.1]; simp), if_neg (by rw [hg.1]; simp), h3]
      simp only
      have he := (I.good r h5).1
      rw [he]
      simp only [h5.1, check, bind, Except.bind]
      rw [wait_none (I.order r)]
      rfl
    refine ⟨s, hs', rfl, fun _ _ => rfl, Nat.le_refl _, rfl, rfl, rfl, fun k => absurd k hdσ, ?_⟩
    refine { I with shut := ?_, visited := ?_ }
    · intro x hx hn
      have hxm : x ≠ m := by rintro rfl; simp at hn
      simpa only [hxm, if_false] using I.shut x hx hn
    · intro x hx c hc
      by_cases hxm : x = m
      · subst hxm
        simp only [if_true] at hc
        rcases List.mem_cons.1 hc with hc | hc
        · subst hc; exact Or.inl hg
        · exact I.visited x hx c hc
      · simp only [hxm, if_false] at hc
        exact I.visited x hx c hc

/-! ## The body -/

theorem Ordered.append {G : Graph} {t : List Event} {m : Nat} {e : Event} (h : Ordered G t)
    (hd : ∀ d ∈ G.requests m, .done d ∈ t ∨ Reach G d m) (he : ∀ x, e ≠ .start x) :
    Ordered G (t ++ [.start m, e]) := by
  intro pre post x hx d hx'
  rcases List.append_eq_append_iff.1 hx with ⟨l, h1, h2⟩ | ⟨l, h1, h2⟩
  · cases l with
    | nil =>
      simp only [List.nil_append, List.cons.injEq, Event.start.injEq] at h2
      obtain ⟨h2, -⟩ := h2
      subst h2
      rcases hd d hx' with h | h
      · exact Or.inl (by rw [h1]; simp [h])
      · exact Or.inr h
    | cons a l =>
      cases l with
      | nil =>
        simp only [List.cons_append, List.nil_append, List.cons.injEq] at h2
        exact absurd h2.2.1 (he x)
      | cons b l =>
        have := congrArg List.length h2
        simp at this
  · cases l with
    | nil =>
      simp only [List.nil_append, List.cons.injEq, Event.start.injEq] at h2
      obtain ⟨h2, -⟩ := h2
      subst h2
      rcases hd d hx' with h | h
      · exact Or.inl (by simpa [h1] using h)
      · exact Or.inr h
    | cons a l =>
      simp only [List.cons_append, List.cons.injEq] at h2
      obtain ⟨h2, -⟩ := h2
      subst h2
      exact h pre l x h1 d hx'

theorem Silent.append {t : List Event} {m x : Nat} {e : Event} (h : Silent t x) (hx : x ≠ m)
    (he : e = .done m ∨ ∃ v, e = .fail m v) : Silent (t ++ [.start m, e]) x := by
  obtain ⟨h1, h2, h3⟩ := h
  rcases he with he | ⟨v, he⟩ <;> subst he <;> refine ⟨?_, ?_, fun w => ?_⟩ <;>
    simp [h1, h2, h3, hx]

/-- The trace of a body is added. -/
def traced (s : St) (m : Nat) (e : Event) : St := { s with trace := s.trace ++ [.start m, e] }

theorem executeSync_eq (G : Graph) (s : St) (m : Nat) :
    executeSync G s m = (traced s m (.done m), none) ∨
      ∃ v, executeSync G s m = (traced s m (.fail m v), some v) := by
  unfold executeSync
  simp only
  split
  · exact Or.inl (by simp [traced, emit])
  · next v _ => exact Or.inr ⟨v, by simp [traced, emit]⟩

/-- The body of the module at the top of the path is run. -/
theorem Inv.body {G : Graph} {B : Nat → Prop} {V : Nat → List Nat} {s : St} {σ π : List Nat}
    {i m : Nat} {e : Event} (I : Inv G B V s σ (m :: π) i) (hV : ∀ d ∈ G.requests m, d ∈ V m)
    (he : e = .done m ∨ ∃ v, e = .fail m v) : Base G B (traced s m e) σ := by
  obtain ⟨hmσ, hsil⟩ := I.path m (by simp)
  have hme := (I.stack m).1 hmσ
  have mem : ∀ {a : Event}, a ∈ s.trace → a ∈ (traced s m e).trace := fun h => by
    simp [traced, h]
  refine { I.toBase with linked := ?_, good := ?_, ord := ?_, errs := ?_, excl := ?_, started := ?_ }
  · intro x hx
    have hxm : x ≠ m := by rintro rfl; simp only [traced] at hx; rw [hme] at hx; cases hx
    obtain ⟨h1, h2, h3, h4⟩ := I.linked x hx
    exact ⟨h1, h2, h3, h4.append hxm he⟩
  · intro x hx
    obtain ⟨h1, h2, h3⟩ := I.good x hx
    exact ⟨h1, mem h2, h3⟩
  · refine I.ord.append (fun d hd => ?_) (fun x => by rcases he with he | ⟨v, he⟩ <;> subst he <;> simp)
    rcases I.visited m hmσ d (hV d hd) with h | ⟨h, -⟩
    · exact Or.inl (I.good d h).2.1
    · obtain ⟨q, h1, h2⟩ := I.top d h
      simp only [List.head?_cons, Option.some.injEq] at h1
      subst h1
      exact Or.inr h2
  · intro x v hx
    obtain ⟨y, h1, h2⟩ := I.errs x v hx
    exact ⟨y, h1, mem h2⟩
  · intro x v hx hf
    by_cases hxm : x = m
    · subst hxm
      simp only [traced, List.mem_append, hsil.2.1, hsil.2.2, false_or, List.mem_cons,
        List.not_mem_nil, or_false, reduceCtorEq] at hx hf
      rw [← hx] at hf; cases hf
    · have h1 : .done x ∈ s.trace := by
        rcases he with he | ⟨w, he⟩ <;> subst he <;> simpa [traced, hxm] using hx
      have h2 : .fail x v ∈ s.trace := by
        rcases he with he | ⟨w, he⟩ <;> subst he <;> simpa [traced, hxm] using hf
      exact I.excl x v h1 h2
  · intro x hx
    by_cases hxm : x = m
    · subst hxm; simp [traced]
    · have h1 : .done x ∈ s.trace := by
        rcases he with he | ⟨w, he⟩ <;> subst he <;> simpa [traced, hxm] using hx
      exact mem (I.started x h1)

theorem execute_sync {G : Graph} (hG : G.Sync) {s : St} {m : Nat}
    (hp : (s.mods m).pending = 0) : execute G s m = .ok (executeSync G s m) := by
  unfold execute
  rw [if_neg (by simp [hp, hG m])]
  rfl

/-! ## The end of a cycle -/

theorem popCycle_eq {m : Nat} : ∀ (ν σ : List Nat) (s : St), m ∉ ν →
    (∀ x, (s.mods x).order = 0) →
    ∃ s', popCycle m (ν ++ m :: σ) s = (s', σ) ∧ s'.trace = s.trace ∧
      ∀ x, s'.mods x = if x ∈ ν ∨ x = m then
        { s.mods x with root := some m, status := .evaluated } else s.mods x
  | [], σ, s, _, ho => by
    have h : (if (s.mods m).order ≠ 0 then Status.evaluatingAsync else .evaluated) = .evaluated :=
      if_neg (by simp [ho m])
    refine ⟨set s m { s.mods m with root := some m, status := .evaluated },
      by simp only [List.nil_append, popCycle, h, if_true], rfl, fun x => ?_⟩
    by_cases hx : x = m
    · subst hx; simp
    · simp [hx]
  | a :: ν, σ, s, hm, ho => by
    simp only [List.mem_cons, not_or] at hm
    have hma : ¬ a = m := fun h => hm.1 h.symm
    let s1 := set s a { s.mods a with root := some m, status := .evaluated }
    have ho1 : ∀ x, (s1.mods x).order = 0 := by
      intro x; by_cases hx : x = a <;> simp [s1, hx, ho]
    obtain ⟨s', h1, h2, h3⟩ := popCycle_eq ν σ s1 hm.2 ho1
    refine ⟨s', ?_, h2, fun x => ?_⟩
    · have h : (if (s.mods a).order ≠ 0 then Status.evaluatingAsync else .evaluated) = .evaluated :=
        if_neg (by simp [ho a])
      simp only [List.cons_append, popCycle, h, hma, if_false]
      exact h1
    · rw [h3]
      by_cases hx : x = a
      · subst hx; by_cases hxν : x ∈ ν <;> simp [s1, hxν]
      · simp [s1, hx]

/-- What is known when all requested modules of `m` have been visited. -/
structure Visited (G : Graph) (B : Nat → Prop) (V : Nat → List Nat) (s : St) (ν σ π : List Nat)
    (i m : Nat) : Prop where
  inv : Inv G B V s (ν ++ m :: σ) (m :: π) i
  low : ∀ x ∈ π, x ∈ σ
  back : ∀ x ∈ σ, ∃ q, π.head? = some q ∧ Reach G x q
  sub : ∀ x ∈ ν, Reach G m x ∧ (s.mods m).anc ≤ (s.mods x).anc

theorem Visited.facts {G : Graph} {B : Nat → Prop} {V : Nat → List Nat} {s : St} {ν σ π : List Nat}
    {i m : Nat} (I : Visited G B V s ν σ π i m) :
    m ∉ ν ∧ m ∉ σ ∧ m ∉ π ∧ (∀ x ∈ ν, x ∉ σ ∧ x ∉ m :: π ∧ (s.mods m).dfs < (s.mods x).dfs) ∧
      (∀ x ∈ σ, (s.mods x).dfs < (s.mods m).dfs) := by
  obtain ⟨h1, h2, h3⟩ := List.pairwise_append.1 I.inv.desc
  obtain ⟨h4, h5⟩ := List.pairwise_cons.1 h2
  have hν : ∀ x ∈ ν, (s.mods m).dfs < (s.mods x).dfs := fun x hx => h3 x hx m (by simp)
  have hσ : ∀ x ∈ σ, (s.mods x).dfs < (s.mods m).dfs := fun x hx => h4 x hx
  have mν : m ∉ ν := fun h => by have := hν m h; omega
  have mσ : m ∉ σ := fun h => by have := hσ m h; omega
  have dis : ∀ x ∈ ν, x ∉ σ := fun x hx h => by have a := hν x hx; have b := hσ x h; omega
  refine ⟨mν, mσ, fun h => mσ (I.low m h), fun x hx => ⟨dis x hx, ?_, hν x hx⟩, hσ⟩
  intro h
  rcases List.mem_cons.1 h with h | h
  · exact mν (h ▸ hx)
  · exact dis x hx (I.low x h)

/-- The module stays on the stack. -/
theorem Visited.stay {G : Graph} {B : Nat → Prop} {V : Nat → List Nat} {s : St} {ν σ π : List Nat}
    {i m : Nat} (I : Visited G B V s ν σ π i m) (hV : ∀ d ∈ G.requests m, d ∈ V m)
    (hne : (s.mods m).dfs ≠ (s.mods m).anc) :
    Inv G B V (traced s m (.done m)) (ν ++ m :: σ) π i := by
  obtain ⟨mν, mσ, mπ, hν, hσ⟩ := I.facts
  have J := I.inv
  have hmσ : m ∈ ν ++ m :: σ := by simp
  have hlt : (s.mods m).anc < (s.mods m).dfs := by have := J.ancLe m hmσ; omega
  refine { J.body hV (Or.inl rfl) with desc := J.desc, below := J.below, ancLe := J.ancLe, anc := J.anc, path := ?_, shut := ?_, visited := J.visited, top := ?_ }
  · intro x hx
    obtain ⟨h1, h2⟩ := J.path x (by simp [hx])
    exact ⟨h1, h2.append (by rintro rfl; exact mπ hx) (Or.inl rfl)⟩
  · intro x hx hn
    by_cases hxm : x = m
    · subst hxm
      exact ⟨hlt, by simp [traced], hV⟩
    · obtain ⟨h1, h2, h3⟩ := J.shut x hx (by simp [hxm, hn])
      exact ⟨h1, by simp [traced, h2], h3⟩
  · intro x hx
    obtain ⟨q, h1, h2⟩ := J.top x hx
    simp only [List.head?_cons, Option.some.injEq] at h1
    subst h1
    obtain ⟨y, hy, h3, h4⟩ := J.anc m hmσ
    have hyσ : y ∈ σ := by
      rcases List.mem_append.1 hy with hy | hy
      · have := (hν y hy).2.2; omega
      · rcases List.mem_cons.1 hy with hy | hy
        · subst hy; omega
        · exact hy
    obtain ⟨q, h5, h6⟩ := I.back y hyσ
    exact ⟨q, h5, h2.trans (h4.trans h6)⟩

/-- The module is the first one of a cycle: the cycle is taken from the stack. -/
theorem Visited.pop {G : Graph} {B : Nat → Prop} {V : Nat → List Nat} {s s' : St}
    {ν σ π : List Nat} {i m : Nat} (I : Visited G B V s ν σ π i m)
    (hV : ∀ d ∈ G.requests m, d ∈ V m) (heq : (s.mods m).dfs = (s.mods m).anc)
    (ht : s'.trace = (traced s m (.done m)).trace)
    (hmods : ∀ x, s'.mods x = if x ∈ ν ∨ x = m then
        { s.mods x with root := some m, status := .evaluated } else s.mods x) :
    Inv G B V s' σ π i ∧ Good B s' m ∧ (s'.mods m).root = some m := by
  obtain ⟨mν, mσ, mπ, hν, hσ⟩ := I.facts
  have J := I.inv
  have K := J.body hV (Or.inl rfl)
  have hin : ∀ {x}, x ∈ ν ∨ x = m → x ∈ ν ++ m :: σ := by
    rintro x (h | h) <;> simp [h]
  have hout : ∀ {x}, x ∈ σ → ¬ (x ∈ ν ∨ x = m) := by
    rintro x h (k | k)
    · exact (hν x k).1 h
    · exact mσ (k ▸ h)
  have inn : ∀ {x}, x ∈ ν ∨ x = m → s'.mods x = { s.mods x with root := some m, status := .evaluated } :=
    fun h => by rw [hmods, if_pos h]
  have out : ∀ {x}, ¬ (x ∈ ν ∨ x = m) → s'.mods x = s.mods x := fun h => by rw [hmods, if_neg h]
  have mem : ∀ {a : Event}, a ∈ s.trace → a ∈ s'.trace := fun h => by simp [ht, traced, h]
  have hmm : m ∈ ν ∨ m = m := Or.inr rfl
  have gdin : ∀ {x}, x ∈ ν ∨ x = m → Good B s' x := fun {x} h =>
    ⟨by rw [inn h], (J.fresh x (hin h)).2.2⟩
  have gdout : ∀ {x}, Good B s x → Good B s' x := by
    intro x h
    by_cases hx : x ∈ ν ∨ x = m
    · exact gdin hx
    · exact ⟨by rw [out hx]; exact h.1, h.2⟩
  have notin : ∀ {x}, Good B s x → ¬ (x ∈ ν ∨ x = m) := by
    intro x h k
    have := (J.stack x).1 (hin k)
    rw [h.1] at this; cases this
  have hreach : ∀ {x}, x ∈ ν ∨ x = m → Reach G x m ∧ Reach G m x := by
    intro x h
    refine ⟨?_, ?_⟩
    · obtain ⟨q, h1, h2⟩ := J.top x (hin h)
      simp only [List.head?_cons, Option.some.injEq] at h1
      subst h1; exact h2
    · rcases h with h | h
      · exact (I.sub x h).1
      · subst h; exact .refl x
  have hdfs : ∀ x, (s'.mods x).dfs = (s.mods x).dfs := by
    intro x; rw [hmods]; split <;> rfl
  have hanc : ∀ x, (s'.mods x).anc = (s.mods x).anc := by
    intro x; rw [hmods]; split <;> rfl
  have herr : ∀ x, (s'.mods x).err = (s.mods x).err := by
    intro x; rw [hmods]; split <;> rfl
  refine ⟨?_, gdin hmm, by rw [inn hmm]⟩
  constructor
  · constructor
    · intro x; rw [hmods]; split <;> exact J.order x
    · intro x; rw [hmods]; split <;> exact J.pending x
    · intro x; rw [hmods]; split <;> exact J.parents x
    · intro x; rw [hmods]; split <;> exact J.running x
    · intro x; rw [hmods]; split
      · simp
      · exact J.sync x
    · exact (List.nodup_cons.1 (List.nodup_append.1 J.nodup).2.1).2
    · intro x hx
      by_cases h : x ∈ ν ∨ x = m
      · exact J.size x (by rw [(J.stack x).1 (hin h)]; simp)
      · rw [out h] at hx; exact J.size x hx
    · intro x hx
      by_cases h : x ∈ ν ∨ x = m
      · rw [inn h] at hx; cases hx
      · rw [out h] at hx ⊢
        rw [ht]
        exact K.linked x hx
    · intro x
      by_cases h : x ∈ ν ∨ x = m
      · rw [inn h]
        simp only [reduceCtorEq, iff_false]
        exact fun k => hout k h
      · rw [out h]
        rw [← J.stack x]
        simp only [not_or] at h
        simp [h.1, h.2]
    · intro x hx
      rw [out (hout hx)]
      exact J.fresh x (by simp [hx])
    · intro x hx
      have h : ¬ (x ∈ ν ∨ x = m) := fun k => (J.fresh x (hin k)).2.2 hx
      rw [out h]; exact J.bad x hx
    · intro x hx
      by_cases h : x ∈ ν ∨ x = m
      · refine ⟨by rw [herr]; exact (J.fresh x (hin h)).2.1, ?_, m, by rw [inn h], by rw [inn hmm],
          gdin hmm, hreach h⟩
        rcases h with h | h
        · exact mem (J.shut x (by simp [h]) (hν x h).2.1).2.1
        · subst h; simp [ht, traced]
      · have hg : Good B s x := ⟨by rw [← out h]; exact hx.1, hx.2⟩
        obtain ⟨h1, h2, r, h3, h4, h5, h6⟩ := J.good x hg
        exact ⟨by rw [herr]; exact h1, mem h2, r, by rw [out h]; exact h3,
          by rw [out (notin h5)]; exact h4, gdout h5, h6⟩
    · intro x hx d hd
      by_cases h : x ∈ ν ∨ x = m
      · have hVx : d ∈ V x := by
          rcases h with h | h
          · exact (J.shut x (by simp [h]) (hν x h).2.1).2.2 d hd
          · subst h; exact hV d hd
        rcases J.visited x (hin h) d hVx with k | ⟨k1, k2⟩
        · exact gdout k
        · have hle : (s.mods m).anc ≤ (s.mods x).anc := by
            rcases h with h | h
            · exact (I.sub x h).2
            · subst h; exact Nat.le_refl _
          have hdm : (s.mods m).dfs ≤ (s.mods d).dfs := by omega
          have : ¬ d ∈ σ := fun q => by have := hσ d q; omega
          refine gdin ?_
          simpa [this] using k1
      · exact gdout (J.closed x ⟨by rw [← out h]; exact hx.1, hx.2⟩ d hd)
    · rw [ht]; exact K.ord
    · intro x e hx
      rw [herr] at hx
      obtain ⟨y, h1, h2⟩ := J.errs x e hx
      exact ⟨y, h1, mem h2⟩
    · intro x e
      rw [ht]; exact K.excl x e
    · rw [ht]; exact K.started
  · obtain ⟨_, h2, _⟩ := List.pairwise_append.1 J.desc
    refine (List.pairwise_cons.1 h2).2.imp fun h => ?_
    rw [hdfs, hdfs]; exact h
  · intro x hx; rw [hdfs]; exact J.below x (by simp [hx])
  · intro x hx; rw [hdfs, hanc]; exact J.ancLe x (by simp [hx])
  · intro x hx
    obtain ⟨y, hy, h1, h2⟩ := J.anc x (by simp [hx])
    refine ⟨y, ?_, by rw [hdfs, hanc]; exact h1, h2⟩
    have hx1 := hσ x hx
    have hx2 := J.ancLe x (by simp [hx])
    rcases List.mem_append.1 hy with hy | hy
    · have := (hν y hy).2.2; omega
    · rcases List.mem_cons.1 hy with hy | hy
      · subst hy; omega
      · exact hy
  · intro x hx
    refine ⟨I.low x hx, ?_⟩
    rw [ht]
    exact (J.path x (by simp [hx])).2.append (by rintro rfl; exact mπ hx) (Or.inl rfl)
  · intro x hx hn
    have hxm : x ≠ m := fun k => mσ (k ▸ hx)
    obtain ⟨h1, h2, h3⟩ := J.shut x (by simp [hx]) (by simp [hxm, hn])
    exact ⟨by rw [hdfs, hanc]; exact h1, mem h2, h3⟩
  · intro x hx d hd
    rcases J.visited x (by simp [hx]) d hd with h | ⟨h1, h2⟩
    · exact Or.inl (gdout h)
    · by_cases h : d ∈ ν ∨ d = m
      · exact Or.inl (gdin h)
      · simp only [not_or] at h
        refine Or.inr ⟨by simpa [h.1, h.2] using h1, by rw [hdfs, hanc]; exact h2⟩
  · exact I.back

/-! ## The search -/

/-- What `inner_module_evaluation` has done. -/
def Done (G : Graph) (B : Nat → Prop) (V : Nat → List Nat) (s : St) (σ π : List Nat) (m : Nat)
    (s' : St) (σ' : List Nat) : Res → Prop
  | .ok i' => ∃ ν V', σ' = ν ++ σ ∧ Inv G B V' s' σ' π i' ∧ Kept s s' ∧
      (∀ x, (s.mods x).status ≠ .linked → V' x = V x) ∧
      (∀ x ∈ ν, Reach G m x ∧ (s'.mods m).anc ≤ (s'.mods x).anc) ∧ (ν ≠ [] → m ∈ ν) ∧
      (m ∈ σ' ∨ Good B s' m) ∧ ((s.mods m).status = .linked → m ∈ σ' ∨ (s'.mods m).root = some m)
  | .threw e => ∃ y, Base G B s' σ' ∧ Kept s s' ∧ Reach G m y ∧ .fail y e ∈ s'.trace ∧
      (∀ x ∈ σ', Reach G x y) ∧ (m ∈ σ' ∨ (s.mods m).err = some e)

/-- What the loop over the requested modules has done. -/
def LoopDone (G : Graph) (B : Nat → Prop) (V : Nat → List Nat) (s : St) (σ π : List Nat) (m : Nat)
    (ds : List Nat) (s' : St) (σ' : List Nat) : Res → Prop
  | .ok i' => ∃ ν V', σ' = ν ++ m :: σ ∧ Visited G B V' s' ν σ π i' m ∧
      (∀ x, x ≠ m → (s.mods x).status ≠ .linked → s'.mods x = s.mods x ∧ V' x = V x) ∧
      (∀ d, d ∈ V m ∨ d ∈ ds → d ∈ V' m)
  | .threw e => ∃ y, Base G B s' σ' ∧
      (∀ x, x ≠ m → (s.mods x).status ≠ .linked → s'.mods x = s.mods x) ∧ Reach G m y ∧
      .fail y e ∈ s'.trace ∧ (∀ x ∈ σ', Reach G x y) ∧ m ∈ σ'

theorem visitAll_sync {G : Graph} {B : Nat → Prop}
    {rec : St → List Nat → Nat → Nat → M (St × List Nat × Res)} {m n : Nat}
    (hrec : ∀ V s σ π i d, Inv G B V s σ π i → d < G.size → left G s < n →
      (∀ q, π.head? = some q → d ∈ G.requests q) →
      ∃ s' σ' r, rec s σ i d = .ok (s', σ', r) ∧ Done G B V s σ π d s' σ' r) :
    ∀ ds V s ν σ π i, Visited G B V s ν σ π i m → (∀ d ∈ ds, d < G.size ∧ d ∈ G.requests m) →
      left G s < n →
      ∃ s' σ' r, visitAll rec m ds s (ν ++ m :: σ) i = .ok (s', σ', r) ∧
        LoopDone G B V s σ π m ds s' σ' r
  | [], V, s, ν, σ, π, i, I, _, _ => by
    exact ⟨s, _, .ok i, rfl, ν, V, rfl, I, fun _ _ _ => ⟨rfl, rfl⟩, fun d h => by simpa using h⟩
  | d :: ds, V, s, ν, σ, π, i, I, hds, hn => by
    obtain ⟨hd1, hd2⟩ := hds d (by simp)
    obtain ⟨s1, σ1, r1, h1, D1⟩ := hrec V s _ (m :: π) i d I.inv hd1 hn
      (fun q hq => by simp only [List.head?_cons, Option.some.injEq] at hq; subst hq; exact hd2)
    have hmseen : (s.mods m).status ≠ .linked := by
      rw [(I.inv.stack m).1 (by simp)]; simp
    cases r1 with
    | threw e =>
      obtain ⟨y, b, k, h2, h3, h4, -⟩ := D1
      refine ⟨s1, σ1, .threw e, by simp only [visitAll, h1, bind, Except.bind]; rfl, y, b,
        fun x _ hx => k x hx, .step hd2 h2, h3, h4, ?_⟩
      rw [b.stack, k m hmseen]
      exact (I.inv.stack m).1 (by simp)
    | ok i1 =>
      obtain ⟨ν1, V1, e1, I1, k1, v1, n1, m1, g1, -⟩ := D1
      obtain ⟨s2, h2, t2, o2, a2, f2, u2, _, w2, I2⟩ := I1.visitOk hd2 g1
      have hk1m : s1.mods m = s.mods m := k1 m hmseen
      have keep2 : ∀ x, x ≠ m → (s.mods x).status ≠ .linked → s2.mods x = s.mods x := by
        intro x hx hs
        rw [o2 x hx, k1 x hs]
      have seen2 : ∀ x, (s.mods x).status ≠ .linked → (s2.mods x).status ≠ .linked := by
        intro x hs
        by_cases hx : x = m
        · subst hx; rw [u2, hk1m]; exact hs
        · rw [keep2 x hx hs]; exact hs
      have eσ : σ1 = (ν1 ++ ν) ++ m :: σ := by rw [e1, List.append_assoc]
      have J2 : Visited G B (fun x => if x = m then d :: V1 m else V1 x) s2 (ν1 ++ ν) σ π i1 m := by
        refine ⟨by rw [← eσ]; exact I2, I.low, I.back, fun x hx => ?_⟩
        rcases List.mem_append.1 hx with hx | hx
        · obtain ⟨p1, p2⟩ := n1 x hx
          refine ⟨.step hd2 p1, ?_⟩
          have hdν : d ∈ ν1 := m1 (List.ne_nil_of_mem hx)
          have hdσ : d ∈ σ1 := by rw [e1]; simp [hdν]
          have hxσ : x ∈ σ1 := by rw [e1]; simp [hx]
          have hx0 : (s.mods x).status = .linked ∨ (s.mods x).status ≠ .linked := by
            by_cases h : (s.mods x).status = .linked
            · exact Or.inl h
            · exact Or.inr h
          have hxm : x ≠ m := by
            rintro rfl
            have nd := I1.desc
            rw [e1] at nd
            have := (List.pairwise_append.1 nd).2.2 x hx x (by simp)
            omega
          rw [o2 x hxm]
          exact Nat.le_trans (w2 hdσ) p2
        · obtain ⟨p1, p2⟩ := I.sub x hx
          have hxm : x ≠ m := by rintro rfl; exact I.facts.1 hx
          have hxs : (s.mods x).status ≠ .linked := by
            rw [(I.inv.stack x).1 (by simp [hx])]; simp
          refine ⟨p1, ?_⟩
          rw [keep2 x hxm hxs]
          rw [hk1m] at a2
          omega
      obtain ⟨s3, σ3, r3, h3, D3⟩ := visitAll_sync hrec ds _ s2 (ν1 ++ ν) σ π i1 J2
        (fun c hc => hds c (by simp [hc])) (Nat.lt_of_le_of_lt (left_le seen2) hn)
      refine ⟨s3, σ3, r3, ?_, ?_⟩
      · simp only [visitAll, h1, bind, Except.bind, h2]
        rw [eσ]; exact h3
      · cases r3 with
        | threw e =>
          obtain ⟨y, b, k, q1, q2, q3, q4⟩ := D3
          exact ⟨y, b, fun x hx hs => (k x hx (seen2 x hs)).trans (keep2 x hx hs), q1, q2, q3, q4⟩
        | ok i3 =>
          obtain ⟨ν3, V3, e3, J3, k3, v3⟩ := D3
          refine ⟨ν3, V3, e3, J3, fun x hx hs => ?_, fun c hc => ?_⟩
          · obtain ⟨p1, p2⟩ := k3 x hx (seen2 x hs)
            refine ⟨p1.trans (keep2 x hx hs), p2.trans ?_⟩
            simp only [hx, if_false]
            exact v1 x hs
          · refine v3 c ?_
            simp only [if_true, List.mem_cons]
            rw [v1 m hmseen]
            rcases hc with hc | hc
            · exact Or.inl (Or.inr hc)
            · rcases List.mem_cons.1 hc with hc | hc
              · exact Or.inl (Or.inl hc)
              · exact Or.inr hc

theorem inner_sync {G : Graph} (hG : G.Sync) (hC : G.Closed) {B : Nat → Prop} :
    ∀ f V s σ π i m, Inv G B V s σ π i → m < G.size → left G s < f →
      (∀ q, π.head? = some q → m ∈ G.requests q) →
      ∃ s' σ' r, inner G f s σ i m = .ok (s', σ', r) ∧ Done G B V s σ π m s' σ' r
  | 0, _, _, _, _, _, _, _, _, h, _ => by omega
  | f + 1, V, s, σ, π, i, m, I, hm, hf, hq => by
    cases hst : (s.mods m).status with
    | evaluatingAsync => exact absurd hst (I.sync m)
    | evaluating =>
      refine ⟨s, σ, .ok i, by simp only [inner, hst]; rfl, [], V, rfl, I, Kept.rfl, fun _ _ => rfl,
        by simp, by simp, Or.inl ((I.stack m).2 hst), fun h => by rw [hst] at h; cases h⟩
    | evaluated =>
      cases he : (s.mods m).err with
      | none =>
        have hB : ¬ B m := fun h => (I.bad m h).2.2 he
        exact ⟨s, σ, .ok i, by simp only [inner, hst, he]; rfl, [], V, rfl, I, Kept.rfl, fun _ _ => rfl,
          by simp, by simp, Or.inr ⟨hst, hB⟩, fun h => by rw [hst] at h; cases h⟩
      | some e =>
        obtain ⟨y, h1, h2⟩ := I.errs m e he
        refine ⟨s, σ, .threw e, by simp only [inner, hst, he]; rfl, y, I.toBase, Kept.rfl, h1, h2,
          fun x hx => ?_, Or.inr he⟩
        obtain ⟨q, h3, h4⟩ := I.top x hx
        exact h4.trans (.step (hq q h3) h1)
    | linked =>
      have I1 := I.push hm hst hq
      let s1 := set s m { s.mods m with status := .evaluating, dfs := i, anc := i }
      have hl : left G s1 < left G s := left_lt hm hst (by simp)
      have hmσ : m ∉ σ := fun h => by have := (I.stack m).1 h; rw [hst] at this; cases this
      have J1 : Visited G B (fun x => if x = m then [] else V x) s1 [] σ π (i + 1) m :=
        ⟨I1, fun x hx => (I.path x hx).1, I.top, by simp⟩
      obtain ⟨s2, σ2, r2, h2, D2⟩ := visitAll_sync (fun V s σ π i d => inner_sync hG hC f V s σ π i d)
        (G.requests m) _ s1 [] σ π (i + 1) J1 (fun d hd => ⟨hC m hm d hd, hd⟩) (by omega)
      have kept : ∀ {t : St}, (∀ x, x ≠ m → (s1.mods x).status ≠ .linked → t.mods x = s1.mods x) →
          Kept s t := by
        intro t k x hx
        have hxm : x ≠ m := by rintro rfl; exact hx hst
        have e : s1.mods x = s.mods x := by simp [s1, hxm]
        rw [k x hxm (by rw [e]; exact hx), e]
      have hstart : inner G (f + 1) s σ i m = (do
          let (s, stack, r) ← visitAll (inner G f) m (G.requests m) s1 (m :: σ) (i + 1)
          match r with
          | .threw e => return (s, stack, .threw e)
          | .ok index => do
            let (s, r) ← execute G s m
            match r with
            | some e => return (s, stack, .threw e)
            | none =>
              if (s.mods m).dfs = (s.mods m).anc then
                let (s, stack) := popCycle m stack s
                return (s, stack, .ok index)
              else return (s, stack, .ok index)) := by
        simp only [inner, hst]; rfl
      rw [hstart]
      rw [List.nil_append] at h2
      rw [h2]
      simp only [bind, Except.bind]
      cases r2 with
      | threw e =>
        obtain ⟨y, b, k, q1, q2, q3, q4⟩ := D2
        exact ⟨s2, σ2, .threw e, rfl, y, b, kept k, q1, q2, q3, Or.inl q4⟩
      | ok i2 =>
        obtain ⟨ν, V2, e2, J2, k2, v2⟩ := D2
        have hV : ∀ d ∈ G.requests m, d ∈ V2 m := fun d hd => v2 d (Or.inr hd)
        have hV' : ∀ x, (s.mods x).status ≠ .linked → V2 x = V x := by
          intro x hx
          have hxm : x ≠ m := by rintro rfl; exact hx hst
          have e : s1.mods x = s.mods x := by simp [s1, hxm]
          have := (k2 x hxm (by rw [e]; exact hx)).2
          simpa [hxm] using this
        have hk : Kept s s2 := kept fun x hx hs => (k2 x hx hs).1
        rw [execute_sync hG (J2.inv.pending m)]
        simp only
        subst e2
        rcases executeSync_eq G s2 m with hX | ⟨v, hX⟩
        · rw [hX]
          simp only
          obtain ⟨mν, mσ, mπ, hν, hσ⟩ := J2.facts
          by_cases hc : (s2.mods m).dfs = (s2.mods m).anc
          · have hc' : ((traced s2 m (.done m)).mods m).dfs = ((traced s2 m (.done m)).mods m).anc := hc
            rw [if_pos hc']
            obtain ⟨s3, p1, p2, p3⟩ := popCycle_eq (m := m) ν σ (traced s2 m (.done m)) mν
              J2.inv.order
            rw [p1]
            obtain ⟨I3, g3, g4⟩ := J2.pop hV hc p2 p3
            refine ⟨s3, σ, .ok i2, rfl, [], V2, rfl, I3, fun x hx => ?_, hV', by simp, by simp,
              Or.inr g3, fun _ => Or.inr g4⟩
            have h0 := hk x hx
            have hxm : x ≠ m := by rintro rfl; exact hx hst
            have hxν : x ∉ ν := by
              intro h
              have := (J2.inv.stack x).1 (by simp [h])
              have hxσ : x ∈ σ := (I.stack x).2 (by rw [← h0]; exact this)
              exact (hν x h).1 hxσ
            rw [p3, if_neg (by simp [hxm, hxν])]
            exact h0
          · have hc' : ¬ ((traced s2 m (.done m)).mods m).dfs = ((traced s2 m (.done m)).mods m).anc := hc
            rw [if_neg hc']
            refine ⟨traced s2 m (.done m), _, .ok i2, rfl, ν ++ [m], V2, by simp, J2.stay hV hc, hk,
              hV', fun x hx => ?_, by simp, Or.inl (by simp), fun _ => Or.inl (by simp)⟩
            rcases List.mem_append.1 hx with hx | hx
            · exact J2.sub x hx
            · simp only [List.mem_singleton] at hx
              subst hx; exact ⟨.refl x, Nat.le_refl _⟩
        · rw [hX]
          simp only
          refine ⟨traced s2 m (.fail m v), _, .threw v, rfl, m, J2.inv.body hV (Or.inr ⟨v, rfl⟩), hk,
            .refl m, by simp [traced], fun x hx => ?_, Or.inl (by simp)⟩
          obtain ⟨q, h1, h2⟩ := J2.inv.top x hx
          simp only [List.head?_cons, Option.some.injEq] at h1
          subst h1; exact h2

/-! ## Evaluation -/

theorem abandonAll {e : Nat} : ∀ (σ : List Nat) (s : St),
    (∀ x ∈ σ, (s.mods x).status = .evaluating) → σ.Nodup →
    ∃ s', σ.foldlM (abandon e) s = .ok s' ∧ s'.trace = s.trace ∧
      ∀ x, s'.mods x = if x ∈ σ then
        { s.mods x with status := .evaluated, err := some e, root := some x } else s.mods x
  | [], s, _, _ => ⟨s, rfl, rfl, fun x => by simp⟩
  | a :: σ, s, h, hn => by
    obtain ⟨hn1, hn2⟩ := List.nodup_cons.1 hn
    let s1 := set s a { s.mods a with status := .evaluated, err := some e, root := some a }
    have ha : abandon e s a = .ok s1 := by
      unfold abandon
      rw [h a (by simp)]
      rfl
    have ne : ∀ {x}, x ∈ σ → x ≠ a := fun hx k => hn1 (k ▸ hx)
    obtain ⟨s', h1, h2, h3⟩ := abandonAll σ s1 (fun x hx => by
      simpa [s1, ne hx] using h x (by simp [hx])) hn2
    refine ⟨s', by simp only [List.foldlM, ha, bind, Except.bind]; exact h1, h2, fun x => ?_⟩
    rw [h3]
    by_cases hx : x = a
    · subst hx; simp [s1, hn1]
    · simp [s1, hx]

/-- Between two evaluations. -/
structure Idle (G : Graph) (B : Nat → Prop) (s : St) : Prop extends Base G B s [] where
  /-- Only the first module of a cycle has a promise; it is settled. -/
  cap : ∀ x c, (s.mods x).cap = some c → (s.mods x).root = some x ∧
    ((Good B s x ∧ c = .fulfilled) ∨ (B x ∧ ∃ e, (s.mods x).err = some e ∧ c = .rejected e))

/-- A change of promises only. -/
theorem Base.caps {G : Graph} {B : Nat → Prop} {s s' : St} {σ : List Nat} (h : Base G B s σ)
    (ht : s'.trace = s.trace) (hm : ∀ x, ∃ c, s'.mods x = { s.mods x with cap := c }) :
    Base G B s' σ := by
  have f : ∀ {α : Type} (p : Mod → α), (∀ v c, p { v with cap := c } = p v) → ∀ x,
      p (s'.mods x) = p (s.mods x) := by
    intro α p hp x
    obtain ⟨c, hc⟩ := hm x
    rw [hc, hp]
  have h1 := f Mod.order (fun _ _ => rfl)
  have h2 := f Mod.pending (fun _ _ => rfl)
  have h3 := f Mod.parents (fun _ _ => rfl)
  have h4 := f Mod.running (fun _ _ => rfl)
  have h5 := f Mod.status (fun _ _ => rfl)
  have h6 := f Mod.root (fun _ _ => rfl)
  have h7 := f Mod.err (fun _ _ => rfl)
  have g : ∀ x, Good B s' x ↔ Good B s x := fun x => by unfold Good; rw [h5]
  constructor
  · intro x; rw [h1]; exact h.order x
  · intro x; rw [h2]; exact h.pending x
  · intro x; rw [h3]; exact h.parents x
  · intro x; rw [h4]; exact h.running x
  · intro x; rw [h5]; exact h.sync x
  · exact h.nodup
  · intro x; rw [h5]; exact h.size x
  · intro x; rw [h5, h6, h7, ht]; exact h.linked x
  · intro x; rw [h5]; exact h.stack x
  · intro x; rw [h6, h7]; exact h.fresh x
  · intro x; rw [h5, h6, h7]; exact h.bad x
  · intro x hx
    obtain ⟨k1, k2, r, k3, k4, k5, k6⟩ := h.good x ((g x).1 hx)
    exact ⟨by rw [h7]; exact k1, by rw [ht]; exact k2, r, by rw [h6]; exact k3, by rw [h6]; exact k4,
      (g r).2 k5, k6⟩
  · intro x hx d hd; exact (g d).2 (h.closed x ((g x).1 hx) d hd)
  · rw [ht]; exact h.ord
  · intro x e; rw [h7, ht]; exact h.errs x e
  · rw [ht]; exact h.excl
  · rw [ht]; exact h.started

theorem settleCap_caps (p : Prom) (m : Mod) : ∃ c, settleCap p m = { m with cap := c } := by
  unfold settleCap
  split
  · exact ⟨_, rfl⟩
  · exact ⟨m.cap, rfl⟩

/-- The promises are left alone by the search. -/
theorem wait_cap (s : St) (m t x : Nat) : ((visit.wait s m t).mods x).cap = (s.mods x).cap := by
  unfold visit.wait
  split
  · by_cases h1 : x = m
    · subst h1
      by_cases h2 : x = t
      · subst h2; simp
      · simp [h2]
    · by_cases h2 : x = t
      · subst h2; simp [h1]
      · simp [h1, h2]
  · rfl

theorem visit_cap {s s' : St} {m d : Nat} {r : Option Nat} (h : visit s m d = .ok (s', r)) (x : Nat) :
    (s'.mods x).cap = (s.mods x).cap := by
  unfold visit at h
  split at h
  · cases h
    rw [wait_cap]
    by_cases hx : x = m
    · subst hx; simp
    · simp [hx]
  split at h
  · cases h
  split at h
  · cases h
  · obtain ⟨_, _, h⟩ := bindOk h
    split at h
    · cases h; rfl
    · cases h; exact wait_cap _ _ _ _

theorem visitAll_cap {rec : St → List Nat → Nat → Nat → M (St × List Nat × Res)} {m : Nat}
    (hrec : ∀ s st i d s' st' r, rec s st i d = .ok (s', st', r) →
      ∀ x, (s'.mods x).cap = (s.mods x).cap) :
    ∀ ds s st i s' st' r, visitAll rec m ds s st i = .ok (s', st', r) →
      ∀ x, (s'.mods x).cap = (s.mods x).cap
  | [], s, st, i, s', st', r, h => by cases h; exact fun _ => rfl
  | d :: ds, s, st, i, s', st', r, h => by
    simp only [visitAll] at h
    obtain ⟨⟨s1, st1, r1⟩, h1, h⟩ := bindOk h
    have e1 := hrec _ _ _ _ _ _ _ h1
    simp only at h
    split at h
    · cases h; exact e1
    · obtain ⟨⟨s2, r2⟩, h2, h⟩ := bindOk h
      have e2 := visit_cap h2
      simp only at h
      split at h
      · cases h; exact fun x => (e2 x).trans (e1 x)
      · have e3 := visitAll_cap hrec ds _ _ _ _ _ _ h
        exact fun x => (e3 x).trans ((e2 x).trans (e1 x))

theorem executeAsync_cap (s : St) (m x : Nat) :
    ((executeAsync s m).mods x).cap = (s.mods x).cap := by
  unfold executeAsync
  simp only [emit_mods, set_mods]
  split
  · next h => subst h; rfl
  · rfl

theorem execute_cap {G : Graph} {s s' : St} {m : Nat} {r : Option Nat}
    (h : execute G s m = .ok (s', r)) (x : Nat) : (s'.mods x).cap = (s.mods x).cap := by
  unfold execute at h
  split at h
  · obtain ⟨_, _, h⟩ := bindOk h
    simp only [Pure.pure, Except.pure, Except.ok.injEq, Prod.mk.injEq] at h
    obtain ⟨h, -⟩ := h
    have a : (({ set s m { s.mods m with order := s.cnt } with cnt := s.cnt + 1 } : St).mods x).cap =
        (s.mods x).cap := by
      by_cases hx : x = m
      · subst hx; simp
      · simp [hx]
    rw [← h, ← a]
    split
    · exact executeAsync_cap _ _ _
    · rfl
  · cases h2 : executeSync G s m with
    | mk s2 r2 =>
      rw [h2] at h
      cases h
      have e1 : s' = (executeSync G s m).1 := by rw [h2]
      rw [e1, executeSync_mods]

theorem popCycle_cap (m : Nat) : ∀ st s x, ((popCycle m st s).1.mods x).cap = (s.mods x).cap
  | [], s, x => rfl
  | y :: st, s, x => by
    simp only [popCycle]
    have a : ∀ z, ((set s y { s.mods y with root := some m, status := if (s.mods y).order ≠ 0 then .evaluatingAsync else .evaluated }).mods z).cap = (s.mods z).cap := by
      intro z
      by_cases hz : z = y
      · subst hz; simp
      · simp [hz]
    split
    · exact a x
    · rw [popCycle_cap m st _ x]; exact a x

theorem inner_cap (G : Graph) : ∀ f s st i m s' st' r,
    inner G f s st i m = .ok (s', st', r) → ∀ x, (s'.mods x).cap = (s.mods x).cap
  | 0, _, _, _, _, _, _, _, h => by cases h
  | f + 1, s, st, i, m, s', st', r, h => by
    simp only [inner] at h
    split at h
    · split at h <;> cases h <;> exact fun _ => rfl
    · split at h <;> cases h <;> exact fun _ => rfl
    · cases h; exact fun _ => rfl
    · obtain ⟨⟨s2, st2, r2⟩, h2, h⟩ := bindOk h
      have e2 : ∀ x, (s2.mods x).cap = (s.mods x).cap := by
        intro x
        rw [visitAll_cap (inner_cap G f) _ _ _ _ _ _ _ h2 x]
        by_cases hx : x = m
        · subst hx; simp
        · simp [hx]
      simp only at h
      split at h
      · cases h; exact e2
      · obtain ⟨⟨s3, r3⟩, h3, h⟩ := bindOk h
        have e3 := execute_cap h3
        simp only at h
        split at h
        · cases h; exact fun x => (e3 x).trans (e2 x)
        · split at h
          · cases h; exact fun x => (popCycle_cap _ _ _ x).trans ((e3 x).trans (e2 x))
          · cases h; exact fun x => (e3 x).trans (e2 x)

/-- After an error, the modules on the stack are abandoned. -/
theorem Base.abandon {G : Graph} {B : Nat → Prop} {s s' : St} {σ : List Nat} {e y : Nat}
    (b : Base G B s σ) (hy : .fail y e ∈ s.trace) (hr : ∀ x ∈ σ, Reach G x y)
    (ht : s'.trace = s.trace) (hmods : ∀ x, s'.mods x = if x ∈ σ then
        { s.mods x with status := .evaluated, err := some e, root := some x } else s.mods x) :
    Base G (fun x => B x ∨ x ∈ σ) s' [] := by
  have inn : ∀ {x}, x ∈ σ → s'.mods x = { s.mods x with status := .evaluated, err := some e, root := some x } :=
    fun h => by rw [hmods, if_pos h]
  have out : ∀ {x}, x ∉ σ → s'.mods x = s.mods x := fun h => by rw [hmods, if_neg h]
  have gd : ∀ {x}, Good (fun x => B x ∨ x ∈ σ) s' x → x ∉ σ ∧ Good B s x := by
    intro x h
    have hx : x ∉ σ := fun k => h.2 (Or.inr k)
    exact ⟨hx, by rw [← out hx]; exact h.1, fun k => h.2 (Or.inl k)⟩
  have gd' : ∀ {x}, Good B s x → x ∉ σ ∧ Good (fun x => B x ∨ x ∈ σ) s' x := by
    intro x h
    have hx : x ∉ σ := fun k => by have := (b.stack x).1 k; rw [h.1] at this; cases this
    refine ⟨hx, by rw [out hx]; exact h.1, ?_⟩
    rintro (k | k)
    · exact h.2 k
    · exact hx k
  constructor
  · intro x; rw [hmods]; split <;> exact b.order x
  · intro x; rw [hmods]; split <;> exact b.pending x
  · intro x; rw [hmods]; split <;> exact b.parents x
  · intro x; rw [hmods]; split <;> exact b.running x
  · intro x; rw [hmods]; split
    · simp
    · exact b.sync x
  · simp
  · intro x hx
    by_cases h : x ∈ σ
    · exact b.size x (by rw [(b.stack x).1 h]; simp)
    · rw [out h] at hx; exact b.size x hx
  · intro x hx
    by_cases h : x ∈ σ
    · rw [inn h] at hx; cases hx
    · rw [out h] at hx ⊢
      obtain ⟨h1, h2, h3, h4⟩ := b.linked x hx
      exact ⟨h1, h2, by simp [h3, h], by rw [ht]; exact h4⟩
  · intro x
    by_cases h : x ∈ σ
    · rw [inn h]; simp
    · rw [out h, ← b.stack x]; simp [h]
  · intro x hx; simp at hx
  · rintro x (h | h)
    · have hx : x ∉ σ := fun k => (b.fresh x k).2.2 h
      rw [out hx]; exact b.bad x h
    · rw [inn h]; simp
  · intro x hx
    obtain ⟨h0, hg⟩ := gd hx
    obtain ⟨h1, h2, r, h3, h4, h5, h6⟩ := b.good x hg
    obtain ⟨h7, h8⟩ := gd' h5
    exact ⟨by rw [out h0]; exact h1, by rw [ht]; exact h2, r, by rw [out h0]; exact h3,
      by rw [out h7]; exact h4, h8, h6⟩
  · intro x hx d hd
    exact (gd' (b.closed x (gd hx).2 d hd)).2
  · rw [ht]; exact b.ord
  · intro x v hx
    rw [ht]
    by_cases h : x ∈ σ
    · rw [inn h] at hx
      simp only [Option.some.injEq] at hx
      subst hx
      exact ⟨y, hr x h, hy⟩
    · rw [out h] at hx; exact b.errs x v hx
  · rw [ht]; exact b.excl
  · rw [ht]; exact b.started

/-- The module whose promise is returned. -/
theorem Idle.target {G : Graph} {B : Nat → Prop} {s : St} (I : Idle G B s) {m : Nat}
    (hm : m < G.size) :
    ∃ r, target s m = .ok r ∧ Reach G m r ∧ r < G.size ∧
      (((s.mods m).status = .linked ∧ r = m) ∨ ((s.mods m).status = .evaluated ∧
        (s.mods m).root = some r ∧ (s.mods r).root = some r ∧ (s.mods r).status = .evaluated)) := by
  have nev : ∀ x, (s.mods x).status ≠ .evaluating := fun x h => by
    have := (I.stack x).2 h; simp at this
  unfold Module.target
  cases hst : (s.mods m).status with
  | linked => exact ⟨m, rfl, .refl m, hm, Or.inl ⟨rfl, rfl⟩⟩
  | evaluating => exact absurd hst (nev m)
  | evaluatingAsync => exact absurd hst (I.sync m)
  | evaluated =>
    by_cases hB : B m
    · obtain ⟨_, h2, _⟩ := I.bad m hB
      exact ⟨m, by rw [h2]; rfl, .refl m, hm, Or.inr ⟨rfl, h2, h2, hst⟩⟩
    · obtain ⟨_, _, r, h3, h4, h5, h6, _⟩ := I.good m ⟨hst, hB⟩
      exact ⟨r, by rw [h3]; rfl, h6, I.size r (by rw [h5.1]; simp), Or.inr ⟨rfl, h3, h4, h5.1⟩⟩

/-- What an evaluation keeps. -/
def Grows (s s' : St) : Prop :=
  ∀ x, (s.mods x).status ≠ .linked → (s'.mods x).status = (s.mods x).status ∧
    (s'.mods x).root = (s.mods x).root ∧ ∀ c, (s.mods x).cap = some c → (s'.mods x).cap = some c

theorem Idle.evaluateOk {G : Graph} (hG : G.Sync) (hC : G.Closed) (hF : G.size < G.fuel)
    {B : Nat → Prop} {s : St} (I : Idle G B s) {m : Nat} (hm : m < G.size) :
    ∃ s' r B', evaluate G s m = .ok (s', r) ∧ Idle G B' s' ∧ Grows s s' ∧
      (s'.mods m).status = .evaluated ∧ (s'.mods m).root = some r ∧ (s'.mods r).cap ≠ none ∧
      Reach G m r := by
  obtain ⟨r, hr1, hr2, hr3, hr4⟩ := I.target hm
  unfold Module.evaluate
  rw [hr1]
  simp only [bind, Except.bind]
  by_cases hcap : (s.mods r).cap ≠ none
  · -- a promise exists
    rw [if_pos hcap]
    obtain ⟨c, hc⟩ := Option.ne_none_iff_exists'.1 hcap
    have hrr := (I.cap r c hc).1
    rcases hr4 with ⟨h1, h2⟩ | ⟨h1, h2, h3, h4⟩
    · subst h2
      rw [(I.linked r h1).1] at hrr; cases hrr
    · exact ⟨s, r, B, rfl, I, fun x _ => ⟨rfl, rfl, fun _ h => h⟩, h1, h2, hcap, hr2⟩
  · rw [if_neg hcap]
    have hcap : (s.mods r).cap = none := Decidable.not_not.1 hcap
    let s1 := set s r { s.mods r with cap := some .pending }
    have hs1 : ∀ x, ∃ c, s1.mods x = { s.mods x with cap := c } := by
      intro x
      by_cases hx : x = r
      · subst hx; exact ⟨some .pending, by simp [s1]⟩
      · exact ⟨(s.mods x).cap, by simp [s1, hx]⟩
    have hst1 : ∀ x, (s1.mods x).status = (s.mods x).status := fun x => by
      obtain ⟨c, hc⟩ := hs1 x; rw [hc]
    have hrt1 : ∀ x, (s1.mods x).root = (s.mods x).root := fun x => by
      obtain ⟨c, hc⟩ := hs1 x; rw [hc]
    have b1 : Base G B s1 [] := I.toBase.caps rfl hs1
    have I1 : Inv G B (fun _ => []) s1 [] [] 0 := by
      constructor
      · exact b1
      all_goals simp
    have hleft : left G s1 < G.fuel := by
      refine Nat.lt_of_le_of_lt ?_ hF
      have := List.countP_le_length (p := fun x => decide ((s1.mods x).status = .linked)) (l := List.range G.size)
      simpa [left] using this
    obtain ⟨s2, σ2, q, h2, D⟩ := inner_sync hG hC G.fuel _ s1 [] [] 0 r I1 hr3 hleft (by simp)
    have hcaps := inner_cap G _ _ _ _ _ _ _ _ h2
    have hcapr : (s2.mods r).cap = some .pending := by rw [hcaps]; simp [s1]
    have hcapx : ∀ x, x ≠ r → (s2.mods x).cap = (s.mods x).cap := fun x hx => by
      rw [hcaps]; simp [s1, hx]
    rw [h2]
    simp only
    -- the first module of a cycle, or the module
    have hmr : ∀ {t : St}, (∀ x, (s.mods x).status ≠ .linked → (t.mods x).status = (s.mods x).status ∧
        (t.mods x).root = (s.mods x).root) → (t.mods r).root = some r → (t.mods r).status = .evaluated →
        (t.mods m).status = .evaluated ∧ (t.mods m).root = some r := by
      intro t ht htr hts
      rcases hr4 with ⟨_, k2⟩ | ⟨k1, k2, _, _⟩
      · subst k2; exact ⟨hts, htr⟩
      · obtain ⟨p1, p2⟩ := ht m (by rw [k1]; simp)
        exact ⟨p1.trans k1, p2.trans k2⟩
    -- modules with promises are not touched
    have old : ∀ x c, x ≠ r → (s.mods x).cap = some c → (s.mods x).status = .evaluated ∧
        (s.mods x).root = some x ∧
        ((Good B s x ∧ c = .fulfilled) ∨ (B x ∧ ∃ e, (s.mods x).err = some e ∧ c = .rejected e)) := by
      intro x c hx hc
      obtain ⟨k1, k2⟩ := I.cap x c hc
      refine ⟨?_, k1, k2⟩
      rcases k2 with ⟨k2, _⟩ | ⟨k2, _⟩
      · exact k2.1
      · exact (I.bad x k2).1
    cases q with
    | ok i' =>
      obtain ⟨ν, V', _, I2, K, _, _, _, g1, g2⟩ := D
      have hσ : σ2 = [] := by
        cases σ2 with
        | nil => rfl
        | cons a l =>
          obtain ⟨q, h, _⟩ := I2.top a (by simp)
          simp at h
      subst hσ
      have hgood : Good B s2 r := g1.resolve_left (by simp)
      have hroot : (s2.mods r).root = some r := by
        rcases hr4 with ⟨k1, k2⟩ | ⟨k1, k2, k3, k4⟩
        · subst k2
          exact (g2 (by rw [hst1]; exact k1)).resolve_left (by simp)
        · rw [K r (by rw [hst1, k4]; simp), hrt1]; exact k3
      have hfin : finish s2 r [] (.ok i') = .ok (set s2 r (settleCap .fulfilled (s2.mods r))) := by
        unfold finish
        rw [if_pos (I2.order r)]
        have : ({ s2.mods r with status := .evaluated } : Mod) = s2.mods r := by
          rw [← hgood.1]
        rw [this]
        rfl
      rw [hfin]
      simp only
      let s3 := set s2 r { s2.mods r with cap := some .fulfilled }
      have hs3 : set s2 r (settleCap .fulfilled (s2.mods r)) = s3 := by
        simp only [settleCap, hcapr, s3]
      rw [hs3]
      have hs3' : ∀ x, ∃ c, s3.mods x = { s2.mods x with cap := c } := by
        intro x
        by_cases hx : x = r
        · subst hx; exact ⟨some .fulfilled, by simp [s3]⟩
        · exact ⟨(s2.mods x).cap, by simp [s3, hx]⟩
      have b3 : Base G B s3 [] := I2.toBase.caps rfl hs3'
      have hkeep : ∀ x, (s.mods x).status ≠ .linked → (s3.mods x).status = (s.mods x).status ∧
          (s3.mods x).root = (s.mods x).root ∧ (s3.mods x).err = (s.mods x).err := by
        intro x hx
        obtain ⟨c, hc⟩ := hs3' x
        obtain ⟨c', hc'⟩ := hs1 x
        rw [hc, K x (by rw [hst1]; exact hx), hc']
        exact ⟨rfl, rfl, rfl⟩
      have h3r : (s3.mods r).root = some r := by simp [s3, hroot]
      have h3s : (s3.mods r).status = .evaluated := by simp [s3, hgood.1]
      obtain ⟨f1, f2⟩ := hmr (fun x hx => ⟨(hkeep x hx).1, (hkeep x hx).2.1⟩) h3r h3s
      refine ⟨s3, r, B, rfl, ⟨b3, fun x c hc => ?_⟩, fun x hx => ⟨(hkeep x hx).1, (hkeep x hx).2.1,
        fun c hc => ?_⟩, f1, f2, by simp [s3], hr2⟩
      · by_cases hx : x = r
        · subst hx
          have : c = .fulfilled := by simpa [s3] using hc.symm
          exact ⟨h3r, Or.inl ⟨⟨h3s, hgood.2⟩, this⟩⟩
        · have hc' : (s.mods x).cap = some c := by rw [← hcapx x hx]; simpa [s3, hx] using hc
          obtain ⟨k1, k2, k3⟩ := old x c hx hc'
          obtain ⟨p1, p2, p3⟩ := hkeep x (by rw [k1]; simp)
          refine ⟨p2.trans k2, ?_⟩
          rcases k3 with ⟨k3, k4⟩ | ⟨k3, k4⟩
          · exact Or.inl ⟨⟨p1.trans k1, k3.2⟩, k4⟩
          · exact Or.inr ⟨k3, by rw [p3]; exact k4⟩
      · have hxr : x ≠ r := by rintro rfl; rw [hcap] at hc; cases hc
        rw [show (s3.mods x).cap = (s2.mods x).cap by simp [s3, hxr], hcapx x hxr]; exact hc
    | threw e =>
      obtain ⟨y, b2, K, h3, h4, h5, h6⟩ := D
      obtain ⟨s3, a1, a2, a3⟩ := abandonAll (e := e) σ2 s2 (fun x hx => (b2.stack x).1 hx) b2.nodup
      have b3 := b2.abandon h4 h5 a2 a3
      have hcap3 : ∀ x, (s3.mods x).cap = (s2.mods x).cap := fun x => by rw [a3]; split <;> rfl
      have hfin : finish s2 r σ2 (.threw e) = .ok (set s3 r (settleCap (.rejected e) (s3.mods r))) := by
        simp only [finish, a1]
        rfl
      rw [hfin]
      simp only
      let s4 := set s3 r { s3.mods r with cap := some (.rejected e) }
      have hs4 : set s3 r (settleCap (.rejected e) (s3.mods r)) = s4 := by
        simp only [settleCap, hcap3, hcapr, s4]
      rw [hs4]
      have hs4' : ∀ x, ∃ c, s4.mods x = { s3.mods x with cap := c } := by
        intro x
        by_cases hx : x = r
        · subst hx; exact ⟨some (.rejected e), by simp [s4]⟩
        · exact ⟨(s3.mods x).cap, by simp [s4, hx]⟩
      have b4 := b3.caps (s' := s4) rfl hs4'
      have notσ : ∀ x, (s.mods x).status ≠ .linked → x ∉ σ2 := by
        intro x hx h
        have := (b2.stack x).1 h
        rw [K x (by rw [hst1]; exact hx), hst1] at this
        have := (I.stack x).2 this
        simp at this
      have hkeep : ∀ x, (s.mods x).status ≠ .linked → (s4.mods x).status = (s.mods x).status ∧
          (s4.mods x).root = (s.mods x).root ∧ (s4.mods x).err = (s.mods x).err := by
        intro x hx
        obtain ⟨c, hc⟩ := hs4' x
        obtain ⟨c', hc'⟩ := hs1 x
        rw [hc, a3, if_neg (notσ x hx), K x (by rw [hst1]; exact hx), hc']
        exact ⟨rfl, rfl, rfl⟩
      have hr : (s4.mods r).root = some r ∧ (s4.mods r).status = .evaluated ∧
          (s4.mods r).err = some e ∧ (B r ∨ r ∈ σ2) := by
        rcases h6 with h6 | h6
        · refine ⟨?_, ?_, ?_, Or.inr h6⟩ <;> simp [s4, a3, h6]
        · have herr : (s.mods r).err = some e := by
            obtain ⟨c', hc'⟩ := hs1 r; rw [hc'] at h6; exact h6
          rcases hr4 with ⟨k1, k2⟩ | ⟨k1, k2, k3, k4⟩
          · subst k2
            rw [(I.linked r k1).2.1] at herr; cases herr
          · obtain ⟨p1, p2, p3⟩ := hkeep r (by rw [k4]; simp)
            refine ⟨p2.trans k3, p1.trans k4, p3.trans herr, Or.inl ?_⟩
            apply Classical.byContradiction; intro hB
            rw [(I.good r ⟨k4, hB⟩).1] at herr; cases herr
      obtain ⟨f1, f2⟩ := hmr (fun x hx => ⟨(hkeep x hx).1, (hkeep x hx).2.1⟩) hr.1 hr.2.1
      refine ⟨s4, r, _, rfl, ⟨b4, fun x c hc => ?_⟩, fun x hx => ⟨(hkeep x hx).1, (hkeep x hx).2.1,
        fun c hc => ?_⟩, f1, f2, by simp [s4], hr2⟩
      · by_cases hx : x = r
        · subst hx
          have : c = .rejected e := by simpa [s4] using hc.symm
          exact ⟨hr.1, Or.inr ⟨hr.2.2.2, e, hr.2.2.1, this⟩⟩
        · have hc' : (s.mods x).cap = some c := by
            rw [← hcapx x hx, ← hcap3]; simpa [s4, hx] using hc
          obtain ⟨k1, k2, k3⟩ := old x c hx hc'
          obtain ⟨p1, p2, p3⟩ := hkeep x (by rw [k1]; simp)
          refine ⟨p2.trans k2, ?_⟩
          rcases k3 with ⟨k3, k4⟩ | ⟨k3, k4⟩
          · refine Or.inl ⟨⟨p1.trans k1, ?_⟩, k4⟩
            rintro (k | k)
            · exact k3.2 k
            · exact notσ x (by rw [k1]; simp) k
          · exact Or.inr ⟨Or.inl k3, by rw [p3]; exact k4⟩
      · have hxr : x ≠ r := by rintro rfl; rw [hcap] at hc; cases hc
        rw [show (s4.mods x).cap = (s3.mods x).cap by simp [s4, hxr], hcap3, hcapx x hxr]; exact hc

/-! ## Executions -/

theorem Idle.init (G : Graph) : Idle G (fun _ => False) init := by
  constructor
  · constructor <;> simp [Module.init, Good, Silent, Ordered]
  · intro x c hc; simp [Module.init] at hc

/-- No operation fails. -/
theorem Idle.step {G : Graph} (hG : G.Sync) (hC : G.Closed) (hF : G.size < G.fuel)
    {B : Nat → Prop} {s : St} (I : Idle G B s) {o : Op} (ho : o.can G s) :
    ∃ s' B', step G s o = .ok s' ∧ Idle G B' s' ∧ Grows s s' := by
  cases o with
  | evaluate m =>
    obtain ⟨s', r, B', h1, h2, h3, _⟩ := I.evaluateOk hG hC hF ho
    exact ⟨s', B', by simp only [Module.step, h1]; rfl, h2, h3⟩
  | settle m r =>
    have : (s.mods m).running = true := ho
    rw [I.running] at this; cases this

theorem Run.idle {G : Graph} (hG : G.Sync) (hC : G.Closed) (hF : G.size < G.fuel) {s : St}
    (h : Run G s) : ∃ B, Idle G B s := by
  induction h with
  | init => exact ⟨_, Idle.init G⟩
  | step _ ho hs ih =>
    obtain ⟨B, I⟩ := ih
    obtain ⟨s', B', h1, h2, _⟩ := I.step hG hC hF ho
    rw [h1] at hs; cases hs
    exact ⟨B', h2⟩

theorem Grows.trans {a b c : St} (h : Grows a b) (k : Grows b c) : Grows a c := by
  intro x hx
  obtain ⟨h1, h2, h3⟩ := h x hx
  obtain ⟨k1, k2, k3⟩ := k x (by rw [h1]; exact hx)
  exact ⟨k1.trans h1, k2.trans h2, fun v hv => k3 v (h3 v hv)⟩

end Verif.Module

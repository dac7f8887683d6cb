import Verif.Lemmas.EnvCells

/-! What a tail call does to the environments and bindings. -/

namespace Verif.Env

theorem env_of {s : State} {e : Nat} {env : Env} (h : s.env e = .ok env) :
    s.envs[e]? = some env := by
  unfold State.env at h
  split at h
  · rename_i y hy
    simp only [Except.ok.injEq] at h
    rw [hy, h]
  · simp at h

theorem bname_of {s : State} {b : Nat} {bn : BName} (h : s.bname b = .ok bn) :
    s.names[b]? = some bn := by
  unfold State.bname at h
  split at h
  · rename_i y hy
    simp only [Except.ok.injEq] at h
    rw [hy, h]
  · simp at h

/-- Nothing found: nothing changed. -/
theorem lookup_none {s s' : State} {e b : Nat} {slot : Bool}
    (h : lookup s e b slot = .ok (s', none)) : s' = s := by
  unfold lookup at h
  obtain ⟨env, _, h⟩ := bindOk h
  obtain ⟨bn, _, h⟩ := bindOk h
  split at h
  · split at h
    · simp at h
    · simp at h
  · split at h
    · simp only [Except.ok.injEq, Prod.mk.injEq] at h; exact h.1.symm
    · split at h
      · obtain ⟨x, _, h⟩ := bindOk h
        simp at h
      · simp at h

/-- One declaration. -/
theorem declCreate_effect {s s' : State} {e b : Nat} {imm strict del : Bool} {env : Env}
    (h : declCreate s e b imm strict del = .ok s') (he : s.envs[e]? = some env) :
    ∃ bn x env', s.names[b]? = some bn ∧ s'.names = s.names ∧ s'.refs = s.refs ∧
      s'.cells = s.cells ++ [some x] ∧
      x.initialized = false ∧ x.immutable = imm ∧ s'.envs = s.envs.set e env' ∧
      env'.kind = env.kind ∧ env'.outer = env.outer ∧
      env'.hash = env.hash ++ [(bn.name, s.cells.length)] := by
  unfold declCreate at h
  obtain ⟨⟨s1, r⟩, h1, h'⟩ := bindOk h
  clear h
  simp only at h'
  split at h'
  · simp at h'
  · have := lookup_none h1
    subst this
    have h := h'; clear h'
    unfold addBinding at h
    obtain ⟨env0, he0, h⟩ := bindOk h
    obtain ⟨bn, hbn, h⟩ := bindOk h
    have := env_of he0
    rw [he] at this
    simp only [Option.some.injEq] at this
    subst this
    simp only [Except.ok.injEq] at h
    subst h
    refine ⟨bn, _, _, bname_of hbn, rfl, rfl, rfl, ?_, ?_, rfl, rfl, rfl, rfl⟩
    · split <;> rfl
    · split <;> rfl

/-- All the declarations. -/
theorem declareAll_effect {e : Nat} {l : List (Nat × Bool × Bool)} :
    ∀ {s s' : State} {env : Env}, declareAll s e l = .ok s' → s.envs[e]? = some env →
    s'.names = s.names ∧ s'.refs = s.refs ∧
    (∀ c : Nat, c < s.cells.length → s'.cells[c]? = s.cells[c]?) ∧
    s.cells.length ≤ s'.cells.length ∧
    (∀ e' : Nat, e' ≠ e → s'.envs[e']? = s.envs[e']?) ∧
    ∃ env' : Env, s'.envs[e]? = some env' ∧ env'.kind = env.kind ∧ env'.outer = env.outer ∧
      ∃ fresh : List (Name × Nat), env'.hash = env.hash ++ fresh ∧
        fresh.map (fun p => some p.1) = l.map (fun d => (s.names[d.1]?).map BName.name) ∧
        ∀ p, p ∈ fresh → s.cells.length ≤ p.2 ∧
          ∃ x, s'.cells[p.2]? = some (some x) ∧ x.initialized = false := by
  induction l with
  | nil =>
    intro s s' env h he
    simp only [declareAll, Except.ok.injEq] at h
    subst h
    exact ⟨rfl, rfl, fun _ _ => rfl, Nat.le_refl _, fun _ _ => rfl, env, he, rfl, rfl, [], by simp,
      rfl, by simp⟩
  | cons d l ih =>
    obtain ⟨b, imm, strict⟩ := d
    intro s s' env h he
    simp only [declareAll] at h
    obtain ⟨s1, h1, h⟩ := bindOk h
    obtain ⟨bn, x, env1, hbn, hn, hrf, hc, hxi, _, hen, hk, ho, hh⟩ := declCreate_effect h1 he
    have hlt : e < s.envs.length := (List.getElem?_eq_some_iff.mp he).1
    have he1 : s1.envs[e]? = some env1 := by
      rw [hen, List.getElem?_set, if_pos rfl, if_pos hlt]
    obtain ⟨hn2, hrf2, hcells, hlen, henvs, env', he', hk', ho', fresh, hf, hnames, hfresh⟩ := ih h he1
    have hl1 : s1.cells.length = s.cells.length + 1 := by rw [hc]; simp
    refine ⟨hn2.trans hn, hrf2.trans hrf, ?_, by omega, ?_, env', he', hk'.trans hk, ho'.trans ho,
      (bn.name, s.cells.length) :: fresh, ?_, ?_, ?_⟩
    · intro c hcl
      rw [hcells c (by omega), hc, List.getElem?_append_left hcl]
    · intro e' hne
      rw [henvs e' hne, hen, List.getElem?_set, if_neg (fun h => hne h.symm)]
    · rw [hf, hh]; simp
    · simp only [List.map_cons, hbn, Option.map_some]
      rw [hnames, hn]
    · intro p hp
      simp only [List.mem_cons] at hp
      rcases hp with rfl | hp
      · refine ⟨Nat.le_refl _, x, ?_, hxi⟩
        rw [hcells _ (by simp only []; omega), hc]
        simp
      · obtain ⟨h3, h4⟩ := hfresh p hp
        exact ⟨by omega, h4⟩

theorem freeAll_length {l : List (Name × Nat)} : ∀ {cells : List (Option Cell)},
    (freeAll cells l).length = cells.length := by
  induction l with
  | nil => intro cells; rfl
  | cons p l ih => intro cells; obtain ⟨n, c⟩ := p; simp only [freeAll]; rw [ih]; simp

/-- Only the bindings listed are freed. -/
theorem freeAll_other {c : Nat} {l : List (Name × Nat)} (hc : ∀ n, (n, c) ∉ l) :
    ∀ {cells : List (Option Cell)}, (freeAll cells l)[c]? = cells[c]? := by
  induction l with
  | nil => intro cells; rfl
  | cons p l ih =>
    intro cells
    obtain ⟨n, d⟩ := p
    simp only [freeAll]
    rw [ih (fun n h => hc n (List.mem_cons_of_mem _ h)), List.getElem?_set, if_neg]
    intro h
    subst h
    exact hc n (List.mem_cons_self ..)

/-- And they are. -/
theorem freeAll_listed {c : Nat} {l : List (Name × Nat)} :
    ∀ {cells : List (Option Cell)}, ((∃ n, (n, c) ∈ l) ∨ cells[c]? = some none) →
      c < cells.length → (freeAll cells l)[c]? = some none := by
  induction l with
  | nil =>
    intro cells h _
    rcases h with ⟨n, h⟩ | h
    · simp at h
    · exact h
  | cons p l ih =>
    intro cells h hlt
    obtain ⟨m, d⟩ := p
    simp only [freeAll]
    refine ih ?_ (by simp [hlt])
    by_cases hd : d = c
    · right
      rw [List.getElem?_set, if_pos hd, if_pos (by omega)]
    · rcases h with ⟨n, h⟩ | h
      · simp only [List.mem_cons, Prod.mk.injEq] at h
        rcases h with ⟨_, h⟩ | h
        · exact absurd h.symm hd
        · exact Or.inl ⟨n, h⟩
      · right
        rw [List.getElem?_set, if_neg hd]; exact h

end Verif.Env

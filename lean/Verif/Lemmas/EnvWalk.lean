import Verif.Lemmas.EnvSim

/-! Resolving a name: the walk outwards, the cached path, and their agreement. -/

namespace Verif.Env

/-- The walk finds at most one record. -/
theorem Spec.Found.unique {rs : List Spec.Record} {o : Option Nat} {n : Nat} {a a' : Option Nat}
    (h : Spec.Found rs o n a) (h' : Spec.Found rs o n a') : a = a' := by
  induction h with
  | nowhere => cases h'; rfl
  | here he hh =>
    cases h' with
    | here _ _ => rfl
    | outside he' hh' _ =>
      rw [he] at he'
      simp only [Option.some.injEq] at he'
      subst he'
      rw [hh] at hh'
      simp at hh'
  | outside he hh _ ih =>
    cases h' with
    | here he' hh' =>
      rw [he] at he'
      simp only [Option.some.injEq] at he'
      subst he'
      rw [hh] at hh'
      simp at hh'
    | outside he' hh' hf' =>
      rw [he] at he'
      simp only [Option.some.injEq] at he'
      subst he'
      exact ih hf'

/-- Is a name bound in a record whose environment is not a `with` environment? -/
theorem EnvOk.has_decl {P : Code} {sc : List Nat} {cells envs w e env rec σ}
    (h : EnvOk P sc cells envs w e env rec σ) (he : e ≠ 0) (hP : P.WF)
    (hk : P.kind σ ≠ .withObj) (n : Name) : rec.has n = true ↔ n ∈ layout P w σ := by
  obtain ⟨_, hkind, _⟩ := h.pos he
  have hform : rec.form = .declarative := by
    rw [h.form, hkind]
    cases hx : P.kind σ with
    | withObj => exact absurd hx hk
    | global => exact absurd hx (hP.kinds σ)
    | decl => rfl
    | func => rfl
  unfold Spec.Record.has
  rw [hform]
  simp only
  rw [get_eq_find, find_isSome_iff, h.bnames]

theorem EnvOk.scope_zero {P : Code} {sc : List Nat} {cells envs w e env rec σ}
    (h : EnvOk P sc cells envs w e env rec σ) : e = 0 ↔ σ = 0 := by
  constructor
  · intro he; exact (h.zero he).1
  · intro hσ
    apply Classical.byContradiction
    intro he
    exact (h.pos he).1 hσ

/-- The environment around and the scope around. -/
theorem Sim.outward {P : Code} {sc : List Nat} {s : State} {w : Spec.World} (h : Sim P sc s w)
    {e σ k : Nat} (he : sc[e]? = some σ) (hk : ∀ i, i < k → sanc P σ i ≠ 0) :
    ∃ f, anc s.envs e k = some f ∧ sc[f]? = some (sanc P σ k) := by
  induction k generalizing e σ with
  | zero => exact ⟨e, rfl, he⟩
  | succ k ih =>
    obtain ⟨env, rec, henv, hrec, hE⟩ := h.at' he
    have hσ : σ ≠ 0 := hk 0 (by omega)
    have he0 : e ≠ 0 := fun h' => hσ (hE.scope_zero.mp h')
    obtain ⟨_, _, o, ho, _, hso⟩ := hE.pos he0
    obtain ⟨f, hf, hsf⟩ := ih hso (fun i hi => hk (i + 1) (by omega))
    refine ⟨f, ?_, hsf⟩
    unfold anc
    rw [henv]
    simp only [ho]
    exact hf

/-- The static resolution is what the walk finds. -/
theorem Sim.found {P : Code} {sc : List Nat} {s : State} {w : Spec.World} (h : Sim P sc s w)
    (hP : P.WF) {n : Name} {e σ k : Nat} (he : sc[e]? = some σ)
    (before : ∀ i, i < k → sanc P σ i ≠ 0 ∧ P.kind (sanc P σ i) ≠ .withObj ∧
      n ∉ layout P w (sanc P σ i))
    (zero : sanc P σ k = 0 → ∃ r, w.records[0]? = some r ∧ r.has n = true)
    (pos : sanc P σ k ≠ 0 → P.kind (sanc P σ k) ≠ .withObj ∧ n ∈ layout P w (sanc P σ k)) :
    ∃ f, anc s.envs e k = some f ∧ sc[f]? = some (sanc P σ k) ∧
      Spec.Found w.records (some e) n (some f) := by
  induction k generalizing e σ with
  | zero =>
    refine ⟨e, rfl, he, ?_⟩
    obtain ⟨env, rec, henv, hrec, hE⟩ := h.at' he
    by_cases hσ : σ = 0
    · have he0 := hE.scope_zero.mpr hσ
      obtain ⟨r, hr, hh⟩ := zero hσ
      subst he0
      exact .here hr hh
    · obtain ⟨hk, hm⟩ := pos hσ
      have he0 : e ≠ 0 := fun h' => hσ (hE.scope_zero.mp h')
      exact .here hrec ((hE.has_decl he0 hP hk n).mpr hm)
  | succ k ih =>
    obtain ⟨env, rec, henv, hrec, hE⟩ := h.at' he
    obtain ⟨hσ, hkind, hm⟩ := before 0 (by omega)
    have hσ' : σ ≠ 0 := hσ
    have he0 : e ≠ 0 := fun h' => hσ' (hE.scope_zero.mp h')
    obtain ⟨_, _, o, ho, _, hso⟩ := hE.pos he0
    obtain ⟨f, hf, hsf, hF⟩ := ih hso (fun i hi => before (i + 1) (by omega)) zero pos
    refine ⟨f, ?_, hsf, ?_⟩
    · unfold anc
      rw [henv]
      simp only [ho]
      exact hf
    · refine .outside hrec ?_ ?_ (a := some f)
      · have hnot : ¬ rec.has n = true := fun hh => hm ((hE.has_decl he0 hP hkind n).mp hh)
        simpa using hnot
      · rw [← hE.outer, ho]
        exact hF

/-- Asking an environment about a name that has not been cached. -/
theorem envHas_fresh {P : Code} {sc : List Nat} {s : State} {w : Spec.World} (h : Sim P sc s w)
    {e b : Nat} {rec : Spec.Record} {bn : BName} (hr : w.records[e]? = some rec)
    (hbn : s.names[b]? = some bn) (hx : bn.envIdx = noIdx) (hy : bn.bindIdx = noIdx) :
    envHas s e b = .ok (s, rec.has bn.name) := by
  obtain ⟨env, σ, henv, _, hE⟩ := h.at hr
  have hl := lookup_fresh (slot := false) henv hbn hx hy
  have hsome : (find env.hash bn.name).isSome = (find rec.bindings bn.name).isSome := by
    have hn := hE.get_none bn.name
    cases h1 : find env.hash bn.name <;> cases h2 : find rec.bindings bn.name
    · rfl
    · rw [h1, h2] at hn; simp at hn
    · rw [h1, h2] at hn; simp at hn
    · rfl
  have hdecl : declHas s e b = .ok (s, (find rec.bindings bn.name).isSome) := by
    unfold declHas
    simp only [hl, bind, Except.bind, hsome]
  have hobj : objHas s e b = .ok (find rec.object bn.name).isSome := by
    unfold objHas
    simp only [env_ok henv, bname_ok hbn, bind, Except.bind, hE.obj]
  unfold envHas Spec.Record.has
  simp only [env_ok henv, bind, Except.bind, hE.form, get_eq_find]
  cases hk : env.kind with
  | withObj => simp only [hobj, formOf]
  | global =>
    simp only [hdecl, formOf]
    by_cases hz : (find rec.bindings bn.name).isSome = true
    · rw [if_pos hz, hz]; rfl
    · rw [if_neg hz, hobj]
      have : (find rec.bindings bn.name).isSome = false := by simpa using hz
      rw [this]
      simp
  | decl => simp only [hdecl, formOf]
  | func => simp only [hdecl, formOf]

/-- What the walk tells about the scopes passed. -/
structure Walked (P : Code) (w : Spec.World) (n : Name) (σ k : Nat) (nc : Bool) : Prop where
  before : ∀ i, i < k → sanc P σ i ≠ 0 ∧
    (P.kind (sanc P σ i) = .withObj ∨ n ∉ layout P w (sanc P σ i)) ∧
    (nc = true → P.kind (sanc P σ i) ≠ .withObj)
  zero : sanc P σ k = 0 → ∃ r, w.records[0]? = some r ∧ r.has n = true
  pos : sanc P σ k ≠ 0 → (P.kind (sanc P σ k) ≠ .withObj → n ∈ layout P w (sanc P σ k)) ∧
    (nc = true → P.kind (sanc P σ k) ≠ .withObj)

theorem walk_ok {P : Code} {sc : List Nat} {s : State} {w : Spec.World} (h : Sim P sc s w)
    (hP : P.WF) {b : Nat} {bn : BName} (hbn : s.names[b]? = some bn) (hx : bn.envIdx = noIdx)
    (hy : bn.bindIdx = noIdx) (e : Nat) :
    ∀ (fuel σ : Nat) (nc : Bool) (a : Option Nat), e < fuel → sc[e]? = some σ →
      Spec.Found w.records (some e) bn.name a →
      ∃ nc', walk (fuel + 1) s b (some e) nc = .ok (s, a, nc') ∧
        ∀ f, a = some f → ∃ k, anc s.envs e k = some f ∧ sc[f]? = some (sanc P σ k) ∧
          Walked P w bn.name σ k nc' := by
  induction e using Nat.strongRecOn with
  | ind e ih =>
    intro fuel σ nc a hfuel hσ hF
    obtain ⟨env, rec, henv, hrec, hE⟩ := h.at' hσ
    have hhas := envHas_fresh h hrec hbn hx hy
    unfold walk
    simp only [env_ok henv, hhas, bind, Except.bind]
    have hwith : ∀ nc : Bool, (if env.kind = .withObj then false else nc) = true →
        e ≠ 0 → P.kind σ ≠ .withObj := by
      intro nc hnc he0
      rw [← (hE.pos he0).2.1]
      intro hk
      rw [if_pos hk] at hnc
      simp at hnc
    cases hF with
    | here he hh =>
      rw [hrec] at he
      simp only [Option.some.injEq] at he
      subst he
      rw [if_pos hh]
      refine ⟨_, rfl, ?_⟩
      intro f hf
      simp only [Option.some.injEq] at hf
      subst hf
      refine ⟨0, rfl, hσ, ?_⟩
      refine { before := fun i hi => absurd hi (by omega), zero := ?_, pos := ?_ }
      · intro hz
        have he0 := hE.scope_zero.mpr hz
        subst he0
        exact ⟨rec, hrec, hh⟩
      · intro hz
        have he0 : e ≠ 0 := fun h' => hz (hE.scope_zero.mp h')
        exact ⟨fun hk => (hE.has_decl he0 hP hk _).mp hh, fun hnc => hwith nc hnc he0⟩
    | outside he hh hF' =>
      rw [hrec] at he
      simp only [Option.some.injEq] at he
      subst he
      rw [if_neg (by rw [hh]; simp)]
      by_cases he0 : e = 0
      · obtain ⟨_, _, ho⟩ := hE.zero he0
        rw [ho]
        rw [← hE.outer, ho] at hF'
        cases hF'
        obtain ⟨m, hm⟩ : ∃ m, fuel = m + 1 := ⟨fuel - 1, by omega⟩
        subst hm
        unfold walk
        exact ⟨_, rfl, by intro f hf; simp at hf⟩
      · obtain ⟨hσ0, _, o, ho, hlt, hso⟩ := hE.pos he0
        rw [ho]
        rw [← hE.outer, ho] at hF'
        obtain ⟨m, hm⟩ : ∃ m, fuel = m + 1 := ⟨fuel - 1, by omega⟩
        subst hm
        obtain ⟨nc', hw, hk⟩ := ih o hlt m _ (if env.kind = .withObj then false else nc) a
          (by omega) hso hF'
        refine ⟨nc', hw, ?_⟩
        intro f hf
        obtain ⟨k, ha, hs, hW⟩ := hk f hf
        refine ⟨k + 1, ?_, hs, ?_⟩
        · unfold anc
          rw [henv]
          simp only [ho]
          exact ha
        · have hnc : nc' = true → (if env.kind = .withObj then false else nc) = true := by
            intro hnc'
            apply Classical.byContradiction
            intro hne
            have hfalse : (if env.kind = .withObj then false else nc) = false := by simpa using hne
            rw [hfalse] at hw
            exact absurd (walk_false hw) (by rw [hnc']; simp)
          refine { before := ?_, zero := hW.zero, pos := hW.pos }
          intro i hi
          cases i with
          | zero =>
            refine ⟨hσ0, ?_, fun h' => hwith nc (hnc h') he0⟩
            by_cases hk : P.kind σ = .withObj
            · exact Or.inl hk
            · right
              intro hm
              have := (hE.has_decl he0 hP hk _).mpr hm
              rw [hh] at this
              simp at this
          | succ i => exact hW.before i (by omega)
where
  walk_false {s : State} {b : Nat} {o : Option Nat} {fuel : Nat} {s' : State} {a : Option Nat}
      {nc' : Bool} (h : walk fuel s b o false = .ok (s', a, nc')) : nc' = false := by
    induction fuel generalizing s o with
    | zero => unfold walk at h; simp at h
    | succ n ih =>
      cases o with
      | none =>
        unfold walk at h
        simp only [Except.ok.injEq, Prod.mk.injEq] at h
        exact h.2.2.symm
      | some e =>
        unfold walk at h
        simp only [bind, Except.bind, ite_self] at h
        cases he : s.env e with
        | error x => rw [he] at h; simp at h
        | ok env =>
          rw [he] at h
          simp only at h
          cases hh : envHas s e b with
          | error x => rw [hh] at h; simp at h
          | ok p =>
            obtain ⟨s1, r⟩ := p
            rw [hh] at h
            simp only at h
            by_cases hr : r = true
            · rw [if_pos hr] at h
              simp only [Except.ok.injEq, Prod.mk.injEq] at h
              exact h.2.2.symm
            · rw [if_neg hr] at h
              exact ih h

end Verif.Env

import Verif.Lemmas.EnvWalk

/-! Each operation on related states. -/

namespace Verif.Env

/-- A change of objects, stacks and the contents of bindings keeps the relation. -/
theorem Sim.update {P : Code} {sc : List Nat} {s : State} {w : Spec.World} (h : Sim P sc s w)
    {envs' : List Env} {cells' : List (Option Cell)} {w' : Spec.World}
    (hlen : envs'.length = s.envs.length) (hlenR : w'.records.length = w.records.length)
    (henv : ∀ (e : Nat) (env env' : Env) (rec rec' : Spec.Record), s.envs[e]? = some env →
      envs'[e]? = some env' → w.records[e]? = some rec → w'.records[e]? = some rec' →
      (env'.kind = env.kind ∧ env'.outer = env.outer ∧ env'.depth = env.depth ∧
        env'.cache = env.cache ∧ env'.hash = env.hash ∧ env'.vec = env.vec) ∧
      rec'.outer = rec.outer ∧ rec'.form = rec.form ∧
      rec'.bindings.map Prod.fst = rec.bindings.map Prod.fst ∧
      (∀ n, find env'.obj n = find rec'.object n) ∧
      (∀ (i : Nat) (n : Name) (c : Nat), env.hash[i]? = some (n, c) →
        ∃ d x, rec'.bindings[i]? = some (n, d) ∧
        cells'[c]? = some (some x) ∧ CellOk x d ∧ x.idx = i % 65536) ∧
      (∀ l, env'.stack = some l → l.length = env.depth ∧
        ∀ k f, l[k]? = some f → anc s.envs e (k + 1) = some f))
    (hrefs : w'.references = w.references)
    (hhas : ∀ rec rec' n, w.records[0]? = some rec → w'.records[0]? = some rec' →
      rec.has n = true → rec'.has n = true) :
    Sim P sc { s with envs := envs', cells := cells' } w' := by
  have hE : ∀ (e : Nat) (env' : Env), envs'[e]? = some env' → ∃ env rec rec' σ,
      s.envs[e]? = some env ∧ w.records[e]? = some rec ∧ w'.records[e]? = some rec' ∧
      sc[e]? = some σ := by
    intro e env' he'
    obtain ⟨hlt, _⟩ := List.getElem?_eq_some_iff.mp he'
    have h1 : e < s.envs.length := by omega
    have h2 : e < w.records.length := by rw [← h.lenE]; exact h1
    have h3 : e < w'.records.length := by omega
    have h4 : e < sc.length := by rw [← h.lenS]; exact h1
    exact ⟨_, _, _, _, List.getElem?_eq_getElem h1, List.getElem?_eq_getElem h2,
      List.getElem?_eq_getElem h3, List.getElem?_eq_getElem h4⟩
  have hsame : SameOuter s.envs envs' := by
    intro e env he
    obtain ⟨hlt, _⟩ := List.getElem?_eq_some_iff.mp he
    have h1 : e < envs'.length := by omega
    obtain ⟨env0, rec, rec', σ, he0, hr, hr', _⟩ := hE e _ (List.getElem?_eq_getElem h1)
    rw [he] at he0
    simp only [Option.some.injEq] at he0
    subst he0
    exact ⟨_, List.getElem?_eq_getElem h1,
      (henv e env _ rec rec' he (List.getElem?_eq_getElem h1) hr hr').1.2.1⟩
  have hlay : ∀ σ, layout P w' σ = layout P w σ := by
    intro σ
    unfold layout
    by_cases hσ : σ = 0
    · rw [if_pos hσ, if_pos hσ]
      have h1 : 0 < envs'.length := by have := h.pos; omega
      obtain ⟨env0, rec, rec', σ', he0, hr, hr', _⟩ := hE 0 _ (List.getElem?_eq_getElem h1)
      rw [hr, hr']
      exact (henv 0 env0 _ rec rec' he0 (List.getElem?_eq_getElem h1) hr hr').2.2.2.1
    · rw [if_neg hσ, if_neg hσ]
  have hzero : ∀ n, (∃ r, w.records[0]? = some r ∧ r.has n = true) →
      ∃ r, w'.records[0]? = some r ∧ r.has n = true := by
    intro n ⟨r, hr, hh⟩
    have h1 : 0 < w'.records.length := by
      have := h.pos
      rw [hlenR, ← h.lenE]; exact this
    exact ⟨_, List.getElem?_eq_getElem h1, hhas r _ n hr (List.getElem?_eq_getElem h1) hh⟩
  have hres : ∀ b k, Res P w b k → Res P w' b k := by
    intro b k hr
    refine { before := ?_, zero := fun hz => hzero _ (hr.zero hz), pos := ?_ }
    · intro i hi
      rw [hlay]
      exact hr.before i hi
    · intro hz
      rw [hlay]
      exact hr.pos hz
  refine { lenE := ?_, lenS := ?_, pos := ?_, env := ?_, apart := ?_, lenN := h.lenN, name := ?_,
           lenR := ?_, ref := ?_ }
  · show envs'.length = w'.records.length
    rw [hlen, hlenR]; exact h.lenE
  · show envs'.length = sc.length
    rw [hlen]; exact h.lenS
  · show 0 < envs'.length
    rw [hlen]; exact h.pos
  · intro e env' rec' σ he' hr' hσ
    obtain ⟨env, rec, rec0, σ0, he, hr, hr0, hσ0⟩ := hE e env' he'
    rw [hr'] at hr0
    rw [hσ] at hσ0
    simp only [Option.some.injEq] at hr0 hσ0
    subst hr0
    subst hσ0
    have ho := h.env e env rec σ he hr hσ
    obtain ⟨⟨hk, hou, hd, hc, hh, hv⟩, hro, hrf, hrb, hobj, hent, hst⟩ :=
      henv e env env' rec rec' he he' hr hr'
    refine { outer := by rw [hou, hro]; exact ho.outer, form := by rw [hk, hrf]; exact ho.form,
             cache := by rw [hc]; exact ho.cache, obj := hobj, vec := by rw [hv, hh]; exact ho.vec,
             len := ?_, entry := by rw [hh]; exact hent, nodup := by rw [hh]; exact ho.nodup,
             few := by rw [hh]; exact ho.few, names := by rw [hh, hlay]; exact ho.names,
             depth := by rw [hd]; exact ho.depth, zero := by rw [hk, hou]; exact ho.zero,
             pos := by rw [hk, hou]; exact ho.pos, stack := ?_ }
    · rw [hh, ho.len]
      have := congrArg List.length hrb
      simpa using this.symm
    · intro l hl
      obtain ⟨h1, h2⟩ := hst l hl
      exact ⟨by rw [hd]; exact h1, fun k f hf => anc_mono hsame (h2 k f hf)⟩
  · intro e e' env' env'' i i' n n' c he' he'' hi hi'
    obtain ⟨env, rec, rec', _, he, hr, hr', _⟩ := hE e env' he'
    obtain ⟨envb, recb, recb', _, heb, hrb, hrb', _⟩ := hE e' env'' he''
    rw [(henv e env env' rec rec' he he' hr hr').1.2.2.2.2.1] at hi
    rw [(henv e' envb env'' recb recb' heb he'' hrb hrb').1.2.2.2.2.1] at hi'
    exact h.apart e e' env envb i i' n n' c he heb hi hi'
  · intro b bn hb
    have hok := h.name b bn hb
    exact { name := hok.name, none' := hok.none', env := fun hx => hres b _ (hok.env hx),
            bind := fun hx => by rw [hlay]; exact hok.bind hx }
  · show s.refs.length = w'.references.length
    rw [hrefs]; exact h.lenR
  · intro r x y hx hy
    rw [hrefs] at hy
    obtain ⟨h1, h2, h3, h4⟩ := h.ref r x y hx hy
    refine ⟨h1, h2, h3, ?_⟩
    intro f hf
    obtain ⟨k, hk1, hk2, hk3, hk4⟩ := h4 f hf
    refine ⟨k, hk1, ?_, fun hz => hzero _ (hk3 hz), ?_⟩
    · intro i hi
      rw [hlay]
      exact hk2 i hi
    · rw [hlay]
      exact hk4

/-- What a related state says about its own environments, in the form `Sim.update` asks for. -/
theorem Sim.entries {P : Code} {sc : List Nat} {s : State} {w : Spec.World} (h : Sim P sc s w)
    {e : Nat} {env : Env} {rec : Spec.Record} (he : s.envs[e]? = some env)
    (hr : w.records[e]? = some rec) : ∃ σ, EnvOk P sc s.cells s.envs w e env rec σ := by
  obtain ⟨env', σ, he', _, hE⟩ := h.at hr
  rw [he] at he'
  simp only [Option.some.injEq] at he'
  subst he'
  exact ⟨σ, hE⟩

/-! ### Stacks -/

theorem addBackRefs_spec (envs : List Env) (e : Nat) (l : List Nat) :
    (addBackRefs envs e l).length = envs.length ∧
    ∀ (i : Nat) (env' : Env), (addBackRefs envs e l)[i]? = some env' →
      ∃ env br, envs[i]? = some env ∧ env' = { env with backRefs := br } := by
  induction l generalizing envs with
  | nil =>
    unfold addBackRefs
    exact ⟨rfl, fun i env' hi => ⟨env', env'.backRefs, hi, rfl⟩⟩
  | cons o l ih =>
    unfold addBackRefs
    cases ho : envs[o]? with
    | none => exact ih envs
    | some oe =>
      simp only
      obtain ⟨h1, h2⟩ := ih (envs.set o { oe with backRefs := oe.backRefs ++ [e] })
      refine ⟨by rw [h1, List.length_set], ?_⟩
      intro i env' hi
      obtain ⟨env, br, he, hb⟩ := h2 i env' hi
      rw [List.getElem?_set] at he
      by_cases hoi : o = i
      · subst hoi
        rw [if_pos rfl] at he
        by_cases hlt : o < envs.length
        · rw [if_pos hlt] at he
          simp only [Option.some.injEq] at he
          exact ⟨oe, br, ho, by rw [hb, ← he]⟩
        · rw [if_neg hlt] at he
          simp at he
      · rw [if_neg hoi] at he
        exact ⟨env, br, he, hb⟩

theorem Sim.outers {P : Code} {sc : List Nat} {s : State} {w : Spec.World} (h : Sim P sc s w)
    (hP : P.WF) {e σ : Nat} {env : Env} (hs : sc[e]? = some σ) (he : s.envs[e]? = some env) :
    ∃ l, outers s env.depth env.outer = .ok l := by
  obtain ⟨env', rec, he', hr, hE⟩ := h.at' hs
  rw [he] at he'
  simp only [Option.some.injEq] at he'
  subst he'
  generalize hd : env.depth = d
  induction d generalizing e σ env rec with
  | zero => exact ⟨[], by unfold Verif.Env.outers; rfl⟩
  | succ d ih =>
    have hdσ := hE.depth
    have hσ : σ ≠ 0 := by
      intro hz
      rw [hz, hP.depth0] at hdσ
      omega
    have he0 : e ≠ 0 := fun h' => hσ (hE.scope_zero.mp h')
    obtain ⟨_, _, o, ho, _, hso⟩ := hE.pos he0
    obtain ⟨envo, reco, heo, hro, hEo⟩ := h.at' hso
    have hdo := hEo.depth
    have hup := hP.up σ hσ
    obtain ⟨l, hl⟩ := ih hso heo reco hro hEo (by omega)
    refine ⟨o :: l, ?_⟩
    rw [ho]
    unfold Verif.Env.outers
    simp only [env_ok heo, bind, Except.bind, hl]

/-- The stack of an environment can always be built, and then holds the environments around. -/
theorem Sim.buildStack {P : Code} {sc : List Nat} {s : State} {w : Spec.World} (h : Sim P sc s w)
    (hP : P.WF) {e σ : Nat} (hs : sc[e]? = some σ) :
    ∃ envs' env', buildStack s e = .ok { s with envs := envs' } ∧ Sim P sc { s with envs := envs' } w ∧
      envs'[e]? = some env' ∧
      (∀ l, env'.stack = some l → l.length = P.depth σ ∧
        ∀ k f, l[k]? = some f → anc s.envs e (k + 1) = some f) ∧
      (P.depth σ ≠ 0 → env'.stack ≠ none) := by
  obtain ⟨env, rec, he, hr, hE⟩ := h.at' hs
  unfold Verif.Env.buildStack
  simp only [env_ok he, bind, Except.bind]
  cases hst : env.stack with
  | some l =>
    refine ⟨s.envs, env, rfl, h, he, ?_, fun _ => by rw [hst]; simp⟩
    intro l' hl'
    rw [← hE.depth]
    exact hE.stack l' hl'
  | none =>
    simp only
    by_cases hd : env.depth = 0
    · rw [if_pos hd]
      refine ⟨s.envs, env, rfl, h, he, ?_, fun hn => absurd (hE.depth ▸ hd) hn⟩
      intro l' hl'
      rw [hst] at hl'
      simp at hl'
    · rw [if_neg hd]
      obtain ⟨l, hl⟩ := h.outers hP hs he
      rw [hl]
      simp only
      obtain ⟨hlen, hk⟩ := outers_ok hl
      have hlt : e < s.envs.length := (List.getElem?_eq_some_iff.mp he).1
      have hnew : ∀ k f, l[k]? = some f → anc s.envs e (k + 1) = some f := by
        intro k f hf
        obtain ⟨o, ho, ha⟩ := hk k f hf
        unfold anc
        rw [he]
        simp only [ho]
        exact ha
      obtain ⟨hl1, hl2⟩ := addBackRefs_spec (s.envs.set e { env with stack := some l }) e l
      rw [List.length_set] at hl1
      have hget : ∀ (i : Nat) (env' : Env),
          (addBackRefs (s.envs.set e { env with stack := some l }) e l)[i]? = some env' →
          ∃ env0 br, s.envs[i]? = some env0 ∧
            env' = { env0 with stack := if i = e then some l else env0.stack, backRefs := br } := by
        intro i env' hi
        obtain ⟨env0, br, h0, h0'⟩ := hl2 i env' hi
        rw [List.getElem?_set] at h0
        by_cases hei : e = i
        · rw [if_pos hei, if_pos hlt] at h0
          simp only [Option.some.injEq] at h0
          subst hei
          exact ⟨env, br, he, by rw [h0', ← h0, if_pos rfl]⟩
        · rw [if_neg hei] at h0
          exact ⟨env0, br, h0, by rw [h0', if_neg (fun h' => hei h'.symm)]⟩
      have hex : e < (addBackRefs (s.envs.set e { env with stack := some l }) e l).length := by
        rw [hl1]; exact hlt
      refine ⟨_, _, rfl, ?_, List.getElem?_eq_getElem hex, ?_, ?_⟩
      · refine h.update hl1 rfl ?_ rfl ?_
        · intro i env0 env' rec0 rec0' hi hi' hri hri'
          obtain ⟨env1, br, h1, h2⟩ := hget i env' hi'
          rw [hi] at h1
          rw [hri] at hri'
          simp only [Option.some.injEq] at h1 hri'
          subst h1
          subst hri'
          obtain ⟨σ', hE'⟩ := h.entries hi hri
          subst h2
          refine ⟨⟨rfl, rfl, rfl, rfl, rfl, rfl⟩, rfl, rfl, rfl, hE'.obj, hE'.entry, ?_⟩
          intro l' hl'
          simp only at hl'
          by_cases hie : i = e
          · rw [if_pos hie] at hl'
            simp only [Option.some.injEq] at hl'
            subst hl'
            subst hie
            rw [he] at hi
            simp only [Option.some.injEq] at hi
            subst hi
            exact ⟨hlen, hnew⟩
          · rw [if_neg hie] at hl'
            exact hE'.stack l' hl'
        · intro rec0 rec0' n hr0 hr0' hh
          rw [hr0] at hr0'
          simp only [Option.some.injEq] at hr0'
          subst hr0'
          exact hh
      · intro l' hl'
        obtain ⟨env1, br, h1, h2⟩ := hget e _ (List.getElem?_eq_getElem hex)
        rw [h2] at hl'
        simp only [if_true, Option.some.injEq] at hl'
        subst hl'
        exact ⟨by rw [hlen]; exact hE.depth, hnew⟩
      · intro _
        obtain ⟨env1, br, h1, h2⟩ := hget e _ (List.getElem?_eq_getElem hex)
        rw [h2]
        simp

/-- Depths along the chain. -/
theorem sanc_depth {P : Code} (hP : P.WF) {σ k : Nat} (hk : ∀ i, i < k → sanc P σ i ≠ 0) :
    P.depth σ = P.depth (sanc P σ k) + k := by
  induction k generalizing σ with
  | zero => rfl
  | succ k ih =>
    have h0 : σ ≠ 0 := hk 0 (by omega)
    have h1 := hP.up σ h0
    have h2 := ih (σ := P.parent σ) (fun i hi => hk (i + 1) (by omega))
    show P.depth σ = P.depth (sanc P (P.parent σ) k) + (k + 1)
    omega

/-- Resolving a name gives the environment that the walk finds, whatever is cached. -/
theorem resolve_ok {P : Code} {sc : List Nat} {s : State} {w : Spec.World} (h : Sim P sc s w)
    (hP : P.WF) {e b : Nat} {a : Option Nat} (hb : b < P.names.length)
    (hs : sc[e]? = some (P.scopeOf b)) (hF : Spec.Found w.records (some e) (P.name b) a) :
    ∃ envs' names', resolve s e b = .ok ({ s with envs := envs', names := names' }, a) ∧
      Sim P sc { s with envs := envs', names := names' } w ∧
      ∀ f, a = some f → RefOk P sc w b f := by
  obtain ⟨bn, hbn, hok⟩ := h.bn hb
  obtain ⟨env, rec, he, hr, hE⟩ := h.at' hs
  unfold resolve
  simp only [env_ok he, bname_ok hbn, bind, Except.bind]
  by_cases hc : bn.envIdx ≠ noIdx ∧ env.cache = true
  · rw [if_pos hc]
    have hres := hok.env hc.1
    obtain ⟨f, hf, hsf, hFf⟩ := h.found hP hs hres.before hres.zero hres.pos
    have ha := hF.unique hFf
    subst ha
    have hrefok : RefOk P sc w b f :=
      ⟨bn.envIdx, hsf, fun i hi => ⟨(hres.before i hi).1, Or.inr (hres.before i hi).2.2⟩,
        hres.zero, fun hz _ => (hres.pos hz).2⟩
    by_cases hz : bn.envIdx = 0
    · rw [if_pos hz]
      rw [hz] at hf
      simp only [anc, Option.some.injEq] at hf
      subst hf
      refine ⟨s.envs, s.names, rfl, h, ?_⟩
      intro f hf
      simp only [Option.some.injEq] at hf
      subst hf
      exact hrefok
    · rw [if_neg hz]
      obtain ⟨envs', env', hbs, hsim, he', hst, hne⟩ := h.buildStack hP hs
      rw [hbs]
      simp only
      rw [env_ok (s := { s with envs := envs' }) he']
      simp only
      have hdep := sanc_depth hP (fun i hi => (hres.before i hi).1)
      have hd0 : P.depth (P.scopeOf b) ≠ 0 := by omega
      cases hstk : env'.stack with
      | none => exact absurd hstk (hne hd0)
      | some l =>
        simp only
        obtain ⟨hll, hlk⟩ := hst l hstk
        have hlt : bn.envIdx - 1 < l.length := by omega
        rw [List.getElem?_eq_getElem hlt]
        have hg := hlk _ _ (List.getElem?_eq_getElem hlt)
        rw [show bn.envIdx - 1 + 1 = bn.envIdx by omega, hf] at hg
        simp only [Option.some.injEq] at hg
        simp only
        rw [← hg]
        refine ⟨envs', s.names, rfl, hsim, ?_⟩
        intro f' hf'
        simp only [Option.some.injEq] at hf'
        subst hf'
        exact hrefok
  · rw [if_neg hc]
    have hx : bn.envIdx = noIdx := by
      apply Classical.byContradiction
      intro hne
      exact hc ⟨hne, hE.cache⟩
    have hy := hok.none' hx
    rw [← hok.name] at hF
    have hlt : e < s.envs.length := (List.getElem?_eq_some_iff.mp he).1
    obtain ⟨nc, hw, hk⟩ := walk_ok h hP hbn hx hy e s.envs.length _ env.cache a hlt hs hF
    rw [hw]
    cases a with
    | none => exact ⟨s.envs, s.names, rfl, h, by intro f hf; simp at hf⟩
    | some f =>
      simp only
      obtain ⟨k, hak, hsk, hW⟩ := hk f rfl
      rw [hok.name] at hW
      have hrefok : RefOk P sc w b f :=
        ⟨k, hsk, fun i hi => ⟨(hW.before i hi).1, (hW.before i hi).2.1⟩, hW.zero,
          fun hz hkind => (hW.pos hz).1 hkind⟩
      by_cases hnc : nc = true
      · rw [if_pos hnc]
        obtain ⟨fenv, frec, hfe, hfr, hfE⟩ := h.at' hsk
        rw [env_ok hfe]
        simp only [bname_ok hbn]
        have hdep := sanc_depth hP (fun i hi => (hW.before i hi).1)
        have hshallow := hP.shallow (P.scopeOf b)
        have hk' : (env.depth - fenv.depth) % 65536 = k := by
          rw [hE.depth, hfE.depth]
          omega
        have hk16 : k ≠ noIdx := by
          unfold noIdx; omega
        have hsim2 : Sim P sc { s with names := s.names.set b { bn with envIdx := k } } w := by
          apply h.setName
          refine { name := hok.name, none' := fun _ => hy, env := fun _ => ?_,
                   bind := fun hb' => absurd hy hb' }
          refine { before := ?_, zero := hW.zero, pos := ?_ }
          · intro i hi
            obtain ⟨h1, h2, h3⟩ := hW.before i hi
            refine ⟨h1, h3 hnc, ?_⟩
            rcases h2 with h2 | h2
            · exact absurd h2 (h3 hnc)
            · exact h2
          · intro hz
            exact ⟨(hW.pos hz).2 hnc, (hW.pos hz).1 ((hW.pos hz).2 hnc)⟩
        obtain ⟨envs', env', hbs, hsim, he', hst, hne⟩ := hsim2.buildStack hP hs
        rw [hk', hbs]
        refine ⟨envs', s.names.set b { bn with envIdx := k }, rfl, hsim, ?_⟩
        intro f' hf'
        simp only [Option.some.injEq] at hf'
        subst hf'
        exact hrefok
      · rw [if_neg hnc]
        refine ⟨s.envs, s.names, rfl, h, ?_⟩
        intro f' hf'
        simp only [Option.some.injEq] at hf'
        subst hf'
        exact hrefok

end Verif.Env

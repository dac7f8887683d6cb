import Verif.Lemmas.EnvOps

/-! New bindings in the global environment and new environments. -/

namespace Verif.Env

/-- The cell of a new binding. -/
def freshCell (imm strict del : Bool) (idx : Nat) : Cell :=
  { deletable := !imm && del, immutable := imm, strict := imm && strict, initialized := false,
    value := undef, idx := idx }

theorem declCreate_ok {s : State} {e b : Nat} {env : Env} {bn : BName} {imm strict del : Bool}
    (he : s.envs[e]? = some env) (hbn : s.names[b]? = some bn)
    (hf : find env.hash bn.name = none) (hc : env.cache = true) :
    declCreate s e b imm strict del = .ok { s with
      cells := s.cells ++ [some (freshCell imm strict del (env.vec.length % 65536))]
      envs := s.envs.set e { env with
        hash := env.hash ++ [(bn.name, s.cells.length)], vec := env.vec ++ [s.cells.length] } } := by
  unfold declCreate lookup
  simp only [env_ok he, bname_ok hbn, bind, Except.bind]
  rw [if_neg (by simp)]
  simp only [hf]
  unfold addBinding
  simp only [env_ok he, bname_ok hbn, bind, Except.bind, hc, if_true]
  rfl

theorem freshCell_ok (imm strict : Bool) (idx : Nat) :
    CellOk (freshCell imm strict false idx) (Spec.fresh imm strict false) := by
  refine { imm := ?_, strict := rfl, del := ?_, del' := ?_, none' := fun _ => rfl,
           some' := fun v hv => ?_ }
  · simp [freshCell, Spec.fresh]
  · simp [freshCell]
  · simp [Spec.fresh]
  · simp [Spec.fresh] at hv

/-- A further declaration in the global environment. -/
theorem Sim.create {P : Code} {sc : List Nat} {s : State} {w : Spec.World} (h : Sim P sc s w)
    {b : Nat} {imm strict : Bool} {rec rec' : Spec.Record} (hb : b < P.names.length)
    (hr : w.records[0]? = some rec) (hfew : rec.bindings.length < 65536)
    (hc : rec.create (P.name b) imm strict false = some rec') :
    ∃ s', declCreate s 0 b imm strict false = .ok s' ∧ Sim P sc s' (w.set 0 rec') := by
  obtain ⟨env, σ, he, hσ, hE⟩ := h.at hr
  obtain ⟨bn, hbn, hok⟩ := h.bn hb
  have hσ0 : σ = 0 := hE.scope_zero.mp rfl
  subst hσ0
  unfold Spec.Record.create at hc
  rw [get_eq_find] at hc
  have hnone : find rec.bindings (P.name b) = none := by
    cases hx : find rec.bindings (P.name b) with
    | none => rfl
    | some d => rw [hx] at hc; simp at hc
  rw [hnone, if_neg (by simp)] at hc
  simp only [Option.some.injEq] at hc
  have hfind : find env.hash bn.name = none := by
    rw [hok.name]; exact (hE.get_none _).mpr hnone
  refine ⟨_, declCreate_ok he hbn hfind hE.cache, ?_⟩
  have hlt : 0 < s.envs.length := h.pos
  have hlt' : 0 < w.records.length := by rw [← h.lenE]; exact hlt
  subst hc
  -- the records and the environments of the new state
  have hrecs : ∀ e, e ≠ 0 → ((w.set 0 { rec with
      bindings := rec.bindings ++ [(P.name b, Spec.fresh imm strict false)] }).records)[e]?
      = w.records[e]? := by
    intro e he0
    simp only [Spec.World.set]
    rw [List.getElem?_set, if_neg (fun h' => he0 h'.symm)]
  have hrec0 : ((w.set 0 { rec with
      bindings := rec.bindings ++ [(P.name b, Spec.fresh imm strict false)] }).records)[0]?
      = some { rec with bindings := rec.bindings ++ [(P.name b, Spec.fresh imm strict false)] } := by
    simp only [Spec.World.set]
    rw [List.getElem?_set, if_pos rfl, if_pos hlt']
  generalize hw' : w.set 0 { rec with
      bindings := rec.bindings ++ [(P.name b, Spec.fresh imm strict false)] } = w' at hrecs hrec0
  have hrefs : w'.references = w.references := by rw [← hw']; rfl
  have hlenR : w'.records.length = w.records.length := by
    rw [← hw']; simp [Spec.World.set]
  have hlay0 : layout P w' 0 = layout P w 0 ++ [P.name b] := by
    unfold layout
    rw [if_pos rfl, if_pos rfl, hrec0, hr]
    simp
  have hlay : ∀ τ, τ ≠ 0 → layout P w' τ = layout P w τ := by
    intro τ hτ
    unfold layout
    rw [if_neg hτ, if_neg hτ]
  have hzero : ∀ n, (∃ r, w.records[0]? = some r ∧ r.has n = true) →
      ∃ r, w'.records[0]? = some r ∧ r.has n = true := by
    intro n ⟨r, hr0, hh⟩
    rw [hr] at hr0
    simp only [Option.some.injEq] at hr0
    subst hr0
    refine ⟨_, hrec0, ?_⟩
    unfold Spec.Record.has at hh ⊢
    simp only [get_eq_find, find_append] at hh ⊢
    have hor : ∀ o : Option Spec.Binding, (find rec.bindings n).isSome = true →
        ((find rec.bindings n).or o).isSome = true := by
      intro o ho
      cases hx : find rec.bindings n with
      | none => rw [hx] at ho; simp at ho
      | some d => rfl
    cases hf : rec.form with
    | declarative => rw [hf] at hh; exact hor _ hh
    | object => rw [hf] at hh; exact hh
    | global =>
      rw [hf] at hh
      simp only [Bool.or_eq_true] at hh ⊢
      rcases hh with hh | hh
      · exact Or.inl (hor _ hh)
      · exact Or.inr hh
  have hidx : ∀ (τ j : Nat) (n : Name), (layout P w τ)[j]? = some n → (layout P w' τ)[j]? = some n := by
    intro τ j n hj
    by_cases hτ : τ = 0
    · subst hτ
      rw [hlay0]
      have hjl : j < (layout P w 0).length := (List.getElem?_eq_some_iff.mp hj).1
      rw [List.getElem?_append_left hjl]
      exact hj
    · rw [hlay τ hτ]; exact hj
  have hmem : ∀ (τ : Nat) (n : Name), n ∈ layout P w τ → n ∈ layout P w' τ := by
    intro τ n hn
    by_cases hτ : τ = 0
    · subst hτ; rw [hlay0]; exact List.mem_append_left _ hn
    · rw [hlay τ hτ]; exact hn
  have hcells : ∀ (c : Nat) (x : Cell) (y : Option Cell), s.cells[c]? = some (some x) →
      (s.cells ++ [y])[c]? = some (some x) := by
    intro c x y hx
    have hcl : c < s.cells.length := (List.getElem?_eq_some_iff.mp hx).1
    rw [List.getElem?_append_left hcl]
    exact hx
  have hsame : SameOuter s.envs (s.envs.set 0 { env with
      hash := env.hash ++ [(bn.name, s.cells.length)], vec := env.vec ++ [s.cells.length] }) := by
    intro e env0 he0
    rw [List.getElem?_set]
    by_cases hz : 0 = e
    · subst hz
      rw [if_pos rfl, if_pos hlt]
      rw [he] at he0
      simp only [Option.some.injEq] at he0
      subst he0
      exact ⟨_, rfl, rfl⟩
    · rw [if_neg hz]
      exact ⟨env0, he0, rfl⟩
  have hold : ∀ (e i : Nat) (env0 : Env) (n : Name) (c : Nat), s.envs[e]? = some env0 →
      env0.hash[i]? = some (n, c) → c < s.cells.length := by
    intro e i env0 n c he0 hi
    obtain ⟨hl0, _⟩ := List.getElem?_eq_some_iff.mp he0
    have hlr : e < w.records.length := by rw [← h.lenE]; exact hl0
    obtain ⟨σ0, hE0⟩ := h.entries he0 (List.getElem?_eq_getElem hlr)
    obtain ⟨_, _, _, hx, _⟩ := hE0.entry i n c hi
    exact (List.getElem?_eq_some_iff.mp hx).1
  refine { lenE := ?_, lenS := ?_, pos := ?_, env := ?_, apart := ?_, lenN := h.lenN, name := ?_,
           lenR := ?_, ref := ?_ }
  · simp only [List.length_set]
    rw [hlenR]; exact h.lenE
  · simp only [List.length_set]; exact h.lenS
  · simp only [List.length_set]; exact h.pos
  · intro e env' rec0 σ' he' hr' hσ'
    simp only [List.getElem?_set] at he'
    by_cases hz : 0 = e
    · subst hz
      rw [if_pos rfl, if_pos hlt] at he'
      rw [hrec0] at hr'
      rw [hσ] at hσ'
      simp only [Option.some.injEq] at he' hr' hσ'
      subst he'
      subst hr'
      subst hσ'
      refine { outer := hE.outer, form := hE.form, cache := hE.cache, obj := hE.obj, vec := ?_,
               len := ?_, entry := ?_, nodup := ?_, few := ?_, names := ?_, depth := hE.depth,
               zero := hE.zero, pos := hE.pos, stack := ?_ }
      · simp only [List.map_append, List.map_cons, List.map_nil]
        rw [hE.vec]
      · simp only [List.length_append, List.length_singleton, hE.len]
      · intro i n c hi
        simp only at hi
        rw [List.getElem?_append] at hi
        by_cases hil : i < env.hash.length
        · rw [if_pos hil] at hi
          obtain ⟨d, x, hd, hx, hxok, hxi⟩ := hE.entry i n c hi
          refine ⟨d, x, ?_, hcells c x _ hx, hxok, hxi⟩
          simp only
          rw [List.getElem?_append_left (by rw [← hE.len]; exact hil)]
          exact hd
        · rw [if_neg hil] at hi
          by_cases hi0 : i - env.hash.length = 0
          · rw [hi0] at hi
            simp only [List.getElem?_cons_zero, Option.some.injEq, Prod.mk.injEq] at hi
            have hil' : i = env.hash.length := by omega
            refine ⟨Spec.fresh imm strict false,
              freshCell imm strict false (env.vec.length % 65536), ?_, ?_,
              freshCell_ok imm strict _, ?_⟩
            · simp only
              rw [hil', hE.len, List.getElem?_append_right (Nat.le_refl _), Nat.sub_self,
                List.getElem?_cons_zero, ← hi.1, hok.name]
            · simp only
              rw [← hi.2, List.getElem?_append_right (Nat.le_refl _), Nat.sub_self]
              rfl
            · show env.vec.length % 65536 = i % 65536
              rw [hE.vec, List.length_map, hil']
          · obtain ⟨m, hm⟩ : ∃ m, i - env.hash.length = m + 1 :=
              ⟨i - env.hash.length - 1, by omega⟩
            rw [hm] at hi
            simp at hi
      · simp only [List.map_append, List.map_cons, List.map_nil]
        rw [List.nodup_append]
        refine ⟨hE.nodup, by simp, ?_⟩
        intro a ha b' hb'
        simp only [List.mem_singleton] at hb'
        subst hb'
        intro hab
        subst hab
        exact (find_none_iff.mp hfind) ha
      · simp only [List.length_append, List.length_singleton]
        have := hE.len
        omega
      · simp only [List.map_append, List.map_cons, List.map_nil]
        rw [hlay0, hE.names, hok.name]
      · intro l hl
        obtain ⟨h1, h2⟩ := hE.stack l hl
        exact ⟨h1, fun k f hf => anc_mono hsame (h2 k f hf)⟩
    · rw [if_neg hz] at he'
      rw [hrecs e (fun h' => hz h'.symm)] at hr'
      have ho := h.env e env' rec0 σ' he' hr' hσ'
      have hσ'0 : σ' ≠ 0 := fun h' => hz (ho.scope_zero.mpr h').symm
      refine { outer := ho.outer, form := ho.form, cache := ho.cache, obj := ho.obj, vec := ho.vec,
               len := ho.len, entry := ?_, nodup := ho.nodup, few := ho.few, names := ?_,
               depth := ho.depth, zero := ho.zero, pos := ho.pos, stack := ?_ }
      · intro i n c hi
        obtain ⟨d, x, hd, hx, hxok, hxi⟩ := ho.entry i n c hi
        exact ⟨d, x, hd, hcells c x _ hx, hxok, hxi⟩
      · rw [hlay σ' hσ'0]; exact ho.names
      · intro l hl
        obtain ⟨h1, h2⟩ := ho.stack l hl
        exact ⟨h1, fun k f hf => anc_mono hsame (h2 k f hf)⟩
  · have hcase : ∀ (e i : Nat) (env' : Env) (n : Name) (c : Nat),
        (s.envs.set 0 { env with hash := env.hash ++ [(bn.name, s.cells.length)], vec := env.vec ++ [s.cells.length] })[e]? = some env' →
        env'.hash[i]? = some (n, c) →
        (e = 0 ∧ i = env.hash.length ∧ c = s.cells.length) ∨
        (∃ env0, s.envs[e]? = some env0 ∧ env0.hash[i]? = some (n, c)) := by
      intro e i env' n c he' hi
      rw [List.getElem?_set] at he'
      by_cases hz : 0 = e
      · subst hz
        rw [if_pos rfl, if_pos hlt] at he'
        simp only [Option.some.injEq] at he'
        subst he'
        simp only at hi
        rw [List.getElem?_append] at hi
        by_cases hil : i < env.hash.length
        · rw [if_pos hil] at hi
          exact Or.inr ⟨env, he, hi⟩
        · rw [if_neg hil] at hi
          by_cases hi0 : i - env.hash.length = 0
          · rw [hi0] at hi
            simp only [List.getElem?_cons_zero, Option.some.injEq, Prod.mk.injEq] at hi
            exact Or.inl ⟨rfl, by omega, hi.2.symm⟩
          · obtain ⟨m, hm⟩ : ∃ m, i - env.hash.length = m + 1 :=
              ⟨i - env.hash.length - 1, by omega⟩
            rw [hm] at hi
            simp at hi
      · rw [if_neg hz] at he'
        exact Or.inr ⟨env', he', hi⟩
    intro e e' env1 env2 i i' n n' c h1 h2 h3 h4
    rcases hcase e i env1 n c h1 h3 with ⟨a1, a2, a3⟩ | ⟨env3, a1, a2⟩
    · rcases hcase e' i' env2 n' c h2 h4 with ⟨b1, b2, b3⟩ | ⟨env4, b1, b2⟩
      · exact ⟨by rw [a1, b1], by rw [a2, b2]⟩
      · exact absurd (hold e' i' env4 n' c b1 b2) (by omega)
    · rcases hcase e' i' env2 n' c h2 h4 with ⟨b1, b2, b3⟩ | ⟨env4, b1, b2⟩
      · exact absurd (hold e i env3 n c a1 a2) (by omega)
      · exact h.apart e e' env3 env4 i i' n n' c a1 b1 a2 b2
  · intro b' bn' hb'
    have ho := h.name b' bn' hb'
    refine { name := ho.name, none' := ho.none', env := fun hx => ?_,
             bind := fun hx => hidx _ _ _ (ho.bind hx) }
    have hres := ho.env hx
    refine { before := ?_, zero := fun hz => hzero _ (hres.zero hz), pos := ?_ }
    · intro i hi
      obtain ⟨h1, h2, h3⟩ := hres.before i hi
      exact ⟨h1, h2, by rw [hlay _ h1]; exact h3⟩
    · intro hz
      exact ⟨(hres.pos hz).1, hmem _ _ (hres.pos hz).2⟩
  · rw [hrefs]; exact h.lenR
  · intro r x y hx hy
    rw [hrefs] at hy
    obtain ⟨h1, h2, h3, h4⟩ := h.ref r x y hx hy
    refine ⟨h1, h2, h3, ?_⟩
    intro f hf
    obtain ⟨k, hk1, hk2, hk3, hk4⟩ := h4 f hf
    refine ⟨k, hk1, ?_, fun hz => hzero _ (hk3 hz), fun hz hk => hmem _ _ (hk4 hz hk)⟩
    intro i hi
    obtain ⟨h1, h2⟩ := hk2 i hi
    exact ⟨h1, by rw [hlay _ h1]; exact h2⟩

/-- The table of a new environment while its bindings are declared. -/
structure Tab (base : Nat) (cells : List (Option Cell)) (env : Env) (rec : Spec.Record) : Prop where
  vec : env.vec = env.hash.map Prod.snd
  len : env.hash.length = rec.bindings.length
  entry : ∀ (i : Nat) (n : Name) (c : Nat), env.hash[i]? = some (n, c) →
    ∃ d x, rec.bindings[i]? = some (n, d) ∧ cells[c]? = some (some x) ∧ CellOk x d ∧
      x.idx = i % 65536 ∧ c = base + i
  names : env.hash.map Prod.fst = rec.bindings.map Prod.fst
  nodup : (env.hash.map Prod.fst).Nodup
  size : cells.length = base + env.hash.length

theorem declareAll_ok {P : Code} {s : State} {e : Nat} {env : Env} {rec rec' : Spec.Record}
    {base : Nat} {decls : List (Nat × Bool × Bool)}
    (hnames : ∀ b, b < P.names.length → ∃ bn, s.names[b]? = some bn ∧ bn.name = P.name b)
    (hknown : ∀ d, d ∈ decls → d.1 < P.names.length)
    (he : s.envs[e]? = some env) (hc : env.cache = true) (ht : Tab base s.cells env rec)
    (hd : rec.declareAll (P.named decls) = some rec') :
    ∃ env' new, declareAll s e decls = .ok { s with
        envs := s.envs.set e env', cells := s.cells ++ new } ∧
      Tab base (s.cells ++ new) env' rec' ∧
      env' = { env with hash := env'.hash, vec := env'.vec } ∧
      rec' = { rec with bindings := rec'.bindings } ∧
      env'.hash.map Prod.fst = env.hash.map Prod.fst ++ decls.map fun d => P.name d.1 := by
  induction decls generalizing s env rec with
  | nil =>
    simp only [Code.named, List.map_nil, Spec.Record.declareAll, Option.some.injEq] at hd
    subst hd
    have hset : s.envs.set e env = s.envs := by
      apply List.ext_getElem?
      intro j
      rw [List.getElem?_set]
      by_cases hj : e = j
      · subst hj
        rw [if_pos rfl, if_pos (List.getElem?_eq_some_iff.mp he).1, he]
      · rw [if_neg hj]
    refine ⟨env, [], ?_, ?_, rfl, rfl, by simp⟩
    · unfold declareAll
      rw [hset, List.append_nil]
    · rw [List.append_nil]; exact ht
  | cons dcl decls ih =>
    obtain ⟨b, imm, strict⟩ := dcl
    simp only [Code.named, List.map_cons] at hd
    unfold Spec.Record.declareAll at hd
    obtain ⟨bn, hbn, hbname⟩ := hnames b (hknown (b, imm, strict) List.mem_cons_self)
    cases hcr : rec.create (P.name b) imm strict false with
    | none => rw [hcr] at hd; simp at hd
    | some rec1 =>
      rw [hcr] at hd
      simp only at hd
      unfold Spec.Record.create at hcr
      rw [get_eq_find] at hcr
      have hnone : find rec.bindings (P.name b) = none := by
        cases hx : find rec.bindings (P.name b) with
        | none => rfl
        | some d => rw [hx] at hcr; simp at hcr
      rw [hnone, if_neg (by simp)] at hcr
      simp only [Option.some.injEq] at hcr
      have hfind : find env.hash bn.name = none := by
        rw [hbname, find_none_iff, ht.names, ← find_none_iff]; exact hnone
      have hlt : e < s.envs.length := (List.getElem?_eq_some_iff.mp he).1
      unfold declareAll
      simp only [declCreate_ok he hbn hfind hc, bind, Except.bind]
      have ht1 : Tab base (s.cells ++ [some (freshCell imm strict false (env.vec.length % 65536))])
          { env with hash := env.hash ++ [(bn.name, s.cells.length)],
                     vec := env.vec ++ [s.cells.length] } rec1 := by
        subst hcr
        refine { vec := ?_, len := ?_, entry := ?_, names := ?_, nodup := ?_, size := ?_ }
        · simp only [List.map_append, List.map_cons, List.map_nil]
          rw [ht.vec]
        · simp only [List.length_append, List.length_singleton, ht.len]
        · intro i n c hi
          simp only at hi
          rw [List.getElem?_append] at hi
          by_cases hil : i < env.hash.length
          · rw [if_pos hil] at hi
            obtain ⟨d, x, hd', hx, hxok, hxi, hci⟩ := ht.entry i n c hi
            refine ⟨d, x, ?_, ?_, hxok, hxi, hci⟩
            · simp only
              rw [List.getElem?_append_left (by rw [← ht.len]; exact hil)]
              exact hd'
            · rw [List.getElem?_append_left (List.getElem?_eq_some_iff.mp hx).1]
              exact hx
          · rw [if_neg hil] at hi
            by_cases hi0 : i - env.hash.length = 0
            · rw [hi0] at hi
              simp only [List.getElem?_cons_zero, Option.some.injEq, Prod.mk.injEq] at hi
              have hil' : i = env.hash.length := by omega
              refine ⟨Spec.fresh imm strict false,
                freshCell imm strict false (env.vec.length % 65536), ?_, ?_,
                freshCell_ok imm strict _, ?_, ?_⟩
              · simp only
                rw [hil', ht.len, List.getElem?_append_right (Nat.le_refl _), Nat.sub_self,
                  List.getElem?_cons_zero, ← hi.1, hbname]
              · rw [← hi.2, List.getElem?_append_right (Nat.le_refl _), Nat.sub_self]
                rfl
              · show env.vec.length % 65536 = i % 65536
                rw [ht.vec, List.length_map, hil']
              · rw [← hi.2, ht.size, hil']
            · obtain ⟨m, hm⟩ : ∃ m, i - env.hash.length = m + 1 :=
                ⟨i - env.hash.length - 1, by omega⟩
              rw [hm] at hi
              simp at hi
        · simp only [List.map_append, List.map_cons, List.map_nil]
          rw [ht.names, hbname]
        · simp only [List.map_append, List.map_cons, List.map_nil]
          rw [List.nodup_append]
          refine ⟨ht.nodup, by simp, ?_⟩
          intro a ha b' hb'
          simp only [List.mem_singleton] at hb'
          subst hb'
          intro hab
          subst hab
          exact (find_none_iff.mp hfind) ha
        · simp only [List.length_append, List.length_singleton, ht.size]
          omega
      obtain ⟨env', new, hda, ht', henv', hrec', hfst⟩ := ih (s := { s with
          cells := s.cells ++ [some (freshCell imm strict false (env.vec.length % 65536))]
          envs := s.envs.set e { env with
            hash := env.hash ++ [(bn.name, s.cells.length)], vec := env.vec ++ [s.cells.length] } })
        (env := { env with
            hash := env.hash ++ [(bn.name, s.cells.length)], vec := env.vec ++ [s.cells.length] })
        hnames (fun d hd => hknown d (List.mem_cons_of_mem _ hd))
        (by simp only; rw [List.getElem?_set, if_pos rfl, if_pos hlt]) hc ht1 hd
      refine ⟨env', some (freshCell imm strict false (env.vec.length % 65536)) :: new, ?_, ?_, ?_,
        ?_, ?_⟩
      · rw [hda]
        simp only [List.set_set, List.append_assoc, List.singleton_append]
      · simp only [List.append_assoc, List.singleton_append] at ht'
        exact ht'
      · rw [henv']
      · rw [hrec', ← hcr]
      · rw [hfst]
        simp only [List.map_append, List.map_cons, List.map_nil, List.append_assoc,
          List.singleton_append, hbname]

/-- A new environment without bindings. -/
def blank (kind : Kind) (outer depth : Nat) (obj : List (Name × Val)) : Env :=
  { kind := kind, outer := some outer, depth := depth, cache := true, hash := [], vec := []
    stack := none, backRefs := [], obj := obj }

/-- Entering a scope. -/
theorem Sim.enter {P : Code} {sc : List Nat} {s : State} {w : Spec.World} (h : Sim P sc s w)
    (hP : P.WF) {σ outer : Nat} {obj : List (Name × Val)} {rec : Spec.Record} (hσ : σ ≠ 0)
    (ho : sc[outer]? = some (P.parent σ))
    (hd : Spec.Record.declareAll
      { form := if decide (P.kind σ = .withObj) then .object else .declarative,
        outer := some outer, bindings := [], object := obj } (P.named (P.decls σ)) = some rec) :
    ∃ s', step s (.enter (P.kind σ) outer (P.decls σ) obj)
        = .ok (s', .env (some w.records.length)) ∧
      Sim P (sc ++ [σ]) s' { w with records := w.records ++ [rec] } := by
  obtain ⟨oenv, orec, hoe, hor, hoE⟩ := h.at' ho
  have hol : outer < s.envs.length := (List.getElem?_eq_some_iff.mp hoe).1
  have hlenE := h.lenE
  have hlenS := h.lenS
  let new0 : Env := blank (P.kind σ) outer (oenv.depth + 1) obj
  have hnew : newEnv s (P.kind σ) (some outer) obj = .ok { s with envs := s.envs ++ [new0] } := by
    unfold newEnv
    simp only [env_ok hoe, bind, Except.bind]
    rfl
  obtain ⟨env', new, hda, ht, henv', hrec', hfst⟩ := declareAll_ok (P := P)
    (s := { s with envs := s.envs ++ [new0] }) (e := s.envs.length) (env := new0)
    (base := s.cells.length)
    (fun b hb => by
      obtain ⟨bn, h1, h2⟩ := h.bn hb
      exact ⟨bn, h1, h2.name⟩)
    (hP.known σ)
    (by simp only; rw [List.getElem?_append_right (Nat.le_refl _), Nat.sub_self]; rfl) rfl
    { vec := rfl, len := rfl, entry := fun i n c hi => by simp [new0, blank] at hi, names := rfl,
      nodup := by simp [new0, blank], size := by simp [new0, blank] } hd
  have hset : (s.envs ++ [new0]).set s.envs.length env' = s.envs ++ [env'] := by
    rw [List.set_append_right _ _ (Nat.le_refl _), Nat.sub_self]; rfl
  refine ⟨{ s with envs := s.envs ++ [env'], cells := s.cells ++ new }, ?_, ?_⟩
  · unfold step
    simp only [hnew, bind, Except.bind]
    rw [hda]
    simp only [hset]
    rw [hlenE]
  have hkeep : ∀ (c : Nat) (x : Cell), s.cells[c]? = some (some x) →
      (s.cells ++ new)[c]? = some (some x) := by
    intro c x hx
    rw [List.getElem?_append_left (List.getElem?_eq_some_iff.mp hx).1]
    exact hx
  have hsame : SameOuter s.envs (s.envs ++ [env']) := by
    intro e env0 he0
    exact ⟨env0, by rw [List.getElem?_append_left (List.getElem?_eq_some_iff.mp he0).1]; exact he0,
      rfl⟩
  have hpos : 0 < w.records.length := by rw [← hlenE]; exact h.pos
  have hrec0 : (w.records ++ [rec])[0]? = w.records[0]? := List.getElem?_append_left hpos
  have hlay : ∀ τ, layout P { w with records := w.records ++ [rec] } τ = layout P w τ := by
    intro τ
    unfold layout
    simp only [hrec0]
  have hsc : ∀ (e τ : Nat), sc[e]? = some τ → (sc ++ [σ])[e]? = some τ := by
    intro e τ hτ
    rw [List.getElem?_append_left (List.getElem?_eq_some_iff.mp hτ).1]
    exact hτ
  have hsplit : ∀ (e : Nat) (env0 : Env), (s.envs ++ [env'])[e]? = some env0 →
      (e < s.envs.length ∧ s.envs[e]? = some env0) ∨ (e = s.envs.length ∧ env0 = env') := by
    intro e env0 he0
    rw [List.getElem?_append] at he0
    by_cases hlt : e < s.envs.length
    · rw [if_pos hlt] at he0; exact Or.inl ⟨hlt, he0⟩
    · rw [if_neg hlt] at he0
      by_cases hz : e - s.envs.length = 0
      · rw [hz] at he0
        simp only [List.getElem?_cons_zero, Option.some.injEq] at he0
        exact Or.inr ⟨by omega, he0.symm⟩
      · obtain ⟨m, hm⟩ : ∃ m, e - s.envs.length = m + 1 := ⟨e - s.envs.length - 1, by omega⟩
        rw [hm] at he0
        simp at he0
  have hold : ∀ (e i : Nat) (env0 : Env) (n : Name) (c : Nat), s.envs[e]? = some env0 →
      env0.hash[i]? = some (n, c) → c < s.cells.length := by
    intro e i env0 n c he0 hi
    have hlr : e < w.records.length := by
      rw [← h.lenE]; exact (List.getElem?_eq_some_iff.mp he0).1
    obtain ⟨σ0, hE0⟩ := h.entries he0 (List.getElem?_eq_getElem hlr)
    obtain ⟨_, _, _, hx, _⟩ := hE0.entry i n c hi
    exact (List.getElem?_eq_some_iff.mp hx).1
  refine { lenE := ?_, lenS := ?_, pos := ?_, env := ?_, apart := ?_, lenN := h.lenN, name := ?_,
           lenR := h.lenR, ref := ?_ }
  · simp only [List.length_append, List.length_singleton, hlenE]
  · simp only [List.length_append, List.length_singleton, hlenS]
  · simp only [List.length_append, List.length_singleton]; omega
  · intro e env0 rec0 τ he0 hr0 hτ
    rcases hsplit e env0 he0 with ⟨hlt, he1⟩ | ⟨heq, he1⟩
    · simp only at hr0
      rw [List.getElem?_append_left (by rw [← hlenE]; exact hlt)] at hr0
      rw [List.getElem?_append_left (by rw [← hlenS]; exact hlt)] at hτ
      have hE := h.env e env0 rec0 τ he1 hr0 hτ
      refine { outer := hE.outer, form := hE.form, cache := hE.cache, obj := hE.obj, vec := hE.vec,
               len := hE.len, entry := ?_, nodup := hE.nodup, few := hE.few, names := ?_,
               depth := hE.depth, zero := hE.zero, pos := ?_, stack := ?_ }
      · intro i n c hi
        obtain ⟨d, x, hd', hx, hxok, hxi⟩ := hE.entry i n c hi
        exact ⟨d, x, hd', hkeep c x hx, hxok, hxi⟩
      · rw [hlay]; exact hE.names
      · intro hz
        obtain ⟨p1, p2, o, p3, p4, p5⟩ := hE.pos hz
        exact ⟨p1, p2, o, p3, p4, hsc _ _ p5⟩
      · intro l hl
        obtain ⟨h1, h2⟩ := hE.stack l hl
        exact ⟨h1, fun k f hf => anc_mono hsame (h2 k f hf)⟩
    · subst heq
      subst he1
      simp only at hr0
      rw [hlenE, List.getElem?_append_right (Nat.le_refl _), Nat.sub_self] at hr0
      rw [hlenS, List.getElem?_append_right (Nat.le_refl _), Nat.sub_self] at hτ
      simp only [List.getElem?_cons_zero, Option.some.injEq] at hr0 hτ
      subst hr0
      subst hτ
      have hk : env0.kind = P.kind σ := by rw [henv']; rfl
      have hout : env0.outer = some outer := by rw [henv']; rfl
      have hdep : env0.depth = oenv.depth + 1 := by rw [henv']; rfl
      have hhash : env0.hash.map Prod.fst = (P.decls σ).map fun d => P.name d.1 := by
        rw [hfst]; rfl
      refine { outer := ?_, form := ?_, cache := ?_, obj := ?_, vec := ht.vec, len := ht.len,
               entry := ?_, nodup := ht.nodup, few := ?_, names := ?_, depth := ?_, zero := ?_,
               pos := ?_, stack := ?_ }
      · rw [hout, hrec']
      · rw [hk, hrec']
        simp only
        cases hkk : P.kind σ with
        | withObj => rfl
        | decl => rfl
        | func => rfl
        | global => exact absurd hkk (hP.kinds σ)
      · rw [henv']; rfl
      · intro n; rw [henv', hrec']; rfl
      · intro i n c hi
        obtain ⟨d, x, h1, h2, h3, h4, _⟩ := ht.entry i n c hi
        exact ⟨d, x, h1, h2, h3, h4⟩
      · have := congrArg List.length hhash
        simp only [List.length_map] at this
        rw [this]; exact hP.few σ
      · rw [hlay]
        unfold layout
        rw [if_neg hσ]
        exact hhash
      · rw [hdep, hoE.depth, hP.up σ hσ]
      · intro hz
        have := h.pos
        omega
      · intro _
        exact ⟨hσ, hk, outer, hout, hol, hsc _ _ ho⟩
      · intro l hl
        rw [henv'] at hl
        simp [new0, blank] at hl
  · intro e e' env1 env2 i i' n n' c h1 h2 h3 h4
    rcases hsplit e env1 h1 with ⟨hlt, he1⟩ | ⟨heq, he1⟩
    · rcases hsplit e' env2 h2 with ⟨hlt', he2⟩ | ⟨heq', he2⟩
      · exact h.apart e e' env1 env2 i i' n n' c he1 he2 h3 h4
      · subst he2
        obtain ⟨_, _, _, _, _, _, hc⟩ := ht.entry i' n' c h4
        have := hold e i env1 n c he1 h3
        omega
    · subst he1
      obtain ⟨_, _, _, _, _, _, hc⟩ := ht.entry i n c h3
      rcases hsplit e' env2 h2 with ⟨hlt', he2⟩ | ⟨heq', he2⟩
      · have := hold e' i' env2 n' c he2 h4
        omega
      · subst he2
        obtain ⟨_, _, _, _, _, _, hc'⟩ := ht.entry i' n' c h4
        exact ⟨by rw [heq, heq'], by omega⟩
  · intro b bn hb
    have hN := h.name b bn hb
    refine { name := hN.name, none' := hN.none', env := fun hx => ?_,
             bind := fun hx => by rw [hlay]; exact hN.bind hx }
    have hres := hN.env hx
    refine { before := ?_, zero := ?_, pos := ?_ }
    · intro i hi
      rw [hlay]; exact hres.before i hi
    · simp only [hrec0]; exact hres.zero
    · rw [hlay]; exact hres.pos
  · intro r x y hx hy
    obtain ⟨h1, h2, h3, h4⟩ := h.ref r x y hx hy
    refine ⟨h1, h2, h3, ?_⟩
    intro f hf
    obtain ⟨k, hk1, hk2, hk3, hk4⟩ := h4 f hf
    refine ⟨k, hsc _ _ hk1, ?_, ?_, ?_⟩
    · intro i hi; rw [hlay]; exact hk2 i hi
    · simp only [hrec0]; exact hk3
    · rw [hlay]; exact hk4

end Verif.Env

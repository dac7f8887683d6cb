import Verif.Lemmas.EnvStep

/-! Reading, writing, creating and deleting bindings in related states. -/

namespace Verif.Env

theorem State.with_self (s : State) : { s with names := s.names } = s := rfl

/-- Changing the object of an environment. -/
theorem Sim.setObj {P : Code} {sc : List Nat} {s : State} {w : Spec.World} (h : Sim P sc s w)
    {e : Nat} {env : Env} {rec : Spec.Record} (he : s.envs[e]? = some env)
    (hr : w.records[e]? = some rec) {o : List (Name × Val)} {o' : List (Nat × Nat)}
    (ho : ∀ n, find o n = find o' n)
    (hz : e = 0 → ∀ n, (find rec.object n).isSome = true → (find o' n).isSome = true) :
    Sim P sc (s.setEnv e { env with obj := o }) (w.set e { rec with object := o' }) := by
  have hlt : e < s.envs.length := (List.getElem?_eq_some_iff.mp he).1
  have hlt' : e < w.records.length := (List.getElem?_eq_some_iff.mp hr).1
  have key : Sim P sc { s with envs := s.envs.set e { env with obj := o }, cells := s.cells }
      (w.set e { rec with object := o' }) := by
    refine h.update (by rw [List.length_set]) (by simp [Spec.World.set]) ?_ rfl ?_
    · intro i env0 env' rec0 rec' hi hi' hri hri'
      obtain ⟨σ', hE'⟩ := h.entries hi hri
      simp only [Spec.World.set] at hri'
      rw [List.getElem?_set] at hi' hri'
      by_cases hei : e = i
      · subst hei
        rw [if_pos rfl, if_pos hlt] at hi'
        rw [if_pos rfl, if_pos hlt'] at hri'
        rw [he] at hi
        rw [hr] at hri
        simp only [Option.some.injEq] at hi hri hi' hri'
        subst hi
        subst hri
        subst hi'
        subst hri'
        exact ⟨⟨rfl, rfl, rfl, rfl, rfl, rfl⟩, rfl, rfl, rfl, ho, hE'.entry, hE'.stack⟩
      · rw [if_neg hei] at hi' hri'
        rw [hi] at hi'
        rw [hri] at hri'
        simp only [Option.some.injEq] at hi' hri'
        subst hi'
        subst hri'
        exact ⟨⟨rfl, rfl, rfl, rfl, rfl, rfl⟩, rfl, rfl, rfl, hE'.obj, hE'.entry, hE'.stack⟩
    · intro rec0 rec0' n hr0 hr0' hh
      simp only [Spec.World.set] at hr0'
      rw [List.getElem?_set] at hr0'
      by_cases hei : e = 0
      · subst hei
        rw [if_pos rfl, if_pos hlt'] at hr0'
        rw [hr] at hr0
        simp only [Option.some.injEq] at hr0 hr0'
        subst hr0
        subst hr0'
        unfold Spec.Record.has at hh ⊢
        simp only [get_eq_find] at hh ⊢
        cases hf : rec.form with
        | declarative => rw [hf] at hh; exact hh
        | object => rw [hf] at hh; exact hz rfl n hh
        | global =>
          rw [hf] at hh
          simp only [Bool.or_eq_true] at hh ⊢
          rcases hh with hh | hh
          · exact Or.inl hh
          · exact Or.inr (hz rfl n hh)
      · rw [if_neg hei] at hr0'
        rw [hr0] at hr0'
        simp only [Option.some.injEq] at hr0'
        subst hr0'
        exact hh
  exact key

/-- Changing the contents of a binding. -/
theorem Sim.setBinding {P : Code} {sc : List Nat} {s : State} {w : Spec.World} (h : Sim P sc s w)
    {e c i : Nat} {n : Name} {env : Env} {rec : Spec.Record} {d d' : Spec.Binding} {x x' : Cell}
    (he : s.envs[e]? = some env) (hr : w.records[e]? = some rec)
    (hi : env.hash[i]? = some (n, c)) (hd : find rec.bindings n = some d)
    (hx : s.cells[c]? = some (some x)) (hidx : x'.idx = x.idx) (hok : CellOk x' d') :
    Sim P sc (s.setCell c (some x'))
      (w.set e { rec with bindings := Spec.put rec.bindings n d' }) := by
  have hlt : e < s.envs.length := (List.getElem?_eq_some_iff.mp he).1
  have hlt' : e < w.records.length := (List.getElem?_eq_some_iff.mp hr).1
  have hltc : c < s.cells.length := (List.getElem?_eq_some_iff.mp hx).1
  obtain ⟨σ, hE⟩ := h.entries he hr
  have hput : Spec.put rec.bindings n d'
      = rec.bindings.map fun p => if p.1 = n then (n, d') else p := by
    unfold Spec.put
    rw [get_eq_find, hd]
    rfl
  have hfst : (Spec.put rec.bindings n d').map Prod.fst = rec.bindings.map Prod.fst := by
    rw [hput, List.map_map]
    apply List.map_congr_left
    intro p _
    simp only [Function.comp]
    by_cases hp : p.1 = n
    · rw [if_pos hp]; exact hp.symm
    · rw [if_neg hp]
  have key : Sim P sc { s with envs := s.envs, cells := s.cells.set c (some x') }
      (w.set e { rec with bindings := Spec.put rec.bindings n d' }) := by
    refine h.update rfl (by simp [Spec.World.set]) ?_ rfl ?_
    · intro j env0 env' rec0 rec' hj hj' hrj hrj'
      rw [hj] at hj'
      simp only [Option.some.injEq] at hj'
      subst hj'
      obtain ⟨σ', hE'⟩ := h.entries hj hrj
      simp only [Spec.World.set] at hrj'
      rw [List.getElem?_set] at hrj'
      by_cases hei : e = j
      · subst hei
        rw [if_pos rfl, if_pos hlt'] at hrj'
        rw [he] at hj
        rw [hr] at hrj
        simp only [Option.some.injEq] at hj hrj hrj'
        subst hj
        subst hrj
        subst hrj'
        refine ⟨⟨rfl, rfl, rfl, rfl, rfl, rfl⟩, rfl, rfl, hfst, hE'.obj, ?_, hE'.stack⟩
        intro k n' c' hk
        obtain ⟨dk, xk, hdk, hxk, hokk, hidxk⟩ := hE'.entry k n' c' hk
        simp only [hput, List.getElem?_map, hdk, Option.map_some]
        by_cases hcc : c = c'
        · subst hcc
          obtain ⟨_, hik⟩ := h.apart e e env env i k n n' c he he hi hk
          subst hik
          rw [hi] at hk
          simp only [Option.some.injEq, Prod.mk.injEq] at hk
          obtain ⟨hk, _⟩ := hk
          subst hk
          rw [hx] at hxk
          simp only [Option.some.injEq] at hxk
          subst hxk
          rw [if_pos rfl]
          refine ⟨d', x', rfl, ?_, hok, by rw [hidx]; exact hidxk⟩
          rw [List.getElem?_set, if_pos rfl, if_pos hltc]
        · have hnn : n' ≠ n := by
            intro hnn
            subst hnn
            have h1 := find_of_idx hE'.nodup hi
            have h2 := find_of_idx hE'.nodup hk
            rw [h1] at h2
            simp only [Option.some.injEq] at h2
            exact hcc h2
          rw [if_neg hnn]
          refine ⟨dk, xk, rfl, ?_, hokk, hidxk⟩
          rw [List.getElem?_set, if_neg hcc]
          exact hxk
      · rw [if_neg hei] at hrj'
        rw [hrj] at hrj'
        simp only [Option.some.injEq] at hrj'
        subst hrj'
        refine ⟨⟨rfl, rfl, rfl, rfl, rfl, rfl⟩, rfl, rfl, rfl, hE'.obj, ?_, hE'.stack⟩
        intro k n' c' hk
        obtain ⟨dk, xk, hdk, hxk, hokk, hidxk⟩ := hE'.entry k n' c' hk
        have hcc : c ≠ c' := by
          intro hcc
          subst hcc
          exact hei (h.apart e j env env0 i k n n' c he hj hi hk).1
        refine ⟨dk, xk, hdk, ?_, hokk, hidxk⟩
        rw [List.getElem?_set, if_neg hcc]
        exact hxk
    · intro rec0 rec0' m hr0 hr0' hh
      simp only [Spec.World.set] at hr0'
      rw [List.getElem?_set] at hr0'
      by_cases hei : e = 0
      · subst hei
        rw [if_pos rfl, if_pos hlt'] at hr0'
        rw [hr] at hr0
        simp only [Option.some.injEq] at hr0 hr0'
        subst hr0
        subst hr0'
        have hsame : (find (Spec.put rec.bindings n d') m).isSome = (find rec.bindings m).isSome := by
          rw [Bool.eq_iff_iff, find_isSome_iff, find_isSome_iff, hfst]
        unfold Spec.Record.has at hh ⊢
        simp only [get_eq_find, hsame] at hh ⊢
        exact hh
      · rw [if_neg hei] at hr0'
        rw [hr0] at hr0'
        simp only [Option.some.injEq] at hr0'
        subst hr0'
        exact hh
  exact key

/-- A new reference. -/
theorem Sim.push {P : Code} {sc : List Nat} {s : State} {w : Spec.World} (h : Sim P sc s w)
    {b : Nat} {a : Option Nat} (hb : b < P.names.length) (ha : ∀ f, a = some f → RefOk P sc w b f) :
    Sim P sc (s.push b a) (w.push (P.name b) a) := by
  have hlayout : ∀ σ, layout P (w.push (P.name b) a) σ = layout P w σ := fun σ => rfl
  refine { lenE := h.lenE, lenS := h.lenS, pos := h.pos, env := ?_, apart := h.apart,
           lenN := h.lenN, name := ?_, lenR := ?_, ref := ?_ }
  · intro e env rec σ he hr hσ
    have ho := h.env e env rec σ he hr hσ
    exact { ho with }
  · intro b' bn hb'
    have ho := h.name b' bn hb'
    exact { name := ho.name, none' := ho.none',
            env := fun hx => { before := (ho.env hx).before, zero := (ho.env hx).zero,
                               pos := (ho.env hx).pos },
            bind := ho.bind }
  · simp only [State.push, Spec.World.push, List.length_append, h.lenR, List.length_singleton]
  · intro r x y hx hy
    simp only [State.push, Spec.World.push] at hx hy
    rw [List.getElem?_append] at hx hy
    by_cases hlt : r < s.refs.length
    · rw [if_pos hlt] at hx
      rw [if_pos (by rw [← h.lenR]; exact hlt)] at hy
      exact h.ref r x y hx hy
    · rw [if_neg hlt] at hx
      rw [if_neg (by rw [← h.lenR]; exact hlt), ← h.lenR] at hy
      by_cases hz : r - s.refs.length = 0
      · rw [hz] at hx hy
        simp only [List.getElem?_cons_zero, Option.some.injEq] at hx hy
        subst hx
        subst hy
        exact ⟨rfl, rfl, hb, ha⟩
      · obtain ⟨m, hm⟩ : ∃ m, r - s.refs.length = m + 1 := ⟨r - s.refs.length - 1, by omega⟩
        rw [hm] at hx
        simp at hx

/-- A reference to a declarative environment finds a binding there. -/
theorem RefOk.bound {P : Code} {sc : List Nat} {s : State} {w : Spec.World} (h : Sim P sc s w)
    (hP : P.WF) {b f : Nat} {env : Env} {rec : Spec.Record} (hf : RefOk P sc w b f)
    (he : s.envs[f]? = some env) (hr : w.records[f]? = some rec)
    (hk : env.kind = .decl ∨ env.kind = .func) : ∃ c, find env.hash (P.name b) = some c := by
  obtain ⟨k, h1, h2, h3, h4⟩ := hf
  obtain ⟨env', rec', he', hr', hE⟩ := h.at' h1
  rw [he] at he'
  simp only [Option.some.injEq] at he'
  subst he'
  have hf0 : f ≠ 0 := by
    intro hz
    have := (hE.zero hz).2.1
    rcases hk with hk | hk <;> rw [hk] at this <;> simp at this
  obtain ⟨hσ, hkind, _⟩ := hE.pos hf0
  have hm := h4 hσ (by rw [← hkind]; rcases hk with hk | hk <;> rw [hk] <;> simp)
  rw [← hE.names, ← find_isSome_iff] at hm
  cases hx : find env.hash (P.name b) with
  | none => rw [hx] at hm; simp at hm
  | some c => exact ⟨c, rfl⟩

/-- The declarative part of the environment of a reference. -/
theorem declHas_ref {P : Code} {sc : List Nat} {s : State} {w : Spec.World} (h : Sim P sc s w)
    {b f : Nat} {rec : Spec.Record} (hb : b < P.names.length) (hf : RefOk P sc w b f)
    (hr : w.records[f]? = some rec) :
    ∃ names, declHas s f b = .ok ({ s with names := names }, (find rec.bindings (P.name b)).isSome) ∧
      Sim P sc { s with names := names } w := by
  obtain ⟨env, σ, he, _, hE⟩ := h.at hr
  obtain ⟨names, hl, hs⟩ := lookup_ref (slot := false) h hb hf he
  refine ⟨names, ?_, hs⟩
  unfold declHas
  simp only [hl, bind, Except.bind]
  have hn := hE.get_none (P.name b)
  cases h1 : find env.hash (P.name b) <;> cases h2 : find rec.bindings (P.name b)
  · rfl
  · rw [h1, h2] at hn; simp at hn
  · rw [h1, h2] at hn; simp at hn
  · rfl

theorem declGet_ref {P : Code} {sc : List Nat} {s : State} {w : Spec.World} (h : Sim P sc s w)
    {b f : Nat} {rec : Spec.Record} {d : Spec.Binding} (hb : b < P.names.length)
    (hf : RefOk P sc w b f) (hr : w.records[f]? = some rec)
    (hd : find rec.bindings (P.name b) = some d) :
    ∃ names, declGet s f b = .ok ({ s with names := names },
        match d.value with | none => .refErr | some v => .val v) ∧
      Sim P sc { s with names := names } w := by
  obtain ⟨env, σ, he, _, hE⟩ := h.at hr
  obtain ⟨names, hl, hs⟩ := lookup_ref (slot := false) h hb hf he
  refine ⟨names, ?_, hs⟩
  unfold declGet
  simp only [hl, bind, Except.bind]
  cases hx : find env.hash (P.name b) with
  | none => rw [(hE.get_none _).mp hx] at hd; simp at hd
  | some c =>
    obtain ⟨i, d', x, hi, hd', hdi, hcell, hok, hidx⟩ := hE.get_some hx
    rw [hd] at hd'
    simp only [Option.some.injEq] at hd'
    subst hd'
    simp only [cell_ok (s := { s with names := names }) hcell]
    cases hv : d.value with
    | none => rw [if_pos (by simp [hok.none' hv])]
    | some v =>
      obtain ⟨h1, h2⟩ := hok.some' v hv
      rw [if_neg (by simp [h1]), h2]

theorem declInit_ref {P : Code} {sc : List Nat} {s : State} {w : Spec.World} (h : Sim P sc s w)
    {b f v : Nat} {rec : Spec.Record} {d : Spec.Binding} (hb : b < P.names.length)
    (hf : RefOk P sc w b f) (hr : w.records[f]? = some rec)
    (hd : find rec.bindings (P.name b) = some d) (hv : d.value = none) :
    ∃ s', declInit s f b v = .ok (s', .done) ∧
      Sim P sc s' (w.set f { rec with
        bindings := Spec.put rec.bindings (P.name b) { d with value := some v } }) := by
  obtain ⟨env, σ, he, _, hE⟩ := h.at hr
  obtain ⟨names, hl, hs⟩ := lookup_ref (slot := false) h hb hf he
  unfold declInit
  simp only [hl, bind, Except.bind]
  cases hx : find env.hash (P.name b) with
  | none => rw [(hE.get_none _).mp hx] at hd; simp at hd
  | some c =>
    obtain ⟨i, d', x, hi, hd', hdi, hcell, hok, hidx⟩ := hE.get_some hx
    rw [hd] at hd'
    simp only [Option.some.injEq] at hd'
    subst hd'
    simp only [cell_ok (s := { s with names := names }) hcell]
    rw [if_neg (by simp [hok.none' hv])]
    refine ⟨_, rfl, ?_⟩
    refine hs.setBinding (x := x) (d := d) he hr hi hd hcell rfl ?_
    exact { imm := hok.imm, strict := hok.strict, del := hok.del, del' := hok.del',
            none' := fun hn => by simp at hn,
            some' := fun v' hv' => by simp only [Option.some.injEq] at hv'; exact ⟨rfl, hv'⟩ }

theorem declSet_ref {P : Code} {sc : List Nat} {s : State} {w : Spec.World} (h : Sim P sc s w)
    {b f v : Nat} {strict : Bool} {rec : Spec.Record} {d : Spec.Binding} (hb : b < P.names.length)
    (hf : RefOk P sc w b f) (hr : w.records[f]? = some rec)
    (hd : find rec.bindings (P.name b) = some d) (hin : rec.inObject (P.name b) = false) :
    ∃ s', declSet s f b v strict = .ok (s', ans (rec.assign (P.name b) v strict).2) ∧
      Sim P sc s' (w.set f (rec.assign (P.name b) v strict).1) := by
  obtain ⟨env, σ, he, _, hE⟩ := h.at hr
  have hlt' : f < w.records.length := (List.getElem?_eq_some_iff.mp hr).1
  have hself : w.set f rec = w := by
    unfold Spec.World.set
    have : w.records.set f rec = w.records := by
      apply List.ext_getElem?
      intro j
      rw [List.getElem?_set]
      by_cases hj : f = j
      · subst hj
        rw [if_pos rfl, if_pos hlt', hr]
      · rw [if_neg hj]
    rw [this]
  obtain ⟨names, hl, hs⟩ := lookup_ref (slot := false) h hb hf he
  unfold declSet Spec.Record.assign
  simp only [hl, bind, Except.bind, hin, get_eq_find, hd]
  cases hx : find env.hash (P.name b) with
  | none => rw [(hE.get_none _).mp hx] at hd; simp at hd
  | some c =>
    obtain ⟨i, d', x, hi, hd', hdi, hcell, hok, hidx⟩ := hE.get_some hx
    rw [hd] at hd'
    simp only [Option.some.injEq] at hd'
    subst hd'
    simp only [cell_ok (s := { s with names := names }) hcell, Bool.false_eq_true, if_false]
    cases hv : d.value with
    | none =>
      rw [if_pos (by simp [hok.none' hv])]
      simp only
      rw [hself]
      exact ⟨_, rfl, hs⟩
    | some v0 =>
      obtain ⟨h1, h2⟩ := hok.some' v0 hv
      rw [if_neg (by simp [h1])]
      simp only
      by_cases hm : d.mutable = true
      · rw [if_neg (by rw [hok.imm, hm]; simp)]
        rw [if_pos hm]
        refine ⟨_, rfl, ?_⟩
        refine hs.setBinding (x := x) (d := d) he hr hi hd hcell rfl ?_
        exact { imm := hok.imm, strict := hok.strict, del := hok.del, del' := hok.del',
                none' := fun hn => by simp at hn,
                some' := fun v' hv' => by simp only [Option.some.injEq] at hv'; exact ⟨h1, hv'⟩ }
      · rw [if_pos (by rw [hok.imm]; simpa using hm)]
        simp only [hm, if_false, Bool.false_eq_true]
        rw [hself, hok.strict]
        by_cases hst : (d.strict || strict) = true
        · simp only [hst, if_true]
          exact ⟨_, rfl, hs⟩
        · simp only [hst, if_false, Bool.false_eq_true]
          exact ⟨_, rfl, hs⟩

theorem declDelete_ref {P : Code} {sc : List Nat} {s : State} {w : Spec.World} (h : Sim P sc s w)
    {b f : Nat} {rec : Spec.Record} {d : Spec.Binding} (hb : b < P.names.length)
    (hf : RefOk P sc w b f) (hr : w.records[f]? = some rec)
    (hd : find rec.bindings (P.name b) = some d) :
    d.deletable = false ∧ ∃ names, declDelete s f b = .ok ({ s with names := names }, .bool false) ∧
      Sim P sc { s with names := names } w := by
  obtain ⟨env, σ, he, _, hE⟩ := h.at hr
  obtain ⟨names, hl, hs⟩ := lookup_ref (slot := true) h hb hf he
  cases hx : find env.hash (P.name b) with
  | none => rw [(hE.get_none _).mp hx] at hd; simp at hd
  | some c =>
    obtain ⟨i, d', x, hi, hd', hdi, hcell, hok, hidx⟩ := hE.get_some hx
    rw [hd] at hd'
    simp only [Option.some.injEq] at hd'
    subst hd'
    refine ⟨hok.del', names, ?_, hs⟩
    unfold declDelete
    obtain ⟨bn, hbn, _⟩ := hs.bn hb
    simp only [hl, bind, Except.bind, hx, cell_ok (s := { s with names := names }) hcell,
      env_ok (s := { s with names := names }) he, bname_ok hbn]
    rw [if_pos (by simp [hok.del])]

end Verif.Env

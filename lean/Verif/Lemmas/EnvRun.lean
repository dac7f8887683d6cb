import Verif.Lemmas.EnvNew

/-! Every operation of an execution that follows its static structure, and whole executions. -/

namespace Verif.Env

theorem World.set_self {w : Spec.World} {f : Nat} {rec : Spec.Record}
    (hr : w.records[f]? = some rec) : w.set f rec = w := by
  have hlt' : f < w.records.length := (List.getElem?_eq_some_iff.mp hr).1
  unfold Spec.World.set
  have : w.records.set f rec = w.records := by
    apply List.ext_getElem?
    intro j
    rw [List.getElem?_set]
    by_cases hj : f = j
    · subst hj
      rw [if_pos rfl, if_pos hlt', hr]
    · rw [if_neg hj]
  rw [this]

theorem find_put_iff {α : Type} {l : List (Name × α)} {n m : Name} {v : α}
    (h : (find l m).isSome = true) : (find (Spec.put l n v) m).isSome = true := by
  rw [find_spec_put]
  by_cases hm : m = n
  · rw [if_pos (by first | exact hm | exact hm.symm)]; rfl
  · rw [if_neg (by first | exact hm | exact fun h' => hm h'.symm)]; exact h

/-! ### Objects -/

theorem objGet_ok {P : Code} {sc : List Nat} {s : State} {w : Spec.World} (h : Sim P sc s w)
    {b f : Nat} {strict : Bool} {rec : Spec.Record} (hb : b < P.names.length)
    (hr : w.records[f]? = some rec) :
    objGet s f b strict = .ok (s, match find rec.object (P.name b) with
      | some v => .val v
      | none => if strict then .refErr else .val undef) := by
  obtain ⟨env, σ, he, _, hE⟩ := h.at hr
  obtain ⟨bn, hbn, hok⟩ := h.bn hb
  unfold objGet
  simp only [env_ok he, bname_ok hbn, bind, Except.bind, hok.name, hE.obj]
  cases find rec.object (P.name b) <;> rfl

theorem objHas_ok {P : Code} {sc : List Nat} {s : State} {w : Spec.World} (h : Sim P sc s w)
    {b f : Nat} {rec : Spec.Record} (hb : b < P.names.length)
    (hr : w.records[f]? = some rec) :
    objHas s f b = .ok (find rec.object (P.name b)).isSome := by
  obtain ⟨env, σ, he, _, hE⟩ := h.at hr
  obtain ⟨bn, hbn, hok⟩ := h.bn hb
  unfold objHas
  simp only [env_ok he, bname_ok hbn, bind, Except.bind, hok.name, hE.obj]

theorem objSet_ok {P : Code} {sc : List Nat} {s : State} {w : Spec.World} (h : Sim P sc s w)
    {b f v : Nat} {strict : Bool} {rec : Spec.Record} (hb : b < P.names.length)
    (hr : w.records[f]? = some rec) :
    if (find rec.object (P.name b)).isNone && strict then objSet s f b v strict = .ok (s, .refErr)
    else ∃ s', objSet s f b v strict = .ok (s', .done) ∧
      Sim P sc s' (w.set f { rec with object := Spec.put rec.object (P.name b) v }) := by
  obtain ⟨env, σ, he, _, hE⟩ := h.at hr
  obtain ⟨bn, hbn, hok⟩ := h.bn hb
  unfold objSet
  simp only [env_ok he, bname_ok hbn, bind, Except.bind, hok.name, hE.obj]
  by_cases hc : ((find rec.object (P.name b)).isNone && strict) = true
  · rw [if_pos hc, if_pos (by simpa using hc)]
  · rw [if_neg hc, if_neg (by simpa using hc)]
    refine ⟨_, rfl, h.setObj he hr ?_ ?_⟩
    · intro m
      rw [find_put, find_spec_put, hE.obj]
    · intro _ m hm
      exact find_put_iff hm

theorem objDelete_ok {P : Code} {sc : List Nat} {s : State} {w : Spec.World} (h : Sim P sc s w)
    {b f : Nat} {rec : Spec.Record} (hb : b < P.names.length)
    (hr : w.records[f]? = some rec) (hf : f ≠ 0) :
    ∃ s', objDelete s f b = .ok (s', .bool true) ∧
      Sim P sc s' (w.set f { rec with object := Spec.drop rec.object (P.name b) }) := by
  obtain ⟨env, σ, he, _, hE⟩ := h.at hr
  obtain ⟨bn, hbn, hok⟩ := h.bn hb
  unfold objDelete
  simp only [env_ok he, bname_ok hbn, bind, Except.bind, hok.name]
  refine ⟨_, rfl, h.setObj he hr ?_ (fun h' => absurd h' hf)⟩
  intro m
  rw [drop_eq_erase, find_erase, find_erase, hE.obj]

/-! ### Bindings through references -/

/-- The kinds of environment and where a name is looked up. -/
theorem EnvOk.inObject {P : Code} {sc : List Nat} {cells envs w e env rec σ}
    (h : EnvOk P sc cells envs w e env rec σ) (n : Name) :
    rec.inObject n = match env.kind with
      | .withObj => true
      | .global => (find rec.bindings n).isNone
      | _ => false := by
  unfold Spec.Record.inObject
  rw [h.form, get_eq_find]
  cases env.kind <;> rfl

theorem envGet_ok {P : Code} {sc : List Nat} {s : State} {w : Spec.World} (h : Sim P sc s w)
    {b f : Nat} {strict : Bool} {rec : Spec.Record} {o : Spec.Answer}
    (hb : b < P.names.length) (hf : RefOk P sc w b f) (hr : w.records[f]? = some rec)
    (ho : rec.read (P.name b) strict = some o) :
    ∃ s', envGet s f b strict = .ok (s', ans o) ∧ Sim P sc s' w := by
  obtain ⟨env, σ, he, _, hE⟩ := h.at hr
  have hin := hE.inObject (P.name b)
  unfold envGet
  simp only [env_ok he, bind, Except.bind]
  unfold Spec.Record.read at ho
  rw [hin] at ho
  simp only [get_eq_find] at ho
  have hobj : ∀ {s1 : State}, Sim P sc s1 w →
      (match find rec.object (P.name b) with
        | some v => some (Spec.Answer.value v)
        | none => some (if strict then .referenceError else .value 0)) = some o →
      ∃ s', objGet s1 f b strict = .ok (s', ans o) ∧ Sim P sc s' w := by
    intro s1 h1 ho1
    refine ⟨s1, ?_, h1⟩
    rw [objGet_ok h1 hb hr]
    cases hx : find rec.object (P.name b) with
    | some v =>
      rw [hx] at ho1
      simp only [Option.some.injEq] at ho1
      subst ho1
      rfl
    | none =>
      rw [hx] at ho1
      simp only [Option.some.injEq] at ho1
      subst ho1
      cases strict <;> rfl
  have hdecl : ∀ {s1 : State}, Sim P sc s1 w →
      (match find rec.bindings (P.name b) with
        | none => none
        | some d => match d.value with
          | none => some Spec.Answer.referenceError
          | some v => some (.value v)) = some o →
      ∃ s', declGet s1 f b = .ok (s', ans o) ∧ Sim P sc s' w := by
    intro s1 h1 ho1
    cases hx : find rec.bindings (P.name b) with
    | none => rw [hx] at ho1; simp at ho1
    | some d =>
      rw [hx] at ho1
      simp only at ho1
      obtain ⟨names, hd, hs⟩ := declGet_ref h1 hb hf hr hx
      refine ⟨_, ?_, hs⟩
      rw [hd]
      cases hv : d.value with
      | none =>
        rw [hv] at ho1
        simp only [Option.some.injEq] at ho1
        subst ho1
        rfl
      | some v =>
        rw [hv] at ho1
        simp only [Option.some.injEq] at ho1
        subst ho1
        rfl
  cases hk : env.kind with
  | withObj =>
    rw [hk] at ho
    exact hobj h ho
  | decl =>
    rw [hk] at ho
    exact hdecl h ho
  | func =>
    rw [hk] at ho
    exact hdecl h ho
  | global =>
    rw [hk] at ho
    obtain ⟨names, hh, hs⟩ := declHas_ref h hb hf hr
    simp only [hh]
    cases hx : find rec.bindings (P.name b) with
    | none =>
      rw [hx] at ho
      exact hobj hs ho
    | some d =>
      simp only [hx] at ho hdecl
      exact hdecl hs ho

theorem envSet_ok {P : Code} {sc : List Nat} {s : State} {w : Spec.World} (h : Sim P sc s w)
    (hP : P.WF) {b f v : Nat} {strict : Bool} {rec : Spec.Record}
    (hb : b < P.names.length) (hf : RefOk P sc w b f) (hr : w.records[f]? = some rec) :
    ∃ s', envSet s f b v strict = .ok (s', ans (rec.assign (P.name b) v strict).2) ∧
      Sim P sc s' (w.set f (rec.assign (P.name b) v strict).1) := by
  obtain ⟨env, σ, he, _, hE⟩ := h.at hr
  have hin := hE.inObject (P.name b)
  unfold envSet
  simp only [env_ok he, bind, Except.bind]
  have hobj : ∀ {s1 : State}, Sim P sc s1 w → rec.inObject (P.name b) = true →
      ∃ s', objSet s1 f b v strict = .ok (s', ans (rec.assign (P.name b) v strict).2) ∧
        Sim P sc s' (w.set f (rec.assign (P.name b) v strict).1) := by
    intro s1 h1 hi
    have hobj := objSet_ok (v := v) (strict := strict) h1 hb hr
    unfold Spec.Record.assign
    rw [if_pos hi, get_eq_find]
    by_cases hc : ((find rec.object (P.name b)).isNone && strict) = true
    · rw [if_pos hc] at hobj
      rw [if_pos hc, hobj]
      refine ⟨s1, rfl, ?_⟩
      simp only
      rw [World.set_self hr]
      exact h1
    · rw [if_neg hc] at hobj
      rw [if_neg hc]
      exact hobj
  have hdecl : ∀ c, find env.hash (P.name b) = some c →
      ∃ d, find rec.bindings (P.name b) = some d := by
    intro c hc
    obtain ⟨i, d, x, _, hd, _⟩ := hE.get_some hc
    exact ⟨d, hd⟩
  cases hk : env.kind with
  | withObj => rw [hk] at hin; exact hobj h hin
  | decl =>
    rw [hk] at hin
    obtain ⟨c, hc⟩ := RefOk.bound h hP hf he hr (Or.inl hk)
    obtain ⟨d, hd⟩ := hdecl c hc
    exact declSet_ref h hb hf hr hd hin
  | func =>
    rw [hk] at hin
    obtain ⟨c, hc⟩ := RefOk.bound h hP hf he hr (Or.inr hk)
    obtain ⟨d, hd⟩ := hdecl c hc
    exact declSet_ref h hb hf hr hd hin
  | global =>
    rw [hk] at hin
    obtain ⟨names, hh, hs⟩ := declHas_ref h hb hf hr
    simp only [hh]
    cases hx : find rec.bindings (P.name b) with
    | none =>
      rw [hx] at hin
      exact hobj hs hin
    | some d =>
      rw [hx] at hin
      exact declSet_ref hs hb hf hr hx hin

theorem envInit_ok {P : Code} {sc : List Nat} {s : State} {w : Spec.World} (h : Sim P sc s w)
    {b f v : Nat} {rec rec' : Spec.Record}
    (hb : b < P.names.length) (hf : RefOk P sc w b f) (hr : w.records[f]? = some rec)
    (ho : rec.initialize (P.name b) v = some rec') :
    ∃ s', envInit s f b v = .ok (s', .done) ∧ Sim P sc s' (w.set f rec') := by
  obtain ⟨env, σ, he, _, hE⟩ := h.at hr
  have hin := hE.inObject (P.name b)
  unfold envInit
  simp only [env_ok he, bind, Except.bind]
  unfold Spec.Record.initialize at ho
  simp only [get_eq_find] at ho
  have hobj : ∀ {s1 : State}, Sim P sc s1 w → rec.inObject (P.name b) = true →
      ∃ s', objSet s1 f b v false = .ok (s', .done) ∧ Sim P sc s' (w.set f rec') := by
    intro s1 h1 hi
    have hobj := objSet_ok (v := v) (strict := false) h1 hb hr
    rw [if_pos hi] at ho
    simp only [Option.some.injEq] at ho
    rw [if_neg (by simp), ho] at hobj
    exact hobj
  have hdecl : ∀ {s1 : State}, Sim P sc s1 w → rec.inObject (P.name b) = false →
      ∃ s', declInit s1 f b v = .ok (s', .done) ∧ Sim P sc s' (w.set f rec') := by
    intro s1 h1 hi
    rw [if_neg (by simp [hi])] at ho
    cases hx : find rec.bindings (P.name b) with
    | none => rw [hx] at ho; simp at ho
    | some d =>
      rw [hx] at ho
      simp only at ho
      cases hv : d.value with
      | some v0 => rw [hv] at ho; simp at ho
      | none =>
        rw [hv] at ho
        simp only [Option.some.injEq] at ho
        subst ho
        exact declInit_ref (v := v) h1 hb hf hr hx hv
  cases hk : env.kind with
  | withObj => rw [hk] at hin; exact hobj h hin
  | decl => rw [hk] at hin; exact hdecl h hin
  | func => rw [hk] at hin; exact hdecl h hin
  | global =>
    rw [hk] at hin
    obtain ⟨names, hh, hs⟩ := declHas_ref h hb hf hr
    simp only [hh]
    cases hx : find rec.bindings (P.name b) with
    | none => rw [hx] at hin; exact hobj hs hin
    | some d => rw [hx] at hin; exact hdecl hs hin

theorem envDelete_ok {P : Code} {sc : List Nat} {s : State} {w : Spec.World} (h : Sim P sc s w)
    (hP : P.WF) {b f : Nat} {rec rec' : Spec.Record} {t : Bool}
    (hb : b < P.names.length) (hf : RefOk P sc w b f) (hr : w.records[f]? = some rec)
    (hz : f = 0 → (find rec.bindings (P.name b)).isSome = true)
    (ho : rec.delete (P.name b) = some (rec', t)) :
    ∃ s', envDelete s f b = .ok (s', .bool t) ∧ Sim P sc s' (w.set f rec') := by
  obtain ⟨env, σ, he, hσ, hE⟩ := h.at hr
  have hin := hE.inObject (P.name b)
  unfold envDelete
  simp only [env_ok he, bind, Except.bind]
  unfold Spec.Record.delete at ho
  simp only [get_eq_find] at ho
  have hdecl : ∀ {s1 : State}, Sim P sc s1 w → rec.inObject (P.name b) = false →
      ∃ s', declDelete s1 f b = .ok (s', .bool t) ∧ Sim P sc s' (w.set f rec') := by
    intro s1 h1 hi
    rw [if_neg (by simp [hi])] at ho
    cases hx : find rec.bindings (P.name b) with
    | none => rw [hx] at ho; simp at ho
    | some d =>
      rw [hx] at ho
      simp only at ho
      obtain ⟨hd, names, h2, h3⟩ := declDelete_ref h1 hb hf hr hx
      rw [if_neg (by simp [hd])] at ho
      simp only [Option.some.injEq, Prod.mk.injEq] at ho
      obtain ⟨ho1, ho2⟩ := ho
      subst ho1
      subst ho2
      rw [World.set_self hr]
      exact ⟨_, h2, h3⟩
  cases hk : env.kind with
  | withObj =>
    rw [hk] at hin
    rw [if_pos hin] at ho
    simp only [Option.some.injEq, Prod.mk.injEq] at ho
    obtain ⟨ho1, ho2⟩ := ho
    subst ho1
    subst ho2
    refine objDelete_ok h hb hr ?_
    intro hf0
    have := (hE.zero hf0).2.1
    rw [hk] at this
    simp at this
  | decl => rw [hk] at hin; exact hdecl h hin
  | func => rw [hk] at hin; exact hdecl h hin
  | global =>
    rw [hk] at hin
    have hf0 : f = 0 := by
      apply Classical.byContradiction
      intro hf0
      have h1 := (hE.pos hf0).2.1
      rw [hk] at h1
      exact hP.kinds σ h1.symm
    obtain ⟨names, hh, hs⟩ := declHas_ref h hb hf hr
    simp only [hh]
    cases hx : find rec.bindings (P.name b) with
    | none => have := hz hf0; rw [hx] at this; simp at this
    | some d => rw [hx] at hin; exact hdecl hs hin

/-- A declaration in the global environment. -/
theorem declHas_global {P : Code} {sc : List Nat} {s : State} {w : Spec.World} (h : Sim P sc s w)
    {b : Nat} {rec : Spec.Record} (hb : b < P.names.length) (hsc : P.scopeOf b = 0)
    (hr : w.records[0]? = some rec) :
    ∃ names, declHas s 0 b = .ok ({ s with names := names }, (find rec.bindings (P.name b)).isSome) ∧
      Sim P sc { s with names := names } w := by
  obtain ⟨env, σ, he, hσ, hE⟩ := h.at hr
  obtain ⟨bn, hbn, hok⟩ := h.bn hb
  have hσ0 : σ = 0 := hE.scope_zero.mp rfl
  subst hσ0
  by_cases hx : bn.envIdx = noIdx
  · refine ⟨s.names, ?_, h⟩
    unfold declHas
    simp only [lookup_fresh he hbn hx (hok.none' hx), bind, Except.bind, hok.name]
    have hn := hE.get_none (P.name b)
    cases h1 : find env.hash (P.name b) <;> cases h2 : find rec.bindings (P.name b)
    · rfl
    · rw [h1, h2] at hn; simp at hn
    · rw [h1, h2] at hn; simp at hn
    · rfl
  · have hres := hok.env hx
    have hk : bn.envIdx = 0 := by
      apply Classical.byContradiction
      intro hk
      have := (hres.before 0 (by omega)).1
      rw [hsc] at this
      exact this rfl
    rw [hk] at hres
    refine declHas_ref h hb ⟨0, ?_, ?_, ?_, ?_⟩ hr
    · rw [hsc]; exact hσ
    · intro i hi; omega
    · exact hres.zero
    · intro hz; rw [hsc] at hz; exact absurd rfl hz

/-! ### Steps and runs -/

theorem Sim.refAt {P : Code} {sc : List Nat} {s : State} {w : Spec.World} (h : Sim P sc s w)
    {r : Nat} {x : Spec.Reference} (hx : w.references[r]? = some x) :
    ∃ y : Ref, s.refs[r]? = some y ∧ x.name = P.name y.name ∧ x.base = y.env ∧
      y.name < P.names.length ∧ ∀ f, y.env = some f → RefOk P sc w y.name f := by
  have hl : r < s.refs.length := by
    rw [h.lenR]; exact (List.getElem?_eq_some_iff.mp hx).1
  exact ⟨_, List.getElem?_eq_getElem hl, h.ref r _ x (List.getElem?_eq_getElem hl) hx⟩

theorem ref_ok {s : State} {r : Nat} {y : Ref} (h : s.refs[r]? = some y) : s.ref r = .ok y := by
  unfold State.ref; rw [h]

theorem step_ok {P : Code} {sc sc' : List Nat} {s : State} {w w' : Spec.World} (h : Sim P sc s w)
    (hP : P.WF) {op : Op} {a : Spec.Action} {o : Spec.Answer} (hal : Allowed P w sc op sc')
    (ha : act P op = some a) (hst : Spec.Step w a w' o) :
    ∃ s', step s op = .ok (s', ans o) ∧ Sim P sc' s' w' := by
  cases hal with
  | enter hσ ho =>
    simp only [act, Option.some.injEq] at ha
    subst ha
    cases hst with
    | enter _ hd => exact h.enter hP hσ ho hd
  | @declare b imm strict hb hsc hfew =>
    simp only [act, Option.some.injEq] at ha
    subst ha
    cases hst with
    | @declare _ _ _ _ rec _ hr hc =>
      obtain ⟨env, σ, he, hσ, hE⟩ := h.at hr
      obtain ⟨names, hh, hs⟩ := declHas_global h hb hsc hr
      have hnone : (find rec.bindings (P.name b)).isSome = false := by
        cases hx : find rec.bindings (P.name b) with
        | none => rfl
        | some d =>
          unfold Spec.Record.create at hc
          rw [get_eq_find, hx, if_pos (by rfl)] at hc
          simp at hc
      obtain ⟨s', h1, h2⟩ := hs.create hb hr (hfew _ hr) hc
      refine ⟨s', ?_, h2⟩
      show envCreate s 0 b imm strict false = _
      unfold envCreate
      simp only [env_ok he, bind, Except.bind, (hE.zero rfl).2.1, hh, hnone, h1]
      rfl
    | redeclare hr hform hsome =>
      obtain ⟨env, σ, he, hσ, hE⟩ := h.at hr
      obtain ⟨names, hh, hs⟩ := declHas_global h hb hsc hr
      rw [get_eq_find] at hsome
      refine ⟨_, ?_, hs⟩
      show envCreate s 0 b imm strict false = _
      unfold envCreate
      simp only [env_ok he, bind, Except.bind, (hE.zero rfl).2.1, hh, hsome]
      rfl
  | @resolve e b hb hsc =>
    simp only [act, Option.some.injEq] at ha
    subst ha
    cases hst with
    | resolve hF =>
      obtain ⟨envs', names', h1, h2, h3⟩ := resolve_ok h hP hb hsc hF
      refine ⟨_, ?_, h2.push hb h3⟩
      unfold step
      simp only [h1, bind, Except.bind]
      rfl
  | @direct e b hb hsc =>
    simp only [act, Option.some.injEq] at ha
    subst ha
    cases hst with
    | direct hr hh =>
      refine ⟨_, rfl, h.push hb ?_⟩
      intro f hf
      simp only [Option.some.injEq] at hf
      subst hf
      obtain ⟨env, rec, he, hr', hE⟩ := h.at' hsc
      rw [hr] at hr'
      simp only [Option.some.injEq] at hr'
      subst hr'
      refine ⟨0, hsc, fun i hi => absurd hi (by omega), ?_, ?_⟩
      · intro hz
        have := hE.scope_zero.mpr hz
        subst this
        exact ⟨_, hr, hh⟩
      · intro hz hk
        have he0 : e ≠ 0 := fun h' => hz (hE.scope_zero.mp h')
        exact (hE.has_decl he0 hP hk _).mp hh
  | @init r v =>
    simp only [act, Option.some.injEq] at ha
    subst ha
    cases hst with
    | init hx hbase hr ho =>
      obtain ⟨y, hy, hyn, hyb, hyl, hyr⟩ := h.refAt hx
      rw [hbase] at hyb
      rw [hyn] at ho
      obtain ⟨s', h1, h2⟩ := envInit_ok h hyl (hyr _ hyb.symm) hr ho
      refine ⟨s', ?_, h2⟩
      unfold step
      simp only [ref_ok hy, bind, Except.bind, ← hyb, h1]
      rfl
  | @get r strict =>
    simp only [act, Option.some.injEq] at ha
    subst ha
    cases hst with
    | get hx hbase hr ho =>
      obtain ⟨y, hy, hyn, hyb, hyl, hyr⟩ := h.refAt hx
      rw [hbase] at hyb
      rw [hyn] at ho
      obtain ⟨s', h1, h2⟩ := envGet_ok h hyl (hyr _ hyb.symm) hr ho
      refine ⟨s', ?_, h2⟩
      unfold step
      simp only [ref_ok hy, bind, Except.bind, ← hyb, h1]
    | getNowhere hx hbase =>
      obtain ⟨y, hy, hyn, hyb, hyl, hyr⟩ := h.refAt hx
      rw [hbase] at hyb
      refine ⟨s, ?_, h⟩
      unfold step
      simp only [ref_ok hy, bind, Except.bind, ← hyb]
      rfl
  | @set r v strict =>
    simp only [act, Option.some.injEq] at ha
    subst ha
    cases hst with
    | set hx hbase hr =>
      obtain ⟨y, hy, hyn, hyb, hyl, hyr⟩ := h.refAt hx
      rw [hbase] at hyb
      rw [hyn]
      obtain ⟨s', h1, h2⟩ := envSet_ok (v := v) (strict := strict) h hP hyl (hyr _ hyb.symm) hr
      refine ⟨s', ?_, h2⟩
      unfold step
      simp only [ref_ok hy, bind, Except.bind, ← hyb, h1]
    | setNowhere hx hbase hr =>
      obtain ⟨y, hy, hyn, hyb, hyl, hyr⟩ := h.refAt hx
      rw [hbase] at hyb
      rw [hyn]
      have hobj := objSet_ok (v := v) (strict := false) h hyl hr
      rw [if_neg (by simp)] at hobj
      obtain ⟨s', h1, h2⟩ := hobj
      refine ⟨s', ?_, h2⟩
      unfold step
      simp only [ref_ok hy, bind, Except.bind, ← hyb]
      exact h1
    | setNowhereStrict hx hbase =>
      obtain ⟨y, hy, hyn, hyb, hyl, hyr⟩ := h.refAt hx
      rw [hbase] at hyb
      refine ⟨s, ?_, h⟩
      unfold step
      simp only [ref_ok hy, bind, Except.bind, ← hyb]
      rfl
  | @delete r strict hdel =>
    simp only [act, Option.some.injEq] at ha
    subst ha
    cases hst with
    | @delete _ _ _ x e rec _ hx hbase hr ho =>
      obtain ⟨y, hy, hyn, hyb, hyl, hyr⟩ := h.refAt hx
      have hz : e = 0 → (find rec.bindings (P.name y.name)).isSome = true := by
        intro he0
        subst he0
        have := hdel x rec hx hbase hr
        rw [get_eq_find, hyn] at this
        exact this
      rw [hbase] at hyb
      rw [hyn] at ho
      obtain ⟨s', h1, h2⟩ := envDelete_ok h hP hyl (hyr _ hyb.symm) hr hz ho
      refine ⟨s', ?_, h2⟩
      unfold step
      simp only [ref_ok hy, bind, Except.bind, ← hyb, h1]
      rfl
    | deleteNowhere hx hbase =>
      obtain ⟨y, hy, hyn, hyb, hyl, hyr⟩ := h.refAt hx
      rw [hbase] at hyb
      refine ⟨s, ?_, h⟩
      unfold step
      simp only [ref_ok hy, bind, Except.bind, ← hyb]
      rfl
    | deleteNowhereStrict hx hbase =>
      obtain ⟨y, hy, hyn, hyb, hyl, hyr⟩ := h.refAt hx
      rw [hbase] at hyb
      refine ⟨s, ?_, h⟩
      unfold step
      simp only [ref_ok hy, bind, Except.bind, ← hyb]
      rfl
  | @putProp e n v =>
    simp only [act, Option.some.injEq] at ha
    subst ha
    cases hst with
    | putProp hr =>
      obtain ⟨env, σ, he, _, hE⟩ := h.at hr
      refine ⟨_, ?_, h.setObj (o := put env.obj n v) he hr ?_ ?_⟩
      · unfold step
        simp only [env_ok he, bind, Except.bind]
        rfl
      · intro m; rw [find_put, find_spec_put, hE.obj]
      · intro _ m hm; exact find_put_iff hm
  | @delProp e n he0 =>
    simp only [act, Option.some.injEq] at ha
    subst ha
    cases hst with
    | delProp hr =>
      obtain ⟨env, σ, he, _, hE⟩ := h.at hr
      refine ⟨_, ?_, h.setObj (o := erase env.obj n) he hr ?_ (fun h' => absurd h' he0)⟩
      · unfold step
        simp only [env_ok he, bind, Except.bind]
        rfl
      · intro m; rw [drop_eq_erase, find_erase, find_erase, hE.obj]

theorem run_ok {P : Code} (hP : P.WF) {sc : List Nat} {w w' : Spec.World} {ops : List Op}
    {os : List Spec.Answer} (he : Execution P sc w ops w' os) {s : State} (h : Sim P sc s w) :
    ∃ s', run s ops = .ok (s', os.map ans) := by
  induction he generalizing s with
  | nil => exact ⟨s, rfl⟩
  | cons hal ha hst _ ih =>
    obtain ⟨s1, h1, h2⟩ := step_ok h hP hal ha hst
    obtain ⟨s2, h3⟩ := ih h2
    refine ⟨s2, ?_⟩
    unfold run
    simp only [h1, h3, bind, Except.bind, List.map_cons]

/-- The states at the start are related. -/
theorem start_ok {P : Code} (hP : P.WF) (obj : List (Name × Val)) :
    Sim P [0] (init P.names obj) (start obj) := by
  refine { lenE := rfl, lenS := rfl, pos := by simp [init], env := ?_, apart := ?_, lenN := ?_,
           name := ?_, lenR := rfl, ref := ?_ }
  · intro e env rec σ he hr hσ
    cases e with
    | succ e => simp [init] at he
    | zero =>
      simp only [init, start, List.getElem?_cons_zero, Option.some.injEq] at he hr hσ
      subst he
      subst hr
      subst hσ
      exact { outer := rfl, form := rfl, cache := rfl, obj := fun n => rfl, vec := rfl, len := rfl,
              entry := fun i n c hi => by simp at hi, nodup := by simp, few := by simp,
              names := by simp [layout, start], depth := by simp [hP.depth0],
              zero := fun _ => ⟨rfl, rfl, rfl⟩, pos := fun h => absurd rfl h,
              stack := fun l hl => by simp at hl }
  · intro e e' env env' i i' n n' c he _ hi _
    cases e with
    | succ e => simp [init] at he
    | zero =>
      simp only [init, List.getElem?_cons_zero, Option.some.injEq] at he
      subst he
      simp at hi
  · simp [init]
  · intro b bn hb
    simp only [init, List.getElem?_map, Option.map_eq_some_iff] at hb
    obtain ⟨n, hn, hbn⟩ := hb
    subst hbn
    exact { name := by simp [Code.name, List.getD, hn], none' := fun _ => rfl,
            env := fun hx => absurd rfl hx, bind := fun hx => absurd rfl hx }
  · intro r x y hx
    simp [init] at hx

end Verif.Env

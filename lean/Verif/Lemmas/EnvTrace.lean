import Verif.Lemmas.EnvRun

/-! How bindings change in the course of an execution. -/

namespace Verif.Env

/-- A record later in an execution. -/
structure RecLater (top : Bool) (rec rec' : Spec.Record) : Prop where
  form : rec'.form = rec.form
  names : top = false → rec'.bindings.map Prod.fst = rec.bindings.map Prod.fst
  keep : ∀ n d, find rec.bindings n = some d → ∃ d', find rec'.bindings n = some d' ∧
    d'.mutable = d.mutable ∧ d'.strict = d.strict ∧
    (d.value.isSome = true → d'.value.isSome = true) ∧
    (d.mutable = false → ∀ v, d.value = some v → d'.value = some v)

theorem RecLater.refl (top : Bool) (rec : Spec.Record) : RecLater top rec rec :=
  { form := rfl, names := fun _ => rfl,
    keep := fun _ d hd => ⟨d, hd, rfl, rfl, id, fun _ _ h => h⟩ }

theorem RecLater.trans {top : Bool} {a b c : Spec.Record} (h : RecLater top a b)
    (h' : RecLater top b c) : RecLater top a c where
  form := h'.form.trans h.form
  names := fun ht => (h'.names ht).trans (h.names ht)
  keep := fun n d hd => by
    obtain ⟨d1, h1, h2, h3, h4, h5⟩ := h.keep n d hd
    obtain ⟨d2, k1, k2, k3, k4, k5⟩ := h'.keep n d1 h1
    exact ⟨d2, k1, k2.trans h2, k3.trans h3, fun hv => k4 (h4 hv),
      fun hm v hv => k5 (h2.trans hm) v (h5 hm v hv)⟩

/-- A world later in an execution. -/
structure Later (w w' : Spec.World) : Prop where
  refs : ∀ (r : Nat) (x : Spec.Reference), w.references[r]? = some x → w'.references[r]? = some x
  recs : ∀ (e : Nat) (rec : Spec.Record), w.records[e]? = some rec →
    ∃ rec', w'.records[e]? = some rec' ∧ RecLater (decide (e = 0)) rec rec'

theorem Later.refl (w : Spec.World) : Later w w :=
  { refs := fun _ _ h => h, recs := fun _ rec h => ⟨rec, h, RecLater.refl _ rec⟩ }

theorem Later.trans {a b c : Spec.World} (h : Later a b) (h' : Later b c) : Later a c where
  refs := fun r x hx => h'.refs r x (h.refs r x hx)
  recs := fun e rec hr => by
    obtain ⟨r1, h1, h2⟩ := h.recs e rec hr
    obtain ⟨r2, k1, k2⟩ := h'.recs e r1 h1
    exact ⟨r2, k1, h2.trans k2⟩

theorem Later.set {w : Spec.World} {e : Nat} {rec rec' : Spec.Record}
    (hr : w.records[e]? = some rec) (h : RecLater (decide (e = 0)) rec rec') :
    Later w (w.set e rec') where
  refs := fun _ _ hx => hx
  recs := fun i r hi => by
    have hlt : e < w.records.length := (List.getElem?_eq_some_iff.mp hr).1
    simp only [Spec.World.set]
    rw [List.getElem?_set]
    by_cases hei : e = i
    · subst hei
      rw [if_pos rfl, if_pos hlt]
      rw [hr] at hi
      simp only [Option.some.injEq] at hi
      subst hi
      exact ⟨rec', rfl, h⟩
    · rw [if_neg hei]
      exact ⟨r, hi, RecLater.refl _ r⟩

theorem Later.push {w : Spec.World} {n : Nat} {a : Option Nat} : Later w (w.push n a) where
  refs := fun r x hx => by
    simp only [Spec.World.push]
    rw [List.getElem?_append_left (List.getElem?_eq_some_iff.mp hx).1]
    exact hx
  recs := fun e rec hr => ⟨rec, hr, RecLater.refl _ rec⟩

theorem RecLater.object {top : Bool} {rec : Spec.Record} {o : List (Nat × Nat)} :
    RecLater top rec { rec with object := o } :=
  { form := rfl, names := fun _ => rfl,
    keep := fun _ d hd => ⟨d, hd, rfl, rfl, id, fun _ _ h => h⟩ }

theorem RecLater.put {top : Bool} {rec : Spec.Record} {n : Nat} {d d' : Spec.Binding}
    (hd : find rec.bindings n = some d) (h1 : d'.mutable = d.mutable) (h2 : d'.strict = d.strict)
    (h3 : d.value.isSome = true → d'.value.isSome = true)
    (h4 : d.mutable = false → ∀ v, d.value = some v → d'.value = some v) :
    RecLater top rec { rec with bindings := Spec.put rec.bindings n d' } where
  form := rfl
  names := fun _ => by
    simp only
    unfold Spec.put
    rw [get_eq_find, hd, if_pos (show (some d).isSome = true from rfl), List.map_map]
    apply List.map_congr_left
    intro p _
    simp only [Function.comp]
    by_cases hp : p.1 = n
    · rw [if_pos hp]; exact hp.symm
    · rw [if_neg hp]
  keep := fun m b hb => by
    simp only
    rw [find_spec_put]
    by_cases hm : m = n
    · subst hm
      rw [if_pos rfl]
      rw [hd] at hb
      simp only [Option.some.injEq] at hb
      subst hb
      exact ⟨d', rfl, h1, h2, h3, h4⟩
    · first
        | rw [if_neg hm]; exact ⟨b, hb, rfl, rfl, id, fun _ _ h => h⟩
        | rw [if_neg (fun h' => hm h'.symm)]; exact ⟨b, hb, rfl, rfl, id, fun _ _ h => h⟩

/-- The binding a reference to a record without object leads to. -/
theorem Sim.bound {P : Code} {sc : List Nat} {s : State} {w : Spec.World} (h : Sim P sc s w)
    (hP : P.WF) {r e : Nat} {x : Spec.Reference} {rec : Spec.Record}
    (hx : w.references[r]? = some x) (hb : x.base = some e) (hr : w.records[e]? = some rec)
    (hin : rec.inObject x.name = false) : ∃ d, find rec.bindings x.name = some d := by
  obtain ⟨y, hy, hyn, hyb, hyl, hyr⟩ := h.refAt hx
  rw [hb] at hyb
  obtain ⟨env, σ, he, _, hE⟩ := h.at hr
  have hk := hE.inObject x.name
  rw [hin] at hk
  cases hkk : env.kind with
  | withObj => rw [hkk] at hk; simp at hk
  | global =>
    rw [hkk] at hk
    cases hx' : find rec.bindings x.name with
    | some d => exact ⟨d, rfl⟩
    | none => rw [hx'] at hk; simp at hk
  | decl =>
    obtain ⟨c, hc⟩ := RefOk.bound h hP (hyr _ hyb.symm) he hr (Or.inl hkk)
    obtain ⟨i, d, _, _, hd, _⟩ := hE.get_some hc
    rw [hyn]; exact ⟨d, hd⟩
  | func =>
    obtain ⟨c, hc⟩ := RefOk.bound h hP (hyr _ hyb.symm) he hr (Or.inr hkk)
    obtain ⟨i, d, _, _, hd, _⟩ := hE.get_some hc
    rw [hyn]; exact ⟨d, hd⟩

theorem step_later {P : Code} {sc sc' : List Nat} {s : State} {w w' : Spec.World} (h : Sim P sc s w)
    (hP : P.WF) {op : Op} {a : Spec.Action} {o : Spec.Answer} (hal : Allowed P w sc op sc')
    (ha : act P op = some a) (hst : Spec.Step w a w' o) : Later w w' := by
  cases hst with
  | enter _ _ =>
    refine { refs := fun _ _ hx => hx, recs := fun e rec hr => ⟨rec, ?_, RecLater.refl _ rec⟩ }
    simp only
    rw [List.getElem?_append_left (List.getElem?_eq_some_iff.mp hr).1]
    exact hr
  | @declare e n imm strict rec rec' hr hc =>
    have he0 : e = 0 := by
      cases hal <;> simp only [act, Option.some.injEq, reduceCtorEq, Spec.Action.declare.injEq] at ha
      exact ha.1.symm
    subst he0
    refine Later.set hr ?_
    unfold Spec.Record.create at hc
    rw [get_eq_find] at hc
    cases hx : find rec.bindings n with
    | some d => rw [hx] at hc; simp at hc
    | none =>
      rw [hx, if_neg (by simp)] at hc
      simp only [Option.some.injEq] at hc
      subst hc
      refine { form := rfl, names := fun ht => by simp at ht, keep := ?_ }
      intro m d hd
      simp only [find_append, hd, Option.some_or]
      exact ⟨d, rfl, rfl, rfl, id, fun _ _ h => h⟩
  | redeclare => exact Later.refl _
  | resolve => exact Later.push
  | direct => exact Later.push
  | @init r v x e rec rec' hx hb hr ho =>
    refine Later.set hr ?_
    unfold Spec.Record.initialize at ho
    simp only [get_eq_find] at ho
    by_cases hin : rec.inObject x.name = true
    · rw [if_pos hin] at ho
      simp only [Option.some.injEq] at ho
      subst ho
      exact RecLater.object
    · rw [if_neg hin] at ho
      cases hd : find rec.bindings x.name with
      | none => rw [hd] at ho; simp at ho
      | some d =>
        rw [hd] at ho
        simp only at ho
        cases hv : d.value with
        | some _ => rw [hv] at ho; simp at ho
        | none =>
          rw [hv] at ho
          simp only [Option.some.injEq] at ho
          subst ho
          exact RecLater.put hd rfl rfl (fun _ => rfl) (fun _ v' hv' => by rw [hv] at hv'; simp at hv')
  | get => exact Later.refl _
  | getNowhere => exact Later.refl _
  | @set r v strict x e rec hx hb hr =>
    refine Later.set hr ?_
    unfold Spec.Record.assign
    simp only [get_eq_find]
    by_cases hin : rec.inObject x.name = true
    · rw [if_pos hin]
      by_cases hc : ((find rec.object x.name).isNone && strict) = true
      · rw [if_pos hc]; exact RecLater.refl _ _
      · rw [if_neg hc]; exact RecLater.object
    · rw [if_neg hin]
      obtain ⟨d, hd⟩ := h.bound hP hx hb hr (by simpa using hin)
      simp only [hd]
      cases hv : d.value with
      | none => exact RecLater.refl _ _
      | some v0 =>
        simp only
        by_cases hm : d.mutable = true
        · rw [if_pos hm]
          exact RecLater.put hd rfl rfl (fun _ => rfl) (fun hm' => by rw [hm] at hm'; simp at hm')
        · rw [if_neg hm]; exact RecLater.refl _ _
  | setNowhere _ _ hr => exact Later.set hr RecLater.object
  | setNowhereStrict => exact Later.refl _
  | @delete r strict t x e rec rec' hx hb hr ho =>
    refine Later.set hr ?_
    unfold Spec.Record.delete at ho
    simp only [get_eq_find] at ho
    by_cases hin : rec.inObject x.name = true
    · rw [if_pos hin] at ho
      simp only [Option.some.injEq, Prod.mk.injEq] at ho
      rw [← ho.1]
      exact RecLater.object
    · rw [if_neg hin] at ho
      obtain ⟨d, hd⟩ := h.bound hP hx hb hr (by simpa using hin)
      rw [hd] at ho
      obtain ⟨y, hy, hyn, hyb, hyl, hyr⟩ := h.refAt hx
      rw [hb] at hyb
      rw [hyn] at hd
      obtain ⟨hdel, _⟩ := declDelete_ref h hyl (hyr _ hyb.symm) hr hd
      simp only [hdel, Bool.false_eq_true, if_false, Option.some.injEq, Prod.mk.injEq] at ho
      rw [← ho.1]
      exact RecLater.refl _ _
  | deleteNowhere => exact Later.refl _
  | deleteNowhereStrict => exact Later.refl _
  | putProp hr => exact Later.set hr RecLater.object
  | delProp hr => exact Later.set hr RecLater.object
  | evalVar => cases hal <;> simp [act] at ha
  | evalFunc => cases hal <;> simp [act] at ha

theorem exec_later {P : Code} (hP : P.WF) {sc : List Nat} {w w' : Spec.World} {ops : List Op}
    {os : List Spec.Answer} (he : Execution P sc w ops w' os) {s : State} (h : Sim P sc s w) :
    Later w w' := by
  induction he generalizing s with
  | nil => exact Later.refl _
  | cons hal ha hst _ ih =>
    obtain ⟨s1, _, h2⟩ := step_ok h hP hal ha hst
    exact (step_later h hP hal ha hst).trans (ih h2)

/-- The worlds of an execution. -/
theorem exec_worlds {P : Code} (hP : P.WF) {sc : List Nat} {w wEnd : Spec.World} {ops : List Op}
    {os : List Spec.Answer} (he : Execution P sc w ops wEnd os) {s : State} (h : Sim P sc s w) :
    ∃ ws : Nat → Spec.World, ws 0 = w ∧ ws ops.length = wEnd ∧
      (∀ i j, i ≤ j → j ≤ ops.length → Later (ws i) (ws j)) ∧
      ∀ (j : Nat) (op : Op), ops[j]? = some op → ∃ sc s sc' a o, Sim P sc s (ws j) ∧
        Allowed P (ws j) sc op sc' ∧ act P op = some a ∧ Spec.Step (ws j) a (ws (j + 1)) o ∧
        os[j]? = some o := by
  induction he generalizing s with
  | @nil sc w =>
    refine ⟨fun _ => w, rfl, rfl, fun _ _ _ _ => Later.refl _, ?_⟩
    intro j op hj
    simp at hj
  | @cons sc sc' w w' w'' op' ops a o os hal ha hst hrest ih =>
    obtain ⟨s1, _, h2⟩ := step_ok h hP hal ha hst
    obtain ⟨ws, k1, k2, k3, k4⟩ := ih h2
    have hl := step_later h hP hal ha hst
    refine ⟨fun j => match j with | 0 => w | j + 1 => ws j, rfl, k2, ?_, ?_⟩
    · intro i j hij hj
      cases i with
      | zero =>
        cases j with
        | zero => exact Later.refl _
        | succ j =>
          simp only
          refine hl.trans ?_
          rw [← k1]
          exact k3 0 j (by omega) (by simpa using hj)
      | succ i =>
        cases j with
        | zero => omega
        | succ j => exact k3 i j (by omega) (by simpa using hj)
    · intro j op hj
      cases j with
      | zero =>
        simp only [List.getElem?_cons_zero, Option.some.injEq] at hj
        subst hj
        refine ⟨sc, s, sc', a, o, h, hal, ha, ?_, rfl⟩
        simp only
        rw [k1]
        exact hst
      | succ j =>
        simp only [List.getElem?_cons_succ] at hj
        obtain ⟨sc1, s1, sc2, a1, o1, m1, m2, m3, m4, m5⟩ := k4 j op hj
        exact ⟨sc1, s1, sc2, a1, o1, m1, m2, m3, m4, by rw [List.getElem?_cons_succ]; exact m5⟩

/-- After its declaration a name is bound in the global record. -/
theorem declared_bound {P : Code} {w w' : Spec.World} {b : Nat} {imm strict : Bool}
    {a : Spec.Action} {o : Spec.Answer} (ha : act P (.declare 0 b imm strict) = some a)
    (hst : Spec.Step w a w' o) :
    ∃ rec d, w'.records[0]? = some rec ∧ find rec.bindings (P.name b) = some d := by
  simp only [act, Option.some.injEq] at ha
  subst ha
  cases hst with
  | @declare _ _ _ _ rec rec' hr hc =>
    have hlt : 0 < w.records.length := (List.getElem?_eq_some_iff.mp hr).1
    unfold Spec.Record.create at hc
    rw [get_eq_find] at hc
    cases hx : find rec.bindings (P.name b) with
    | some d => rw [hx] at hc; simp at hc
    | none =>
      rw [hx, if_neg (by simp)] at hc
      simp only [Option.some.injEq] at hc
      subst hc
      refine ⟨{ rec with bindings := rec.bindings ++ [(P.name b, Spec.fresh imm strict false)] },
        Spec.fresh imm strict false, ?_, ?_⟩
      · simp only [Spec.World.set]
        rw [List.getElem?_set, if_pos rfl, if_pos hlt]
      · simp only [find_append, hx, find_cons]
        rfl
  | @redeclare _ _ _ _ rec hr hf hs =>
    rw [get_eq_find] at hs
    cases hx : find rec.bindings (P.name b) with
    | some d => exact ⟨rec, d, hr, hx⟩
    | none => rw [hx] at hs; simp at hs

/-- The reference an operation uses. -/
def Uses (op : Op) (r : Nat) : Prop :=
  (∃ v, op = .init r v) ∨ (∃ st, op = .get r st) ∨ (∃ v st, op = .set r v st)

theorem uses_ref {P : Code} {w w' : Spec.World} {op : Op} {r : Nat} {a : Spec.Action}
    {o : Spec.Answer} (hu : Uses op r) (ha : act P op = some a) (hst : Spec.Step w a w' o) :
    ∃ x, w.references[r]? = some x := by
  rcases hu with ⟨v, rfl⟩ | ⟨st, rfl⟩ | ⟨v, st, rfl⟩ <;>
  · simp only [act, Option.some.injEq] at ha
    subst ha
    cases hst <;> exact ⟨_, ‹_›⟩

/-- Bindings are there from the start in all records but the global one. -/
theorem bound_at {P : Code} (hP : P.WF) {sc : List Nat} {s : State} {w wEnd : Spec.World}
    (h : Sim P sc s w) (hl : Later w wEnd) {r e n : Nat} (he0 : e ≠ 0)
    (hx : w.references[r]? = some { name := n, base := some e }) {recE : Spec.Record}
    {dE : Spec.Binding} (hrE : wEnd.records[e]? = some recE) (hdE : find recE.bindings n = some dE) :
    ∃ rec d, w.records[e]? = some rec ∧ find rec.bindings n = some d := by
  obtain ⟨y, hy, hyn, hyb, hyl, hyr⟩ := h.refAt hx
  obtain ⟨k, hk, _⟩ := hyr e hyb.symm
  obtain ⟨env, rec, he, hr, hE⟩ := h.at' hk
  obtain ⟨rec', hr', hrl⟩ := hl.recs e rec hr
  rw [hrE] at hr'
  simp only [Option.some.injEq] at hr'
  subst hr'
  have hn := hrl.names (by simp [he0])
  have hm : n ∈ rec.bindings.map Prod.fst := by
    rw [← hn, ← find_isSome_iff, hdE]; rfl
  rw [← find_isSome_iff] at hm
  cases hx' : find rec.bindings n with
  | none => rw [hx'] at hm; simp at hm
  | some d => exact ⟨rec, d, hr, hx'⟩

end Verif.Env

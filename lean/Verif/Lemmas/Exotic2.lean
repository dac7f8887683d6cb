import Verif.Lemmas.Exotic

/-! The objects of strings and typed arrays beside their specification, one operation. -/
namespace Verif.Exotic
open Obj (Val P Desc Fields descOf newProp check change noFlags isAcc isData isCompatible ofFields fieldsOk spOf WfP)
open Obj.Spec (Prp)

/-- The properties kept are none of the elements. -/
def Free (L : Lang) (props : List (Key × Prp)) : Body → Prop
  | .str u => (∀ q ∈ props, Spec.element u.length q.1 = none) ∧ u.length ≤ 2 ^ 53
  | .arr el _ => (∀ q ∈ props, Spec.numeric L q.1 = false) ∧ el.length ≤ 2 ^ 53 ∧ ∀ x ∈ el, x ≠ .undef

structure Rel (L : Lang) (m : St) (s : Spec.St) : Prop where
  ext : m.ext = s.ext
  body : m.body = s.body
  props : m.props = s.props.map conv1
  odd : ∀ q ∈ s.props, NotOdd q.1
  nodup : (s.props.map (·.1)).Nodup
  free : Free L s.props s.body

/-- The kind of body does not change. -/
def Kind : Body → Body → Prop
  | .str u, .str v => u = v
  | .arr _ _, .arr _ _ => True
  | _, _ => False

theorem Kind.refl (b : Body) : Kind b b := by cases b <;> simp [Kind]

def own : Option Prp → Own
  | none => .none
  | some p => .some (descOf (toP p))

theorem plain_odd {L : Lang} {b : Body} {k : Key} (h : Spec.PlainKey L b k) : NotOdd k := by
  cases k with
  | sym n => trivial
  | str t =>
    cases b with
    | str u => exact h.1
    | arr el det => exact h

theorem ordOwn_rel {L : Lang} {m : St} {s : Spec.St} (h : Rel L m s) {k : Key} (hk : NotOdd k) :
    ordOwn m k = own (Spec.find k s.props) := by
  unfold ordOwn
  rw [h.props, find_map hk h.odd]
  cases Spec.find k s.props <;> rfl

theorem getD_mem {el : List Val} {i : Nat} (h : i < el.length) : el.getD i .undef ∈ el := by
  rw [List.getD_eq_getElem?_getD, List.getElem?_eq_getElem h]
  exact List.getElem_mem h

theorem live_le (el : List Val) (det : Bool) : Spec.live (.arr el det) ≤ el.length := by
  cases det <;> simp [Spec.live]

theorem numKey_none {L : Lang} {k : Key} : numKey L k = none ↔ Spec.numeric L k = false := by
  rw [← numKey_isSome]
  cases numKey L k <;> simp

theorem numKey_some {L : Lang} {k : Key} (h : Spec.numeric L k = true) : ∃ n, numKey L k = some n := by
  rw [← numKey_isSome] at h
  exact Option.isSome_iff_exists.1 h

theorem getOwn_rel {L : Lang} (hL : Spec.Faithful L) {m : St} {s : Spec.St} (h : Rel L m s) {k : Key}
    (hk : Spec.PlainKey L s.body k) : getOwn L m k = own (Spec.prop L s k) := by
  unfold getOwn Spec.prop
  rw [h.body]
  have hf := h.free
  cases hb : s.body with
  | str u =>
    rw [hb] at hf hk
    simp only
    rw [ordOwn_rel h (plain_odd hk)]
    cases hp : Spec.find k s.props with
    | some p => rfl
    | none =>
      simp only [own]
      rw [str_element hL hf.2 hk]
      cases Spec.element u.length k <;> rfl
  | arr el det =>
    rw [hb] at hf hk
    simp only
    cases hn : Spec.numeric L k with
    | false =>
      rw [numKey_none.2 hn]
      simp only [Bool.false_eq_true, if_false]
      exact ordOwn_rel h (plain_odd hk)
    | true =>
      obtain ⟨n, e⟩ := numKey_some hn
      rw [e]
      simp only [if_true]
      have hv := valid_element hL (det := det) hf.2.1 e
      cases he : Spec.element (Spec.live (.arr el det)) k with
      | none =>
        have : elemGet el det n = .undef := by unfold elemGet; rw [hv, he]
        rw [this]
        rfl
      | some i =>
        have hi := Nat.lt_of_lt_of_le (element_some.1 he).2 (live_le el det)
        have : elemGet el det n = el.getD i .undef := by unfold elemGet; rw [hv, he]
        rw [this, if_neg (hf.2.2 _ (getD_mem hi))]
        rfl

/-- What is to be shown of an operation. -/
def Sim (L : Lang) (b : Body) (x : St × Out) (y : Spec.St × Out) : Prop :=
  x.2 = y.2 ∧ Rel L x.1 y.1 ∧ Kind b y.1.body

theorem sim_same {L : Lang} {m : St} {s : Spec.St} (h : Rel L m s) (o : Out) : Sim L s.body (m, o) (s, o) :=
  ⟨rfl, h, Kind.refl _⟩

/-- A key which is no element. -/
def NoElem (L : Lang) : Body → Key → Prop
  | .str u, k => Spec.element u.length k = none
  | .arr _ _, k => Spec.numeric L k = false

theorem prop_noElem {L : Lang} {s : Spec.St} {k : Key} (h : NoElem L s.body k) : Spec.prop L s k = Spec.find k s.props := by
  unfold Spec.prop
  cases hb : s.body with
  | str u =>
    rw [hb] at h
    simp only
    cases hp : Spec.find k s.props with
    | some p => rfl
    | none =>
      have h : Spec.element u.length k = none := h
      simp only [h]
      rfl
  | arr el det =>
    rw [hb] at h
    have h : Spec.numeric L k = false := h
    simp [h]

theorem free_noElem {L : Lang} {l : List (Key × Prp)} {b : Body} {k : Key} {p : Prp} (h : Free L l b) (hk : NoElem L b k) :
    Free L (l ++ [(k, p)]) b := by
  cases b with
  | str u =>
    refine ⟨fun q hq => ?_, h.2⟩
    rcases List.mem_append.1 hq with hq | hq
    · exact h.1 q hq
    · rw [List.mem_singleton.1 hq]; exact hk
  | arr el det =>
    refine ⟨fun q hq => ?_, h.2⟩
    rcases List.mem_append.1 hq with hq | hq
    · exact h.1 q hq
    · rw [List.mem_singleton.1 hq]; exact hk

theorem free_sub {L : Lang} {l l' : List (Key × Prp)} {b : Body} (h : Free L l b)
    (hs : ∀ q ∈ l', q.1 ∈ l.map (·.1)) : Free L l' b := by
  have hs' : ∀ q ∈ l', ∃ r ∈ l, r.1 = q.1 := fun q hq => List.mem_map.1 (hs q hq)
  cases b with
  | str u =>
    refine ⟨fun q hq => ?_, h.2⟩
    obtain ⟨r, hr, e⟩ := hs' q hq
    rw [← e]; exact h.1 r hr
  | arr el det =>
    refine ⟨fun q hq => ?_, h.2⟩
    obtain ⟨r, hr, e⟩ := hs' q hq
    rw [← e]; exact h.1 r hr

theorem map_keys {k : Key} {p : Prp} (l : List (Key × Prp)) :
    (l.map fun q => if q.1 = k then (k, p) else q).map (·.1) = l.map (·.1) := by
  rw [List.map_map]
  apply List.map_congr_left
  intro q _
  simp only [Function.comp]
  split
  · rename_i h; exact h.symm
  · rfl

theorem ordinary_rel {L : Lang} (hL : Spec.Faithful L) {m : St} {s : Spec.St} (h : Rel L m s) {k : Key}
    (hk : Spec.PlainKey L s.body k) (he : NoElem L s.body k) {f : Fields} (hf : fieldsOk L.callable f = true) :
    Sim L s.body (ordDefine L m k (ofFields f)) (Spec.ordinary L s k f) := by
  have ho := plain_odd hk
  unfold ordDefine Spec.ordinary
  rw [getOwn_rel hL h hk, prop_noElem he]
  cases hp : Spec.find k s.props with
  | none =>
    simp only [own, validateAndApply]
    rw [h.ext]
    cases hx : s.ext with
    | false => exact sim_same h _
    | true =>
      simp only [Bool.not_true, Bool.false_eq_true, if_false, if_true, Spec.store, hp, Option.isSome_none]
      refine ⟨rfl, ⟨hx.symm, h.body, ?_, ?_, ?_, free_noElem h.free he⟩, Kind.refl _⟩
      · show m.props ++ _ = (s.props ++ _).map conv1
        rw [h.props, List.map_append, List.map_singleton]
        simp only [conv1]
        rw [← Obj.fresh_eq, toP_spOf (Obj.newProp_wf _)]
      · intro q hq
        rcases List.mem_append.1 hq with hq | hq
        · exact h.odd q hq
        · rw [List.mem_singleton.1 hq]; exact ho
      · show ((s.props ++ _).map (·.1)).Nodup
        rw [List.map_append, List.nodup_append]
        refine ⟨h.nodup, by simp, ?_⟩
        intro a ha b hb c
        simp only [List.map_cons, List.map_nil, List.mem_singleton] at hb
        subst hb; subst c
        exact sfind_none.1 hp ha
  | some p =>
    simp only [own, validateAndApply]
    have hall := Obj.allowed_eq hf (toP_wf p)
    rw [spOf_toP] at hall
    by_cases hn : noFlags (ofFields f) = true
    · rw [if_pos hn, ← hall, hn]
      simp only [Bool.true_or, if_true]
      have e : Spec.store s k (Obj.Spec.applied f p) = s := by
        rw [Obj.noFlags_applied hn]
        unfold Spec.store
        rw [hp]
        simp only [Option.isSome_some, if_true]
        rw [map_same h.nodup hp]
      rw [e]
      exact sim_same h _
    · rw [if_neg hn]
      simp only [Bool.not_eq_true] at hn
      rw [hn, Bool.false_or] at hall
      rw [hall]
      cases ha : Obj.Spec.allowed f p with
      | false => exact sim_same h _
      | true =>
        simp only [Bool.not_true, Bool.false_eq_true, if_false, if_true]
        have e : find (slot k) m.props = some (toP p) := by
          rw [h.props, find_map ho h.odd, hp]; rfl
        rw [e]
        simp only [Spec.store, hp, Option.isSome_some, if_true]
        refine ⟨rfl, ⟨h.ext, h.body, ?_, ?_, ?_, ?_⟩, Kind.refl _⟩
        · show put _ _ m.props = List.map conv1 _
          rw [← put_map ho h.odd h.nodup, h.props]
          congr 1
          have := Obj.applied_eq hf (toP_wf p)
          rw [spOf_toP] at this
          rw [← this, toP_spOf (Obj.change_wf (toP_wf p) _)]
        · intro q hq
          obtain ⟨r, hr, e⟩ := List.mem_map.1 hq
          split at e
          · subst e; exact ho
          · subst e; exact h.odd r hr
        · show (List.map (fun q : Key × Prp => q.1) _).Nodup
          rw [map_keys]; exact h.nodup
        · refine free_sub h.free fun q hq => ?_
          have := List.mem_map_of_mem (f := fun q : Key × Prp => q.1) hq
          rw [map_keys] at this
          exact this

theorem rel_body {L : Lang} {m : St} {s : Spec.St} (h : Rel L m s) {el el' : List Val} {det det' : Bool}
    (hb : s.body = .arr el det) (hl : el'.length = el.length) (hu : ∀ x ∈ el', x ≠ .undef) :
    Rel L { m with body := .arr el' det' } { s with body := .arr el' det' } := by
  refine ⟨h.ext, rfl, h.props, h.odd, h.nodup, ?_⟩
  have hf := h.free
  rw [hb] at hf
  exact ⟨hf.1, hl ▸ hf.2.1, hu⟩

theorem mem_set {el : List Val} {i : Nat} {x : Val} (h : ∀ y ∈ el, y ≠ .undef) (hx : x ≠ .undef) :
    ∀ y ∈ el.set i x, y ≠ .undef := by
  intro y hy
  rcases List.mem_or_eq_of_mem_set hy with hy | rfl
  · exact h y hy
  · exact hx

/-- The elements assigned. -/
def finish (m : St) (r : List Val × Bool × Bool) : St × Out :=
  match r with
  | (el', det', true) => ({ m with body := .arr el' det' }, .bool true)
  | (el', det', false) => ({ m with body := .arr el' det' }, .throw)

theorem elemSet_rel {L : Lang} (hL : Spec.Faithful L) {m : St} {s : Spec.St} (h : Rel L m s) {el : List Val} {det : Bool}
    (hb : s.body = .arr el det) {k : Key} {n : Num} (hk : numKey L k = some n) (v : Val) :
    Sim L s.body (finish m (elemSet L el det n v)) (Spec.assign L s k v) := by
  have hf := h.free
  rw [hb] at hf
  unfold Spec.assign elemSet
  rw [hb]
  have hv := hL.elem v
  generalize L.conv v = c at hv ⊢
  obtain ⟨r, d⟩ := c
  simp only at hv ⊢
  cases r with
  | none => exact ⟨rfl, rel_body h hb rfl hf.2.2, trivial⟩
  | some x =>
    simp only
    rw [valid_element hL hf.2.1 hk]
    cases Spec.element (Spec.live (.arr el (det || d))) k with
    | none => exact ⟨rfl, rel_body h hb rfl hf.2.2, trivial⟩
    | some i => exact ⟨rfl, rel_body h hb (by simp) (mem_set hf.2.2 (hv x rfl)), trivial⟩

theorem finish_match (m : St) (r : List Val × Bool × Bool) :
    (match r with
      | (el', det', true) => (({ m with body := .arr el' det' } : St), Out.bool true)
      | (el', det', false) => ({ m with body := .arr el' det' }, .throw)) = finish m r := rfl

theorem compat_eq {L : Lang} {f : Fields} (hf : fieldsOk L.callable f = true) (ext : Bool) (p : Prp) :
    isCompatible ext (ofFields f) (some (descOf (toP p))) = Obj.Spec.allowed f p := by
  have := Obj.allowed_eq hf (toP_wf p)
  rw [spOf_toP] at this
  rw [← this]
  unfold isCompatible
  simp only
  cases noFlags (ofFields f) <;> rfl

theorem fields_cases (f : Fields) (x y : St × Out) :
    (if (ofFields f).hasC && !(ofFields f).c then x
      else if (ofFields f).hasE && !(ofFields f).e then x
      else if isAcc (ofFields f) then x
      else if (ofFields f).hasW && !(ofFields f).w then x
      else y) =
    if f.configurable = some false ∨ f.enumerable = some false ∨ f.writable = some false ∨ f.get ≠ none ∨ f.set ≠ none then x
    else y := by
  obtain ⟨e, c, v, w, g, s⟩ := f
  rcases e with _ | (_ | _) <;> rcases c with _ | (_ | _) <;> rcases w with _ | (_ | _) <;> cases g <;> cases s <;> rfl

theorem define_rel {L : Lang} (hL : Spec.Faithful L) {m : St} {s : Spec.St} (h : Rel L m s) {k : Key}
    (hk : Spec.PlainKey L s.body k) {f : Fields} (hf : fieldsOk L.callable f = true) :
    Sim L s.body (define L m k (ofFields f)) (Spec.define L s k f) := by
  have hfr := h.free
  have ho := ordinary_rel hL h hk (f := f)
  unfold define Spec.define
  rw [h.body]
  cases hb : s.body with
  | str u =>
    rw [hb] at hfr hk ho
    simp only
    rw [str_element hL hfr.2 hk]
    cases he : Spec.element u.length k with
    | none => exact ho he hf
    | some i =>
      simp only
      rw [compat_eq hf]
      have := sim_same h (.bool (Obj.Spec.allowed f (.data (L.char (u.getD i 0)) false true false)))
      rw [hb] at this
      exact this
  | arr el det =>
    rw [hb] at hfr hk ho
    simp only
    have same : ∀ o, Sim L (.arr el det) (m, o) (s, o) := by
      intro o
      have := sim_same h o
      rw [hb] at this; exact this
    cases hn : Spec.numeric L k with
    | false =>
      rw [numKey_none.2 hn]
      simp only [Bool.false_eq_true, if_false]
      exact ho hn hf
    | true =>
      obtain ⟨n, e⟩ := numKey_some hn
      rw [e]
      simp only [if_true]
      rw [valid_element hL hfr.2.1 e, fields_cases]
      cases he : Spec.element (Spec.live (.arr el det)) k with
      | none => exact same _
      | some i =>
        simp only [Option.isNone_some, Bool.false_eq_true, if_false, reduceCtorEq]
        split
        · exact same _
        · obtain ⟨fe, fc, fv, fw, fg, fs⟩ := f
          cases fv with
          | none => exact same _
          | some v =>
            have := elemSet_rel hL h hb e v
            rw [hb] at this
            exact this

theorem hasProp {L : Lang} (k : Key) : (Spec.inherited L k).isSome = (L.up k != .none) := by
  unfold Spec.inherited
  cases L.up k <;> rfl

theorem step_rel_set {L : Lang} (hL : Spec.Faithful L) {m : St} {s : Spec.St} (h : Rel L m s) {self : Bool} {k : Key} {v : Val}
    (hk : Spec.PlainKey L s.body k) (hs : self = false → ∀ el det, s.body = .arr el det → Spec.numeric L k = false) :
    Sim L s.body (set L self m k v) (Spec.set L self s k v) := by
  have d1 := define_rel hL h hk (f := { value := some v }) rfl
  have d2 := define_rel hL h hk (f := { value := some v, writable := some true, enumerable := some true, configurable := some true }) rfl
  have hg := getOwn_rel hL h hk
  -- the ordinary way
  have usual : (∀ el det, s.body = .arr el det → Spec.numeric L k = false) →
      Sim L s.body (ordSet L self m k v)
        (match Spec.seen L s k with
          | some (.acc _ f _ _) => if f = .undef then (s, .bool false) else (s, .call f)
          | some (.data _ false _ _) => (s, .bool false)
          | _ =>
            if !self then (s, .receiver)
            else
              match Spec.prop L s k with
              | some _ => Spec.define L s k { value := some v }
              | none => Spec.define L s k { value := some v, writable := some true, enumerable := some true, configurable := some true }) := by
    intro hnum
    have hseen : Spec.seen L s k = match Spec.prop L s k with | some p => some p | none => Spec.inherited L k := by
      unfold Spec.seen
      cases Spec.prop L s k with
      | some p => rfl
      | none =>
        simp only
        cases hb : s.body with
        | str u => rfl
        | arr el det => simp [hnum el det hb]
    rw [hseen]
    unfold ordSet
    rw [hg]
    cases hp : Spec.prop L s k with
    | some p =>
      cases p with
      | acc g st e c =>
        simp only [own, descOf, toP, isData, Bool.or_self, Bool.false_eq_true, if_false]
        split <;> exact sim_same h _
      | data x w e c =>
        simp only [own, descOf, toP, isData, Bool.or_self, if_true]
        cases w with
        | false => exact sim_same h _
        | true =>
          unfold setData
          rw [hg, hp]
          cases self with
          | false => exact sim_same h _
          | true => exact d1
    | none =>
      simp only [own, Spec.inherited]
      cases hu : L.up k with
      | none =>
        simp only
        unfold setData
        rw [hg, hp]
        cases self with
        | false => exact sim_same h _
        | true => exact d2
      | data x w =>
        simp only
        unfold setData
        rw [hg, hp]
        cases w with
        | false => exact sim_same h _
        | true =>
          cases self with
          | false => exact sim_same h _
          | true => exact d2
      | acc g st =>
        simp only
        split <;> exact sim_same h _
  unfold set Spec.set
  rw [h.body]
  cases hb : s.body with
  | str u =>
    rw [hb] at usual
    exact usual (fun el det c => nomatch c)
  | arr el det =>
    rw [hb] at usual hs
    simp only
    cases hn : Spec.numeric L k with
    | false =>
      rw [numKey_none.2 hn]
      simp only [Bool.false_eq_true, if_false]
      exact usual (fun _ _ _ => hn)
    | true =>
      cases self with
      | false =>
        have := hs rfl el det rfl
        rw [hn] at this; cases this
      | true =>
        obtain ⟨n, e⟩ := numKey_some hn
        rw [e]
        simp only [if_true]
        have := elemSet_rel hL h hb e v
        rw [hb] at this
        exact this

theorem step_rel_delete {L : Lang} (hL : Spec.Faithful L) {m : St} {s : Spec.St} (h : Rel L m s) {k : Key}
    (hk : Spec.PlainKey L s.body k) : Sim L s.body (delete L m k) (Spec.step L s (.delete k)) := by
  have hg := getOwn_rel hL h hk
  have hf := h.free
  have usual : (∀ el det, s.body = .arr el det → Spec.numeric L k = false) →
      Sim L s.body (ordDelete L m k) (Spec.step L s (.delete k)) := by
    intro hnum
    have hx : (Spec.isArr s.body && Spec.numeric L k) = false := by
      cases hb : s.body with
      | str u => rfl
      | arr el det => rw [hnum el det hb]; rfl
    unfold ordDelete
    rw [hg]
    simp only [Spec.step]
    cases hp : Spec.prop L s k with
    | none => exact sim_same h _
    | some p =>
      simp only [own]
      have hc : (descOf (toP p)).c = p.configurable := by cases p <;> rfl
      rw [hc]
      have hx' : ¬(Spec.isArr s.body = true ∧ Spec.numeric L k = true) := by
        rintro ⟨a, b⟩
        rw [a, b] at hx; cases hx
      cases hpc : p.configurable with
      | false => simpa using sim_same h _
      | true =>
        simp only [if_true]
        rw [if_pos ⟨trivial, hx'⟩]
        refine ⟨rfl, ⟨h.ext, h.body, ?_, ?_, ?_, ?_⟩, Kind.refl _⟩
        · show remove (slot k) m.props = _
          rw [h.props, remove_map (plain_odd hk) h.odd h.nodup]
        · intro q hq
          exact h.odd q (List.mem_filter.1 hq).1
        · exact h.nodup.sublist (List.filter_sublist.map _)
        · exact free_sub h.free fun q hq => List.mem_map_of_mem (List.mem_filter.1 hq).1
  unfold delete
  rw [h.body]
  cases hb : s.body with
  | str u =>
    rw [hb] at usual
    exact usual (fun _ _ c => nomatch c)
  | arr el det =>
    rw [hb] at usual hf
    simp only
    cases hn : Spec.numeric L k with
    | false =>
      rw [numKey_none.2 hn]
      exact usual (fun _ _ _ => hn)
    | true =>
      obtain ⟨n, e⟩ := numKey_some hn
      rw [e]
      simp only [Spec.step, Spec.prop, hb, hn, if_true, Spec.isArr]
      rw [valid_element hL hf.2.1 e]
      have same : ∀ o, Sim L (.arr el det) (m, o) (s, o) := by
        intro o
        have := sim_same h o
        rw [hb] at this; exact this
      cases Spec.element (Spec.live (.arr el det)) k with
      | none => exact same _
      | some i => simpa using same _

theorem seen_has {L : Lang} (hL : Spec.Faithful L) {m : St} {s : Spec.St} (h : Rel L m s) {k : Key}
    (hk : Spec.PlainKey L s.body k) :
    has L m k = .bool (Spec.seen L s k).isSome ∧
    get L m k = (match Spec.seen L s k with
      | none => .value .undef
      | some (.data v _ _ _) => .value v
      | some (.acc g _ _ _) => if g = .undef then .value .undef else .call g) := by
  have hg := getOwn_rel hL h hk
  have hf := h.free
  have usual : (∀ el det, s.body = .arr el det → Spec.numeric L k = false) →
      ordHas L m k = .bool (Spec.seen L s k).isSome ∧
      ordGet L m k = (match Spec.seen L s k with
        | none => .value .undef
        | some (.data v _ _ _) => .value v
        | some (.acc g _ _ _) => if g = .undef then .value .undef else .call g) := by
    intro hnum
    have hseen : Spec.seen L s k = match Spec.prop L s k with | some p => some p | none => Spec.inherited L k := by
      unfold Spec.seen
      cases Spec.prop L s k with
      | some p => rfl
      | none =>
        simp only
        cases hb : s.body with
        | str u => rfl
        | arr el det => simp [hnum el det hb]
    rw [hseen]
    unfold ordHas ordGet
    rw [hg]
    cases hp : Spec.prop L s k with
    | some p =>
      cases p with
      | acc g st e c => exact ⟨rfl, rfl⟩
      | data x w e c => exact ⟨rfl, rfl⟩
    | none =>
      simp only [own]
      refine ⟨by rw [hasProp], ?_⟩
      unfold Spec.inherited
      cases L.up k <;> rfl
  unfold has get
  rw [h.body]
  cases hb : s.body with
  | str u =>
    rw [hb] at usual
    exact usual (fun _ _ c => nomatch c)
  | arr el det =>
    rw [hb] at usual hf
    simp only
    cases hn : Spec.numeric L k with
    | false =>
      rw [numKey_none.2 hn]
      exact usual (fun _ _ _ => hn)
    | true =>
      obtain ⟨n, e⟩ := numKey_some hn
      rw [e]
      simp only [elemGet]
      rw [valid_element hL hf.2.1 e]
      have hs : Spec.seen L s k = (Spec.element (Spec.live (.arr el det)) k).map fun i => .data (el.getD i .undef) true true true := by
        unfold Spec.seen Spec.prop
        rw [hb]
        simp only [hn, if_true]
        cases Spec.element (Spec.live (.arr el det)) k <;> rfl
      rw [hs]
      cases Spec.element (Spec.live (.arr el det)) k with
      | none => exact ⟨rfl, rfl⟩
      | some i => exact ⟨rfl, rfl⟩

theorem elemKeys_eq {L : Lang} (hL : Spec.Faithful L) {n : Nat} (hn : n ≤ 2 ^ 53) :
    elemKeys L n = (List.range n).map fun i => Key.str (Str.decimal i) := by
  unfold elemKeys
  apply List.map_congr_left
  intro i hi
  have := List.mem_range.1 hi
  rw [hL.write i (by omega)]

theorem ownKeys_rel {L : Lang} (hL : Spec.Faithful L) {m : St} {s : Spec.St} (h : Rel L m s)
    (hd : ∀ el, s.body ≠ .arr el true) : ownKeys L m = Spec.keys s := by
  have hf := h.free
  unfold ownKeys Spec.keys
  rw [h.body, h.props, addKeys_eq h.odd h.nodup]
  cases hb : s.body with
  | str u =>
    rw [hb] at hf
    simp only [Spec.live]
    rw [elemKeys_eq hL hf.2]
  | arr el det =>
    rw [hb] at hf
    cases det with
    | true => exact absurd hb (hd el)
    | false =>
      simp only [Spec.live, Bool.false_eq_true, if_false]
      rw [elemKeys_eq hL hf.2.1]

theorem step_rel {L : Lang} (hL : Spec.Faithful L) {m : St} {s : Spec.St} (h : Rel L m s) (op : Op)
    (hp : Spec.Plain L s.body op) : Sim L s.body (step L m op) (Spec.step L s op) := by
  cases op with
  | getOwn k =>
    refine ⟨?_, h, Kind.refl _⟩
    simp only [step, Spec.step]
    rw [getOwn_rel hL h hp]
    cases Spec.prop L s k with
    | none => rfl
    | some p => simp only [own, Option.map_some]; rw [← Obj.spOf_report, spOf_toP]
  | define k f =>
    simp only [step, Spec.step]
    rw [Obj.toDesc_eq, ← Obj.valid_eq]
    cases hf : fieldsOk L.callable f with
    | false => exact sim_same h _
    | true => exact define_rel hL h hp hf
  | has k => exact ⟨(seen_has hL h hp).1, h, Kind.refl _⟩
  | get k =>
    have := (seen_has hL h hp).2
    simp only [step, Spec.step]
    rw [this]
    cases hs : Spec.seen L s k with
    | none => exact sim_same h _
    | some p =>
      cases p with
      | data v w e c => exact sim_same h _
      | acc g st e c =>
        simp only
        split <;> exact sim_same h _
  | set self k v => exact step_rel_set hL h hp.1 hp.2
  | delete k => exact step_rel_delete hL h hp
  | keys =>
    refine ⟨?_, h, Kind.refl _⟩
    simp only [step, Spec.step]
    rw [ownKeys_rel hL h hp]
  | prevent => exact ⟨rfl, ⟨rfl, h.body, h.props, h.odd, h.nodup, h.free⟩, Kind.refl _⟩
  | write i v =>
    simp only [step, Spec.step]
    rw [h.body]
    have hv := hL.elem v
    have hf := h.free
    cases hb : s.body with
    | str u =>
      have := sim_same h .unit
      rw [hb] at this
      exact this
    | arr el det =>
      rw [hb] at hf
      simp only
      generalize L.conv v = c at hv ⊢
      obtain ⟨r, d⟩ := c
      cases r with
      | none =>
        have := sim_same h .unit
        rw [hb] at this
        exact this
      | some x => exact ⟨rfl, rel_body h hb (by simp) (mem_set hf.2.2 (hv x rfl)), trivial⟩
  | detach =>
    simp only [step, Spec.step]
    rw [h.body]
    have hf := h.free
    cases hb : s.body with
    | str u =>
      have := sim_same h .unit
      rw [hb] at this
      exact this
    | arr el det =>
      rw [hb] at hf
      exact ⟨rfl, rel_body h hb rfl hf.2.2, trivial⟩

theorem run_rel {L : Lang} (hL : Spec.Faithful L) : ∀ (ops : List Op) (m : St) (s : Spec.St), Rel L m s →
    Spec.PlainRun L s ops → (run L m ops).2 = (Spec.run L s ops).2 ∧ Rel L (run L m ops).1 (Spec.run L s ops).1
  | [], m, s, h, _ => ⟨rfl, h⟩
  | op :: ops, m, s, h, hp => by
    obtain ⟨h1, h2, _⟩ := step_rel hL h op hp.1
    obtain ⟨h3, h4⟩ := run_rel hL ops _ _ h2 hp.2
    simp only [run, Spec.run]
    exact ⟨by rw [h1, h3], h4⟩

theorem lengthKey_odd : NotOdd lengthKey := by
  rintro (⟨c, t, h, hw⟩ | ⟨c, t, h, hw⟩ | ⟨c, t, h⟩)
  · obtain ⟨rfl, _⟩ := List.cons.inj h; revert hw; decide
  · have := congrArg List.getLast? h
    simp at this
    subst this; revert hw; decide
  · simp at h

theorem rel_newStr (L : Lang) (u : List Nat) (hu : u.length ≤ 2 ^ 53) : Rel L (newStr u) (Spec.newStr u) := by
  refine ⟨rfl, rfl, rfl, ?_, by simp [Spec.newStr], ?_, hu⟩
  · intro q hq
    rw [List.mem_singleton.1 hq]; exact lengthKey_odd
  · intro q hq
    rw [List.mem_singleton.1 hq]
    rw [element_none]
    intro i _ c
    simp only [lengthKey, Key.str.injEq] at c
    have := (Str.decimal_isDecimal i).digits 108 (by rw [← c]; simp)
    omega

theorem rel_newArr (L : Lang) (el : List Val) (hn : el.length ≤ 2 ^ 53) (hu : ∀ x ∈ el, x ≠ .undef) :
    Rel L (newArr el) (Spec.newArr el) :=
  ⟨rfl, rfl, rfl, fun q hq => (nomatch hq), (by simp [Spec.newArr]), (fun q hq => (nomatch hq)), hn, hu⟩

end Verif.Exotic

import Verif.Spec.Arguments
import Verif.Lemmas.Descriptor

/-! Lemmas about the `arguments` object: the model beside its specification. -/
namespace Verif.Args
open Obj (Val P Desc Fields descOf newProp check change noFlags isAcc isData ofFields fieldsOk spOf WfP)
open Obj.Spec (Prp)

/-- One element in the two. -/
def RelAt (m : Option Nat) (p : Option P) (e : Spec.Elem) : Prop :=
  match m with
  | some q => ∃ v en c, p = some ⟨true, en, c, .data v⟩ ∧ e = .shared q en c
  | none =>
    match p with
    | none => e = .missing
    | some p => WfP p ∧ e = .own (spOf p)

structure Rel (s : St) (a : Spec.St) : Prop where
  ext : s.ext = a.ext
  env : s.env = a.env
  at_ : ∀ i, RelAt (mapped s i) (s.props i) (a.elems i)

theorem upd_eq {α : Type} (f : Nat → α) (i : Nat) (x : α) : Spec.upd f i x = upd f i x := rfl

theorem mapped_unmap (s : St) (i j : Nat) :
    mapped (unmap s i) j = if j = i then none else mapped s j := by
  unfold mapped unmap
  simp only [List.length_set]
  by_cases h : j ≥ s.names.length
  · rw [if_pos h, if_pos h]; split <;> rfl
  · rw [if_neg h, if_neg h, List.getD_eq_getElem?_getD, List.getElem?_set]
    by_cases hij : j = i
    · subst hij
      rw [if_pos rfl, if_pos rfl, if_pos (by omega)]; rfl
    · rw [if_neg (fun e => hij e.symm), if_neg hij, List.getD_eq_getElem?_getD]

/-- The property of the model as the specification sees it. -/
theorem getOwn_rel {s : St} {a : Spec.St} (h : Rel s a) (i : Nat) :
    (getOwn s i = none ∧ Spec.prop a i = none ∧ s.props i = none ∧ mapped s i = none) ∨
    (∃ p q, s.props i = some q ∧ getOwn s i = some (descOf p) ∧ Spec.prop a i = some (spOf p) ∧ WfP p ∧
      ((mapped s i = none ∧ p = q ∧ a.elems i = .own (spOf q)) ∨
        ∃ n v en c, mapped s i = some n ∧ q = ⟨true, en, c, .data v⟩ ∧ p = ⟨true, en, c, .data (s.env n)⟩ ∧
          a.elems i = .shared n en c)) := by
  have hi := h.at_ i
  unfold RelAt at hi
  cases hm : mapped s i with
  | none =>
    rw [hm] at hi
    cases hp : s.props i with
    | none =>
      rw [hp] at hi
      left
      refine ⟨by unfold getOwn; rw [hp], by unfold Spec.prop; rw [hi], rfl, rfl⟩
    | some p =>
      rw [hp] at hi
      right
      exact ⟨p, p, rfl, by unfold getOwn; rw [hp, hm], by unfold Spec.prop; rw [hi.2], hi.1,
        Or.inl ⟨rfl, rfl, hi.2⟩⟩
  | some n =>
    rw [hm] at hi
    obtain ⟨v, en, c, hp, he⟩ := hi
    right
    refine ⟨⟨true, en, c, .data (s.env n)⟩, _, hp, ?_, ?_, ?_, Or.inr ⟨n, v, en, c, rfl, rfl, rfl, he⟩⟩
    · unfold getOwn; rw [hp, hm]; rfl
    · unfold Spec.prop; rw [he, h.env]; rfl
    · intro g s hb; cases hb

/-- The descriptor with the value of the parameter filled in (lines 165-174). -/
def fill (f : Fields) (x : Val) : Fields :=
  if f.value = none ∧ f.writable = some false then { f with value := some x } else f

theorem fill_eq (f : Fields) (x : Val) :
    (if isData (ofFields f) && (!(ofFields f).hasV && (ofFields f).hasW && !(ofFields f).w) then
      { ofFields f with value := x, hasV := true } else ofFields f) = ofFields (fill f x) := by
  obtain ⟨e, c, v, w, g, s⟩ := f
  rcases w with _ | (_ | _) <;> cases v <;> rfl

theorem fill_ok {callable : Val → Bool} {f : Fields} (h : fieldsOk callable f = true) (x : Val) :
    fieldsOk callable (fill f x) = true := by
  obtain ⟨e, c, v, w, g, s⟩ := f
  rcases w with _ | (_ | _) <;> cases v <;> cases g <;> cases s <;>
    first
    | exact h
    | (simp [fieldsOk] at h; done)

theorem fill_allowed (f : Fields) (x y : Val) (en c : Bool) :
    Obj.Spec.allowed (fill f x) (.data y true en c) = Obj.Spec.allowed f (.data y true en c) := by
  obtain ⟨e, c', v, w, g, s⟩ := f
  rcases w with _ | (_ | _) <;> cases v <;> rfl

theorem rel_set_own {s : St} {a : Spec.St} (h : Rel s a) (i : Nat) (hm : mapped s i = none) (p : P)
    (hp : WfP p) :
    Rel { s with props := upd s.props i (some p) } { a with elems := Spec.upd a.elems i (.own (spOf p)) } := by
  refine ⟨h.ext, h.env, fun j => ?_⟩
  have hj := h.at_ j
  show RelAt (mapped s j) (upd s.props i (some p) j) (Spec.upd a.elems i (.own (spOf p)) j)
  unfold upd Spec.upd
  by_cases hij : j = i
  · subst hij
    rw [if_pos rfl, if_pos rfl, hm]
    exact ⟨hp, rfl⟩
  · rw [if_neg hij, if_neg hij]; exact hj

theorem defineOrdinary_own {callable : Val → Bool} {s : St} {a : Spec.St} (h : Rel s a) (i : Nat)
    (hm : mapped s i = none) {f : Fields} (hf : fieldsOk callable f = true) :
    Rel (defineOrdinary s i (ofFields f)).1 (Spec.define a i f).1 ∧
      (defineOrdinary s i (ofFields f)).2 = (Spec.define a i f).2 := by
  unfold defineOrdinary Spec.define
  rcases getOwn_rel h i with ⟨h1, h2, h3, h4⟩ | ⟨p, q, h1, h2, h3, h4, h5 | h5⟩
  · rw [h1, h2]
    simp only
    rw [← h.ext]
    by_cases hx : s.ext = true
    · rw [if_pos hx, if_pos hx]
      refine ⟨?_, rfl⟩
      have : Spec.store a i (Obj.Spec.fresh f) =
          { a with elems := Spec.upd a.elems i (.own (spOf (newProp (ofFields f)))) } := by
        unfold Spec.store
        have he : a.elems i = .missing := by
          have := h.at_ i
          rw [h3, h4] at this
          exact this
        rw [he, Obj.fresh_eq]
      rw [this]
      exact rel_set_own h i hm _ (Obj.newProp_wf _)
    · rw [if_neg hx, if_neg hx]
      exact ⟨h, rfl⟩
  · obtain ⟨_, rfl, h6⟩ := h5
    rw [h2, h3]
    simp only
    have hal := Obj.allowed_eq hf h4
    by_cases hn : noFlags (ofFields f) = true
    · rw [if_pos hn]
      rw [hn, Bool.true_or] at hal
      rw [if_pos hal.symm]
      refine ⟨?_, rfl⟩
      rw [Obj.noFlags_applied hn]
      have : Spec.store a i (spOf p) = a := by
        unfold Spec.store
        rw [h6]
        simp only
        have : Spec.upd a.elems i (.own (spOf p)) = a.elems := by
          funext j
          unfold Spec.upd
          split
          · subst j; exact h6.symm
          · rfl
        rw [this]
      rw [this]
      exact h
    · rw [if_neg hn]
      have hn' : noFlags (ofFields f) = false := by simpa using hn
      rw [hn', Bool.false_or] at hal
      by_cases hc : check (ofFields f) (descOf p) = true
      · rw [hc] at hal
        rw [hc, if_neg (by simp), if_pos hal.symm, h1]
        refine ⟨?_, rfl⟩
        simp only
        have : Spec.store a i (Obj.Spec.applied f (spOf p)) =
            { a with elems := Spec.upd a.elems i (.own (spOf (change p (ofFields f) (descOf p)))) } := by
          unfold Spec.store
          rw [h6, Obj.applied_eq hf h4]
        rw [this]
        exact rel_set_own h i hm _ (Obj.change_wf h4 _)
      · have hc' : check (ofFields f) (descOf p) = false := by simpa using hc
        rw [hc'] at hal
        rw [hc', if_pos (by simp), if_neg (by rw [← hal]; simp)]
        exact ⟨h, rfl⟩
  · obtain ⟨n, _, _, _, h6, _⟩ := h5
    rw [hm] at h6; cases h6

theorem define_rel {callable : Val → Bool} {s : St} {a : Spec.St} (h : Rel s a) (i : Nat)
    {f : Fields} (hf : fieldsOk callable f = true) :
    Rel (define s i (ofFields f)).1 (Spec.define a i f).1 ∧
      (define s i (ofFields f)).2 = (Spec.define a i f).2 := by
  cases hm : mapped s i with
  | none =>
    have : define s i (ofFields f) = defineOrdinary s i (ofFields f) := by unfold define; rw [hm]
    rw [this]
    exact defineOrdinary_own h i hm hf
  | some n =>
    rcases getOwn_rel h i with ⟨_, _, _, h4⟩ | ⟨p, q, h1, h2, h3, h4, h5 | ⟨n', v, en, c, h5, rfl, rfl, h8⟩⟩
    · rw [hm] at h4; cases h4
    · rw [hm] at h5; cases h5.1
    rw [hm] at h5
    cases h5
    unfold define
    rw [hm]
    simp only
    rw [fill_eq]
    -- what the ordinary definition does
    have hf' := fill_ok hf (s.env n)
    have hal := Obj.allowed_eq hf' h4
    have hsp : spOf ⟨true, en, c, .data (s.env n)⟩ = .data (s.env n) true en c := rfl
    rw [hsp, fill_allowed] at hal
    have hdo : defineOrdinary s i (ofFields (fill f (s.env n))) =
        if noFlags (ofFields (fill f (s.env n))) then (s, true)
        else if Obj.Spec.allowed f (.data (s.env n) true en c) then
          ({ s with props := upd s.props i (some (change ⟨true, en, c, .data v⟩ (ofFields (fill f (s.env n)))
            (descOf ⟨true, en, c, .data v⟩))) }, true)
        else (s, false) := by
      unfold defineOrdinary
      rw [h2, h1]
      simp only
      by_cases hn : noFlags (ofFields (fill f (s.env n))) = true
      · rw [if_pos hn, if_pos hn]
      · rw [if_neg hn, if_neg hn]
        have hn' : noFlags (ofFields (fill f (s.env n))) = false := by simpa using hn
        rw [hn', Bool.false_or] at hal
        rw [hal]
        cases Obj.Spec.allowed f (.data (s.env n) true en c) <;> rfl
    have hap := Obj.applied_eq hf' (p := ⟨true, en, c, .data v⟩) (by intro g s hb; cases hb)
    have hspv : spOf ⟨true, en, c, .data v⟩ = .data v true en c := rfl
    rw [hspv] at hap
    have hwf := Obj.change_wf (p := ⟨true, en, c, .data v⟩) (by intro g s hb; cases hb)
      (ofFields (fill f (s.env n)))
    rw [hdo]
    unfold Spec.define
    rw [h3, hsp]
    simp only
    by_cases hn : noFlags (ofFields (fill f (s.env n))) = true
    · -- nothing is asked for
      rw [hn, Bool.true_or] at hal
      rw [if_pos hn, if_pos hal.symm]
      obtain ⟨e, c', v', w, g, st⟩ := f
      have hnn : e = none ∧ c' = none ∧ v' = none ∧ w = none ∧ g = none ∧ st = none := by
        rcases w with _ | (_ | _) <;> rcases e with _ | (_ | _) <;> rcases c' with _ | (_ | _) <;>
          cases v' <;> cases g <;> cases st <;> simp [fill, noFlags, ofFields] at hn ⊢
      obtain ⟨rfl, rfl, rfl, rfl, rfl, rfl⟩ := hnn
      refine ⟨?_, rfl⟩
      show Rel s _
      have : Spec.store a i (Obj.Spec.applied {} (.data (s.env n) true en c)) = a := by
        unfold Spec.store
        rw [h8]
        simp only [Obj.Spec.applied, Obj.Spec.isAccessor, Option.isSome_none, Bool.or_self,
          Bool.false_eq_true, if_false, Option.getD_none]
        have e1 : Spec.upd a.elems i (.shared n en c) = a.elems := by
          funext j; unfold Spec.upd; split
          · subst j; exact h8.symm
          · rfl
        have e2 : Spec.upd a.env n (s.env n) = a.env := by
          funext j; unfold Spec.upd; split
          · subst j; rw [h.env]
          · rfl
        rw [e1, e2]
      rw [this]
      exact h
    · rw [if_neg hn]
      cases hal' : Obj.Spec.allowed f (.data (s.env n) true en c) with
      | false => exact ⟨h, rfl⟩
      | true =>
        simp only [if_true]
        refine ⟨?_, by split <;> rfl⟩
        generalize change ⟨true, en, c, .data v⟩ (ofFields (fill f (s.env n)))
            (descOf ⟨true, en, c, .data v⟩) = np at hap hwf
        have hother : ∀ j, j ≠ i → RelAt (mapped s j) (s.props j) (a.elems j) := fun j _ => h.at_ j
        by_cases hacc : isAcc (ofFields f) = true
        · -- an accessor
          rw [if_pos hacc]
          have hia : Obj.Spec.isAccessor f = true := hacc
          have hfill : fill f (s.env n) = f := by
            obtain ⟨e, c', v', w, g, st⟩ := f
            rcases w with _ | (_ | _) <;> cases v' <;> cases g <;> cases st <;>
              first
              | rfl
              | (simp [fieldsOk] at hf; done)
              | (simp [Obj.Spec.isAccessor] at hia; done)
          rw [hfill] at hap
          have hst : Spec.store a i (Obj.Spec.applied f (.data (s.env n) true en c)) =
              { a with elems := Spec.upd a.elems i (.own (spOf np)) } := by
            unfold Spec.store
            rw [h8, hap]
            simp only [Obj.Spec.applied, hia, if_true]
          rw [hst]
          refine ⟨h.ext, h.env, fun j => ?_⟩
          rw [mapped_unmap]
          show RelAt _ (upd s.props i (some np) j) (Spec.upd a.elems i (.own (spOf np)) j)
          unfold upd Spec.upd
          by_cases hij : j = i
          · rw [if_pos hij, if_pos hij, if_pos hij]; exact ⟨hwf, rfl⟩
          · rw [if_neg hij, if_neg hij, if_neg hij]; exact hother j hij
        · -- not an accessor
          rw [if_neg hacc]
          have hia : Obj.Spec.isAccessor f = false := by
            have : Obj.Spec.isAccessor f ≠ true := hacc
            simpa using this
          have hia' : Obj.Spec.isAccessor (fill f (s.env n)) = false := by
            unfold fill; split <;> exact hia
          simp only [Obj.Spec.applied, hia', hia, Bool.false_eq_true, if_false] at hap ⊢
          have hnp : np = ⟨(fill f (s.env n)).writable.getD true, (fill f (s.env n)).enumerable.getD en,
              (fill f (s.env n)).configurable.getD c, .data ((fill f (s.env n)).value.getD v)⟩ := by
            exact Obj.spOf_inj hwf (q := ⟨(fill f (s.env n)).writable.getD true,
              (fill f (s.env n)).enumerable.getD en, (fill f (s.env n)).configurable.getD c,
              .data ((fill f (s.env n)).value.getD v)⟩) (by intro g s hb; cases hb) hap
          have hw : (fill f (s.env n)).writable = f.writable ∧
              (fill f (s.env n)).enumerable = f.enumerable ∧
              (fill f (s.env n)).configurable = f.configurable := by
            unfold fill; split <;> exact ⟨rfl, rfl, rfl⟩
          rw [hw.1, hw.2.1, hw.2.2] at hnp
          -- the parameter
          have henv : (if (ofFields f).hasV = true then
                setParam { s with props := upd s.props i (some np) } n (ofFields f).value
              else { s with props := upd s.props i (some np) }) =
              { s with props := upd s.props i (some np), env := upd s.env n (f.value.getD (s.env n)) } := by
            obtain ⟨e, c', v', w, g, st⟩ := f
            cases v' with
            | some x => rfl
            | none =>
              have : upd s.env n (s.env n) = s.env := by
                funext j; unfold upd; split
                · subst j; rfl
                · rfl
              simp only [ofFields, Option.isSome_none, Bool.false_eq_true, if_false, Option.getD_none, this]
          rw [henv]
          cases hwr : f.writable.getD true with
          | true =>
            have hx : ((ofFields f).hasW && !(ofFields f).w) = false := by
              obtain ⟨e, c', v', w, g, st⟩ := f
              rcases w with _ | (_ | _)
              · rfl
              · cases hwr
              · rfl
            rw [hx]
            simp only [Bool.false_eq_true, if_false]
            rw [hwr] at hnp
            have hst : Spec.store a i (.data (f.value.getD (s.env n)) true (f.enumerable.getD en)
                (f.configurable.getD c)) =
                { a with elems := Spec.upd a.elems i (.shared n (f.enumerable.getD en) (f.configurable.getD c))
                         env := Spec.upd a.env n (f.value.getD (s.env n)) } := by
              unfold Spec.store
              rw [h8]
            rw [hst]
            refine ⟨h.ext, ?_, fun j => ?_⟩
            · show upd s.env n _ = Spec.upd a.env n _
              rw [h.env]; rfl
            · show RelAt (mapped s j) (upd s.props i (some np) j) (Spec.upd a.elems i _ j)
              unfold upd Spec.upd
              by_cases hij : j = i
              · rw [if_pos hij, if_pos hij, hij, hm]
                exact ⟨_, _, _, congrArg some hnp, rfl⟩
              · rw [if_neg hij, if_neg hij]; exact hother j hij
          | false =>
            have hwf' : f.writable = some false := by
              cases hc : f.writable with
              | none => rw [hc] at hwr; cases hwr
              | some b => rw [hc] at hwr; rw [show b = false from hwr]
            have hx : ((ofFields f).hasW && !(ofFields f).w) = true := by
              unfold ofFields; rw [hwf']; rfl
            have hval : (fill f (s.env n)).value.getD v = f.value.getD (s.env n) := by
              unfold fill
              cases hv : f.value with
              | none => rw [if_pos ⟨rfl, hwf'⟩]; rfl
              | some x => rw [if_neg (by rintro ⟨h, _⟩; cases h), hv]; rfl
            rw [hx]
            simp only [if_true]
            rw [hwr, hval] at hnp
            have hst : Spec.store a i (.data (f.value.getD (s.env n)) false (f.enumerable.getD en)
                (f.configurable.getD c)) =
                { a with elems := Spec.upd a.elems i (.own (spOf np))
                         env := Spec.upd a.env n (f.value.getD (s.env n)) } := by
              unfold Spec.store
              rw [h8, hnp]
              rfl
            rw [hst]
            refine ⟨h.ext, ?_, fun j => ?_⟩
            · show upd s.env n _ = Spec.upd a.env n _
              rw [h.env]; rfl
            · rw [mapped_unmap]
              show RelAt _ (upd s.props i (some np) j) (Spec.upd a.elems i _ j)
              unfold upd Spec.upd
              by_cases hij : j = i
              · rw [if_pos hij, if_pos hij, if_pos hij]; exact ⟨hwf, rfl⟩
              · rw [if_neg hij, if_neg hij, if_neg hij]; exact hother j hij

/-! ## The operations -/

theorem value_fields (v : Val) : valueDesc v = ofFields { value := some v } := rfl

def dataFields (v : Val) : Fields where
  value := some v
  writable := some true
  enumerable := some true
  configurable := some true

theorem data_fields (v : Val) : dataDesc v = ofFields (dataFields v) := rfl

theorem setOrdinary_rel (callable : Val → Bool) {s : St} {a : Spec.St} (h : Rel s a) (i : Nat)
    (v : Val) :
    Rel (setOrdinary s i v).1 (Spec.step callable a (.set i v)).1 ∧
      (setOrdinary s i v).2 = (Spec.step callable a (.set i v)).2 := by
  unfold setOrdinary Spec.step
  simp only
  rcases getOwn_rel h i with ⟨h1, h2, h3, h4⟩ | ⟨p, q, h1, h2, h3, h4, _⟩
  · rw [h1, h2]
    simp only [Obj.Spec.assign]
    rw [data_fields]
    have := define_rel (callable := fun _ => true) h i (f := dataFields v) rfl
    exact ⟨this.1, congrArg Out.bool this.2⟩
  · rw [h2, h3]
    simp only
    obtain ⟨w, e, c, body⟩ := p
    cases body with
    | data x =>
      cases w with
      | false => exact ⟨h, rfl⟩
      | true =>
        have := define_rel (callable := fun _ => true) h i (f := { value := some v }) rfl
        exact ⟨this.1, congrArg Out.bool this.2⟩
    | acc g st =>
      show Rel (if st = .undef then (s, Out.bool false) else (s, Out.call st)).1 _ ∧
        (if st = .undef then (s, Out.bool false) else (s, Out.call st)).2 = _
      show _ ∧ _
      simp only [spOf, Obj.Spec.assign]
      by_cases hs : st = .undef
      · rw [if_pos hs, if_pos hs]; exact ⟨h, rfl⟩
      · rw [if_neg hs, if_neg hs]; exact ⟨h, rfl⟩

theorem step_rel (callable : Val → Bool) {s : St} {a : Spec.St} (h : Rel s a) (op : Op) :
    Rel (step callable s op).1 (Spec.step callable a op).1 ∧
      (step callable s op).2 = (Spec.step callable a op).2 := by
  cases op with
  | define i f =>
    unfold step Spec.step
    simp only
    rw [Obj.toDesc_eq, ← Obj.valid_eq]
    by_cases hf : fieldsOk callable f = true
    · rw [if_pos hf, if_pos hf]
      have := define_rel h i hf
      exact ⟨this.1, congrArg Out.bool this.2⟩
    · rw [if_neg hf, if_neg hf]; exact ⟨h, rfl⟩
  | set i v =>
    show Rel (set s i v).1 _ ∧ (set s i v).2 = _
    unfold set
    cases hm : mapped s i with
    | none => exact setOrdinary_rel callable h i v
    | some n =>
      simp only
      -- the parameter is set first, and then again by the definition of the property
      rcases getOwn_rel h i with ⟨_, _, _, h4⟩ | ⟨p, q, h1, h2, h3, h4, h5 | ⟨n', x, en, c, h5, rfl, rfl, h8⟩⟩
      · rw [hm] at h4; cases h4
      · rw [hm] at h5; cases h5.1
      rw [hm] at h5
      cases h5
      have h' : Rel (setParam s n v) { a with env := Spec.upd a.env n v } :=
        ⟨h.ext, by show upd s.env n v = Spec.upd a.env n v; rw [h.env]; rfl, h.at_⟩
      have hr := setOrdinary_rel callable h' i v
      have e1 : ∀ x : Val, Spec.step callable { a with env := Spec.upd a.env n x } (.set i v) =
          ({ a with elems := Spec.upd a.elems i (.shared n en c), env := Spec.upd a.env n v }, .bool true) := by
        intro x
        have hpr : Spec.prop { a with env := Spec.upd a.env n x } i = some (.data x true en c) := by
          unfold Spec.prop
          show (match a.elems i with
            | .missing => none
            | .own p => some p
            | .shared q e c => some (.data (Spec.upd a.env n x q) true e c)) = _
          rw [h8]
          simp [Spec.upd]
        have hal : Obj.Spec.allowed { value := some v } (.data x true en c) = true := by
          cases c <;> rfl
        have hap : Obj.Spec.applied { value := some v } (.data x true en c) = .data v true en c := rfl
        have hdef : Spec.define { a with env := Spec.upd a.env n x } i { value := some v } =
            ({ a with elems := Spec.upd a.elems i (.shared n en c), env := Spec.upd a.env n v }, true) := by
          unfold Spec.define
          rw [hpr]
          simp only
          rw [hal, if_pos rfl, hap]
          unfold Spec.store
          show (match a.elems i with
            | .shared q _ _ => _
            | _ => _, true) = _
          rw [h8]
          simp only
          congr 2
          funext j
          unfold Spec.upd
          split <;> simp_all
        unfold Spec.step
        simp only
        rw [hpr]
        simp only [Obj.Spec.assign]
        rw [if_pos trivial]
        simp only
        rw [hdef]
      have e0 : ({ a with env := Spec.upd a.env n (a.env n) } : Spec.St) = a := by
        have : Spec.upd a.env n (a.env n) = a.env := by
          funext j; unfold Spec.upd; split
          · subst j; rfl
          · rfl
        rw [this]
      have e2 := e1 (a.env n)
      rw [e0] at e2
      rw [e2]
      rw [e1 v] at hr
      exact hr
  | get i =>
    unfold step Spec.step
    simp only
    refine ⟨?_, ?_⟩
    · split
      · exact h
      · exact h
      · split <;> exact h
    · unfold get getOrdinary
      rcases getOwn_rel h i with ⟨h1, h2, h3, h4⟩ | ⟨p, q, h1, h2, h3, h4, h5 | ⟨n, x, en, c, h5, rfl, rfl, h8⟩⟩
      · rw [h4, h1, h2]
      · rw [h5.1, h2, h3]
        obtain ⟨w, e, c, body⟩ := p
        cases body with
        | data x => rfl
        | acc g st =>
          simp only [spOf]
          show (if g = .undef then Out.value .undef else .call g) = _
          split <;> rfl
      · rw [h5, h3]
        rfl
  | getOwn i =>
    unfold step Spec.step
    refine ⟨h, ?_⟩
    simp only
    rcases getOwn_rel h i with ⟨h1, h2, _, _⟩ | ⟨p, q, _, h2, h3, _, _⟩
    · rw [h1, h2]; rfl
    · rw [h2, h3]
      simp only [Option.map_some, Obj.spOf_report]
  | delete i =>
    unfold step Spec.step
    simp only
    unfold delete deleteOrdinary
    rcases getOwn_rel h i with ⟨h1, h2, h3, h4⟩ | ⟨p, q, h1, h2, h3, h4, h5⟩
    · rw [h1, h2, h4]; exact ⟨h, rfl⟩
    · rw [h2, h3]
      have hc : (descOf p).c = (spOf p).configurable := by
        obtain ⟨w, e, c, body⟩ := p
        cases body <;> rfl
      simp only
      rw [hc]
      cases hcc : (spOf p).configurable with
      | false =>
        simp only [Bool.false_eq_true, if_false]
        cases mapped s i <;> exact ⟨h, rfl⟩
      | true =>
        simp only [if_true]
        have hb : ∀ j, j ≠ i → RelAt (mapped s j) (upd s.props i none j) (Spec.upd a.elems i .missing j) := by
          intro j hj
          unfold upd Spec.upd
          rw [if_neg hj, if_neg hj]
          exact h.at_ j
        cases hm : mapped s i with
        | none =>
          refine ⟨⟨h.ext, h.env, fun j => ?_⟩, rfl⟩
          by_cases hij : j = i
          · subst hij
            show RelAt (mapped s j) (upd s.props j none j) (Spec.upd a.elems j .missing j)
            rw [hm]
            unfold upd Spec.upd
            rw [if_pos rfl, if_pos rfl]
            rfl
          · exact hb j hij
        | some n =>
          refine ⟨⟨h.ext, h.env, fun j => ?_⟩, rfl⟩
          simp only
          rw [mapped_unmap]
          by_cases hij : j = i
          · subst hij
            rw [if_pos rfl]
            show RelAt none (upd s.props j none j) (Spec.upd a.elems j .missing j)
            unfold upd Spec.upd
            rw [if_pos rfl, if_pos rfl]
            rfl
          · rw [if_neg hij]; exact hb j hij
  | preventExtensions => exact ⟨⟨rfl, h.env, h.at_⟩, rfl⟩
  | assign q v =>
    exact ⟨⟨h.ext, by show upd s.env q v = Spec.upd a.env q v; rw [h.env]; rfl, h.at_⟩, rfl⟩
  | read q => exact ⟨h, by show Out.value (s.env q) = .value (a.env q); rw [h.env]⟩

theorem run_rel (callable : Val → Bool) (ops : List Op) : ∀ {s : St} {a : Spec.St}, Rel s a →
    Rel (run callable s ops).1 (Spec.run callable a ops).1 ∧
      (run callable s ops).2 = (Spec.run callable a ops).2 := by
  induction ops with
  | nil => intro s a h; exact ⟨h, rfl⟩
  | cons op ops ih =>
    intro s a h
    have hs := step_rel callable h op
    have hr := ih hs.1
    refine ⟨hr.1, ?_⟩
    show _ :: _ = _ :: _
    rw [hs.2, hr.2]

/-! ## The new object -/

theorem foldl_last (p : Nat → Bool) (l : List Nat) (r : Option Nat) :
    l.foldl (fun r i => if p i then some i else r) r = (l.reverse.find? p).or r := by
  induction l generalizing r with
  | nil => rfl
  | cons x l ih =>
    rw [List.foldl_cons, ih, List.reverse_cons, List.find?_append]
    cases h : l.reverse.find? p with
    | some y => rfl
    | none =>
      by_cases hx : p x = true
      · simp [hx]
      · simp [hx]

theorem find_congr {p q : Nat → Bool} {l : List Nat} (h : ∀ x ∈ l, p x = q x) :
    l.find? p = l.find? q := by
  induction l with
  | nil => rfl
  | cons x l ih =>
    rw [List.find?_cons, List.find?_cons, h x (List.mem_cons_self ..),
      ih fun y hy => h y (List.mem_cons_of_mem _ hy)]

theorem paramIndex_find (formals : List Nat) (q : Nat) :
    paramIndex formals q = (List.range formals.length).reverse.find? fun i => formals[i]? = some q := by
  unfold paramIndex
  have := foldl_last (fun i => formals.getD i 0 = q) (List.range formals.length) none
  simp only [decide_eq_true_eq] at this
  rw [this, Option.or_none]
  apply find_congr
  intro i hi
  rw [List.mem_reverse, List.mem_range] at hi
  rw [List.getD_eq_getElem?_getD, List.getElem?_eq_getElem hi]
  simp

theorem find_last (n : Nat) (p : Nat → Bool) (i : Nat) :
    (List.range n).reverse.find? p = some i ↔ i < n ∧ p i = true ∧ ∀ j, i < j → j < n → p j = false := by
  induction n with
  | zero => simp
  | succ n ih =>
    rw [List.range_succ, List.reverse_append, List.reverse_singleton, List.singleton_append,
      List.find?_cons]
    cases hp : p n with
    | true =>
      simp only [Option.some.injEq]
      constructor
      · rintro rfl
        exact ⟨by omega, hp, fun j h1 h2 => by omega⟩
      · rintro ⟨h1, h2, h3⟩
        by_cases h : n = i
        · exact h
        · have := h3 n (by omega) (by omega)
          rw [hp] at this; cases this
    | false =>
      simp only
      rw [ih]
      constructor
      · rintro ⟨h1, h2, h3⟩
        refine ⟨by omega, h2, fun j h4 h5 => ?_⟩
        by_cases h : j = n
        · subst h; exact hp
        · exact h3 j h4 (by omega)
      · rintro ⟨h1, h2, h3⟩
        have : i ≠ n := by rintro rfl; rw [hp] at h2; cases h2
        exact ⟨by omega, h2, fun j h4 h5 => h3 j h4 (by omega)⟩

theorem paramIndex_some (formals : List Nat) (q i : Nat) :
    paramIndex formals q = some i ↔ formals[i]? = some q ∧ q ∉ formals.drop (i + 1) := by
  rw [paramIndex_find, find_last]
  simp only [decide_eq_true_eq, decide_eq_false_iff_not]
  constructor
  · rintro ⟨h1, h2, h3⟩
    refine ⟨h2, fun hm => ?_⟩
    obtain ⟨k, hk, he⟩ := List.mem_iff_getElem.1 hm
    rw [List.length_drop] at hk
    rw [List.getElem_drop] at he
    apply h3 (i + 1 + k) (by omega) (by omega)
    rw [List.getElem?_eq_getElem (by omega), he]
  · rintro ⟨h1, h2⟩
    have hi : i < formals.length := by
      rcases Nat.lt_or_ge i formals.length with h | h
      · exact h
      · rw [List.getElem?_eq_none h] at h1; cases h1
    refine ⟨hi, h1, fun j h3 h4 he => h2 ?_⟩
    rw [List.mem_iff_getElem?]
    refine ⟨j - (i + 1), ?_⟩
    rw [List.getElem?_drop, show i + 1 + (j - (i + 1)) = j by omega]
    exact he

theorem mapNames_length (formals bs : List Nat) (names : List (Option Nat)) :
    (mapNames formals bs names).length = names.length := by
  induction bs generalizing names with
  | nil => rfl
  | cons q bs ih =>
    unfold mapNames
    split
    · exact ih _
    · rw [ih]; split <;> simp

theorem mapNames_getD (formals bs : List Nat) (names : List (Option Nat)) (i : Nat)
    (hi : i < names.length) :
    (mapNames formals bs names).getD i none =
      match formals[i]? with
      | some q => if q ∈ bs ∧ q ∉ formals.drop (i + 1) then some q else names.getD i none
      | none => names.getD i none := by
  induction bs generalizing names with
  | nil => unfold mapNames; split <;> simp
  | cons b bs ih =>
    unfold mapNames
    cases hb : paramIndex formals b with
    | none =>
      simp only
      rw [ih names hi]
      cases hf : formals[i]? with
      | none => rfl
      | some q =>
        simp only [List.mem_cons]
        by_cases hq : q ∉ formals.drop (i + 1)
        · have : q ≠ b := by
            rintro rfl
            rw [(paramIndex_some formals q i).2 ⟨hf, hq⟩] at hb; cases hb
          simp [hq, this]
        · rw [if_neg (fun h => hq h.2), if_neg (fun h => hq h.2)]
    | some k =>
      obtain ⟨h1, h2⟩ := (paramIndex_some formals b k).1 hb
      simp only
      rw [ih _ (by split <;> simpa using hi)]
      by_cases hki : k = i
      · subst hki
        rw [h1]
        simp only [List.mem_cons]
        rw [if_pos hi]
        by_cases hm : b ∈ bs
        · rw [if_pos ⟨hm, h2⟩, if_pos ⟨Or.inl trivial, h2⟩]
        · rw [if_neg (fun h => hm h.1), if_pos ⟨Or.inl trivial, h2⟩]
          rw [List.getD_eq_getElem?_getD, List.getElem?_set, if_pos rfl, if_pos hi]
          rfl
      · have hg : (if k < names.length then names.set k (some b) else names).getD i none =
            names.getD i none := by
          split
          · rw [List.getD_eq_getElem?_getD, List.getElem?_set, if_neg hki, List.getD_eq_getElem?_getD]
          · rfl
        rw [hg]
        cases hf : formals[i]? with
        | none => rfl
        | some q =>
          simp only [List.mem_cons]
          by_cases hq : q ∉ formals.drop (i + 1)
          · have : q ≠ b := by
              rintro rfl
              rw [(paramIndex_some formals q i).2 ⟨hf, hq⟩] at hb
              exact hki (Option.some.inj hb).symm
            simp [hq, this]
          · rw [if_neg (fun h => hq h.2), if_neg (fun h => hq h.2)]

theorem new_rel (formals bindings : List Nat) (hb : ∀ q, q ∈ formals → q ∈ bindings) (args : List Val) :
    Rel (new formals bindings args) (Spec.new formals args) := by
  refine ⟨rfl, ?_, fun i => ?_⟩
  · funext q
    show (match paramIndex formals q with
      | none => Val.undef
      | some i => args.getD i .undef) = _
    rw [paramIndex_find]
    rfl
  · have hl : (new formals bindings args).names.length = args.length := by
      show (mapNames _ _ _).length = _
      rw [mapNames_length, List.length_replicate]
    show RelAt _ (argProps args i) ((Spec.new formals args).elems i)
    unfold mapped
    rw [hl]
    unfold argProps Spec.new
    simp only
    by_cases hi : i ≥ args.length
    · rw [if_pos hi, List.getElem?_eq_none hi]
      rfl
    · rw [if_neg hi, List.getElem?_eq_getElem (by omega)]
      simp only
      have hg : (new formals bindings args).names.getD i none = _ :=
        mapNames_getD formals bindings (List.replicate args.length none) i
          (by rw [List.length_replicate]; omega)
      rw [hg]
      have hn : (List.replicate args.length (none : Option Nat)).getD i none = none := by
        rw [List.getD_eq_getElem?_getD, List.getElem?_replicate]
        split <;> rfl
      rw [hn]
      have hwf : WfP (newProp (dataDesc args[i])) := Obj.newProp_wf _
      cases hf : formals[i]? with
      | none => exact ⟨hwf, rfl⟩
      | some q =>
        simp only
        by_cases hq : q ∈ formals.drop (i + 1)
        · rw [if_neg (fun h => h.2 hq), if_pos hq]
          exact ⟨hwf, rfl⟩
        · rw [if_pos ⟨hb q (List.mem_of_getElem? hf), hq⟩, if_neg hq]
          exact ⟨args[i], true, true, rfl, rfl⟩

theorem mapped_of_names {s s' : St} (h : s'.names = s.names) (i : Nat) : mapped s' i = mapped s i := by
  unfold mapped; rw [h]

theorem defineOrdinary_names (s : St) (i : Nat) (d : Desc) : (defineOrdinary s i d).1.names = s.names := by
  unfold defineOrdinary
  split
  · split <;> rfl
  · split
    · rfl
    · split
      · rfl
      · split <;> rfl

/-- A definition keeps the connections of the other elements, and makes none. -/
theorem define_mapped (s : St) (i : Nat) (d : Desc) (j : Nat) :
    mapped (define s i d).1 j = mapped s j ∨ (j = i ∧ mapped (define s i d).1 j = none) := by
  have hu : ∀ s' : St, s'.names = s.names →
      mapped (unmap s' i) j = mapped s j ∨ (j = i ∧ mapped (unmap s' i) j = none) := by
    intro s' hs'
    rw [mapped_unmap]
    by_cases hij : j = i
    · rw [if_pos hij]; exact Or.inr ⟨hij, rfl⟩
    · rw [if_neg hij]; exact Or.inl (mapped_of_names hs' j)
  unfold define
  split
  · exact Or.inl (mapped_of_names (defineOrdinary_names s i d) j)
  · rename_i q hq
    simp only
    generalize (if (Obj.isData d && (!d.hasV && d.hasW && !d.w)) = true then
      { d with value := s.env q, hasV := true } else d) = nd
    have hn := defineOrdinary_names s i nd
    generalize defineOrdinary s i nd = x at hn
    obtain ⟨s', b⟩ := x
    cases b with
    | false => exact Or.inl (mapped_of_names hn j)
    | true =>
      simp only
      split
      · exact hu s' hn
      · simp only
        have hn' : (if d.hasV = true then setParam s' q d.value else s').names = s.names := by
          split
          · exact hn
          · exact hn
        generalize (if d.hasV = true then setParam s' q d.value else s') = s'' at hn'
        split
        · exact hu s'' hn'
        · exact Or.inl (mapped_of_names hn' j)

theorem step_mapped (callable : Val → Bool) (s : St) (op : Op) (j : Nat) :
    mapped (step callable s op).1 j = mapped s j ∨ mapped (step callable s op).1 j = none := by
  have hso : ∀ (s : St) (i : Nat) (v : Val), mapped (setOrdinary s i v).1 j = mapped s j ∨
      mapped (setOrdinary s i v).1 j = none := by
    intro s i v
    unfold setOrdinary
    split
    · rcases define_mapped s i (dataDesc v) j with h | h
      · exact Or.inl h
      · exact Or.inr h.2
    · split
      · split
        · exact Or.inl rfl
        · rcases define_mapped s i (valueDesc v) j with h | h
          · exact Or.inl h
          · exact Or.inr h.2
      · split <;> exact Or.inl rfl
  cases op with
  | define i f =>
    unfold step
    simp only
    split
    · exact Or.inl rfl
    · rename_i d _
      rcases define_mapped s i d j with h | h
      · exact Or.inl h
      · exact Or.inr h.2
  | set i v =>
    show mapped (set s i v).1 j = _ ∨ mapped (set s i v).1 j = _
    unfold set
    split
    · exact hso s i v
    · exact hso _ i v
  | get i => exact Or.inl rfl
  | getOwn i => exact Or.inl rfl
  | delete i =>
    show mapped (delete s i).1 j = _ ∨ mapped (delete s i).1 j = _
    have hd : (deleteOrdinary s i).1.names = s.names := by
      unfold deleteOrdinary
      split
      · rfl
      · split <;> rfl
    unfold delete
    split
    · exact Or.inl (mapped_of_names hd j)
    · generalize deleteOrdinary s i = x at hd
      obtain ⟨s', b⟩ := x
      cases b with
      | false => exact Or.inl (mapped_of_names hd j)
      | true =>
        simp only
        rw [mapped_unmap]
        split
        · exact Or.inr rfl
        · exact Or.inl (mapped_of_names hd j)
  | preventExtensions => exact Or.inl rfl
  | assign q v => exact Or.inl rfl
  | read q => exact Or.inl rfl

end Verif.Args

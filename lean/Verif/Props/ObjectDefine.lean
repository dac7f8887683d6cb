import Verif.Props.Object
/-
C35 and C55: the length of arrays, and descriptors.
-/
namespace Verif.Obj

open Spec (Before Has Up)

/-! ### C55 -/

theorem heap_same {h : Heap} {id : Nat} {o : Obj} (ho : h[id]? = some o) : h.set id o = h := by
  apply List.ext_getElem?
  intro i
  rw [get_set ho]
  split
  · rename_i e; subst e; exact ho.symm
  · rfl

/-- A definition with the operation of ordinary objects. -/
theorem step_define {E : Env} {h : Heap} {id : Nat} {o : Obj} (ho : h[id]? = some o) {k : Key}
    (hk : o.arr = false ∨ ∃ n, k = .name n ∧ n ≠ .str 0) {f : Fields} (hv : Spec.valid E.callable f = true) :
    step E h (.define id k f) =
      match defineOrdinary o k (ofFields f) with
      | none => none
      | some (o', b) => some (h.set id o', .bool b) := by
  have e : define E.oth o k (ofFields f) = match defineOrdinary o k (ofFields f) with
      | none => none
      | some (o, b) => some (o, .bool b) := by
    unfold define
    rcases hk with c | ⟨n, rfl, hn⟩
    · rw [c]; rfl
    · split
      · simp only [hn, if_false]
        rfl
      · rfl
  simp only [step, toDesc_eq, valid_eq, hv, if_true, onObj, ho, e]
  cases defineOrdinary o k (ofFields f) with
  | none => rfl
  | some x => rfl

/-- **C55**: what `Object.defineProperty` does (to an ordinary object; or to an array, with a name
which is not "length").  What is not a descriptor is refused.  A new property has the fields
requested and the defaults for the others; an existing one is changed in the fields requested if
the specification allows it and not at all otherwise; and no other property changes.  (The one case
with no result is the null pointer of `C30_violated`.) -/
theorem C55 {E : Env} {h : Heap} (hr : Reach E h) {id : Nat} {o : Obj} (ho : h[id]? = some o) (k : Key)
    (hk : o.arr = false ∨ ∃ n, k = .name n ∧ n ≠ .str 0) (f : Fields) :
    (Spec.valid E.callable f = false → step E h (.define id k f) = some (h, .throw)) ∧
    (Spec.valid E.callable f = true → report o k = some none → o.ext = false →
      step E h (.define id k f) = some (h, .bool false)) ∧
    (Spec.valid E.callable f = true → report o k = some none → o.ext = true →
      (step E h (.define id k f) = none ∧ ∃ i, k = .idx i ∧ i.val < 3 ∧ ∀ j, ¬ Has o (.idx j)) ∨
      ∃ o', step E h (.define id k f) = some (h.set id o', .bool true) ∧
        report o' k = some (some (Spec.fresh f).report) ∧ ∀ k', k' ≠ k → report o' k' = report o k') ∧
    (∀ p : Spec.Prp, Spec.valid E.callable f = true → report o k = some (some p.report) → Spec.allowed f p = false →
      step E h (.define id k f) = some (h, .bool false)) ∧
    (∀ p : Spec.Prp, Spec.valid E.callable f = true → report o k = some (some p.report) → Spec.allowed f p = true →
      ∃ o', step E h (.define id k f) = some (h.set id o', .bool true) ∧
        report o' k = some (some (Spec.applied f p).report) ∧ ∀ k', k' ≠ k → report o' k' = report o k') := by
  obtain ⟨hg, _⟩ := hr.inv.good id o ho
  have hnone : report o k = some none → get o k = none := by
    rw [report_get hg]
    cases get o k <;> simp
  have hsome : ∀ p : Spec.Prp, report o k = some (some p.report) → ∃ q, get o k = some q ∧ spOf q = p := by
    intro p
    rw [report_get hg]
    cases get o k with
    | none => simp
    | some q =>
      intro e
      simp only [Option.map_some, Option.some.injEq] at e
      exact ⟨q, rfl, report_inj e⟩
  have others : ∀ {o' x}, Eff o o' k x → ∀ k', k' ≠ k → report o' k' = report o k' := by
    intro o' x e k' hk'
    rw [report_get e.good, report_get hg, e.get]
    simp [upk, hk']
  refine ⟨fun hv => ?_, fun hv hn hx => ?_, fun hv hn hx => ?_, fun p hv hp ha => ?_, fun p hv hp ha => ?_⟩
  · simp only [step, toDesc_eq, valid_eq, hv, Bool.false_eq_true, if_false]
  · rw [step_define ho hk hv]
    rcases defineOrdinary_none hg (hnone hn) (ofFields f) with ⟨_, e⟩ | ⟨c, _⟩ | ⟨c, _⟩
    · rw [e]; simp only; rw [heap_same ho]
    · rw [hx] at c; cases c
    · rw [hx] at c; cases c
  · rw [step_define ho hk hv]
    rcases defineOrdinary_none hg (hnone hn) (ofFields f) with ⟨c, _⟩ | ⟨_, e, _, i, e1, e2, e3⟩ | ⟨_, o', e, e1, _⟩
    · rw [hx] at c; cases c
    · refine Or.inl ⟨by rw [e], i, e1, e2, fun j => ?_⟩
      rw [has_get hg, e3 j]; simp
    · refine Or.inr ⟨o', by rw [e], ?_, others e1⟩
      rw [report_get e1.good, e1.get]
      simp [upk, fresh_eq]
  · obtain ⟨q, hq, rfl⟩ := hsome p hp
    rw [step_define ho hk hv]
    rw [← allowed_eq (callable := E.callable) (by rw [valid_eq]; exact hv) (hg.wf k q hq), Bool.or_eq_false_iff] at ha
    rcases defineOrdinary_some hg hq (ofFields f) with ⟨c, _⟩ | ⟨_, _, e⟩ | ⟨_, c, _⟩
    · rw [ha.1] at c; cases c
    · rw [e]; simp only; rw [heap_same ho]
    · rw [ha.2] at c; cases c
  · obtain ⟨q, hq, rfl⟩ := hsome p hp
    have hv' : fieldsOk E.callable f = true := by rw [valid_eq]; exact hv
    rw [step_define ho hk hv]
    rw [← allowed_eq (callable := E.callable) hv' (hg.wf k q hq), Bool.or_eq_true] at ha
    rcases defineOrdinary_some hg hq (ofFields f) with ⟨c, e⟩ | ⟨c1, c2, _⟩ | ⟨_, _, o', e, e1, _⟩
    · refine ⟨o, by rw [e], ?_, fun _ _ => rfl⟩
      rw [noFlags_applied c, report_get hg, hq]
      rfl
    · rw [c1, c2] at ha; simp at ha
    · refine ⟨o', by rw [e], ?_, others e1⟩
      rw [report_get e1.good, e1.get]
      simp [upk, applied_eq hv' (hg.wf k q hq)]

/-- The reported descriptor of each property is that of a property of the specification, so the
five cases of `C55` are all there are. -/
theorem C55_cases {E : Env} {h : Heap} (hr : Reach E h) {id : Nat} {o : Obj} (ho : h[id]? = some o) (k : Key) :
    report o k = some none ∨ ∃ p : Spec.Prp, report o k = some (some p.report) := by
  obtain ⟨hg, _⟩ := hr.inv.good id o ho
  rw [report_get hg]
  cases get o k with
  | none => exact Or.inl rfl
  | some q => exact Or.inr ⟨spOf q, rfl⟩

/-- **C55**, completing: a completed descriptor has the fields requested, and the defaults for the
others, and no more. -/
theorem C55_complete (callable : Val → Bool) (f : Fields) (hv : Spec.valid callable f = true) :
    (toDesc callable f).map (fun d => fromDesc (complete d)) = some (Spec.fresh f).report := by
  rw [toDesc_eq, valid_eq, hv]
  simp only [if_true, Option.map_some, Option.some.injEq]
  obtain ⟨e, c, v, w, g, s⟩ := f
  cases e <;> cases c <;> cases v <;> cases w <;> cases g <;> cases s <;>
    first
    | rfl
    | (simp [Spec.valid, Spec.isAccessor, Spec.isData] at hv; done)

/-- **C55**, redefining: to define a property of an object or array (also an element or the length
of an array) with the descriptor reported for it succeeds and changes nothing.  (A getter or setter
reported is a function or undefined.) -/
theorem C55_redefine {E : Env} {h : Heap} (hr : Reach E h) {id : Nat} {o : Obj} (ho : h[id]? = some o) {k : Key}
    {f : Fields} (hf : report o k = some (some f)) (hcall : Spec.valid E.callable f = true) :
    ∃ o', step E h (.define id k f) = some (h.set id o', .bool true) ∧ o'.ext = o.ext ∧ o'.proto = o.proto ∧
      ∀ k', report o' k' = report o k' := by
  obtain ⟨hg, ha⟩ := hr.inv.good id o ho
  rw [report_get hg] at hf
  cases hq : get o k with
  | none => rw [hq] at hf; cases hf
  | some q =>
    rw [hq] at hf
    simp only [Option.map_some, Option.some.injEq] at hf
    subst hf
    have hv' : fieldsOk E.callable (spOf q).report = true := by rw [valid_eq]; exact hcall
    have hal : Spec.allowed (spOf q).report (spOf q) = true := by
      cases spOf q with
      | data v w e c => cases w <;> cases c <;> simp [Spec.allowed, Spec.Prp.report, Spec.Prp.configurable,
          Spec.Prp.enumerable, Spec.agrees, Spec.isAccessor]
      | acc g s e c => cases c <;> simp [Spec.allowed, Spec.Prp.report, Spec.Prp.configurable,
          Spec.Prp.enumerable, Spec.agrees, Spec.isData]
    have happ : Spec.applied (spOf q).report (spOf q) = spOf q := by
      cases spOf q <;> rfl
    have hflags : noFlags (ofFields (spOf q).report) = false := by
      cases spOf q <;> rfl
    rw [← allowed_eq hv' (hg.wf k q hq), hflags, Bool.false_or] at hal
    have hch : change q (ofFields (spOf q).report) (descOf q) = q := by
      apply spOf_inj (change_wf (hg.wf k q hq) _) (hg.wf k q hq)
      rw [applied_eq hv' (hg.wf k q hq), happ]
    rcases defineOrdinary_some hg hq (ofFields (spOf q).report) with ⟨c, _⟩ | ⟨_, c, _⟩ | ⟨_, _, o', e, e1, _⟩
    · rw [hflags] at c; cases c
    · rw [hal] at c; cases c
    · have hd : define E.oth o k (ofFields (spOf q).report) = some (o', .bool true) := by
        unfold define
        split
        · rename_i harr
          obtain ⟨w, n, hn⟩ := ha harr
          cases k with
          | idx i =>
            have := hn.le i (by simp [hq])
            simp only [setItem, oldLength_arr hg hn]
            rw [if_neg (by omega), e]
            simp only
            rw [if_neg (by omega)]
          | name m =>
            simp only
            split
            · rename_i hm
              subst hm
              have hlen : q = lenProp w n := by
                have := hn.len
                rw [show lengthKey = Key.name (.str 0) from rfl, hq] at this
                exact Option.some.inj this
              subst hlen
              have e' : defineOrdinary o lengthKey (ofFields (spOf (lenProp w n)).report) = some (o', true) := e
              unfold setLength
              have hnd : ({ ofFields (spOf (lenProp w n)).report with value := Val.num n } : Desc) =
                  ofFields (spOf (lenProp w n)).report := rfl
              have hto : toLen E.oth (ofFields (spOf (lenProp w n)).report).value = some n := by
                show (if n < 2 ^ 32 then some n else none) = some n
                rw [if_pos hn.lt]
              rw [if_neg (by simp [ofFields, spOf, lenProp, Spec.Prp.report]), hto]
              simp only [oldLength_arr hg hn, Nat.le_refl, ge_iff_le, if_true]
              rw [hnd, e']
            · rw [e]
        · rw [e]
      refine ⟨o', ?_, e1.same.ext, e1.same.proto, fun k' => ?_⟩
      · simp only [step, toDesc_eq, valid_eq, hcall, if_true, onObj, ho, hd]
      · rw [report_get e1.good, report_get hg, e1.get, hch]
        simp only [upk]
        split
        · rename_i c; subst c; rw [hq]
        · rfl

/-- An accessor property which is made a data property, in an object with another property. -/
example :
    let E : Env := ⟨fun _ => none, fun _ => true⟩
    let k : Key := .name (.str 5)
    let h0 := run E [] [.create none, .set 0 (.idx 9) .undef (some 0),
      .define 0 k { get := some (.other 1), configurable := some true }]
    let h1 := h0.bind fun h => (step E h (.define 0 k { value := some (.num 3), enumerable := some true })).map (·.1)
    h0.bind (fun h => h[0]?.bind (report · k)) = 
      some (some { get := some (.other 1), set := some .undef, enumerable := some false, configurable := some true }) ∧
    h1.bind (fun h => h[0]?.bind (report · k)) = 
      some (some { value := some (.num 3), writable := some false, enumerable := some true, configurable := some true }) := by
  decide +kernel

/-! ### C35 -/

/-- The reported descriptor of the length of an array. -/
def lengthFields (n : Nat) (writable : Bool) : Fields :=
  { value := some (.num n), writable := some writable, enumerable := some false, configurable := some false }

/-- **C35**, first part: at all times an array has a length, which is larger than all its
indices. -/
theorem C35 {E : Env} {h : Heap} (hr : Reach E h) {id : Nat} {o : Obj} (ho : h[id]? = some o) (ha : o.arr = true) :
    ∃ n w, report o lengthKey = some (some (lengthFields n w)) ∧ n < 2 ^ 32 ∧
      ∀ i : Fin (2 ^ 32 - 1), Has o (.idx i) → i.val < n := by
  obtain ⟨hg, hag⟩ := hr.inv.good id o ho
  obtain ⟨w, n, hn⟩ := hag ha
  refine ⟨n, w, by rw [report_get hg, hn.len]; rfl, hn.lt, fun i hi => hn.le i ?_⟩
  rw [has_get hg] at hi
  exact hi

/-- **C35**, last part: a length which is not writable never changes. -/
theorem C35_readonly {E : Env} {h h' : Heap} (hr : Reach E h) {ops : List Op} (hrun : run E h ops = some h')
    {id : Nat} {o : Obj} (ho : h[id]? = some o) {n : Nat} (hl : report o lengthKey = some (some (lengthFields n false))) :
    ∃ o', h'[id]? = some o' ∧ report o' lengthKey = some (some (lengthFields n false)) := by
  obtain ⟨o', f', e1, e2, e3, e4, e5, e6⟩ := C32 hr hrun ho hl rfl
  rw [(e6 (by simp [lengthFields])).2 rfl] at e2
  exact ⟨o', e1, e2⟩

/-- The value converts to the number `m`. -/
def ToLength (E : Env) (v : Val) (m : Nat) : Prop := v = .num m ∨ ∃ x, v = .other x ∧ E.oth x = some m

/-- **C35**, second part: shrinking a writable length `n` to `m`.  Unless the descriptor asks for
`enumerable` or `configurable` (then nothing changes), the length becomes `L`: all elements below
`L` stay as they are, those at or above `L` are gone.  On success `L` is `m`; otherwise failure is
reported and `L` is just above the highest element (at or above `m`) which is not configurable. -/
theorem C35_shrink {E : Env} {h : Heap} (hr : Reach E h) {id : Nat} {o : Obj} (ho : h[id]? = some o)
    (ha : o.arr = true) {n m : Nat} (hl : report o lengthKey = some (some (lengthFields n true))) {f : Fields}
    (hv : Spec.valid E.callable f = true) {v : Val} (hval : f.value = some v) (hm : ToLength E v m) (hlt : m < n) :
    ((f.enumerable = some true ∨ f.configurable = some true) ∧
      step E h (.define id lengthKey f) = some (h, .bool false)) ∨
    (¬ (f.enumerable = some true ∨ f.configurable = some true) ∧
     ∃ o' L b, step E h (.define id lengthKey f) = some (h.set id o', .bool b) ∧
      report o' lengthKey = some (some (lengthFields L (f.writable != some false))) ∧
      (∀ i : Fin (2 ^ 32 - 1), report o' (.idx i) = if i.val < L then report o (.idx i) else some none) ∧
      (∀ x, x ≠ .str 0 → report o' (.name x) = report o (.name x)) ∧
      (b = true → L = m) ∧
      (b = false → ∃ i : Fin (2 ^ 32 - 1), i.val + 1 = L ∧ m ≤ i.val ∧
        ∃ g, report o (.idx i) = some (some g) ∧ g.configurable = some false) ∧
      ∀ (i : Fin (2 ^ 32 - 1)) g, L ≤ i.val → report o (.idx i) = some (some g) → g.configurable = some true) := by
  obtain ⟨hg, hag⟩ := hr.inv.good id o ho
  obtain ⟨w', n', hn⟩ := hag ha
  have hwn : w' = true ∧ n' = n := by
    rw [report_get hg, hn.len] at hl
    simpa [lengthFields, spOf, lenProp, Spec.Prp.report, and_comm] using hl
  obtain ⟨rfl, rfl⟩ := hwn
  have hnlt := hn.lt
  have hd : toDesc E.callable f = some (ofFields f) := by rw [toDesc_eq, valid_eq, hv]; rfl
  have hwf := toDesc_wf hd
  have hto : toLen E.oth (ofFields f).value = some m := by
    simp only [ofFields, hval, Option.getD_some]
    rcases hm with rfl | ⟨x, rfl, hx⟩
    · simp only [toLen]; rw [if_pos (by omega)]
    · simp only [toLen, hx]; rw [if_pos (by omega)]
  have hacc : isAcc (ofFields f) = false := by
    cases hc : isAcc (ofFields f) with
    | false => rfl
    | true =>
      have := hwf.one hc
      simp [isData, ofFields, hval] at this
  have hchk : check (ofFields f) (descOf (lenProp true n')) = !(decide (f.enumerable = some true) || decide (f.configurable = some true)) := by
    have h1 : isGeneric (ofFields f) = false := by simp [isGeneric, isData, ofFields, hval]
    unfold check
    rw [hacc, h1]
    obtain ⟨e, c, v', w, g, s⟩ := f
    rcases e with _ | (_ | _) <;> rcases c with _ | (_ | _) <;> simp [ofFields, descOf, lenProp, isAcc]
  have hstep : step E h (.define id lengthKey f) = match setLength E.oth o (ofFields f) with
      | none => none
      | some (o', r) => some (h.set id o', r) := by
    simp only [step, hd, onObj, ho, define, ha, if_true, lengthKey]
    rfl
  have hcfg : ∀ i p g, get o (.idx i) = some p → report o (.idx i) = some (some g) → g.configurable = some p.c := by
    intro i p g hp hgr
    rw [report_get hg, hp] at hgr
    simp only [Option.map_some, Option.some.injEq] at hgr
    subst hgr
    obtain ⟨w, e, c, body⟩ := p
    cases body <;> rfl
  rcases setLength_cut (oth := E.oth) hg hn hwf (by simp [ofFields, hval]) hto hlt with ⟨c, e⟩ | ⟨c, o', last, e, e1, e2, e3, e4, e5, e6, e7, e8⟩
  · left
    rw [hchk] at c
    refine ⟨by simpa [or_iff_not_imp_left] using c, ?_⟩
    rw [hstep, e]
    simp only
    rw [heap_same ho]
  · right
    rw [hchk] at c
    refine ⟨by simpa using c, o', PropStore.bound m last, last.isNone, by rw [hstep, e], ?_, fun i => ?_, fun x hx => ?_, fun hb => ?_, fun hb => ?_, fun i g hi hgr => ?_⟩
    · rw [report_get e1.good, e4.len]
      have : (!(ofFields f).hasW || (ofFields f).w) = (f.writable != some false) := by
        obtain ⟨e, c, v', w, g, s⟩ := f
        rcases w with _ | (_ | _) <;> rfl
      rw [this]
      rfl
    · rw [report_get e1.good, e6]
      split
      · rw [report_get hg]
      · rfl
    · rw [report_get e1.good, report_get hg, e5 x hx]
    · cases last with
      | none => rfl
      | some j => cases hb
    · cases last with
      | none => cases hb
      | some j =>
        obtain ⟨a1, i, p, a2, a3, a4⟩ := e7 j rfl
        refine ⟨i, by rw [a2]; rfl, by omega, (spOf p).report, by rw [report_get hg, a3]; rfl, ?_⟩
        rw [hcfg i p _ a3 (by rw [report_get hg, a3]; rfl), a4]
    · cases hp : get o (.idx i) with
      | none => rw [report_get hg, hp] at hgr; cases hgr
      | some p =>
        rw [hcfg i p g hp hgr, e8 i p hi hp]

/-- Assigning to `length` is defining it with only a value. -/
theorem C35_assign {E : Env} {h : Heap} (hr : Reach E h) {id : Nat} {o : Obj} (ho : h[id]? = some o)
    (ha : o.arr = true) {n : Nat} (hl : report o lengthKey = some (some (lengthFields n true))) (v : Val) :
    step E h (.set id lengthKey v (some id)) = step E h (.define id lengthKey { value := some v }) := by
  obtain ⟨hg, hag⟩ := hr.inv.good id o ho
  obtain ⟨w', n', hn⟩ := hag ha
  have hwn : w' = true ∧ n' = n := by
    rw [report_get hg, hn.len] at hl
    simpa [lengthFields, spOf, lenProp, Spec.Prp.report, and_comm] using hl
  obtain ⟨rfl, rfl⟩ := hwn
  have hown : getOwn o lengthKey = some (some (descOf (lenProp true n'))) := by rw [getOwn_get hg, hn.len]; rfl
  have hfind : findProp h lengthKey (h.length + 1) id = some (some (descOf (lenProp true n'))) := by
    unfold findProp
    rw [ho]
    simp only [hown]
  simp only [step, set, hfind, setFound]
  have hd : toDesc E.callable { value := some v } = some { hasV := true, value := v } := rfl
  rw [hd]
  simp only [descOf, lenProp, isData, isAcc, ho, hown, onObj]
  rfl

/-- Elements with indices 1, 4 (which cannot be deleted) and 6; the length is set to 2, and then to
5. -/
example :
    let E : Env := ⟨fun _ => none, fun _ => true⟩
    let ops : List Op := [.createArray 0 none, .set 0 (.idx 6) .undef (some 0), .define 0 (.idx 4) {},
      .set 0 (.idx 1) .undef (some 0)]
    let h1 := run E [] ops
    let h2 := h1.bind fun h => step E h (.set 0 lengthKey (.num 2) (some 0))
    h1.bind (fun h => h[0]?.bind ownKeys) = some [.idx 1, .idx 4, .idx 6, lengthKey] ∧
    h1.bind (fun h => h[0]?.bind (report · lengthKey)) = some (some (lengthFields 7 true)) ∧
    h2.map (·.2) = some (.bool false) ∧
    h2.bind (fun h => h.1[0]?.bind ownKeys) = some [.idx 1, .idx 4, lengthKey] ∧
    h2.bind (fun h => h.1[0]?.bind (report · lengthKey)) = some (some (lengthFields 5 true)) := by
  decide +kernel

end Verif.Obj

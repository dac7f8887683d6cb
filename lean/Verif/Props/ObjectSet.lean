import Verif.Props.ObjectDefine
/-
C64: assignments.
-/
namespace Verif.Obj

open Spec (Has Up Seen)

theorem up_linear {h : Heap} {v i : Nat} (a : Up h v i) : ∀ {j : Nat}, Up h v j → i = j ∨ Up h i j ∨ Up h j i := by
  induction a with
  | one hi hp =>
    intro j b
    cases b with
    | one hi' hp' =>
      rw [hi] at hi'; cases hi'; rw [hp] at hp'; cases hp'; exact Or.inl rfl
    | more hi' hp' t =>
      rw [hi] at hi'; cases hi'; rw [hp] at hp'; cases hp'; exact Or.inr (Or.inl t)
  | more hi hp t ih =>
    intro j b
    cases b with
    | one hi' hp' =>
      rw [hi] at hi'; cases hi'; rw [hp] at hp'; cases hp'; exact Or.inr (Or.inr t)
    | more hi' hp' t' =>
      rw [hi] at hi'; cases hi'; rw [hp] at hp'; cases hp'; exact ih t'

/-- What is seen is determined. -/
theorem C64_seen {h : Heap} {v : Nat} {k : Key} {p q : Option Spec.Prp} (hp : Seen h v k p) (hq : Seen h v k q) :
    p = q := by
  cases p with
  | none =>
    cases q with
    | none => rfl
    | some q =>
      obtain ⟨i, oi, a1, a2, a3, _⟩ := hq
      exact absurd ⟨_, a3⟩ (hp i oi a1 a2)
  | some p =>
    obtain ⟨i, oi, a1, a2, a3, a4⟩ := hp
    cases q with
    | none => exact absurd ⟨_, a3⟩ (hq i oi a1 a2)
    | some q =>
      obtain ⟨j, oj, b1, b2, b3, b4⟩ := hq
      have key : i = j ∨ Up h i j ∨ Up h j i := by
        rcases a1 with rfl | a1
        · rcases b1 with rfl | b1
          · exact Or.inl rfl
          · exact Or.inr (Or.inl b1)
        · rcases b1 with rfl | b1
          · exact Or.inr (Or.inr a1)
          · exact up_linear a1 b1
      rcases key with rfl | u | u
      · rw [a2] at b2; cases b2
        rw [a3] at b3
        simp only [Option.some.injEq] at b3
        rw [report_inj b3]
      · exact absurd ⟨_, a3⟩ (b4 i oi a1 u a2)
      · exact absurd ⟨_, b3⟩ (a4 j oj b1 u b2)

/-- The own property of the receiver (`none`: it is not an object). -/
def OwnOf (h : Heap) (recv : Option Nat) (k : Key) : Option (Option Spec.Prp) → Prop
  | none => recv = none
  | some p => ∃ r o, recv = some r ∧ h[r]? = some o ∧ report o k = some (p.map (·.report))

/-- The definition of an own property of the receiver; `C55` says what it does. -/
def defineOn (E : Env) (h : Heap) (recv : Option Nat) (k : Key) (f : Fields) : Option (Heap × Ret) :=
  match recv with
  | none => none
  | some r => step E h (.define r k f)

/-- **C64**: an assignment `o[k] = v` with any receiver comes to what the specification says: the
property seen first from the object on upwards decides.  A read-only property, also an inherited
one, refuses, and so does an accessor without setter; a setter is called; otherwise a property of
the receiver is defined, with only its value if it has one already. -/
theorem C64 {E : Env} {h : Heap} (hr : Reach E h) {id : Nat} {o : Obj} (ho : h[id]? = some o) (k : Key) (v : Val)
    (recv : Option Nat) {seen : Option Spec.Prp} (hs : Seen h id k seen) {own : Option (Option Spec.Prp)}
    (hown : OwnOf h recv k own) :
    step E h (.set id k v recv) =
      match Spec.assign seen own v with
      | .refuse => some (h, .bool false)
      | .call s => some (h, .call s)
      | .define f => defineOn E h recv k f := by
  have hi := hr.inv
  -- the search of the code finds what is seen
  obtain ⟨r, r1, r2⟩ := C34_lookup hr ho k
  have hfound : (r = none ∧ seen = none) ∨ ∃ p, WfP p ∧ r = some (descOf p) ∧ seen = some (spOf p) := by
    obtain ⟨l, hl⟩ := hi.ends id (List.getElem?_eq_some_iff.1 ho).1
    obtain ⟨r', r1', r2'⟩ := findProp_spec hi (k := k) hl id (h.length + 1) rfl (by have := hl.length_le; omega)
    rw [r1] at r1'
    cases r1'
    rcases r2 with ⟨rfl, r2⟩ | ⟨i, oi, d, rfl, e1, e2, e3, e4⟩
    · exact Or.inl ⟨rfl, C64_seen hs r2⟩
    · rcases r2' with ⟨c, _⟩ | ⟨a, j, b, oj, p, _, f2, f3, f4, _⟩
      · cases c
      · cases f4
        refine Or.inr ⟨p, (hi.good j oj f2).1.wf k p f3, rfl, ?_⟩
        refine C64_seen hs ⟨i, oi, e1, e2, ?_, e4⟩
        rw [e3, spOf_report]
  -- the end of the assignment for a writable or a missing property
  have tail : ∀ d : Desc, isData d = true → d.w = true →
      setFound E.oth h k v recv d =
        match (match own with
          | none => Spec.Assign.refuse
          | some (some (.acc ..)) => .refuse
          | some (some (.data _ w _ _)) => if w then .define { value := some v } else .refuse
          | some none => .define { value := some v, writable := some true, enumerable := some true, configurable := some true }) with
        | .refuse => some (h, .bool false)
        | .call s => some (h, .call s)
        | .define f => defineOn E h recv k f := by
    intro d hd hw
    unfold setFound
    rw [if_pos hd, if_neg (by simp [hw])]
    cases own with
    | none =>
      have : recv = none := hown
      subst this
      rfl
    | some own =>
      obtain ⟨rr, ro, rfl, h1, h2⟩ := hown
      have hg := (hi.good rr ro h1).1
      simp only [h1]
      rw [report_get hg] at h2
      rw [getOwn_get hg]
      have hdef : ∀ f : Fields, Spec.valid E.callable f = true →
          step E h (.define rr k f) = match define E.oth ro k (ofFields f) with
            | none => none
            | some (o, x) => some (h.set rr o, x) := by
        intro f hv
        simp only [step, toDesc_eq, valid_eq, hv, if_true, onObj, h1]
        cases define E.oth ro k (ofFields f) with
        | none => rfl
        | some x => rfl
      cases hq : get ro k with
      | none =>
        rw [hq] at h2
        cases own with
        | some p => simp at h2
        | none =>
          simp only [Option.map_none, defineOn]
          rw [hdef _ (by simp [Spec.valid, Spec.isAccessor, Spec.isData])]
          rfl
      | some q =>
        rw [hq] at h2
        cases own with
        | none => simp at h2
        | some p =>
          simp only [Option.map_some, Option.some.injEq] at h2
          have := report_inj h2
          subst this
          obtain ⟨w, e, c, body⟩ := q
          cases body with
          | acc g s => rfl
          | data x =>
            cases w with
            | false => rfl
            | true =>
              simp only [Option.map_some, defineOn, spOf, if_true]
              rw [hdef _ (by simp [Spec.valid, Spec.isAccessor, Spec.isData])]
              rfl
  simp only [step, set, r1]
  rcases hfound with ⟨rfl, rfl⟩ | ⟨p, hwf, rfl, rfl⟩
  · exact tail _ rfl rfl
  · obtain ⟨w, e, c, body⟩ := p
    cases body with
    | acc g s =>
      simp only [setFound, descOf, isData, Spec.assign, spOf]
      by_cases hs : s = .undef
      · simp [hs]
      · simp [hs]
    | data x =>
      cases w with
      | false => rfl
      | true => exact tail _ rfl rfl

/-- An inherited read-only property refuses the assignment; a writable one gives an own property
of the receiver. -/
example :
    let E : Env := ⟨fun _ => none, fun _ => true⟩
    let k : Key := .name (.str 5)
    let h0 := run E [] [.create none, .create (some 0),
      .define 0 k { value := some (.num 1) }, .define 0 (.idx 3) { value := some (.num 1), writable := some true }]
    h0.bind (fun h => (step E h (.set 1 k (.num 2) (some 1))).map (·.2)) = some (.bool false) ∧
    (h0.bind fun h => (step E h (.set 1 (.idx 3) (.num 2) (some 1))).bind fun x => x.1[1]?.bind (report · (.idx 3))) =
      some (some { value := some (.num 2), writable := some true, enumerable := some true, configurable := some true }) := by
  decide +kernel

end Verif.Obj

import Verif.Lemmas.ObjectProps
/-
C31-C35 and C55: ordinary objects and arrays.

The heaps are those a program can make (`Reach`) from nothing by creating objects and arrays,
defining, setting and deleting properties, changing prototypes, and by preventExtensions, seal
and freeze, in any order.
-/
namespace Verif.Obj

open Spec (Before Has Up)

/-- The heap can be made by a program. -/
def Reach (E : Env) (h : Heap) : Prop := ∃ ops, run E [] ops = some h

theorem Reach.inv {E : Env} {h : Heap} (hr : Reach E h) : HInv h := by
  obtain ⟨ops, e⟩ := hr
  exact run_inv ops [] h hinv_nil e

/-! ### C31 -/

/-- **C31**, first part: the own keys are the array indices in increasing order, then strings,
then symbols, each once; and they are the keys of the properties there are. -/
theorem C31_keys {E : Env} {h : Heap} (hr : Reach E h) {id : Nat} {o : Obj} (ho : h[id]? = some o) :
    ∃ (is : List (Fin (2 ^ 32 - 1))) (ss ys : List Nat) (ks : List Key),
      ownKeys o = some ks ∧
      ks = is.map .idx ++ (ss.map (fun a => .name (.str a)) ++ ys.map (fun a => .name (.sym a))) ∧
      is.Pairwise (· < ·) ∧ ss.Nodup ∧ ys.Nodup ∧ ∀ k, k ∈ ks ↔ Has o k := by
  obtain ⟨hg, _⟩ := hr.inv.good id o ho
  obtain ⟨l, h1, h2, h3⟩ := ownKeys_spec hg
  obtain ⟨ks, h4, h5⟩ := ownKeys_mem hg
  rw [h1] at h4
  refine ⟨l, strs (names o), syms (names o), ks, by rw [h1, h4], ?_, h2, ?_, ?_, fun k => by rw [h5, has_get hg]⟩
  · rw [← Option.some.inj h4, strNames_eq, symNames_eq, List.map_map, List.map_map]
    rfl
  · apply nodup_of_map Name.str
    rw [← strNames_eq]
    exact strNames_nodup hg
  · apply nodup_of_map Name.sym
    rw [← symNames_eq]
    exact symNames_nodup hg

/-- **C31**, second part: strings and symbols stand in the order of creation.  If `b` did not exist
at some time when `a` did, and `a` has existed ever since, then `b`, if it exists now, comes after
`a`.  (In particular a name deleted and added again comes last.) -/
theorem C31_order {E : Env} {h1 h2 : Heap} (hr : Reach E h1) {ops : List Op} (hrun : run E h1 ops = some h2)
    {id : Nat} {o1 o2 : Obj} (ho1 : h1[id]? = some o1) (ho2 : h2[id]? = some o2) {a b : Name}
    (hkind : (∃ x y, a = .str x ∧ b = .str y) ∨ (∃ x y, a = .sym x ∧ b = .sym y))
    (hb1 : ¬ Has o1 (.name b))
    (hall : ∀ l1 l2 hm, ops = l1 ++ l2 → run E h1 l1 = some hm → ∃ om, hm[id]? = some om ∧ Has om (.name a))
    (hb2 : Has o2 (.name b)) :
    ∃ ks, ownKeys o2 = some ks ∧ Before (.name a) (.name b) ks := by
  have hi := hr.inv
  obtain ⟨hg1, _⟩ := hi.good id o1 ho1
  obtain ⟨hg2, _⟩ := (run_inv ops h1 h2 hi hrun).good id o2 ho2
  have ha1 : a ∈ names o1 := by
    obtain ⟨om, c1, c2⟩ := hall [] ops h1 rfl rfl
    rw [ho1] at c1; cases c1
    rw [names_mem]
    exact (has_get hg1 _).1 c2
  have hbn : b ∉ names o1 := by
    rw [names_mem, ← has_get hg1]; exact hb1
  have hord := ordered_run (b := b) ops h1 h2 o1 o2 hi hrun ho1 ho2 hall ⟨ha1, fun c => absurd c hbn⟩
  have hbef := hord.2 (by rw [names_mem, ← has_get hg2]; exact hb2)
  obtain ⟨l, e, _, _⟩ := ownKeys_spec hg2
  refine ⟨_, e, before_right _ ?_⟩
  rcases hkind with ⟨x, y, rfl, rfl⟩ | ⟨x, y, rfl, rfl⟩
  · refine before_left _ (before_map _ (before_filter hbef rfl rfl))
  · refine before_right _ (before_map _ (before_filter hbef rfl rfl))

/-- Two strings, two indices and a symbol; the first string is deleted and added again. -/
example :
    (run ⟨fun _ => none, fun _ => false⟩ []
      [.create none, .set 0 (.name (.str 5)) .undef (some 0), .set 0 (.idx 7) .undef (some 0),
        .set 0 (.name (.sym 1)) .undef (some 0), .set 0 (.name (.str 6)) .undef (some 0),
        .set 0 (.idx 3) .undef (some 0), .delete 0 (.name (.str 5)),
        .set 0 (.name (.str 5)) .undef (some 0)]).bind (fun h => h[0]?.bind ownKeys) =
      some [.idx 3, .idx 7, .name (.str 6), .name (.str 5), .name (.sym 1)] := by decide +kernel

/-! ### C32 -/

/-- **C32**: a property which is not configurable stays, stays not configurable, keeps its
enumerability and its kind, and its getter and setter; if it is not writable either, it does not
change at all. -/
theorem C32 {E : Env} {h h' : Heap} (hr : Reach E h) {ops : List Op} (hrun : run E h ops = some h')
    {id : Nat} {o : Obj} (ho : h[id]? = some o) {k : Key} {f : Fields} (hf : report o k = some (some f))
    (hc : f.configurable = some false) :
    ∃ o' f', h'[id]? = some o' ∧ report o' k = some (some f') ∧ f'.configurable = some false ∧
      f'.enumerable = f.enumerable ∧
      (f.value = none → f' = f) ∧
      (f.value ≠ none → f'.value ≠ none ∧ (f.writable = some false → f' = f)) := by
  have hi := hr.inv
  obtain ⟨hg, _⟩ := hi.good id o ho
  obtain ⟨o', ho', he, _⟩ := run_eff ops h h' hi hrun id o ho
  rw [report_get hg] at hf
  cases hp : get o k with
  | none => rw [hp] at hf; cases hf
  | some p =>
    rw [hp] at hf
    simp only [Option.map_some, Option.some.injEq] at hf
    subst hf
    have hpc : p.c = false := by
      obtain ⟨w, e, c, body⟩ := p
      cases body <;> simpa [spOf, Spec.Prp.report] using hc
    have hm := he.moves k
    rw [hp] at hm
    cases hq : get o' k with
    | none => rw [hq] at hm; rw [show p.c = true from hm] at hpc; cases hpc
    | some q =>
      rw [hq] at hm
      obtain ⟨c1, c2, c3, c4⟩ := hm hpc
      refine ⟨o', (spOf q).report, ho', by rw [report_get he.good, hq]; rfl, ?_⟩
      have wp := hg.wf k p hp
      have wq := he.good.wf k q hq
      have hsame : SafeP true p → q = p := fun hs => safe_same (ext := o.ext) wp wq hs hm
      obtain ⟨w, e, c, body⟩ := p
      obtain ⟨w', e', c', body'⟩ := q
      simp only at hpc c1 c2 c3 c4
      subst hpc c1 c2
      cases body with
      | acc g s =>
        rw [hsame ⟨rfl, fun _ v hv => by cases hv⟩]
        exact ⟨rfl, rfl, fun _ => rfl, fun c => absurd rfl c⟩
      | data v =>
        obtain ⟨⟨v', hv⟩, hw⟩ := c4 v rfl
        subst hv
        refine ⟨rfl, rfl, fun c => (by cases c), fun _ => ⟨by simp [spOf, Spec.Prp.report], fun hww => ?_⟩⟩
        have : w = false := by simpa [spOf, Spec.Prp.report] using hww
        rw [hsame ⟨rfl, fun _ _ _ => this⟩]

/-- A property which cannot be changed, and attempts to change it. -/
example :
    let E : Env := ⟨fun _ => none, fun _ => true⟩
    let k : Key := .name (.str 5)
    (run E [] [.create none, .define 0 k { value := some (.num 1) }]).bind (fun h => h[0]?.bind (report · k)) =
      some (some { value := some (.num 1), writable := some false, enumerable := some false, configurable := some false }) ∧
    (run E [] [.create none, .define 0 k { value := some (.num 1) }, .define 0 k { value := some (.num 2) },
      .define 0 k { writable := some true }, .define 0 k { get := some (.other 3) }, .set 0 k (.num 4) (some 0), .delete 0 k,
      .setIntegrity true 0]).bind (fun h => h[0]?.bind (report · k)) =
      some (some { value := some (.num 1), writable := some false, enumerable := some false, configurable := some false }) := by
  decide +kernel

/-! ### C33 -/

/-- **C33**: an object which is not extensible gets no new property, keeps its prototype and never
becomes extensible again. -/
theorem C33 {E : Env} {h h' : Heap} (hr : Reach E h) {ops : List Op} (hrun : run E h ops = some h')
    {id : Nat} {o : Obj} (ho : h[id]? = some o) (hx : o.ext = false) :
    ∃ o', h'[id]? = some o' ∧ o'.ext = false ∧ o'.proto = o.proto ∧ ∀ k, Has o' k → Has o k := by
  have hi := hr.inv
  obtain ⟨hg, _⟩ := hi.good id o ho
  obtain ⟨o', ho', he, hp⟩ := run_eff ops h h' hi hrun id o ho
  refine ⟨o', ho', ?_, hp hx, fun k hk => ?_⟩
  · cases c : o'.ext with
    | false => rfl
    | true => rw [he.ext c] at hx; cases hx
  · rw [has_get he.good] at hk
    rw [has_get hg]
    intro c
    have hm := he.moves k
    rw [c, hx] at hm
    cases hq : get o' k with
    | none => exact hk hq
    | some q => rw [hq] at hm; cases hm

/-- `Object.preventExtensions` makes an object not extensible. -/
theorem C33_prevent (E : Env) {h : Heap} {id : Nat} {o : Obj} (ho : h[id]? = some o) :
    step E h (.preventExt id) = some (h.set id { o with ext := false }, .bool true) := by
  simp [step, onObj, ho]

/-- **C33**, frozen objects: `Object.freeze` succeeds; it changes only `writable` and
`configurable`; and afterwards nothing ever changes the object. -/
theorem C33_frozen {E : Env} {h : Heap} (hr : Reach E h) {id : Nat} {o : Obj} (ho : h[id]? = some o) :
    ∃ h1 o1, step E h (.setIntegrity true id) = some (h1, .bool true) ∧ h1[id]? = some o1 ∧
      o1.ext = false ∧ o1.proto = o.proto ∧
      (∀ k, report o1 k = (report o k).map fun x => x.map fun f =>
        { f with configurable := some false, writable := f.writable.map fun _ => false }) ∧
      ∀ ops h2, run E h1 ops = some h2 → ∃ o2, h2[id]? = some o2 ∧ o2.ext = false ∧ o2.proto = o1.proto ∧
        ∀ k, report o2 k = report o1 k := by
  have hi := hr.inv
  obtain ⟨hg, ha⟩ := hi.good id o ho
  obtain ⟨o1, e1, e2, e3, e4, e5, e6, e7⟩ := setIntegrity_spec (oth := E.oth) hg ha true
  have hs : step E h (.setIntegrity true id) = some (h.set id o1, .bool true) := by
    simp [step, onObj, ho, e1]
  have hi1 := (step_eff hi hs).1
  have ho1 : (h.set id o1)[id]? = some o1 := by rw [get_set ho, if_pos rfl]
  refine ⟨h.set id o1, o1, hs, ho1, e5, e6, fun k => ?_, fun ops h2 hrun => ?_⟩
  · rw [report_get e2.good, report_get hg, e7]
    cases get o k with
    | none => rfl
    | some p =>
      obtain ⟨w, e, c, body⟩ := p
      cases body <;> rfl
  · obtain ⟨o2, ho2, he, hp⟩ := run_eff ops _ h2 hi1 hrun id o1 ho1
    refine ⟨o2, ho2, ?_, hp e5, fun k => ?_⟩
    · cases c : o2.ext with
      | false => rfl
      | true => rw [he.ext c] at e5; cases e5
    · rw [report_get he.good, report_get e2.good, frozen_same e2.good he e5 (fun k p hk => ?_) k]
      rw [e7] at hk
      cases hq : get o k with
      | none => rw [hq] at hk; cases hk
      | some q =>
        rw [hq] at hk
        simp only [Option.map_some, Option.some.injEq] at hk
        subst hk
        exact levelP_safe true q

/-- `Object.isFrozen` and `Object.isSealed` tell the truth. -/
theorem C33_isFrozen {E : Env} {h : Heap} (hr : Reach E h) {id : Nat} {o : Obj} (ho : h[id]? = some o) (frozen : Bool) :
    ∃ b, testIntegrity frozen o = some b ∧ (b = true ↔ o.ext = false ∧ ∀ k f, report o k = some (some f) →
      f.configurable = some false ∧ (frozen = true → f.writable ≠ some true)) := by
  obtain ⟨hg, _⟩ := hr.inv.good id o ho
  obtain ⟨b, h1, h2⟩ := testIntegrity_spec hg frozen
  refine ⟨b, h1, h2.trans (and_congr_right fun _ => ?_)⟩
  have key : ∀ p : P, SafeP frozen p ↔
      (spOf p).report.configurable = some false ∧ (frozen = true → (spOf p).report.writable ≠ some true) := by
    intro p
    obtain ⟨w, e, c, body⟩ := p
    cases body <;> simp [SafeP, spOf, Spec.Prp.report]
  constructor
  · intro hs k f hf
    rw [report_get hg] at hf
    cases hp : get o k with
    | none => rw [hp] at hf; cases hf
    | some p =>
      rw [hp] at hf
      simp only [Option.map_some, Option.some.injEq] at hf
      subst hf
      exact (key p).1 (hs k p hp)
  · intro hs k p hp
    exact (key p).2 (hs k _ (by rw [report_get hg, hp]; rfl))

/-- An object which is frozen, and attempts to change it. -/
example :
    let E : Env := ⟨fun _ => none, fun _ => true⟩
    let pre : List Op := [.create none, .createArray 3 none, .set 1 (.idx 1) (.num 7) (some 1), .setIntegrity true 1]
    let att : List Op := [.set 1 (.idx 1) (.num 8) (some 1), .set 1 (.idx 2) (.num 8) (some 1), .delete 1 (.idx 1),
      .set 1 lengthKey (.num 0) (some 1), .setProto 1 (some 0), .define 1 (.name (.sym 4)) {}]
    (run E [] pre).map (fun h => h[1]?.bind ownKeys) = some (some [.idx 1, lengthKey]) ∧
    (run E [] (pre ++ att)).map (fun h => h[1]?.bind ownKeys) = some (some [.idx 1, lengthKey]) ∧
    (run E [] (pre ++ att)).map (fun h => h[1]?.map (·.proto)) = some (some none) := by
  decide +kernel

/-! ### C34 -/

/-- **C34**: no object is its own prototype, directly or indirectly. -/
theorem C34 {E : Env} {h : Heap} (hr : Reach E h) (i : Nat) : ¬ Up h i i := by
  intro u
  have hlt : i < h.length := by
    cases u with
    | one hi _ => exact (List.getElem?_eq_some_iff.1 hi).1
    | more hi _ _ => exact (List.getElem?_eq_some_iff.1 hi).1
  obtain ⟨l, hl⟩ := hr.inv.ends i hlt
  obtain ⟨t, e, hm⟩ := up_chain u hl
  have := hl.nodup
  rw [e, List.nodup_cons] at this
  exact this.1 hm

/-- **C34**, second part: the search for a property ends (after at most as many steps as there are
objects), and finds the property of the first object of the chain which has one. -/
theorem C34_lookup {E : Env} {h : Heap} (hr : Reach E h) {v : Nat} {o : Obj} (ho : h[v]? = some o) (k : Key) :
    ∃ r, findProp h k (h.length + 1) v = some r ∧
      ((r = none ∧ ∀ j oj, (j = v ∨ Up h v j) → h[j]? = some oj → ¬ Has oj k) ∨
       ∃ i oi d, r = some d ∧ (i = v ∨ Up h v i) ∧ h[i]? = some oi ∧ report oi k = some (some (fromDesc d)) ∧
        ∀ j oj, (j = v ∨ Up h v j) → Up h j i → h[j]? = some oj → ¬ Has oj k) := by
  have hi := hr.inv
  obtain ⟨l, hl⟩ := hi.ends v (List.getElem?_eq_some_iff.1 ho).1
  obtain ⟨r, r1, r2⟩ := findProp_spec hi (k := k) hl v (h.length + 1) rfl (by have := hl.length_le; omega)
  have mem : ∀ j, (j = v ∨ Up h v j) → j ∈ l := by
    intro j hj
    cases hl with
    | cons hv t =>
      rcases hj with rfl | u
      · simp
      · obtain ⟨t', e, hm⟩ := up_chain u (Chain.cons hv t)
        rw [e]; simp [hm]
  refine ⟨r, r1, ?_⟩
  rcases r2 with ⟨rfl, r2⟩ | ⟨a, i, b, oi, p, e1, e2, e3, rfl, e5⟩
  · refine Or.inl ⟨rfl, fun j oj hj hoj => ?_⟩
    rw [has_get (hi.good j oj hoj).1]
    exact fun c => c (r2 j (mem j hj) oj hoj)
  · refine Or.inr ⟨i, oi, descOf p, rfl, chain_up hl rfl i (by rw [e1]; simp), e2, ?_, fun j oj hj hu hoj => ?_⟩
    · rw [report_get (hi.good i oi e2).1, e3, Option.map_some, spOf_report]
    · rw [has_get (hi.good j oj hoj).1]
      refine fun c => c (e5 j ?_ oj hoj)
      have hjl := mem j hj
      rw [e1, List.mem_append, List.mem_cons] at hjl
      rcases hjl with hja | rfl | hjb
      · exact hja
      · exact absurd hu (C34 hr j)
      · exfalso
        -- `j` is above `i`, and `i` above `j`
        have suf : ∀ (x : Option Nat) (l : List Nat), Chain h x l → ∀ a b, l = a ++ i :: b → Chain h (some i) (i :: b) := by
          intro x l c
          induction c with
          | nil => intro a b e; cases a <;> cases e
          | cons hi' t ih =>
            intro a b e
            cases a with
            | nil =>
              simp only [List.nil_append, List.cons.injEq] at e
              obtain ⟨rfl, rfl⟩ := e
              exact .cons hi' t
            | cons a0 a =>
              simp only [List.cons_append, List.cons.injEq] at e
              exact ih a b e.2
        have ci := suf _ _ hl a b e1
        rcases chain_up ci rfl j (by simp [hjb]) with rfl | u
        · exact C34 hr j hu
        · have tr : ∀ {x y z}, Up h x y → Up h y z → Up h x z := by
            intro x y z u1 u2
            induction u1 with
            | one a b => exact .more a b u2
            | more a b _ ih => exact .more a b (ih u2)
          exact C34 hr j (tr hu u)

/-- When `Object.setPrototypeOf` (of a prototype which exists) succeeds, and what it does. -/
theorem C34_setProto {E : Env} {h : Heap} (hr : Reach E h) {v : Nat} {o : Obj} (ho : h[v]? = some o)
    {p : Option Nat} (hp : ∀ i, p = some i → i < h.length) :
    ∃ b, step E h (.setProto v p) = some (if b then h.set v { o with proto := p } else h, .bool b) ∧
      (b = true ↔ o.proto = p ∨ (o.ext = true ∧ ∀ i, p = some i → i ≠ v ∧ ¬ Up h i v)) := by
  have hi := hr.inv
  have hall : p.all (· < h.length) = true := by
    cases p with
    | none => rfl
    | some i => simpa using hp i rfl
  obtain ⟨h', b, e1, _, _, e4, e5, e6⟩ := setProto_spec hi ho hall
  refine ⟨b, ?_, e6.trans (or_congr Iff.rfl (and_congr_right fun _ => ?_))⟩
  · simp only [step, hall, if_true, e1]
    cases b with
    | false => rw [e4 rfl]; rfl
    | true => rw [e5 rfl]; rfl
  · obtain ⟨l, hl⟩ := hi.endsAll hall
    constructor
    · intro hc i hpi
      subst hpi
      have hv := hc l hl
      refine ⟨?_, fun u => ?_⟩
      · rintro rfl
        cases hl with
        | cons _ _ => simp at hv
      · obtain ⟨t, e, hm⟩ := up_chain u hl
        rw [e] at hv
        simp [hm] at hv
    · intro hc l' hl' hm
      cases p with
      | none => cases hl'; cases hm
      | some i =>
        rcases chain_up hl' rfl v hm with e | u
        · exact (hc i rfl).1 e.symm
        · exact (hc i rfl).2 u

/-- A chain of three objects; closing it fails. -/
example :
    let E : Env := ⟨fun _ => none, fun _ => true⟩
    let ops : List Op := [.create none, .create (some 0), .create none, .setProto 2 (some 1), .setProto 0 (some 2)]
    (run E [] ops).map (fun h => h.map (·.proto)) = some [none, some 0, some 1] := by
  decide +kernel

end Verif.Obj

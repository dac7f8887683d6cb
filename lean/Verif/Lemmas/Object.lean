import Verif.Model.Object
import Verif.Lemmas.PropStore
/-
Lemmas on objects: the contents of an object, and what the operations do with them.
-/
namespace Verif.Obj
open PropStore (Inv upd)

/-- The property with a key. -/
def get (o : Obj) (k : Key) : Option P :=
  match propLookup o k with
  | some x => x
  | none => none

/-- The names in the list. -/
def names (o : Obj) : List Name := o.named.map (·.1)

/-- An accessor has no attribute `WRITABLE`. -/
def WfP (p : P) : Prop := ∀ g s, p.body = .acc g s → p.w = false

/-- The state of an object is sound. -/
structure Good (o : Obj) : Prop where
  store : ∃ m, Inv o.store m
  nodup : (names o).Nodup
  wf : ∀ k p, get o k = some p → WfP p

/-- A function changed at one key. -/
def upk (f : Key → Option P) (k : Key) (x : Option P) : Key → Option P := fun k' => if k' = k then x else f k'

/-- Everything but the properties is the same. -/
structure Same (o o' : Obj) : Prop where
  ext : o'.ext = o.ext
  proto : o'.proto = o.proto
  arr : o'.arr = o.arr

theorem Same.refl (o : Obj) : Same o o := ⟨rfl, rfl, rfl⟩
theorem Same.trans {a b c : Obj} (h : Same a b) (g : Same b c) : Same a c :=
  ⟨g.ext.trans h.ext, g.proto.trans h.proto, g.arr.trans h.arr⟩

theorem get_idx {o : Obj} {m : Nat → Option P} (h : Inv o.store m) (i : Fin (2 ^ 32 - 1)) :
    get o (.idx i) = m i := by
  show (match PropStore.lookup o.store i with | some x => x | none => none) = m i
  rw [PropStore.lookup_spec h]

theorem get_name (o : Obj) (n : Name) : get o (.name n) = findName n o.named := rfl

theorem lookup_get {o : Obj} (h : Good o) (k : Key) : propLookup o k = some (get o k) := by
  cases k with
  | idx i =>
    obtain ⟨m, hm⟩ := h.store
    rw [get_idx hm]
    exact PropStore.lookup_spec hm i
  | name n => rfl

theorem getOwn_get {o : Obj} (h : Good o) (k : Key) : getOwn o k = some ((get o k).map descOf) := by
  unfold getOwn
  rw [lookup_get h]
  cases get o k <;> rfl

theorem findName_mem {n : Name} : ∀ {l : List (Name × P)}, findName n l = none ↔ n ∉ l.map (·.1)
  | [] => by simp [findName]
  | (k, p) :: l => by
    unfold findName
    by_cases e : k = n
    · simp [e]
    · rw [if_neg e, findName_mem]
      simp only [List.map_cons, List.mem_cons, not_or]
      exact ⟨fun h => ⟨fun x => e x.symm, h⟩, fun h => h.2⟩

theorem findName_append {n : Name} {q : Name × P} : ∀ {l : List (Name × P)},
    findName n (l ++ [q]) = match findName n l with | some p => some p | none => if q.1 = n then some q.2 else none
  | [] => by
    simp only [List.nil_append, findName]
  | (k, p) :: l => by
    simp only [List.cons_append, findName]
    split
    · rfl
    · exact findName_append

theorem findName_set {n k : Name} {p : P} : ∀ {l : List (Name × P)}, findName n l ≠ none →
    findName k (setName n p l) = if k = n then some p else findName k l
  | [], h => by simp [findName] at h
  | (j, q) :: l, h => by
    unfold setName
    by_cases e : j = n
    · rw [if_pos e]
      subst e
      simp only [findName]
      by_cases c : j = k
      · subst c; simp
      · rw [if_neg c, if_neg (fun x => c x.symm)]
        simp [c]
    · rw [if_neg e]
      simp only [findName, e, if_false] at h ⊢
      by_cases c : j = k
      · subst c
        rw [if_pos rfl, if_neg e, if_pos rfl]
      · rw [if_neg c, if_neg c]
        exact findName_set h

theorem setName_names {n : Name} {p : P} : ∀ {l : List (Name × P)}, (setName n p l).map (·.1) = l.map (·.1)
  | [] => rfl
  | (j, q) :: l => by
    unfold setName
    split
    · rfl
    · simp [setName_names]

theorem removeName_names {n : Name} : ∀ {l : List (Name × P)}, (l.map (·.1)).Nodup →
    (removeName n l).map (·.1) = (l.map (·.1)).filter (· ≠ n)
  | [], _ => rfl
  | (j, q) :: l, h => by
    simp only [List.map_cons, List.nodup_cons] at h
    unfold removeName
    split
    · rename_i e
      subst e
      simp only [List.map_cons, ne_eq, not_true, decide_false, Bool.false_eq_true, not_false_eq_true,
        List.filter_cons_of_neg]
      rw [List.filter_eq_self.2]
      intro a ha
      simp only [decide_not, Bool.not_eq_eq_eq_not, Bool.not_true, decide_eq_false_iff_not]
      rintro rfl
      exact h.1 ha
    · rename_i e
      simp only [List.map_cons]
      rw [List.filter_cons_of_pos (by simp [e]), removeName_names h.2]

theorem findName_remove {n k : Name} : ∀ {l : List (Name × P)}, (l.map (·.1)).Nodup →
    findName k (removeName n l) = if k = n then none else findName k l
  | [], _ => by simp [removeName, findName]
  | (j, q) :: l, h => by
    simp only [List.map_cons, List.nodup_cons] at h
    unfold removeName
    by_cases e : j = n
    · subst e
      rw [if_pos rfl]
      simp only [findName]
      by_cases c : k = j
      · subst c
        rw [if_pos rfl]
        exact findName_mem.2 h.1
      · rw [if_neg c, if_neg (fun x => c x.symm)]
    · rw [if_neg e]
      simp only [findName]
      by_cases c : j = k
      · subst c
        rw [if_pos rfl, if_neg e, if_pos rfl]
      · rw [if_neg c, if_neg c]
        exact findName_remove h.2

/-! ### The storage -/

/-- After a change at one key. -/
structure Eff (o o' : Obj) (k : Key) (x : Option P) : Prop where
  good : Good o'
  get : get o' = upk (get o) k x
  same : Same o o'

theorem good_of {o o' : Obj} {k : Key} {x : Option P} (h : Good o) (hs : ∃ m, Inv o'.store m)
    (hn : (names o').Nodup) (hg : get o' = upk (get o) k x) (hx : ∀ p, x = some p → WfP p) : Good o' := by
  refine ⟨hs, hn, fun k' p hp => ?_⟩
  rw [hg] at hp
  simp only [upk] at hp
  split at hp
  · exact hx p hp
  · exact h.wf k' p hp

theorem get_store {o : Obj} {s : PropStore.Store P} {m m' : Nat → Option P} {i : Fin (2 ^ 32 - 1)} {x : Option P}
    (h : Inv o.store m) (h' : Inv s m') (e : m' = upd m i x) :
    get { o with store := s } = upk (get o) (.idx i) x := by
  funext k
  cases k with
  | idx j =>
    rw [get_idx (o := { o with store := s }) h', e]
    simp only [upd, upk, Key.idx.injEq, Fin.val_inj]
    rw [get_idx h]
  | name n => simp [upk, get_name]

theorem propAdd_spec {o : Obj} (h : Good o) {k : Key} {p : P} (hk : get o k = none) (hp : WfP p) :
    (propAdd o k p = none ∧ o.store.rbt = true ∧ ∃ i, k = .idx i ∧ i.val < 3 ∧ ∀ j, get o (.idx j) = none) ∨
    ∃ o', propAdd o k p = some o' ∧ Eff o o' k (some p) ∧
      names o' = match k with | .idx _ => names o | .name n => names o ++ [n] := by
  cases k with
  | idx i =>
    obtain ⟨m, hm⟩ := h.store
    have hi : m i = none := by rw [← get_idx hm]; exact hk
    obtain ⟨a, b⟩ := PropStore.add_spec hm (p := p) hi i.isLt
    unfold propAdd
    by_cases c : o.store.rbt = true ∧ o.store.tree = .leaf ∧ i.val < 3
    · left
      simp only [a c]
      refine ⟨trivial, c.1, i, rfl, c.2.2, fun j => ?_⟩
      rw [get_idx hm]
      cases hm.rep with
      | tree _ t =>
        cases e : m j with
        | none => rfl
        | some q =>
          have := (t.mem j).2 (by simp [e])
          rw [c.2.1] at this
          simp [PropStore.tkeys, RBT.Spec.keys] at this
      | null hr => simp [c.1] at hr
      | vec hr => simp [c.1] at hr
    · right
      obtain ⟨s', h1, h2⟩ := b c
      simp only [h1]
      have hg := get_store (o := o) hm h2 rfl
      exact ⟨_, rfl, ⟨good_of h ⟨_, h2⟩ h.nodup hg (by rintro q ⟨⟩; exact hp), hg, ⟨rfl, rfl, rfl⟩⟩, rfl⟩
  | name n =>
    right
    rw [get_name, findName_mem] at hk
    unfold propAdd
    have hn : names { o with named := o.named ++ [(n, p)] } = names o ++ [n] := by simp [names]
    have hg : get { o with named := o.named ++ [(n, p)] } = upk (get o) (.name n) (some p) := by
      funext k
      cases k with
      | idx j => simp [upk, get, propLookup]
      | name j =>
        rw [get_name, findName_append]
        simp only [upk, Key.name.injEq, get_name]
        by_cases c : j = n
        · subst c
          rw [findName_mem.2 hk, if_pos rfl]
        · rw [if_neg c]
          cases findName j o.named with
          | none => simp only [if_neg (fun x : n = j => c x.symm)]
          | some q => rfl
    refine ⟨_, rfl, ⟨good_of h h.store ?_ hg (by rintro q ⟨⟩; exact hp), hg, ⟨rfl, rfl, rfl⟩⟩, hn⟩
    rw [hn]
    exact List.nodup_append.2 ⟨h.nodup, by simp, fun a ha b hb => by
      simp at hb; subst hb; rintro rfl; exact hk ha⟩

theorem propUpdate_spec {o : Obj} (h : Good o) {k : Key} {p : P} (hk : get o k ≠ none) (hp : WfP p) :
    ∃ o', propUpdate o k p = some o' ∧ Eff o o' k (some p) ∧ names o' = names o := by
  cases k with
  | idx i =>
    obtain ⟨m, hm⟩ := h.store
    have hi : m i ≠ none := by rw [← get_idx hm]; exact hk
    obtain ⟨s', h1, h2⟩ := PropStore.update_spec hm (p := p) hi
    unfold propUpdate
    simp only [h1]
    have hg := get_store (o := o) hm h2 rfl
    exact ⟨_, rfl, ⟨good_of h ⟨_, h2⟩ h.nodup hg (by rintro q ⟨⟩; exact hp), hg, ⟨rfl, rfl, rfl⟩⟩, rfl⟩
  | name n =>
    have hk' := hk
    rw [get_name] at hk
    obtain ⟨q, hq⟩ := Option.ne_none_iff_exists'.1 hk
    unfold propUpdate
    simp only [hq]
    have hn : names { o with named := setName n p o.named } = names o := setName_names
    have hg : get { o with named := setName n p o.named } = upk (get o) (.name n) (some p) := by
      funext k
      cases k with
      | idx j => simp [upk, get, propLookup]
      | name j =>
        rw [get_name, findName_set hk]
        simp only [upk, Key.name.injEq, get_name]
    exact ⟨_, rfl, ⟨good_of h h.store (by rw [hn]; exact h.nodup) hg (by rintro q ⟨⟩; exact hp), hg,
      ⟨rfl, rfl, rfl⟩⟩, hn⟩

theorem propDelete_spec {o : Obj} (h : Good o) {k : Key} (hk : get o k ≠ none) :
    ∃ o', propDelete o k = some o' ∧ Eff o o' k none ∧
      names o' = match k with | .idx _ => names o | .name n => (names o).filter (· ≠ n) := by
  cases k with
  | idx i =>
    obtain ⟨m, hm⟩ := h.store
    have hi : m i ≠ none := by rw [← get_idx hm]; exact hk
    obtain ⟨s', h1, h2⟩ := PropStore.delete_spec hm hi
    unfold propDelete
    simp only [h1]
    have hg := get_store (o := o) hm h2 rfl
    exact ⟨_, rfl, ⟨good_of h ⟨_, h2⟩ h.nodup hg (by rintro q ⟨⟩), hg, ⟨rfl, rfl, rfl⟩⟩, rfl⟩
  | name n =>
    rw [get_name] at hk
    obtain ⟨q, hq⟩ := Option.ne_none_iff_exists'.1 hk
    unfold propDelete
    simp only [hq]
    have hn : names { o with named := removeName n o.named } = (names o).filter (· ≠ n) :=
      removeName_names h.nodup
    have hg : get { o with named := removeName n o.named } = upk (get o) (.name n) none := by
      funext k
      cases k with
      | idx j => simp [upk, get, propLookup]
      | name j =>
        rw [get_name, findName_remove h.nodup]
        simp only [upk, Key.name.injEq, get_name]
    exact ⟨_, rfl, ⟨good_of h h.store (by rw [hn]; exact h.nodup.filter _) hg (by rintro q ⟨⟩), hg,
      ⟨rfl, rfl, rfl⟩⟩, hn⟩

/-! ### Descriptors -/

/-- A descriptor as `rjs_to_property_descriptor` makes it. -/
structure Wf (d : Desc) : Prop where
  w : d.w = true → d.hasW = true
  e : d.e = true → d.hasE = true
  c : d.c = true → d.hasC = true
  one : isAcc d = true → isData d = false

theorem newProp_wf (d : Desc) : WfP (newProp d) := by
  intro g s
  unfold newProp
  split
  · intro; rfl
  · simp

theorem change_wf {p : P} (h : WfP p) (d : Desc) : WfP (change p d (descOf p)) := by
  intro g s
  unfold change
  obtain ⟨w, e, c, body⟩ := p
  cases body with
  | data v =>
    have h1 : isAcc (descOf ⟨w, e, c, .data v⟩) = false := rfl
    simp only [h1, Bool.and_false, Bool.false_eq_true, if_false]
    split
    · intro; rfl
    · split
      · rename_i hb
        split at hb <;> split at hb <;> simp at hb
      · simp
  | acc g' s' =>
    have hw : w = false := h g' s' rfl
    subst hw
    have h1 : isAcc (descOf ⟨false, e, c, .acc g' s'⟩) = true := rfl
    have h2 : isData (descOf ⟨false, e, c, .acc g' s'⟩) = false := rfl
    simp only [h1, h2, Bool.and_true, Bool.and_false, Bool.false_eq_true, if_false]
    split
    · simp
    · split
      · intro; split <;> split <;> rfl
      · rename_i hb
        split at hb <;> split at hb <;> simp at hb

/-- The outcome of a definition which is not the adding of a property. -/
theorem defineOrdinary_some {o : Obj} (h : Good o) {k : Key} {p : P} (hk : get o k = some p) (d : Desc) :
    (noFlags d = true ∧ defineOrdinary o k d = some (o, true)) ∨
    (noFlags d = false ∧ check d (descOf p) = false ∧ defineOrdinary o k d = some (o, false)) ∨
    (noFlags d = false ∧ check d (descOf p) = true ∧ ∃ o', defineOrdinary o k d = some (o', true) ∧
      Eff o o' k (some (change p d (descOf p))) ∧ names o' = names o) := by
  unfold defineOrdinary validateAndApply
  rw [getOwn_get h, hk]
  simp only [Option.map_some]
  cases hn : noFlags d with
  | true => exact Or.inl ⟨rfl, rfl⟩
  | false =>
    right
    cases hc : check d (descOf p) with
    | false => exact Or.inl ⟨rfl, rfl, rfl⟩
    | true =>
      right
      rw [lookup_get h, hk]
      obtain ⟨o', h1, h2, h3⟩ := propUpdate_spec h (k := k) (p := change p d (descOf p)) (by simp [hk])
        (change_wf (h.wf k p hk) d)
      simp only [h1, Bool.not_true, Bool.false_eq_true, if_false]
      exact ⟨trivial, trivial, o', rfl, h2, h3⟩

theorem defineOrdinary_none {o : Obj} (h : Good o) {k : Key} (hk : get o k = none) (d : Desc) :
    (o.ext = false ∧ defineOrdinary o k d = some (o, false)) ∨
    (o.ext = true ∧ defineOrdinary o k d = none ∧ o.store.rbt = true ∧
      ∃ i, k = .idx i ∧ i.val < 3 ∧ ∀ j, get o (.idx j) = none) ∨
    (o.ext = true ∧ ∃ o', defineOrdinary o k d = some (o', true) ∧ Eff o o' k (some (newProp d)) ∧
      names o' = match k with | .idx _ => names o | .name n => names o ++ [n]) := by
  unfold defineOrdinary validateAndApply
  rw [getOwn_get h, hk]
  simp only [Option.map_none]
  cases he : o.ext with
  | false => exact Or.inl ⟨rfl, rfl⟩
  | true =>
    right
    rcases propAdd_spec h hk (newProp_wf d) with ⟨a, b⟩ | ⟨o', a, b, c⟩
    · exact Or.inl ⟨rfl, by simp [a], b⟩
    · exact Or.inr ⟨rfl, o', by simp [a], b, c⟩

/-! ### What can happen to one property -/

/-- What a property which is not configurable keeps. -/
def Keep (p q : P) : Prop :=
  p.c = false → q.c = false ∧ q.e = p.e ∧ (∀ g s, p.body = .acc g s → q.body = .acc g s) ∧
    ∀ v, p.body = .data v → (∃ v', q.body = .data v') ∧ (p.w = false → q.body = .data v ∧ q.w = false)

theorem Keep.refl (p : P) : Keep p p := fun h =>
  ⟨h, rfl, fun _ _ h => h, fun v h => ⟨⟨v, h⟩, fun hw => ⟨h, hw⟩⟩⟩

theorem Keep.trans {p q r : P} (h : Keep p q) (g : Keep q r) : Keep p r := by
  intro hc
  obtain ⟨a1, a2, a3, a4⟩ := h hc
  obtain ⟨b1, b2, b3, b4⟩ := g a1
  refine ⟨b1, b2.trans a2, fun x y e => b3 x y (a3 x y e), fun v e => ?_⟩
  obtain ⟨⟨v', e1⟩, e2⟩ := a4 v e
  obtain ⟨e3, e4⟩ := b4 v' e1
  refine ⟨e3, fun hw => ?_⟩
  obtain ⟨e5, e6⟩ := e2 hw
  exact (b4 v e5).2 e6

theorem check_keep {p : P} (hp : WfP p) {d : Desc} (hd : Wf d) (h : check d (descOf p) = true) :
    Keep p (change p d (descOf p)) := by
  intro hc
  obtain ⟨w, e, c, body⟩ := p
  simp only at hc
  subst hc
  have hdw := hd.w
  have hde := hd.e
  have hdc := hd.c
  have hd1 := hd.one
  obtain ⟨hasV, hasW, hasE, hasC, hasG, hasS, dw, de, dc, value, dget, dset⟩ := d
  cases body with
  | data v =>
    simp only [isAcc, isData] at *
    simp only [check, descOf, isAcc, isData, isGeneric, change] at h ⊢
    cases hasV <;> cases hasW <;> cases hasE <;> cases hasC <;> cases hasG <;> cases hasS <;> cases w <;> cases dw <;>
      simp_all
  | acc g s =>
    have hw : w = false := hp g s rfl
    subst hw
    simp only [isAcc, isData] at *
    simp only [check, descOf, isAcc, isData, isGeneric, change] at h ⊢
    cases hasV <;> cases hasW <;> cases hasE <;> cases hasC <;> cases hasG <;> cases hasS <;>
      simp_all

/-- What can happen to the property with a key; `ext`: the object was extensible. -/
def Moves (ext : Bool) : Option P → Option P → Prop
  | none, none => True
  | none, some _ => ext = true
  | some p, none => p.c = true
  | some p, some q => Keep p q

theorem Moves.refl (e : Bool) (a : Option P) : Moves e a a := by
  cases a with
  | none => trivial
  | some p => exact Keep.refl p

theorem Moves.trans {e e' : Bool} {a b c : Option P} (h : Moves e a b) (g : Moves e' b c)
    (he : e' = true → e = true) : Moves e a c := by
  cases a with
  | none =>
    cases c with
    | none => trivial
    | some r =>
      cases b with
      | none => exact he g
      | some q => exact h
  | some p =>
    cases b with
    | none =>
      cases c with
      | none => exact h
      | some r => intro hc; rw [show p.c = true from h] at hc; cases hc
    | some q =>
      cases c with
      | none =>
        show p.c = true
        cases hc : p.c with
        | true => rfl
        | false =>
          have := (h hc).1
          rw [show q.c = true from g] at this; cases this
      | some r => exact Keep.trans h g

/-- What can happen to an object. -/
structure OEff (o o' : Obj) : Prop where
  good : Good o'
  ext : o'.ext = true → o.ext = true
  arr : o'.arr = o.arr
  moves : ∀ k, Moves o.ext (get o k) (get o' k)

theorem OEff.refl {o : Obj} (h : Good o) : OEff o o := ⟨h, id, rfl, fun _ => Moves.refl _ _⟩

theorem OEff.trans {a b c : Obj} (h : OEff a b) (g : OEff b c) : OEff a c :=
  ⟨g.good, fun e => h.ext (g.ext e), g.arr.trans h.arr, fun k => (h.moves k).trans (g.moves k) h.ext⟩

theorem OEff.of {o o' : Obj} {k : Key} {x : Option P} (h : Eff o o' k x) (hm : Moves o.ext (get o k) x) :
    OEff o o' := by
  refine ⟨h.good, fun e => by rw [← h.same.ext]; exact e, h.same.arr, fun k' => ?_⟩
  rw [h.get]
  simp only [upk]
  split
  · rename_i e; subst e; exact hm
  · exact Moves.refl _ _

/-- How the list of names can change. -/
inductive NStep (l : List Name) : List Name → Prop
  | same : NStep l l
  | add (n : Name) (h : n ∉ l) : NStep l (l ++ [n])
  | del (n : Name) : NStep l (l.filter (· ≠ n))

theorem names_mem (o : Obj) (n : Name) : n ∈ names o ↔ get o (.name n) ≠ none := by
  rw [get_name, ne_eq, findName_mem]
  simp only [Classical.not_not]
  rfl

/-- The effect of `rjs_ordinary_object_op_define_own_property`. -/
theorem defineOrdinary_eff {o o' : Obj} (h : Good o) {k : Key} {d : Desc} (hd : Wf d) {b : Bool}
    (he : defineOrdinary o k d = some (o', b)) :
    OEff o o' ∧ Same o o' ∧ NStep (names o) (names o') ∧
      (get o k ≠ none ∨ (∃ i, k = .idx i) ∨ o.ext = false → names o' = names o) ∧
      (∀ k', k' ≠ k → get o' k' = get o k') ∧ (b = false → o' = o) := by
  cases hk : get o k with
  | none =>
    rcases defineOrdinary_none h hk d with ⟨_, h2⟩ | ⟨_, h2, _⟩ | ⟨h1, o1, h2, h3, h4⟩
    · rw [h2] at he
      simp only [Option.some.injEq, Prod.mk.injEq] at he
      obtain ⟨rfl, rfl⟩ := he
      exact ⟨OEff.refl h, Same.refl _, .same, fun _ => rfl, fun _ _ => rfl, fun _ => rfl⟩
    · rw [h2] at he; cases he
    · rw [h2] at he
      simp only [Option.some.injEq, Prod.mk.injEq] at he
      obtain ⟨rfl, rfl⟩ := he
      refine ⟨OEff.of h3 (by rw [hk]; exact h1), h3.same, ?_, ?_, ?_, by simp⟩
      · rw [h4]
        cases k with
        | idx i => exact .same
        | name n =>
          refine .add n ?_
          rw [names_mem]; simp [hk]
      · rintro (c | ⟨i, rfl⟩ | c)
        · exact absurd rfl c
        · exact h4
        · rw [h1] at c; cases c
      · intro k' e; rw [h3.get]; simp [upk, e]
  | some p =>
    rcases defineOrdinary_some h hk d with ⟨_, h2⟩ | ⟨_, _, h2⟩ | ⟨_, h1, o1, h2, h3, h4⟩
    · rw [h2] at he
      simp only [Option.some.injEq, Prod.mk.injEq] at he
      obtain ⟨rfl, rfl⟩ := he
      exact ⟨OEff.refl h, Same.refl _, .same, fun _ => rfl, fun _ _ => rfl, fun _ => rfl⟩
    · rw [h2] at he
      simp only [Option.some.injEq, Prod.mk.injEq] at he
      obtain ⟨rfl, rfl⟩ := he
      exact ⟨OEff.refl h, Same.refl _, .same, fun _ => rfl, fun _ _ => rfl, fun _ => rfl⟩
    · rw [h2] at he
      simp only [Option.some.injEq, Prod.mk.injEq] at he
      obtain ⟨rfl, rfl⟩ := he
      refine ⟨OEff.of h3 (by rw [hk]; exact check_keep (h.wf k p hk) hd h1), h3.same, ?_, fun _ => h4, ?_, by simp⟩
      · rw [h4]; exact .same
      · intro k' e; rw [h3.get]; simp [upk, e]

/-- The effect of `rjs_ordinary_object_op_delete`: it succeeds. -/
theorem delete_eff {o : Obj} (h : Good o) (k : Key) :
    ∃ o' b, delete o k = some (o', b) ∧ OEff o o' ∧ Same o o' ∧ NStep (names o) (names o') ∧
      (∀ k', k' ≠ k → get o' k' = get o k') ∧ (b = true → get o' k = none) ∧ (b = false → o' = o) ∧
      (b = true ↔ ∀ p, get o k = some p → p.c = true) := by
  unfold delete
  rw [getOwn_get h]
  cases hk : get o k with
  | none =>
    exact ⟨o, true, rfl, OEff.refl h, Same.refl _, .same, fun _ _ => rfl, fun _ => hk, by simp, by simp⟩
  | some p =>
    simp only [Option.map_some]
    have hdc : (descOf p).c = p.c := by unfold descOf; split <;> rfl
    rw [hdc]
    cases hc : p.c with
    | true =>
      obtain ⟨o', h1, h2, h3⟩ := propDelete_spec h (k := k) (by simp [hk])
      simp only [h1, if_true]
      refine ⟨o', true, rfl, OEff.of h2 (by rw [hk]; exact hc), h2.same, ?_, ?_, ?_, by simp, ?_⟩
      · rw [h3]
        cases k with
        | idx i => exact .same
        | name n => exact .del n
      · intro k' e; rw [h2.get]; simp [upk, e]
      · intro _; rw [h2.get]; simp [upk]
      · simp [hc]
    | false =>
      exact ⟨o, false, rfl, OEff.refl h, Same.refl _, .same, fun _ _ => rfl, by simp, fun _ => rfl, by simp [hc]⟩

/-! ### Arrays -/

/-- The property "length". -/
def lenProp (w : Bool) (n : Nat) : P := ⟨w, false, false, .data (.num n)⟩

/-- An array with the length `n`. -/
structure Arr (o : Obj) (w : Bool) (n : Nat) : Prop where
  len : get o lengthKey = some (lenProp w n)
  lt : n < 2 ^ 32
  le : ∀ i, get o (.idx i) ≠ none → i.val < n

/-- Every array has a length. -/
def ArrGood (o : Obj) : Prop := o.arr = true → ∃ w n, Arr o w n

theorem oldLength_arr {o : Obj} (h : Good o) {w : Bool} {n : Nat} (ha : Arr o w n) :
    oldLength o = some (n, descOf (lenProp w n)) := by
  unfold oldLength
  rw [getOwn_get h, ha.len]
  have := ha.lt
  simp [descOf, lenProp]
  omega

/-- The length is set to another number. -/
theorem define_len {o : Obj} (h : Good o) {n : Nat} (hl : get o lengthKey = some (lenProp true n))
    {d : Desc} (h1 : isAcc d = false) (h2 : d.hasC = true → d.c = false)
    (h3 : d.hasE = true → d.e = false) (h4 : noFlags d = false) :
    ∃ o', defineOrdinary o lengthKey d = some (o', true) ∧ names o' = names o ∧
      Eff o o' lengthKey (some ⟨if d.hasW then d.w else true, false, false,
        .data (if d.hasV then d.value else .num n)⟩) := by
  have hc : check d (descOf (lenProp true n)) = true := by
    simp only [check, descOf, lenProp, h1]
    simp only [Bool.not_false, if_true]
    rw [if_neg (by cases hh : d.hasC <;> simp_all), if_neg (by cases hh : d.hasE <;> simp_all)]
    simp [isAcc]
  have hch : change (lenProp true n) d (descOf (lenProp true n)) =
      ⟨if d.hasW then d.w else true, false, false, .data (if d.hasV then d.value else .num n)⟩ := by
    unfold change
    simp only [descOf, lenProp, h1, isAcc, isData]
    simp only [isAcc] at h1
    cases hC : d.hasC <;> cases hE : d.hasE <;> simp_all
  rcases defineOrdinary_some h hl d with ⟨a, _⟩ | ⟨_, a, _⟩ | ⟨_, _, o1, a, b, c⟩
  · rw [h4] at a; cases a
  · rw [hc] at a; cases a
  · rw [hch] at b
    exact ⟨o1, a, c, b⟩

/-- The elements from an index on are deleted. -/
theorem cut_obj {o : Obj} (h : Good o) (len : Nat) :
    ∃ s last, PropStore.deleteFrom (fun p => p.c) o.store len = some (s, last) ∧
      Good { o with store := s } ∧
      (∀ n, get { o with store := s } (.name n) = get o (.name n)) ∧
      (∀ i, get { o with store := s } (.idx i) =
        if i.val < PropStore.bound len last then get o (.idx i) else none) ∧
      (∀ j, last = some j → len ≤ j ∧ ∃ i p, i.val = j ∧ get o (.idx i) = some p ∧ p.c = false) ∧
      (∀ i p, PropStore.bound len last ≤ i.val → get o (.idx i) = some p → p.c = true) := by
  obtain ⟨m, hm⟩ := h.store
  obtain ⟨s, last, h1, h2, h3, h4⟩ := PropStore.deleteFrom_spec hm (fun p => p.c) len
  have hi : ∀ i, get { o with store := s } (.idx i) =
        if i.val < PropStore.bound len last then get o (.idx i) else none := by
    intro i
    rw [get_idx (o := { o with store := s }) h2, get_idx hm]
    rfl
  refine ⟨s, last, h1, ⟨⟨_, h2⟩, h.nodup, fun k p hp => ?_⟩, fun n => rfl, hi, ?_, ?_⟩
  · cases k with
    | idx i =>
      rw [hi] at hp
      split at hp
      · exact h.wf _ p hp
      · cases hp
    | name n => exact h.wf (.name n) p hp
  · intro j hj
    obtain ⟨a, p, b, c⟩ := h3 j hj
    have hlt := hm.small j (by simp [b])
    exact ⟨a, ⟨j, hlt⟩, p, rfl, by rw [get_idx hm]; exact b, c⟩
  · intro i p a b
    rw [get_idx hm] at b
    exact h4 i p a b

/-- What the deletion from an index on does to an array whose length has been set to `n`. -/
theorem shrink_spec {o : Obj} (h : Good o) {n : Nat} (hn : n < 2 ^ 32)
    (hl : get o lengthKey = some (lenProp true n)) (newWr : Bool) (d : Desc) :
    ∃ o' last, shrink o n newWr d = some (o', .bool last.isNone) ∧ OEff o o' ∧ Same o o' ∧
      names o' = names o ∧ Arr o' newWr (PropStore.bound n last) ∧
      (∀ m, m ≠ .str 0 → get o' (.name m) = get o (.name m)) ∧
      (∀ i, get o' (.idx i) = if i.val < PropStore.bound n last then get o (.idx i) else none) ∧
      (∀ j, last = some j → n ≤ j ∧ ∃ i p, i.val = j ∧ get o (.idx i) = some p ∧ p.c = false) ∧
      (∀ i p, PropStore.bound n last ≤ i.val → get o (.idx i) = some p → p.c = true) := by
  obtain ⟨s, last, h1, h2, h3, h4, h5, h6⟩ := cut_obj h n
  have e1 : OEff o { o with store := s } := by
    refine ⟨h2, id, rfl, fun k => ?_⟩
    cases k with
    | name m => rw [h3]; exact Moves.refl _ _
    | idx i =>
      rw [h4]
      split
      · exact Moves.refl _ _
      · rename_i hb
        cases e : get o (.idx i) with
        | none => trivial
        | some p => exact h6 i p (by omega) e
  have hl' : get { o with store := s } lengthKey = some (lenProp true n) := by
    rw [← hl]; exact h3 _
  have fin : ∀ {o' : Obj} {b : Bool} {L : Nat} {nd : Desc}, Wf nd →
      defineOrdinary { o with store := s } lengthKey nd = some (o', b) →
      get o' lengthKey = some (lenProp newWr L) → L = PropStore.bound n last → L < 2 ^ 32 →
      OEff o o' ∧ Same o o' ∧ names o' = names o ∧ Arr o' newWr (PropStore.bound n last) ∧
      (∀ m, m ≠ .str 0 → get o' (.name m) = get o (.name m)) ∧
      (∀ i, get o' (.idx i) = if i.val < PropStore.bound n last then get o (.idx i) else none) := by
    intro o' b L nd hw hd hlen hL hlt
    obtain ⟨a1, a2, a3, a4, a5, a6⟩ := defineOrdinary_eff h2 hw hd
    have hidx : ∀ i, get o' (.idx i) = if i.val < PropStore.bound n last then get o (.idx i) else none := by
      intro i; rw [a5 _ (by simp [lengthKey]), h4]
    refine ⟨e1.trans a1, Same.trans (b := { o with store := s }) ⟨rfl, rfl, rfl⟩ a2, a4 (Or.inl (by rw [hl']; simp)), ⟨by rw [hlen, hL], by omega, ?_⟩, ?_, hidx⟩
    · intro i hi
      rw [hidx] at hi
      split at hi
      · assumption
      · exact absurd rfl hi
    · intro m hm; rw [a5 _ (by simp [lengthKey, hm]), h3]
  unfold shrink
  rw [h1]
  cases last with
  | some j =>
    obtain ⟨c1, i, p, c2, _⟩ := h5 j rfl
    obtain ⟨o', d1, d2, d3⟩ := define_len h2 hl' (d := { value := .num (j + 1), hasV := true, hasW := !newWr, get := d.get, set := d.set })
      rfl (by simp) (by simp) rfl
    have hget : get o' lengthKey = some (lenProp newWr (j + 1)) := by
      rw [d3.get]
      simp only [upk, if_true, lenProp]
      cases newWr <;> rfl
    obtain ⟨f1, f2, f3, f4, f5, f6⟩ := fin ⟨by simp, by simp, by simp, by simp [isAcc]⟩ d1 hget rfl
      (by have := i.isLt; omega)
    simp only [d1]
    exact ⟨o', some j, rfl, f1, f2, f3, f4, f5, f6, h5, h6⟩
  | none =>
    cases newWr with
    | false =>
      obtain ⟨o', d1, d2, d3⟩ := define_len h2 hl' (d := { hasW := true, value := .num n, get := d.get, set := d.set })
        rfl (by simp) (by simp) rfl
      have hget : get o' lengthKey = some (lenProp false n) := by
        rw [d3.get]; simp [upk, lenProp]
      obtain ⟨f1, f2, f3, f4, f5, f6⟩ := fin ⟨by simp, by simp, by simp, by simp [isAcc]⟩ d1 hget rfl hn
      simp only [d1]
      exact ⟨o', none, rfl, f1, f2, f3, f4, f5, f6, h5, h6⟩
    | true =>
      refine ⟨_, none, rfl, e1, ⟨rfl, rfl, rfl⟩, rfl, ⟨hl', hn, fun i hi => ?_⟩, fun m _ => h3 m, h4, h5, h6⟩
      rw [h4] at hi
      split at hi
      · assumption
      · exact absurd rfl hi

/-- The conversion gives a number below 2^32. -/
theorem toLen_lt {oth : Nat → Option Nat} {v : Val} {n : Nat} (h : toLen oth v = some n) : n < 2 ^ 32 := by
  cases v with
  | undef => cases h
  | num k =>
    simp only [toLen] at h
    split at h
    · cases h; assumption
    · cases h
  | other k =>
    simp only [toLen] at h
    split at h
    · cases h
    · split at h
      · cases h; assumption
      · cases h

/-- A successful definition of "length" with a value. -/
theorem change_len {w : Bool} {n m : Nat} {d : Desc} (hd : Wf d) (hv : d.hasV = true)
    (hc : check d (descOf (lenProp w n)) = true) (hval : d.value = .num m) :
    change (lenProp w n) d (descOf (lenProp w n)) = lenProp (if d.hasW then d.w else w) m := by
  have h1 : isAcc d = false := by
    cases e : isAcc d with
    | false => rfl
    | true => have := hd.one e; simp [isData, hv] at this
  have hC : d.c = false := by
    cases e : d.c with
    | false => rfl
    | true => simp [check, descOf, lenProp, e, hd.c e] at hc
  have hE : d.e = false := by
    cases e : d.e with
    | false => rfl
    | true => simp [check, descOf, lenProp, e, hC, hd.e e] at hc
  unfold change
  simp only [descOf, lenProp, h1, hv, hval]
  simp only [isAcc] at h1
  cases e1 : d.hasC <;> cases e2 : d.hasE <;> simp_all [isAcc]

/-- Taking the bit `WRITABLE` away from a definition which makes "length" not writable. -/
theorem wf_value {d : Desc} (hd : Wf d) (v : Val) : Wf { d with value := v } :=
  ⟨hd.w, hd.e, hd.c, hd.one⟩

theorem check_value {w : Bool} {n : Nat} {d : Desc} {v : Val} (hw : w = true) :
    check { d with value := v } (descOf (lenProp w n)) = check d (descOf (lenProp w n)) := by
  subst hw
  simp [check, descOf, lenProp, isGeneric, isAcc, isData]

/-- `array_set_length` when elements have to be deleted. -/
theorem setLength_cut {oth : Nat → Option Nat} {o : Obj} (h : Good o) {n : Nat} (ha : Arr o true n) {d : Desc}
    (hd : Wf d) (hv : d.hasV = true) {m : Nat} (hm : toLen oth d.value = some m) (hlt : m < n) :
    (check d (descOf (lenProp true n)) = false ∧ setLength oth o d = some (o, .bool false)) ∨
    (check d (descOf (lenProp true n)) = true ∧
    ∃ o' last, setLength oth o d = some (o', .bool last.isNone) ∧ OEff o o' ∧ Same o o' ∧ names o' = names o ∧
      Arr o' (!d.hasW || d.w) (PropStore.bound m last) ∧
      (∀ k, k ≠ .str 0 → get o' (.name k) = get o (.name k)) ∧
      (∀ i, get o' (.idx i) = if i.val < PropStore.bound m last then get o (.idx i) else none) ∧
      (∀ j, last = some j → m ≤ j ∧ ∃ i p, i.val = j ∧ get o (.idx i) = some p ∧ p.c = false) ∧
      (∀ i p, PropStore.bound m last ≤ i.val → get o (.idx i) = some p → p.c = true)) := by
  have hold := oldLength_arr h ha
  -- the descriptor with which the length is set
  let nd : Desc := if (!d.hasW || d.w) = true then { d with value := .num m } else { d with value := .num m, w := true }
  have hnd' : nd = if (!d.hasW || d.w) = true then { d with value := .num m } else { d with value := .num m, w := true } := rfl
  have hnd : nd = { d with value := .num m, w := nd.w } := by
    simp only [nd]; split <;> rfl
  have hndw : nd.hasW = true → nd.w = true := by
    intro hw
    have : d.hasW = true := by rw [hnd] at hw; exact hw
    simp only [nd]
    split
    · rename_i c; simpa [this] using c
    · rfl
  have hwf : Wf nd := by
    refine ⟨fun hw => ?_, ?_, ?_, ?_⟩
    · cases e : d.hasW with
      | true => rw [hnd]; exact e
      | false =>
        exfalso
        have : d.w = false := by
          cases e' : d.w with
          | false => rfl
          | true => have := hd.w e'; rw [e] at this; cases this
        simp [nd, e, this] at hw
    · rw [hnd]; exact hd.e
    · rw [hnd]; exact hd.c
    · rw [hnd]; exact hd.one
  have hck : check nd (descOf (lenProp true n)) = check d (descOf (lenProp true n)) := by
    rw [hnd]
    simp [check, descOf, lenProp, isGeneric, isAcc, isData]
  have hnf : noFlags nd = false := by
    have : nd.hasV = true := by rw [hnd]; exact hv
    simp [noFlags, this]
  have hset : setLength oth o d = match defineOrdinary o lengthKey nd with
          | none => none
          | some (o, false) => some (o, .bool false)
          | some (o, true) => shrink o m (!d.hasW || d.w) nd := by
    clear_value nd
    subst hnd'
    obtain ⟨hasV, hasW, hasE, hasC, hasG, hasS, dw, de, dc, value, dget, dset⟩ := d
    simp only at hv hm
    subst hv
    unfold setLength
    simp only [Bool.not_true, Bool.false_eq_true, if_false, hm, hold]
    rw [if_neg (by omega)]
    rfl
  rw [hset]
  rcases defineOrdinary_some h ha.len nd with ⟨a, _⟩ | ⟨_, a, b⟩ | ⟨_, a, o1, b, c, e⟩
  · rw [hnf] at a; cases a
  · left
    rw [hck] at a
    rw [b]
    exact ⟨a, rfl⟩
  · right
    have hc := change_len hwf (by rw [hnd]; exact hv) a (m := m) (by rw [hnd])
    rw [hck] at a
    refine ⟨a, ?_⟩
    have hw1 : (if nd.hasW then nd.w else true) = true := by
      split
      · rename_i x; exact hndw x
      · rfl
    rw [hw1] at hc
    rw [hc] at c
    have hl1 : get o1 lengthKey = some (lenProp true m) := by rw [c.get]; simp [upk]
    obtain ⟨o', last, s1, s2, s3, s4, s5, s6, s7, s8, s9⟩ := shrink_spec c.good (by have := ha.lt; omega) hl1
      (!d.hasW || d.w) nd
    have hidx : ∀ i, get o1 (.idx i) = get o (.idx i) := by
      intro i; rw [c.get]; simp [upk, lengthKey]
    have hname : ∀ k, k ≠ .str 0 → get o1 (.name k) = get o (.name k) := by
      intro k hk; rw [c.get]; simp [upk, lengthKey, hk]
    have h1 : OEff o o1 := by
      refine OEff.of c ?_
      rw [ha.len]
      intro _
      exact ⟨rfl, rfl, (fun g s e => by cases e), (fun v e => ⟨⟨_, rfl⟩, fun x => by cases x⟩)⟩
    rw [b]
    refine ⟨o', last, s1, h1.trans s2, c.same.trans s3, s4.trans e, s5, fun k hk => (s6 k hk).trans (hname k hk),
      fun i => by rw [s7, hidx], fun j hj => ?_, fun i p hi hp => s9 i p hi (by rw [hidx]; exact hp)⟩
    obtain ⟨x, i, p, y, z, t⟩ := s8 j hj
    exact ⟨x, i, p, y, by rw [← hidx]; exact z, t⟩

/-- `array_set_length` never goes wrong. -/
theorem setLength_eff {oth : Nat → Option Nat} {o : Obj} (h : Good o) {w : Bool} {n : Nat} (ha : Arr o w n) {d : Desc}
    (hd : Wf d) :
    ∃ o' r, setLength oth o d = some (o', r) ∧ OEff o o' ∧ Same o o' ∧ names o' = names o ∧
      (∃ w' n', Arr o' w' n') := by
  have ord : ∀ d' : Desc, Wf d' → (d'.hasV = true → ∃ m, d'.value = .num m ∧ n ≤ m ∧ m < 2 ^ 32) →
      ∃ o' b, defineOrdinary o lengthKey d' = some (o', b) ∧ OEff o o' ∧ Same o o' ∧ names o' = names o ∧
      (∃ w' n', Arr o' w' n') := by
    intro d' hd' hn
    have res : ∀ {o' b}, defineOrdinary o lengthKey d' = some (o', b) → (∃ w' n', Arr o' w' n') →
        ∃ o' b, defineOrdinary o lengthKey d' = some (o', b) ∧ OEff o o' ∧ Same o o' ∧ names o' = names o ∧
      (∃ w' n', Arr o' w' n') := by
      intro o' b e ar
      obtain ⟨a1, a2, a3, a4, a5, a6⟩ := defineOrdinary_eff h hd' e
      exact ⟨o', b, e, a1, a2, a4 (Or.inl (by rw [ha.len]; simp)), ar⟩
    rcases defineOrdinary_some h ha.len d' with ⟨_, b⟩ | ⟨_, _, b⟩ | ⟨_, a, o1, b, c, e⟩
    · exact res b ⟨w, n, ha⟩
    · exact res b ⟨w, n, ha⟩
    · refine res b ?_
      have hidx : ∀ i, get o1 (.idx i) = get o (.idx i) := by
        intro i; rw [c.get]; simp [upk, lengthKey]
      cases hv : d'.hasV with
      | true =>
        obtain ⟨m, h1, h2, h3⟩ := hn hv
        refine ⟨if d'.hasW then d'.w else w, m, ⟨?_, h3, fun i hi => ?_⟩⟩
        · rw [c.get, change_len hd' hv a h1]; simp [upk]
        · rw [hidx] at hi; have := ha.le i hi; omega
      | false =>
        have key : change (lenProp w n) d' (descOf (lenProp w n)) = lenProp (if d'.hasW then d'.w else w) n := by
          have k := check_keep (by intro g s e; cases e) hd' a
          obtain ⟨k1, k2, _, k4⟩ := k rfl
          have hacc : isAcc d' = false := by
            cases e : isAcc d' with
            | false => rfl
            | true =>
              exfalso
              revert a
              simp only [check, descOf, lenProp, isGeneric, e]
              simp [isAcc]
          have k5 : (change (lenProp w n) d' (descOf (lenProp w n))).body = .data (.num n) ∧
              (change (lenProp w n) d' (descOf (lenProp w n))).w = (if d'.hasW then d'.w else w) := by
            unfold change
            simp only [hacc, hv, descOf, lenProp]
            simp only [isAcc, isData, Bool.or_self, Bool.and_false, Bool.false_and]
            cases d'.hasC <;> cases d'.hasE <;> exact ⟨rfl, rfl⟩
          clear k4 c
          revert k1 k2 k5
          generalize change (lenProp w n) d' (descOf (lenProp w n)) = q
          intro k1 k2 k5
          obtain ⟨x1, x2, x3, x4⟩ := q
          simp only [lenProp] at *
          simp [k1, k2, k5.1, k5.2]
        refine ⟨if d'.hasW then d'.w else w, n, ⟨?_, ha.lt, fun i hi => ?_⟩⟩
        · rw [c.get, key]; simp [upk]
        · rw [hidx] at hi; exact ha.le i hi
  cases hv : d.hasV with
  | false =>
    obtain ⟨o', b, e, r⟩ := ord d hd (by simp [hv])
    refine ⟨o', .bool b, ?_, r⟩
    unfold setLength
    simp [hv, e]
  | true =>
    cases hm : toLen oth d.value with
    | none =>
      refine ⟨o, .throw, ?_, OEff.refl h, Same.refl _, rfl, w, n, ha⟩
      unfold setLength
      simp [hv, hm]
    | some m =>
      have hold := oldLength_arr h ha
      by_cases hlt : m < n
      · cases w with
        | false =>
          refine ⟨o, .bool false, ?_, OEff.refl h, Same.refl _, rfl, false, n, ha⟩
          unfold setLength
          simp only [hv, Bool.not_true, Bool.false_eq_true, if_false, hm, hold]
          rw [if_neg (by omega)]
          simp [descOf, lenProp]
        | true =>
          rcases setLength_cut h ha hd hv hm hlt with ⟨_, b⟩ | ⟨_, o', last, a1, a2, a3, a4, a5, _⟩
          · exact ⟨o, _, b, OEff.refl h, Same.refl _, rfl, true, n, ha⟩
          · exact ⟨o', _, a1, a2, a3, a4, _, _, a5⟩
      · obtain ⟨o', b, e, r⟩ := ord { d with value := .num m } (wf_value hd _)
          (fun _ => ⟨m, rfl, by omega, toLen_lt hm⟩)
        refine ⟨o', .bool b, ?_, r⟩
        unfold setLength
        simp only [hv, Bool.not_true, Bool.false_eq_true, if_false, hm, hold]
        simp only [hv] at e
        rw [if_pos (by omega), e]

/-- `array_set_item`. -/
theorem setItem_eff {o o' : Obj} (h : Good o) {w : Bool} {n : Nat} (ha : Arr o w n) {d : Desc}
    (hd : Wf d) {i : Fin (2 ^ 32 - 1)} {r : Ret} (he : setItem o i d = some (o', r)) :
    OEff o o' ∧ Same o o' ∧ names o' = names o ∧ (∃ n', Arr o' w n' ∧ n ≤ n' ∧ (w = false → n' = n)) ∧
      ∃ b, r = .bool b := by
  unfold setItem at he
  rw [oldLength_arr h ha] at he
  simp only at he
  have hdw : (descOf (lenProp w n)).w = w := rfl
  rw [hdw] at he
  split at he
  · simp only [Option.some.injEq, Prod.mk.injEq] at he
    obtain ⟨rfl, rfl⟩ := he
    exact ⟨OEff.refl h, Same.refl _, rfl, ⟨n, ha, Nat.le_refl _, fun _ => rfl⟩, _, rfl⟩
  · rename_i hc
    split at he
    · cases he
    · rename_i o1 e1
      simp only [Option.some.injEq, Prod.mk.injEq] at he
      obtain ⟨rfl, rfl⟩ := he
      obtain ⟨a1, a2, a3, a4, a5, a6⟩ := defineOrdinary_eff h hd e1
      have := a6 rfl
      subst this
      exact ⟨OEff.refl h, Same.refl _, rfl, ⟨n, ha, Nat.le_refl _, fun _ => rfl⟩, _, rfl⟩
    · rename_i o1 e1
      obtain ⟨a1, a2, a3, a4, a5, a6⟩ := defineOrdinary_eff h hd e1
      have hl1 : get o1 lengthKey = some (lenProp w n) := by
        rw [a5 _ (by simp [lengthKey])]; exact ha.len
      have hname : names o1 = names o := a4 (Or.inr (Or.inl ⟨i, rfl⟩))
      split at he
      · rename_i hge
        have hw : w = true := by
          cases w with
          | true => rfl
          | false => exact absurd ⟨hge, rfl⟩ hc
        subst hw
        have hwf : Wf { descOf (lenProp true n) with value := .num (i.val + 1) } :=
          ⟨fun _ => rfl, fun _ => rfl, fun _ => rfl, fun x => by cases x⟩
        obtain ⟨o2, d1, d2, d3⟩ := define_len a1.good hl1
          (d := { descOf (lenProp true n) with value := .num (i.val + 1) }) rfl (fun _ => rfl) (fun _ => rfl) rfl
        erw [d1] at he
        simp only [Option.some.injEq, Prod.mk.injEq] at he
        obtain ⟨rfl, rfl⟩ := he
        obtain ⟨b1, b2, b3, b4, b5, b6⟩ := defineOrdinary_eff a1.good hwf d1
        refine ⟨a1.trans b1, a2.trans b2, d2.trans hname, ⟨i.val + 1, ⟨?_, ?_, ?_⟩, by omega, by simp⟩, _, rfl⟩
        · rw [d3.get]; simp [upk, lenProp, descOf]
        · have := i.isLt; omega
        · intro j hj
          rw [b5 _ (by simp [lengthKey])] at hj
          by_cases e : j = i
          · subst e; omega
          · rw [a5 _ (by simp [e])] at hj
            have := ha.le j hj; omega
      · rename_i hlt
        simp only [Option.some.injEq, Prod.mk.injEq] at he
        obtain ⟨rfl, rfl⟩ := he
        refine ⟨a1, a2, hname, ⟨n, ⟨hl1, ha.lt, fun j hj => ?_⟩, Nat.le_refl _, fun _ => rfl⟩, _, rfl⟩
        by_cases e : j = i
        · subst e; omega
        · rw [a5 _ (by simp [e])] at hj; exact ha.le j hj

/-- A definition which does not touch "length" or the elements of an array. -/
theorem arr_of_eq {o o' : Obj} (h1 : get o' lengthKey = get o lengthKey)
    (h2 : ∀ i, get o' (.idx i) ≠ none → get o (.idx i) ≠ none) {w : Bool} {n : Nat} (ha : Arr o w n) : Arr o' w n :=
  ⟨h1.trans ha.len, ha.lt, fun i hi => ha.le i (h2 i hi)⟩

/-- `rjs_object_define_own_property`. -/
theorem define_eff {oth : Nat → Option Nat} {o o' : Obj} (h : Good o) (ha : ArrGood o) {k : Key} {d : Desc}
    (hd : Wf d) {r : Ret} (he : define oth o k d = some (o', r)) :
    OEff o o' ∧ Same o o' ∧ NStep (names o) (names o') ∧ (get o k ≠ none ∨ o.ext = false → names o' = names o) ∧ ArrGood o' := by
  have ord : ∀ {x b}, (o.arr = true → ∃ n, k = .name n ∧ n ≠ .str 0) → defineOrdinary o k d = some (x, b) →
      OEff o x ∧ Same o x ∧ NStep (names o) (names x) ∧ (get o k ≠ none ∨ o.ext = false → names x = names o) ∧ ArrGood x := by
    intro x b hk e
    obtain ⟨a1, a2, a3, a4, a5, a6⟩ := defineOrdinary_eff h hd e
    refine ⟨a1, a2, a3, fun c => a4 (c.elim Or.inl fun c => Or.inr (Or.inr c)), fun hx => ?_⟩
    rw [a2.arr] at hx
    obtain ⟨n, rfl, hn⟩ := hk hx
    obtain ⟨w, L, hL⟩ := ha hx
    exact ⟨w, L, arr_of_eq (a5 _ (by simp [lengthKey]; exact fun e => hn e.symm)) (fun i hi => by
      rw [a5 _ (by simp)] at hi; exact hi) hL⟩
  unfold define at he
  cases har : o.arr with
  | false =>
    rw [har, if_neg (by simp)] at he
    split at he
    · cases he
    · rename_i x b e
      simp only [Option.some.injEq, Prod.mk.injEq] at he
      obtain ⟨rfl, rfl⟩ := he
      exact ord (fun c => by rw [har] at c; cases c) e
  | true =>
    obtain ⟨w, L, hL⟩ := ha har
    rw [har, if_pos rfl] at he
    cases k with
    | idx i =>
      simp only at he
      obtain ⟨a1, a2, a3, ⟨n', a4, _⟩, _⟩ := setItem_eff h hL hd he
      exact ⟨a1, a2, by rw [a3]; exact .same, fun _ => a3, fun _ => ⟨w, n', a4⟩⟩
    | name n =>
      simp only at he
      split at he
      · rename_i hn
        obtain ⟨x, r', a0, a1, a2, a3, w', n', a4⟩ := setLength_eff (oth := oth) h hL hd
        rw [a0] at he
        simp only [Option.some.injEq, Prod.mk.injEq] at he
        obtain ⟨rfl, rfl⟩ := he
        exact ⟨a1, a2, by rw [a3]; exact .same, fun _ => a3, fun _ => ⟨w', n', a4⟩⟩
      · rename_i hn
        split at he
        · cases he
        · rename_i x b e
          simp only [Option.some.injEq, Prod.mk.injEq] at he
          obtain ⟨rfl, rfl⟩ := he
          exact ord (fun _ => ⟨n, rfl, hn⟩) e

/-- The descriptor with the fields of a JavaScript object. -/
def ofFields (f : Fields) : Desc where
  hasV := f.value.isSome
  hasW := f.writable.isSome
  hasE := f.enumerable.isSome
  hasC := f.configurable.isSome
  hasG := f.get.isSome
  hasS := f.set.isSome
  w := f.writable.getD false
  e := f.enumerable.getD false
  c := f.configurable.getD false
  value := f.value.getD .undef
  get := f.get.getD .undef
  set := f.set.getD .undef

/-- The fields are those of a descriptor. -/
def fieldsOk (callable : Val → Bool) (f : Fields) : Bool :=
  f.get.all (fun v => callable v || v == .undef) && f.set.all (fun v => callable v || v == .undef) &&
    !((f.get.isSome || f.set.isSome) && (f.value.isSome || f.writable.isSome))

theorem toDesc_eq (callable : Val → Bool) (f : Fields) :
    toDesc callable f = if fieldsOk callable f then some (ofFields f) else none := by
  obtain ⟨e, c, v, w, g, s⟩ := f
  have e0 : ∀ x : Val, (callable x || x == Val.undef) = !(!callable x && x != Val.undef) := by
    intro x
    cases callable x <;> simp [bne]
  rcases e with _ | (_ | _) <;> rcases c with _ | (_ | _) <;> rcases w with _ | (_ | _) <;>
    cases v <;> cases g <;> cases s <;>
    simp only [toDesc, fieldsOk, ofFields, e0, Option.all_some, Option.all_none, Option.isSome_some, Option.isSome_none,
      Option.getD_some, Option.getD_none, Bool.false_and, Bool.true_and, Bool.and_true, Bool.and_false, Bool.or_true, Bool.or_false,
      Bool.true_or, Bool.false_or, Bool.not_true, Bool.not_false, Bool.false_eq_true, if_true, if_false, Bool.and_self, Bool.or_self] <;>
    grind

/-- A descriptor made by `rjs_to_property_descriptor` is well formed. -/
theorem toDesc_wf {callable : Val → Bool} {f : Fields} {d : Desc} (h : toDesc callable f = some d) : Wf d := by
  rw [toDesc_eq] at h
  split at h
  · rename_i hk
    cases h
    obtain ⟨e, c, v, w, g, s⟩ := f
    simp only [fieldsOk, Bool.and_eq_true, Bool.not_eq_true', Bool.and_eq_false_iff] at hk
    refine ⟨?_, ?_, ?_, ?_⟩
    · cases w <;> simp [ofFields]
    · cases e <;> simp [ofFields]
    · cases c <;> simp [ofFields]
    · have := hk.2
      simp only [isAcc, isData, ofFields]
      intro h
      rcases this with c | c
      · rw [h] at c; cases c
      · rw [Bool.or_comm]; exact c
  · cases h

/-! ### Keys -/

theorem ownKeys_spec {o : Obj} (h : Good o) :
    ∃ l : List (Fin (2 ^ 32 - 1)), ownKeys o = some (l.map .idx ++ ((strNames o.named).map .name ++ (symNames o.named).map .name)) ∧
      l.Pairwise (· < ·) ∧ ∀ i, i ∈ l ↔ get o (.idx i) ≠ none := by
  obtain ⟨m, hm⟩ := h.store
  obtain ⟨l, h1, h2, h3⟩ := PropStore.keys_spec hm
  have hlt : ∀ i ∈ l, i < 2 ^ 32 - 1 := fun i hi => hm.small i ((h3 i).1 hi)
  refine ⟨l.pmap (fun i hi => (⟨i, hi⟩ : Fin (2 ^ 32 - 1))) hlt, ?_, ?_, fun i => ?_⟩
  · unfold ownKeys
    rw [h1]
    simp only [List.map_pmap]
    congr 2
    rw [← List.pmap_eq_map (p := fun i => i < 2 ^ 32 - 1) (H := hlt)]
    refine List.pmap_congr_left l fun i _ hi _ => ?_
    simp only [idxKey, Key.idx.injEq]
    exact Fin.ext (Nat.mod_eq_of_lt hi)
  · rw [List.pairwise_pmap]
    exact h2.imp (fun h _ _ => h)
  · rw [List.mem_pmap]
    constructor
    · rintro ⟨a, ha, rfl⟩
      rw [get_idx hm]; exact (h3 a).1 ha
    · intro hi
      rw [get_idx hm] at hi
      exact ⟨i.val, (h3 _).2 hi, rfl⟩

theorem strNames_mem (o : Obj) (n : Name) : n ∈ strNames o.named ++ symNames o.named ↔ n ∈ names o := by
  simp only [strNames, symNames, List.mem_append, List.mem_filter, names]
  cases n <;> simp

theorem ownKeys_mem {o : Obj} (h : Good o) : ∃ ks, ownKeys o = some ks ∧ ∀ k, k ∈ ks ↔ get o k ≠ none := by
  obtain ⟨l, h1, h2, h3⟩ := ownKeys_spec h
  refine ⟨_, h1, fun k => ?_⟩
  rw [← List.map_append]
  simp only [List.mem_append, List.mem_map]
  cases k with
  | idx i =>
    rw [← h3]
    constructor
    · rintro (⟨a, ha, e⟩ | ⟨a, _, e⟩)
      · cases e; exact ha
      · cases e
    · exact fun hi => Or.inl ⟨i, hi, rfl⟩
  | name n =>
    rw [← names_mem, ← strNames_mem]
    constructor
    · rintro (⟨a, ha, e⟩ | ⟨a, ha, e⟩)
      · cases e
      · cases e; simpa using ha
    · exact fun hi => Or.inr ⟨n, by simpa using hi, rfl⟩

/-! ### Integrity levels -/

/-- A property after `seal` or `freeze`. -/
def levelP (frozen : Bool) (p : P) : P := { p with c := false, w := if frozen then false else p.w }

theorem levelDesc_wf (fr : Bool) (d : Desc) : Wf (levelDesc fr d) := by
  unfold levelDesc
  split
  · split
    · exact ⟨by simp, by simp, by simp, by simp [isAcc]⟩
    · exact ⟨by simp, by simp, by simp, by simp [isAcc]⟩
  · exact ⟨by simp, by simp, by simp, by simp [isAcc]⟩

theorem defineOrdinary_level {o : Obj} (h : Good o) {k : Key} {p : P} (hk : get o k = some p) (fr : Bool) :
    ∃ o', defineOrdinary o k (levelDesc fr (descOf p)) = some (o', true) ∧ Eff o o' k (some (levelP fr p)) ∧
      names o' = names o := by
  have hw := h.wf k p hk
  have hc : check (levelDesc fr (descOf p)) (descOf p) = true ∧ noFlags (levelDesc fr (descOf p)) = false ∧
      change p (levelDesc fr (descOf p)) (descOf p) = levelP fr p := by
    obtain ⟨w, e, c, body⟩ := p
    cases body with
    | data v => cases fr <;> cases w <;> cases e <;> cases c <;> exact ⟨rfl, rfl, rfl⟩
    | acc g s =>
      have : w = false := hw g s rfl
      subst this
      cases fr <;> cases e <;> cases c <;> exact ⟨rfl, rfl, rfl⟩
  rcases defineOrdinary_some h hk (levelDesc fr (descOf p)) with ⟨a, _⟩ | ⟨_, a, _⟩ | ⟨_, _, o', a, b, c⟩
  · rw [hc.2.1] at a; cases a
  · rw [hc.1] at a; cases a
  · rw [hc.2.2] at b
    exact ⟨o', a, b, c⟩

theorem levelDesc_hasV (fr : Bool) (d : Desc) : (levelDesc fr d).hasV = false := by
  unfold levelDesc
  split
  · split <;> rfl
  · rfl

theorem define_level {oth : Nat → Option Nat} {o : Obj} (h : Good o) (ha : ArrGood o) {k : Key} {p : P}
    (hk : get o k = some p) (fr : Bool) :
    ∃ o', define oth o k (levelDesc fr (descOf p)) = some (o', .bool true) ∧
      Eff o o' k (some (levelP fr p)) := by
  obtain ⟨o', h1, h2, h3⟩ := defineOrdinary_level h hk fr
  refine ⟨o', ?_, h2⟩
  unfold define
  cases har : o.arr with
  | false => rw [if_neg (by simp), h1]
  | true =>
    rw [if_pos rfl]
    obtain ⟨w, L, hL⟩ := ha har
    cases k with
    | idx i =>
      have := hL.le i (by simp [hk])
      simp only [setItem, oldLength_arr h hL]
      rw [if_neg (by omega), h1]
      simp only
      rw [if_neg (by omega)]
    | name n =>
      simp only
      split
      · rename_i hn
        subst hn
        unfold setLength
        rw [levelDesc_hasV]
        simp only [Bool.not_false, if_true]
        rw [show lengthKey = Key.name (.str 0) from rfl, h1]
      · rw [h1]

/-- The loop makes the properties with the keys in the list safe and leaves the others as they
are. -/
theorem levelLoop_spec {oth : Nat → Option Nat} {fr : Bool} : ∀ (ks : List Key) (o : Obj), Good o → ArrGood o →
    o.ext = false → (∀ k ∈ ks, get o k ≠ none) →
    ∃ o', levelLoop oth fr ks o = some (o', .bool true) ∧ OEff o o' ∧ Same o o' ∧ names o' = names o ∧ ArrGood o' ∧
      (∀ k, get o' k = if k ∈ ks then (get o k).map (levelP fr) else get o k)
  | [], o, h, ha, _, _ => ⟨o, rfl, OEff.refl h, Same.refl _, rfl, ha, by simp⟩
  | k :: ks, o, h, ha, he, hks => by
    obtain ⟨p, hp⟩ := Option.ne_none_iff_exists'.1 (hks k (by simp))
    obtain ⟨o1, h1, h2⟩ := define_level (oth := oth) h ha hp fr
    obtain ⟨d1, d2, d3, d4, d5⟩ := define_eff h ha (levelDesc_wf fr _) h1
    obtain ⟨o', e1, e2, e3, e4, e5, e6⟩ := levelLoop_spec (oth := oth) (fr := fr) ks o1 d1.good d5 (by rw [d2.ext]; exact he)
      (fun k' hk' => by
        rw [h2.get]
        simp only [upk]
        split
        · simp
        · exact hks k' (by simp [hk']))
    refine ⟨o', ?_, d1.trans e2, d2.trans e3, e4.trans (d4 (Or.inr he)), e5, fun k' => ?_⟩
    · unfold levelLoop
      rw [getOwn_get h, hp]
      simp only [Option.map_some, Option.isNone_some, Bool.and_false, Bool.false_eq_true, if_false, Option.getD_some, h1]
      exact e1
    · rw [e6, h2.get]
      simp only [upk, List.mem_cons]
      have hidem : levelP fr (levelP fr p) = levelP fr p := by
        cases fr <;> rfl
      by_cases c : k' = k
      · subst c
        simp only [if_true, true_or, hp, Option.map_some, hidem]
        split <;> rfl
      · simp only [c, if_false, false_or]

/-- `Object.seal` and `Object.freeze` succeed. -/
theorem setIntegrity_spec {oth : Nat → Option Nat} {o : Obj} (h : Good o) (ha : ArrGood o) (fr : Bool) :
    ∃ o', setIntegrity oth fr o = some (o', .bool true) ∧ OEff o o' ∧ names o' = names o ∧ ArrGood o' ∧
      o'.ext = false ∧ o'.proto = o.proto ∧ ∀ k, get o' k = (get o k).map (levelP fr) := by
  have hg : Good { o with ext := false } := ⟨h.store, h.nodup, h.wf⟩
  have hget : ∀ k, get { o with ext := false } k = get o k := fun _ => rfl
  have ha' : ArrGood { o with ext := false } := fun hh => by
    obtain ⟨w, n, hn⟩ := ha hh
    exact ⟨w, n, hn.len, hn.lt, hn.le⟩
  have e0 : OEff o { o with ext := false } := ⟨hg, by simp, rfl, fun k => Moves.refl _ _⟩
  obtain ⟨ks, h1, h2⟩ := ownKeys_mem hg
  obtain ⟨o', e1, e2, e3, e4, e5, e6⟩ := levelLoop_spec (oth := oth) (fr := fr) ks _ hg ha' rfl (fun k hk => (h2 k).1 hk)
  refine ⟨o', ?_, e0.trans e2, e4, e5, e3.ext, e3.proto, fun k => ?_⟩
  · unfold setIntegrity
    simp only [h1]
    exact e1
  · rw [e6]
    split
    · rfl
    · rename_i hk
      rw [h2] at hk
      simp only [ne_eq, Classical.not_not] at hk
      rw [hk]
      rw [hget] at hk
      rw [hk]; rfl

/-- A property of a sealed or frozen object. -/
def SafeP (frozen : Bool) (p : P) : Prop := p.c = false ∧ (frozen = true → ∀ v, p.body = .data v → p.w = false)

theorem testLoop_spec {fr : Bool} {o : Obj} (h : Good o) : ∀ ks : List Key,
    ∃ b, testLoop fr o ks = some b ∧ (b = true ↔ ∀ k ∈ ks, ∀ p, get o k = some p → SafeP fr p)
  | [] => ⟨true, rfl, by simp⟩
  | k :: ks => by
    obtain ⟨b, h1, h2⟩ := testLoop_spec (fr := fr) h ks
    unfold testLoop
    rw [getOwn_get h]
    cases hp : get o k with
    | none =>
      refine ⟨b, h1, ?_⟩
      rw [h2]
      simp [hp]
    | some p =>
      simp only [Option.map_some]
      have hdc : (descOf p).c = p.c := by unfold descOf; split <;> rfl
      rw [hdc]
      cases hc : p.c with
      | true =>
        refine ⟨false, rfl, ?_⟩
        simp [hp, SafeP, hc]
      | false =>
        simp only [Bool.false_eq_true, if_false]
        have key : (fr && isData (descOf p) && (descOf p).w) = true ↔ ¬ SafeP fr p := by
          obtain ⟨w, e, c, body⟩ := p
          simp only at hc
          subst hc
          cases body with
          | data v => cases fr <;> cases w <;> simp [SafeP, descOf, isData]
          | acc g s => cases fr <;> simp [SafeP, descOf, isData]
        split
        · rename_i hk
          refine ⟨false, rfl, ?_⟩
          simp [hp, key.1 hk]
        · rename_i hk
          refine ⟨b, h1, ?_⟩
          rw [h2]
          have : SafeP fr p := Classical.not_not.1 (fun c => hk (key.2 c))
          simp [hp, this]

theorem testIntegrity_spec {o : Obj} (h : Good o) (fr : Bool) :
    ∃ b, testIntegrity fr o = some b ∧ (b = true ↔ o.ext = false ∧ ∀ k p, get o k = some p → SafeP fr p) := by
  unfold testIntegrity
  cases he : o.ext with
  | true => exact ⟨false, rfl, by simp⟩
  | false =>
    obtain ⟨ks, h1, h2⟩ := ownKeys_mem h
    obtain ⟨b, h3, h4⟩ := testLoop_spec (fr := fr) h ks
    rw [h1]
    refine ⟨b, h3, ?_⟩
    rw [h4]
    simp only [true_and]
    exact ⟨fun c k p hp => c k ((h2 k).2 (by simp [hp])) p hp, fun c k _ p hp => c k p hp⟩

end Verif.Obj

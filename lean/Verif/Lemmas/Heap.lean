import Verif.Lemmas.Object

/-!
Many objects: the chains of prototypes end, and every operation keeps what it must
(`step_eff`, `run_eff`).
-/

namespace Verif.Obj

/-- The chain of prototypes from `x` is `l`. -/
inductive Chain (h : Heap) : Option Nat → List Nat → Prop
  | nil : Chain h none []
  | cons {i : Nat} {o : Obj} {l : List Nat} (hi : h[i]? = some o) (t : Chain h o.proto l) : Chain h (some i) (i :: l)

theorem Chain.unique {h : Heap} {x : Option Nat} {l : List Nat} (c : Chain h x l) :
    ∀ {l'}, Chain h x l' → l = l' := by
  induction c with
  | nil => intro l' c'; cases c'; rfl
  | cons hi t ih =>
    intro l' c'
    cases c' with
    | cons hi' t' =>
      rw [hi] at hi'
      cases hi'
      rw [ih t']

theorem Chain.suffix {h : Heap} {x : Option Nat} {l : List Nat} (c : Chain h x l) :
    ∀ i ∈ l, ∃ l', Chain h (some i) l' ∧ l'.length ≤ l.length := by
  induction c with
  | nil => simp
  | cons hi t ih =>
    intro i hm
    rw [List.mem_cons] at hm
    rcases hm with rfl | hm
    · exact ⟨_, Chain.cons hi t, Nat.le_refl _⟩
    · obtain ⟨l', a, b⟩ := ih i hm
      exact ⟨l', a, by simp only [List.length_cons]; omega⟩

theorem Chain.nodup {h : Heap} {x : Option Nat} {l : List Nat} (c : Chain h x l) : l.Nodup := by
  induction c with
  | nil => simp
  | cons hi t ih =>
    rw [List.nodup_cons]
    refine ⟨fun hm => ?_, ih⟩
    obtain ⟨l', a, b⟩ := t.suffix _ hm
    rw [a.unique (Chain.cons hi t)] at b
    simp only [List.length_cons] at b
    omega

theorem Chain.lt {h : Heap} {x : Option Nat} {l : List Nat} (c : Chain h x l) : ∀ i ∈ l, i < h.length := by
  induction c with
  | nil => simp
  | cons hi t ih =>
    intro i hm
    rw [List.mem_cons] at hm
    rcases hm with rfl | hm
    · exact (List.getElem?_eq_some_iff.1 hi).1
    · exact ih i hm

theorem Chain.length_le {h : Heap} {x : Option Nat} {l : List Nat} (c : Chain h x l) : l.length ≤ h.length :=
  PropStore.nodup_le _ _ c.nodup c.lt

def Ends (h : Heap) (x : Option Nat) : Prop := ∃ l, Chain h x l

theorem hits_chain {h : Heap} {v : Nat} {x : Option Nat} {l : List Nat} (c : Chain h x l) :
    ∀ f, l.length ≤ f → hits h v f x = some (decide (v ∈ l)) := by
  induction c with
  | nil => intro f _; cases f <;> simp [hits]
  | @cons i o l hi t ih =>
    intro f hf
    cases f with
    | zero => simp at hf
    | succ f =>
      simp only [List.length_cons] at hf
      unfold hits
      by_cases e : i = v
      · rw [if_pos e]; simp [e]
      · rw [if_neg e, hi]
        simp only
        rw [ih f (by omega)]
        have : ¬ v = i := fun c => e c.symm
        simp [this]

/-- What holds of the heap at all times. -/
structure HInv (h : Heap) : Prop where
  good : ∀ (id : Nat) (o : Obj), h[id]? = some o → Good o ∧ ArrGood o
  ends : ∀ id, id < h.length → Ends h (some id)

/-- What can happen to the objects in one step. -/
def HEff (h h' : Heap) : Prop :=
  ∀ (id : Nat) (o : Obj), h[id]? = some o → ∃ o', h'[id]? = some o' ∧ OEff o o' ∧
    NStep (names o) (names o') ∧ (o.ext = false → o'.proto = o.proto)

theorem hinv_nil : HInv [] := ⟨by simp, by simp⟩

theorem heff_refl {h : Heap} (hi : HInv h) : HEff h h := fun id o ho =>
  ⟨o, ho, OEff.refl (hi.good id o ho).1, .same, fun _ => rfl⟩

theorem chain_mono {h h' : Heap} (hp : ∀ (id : Nat) (o : Obj), h[id]? = some o → ∃ o', h'[id]? = some o' ∧ o'.proto = o.proto)
    {x : Option Nat} {l : List Nat} (c : Chain h x l) : Chain h' x l := by
  induction c with
  | nil => exact .nil
  | cons hi t ih =>
    obtain ⟨o', a, b⟩ := hp _ _ hi
    exact .cons a (by rw [b]; exact ih)

theorem HInv.endsAll {h : Heap} (hi : HInv h) {x : Option Nat} (hx : x.all (· < h.length) = true) : Ends h x := by
  cases x with
  | none => exact ⟨[], .nil⟩
  | some i => exact hi.ends i (by simpa using hx)

/-- An object changes, not its prototype. -/
theorem heap_set {h : Heap} (hi : HInv h) {v : Nat} {o o' : Obj} (ho : h[v]? = some o) (he : OEff o o')
    (hn : NStep (names o) (names o')) (ha : ArrGood o') (hp : o'.proto = o.proto) :
    HInv (h.set v o') ∧ HEff h (h.set v o') := by
  have hv : v < h.length := (List.getElem?_eq_some_iff.1 ho).1
  have hget : ∀ id, (h.set v o')[id]? = if v = id then some o' else h[id]? := by
    intro id
    rw [List.getElem?_set]
    by_cases c : v = id
    · subst c; rw [if_pos rfl, if_pos hv, if_pos rfl]
    · rw [if_neg c, if_neg c]
  refine ⟨⟨fun id x hx => ?_, fun id hid => ?_⟩, fun id x hx => ?_⟩
  · rw [hget] at hx
    split at hx
    · cases hx; exact ⟨he.good, ha⟩
    · exact hi.good id x hx
  · obtain ⟨l, hl⟩ := hi.ends id (by simpa using hid)
    refine ⟨l, chain_mono (fun id x hx => ?_) hl⟩
    rw [hget]
    by_cases c : v = id
    · subst c
      rw [ho] at hx; cases hx
      exact ⟨o', by simp, hp⟩
    · exact ⟨x, by simp [c, hx], rfl⟩
  · rw [hget]
    by_cases c : v = id
    · subst c
      rw [ho] at hx; cases hx
      exact ⟨o', by simp, he, hn, fun _ => hp⟩
    · exact ⟨x, by simp [c, hx], OEff.refl (hi.good id x hx).1, .same, fun _ => rfl⟩

theorem heap_add {h : Heap} (hi : HInv h) {o : Obj} (hg : Good o) (ha : ArrGood o)
    (hp : o.proto.all (· < h.length) = true) : HInv (h ++ [o]) ∧ HEff h (h ++ [o]) := by
  have hold : ∀ (id : Nat) (x : Obj), h[id]? = some x → (h ++ [o])[id]? = some x := by
    intro id x hx
    rw [List.getElem?_append_left (List.getElem?_eq_some_iff.1 hx).1]
    exact hx
  have hmono : ∀ {x l}, Chain h x l → Chain (h ++ [o]) x l :=
    fun c => chain_mono (fun id x hx => ⟨x, hold id x hx, rfl⟩) c
  refine ⟨⟨fun id x hx => ?_, fun id hid => ?_⟩, fun id x hx =>
    ⟨x, hold id x hx, OEff.refl (hi.good id x hx).1, .same, fun _ => rfl⟩⟩
  · by_cases c : id < h.length
    · rw [List.getElem?_append_left c] at hx
      exact hi.good id x hx
    · rw [List.getElem?_append_right (by omega)] at hx
      have : x = o := by
        cases hk : id - h.length with
        | zero => rw [hk] at hx; simpa using hx.symm
        | succ n => rw [hk] at hx; simp at hx
      subst this
      exact ⟨hg, ha⟩
  · by_cases c : id < h.length
    · obtain ⟨l, hl⟩ := hi.ends id c
      exact ⟨l, hmono hl⟩
    · have : id = h.length := by simp at hid; omega
      subst this
      obtain ⟨l, hl⟩ := hi.endsAll hp
      exact ⟨_, .cons (o := o) (by simp) (hmono hl)⟩

theorem get_set {h : Heap} {v : Nat} {o : Obj} (ho : h[v]? = some o) (o' : Obj) (id : Nat) :
    (h.set v o')[id]? = if v = id then some o' else h[id]? := by
  have hv : v < h.length := (List.getElem?_eq_some_iff.1 ho).1
  rw [List.getElem?_set]
  by_cases c : v = id
  · subst c; rw [if_pos rfl, if_pos hv, if_pos rfl]
  · rw [if_neg c, if_neg c]

theorem chain_off {h : Heap} {v : Nat} {o : Obj} (ho : h[v]? = some o) (o' : Obj) {x : Option Nat} {l : List Nat}
    (c : Chain h x l) : v ∉ l → Chain (h.set v o') x l := by
  induction c with
  | nil => intro _; exact .nil
  | @cons i x l hi t ih =>
    intro hne
    rw [List.mem_cons, not_or] at hne
    exact .cons (o := x) (by rw [get_set ho, if_neg hne.1]; exact hi) (ih hne.2)

theorem ends_set {h : Heap} {v : Nat} {o : Obj} (ho : h[v]? = some o) (o' : Obj) {l0 : List Nat}
    (c0 : Chain h o'.proto l0) (hv : v ∉ l0) {x : Option Nat} {l : List Nat}
    (c : Chain h x l) : Ends (h.set v o') x := by
  induction c with
  | nil => exact ⟨_, .nil⟩
  | @cons i x l hi t ih =>
    by_cases e : v = i
    · subst e
      exact ⟨_, .cons (o := o') (by rw [get_set ho, if_pos rfl]) (chain_off ho o' c0 hv)⟩
    · obtain ⟨l', hl'⟩ := ih
      exact ⟨_, .cons (o := x) (by rw [get_set ho, if_neg e]; exact hi) hl'⟩

theorem setProto_spec {h : Heap} (hi : HInv h) {v : Nat} {o : Obj} (ho : h[v]? = some o) {p : Option Nat}
    (hp : p.all (· < h.length) = true) :
    ∃ h' b, setProto h v p = some (h', .bool b) ∧ HInv h' ∧ HEff h h' ∧
      (b = false → h' = h) ∧ (b = true → h' = h.set v { o with proto := p }) ∧
      (b = true ↔ o.proto = p ∨ (o.ext = true ∧ ∀ l, Chain h p l → v ∉ l)) := by
  obtain ⟨l, hl⟩ := hi.endsAll hp
  unfold setProto
  rw [ho]
  simp only
  by_cases c1 : o.proto = p
  · rw [if_pos c1]
    refine ⟨h, true, rfl, hi, heff_refl hi, by simp, fun _ => ?_, by simp [c1]⟩
    rw [show ({ o with proto := p } : Obj) = o by rw [← c1]]
    apply List.ext_getElem?
    intro i
    rw [get_set ho]
    split
    · rename_i e; subst e; exact ho
    · rfl
  · rw [if_neg c1]
    by_cases c2 : o.ext = true
    · rw [if_neg (by simp [c2])]
      rw [hits_chain hl _ (by have := hl.length_le; omega)]
      by_cases c3 : v ∈ l
      · rw [decide_eq_true c3]
        refine ⟨h, false, rfl, hi, heff_refl hi, by simp, by simp, ?_⟩
        simp only [Bool.false_eq_true, false_iff, not_or, not_and]
        exact ⟨c1, fun _ g => g l hl c3⟩
      · rw [decide_eq_false c3]
        obtain ⟨g1, g2⟩ := hi.good v o ho
        have g3 : Good { o with proto := p } := ⟨g1.store, g1.nodup, g1.wf⟩
        refine ⟨_, true, rfl, ⟨fun id x hx => ?_, fun id hid => ?_⟩, fun id x hx => ?_, by simp, fun _ => rfl, ?_⟩
        · rw [get_set ho] at hx
          split at hx
          · cases hx
            exact ⟨g3, fun hh => by
              obtain ⟨w, n, hn⟩ := g2 hh
              exact ⟨w, n, hn.len, hn.lt, hn.le⟩⟩
          · exact hi.good id x hx
        · obtain ⟨l0, h0⟩ := hi.ends id (by simpa using hid)
          exact ends_set ho { o with proto := p } hl c3 h0
        · rw [get_set ho]
          by_cases c : v = id
          · subst c
            rw [ho] at hx; cases hx
            exact ⟨_, by simp, ⟨g3, id, rfl, fun k => Moves.refl _ _⟩, .same, fun c => by rw [c2] at c; cases c⟩
          · exact ⟨x, by simp [c, hx], OEff.refl (hi.good id x hx).1, .same, fun _ => rfl⟩
        · simp only [true_iff]
          exact Or.inr ⟨c2, fun l' hl' => by rw [hl'.unique hl]; exact c3⟩
    · rw [if_pos (by simpa using c2)]
      exact ⟨h, false, rfl, hi, heff_refl hi, by simp, by simp, by simp [c1, c2]⟩

/-- The search for a property ends, within the given number of rounds. -/
theorem findProp_spec {h : Heap} (hi : HInv h) {k : Key} {x : Option Nat} {l : List Nat} (c : Chain h x l) :
    ∀ (v f : Nat), x = some v → l.length ≤ f → ∃ r, findProp h k f v = some r ∧
      ((r = none ∧ ∀ i ∈ l, ∀ o, h[i]? = some o → get o k = none) ∨
       ∃ a i b o p, l = a ++ i :: b ∧ h[i]? = some o ∧ get o k = some p ∧ r = some (descOf p) ∧
        ∀ j ∈ a, ∀ o, h[j]? = some o → get o k = none) := by
  induction c with
  | nil => intro v f e; cases e
  | @cons i o l ho t ih =>
    intro v f e hf
    cases e
    cases f with
    | zero => simp at hf
    | succ f =>
      simp only [List.length_cons] at hf
      unfold findProp
      rw [ho]
      simp only
      rw [getOwn_get (hi.good i o ho).1]
      cases hk : get o k with
      | some p => exact ⟨_, rfl, Or.inr ⟨[], i, l, o, p, rfl, ho, hk, rfl, by simp⟩⟩
      | none =>
        simp only [Option.map_none]
        have hme : ∀ o', h[i]? = some o' → get o' k = none := by
          intro o' ho'; rw [ho] at ho'; cases ho'; exact hk
        cases hp : o.proto with
        | none =>
          refine ⟨none, rfl, Or.inl ⟨rfl, ?_⟩⟩
          rw [hp] at t
          cases t
          intro j hj
          rw [List.mem_singleton] at hj
          subst hj
          exact hme
        | some p =>
          obtain ⟨r, r1, r2⟩ := ih p f hp (by omega)
          refine ⟨r, r1, ?_⟩
          rcases r2 with ⟨rfl, r2⟩ | ⟨a, j, b, o', p', e1, e2, e3, e4, e5⟩
          · refine Or.inl ⟨rfl, fun j hj => ?_⟩
            rw [List.mem_cons] at hj
            rcases hj with rfl | hj
            · exact hme
            · exact r2 j hj
          · refine Or.inr ⟨i :: a, j, b, o', p', by rw [e1]; rfl, e2, e3, e4, fun j' hj => ?_⟩
            rw [List.mem_cons] at hj
            rcases hj with rfl | hj
            · exact hme
            · exact e5 j' hj

/-- The search from an object: it ends. -/
theorem findProp_total {h : Heap} (hi : HInv h) (k : Key) {v : Nat} (hv : v < h.length) :
    ∃ r, findProp h k (h.length + 1) v = some r := by
  obtain ⟨l, hl⟩ := hi.ends v hv
  obtain ⟨r, r1, _⟩ := findProp_spec hi (k := k) hl v (h.length + 1) rfl (by have := hl.length_le; omega)
  exact ⟨r, r1⟩

/-! ### One operation -/

theorem delete_arr {o : Obj} (h : Good o) (ha : ArrGood o) {k : Key} {o' : Obj} {b : Bool}
    (he : delete o k = some (o', b)) : ArrGood o' := by
  obtain ⟨o1, b1, e1, e2, e3, e4, e5, e6, e7, e8⟩ := delete_eff h k
  rw [he] at e1
  cases e1
  intro hx
  rw [e3.arr] at hx
  obtain ⟨w, n, hn⟩ := ha hx
  by_cases c : k = lengthKey
  · subst c
    have : b = false := by
      cases b with
      | false => rfl
      | true =>
        have := (e8.1 rfl) _ hn.len
        simp [lenProp] at this
    rw [e7 this]
    exact ⟨w, n, hn⟩
  · refine ⟨w, n, arr_of_eq (e5 _ (Ne.symm c)) (fun i hi => ?_) hn⟩
    by_cases c' : k = .idx i
    · subst c'
      cases b with
      | false => rw [e7 rfl] at hi; exact hi
      | true => rw [e6 rfl] at hi; exact absurd rfl hi
    · rw [e5 _ (Ne.symm c')] at hi; exact hi

theorem new_good (p : Option Nat) (a : Bool) : Good (new p a) ∧ ∀ k, get (new p a) k = none := by
  have hg : ∀ k, get (new p a) k = none := by
    intro k
    cases k with
    | idx i => rw [get_idx (m := fun _ => none) PropStore.inv_empty]
    | name n => rfl
  exact ⟨⟨⟨_, PropStore.inv_empty⟩, by simp [names, new], fun k p hp => by rw [hg] at hp; cases hp⟩, hg⟩

theorem newArray_spec {len : Nat} (hl : len ≤ 0xffffffff) (p : Option Nat) :
    ∃ o, newArray len p = some o ∧ Good o ∧ Arr o true len ∧ o.arr = true ∧ o.proto = p ∧ o.ext = true ∧
      (∀ k, get o k = if k = lengthKey then some (lenProp true len) else none) := by
  obtain ⟨g1, g2⟩ := new_good p true
  unfold newArray
  rcases defineOrdinary_none g1 (g2 lengthKey)
    { hasV := true, hasW := true, hasE := true, hasC := true, w := true, value := .num len } with ⟨a, _⟩ | ⟨_, _, a, _⟩ | ⟨_, o, e1, e2, _⟩
  · cases a
  · cases a
  · rw [e1]
    have hget : ∀ k, get o k = if k = lengthKey then some (lenProp true len) else none := by
      intro k
      rw [e2.get]
      simp only [upk]
      split
      · rfl
      · exact g2 k
    refine ⟨o, rfl, e2.good, ⟨by rw [hget]; simp, by omega, fun i hi => ?_⟩, e2.same.arr, e2.same.proto, e2.same.ext, hget⟩
    rw [hget, if_neg (by simp [lengthKey])] at hi
    exact absurd rfl hi

theorem onObj_some {h : Heap} {v : Nat} {f : Obj → Option (Obj × Ret)} {h' : Heap} {r : Ret}
    (e : onObj h v f = some (h', r)) : ∃ o o', h[v]? = some o ∧ f o = some (o', r) ∧ h' = h.set v o' := by
  unfold onObj at e
  cases ho : h[v]? with
  | none => rw [ho] at e; cases e
  | some o =>
    rw [ho] at e
    simp only at e
    cases hf : f o with
    | none => rw [hf] at e; cases e
    | some q =>
      obtain ⟨o', r'⟩ := q
      rw [hf] at e
      simp only [Option.some.injEq, Prod.mk.injEq] at e
      obtain ⟨rfl, rfl⟩ := e
      exact ⟨o, o', rfl, hf, rfl⟩

theorem heap_define {oth : Nat → Option Nat} {h : Heap} (hi : HInv h) {v : Nat} {o o' : Obj} (ho : h[v]? = some o)
    {k : Key} {d : Desc} (hd : Wf d) {r : Ret} (he : define oth o k d = some (o', r)) :
    HInv (h.set v o') ∧ HEff h (h.set v o') := by
  obtain ⟨g1, g2⟩ := hi.good v o ho
  obtain ⟨a1, a2, a3, a4, a5⟩ := define_eff g1 g2 hd he
  exact heap_set hi ho a1 a3 a5 a2.proto

theorem setFound_eff {oth : Nat → Option Nat} {h h' : Heap} (hi : HInv h) {k : Key} {v : Val} {recv : Option Nat}
    {d : Desc} {r : Ret} (he : setFound oth h k v recv d = some (h', r)) : HInv h' ∧ HEff h h' := by
  have triv : ∀ {x : Ret}, some (h, x) = some (h', r) → HInv h' ∧ HEff h h' := by
    intro x e; cases e; exact ⟨hi, heff_refl hi⟩
  unfold setFound at he
  split at he
  · split at he
    · exact triv he
    · split at he
      · exact triv he
      · rename_i rr
        split at he
        · cases he
        · rename_i o ho
          split at he
          · cases he
          · split at he
            · exact triv he
            · split at he
              · exact triv he
              · split at he
                · cases he
                · rename_i o1 x hdef
                  cases he
                  exact heap_define hi ho ⟨by simp, by simp, by simp, by simp [isAcc]⟩ hdef
          · split at he
            · cases he
            · rename_i o1 x hdef
              cases he
              exact heap_define hi ho ⟨by simp, by simp, by simp, by simp [isAcc]⟩ hdef
  · split at he
    · exact triv he
    · exact triv he

theorem step_eff {E : Env} {h h' : Heap} (hi : HInv h) {op : Op} {r : Ret} (he : step E h op = some (h', r)) :
    HInv h' ∧ HEff h h' := by
  cases op with
  | create p =>
    simp only [step] at he
    split at he
    · rename_i hp
      cases he
      exact heap_add hi (new_good p false).1 (fun c => by cases c) hp
    · cases he
  | createArray len p =>
    simp only [step] at he
    split at he
    · rename_i hp
      split at he
      · cases he; exact ⟨hi, heff_refl hi⟩
      · rename_i hl
        obtain ⟨o, e1, e2, e3, e4, e5, _⟩ := newArray_spec (len := len) (by omega) p
        rw [e1] at he
        cases he
        exact heap_add hi e2 (fun _ => ⟨_, _, e3⟩) (by rw [e5]; exact hp)
    · cases he
  | define v k f =>
    simp only [step] at he
    split at he
    · cases he; exact ⟨hi, heff_refl hi⟩
    · rename_i d hd
      obtain ⟨o, o', ho, e, rfl⟩ := onObj_some he
      exact heap_define hi ho (toDesc_wf hd) e
  | set v k x rr =>
    simp only [step, set] at he
    split at he
    · cases he
    · exact setFound_eff hi he
    · exact setFound_eff hi he
  | delete v k =>
    simp only [step] at he
    obtain ⟨o, o', ho, e, rfl⟩ := onObj_some he
    obtain ⟨g1, g2⟩ := hi.good v o ho
    obtain ⟨o1, b1, e1, e2, e3, e4, e5, e6, e7, e8⟩ := delete_eff g1 k
    have ha := delete_arr g1 g2 e1
    rw [e1] at e
    simp only [Option.some.injEq, Prod.mk.injEq] at e
    obtain ⟨rfl, _⟩ := e
    exact heap_set hi ho e2 e4 ha e3.proto
  | preventExt v =>
    simp only [step] at he
    obtain ⟨o, o', ho, e, rfl⟩ := onObj_some he
    obtain ⟨g1, g2⟩ := hi.good v o ho
    simp only [Option.some.injEq, Prod.mk.injEq] at e
    obtain ⟨rfl, _⟩ := e
    exact heap_set hi ho ⟨⟨g1.store, g1.nodup, g1.wf⟩, by simp, rfl, fun k => Moves.refl _ _⟩ .same
      (fun hh => by
        obtain ⟨w, n, hn⟩ := g2 hh
        exact ⟨w, n, hn.len, hn.lt, hn.le⟩) rfl
  | setProto v p =>
    simp only [step] at he
    split at he
    · rename_i hp
      cases ho : h[v]? with
      | none => unfold setProto at he; rw [ho] at he; cases he
      | some o =>
        obtain ⟨h1, b, e1, e2, e3, _⟩ := setProto_spec hi ho hp
        rw [e1] at he
        cases he
        exact ⟨e2, e3⟩
    · cases he
  | setIntegrity fr v =>
    simp only [step] at he
    obtain ⟨o, o', ho, e, rfl⟩ := onObj_some he
    obtain ⟨g1, g2⟩ := hi.good v o ho
    obtain ⟨o1, e1, e2, e3, e4, e5, e6, _⟩ := setIntegrity_spec (oth := E.oth) g1 g2 fr
    rw [e1] at e
    simp only [Option.some.injEq, Prod.mk.injEq] at e
    obtain ⟨rfl, _⟩ := e
    exact heap_set hi ho e2 (by rw [e3]; exact .same) e4 e6

theorem run_inv {E : Env} : ∀ (ops : List Op) (h h' : Heap), HInv h → run E h ops = some h' → HInv h'
  | [], h, h', hi, he => by cases he; exact hi
  | a :: l, h, h', hi, he => by
    unfold run at he
    split at he
    · cases he
    · rename_i h1 r hs
      exact run_inv l h1 h' (step_eff hi hs).1 he

/-- Any number of operations: what happens to one object. -/
theorem run_eff {E : Env} : ∀ (ops : List Op) (h h' : Heap), HInv h → run E h ops = some h' →
    ∀ (id : Nat) (o : Obj), h[id]? = some o → ∃ o', h'[id]? = some o' ∧ OEff o o' ∧
      (o.ext = false → o'.proto = o.proto)
  | [], h, h', hi, he, id, o, ho => by
    cases he
    exact ⟨o, ho, OEff.refl (hi.good id o ho).1, fun _ => rfl⟩
  | a :: l, h, h', hi, he, id, o, ho => by
    unfold run at he
    split at he
    · cases he
    · rename_i h1 r hs
      obtain ⟨a1, a2⟩ := step_eff hi hs
      obtain ⟨o1, b1, b2, b3, b4⟩ := a2 id o ho
      obtain ⟨o', c1, c2, c3⟩ := run_eff l h1 h' a1 he id o1 b1
      refine ⟨o', c1, b2.trans c2, fun hx => ?_⟩
      have : o1.ext = false := by
        cases hh : o1.ext with
        | false => rfl
        | true => rw [b2.ext hh] at hx; cases hx
      rw [c3 this, b4 hx]

end Verif.Obj

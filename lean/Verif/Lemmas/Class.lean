import Verif.Spec.Class

/-! Helper lemmas for C81. -/
namespace Verif.Class
open Obj (Val)
open Priv.Spec (Elem)

section
variable {σ : Type} (W : World σ)

theorem setElem_eq (s : St σ) (o n : Nat) (x : Elem) :
    setElem s o n x = { s with elems := fun o' n' => if o' = o ∧ n' = n then some x else s.elems o' n' } := rfl

theorem defineField_eq (o : Nat) (name : Name) (init : Option Val) (s : St σ) :
    defineField W o name init s = Spec.defineField W o name init s := by
  unfold defineField Spec.defineField
  generalize (match init with | some f => W.init f o s | none => (s, some Val.undef)) = x
  obtain ⟨s', r⟩ := x
  cases r with
  | none => rfl
  | some v =>
    cases name with
    | priv n =>
      simp only [Spec.addPE]
      cases s'.elems o n <;> rfl
    | pub k => rfl

theorem installFields_eq (o : Nat) (fs : List (Name × Option Val)) (s : St σ) :
    installFields W o fs s = Spec.fields W o fs s := by
  induction fs generalizing s with
  | nil => rfl
  | cons x fs ih =>
    obtain ⟨name, init⟩ := x
    unfold installFields Spec.fields
    rw [defineField_eq]
    cases Spec.defineField W o name init s with
    | mk s' r =>
      cases r with
      | none => rfl
      | some u => exact ih s'

/-! ## Uniting accessors -/

/-- The list of PrivateElements of method definitions, added to `l`. -/
def unitedFrom (l : List Spec.PE) (ms : List (Kind × Nat × Val)) : List Spec.PE :=
  ms.foldl (fun l m => Spec.unite l m.2.1 (Spec.elemOf m.1 m.2.2)) l

/-- The state with the elements of `l` in the object `o`. -/
def over (o : Nat) (s : St σ) (l : List Spec.PE) : St σ :=
  { s with elems := fun o' n' => if o' = o then (l.lookup n').or (s.elems o n') else s.elems o' n' }

/-- The definition can be added to the list. -/
def Fits (l : List Spec.PE) (m : Kind × Nat × Val) : Prop :=
  l.lookup m.2.1 = none ∨
  (m.1 = .getter ∧ ∃ g, l.lookup m.2.1 = some (.accessor none g)) ∨
  (m.1 = .setter ∧ ∃ g, l.lookup m.2.1 = some (.accessor g none))

theorem lookup_snoc (l : List Spec.PE) (n n' : Nat) (e : Elem) :
    (l ++ [(n, e)]).lookup n' = (l.lookup n').or (if n' = n then some e else none) := by
  induction l with
  | nil =>
    simp only [List.nil_append, List.lookup_cons, List.lookup_nil]
    by_cases h : n' = n
    · subst h; simp
    · have hb : (n' == n) = false := by simpa using h
      rw [hb, if_neg h]; rfl
  | cons x l ih =>
    obtain ⟨k, y⟩ := x
    rw [List.cons_append, List.lookup_cons, List.lookup_cons]
    by_cases h : n' = k
    · subst h; simp
    · have hb : (n' == k) = false := by simpa using h
      rw [hb]
      exact ih

theorem lookup_change (l : List Spec.PE) (n n' : Nat) (e : Elem) :
    (l.map fun x => if x.1 = n then (n, e) else x).lookup n' =
      if n' = n then (l.lookup n').map (fun _ => e) else l.lookup n' := by
  induction l with
  | nil => simp
  | cons x l ih =>
    obtain ⟨k, y⟩ := x
    simp only [List.map_cons]
    by_cases h : k = n
    · subst h
      rw [if_pos rfl, List.lookup_cons, List.lookup_cons]
      by_cases h' : n' = k
      · subst h'; simp
      · have hb : (n' == k) = false := by simpa using h'
        rw [hb]
        exact ih
    · rw [if_neg h, List.lookup_cons, List.lookup_cons]
      by_cases h' : n' = k
      · subst h'
        rw [if_neg h]; simp
      · have hb : (n' == k) = false := by simpa using h'
        rw [hb]
        exact ih

/-- What `unite` does for a definition that fits. -/
theorem unite_cases (l : List Spec.PE) (m : Kind × Nat × Val) (h : Fits l m) :
    (l.lookup m.2.1 = none ∧ Spec.unite l m.2.1 (Spec.elemOf m.1 m.2.2) =
      l ++ [(m.2.1, Spec.elemOf m.1 m.2.2)]) ∨
    (∃ g, m.1 = .getter ∧ l.lookup m.2.1 = some (.accessor none g) ∧
      Spec.unite l m.2.1 (Spec.elemOf m.1 m.2.2) =
        l.map fun x => if x.1 = m.2.1 then (m.2.1, .accessor (some m.2.2) g) else x) ∨
    (∃ g, m.1 = .setter ∧ l.lookup m.2.1 = some (.accessor g none) ∧
      Spec.unite l m.2.1 (Spec.elemOf m.1 m.2.2) =
        l.map fun x => if x.1 = m.2.1 then (m.2.1, .accessor g (some m.2.2)) else x) := by
  obtain ⟨k, n, f⟩ := m
  rcases h with h | ⟨hk, g, h⟩ | ⟨hk, g, h⟩
  · refine Or.inl ⟨h, ?_⟩
    simp only at h
    cases k <;> simp only [Spec.elemOf, Spec.unite, h]
  · simp only at h hk
    subst hk
    refine Or.inr (Or.inl ⟨g, rfl, h, ?_⟩)
    simp only [Spec.elemOf, Spec.unite, h, Option.or]
  · simp only at h hk
    subst hk
    refine Or.inr (Or.inr ⟨g, rfl, h, ?_⟩)
    simp only [Spec.elemOf, Spec.unite, h, Option.or]

/-- Adding to the object is uniting in the list. -/
theorem addPrivate_over (o : Nat) (s : St σ) (l : List Spec.PE) (m : Kind × Nat × Val) (h : Fits l m)
    (hs : s.elems o m.2.1 = none) :
    addPrivate o m.1 m.2.1 m.2.2 (over o s l) =
      (over o s (Spec.unite l m.2.1 (Spec.elemOf m.1 m.2.2)), some ()) := by
  have hset : ∀ (e : Elem) (l' : List Spec.PE),
      (∀ n', l'.lookup n' = if n' = m.2.1 then some e else l.lookup n') →
      setElem (over o s l) o m.2.1 e = over o s l' := by
    intro e l' hl'
    unfold setElem over
    simp only
    congr 1
    funext o' n'
    by_cases ho : o' = o
    · subst ho
      rw [if_pos rfl, if_pos rfl, hl']
      by_cases hn : n' = m.2.1
      · rw [if_pos ⟨rfl, hn⟩, if_pos hn]; rfl
      · rw [if_neg (fun hc => hn hc.2), if_neg hn]
    · rw [if_neg (fun hc => ho hc.1), if_neg ho, if_neg ho]
  have hel : (over o s l).elems o m.2.1 = l.lookup m.2.1 := by
    unfold over
    simp only
    rw [if_pos trivial, hs]
    simp
  unfold addPrivate
  rcases unite_cases l m h with ⟨h1, h2⟩ | ⟨g, hk, h1, h2⟩ | ⟨g, hk, h1, h2⟩
  · rw [h2, hel, h1]
    have hl : ∀ n', (l ++ [(m.2.1, Spec.elemOf m.1 m.2.2)]).lookup n' =
        if n' = m.2.1 then some (Spec.elemOf m.1 m.2.2) else l.lookup n' := by
      intro n'
      rw [lookup_snoc]
      by_cases hn : n' = m.2.1
      · rw [if_pos hn, if_pos hn, hn, h1]; rfl
      · rw [if_neg hn, if_neg hn]; simp
    have := hset _ _ hl
    obtain ⟨k, n, f⟩ := m
    cases k <;> simp only [Spec.elemOf] at this ⊢ <;> rw [this]
  · rw [h2, hel, h1, hk]
    simp only
    rw [hset _ _ fun n' => ?_]
    rw [lookup_change]
    by_cases hn : n' = m.2.1
    · rw [if_pos hn, if_pos hn, hn, h1]; rfl
    · rw [if_neg hn, if_neg hn]
  · rw [h2, hel, h1, hk]
    simp only
    rw [hset _ _ fun n' => ?_]
    rw [lookup_change]
    by_cases hn : n' = m.2.1
    · rw [if_pos hn, if_pos hn, hn, h1]; rfl
    · rw [if_neg hn, if_neg hn]

/-- What is found after uniting. -/
theorem lookup_unite (l : List Spec.PE) (m : Kind × Nat × Val) (h : Fits l m) (n' : Nat) (hn : n' ≠ m.2.1) :
    (Spec.unite l m.2.1 (Spec.elemOf m.1 m.2.2)).lookup n' = l.lookup n' := by
  rcases unite_cases l m h with ⟨h1, h2⟩ | ⟨g, hk, h1, h2⟩ | ⟨g, hk, h1, h2⟩
  · rw [h2, lookup_snoc, if_neg hn]; simp
  · rw [h2, lookup_change, if_neg hn]
  · rw [h2, lookup_change, if_neg hn]

theorem fits_unite (l : List Spec.PE) (m m' : Kind × Nat × Val) (h : Fits l m) (h' : Fits l m')
    (hp : m.2.1 = m'.2.1 → (m.1 = .getter ∧ m'.1 = .setter) ∨ (m.1 = .setter ∧ m'.1 = .getter)) :
    Fits (Spec.unite l m.2.1 (Spec.elemOf m.1 m.2.2)) m' := by
  by_cases hn : m'.2.1 = m.2.1
  · rcases hp hn.symm with ⟨hk, hk'⟩ | ⟨hk, hk'⟩
    · refine Or.inr (Or.inr ⟨hk', ?_⟩)
      rw [hn]
      rcases unite_cases l m h with ⟨h1, h2⟩ | ⟨g, _, h1, h2⟩ | ⟨g, hk2, _, _⟩
      · refine ⟨some m.2.2, ?_⟩
        rw [h2, lookup_snoc, if_pos rfl, h1, hk]; rfl
      · refine ⟨some m.2.2, ?_⟩
        rcases h' with h' | ⟨hk2, _⟩ | ⟨_, g', h'⟩
        · rw [hn, h1] at h'; cases h'
        · rw [hk'] at hk2; cases hk2
        · rw [hn, h1] at h'; cases h'
          rw [h2, lookup_change, if_pos rfl, h1]; rfl
      · rw [hk] at hk2; cases hk2
    · refine Or.inr (Or.inl ⟨hk', ?_⟩)
      rw [hn]
      rcases unite_cases l m h with ⟨h1, h2⟩ | ⟨g, hk2, _, _⟩ | ⟨g, _, h1, h2⟩
      · refine ⟨some m.2.2, ?_⟩
        rw [h2, lookup_snoc, if_pos rfl, h1, hk]; rfl
      · rw [hk] at hk2; cases hk2
      · refine ⟨some m.2.2, ?_⟩
        rcases h' with h' | ⟨_, g', h'⟩ | ⟨hk2, _⟩
        · rw [hn, h1] at h'; cases h'
        · rw [hn, h1] at h'; cases h'
          rw [h2, lookup_change, if_pos rfl, h1]; rfl
        · rw [hk'] at hk2; cases hk2
  · unfold Fits
    rw [lookup_unite l m h _ hn]
    exact h'

/-- Adding the definitions one by one is adding their united list. -/
theorem installMethods_over (o : Nat) (s : St σ) (ms : List (Kind × Nat × Val)) :
    ∀ l, (∀ m, m ∈ ms → Fits l m) → Spec.Once ms → (∀ m, m ∈ ms → s.elems o m.2.1 = none) →
    installMethods o ms (over o s l) = (over o s (unitedFrom l ms), some ()) := by
  induction ms with
  | nil => intro l _ _ _; rfl
  | cons m ms ih =>
    intro l hf ho hs
    obtain ⟨hp, ho'⟩ := List.pairwise_cons.1 ho
    have h1 := addPrivate_over o s l m (hf m List.mem_cons_self) (hs m List.mem_cons_self)
    obtain ⟨k, n, f⟩ := m
    unfold installMethods
    simp only at h1
    rw [h1]
    simp only
    rw [ih _ (fun m' hm' => fits_unite l (k, n, f) m' (hf _ List.mem_cons_self)
      (hf m' (List.mem_cons_of_mem _ hm')) (hp m' hm')) ho' (fun m' hm' => hs m' (List.mem_cons_of_mem _ hm'))]
    rfl

theorem lookup_none_iff {l : List Spec.PE} {n : Nat} : l.lookup n = none ↔ n ∉ l.map (·.1) := by
  induction l with
  | nil => simp
  | cons x l ih =>
    obtain ⟨k, y⟩ := x
    rw [List.lookup_cons]
    by_cases h : n = k
    · subst h; simp
    · have hb : (n == k) = false := by simpa using h
      rw [hb]
      simp only
      rw [ih]
      simp [h]

theorem unite_keys (l : List Spec.PE) (m : Kind × Nat × Val) (h : Fits l m) :
    (Spec.unite l m.2.1 (Spec.elemOf m.1 m.2.2)).map (·.1) =
      if l.lookup m.2.1 = none then l.map (·.1) ++ [m.2.1] else l.map (·.1) := by
  have hmap : ∀ e : Elem, (l.map fun x => if x.1 = m.2.1 then (m.2.1, e) else x).map (·.1) = l.map (·.1) := by
    intro e
    rw [List.map_map]
    apply List.map_congr_left
    intro x _
    simp only [Function.comp_apply]
    split
    · rename_i hx; exact hx.symm
    · rfl
  rcases unite_cases l m h with ⟨h1, h2⟩ | ⟨g, hk, h1, h2⟩ | ⟨g, hk, h1, h2⟩
  · rw [h2, if_pos h1]; simp
  · rw [h2, if_neg (by rw [h1]; simp), hmap]
  · rw [h2, if_neg (by rw [h1]; simp), hmap]

theorem unitedFrom_keys (ms : List (Kind × Nat × Val)) : ∀ l, (∀ m, m ∈ ms → Fits l m) → Spec.Once ms →
    (l.map (·.1)).Nodup →
    ((unitedFrom l ms).map (·.1)).Nodup ∧
    ∀ n, n ∈ (unitedFrom l ms).map (·.1) → n ∈ l.map (·.1) ∨ ∃ m, m ∈ ms ∧ m.2.1 = n := by
  induction ms with
  | nil => intro l _ _ hn; exact ⟨hn, fun n h => Or.inl h⟩
  | cons m ms ih =>
    intro l hf ho hn
    obtain ⟨hp, ho'⟩ := List.pairwise_cons.1 ho
    have hk := unite_keys l m (hf m List.mem_cons_self)
    have hn' : ((Spec.unite l m.2.1 (Spec.elemOf m.1 m.2.2)).map (·.1)).Nodup := by
      rw [hk]
      split
      · rename_i hl
        rw [lookup_none_iff] at hl
        rw [List.nodup_append]
        refine ⟨hn, by simp, fun a ha b hb => ?_⟩
        simp only [List.mem_singleton] at hb
        subst hb
        intro hc
        exact hl (hc ▸ ha)
      · exact hn
    obtain ⟨h1, h2⟩ := ih _ (fun m' hm' => fits_unite l m m' (hf _ List.mem_cons_self)
      (hf m' (List.mem_cons_of_mem _ hm')) (hp m' hm')) ho' hn'
    refine ⟨h1, fun n hmem => ?_⟩
    rcases h2 n hmem with h | ⟨m', hm', he⟩
    · rw [hk] at h
      split at h
      · rcases List.mem_append.1 h with h | h
        · exact Or.inl h
        · simp only [List.mem_singleton] at h
          exact Or.inr ⟨m, List.mem_cons_self, h.symm⟩
      · exact Or.inl h
    · exact Or.inr ⟨m', List.mem_cons_of_mem _ hm', he⟩

theorem addPEs_over (o : Nat) (l : List Spec.PE) : ∀ s : St σ, (l.map (·.1)).Nodup →
    (∀ n, n ∈ l.map (·.1) → s.elems o n = none) → Spec.addPEs o l s = (over o s l, some ()) := by
  induction l with
  | nil =>
    intro s _ _
    have : over o s [] = s := by
      unfold over
      cases s
      simp only [List.lookup_nil, Option.none_or]
      congr 1
      funext o' n'
      split
      · rename_i h; rw [h]
      · rfl
    rw [this]; rfl
  | cons e l ih =>
    intro s hn hs
    rw [List.map_cons, List.nodup_cons] at hn
    unfold Spec.addPEs Spec.addPE
    rw [hs e.1 (by simp)]
    simp only
    rw [ih _ hn.2 (fun n hm => ?_)]
    · congr 1
      unfold over
      simp only
      congr 1
      funext o' n'
      by_cases ho : o' = o
      · subst ho
        rw [if_pos rfl, if_pos rfl, List.lookup_cons]
        by_cases h : n' = e.1
        · rw [if_pos ⟨trivial, h⟩, h]
          rw [lookup_none_iff.2 hn.1]
          simp
        · have hb : (n' == e.1) = false := by simpa using h
          rw [hb, if_neg (fun hc => h hc.2)]
      · rw [if_neg ho, if_neg ho, if_neg (fun hc => ho hc.1)]
    · simp only
      rw [if_neg]
      · exact hs n (by simp only [List.map_cons, List.mem_cons]; exact Or.inr hm)
      · rintro ⟨_, h⟩; exact hn.1 (h ▸ hm)

theorem over_nil (o : Nat) (s : St σ) : over o s [] = s := by
  unfold over
  cases s
  simp only [List.lookup_nil, Option.none_or]
  congr 1
  funext o' n'
  split
  · rename_i h; rw [h]
  · rfl

/-- The methods of a class, added to an object that has none of them. -/
theorem install_eq (o : Nat) (s : St σ) (ms : List (Kind × Nat × Val)) (ho : Spec.Once ms)
    (hs : ∀ m, m ∈ ms → s.elems o m.2.1 = none) :
    installMethods o ms s = (over o s (unitedFrom [] ms), some ()) ∧
    Spec.addPEs o (unitedFrom [] ms) s = (over o s (unitedFrom [] ms), some ()) := by
  have hf : ∀ m, m ∈ ms → Fits [] m := fun m _ => Or.inl rfl
  constructor
  · have := installMethods_over o s ms [] hf ho hs
    rw [over_nil] at this
    exact this
  · obtain ⟨h1, h2⟩ := unitedFrom_keys ms [] hf ho (by simp)
    apply addPEs_over o _ s h1
    intro n hm
    rcases h2 n hm with h | ⟨m, hm', rfl⟩
    · cases h
    · exact hs m hm'

theorem addPrivate_has (s : St σ) (o : Nat) (m : Kind × Nat × Val) (h : Spec.HasMethod s o m) :
    addPrivate o m.1 m.2.1 m.2.2 s = (s, none) := by
  obtain ⟨k, n, f⟩ := m
  unfold Spec.HasMethod at h
  unfold addPrivate
  cases k with
  | method => obtain ⟨e, he⟩ := h; simp only at he; simp only [he]
  | getter =>
    obtain ⟨e, he, hg⟩ := h
    simp only at he
    simp only [he]
  | setter =>
    obtain ⟨e, he, hg⟩ := h
    simp only at he
    simp only [he]

theorem unitedFrom_head (ms : List (Kind × Nat × Val)) : ∀ (n : Nat) (e : Elem) (l : List Spec.PE),
    ∃ e' l', unitedFrom ((n, e) :: l) ms = (n, e') :: l' := by
  induction ms with
  | nil => intro n e l; exact ⟨e, l, rfl⟩
  | cons m ms ih =>
    intro n e l
    have : ∃ e' l', Spec.unite ((n, e) :: l) m.2.1 (Spec.elemOf m.1 m.2.2) = (n, e') :: l' := by
      unfold Spec.unite
      split
      · split
        · rw [List.map_cons]
          simp only
          split
          · rename_i h; rw [← h]; exact ⟨_, _, rfl⟩
          · exact ⟨_, _, rfl⟩
        · exact ⟨e, l ++ _, rfl⟩
      · exact ⟨e, l ++ _, rfl⟩
    obtain ⟨e', l', h⟩ := this
    unfold unitedFrom
    rw [List.foldl_cons, h]
    exact ih n e' l'

/-- Added to an object that has the first of them: both throw at once. -/
theorem install_again (o : Nat) (s : St σ) (m : Kind × Nat × Val) (ms : List (Kind × Nat × Val))
    (h : Spec.HasMethod s o m) :
    installMethods o (m :: ms) s = (s, none) ∧ Spec.addPEs o (unitedFrom [] (m :: ms)) s = (s, none) := by
  constructor
  · have := addPrivate_has s o m h
    obtain ⟨k, n, f⟩ := m
    unfold installMethods
    simp only at this
    rw [this]
  · have hu : Spec.unite [] m.2.1 (Spec.elemOf m.1 m.2.2) = [(m.2.1, Spec.elemOf m.1 m.2.2)] := by
      obtain ⟨k, n, f⟩ := m
      cases k <;> rfl
    have : unitedFrom [] (m :: ms) = unitedFrom [(m.2.1, Spec.elemOf m.1 m.2.2)] ms := by
      unfold unitedFrom; rw [List.foldl_cons, hu]
    obtain ⟨e', l', he⟩ := unitedFrom_head ms m.2.1 (Spec.elemOf m.1 m.2.2) []
    rw [this, he]
    unfold Spec.addPEs Spec.addPE
    have : ∃ e, s.elems o m.2.1 = some e := by
      unfold Spec.HasMethod at h
      split at h
      · exact h
      · obtain ⟨e, he, _⟩ := h; exact ⟨e, he⟩
      · obtain ⟨e, he, _⟩ := h; exact ⟨e, he⟩
    obtain ⟨e, he'⟩ := this
    simp only [he']

/-! ## The elements of the class body -/

def privOf (els : List El) : List (Kind × Nat × Val) :=
  els.filterMap fun x => match x with | .privMethod k n f => some (k, n, f) | _ => none

def staticPrivOf (els : List El) : List (Kind × Nat × Val) :=
  els.filterMap fun x => match x with | .staticPrivMethod k n f => some (k, n, f) | _ => none

def fieldsOf (els : List El) : List (Name × Option Val) :=
  els.filterMap fun x => match x with | .instField n i => some (n, i) | _ => none

def staticsOf (els : List El) : List Spec.StaticEl :=
  els.filterMap fun x => match x with
    | .field n i => some (.field n i)
    | .staticInit f => some (.block f)
    | _ => none

def collOf (els : List El) : Spec.Coll :=
  ⟨unitedFrom [] (privOf els), unitedFrom [] (staticPrivOf els), fieldsOf els, staticsOf els⟩

def mapRes {α β : Type} (f : α → β) (x : St σ × Option α) : St σ × Option β := (x.1, x.2.map f)

theorem collOf_snoc (els : List El) (x : El) : collOf (els ++ [x]) =
    match x with
    | .privMethod k n f => { collOf els with instancePrivateMethods := Spec.unite (collOf els).instancePrivateMethods n (Spec.elemOf k f) }
    | .staticPrivMethod k n f => { collOf els with staticPrivateMethods := Spec.unite (collOf els).staticPrivateMethods n (Spec.elemOf k f) }
    | .instField n i => { collOf els with instanceFields := (collOf els).instanceFields ++ [(n, i)] }
    | .field n i => { collOf els with staticElements := (collOf els).staticElements ++ [.field n i] }
    | .staticInit f => { collOf els with staticElements := (collOf els).staticElements ++ [.block f] } := by
  cases x <;>
    simp [collOf, privOf, staticPrivOf, fieldsOf, staticsOf, List.filterMap_append, unitedFrom, List.foldl_append]

theorem element_eq (els : List El) (x : Src) (s : St σ) :
    Spec.element W (collOf els) x s = mapRes collOf (addElement W els x s) := by
  cases x with
  | method static kind name f =>
    cases name with
    | pub e =>
      cases static <;>
      · unfold Spec.element addElement
        simp only
        cases W.key e s with
        | mk s' r =>
          cases r with
          | none => rfl
          | some k =>
            simp only
            cases W.defMethod _ kind k f s' with
            | mk s'' r =>
              cases r with
              | none => rfl
              | some u => rfl
    | priv n =>
      cases static <;>
      · unfold Spec.element addElement mapRes
        simp only [Option.map_some]
        rw [collOf_snoc]
        rfl
  | field static name init =>
    cases name with
    | pub e =>
      unfold Spec.element addElement
      simp only
      generalize hx : W.key e s = x
      obtain ⟨s', r⟩ := x
      · cases r with
        | none => simp only [hx]; rfl
        | some k =>
          simp only [hx, Option.map_some]
          unfold mapRes
          simp only [Option.map_some]
          rw [collOf_snoc]
          cases static <;> rfl
    | priv n =>
      unfold Spec.element addElement mapRes
      simp only [Option.map_some]
      rw [collOf_snoc]
      cases static <;> rfl
  | block f =>
    unfold Spec.element addElement mapRes
    simp only [Option.map_some]
    rw [collOf_snoc]

theorem elements_eq (srcs : List Src) : ∀ (els : List El) (s : St σ),
    Spec.elements W (collOf els) srcs s = mapRes collOf (addElements W els srcs s) := by
  induction srcs with
  | nil => intro els s; rfl
  | cons x srcs ih =>
    intro els s
    unfold Spec.elements addElements
    rw [element_eq]
    cases addElement W els x s with
    | mk s' r =>
      cases r with
      | none => rfl
      | some els' => exact ih els' s'

/-- What matters of an element for the order. -/
inductive Tag
  | priv (m : Kind × Nat × Val)
  | staticPriv (m : Kind × Nat × Val)
  | inst
  | static
  deriving DecidableEq

def tag : El → Tag
  | .privMethod k n f => .priv (k, n, f)
  | .staticPrivMethod k n f => .staticPriv (k, n, f)
  | .instField _ _ => .inst
  | .field _ _ => .static
  | .staticInit _ => .static

def srcTag : Src → Option Tag
  | .method _ _ (.pub _) _ => none
  | .method false k (.priv n) f => some (.priv (k, n, f))
  | .method true k (.priv n) f => some (.staticPriv (k, n, f))
  | .field false _ _ => some .inst
  | .field true _ _ => some .static
  | .block _ => some .static

theorem addElement_tag (els : List El) (x : Src) (s s' : St σ) (els' : List El)
    (h : addElement W els x s = (s', some els')) :
    els'.map tag = els.map tag ++ (srcTag x).toList := by
  cases x with
  | method static kind name f =>
    cases name with
    | pub e =>
      have : els' = els := by
        cases static <;>
        · unfold addElement at h
          simp only at h
          split at h
          · cases h
          · split at h
            · cases h
            · cases h; rfl
      rw [this]
      cases static <;> simp [srcTag]
    | priv n =>
      cases static <;>
      · unfold addElement at h
        cases h
        simp [srcTag, tag]
  | field static name init =>
    cases name with
    | pub e =>
      unfold addElement at h
      simp only at h
      split at h
      · cases h
      · cases h
        cases static <;> simp [srcTag, tag]
    | priv n =>
      unfold addElement at h
      cases h
      cases static <;> simp [srcTag, tag]
  | block f =>
    unfold addElement at h
    cases h
    simp [srcTag, tag]

theorem addElements_tag (srcs : List Src) : ∀ (els : List El) (s s' : St σ) (els' : List El),
    addElements W els srcs s = (s', some els') →
    els'.map tag = els.map tag ++ srcs.filterMap srcTag := by
  induction srcs with
  | nil => intro els s s' els' h; cases h; simp
  | cons x srcs ih =>
    intro els s s' els' h
    unfold addElements at h
    split at h
    · cases h
    · rename_i s1 els1 h1
      rw [ih _ _ _ _ h, addElement_tag W _ _ _ _ _ h1, List.filterMap_cons]
      cases srcTag x <;> simp

/-- A property of the constructor kept by the evaluation of names and the definition of methods. -/
theorem addElements_keeps (P : St σ → Prop) (hk : ∀ e s, P s → P (W.key e s).1)
    (hd : ∀ st k n f s, P s → P (W.defMethod st k n f s).1) (srcs : List Src) :
    ∀ (els : List El) (s : St σ), P s → P (addElements W els srcs s).1 := by
  induction srcs with
  | nil => intro els s h; exact h
  | cons x srcs ih =>
    intro els s h
    have hx : P (addElement W els x s).1 := by
      cases x with
      | method static kind name f =>
        cases name with
        | pub e =>
          have h1 := hk e s h
          cases static <;>
          · unfold addElement
            simp only
            split
            · rename_i he; rw [he] at h1; exact h1
            · rename_i s1 k he
              rw [he] at h1
              have h2 := fun st => hd st kind k f s1 h1
              split
              · rename_i he2
                first
                  | (have h2 := h2 false; rw [he2] at h2; exact h2)
                  | (have h2 := h2 true; rw [he2] at h2; exact h2)
              · rename_i he2
                first
                  | (have h2 := h2 false; rw [he2] at h2; exact h2)
                  | (have h2 := h2 true; rw [he2] at h2; exact h2)
        | priv n => cases static <;> exact h
      | field static name init =>
        cases name with
        | pub e =>
          have h1 := hk e s h
          unfold addElement
          simp only
          split
          · rename_i he; rw [he] at h1; exact h1
          · rename_i s1 k he; rw [he] at h1; exact h1
        | priv n => exact h
      | block f => exact h
    unfold addElements
    split
    · rename_i he; rw [he] at hx; exact hx
    · rename_i he; rw [he] at hx; exact ih _ _ hx

/-! ## The loop -/

/-- The effects of the loop. -/
def effects (c : Nat) : List El → Act σ Unit
  | [] => fun s => (s, some ())
  | .privMethod _ _ _ :: els => effects c els
  | .staticPrivMethod kind n f :: els => fun s =>
    match addPrivate c kind n f s with
    | (s, none) => (s, none)
    | (s, some ()) => effects c els s
  | .instField _ _ :: els => effects c els
  | .staticInit f :: els => fun s =>
    match W.block f c s with
    | (s, none) => (s, none)
    | (s, some ()) => effects c els s
  | .field name init :: els => fun s =>
    match defineField W c name init s with
    | (s, none) => (s, none)
    | (s, some ()) => effects c els s

theorem classLoop_eq (c : Nat) (els : List El) : ∀ (cl : Clazz) (s : St σ),
    classLoop W c cl els s =
      mapRes (fun _ => ⟨cl.methods ++ privOf els, cl.fields ++ fieldsOf els⟩) (effects W c els s) := by
  induction els with
  | nil => intro cl s; simp [classLoop, effects, mapRes, privOf, fieldsOf]
  | cons x els ih =>
    intro cl s
    cases x with
    | privMethod k n f =>
      unfold classLoop effects
      rw [ih]
      simp [privOf, fieldsOf]
    | staticPrivMethod k n f =>
      unfold classLoop effects
      cases addPrivate c k n f s with
      | mk s' r =>
        cases r with
        | none => rfl
        | some u => simp only; rw [ih]; simp [privOf, fieldsOf]
    | instField n i =>
      unfold classLoop effects
      rw [ih]
      simp [privOf, fieldsOf]
    | field n i =>
      unfold classLoop effects
      cases defineField W c n i s with
      | mk s' r =>
        cases r with
        | none => rfl
        | some u => simp only; rw [ih]; simp [privOf, fieldsOf]
    | staticInit f =>
      unfold classLoop effects
      cases W.block f c s with
      | mk s' r =>
        cases r with
        | none => rfl
        | some u => simp only; rw [ih]; simp [privOf, fieldsOf]

/-- First the private methods, then the rest. -/
def ordered (c : Nat) (els : List El) : Act σ Unit := fun s =>
  match installMethods c (staticPrivOf els) s with
  | (s, none) => (s, none)
  | (s, some ()) => Spec.statics W c (staticsOf els) s

def TagOrder (l : List Tag) : Prop := l.Pairwise fun a b => ¬ (a = .static ∧ ∃ m, b = .staticPriv m)

theorem staticPrivOf_nil {els : List El} (h : ∀ b, b ∈ els.map tag → ¬ ∃ m, b = Tag.staticPriv m) :
    staticPrivOf els = [] := by
  unfold staticPrivOf
  rw [List.filterMap_eq_nil_iff]
  intro x hx
  cases x with
  | staticPrivMethod k n f => exact absurd ⟨_, rfl⟩ (h _ (List.mem_map_of_mem hx))
  | _ => rfl

theorem effects_ordered (c : Nat) (els : List El) : TagOrder (els.map tag) → ∀ s : St σ,
    effects W c els s = ordered W c els s := by
  induction els with
  | nil => intro _ s; rfl
  | cons x els ih =>
    intro ho s
    rw [List.map_cons] at ho
    obtain ⟨h1, h2⟩ := List.pairwise_cons.1 ho
    have hi := ih h2
    cases x with
    | privMethod k n f => exact hi s
    | instField n i => exact hi s
    | staticPrivMethod k n f =>
      unfold effects
      have hsp : staticPrivOf (El.staticPrivMethod k n f :: els) = (k, n, f) :: staticPrivOf els := by simp [staticPrivOf]
      have hst : staticsOf (El.staticPrivMethod k n f :: els) = staticsOf els := by simp [staticsOf]
      unfold ordered installMethods
      rw [hsp, hst]
      simp only
      cases addPrivate c k n f s with
      | mk s' r =>
        cases r with
        | none => rfl
        | some u => simp only; rw [hi s']; rfl
    | field n i =>
      have hsp : staticPrivOf (El.field n i :: els) = [] :=
        staticPrivOf_nil fun b hb => by
          rw [List.map_cons, List.mem_cons] at hb
          rcases hb with rfl | hb
          · rintro ⟨m, hm⟩; cases hm
          · exact fun hm => h1 b hb ⟨rfl, hm⟩
      have hsp' : staticPrivOf els = [] := staticPrivOf_nil fun b hb hm => h1 b hb ⟨rfl, hm⟩
      have hst : staticsOf (El.field n i :: els) = .field n i :: staticsOf els := by simp [staticsOf]
      unfold effects ordered
      rw [hsp, hst]
      simp only [installMethods]
      unfold Spec.statics
      rw [defineField_eq]
      cases Spec.defineField W c n i s with
      | mk s' r =>
        cases r with
        | none => rfl
        | some u =>
          simp only
          rw [hi s']
          unfold ordered
          rw [hsp']
          rfl
    | staticInit f =>
      have hsp : staticPrivOf (El.staticInit f :: els) = [] :=
        staticPrivOf_nil fun b hb => by
          rw [List.map_cons, List.mem_cons] at hb
          rcases hb with rfl | hb
          · rintro ⟨m, hm⟩; cases hm
          · exact fun hm => h1 b hb ⟨rfl, hm⟩
      have hsp' : staticPrivOf els = [] := staticPrivOf_nil fun b hb hm => h1 b hb ⟨rfl, hm⟩
      have hst : staticsOf (El.staticInit f :: els) = .block f :: staticsOf els := by simp [staticsOf]
      unfold effects ordered
      rw [hsp, hst]
      simp only [installMethods]
      unfold Spec.statics
      cases W.block f c s with
      | mk s' r =>
        cases r with
        | none => rfl
        | some u =>
          simp only
          rw [hi s']
          unfold ordered
          rw [hsp']
          rfl

/-! ## Code that does not look at `ready` -/

theorem addPEs_ready (o : Nat) (l : List Spec.PE) (b : Bool) : ∀ s : St σ,
    Spec.addPEs o l { s with ready := b } = Spec.withReady b (Spec.addPEs o l s) := by
  induction l with
  | nil => intro s; rfl
  | cons e l ih =>
    intro s
    unfold Spec.addPEs Spec.addPE
    cases h : s.elems o e.1 with
    | some x => rfl
    | none =>
      simp only
      exact ih { s with elems := fun o' n' => if o' = o ∧ n' = e.1 then some e.2 else s.elems o' n' }

theorem defineField_ready (hW : Spec.Blind W) (o : Nat) (name : Name) (init : Option Val) (b : Bool) (s : St σ) :
    Spec.defineField W o name init { s with ready := b } = Spec.withReady b (Spec.defineField W o name init s) := by
  unfold Spec.defineField
  have hcont : ∀ (s' : St σ) (v : Val),
      (match name with
        | .priv n => Spec.addPE o (n, .field v) { s' with ready := b }
        | .pub k => W.define o k v { s' with ready := b }) =
      Spec.withReady b (match name with
        | .priv n => Spec.addPE o (n, .field v) s'
        | .pub k => W.define o k v s') := by
    intro s' v
    cases name with
    | priv n =>
      simp only [Spec.addPE]
      cases s'.elems o n <;> rfl
    | pub k => exact hW.define o k v s' b
  cases init with
  | none => exact hcont s .undef
  | some f =>
    simp only
    rw [hW.init]
    cases W.init f o s with
    | mk s' r =>
      cases r with
      | none => rfl
      | some v => exact hcont s' v

theorem statics_ready (hW : Spec.Blind W) (c : Nat) (l : List Spec.StaticEl) (b : Bool) : ∀ s : St σ,
    Spec.statics W c l { s with ready := b } = Spec.withReady b (Spec.statics W c l s) := by
  induction l with
  | nil => intro s; rfl
  | cons x l ih =>
    intro s
    cases x with
    | field name init =>
      unfold Spec.statics
      rw [defineField_ready W hW]
      cases Spec.defineField W c name init s with
      | mk s' r =>
        cases r with
        | none => rfl
        | some u => exact ih s'
    | block f =>
      unfold Spec.statics
      rw [hW.block]
      cases W.block f c s with
      | mk s' r =>
        cases r with
        | none => rfl
        | some u => exact ih s'

end

/-! ## The pieces together -/

section
variable {σ : Type} (W : World σ)

/-- `finish`, with the private methods already added. -/
theorem finish_eq (c : Nat) (els : List El) (s : St σ)
    (ho : TagOrder (els.map tag)) (hon : Spec.Once (staticPrivOf els))
    (hs : ∀ m, m ∈ staticPrivOf els → s.elems c m.2.1 = none)
    (hb : ∀ s, Spec.statics W c (staticsOf els) { s with ready := true } =
      Spec.withReady true (Spec.statics W c (staticsOf els) s)) :
    ∃ x : St σ × Option Unit,
      classLoop W c ⟨[], []⟩ els s = mapRes (fun _ => ⟨privOf els, fieldsOf els⟩) x ∧
      Spec.finish W c (collOf els) s =
        Spec.withReady true (mapRes (fun _ => ⟨unitedFrom [] (privOf els), fieldsOf els⟩) x) := by
  refine ⟨ordered W c els s, ?_, ?_⟩
  · rw [classLoop_eq, effects_ordered W c els ho]; rfl
  · obtain ⟨h1, h2⟩ := install_eq c s (staticPrivOf els) hon hs
    unfold Spec.finish ordered
    rw [h1]
    have h3 : Spec.addPEs c (collOf els).staticPrivateMethods { s with ready := true } =
        ({ over c s (unitedFrom [] (staticPrivOf els)) with ready := true }, some ()) := by
      rw [addPEs_ready]
      show Spec.withReady true (Spec.addPEs c (unitedFrom [] (staticPrivOf els)) s) = _
      rw [h2]; rfl
    rw [h3]
    simp only
    show (match Spec.statics W c (staticsOf els) _ with
      | (s, none) => (s, none)
      | (s, some ()) => (s, some _)) = _
    rw [hb]
    cases Spec.statics W c (staticsOf els) (over c s (unitedFrom [] (staticPrivOf els))) with
    | mk s' r =>
      cases r with
      | none => rfl
      | some u => rfl

/-- The private methods of a body are those declared in it. -/
theorem staticPriv_declared (els : List El) (srcs : List Src) (h : els.map tag = srcs.filterMap srcTag) :
    staticPrivOf els = Spec.declared true srcs := by
  have h1 : staticPrivOf els = (els.map tag).filterMap fun t => match t with | .staticPriv m => some m | _ => none := by
    rw [List.filterMap_map]
    unfold staticPrivOf
    congr 1
    funext x
    cases x <;> rfl
  have h2 : Spec.declared true srcs =
      (srcs.filterMap srcTag).filterMap fun t => match t with | .staticPriv m => some m | _ => none := by
    rw [List.filterMap_filterMap]
    unfold Spec.declared
    congr 1
    funext x
    cases x with
    | method st k n f => cases st <;> cases n <;> rfl
    | field st n i => cases st <;> rfl
    | block f => rfl
  rw [h1, h2, h]

theorem tagOrder_of (srcs : List Src) (h : Spec.MethodsFirst srcs) : TagOrder (srcs.filterMap srcTag) := by
  unfold TagOrder
  rw [List.pairwise_filterMap]
  refine List.Pairwise.imp ?_ h
  intro a b hab t ht t' ht'
  rintro ⟨rfl, m, rfl⟩
  apply hab
  constructor
  · cases a with
    | method st k n f => cases st <;> cases n <;> cases ht
    | field st n i => cases st <;> first | rfl | cases ht
    | block f => rfl
  · cases b with
    | method st k n f => cases st <;> cases n <;> first | rfl | cases ht'
    | field st n i => cases st <;> cases ht'
    | block f => cases ht'

theorem statics_none (els : List El) (srcs : List Src) (h : els.map tag = srcs.filterMap srcTag)
    (hn : ∀ x, x ∈ srcs → Spec.isStaticInit x = false) : staticsOf els = [] := by
  unfold staticsOf
  rw [List.filterMap_eq_nil_iff]
  intro x hx
  have hm : tag x ∈ srcs.filterMap srcTag := h ▸ List.mem_map_of_mem hx
  obtain ⟨y, hy, he⟩ := List.mem_filterMap.1 hm
  have := hn y hy
  cases x with
  | privMethod _ _ _ => rfl
  | staticPrivMethod _ _ _ => rfl
  | instField _ _ => rfl
  | field n i =>
    cases y with
    | method st k n f => cases st <;> cases n <;> cases he
    | field st n i => cases st <;> first | (cases this; done) | (cases he; done)
    | block f => cases this
  | staticInit f =>
    cases y with
    | method st k n f => cases st <;> cases n <;> cases he
    | field st n i => cases st <;> first | (cases this; done) | (cases he; done)
    | block f => cases this

end
end Verif.Class

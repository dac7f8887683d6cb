import Verif.Spec.MapSet
import Verif.Lemmas.Hash
/-
Helper lemmas for Map and Set: the simulation between the object and the specification.
-/
namespace Verif.MapSet

open Verif

variable {K V : Type} {P : K → Prop} {hash : K → Nat} {eqv : K → K → Bool} {norm : K → K}

@[simp] theorem isKey_none (k : K) : Spec.isKey (V := V) eqv k none = false := rfl
@[simp] theorem isKey_some (k : K) (e : K × V) : Spec.isKey eqv k (some e) = eqv e.1 k := rfl

/-- The records that are not empty, with their indices. -/
def recs : List (Option (K × V)) → Nat → List (Nat × (K × V))
  | [], _ => []
  | none :: r, i => recs r (i + 1)
  | some e :: r, i => (i, e) :: recs r (i + 1)

theorem recs_append (d1 d2 : List (Option (K × V))) (i : Nat) :
    recs (d1 ++ d2) i = recs d1 i ++ recs d2 (i + d1.length) := by
  induction d1 generalizing i with
  | nil => simp [recs]
  | cons x d1 ih =>
    cases x with
    | none => simp only [List.cons_append, recs, ih, List.length_cons]; congr 2; omega
    | some e => simp only [List.cons_append, recs, ih, List.length_cons]; congr 3; omega

theorem mem_recs {d : List (Option (K × V))} {i j : Nat} {e : K × V} :
    (j, e) ∈ recs d i ↔ i ≤ j ∧ d[j - i]? = some (some e) := by
  induction d generalizing i with
  | nil => simp [recs]
  | cons x d ih =>
    have key : ∀ (h : i + 1 ≤ j), d[j - (i + 1)]? = (x :: d)[j - i]? := by
      intro h
      rw [show j - i = (j - (i + 1)) + 1 by omega]
      simp
    cases x with
    | none =>
      simp only [recs, ih]
      constructor
      · rintro ⟨h1, h2⟩
        exact ⟨by omega, by rw [← key h1]; exact h2⟩
      · rintro ⟨h1, h2⟩
        by_cases h : i = j
        · subst h; simp at h2
        · exact ⟨by omega, by rw [key (by omega)]; exact h2⟩
    | some a =>
      simp only [recs, List.mem_cons, ih]
      constructor
      · rintro (h | ⟨h1, h2⟩)
        · cases h; simp
        · exact ⟨by omega, by rw [← key h1]; exact h2⟩
      · rintro ⟨h1, h2⟩
        by_cases h : i = j
        · subst h; simp at h2; left; rw [h2]
        · right; exact ⟨by omega, by rw [key (by omega)]; exact h2⟩

theorem recs_sorted (d : List (Option (K × V))) (i : Nat) :
    ((recs d i).map (·.1)).Pairwise (· < ·) := by
  induction d generalizing i with
  | nil => simp [recs]
  | cons x d ih =>
    cases x with
    | none => exact ih (i + 1)
    | some e =>
      simp only [recs, List.map_cons, List.pairwise_cons]
      refine ⟨?_, ih (i + 1)⟩
      intro a ha
      obtain ⟨⟨b, e'⟩, hb, rfl⟩ := List.mem_map.1 ha
      have := (mem_recs.1 hb).1
      exact this

theorem recs_drop (d : List (Option (K × V))) (i m : Nat) :
    recs (d.drop m) (i + m) = (recs d i).filter fun r => i + m ≤ r.1 := by
  induction d generalizing i m with
  | nil => simp [recs]
  | cons x d ih =>
    cases m with
    | zero =>
      simp only [List.drop_zero, Nat.add_zero]
      symm
      rw [List.filter_eq_self]
      rintro ⟨j, e⟩ hj
      simpa using (mem_recs.1 hj).1
    | succ m =>
      simp only [List.drop_succ_cons]
      have := ih (i + 1) m
      rw [show i + 1 + m = i + (m + 1) by omega] at this
      rw [this]
      cases x with
      | none => rfl
      | some e =>
        simp only [recs]
        rw [List.filter_cons_of_neg]
        simp

theorem nextFrom_eq (d : List (Option (K × V))) (i : Nat) :
    Spec.nextFrom d i = (recs d i).head? := by
  induction d generalizing i with
  | nil => rfl
  | cons x d ih =>
    cases x with
    | none => simp [Spec.nextFrom, recs, ih]
    | some e => simp [Spec.nextFrom, recs]

theorem recs_delete (d : List (Option (K × V))) (k : K) (i : Nat) :
    recs (d.map fun r => if Spec.isKey eqv k r then none else r) i =
      (recs d i).filter fun r => !eqv r.2.1 k := by
  induction d generalizing i with
  | nil => rfl
  | cons x d ih =>
    cases x with
    | none => simp [recs, ih]
    | some e =>
      cases h : eqv e.1 k <;> simp [recs, ih, h]

/-- Overwriting the value of a key. -/
def setVal (eqv : K → K → Bool) (k : K) (v : V) : Option (K × V) → Option (K × V)
  | none => none
  | some e => if eqv e.1 k then some (e.1, v) else some e

theorem recs_set (d : List (Option (K × V))) (k : K) (v : V) (i : Nat) :
    recs (d.map (setVal eqv k v)) i =
      (recs d i).map fun r => (r.1, if eqv r.2.1 k then (r.2.1, v) else r.2) := by
  induction d generalizing i with
  | nil => rfl
  | cons x d ih =>
    cases x with
    | none => simp [recs, setVal, ih]
    | some e =>
      cases h : eqv e.1 k <;> simp [recs, setVal, ih, h]

theorem recs_clear (d : List (Option (K × V))) (i : Nat) :
    recs (d.map fun _ => (none : Option (K × V))) i = [] := by
  induction d generalizing i with
  | nil => rfl
  | cons x d ih => simp [recs]; simpa using ih (i + 1)

theorem recs_length (d : List (Option (K × V))) (i : Nat) :
    (recs d i).length = d.countP (·.isSome) := by
  induction d generalizing i with
  | nil => rfl
  | cons x d ih =>
    cases x with
    | none => simp [recs, ih]
    | some e => simp [recs, ih]

/-- What the hash table stores: keys and entry numbers. -/
def keysOf (R : List (Nat × (K × V))) : List (K × Nat) := R.map fun r => (r.2.1, r.1)

theorem nextOf_sorted {l : List Nat} (hs : l.Pairwise (· < ·)) {n : Nat} (hn : n ∈ l) :
    nextOf l n = some ((l.filter fun a => n + 1 ≤ a).head?) := by
  induction l with
  | nil => cases hn
  | cons a r ih =>
    rw [List.pairwise_cons] at hs
    by_cases h : a = n
    · subst h
      have : r.filter (fun x => a + 1 ≤ x) = r := by
        rw [List.filter_eq_self]
        intro x hx
        have := hs.1 x hx
        simp; omega
      simp only [nextOf, if_true]
      rw [List.filter_cons_of_neg (by simp), this]
    · have hr : n ∈ r := by
        rcases List.mem_cons.1 hn with h' | h'
        · exact absurd h'.symm h
        · exact h'
      have hlt := hs.1 n hr
      simp only [nextOf, h, if_false]
      rw [ih hs.2 hr, List.filter_cons_of_neg]
      simp
      omega

/-- Where a live iterator points. -/
def pos (l : List Nat) (idx : Nat) : Option Nat := (l.filter fun a => idx ≤ a).head?

theorem pos_delete_hit {l : List Nat} (hs : l.Pairwise (· < ·)) {n idx : Nat}
    (h : pos l idx = some n) : pos (l.filter (· ≠ n)) idx = pos l (n + 1) := by
  induction l with
  | nil => simp [pos] at h
  | cons a r ih =>
    rw [List.pairwise_cons] at hs
    by_cases hle : idx ≤ a
    · have ha : a = n := by simpa [pos, List.filter_cons, hle] using h
      subst ha
      have h1 : r.filter (fun x => a + 1 ≤ x) = r := by
        rw [List.filter_eq_self]; intro x hx; have := hs.1 x hx; simp; omega
      have h2 : r.filter (· ≠ a) = r := by
        rw [List.filter_eq_self]; intro x hx; have := hs.1 x hx; simp; omega
      have h3 : r.filter (fun x => idx ≤ x) = r := by
        rw [List.filter_eq_self]; intro x hx; have := hs.1 x hx; simp; omega
      unfold pos
      rw [List.filter_cons_of_neg (l := r) (by simp), h2, h3, List.filter_cons_of_neg (by simp), h1]
    · have h' : pos r idx = some n := by simpa [pos, List.filter_cons, hle] using h
      have hn : n ∈ r := by
        have := List.mem_of_mem_head? (show n ∈ (r.filter fun x => idx ≤ x).head? from h')
        exact List.mem_of_mem_filter this
      have hlt := hs.1 n hn
      have := ih hs.2 h'
      unfold pos at this ⊢
      rw [List.filter_cons_of_pos (by simp; omega), List.filter_cons_of_neg (by simpa using hle),
        this, List.filter_cons_of_neg (by simp; omega)]

theorem pos_delete_miss {l : List Nat} {n idx : Nat} (h : pos l idx ≠ some n) :
    pos (l.filter (· ≠ n)) idx = pos l idx := by
  induction l with
  | nil => rfl
  | cons a r ih =>
    by_cases hle : idx ≤ a
    · have ha : a ≠ n := by simpa [pos, List.filter_cons, hle] using h
      unfold pos
      rw [List.filter_cons_of_pos (by simpa using ha), List.filter_cons_of_pos (by simpa using hle),
        List.filter_cons_of_pos (by simpa using hle)]
      rfl
    · have h' : pos r idx ≠ some n := by simpa [pos, List.filter_cons, hle] using h
      have := ih h'
      unfold pos at this ⊢
      by_cases ha : a = n
      · rw [List.filter_cons_of_neg (by simpa using ha), this,
          List.filter_cons_of_neg (by simpa using hle)]
      · rw [List.filter_cons_of_pos (by simpa using ha),
          List.filter_cons_of_neg (by simpa using hle), this,
          List.filter_cons_of_neg (by simpa using hle)]

/-- An iterator and its index in the specification. -/
def ItRel (l : List Nat) (len : Nat) (it : Iter) : Option Nat → Prop
  | none => it.done = true ∧ it.curr = none
  | some idx => it.done = false ∧ it.curr = pos l idx ∧ idx ≤ len

/-- The simulation relation. -/
structure Rel (P : K → Prop) (hash : K → Nat) (eqv : K → K → Bool) (o : Obj K V)
    (s : Spec.St K V) : Prop where
  mem : o.mem = s.data
  list : o.list = (recs s.data 0).map (·.1)
  hash : Hash.Inv P hash eqv o.hash (keysOf (recs s.data 0))
  len : o.iters.length = s.iters.length
  iters : ∀ (i : Nat) it x, o.iters[i]? = some it → s.iters[i]? = some x →
    ItRel o.list s.data.length it x

theorem rel_init : Rel P hash eqv (init : Obj K V) Spec.init where
  mem := rfl
  list := rfl
  hash := Hash.inv_init
  len := rfl
  iters := by intro i it x h; simp [init] at h

theorem sorted {o : Obj K V} {s : Spec.St K V} (hr : Rel P hash eqv o s) :
    o.list.Pairwise (· < ·) := by rw [hr.list]; exact recs_sorted _ _

theorem keys_get (d : List (Option (K × V))) (k : K) (i : Nat) :
    (Hash.Spec.get eqv (keysOf (recs d i)) k).isSome = d.any (Spec.isKey eqv k) := by
  induction d generalizing i with
  | nil => rfl
  | cons x d ih =>
    cases x with
    | none => simp [recs]; simpa using ih (i + 1)
    | some e =>
      have := ih (i + 1)
      unfold Hash.Spec.get keysOf at this ⊢
      simp only [recs, List.map_cons, List.any_cons, isKey_some]
      cases h : eqv e.1 k with
      | true => simp [h]
      | false =>
        rw [List.find?_cons_of_neg (by simp [h])]
        rw [this]
        simp

/-- The entry found in the hash table is the record of the key. -/
theorem keys_get_some {d : List (Option (K × V))} {k : K} {n : Nat}
    (h : Hash.Spec.get eqv (keysOf (recs d 0)) k = some n) :
    ∃ e, d[n]? = some (some e) ∧ eqv e.1 k = true := by
  unfold Hash.Spec.get at h
  rw [Option.map_eq_some_iff] at h
  obtain ⟨⟨k', n'⟩, h1, h2⟩ := h
  dsimp only at h2
  subst h2
  have hm := List.mem_of_find?_eq_some h1
  have he : eqv k' k = true := by simpa using List.find?_some h1
  unfold keysOf at hm
  obtain ⟨⟨j, e⟩, hj, hje⟩ := List.mem_map.1 hm
  simp only [Prod.mk.injEq] at hje
  obtain ⟨rfl, rfl⟩ := hje
  have := mem_recs.1 hj
  exact ⟨e, by simpa using this.2, he⟩

/-- Only one record has the key. -/
theorem unique_index (hk : Hash.Spec.KeyOps P hash eqv) {d : List (Option (K × V))}
    (hd : (keysOf (recs d 0)).Pairwise fun a b => eqv a.1 b.1 = false) {k : K} {n j : Nat}
    {e e' : K × V} (h1 : d[n]? = some (some e)) (h2 : d[j]? = some (some e'))
    (k1 : eqv e.1 k = true) (k2 : eqv e'.1 k = true) : n = j := by
  have m1 : (e.1, n) ∈ keysOf (recs d 0) :=
    List.mem_map.2 ⟨(n, e), mem_recs.2 ⟨Nat.zero_le _, by simpa using h1⟩, rfl⟩
  have m2 : (e'.1, j) ∈ keysOf (recs d 0) :=
    List.mem_map.2 ⟨(j, e'), mem_recs.2 ⟨Nat.zero_le _, by simpa using h2⟩, rfl⟩
  have := Hash.unique hk hd m1 m2 (hk.trans _ _ _ k1 (hk.symm _ _ k2))
  exact congrArg Prod.snd this

theorem data_get (hk : Hash.Spec.KeyOps P hash eqv) {s : Spec.St K V}
    (hd : (keysOf (recs s.data 0)).Pairwise fun a b => eqv a.1 b.1 = false) {k : K} {n : Nat}
    {e : K × V} (h1 : s.data[n]? = some (some e)) (k1 : eqv e.1 k = true) :
    Spec.get eqv s k = some e.2 := by
  unfold Spec.get
  cases h : s.data.find? (Spec.isKey eqv k) with
  | none =>
    have := List.find?_eq_none.1 h (some e) (List.mem_of_getElem? h1)
    simp [Spec.isKey, k1] at this
  | some r =>
    have hm := List.mem_of_find?_eq_some h
    have hr := List.find?_some h
    obtain ⟨j, hj⟩ := List.getElem?_of_mem hm
    cases r with
    | none => simp [Spec.isKey] at hr
    | some e' =>
      have : n = j := unique_index hk hd h1 hj k1 hr
      subst this
      rw [h1] at hj
      cases hj
      rfl

theorem map_eq_set {d : List (Option (K × V))} {n : Nat} {y : Option (K × V)}
    {f : Option (K × V) → Option (K × V)} (h : ∀ j x, d[j]? = some x → (j = n → f x = y) ∧ (j ≠ n → f x = x)) :
    d.map f = d.set n y := by
  apply List.ext_getElem?
  intro j
  rw [List.getElem?_map, List.getElem?_set]
  cases hj : d[j]? with
  | none =>
    have : d.length ≤ j := List.getElem?_eq_none_iff.1 hj
    by_cases e : n = j
    · subst e; simp [Nat.not_lt.2 this]
    · simp [e]
  | some x =>
    have hlt : j < d.length := (List.getElem?_eq_some_iff.1 hj).1
    by_cases e : n = j
    · subst e
      simp [hlt, (h _ x hj).1 rfl]
    · simp [e, (h _ x hj).2 (fun e' => e e'.symm)]

theorem clear_mem (d : List (Option (K × V))) :
    ((recs d 0).map (·.1)).foldl (fun m n => m.set n none) d =
      d.map fun _ => (none : Option (K × V)) := by
  have gen : ∀ (l : List Nat) (m : List (Option (K × V))) (j : Nat),
      (l.foldl (fun m n => m.set n none) m)[j]? =
        if j ∈ l ∧ j < m.length then some none else m[j]? := by
    intro l
    induction l with
    | nil => intro m j; simp
    | cons a l ih =>
      intro m j
      rw [List.foldl_cons, ih, List.length_set, List.getElem?_set]
      by_cases h1 : j ∈ l ∧ j < m.length
      · simp [h1]
      · by_cases h2 : a = j
        · subst h2
          by_cases h3 : a < m.length
          · simp [h3]
          · have : m[a]? = none := List.getElem?_eq_none_iff.2 (by omega)
            simp [h3, this]
        · have h2' : j ≠ a := fun e => h2 e.symm
          simp [h1, h2, h2']
  apply List.ext_getElem?
  intro j
  rw [gen, List.getElem?_map]
  cases hj : d[j]? with
  | none =>
    have : d.length ≤ j := List.getElem?_eq_none_iff.1 hj
    simp [Nat.not_lt.2 this]
  | some x =>
    have hlt : j < d.length := (List.getElem?_eq_some_iff.1 hj).1
    cases x with
    | none => simp
    | some e =>
      have : j ∈ (recs d 0).map (·.1) :=
        List.mem_map.2 ⟨(j, e), mem_recs.2 ⟨Nat.zero_le _, by simpa using hj⟩, rfl⟩
      rw [if_pos ⟨this, hlt⟩]
      rfl

theorem list_lt {o : Obj K V} {s : Spec.St K V} (hr : Rel P hash eqv o s) :
    ∀ n ∈ o.list, n < s.data.length := by
  intro n hn
  rw [hr.list] at hn
  obtain ⟨⟨j, e⟩, hj, rfl⟩ := List.mem_map.1 hn
  have := (mem_recs.1 hj).2
  simpa using (List.getElem?_eq_some_iff.1 this).1

theorem pos_append {l : List Nat} {idx n : Nat} (h : idx ≤ n) :
    pos (l ++ [n]) idx = (pos l idx).or (some n) := by
  unfold pos
  rw [List.filter_append, List.head?_append]
  simp [h]

theorem set_sim (hk : Hash.Spec.KeyOps P hash eqv) (hn : ∀ k, P k → norm k = k) {o : Obj K V} {s : Spec.St K V}
    (hr : Rel P hash eqv o s) {k : K} (v : V) (hP : P k) :
    ∃ o', set hash eqv o k v = some o' ∧ Rel P hash eqv o' (Spec.step norm eqv s (.set k v)).2 := by
  have hl := Hash.lookup_fst hr.hash hk hP
  have hany := keys_get (eqv := eqv) s.data k 0
  unfold set
  cases hf : Hash.Spec.get eqv (keysOf (recs s.data 0)) k with
  | none =>
    rw [hf] at hl hany
    simp only [Option.isSome_none] at hany
    obtain ⟨t, ht, hi⟩ := Hash.inv_insert hr.hash o.mem.length hP hf true
    simp only [if_true] at ht
    simp only [hl, ht]
    refine ⟨_, rfl, ?_⟩
    have hstep : (Spec.step norm eqv s (.set k v)).2 = { s with data := s.data ++ [some (k, v)] } := by
      simp [Spec.step, ← hany, hn k hP]
    rw [hstep]
    have hrecs : recs (s.data ++ [some (k, v)]) 0 = recs s.data 0 ++ [(s.data.length, (k, v))] := by
      rw [recs_append]; simp [recs]
    refine ⟨by simp [hr.mem], ?_, ?_, by simp [hr.len], ?_⟩
    · simp only [hrecs, List.map_append, List.map_cons, List.map_nil, hr.list, hr.mem]
    · simp only [hrecs, keysOf, List.map_append, List.map_cons, List.map_nil]
      rw [hr.mem] at hi
      exact hi
    · intro i it x hit hx
      rw [List.getElem?_map, Option.map_eq_some_iff] at hit
      obtain ⟨it0, h0, rfl⟩ := hit
      have := hr.iters i it0 x h0 hx
      cases x with
      | none =>
        obtain ⟨h1, h2⟩ := this
        simp [ItRel, h1, h2]
      | some idx =>
        obtain ⟨h1, h2, h3⟩ := this
        have hp := pos_append (l := o.list) (n := o.mem.length) (idx := idx)
          (by rw [hr.mem]; exact h3)
        simp only [ItRel, List.length_append, List.length_cons, List.length_nil]
        rw [hp, ← h2]
        cases hc : it0.curr with
        | none => simp [h1]; omega
        | some c => simp [h1, hc]; omega
  | some n =>
    rw [hf] at hl hany
    simp only [Option.isSome_some] at hany
    obtain ⟨e, he, hek⟩ := keys_get_some hf
    have hent : entry o n = some e := by simp [entry, hr.mem, he]
    simp only [hl, hent]
    refine ⟨_, rfl, ?_⟩
    have hstep : (Spec.step norm eqv s (.set k v)).2 = { s with data := s.data.map (setVal eqv k v) } := by
      simp only [Spec.step, ← hany, if_true]
      congr 1
    rw [hstep]
    have hset : s.data.map (setVal eqv k v) = s.data.set n (some (e.1, v)) := by
      apply map_eq_set
      intro j x hx
      constructor
      · rintro rfl
        rw [he] at hx
        cases hx
        simp [setVal, hek]
      · intro hne
        cases x with
        | none => rfl
        | some e' =>
          cases h : eqv e'.1 k with
          | false => simp [setVal, h]
          | true => exact absurd (unique_index hk hr.hash.distinct hx he h hek) hne
    have hkeys : keysOf (recs (s.data.map (setVal eqv k v)) 0) = keysOf (recs s.data 0) := by
      unfold keysOf
      rw [recs_set, List.map_map]
      apply List.map_congr_left
      rintro ⟨j, e'⟩ _
      cases h : eqv e'.1 k <;> simp [h]
    have hlist : (recs (s.data.map (setVal eqv k v)) 0).map (·.1) = (recs s.data 0).map (·.1) := by
      rw [recs_set, List.map_map]
      rfl
    refine ⟨by simp [hr.mem, hset], ?_, ?_, hr.len, ?_⟩
    · simp only [hlist]; exact hr.list
    · simp only [hkeys]; exact hr.hash
    · intro i it x hit hx
      have := hr.iters i it x hit hx
      simpa using this

theorem delete_sim (norm : K → K) (hk : Hash.Spec.KeyOps P hash eqv) {o : Obj K V} {s : Spec.St K V}
    (hr : Rel P hash eqv o s) {k : K} (hP : P k) :
    ∃ o', delete hash eqv o k = some (s.data.any (Spec.isKey eqv k), o') ∧
      Rel P hash eqv o' (Spec.step norm eqv s (.delete k)).2 := by
  have hl := Hash.lookup_fst hr.hash hk hP
  have hany := keys_get (eqv := eqv) s.data k 0
  unfold delete
  cases hf : Hash.Spec.get eqv (keysOf (recs s.data 0)) k with
  | none =>
    rw [hf] at hl hany
    simp only [Option.isSome_none] at hany
    simp only [hl]
    refine ⟨o, by rw [← hany], ?_⟩
    have hstep : (Spec.step norm eqv s (.delete k)).2 = s := by
      simp only [Spec.step]
      have : s.data.map (fun r => if Spec.isKey eqv k r = true then none else r) = s.data := by
        conv => rhs; rw [← List.map_id s.data]
        apply List.map_congr_left
        intro r hrm
        have := (List.any_eq_false.1 hany.symm) r hrm
        simp [this]
      rw [this]
    rw [hstep]
    exact hr
  | some n =>
    have hf' := hf
    rw [hf] at hl hany
    simp only [Option.isSome_some] at hany
    obtain ⟨e, he, hek⟩ := keys_get_some hf
    obtain ⟨t, ht, hi⟩ := Hash.inv_remove hr.hash hk hP hf'
    have hnl : n ∈ o.list := by
      rw [hr.list]
      exact List.mem_map.2 ⟨(n, e), mem_recs.2 ⟨Nat.zero_le _, by simpa using he⟩, rfl⟩
    have hnx := nextOf_sorted (sorted hr) hnl
    simp only [hl, ht, hnx]
    refine ⟨_, by rw [← hany], ?_⟩
    have hother : ∀ j x, s.data[j]? = some x → j ≠ n → Spec.isKey eqv k x = false := by
      intro j x hx hne
      cases x with
      | none => rfl
      | some e' =>
        cases h : eqv e'.1 k with
        | false => simp [h]
        | true => exact absurd (unique_index hk hr.hash.distinct hx he h hek) hne
    have hset : s.data.map (fun r => if Spec.isKey eqv k r = true then none else r) =
        s.data.set n none := by
      apply map_eq_set
      intro j x hx
      constructor
      · rintro rfl
        rw [he] at hx
        cases hx
        simp [hek]
      · intro hne
        simp [hother j x hx hne]
    have hfilter : (recs s.data 0).filter (fun r => !eqv r.2.1 k) =
        (recs s.data 0).filter (fun r => decide (r.1 ≠ n)) := by
      apply List.filter_congr
      rintro ⟨j, e'⟩ hj
      have hj' := (mem_recs.1 hj).2
      simp only [Nat.sub_zero] at hj'
      by_cases hjn : j = n
      · subst hjn
        rw [he] at hj'
        cases hj'
        simp [hek]
      · have := hother j _ hj' hjn
        simp only [isKey_some] at this
        simp [this, hjn]
    have hrecs : recs (s.data.map fun r => if Spec.isKey eqv k r = true then none else r) 0 =
        (recs s.data 0).filter (fun r => !eqv r.2.1 k) := recs_delete _ _ _
    have hlist : (recs (s.data.map fun r => if Spec.isKey eqv k r = true then none else r) 0).map (·.1)
        = o.list.filter (· ≠ n) := by
      rw [hrecs, hfilter, hr.list, List.filter_map]
      rfl
    have hkeys : keysOf (recs (s.data.map fun r => if Spec.isKey eqv k r = true then none else r) 0)
        = (keysOf (recs s.data 0)).filter (fun e => !eqv e.1 k) := by
      rw [hrecs]
      unfold keysOf
      rw [List.filter_map]
      rfl
    refine ⟨by simp only [Spec.step, hr.mem, hset], by simp only [Spec.step, hlist], ?_,
      by simp [Spec.step, hr.len], ?_⟩
    · simp only [Spec.step, hkeys]; exact hi
    · intro i it x hit hx
      rw [List.getElem?_map, Option.map_eq_some_iff] at hit
      obtain ⟨it0, h0, rfl⟩ := hit
      have := hr.iters i it0 x h0 hx
      cases x with
      | none =>
        obtain ⟨h1, h2⟩ := this
        simp [ItRel, h1, h2]
      | some idx =>
        obtain ⟨h1, h2, h3⟩ := this
        simp only [ItRel, Spec.step, List.length_map]
        by_cases hc : it0.curr = some n
        · have hp := pos_delete_hit (sorted hr) (h2.symm.trans hc)
          refine ⟨by simp [hc, h1], ?_, h3⟩
          simp only [hc, beq_self_eq_true, if_true]
          rw [hp]
          rfl
        · have hp := pos_delete_miss (l := o.list) (n := n) (idx := idx) (by rw [← h2]; exact hc)
          refine ⟨by simp [hc, h1], ?_, h3⟩
          simp only [beq_iff_eq, hc, if_false]
          rw [hp]
          exact h2

theorem clear_sim (norm : K → K) {o : Obj K V} {s : Spec.St K V} (hr : Rel P hash eqv o s) :
    Rel P hash eqv (clear o) (Spec.step norm eqv s .clear).2 := by
  have hrecs := recs_clear s.data 0
  refine ⟨?_, ?_, ?_, by simp [clear, Spec.step, hr.len], ?_⟩
  · simp only [clear, Spec.step, hr.list, hr.mem]
    exact clear_mem s.data
  · simp only [clear, Spec.step, hrecs, List.map_nil]
  · simp only [clear, Spec.step, hrecs, keysOf, List.map_nil]
    exact Hash.inv_init
  · intro i it x hit hx
    simp only [clear] at hit
    rw [List.getElem?_map, Option.map_eq_some_iff] at hit
    obtain ⟨it0, h0, rfl⟩ := hit
    have := hr.iters i it0 x h0 hx
    cases x with
    | none => exact ⟨this.1, rfl⟩
    | some idx => exact ⟨this.1, rfl, by simpa [Spec.step] using this.2.2⟩

theorem iterNew_sim (norm : K → K) {o : Obj K V} {s : Spec.St K V} (hr : Rel P hash eqv o s) :
    Rel P hash eqv (iterNew o) (Spec.step norm eqv s .iterator).2 := by
  refine ⟨hr.mem, hr.list, hr.hash, by simp [iterNew, Spec.step, hr.len], ?_⟩
  intro i it x hit hx
  simp only [iterNew, Spec.step] at hit hx ⊢
  rw [List.getElem?_append] at hit hx
  rw [hr.len] at hit
  by_cases h : i < s.iters.length
  · simp only [h, if_true] at hit hx
    exact hr.iters i it x hit hx
  · simp only [h, if_false] at hit hx
    have h0 : i - s.iters.length = 0 := by
      by_contra hne
      obtain ⟨m, hm⟩ := Nat.exists_eq_succ_of_ne_zero hne
      rw [hm] at hx
      simp at hx
    rw [h0] at hit hx
    simp at hit hx
    subst hit
    subst hx
    exact ⟨rfl, by simp [pos], Nat.zero_le _⟩

theorem map_head_filter (R : List (Nat × (K × V))) (idx : Nat) :
    pos (R.map (·.1)) idx = ((R.filter fun r => idx ≤ r.1).head?).map (·.1) := by
  unfold pos
  rw [List.filter_map, List.head?_map]
  rfl

theorem iterNext_sim (norm : K → K) {o : Obj K V} {s : Spec.St K V} (hr : Rel P hash eqv o s)
    {i : Nat} (hi : i < o.iters.length) :
    ∃ e o', iterNext o i = some (e, o') ∧ (Spec.step norm eqv s (.next i)).1 = .item e ∧
      Rel P hash eqv o' (Spec.step norm eqv s (.next i)).2 := by
  have hi' : i < s.iters.length := by rw [← hr.len]; exact hi
  obtain ⟨it, hit⟩ : ∃ it, o.iters[i]? = some it := ⟨_, List.getElem?_eq_getElem hi⟩
  obtain ⟨x, hx⟩ : ∃ x, s.iters[i]? = some x := ⟨_, List.getElem?_eq_getElem hi'⟩
  have hrel := hr.iters i it x hit hx
  -- replacing one iterator on both sides keeps the relation
  have hupd : ∀ it' x', ItRel o.list s.data.length it' x' →
      Rel P hash eqv { o with iters := o.iters.set i it' } { s with iters := s.iters.set i x' } := by
    intro it' x' hrel'
    refine ⟨hr.mem, hr.list, hr.hash, by simp [hr.len], ?_⟩
    intro j jt jx hj hjx
    simp only at hj hjx
    rw [List.getElem?_set] at hj hjx
    by_cases e : i = j
    · subst e
      simp [hi] at hj
      simp [hi'] at hjx
      subst hj
      subst hjx
      exact hrel'
    · simp [e] at hj hjx
      exact hr.iters j jt jx hj hjx
  unfold iterNext
  simp only [hit]
  cases x with
  | none =>
    obtain ⟨h1, h2⟩ := hrel
    simp only [h2]
    refine ⟨_, _, rfl, by simp [Spec.step, hx], ?_⟩
    have := hupd ⟨none, true⟩ none ⟨rfl, rfl⟩
    have e : s.iters.set i none = s.iters := by
      apply List.ext_getElem?
      intro j
      rw [List.getElem?_set]
      by_cases e : i = j
      · subst e; rw [hx]; simp [hi']
      · simp [e]
    rw [e] at this
    simpa [Spec.step, hx] using this
  | some idx =>
    obtain ⟨h1, h2, h3⟩ := hrel
    have hnf : Spec.nextFrom (s.data.drop idx) idx =
        ((recs s.data 0).filter fun r => idx ≤ r.1).head? := by
      rw [nextFrom_eq]
      have := recs_drop s.data 0 idx
      simp only [Nat.zero_add] at this
      rw [this]
    have hpos : it.curr = (Spec.nextFrom (s.data.drop idx) idx).map (·.1) := by
      rw [h2, hnf, hr.list, map_head_filter]
    cases hn : Spec.nextFrom (s.data.drop idx) idx with
    | none =>
      rw [hn] at hpos
      simp only [Option.map_none] at hpos
      simp only [hpos]
      refine ⟨_, _, rfl, by simp [Spec.step, hx, hn], ?_⟩
      have := hupd ⟨none, true⟩ none ⟨rfl, rfl⟩
      simpa [Spec.step, hx, hn] using this
    | some q =>
      obtain ⟨j, e⟩ := q
      rw [hn] at hpos
      simp only [Option.map_some] at hpos
      rw [hnf] at hn
      have hm : (j, e) ∈ (recs s.data 0).filter fun r => idx ≤ r.1 :=
        List.mem_of_mem_head? (show (j, e) ∈ _ from hn)
      have hjr := List.mem_of_mem_filter hm
      have hd := (mem_recs.1 hjr).2
      simp only [Nat.sub_zero] at hd
      have hjl : j ∈ o.list := by rw [hr.list]; exact List.mem_map.2 ⟨_, hjr, rfl⟩
      have hent : entry o j = some e := by simp [entry, hr.mem, hd]
      have hnx := nextOf_sorted (sorted hr) hjl
      simp only [hpos, hent, hnx]
      have hn' : Spec.nextFrom (s.data.drop idx) idx = some (j, e) := by rw [hnf]; exact hn
      refine ⟨_, _, rfl, by simp [Spec.step, hx, hn'], ?_⟩
      have := hupd { it with curr := pos o.list (j + 1) } (some (j + 1))
        ⟨h1, rfl, (List.getElem?_eq_some_iff.1 hd).1⟩
      simpa [Spec.step, hx, hn', pos] using this

theorem step_sim (hk : Hash.Spec.KeyOps P hash eqv) (hn : ∀ k, P k → norm k = k) {o : Obj K V}
    {s : Spec.St K V} (hr : Rel P hash eqv o s) (p : Op K V)
    (hP : ∀ k, Spec.opKey p = some k → P k) :
    ∃ o', step hash eqv o p = some ((Spec.step norm eqv s p).1, o') ∧
      Rel P hash eqv o' (Spec.step norm eqv s p).2 := by
  cases p with
  | set k v =>
    obtain ⟨o', h1, h2⟩ := set_sim hk hn hr v (hP k rfl)
    exact ⟨o', by simp [step, h1, Spec.step], h2⟩
  | get k =>
    refine ⟨o, ?_, hr⟩
    have hl := Hash.lookup_fst hr.hash hk (hP k rfl)
    simp only [step, get, Spec.step]
    rw [hl]
    cases hf : Hash.Spec.get eqv (keysOf (recs s.data 0)) k with
    | none =>
      have hany := keys_get (eqv := eqv) s.data k 0
      rw [hf] at hany
      have : s.data.find? (Spec.isKey eqv k) = none := by
        rw [List.find?_eq_none]
        intro r hrm
        exact (List.any_eq_false.1 hany.symm) r hrm
      simp [Spec.get, this]
    | some n =>
      obtain ⟨e, he, hek⟩ := keys_get_some hf
      have hent : entry o n = some e := by simp [entry, hr.mem, he]
      simp [hent, data_get hk hr.hash.distinct he hek]
  | has k =>
    refine ⟨o, ?_, hr⟩
    have hl := Hash.lookup_fst hr.hash hk (hP k rfl)
    simp only [step, Spec.step, hl, keys_get]
  | delete k =>
    obtain ⟨o', h1, h2⟩ := delete_sim norm hk hr (hP k rfl)
    exact ⟨o', by simp [step, h1, Spec.step], h2⟩
  | clear => exact ⟨_, rfl, clear_sim norm hr⟩
  | size =>
    refine ⟨o, ?_, hr⟩
    simp [step, Spec.step, hr.hash.num, keysOf, recs_length]
  | iterator => exact ⟨_, rfl, iterNew_sim norm hr⟩
  | next i =>
    by_cases h : i < o.iters.length
    · obtain ⟨e, o', h1, h2, h3⟩ := iterNext_sim norm hr h
      exact ⟨o', by simp [step, h, h1, h2], h3⟩
    · refine ⟨o, ?_, ?_⟩
      · have : s.iters[i]? = none := List.getElem?_eq_none_iff.2 (by rw [← hr.len]; omega)
        simp [step, h, Spec.step, this]
      · have : s.iters[i]? = none := List.getElem?_eq_none_iff.2 (by rw [← hr.len]; omega)
        simpa [Spec.step, this] using hr

theorem run_sim (hk : Hash.Spec.KeyOps P hash eqv) (hn : ∀ k, P k → norm k = k)
    (ps : List (Op K V)) : ∀ (o : Obj K V) (s : Spec.St K V), Rel P hash eqv o s →
    (∀ p ∈ ps, ∀ k, Spec.opKey p = some k → P k) →
    ∃ o', run hash eqv o ps = some ((Spec.run norm eqv s ps).1, o') ∧
      Rel P hash eqv o' (Spec.run norm eqv s ps).2 := by
  induction ps with
  | nil => intro o s hr _; exact ⟨o, rfl, hr⟩
  | cons p ps ih =>
    intro o s hr hP
    obtain ⟨o1, h1, hr1⟩ := step_sim hk hn hr p (hP p (List.mem_cons_self ..))
    obtain ⟨o2, h2, hr2⟩ := ih o1 _ hr1 (fun p' hp' => hP p' (List.mem_cons_of_mem _ hp'))
    exact ⟨o2, by simp [run, h1, h2, Spec.run], hr2⟩

end Verif.MapSet

import Verif.Spec.Hash
import Mathlib.Data.List.Perm.Basic
import Mathlib.Data.List.InsertIdx
import Mathlib.Data.List.Pairwise
/-
Helper lemmas for the hash table: the simulation relation between a table and the
association list, and its preservation.
-/
namespace Verif.Hash

variable {K V : Type} {P : K → Prop} {hash : K → Nat} {eqv : K → K → Bool}

/-- The simulation relation. -/
structure Inv (P : K → Prop) (hash : K → Nat) (eqv : K → K → Bool) (t : Table K V)
    (s : List (K × V)) : Prop where
  pos : 0 < t.lists.length
  perm : t.lists.flatten.Perm s
  num : t.entryNum = s.length
  place : ∀ i l, t.lists[i]? = some l → ∀ e ∈ l, bucketOf hash t.lists.length e.1 = i
  distinct : s.Pairwise fun a b => eqv a.1 b.1 = false
  keys : ∀ e ∈ s, P e.1

theorem inv_init : Inv P hash eqv (init : Table K V) [] where
  pos := by simp [init]
  perm := by simp [init]
  num := by simp [init]
  place := by
    intro i l h e he
    cases i with
    | zero => simp [init] at h; subst h; cases he
    | succ i => simp [init] at h
  distinct := List.Pairwise.nil
  keys := by simp

theorem bucketOf_lt {n : Nat} (h : 0 < n) (k : K) : bucketOf hash n k < n := by
  unfold bucketOf
  split
  · exact h
  · exact Nat.mod_lt _ h

theorem walk_fst (k : K) (l : List (K × V)) :
    (walk eqv k l).1 = (l.find? fun e => eqv e.1 k).map (·.2) := by
  induction l with
  | nil => rfl
  | cons e r ih =>
    by_cases h : eqv e.1 k = true
    · simp [walk, h]
    · simp [walk, h, ih]

theorem walk_snd_le (k : K) (l : List (K × V)) : (walk eqv k l).2 ≤ l.length := by
  induction l with
  | nil => simp [walk]
  | cons e r ih =>
    by_cases h : eqv e.1 k = true
    · simp [walk, h]
    · simp [walk, h]; exact ih

theorem walk_found (k : K) (l : List (K × V)) (v : V) (h : (walk eqv k l).1 = some v) :
    ∃ k', l[(walk eqv k l).2]? = some (k', v) ∧ eqv k' k = true := by
  induction l with
  | nil => simp [walk] at h
  | cons e r ih =>
    by_cases he : eqv e.1 k = true
    · simp [walk, he] at h ⊢
      exact ⟨e.1, by rw [← h], he⟩
    · simp [walk, he] at h ⊢
      exact ih h

theorem flatten_modify_perm {α : Type} (L : List (List α)) (i : Nat) (f : List α → List α)
    (l : List α) (e : α) (hl : L[i]? = some l) (h : (f l).Perm (e :: l)) :
    (L.modify i f).flatten.Perm (e :: L.flatten) := by
  induction L generalizing i with
  | nil => simp at hl
  | cons a L ih =>
    cases i with
    | zero =>
      simp at hl
      subst hl
      simpa using h.append_right L.flatten
    | succ i =>
      simp at hl
      have := ih i hl
      simp only [List.modify_succ_cons, List.flatten_cons]
      exact (this.append_left a).trans List.perm_middle

theorem flatten_modify_perm' {α : Type} (L : List (List α)) (i : Nat) (f : List α → List α)
    (l : List α) (e : α) (hl : L[i]? = some l) (h : l.Perm (e :: f l)) :
    L.flatten.Perm (e :: (L.modify i f).flatten) := by
  induction L generalizing i with
  | nil => simp at hl
  | cons a L ih =>
    cases i with
    | zero =>
      simp at hl
      subst hl
      simpa using h.append_right L.flatten
    | succ i =>
      simp at hl
      have := ih i hl
      simp only [List.modify_succ_cons, List.flatten_cons]
      exact (this.append_left a).trans List.perm_middle

theorem unique (hk : Spec.KeyOps P hash eqv) {s : List (K × V)}
    (hd : s.Pairwise fun a b => eqv a.1 b.1 = false) {a b : K × V} (ha : a ∈ s) (hb : b ∈ s)
    (h : eqv a.1 b.1 = true) : a = b := by
  by_contra hne
  haveI : Std.Symm (fun a b : K × V => eqv a.1 b.1 = false) := ⟨fun x y hxy => by
      cases hyx : eqv y.1 x.1 with
      | false => rfl
      | true => rw [hk.symm _ _ hyx] at hxy; cases hxy⟩
  have := List.Pairwise.forall hd ha hb hne
  rw [this] at h
  cases h

/-- With distinct keys, a search finds an entry iff it is there. -/
theorem find_eq_some_iff (hk : Spec.KeyOps P hash eqv) {s : List (K × V)}
    (hd : s.Pairwise fun a b => eqv a.1 b.1 = false) (k : K) (e : K × V) :
    (s.find? fun e => eqv e.1 k) = some e ↔ e ∈ s ∧ eqv e.1 k = true := by
  constructor
  · intro h
    exact ⟨List.mem_of_find?_eq_some h, by simpa using List.find?_some h⟩
  · rintro ⟨hm, he⟩
    cases h : s.find? fun e => eqv e.1 k with
    | none =>
      have := List.find?_eq_none.1 h e hm
      simp [he] at this
    | some e' =>
      have hm' := List.mem_of_find?_eq_some h
      have he' : eqv e'.1 k = true := by simpa using List.find?_some h
      rw [unique hk hd hm' hm (hk.trans _ _ _ he' (hk.symm _ _ he))]

theorem bucket_mem {t : Table K V} {s : List (K × V)} (hi : Inv P hash eqv t s)
    (hk : Spec.KeyOps P hash eqv) {k : K} (hP : P k) (e : K × V) (he : eqv e.1 k = true) :
    e ∈ t.lists.getD (bucketOf hash t.lists.length k) [] ↔ e ∈ s := by
  have hlt := bucketOf_lt (hash := hash) hi.pos k
  obtain ⟨l, hl⟩ : ∃ l, t.lists[bucketOf hash t.lists.length k]? = some l :=
    ⟨_, List.getElem?_eq_getElem hlt⟩
  have hg : t.lists.getD (bucketOf hash t.lists.length k) [] = l := by
    simp [List.getD, hl]
  rw [hg]
  constructor
  · intro hm
    exact hi.perm.subset (List.mem_flatten.2 ⟨l, List.mem_of_getElem? hl, hm⟩)
  · intro hm
    obtain ⟨l', hl', hm'⟩ := List.mem_flatten.1 (hi.perm.symm.subset hm)
    obtain ⟨i, hi'⟩ := List.getElem?_of_mem hl'
    have hp := hi.place i l' hi' e hm'
    have : bucketOf hash t.lists.length e.1 = bucketOf hash t.lists.length k := by
      unfold bucketOf
      rw [hk.hash _ _ (hi.keys e hm) hP he]
    rw [← hp, this, hl] at hi'
    cases hi'
    exact hm'

theorem lookup_fst {t : Table K V} {s : List (K × V)} (hi : Inv P hash eqv t s)
    (hk : Spec.KeyOps P hash eqv) {k : K} (hP : P k) :
    (lookup hash eqv t k).1 = Spec.get eqv s k := by
  unfold lookup
  by_cases h0 : t.entryNum = 0
  · have hs : s = [] := List.length_eq_zero_iff.1 (by rw [← hi.num]; exact h0)
    simp [h0, hs, Spec.get]
  · simp only [h0, if_false]
    rw [walk_fst]
    unfold Spec.get
    congr 1
    generalize hb : t.lists.getD (bucketOf hash t.lists.length k) [] = b
    have hmem := fun e he => bucket_mem (k := k) hi hk hP e he
    rw [hb] at hmem
    cases h : b.find? fun e => eqv e.1 k with
    | none =>
      symm
      rw [List.find?_eq_none]
      intro e hm he
      have he' : eqv e.1 k = true := by simpa using he
      have := List.find?_eq_none.1 h e ((hmem e he').2 hm)
      simp [he'] at this
    | some e =>
      symm
      have hm := List.mem_of_find?_eq_some h
      have he : eqv e.1 k = true := by simpa using List.find?_some h
      exact (find_eq_some_iff hk hi.distinct k e).2 ⟨(hmem e he).1 hm, he⟩

theorem push_length (nb : List (List (K × V))) (e : K × V) :
    (push hash nb e).length = nb.length := by simp [push]

theorem foldl_push_length (es : List (K × V)) (nb : List (List (K × V))) :
    (es.foldl (push hash) nb).length = nb.length := by
  induction es generalizing nb with
  | nil => rfl
  | cons e es ih => rw [List.foldl_cons, ih, push_length]

theorem foldl_push_perm (es : List (K × V)) (nb : List (List (K × V))) (h : 0 < nb.length) :
    (es.foldl (push hash) nb).flatten.Perm (es ++ nb.flatten) := by
  induction es generalizing nb with
  | nil => simp
  | cons e es ih =>
    rw [List.foldl_cons]
    refine (ih _ (by rw [push_length]; exact h)).trans ?_
    have hlt : hash e.1 % nb.length < nb.length := Nat.mod_lt _ h
    have := flatten_modify_perm nb _ (e :: ·) _ e (List.getElem?_eq_getElem hlt) (List.Perm.refl _)
    exact (this.append_left es).trans List.perm_middle

theorem getElem?_modify_cases {α : Type} {L : List (List α)} {i j : Nat} {f : List α → List α}
    {l : List α} (h : (L.modify i f)[j]? = some l) :
    (j = i ∧ ∃ l', L[i]? = some l' ∧ l = f l') ∨ (j ≠ i ∧ L[j]? = some l) := by
  rw [List.getElem?_modify] at h
  by_cases hij : i = j
  · subst hij
    left
    cases hL : L[i]? with
    | none => simp [hL] at h
    | some l' => simp [hL] at h; exact ⟨rfl, l', rfl, h.symm⟩
  · right
    simp [hij] at h
    exact ⟨fun h => hij h.symm, h⟩

theorem foldl_push_place (es : List (K × V)) (nb : List (List (K × V)))
    (h : ∀ i l, nb[i]? = some l → ∀ e ∈ l, hash e.1 % nb.length = i) :
    ∀ i l, (es.foldl (push hash) nb)[i]? = some l → ∀ e ∈ l, hash e.1 % nb.length = i := by
  induction es generalizing nb with
  | nil => exact h
  | cons e es ih =>
    rw [List.foldl_cons]
    have := ih (push hash nb e) (by
      intro i l hl e' he'
      rw [push_length]
      rcases getElem?_modify_cases hl with ⟨hj, l', hl', rfl⟩ | ⟨hj, hl'⟩
      · rcases List.mem_cons.1 he' with rfl | he'
        · exact hj.symm
        · rw [hj]; exact h _ l' hl' e' he'
      · exact h i l hl' e' he')
    rw [push_length] at this
    exact this

theorem inv_expand {t : Table K V} {s : List (K × V)} (hi : Inv P hash eqv t s) :
    Inv P hash eqv (expand hash t) s := by
  have hlen : (expand hash t).lists.length = max t.entryNum 8 := by
    simp [expand, foldl_push_length]
  have h8 : 8 ≤ max t.entryNum 8 := Nat.le_max_right _ _
  refine ⟨by omega, ?_, hi.num, ?_, hi.distinct, hi.keys⟩
  · refine (foldl_push_perm _ _ ?_).trans ?_
    · simp only [List.length_replicate]; omega
    · simpa using hi.perm
  · intro i l hl e he
    have := foldl_push_place (hash := hash) t.lists.flatten
      (List.replicate (max t.entryNum 8) ([] : List (K × V))) (by
        intro i l hl e he
        have := List.mem_of_getElem? hl
        rw [List.eq_of_mem_replicate this] at he
        cases he) i l hl e he
    rw [List.length_replicate] at this
    rw [hlen]
    unfold bucketOf
    rw [if_neg (by omega)]
    exact this

theorem insertIdx_perm {α : Type} (l : List α) (j : Nat) (e : α) (h : j ≤ l.length) :
    (l.insertIdx j e).Perm (e :: l) := List.perm_insertIdx e l h

theorem mem_insertIdx {α : Type} {l : List α} {j : Nat} {e x : α} (h : j ≤ l.length) :
    x ∈ l.insertIdx j e ↔ x = e ∨ x ∈ l := List.mem_insertIdx h

theorem inv_insertAt {t : Table K V} {s : List (K × V)} (hi : Inv P hash eqv t s)
    {k : K} {v : V} {j : Nat} (hP : P k)
    (hnew : ∀ e ∈ s, eqv e.1 k = false)
    (hj : j ≤ (t.lists.getD (bucketOf hash t.lists.length k) []).length) :
    ∃ t', insertAt t (bucketOf hash t.lists.length k, j) (k, v) = some t' ∧
      Inv P hash eqv t' (s ++ [(k, v)]) := by
  have hlt := bucketOf_lt (hash := hash) hi.pos k
  obtain ⟨l, hl⟩ : ∃ l, t.lists[bucketOf hash t.lists.length k]? = some l :=
    ⟨_, List.getElem?_eq_getElem hlt⟩
  have hg : t.lists.getD (bucketOf hash t.lists.length k) [] = l := by
    simp [List.getD, hl]
  rw [hg] at hj
  refine ⟨_, by unfold insertAt; simp only [hl, hj, if_true]; rfl, ?_⟩
  refine ⟨by simpa using hi.pos, ?_, by simp [hi.num], ?_, ?_, ?_⟩
  · refine (flatten_modify_perm _ _ _ l (k, v) hl (insertIdx_perm _ _ _ hj)).trans ?_
    refine (hi.perm.cons (k, v)).trans ?_
    exact (List.perm_append_singleton (k, v) s).symm
  · intro i l' hl' e he
    simp only [List.length_modify]
    rcases getElem?_modify_cases hl' with ⟨hj', l'', hl'', rfl⟩ | ⟨_, hl''⟩
    · rw [hl] at hl''
      cases hl''
      rcases (mem_insertIdx hj).1 he with rfl | he
      · exact hj'.symm
      · rw [hj']; exact hi.place _ l hl e he
    · exact hi.place i l' hl'' e he
  · rw [List.pairwise_append]
    refine ⟨hi.distinct, List.pairwise_singleton _ _, ?_⟩
    intro a ha b hb
    rw [List.mem_singleton] at hb
    rw [hb]
    exact hnew a ha
  · intro e he
    rcases List.mem_append.1 he with he | he
    · exact hi.keys e he
    · rw [List.mem_singleton] at he; rw [he]; exact hP

theorem get_none_iff {s : List (K × V)} {k : K} :
    Spec.get eqv s k = none ↔ ∀ e ∈ s, eqv e.1 k = false := by
  unfold Spec.get
  rw [Option.map_eq_none_iff, List.find?_eq_none]
  simp

theorem inv_insert {t : Table K V} {s : List (K × V)} (hi : Inv P hash eqv t s)
    {k : K} (v : V) (hP : P k) (hnew : Spec.get eqv s k = none) (usePe : Bool) :
    ∃ t', insert hash t k v (if usePe then (lookup hash eqv t k).2 else none) = some t' ∧
      Inv P hash eqv t' (s ++ [(k, v)]) := by
  have hnew' := get_none_iff.1 hnew
  unfold insert
  by_cases hge : t.entryNum ≥ t.lists.length * 3
  · simp only [hge, if_true, Option.getD_none]
    exact inv_insertAt (inv_expand hi) hP hnew' (Nat.zero_le _)
  · simp only [hge, if_false]
    cases usePe with
    | false =>
      simp only [Bool.false_eq_true, if_false, Option.getD_none]
      exact inv_insertAt hi hP hnew' (Nat.zero_le _)
    | true =>
      simp only [if_true]
      unfold lookup
      by_cases h0 : t.entryNum = 0
      · simp only [h0, if_true, Option.getD_none]
        exact inv_insertAt hi hP hnew' (Nat.zero_le _)
      · simp only [h0, if_false, Option.getD_some]
        exact inv_insertAt hi hP hnew' (walk_snd_le _ _)

theorem inv_remove {t : Table K V} {s : List (K × V)} (hi : Inv P hash eqv t s)
    (hk : Spec.KeyOps P hash eqv) {k : K} {v : V} (hP : P k)
    (hf : Spec.get eqv s k = some v) :
    ∃ t', remove t (lookup hash eqv t k).2 = some t' ∧
      Inv P hash eqv t' (s.filter fun e => !eqv e.1 k) := by
  have hl := lookup_fst hi hk hP
  rw [hf] at hl
  have h0 : t.entryNum ≠ 0 := by
    intro h0
    simp [lookup, h0] at hl
  simp only [lookup, h0, if_false] at hl ⊢
  have hlt := bucketOf_lt (hash := hash) hi.pos k
  obtain ⟨l, hb⟩ : ∃ l, t.lists[bucketOf hash t.lists.length k]? = some l :=
    ⟨_, List.getElem?_eq_getElem hlt⟩
  have hg : t.lists.getD (bucketOf hash t.lists.length k) [] = l := by
    simp [List.getD, hb]
  rw [hg] at hl ⊢
  obtain ⟨k', hw, hek⟩ := walk_found k l v hl
  generalize (walk eqv k l).2 = j at hw ⊢
  have hj : j < l.length := (List.getElem?_eq_some_iff.1 hw).1
  have hperm : l.Perm ((k', v) :: l.eraseIdx j) := by
    have := List.getElem_cons_eraseIdx_perm hj
    rw [(List.getElem?_eq_some_iff.1 hw).2] at this
    exact this.symm
  have hP2 := flatten_modify_perm' t.lists _ (·.eraseIdx j) l (k', v) hb hperm
  have hms : (k', v) ∈ s := hi.perm.subset (hP2.symm.subset (List.mem_cons_self ..))
  -- the specification removes exactly this entry
  have hs : s.Perm ((k', v) :: s.filter fun e => !eqv e.1 k) := by
    obtain ⟨s1, s2, rfl⟩ := List.append_of_mem hms
    have hd := hi.distinct
    rw [List.pairwise_append, List.pairwise_cons] at hd
    obtain ⟨_, ⟨h2, _⟩, h1⟩ := hd
    have f1 : s1.filter (fun e => !eqv e.1 k) = s1 := by
      rw [List.filter_eq_self]
      intro a ha
      have := h1 a ha (k', v) (List.mem_cons_self ..)
      cases hx : eqv a.1 k with
      | false => rfl
      | true =>
        rw [hk.trans _ _ _ hx (hk.symm _ _ hek)] at this
        cases this
    have f2 : s2.filter (fun e => !eqv e.1 k) = s2 := by
      rw [List.filter_eq_self]
      intro a ha
      have := h2 a ha
      cases hx : eqv a.1 k with
      | false => rfl
      | true =>
        rw [hk.trans _ _ _ hek (hk.symm _ _ hx)] at this
        cases this
    rw [List.filter_append, List.filter_cons_of_neg (by simp [hek]), f1, f2]
    exact List.perm_middle
  refine ⟨_, by unfold remove; simp only [hb, hj, if_true]; rfl, ?_⟩
  refine ⟨by simpa using hi.pos, ?_, ?_, ?_, ?_, ?_⟩
  · exact ((hP2.symm.trans hi.perm).trans hs).cons_inv
  · have := hs.length_eq
    simp only [List.length_cons] at this
    show t.entryNum - 1 = _
    rw [hi.num, this]
    rfl
  · intro i l' hl' e he
    simp only [List.length_modify]
    rcases getElem?_modify_cases hl' with ⟨hj', l'', hl'', rfl⟩ | ⟨_, hl''⟩
    · rw [hj']
      exact hi.place _ l'' hl'' e (List.mem_of_mem_eraseIdx he)
    · exact hi.place i l' hl'' e he
  · exact hi.distinct.filter _
  · intro e he
    exact hi.keys e (List.mem_of_mem_filter he)

theorem filter_absent {s : List (K × V)} {k : K} (h : Spec.get eqv s k = none) :
    (s.filter fun e => !eqv e.1 k) = s := by
  rw [List.filter_eq_self]
  intro a ha
  simp [get_none_iff.1 h a ha]

theorem step_sim {t : Table K V} {s : List (K × V)} (hi : Inv P hash eqv t s)
    (hk : Spec.KeyOps P hash eqv) (o : Op K V) (hP : P (Spec.opKey o)) :
    ∃ t', step hash eqv t o = some ((Spec.step eqv s o).1, t') ∧
      Inv P hash eqv t' (Spec.step eqv s o).2 := by
  cases o with
  | lookup k =>
    have hl := lookup_fst hi hk hP
    simp only [Spec.opKey] at hl
    exact ⟨t, by simp [step, Spec.step, hl], hi⟩
  | insert k v u =>
    have hl := lookup_fst hi hk hP
    simp only [Spec.opKey] at hl
    cases hf : Spec.get eqv s k with
    | some w =>
      rw [hf] at hl
      exact ⟨t, by simp [step, Spec.step, hl, hf], by simpa [Spec.step, hf] using hi⟩
    | none =>
      rw [hf] at hl
      obtain ⟨t', h1, h2⟩ := inv_insert hi v hP hf u
      simp only [Spec.opKey] at h1 h2
      refine ⟨t', ?_, by simpa [Spec.step, hf] using h2⟩
      simp only [step, hl, Spec.step, hf, h1, Option.map_some]
  | remove k =>
    have hl := lookup_fst hi hk hP
    simp only [Spec.opKey] at hl
    cases hf : Spec.get eqv s k with
    | some w =>
      rw [hf] at hl
      obtain ⟨t', h1, h2⟩ := inv_remove hi hk hP hf
      simp only [Spec.opKey] at h1 h2
      refine ⟨t', ?_, by simpa [Spec.step] using h2⟩
      simp only [step, hl, Spec.step, hf, h1, Option.map_some]
    | none =>
      rw [hf] at hl
      exact ⟨t, by simp [step, Spec.step, hl, hf], by simpa [Spec.step, filter_absent hf] using hi⟩

theorem run_sim (hk : Spec.KeyOps P hash eqv) (os : List (Op K V)) :
    ∀ (t : Table K V) (s : List (K × V)), Inv P hash eqv t s → (∀ o ∈ os, P (Spec.opKey o)) →
    ∃ t', run hash eqv t os = some ((Spec.run eqv s os).1, t') ∧
      Inv P hash eqv t' (Spec.run eqv s os).2 := by
  induction os with
  | nil => intro t s hi _; exact ⟨t, rfl, hi⟩
  | cons o os ih =>
    intro t s hi hP
    obtain ⟨t1, h1, hi1⟩ := step_sim hi hk o (hP o (List.mem_cons_self ..))
    obtain ⟨t2, h2, hi2⟩ := ih t1 _ hi1 (fun o' ho' => hP o' (List.mem_cons_of_mem _ ho'))
    exact ⟨t2, by simp [run, h1, h2, Spec.run], hi2⟩

end Verif.Hash

import Verif.Lemmas.MapSet
/-
Helper lemmas for the iteration of Map and Set (C04).
-/
namespace Verif.MapSet

open Verif

variable {K V : Type} {P : K → Prop} {hash : K → Nat} {eqv : K → K → Bool}

/-- The answers to the `next` calls of iterator `i`. -/
def itemsOf (i : Nat) : List (Op K V) → List (Ans K V) → List (Option (K × V))
  | .next j :: ps, .item e :: as => if j = i then e :: itemsOf i ps as else itemsOf i ps as
  | _ :: ps, _ :: as => itemsOf i ps as
  | _, _ => []

/-- The number of items with a given key. -/
def countKey (eqv : K → K → Bool) (k : K) (L : List (Option (K × V))) : Nat :=
  L.countP (Spec.isKey eqv k)

/-- A call that does not take key `k` out of the collection. -/
def Keeps (eqv : K → K → Bool) (k : K) : Op K V → Prop
  | .delete k' => eqv k' k = false
  | .clear => False
  | _ => True

/-- Record `p` has key `k`. -/
def HasAt (eqv : K → K → Bool) (s : Spec.St K V) (k : K) (p : Nat) : Prop :=
  ∃ e, s.data[p]? = some (some e) ∧ eqv e.1 k = true

theorem nextFrom_some {d : List (Option (K × V))} {idx j : Nat} {e : K × V}
    (h : Spec.nextFrom (d.drop idx) idx = some (j, e)) :
    idx ≤ j ∧ d[j]? = some (some e) ∧
      ∀ q, idx ≤ q → q < j → ∀ e', d[q]? ≠ some (some e') := by
  rw [nextFrom_eq] at h
  have hr := recs_drop d 0 idx
  simp only [Nat.zero_add] at hr
  have hm : (j, e) ∈ recs (d.drop idx) idx := List.mem_of_mem_head? (show (j, e) ∈ _ from h)
  have h1 := mem_recs.1 hm
  refine ⟨h1.1, ?_, ?_⟩
  · have := h1.2
    rw [List.getElem?_drop] at this
    rwa [show idx + (j - idx) = j by omega] at this
  · intro q hq hqj e' hd
    have hm' : (q, e') ∈ recs (d.drop idx) idx := by
      rw [mem_recs]
      refine ⟨hq, ?_⟩
      rw [List.getElem?_drop, show idx + (q - idx) = q by omega]
      exact hd
    have hs := recs_sorted (d.drop idx) idx
    obtain ⟨tl, htl⟩ : ∃ tl, recs (d.drop idx) idx = (j, e) :: tl := by
      cases hc : recs (d.drop idx) idx with
      | nil => rw [hc] at h; simp at h
      | cons a tl => rw [hc] at h; simp at h; exact ⟨tl, by rw [h]⟩
    rw [htl] at hm' hs
    simp only [List.map_cons, List.pairwise_cons] at hs
    rcases List.mem_cons.1 hm' with h' | h'
    · cases h'; omega
    · have := hs.1 q (List.mem_map.2 ⟨(q, e'), h', rfl⟩)
      omega

theorem nextFrom_none {d : List (Option (K × V))} {idx : Nat}
    (h : Spec.nextFrom (d.drop idx) idx = none) :
    ∀ q, idx ≤ q → ∀ e', d[q]? ≠ some (some e') := by
  intro q hq e' hd
  rw [nextFrom_eq, List.head?_eq_none_iff] at h
  have hm' : (q, e') ∈ recs (d.drop idx) idx := by
    rw [mem_recs]
    refine ⟨hq, ?_⟩
    rw [List.getElem?_drop, show idx + (q - idx) = q by omega]
    exact hd
  rw [h] at hm'
  cases hm'

theorem hasAt_step (hk : Hash.Spec.KeyOps P hash eqv) {s : Spec.St K V} {k : K} {p : Nat}
    (h : HasAt eqv s k p) (op : Op K V) (hkeep : Keeps eqv k op) :
    HasAt eqv (Spec.step (fun k => k) eqv s op).2 k p := by
  obtain ⟨e, he, hek⟩ := h
  cases op with
  | set k' v =>
    simp only [Spec.step]
    split
    · cases hx : eqv e.1 k' with
      | true => exact ⟨(e.1, v), by simp [List.getElem?_map, he, hx], hek⟩
      | false => exact ⟨e, by simp [List.getElem?_map, he, hx], hek⟩
    · refine ⟨e, ?_, hek⟩
      have hlt := (List.getElem?_eq_some_iff.1 he).1
      simp only
      rw [List.getElem?_append_left hlt]
      exact he
  | delete k' =>
    simp only [Keeps] at hkeep
    have : eqv e.1 k' = false := by
      cases hx : eqv e.1 k' with
      | false => rfl
      | true =>
        have := hk.trans _ _ _ (hk.symm _ _ hx) hek
        rw [hkeep] at this
        cases this
    exact ⟨e, by simp [Spec.step, List.getElem?_map, he, this], hek⟩
  | clear => exact absurd hkeep (by simp [Keeps])
  | next i =>
    refine ⟨e, ?_, hek⟩
    simp only [Spec.step]
    split
    · exact he
    · exact he
    · split <;> exact he
  | get k' => exact ⟨e, he, hek⟩
  | has k' => exact ⟨e, he, hek⟩
  | size => exact ⟨e, he, hek⟩
  | iterator => exact ⟨e, he, hek⟩

/-- The iterator's index after a call of something else. -/
theorem iter_step_other {s : Spec.St K V} {i : Nat} {x : Option Nat} (hx : s.iters[i]? = some x)
    (op : Op K V) (hop : op ≠ .next i) :
    (Spec.step (fun k => k) eqv s op).2.iters[i]? = some x := by
  cases op with
  | next j =>
    have hj : j ≠ i := fun e => hop (by rw [e])
    simp only [Spec.step]
    split
    · exact hx
    · exact hx
    · split
      · simp [List.getElem?_set, hj, hx]
      · simp [List.getElem?_set, hj, hx]
  | set k v => simp only [Spec.step]; split <;> exact hx
  | iterator =>
    have hlt := (List.getElem?_eq_some_iff.1 hx).1
    simp only [Spec.step]
    rw [List.getElem?_append_left hlt]
    exact hx
  | get k => exact hx
  | has k => exact hx
  | delete k => exact hx
  | clear => exact hx
  | size => exact hx

theorem itemsOf_other {i : Nat} {op : Op K V} (hop : op ≠ .next i) (a : Ans K V)
    (ps : List (Op K V)) (as : List (Ans K V)) :
    itemsOf i (op :: ps) (a :: as) = itemsOf i ps as := by
  cases op with
  | next j =>
    have hj : j ≠ i := fun e => hop (by rw [e])
    cases a <;> simp [itemsOf, hj]
  | _ => cases a <;> rfl

/-- Once the iterator is past record `p`, or has ended, the key of that record is not
returned again. -/
theorem passed (hk : Hash.Spec.KeyOps P hash eqv) (k : K) (p i : Nat) (ps : List (Op K V)) :
    ∀ (o : Obj K V) (s : Spec.St K V), Rel P hash eqv o s →
    (∀ q ∈ ps, ∀ k, Spec.opKey q = some k → P k) → (∀ q ∈ ps, Keeps eqv k q) →
    HasAt eqv s k p → ∀ x, s.iters[i]? = some x → (∀ idx, x = some idx → p < idx) →
    countKey eqv k (itemsOf i ps (Spec.run (fun k => k) eqv s ps).1) = 0 := by
  induction ps with
  | nil => intros; rfl
  | cons q ps ih =>
    intro o s hr hP hkeep hat x hx hlt
    obtain ⟨o', _, hr'⟩ := step_sim hk (norm := fun k => k) (fun _ _ => rfl) hr q
      (hP q (List.mem_cons_self ..))
    have hat' := hasAt_step hk hat q (hkeep q (List.mem_cons_self ..))
    have hP' := fun q' hq' => hP q' (List.mem_cons_of_mem _ hq')
    have hkeep' := fun q' hq' => hkeep q' (List.mem_cons_of_mem _ hq')
    have next := ih o' _ hr' hP' hkeep' hat'
    simp only [Spec.run]
    by_cases hq : q = .next i
    · subst hq
      cases x with
      | none =>
        have e2 : (Spec.step (fun k => k) eqv s (.next i)) = (.item none, s) := by
          simp [Spec.step, hx]
        rw [e2] at next ⊢
        simp only [itemsOf, if_true]
        have := next none hx (by simp)
        simpa [countKey] using this
      | some idx =>
        have hil := (List.getElem?_eq_some_iff.1 hx).1
        cases hn : Spec.nextFrom (s.data.drop idx) idx with
        | none =>
          have e2 : (Spec.step (fun k => k) eqv s (.next i)) =
              (.item none, { s with iters := s.iters.set i none }) := by
            simp [Spec.step, hx, hn]
          rw [e2] at next ⊢
          simp only [itemsOf, if_true]
          have := next none (by simp [hil]) (by simp)
          simpa [countKey] using this
        | some r =>
          obtain ⟨j, e⟩ := r
          obtain ⟨h1, h2, _⟩ := nextFrom_some hn
          have e2 : (Spec.step (fun k => k) eqv s (.next i)) =
              (.item (some e), { s with iters := s.iters.set i (some (j + 1)) }) := by
            simp [Spec.step, hx, hn]
          rw [e2] at next ⊢
          simp only [itemsOf, if_true]
          have hpl := hlt idx rfl
          have hne : eqv e.1 k = false := by
            cases hxk : eqv e.1 k with
            | false => rfl
            | true =>
              obtain ⟨e', h3, h4⟩ := hat
              have := unique_index hk hr.hash.distinct h3 h2 h4 hxk
              omega
          have := next (some (j + 1)) (by simp [hil]) (by
            intro idx' hidx
            simp at hidx
            omega)
          simpa [countKey, hne] using this
    · rw [itemsOf_other hq]
      exact next x (iter_step_other hx q hq) hlt

/-- A record the iterator has not reached yet is returned at most once, and exactly once
if the iterator reports its end. -/
theorem pending (hk : Hash.Spec.KeyOps P hash eqv) (k : K) (p i : Nat) (ps : List (Op K V)) :
    ∀ (o : Obj K V) (s : Spec.St K V), Rel P hash eqv o s →
    (∀ q ∈ ps, ∀ k, Spec.opKey q = some k → P k) → (∀ q ∈ ps, Keeps eqv k q) →
    HasAt eqv s k p → ∀ idx, s.iters[i]? = some (some idx) → idx ≤ p →
    let L := itemsOf i ps (Spec.run (fun k => k) eqv s ps).1
    countKey eqv k L ≤ 1 ∧ (none ∈ L → countKey eqv k L = 1) := by
  induction ps with
  | nil => intros; exact ⟨Nat.zero_le _, fun h => absurd h (List.not_mem_nil)⟩
  | cons q ps ih =>
    intro o s hr hP hkeep hat idx hx hle
    obtain ⟨o', _, hr'⟩ := step_sim hk (norm := fun k => k) (fun _ _ => rfl) hr q
      (hP q (List.mem_cons_self ..))
    have hat' := hasAt_step hk hat q (hkeep q (List.mem_cons_self ..))
    have hP' := fun q' hq' => hP q' (List.mem_cons_of_mem _ hq')
    have hkeep' := fun q' hq' => hkeep q' (List.mem_cons_of_mem _ hq')
    have next := ih o' _ hr' hP' hkeep' hat'
    have past := passed hk k p i ps o' _ hr' hP' hkeep' hat'
    simp only [Spec.run]
    by_cases hq : q = .next i
    · subst hq
      have hil := (List.getElem?_eq_some_iff.1 hx).1
      obtain ⟨e', h3, h4⟩ := hat
      cases hn : Spec.nextFrom (s.data.drop idx) idx with
      | none => exact absurd h3 (nextFrom_none hn p hle e')
      | some r =>
        obtain ⟨j, e⟩ := r
        obtain ⟨h1, h2, h5⟩ := nextFrom_some hn
        have hjp : j ≤ p := by
          by_contra hc
          exact h5 p hle (by omega) e' h3
        have e2 : (Spec.step (fun k => k) eqv s (.next i)) =
            (.item (some e), { s with iters := s.iters.set i (some (j + 1)) }) := by
          simp [Spec.step, hx, hn]
        rw [e2] at next past ⊢
        simp only [itemsOf, if_true]
        by_cases hj : j = p
        · subst hj
          rw [h3] at h2
          cases h2
          have := past (some (j + 1)) (by simp [hil]) (by
            intro idx' hidx
            simp at hidx
            omega)
          simp only [countKey] at this ⊢
          rw [List.countP_cons_of_pos (by simpa using h4), this]
          simp
        · have hne : eqv e.1 k = false := by
            cases hxk : eqv e.1 k with
            | false => rfl
            | true => exact absurd (unique_index hk hr.hash.distinct h3 h2 h4 hxk).symm hj
          have := next (j + 1) (by simp [hil]) (by omega)
          simp only [countKey] at this ⊢
          rw [List.countP_cons_of_neg (by simp [hne])]
          refine ⟨this.1, ?_⟩
          intro hm
          rcases List.mem_cons.1 hm with h | h
          · cases h
          · exact this.2 h
    · rw [itemsOf_other hq]
      exact next idx (iter_step_other hx q hq) hle

theorem run_append (eqv : K → K → Bool) (norm : K → K) (s : Spec.St K V) (ps qs : List (Op K V)) :
    Spec.run norm eqv s (ps ++ qs) =
      ((Spec.run norm eqv s ps).1 ++ (Spec.run norm eqv (Spec.run norm eqv s ps).2 qs).1,
       (Spec.run norm eqv (Spec.run norm eqv s ps).2 qs).2) := by
  induction ps generalizing s with
  | nil => rfl
  | cons p ps ih => simp only [List.cons_append, Spec.run, ih]

theorem spec_run_length (norm : K → K) (s : Spec.St K V) (ps : List (Op K V)) :
    (Spec.run norm eqv s ps).1.length = ps.length := by
  induction ps generalizing s with
  | nil => rfl
  | cons p ps ih => simp [Spec.run, ih]

theorem iters_length_step (norm : K → K) (s : Spec.St K V) (op : Op K V) :
    (Spec.step norm eqv s op).2.iters.length =
      s.iters.length + (match op with | .iterator => 1 | _ => 0) := by
  cases op with
  | next j =>
    simp only [Spec.step]
    split
    · rfl
    · rfl
    · split <;> simp
  | set k v => simp only [Spec.step]; split <;> rfl
  | iterator => simp [Spec.step]
  | get k => rfl
  | has k => rfl
  | delete k => rfl
  | clear => rfl
  | size => rfl

theorem iters_le_step (norm : K → K) (s : Spec.St K V) (op : Op K V) :
    s.iters.length ≤ (Spec.step norm eqv s op).2.iters.length := by
  rw [iters_length_step]; omega

/-- The number of iterators made by a history. -/
def made (ps : List (Op K V)) : Nat :=
  ps.countP fun q => match q with | .iterator => true | _ => false

theorem iters_length_run (norm : K → K) (s : Spec.St K V) (ps : List (Op K V)) :
    (Spec.run norm eqv s ps).2.iters.length = s.iters.length + made ps := by
  induction ps generalizing s with
  | nil => rfl
  | cons p ps ih =>
    simp only [Spec.run, ih, iters_length_step, made]
    cases p <;> simp [List.countP_cons] <;> omega

/-- An iterator that has not reported its end has an index, at most the number of
records. -/
theorem live_index (ps : List (Op K V)) : ∀ (s : Spec.St K V) (i idx : Nat),
    s.iters[i]? = some (some idx) → idx ≤ s.data.length →
    none ∉ itemsOf i ps (Spec.run (fun k => k) eqv s ps).1 →
    ∃ idx', (Spec.run (fun k => k) eqv s ps).2.iters[i]? = some (some idx') ∧
      idx' ≤ (Spec.run (fun k => k) eqv s ps).2.data.length := by
  induction ps with
  | nil => intro s i idx h1 h2 _; exact ⟨idx, h1, h2⟩
  | cons p ps ih =>
    intro s i idx h1 h2 h3
    simp only [Spec.run] at h3 ⊢
    by_cases hp : p = .next i
    · subst hp
      have hil := (List.getElem?_eq_some_iff.1 h1).1
      cases hn : Spec.nextFrom (s.data.drop idx) idx with
      | none =>
        exfalso
        apply h3
        simp [Spec.step, h1, hn, itemsOf]
      | some r =>
        obtain ⟨j, e⟩ := r
        have hj := (List.getElem?_eq_some_iff.1 (nextFrom_some hn).2.1).1
        have e2 : (Spec.step (fun k => k) eqv s (.next i)) =
            (.item (some e), { s with iters := s.iters.set i (some (j + 1)) }) := by
          simp [Spec.step, h1, hn]
        rw [e2] at h3 ⊢
        refine ih _ i (j + 1) (by simp [hil]) hj ?_
        intro hm
        apply h3
        simp [itemsOf, hm]
    · rw [itemsOf_other hp] at h3
      refine ih _ i idx (iter_step_other h1 p hp) ?_ h3
      have : s.data.length ≤ (Spec.step (fun k => k) eqv s p).2.data.length := by
        cases p with
        | set k v => simp only [Spec.step]; split <;> simp
        | next j =>
          simp only [Spec.step]
          split
          · exact Nat.le_refl _
          · exact Nat.le_refl _
          · split <;> simp
        | delete k => simp [Spec.step]
        | clear => simp [Spec.step]
        | get k => exact Nat.le_refl _
        | has k => exact Nat.le_refl _
        | size => exact Nat.le_refl _
        | iterator => exact Nat.le_refl _
      omega

end Verif.MapSet

import Verif.Model.Sort
import Mathlib.Data.List.Basic
import Mathlib.Tactic.Ring
/-
Helper lemmas for the merge sort: the index based functions of the model are
related to functions on lists, for which the properties are proved.
-/
namespace Verif.Sort
variable {σ α : Type}

/-- Merge of two lists as `merge` does it. -/
def lmerge (cmp : σ → α → α → σ × CR) : List α → List α → σ → σ × Out × List α
  | [], b, s => (s, .ok, b)
  | x :: a, [], s => (s, .ok, x :: a)
  | x :: a, y :: b, s =>
    match cmp s x y with
    | (s', .err) => (s', .err, x :: a ++ y :: b)
    | (s', .greater) =>
      let r := lmerge cmp (x :: a) b s'
      (r.1, r.2.1, y :: r.2.2)
    | (s', .other) =>
      let r := lmerge cmp a (y :: b) s'
      (r.1, r.2.1, x :: r.2.2)
termination_by a b => a.length + b.length

theorem lmerge_out (cmp : σ → α → α → σ × CR) (a b : List α) (s : σ) :
    (lmerge cmp a b s).2.1 ≠ .ub := by
  fun_induction lmerge cmp a b s with
  | case1 => simp
  | case2 => simp
  | case3 => simp
  | case4 x a y b s s' h r ih => exact ih
  | case5 x a y b s s' h r ih => exact ih

theorem lmerge_perm (cmp : σ → α → α → σ × CR) (a b : List α) (s : σ) :
    (lmerge cmp a b s).2.2.Perm (a ++ b) := by
  fun_induction lmerge cmp a b s with
  | case1 => simp
  | case2 => simp
  | case3 => simp
  | case4 x a y b s s' h r ih =>
    refine (List.Perm.cons y ih).trans ?_
    exact (List.perm_middle).symm
  | case5 x a y b s s' h r ih => exact List.Perm.cons x ih

theorem slice_nil {arr : List α} {i j : Nat} (h : j < i) : slice arr i j = [] := by
  unfold slice
  rw [List.drop_eq_nil_iff]
  simp; omega

theorem slice_cons {arr : List α} {i j : Nat} (h : i ≤ j) (hj : j < arr.length) :
    slice arr i j = arr[i]'(by omega) :: slice arr (i + 1) j := by
  unfold slice
  rw [List.drop_eq_getElem_cons (by simp; omega)]
  simp

theorem slice_length {arr : List α} {i j : Nat} (hj : j < arr.length) :
    (slice arr i j).length = j + 1 - i := by
  unfold slice; simp; omega

theorem mergeLoop_spec (cmp : σ → α → α → σ × CR) (base : List α) (mid max : Nat)
    (hmid : mid < base.length) (hmax : max < base.length) (fuel : Nat) :
    ∀ (l r : Nat) (t : List α) (s : σ), (mid + 1 - l) + (max + 1 - r) ≤ fuel →
      let R := mergeLoop cmp base mid max fuel l r t s
      let M := lmerge cmp (slice base l mid) (slice base r max) s
      R.1 = M.1 ∧ R.2.1 = M.2.1 ∧
      (M.2.1 = .ok → R.2.2.2.2 ++ slice base R.2.2.1 mid ++ slice base R.2.2.2.1 max = t ++ M.2.2) := by
  induction fuel with
  | zero =>
    intro l r t s hf
    have h1 : mid < l := by omega
    have h2 : max < r := by omega
    have h3 : ¬ (l ≤ mid ∧ r ≤ max) := by omega
    simp [mergeLoop, slice_nil h1, slice_nil h2, lmerge, h3]
  | succ fuel ih =>
    intro l r t s hf
    by_cases hc : l ≤ mid ∧ r ≤ max
    · have e1 : base[l]? = some (base[l]'(by omega)) := List.getElem?_eq_getElem (by omega)
      have e2 : base[r]? = some (base[r]'(by omega)) := List.getElem?_eq_getElem (by omega)
      rw [mergeLoop, if_pos hc, e1, e2]
      simp only
      rw [slice_cons hc.1 hmid, slice_cons hc.2 hmax, lmerge]
      rcases hcmp : cmp s (base[l]'(by omega)) (base[r]'(by omega)) with ⟨s', c⟩
      cases c
      · simp
      · have := ih l (r + 1) (t ++ [base[r]'(by omega)]) s' (by omega)
        simp only [slice_cons hc.1 hmid] at this
        simp only
        refine ⟨this.1, this.2.1, fun h => ?_⟩
        rw [this.2.2 h]; simp
      · have := ih (l + 1) r (t ++ [base[l]'(by omega)]) s' (by omega)
        simp only [slice_cons hc.2 hmax] at this
        simp only
        refine ⟨this.1, this.2.1, fun h => ?_⟩
        rw [this.2.2 h]; simp
    · rw [mergeLoop, if_neg hc]
      by_cases hl : l ≤ mid
      · have hr : max < r := by omega
        rw [slice_nil hr, slice_cons hl hmid, lmerge]
        simp [slice_cons hl hmid, slice_nil hr]
      · rw [slice_nil (by omega : mid < l), lmerge]
        simp [slice_nil (by omega : mid < l)]

theorem merge_spec (cmp : σ → α → α → σ × CR) (num : Nat) (base : List α) (min mid max : Nat)
    (h1 : min ≤ mid) (h2 : mid < max) (h3 : max < base.length) (h4 : base.length ≤ num) (s : σ) :
    let M := lmerge cmp (slice base min mid) (slice base (mid + 1) max) s
    merge cmp num base min mid max s =
      match M.2.1 with
      | .ok => ⟨M.1, overwrite base min M.2.2, .ok⟩
      | o => ⟨M.1, base, o⟩ := by
  intro M
  have hsp := mergeLoop_spec cmp base mid max (by omega) h3 (max + 1 - min) min (mid + 1) [] s
    (by omega)
  simp only at hsp
  obtain ⟨e1, e2, e3⟩ := hsp
  have hlen : M.2.2.length = max - min + 1 := by
    rw [(lmerge_perm _ _ _ _).length_eq, List.length_append, slice_length (by omega),
      slice_length h3]
    omega
  unfold merge
  rcases hR : mergeLoop cmp base mid max (max + 1 - min) min (mid + 1) [] s with ⟨s', o, l, r, t⟩
  rw [hR] at e1 e2 e3
  simp only at e1 e2 e3
  change o = M.2.1 at e2
  change s' = M.1 at e1
  cases o with
  | ok =>
    rw [← e2]
    have e3' : t ++ slice base l mid ++ slice base r max = M.2.2 := by
      have := e3 (by change M.2.1 = _; rw [← e2])
      simpa using this
    have ht : (if r ≤ max then (if l ≤ mid then t ++ slice base l mid else t) ++ slice base r max
        else if l ≤ mid then t ++ slice base l mid else t) = M.2.2 := by
      rw [← e3']
      by_cases hl : l ≤ mid <;> by_cases hr : r ≤ max
      · simp [hl, hr]
      · simp [hl, hr, slice_nil (show max < r by omega)]
      · simp [hl, hr, slice_nil (show mid < l by omega)]
      · simp [hl, hr, slice_nil (show mid < l by omega), slice_nil (show max < r by omega)]
    simp only
    rw [ht, if_neg (by omega), e1, List.take_of_length_le (by omega)]
  | err => rw [← e2, e1]
  | ub => rw [← e2, e1]

/-- The sort on lists. -/
def lsort (cmp : σ → α → α → σ × CR) : Nat → List α → σ → σ × Out × List α
  | 0, xs, s => (s, if xs.length ≤ 1 then .ok else .ub, xs)
  | fuel + 1, xs, s =>
    if xs.length ≤ 1 then (s, .ok, xs)
    else
      let k := (xs.length - 1) / 2 + 1
      match lsort cmp fuel (xs.take k) s with
      | (s1, .ok, a) =>
        match lsort cmp fuel (xs.drop k) s1 with
        | (s2, .ok, b) =>
          match lmerge cmp a b s2 with
          | (s3, .ok, m) => (s3, .ok, m)
          | (s3, o, _) => (s3, o, a ++ b)
        | (s2, o, b) => (s2, o, a ++ b)
      | (s1, o, a) => (s1, o, a ++ xs.drop k)

theorem lsort_perm (cmp : σ → α → α → σ × CR) (fuel : Nat) :
    ∀ (xs : List α) (s : σ), (lsort cmp fuel xs s).2.2.Perm xs := by
  induction fuel with
  | zero => intro xs s; simp [lsort]
  | succ fuel ih =>
    intro xs s
    rw [lsort]
    split
    · simp
    · simp only
      generalize (xs.length - 1) / 2 + 1 = k
      have p1 := ih (xs.take k) s
      rcases h1 : lsort cmp fuel (xs.take k) s with ⟨s1, o1, a⟩
      rw [h1] at p1
      simp only at p1
      have hxs : (a ++ xs.drop k).Perm xs := by
        have := p1.append_right (xs.drop k)
        rwa [List.take_append_drop] at this
      cases o1 with
      | err => exact hxs
      | ub => exact hxs
      | ok =>
        have p2 := ih (xs.drop k) s1
        rcases h2 : lsort cmp fuel (xs.drop k) s1 with ⟨s2, o2, b⟩
        rw [h2] at p2
        simp only at p2
        have hab : (a ++ b).Perm xs := (p2.append_left a).trans hxs
        simp only
        rw [h2]
        cases o2 with
        | err => exact hab
        | ub => exact hab
        | ok =>
          have p3 := lmerge_perm cmp a b s2
          simp only
          rcases h3 : lmerge cmp a b s2 with ⟨s3, o3, m⟩
          rw [h3] at p3
          cases o3 with
          | err => exact hab
          | ub => exact hab
          | ok => exact p3.trans hab

theorem lsort_out (cmp : σ → α → α → σ × CR) (fuel : Nat) :
    ∀ (xs : List α) (s : σ), xs.length ≤ fuel + 1 → (lsort cmp fuel xs s).2.1 ≠ .ub := by
  induction fuel with
  | zero => intro xs s h; simp [lsort]; omega
  | succ fuel ih =>
    intro xs s h
    rw [lsort]
    split
    · simp
    · rename_i hl
      simp only
      generalize hk : (xs.length - 1) / 2 + 1 = k
      have p1 := ih (xs.take k) s (by simp; omega)
      rcases h1 : lsort cmp fuel (xs.take k) s with ⟨s1, o1, a⟩
      rw [h1] at p1
      cases o1 with
      | err => simp
      | ub => exact absurd rfl p1
      | ok =>
        have p2 := ih (xs.drop k) s1 (by simp; omega)
        simp only
        rcases h2 : lsort cmp fuel (xs.drop k) s1 with ⟨s2, o2, b⟩
        rw [h2] at p2
        cases o2 with
        | err => simp
        | ub => exact absurd rfl p2
        | ok =>
          have p3 := lmerge_out cmp a b s2
          simp only
          rcases h3 : lmerge cmp a b s2 with ⟨s3, o3, m⟩
          rw [h3] at p3
          cases o3 with
          | err => simp
          | ub => exact absurd rfl p3
          | ok => simp

theorem overwrite_length {arr t : List α} {i : Nat} (h : i + t.length ≤ arr.length) :
    (overwrite arr i t).length = arr.length := by
  unfold overwrite; simp; omega

theorem take_overwrite {arr t : List α} {i n : Nat} (h : i + t.length ≤ arr.length) (hn : n ≤ i) :
    (overwrite arr i t).take n = arr.take n := by
  unfold overwrite
  rw [List.append_assoc, List.take_append_of_le_length (by simp; omega), List.take_take]
  congr 1; omega

theorem drop_overwrite {arr t : List α} {i n : Nat} (h : i + t.length ≤ arr.length)
    (hn : i + t.length ≤ n) : (overwrite arr i t).drop n = arr.drop n := by
  unfold overwrite
  have hl : (arr.take i ++ t).length = i + t.length := by simp; omega
  rw [List.drop_append, hl, List.drop_drop, List.drop_eq_nil_of_le (by omega)]
  simp
  congr 1; omega

theorem slice_overwrite {arr t : List α} {i : Nat} (h : i + t.length ≤ arr.length) :
    (overwrite arr i t).take (i + t.length) = arr.take i ++ t := by
  unfold overwrite
  apply List.take_left'
  simp; omega

theorem sort_spec (cmp : σ → α → α → σ × CR) (num : Nat) (fuel : Nat) :
    ∀ (base : List α) (min max : Nat) (s : σ), min ≤ max → max < base.length →
      base.length ≤ num →
      let L := lsort cmp fuel (slice base min max) s
      sort cmp num fuel base min max s = ⟨L.1, overwrite base min L.2.2, L.2.1⟩ := by
  induction fuel with
  | zero =>
    intro base min max s h1 h2 h3
    have hov : overwrite base min (slice base min max) = base := by
      unfold overwrite
      rw [slice_length h2]
      unfold slice
      have e : (List.take (max + 1) base).drop min = (base.drop min).take (max + 1 - min) := by
        rw [List.drop_take]
      rw [e, List.append_assoc, ← List.drop_drop, List.take_append_drop, List.take_append_drop]
    simp only [lsort, sort, slice_length h2]
    by_cases h : max ≤ min
    · rw [if_pos h, if_pos (by omega), hov]
    · rw [if_neg h, if_neg (by omega), hov]
  | succ fuel ih =>
    intro base min max s h1 h2 h3
    have hov : overwrite base min (slice base min max) = base := by
      unfold overwrite
      rw [slice_length h2]
      unfold slice
      have e : (List.take (max + 1) base).drop min = (base.drop min).take (max + 1 - min) := by
        rw [List.drop_take]
      rw [e, List.append_assoc, ← List.drop_drop, List.take_append_drop, List.take_append_drop]
    rw [sort, lsort]
    simp only [slice_length h2]
    by_cases h : max ≤ min
    · rw [if_pos h, if_pos (by omega), hov]
    rw [if_neg h, if_neg (by omega)]
    have hk : (max + 1 - min - 1) / 2 + 1 = (min + max) / 2 + 1 - min := by omega
    rw [hk]
    generalize hmid : (min + max) / 2 = mid
    have hm1 : min ≤ mid := by omega
    have hm2 : mid < max := by omega
    -- the two halves of the slice
    have hA : (slice base min max).take (mid + 1 - min) = slice base min mid := by
      unfold slice; rw [List.take_drop]
      rw [List.take_take]; congr 2; omega
    have hB : (slice base min max).drop (mid + 1 - min) = slice base (mid + 1) max := by
      unfold slice; rw [List.drop_drop]; congr 1; omega
    rw [hA, hB]
    have hlA : (slice base min mid).length = mid + 1 - min := slice_length (by omega)
    have hlB : (slice base (mid + 1) max).length = max - mid := by rw [slice_length h2]; omega
    -- left half
    have i1 := ih base min mid s hm1 (by omega) h3
    simp only at i1
    rw [i1]
    have p1 := lsort_perm cmp fuel (slice base min mid) s
    rcases e1 : lsort cmp fuel (slice base min mid) s with ⟨s1, o1, a⟩
    rw [e1] at p1
    have la : a.length = mid + 1 - min := by rw [p1.length_eq, hlA]
    have hb1len : (overwrite base min a).length = base.length := overwrite_length (by omega)
    have hb1drop : ∀ n, mid + 1 ≤ n → (overwrite base min a).drop n = base.drop n :=
      fun n hn => drop_overwrite (by omega) (by omega)
    have hsl : slice (overwrite base min a) (mid + 1) max = slice base (mid + 1) max := by
      unfold slice
      rw [List.drop_take, List.drop_take, hb1drop _ (by omega)]
    have hov1 : overwrite base min (a ++ slice base (mid + 1) max) = overwrite base min a := by
      unfold overwrite
      rw [List.length_append, hlB, la]
      have e : slice base (mid + 1) max = (base.drop (mid + 1)).take (max - mid) := by
        unfold slice; rw [List.drop_take]; congr 1; omega
      have e2 : base.drop (min + (mid + 1 - min + (max - mid))) = (base.drop (mid + 1)).drop (max - mid) := by
        rw [List.drop_drop]; congr 1; omega
      have e3 : min + (mid + 1 - min) = mid + 1 := by omega
      rw [e, e2, e3]
      simp only [List.append_assoc]
      rw [List.take_append_drop]
    cases o1 with
    | err => simp only; rw [hov1]
    | ub => simp only; rw [hov1]
    | ok =>
      simp only
      have i2 := ih (overwrite base min a) (mid + 1) max s1 (by omega) (by omega) (by omega)
      simp only at i2
      rw [hsl] at i2
      rw [i2]
      have p2 := lsort_perm cmp fuel (slice base (mid + 1) max) s1
      rcases e2 : lsort cmp fuel (slice base (mid + 1) max) s1 with ⟨s2, o2, b⟩
      rw [e2] at p2
      have lb : b.length = max - mid := by rw [p2.length_eq, hlB]
      have hov2 : overwrite (overwrite base min a) (mid + 1) b = overwrite base min (a ++ b) := by
        have t1 : (overwrite base min a).take (mid + 1) = base.take min ++ a := by
          have := slice_overwrite (arr := base) (t := a) (i := min) (by omega)
          rwa [show min + a.length = mid + 1 by omega] at this
        have t2 := hb1drop (mid + 1 + b.length) (by omega)
        rw [overwrite, t1, t2, overwrite, List.length_append]
        rw [show mid + 1 + b.length = min + (a.length + b.length) by omega]
        simp
      cases o2 with
      | err => simp only; rw [hov2]
      | ub => simp only; rw [hov2]
      | ok =>
        simp only
        have hlab : (a ++ b).length = max + 1 - min := by rw [List.length_append]; omega
        have hb2len : (overwrite base min (a ++ b)).length = base.length := overwrite_length (by omega)
        have hs1 : slice (overwrite base min (a ++ b)) min mid = a := by
          unfold slice overwrite
          rw [List.append_assoc, List.append_assoc, ← List.append_assoc (base.take min)]
          rw [List.take_left' (by simp; omega)]
          rw [List.drop_left' (by simp; omega)]
        have hs2 : slice (overwrite base min (a ++ b)) (mid + 1) max = b := by
          unfold slice overwrite
          rw [List.take_left' (by simp; omega)]
          rw [← List.append_assoc, List.drop_left' (by simp; omega)]
        have hmg := merge_spec cmp num (overwrite base min (a ++ b)) min mid max hm1 hm2 (by omega)
          (by omega) s2
        simp only [hs1, hs2] at hmg
        rw [hov2, hmg]
        have p3 := lmerge_perm cmp a b s2
        rcases e3 : lmerge cmp a b s2 with ⟨s3, o3, m⟩
        rw [e3] at p3
        have lm : m.length = max + 1 - min := by rw [p3.length_eq, hlab]
        have hov3 : overwrite (overwrite base min (a ++ b)) min m = overwrite base min m := by
          have t1 : (overwrite base min (a ++ b)).take min = base.take min :=
            take_overwrite (by omega) le_rfl
          have t2 : (overwrite base min (a ++ b)).drop (min + m.length) = base.drop (min + m.length) :=
            drop_overwrite (by omega) (by omega)
          rw [overwrite, t1, t2]; rfl
        cases o3 with
        | err => rfl
        | ub => rfl
        | ok => simp only; rw [hov3]

/-- `rjs_sort` is the sort on lists. -/
theorem rjsSort_spec (cmp : σ → α → α → σ × CR) (s : σ) (base : List α) :
    let L := lsort cmp base.length base s
    rjsSort cmp s base = ⟨L.1, L.2.2, L.2.1⟩ := by
  unfold rjsSort
  split
  · rename_i h
    cases hb : base.length with
    | zero => simp [lsort, hb]
    | succ n => have h0 : n = 0 := by omega
                simp [lsort, hb, h0]
  · rename_i h
    have hsl : slice base 0 (base.length - 1) = base := by
      unfold slice; rw [List.drop_zero]; apply List.take_of_length_le; omega
    have := sort_spec cmp base.length base.length base 0 (base.length - 1) s (by omega) (by omega)
      le_rfl
    simp only [hsl] at this
    rw [this]
    have p := lsort_perm cmp base.length base s
    have hov : ∀ m : List α, m.length = base.length → overwrite base 0 m = m := by
      intro m hm
      unfold overwrite; rw [hm]; simp
    rw [hov _ p.length_eq]

/-! ### Consistent comparison functions -/

/-- The comparison function given by a relation. -/
def ofLe (le : α → α → Bool) (s : σ) (x y : α) : σ × CR :=
  (s, if le x y then .other else .greater)

theorem lmerge_ofLe (le : α → α → Bool)
    (htr : ∀ x y z, le x y → le y z → le x z) (htot : ∀ x y, le x y ∨ le y x)
    (a b : List α) (s : σ) :
    a.Pairwise (fun x y => le x y) → b.Pairwise (fun x y => le x y) →
    let M := lmerge (ofLe le) a b s
    M.2.1 = .ok ∧ M.2.2.Pairwise (fun x y => le x y) ∧
    ∀ z, M.2.2.filter (fun w => le z w && le w z) =
      a.filter (fun w => le z w && le w z) ++ b.filter (fun w => le z w && le w z) := by
  fun_induction lmerge (ofLe le) a b s with
  | case1 => intro _ h; exact ⟨rfl, h, by simp⟩
  | case2 => intro h _; exact ⟨rfl, h, by simp⟩
  | case3 x a y b s s' h => simp [ofLe] at h; split at h <;> simp at h
  | case4 x a y b s s' h r ih =>
    intro ha hb
    have hxy : le x y = false := by
      simp only [ofLe, Prod.mk.injEq] at h
      cases hh : le x y
      · rfl
      · rw [hh] at h; simp at h
    rw [List.pairwise_cons] at hb
    obtain ⟨h1, h2, h3⟩ := ih ha hb.2
    have hyx : le y x = true := by
      rcases htot x y with h | h
      · rw [h] at hxy; simp at hxy
      · exact h
    refine ⟨h1, ?_, ?_⟩
    · rw [List.pairwise_cons]
      refine ⟨?_, h2⟩
      intro w hw
      have hw' := (lmerge_perm (ofLe le) (x :: a) b s').mem_iff.1 hw
      rcases List.mem_append.1 hw' with hw' | hw'
      · rcases List.mem_cons.1 hw' with rfl | hw'
        · exact hyx
        · exact htr _ _ _ hyx ((List.pairwise_cons.1 ha).1 w hw')
      · exact hb.1 w hw'
    · intro z
      have h3z : r.2.2.filter (fun w => le z w && le w z) = _ := h3 z
      change (y :: r.2.2).filter _ = _
      by_cases hz : (le z y && le y z) = true
      · have hempty : (x :: a).filter (fun w => le z w && le w z) = [] := by
          rw [List.filter_eq_nil_iff]
          intro w hw hzw
          have hxw : le x w = true := by
            rcases List.mem_cons.1 hw with rfl | hw
            · rcases htot w w with h | h <;> exact h
            · exact (List.pairwise_cons.1 ha).1 w hw
          simp only [Bool.and_eq_true] at hz hzw
          have := htr _ _ _ hxw (htr _ _ _ hzw.2 hz.1)
          rw [hxy] at this; simp at this
        rw [hempty] at h3z ⊢
        rw [List.filter_cons_of_pos (p := fun w => le z w && le w z) hz, List.filter_cons_of_pos (p := fun w => le z w && le w z) hz, h3z]
        simp
      · rw [List.filter_cons_of_neg (p := fun w => le z w && le w z) hz, List.filter_cons_of_neg (p := fun w => le z w && le w z) hz, h3z]
  | case5 x a y b s s' h r ih =>
    intro ha hb
    have hxy : le x y = true := by
      simp only [ofLe, Prod.mk.injEq] at h
      cases hh : le x y
      · rw [hh] at h; simp at h
      · rfl
    rw [List.pairwise_cons] at ha
    obtain ⟨h1, h2, h3⟩ := ih ha.2 hb
    refine ⟨h1, ?_, ?_⟩
    · rw [List.pairwise_cons]
      refine ⟨?_, h2⟩
      intro w hw
      have hw' := (lmerge_perm (ofLe le) a (y :: b) s').mem_iff.1 hw
      rcases List.mem_append.1 hw' with hw' | hw'
      · exact ha.1 w hw'
      · rcases List.mem_cons.1 hw' with rfl | hw'
        · exact hxy
        · exact htr _ _ _ hxy ((List.pairwise_cons.1 hb).1 w hw')
    · intro z
      have h3z : r.2.2.filter (fun w => le z w && le w z) = _ := h3 z
      change (x :: r.2.2).filter _ = _
      by_cases hz : (le z x && le x z) = true
      · rw [List.filter_cons_of_pos (p := fun w => le z w && le w z) hz, List.filter_cons_of_pos (p := fun w => le z w && le w z) hz, h3z]; simp
      · rw [List.filter_cons_of_neg (p := fun w => le z w && le w z) hz, List.filter_cons_of_neg (p := fun w => le z w && le w z) hz, h3z]

theorem lsort_ofLe (le : α → α → Bool)
    (htr : ∀ x y z, le x y → le y z → le x z) (htot : ∀ x y, le x y ∨ le y x) (fuel : Nat) :
    ∀ (xs : List α) (s : σ), xs.length ≤ fuel + 1 →
    let L := lsort (ofLe le) fuel xs s
    L.2.1 = .ok ∧ L.2.2.Pairwise (fun x y => le x y) ∧
    ∀ z, L.2.2.filter (fun w => le z w && le w z) = xs.filter (fun w => le z w && le w z) := by
  induction fuel with
  | zero =>
    intro xs s h
    match xs, h with
    | [], _ => simp [lsort]
    | [x], _ => simp [lsort]
    | _ :: _ :: _, h => simp at h
  | succ fuel ih =>
    intro xs s h
    rw [lsort]
    split
    · rename_i hl
      match xs, hl with
      | [], _ => simp
      | [x], _ => simp
      | _ :: _ :: _, h => simp at h
    · rename_i hl
      simp only
      generalize hk : (xs.length - 1) / 2 + 1 = k
      have p1 := ih (xs.take k) s (by simp; omega)
      rcases h1 : lsort (ofLe le) fuel (xs.take k) s with ⟨s1, o1, a⟩
      rw [h1] at p1
      simp only at p1
      obtain ⟨q1, q2, q3⟩ := p1
      subst q1
      have p2 := ih (xs.drop k) s1 (by simp; omega)
      simp only
      rcases h2 : lsort (ofLe le) fuel (xs.drop k) s1 with ⟨s2, o2, b⟩
      rw [h2] at p2
      simp only at p2
      obtain ⟨r1, r2, r3⟩ := p2
      subst r1
      have p3 := lmerge_ofLe le htr htot a b s2 q2 r2
      simp only
      rcases h3 : lmerge (ofLe le) a b s2 with ⟨s3, o3, m⟩
      rw [h3] at p3
      simp only at p3
      obtain ⟨t1, t2, t3⟩ := p3
      subst t1
      refine ⟨rfl, t2, fun z => ?_⟩
      rw [t3, q3, r3, ← List.filter_append, List.take_append_drop]

/-! ### The calls of the comparison function -/

/-- The comparison function with a log of its results. -/
def logged (cmp : σ → α → α → σ × CR) (s : σ × List CR) (x y : α) : (σ × List CR) × CR :=
  let r := cmp s.1 x y
  ((r.1, s.2 ++ [r.2]), r.2)

/-- What the log says when a run ends with `o`. -/
def LogOK (o : Out) (cs : List CR) : Prop :=
  (o = .ok → CR.err ∉ cs) ∧ (o = .err → ∃ pre, cs = pre ++ [.err] ∧ CR.err ∉ pre)

theorem LogOK.cons {o : Out} {cs : List CR} (c : CR) (hc : c ≠ .err) (h : LogOK o cs) :
    LogOK o (c :: cs) := by
  refine ⟨fun ho => ?_, fun ho => ?_⟩
  · rw [List.mem_cons, not_or]; exact ⟨fun h => hc h.symm, h.1 ho⟩
  · obtain ⟨pre, h1, h2⟩ := h.2 ho
    refine ⟨c :: pre, by rw [h1]; rfl, ?_⟩
    rw [List.mem_cons, not_or]; exact ⟨fun h => hc h.symm, h2⟩

theorem LogOK.append {o : Out} {cs ds : List CR} (hc : LogOK .ok cs) (h : LogOK o ds) :
    LogOK o (cs ++ ds) := by
  refine ⟨fun ho => ?_, fun ho => ?_⟩
  · rw [List.mem_append, not_or]; exact ⟨hc.1 rfl, h.1 ho⟩
  · obtain ⟨pre, h1, h2⟩ := h.2 ho
    refine ⟨cs ++ pre, by rw [h1, List.append_assoc], ?_⟩
    rw [List.mem_append, not_or]; exact ⟨hc.1 rfl, h2⟩

theorem LogOK.nil (o : Out) (h : o ≠ .err) : LogOK o [] := ⟨by simp, fun h' => absurd h' h⟩

theorem lmerge_log (cmp : σ → α → α → σ × CR) (a b : List α) (s : σ × List CR) :
    ∃ cs, (lmerge (logged cmp) a b s).1.2 = s.2 ++ cs ∧
      LogOK (lmerge (logged cmp) a b s).2.1 cs := by
  fun_induction lmerge (logged cmp) a b s with
  | case1 => exact ⟨[], by simp, LogOK.nil _ (by simp)⟩
  | case2 => exact ⟨[], by simp, LogOK.nil _ (by simp)⟩
  | case3 x a y b s s' h =>
    simp only [logged, Prod.mk.injEq] at h
    refine ⟨[.err], by rw [← h.1, h.2], by simp [LogOK]⟩
  | case4 x a y b s s' h r ih =>
    simp only [logged, Prod.mk.injEq] at h
    obtain ⟨cs, h1, h2⟩ := ih
    refine ⟨.greater :: cs, ?_, LogOK.cons _ (by simp) h2⟩
    change r.1.2 = _
    rw [h1, ← h.1, h.2]; simp
  | case5 x a y b s s' h r ih =>
    simp only [logged, Prod.mk.injEq] at h
    obtain ⟨cs, h1, h2⟩ := ih
    refine ⟨.other :: cs, ?_, LogOK.cons _ (by simp) h2⟩
    change r.1.2 = _
    rw [h1, ← h.1, h.2]; simp

theorem lsort_log (cmp : σ → α → α → σ × CR) (fuel : Nat) :
    ∀ (xs : List α) (s : σ × List CR), ∃ cs, (lsort (logged cmp) fuel xs s).1.2 = s.2 ++ cs ∧
      LogOK (lsort (logged cmp) fuel xs s).2.1 cs := by
  induction fuel with
  | zero =>
    intro xs s
    refine ⟨[], by simp [lsort], LogOK.nil _ ?_⟩
    simp only [lsort]; split <;> simp
  | succ fuel ih =>
    intro xs s
    rw [lsort]
    split
    · exact ⟨[], by simp, LogOK.nil _ (by simp)⟩
    · simp only
      generalize (xs.length - 1) / 2 + 1 = k
      obtain ⟨c1, e1, l1⟩ := ih (xs.take k) s
      rcases h1 : lsort (logged cmp) fuel (xs.take k) s with ⟨s1, o1, a⟩
      rw [h1] at e1 l1
      simp only at e1 l1
      cases o1 with
      | err => exact ⟨c1, e1, l1⟩
      | ub => exact ⟨c1, e1, l1⟩
      | ok =>
        obtain ⟨c2, e2, l2⟩ := ih (xs.drop k) s1
        simp only
        rcases h2 : lsort (logged cmp) fuel (xs.drop k) s1 with ⟨s2, o2, b⟩
        rw [h2] at e2 l2
        simp only at e2 l2
        have e12 : s2.2 = s.2 ++ (c1 ++ c2) := by rw [e2, e1, List.append_assoc]
        cases o2 with
        | err => exact ⟨c1 ++ c2, e12, l1.append l2⟩
        | ub => exact ⟨c1 ++ c2, e12, l1.append l2⟩
        | ok =>
          obtain ⟨c3, e3, l3⟩ := lmerge_log cmp a b s2
          simp only
          rcases h3 : lmerge (logged cmp) a b s2 with ⟨s3, o3, m⟩
          rw [h3] at e3 l3
          simp only at e3 l3
          have e123 : s3.2 = s.2 ++ (c1 ++ c2 ++ c3) := by rw [e3, e12, List.append_assoc]
          cases o3 with
          | err => exact ⟨_, e123, (l1.append l2).append l3⟩
          | ub => exact ⟨_, e123, (l1.append l2).append l3⟩
          | ok => exact ⟨_, e123, (l1.append l2).append l3⟩

/-- Logging does not change what the sort does. -/
theorem lmerge_logged (cmp : σ → α → α → σ × CR) (a b : List α) (s : σ × List CR) :
    (lmerge (logged cmp) a b s).2 = (lmerge cmp a b s.1).2 ∧
      (lmerge (logged cmp) a b s).1.1 = (lmerge cmp a b s.1).1 := by
  fun_induction lmerge (logged cmp) a b s with
  | case1 => simp [lmerge]
  | case2 => simp [lmerge]
  | case3 x a y b s s' h =>
    simp only [logged, Prod.mk.injEq] at h
    rw [lmerge]
    rcases hc : cmp s.1 x y with ⟨t, c⟩
    rw [hc] at h
    simp only at h
    rw [h.2]
    simp [← h.1]
  | case4 x a y b s s' h r ih =>
    simp only [logged, Prod.mk.injEq] at h
    rw [lmerge]
    rcases hc : cmp s.1 x y with ⟨t, c⟩
    rw [hc] at h
    simp only at h
    rw [h.2]
    have : s'.1 = t := by rw [← h.1]
    rw [this] at ih
    refine ⟨?_, ih.2⟩
    change (r.2.1, y :: r.2.2) = _
    have e := ih.1
    change r.2 = _ at e
    rw [e]
  | case5 x a y b s s' h r ih =>
    simp only [logged, Prod.mk.injEq] at h
    rw [lmerge]
    rcases hc : cmp s.1 x y with ⟨t, c⟩
    rw [hc] at h
    simp only at h
    rw [h.2]
    have : s'.1 = t := by rw [← h.1]
    rw [this] at ih
    refine ⟨?_, ih.2⟩
    change (r.2.1, x :: r.2.2) = _
    have e := ih.1
    change r.2 = _ at e
    rw [e]

theorem lsort_logged (cmp : σ → α → α → σ × CR) (fuel : Nat) :
    ∀ (xs : List α) (s : σ × List CR),
      (lsort (logged cmp) fuel xs s).2 = (lsort cmp fuel xs s.1).2 ∧
      (lsort (logged cmp) fuel xs s).1.1 = (lsort cmp fuel xs s.1).1 := by
  induction fuel with
  | zero => intro xs s; simp [lsort]
  | succ fuel ih =>
    intro xs s
    rw [lsort, lsort]
    split
    · simp
    · simp only
      generalize (xs.length - 1) / 2 + 1 = k
      have p1 := ih (xs.take k) s
      rcases h1 : lsort (logged cmp) fuel (xs.take k) s with ⟨s1, o1, a⟩
      rcases h1' : lsort cmp fuel (xs.take k) s.1 with ⟨s1', o1', a'⟩
      rw [h1, h1'] at p1
      simp only [Prod.mk.injEq] at p1
      obtain ⟨⟨rfl, rfl⟩, rfl⟩ := p1
      cases o1 with
      | err => simp
      | ub => simp
      | ok =>
        simp only
        have p2 := ih (xs.drop k) s1
        rcases h2 : lsort (logged cmp) fuel (xs.drop k) s1 with ⟨s2, o2, b⟩
        rcases h2' : lsort cmp fuel (xs.drop k) s1.1 with ⟨s2', o2', b'⟩
        rw [h2, h2'] at p2
        simp only [Prod.mk.injEq] at p2
        obtain ⟨⟨rfl, rfl⟩, rfl⟩ := p2
        cases o2 with
        | err => simp
        | ub => simp
        | ok =>
          simp only
          have p3 := lmerge_logged cmp a b s2
          rcases h3 : lmerge (logged cmp) a b s2 with ⟨s3, o3, m⟩
          rcases h3' : lmerge cmp a b s2.1 with ⟨s3', o3', m'⟩
          rw [h3, h3'] at p3
          simp only [Prod.mk.injEq] at p3
          obtain ⟨⟨rfl, rfl⟩, rfl⟩ := p3
          cases o3 <;> simp

/-- The merge keeps `undefined` (here `none`) behind everything else, whatever the
comparison function does. -/
def NoneLast (l : List (Option α)) : Prop := l.Pairwise (fun x y => x = none → y = none)

theorem lmerge_noneLast (cmp : σ → α → α → σ × CR) (a b : List (Option α)) (s : σ) :
    NoneLast a → NoneLast b → (lmerge (itemCmp cmp) a b s).2.1 = .ok →
    NoneLast (lmerge (itemCmp cmp) a b s).2.2 := by
  fun_induction lmerge (itemCmp cmp) a b s with
  | case1 => intro _ h _; exact h
  | case2 => intro h _ _; exact h
  | case3 => intro _ _ h; simp at h
  | case4 x a y b s s' h r ih =>
    intro ha hb ho
    unfold NoneLast at hb ⊢
    rw [List.pairwise_cons] at hb ⊢
    refine ⟨?_, ih ha hb.2 ho⟩
    intro w hw hy
    subst hy
    cases x with
    | none => simp [itemCmp] at h
    | some x => simp [itemCmp] at h
  | case5 x a y b s s' h r ih =>
    intro ha hb ho
    unfold NoneLast at ha hb ⊢
    rw [List.pairwise_cons] at ha ⊢
    refine ⟨?_, ih ha.2 hb ho⟩
    intro w hw hx
    subst hx
    cases y with
    | some y => simp [itemCmp] at h
    | none =>
      have hw' := (lmerge_perm (itemCmp cmp) a (none :: b) s').mem_iff.1 hw
      rcases List.mem_append.1 hw' with hw' | hw'
      · exact ha.1 w hw' rfl
      · rcases List.mem_cons.1 hw' with rfl | hw'
        · rfl
        · exact (List.pairwise_cons.1 hb).1 w hw' rfl

theorem lsort_noneLast (cmp : σ → α → α → σ × CR) (fuel : Nat) :
    ∀ (xs : List (Option α)) (s : σ), (lsort (itemCmp cmp) fuel xs s).2.1 = .ok →
      NoneLast (lsort (itemCmp cmp) fuel xs s).2.2 := by
  have short : ∀ xs : List (Option α), xs.length ≤ 1 → NoneLast xs := by
    intro xs h
    match xs, h with
    | [], _ => simp [NoneLast]
    | [x], _ => simp [NoneLast]
    | _ :: _ :: _, h => simp at h
  induction fuel with
  | zero =>
    intro xs s ho
    simp only [lsort] at ho ⊢
    split at ho
    · rename_i h; exact short xs h
    · simp at ho
  | succ fuel ih =>
    intro xs s
    rw [lsort]
    split
    · rename_i h; intro _; exact short xs h
    · simp only
      generalize (xs.length - 1) / 2 + 1 = k
      have p1 := ih (xs.take k) s
      rcases h1 : lsort (itemCmp cmp) fuel (xs.take k) s with ⟨s1, o1, a⟩
      rw [h1] at p1
      cases o1 with
      | err => simp
      | ub => simp
      | ok =>
        have p2 := ih (xs.drop k) s1
        simp only
        rcases h2 : lsort (itemCmp cmp) fuel (xs.drop k) s1 with ⟨s2, o2, b⟩
        rw [h2] at p2
        cases o2 with
        | err => simp
        | ub => simp
        | ok =>
          have p3 := lmerge_noneLast cmp a b s2 (p1 rfl) (p2 rfl)
          simp only
          rcases h3 : lmerge (itemCmp cmp) a b s2 with ⟨s3, o3, m⟩
          rw [h3] at p3
          cases o3 with
          | err => simp
          | ub => simp
          | ok => intro _; exact p3 rfl

theorem noneLast_split (l : List (Option α)) (h : NoneLast l) :
    l = (l.filterMap id).map some ++ List.replicate (l.length - (l.filterMap id).length) none := by
  induction l with
  | nil => simp
  | cons x t ih =>
    have h' := List.pairwise_cons.1 h
    cases x with
    | some x =>
      have := ih h'.2
      simp only [List.filterMap_cons, id, List.map_cons, List.length_cons, List.cons_append,
        List.cons.injEq, true_and, Nat.add_sub_add_right]
      exact this
    | none =>
      have hall : ∀ w ∈ t, w = none := fun w hw => h'.1 w hw rfl
      have hf : t.filterMap id = [] := by
        rw [List.filterMap_eq_nil_iff]; intro w hw; rw [hall w hw]; rfl
      have ht : t = List.replicate t.length none := List.eq_replicate_iff.2 ⟨rfl, hall⟩
      simp only [List.filterMap_cons, id, hf]
      rw [ht]; simp [List.replicate_succ]

theorem filterMap_append_none (l : List (Option α)) (n : Nat) :
    (l ++ List.replicate n none).filterMap id = l.filterMap id := by
  rw [List.filterMap_append]
  have : (List.replicate n (none : Option α)).filterMap id = [] := by
    rw [List.filterMap_eq_nil_iff]; intro w hw; rw [List.eq_of_mem_replicate hw]; rfl
  rw [this, List.append_nil]

end Verif.Sort

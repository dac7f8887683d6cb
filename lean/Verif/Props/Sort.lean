import Verif.Lemmas.Sort
/-
Property C01: sorting.
-/
namespace Verif.Sort
variable {σ α : Type}

/-- For every comparison function - also one that fails, is inconsistent or changes its
mind - sorting never reads or writes outside of the array or of its temporary buffer,
and the array afterwards (also after a failure) is a permutation of the array before. -/
theorem C01_safe_permutation (cmp : σ → α → α → σ × CR) (s : σ) (xs : List α) :
    (rjsSort cmp s xs).out ≠ .ub ∧ (rjsSort cmp s xs).arr.Perm xs := by
  have h := rjsSort_spec cmp s xs
  simp only at h
  rw [h]
  exact ⟨lsort_out cmp xs.length xs s (by omega), lsort_perm cmp xs.length xs s⟩

/-- For a comparison function which is a total preorder (`le x y` = "not greater") the
sort succeeds, the result is ordered, and elements that compare equal keep their
relative order: for every `z`, the elements equal to `z` form the same list before and
after. -/
theorem C01_sorted_stable (le : α → α → Bool) (htr : ∀ x y z, le x y → le y z → le x z)
    (htot : ∀ x y, le x y ∨ le y x) (cmp : σ → α → α → σ × CR)
    (hcmp : ∀ s x y, (cmp s x y).1 = s ∧ (cmp s x y).2 ≠ .err ∧ ((cmp s x y).2 = .greater ↔ ¬ le x y))
    (s : σ) (xs : List α) :
    (rjsSort cmp s xs).out = .ok ∧
    (rjsSort cmp s xs).arr.Perm xs ∧
    (rjsSort cmp s xs).arr.Pairwise (fun x y => le x y) ∧
    ∀ z, (rjsSort cmp s xs).arr.filter (fun w => le z w && le w z) =
      xs.filter (fun w => le z w && le w z) := by
  have hc : cmp = ofLe le := by
    funext s x y
    obtain ⟨h1, h2, h3⟩ := hcmp s x y
    rw [ofLe, Prod.ext_iff]
    refine ⟨h1, ?_⟩
    simp only
    split
    · rename_i hle
      cases hr : (cmp s x y).2 with
      | err => exact absurd hr h2
      | greater => exact absurd hle (h3.1 hr)
      | other => rfl
    · rename_i hle; exact h3.2 hle
  subst hc
  have h := rjsSort_spec (ofLe le) s xs
  simp only at h
  have h2 := lsort_ofLe le htr htot xs.length xs s (by omega)
  simp only at h2
  rw [h]
  exact ⟨h2.1, lsort_perm _ _ _ _, h2.2⟩

/-- Failures of the comparison function: the sort reports an error exactly when a call
of the comparison function failed, and it makes no further call after a failed one.
`logged` appends the result of every call to a list. -/
theorem C01_failure (cmp : σ → α → α → σ × CR) (s : σ) (xs : List α) :
    let r := rjsSort (logged cmp) (s, []) xs
    (r.out = .ok → CR.err ∉ r.st.2) ∧
    (r.out = .err → ∃ pre, r.st.2 = pre ++ [.err] ∧ CR.err ∉ pre) := by
  have h := rjsSort_spec (logged cmp) (s, []) xs
  simp only at h
  rw [h]
  obtain ⟨cs, h1, h2⟩ := lsort_log cmp xs.length xs (s, [])
  simp only [List.nil_append] at h1
  simp only [h1]
  exact h2

/-- Logging does not change what the sort does. -/
theorem C01_logging (cmp : σ → α → α → σ × CR) (s : σ) (xs : List α) :
    (rjsSort (logged cmp) (s, []) xs).out = (rjsSort cmp s xs).out ∧
      (rjsSort (logged cmp) (s, []) xs).arr = (rjsSort cmp s xs).arr := by
  have h := rjsSort_spec (logged cmp) (s, []) xs
  have h' := rjsSort_spec cmp s xs
  simp only at h h'
  rw [h, h']
  have := lsort_logged cmp xs.length xs (s, [])
  simp only [this.1, and_self]

/-! ### `Array.prototype.sort` -/

/-- Number of `undefined` elements. -/
def undefs (arr : List (Option (Option α))) : Nat := arr.countP fun e => e matches some none

/-- Number of holes. -/
def holes (arr : List (Option (Option α))) : Nat := arr.countP fun e => e matches none

/-- `Array.prototype.sort`, for every comparison function: no undefined behaviour; after
a failure the array is unchanged; on success the array consists of a permutation of the
values that are not `undefined`, then as many `undefined` as before, then as many holes
as before. -/
theorem C01_array_sort (cmp : σ → α → α → σ × CR) (s : σ) (arr : List (Option (Option α))) :
    let r := arraySort cmp s arr
    r.2.1 ≠ .ub ∧ (r.2.1 = .err → r.2.2 = arr) ∧
    (r.2.1 = .ok → ∃ vs : List α, vs.Perm ((arr.filterMap id).filterMap id) ∧
      r.2.2 = vs.map (some ∘ some) ++ List.replicate (undefs arr) (some none) ++
        List.replicate (holes arr) none) := by
  simp only [arraySort]
  generalize hit : arr.filterMap id = items
  have hlen : items.length ≤ arr.length := by rw [← hit]; exact List.length_filterMap_le _ _
  generalize hbuf : items ++ List.replicate (arr.length - items.length) none = buf
  have hsp := rjsSort_spec (itemCmp cmp) s buf
  simp only at hsp
  have hperm := lsort_perm (itemCmp cmp) buf.length buf s
  have hout := lsort_out (itemCmp cmp) buf.length buf s (by omega)
  have hnl := lsort_noneLast cmp buf.length buf s
  rw [hsp]
  generalize lsort (itemCmp cmp) buf.length buf s = L at hperm hout hnl
  obtain ⟨s', o, b⟩ := L
  dsimp only at hperm hout hnl ⊢
  cases o with
  | ub => exact absurd rfl hout
  | err => simp
  | ok =>
    simp only [ne_eq, reduceCtorEq, not_false_eq_true, true_and, false_implies, forall_const]
    have hnl := hnl rfl
    have hvs : (b.filterMap id).Perm (items.filterMap id) := by
      have := hperm.filterMap id
      rwa [← hbuf, filterMap_append_none] at this
    refine ⟨b.filterMap id, hvs, ?_⟩
    -- counting
    have hblen : b.length = arr.length := by
      rw [hperm.length_eq, ← hbuf]; simp; omega
    have c1 : ∀ l : List (Option (Option α)), (l.filterMap id).length + holes l = l.length := by
      intro l
      induction l with
      | nil => rfl
      | cons x t ih => cases x <;> simp_all [holes] <;> omega
    have c2 : ∀ l : List (Option (Option α)),
        ((l.filterMap id).filterMap id).length + undefs l = (l.filterMap id).length := by
      intro l
      induction l with
      | nil => rfl
      | cons x t ih =>
        cases x with
        | none => simpa [undefs] using ih
        | some x => cases x <;> simp_all [undefs] <;> omega
    have e1 := c1 arr
    have e2 := c2 arr
    rw [hit] at e1 e2
    have e3 := hvs.length_eq
    have hsplit := noneLast_split b hnl
    have htake : b.take items.length = (b.filterMap id).map some ++
        List.replicate (undefs arr) none := by
      conv_lhs => rw [hsplit]
      generalize b.filterMap id = vs at e3
      rw [List.take_append, List.take_of_length_le (by rw [List.length_map]; omega),
        List.take_replicate, List.length_map]
      congr 2
      omega
    rw [htake, List.map_append, List.map_map, List.map_replicate, List.append_assoc,
      List.append_assoc]
    congr 3
    omega

/-! ### Examples -/

/-- A total preorder which is not antisymmetric: pairs compared by the first component. -/
example : (rjsSort (σ := Unit) (ofLe fun (x y : Nat × Nat) => decide (x.1 ≤ y.1)) ()
    [(2, 0), (1, 1), (2, 2), (1, 3), (0, 4)]).arr = [(0, 4), (1, 1), (1, 3), (2, 0), (2, 2)] := by
  decide

/-- A comparison function that fails on the third call. -/
example : (rjsSort (logged fun (n : Nat) (x y : Nat) =>
    (n + 1, if n = 2 then .err else if x > y then .greater else .other)) (0, []) [4, 3, 2, 1]).st.2
      = [.greater, .greater, .err] := by decide

example : (arraySort (σ := Unit) (ofLe fun (x y : Nat) => decide (x ≤ y)) ()
    [some (some 3), none, some none, some (some 1)]).2.2 =
      [some (some 1), some (some 3), some none, none] := by decide

end Verif.Sort

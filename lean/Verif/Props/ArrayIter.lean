import Verif.Spec.ArrayIter
/-!
C77: the iterators of arrays.
-/
namespace Verif.ArrayIter
open Spec

variable {V : Type}

theorem next_same (kind : Kind) (k : Nat) (m : Moment V) :
    (next ⟨kind, k⟩ m).1 = (Spec.next kind (.running k) m).1 ∧
    (isItem (Spec.next kind (.running k) m).1 = true →
      (next ⟨kind, k⟩ m).2 = ⟨kind, k + 1⟩ ∧
      (Spec.next kind (.running k) m).2 = .running (k + 1)) := by
  unfold next Spec.next outAt
  simp only
  cases m.len with
  | none => exact ⟨rfl, fun h => by cases h⟩
  | some len =>
    simp only
    by_cases hk : k < len
    · rw [if_neg (by omega), if_pos hk]
      cases kind with
      | key => exact ⟨rfl, fun _ => ⟨rfl, rfl⟩⟩
      | value => cases m.get k with
        | none => exact ⟨rfl, fun h => by cases h⟩
        | some v => exact ⟨rfl, fun _ => ⟨rfl, rfl⟩⟩
      | both => cases m.get k with
        | none => exact ⟨rfl, fun h => by cases h⟩
        | some v => exact ⟨rfl, fun _ => ⟨rfl, rfl⟩⟩
    · rw [if_pos (by omega), if_neg hk]
      exact ⟨rfl, fun h => by cases h⟩

theorem ended_calls (kind : Kind) (ms : List (Moment V)) :
    Spec.calls kind .ended ms = ms.map fun _ => .done := by
  induction ms with
  | nil => rfl
  | cons m ms ih => simp only [Spec.calls, Spec.next, List.map_cons, ih]

theorem beyond_calls (kind : Kind) (ms : List (Moment V)) : ∀ k : Nat,
    (∀ m ∈ ms, ∃ n, m.len = some n ∧ n ≤ k) →
    calls ⟨kind, k⟩ ms = ms.map fun _ => .done := by
  induction ms with
  | nil => intro k _; rfl
  | cons m ms ih =>
    intro k h
    obtain ⟨n, hn, hk⟩ := h m (by simp)
    have hnext : next ⟨kind, k⟩ m = (.done, ⟨kind, k + 1⟩) := by
      unfold next; rw [hn]; simp only; rw [if_pos hk]
    simp only [calls, hnext, List.map_cons]
    rw [ih (k + 1) fun m hm => ?_]
    obtain ⟨n, h1, h2⟩ := h m (by simp [hm])
    exact ⟨n, h1, by omega⟩

/-- As long as the standard's iterator has not ended, this one gives the same, whatever happens to
the array between the calls; the first end or throw is the same, too. -/
theorem C77_agree_partial (kind : Kind) (ms : List (Moment V)) : ∀ (k : Nat) (last : Moment V),
    (∀ o ∈ Spec.calls kind (.running k) ms, isItem o = true) →
    calls ⟨kind, k⟩ (ms ++ [last]) = Spec.calls kind (.running k) (ms ++ [last]) := by
  induction ms with
  | nil =>
    intro k last _
    simp only [List.nil_append, calls, Spec.calls, (next_same kind k last).1]
  | cons m ms ih =>
    intro k last h
    simp only [Spec.calls, List.mem_cons, forall_eq_or_imp] at h
    obtain ⟨h1, h2⟩ := next_same kind k m
    obtain ⟨h3, h4⟩ := h2 h.1
    simp only [List.cons_append, calls, Spec.calls, h1, h3, h4]
    rw [h4] at h
    rw [ih (k + 1) last h.2]

/-- And for ever, if the array does not grow beyond what has been given once the iterator has
ended. -/
theorem C77_calm_partial (kind : Kind) (ms : List (Moment V)) : ∀ (k : Nat) (rest : List (Moment V)),
    (∀ o ∈ Spec.calls kind (.running k) ms, isItem o = true) →
    (∀ m ∈ rest, ∃ n, m.len = some n ∧ n ≤ k + ms.length) →
    calls ⟨kind, k⟩ (ms ++ rest) = Spec.calls kind (.running k) (ms ++ rest) := by
  induction ms with
  | nil =>
    intro k rest _ hr
    simp only [List.length_nil, Nat.add_zero] at hr
    rw [List.nil_append, beyond_calls kind rest k hr]
    cases rest with
    | nil => rfl
    | cons m ms =>
      obtain ⟨n, h1, h2⟩ := hr m (by simp)
      have : Spec.next kind (.running k) m = (.done, .ended) := by
        unfold Spec.next; simp only [h1]; rw [if_neg (by omega)]
      simp only [Spec.calls, this, ended_calls, List.map_cons]
  | cons m ms ih =>
    intro k rest h hr
    simp only [Spec.calls, List.mem_cons, forall_eq_or_imp] at h
    obtain ⟨h1, h2⟩ := next_same kind k m
    obtain ⟨h3, h4⟩ := h2 h.1
    simp only [List.cons_append, calls, Spec.calls, h1, h3, h4]
    rw [h4] at h
    rw [ih (k + 1) rest h.2 (fun m hm => by
      obtain ⟨n, h5, h6⟩ := hr m hm
      exact ⟨n, h5, by simp only [List.length_cons] at h6; omega⟩)]

/-- An array that nobody changes: its elements in order, each once, and then the end. -/
theorem C77_unchanged (l : List V) (n : Nat) :
    calls ⟨.value, 0⟩ (List.replicate (l.length + n) ⟨some l.length, fun i => l[i]?⟩) =
      l.map .value ++ List.replicate n .done := by
  have key : ∀ (d : Nat) (k : Nat), k + d = l.length →
      calls ⟨.value, k⟩ (List.replicate (d + n) ⟨some l.length, fun i => l[i]?⟩) =
        (l.drop k).map .value ++ List.replicate n .done := by
    intro d
    induction d with
    | zero =>
      intro k hk
      rw [beyond_calls .value _ k (fun m hm => ?_), List.drop_eq_nil_of_le (by omega)]
      · simp
      · rw [(List.mem_replicate.1 hm).2]
        exact ⟨_, rfl, by omega⟩
    | succ d ih =>
      intro k hk
      rw [show d + 1 + n = (d + n) + 1 from by omega, List.replicate_succ]
      have hk' : k < l.length := by omega
      have hnext : next ⟨.value, k⟩ ⟨some l.length, fun i => l[i]?⟩ = (.value l[k], ⟨.value, k + 1⟩) := by
        unfold next
        simp only
        rw [if_neg (by omega), List.getElem?_eq_getElem hk']
      rw [List.drop_eq_getElem_cons hk']
      simp only [calls, hnext, List.map_cons, List.cons_append]
      rw [ih (k + 1) (by omega)]
  have := key l.length 0 (by omega)
  rwa [List.drop_zero] at this

/-- An iterator that has ended gives values again when the array has grown.  Here the array has one
element, and later three: after the end comes the element at index 2. -/
theorem C77_restart_violated :
    ∃ (ms : List (Moment Nat)),
      calls ⟨.value, 0⟩ ms = [.value 10, .done, .value 12] ∧
      Spec.calls .value (.running 0) ms = [.value 10, .done, .done] :=
  ⟨[⟨some 1, fun i => some (i + 10)⟩, ⟨some 1, fun i => some (i + 10)⟩, ⟨some 3, fun i => some (i + 10)⟩],
    rfl, rfl⟩

/-- After a getter has thrown the same element is asked for again; in the standard the iterator has
ended. -/
theorem C77_throw_violated :
    ∃ (ms : List (Moment Nat)),
      calls ⟨.value, 0⟩ ms = [.threw, .value 10] ∧
      Spec.calls .value (.running 0) ms = [.threw, .done] :=
  ⟨[⟨some 1, fun _ => none⟩, ⟨some 1, fun i => some (i + 10)⟩], rfl, rfl⟩

/-! The array grows, from one element to two, while the iterator is at work: its hypotheses hold. -/

example : calls ⟨.both, 0⟩ [⟨some 1, fun i => some (i + 10)⟩, ⟨some 2, fun i => some (i + 20)⟩,
      ⟨some 2, fun i => some (i + 20)⟩] = [Out.both 0 10, .both 1 21, .done] := by
  have := C77_agree_partial (V := Nat) .both [⟨some 1, fun i => some (i + 10)⟩,
    ⟨some 2, fun i => some (i + 20)⟩] 0 ⟨some 2, fun i => some (i + 20)⟩ (by
      intro o ho
      simp only [Spec.calls, Spec.next, outAt] at ho
      simp at ho
      rcases ho with rfl | rfl <;> rfl)
  exact this

example : calls ⟨.value, 0⟩ (List.replicate 4 ⟨some 2, fun i => [7, 8][i]?⟩) =
    [Out.value 7, .value 8, .done, .done] := C77_unchanged [7, 8] 2

end Verif.ArrayIter

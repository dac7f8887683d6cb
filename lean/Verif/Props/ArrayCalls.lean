import Verif.Lemmas.ArrayCalls
import Verif.Lemmas.ArrayCallsTrace
/-!
C76: the methods of `Array.prototype` that call a function.

First what they compute when the calls leave the array alone, whatever else they do: `m` is any
monad (state, exceptions, …).  Then what they do when nothing is known about the surroundings.
-/
namespace Verif.ArrayCalls
open ArrayOps Spec

section
variable {V : Type} [Inhabited V] {m : Type → Type} [Monad m] [LawfulMonad m] {w : World m V}
  {l : List (Option V)}

/-- `forEach` calls the function for each element that is there, from the front to the back. -/
theorem C76_forEach (hs : Still w l) :
    run w (forEach l.length) =
      (entries 0 l).forM fun e => w.call none e.2 (e.1 : Nat) >>= fun _ => pure () := forEach_ok hs

/-- `every` and `some` stop at the first answer that decides. -/
theorem C76_every (hs : Still w l) (truthy : V → Bool) :
    run w (every truthy l.length) =
      (entries 0 l).allM fun e => truthy <$> w.call none e.2 (e.1 : Nat) := every_ok hs truthy

theorem C76_some (hs : Still w l) (truthy : V → Bool) :
    run w (some' truthy l.length) =
      (entries 0 l).anyM fun e => truthy <$> w.call none e.2 (e.1 : Nat) := some_ok hs truthy

/-- `map` gives an array of the same length, with holes in the same places. -/
theorem C76_map (hs : Still w l) (hn : l.length < 2 ^ 32) :
    run w (map l.length) = arrayOf <$> l.zipIdx.mapM (fun p =>
      match p.1 with
      | none => pure none
      | some v => some <$> w.call none v (p.2 : Nat)) := map_ok hs hn

/-- An array with more than 2^32 - 1 elements cannot be made. -/
theorem C76_map_range (n : Nat) (hn : 2 ^ 32 ≤ n) : run w (map n) = w.fail .range := by
  unfold map newArray
  rw [if_pos (by omega), run_bind]
  exact w.fail_bind _ _

/-- `filter` keeps, in order, the elements for which the answer was true. -/
theorem C76_filter (hs : Still w l) (truthy : V → Bool) (hn : l.length < 2 ^ 32) :
    run w (filter truthy l.length) = (fun es => arrayOf (es.map fun e => some e.2)) <$>
      (entries 0 l).filterM fun e => truthy <$> w.call none e.2 (e.1 : Nat) := filter_ok hs truthy hn

/-- `find`, `findIndex`: the first element with a true answer; holes are asked about, too. -/
theorem C76_find (hs : Still w l) (truthy : V → Bool) :
    run w (find truthy l.length) = (fun r => (r.map Prod.snd).getD default) <$>
        (allOf l).findM? (fun e => truthy <$> w.call none e.2 (e.1 : Nat)) ∧
    run w (findIndex truthy l.length) = (fun r => (r.map fun e => (e.1 : Int)).getD (-1)) <$>
        (allOf l).findM? (fun e => truthy <$> w.call none e.2 (e.1 : Nat)) := by
  constructor
  · unfold find
    rw [run_bind, find_up hs]
    simp only [map_eq_pure_bind, bind_assoc, pure_bind, run]
    congr 1; funext r; cases r <;> rfl
  · unfold findIndex
    rw [run_bind, find_up hs]
    simp only [map_eq_pure_bind, bind_assoc, pure_bind, run]
    congr 1; funext r; cases r <;> rfl

/-- `findLast`, `findLastIndex`: the same from the back. -/
theorem C76_findLast (hs : Still w l) (truthy : V → Bool) :
    run w (findLast truthy l.length) = (fun r => (r.map Prod.snd).getD default) <$>
        (allOf l).reverse.findM? (fun e => truthy <$> w.call none e.2 (e.1 : Nat)) ∧
    run w (findLastIndex truthy l.length) = (fun r => (r.map fun e => (e.1 : Int)).getD (-1)) <$>
        (allOf l).reverse.findM? (fun e => truthy <$> w.call none e.2 (e.1 : Nat)) := by
  constructor
  · unfold findLast
    rw [run_bind, find_down hs]
    simp only [map_eq_pure_bind, bind_assoc, pure_bind, run]
    congr 1; funext r; cases r <;> rfl
  · unfold findLastIndex
    rw [run_bind, find_down hs]
    simp only [map_eq_pure_bind, bind_assoc, pure_bind, run]
    congr 1; funext r; cases r <;> rfl

/-- `reduce` is a fold; without a first value it starts with the first element that is there. -/
theorem C76_reduce (hs : Still w l) :
    (∀ init, run w (reduce l.length (some init)) =
      (entries 0 l).foldlM (fun acc e => w.call (some acc) e.2 (e.1 : Nat)) init) ∧
    run w (reduce l.length none) =
      match entries 0 l with
      | [] => w.fail .type
      | e :: t => t.foldlM (fun acc e => w.call (some acc) e.2 (e.1 : Nat)) e.2 :=
  ⟨reduce_init hs, reduce_first hs⟩

theorem C76_reduceRight (hs : Still w l) :
    (∀ init, run w (reduceRight l.length (some init)) =
      (entries 0 l).reverse.foldlM (fun acc e => w.call (some acc) e.2 (e.1 : Nat)) init) ∧
    run w (reduceRight l.length none) =
      match (entries 0 l).reverse with
      | [] => w.fail .type
      | e :: t => t.foldlM (fun acc e => w.call (some acc) e.2 (e.1 : Nat)) e.2 :=
  ⟨reduceRight_init hs, reduceRight_first hs⟩

/-- `flatMap` puts together what is returned; of an array its elements that are there. -/
theorem C76_flatMap (hs : Still w l) {arr : V → Option (List (Option V))} (hk : Known w arr) (B : Nat)
    (hB : 1 ≤ B) (hb : ∀ r l', arr r = some l' → l'.length ≤ B) (hn : l.length * B < 2 ^ 32) :
    run w (flatMap l.length) = (fun rs => arrayOf (rs.flatten.map some)) <$>
      (entries 0 l).mapM fun e => (fun r => match arr r with
        | none => [r]
        | some l' => l'.filterMap id) <$> w.call none e.2 (e.1 : Nat) :=
  flatMap_ok hs hk B hB hb hn

end

section
variable {V : Type}

/-- Whatever the surroundings do - the function may change the array, elements may come and go, each
question may throw -: the calls go from the front to the back, at most one for an index, none beyond
the length at the start, and each has the value that was read just before, of an element that was
there just before. -/
theorem C76_calls_up (truthy : V → Bool) (n : Nat) (t : List (Ev V)) :
    (∀ r, Exec (forEach n) t r → Ascending n t ∧ Checks t) ∧
    (∀ r, Exec (every truthy n) t r → Ascending n t ∧ Checks t) ∧
    (∀ r, Exec (some' truthy n) t r → Ascending n t ∧ Checks t) ∧
    (∀ r, Exec (map n) t r → Ascending n t ∧ Checks t) ∧
    (∀ r, Exec (filter truthy n) t r → Ascending n t ∧ Checks t) ∧
    (∀ r, Exec (flatMap n) t r → Ascending n t ∧ Checks t) ∧
    (∀ init r, Exec (reduce n init) t r → Ascending n t ∧ Checks t) :=
  ⟨fun _ h => ascending_of (forEach_rounds h), fun _ h => ascending_of (every_rounds h),
    fun _ h => ascending_of (some_rounds h), fun _ h => ascending_of (map_rounds h),
    fun _ h => ascending_of (filter_rounds h), fun _ h => ascending_of (flatMap_rounds h),
    fun _ _ h => ascending_of (reduceFrom_rounds h)⟩

theorem C76_calls_down (n : Nat) (t : List (Ev V)) (init : Option V) (r : Option V)
    (h : Exec (reduceRight n init) t r) : Descending n t ∧ Checks t :=
  descending_of (reduceFrom_rounds h)

/-- The methods that find do not ask if the element is there. -/
theorem C76_calls_find [Inhabited V] (truthy : V → Bool) (n : Nat) (t : List (Ev V)) :
    (∀ r, Exec (find truthy n) t r → Ascending n t) ∧
    (∀ r, Exec (findIndex truthy n) t r → Ascending n t) ∧
    (∀ r, Exec (findLast truthy n) t r → Descending n t) ∧
    (∀ r, Exec (findLastIndex truthy n) t r → Descending n t) :=
  ⟨fun _ h => ascending_look (rounds_then findUp_rounds (fun _ _ _ h => (exec_done h).1) _ _ h),
    fun _ h => ascending_look (rounds_then findUp_rounds (fun _ _ _ h => (exec_done h).1) _ _ h),
    fun _ h => descending_look (rounds_then findDown_rounds (fun _ _ _ h => (exec_done h).1) _ _ h),
    fun _ h => descending_look (rounds_then findDown_rounds (fun _ _ _ h => (exec_done h).1) _ _ h)⟩

/-- In `reduce` and `reduceRight` each call gets what the last one returned, and the result is what
the last call returned. -/
theorem C76_chained (n : Nat) (init : V) (t : List (Ev V)) (r : Option V)
    (h : Exec (reduce n (some init)) t r ∨ Exec (reduceRight n (some init)) t r) :
    ∃ out, Chained init t out ∧ (r = none ∨ r = some out) := by
  rcases h with h | h
  · unfold reduce reduceFrom at h
    rw [if_neg (by simp)] at h
    exact reduceEnd_chained h
  · unfold reduceRight reduceFrom at h
    rw [if_neg (by simp)] at h
    exact reduceEnd_chained h

/-- Without a first value, the first element that is there takes its place. -/
theorem C76_chained_first (n : Nat) (t : List (Ev V)) (r : Option V)
    (h : Exec (reduce n none) t r ∨ Exec (reduceRight n none) t r) :
    (r = none ∧ calls t = []) ∨
    ∃ t1 k v t2 out, t = t1 ++ .get none k v :: t2 ∧
      (∀ e ∈ t1, ∃ k' b, e = .has none k' b) ∧ Chained v t2 out ∧ (r = none ∨ r = some out) := by
  have key : ∀ d k, Exec (reduceFrom d n k none) t r →
      (r = none ∧ calls t = []) ∨
      ∃ t1 k v t2 out, t = t1 ++ .get none k v :: t2 ∧
        (∀ e ∈ t1, ∃ k' b, e = .has none k' b) ∧ Chained v t2 out ∧ (r = none ∨ r = some out) := by
    intro d k h
    unfold reduceFrom at h
    split at h
    · cases h; exact Or.inl ⟨rfl, rfl⟩
    · refine first_chained n k t r (fun v m k' t r h => reduceEnd_chained h) (fun t r h => ?_) h
      cases h; exact ⟨rfl, rfl⟩
  rcases h with h | h
  · exact key _ _ h
  · exact key _ _ h

end

/-! ## Examples -/

/-- The array `[3, , 5]`; the function adds the index and keeps a count of its calls. -/
def sampleWorld : World (ExceptT Err (StateM Nat)) Nat where
  has _ k := pure ([some 3, none, some 5][k.toNat]?.join.isSome)
  get _ k := pure ([some 3, none, some 5][k.toNat]?.join.getD 0)
  call acc v k := do
    modify (· + 1)
    pure (acc.getD 0 + v + k.toNat)
  len _ := pure none
  fail e := throw e
  fail_bind _ _ := rfl

theorem sample_still : Still sampleWorld [some 3, none, some 5] := by
  constructor
  · intro i h
    match i, h with
    | 0, _ => rfl
    | 1, _ => rfl
    | 2, _ => rfl
  · intro i h
    match i, h with
    | 0, _ => rfl
    | 1, _ => rfl
    | 2, _ => rfl

example : (run sampleWorld (reduce 3 (some 100))).run 0 = (.ok 110, 2) := by
  have := (C76_reduce sample_still).1 100
  rw [show [some 3, none, some 5].length = 3 from rfl] at this
  rw [this]
  rfl

example : (run sampleWorld (every (· < 5) 3)).run 0 = (.ok false, 2) := by
  have := C76_every sample_still (fun v => decide (v < 5))
  rw [show [some 3, none, some 5].length = 3 from rfl] at this
  rw [this]
  rfl

example : ((fun a : Obj Nat => (a.len, (a.elem 0).map Slot.val, (a.elem 1).map Slot.val,
      (a.elem 2).map Slot.val)) <$> run sampleWorld (map 3)).run 0 =
    (.ok (3, some 3, none, some 7), 2) := by
  have := C76_map sample_still (by decide)
  rw [show [some 3, none, some 5].length = 3 from rfl] at this
  rw [this]
  rfl

example : (run sampleWorld (findLastIndex (· == 1) 3)).run 0 = (.ok 1, 2) := by
  have := (C76_findLast sample_still (fun v => v == 1)).2
  rw [show [some 3, none, some 5].length = 3 from rfl] at this
  rw [this]
  rfl

/-- The function removes the second element when called for the first, and throws when called for
the third. -/
example : Ascending 3 [.has none 0 true, .get none 0 7, .call none 7 0 1, .has none 1 false,
    .has none 2 true, .get none 2 9, .threwCall none (9 : Nat) 2] :=
  ((C76_calls_up (fun _ => true) 3 _).1 none
    (.has true (.get 7 (.call 1 (.has false (.has true (.get 9 .callThrows))))))).1

example : ∃ out, Chained 1 [.has none 0 true, .get none 0 7, .call (some 1) 7 0 8,
    .has none 1 true, .get none 1 9, .call (some (8 : Nat)) 9 1 17] out ∧
    (some 17 = none ∨ some 17 = some out) :=
  C76_chained 2 1 _ (some 17)
    (Or.inl (.has true (.get 7 (.call 8 (.has true (.get 9 (.call 17 (.done 17))))))))

end Verif.ArrayCalls

import Verif.Lemmas.Hash
/-
Property C02: the hash table is a finite map.
-/
namespace Verif.Hash

/-- C02.  Whatever the hash function (equal keys having equal hash values), after any
sequence of lookups, insertions and removals, with or without the link returned by the
lookup, no link is misused, every lookup has answered as the association list does, and
the number of entries is the number of keys present. -/
theorem C02_finite_map {K V : Type} (hash : K → Nat) (eqv : K → K → Bool)
    (hk : Spec.KeyOps (fun _ => True) hash eqv) (os : List (Op K V)) :
    ∃ t, run hash eqv init os = some ((Spec.run eqv [] os).1, t) ∧
      t.entryNum = (Spec.run eqv [] os).2.length ∧
      t.lists.flatten.Perm (Spec.run eqv [] os).2 ∧
      ∀ k, (lookup hash eqv t k).1 = Spec.get eqv (Spec.run eqv [] os).2 k := by
  obtain ⟨t, h1, h2⟩ := run_sim hk os init [] inv_init (fun _ _ => trivial)
  exact ⟨t, h1, h2.num, h2.perm, fun k => lookup_fst h2 hk trivial⟩

/-- What the association list answers, in terms of the history alone: the value of the
last insertion that found the key absent, unless it was removed since. -/
def lastValue {K V : Type} (eqv : K → K → Bool) (k : K) : List (Op K V) → Option V
  | [] => none
  | .lookup _ :: os => lastValue eqv k os
  | .insert k' v _ :: os =>
    match lastValue eqv k os with
    | some w => some w
    | none => if eqv k' k then some v else none
  | .remove k' :: os => if eqv k' k then none else lastValue eqv k os

theorem get_step {K V : Type} (hash : K → Nat) (eqv : K → K → Bool)
    (hk : Spec.KeyOps (fun _ => True) hash eqv) (s : List (K × V)) (o : Op K V) (k : K) :
    Spec.get eqv (Spec.step eqv s o).2 k =
      match o with
      | .lookup _ => Spec.get eqv s k
      | .insert k' v _ =>
        match Spec.get eqv s k with
        | some w => some w
        | none => if eqv k' k then some v else none
      | .remove k' => if eqv k' k then none else Spec.get eqv s k := by
  cases o with
  | lookup k' => rfl
  | insert k' v u =>
    simp only [Spec.step]
    cases h' : Spec.get eqv s k' with
    | some w =>
      simp only [Option.isSome_some, if_true]
      cases h : Spec.get eqv s k with
      | some w' => rfl
      | none =>
        cases he : eqv k' k with
        | false => rfl
        | true =>
          exfalso
          have h2 := get_none_iff.1 h
          unfold Spec.get at h'
          rw [Option.map_eq_some_iff] at h'
          obtain ⟨e, h3, _⟩ := h'
          have hm := List.mem_of_find?_eq_some h3
          have he' : eqv e.1 k' = true := by simpa using List.find?_some h3
          have := h2 e hm
          rw [hk.trans _ _ _ he' he] at this
          cases this
    | none =>
      simp only [Option.isSome_none, Bool.false_eq_true, if_false]
      unfold Spec.get
      rw [List.find?_append]
      cases h : s.find? (fun e => eqv e.1 k) with
      | some w => rfl
      | none =>
        cases he : eqv k' k <;> simp [he]
  | remove k' =>
    simp only [Spec.step]
    unfold Spec.get
    rw [List.find?_filter]
    cases he : eqv k' k with
    | true =>
      simp only [if_true, Option.map_eq_none_iff, List.find?_eq_none]
      intro e hm hx
      simp at hx
      have := hk.trans _ _ _ hx.2 (hk.symm _ _ he)
      rw [hx.1] at this
      cases this
    | false =>
      simp only [Bool.false_eq_true, if_false]
      congr 2
      funext e
      cases h1 : eqv e.1 k with
      | false => simp
      | true =>
        cases h2 : eqv e.1 k' with
        | false => simp
        | true =>
          have := hk.trans _ _ _ (hk.symm _ _ h2) h1
          rw [he] at this
          cases this

/-- C02 in terms of the history alone (`lastValue` reads the history backwards): a key
is found exactly if it was inserted and not removed since, and the entry found is the
one that was inserted for it. -/
theorem C02_history {K V : Type} (hash : K → Nat) (eqv : K → K → Bool)
    (hk : Spec.KeyOps (fun _ => True) hash eqv) (os : List (Op K V)) :
    ∃ outs t, run hash eqv init os = some (outs, t) ∧
      ∀ k, (lookup hash eqv t k).1 = lastValue eqv k os.reverse := by
  obtain ⟨t, h1, _, _, h4⟩ := C02_finite_map hash eqv hk os
  refine ⟨_, t, h1, ?_⟩
  intro k
  rw [h4]
  clear h1 h4
  have : ∀ (os : List (Op K V)) (s : List (K × V)) (past : List (Op K V)),
      Spec.get eqv s k = lastValue eqv k past →
      Spec.get eqv (Spec.run eqv s os).2 k = lastValue eqv k (os.reverse ++ past) := by
    intro os
    induction os with
    | nil => intro s past h; exact h
    | cons o os ih =>
      intro s past h
      rw [List.reverse_cons, List.append_assoc]
      refine ih _ _ ?_
      rw [get_step hash eqv hk]
      cases o <;> simp [lastValue, h]
  simpa using this os [] [] rfl

/-- Natural numbers as keys, all in the same bucket: the hypothesis is met, and the
history inserts enough keys for the bucket array to grow twice. -/
example : Spec.KeyOps (fun _ : Nat => True) (fun _ => 7) (fun a b => a == b) :=
  ⟨by simp, by simp +contextual, by simp +contextual, by simp⟩

example :
    (run (fun k : Nat => k * k) (fun a b => a == b) init
      ((List.range 30).map (fun k => Op.insert k (k + 100) (k % 2 == 0)) ++
        [.remove 4, .lookup 4, .lookup 5])).map
      (fun q => (q.1.drop 30, q.2.entryNum, q.2.lists.length)) =
    some ([some 104, none, some 105], 29, 24) := by decide +kernel

end Verif.Hash

import Verif.Lemmas.MapIter
/-
Property C04: Map/Set iteration survives any mutation.

The hash function and the comparison of keys are arbitrary (`KeyOps`: equal keys have
equal hash values); a history is any list of calls, with any number of iterators.
-/
namespace Verif.MapSet

open Verif

/-- C04: no history of calls, with any interleaving of iterator steps and mutations, uses
a freed entry or follows a stale pointer. -/
theorem C04_safe {K V : Type} (hash : K → Nat) (eqv : K → K → Bool)
    (hk : Hash.Spec.KeyOps (fun _ => True) hash eqv) (ps : List (Op K V)) :
    (run hash eqv init ps).isSome = true := by
  obtain ⟨o, h, _⟩ := run_sim (norm := fun k => k) hk (fun _ _ => rfl) ps init Spec.init rel_init
    (fun _ _ _ _ => trivial)
  simp [h]

/-- C04: an item returned by an iterator is in the collection at that time: asking for
its key right after gives its value.  (So no entry deleted before is ever returned.) -/
theorem C04_live {K V : Type} (hash : K → Nat) (eqv : K → K → Bool)
    (hk : Hash.Spec.KeyOps (fun _ => True) hash eqv) (ps : List (Op K V)) (i : Nat) (k : K) (v : V)
    (as : List (Ans K V)) (o : Obj K V)
    (h : run hash eqv init (ps ++ [.next i]) = some (as ++ [.item (some (k, v))], o)) :
    ∃ o', run hash eqv init (ps ++ [.next i, .get k]) =
      some (as ++ [.item (some (k, v)), .value (some v)], o') := by
  obtain ⟨o1, h1, _⟩ := run_sim (norm := fun k => k) hk (fun _ _ => rfl) (ps ++ [.next i]) init
    Spec.init rel_init (fun _ _ _ _ => trivial)
  obtain ⟨o2, h2, _⟩ := run_sim (norm := fun k => k) hk (fun _ _ => rfl) (ps ++ [.next i, .get k])
    init Spec.init rel_init (fun _ _ _ _ => trivial)
  obtain ⟨o0, _, hr⟩ := run_sim (norm := fun k => k) hk (fun _ _ => rfl) ps init Spec.init rel_init
    (fun _ _ _ _ => trivial)
  rw [h1] at h
  refine ⟨o2, ?_⟩
  rw [h2]
  generalize hs : Spec.run (fun k => k) eqv Spec.init ps = q at *
  have e1 := run_append eqv (fun k => k) Spec.init ps [.next i]
  have e2 := run_append eqv (fun k => k) Spec.init ps [.next i, .get k]
  rw [hs] at e1 e2
  rw [e1] at h
  rw [e2]
  simp only [Spec.run, Option.some.injEq, Prod.mk.injEq] at h ⊢
  obtain ⟨has, hit⟩ := List.append_inj' h.1 rfl
  refine ⟨?_, trivial⟩
  rw [has]
  congr 1
  simp only [List.cons.injEq, and_true] at hit
  rw [hit]
  congr 2
  -- the item is a record
  simp only [Spec.step] at hit ⊢
  cases hx : q.2.iters[i]? with
  | none => rw [hx] at hit; simp at hit
  | some x =>
    cases x with
    | none => rw [hx] at hit; simp at hit
    | some idx =>
      rw [hx] at hit
      simp only at hit ⊢
      cases hn : Spec.nextFrom (q.2.data.drop idx) idx with
      | none => rw [hn] at hit; simp at hit
      | some r =>
        obtain ⟨j, e⟩ := r
        rw [hn] at hit
        simp at hit
        subst hit
        have := data_get hk hr.hash.distinct (nextFrom_some hn).2.1 (hk.refl k)
        unfold Spec.get at this ⊢
        simpa using this

/-- C04: an entry in the collection when an iterator is made, and kept there, is returned
by that iterator at most once, and exactly once if the iterator reports its end - whatever
else happens to the collection and to other iterators. -/
theorem C04_visited_once {K V : Type} (hash : K → Nat) (eqv : K → K → Bool)
    (hk : Hash.Spec.KeyOps (fun _ => True) hash eqv) (ps qs : List (Op K V)) (k : K)
    (hpre : ∃ as o, run hash eqv init (ps ++ [.has k]) = some (as ++ [.bool true], o))
    (hkeep : ∀ q ∈ qs, Keeps eqv k q) :
    ∃ as bs o, run hash eqv init (ps ++ .iterator :: qs) = some (as ++ bs, o) ∧
      as.length = ps.length + 1 ∧
      countKey eqv k (itemsOf (made ps) qs bs) ≤ 1 ∧
      (none ∈ itemsOf (made ps) qs bs → countKey eqv k (itemsOf (made ps) qs bs) = 1) := by
  obtain ⟨o0, _, hr⟩ := run_sim (norm := fun k => k) hk (fun _ _ => rfl) ps init Spec.init rel_init
    (fun _ _ _ _ => trivial)
  obtain ⟨o1, h1, _⟩ := run_sim (norm := fun k => k) hk (fun _ _ => rfl) (ps ++ .iterator :: qs)
    init Spec.init rel_init (fun _ _ _ _ => trivial)
  obtain ⟨o2, h2, _⟩ := run_sim (norm := fun k => k) hk (fun _ _ => rfl) (ps ++ [.has k])
    init Spec.init rel_init (fun _ _ _ _ => trivial)
  obtain ⟨as, o, hpre⟩ := hpre
  rw [h2, run_append] at hpre
  simp only [Spec.run, Option.some.injEq, Prod.mk.injEq] at hpre
  have hany := (List.append_inj' hpre.1 rfl).2
  simp only [Spec.step, List.cons.injEq, Ans.bool.injEq, and_true] at hany
  have hlen := iters_length_run (eqv := eqv) (fun k => k) (Spec.init : Spec.St K V) ps
  simp only [Spec.init, List.length_nil, Nat.zero_add] at hlen
  rw [show (⟨[], []⟩ : Spec.St K V) = Spec.init from rfl] at hlen
  have hl1 := spec_run_length (eqv := eqv) (fun k => k) (Spec.init : Spec.St K V) ps
  rw [run_append] at h1
  generalize Spec.run (fun k => k) eqv Spec.init ps = q at *
  simp only [Spec.run] at h1
  refine ⟨q.1 ++ [.done],
    (Spec.run (fun k => k) eqv (Spec.step (fun k => k) eqv q.2 .iterator).2 qs).1, o1,
    by rw [h1]; simp [Spec.step], by simp [hl1], ?_⟩
  obtain ⟨r, hrm, hrk⟩ := List.any_eq_true.1 hany
  obtain ⟨p, hp⟩ := List.getElem?_of_mem hrm
  cases r with
  | none => simp at hrk
  | some e =>
    have hr' := iterNew_sim (fun k => k) hr
    refine pending hk k p (made ps) qs _ _ hr' (fun _ _ _ _ => trivial) hkeep
      ⟨e, hp, by simpa using hrk⟩ 0 ?_ (Nat.zero_le _)
    simp [Spec.step, hlen]

/-- C04: an entry added while an iterator has not reported its end, and kept, is returned
by that iterator at most once, and exactly once if the iterator reports its end. -/
theorem C04_added_visited_once {K V : Type} (hash : K → Nat) (eqv : K → K → Bool)
    (hk : Hash.Spec.KeyOps (fun _ => True) hash eqv) (ps ps' qs : List (Op K V)) (k : K) (v : V)
    (hlive : ∃ as bs o, run hash eqv init (ps ++ .iterator :: ps') = some (as ++ bs, o) ∧
      as.length = ps.length + 1 ∧ none ∉ itemsOf (made ps) ps' bs)
    (hpre : ∃ as o, run hash eqv init (ps ++ .iterator :: ps' ++ [.has k]) =
      some (as ++ [.bool false], o))
    (hkeep : ∀ q ∈ qs, Keeps eqv k q) :
    ∃ as bs o, run hash eqv init ((ps ++ .iterator :: ps') ++ .set k v :: qs) =
        some (as ++ bs, o) ∧
      as.length = (ps ++ .iterator :: ps').length + 1 ∧
      countKey eqv k (itemsOf (made ps) qs bs) ≤ 1 ∧
      (none ∈ itemsOf (made ps) qs bs → countKey eqv k (itemsOf (made ps) qs bs) = 1) := by
  obtain ⟨o0, h0, hr⟩ := run_sim (norm := fun k => k) hk (fun _ _ => rfl)
    (ps ++ .iterator :: ps') init Spec.init rel_init (fun _ _ _ _ => trivial)
  obtain ⟨o1, h1, _⟩ := run_sim (norm := fun k => k) hk (fun _ _ => rfl)
    ((ps ++ .iterator :: ps') ++ .set k v :: qs) init Spec.init rel_init (fun _ _ _ _ => trivial)
  obtain ⟨o2, h2, _⟩ := run_sim (norm := fun k => k) hk (fun _ _ => rfl)
    (ps ++ .iterator :: ps' ++ [.has k]) init Spec.init rel_init (fun _ _ _ _ => trivial)
  obtain ⟨as, o, hpre⟩ := hpre
  rw [h2, run_append] at hpre
  simp only [Spec.run, Option.some.injEq, Prod.mk.injEq] at hpre
  have hany := (List.append_inj' hpre.1 rfl).2
  simp only [Spec.step, List.cons.injEq, Ans.bool.injEq, and_true] at hany
  -- the iterator is live
  obtain ⟨as', bs', o', hrun, hl, hnone⟩ := hlive
  rw [h0] at hrun
  have hlen := iters_length_run (eqv := eqv) (fun k => k) (Spec.init : Spec.St K V) ps
  simp only [Spec.init, List.length_nil, Nat.zero_add] at hlen
  rw [show (⟨[], []⟩ : Spec.St K V) = Spec.init from rfl] at hlen
  have hl1 := spec_run_length (eqv := eqv) (fun k => k) (Spec.init : Spec.St K V) ps
  have hlive : ∃ idx, (Spec.run (fun k => k) eqv Spec.init (ps ++ .iterator :: ps')).2.iters[made ps]?
      = some (some idx) ∧
      idx ≤ (Spec.run (fun k => k) eqv Spec.init (ps ++ .iterator :: ps')).2.data.length := by
    rw [run_append] at hrun ⊢
    generalize Spec.run (fun k => k) eqv Spec.init ps = q at *
    simp only [Spec.run, Option.some.injEq, Prod.mk.injEq] at hrun ⊢
    refine live_index ps' _ (made ps) 0 (by simp [Spec.step, hlen]) (Nat.zero_le _) ?_
    have h3 := hrun.1
    rw [← List.singleton_append, ← List.append_assoc] at h3
    have h4 := (List.append_inj h3 (by simp [hl1, hl])).2
    rw [h4]
    exact hnone
  obtain ⟨idx, hidx, hile⟩ := hlive
  have hl2 := spec_run_length (eqv := eqv) (fun k => k) (Spec.init : Spec.St K V)
    (ps ++ .iterator :: ps')
  rw [run_append] at h1
  generalize Spec.run (fun k => k) eqv Spec.init (ps ++ .iterator :: ps') = q at *
  simp only [Spec.run] at h1
  refine ⟨q.1 ++ [.done],
    (Spec.run (fun k => k) eqv (Spec.step (fun k => k) eqv q.2 (.set k v)).2 qs).1, o1,
    by rw [h1]; simp [Spec.step], by rw [List.length_append, hl2]; rfl, ?_⟩
  obtain ⟨o3, _, hr3⟩ := step_sim hk (norm := fun k => k) (fun _ _ => rfl) hr (.set k v)
    (fun _ _ => trivial)
  refine pending hk k q.2.data.length (made ps) qs _ _ hr3 (fun _ _ _ _ => trivial) hkeep
    ⟨(k, v), by simp [Spec.step, hany], hk.refl k⟩ idx ?_ hile
  simp [Spec.step, hany, hidx]

/-- A history meeting the hypotheses of the two theorems: an iterator is made while keys
1, 2, 3 are there; 1 is returned, 2 is deleted and re-added, 4 is added, another iterator
interferes. -/
def iterDemo : List (Op Nat Nat) :=
  [.set 1 10, .set 2 20, .set 3 30, .iterator, .next 0, .delete 2, .iterator, .next 1, .set 4 40,
   .set 2 21, .next 0, .next 0, .delete 1, .next 0, .next 0, .set 5 50, .next 0]

example : (run (fun k : Nat => k) (fun a b => a == b) init iterDemo).map
      (fun r => itemsOf 0 iterDemo r.1) =
    some [some (1, 10), some (3, 30), some (4, 40), some (2, 21), none, none] := by decide +kernel

example : Hash.Spec.KeyOps (fun _ : Nat => True) (fun k => k) (fun a b => a == b) :=
  ⟨by simp, by simp +contextual, by simp +contextual, by simp⟩

end Verif.MapSet

import Verif.Model.Env
import Verif.Spec.Env

/-! Basic lemmas about tables, chains of environments and the elementary operations. -/

namespace Verif.Env

theorem env_ok {s : State} {e : Nat} {env : Env} (h : s.envs[e]? = some env) :
    s.env e = .ok env := by
  simp only [State.env, h]

theorem bname_ok {s : State} {b : Nat} {bn : BName} (h : s.names[b]? = some bn) :
    s.bname b = .ok bn := by
  simp only [State.bname, h]

theorem cell_ok {s : State} {c : Nat} {x : Cell} (h : s.cells[c]? = some (some x)) :
    s.cell c = .ok x := by
  simp only [State.cell, h]

theorem find_nil {α : Type} (n : Name) : find ([] : List (Name × α)) n = none := rfl

theorem find_cons {α : Type} (p : Name × α) (l : List (Name × α)) (n : Name) :
    find (p :: l) n = if p.1 = n then some p.2 else find l n := rfl

theorem get_eq_find {α : Type} (l : List (Name × α)) (n : Name) : Spec.get l n = find l n := by
  induction l with
  | nil => rfl
  | cons p l ih =>
    rw [find_cons, ← ih]
    unfold Spec.get
    rw [List.find?_cons]
    by_cases h : p.1 = n
    · rw [if_pos h]
      simp [h]
    · rw [if_neg h]
      simp [h]

theorem find_append {α : Type} (l r : List (Name × α)) (n : Name) :
    find (l ++ r) n = (find l n).or (find r n) := by
  induction l with
  | nil => simp [find_nil]
  | cons p l ih =>
    rw [List.cons_append, find_cons, find_cons, ih]
    by_cases h : p.1 = n
    · rw [if_pos h, if_pos h]; rfl
    · rw [if_neg h, if_neg h]

theorem find_some_idx {α : Type} {l : List (Name × α)} {n : Name} {a : α}
    (h : find l n = some a) : ∃ i : Nat, l[i]? = some (n, a) := by
  induction l with
  | nil => simp [find_nil] at h
  | cons p l ih =>
    rw [find_cons] at h
    by_cases hp : p.1 = n
    · rw [if_pos hp] at h
      refine ⟨0, ?_⟩
      obtain ⟨p1, p2⟩ := p
      simp only at hp
      simp only [Option.some.injEq] at h
      simp [hp, h]
    · rw [if_neg hp] at h
      obtain ⟨i, hi⟩ := ih h
      exact ⟨i + 1, by simpa using hi⟩

theorem find_none_iff {α : Type} {l : List (Name × α)} {n : Name} :
    find l n = none ↔ n ∉ l.map Prod.fst := by
  induction l with
  | nil => simp [find_nil]
  | cons p l ih =>
    rw [find_cons, List.map_cons, List.mem_cons]
    by_cases hp : p.1 = n
    · rw [if_pos hp]
      simp [hp]
    · rw [if_neg hp, ih]
      constructor
      · intro h h'
        rcases h' with h' | h'
        · exact hp h'.symm
        · exact h h'
      · intro h h'
        exact h (Or.inr h')

theorem find_isSome_iff {α : Type} {l : List (Name × α)} {n : Name} :
    (find l n).isSome = true ↔ n ∈ l.map Prod.fst := by
  have h := find_none_iff (l := l) (n := n)
  cases hf : find l n with
  | none => rw [hf] at h; simpa using h
  | some a =>
    rw [hf] at h
    constructor
    · intro _
      apply Classical.byContradiction
      intro hn
      exact absurd (h.mpr hn) (by simp)
    · intro _; rfl

theorem find_of_idx {α : Type} {l : List (Name × α)} {n : Name} {a : α} {i : Nat}
    (hn : (l.map Prod.fst).Nodup) (h : l[i]? = some (n, a)) : find l n = some a := by
  induction l generalizing i with
  | nil => simp at h
  | cons p l ih =>
    rw [List.map_cons, List.nodup_cons] at hn
    rw [find_cons]
    cases i with
    | zero =>
      simp only [List.getElem?_cons_zero, Option.some.injEq] at h
      subst h
      rw [if_pos rfl]
    | succ i =>
      simp only [List.getElem?_cons_succ] at h
      have hm : n ∈ l.map Prod.fst := by
        rw [List.mem_map]
        exact ⟨(n, a), List.mem_of_getElem? h, rfl⟩
      rw [if_neg (fun (hp : p.1 = n) => hn.1 (hp ▸ hm))]
      exact ih hn.2 h

theorem find_put (l : List (Name × Val)) (n m : Name) (v : Val) :
    find (put l n v) m = if m = n then some v else find l m := by
  induction l with
  | nil =>
    unfold put
    rw [find_cons, find_nil]
    by_cases h : n = m
    · rw [if_pos h, if_pos h.symm]
    · rw [if_neg h, if_neg (fun h' => h h'.symm)]
  | cons p l ih =>
    unfold put
    by_cases hp : p.1 = n
    · rw [if_pos hp, find_cons, find_cons]
      by_cases h : n = m
      · rw [if_pos h, if_pos h.symm]
      · rw [if_neg h, if_neg (fun h' => h h'.symm), if_neg (fun h' => h (hp ▸ h'))]
    · rw [if_neg hp, find_cons, find_cons, ih]
      by_cases h : p.1 = m
      · rw [if_pos h, if_pos h, if_neg (fun h' => hp (h.trans h'))]
      · rw [if_neg h, if_neg h]

theorem find_map_set {α : Type} (l : List (Name × α)) (n m : Name) (v : α) :
    find (l.map fun p => if p.1 = n then (n, v) else p) m
      = if m = n then (if (find l n).isSome then some v else none) else find l m := by
  induction l with
  | nil => by_cases h : m = n <;> simp [find_nil, h]
  | cons p l ih =>
    rw [List.map_cons, find_cons, find_cons, find_cons, ih]
    by_cases hp : p.1 = n
    · rw [if_pos hp]
      simp only
      by_cases hm : m = n
      · subst hm
        simp [hp]
      · rw [if_neg (fun h => hm h.symm), if_neg hm, if_neg hm,
          if_neg (fun h => hm (h.symm.trans hp))]
    · rw [if_neg hp]
      by_cases hm : m = n
      · subst hm
        simp [hp]
      · rw [if_neg hm, if_neg hm]

theorem find_spec_put {α : Type} (l : List (Name × α)) (n m : Name) (v : α) :
    find (Spec.put l n v) m = if m = n then some v else find l m := by
  unfold Spec.put
  rw [get_eq_find]
  by_cases h : (find l n).isSome = true
  · rw [if_pos h, find_map_set, if_pos h]
  · rw [if_neg h, find_append, find_cons, find_nil]
    have hnone : find l n = none := by
      cases hf : find l n with
      | none => rfl
      | some a => rw [hf] at h; exact absurd rfl h
    by_cases hm : m = n
    · subst hm
      rw [hnone]
      simp
    · rw [if_neg hm, if_neg (fun h' => hm h'.symm)]
      simp

theorem find_erase {α : Type} (l : List (Name × α)) (n m : Name) :
    find (erase l n) m = if m = n then none else find l m := by
  unfold erase
  induction l with
  | nil => by_cases h : m = n <;> simp [find_nil, h]
  | cons p l ih =>
    rw [List.filter_cons, find_cons]
    by_cases hp : p.1 = n
    · rw [if_neg (by simp [hp]), ih]
      by_cases hm : m = n
      · rw [if_pos hm, if_pos hm]
      · rw [if_neg hm, if_neg hm, if_neg (fun h => hm (h.symm.trans hp))]
    · rw [if_pos (by simp [hp]), find_cons, ih]
      by_cases hm : m = n
      · rw [if_pos hm, if_pos hm, if_neg (fun h => hp (h.trans hm))]
      · rw [if_neg hm, if_neg hm]

theorem drop_eq_erase {α : Type} (l : List (Name × α)) (n : Name) : Spec.drop l n = erase l n := by
  unfold Spec.drop erase
  apply List.filter_congr
  intro p _
  by_cases h : p.1 = n <;> simp [h]

/-- The `k`th environment around `e`. -/
def anc (envs : List Env) : Nat → Nat → Option Nat
  | e, 0 => some e
  | e, k + 1 =>
    match envs[e]? with
    | some env =>
      match env.outer with
      | some o => anc envs o k
      | none => none
    | none => none

/-- The environments of `l'` have the same surroundings as those of `l`. -/
def SameOuter (l l' : List Env) : Prop :=
  ∀ (e : Nat) (env : Env), l[e]? = some env → ∃ env', l'[e]? = some env' ∧ env'.outer = env.outer

theorem anc_mono {l l' : List Env} (h : SameOuter l l') {k e f : Nat}
    (ha : anc l e k = some f) : anc l' e k = some f := by
  induction k generalizing e with
  | zero => exact ha
  | succ k ih =>
    unfold anc at ha ⊢
    cases he : l[e]? with
    | none => rw [he] at ha; simp at ha
    | some env =>
      rw [he] at ha
      obtain ⟨env', he', ho⟩ := h e env he
      rw [he']
      simp only at ha ⊢
      rw [ho]
      cases hx : env.outer with
      | none => rw [hx] at ha; simp at ha
      | some o =>
        rw [hx] at ha
        exact ih ha

theorem outers_ok {s : State} {n : Nat} {o : Option Nat} {l : List Nat}
    (h : outers s n o = .ok l) :
    l.length = n ∧ ∀ k f, l[k]? = some f → ∃ o', o = some o' ∧ anc s.envs o' k = some f := by
  induction n generalizing o l with
  | zero =>
    unfold outers at h
    simp only [Except.ok.injEq] at h
    subst h
    exact ⟨rfl, by intro k f hk; simp at hk⟩
  | succ n ih =>
    cases o with
    | none => unfold outers at h; simp at h
    | some o =>
      unfold outers at h
      simp only [bind, Except.bind] at h
      cases he : s.envs[o]? with
      | none => simp [State.env, he] at h
      | some env =>
        rw [env_ok he] at h
        simp only at h
        cases hr : outers s n env.outer with
        | error x => rw [hr] at h; simp at h
        | ok l' =>
          rw [hr] at h
          simp only [Except.ok.injEq] at h
          subst h
          obtain ⟨hlen, hk⟩ := ih hr
          refine ⟨by simp [hlen], ?_⟩
          intro k f hf
          refine ⟨o, rfl, ?_⟩
          cases k with
          | zero =>
            simp only [List.getElem?_cons_zero, Option.some.injEq] at hf
            subst hf
            rfl
          | succ k =>
            simp only [List.getElem?_cons_succ] at hf
            obtain ⟨o', ho', ha⟩ := hk k f hf
            unfold anc
            rw [he]
            simp only [ho']
            exact ha

end Verif.Env

import Verif.Lemmas.Descriptor
/-
Lemmas for the properties of objects.
-/
namespace Verif.Obj

open Spec (Before Has Up)

theorem has_get {o : Obj} (h : Good o) (k : Key) : Has o k ↔ get o k ≠ none := by
  unfold Has
  rw [report_get h]
  cases get o k <;> simp

theorem before_filter {α : Type} {p : α → Bool} {a b : α} {l : List α} (h : Before a b l) (ha : p a = true)
    (hb : p b = true) : Before a b (l.filter p) := by
  obtain ⟨x, y, z, rfl⟩ := h
  exact ⟨x.filter p, y.filter p, z.filter p, by simp [ha, hb]⟩

theorem before_map {α β : Type} (f : α → β) {a b : α} {l : List α} (h : Before a b l) : Before (f a) (f b) (l.map f) := by
  obtain ⟨x, y, z, rfl⟩ := h
  exact ⟨x.map f, y.map f, z.map f, by simp⟩

theorem before_left {α : Type} {a b : α} {l : List α} (m : List α) (h : Before a b l) : Before a b (l ++ m) := by
  obtain ⟨x, y, z, rfl⟩ := h
  exact ⟨x, y, z ++ m, by simp⟩

theorem before_right {α : Type} {a b : α} {l : List α} (m : List α) (h : Before a b l) : Before a b (m ++ l) := by
  obtain ⟨x, y, z, rfl⟩ := h
  exact ⟨m ++ x, y, z, by simp⟩

/-- The order of two names while `a` stays and `b` comes after it. -/
def Ordered (a b : Name) (l : List Name) : Prop := a ∈ l ∧ (b ∈ l → Before a b l)

theorem ordered_step {a b : Name} {l l' : List Name} (h : Ordered a b l) (hs : NStep l l') (ha : a ∈ l') : Ordered a b l' := by
  refine ⟨ha, fun hb => ?_⟩
  cases hs with
  | same => exact h.2 hb
  | add n hn =>
    by_cases c : b ∈ l
    · exact before_left _ (h.2 c)
    · rw [List.mem_append, List.mem_singleton] at hb
      rcases hb with hb | rfl
      · exact absurd hb c
      · obtain ⟨x, y, rfl⟩ := List.append_of_mem h.1
        exact ⟨x, y, [], by simp⟩
  | del n =>
    rw [List.mem_filter] at ha hb
    exact before_filter (h.2 hb.1) ha.2 hb.2

theorem ordered_run {E : Env} {id : Nat} {a b : Name} : ∀ (ops : List Op) (h h' : Heap) (o o' : Obj), HInv h →
    run E h ops = some h' → h[id]? = some o → h'[id]? = some o' →
    (∀ l1 l2 hm, ops = l1 ++ l2 → run E h l1 = some hm → ∃ om, hm[id]? = some om ∧ Has om (.name a)) →
    Ordered a b (names o) → Ordered a b (names o')
  | [], h, h', o, o', hi, he, ho, ho', _, hord => by
    cases he
    rw [ho] at ho'; cases ho'
    exact hord
  | op :: l, h, h', o, o', hi, he, ho, ho', hall, hord => by
    unfold run at he
    split at he
    · cases he
    · rename_i h1 r hs
      obtain ⟨a1, a2⟩ := step_eff hi hs
      obtain ⟨o1, b1, b2, b3, b4⟩ := a2 id o ho
      refine ordered_run l h1 h' o1 o' a1 he b1 ho' (fun l1 l2 hm e hr => ?_) (ordered_step hord b3 ?_)
      · refine hall (op :: l1) l2 hm (by rw [e]; rfl) ?_
        unfold run
        rw [hs]
        exact hr
      · obtain ⟨om, c1, c2⟩ := hall [op] l h1 rfl (by unfold run; rw [hs]; rfl)
        rw [b1] at c1; cases c1
        rw [names_mem]
        exact (has_get b2.good _).1 c2

/-- The strings and symbols of a list of names. -/
def strs (l : List Name) : List Nat := l.filterMap fun n => match n with | .str a => some a | .sym _ => none
def syms (l : List Name) : List Nat := l.filterMap fun n => match n with | .str _ => none | .sym a => some a

theorem strNames_eq (o : Obj) : strNames o.named = (strs (names o)).map .str := by
  unfold strNames strs names
  induction o.named.map (·.1) with
  | nil => rfl
  | cons n l ih => cases n <;> simp [List.filter_cons, ih]

theorem symNames_eq (o : Obj) : symNames o.named = (syms (names o)).map .sym := by
  unfold symNames syms names
  induction o.named.map (·.1) with
  | nil => rfl
  | cons n l ih => cases n <;> simp [List.filter_cons, ih]

theorem strNames_nodup {o : Obj} (h : Good o) : (strNames o.named).Nodup := h.nodup.sublist List.filter_sublist
theorem symNames_nodup {o : Obj} (h : Good o) : (symNames o.named).Nodup := h.nodup.sublist List.filter_sublist

theorem nodup_of_map {α β : Type} (f : α → β) : ∀ {l : List α}, (l.map f).Nodup → l.Nodup
  | [], _ => List.nodup_nil
  | a :: l, h => by
    rw [List.map_cons, List.nodup_cons] at h
    rw [List.nodup_cons]
    exact ⟨fun c => h.1 (List.mem_map_of_mem c), nodup_of_map f h.2⟩

/-! ### Chains -/

theorem up_chain {h : Heap} {i j : Nat} (u : Up h i j) : ∀ {l}, Chain h (some i) l → ∃ t, l = i :: t ∧ j ∈ t := by
  induction u with
  | one hi hp =>
    intro l c
    cases c with
    | cons hi' t =>
      rw [hi] at hi'; cases hi'
      rw [hp] at t
      cases t with
      | cons hj t' => exact ⟨_, rfl, by simp⟩
  | more hi hp _ ih =>
    intro l c
    cases c with
    | cons hi' t =>
      rw [hi] at hi'; cases hi'
      rw [hp] at t
      obtain ⟨t', e, hj⟩ := ih t
      exact ⟨_, rfl, by rw [e]; simp [hj]⟩

theorem chain_up {h : Heap} {x : Option Nat} {l : List Nat} (c : Chain h x l) : ∀ {i : Nat}, x = some i →
    ∀ j ∈ l, j = i ∨ Up h i j := by
  induction c with
  | nil => intro i e; cases e
  | @cons i' o l hi t ih =>
    intro i e j hj
    cases e
    rw [List.mem_cons] at hj
    rcases hj with rfl | hj
    · exact Or.inl rfl
    · right
      cases hp : o.proto with
      | none => rw [hp] at t; cases t; cases hj
      | some p =>
        rcases ih hp j hj with rfl | u
        · exact .one hi hp
        · exact .more hi hp u

/-! ### Safe properties -/

theorem safe_same {ext : Bool} {p q : P} (hp : WfP p) (hq : WfP q) (hs : SafeP true p) (h : Moves ext (some p) (some q)) : q = p := by
  obtain ⟨c1, c2, c3, c4⟩ := h hs.1
  obtain ⟨w, e, c, body⟩ := p
  obtain ⟨w', e', c', body'⟩ := q
  simp only at c1 c2 c3 c4
  have hc : c = false := hs.1
  subst hc c1 c2
  cases body with
  | data v =>
    have : w = false := hs.2 rfl v rfl
    subst this
    obtain ⟨a, b⟩ := (c4 v rfl).2 rfl
    rw [a, b]
  | acc g s =>
    have a := c3 g s rfl
    subst a
    have b1 : w = false := hp g s rfl
    have b2 : w' = false := hq g s rfl
    rw [b1, b2]

theorem levelP_safe (fr : Bool) (p : P) : SafeP fr (levelP fr p) :=
  ⟨rfl, fun h v _ => by simp [levelP, h]⟩

/-- The end of an object whose properties are all safe and which is not extensible. -/
theorem frozen_same {o o' : Obj} (h : Good o) (he : OEff o o') (hx : o.ext = false)
    (hs : ∀ k p, get o k = some p → SafeP true p) (k : Key) : get o' k = get o k := by
  have hm := he.moves k
  rw [hx] at hm
  cases h1 : get o k with
  | none =>
    cases h2 : get o' k with
    | none => rfl
    | some q => rw [h1, h2] at hm; cases hm
  | some p =>
    cases h2 : get o' k with
    | none =>
      rw [h1, h2] at hm
      have : p.c = true := hm
      rw [(hs k p h1).1] at this; cases this
    | some q =>
      rw [h1, h2] at hm
      rw [safe_same (h.wf k p h1) (he.good.wf k q h2) (hs k p h1) hm]

end Verif.Obj

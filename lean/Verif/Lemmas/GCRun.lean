import Verif.Lemmas.GC
/-
A whole collection and the steps of the engine: helper lemmas.
-/
namespace Verif.GC
open Spec

/-- Keys of the weak entries of a thing. -/
def keys (b : Body) : List Nat := b.ents.map Prod.fst

/-- Invariant between the operations. -/
structure Inv (h : Heap) : Prop where
  nodup : h.list.Nodup
  refs : ∀ t ∈ h.list, ∀ u ∈ (h.body t).refs, u ∈ h.list
  roots : ∀ t ∈ h.roots, t ∈ h.list
  clean : ∀ t, h.marked t = false ∧ h.scanned t = false
  weak : ∀ e ∈ h.weak, e.1 ∈ h.list ∧ e.2 ∈ h.list ∧ e.2 ∈ keys (h.body e.1)
  weakNodup : h.weak.Nodup
  ents : ∀ t ∈ h.list, ∀ k ∈ keys (h.body t), (t, k) ∈ h.weak
  keysNodup : ∀ t ∈ h.list, (keys (h.body t)).Nodup
  freedNodup : h.freed.Nodup
  freedDead : ∀ t ∈ h.freed, t ∉ h.list
  fresh : ∀ t, (t ∈ h.list ∨ t ∈ h.freed) ↔ t < h.fresh
  len : h.list.length ≤ h.fresh

theorem Inv.live {h : Heap} (hi : Inv h) {t : Nat} (hl : Live h t) : t ∈ h.list := by
  induction hl with
  | root ht => exact hi.roots _ ht
  | step _ hu ih => exact hi.refs _ ih _ hu

/-- The mark phase marks exactly the reachable things. -/
theorem mark_phase {h : Heap} {cap fuel : Nat} (hi : Inv h) (hf : 2 * h.list.length + 2 ≤ fuel) :
    ∃ s s', markAll h.list cap h.roots ⟨[], false, h.marked, h.scanned⟩ = some s ∧
      scanThings h cap fuel fuel s = some s' ∧
      (∀ t, s'.marked t = true ↔ Live h t) ∧ ∀ t, s'.scanned t = true → s'.marked t = true := by
  have hu : ∀ s : MS, unmarked h s.marked ≤ h.list.length := fun s => List.countP_le_length
  have h0 : MI h (fun _ => False) (fun _ => False) ⟨[], false, h.marked, h.scanned⟩ := by
    refine ⟨?_, ?_, ?_, by simp, ?_, by simpa using hu ⟨[], false, h.marked, h.scanned⟩⟩
    · intro t ht; simp [(hi.clean t).1] at ht
    · intro t ht; simp [(hi.clean t).2] at ht
    · intro t ht; simp [(hi.clean t).2] at ht
    · intro t ht; simp [(hi.clean t).1] at ht
  obtain ⟨s, h1, h2, _, h4, _⟩ := markAll_spec (cap := cap) hi.nodup h.roots _ h0
    fun t ht => ⟨hi.roots t ht, Reach.root ht⟩
  obtain ⟨s', g1, g2, g3, g4, g5⟩ := scanThings_spec (cap := cap) hi.nodup hi.refs
    (fuel := fuel) (by omega) fuel s h2 (by have := hu s; split <;> omega)
  refine ⟨s, s', h1, g1, fun t => ⟨fun ht => (g2.ml t ht).2, fun ht => ?_⟩, g2.sc⟩
  induction ht with
  | root ht => exact g3 _ (h4 _ ht)
  | step ht hu ih =>
    rename_i t u
    have hs : s'.scanned t = true := by
      rcases g2.cov t ih with h | h | h | h
      · exact h
      · simp [g4] at h
      · simp [g5] at h
      · exact h.elim
    rcases g2.scr t hs with h | h
    · exact h.elim
    · exact h u hu

theorem sweep_eq (f : Nat → Bool) (l : List Nat) :
    sweep f l = (l.filter f, l.filter fun x => !f x) := by
  induction l with
  | nil => rfl
  | cons t ts ih =>
    simp only [sweep, ih]
    by_cases h : f t = true <;> simp [h]

/-- The effect of `rjs_solve_weak_refs`. -/
theorem solveWeak_spec {live : List Nat} {f : Nat → Bool} :
    ∀ (ws : List (Nat × Nat)) (b : Nat → Body), ws.Nodup →
    (∀ e ∈ ws, e.1 ∈ live ∧ e.2 ∈ live ∧ e.2 ∈ keys (b e.1)) →
    ∃ b', solveWeak live f ws b = some (ws.filter fun e => f e.1 && f e.2, b') ∧
      ∀ x, (b' x).refs = (b x).refs ∧
        (b' x).ents = (b x).ents.filter fun e =>
          !(f x && !f e.1 && decide ((x, e.1) ∈ ws))
  | [], b, _, _ => ⟨b, rfl, fun x => ⟨rfl, by simp⟩⟩
  | (base, ref) :: ws, b, hn, hw => by
    rw [List.nodup_cons] at hn
    obtain ⟨l1, l2, l3⟩ := hw _ List.mem_cons_self
    simp only at l1 l2 l3
    unfold solveWeak
    rw [if_neg (by simp [l1, l2])]
    have hw' : ∀ e ∈ ws, e.1 ∈ live ∧ e.2 ∈ live ∧ e.2 ∈ keys (b e.1) :=
      fun e he => hw e (List.mem_cons_of_mem _ he)
    by_cases hb : f base = true
    · rw [if_neg (by simp [hb])]
      by_cases hr : f ref = true
      · rw [if_neg (by simp [hr])]
        obtain ⟨b', h1, h2⟩ := solveWeak_spec (live := live) (f := f) ws b hn.2 hw'
        refine ⟨b', by simp [h1, hb, hr], fun x => ⟨(h2 x).1, ?_⟩⟩
        rw [(h2 x).2]
        apply List.filter_congr
        intro e _
        by_cases he : (x, e.1) = (base, ref)
        · obtain ⟨rfl, he2⟩ := Prod.mk.inj he
          simp [he2, hr]
        · simp [List.mem_cons, he]
      · rw [if_pos (by simp [hr])]
        have hon : onFinal b base ref = some (setBody b base ⟨(b base).refs, (b base).ents.filter fun e => e.1 ≠ ref⟩) := by
          unfold onFinal; unfold keys at l3; rw [if_pos l3]
        rw [hon]
        simp only
        obtain ⟨b', h1, h2⟩ := solveWeak_spec (live := live) (f := f) ws
          (setBody b base ⟨(b base).refs, (b base).ents.filter fun e => e.1 ≠ ref⟩) hn.2 (by
          intro e he
          obtain ⟨a1, a2, a3⟩ := hw' e he
          refine ⟨a1, a2, ?_⟩
          by_cases hx : e.1 = base
          · simp only [hx, if_true, keys, setBody]
            simp only [hx, keys] at a3
            obtain ⟨p, hp, hp2⟩ := List.mem_map.1 a3
            refine List.mem_map.2 ⟨p, List.mem_filter.2 ⟨hp, ?_⟩, hp2⟩
            have : p.1 ≠ ref := by
              rw [hp2]
              intro hc
              apply hn.1
              rw [show (base, ref) = e from by rw [← hx, ← hc]]
              exact he
            simpa using this
          · simp only [hx, if_false, setBody]; exact a3)
        refine ⟨b', by rw [h1]; simp [hr], fun x => ?_⟩
        refine ⟨?_, ?_⟩
        · rw [(h2 x).1]; unfold setBody; split
          · rename_i hx; subst hx; rfl
          · rfl
        · rw [(h2 x).2]
          by_cases hx : x = base
          · subst hx
            simp only [setBody, if_true]
            rw [List.filter_filter]
            apply List.filter_congr
            intro e _
            have hr' : f ref = false := by simpa using hr
            by_cases he : e.1 = ref
            · simp [he, hr', hb]
            · simp [List.mem_cons, he]
          · simp only [setBody, hx, if_false]
            apply List.filter_congr
            intro e _
            simp [List.mem_cons, hx]
    · rw [if_pos (by simp [hb])]
      obtain ⟨b', h1, h2⟩ := solveWeak_spec (live := live) (f := f) ws b hn.2 hw'
      refine ⟨b', by simp [h1, hb], fun x => ⟨(h2 x).1, ?_⟩⟩
      rw [(h2 x).2]
      apply List.filter_congr
      intro e _
      by_cases he : (x, e.1) = (base, ref)
      · obtain ⟨rfl, he⟩ := Prod.mk.inj he
        simp [hb]
      · simp [List.mem_cons, he]

/-- What a collection does. -/
structure Collected (h h' : Heap) : Prop where
  list : ∀ t, t ∈ h'.list ↔ Live h t
  sub : h'.list.Sublist h.list
  freed : ∃ d, h'.freed = h.freed ++ d ∧ d.Nodup ∧ ∀ t, t ∈ d ↔ t ∈ h.list ∧ ¬ Live h t
  refs : ∀ t, (h'.body t).refs = (h.body t).refs
  ents : ∀ t ∈ h'.list, ∀ e, e ∈ (h'.body t).ents ↔ e ∈ (h.body t).ents ∧ Live h e.1
  find : ∀ t ∈ h'.list, ∀ k, Live h k → lookupEnt h' t k = lookupEnt h t k
  roots : h'.roots = h.roots
  fresh : h'.fresh = h.fresh

theorem find_filter {α : Type} {p q : α → Bool} :
    ∀ (l : List α), (∀ x ∈ l, p x = true → q x = true) → (l.filter q).find? p = l.find? p
  | [], _ => rfl
  | a :: l, hq => by
    have ih := find_filter l fun x hx => hq x (List.mem_cons_of_mem _ hx)
    by_cases hp : p a = true
    · have := hq a List.mem_cons_self hp
      simp [List.filter_cons, this, List.find?_cons, hp]
    · by_cases hqa : q a = true
      · simp [List.filter_cons, hqa, List.find?_cons, hp, ih]
      · simp [List.filter_cons, hqa, List.find?_cons, hp, ih]

theorem gcRun_spec {h : Heap} {cap fuel : Nat} (hi : Inv h) (hf : 2 * h.list.length + 2 ≤ fuel) :
    ∃ h', gcRun cap fuel h = some h' ∧ Inv h' ∧ Collected h h' := by
  obtain ⟨s, s', h1, h2, h3, h4⟩ := mark_phase (cap := cap) hi hf
  obtain ⟨b', k1, k2⟩ := solveWeak_spec (live := h.list) (f := s'.marked) h.weak h.body
    hi.weakNodup hi.weak
  unfold gcRun
  rw [h1]; simp only [h2, k1, sweep_eq]
  have hlist : ∀ t, t ∈ h.list.filter s'.marked ↔ Live h t := fun t => by
    rw [List.mem_filter, h3]
    exact ⟨fun x => x.2, fun x => ⟨hi.live x, x⟩⟩
  have hfreed : ∀ t, t ∈ (h.list.filter fun x => !s'.marked x) ↔ t ∈ h.list ∧ ¬ Live h t :=
    fun t => by rw [List.mem_filter, ← h3]; simp
  have hents : ∀ t, Live h t → (b' t).ents = (h.body t).ents.filter fun e => s'.marked e.1 := by
    intro t ht
    rw [(k2 t).2]
    apply List.filter_congr
    intro e he
    have hm := (h3 t).2 ht
    have : (t, e.1) ∈ h.weak := hi.ents t (hi.live ht) e.1 (List.mem_map_of_mem he)
    simp [hm, this]
  have hclean : ∀ (f : Nat → Bool) (x : Nat), (f x = true → s'.marked x = true) →
      clearBits h.list s'.marked f x = false := by
    intro f x hx
    unfold clearBits
    split
    · rfl
    · rename_i hc
      by_contra hne
      have hm := hx (by simpa using hne)
      exact hc ⟨hi.live ((h3 x).1 hm), hm⟩
  refine ⟨_, rfl, ?_, ?_⟩
  · refine ⟨hi.nodup.filter _, ?_, ?_, ?_, ?_, hi.weakNodup.filter _, ?_, ?_, ?_, ?_, ?_, ?_⟩
    · intro t ht u hu
      simp only at ht hu ⊢
      rw [(k2 t).1] at hu
      exact (hlist u).2 (Reach.step ((hlist t).1 ht) hu)
    · intro t ht; exact (hlist t).2 (Reach.root ht)
    · intro t; exact ⟨hclean _ t id, hclean _ t (h4 t)⟩
    · intro e he
      simp only at he ⊢
      obtain ⟨he, hm⟩ := List.mem_filter.1 he
      simp only [Bool.and_eq_true] at hm
      obtain ⟨a1, a2, a3⟩ := hi.weak e he
      refine ⟨List.mem_filter.2 ⟨a1, hm.1⟩, List.mem_filter.2 ⟨a2, hm.2⟩, ?_⟩
      unfold keys
      rw [hents _ ((h3 _).1 hm.1)]
      obtain ⟨p, hp, hp2⟩ := List.mem_map.1 a3
      exact List.mem_map.2 ⟨p, List.mem_filter.2 ⟨hp, by rw [hp2]; exact hm.2⟩, hp2⟩
    · intro t ht k hk
      simp only at ht hk ⊢
      have hl := (hlist t).1 ht
      unfold keys at hk
      rw [hents t hl] at hk
      obtain ⟨p, hp, hp2⟩ := List.mem_map.1 hk
      obtain ⟨hp, hpm⟩ := List.mem_filter.1 hp
      refine List.mem_filter.2 ⟨hi.ents t (hi.live hl) k (hp2 ▸ List.mem_map_of_mem hp), ?_⟩
      simp [(h3 t).2 hl, ← hp2, hpm]
    · intro t ht
      simp only at ht ⊢
      have hl := (hlist t).1 ht
      unfold keys
      rw [hents t hl]
      exact (hi.keysNodup t (hi.live hl)).sublist (List.filter_sublist.map _)
    · refine List.Nodup.append hi.freedNodup (hi.nodup.filter _) ?_
      intro t ht ht2
      exact hi.freedDead t ht (List.mem_filter.1 ht2).1
    · intro t ht ht2
      simp only [List.mem_append] at ht
      rcases ht with ht | ht
      · exact hi.freedDead t ht (List.mem_filter.1 ht2).1
      · exact ((hfreed t).1 ht).2 ((hlist t).1 ht2)
    · intro t
      simp only [List.mem_append]
      rw [← hi.fresh t, hlist, hfreed]
      constructor
      · rintro (h | h | h)
        · exact .inl (hi.live h)
        · exact .inr h
        · exact .inl h.1
      · rintro (x | x)
        · by_cases hl : Live h t
          · exact .inl hl
          · exact .inr (.inr ⟨x, hl⟩)
        · exact .inr (.inl x)
    · exact Nat.le_trans (List.length_filter_le _ _) hi.len
  · refine ⟨hlist, List.filter_sublist, ⟨_, rfl, hi.nodup.filter _, hfreed⟩, fun t => (k2 t).1, ?_, ?_,
      rfl, rfl⟩
    · intro t ht e
      simp only at ht ⊢
      rw [hents t ((hlist t).1 ht), List.mem_filter, h3]
    · intro t ht k hk
      simp only at ht ⊢
      unfold lookupEnt
      simp only
      rw [hents t ((hlist t).1 ht), find_filter]
      intro x _ hx
      have : x.1 = k := by simpa using hx
      rw [this]; exact (h3 k).2 hk

end Verif.GC

import Verif.Spec.Finalization
import Mathlib.Data.List.Nodup
/-
Helper lemmas for the finalization registries.
-/
namespace Verif.Finalization
open Spec (matches_)

structure Inv (s : St) : Prop where
  nodup : (s.cbs.map Prod.fst).Nodup
  fresh : ∀ e ∈ s.cbs, e.1 < s.fresh
  hash : ∀ r k a, s.hash r k = some a ↔ ∃ c, (a, c) ∈ s.cbs ∧ c.registry = r ∧ c.token = some k

structure Sim (s : St) (t : Spec.St) : Prop where
  inv : Inv s
  regs : s.cbs.map Prod.snd = t.regs
  jobs : s.jobs = t.jobs

theorem Inv.uniq {s : St} (hi : Inv s) {a : Nat} {c d : Cb} (h1 : (a, c) ∈ s.cbs)
    (h2 : (a, d) ∈ s.cbs) : c = d := by
  have := List.inj_on_of_nodup_map hi.nodup h1 h2 rfl
  exact (Prod.mk.inj this).2

theorem Inv.token_uniq {s : St} (hi : Inv s) {a b : Nat} {c d : Cb} {k : Nat} (h1 : (a, c) ∈ s.cbs)
    (h2 : (b, d) ∈ s.cbs) (h3 : c.registry = d.registry) (h4 : c.token = some k)
    (h5 : d.token = some k) : a = b := by
  have e1 := (hi.hash c.registry k a).2 ⟨c, h1, rfl, h4⟩
  have e2 := (hi.hash c.registry k b).2 ⟨d, h2, h3.symm, h5⟩
  rw [e1] at e2
  exact Option.some.inj e2

theorem register_sim {s : St} {t : Spec.St} {c : Cb} (hs : Sim s t)
    (hd : ∀ k, c.token = some k → ∀ d ∈ t.regs, matches_ c.registry k d = false) :
    ∃ s', register s c = some s' ∧ Sim s' { t with regs := t.regs ++ [c] } := by
  have hi := hs.inv
  have hn : lookupToken s c.registry c.token = none := by
    cases ht : c.token with
    | none => rfl
    | some k =>
      simp only [lookupToken]
      cases hh : s.hash c.registry k with
      | none => rfl
      | some a =>
        obtain ⟨d, h1, h2, h3⟩ := (hi.hash _ _ _).1 hh
        have := hd k ht d (by rw [← hs.regs]; exact List.mem_map.2 ⟨_, h1, rfl⟩)
        simp [matches_, h2, h3] at this
  unfold register
  rw [hn]
  refine ⟨_, rfl, ⟨⟨?_, ?_, ?_⟩, ?_, hs.jobs⟩⟩
  · simp only [List.map_append, List.map_cons, List.map_nil]
    refine List.Nodup.append hi.nodup (by simp) ?_
    intro x hx hx2
    obtain ⟨e, he, rfl⟩ := List.mem_map.1 hx
    have := hi.fresh e he
    have : e.1 = s.fresh := by simpa using hx2
    omega
  · intro e he
    rcases List.mem_append.1 he with he | he
    · have := hi.fresh e he; simp only; omega
    · have : e = (s.fresh, c) := by simpa using he
      subst this; simp
  · intro r k a
    simp only [List.mem_append, List.mem_singleton, Prod.mk.injEq]
    have hnf : ∀ d, (s.fresh, d) ∉ s.cbs := fun d hd => by
      have := hi.fresh _ hd; simp at this
    unfold setToken
    cases ht : c.token with
    | none =>
      simp only
      rw [hi.hash]
      constructor
      · rintro ⟨d, h1, h2⟩; exact ⟨d, .inl h1, h2⟩
      · rintro ⟨d, h1 | ⟨_, rfl⟩, h2, h3⟩
        · exact ⟨d, h1, h2, h3⟩
        · rw [ht] at h3; simp at h3
    | some k0 =>
      simp only [setHash]
      by_cases hrk : r = c.registry ∧ k = k0
      · rw [if_pos hrk]
        obtain ⟨rfl, rfl⟩ := hrk
        have hnone : ∀ a d, (a, d) ∈ s.cbs → d.registry = c.registry → d.token ≠ some k := by
          intro a d h1 h2 h3
          have := hd k ht d (by rw [← hs.regs]; exact List.mem_map.2 ⟨_, h1, rfl⟩)
          simp [matches_, h2, h3] at this
        constructor
        · intro h
          obtain rfl := Option.some.inj h
          exact ⟨c, .inr ⟨rfl, rfl⟩, rfl, ht⟩
        · rintro ⟨d, h1 | ⟨rfl, rfl⟩, h2, h3⟩
          · exact absurd h3 (hnone a d h1 h2)
          · rfl
      · rw [if_neg hrk, hi.hash]
        constructor
        · rintro ⟨d, h1, h2⟩; exact ⟨d, .inl h1, h2⟩
        · rintro ⟨d, h1 | ⟨_, rfl⟩, h2, h3⟩
          · exact ⟨d, h1, h2, h3⟩
          · rw [ht] at h3
            exact absurd ⟨h2.symm, (Option.some.inj h3).symm⟩ hrk
  · simp [hs.regs]

/-- Removing the record with address `a` together with its hash entry. -/
theorem remove_inv {s : St} (hi : Inv s) {a : Nat} {c : Cb} (hm : (a, c) ∈ s.cbs) (jobs : List (Nat × Nat)) :
    Inv { s with
      jobs := jobs, hash := setToken s.hash c none, cbs := s.cbs.filter fun e => e.1 ≠ a } := by
  refine ⟨hi.nodup.sublist (List.filter_sublist.map _),
    fun e he => hi.fresh e (List.mem_filter.1 he).1, ?_⟩
  intro r k b
  have hcase : setToken s.hash c none r k = some b ↔ s.hash r k = some b ∧ b ≠ a := by
    unfold setToken
    cases ht : c.token with
    | none =>
      simp only
      constructor
      · intro h
        refine ⟨h, ?_⟩
        rintro rfl
        obtain ⟨d, h1, _, h3⟩ := (hi.hash _ _ _).1 h
        rw [hi.uniq h1 hm, ht] at h3
        simp at h3
      · exact fun h => h.1
    | some k0 =>
      simp only [setHash]
      by_cases hrk : r = c.registry ∧ k = k0
      · rw [if_pos hrk]
        obtain ⟨rfl, rfl⟩ := hrk
        constructor
        · intro h; simp at h
        · rintro ⟨h1, h2⟩
          obtain ⟨d, g1, g2, g3⟩ := (hi.hash _ _ _).1 h1
          exact absurd (hi.token_uniq g1 hm g2 g3 ht) h2
      · rw [if_neg hrk]
        constructor
        · intro h
          refine ⟨h, ?_⟩
          rintro rfl
          obtain ⟨d, h1, h2, h3⟩ := (hi.hash _ _ _).1 h
          rw [hi.uniq h1 hm] at h2 h3
          rw [ht] at h3
          exact hrk ⟨h2.symm, (Option.some.inj h3).symm⟩
        · exact fun h => h.1
  simp only [hcase, hi.hash, List.mem_filter]
  constructor
  · rintro ⟨⟨d, h1, h2⟩, h3⟩; exact ⟨d, ⟨h1, by simpa using h3⟩, h2⟩
  · rintro ⟨d, ⟨h1, h3⟩, h2⟩; exact ⟨⟨d, h1, h2⟩, by simpa using h3⟩

theorem unregister_sim {s : St} {t : Spec.St} (r k : Nat) (hs : Sim s t) :
    ∃ s', unregister s r k = some (s', t.regs.any (matches_ r k)) ∧
      Sim s' { t with regs := t.regs.filter fun c => !matches_ r k c } := by
  have hi := hs.inv
  unfold unregister
  cases hh : s.hash r k with
  | none =>
    have hnone : ∀ c ∈ t.regs, matches_ r k c = false := by
      intro c hc
      rw [← hs.regs] at hc
      obtain ⟨⟨a, c⟩, h1, rfl⟩ := List.mem_map.1 hc
      by_contra hne
      simp only [matches_, Bool.not_eq_false, decide_eq_true_eq] at hne
      have := (hi.hash r k a).2 ⟨c, h1, hne.1, hne.2⟩
      rw [hh] at this; simp at this
    have h1 : t.regs.any (matches_ r k) = false := by
      rw [List.any_eq_false]; intro c hc; simp [hnone c hc]
    have h2 : (t.regs.filter fun c => !matches_ r k c) = t.regs := by
      rw [List.filter_eq_self]; intro c hc; simp [hnone c hc]
    exact ⟨s, by rw [h1], ⟨hi, by rw [h2]; exact hs.regs, hs.jobs⟩⟩
  | some a =>
    obtain ⟨c, h1, h2, h3⟩ := (hi.hash _ _ _).1 hh
    simp only
    rw [if_pos (List.mem_map.2 ⟨_, h1, rfl⟩)]
    have hany : t.regs.any (matches_ r k) = true := by
      rw [List.any_eq_true]
      exact ⟨c, by rw [← hs.regs]; exact List.mem_map.2 ⟨_, h1, rfl⟩, by simp [matches_, h2, h3]⟩
    rw [hany]
    refine ⟨_, rfl, ⟨?_, ?_, hs.jobs⟩⟩
    · have := remove_inv hi h1 s.jobs
      simp only [setToken, h3, h2] at this
      exact this
    · simp only
      rw [← hs.regs, List.filter_map]
      congr 1
      apply List.filter_congr
      rintro ⟨b, d⟩ hb
      simp only [Function.comp]
      by_cases hba : b = a
      · subst hba
        rw [hi.uniq hb h1]
        simp [matches_, h2, h3]
      · have : matches_ r k d = false := by
          by_contra hne
          simp only [matches_, Bool.not_eq_false, decide_eq_true_eq] at hne
          exact hba (hi.token_uniq hb h1 (hne.1.trans h2.symm) hne.2 h3)
        simp [hba, this]

theorem solveLoop_spec {dead : Nat → Bool} : ∀ (l : List (Nat × Cb)) (s : St), Inv s →
    (∀ e ∈ l, e ∈ s.cbs) → (l.map Prod.fst).Nodup →
    Inv (solveLoop dead l s) ∧
    (solveLoop dead l s).cbs = s.cbs.filter (fun e => !(dead e.2.target && decide (e ∈ l))) ∧
    (solveLoop dead l s).jobs =
      s.jobs ++ (l.filter fun e => dead e.2.target).map fun e => (e.2.registry, e.2.held)
  | [], s, hi, _, _ => by simp [solveLoop, hi]
  | (a, c) :: l, s, hi, hm, hn => by
    rw [List.map_cons, List.nodup_cons] at hn
    have hma := hm _ List.mem_cons_self
    simp only [solveLoop]
    by_cases hd : dead c.target = true
    · rw [if_pos hd]
      have hne : ∀ e ∈ l, e.1 ≠ a := fun e he h => hn.1 (h ▸ List.mem_map.2 ⟨e, he, rfl⟩)
      obtain ⟨h1, h2, h3⟩ := solveLoop_spec (dead := dead) l _
        (remove_inv hi hma (s.jobs ++ [(c.registry, c.held)])) (by
          intro e he
          exact List.mem_filter.2 ⟨hm e (List.mem_cons_of_mem _ he), by simpa using hne e he⟩) hn.2
      refine ⟨h1, ?_, ?_⟩
      · rw [h2]
        simp only [List.filter_filter]
        apply List.filter_congr
        rintro ⟨b, d⟩ hb
        by_cases hba : b = a
        · subst hba
          rw [hi.uniq hb hma]
          simp [hd]
        · have : (b, d) ≠ (a, c) := fun h => hba (Prod.mk.inj h).1
          simp [hba]
      · rw [h3]; simp [hd]
    · rw [if_neg hd]
      obtain ⟨h1, h2, h3⟩ := solveLoop_spec (dead := dead) l s hi
        (fun e he => hm e (List.mem_cons_of_mem _ he)) hn.2
      refine ⟨h1, ?_, by rw [h3]; simp [hd]⟩
      rw [h2]
      apply List.filter_congr
      rintro ⟨b, d⟩ hb
      by_cases hba : (b, d) = (a, c)
      · obtain ⟨rfl, rfl⟩ := Prod.mk.inj hba
        simp [hd]
      · simp [List.mem_cons, hba]

theorem solve_sim {s : St} {t : Spec.St} (dead : Nat → Bool) (hs : Sim s t) :
    Sim (solve dead s) (Spec.step t (.collect dead)).1 := by
  obtain ⟨h1, h2, h3⟩ := solveLoop_spec (dead := dead) s.cbs s hs.inv (fun e he => he) hs.inv.nodup
  refine ⟨h1, ?_, ?_⟩
  · unfold solve
    rw [h2]
    simp only [Spec.step, ← hs.regs, List.filter_map]
    congr 1
    apply List.filter_congr
    intro e he
    simp [he]
  · unfold solve
    rw [h3]
    simp only [Spec.step, ← hs.regs, hs.jobs, List.filter_map, List.map_map]
    rfl

theorem run_sim : ∀ (ops : List Op) (s : St) (t : Spec.St), Sim s t → Spec.Distinct t ops →
    ∃ s', run s ops = some (s', (Spec.run t ops).2) ∧ Sim s' (Spec.run t ops).1
  | [], s, t, hs, _ => ⟨s, rfl, hs⟩
  | op :: ops, s, t, hs, hd => by
    have key : ∃ s1, step s op = some (s1, (Spec.step t op).2) ∧ Sim s1 (Spec.step t op).1 := by
      cases op with
      | register c =>
        obtain ⟨s1, h1, h2⟩ := register_sim hs hd.1
        exact ⟨s1, by simp [step, h1, Spec.step], h2⟩
      | unregister r k =>
        obtain ⟨s1, h1, h2⟩ := unregister_sim r k hs
        exact ⟨s1, by simp [step, h1, Spec.step], h2⟩
      | collect dead => exact ⟨_, rfl, solve_sim dead hs⟩
    obtain ⟨s1, h1, h2⟩ := key
    obtain ⟨s2, h3, h4⟩ := run_sim ops s1 _ h2 hd.2
    exact ⟨s2, by simp [run, h1, h3, Spec.run], h4⟩

theorem sim_init : Sim init Spec.init :=
  ⟨⟨by simp [init], by simp [init], by simp [init]⟩, rfl, rfl⟩

end Verif.Finalization

import Verif.Lemmas.Finalization
/-
C50: finalization registries.
-/
namespace Verif.Finalization

/-- **C50 is violated.**  Two registrations with the same token in one registry: the second
one overwrites the first.  After both targets (1 and 2) are collected only the held value
of the second is passed to the cleanup callback. -/
theorem C50_violated :
    ∃ ops : List Op, (Spec.run Spec.init ops).1.jobs = [(0, 10), (0, 20)] ∧
      ∃ s o, run init ops = some (s, o) ∧ s.jobs = [(0, 20)] :=
  ⟨[.register ⟨0, 1, 10, some 5⟩, .register ⟨0, 2, 20, some 5⟩, .collect fun t => t = 1 || t = 2],
    by decide, _, _, rfl, by decide⟩

/-- **C50**, for histories in which no token is registered a second time in a registry while
a registration with it is waiting: the cleanup jobs queued are exactly those the
specification asks for, in the order of registration, `unregister` gives the specified
answers, and no freed record is used.

Missing for the full property: registrations sharing a token (`C50_violated`). -/
theorem C50_partial (ops : List Op) (hd : Spec.Distinct Spec.init ops) :
    ∃ s, run init ops = some (s, (Spec.run Spec.init ops).2) ∧
      s.jobs = (Spec.run Spec.init ops).1.jobs ∧
      s.cbs.map Prod.snd = (Spec.run Spec.init ops).1.regs := by
  obtain ⟨s, h1, h2⟩ := run_sim ops init Spec.init sim_init hd
  exact ⟨s, h1, h2.jobs, h2.regs⟩

/-- Three registrations, one of which is withdrawn, and two collections. -/
example : let ops : List Op :=
      [.register ⟨0, 1, 10, some 5⟩, .register ⟨0, 2, 20, none⟩, .register ⟨3, 1, 30, some 5⟩,
       .unregister 3 5, .collect fun t => t = 1, .collect fun t => t = 2]
    Spec.Distinct Spec.init ops ∧ (Spec.run Spec.init ops).1.jobs = [(0, 10), (0, 20)] ∧
      (Spec.run Spec.init ops).2 = [none, none, none, some true, none, none] := by
  refine ⟨⟨?_, ?_, ?_, trivial, trivial, trivial, trivial⟩, by decide, by decide⟩ <;>
    simp [Spec.init, Spec.step, Spec.matches_]

/-- In the specification each registration whose target is collected is served exactly
once, whatever else is registered (the "exactly one cleanup callback" of C50). -/
theorem C50_spec_once (c : Cb) (dead : Nat → Bool) (t : Spec.St) (hd : dead c.target = true)
    (later : List Op) (hl : ∀ op ∈ later, ∃ d, op = .collect d) :
    let t1 := (Spec.step t (.register c)).1
    let t2 := (Spec.run t1 (.collect dead :: later)).1
    ∃ l1 l2, t2.jobs = t.jobs ++ l1 ++ [(c.registry, c.held)] ++ l2 ∧ c ∉ t2.regs := by
  have hreg : ∀ (ops : List Op) (t : Spec.St), (∀ op ∈ ops, ∃ d, op = .collect d) → c ∉ t.regs →
      (∃ l, (Spec.run t ops).1.jobs = t.jobs ++ l) ∧ c ∉ (Spec.run t ops).1.regs := by
    intro ops
    induction ops with
    | nil => intro t _ hc; exact ⟨⟨[], by simp [Spec.run]⟩, hc⟩
    | cons op ops ih =>
      intro t hops hc
      obtain ⟨d, rfl⟩ := hops op List.mem_cons_self
      obtain ⟨⟨l, h1⟩, h2⟩ := ih (Spec.step t (.collect d)).1
        (fun o ho => hops o (List.mem_cons_of_mem _ ho))
        (fun hm => hc (List.mem_filter.1 hm).1)
      refine ⟨⟨_, by simp only [Spec.run]; rw [h1]; simp only [Spec.step]; rw [List.append_assoc]⟩, h2⟩
  obtain ⟨⟨l, h1⟩, h2⟩ := hreg later (Spec.step (Spec.step t (.register c)).1 (.collect dead)).1 hl
    (by simp [Spec.step, hd])
  refine ⟨(t.regs.filter fun c => dead c.target).map fun c => (c.registry, c.held), l, ?_, h2⟩
  show (Spec.run _ _).1.jobs = _
  simp only [Spec.run]
  rw [h1]
  simp [Spec.step, List.filter_append, hd]

end Verif.Finalization

import Verif.Lemmas.ModuleSync
import Verif.Props.Module
/-
C44 for modules without top level `await`: all import graphs, all sequences of evaluations, all
sets of throwing modules.  (That a body runs at most once is `C44_once`, for all graphs.)
-/
namespace Verif.Module

/-- C44: no assertion fails, no null pointer is used, and every evaluation ends. -/
theorem C44_total (G : Graph) (hG : G.Sync) (hC : G.Closed) (hF : G.size < G.fuel) (s : St)
    (h : Run G s) (m : Nat) (hm : m < G.size) :
    ∃ s' r, evaluate G s m = .ok (s', r) ∧ Run G s' := by
  obtain ⟨B, I⟩ := h.idle hG hC hF
  obtain ⟨s', r, B', h1, _⟩ := I.evaluateOk hG hC hF hm
  refine ⟨s', r, h1, .step h (o := .evaluate m) hm ?_⟩
  simp only [step, h1]
  rfl

/-- C44: a body is started only when the bodies of all modules that it imports have ended, except
those of the same cycle. -/
theorem C44_order (G : Graph) (hG : G.Sync) (hC : G.Closed) (hF : G.size < G.fuel) (s : St)
    (h : Run G s) : Ordered G s.trace := by
  obtain ⟨B, I⟩ := h.idle hG hC hF
  exact I.ord

/-- Module 3 imports 2 and 0; 0, 1 and 2 are a cycle. -/
example : let G := graph [[1], [2], [0], [2, 0]] [] (fun _ => none)
    G.Sync ∧ G.Closed ∧ G.size < G.fuel ∧
    Run G (after G [.evaluate 3]) ∧ Reach G 2 1 ∧
    (after G [.evaluate 3]).trace =
      [.start 1, .done 1, .start 0, .done 0, .start 2, .done 2, .start 3, .done 3] := by
  intro G
  refine ⟨fun m => ?_, fun m hm d hd => ?_, by decide +kernel, after_run (by decide +kernel), ?_,
    by decide +kernel⟩
  · simp [G, graph]
  · have hm : m < 4 := hm
    revert d
    match m with
    | 0 => simp [G, graph]
    | 1 => simp [G, graph]
    | 2 => simp [G, graph]
    | 3 => simp [G, graph]
    | n + 4 => omega
  · exact .step (y := 0) (by decide +kernel) (.step (y := 1) (by decide +kernel) (.refl 1))

/-- C44: the body of a module never runs if a module that it imports, from outside of its cycle,
has failed, or has not been run for the same reason. -/
theorem C44_prevents (G : Graph) (hG : G.Sync) (hC : G.Closed) (hF : G.size < G.fuel) (s : St)
    (h : Run G s) (m d e : Nat) (hd : Above G m d) (he : .fail d e ∈ s.trace) :
    .start m ∉ s.trace := by
  obtain ⟨B, I⟩ := h.idle hG hC hF
  have direct : ∀ {x y}, y ∈ G.requests x → ¬ Reach G y x → .start x ∈ s.trace →
      .done y ∈ s.trace := by
    intro x y hy hr hs
    obtain ⟨pre, post, ht⟩ := List.append_of_mem hs
    rcases I.ord pre post x ht y hy with k | k
    · rw [ht]; simp [k]
    · exact absurd k hr
  induction hd with
  | direct hy hr => exact fun hs => I.excl _ e (direct hy hr hs) he
  | @through x y z hy hr _ ih =>
    intro hs
    have hdone := direct hy hr hs
    refine ih he ?_
    exact I.started _ hdone

/-- C44: the promise of an evaluation is settled.  If it is fulfilled, the bodies of the module and
of all modules on which it depends have ended without error.  If it is rejected, then with the
error of the module or of one on which it depends. -/
theorem C44_result (G : Graph) (hG : G.Sync) (hC : G.Closed) (hF : G.size < G.fuel) (s s' : St)
    (h : Run G s) (m r : Nat) (hm : m < G.size) (he : evaluate G s m = .ok (s', r)) :
    ((s'.mods r).cap = some .fulfilled ∧ ∀ d, Reach G m d → .done d ∈ s'.trace) ∨
    (∃ e d, (s'.mods r).cap = some (.rejected e) ∧ Reach G m d ∧ .fail d e ∈ s'.trace) := by
  obtain ⟨B, I⟩ := h.idle hG hC hF
  obtain ⟨s1, r1, B', h1, J, _, hst, hrt, hcap, hreach⟩ := I.evaluateOk hG hC hF hm
  rw [h1] at he; cases he
  obtain ⟨c, hc⟩ := Option.ne_none_iff_exists'.1 hcap
  obtain ⟨hrr, k⟩ := J.cap r c hc
  rcases k with ⟨hg, hc'⟩ | ⟨hB, e, he, hc'⟩
  · subst hc'
    refine Or.inl ⟨hc, ?_⟩
    have hgm : Good B' s' m := by
      refine ⟨hst, fun hB => ?_⟩
      have := (J.bad m hB).2.1
      rw [hrt] at this
      cases this
      exact hg.2 hB
    intro d hd
    have : Good B' s' d := by
      clear hc hrr hrt hst hcap hreach h1 hm
      induction hd with
      | refl => exact hgm
      | step e _ ih => exact ih (J.closed _ hgm _ e)
    exact (J.good d this).2.1
  · subst hc'
    obtain ⟨y, h2, h3⟩ := J.errs r e he
    exact Or.inr ⟨e, y, hc, hreach.trans h2, h3⟩

/-- C44: evaluating a module again gives the same promise, so the same error. -/
theorem C44_again (G : Graph) (hG : G.Sync) (hC : G.Closed) (hF : G.size < G.fuel)
    (s s1 s2 s3 : St) (h : Run G s) (m r r' : Nat) (hm : m < G.size)
    (h1 : evaluate G s m = .ok (s1, r)) (h2 : Later G s1 s2) (h3 : evaluate G s2 m = .ok (s3, r')) :
    r' = r ∧ (s3.mods r).cap = (s1.mods r).cap := by
  obtain ⟨B, I⟩ := h.idle hG hC hF
  obtain ⟨t1, r1, B1, e1, I1, _, hst, hrt, hcap, _⟩ := I.evaluateOk hG hC hF hm
  rw [e1] at h1; cases h1
  obtain ⟨c, hc⟩ := Option.ne_none_iff_exists'.1 hcap
  have hr1 : (s1.mods r).status ≠ .linked := by
    intro k
    have := (I1.cap r c hc).1
    rw [(I1.linked r k).1] at this; cases this
  have hg : (∃ B, Idle G B s2) ∧ Grows s1 s2 := by
    clear h3
    induction h2 with
    | refl => exact ⟨⟨B1, I1⟩, fun x _ => ⟨rfl, rfl, fun _ h => h⟩⟩
    | step _ ho hs ih =>
      obtain ⟨⟨B, I⟩, g⟩ := ih
      obtain ⟨s', B', k1, k2, k3⟩ := I.step hG hC hF ho
      rw [k1] at hs; cases hs
      exact ⟨⟨B', k2⟩, g.trans k3⟩
  obtain ⟨⟨B2, I2⟩, g2⟩ := hg
  obtain ⟨t3, r3, B3, e3, I3, g3, _, hrt3, _, _⟩ := I2.evaluateOk hG hC hF hm
  rw [e3] at h3; cases h3
  have g := g2.trans g3
  have := (g m (by rw [hst]; simp)).2.1
  rw [hrt, hrt3] at this
  cases this
  exact ⟨rfl, by rw [hc]; exact (g _ hr1).2.2 c hc⟩

/-- Module 0 throws 7.  Module 1 imports it, and module 2 imports module 1; module 3 is not
concerned.  The promises of 0, 1 and 2 are rejected with 7, each time. -/
example : let G := graph [[], [0], [3, 1], []] [] (fun m => if m = 0 then some 7 else none)
    let s := after G [.evaluate 2, .evaluate 1, .evaluate 0, .evaluate 3, .evaluate 2]
    Run G s ∧ s.trace = [.start 3, .done 3, .start 0, .fail 0 7] ∧
    Above G 2 0 ∧
    (s.mods 2).cap = some (.rejected 7) ∧ (s.mods 1).cap = some (.rejected 7) ∧
    (s.mods 0).cap = some (.rejected 7) ∧ (s.mods 3).cap = some .fulfilled := by
  intro G s
  have l0 : ∀ {x}, Reach G 0 x → x = 0 := by
    intro x h
    cases h with
    | refl => rfl
    | step e _ => simp [G, graph] at e
  have l1 : ∀ {x}, Reach G 1 x → x = 1 ∨ x = 0 := by
    intro x h
    cases h with
    | refl => exact Or.inl rfl
    | step e k => simp only [G, graph, List.getD_cons_succ, List.getD_cons_zero,
        List.mem_singleton] at e; subst e; exact Or.inr (l0 k)
  refine ⟨after_run (by decide +kernel), by decide +kernel, ?_, by decide +kernel,
    by decide +kernel, by decide +kernel, by decide +kernel⟩
  refine .through (y := 1) (by decide +kernel) (fun h => ?_)
    (.direct (by decide +kernel) (fun h => ?_))
  · rcases l1 h with h | h <;> cases h
  · cases l0 h

end Verif.Module

import Verif.Lemmas.PropStore
import Verif.Spec.PropStore
/-
Histories of indexed properties.
-/
namespace Verif.PropStore
variable {α : Type}

theorem fixup_rbt {s s' : Store α} {num max : Nat} (h : fixup s num max = some s') :
    s'.max = max ∧ (s'.rbt = true → s.rbt = true ∨ 16 < max) := by
  unfold fixup at h
  split at h
  · rename_i hr
    split at h
    · rename_i hm
      split at h
      · cases h; exact ⟨rfl, fun _ => Or.inr hm.2⟩
      · split at h
        · cases h
        · cases h; exact ⟨rfl, fun _ => Or.inr hm.2⟩
    · split at h
      · simp only at h
        split at h
        · split at h
          · cases h
          · cases h; exact ⟨rfl, Or.inl⟩
        · cases h; exact ⟨rfl, Or.inl⟩
      · cases h; exact ⟨rfl, Or.inl⟩
  · split at h
    · cases h; exact ⟨rfl, fun c => by cases c⟩
    · cases h; exact ⟨rfl, Or.inl⟩

theorem add_rbt {s s' : Store α} {i : Nat} {p : α} (h : add s i p = some s') :
    s'.rbt = true → s.rbt = true ∨ 16 < s'.max := by
  unfold add at h
  split at h
  · cases h
  · rename_i s1 hf
    obtain ⟨a, b⟩ := fixup_rbt hf
    rw [← a] at b
    split at h
    · split at h
      · cases h
      · split at h
        · cases h
        · cases h; exact b
    · split at h
      · cases h
      · split at h
        · cases h; exact b
        · cases h

theorem updateMax_rbt {s s' : Store α} (h : updateMax s = some s') : s'.rbt = s.rbt := by
  unfold updateMax at h
  split at h
  · split at h <;> (cases h; rfl)
  · split at h
    · split at h
      · cases h; rfl
      · cases h
    · split at h
      · cases h
      · cases h; rfl

theorem delete_rbt {s s' : Store α} {i : Nat} (h : delete s i = some s') :
    s'.rbt = true → s.rbt = true ∨ 16 < s'.max := by
  unfold delete at h
  split at h
  · cases h
  · rename_i s1 h1
    have e1 : s1.rbt = s.rbt := by
      unfold removeAt at h1
      split at h1
      · split at h1
        · split at h1
          · cases h1
          · cases h1; rfl
        · cases h1
      · split at h1
        · cases h1
        · split at h1
          · cases h1; rfl
          · cases h1
    split at h
    · cases h
    · rename_i s2 h2
      have e2 : s2.rbt = s1.rbt := by
        split at h2
        · exact updateMax_rbt h2
        · cases h2; rfl
      obtain ⟨a, b⟩ := fixup_rbt h
      rw [a, ← e1, ← e2]
      exact b

theorem deleteFrom_rbt {cfg : α → Bool} {s s' : Store α} {len : Nat} {last : Option Nat}
    (h : deleteFrom cfg s len = some (s', last)) : s'.rbt = true → s.rbt = true ∨ 16 < s'.max := by
  unfold deleteFrom at h
  split at h
  · cases h
  · rename_i s1 n last' h1
    have e1 : s1.rbt = s.rbt := by
      unfold cut at h1
      split at h1
      · split at h1
        · cases h1
        · cases h1; rfl
      · split at h1
        · cases h1; rfl
        · split at h1
          · cases h1
          · cases h1; rfl
    split at h
    · cases h
    · rename_i s2 h2
      split at h
      · cases h
      · rename_i s3 h3
        simp only [Option.some.injEq, Prod.mk.injEq] at h
        obtain ⟨rfl, _⟩ := h
        obtain ⟨a, b⟩ := fixup_rbt h3
        rw [a, ← e1, ← updateMax_rbt h2]
        exact b

theorem update_rbt {s s' : Store α} {i : Nat} {p : α} (h : update s i p = some s') : s'.rbt = s.rbt := by
  unfold update at h
  split at h
  · split at h <;> (cases h; rfl)
  · cases h

/-- What holds during a history. -/
structure RunInv (big : Prop) (s : Store α) (m : Nat → Option α) : Prop where
  inv : Inv s m
  rbt : s.rbt = true → big
  live : ∀ i, m i ≠ none → 16 < i → big

theorem RunInv.of {big : Prop} {s s' : Store α} {m m' : Nat → Option α} (h : RunInv big s m) (hi : Inv s' m')
    (hr : s'.rbt = true → s.rbt = true ∨ 16 < s'.max) {big' : Prop} (hb : big → big')
    (hl : ∀ i, m' i ≠ none → 16 < i → big') : RunInv big' s' m' := by
  refine ⟨hi, fun c => ?_, hl⟩
  rcases hr c with c | c
  · exact hb (h.rbt c)
  · rcases hi.top with e | e
    · omega
    · exact hl _ e c

theorem spec_cut {cfg : α → Bool} {m : Nat → Option α} {len : Nat} {last : Option Nat} (h : CutOk cfg m len last) :
    cutMap m len last = Spec.step cfg m (.cut len) := by
  funext k
  simp only [cutMap, Spec.step]
  by_cases c : k < bound len last
  · rw [if_pos c]
    split
    · rename_i hk
      cases hl : last with
      | none => rw [hl] at c; simp only [bound] at c; omega
      | some j =>
        obtain ⟨a, p, b, e⟩ := h.1 j hl
        rw [hl] at c
        simp only [bound] at c
        have := hk.2 j p (by omega) b
        rw [e] at this; cases this
    · rfl
  · rw [if_neg c]
    split
    · rfl
    · rename_i hk
      exfalso
      apply hk
      refine ⟨?_, fun j p hj hp => h.2 j p (by omega) hp⟩
      cases hl : last with
      | none => rw [hl] at c; simp only [bound] at c; omega
      | some j =>
        have := (h.1 j hl).1
        rw [hl] at c; simp only [bound] at c; omega

theorem step_safe {cfg : α → Bool} {big : Prop} {s : Store α} {m : Nat → Option α} (h : RunInv big s m) (a : Op α)
    (hs : Spec.Ok big m a) :
    ∃ s', step cfg s a = some s' ∧
      RunInv (big ∨ Spec.IsBig a) s' (Spec.step cfg m a) := by
  cases a with
  | put i p =>
    obtain ⟨h1, h2⟩ := hs
    unfold step
    simp only [lookup_spec h.inv]
    have hl : ∀ k, upd m i (some p) k ≠ none → 16 < k → big ∨ 16 < i := by
      intro k hk hk'
      simp only [upd] at hk
      split at hk
      · rename_i e; subst e; exact Or.inr hk'
      · exact Or.inl (h.live k hk hk')
    cases hi : m i with
    | none =>
      simp only
      have hnt : ¬ (s.rbt = true ∧ s.tree = .leaf ∧ i < 3) := by
        rintro ⟨a, b, c⟩
        refine h2 c (fun k => ?_) (h.rbt a)
        cases h.inv.rep with
        | tree hr t =>
          cases e : m k with
          | none => rfl
          | some q =>
            have := (t.mem k).2 (by simp [e])
            rw [b] at this
            simp [RBT.Spec.keys] at this
        | null hr => rw [a] at hr; cases hr
        | vec hr => rw [a] at hr; cases hr
      obtain ⟨s', e1, e2⟩ := (add_spec h.inv (p := p) hi h1).2 hnt
      exact ⟨s', e1, h.of e2 (add_rbt e1) Or.inl hl⟩
    | some q =>
      obtain ⟨s', e1, e2⟩ := update_spec h.inv (p := p) (i := i) (by simp [hi])
      exact ⟨s', e1, h.of e2 (fun c => Or.inl (by rw [← update_rbt e1]; exact c)) Or.inl hl⟩
  | del i =>
    unfold step
    simp only [lookup_spec h.inv]
    cases hi : m i with
    | none =>
      refine ⟨s, rfl, ?_⟩
      have : Spec.step cfg m (.del i) = m := by
        funext k
        simp only [Spec.step]
        split
        · rename_i e; rw [e, hi]
        · rfl
      rw [this]
      exact ⟨h.inv, fun c => Or.inl (h.rbt c), fun k hk hk' => Or.inl (h.live k hk hk')⟩
    | some q =>
      obtain ⟨s', e1, e2⟩ := delete_spec h.inv (i := i) (by simp [hi])
      refine ⟨s', e1, h.of e2 (delete_rbt e1) Or.inl fun k hk hk' => Or.inl (h.live k ?_ hk')⟩
      simp only [upd] at hk
      split at hk
      · exact absurd rfl hk
      · exact hk
  | cut len =>
    obtain ⟨s', last, e1, e2, e3⟩ := deleteFrom_spec h.inv cfg len
    unfold step
    simp only [e1]
    refine ⟨s', rfl, ?_⟩
    rw [← spec_cut e3]
    refine h.of e2 (deleteFrom_rbt e1) Or.inl fun k hk hk' => Or.inl (h.live k ?_ hk')
    simp only [cutMap] at hk
    split at hk
    · exact hk
    · exact absurd rfl hk

theorem run_safe {cfg : α → Bool} : ∀ (ops : List (Op α)) (big : Prop) (s : Store α) (m : Nat → Option α),
    RunInv big s m → Spec.Safe cfg big m ops →
    ∃ s', run cfg s ops = some s' ∧ Inv s' (Spec.run cfg m ops)
  | [], _, s, m, h, _ => ⟨s, rfl, h.inv⟩
  | a :: l, big, s, m, h, hs => by
    obtain ⟨h1, h2⟩ := hs
    obtain ⟨s1, e1, e2⟩ := step_safe (cfg := cfg) h a h1
    obtain ⟨s', e3, e4⟩ := run_safe l _ s1 _ e2 h2
    refine ⟨s', ?_, e4⟩
    unfold run
    rw [e1]
    exact e3

theorem runInv_empty : RunInv (α := α) False empty (fun _ => none) :=
  ⟨inv_empty, fun c => (by simp [empty] at c), fun i hi => absurd rfl hi⟩

end Verif.PropStore

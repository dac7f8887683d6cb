import Verif.Lemmas.WaiterWake
/-
Lemmas about waiting and waking: no wake-up is lost, the mutex is released, and the answers.
-/
namespace Verif.Waiter
open LinkedList

theorem Inv.stepNext {s s' : Sys} {o : Op} (hi : Inv s) (hs : Small o) (he : step s o = .next s') :
    Inv s' := by
  rcases step_inv hi o hs with k | ⟨s1, k, h⟩
  · rw [k] at he; cases he
  · rw [k] at he; cases he; exact h

theorem Inv.crit_other {s : Sys} (hi : Inv s) {a b : Nat} (ha : (s.pc a).crit = true) (hb : b ≠ a) :
    (s.pc b).crit = false := hi.1.others ha hb

theorem Inv.free {s : Sys} (hi : Inv s) (hl : s.lock = none) (b : Nat) : (s.pc b).crit = false := by
  cases k : (s.pc b).crit with
  | false => rfl
  | true => rw [(hi.1.owned b).1 k] at hl; cases hl

/-! ## No wake-up is lost -/

/-- The agents that are going to read `pos` expect another value than `u`, which is there. -/
def Reading (pos : Nat) (u : Int) (s : Sys) : Prop :=
  s.mem pos = u ∧ ∀ b v t, (s.pc b = .waitLock pos v t ∨ s.pc b = .waitRead pos v t) → v ≠ u

/-- No agent is between the reading and its sleep. -/
def Clear (pos : Nat) (s : Sys) : Prop :=
  ∀ b h t, s.pc b ≠ .waitFind pos t ∧ s.pc b ≠ .waitAdd pos h t

theorem setPc_cases {s s' : Sys} {a : Nat} {p : Pc} (h : s'.pc = (setPc s a p).pc) (b : Nat) :
    (b = a ∧ s'.pc b = p) ∨ (b ≠ a ∧ s'.pc b = s.pc b) := by
  rw [h]
  by_cases e : b = a
  · subst e; exact Or.inl ⟨rfl, setPc_same _ _ _⟩
  · exact Or.inr ⟨e, setPc_other _ _ e⟩

theorem reading_step {pos : Nat} {u : Int} {s s' : Sys} {o : Op} (hr : Reading pos u s)
    (hs : Settled pos u o) (he : Effect s s' o) : Reading pos u s' := by
  obtain ⟨h1, h2⟩ := hr
  have key : ∀ (a : Nat) (p : Pc), s'.pc = (setPc s a p).pc →
      (∀ v t, (p = .waitLock pos v t ∨ p = .waitRead pos v t) → v ≠ u) → s'.mem = s.mem →
      Reading pos u s' := by
    intro a p hp hk hm
    refine ⟨by rw [hm]; exact h1, fun b v t hb => ?_⟩
    rcases setPc_cases hp b with ⟨_, k⟩ | ⟨_, k⟩
    · rw [k] at hb; exact hk v t hb
    · rw [k] at hb; exact h2 b v t hb
  cases he with
  | @wait a p v t hp e1 e2 e3 =>
    refine key _ _ e1 (fun v' t' k => ?_) e3
    rcases k with k | k
    · cases k; exact hs rfl
    · cases k
  | notify hp e1 e2 e3 => exact key _ _ e1 (by simp) e3
  | @store p v e1 e2 e3 =>
    have hs : p ≠ pos := hs
    refine ⟨by rw [e3]; simp only; rw [if_neg (fun k => hs k.symm)]; exact h1, fun b v t hb => ?_⟩
    rw [e1] at hb; exact h2 b v t hb
  | rouse hp _ _ e1 e2 e3 => exact key _ _ e1 (by simp) e3
  | @waitLock a x p v t hp hl e1 e2 e3 =>
    refine key _ _ e1 (fun v' t' k => ?_) e3
    rcases k with k | k
    · cases k
    · cases k; exact h2 a _ _ (Or.inl hp)
  | equal hp e1 e2 e3 => exact key _ _ e1 (by simp) e3
  | differs hp _ e1 e2 e3 => exact key _ _ e1 (by simp) e3
  | waitFind hp e1 e2 e3 => exact key _ _ e1 (by simp) e3
  | add hp e1 e2 e3 => exact key _ _ e1 (by simp) e3
  | roused hp _ e1 e2 e3 => exact key _ _ e1 (by simp) e3
  | leave hp e1 e2 e3 => exact key _ _ e1 (by simp) e3
  | noteLock hp _ e1 e2 e3 => exact key _ _ e1 (by simp) e3
  | noteFind hp e1 e2 e3 => exact key _ _ e1 (by simp) e3
  | returns hp _ e1 e2 e3 => exact key _ _ e1 (by simp) e3
  | @take a x p h n c d q hp _ _ _ e1 e2 e3 =>
    refine ⟨by rw [e3]; exact h1, fun b v t hb => ?_⟩
    rw [e1 b] at hb
    split at hb
    · simp at hb
    · split at hb
      · cases hpb : s.pc b with
        | waitLock => rw [hpb] at hb; exact h2 b v t (by rw [hpb]; exact hb)
        | waitRead => rw [hpb] at hb; exact h2 b v t (by rw [hpb]; exact hb)
        | _ => rw [hpb] at hb; simp [Pc.rouse] at hb
      · exact h2 b v t hb

theorem clear_step {pos : Nat} {u : Int} {s s' : Sys} {o : Op} (hr : Reading pos u s)
    (hc : Clear pos s) (he : Effect s s' o) : Clear pos s' := by
  have key : ∀ (a : Nat) (p : Pc), s'.pc = (setPc s a p).pc →
      (∀ h t, p ≠ .waitFind pos t ∧ p ≠ .waitAdd pos h t) → Clear pos s' := by
    intro a p hp hk b h t
    rcases setPc_cases hp b with ⟨_, k⟩ | ⟨_, k⟩
    · rw [k]; exact hk h t
    · rw [k]; exact hc b h t
  cases he with
  | wait hp e1 e2 e3 => exact key _ _ e1 (by simp)
  | notify hp e1 e2 e3 => exact key _ _ e1 (by simp)
  | store e1 e2 e3 => intro b; rw [e1]; exact hc b
  | rouse hp _ _ e1 e2 e3 => exact key _ _ e1 (by simp)
  | waitLock hp hl e1 e2 e3 => exact key _ _ e1 (by simp)
  | @equal a x p t hp e1 e2 e3 =>
    refine key _ _ e1 (fun h t' => ⟨fun k => ?_, by simp⟩)
    cases k
    exact hr.2 a _ _ (Or.inr hp) hr.1
  | differs hp _ e1 e2 e3 => exact key _ _ e1 (by simp)
  | @waitFind a x p h t hp e1 e2 e3 =>
    refine key _ _ e1 (fun h t' => ⟨by simp, fun k => ?_⟩)
    cases k
    exact (hc a h t).1 hp
  | add hp e1 e2 e3 => exact key _ _ e1 (by simp)
  | roused hp _ e1 e2 e3 => exact key _ _ e1 (by simp)
  | leave hp e1 e2 e3 => exact key _ _ e1 (by simp)
  | noteLock hp _ e1 e2 e3 => exact key _ _ e1 (by simp)
  | noteFind hp e1 e2 e3 => exact key _ _ e1 (by simp)
  | returns hp _ e1 e2 e3 => exact key _ _ e1 (by simp)
  | @take a x p h n c d q hp _ _ _ e1 e2 e3 =>
    intro b h' t
    rw [e1 b]
    split
    · simp
    · split
      · have := hc b h' t
        cases hpb : s.pc b with
        | waitFind => rw [hpb] at this; exact this
        | waitAdd => rw [hpb] at this; exact this
        | _ => simp [Pc.rouse]
      · exact hc b h' t

theorem clear_of_free {pos : Nat} {s : Sys} (hi : Inv s) (hl : s.lock = none) : Clear pos s := by
  intro b h t
  have := hi.free hl b
  constructor <;> intro k <;> rw [k] at this <;> cases this

theorem erase_nil {q : List Nat} (h : q = []) (a : Nat) : q.erase a = [] := by subst h; rfl

theorem empty_step {pos : Nat} {s s' : Sys} {o : Op} (hc : Clear pos s)
    (hq : queue pos s.trace = []) (he : Effect s s' o) : queue pos s'.trace = [] := by
  cases he with
  | wait hp e1 e2 e3 => rw [e2]; exact hq
  | notify hp e1 e2 e3 => rw [e2]; exact hq
  | store e1 e2 e3 => rw [e2]; exact hq
  | rouse hp _ _ e1 e2 e3 => rw [e2]; exact hq
  | waitLock hp hl e1 e2 e3 => rw [e2]; exact hq
  | equal hp e1 e2 e3 => rw [e2]; exact hq
  | differs hp _ e1 e2 e3 => rw [e2, queue_snoc]; exact hq
  | waitFind hp e1 e2 e3 => rw [e2]; exact hq
  | @add a x p h t w hp e1 e2 e3 =>
    rw [e2, queue_snoc]
    have : p ≠ pos := by rintro rfl; exact (hc a h t).2 hp
    simp only [queueStep, if_neg this]; exact hq
  | roused hp _ e1 e2 e3 => rw [e2]; exact hq
  | leave hp e1 e2 e3 =>
    rw [e2, queue_snoc]; simp only [queueStep]; split
    · exact erase_nil hq _
    · exact hq
  | noteLock hp _ e1 e2 e3 => rw [e2, queue_snoc]; exact hq
  | noteFind hp e1 e2 e3 => rw [e2]; exact hq
  | returns hp _ e1 e2 e3 => rw [e2, queue_snoc]; exact hq
  | take hp _ _ _ e1 e2 e3 =>
    rw [e2, queue_snoc]; simp only [queueStep]; split
    · exact erase_nil hq _
    · exact hq

/-- Where `notify` with an infinite count is. -/
def Phase (pos a : Nat) (s : Sys) : Prop :=
  s.pc a = .noteLock pos none ∨
  (Clear pos s ∧ (s.pc a = .noteFind pos none ∨ ∃ h n, s.pc a = .noteLoop pos h n none)) ∨
  (Clear pos s ∧ s.pc a = .idle ∧ queue pos s.trace = [])

theorem phase_step {pos a : Nat} {u : Int} {s s' : Sys} {o : Op} (hi : Inv s) (hi' : Inv s')
    (hr : Reading pos u s) (hn : NoCall a o) (hp : Phase pos a s) (he : Effect s s' o) :
    Phase pos a s' := by
  have same : s'.pc a = s.pc a → Phase pos a s' := by
    intro k
    rcases hp with hp | ⟨h1, h2⟩ | ⟨h1, h2, h3⟩
    · exact Or.inl (k.trans hp)
    · exact Or.inr (Or.inl ⟨clear_step hr h1 he, by rw [k]; exact h2⟩)
    · exact Or.inr (Or.inr ⟨clear_step hr h1 he, k.trans h2, empty_step h1 h3 he⟩)
  have other : ∀ (b : Nat) (p : Pc), s'.pc = (setPc s b p).pc → b ≠ a → Phase pos a s' := by
    intro b p e hb
    rcases setPc_cases e a with ⟨k, _⟩ | ⟨_, k⟩
    · exact absurd k.symm hb
    · exact same k
  have mine : ∀ (b : Nat) (p : Pc), s'.pc = (setPc s b p).pc → (s.pc b ≠ .noteLock pos none ∧
      s.pc b ≠ .noteFind pos none ∧ (∀ h n, s.pc b ≠ .noteLoop pos h n none) ∧ s.pc b ≠ .idle) →
      Phase pos a s' := by
    intro b p e hb
    refine other b p e ?_
    rintro rfl
    rcases hp with hp | ⟨_, hp | ⟨h, n, hp⟩⟩ | ⟨_, hp, _⟩
    · exact hb.1 hp
    · exact hb.2.1 hp
    · exact hb.2.2.1 h n hp
    · exact hb.2.2.2 hp
  have hcl : ∀ h, s.pc a = h → Phase pos a s := fun _ _ => hp
  cases he with
  | wait hp' e1 e2 e3 => exact other _ _ e1 hn
  | notify hp' e1 e2 e3 => exact other _ _ e1 hn
  | store e1 e2 e3 => exact same (by rw [e1])
  | rouse hp' _ _ e1 e2 e3 => exact mine _ _ e1 (by rw [hp']; simp)
  | waitLock hp' hl e1 e2 e3 => exact mine _ _ e1 (by rw [hp']; simp)
  | equal hp' e1 e2 e3 => exact mine _ _ e1 (by rw [hp']; simp)
  | differs hp' _ e1 e2 e3 => exact mine _ _ e1 (by rw [hp']; simp)
  | waitFind hp' e1 e2 e3 => exact mine _ _ e1 (by rw [hp']; simp)
  | add hp' e1 e2 e3 => exact mine _ _ e1 (by rw [hp']; simp)
  | roused hp' _ e1 e2 e3 => exact mine _ _ e1 (by rw [hp']; simp)
  | leave hp' e1 e2 e3 => exact mine _ _ e1 (by rw [hp']; simp)
  | @noteLock b x p c hp' hl e1 e2 e3 =>
    by_cases e : b = a
    · subst e
      have hpc : p = pos ∧ c = none := by
        rcases hp with hp | ⟨_, hp | ⟨h, n, hp⟩⟩ | ⟨_, hp, _⟩ <;> rw [hp'] at hp <;> cases hp
        exact ⟨rfl, rfl⟩
      obtain ⟨rfl, rfl⟩ := hpc
      refine Or.inr (Or.inl ⟨clear_step hr (clear_of_free hi hl) (.noteLock (x := x) hp' hl e1 e2 e3), Or.inl ?_⟩)
      rw [e1]; exact setPc_same _ _ _
    · exact other _ _ e1 e
  | @noteFind b x p c h hp' e1 e2 e3 =>
    by_cases e : b = a
    · subst e
      have hpc : (p = pos ∧ c = none) ∧ Clear pos s := by
        rcases hp with hp | ⟨h1, hp | ⟨h, n, hp⟩⟩ | ⟨_, hp, _⟩ <;> rw [hp'] at hp <;> cases hp
        exact ⟨⟨rfl, rfl⟩, h1⟩
      obtain ⟨⟨rfl, rfl⟩, h1⟩ := hpc
      refine Or.inr (Or.inl ⟨clear_step hr h1 (.noteFind (x := x) hp' e1 e2 e3), Or.inr ⟨h, 0, ?_⟩⟩)
      rw [e1]; exact setPc_same _ _ _
    · exact other _ _ e1 e
  | @take b x p h n c d q hp' hq hd hm e1 e2 e3 =>
    by_cases e : b = a
    · subst e
      have hpc : (p = pos ∧ c = none) ∧ Clear pos s := by
        rcases hp with hp | ⟨h1, hp | ⟨h, n, hp⟩⟩ | ⟨_, hp, _⟩ <;> rw [hp'] at hp <;> cases hp
        exact ⟨⟨rfl, rfl⟩, h1⟩
      obtain ⟨⟨rfl, rfl⟩, h1⟩ := hpc
      refine Or.inr (Or.inl ⟨clear_step hr h1 (.take (x := x) hp' hq hd hm e1 e2 e3), Or.inr ⟨h, n + 1, ?_⟩⟩)
      rw [e1, if_pos rfl]
    · refine same ?_
      rw [e1, if_neg (fun k => e k.symm)]
      split
      · next k =>
        apply rouse_id
        rcases hp with hp | ⟨h1, hp | ⟨h, n, hp⟩⟩ | ⟨_, hp, _⟩ <;> rw [hp] <;> rfl
      · rfl
  | @returns b x p h n c hp' hend e1 e2 e3 =>
    by_cases e : b = a
    · subst e
      have hpc : (p = pos ∧ c = none) ∧ Clear pos s := by
        rcases hp with hp | ⟨h1, hp | ⟨h, n, hp⟩⟩ | ⟨_, hp, _⟩ <;> rw [hp'] at hp <;> cases hp
        exact ⟨⟨rfl, rfl⟩, h1⟩
      obtain ⟨⟨rfl, rfl⟩, h1⟩ := hpc
      refine Or.inr (Or.inr ⟨clear_step hr h1 (.returns (x := x) hp' hend e1 e2 e3), ?_, ?_⟩)
      · rw [e1]; exact setPc_same _ _ _
      · rw [e2, queue_snoc]
        rcases hend with k | k
        · simp [more] at k
        · exact k
    · exact other _ _ e1 e

/-! ## The mutex is released -/

theorem live_finite_step {s s' : Sys} {o : Op} (he : step s o = .next s')
    (hf : ∃ N, ∀ x, N ≤ x → s.live x = false) : ∃ N, ∀ x, N ≤ x → s'.live x = false := by
  obtain ⟨N, hN⟩ := hf
  have grow : ∀ y, ∃ N, ∀ x, N ≤ x → (if x = y then true else s.live x) = false := by
    intro y
    refine ⟨max N (y + 1), fun x hx => ?_⟩
    rw [if_neg (by omega)]; exact hN x (by omega)
  have hfind : ∀ pos x s1 h, find s pos x = some (s1, h) → ∃ N, ∀ x, N ≤ x → s1.live x = false := by
    intro pos x s1 h hf
    unfold find at hf
    split at hf
    · cases hf; exact ⟨N, hN⟩
    · split at hf
      · cases hf
      · cases hf; exact grow x
  cases o with
  | wait a pos v t =>
    simp only [step] at he
    split at he
    · cases he; exact ⟨N, hN⟩
    · cases he
  | notify a pos c =>
    simp only [step] at he
    split at he
    · cases he; exact ⟨N, hN⟩
    · cases he
  | store pos v => cases he; exact ⟨N, hN⟩
  | timer a =>
    simp only [step, rouse] at he
    split at he
    · split at he
      · cases he
      · cases he; exact ⟨N, hN⟩
    · cases he
  | spurious a =>
    simp only [step, rouse] at he
    split at he
    · split at he
      · cases he
      · cases he; exact ⟨N, hN⟩
    · cases he
  | run a x =>
    simp only [step, run] at he
    cases hp : s.pc a with
    | idle => simp only [hp] at he; cases he
    | asleep => simp only [hp] at he; cases he
    | waitLock pos v t =>
      simp only [hp, acquire] at he
      split at he
      · cases he; exact ⟨N, hN⟩
      · cases he
    | waitRead pos v t =>
      simp only [hp] at he
      split at he <;> cases he <;> exact ⟨N, hN⟩
    | waitFind pos t =>
      simp only [hp] at he
      cases hf : find s pos x with
      | none => rw [hf] at he; cases he
      | some r => obtain ⟨s1, h⟩ := r; rw [hf] at he; cases he; exact hfind pos x s1 h hf
    | waitAdd pos h t =>
      simp only [hp, add] at he
      split at he
      · cases he
      · split at he
        · cases he
        · split at he
          · cases he
          · cases he; exact grow x
    | roused pos w late =>
      simp only [hp, acquire] at he
      split at he
      · cases he; exact ⟨N, hN⟩
      · cases he
    | leaving pos w late =>
      simp only [hp, leave] at he
      split at he
      · cases he
      · split at he
        · cases he
        · cases he
          refine ⟨N, fun y hy => ?_⟩
          show (if y = w then false else s.live y) = false
          split
          · rfl
          · exact hN y hy
    | noteLock pos c =>
      simp only [hp, acquire] at he
      cases hl : s.lock with
      | none => rw [hl] at he; cases he; exact ⟨N, hN⟩
      | some b => rw [hl] at he; cases he
    | noteFind pos c =>
      simp only [hp] at he
      cases hf : find s pos x with
      | none => rw [hf] at he; cases he
      | some r => obtain ⟨s1, h⟩ := r; rw [hf] at he; cases he; exact hfind pos x s1 h hf
    | noteLoop pos h n c =>
      simp only [hp, loop] at he
      split at he
      · cases he
      · split at he
        · split at he
          · cases he
          · cases he
            refine ⟨N, fun y hy => ?_⟩
            show (signal _ _).live y = false
            rw [(Core.signal_rest _ _).2.1]; exact hN y hy
        · cases he; exact ⟨N, hN⟩

theorem Run.live_finite {P : Sys → Op → Prop} {s : Sys} (h : Run P s) :
    ∃ N, ∀ x, N ≤ x → s.live x = false := by
  induction h with
  | start h mem => exact ⟨0, fun _ _ => rfl⟩
  | step _ _ he ih => exact live_finite_step he ih

/-- The agent with the mutex is never blocked. -/
theorem not_stuck {s : Sys} {a x : Nat} (ha : (s.pc a).crit = true) (hx : s.live x = false) :
    run s a x ≠ .stuck := by
  unfold run
  cases hp : s.pc a with
  | waitRead pos v t => simp only; split <;> simp
  | waitFind pos t =>
    simp only
    have : find s pos x ≠ none := by
      unfold find; split
      · simp
      · rw [if_neg (by simp [hx])]; simp
    split
    · next k => exact absurd k this
    · simp
  | waitAdd pos h t =>
    simp only [add, hx]
    repeat' split
    all_goals simp_all
  | leaving pos w late => simp only [leave]; repeat' split <;> simp
  | noteFind pos c =>
    simp only
    have : find s pos x ≠ none := by
      unfold find; split
      · simp
      · rw [if_neg (by simp [hx])]; simp
    split
    · next k => exact absurd k this
    · simp
  | noteLoop pos h n c =>
    simp only [loop]
    split
    · simp
    · split
      · split <;> simp
      · simp
  | _ => rw [hp] at ha; cases ha

/-- The number of steps that the agent with the mutex may still need. -/
def todo (s : Sys) : Pc → Nat
  | .waitRead _ _ _ => 2
  | .waitFind _ _ => 1
  | .noteFind pos _ => (queue pos s.trace).length + 1
  | .noteLoop pos _ _ _ => (queue pos s.trace).length
  | _ => 0

theorem todo_step {s s' : Sys} {a x : Nat} (hi : Inv s) (hi' : Inv s')
    (ha : (s.pc a).crit = true) (he : Effect s s' (.run a x)) :
    s'.lock = none ∨ ((s'.pc a).crit = true ∧ todo s' (s'.pc a) < todo s (s.pc a)) := by
  have rel : (s'.pc a).crit = false → (∀ b, b ≠ a → (s'.pc b).crit = (s.pc b).crit) →
      s'.lock = none := by
    intro h1 h2
    cases hl : s'.lock with
    | none => rfl
    | some b =>
      have hb := (hi'.1.owned b).2 hl
      by_cases e : b = a
      · subst e; rw [h1] at hb; cases hb
      · rw [h2 b e, hi.crit_other ha e] at hb; cases hb
  have one : ∀ p, s'.pc = (setPc s a p).pc → s'.pc a = p ∧ ∀ b, b ≠ a → s'.pc b = s.pc b := by
    intro p e
    rw [e]; exact ⟨setPc_same _ _ _, fun b hb => setPc_other _ _ hb⟩
  generalize ho : Op.run a x = o at he
  cases he with
  | wait => cases ho
  | notify => cases ho
  | store => cases ho
  | @rouse _ _ _ _ late _ _ k => rw [k] at ho; cases late <;> cases ho
  | waitLock hp => cases ho; rw [hp] at ha; cases ha
  | equal hp e1 e2 e3 =>
    cases ho
    obtain ⟨h1, h2⟩ := one _ e1
    exact Or.inr ⟨by rw [h1]; rfl, by rw [h1, hp]; simp [todo]⟩
  | differs hp _ e1 e2 e3 =>
    cases ho
    obtain ⟨h1, h2⟩ := one _ e1
    exact Or.inl (rel (by rw [h1]; rfl) (fun b hb => by rw [h2 b hb]))
  | waitFind hp e1 e2 e3 =>
    cases ho
    obtain ⟨h1, h2⟩ := one _ e1
    exact Or.inr ⟨by rw [h1]; rfl, by rw [h1, hp]; simp [todo]⟩
  | add hp e1 e2 e3 =>
    cases ho
    obtain ⟨h1, h2⟩ := one _ e1
    exact Or.inl (rel (by rw [h1]; rfl) (fun b hb => by rw [h2 b hb]))
  | roused hp => cases ho; rw [hp] at ha; cases ha
  | leave hp e1 e2 e3 =>
    cases ho
    obtain ⟨h1, h2⟩ := one _ e1
    exact Or.inl (rel (by rw [h1]; rfl) (fun b hb => by rw [h2 b hb]))
  | noteLock hp => cases ho; rw [hp] at ha; cases ha
  | noteFind hp e1 e2 e3 =>
    cases ho
    obtain ⟨h1, h2⟩ := one _ e1
    exact Or.inr ⟨by rw [h1]; rfl, by rw [h1, hp]; simp [todo, e2]⟩
  | take hp hq hd hm e1 e2 e3 =>
    cases ho
    have h1 := e1 a
    rw [if_pos rfl] at h1
    refine Or.inr ⟨by rw [h1]; rfl, ?_⟩
    rw [h1, hp]
    simp [todo, e2, queue_snoc, queueStep, hq]
  | returns hp hend e1 e2 e3 =>
    cases ho
    obtain ⟨h1, h2⟩ := one _ e1
    exact Or.inl (rel (by rw [h1]; rfl) (fun b hb => by rw [h2 b hb]))

theorem release {a : Nat} : ∀ (k : Nat) {s : Sys}, Inv s → (∃ N, ∀ x, N ≤ x → s.live x = false) →
    (s.pc a).crit = true → todo s (s.pc a) < k →
    ∃ xs : List Nat, xs.length ≤ k ∧ ∃ s', exec s (xs.map (.run a ·)) = .next s' ∧ s'.lock = none
  | 0, _, _, _, _, h => by omega
  | k + 1, s, hi, hf, ha, hk => by
    obtain ⟨N, hN⟩ := hf
    have hns := not_stuck ha (hN N (Nat.le_refl _))
    rcases run_inv hi a N with h | ⟨s', h, hi'⟩
    · exact absurd h hns
    · have he := effect (o := .run a N) hi h
      rcases todo_step hi hi' ha he with hl | ⟨hc, ht⟩
      · exact ⟨[N], by simp, s', by simp only [List.map_cons, List.map_nil, exec, step, h], hl⟩
      · obtain ⟨xs, h1, s2, h2, h3⟩ := release k hi'
          (live_finite_step (o := .run a N) h ⟨N, hN⟩) hc (by omega)
        exact ⟨N :: xs, by simp; omega, s2, by simp only [List.map_cons, exec, step, h, h2], h3⟩

/-! ## Answers, if nothing happens at the same time as a notification -/

/-- The answers are right: "ok" exactly for those woken by a notification. -/
def Answers (t : List Event) : Prop :=
  ∀ t1 pos b late t2, t = t1 ++ .leave pos b late :: t2 → (late = false ↔ b ∉ queue pos t1)

theorem answers_snoc {t : List Event} {e : Event} (h : Answers t)
    (he : ∀ pos b late, e = .leave pos b late → (late = false ↔ b ∉ queue pos t)) :
    Answers (t ++ [e]) := by
  intro t1 pos b late t2 ht
  rcases List.eq_nil_or_concat t2 with rfl | ⟨t2', e', rfl⟩
  · obtain ⟨h1, h2⟩ := List.append_inj' ht rfl
    rw [List.singleton_inj] at h2
    subst h1
    exact he pos b late h2
  · rw [List.concat_eq_append, ← List.cons_append, ← List.append_assoc] at ht
    obtain ⟨h1, _⟩ := List.append_inj' ht rfl
    exact h t1 pos b late t2' h1

structure CalmInv (s : Sys) : Prop where
  awake : ∀ b pos w late, (s.pc b = .roused pos w late ∨ s.pc b = .leaving pos w late) →
    (late = false ↔ b ∉ queue pos s.trace)
  quiet : ∀ a, (s.pc a).notifies = true → ∀ b p w, s.pc b ≠ .roused p w true
  answers : Answers s.trace

theorem calm_step {s s' : Sys} {o : Op} (hi : Inv s) (hc : CalmInv s) (ho : Calm s o)
    (he : Effect s s' o) : CalmInv s' := by
  have pcs : ∀ {a : Nat} {p : Pc}, s'.pc = (setPc s a p).pc →
      (∀ pos w late, p ≠ .roused pos w late ∧ p ≠ .leaving pos w late) →
      p.notifies = false ∨ (s.pc a).notifies = true →
      (∀ b pos w late, (s.pc b = .roused pos w late ∨ s.pc b = .leaving pos w late) → b ≠ a →
        (b ∈ queue pos s'.trace ↔ b ∈ queue pos s.trace)) → Answers s'.trace → CalmInv s' := by
    intro a p e h1 h2 h3 h4
    refine ⟨?_, ?_, h4⟩
    · intro b pos w late hb
      rcases setPc_cases e b with ⟨_, k⟩ | ⟨hne, k⟩
      · rw [k] at hb
        rcases hb with hb | hb
        · exact absurd hb (h1 pos w late).1
        · exact absurd hb (h1 pos w late).2
      · rw [k] at hb
        rw [hc.awake b pos w late hb, h3 b pos w late hb hne]
    · intro d hd b pos w
      have hd' : ∃ d, (s.pc d).notifies = true := by
        rcases setPc_cases e d with ⟨_, k⟩ | ⟨_, k⟩
        · rw [k] at hd
          rcases h2 with h2 | h2
          · rw [h2] at hd; cases hd
          · exact ⟨a, h2⟩
        · rw [k] at hd; exact ⟨d, hd⟩
      obtain ⟨d', hd'⟩ := hd'
      rcases setPc_cases e b with ⟨_, k⟩ | ⟨_, k⟩
      · rw [k]; exact (h1 pos w true).1
      · rw [k]; exact hc.quiet d' hd' b pos w
  have ncrit : ∀ p : Pc, p.notifies = true → p.crit = true := by
    intro p hp; cases p <;> first | rfl | cases hp
  cases he with
  | wait hp e1 e2 e3 =>
    exact pcs e1 (by simp) (Or.inl rfl) (fun _ _ _ _ _ _ => by rw [e2]) (by rw [e2]; exact hc.answers)
  | notify hp e1 e2 e3 =>
    exact pcs e1 (by simp) (Or.inl rfl) (fun _ _ _ _ _ _ => by rw [e2]) (by rw [e2]; exact hc.answers)
  | store e1 e2 e3 =>
    refine ⟨?_, ?_, by rw [e2]; exact hc.answers⟩
    · rw [e1, e2]; exact hc.awake
    · rw [e1]; exact hc.quiet
  | @rouse a pos w t late _ hp ho' hlt e1 e2 e3 =>
    have hlate : late = true := by
      cases late with
      | true => rfl
      | false => exact absurd ho' (ho.2.1 a)
    subst hlate
    have hno := ho.2.2.1 a ho'
    refine ⟨?_, ?_, by rw [e2]; exact hc.answers⟩
    · intro b p w' late hb
      rw [e2]
      rcases setPc_cases e1 b with ⟨e, k⟩ | ⟨_, k⟩
      · subst e
        rw [k] at hb
        rcases hb with hb | hb
        · cases hb
          have := hi.asleep_queue hp
          simp [this]
        · cases hb
      · rw [k] at hb; exact hc.awake b p w' late hb
    · intro d hd
      have : (s.pc d).notifies = true := by
        rcases setPc_cases e1 d with ⟨_, k⟩ | ⟨_, k⟩
        · rw [k] at hd; cases hd
        · rw [k] at hd; exact hd
      rw [hno d] at this; cases this
  | waitLock hp hl e1 e2 e3 =>
    exact pcs e1 (by simp) (Or.inl rfl) (fun _ _ _ _ _ _ => by rw [e2]) (by rw [e2]; exact hc.answers)
  | equal hp e1 e2 e3 =>
    exact pcs e1 (by simp) (Or.inl rfl) (fun _ _ _ _ _ _ => by rw [e2]) (by rw [e2]; exact hc.answers)
  | differs hp _ e1 e2 e3 =>
    exact pcs e1 (by simp) (Or.inl rfl) (fun _ _ _ _ _ _ => by rw [e2, queue_snoc]; rfl)
      (by rw [e2]; exact answers_snoc hc.answers (by simp))
  | waitFind hp e1 e2 e3 =>
    exact pcs e1 (by simp) (Or.inl rfl) (fun _ _ _ _ _ _ => by rw [e2]) (by rw [e2]; exact hc.answers)
  | add hp e1 e2 e3 =>
    refine pcs e1 (by simp) (Or.inl rfl) (fun b q _ _ _ hne => ?_)
      (by rw [e2]; exact answers_snoc hc.answers (by simp))
    rw [e2, queue_snoc]
    simp only [queueStep]
    split
    · simp [hne]
    · rfl
  | @roused a x pos w late hp hl e1 e2 e3 =>
    refine ⟨?_, ?_, by rw [e2]; exact hc.answers⟩
    · intro b p w' late' hb
      rw [e2]
      rcases setPc_cases e1 b with ⟨e, k⟩ | ⟨_, k⟩
      · subst e
        rw [k] at hb
        rcases hb with hb | hb
        · cases hb
        · cases hb; exact hc.awake b pos w late (Or.inl hp)
      · rw [k] at hb; exact hc.awake b p w' late' hb
    · intro d hd
      have hd' : (s.pc d).notifies = true := by
        rcases setPc_cases e1 d with ⟨_, k⟩ | ⟨_, k⟩
        · rw [k] at hd; cases hd
        · rw [k] at hd; exact hd
      have := hi.free hl d
      rw [ncrit _ hd'] at this; cases this
  | @leave a x pos w late hp e1 e2 e3 =>
    refine pcs e1 (by simp) (Or.inl rfl) (fun b q _ _ _ hne => ?_) ?_
    · rw [e2, queue_snoc]
      simp only [queueStep]
      split
      · rw [List.mem_erase_of_ne hne]
      · rfl
    · rw [e2]
      refine answers_snoc hc.answers (fun p b l h => ?_)
      simp only [Event.leave.injEq] at h
      obtain ⟨rfl, rfl, rfl⟩ := h
      exact hc.awake _ _ w _ (Or.inr hp)
  | @noteLock a x pos c hp hl e1 e2 e3 =>
    have hno := ho.2.2.2 a x pos c rfl hp
    refine ⟨?_, ?_, by rw [e2]; exact answers_snoc hc.answers (by simp)⟩
    · intro b p w' late' hb
      rw [e2, queue_snoc]
      rcases setPc_cases e1 b with ⟨e, k⟩ | ⟨_, k⟩
      · rw [k] at hb; simp at hb
      · rw [k] at hb; exact hc.awake b p w' late' hb
    · intro d hd b p w'
      rcases setPc_cases e1 b with ⟨e, k⟩ | ⟨_, k⟩
      · rw [k]; simp
      · rw [k]; exact hno b p w'
  | noteFind hp e1 e2 e3 =>
    exact pcs e1 (by simp) (Or.inr (by rw [hp]; rfl)) (fun _ _ _ _ _ _ => by rw [e2])
      (by rw [e2]; exact hc.answers)
  | @take a x pos h n c d q hp hq hd hm e1 e2 e3 =>
    have ha : (s.pc a).crit = true := by rw [hp]; rfl
    have hnq : d ∉ q := by
      have := hi.queue_nodup pos
      rw [hq, List.nodup_cons] at this; exact this.1
    have hdq : d ∈ queue pos s.trace := by rw [hq]; simp
    -- the agent taken is asleep
    have hsl : ∃ w t, s.pc d = .asleep pos w t := by
      obtain ⟨w, hw⟩ := hi.queue_node hdq
      cases hpd : s.pc d with
      | asleep p w' t => rw [hpd] at hw; cases hw; exact ⟨w, t, rfl⟩
      | roused p w' late =>
        rw [hpd] at hw; cases hw
        cases late with
        | true => exact absurd hpd (hc.quiet a (by rw [hp]; rfl) d pos w)
        | false => exact absurd hdq ((hc.awake d pos w false (Or.inl hpd)).1 rfl)
      | leaving p w' late =>
        have := hi.crit_other ha hd
        rw [hpd] at this; cases this
      | _ => rw [hpd] at hw; cases hw
    obtain ⟨w, t, hsl⟩ := hsl
    have hq' : ∀ p, queue p s'.trace = if pos = p then (queue p s.trace).erase d else queue p s.trace := by
      intro p; rw [e2, queue_snoc]; rfl
    refine ⟨?_, ?_, by rw [e2]; exact answers_snoc hc.answers (by simp)⟩
    · intro b p w' late' hb
      rw [e1] at hb
      split at hb
      · simp at hb
      · split at hb
        · next e =>
          subst e
          rw [hsl] at hb
          simp only [Pc.rouse, Pc.roused.injEq, reduceCtorEq, or_false] at hb
          obtain ⟨rfl, rfl, rfl⟩ := hb
          rw [hq', if_pos rfl, hq]
          simp [hnq]
        · next hne =>
          rw [hc.awake b p w' late' hb, hq']
          split
          · rw [List.mem_erase_of_ne hne]
          · rfl
    · intro d' _ b p w' hb
      rw [e1] at hb
      split at hb
      · cases hb
      · split at hb
        · next e => subst e; rw [hsl] at hb; simp [Pc.rouse] at hb
        · exact hc.quiet a (by rw [hp]; rfl) b p w' hb
  | returns hp hend e1 e2 e3 =>
    exact pcs e1 (by simp) (Or.inl rfl) (fun _ _ _ _ _ _ => by rw [e2, queue_snoc]; rfl)
      (by rw [e2]; exact answers_snoc hc.answers (by simp))

theorem Run.calm {s : Sys} (h : Run Calm s) : Inv s ∧ CalmInv s := by
  induction h with
  | start h mem =>
    refine ⟨⟨ctl_start h mem, _, core_start h mem⟩, ?_, ?_, ?_⟩
    · intro b pos w late hb; simp [Waiter.start] at hb
    · intro a ha; simp [Waiter.start, Pc.notifies] at ha
    · intro t1 pos b late t2 ht; simp [Waiter.start] at ht
  | step _ hp he ih =>
    exact ⟨ih.1.stepNext hp.1 he, calm_step ih.1 ih.2 hp (effect ih.1 he)⟩

end Verif.Waiter

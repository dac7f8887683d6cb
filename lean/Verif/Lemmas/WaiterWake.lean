import Verif.Lemmas.WaiterRun
/-
Lemmas about waiting and waking: who is in the lists, and what a step does, in terms of the control
and of the events only.
-/
namespace Verif.Waiter
open LinkedList

namespace Inv
variable {s : Sys}

/-- The agents in the list of a position are in `wait` at that position. -/
theorem queue_node (hi : Inv s) {p b : Nat} (hb : b ∈ queue p s.trace) :
    ∃ w, (s.pc b).node = some (p, w) := by
  obtain ⟨_, m, co⟩ := hi
  by_cases hl : ∃ h, (p, h) ∈ s.lists
  · obtain ⟨h, hl⟩ := hl
    obtain ⟨ns, hm, hq, hn⟩ := co.heads p h hl
    rw [← hq] at hb
    obtain ⟨w, hw, rfl⟩ := List.mem_map.1 hb
    exact ⟨w, hn w hw⟩
  · rw [co.empty p (fun h hh => hl ⟨h, hh⟩)] at hb; cases hb

theorem queue_nodup (hi : Inv s) (p : Nat) : (queue p s.trace).Nodup := by
  obtain ⟨_, m, co⟩ := hi
  by_cases hl : ∃ h, (p, h) ∈ s.lists
  · obtain ⟨h, hl⟩ := hl
    obtain ⟨ns, hm, hq, hn⟩ := co.heads p h hl
    rw [← hq]
    have hnd : ns.Nodup := (List.nodup_cons.1 (co.rel.nodup h ns hm)).2
    refine List.pairwise_map.2 (List.Pairwise.imp_of_mem ?_ hnd)
    intro x y hx hy hxy e
    have h1 := hn x hx
    have h2 := hn y hy
    rw [e, h2] at h1
    cases h1; exact hxy rfl
  · rw [co.empty p (fun h hh => hl ⟨h, hh⟩)]; exact List.nodup_nil

theorem asleep_queue (hi : Inv s) {p b w : Nat} {t : Option Nat} (hb : s.pc b = .asleep p w t) :
    b ∈ queue p s.trace := by
  obtain ⟨_, m, co⟩ := hi
  obtain ⟨_, ho, _, h4⟩ := co.node b p w (by rw [hb]; rfl)
  rcases h4 with ⟨h, ns, k1, k2, k3⟩ | ⟨k1, _⟩
  · rw [← (co.listed k1 k2).1, ← ho]
    exact List.mem_map_of_mem k3
  · rw [hb] at k1; cases k1

end Inv

theorem find_pc {s s' : Sys} {pos x h : Nat} (hf : find s pos x = some (s', h)) :
    s'.pc = s.pc ∧ s'.lock = s.lock ∧ s'.trace = s.trace ∧ s'.mem = s.mem := by
  unfold find at hf
  split at hf
  · cases hf; exact ⟨rfl, rfl, rfl, rfl⟩
  · split at hf
    · cases hf
    · cases hf; exact ⟨rfl, rfl, rfl, rfl⟩

/-- What a step does to the control, the events and the memory. -/
inductive Effect (s s' : Sys) : Op → Prop
  | wait {a pos v t} : s.pc a = .idle → s'.pc = (setPc s a (.waitLock pos v t)).pc →
      s'.trace = s.trace → s'.mem = s.mem → Effect s s' (.wait a pos v t)
  | notify {a pos c} : s.pc a = .idle → s'.pc = (setPc s a (.noteLock pos c)).pc →
      s'.trace = s.trace → s'.mem = s.mem → Effect s s' (.notify a pos c)
  | store {pos v} : s'.pc = s.pc → s'.trace = s.trace →
      s'.mem = (fun x => if x = pos then v else s.mem x) → Effect s s' (.store pos v)
  | rouse {a pos w t late o} : s.pc a = .asleep pos w t →
      o = (if late then Op.timer a else .spurious a) → (late = true → t ≠ none) →
      s'.pc = (setPc s a (.roused pos w late)).pc →
      s'.trace = s.trace → s'.mem = s.mem → Effect s s' o
  | waitLock {a x pos v t} : s.pc a = .waitLock pos v t → s.lock = none →
      s'.pc = (setPc s a (.waitRead pos v t)).pc →
      s'.trace = s.trace → s'.mem = s.mem → Effect s s' (.run a x)
  | equal {a x pos t} : s.pc a = .waitRead pos (s.mem pos) t →
      s'.pc = (setPc s a (.waitFind pos t)).pc →
      s'.trace = s.trace → s'.mem = s.mem → Effect s s' (.run a x)
  | differs {a x pos v t} : s.pc a = .waitRead pos v t → s.mem pos ≠ v →
      s'.pc = (setPc s a .idle).pc →
      s'.trace = s.trace ++ [.differs pos a] → s'.mem = s.mem → Effect s s' (.run a x)
  | waitFind {a x pos h t} : s.pc a = .waitFind pos t →
      s'.pc = (setPc s a (.waitAdd pos h t)).pc →
      s'.trace = s.trace → s'.mem = s.mem → Effect s s' (.run a x)
  | add {a x pos h t w} : s.pc a = .waitAdd pos h t →
      s'.pc = (setPc s a (.asleep pos w t)).pc →
      s'.trace = s.trace ++ [.enter pos a] → s'.mem = s.mem → Effect s s' (.run a x)
  | roused {a x pos w late} : s.pc a = .roused pos w late → s.lock = none →
      s'.pc = (setPc s a (.leaving pos w late)).pc →
      s'.trace = s.trace → s'.mem = s.mem → Effect s s' (.run a x)
  | leave {a x pos w late} : s.pc a = .leaving pos w late →
      s'.pc = (setPc s a .idle).pc →
      s'.trace = s.trace ++ [.leave pos a late] → s'.mem = s.mem → Effect s s' (.run a x)
  | noteLock {a x pos c} : s.pc a = .noteLock pos c → s.lock = none →
      s'.pc = (setPc s a (.noteFind pos c)).pc →
      s'.trace = s.trace ++ [.begins a pos c] → s'.mem = s.mem → Effect s s' (.run a x)
  | noteFind {a x pos c h} : s.pc a = .noteFind pos c →
      s'.pc = (setPc s a (.noteLoop pos h 0 c)).pc →
      s'.trace = s.trace → s'.mem = s.mem → Effect s s' (.run a x)
  | take {a x pos h n c b q} : s.pc a = .noteLoop pos h n c → queue pos s.trace = b :: q → b ≠ a →
      more n c = true →
      (∀ d, s'.pc d = if d = a then .noteLoop pos h (n + 1) c
        else if d = b then (s.pc d).rouse false else s.pc d) →
      s'.trace = s.trace ++ [.wakes a pos b] → s'.mem = s.mem → Effect s s' (.run a x)
  | returns {a x pos h n c} : s.pc a = .noteLoop pos h n c →
      (more n c = false ∨ queue pos s.trace = []) →
      s'.pc = (setPc s a .idle).pc →
      s'.trace = s.trace ++ [.returns a pos n] → s'.mem = s.mem → Effect s s' (.run a x)

theorem signal_mem (s : Sys) (w : Nat) : (signal s w).mem = s.mem := by
  unfold signal; split <;> rfl

theorem effect {s s' : Sys} {o : Op} (hi : Inv s) (he : step s o = .next s') : Effect s s' o := by
  obtain ⟨ct, m, co⟩ := hi
  cases o with
  | wait a pos v t =>
    simp only [step] at he
    split at he
    · next hp => cases he; exact .wait hp rfl rfl rfl
    · cases he
  | notify a pos c =>
    simp only [step] at he
    split at he
    · next hp => cases he; exact .notify hp rfl rfl rfl
    · cases he
  | store pos v => cases he; exact .store rfl rfl rfl
  | timer a =>
    simp only [step, rouse] at he
    split at he
    · next pos w t hp =>
      split at he
      · cases he
      · next hk =>
        cases he
        exact .rouse (late := true) hp rfl (fun _ k => hk ⟨trivial, k⟩) rfl rfl rfl
    · cases he
  | spurious a =>
    simp only [step, rouse] at he
    split at he
    · next pos w t hp =>
      split at he
      · cases he
      · next hk =>
        cases he
        exact .rouse (late := false) hp rfl (fun k => by cases k) rfl rfl rfl
    · cases he
  | run a x =>
    simp only [step, run] at he
    cases hp : s.pc a with
    | idle => simp only [hp] at he; cases he
    | asleep => simp only [hp] at he; cases he
    | waitLock pos v t =>
      simp only [hp, acquire] at he
      split at he
      · next hl => cases he; exact .waitLock hp hl rfl rfl rfl
      · cases he
    | waitRead pos v t =>
      simp only [hp] at he
      split at he
      · next hv => cases he; subst hv; exact .equal hp rfl rfl rfl
      · next hv => cases he; exact .differs hp hv rfl rfl rfl
    | waitFind pos t =>
      simp only [hp] at he
      cases hf : find s pos x with
      | none => rw [hf] at he; cases he
      | some r =>
        obtain ⟨s1, h⟩ := r
        rw [hf] at he; cases he
        obtain ⟨h1, h2, h3, h4⟩ := find_pc hf
        refine .waitFind (h := h) hp ?_ h3 h4
        simp only [setPc, h1]
    | waitAdd pos h t =>
      simp only [hp, add] at he
      split at he
      · cases he
      · split at he
        · cases he
        · split at he
          · cases he
          · cases he; exact .add hp rfl rfl rfl
    | roused pos w late =>
      simp only [hp, acquire] at he
      split at he
      · next hl => cases he; exact .roused hp hl rfl rfl rfl
      · cases he
    | leaving pos w late =>
      simp only [hp, leave] at he
      split at he
      · cases he
      · split at he
        · cases he
        · cases he; exact .leave hp rfl rfl rfl
    | noteLock pos c =>
      simp only [hp, acquire] at he
      cases hl : s.lock with
      | none => rw [hl] at he; cases he; exact .noteLock hp hl rfl rfl rfl
      | some b => rw [hl] at he; cases he
    | noteFind pos c =>
      simp only [hp] at he
      cases hf : find s pos x with
      | none => rw [hf] at he; cases he
      | some r =>
        obtain ⟨s1, h⟩ := r
        rw [hf] at he; cases he
        obtain ⟨h1, h2, h3, h4⟩ := find_pc hf
        refine .noteFind (h := h) hp ?_ h3 h4
        simp only [setPc, h1]
    | noteLoop pos h n c =>
      have hh : (pos, h) ∈ s.lists := co.head a pos h (by rw [hp]; rfl)
      obtain ⟨ns, hm, hq, hn⟩ := co.heads pos h hh
      have hs := co.rel.seg h ns hm
      have hemp := isEmpty_iff hs (co.rel.nodup h ns hm)
      simp only [hp, loop] at he
      split at he
      · cases he
      · split at he
        · next hmo =>
          cases ns with
          | nil => exact absurd (hemp.2 rfl) hmo.2
          | cons w ns =>
            have hnx : s.heap.next h = w := hs.1
            rw [hnx] at he
            split at he
            · cases he
            · cases he
              have hwn := hn w (by simp)
              have hne : s.owner w ≠ a := by
                intro e; rw [e, hp] at hwn; simp [Pc.node] at hwn
              exact .take hp (b := s.owner w) (q := ns.map s.owner) hq.symm hne hmo.1
                (fun d => co.taken_pc hwn d) (Core.taken_trace s a pos h n w c) (signal_mem _ _)
        · next hmo =>
          cases he
          refine .returns hp ?_ rfl rfl rfl
          cases hk : more n c with
          | false => exact Or.inl rfl
          | true =>
            right
            rw [hk] at hmo
            have he : isEmpty s.heap h = true := by simpa using hmo
            rw [← hq, hemp.1 he]; rfl

end Verif.Waiter

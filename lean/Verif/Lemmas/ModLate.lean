import Verif.Model.ModLate

/-! Helper lemmas for C99 with late answers. -/

namespace Verif.ModLate

open Verif.ModLoad (Host upd)

/-- The counter counts the answers to come; `c`: the calls so far. -/
def Count (c : List Bool) (s : S) : Prop := s.wait = s.pending.length ∧ s.settled = c

theorem count_lookup {c : List Bool} {s : S} (t : Nat) (h : Count c s) : Count c (lookup t s) := by
  unfold lookup
  split <;> exact h

theorem count_requests {c : List Bool} {f : Nat → S → Option S}
    (hf : ∀ m s s', Count c s → f m s = some s' → Count c s') (m : Nat) :
    ∀ (rs : List (Option Nat)) (s s' : S), Count c s → requests f m rs s = some s' → Count c s'
  | [], s, s', h, he => by simp only [requests, Option.some.injEq] at he; exact he ▸ h
  | none :: _, s, s', h, he => by simp only [requests, Option.some.injEq] at he; exact he ▸ h
  | some t :: rs, s, s', h, he => by
    rw [requests] at he
    split at he
    · cases he
    · rename_i s3 h3
      have hc : Count c { lookup t s with filled := upd (lookup t s).filled m ((lookup t s).filled m ++ [t]) } :=
        count_lookup t h
      exact count_requests hf m rs s3 s' (hf _ _ _ hc h3) he

theorem count_add {H : Host} {c : List Bool} : ∀ (n m : Nat) (s s' : S), Count c s → add H n m s = some s' → Count c s'
  | 0, _, _, _, _, he => by simp [add] at he
  | n + 1, m, s, s', h, he => by
    rw [add] at he
    have run : ∀ s', (requests (add H n) m (H.reqs m) { s with hash := m :: s.hash, st := upd s.st m .requested }).map
        (fun s => { s with list := s.list ++ [m] }) = some s' → Count c s' := by
      intro s' he
      simp only [Option.map_eq_some_iff] at he
      obtain ⟨s1, h1, rfl⟩ := he
      have hc : Count c { s with hash := m :: s.hash, st := upd s.st m .requested } := h
      have := count_requests (fun m s s' => count_add n m s s') m _ _ _ hc h1
      exact this
    split at he
    · simp only [Option.some.injEq] at he; exact he ▸ h
    · simp only at he
      cases hs : s.st m <;> rw [hs] at he <;> simp only [Option.some.injEq] at he
      case allocated =>
        subst he
        exact ⟨by simp [h.1], h.2⟩
      case loaded => exact run s' he
      case requested => exact run s' he
      all_goals (subst he; exact h)

theorem unlinkAll_keep : ∀ (l : List Nat) (s : S), (unlinkAll l s).wait = s.wait ∧ (unlinkAll l s).pending = s.pending
  | [], _ => ⟨rfl, rfl⟩
  | m :: l, s => unlinkAll_keep l { s with st := upd s.st m .unlinked }

/-- Settled once if nothing is to come, not at all before. -/
def Settled (s : S) : Prop :=
  s.wait = s.pending.length ∧ (s.pending = [] → s.settled.length = 1) ∧ (s.pending ≠ [] → s.settled = [])

theorem settled_result {H : Host} {s : S} (h : Count [] s) : Settled (result H s) := by
  unfold result
  split
  · rename_i hw
    obtain ⟨k1, k2⟩ := unlinkAll_keep s.list s
    have hp : s.pending = [] := List.length_eq_zero_iff.1 (by rw [← h.1]; exact hw)
    exact ⟨by simp only [k1, k2]; exact h.1, fun _ => by simp [h.2], fun hn => absurd (by simp only [k2]; exact hp) hn⟩
  · rename_i hw
    exact ⟨h.1, fun hp => absurd (by rw [h.1, hp]; rfl) hw, fun _ => h.2⟩

theorem settled_start {H : Host} {n root : Nat} {s : S} (h : start H n root = some s) : Settled s := by
  unfold start at h
  simp only [Option.map_eq_some_iff] at h
  obtain ⟨s1, h1, rfl⟩ := h
  exact settled_result (count_add n root _ s1 ⟨rfl, rfl⟩ h1)

theorem settled_answer {H : Host} {n t : Nat} {a : Answer} {s s' : S} (h : Settled s)
    (he : answer H n t a s = some s') : Settled s' := by
  unfold answer at he
  split at he
  · rename_i ht
    have hne : s.pending ≠ [] := fun e => by rw [e] at ht; simp at ht
    have hc : ∀ g, Count [] { s with wait := s.wait - 1, pending := s.pending.erase t, st := g } := fun g =>
      ⟨by simp only [List.length_erase_of_mem ht, h.1], h.2.2 hne⟩
    simp only at he
    cases a with
    | ok =>
      simp only [Option.map_eq_some_iff] at he
      obtain ⟨s1, h1, rfl⟩ := he
      exact settled_result (count_requests (fun m s s' => count_add n m s s') t _ _ _ (hc _) h1)
    | failed =>
      simp only [Option.some.injEq] at he
      subst he
      exact settled_result (hc _)
    | refused =>
      simp only [Option.some.injEq] at he
      subst he
      exact settled_result (hc _)
  · simp only [Option.some.injEq] at he
    exact he ▸ h

end Verif.ModLate

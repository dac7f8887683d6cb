import Verif.Spec.GC
import Mathlib.Data.List.Nodup
/-
The mark and sweep phases: helper lemmas.
-/
namespace Verif.GC
open Spec

/-- Reachable in a heap through strong references. -/
def Live (h : Heap) (t : Nat) : Prop := Reach (fun x => (h.body x).refs) h.roots t

/-- The number of things not marked yet. -/
def unmarked (h : Heap) (f : Nat → Bool) : Nat := h.list.countP fun x => !f x

theorem countP_setBit {l : List Nat} {f : Nat → Bool} {t : Nat} (hn : l.Nodup) (ht : t ∈ l)
    (hf : f t = false) :
    l.countP (fun x => !setBit f t x) + 1 = l.countP fun x => !f x := by
  induction l with
  | nil => simp at ht
  | cons a l ih =>
    rw [List.nodup_cons] at hn
    by_cases ha : a = t
    · subst ha
      have : l.countP (fun x => !setBit f a x) = l.countP fun x => !f x := by
        apply List.countP_congr
        intro x hx
        have : x ≠ a := fun h => hn.1 (h ▸ hx)
        simp [setBit, this]
      rw [List.countP_cons_of_neg (by simp [setBit]), List.countP_cons_of_pos (by simp [hf]), this]
    · have ht' : t ∈ l := by
        rcases List.mem_cons.1 ht with h | h
        · exact absurd h.symm ha
        · exact h
      have := ih hn.2 ht'
      rw [List.countP_cons, List.countP_cons]
      simp only [setBit, ha, if_false]
      simp only [setBit] at this
      omega

/-- Progress from one marking state to another. -/
structure Adv (h : Heap) (s s' : MS) : Prop where
  mono : ∀ t, s.marked t = true → s'.marked t = true
  cnt : unmarked h s'.marked ≤ unmarked h s.marked
  meas : 2 * unmarked h s'.marked + s'.stack.length ≤ 2 * unmarked h s.marked + s.stack.length
  full : s'.full = true → s.full = true ∨ unmarked h s'.marked < unmarked h s.marked

theorem Adv.refl (h : Heap) (s : MS) : Adv h s s :=
  ⟨fun _ h => h, Nat.le_refl _, Nat.le_refl _, Or.inl⟩

theorem Adv.trans {h : Heap} {a b c : MS} (x : Adv h a b) (y : Adv h b c) : Adv h a c := by
  refine ⟨fun t ht => y.mono t (x.mono t ht), Nat.le_trans y.cnt x.cnt,
    Nat.le_trans y.meas x.meas, fun hf => ?_⟩
  have := x.cnt; have := y.cnt
  rcases y.full hf with h1 | h1
  · rcases x.full h1 with h2 | h2
    · exact .inl h2
    · right; omega
  · right; omega

/-- Invariant of the mark phase; `Q`: the things being scanned right now, `P`: the marked
things which wait for the loop over the thing list. -/
structure MI (h : Heap) (Q P : Nat → Prop) (s : MS) : Prop where
  ml : ∀ t, s.marked t = true → t ∈ h.list ∧ Live h t
  sc : ∀ t, s.scanned t = true → s.marked t = true
  scr : ∀ t, s.scanned t = true → Q t ∨ ∀ u ∈ (h.body t).refs, s.marked u = true
  st : ∀ t ∈ s.stack, s.marked t = true
  cov : ∀ t, s.marked t = true → s.scanned t = true ∨ t ∈ s.stack ∨ s.full = true ∨ P t
  cnt : s.stack.length + unmarked h s.marked ≤ h.list.length

theorem mark_spec {h : Heap} {Q P : Nat → Prop} {s : MS} {cap : Nat} {t : Nat} (hn : h.list.Nodup)
    (hi : MI h Q P s) (ht : t ∈ h.list) (hl : Live h t) :
    ∃ s', mark h.list cap s t = some s' ∧ MI h Q P s' ∧ Adv h s s' ∧ s'.marked t = true ∧
      s'.scanned = s.scanned := by
  unfold mark
  rw [if_neg (by simpa using ht)]
  by_cases hm : s.marked t = true
  · rw [if_pos hm]
    exact ⟨s, rfl, hi, Adv.refl h s, hm, rfl⟩
  · rw [if_neg hm]
    have hf : s.marked t = false := by simpa using hm
    have hc := countP_setBit hn ht hf
    have hmono : ∀ x, s.marked x = true → setBit s.marked t x = true := by
      intro x hx; simp [setBit, hx]
    have hself : setBit s.marked t t = true := by simp [setBit]
    have hor : ∀ x, setBit s.marked t x = true → x = t ∨ s.marked x = true := by
      intro x hx
      by_cases hxt : x = t
      · exact .inl hxt
      · right; simpa [setBit, hxt] using hx
    have hcnt := hi.cnt
    simp only
    split
    · refine ⟨_, rfl, ⟨?_, ?_, ?_, ?_, ?_, ?_⟩, ⟨hmono, ?_, ?_, ?_⟩, hself, rfl⟩
      · intro x hx
        rcases hor x hx with rfl | hx
        · exact ⟨ht, hl⟩
        · exact hi.ml x hx
      · intro x hx; exact hmono _ (hi.sc x hx)
      · intro x hx
        exact (hi.scr x hx).imp id fun h u hu => hmono _ (h u hu)
      · intro x hx
        rcases List.mem_cons.1 hx with rfl | hx
        · exact hself
        · exact hmono _ (hi.st x hx)
      · intro x hx
        rcases hor x hx with rfl | hx
        · exact .inr (.inl List.mem_cons_self)
        · rcases hi.cov x hx with h | h | h | h
          · exact .inl h
          · exact .inr (.inl (List.mem_cons_of_mem _ h))
          · exact .inr (.inr (.inl h))
          · exact .inr (.inr (.inr h))
      · simp only [unmarked, List.length_cons] at *; omega
      · simp only [unmarked] at *; omega
      · simp only [unmarked, List.length_cons] at *; omega
      · intro h; exact .inl h
    · refine ⟨_, rfl, ⟨?_, ?_, ?_, ?_, ?_, ?_⟩, ⟨hmono, ?_, ?_, ?_⟩, hself, rfl⟩
      · intro x hx
        rcases hor x hx with rfl | hx
        · exact ⟨ht, hl⟩
        · exact hi.ml x hx
      · intro x hx; exact hmono _ (hi.sc x hx)
      · intro x hx
        exact (hi.scr x hx).imp id fun h u hu => hmono _ (h u hu)
      · intro x hx; exact hmono _ (hi.st x hx)
      · intro x hx; exact .inr (.inr (.inl rfl))
      · simp only [unmarked] at *; omega
      · simp only [unmarked] at *; omega
      · simp only [unmarked] at *; omega
      · intro _; right; simp only [unmarked] at *; omega

theorem markAll_spec {h : Heap} {Q P : Nat → Prop} {cap : Nat} (hn : h.list.Nodup) :
    ∀ (ts : List Nat) (s : MS), MI h Q P s → (∀ t ∈ ts, t ∈ h.list ∧ Live h t) →
    ∃ s', markAll h.list cap ts s = some s' ∧ MI h Q P s' ∧ Adv h s s' ∧
      (∀ t ∈ ts, s'.marked t = true) ∧ s'.scanned = s.scanned
  | [], s, hi, _ => ⟨s, rfl, hi, Adv.refl h s, by simp, rfl⟩
  | t :: ts, s, hi, hts => by
    obtain ⟨s1, h1, h2, h3, h4, h5⟩ := mark_spec (cap := cap) hn hi
      (hts t List.mem_cons_self).1 (hts t List.mem_cons_self).2
    obtain ⟨s2, g1, g2, g3, g4, g5⟩ := markAll_spec (cap := cap) hn ts s1 h2
      fun u hu => hts u (List.mem_cons_of_mem _ hu)
    refine ⟨s2, by simp [markAll, h1, g1], g2, h3.trans g3, ?_, g5.trans h5⟩
    intro u hu
    rcases List.mem_cons.1 hu with rfl | hu
    · exact g3.mono _ h4
    · exact g4 u hu

/-- Scanning a marked thing. -/
theorem scan_spec {h : Heap} {P P' : Nat → Prop} {cap : Nat} (hn : h.list.Nodup)
    (hr : ∀ t ∈ h.list, ∀ u ∈ (h.body t).refs, u ∈ h.list) {s : MS} {t : Nat}
    (hm : s.marked t = true)
    (hi : MI h (fun _ => False) P s) (hP : ∀ x, P x → x = t ∨ P' x) :
    ∃ s', scan h cap s t = some s' ∧ MI h (fun _ => False) P' s' ∧ Adv h s s' := by
  obtain ⟨hl, hlive⟩ := hi.ml t hm
  unfold scan
  rw [if_neg (by simpa using hl)]
  have hbit : ∀ x, setBit s.scanned t x = true → x = t ∨ s.scanned x = true := by
    intro x hx
    by_cases hxt : x = t
    · exact .inl hxt
    · right; simpa [setBit, hxt] using hx
  have hi1 : MI h (fun x => x = t) P' { s with scanned := setBit s.scanned t } := by
    refine ⟨hi.ml, ?_, ?_, hi.st, ?_, hi.cnt⟩
    · intro x hx
      rcases hbit x hx with rfl | hx
      · exact hm
      · exact hi.sc x hx
    · intro x hx
      rcases hbit x hx with rfl | hx
      · exact .inl rfl
      · rcases hi.scr x hx with h | h
        · exact h.elim
        · exact .inr h
    · intro x hx
      rcases hi.cov x hx with h | h | h | h
      · exact .inl (by simp [setBit, h])
      · exact .inr (.inl h)
      · exact .inr (.inr (.inl h))
      · rcases hP x h with rfl | h
        · exact .inl (by simp [setBit])
        · exact .inr (.inr (.inr h))
  obtain ⟨s', h1, h2, h3, h4, h5⟩ := markAll_spec (cap := cap) hn (h.body t).refs _ hi1
    fun u hu => ⟨hr t hl u hu, Reach.step hlive hu⟩
  refine ⟨s', h1, ⟨h2.ml, h2.sc, ?_, h2.st, h2.cov, h2.cnt⟩, ⟨h3.mono, h3.cnt, h3.meas, h3.full⟩⟩
  intro x hx
  rcases h2.scr x hx with rfl | h
  · exact .inr h4
  · exact .inr h

theorem drain_spec {h : Heap} {cap : Nat} (hn : h.list.Nodup)
    (hr : ∀ t ∈ h.list, ∀ u ∈ (h.body t).refs, u ∈ h.list) :
    ∀ (fuel : Nat) (s : MS), MI h (fun _ => False) (fun _ => False) s →
    2 * unmarked h s.marked + s.stack.length ≤ fuel →
    ∃ s', drain h cap fuel s = some s' ∧ MI h (fun _ => False) (fun _ => False) s' ∧
      Adv h s s' ∧ s'.stack = []
  | fuel, s, hi, hf => by
    cases hst : s.stack with
    | nil => exact ⟨s, by rw [drain.eq_def]; simp [hst], hi, Adv.refl h s, hst⟩
    | cons t ts =>
      cases fuel with
      | zero => simp [hst] at hf
      | succ fuel =>
        have hi0 : MI h (fun _ => False) (fun x => x = t) { s with stack := ts } := by
          refine ⟨hi.ml, hi.sc, hi.scr, ?_, ?_, ?_⟩
          · intro x hx; exact hi.st x (by rw [hst]; exact List.mem_cons_of_mem _ hx)
          · intro x hx
            rcases hi.cov x hx with h | h | h | h
            · exact .inl h
            · rw [hst] at h
              rcases List.mem_cons.1 h with h | h
              · exact .inr (.inr (.inr h))
              · exact .inr (.inl h)
            · exact .inr (.inr (.inl h))
            · exact h.elim
          · have := hi.cnt; rw [hst] at this; simp only [List.length_cons] at *; omega
        obtain ⟨s1, h1, h2, h3⟩ := scan_spec (P' := fun _ => False) (cap := cap) hn hr
          (s := { s with stack := ts }) (t := t)
          (hi.st t (by rw [hst]; exact List.mem_cons_self)) hi0 fun x hx => .inl hx
        have hm := h3.meas
        rw [hst] at hf
        simp only [List.length_cons] at hf hm
        obtain ⟨s2, g1, g2, g3, g4⟩ := drain_spec (cap := cap) hn hr fuel s1 h2 (by omega)
        refine ⟨s2, ?_, g2, ?_, g4⟩
        · rw [drain.eq_def]; simp [hst, h1, g1]
        · refine Adv.trans ⟨h3.mono, h3.cnt, ?_, h3.full⟩ g3
          rw [hst]; simp only [List.length_cons]; omega

theorem rescan_spec {h : Heap} {cap : Nat} (hn : h.list.Nodup)
    (hr : ∀ t ∈ h.list, ∀ u ∈ (h.body t).refs, u ∈ h.list) :
    ∀ (l : List Nat) (s : MS), MI h (fun _ => False) (fun x => x ∈ l) s →
    ∃ s', rescan h cap l s = some s' ∧ MI h (fun _ => False) (fun _ => False) s' ∧ Adv h s s'
  | [], s, hi => by
    refine ⟨s, rfl, ⟨hi.ml, hi.sc, hi.scr, hi.st, ?_, hi.cnt⟩, Adv.refl h s⟩
    intro x hx
    simpa using hi.cov x hx
  | t :: ts, s, hi => by
    unfold rescan
    by_cases hc : s.marked t = true ∧ s.scanned t = false
    · rw [if_pos (by simp [hc.1, hc.2])]
      obtain ⟨s1, h1, h2, h3⟩ := scan_spec (P' := fun x => x ∈ ts) (cap := cap) hn hr hc.1 hi
        (fun x hx => by simpa using hx)
      obtain ⟨s2, g1, g2, g3⟩ := rescan_spec (cap := cap) hn hr ts s1 h2
      exact ⟨s2, by simp [h1, g1], g2, h3.trans g3⟩
    · rw [if_neg (by simpa using hc)]
      refine rescan_spec (cap := cap) hn hr ts s ⟨hi.ml, hi.sc, hi.scr, hi.st, ?_, hi.cnt⟩
      intro x hx
      rcases hi.cov x hx with h | h | h | h
      · exact .inl h
      · exact .inr (.inl h)
      · exact .inr (.inr (.inl h))
      · rcases List.mem_cons.1 h with rfl | h
        · left; by_contra hs; exact hc ⟨hx, by simpa using hs⟩
        · exact .inr (.inr (.inr h))

theorem scanThings_spec {h : Heap} {cap fuel : Nat} (hn : h.list.Nodup)
    (hr : ∀ t ∈ h.list, ∀ u ∈ (h.body t).refs, u ∈ h.list) (hf : 2 * h.list.length ≤ fuel) :
    ∀ (n : Nat) (s : MS), MI h (fun _ => False) (fun _ => False) s →
    unmarked h s.marked + (if s.full then 1 else 0) + 1 ≤ n →
    ∃ s', scanThings h cap fuel n s = some s' ∧ MI h (fun _ => False) (fun _ => False) s' ∧
      (∀ t, s.marked t = true → s'.marked t = true) ∧ s'.stack = [] ∧ s'.full = false
  | 0, s, _, hu => by omega
  | n + 1, s, hi, hu => by
    have hc := hi.cnt
    obtain ⟨s1, h1, h2, h3, h4⟩ := drain_spec (cap := cap) hn hr fuel s hi (by omega)
    unfold scanThings
    rw [h1]
    simp only
    by_cases hfull : s1.full = true
    · rw [if_pos hfull]
      have hi1 : MI h (fun _ => False) (fun x => x ∈ h.list) { s1 with full := false } :=
        ⟨h2.ml, h2.sc, h2.scr, h2.st, fun x hx => .inr (.inr (.inr (h2.ml x hx).1)), h2.cnt⟩
      obtain ⟨s2, g1, g2, g3⟩ := rescan_spec (cap := cap) hn hr h.list _ hi1
      rw [g1]
      simp only
      have c1 := h3.cnt
      have c2 := g3.cnt
      have c3 : s2.full = true → unmarked h s2.marked < unmarked h s1.marked := fun hh => by
        rcases g3.full hh with h | h
        · simp at h
        · exact h
      have c4 := h3.full hfull
      simp only at c2
      obtain ⟨s3, k1, k2, k3, k4, k5⟩ := scanThings_spec (cap := cap) hn hr hf n s2 g2 (by
        by_cases x : s2.full = true
        · have := c3 x
          rw [if_pos x]
          rcases c4 with c4 | c4
          · rw [if_pos c4] at hu; omega
          · omega
        · rw [if_neg x]
          rcases c4 with c4 | c4
          · rw [if_pos c4] at hu; omega
          · omega)
      exact ⟨s3, k1, k2, fun t ht => k3 t (g3.mono t (h3.mono t ht)), k4, k5⟩
    · rw [if_neg hfull]
      exact ⟨s1, rfl, h2, h3.mono, h4, by simpa using hfull⟩

end Verif.GC

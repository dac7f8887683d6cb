import Verif.Spec.CapSlots

/-! Helper lemmas for C98. -/

namespace Verif.CapSlots

open Spec

/-- The number of slots. -/
def size : Fun → Nat
  | .plain l => l.length
  | .cap _ _ => 3

def total : List Fun → Nat
  | [] => 0
  | f :: fs => total fs + size f

/-- The slots of the functions. -/
def flat (recs : List (Val × Val)) : List Fun → List Val
  | [] => []
  | f :: fs => flat recs fs ++ vars recs f

def kind : Fun → Option Nat
  | .plain _ => none
  | .cap k _ => some k

def marks : List Fun → List Frame
  | [] => []
  | f :: fs => ⟨total fs, kind f⟩ :: marks fs

/-- The capabilities' functions are different, and the executors know where their slots are. -/
def Placed (execs : List Nat) : List Fun → Prop
  | [] => True
  | f :: fs => (∀ k, kind f = some k → execs[k]? = some (total fs) ∧ ∀ g ∈ fs, kind g ≠ some k) ∧ Placed execs fs

/-- The stack holds the variables. -/
structure Rel (s : St) (w : World) : Prop where
  slots : s.slots = flat w.recs w.funs
  frames : s.frames = marks w.funs
  len : s.execs.length = w.recs.length
  placed : Placed s.execs w.funs

theorem vars_length (recs : List (Val × Val)) (f : Fun) : (vars recs f).length = size f := by
  cases f <;> rfl

theorem flat_length (recs : List (Val × Val)) : ∀ fs, (flat recs fs).length = total fs
  | [] => rfl
  | f :: fs => by simp [flat, total, flat_length recs fs, vars_length]

theorem placed_lt {execs : List Nat} : ∀ {fs : List Fun}, Placed execs fs → ∀ g ∈ fs, ∀ k, kind g = some k →
    k < execs.length
  | [], _, g, hg, _, _ => by cases hg
  | f :: fs, h, g, hg, k, hk => by
    rcases List.mem_cons.1 hg with rfl | hg
    · have := (h.1 k hk).1
      exact (List.getElem?_eq_some_iff.1 this).1
    · exact placed_lt h.2 g hg k hk

theorem placed_append {execs : List Nat} (p : Nat) : ∀ {fs : List Fun}, Placed execs fs → Placed (execs ++ [p]) fs
  | [], _ => trivial
  | f :: fs, h => by
    refine ⟨fun k hk => ⟨?_, (h.1 k hk).2⟩, placed_append p h.2⟩
    have h1 := (h.1 k hk).1
    have h2 := (List.getElem?_eq_some_iff.1 h1).1
    rw [List.getElem?_append_left h2]
    exact h1

theorem vars_append {recs : List (Val × Val)} {f : Fun} (r : Val × Val)
    (h : ∀ k, kind f = some k → k < recs.length) : vars (recs ++ [r]) f = vars recs f := by
  cases f with
  | plain l => rfl
  | cap k p =>
    have := h k rfl
    simp [vars, List.getD_eq_getElem?_getD, List.getElem?_append_left this]

theorem flat_append {recs : List (Val × Val)} (r : Val × Val) : ∀ {fs : List Fun},
    (∀ g ∈ fs, ∀ k, kind g = some k → k < recs.length) → flat (recs ++ [r]) fs = flat recs fs
  | [], _ => rfl
  | f :: fs, h => by
    simp only [flat]
    rw [flat_append r (fun g hg => h g (List.mem_cons_of_mem _ hg)),
      vars_append r (h f (List.mem_cons_self ..))]

theorem vars_set {recs : List (Val × Val)} {f : Fun} {k : Nat} (r : Val × Val) (h : kind f ≠ some k) :
    vars (recs.set k r) f = vars recs f := by
  cases f with
  | plain l => rfl
  | cap j p =>
    have : k ≠ j := fun e => h (by rw [e]; rfl)
    simp [vars, List.getD_eq_getElem?_getD, List.getElem?_set_ne this]

theorem flat_set {recs : List (Val × Val)} {k : Nat} (r : Val × Val) : ∀ {fs : List Fun},
    (∀ g ∈ fs, kind g ≠ some k) → flat (recs.set k r) fs = flat recs fs
  | [], _ => rfl
  | f :: fs, h => by
    simp only [flat]
    rw [flat_set r (fun g hg => h g (List.mem_cons_of_mem _ hg)), vars_set r (h f (List.mem_cons_self ..))]

/-- Where a running capability's slots are, and what setting its record does to the stack. -/
theorem live {execs : List Nat} {recs : List (Val × Val)} {k : Nat} {p : Val} (a b : Val)
    (hk : k < recs.length) : ∀ {fs : List Fun}, Placed execs fs → Fun.cap k p ∈ fs →
    ∃ q, execs[k]? = some q ∧ (flat recs fs)[q + 1]? = some (recs.getD k (0, 0)).1 ∧
      (flat recs fs)[q + 2]? = some (recs.getD k (0, 0)).2 ∧
      ((flat recs fs).set (q + 1) a).set (q + 2) b = flat (recs.set k (a, b)) fs
  | [], _, h => by cases h
  | f :: fs, hp, h => by
    by_cases hf : kind f = some k
    · cases f with
      | plain l => simp [kind] at hf
      | cap j p' =>
        simp only [kind, Option.some.injEq] at hf
        subst hf
        obtain ⟨h1, h2⟩ := hp.1 j rfl
        refine ⟨total fs, h1, ?_, ?_, ?_⟩
        · rw [flat, List.getElem?_append_right (by rw [flat_length]; omega), flat_length]
          simp [vars]
        · rw [flat, List.getElem?_append_right (by rw [flat_length]; omega), flat_length]
          simp [vars]
        · rw [flat, flat, flat_set _ h2, List.set_append_right _ _ (by rw [flat_length]; omega),
            List.set_append_right _ _ (by rw [flat_length]; omega), flat_length]
          simp [vars, List.getD_eq_getElem?_getD, hk]
    · have hm : Fun.cap k p ∈ fs := by
        rcases List.mem_cons.1 h with h | h
        · rw [← h] at hf; exact absurd rfl hf
        · exact h
      obtain ⟨q, h1, h2, h3, h4⟩ := live a b hk hp.2 hm
      have l1 := (List.getElem?_eq_some_iff.1 h2).1
      have l2 := (List.getElem?_eq_some_iff.1 h3).1
      refine ⟨q, h1, ?_, ?_, ?_⟩
      · rw [flat, List.getElem?_append_left l1]; exact h2
      · rw [flat, List.getElem?_append_left l2]; exact h3
      · rw [flat, flat, List.set_append_left _ _ l1, List.set_append_left _ _ (by simpa using l2), h4,
          vars_set _ hf]

theorem rel_init : Rel init start := ⟨rfl, rfl, rfl, trivial⟩

/-- One operation, if timely, keeps the relation and shows the same. -/
theorem rel_step {s : St} {w : World} (h : Rel s w) (o : Op)
    (ht : match o with | .exec k _ _ => ∃ p, Fun.cap k p ∈ w.funs | _ => True) :
    (step s o).2 = (does w o).2 ∧ Rel (step s o).1 (does w o).1 := by
  have hl : s.slots.length = total w.funs := by rw [h.slots, flat_length]
  have hlt : ∀ g ∈ w.funs, ∀ k, kind g = some k → k < w.recs.length := by
    intro g hg k hk
    rw [← h.len]; exact placed_lt h.placed g hg k hk
  cases o with
  | enter n =>
    refine ⟨rfl, ⟨?_, ?_, h.len, ?_⟩⟩
    · simp [step, does, flat, vars, h.slots]
    · simp [step, does, marks, kind, hl, h.frames]
    · exact ⟨by intro k hk; simp [kind] at hk, h.placed⟩
  | leave =>
    have hfr := h.frames
    have hsl := h.slots
    have hpl := h.placed
    simp only [step, does]
    cases hw : w.funs with
    | nil => rw [hfr, hw]; exact ⟨rfl, h⟩
    | cons f fs =>
      rw [hw] at hfr hsl hpl
      rw [hfr]
      refine ⟨rfl, ⟨?_, rfl, h.len, hpl.2⟩⟩
      simp only [marks, hsl, flat]
      rw [List.take_append_of_le_length (by rw [flat_length]; exact Nat.le_refl _),
        List.take_of_length_le (by rw [flat_length]; exact Nat.le_refl _)]
  | write i v =>
    have hfr := h.frames
    have hsl := h.slots
    have hpl := h.placed
    simp only [step, does]
    cases hw : w.funs with
    | nil => rw [hfr, hw]; exact ⟨rfl, h⟩
    | cons f fs =>
      rw [hw] at hfr hsl hpl hl
      rw [hfr]
      cases f with
      | plain l =>
        simp only [marks, hl, total, size, kind, true_or, and_true, Nat.add_lt_add_iff_left]
        by_cases hi : i < l.length
        · simp only [hi, if_true]
          refine ⟨trivial, ⟨?_, by simp [marks, kind], h.len, ⟨by intro k hk; simp [kind] at hk, hpl.2⟩⟩⟩
          simp only [hsl, flat, vars]
          rw [List.set_append_right _ _ (by rw [flat_length]; omega), flat_length, Nat.add_sub_cancel_left]
        · simp only [hi, if_false]
          exact ⟨trivial, h⟩
      | cap k p =>
        simp only [marks, hl, total, size, kind, Nat.add_lt_add_iff_left]
        by_cases hi : i = 0
        · subst hi
          simp only [Nat.zero_lt_succ, or_true, and_self, if_true]
          refine ⟨trivial, ⟨?_, by simp [marks, kind], h.len, ⟨hpl.1, hpl.2⟩⟩⟩
          simp only [hsl, flat, vars]
          rw [List.set_append_right _ _ (by rw [flat_length]; omega), flat_length]
          simp
        · simp only [hi, or_false, if_false]
          simp
          exact h
  | read i =>
    have hfr := h.frames
    have hsl := h.slots
    simp only [step, does]
    cases hw : w.funs with
    | nil => rw [hfr, hw]; exact ⟨rfl, h⟩
    | cons f fs =>
      rw [hw] at hfr hsl
      rw [hfr]
      simp only [marks]
      have : s.slots[total fs + i]? = (vars w.recs f)[i]? := by
        rw [hsl, flat, List.getElem?_append_right (by rw [flat_length]; omega), flat_length,
          Nat.add_sub_cancel_left]
      rw [this]
      cases (vars w.recs f)[i]? <;> exact ⟨rfl, h⟩
  | newCap =>
    refine ⟨rfl, ⟨?_, ?_, ?_, ?_⟩⟩
    · simp [step, does, flat, vars, h.slots, flat_append _ hlt]
    · simp [step, does, marks, kind, hl, h.frames, h.len]
    · simp [step, does, h.len]
    · refine ⟨?_, placed_append _ h.placed⟩
      intro k hk
      simp only [kind, Option.some.injEq] at hk
      subst hk
      refine ⟨?_, fun g hg e => ?_⟩
      · show (s.execs ++ [s.slots.length])[w.recs.length]? = some (total w.funs)
        rw [← h.len, ← hl]; simp
      · exact absurd (hlt g hg _ e) (Nat.lt_irrefl _)
  | exec k a b =>
    obtain ⟨p, hp⟩ := ht
    have hk := hlt _ hp k rfl
    obtain ⟨q, h1, h2, h3, h4⟩ := live (recs := w.recs) a b hk h.placed hp
    have hr : w.recs[k]? = some (w.recs.getD k (0, 0)) := by
      simp [List.getD_eq_getElem?_getD, hk]
    simp only [step, does, h1, hr, execAt, h.slots, h2, h3]
    generalize hx : w.recs.getD k (0, 0) = r at *
    obtain ⟨x, y⟩ := r
    by_cases hz : x = 0 ∧ y = 0
    · obtain ⟨rfl, rfl⟩ := hz
      simp only [and_self, if_true]
      exact ⟨trivial, ⟨h4, h.frames, by simp [h.len], h.placed⟩⟩
    · have hz' : ¬ (x, y) = (0, 0) := by simpa using hz
      simp only [hz, hz', if_false]
      exact ⟨trivial, h⟩

theorem rel_run : ∀ (os : List Op) {s : St} {w : World}, Rel s w → Timely w os → run s os = runs w os
  | [], _, _, _, _ => rfl
  | o :: os, s, w, h, ht => by
    obtain ⟨h1, h2⟩ := rel_step h o ht.1
    rw [run, runs, h1, rel_run os h2 ht.2]

end Verif.CapSlots

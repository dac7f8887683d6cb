import Verif.Model.RegExpExec
import Verif.Lemmas.RegExpCorr
import Verif.Lemmas.RegExpSpec
/-
The matcher at one position, and the loop of `exec` over the positions.
-/
namespace Verif.RegExp
open Spec (Ways Match)

variable {C : Ctx} {d : Alts}

/-- What a run of the matcher at a position gives, for every pattern. -/
inductive Ran (C : Ctx) (d : Alts) (pos : Nat) : Prop
  | no (f : Nat) (v : Vec) : run C f (start d pos) = some (.done false v) → Ran C d pos
  | yes (f e : Nat) (v : Vec) : run C f (start d pos) = some (.done true v) → v 0 = some pos →
      v 1 = some e → pos ≤ e → (∀ j p, v j = some p → p ≤ C.str.length) → Ran C d pos

theorem eng_exists (hn : numD d 1 C.n) {pos : Nat} (hp : pos ≤ C.str.length) :
    ∃ ys, Eng C false (.alts d) (first pos) ys := by
  obtain ⟨ys, h, _⟩ := total_alts (rev := false) d (numD_node hn).1
    (totalD d _ _ hn (Nat.le_refl _)) (first pos) (inside_first hp)
  exact ⟨ys, h⟩

theorem first_vec0 {y : ESt} {pos : Nat} (h : Agree 1 C.n (first pos).vec y.vec) :
    y.vec 0 = some pos := by
  rw [h 0 (by omega)]
  simp [first, Vec.put]

theorem ran (hn : numD d 1 C.n) {pos : Nat} (hp : pos ≤ C.str.length) : Ran C d pos := by
  obtain ⟨ys, h⟩ := eng_exists hn hp
  have hs := sound h 1 C.n (numD_node hn) (inside_first hp)
  rcases run_ways hn h with ⟨rfl, f, v, hr⟩ | ⟨y, zs, rfl, f, hr⟩
  · exact .no f v hr
  · obtain ⟨s1, s2, s3⟩ := hs y (by simp)
    refine .yes f y.pos _ hr ?_ ?_ ?_ ?_
    · simp only [Vec.put]; rw [if_neg (by omega)]; exact first_vec0 s3
    · simp only [Vec.put, if_true]
    · have : (first pos).pos + Spec.lenD d ≤ y.pos := s2
      simp only [first] at this
      omega
    · intro j p hj
      simp only [Vec.put] at hj
      split at hj
      · injection hj with hj; have := s1.1; omega
      · exact s1.2 j p hj

theorem beyond_first (hn : numD d 1 C.n) (pos : Nat) : Beyond C (first pos).vec := by
  have := numD_le _ _ _ hn
  intro j hj
  simp only [first, Vec.put]
  rw [if_neg (by omega)]

theorem clean_first (pos : Nat) (b : Nat) : Clean 1 b (first pos).vec := by
  intro j h1 h2
  simp only [first, Vec.put]
  rw [if_neg (by omega)]

theorem abs_first (pos : Nat) : absSt (first pos) = Spec.init pos := by
  unfold absSt Spec.init first
  congr 1
  funext i
  simp only [capOf, Vec.put]
  rw [if_neg (show ¬ (2 * i + 1 = 0) by omega)]
  split <;> simp_all

theorem element_capOf (v : Vec) (i : Nat) : element v i = capOf v i := by
  unfold element capOf
  split
  · rename_i s e h1 h2
    rw [h1, h2]
    simp only
    by_cases h : e < s
    · rw [if_pos h, if_neg (by omega)]
    · rw [if_neg h, if_pos (by omega)]
  · rename_i h
    split
    · rename_i s e h1 h2; exact absurd h2 (h s e h1)
    · rfl

/-- The matcher at a position and the standard's, for the patterns of `corr`. -/
theorem ran_match (hu : C.u = false) (hn : numD d 1 C.n) (hs : Spec.solidD d) {pos : Nat}
    (hp : pos ≤ C.str.length) :
    (Match (input C) d pos none ∧ ∃ f v, run C f (start d pos) = some (.done false v)) ∨
    (∃ x, Match (input C) d pos (some x) ∧ pos ≤ x.pos ∧ ∃ f v,
      run C f (start d pos) = some (.done true v) ∧
      v 0 = some pos ∧ v 1 = some x.pos ∧ ∀ i, 1 ≤ i → element v i = x.caps i) := by
  obtain ⟨ys, h⟩ := eng_exists hn hp
  have sd := sound h 1 C.n (numD_node hn) (inside_first hp)
  have w := corr hu h 1 C.n (Nat.le_refl _) (numD_node hn) (inside_first hp) (beyond_first hn pos)
    (ready_alts hn hs (clean_first pos _))
  rw [abs_first] at w
  rcases run_ways hn h with ⟨rfl, f, v, hr⟩ | ⟨y, zs, rfl, f, hr⟩
  · exact .inl ⟨⟨_, w, rfl⟩, f, v, hr⟩
  · obtain ⟨s1, s2, s3⟩ := sd y (by simp)
    refine .inr ⟨absSt y, ⟨_, w, rfl⟩, ?_, f, _, hr, ?_, ?_, ?_⟩
    · have : (first pos).pos + Spec.lenD d ≤ y.pos := s2
      simp only [first] at this
      simp only [absSt]
      omega
    · simp only [Vec.put]; rw [if_neg (by omega)]; exact first_vec0 s3
    · simp only [Vec.put, if_true, absSt]
    · intro i hi
      rw [element_capOf]
      exact capOf_congr (by simp only [Vec.put]; rw [if_neg (by omega)])
        (by simp only [Vec.put]; rw [if_neg (by omega)])

/-! The loop -/

theorem advance_lt (C : Ctx) (i : Nat) : i < advance C i := by
  unfold advance
  repeat' split
  all_goals omega

theorem execLoop_mono {g y : Bool} {o : Exec} : ∀ {k f i : Nat},
    execLoop C d g y f k i = some o → ∀ {k' f' : Nat}, k ≤ k' → f ≤ f' →
    execLoop C d g y f' k' i = some o
  | 0, _, _, h, _, _, _, _ => by simp [execLoop] at h
  | k + 1, f, i, h, k', f', hk, hf => by
    obtain ⟨k', rfl⟩ : ∃ m, k' = m + 1 := ⟨k' - 1, by omega⟩
    simp only [execLoop] at h ⊢
    split
    · rename_i hl; rw [if_pos hl] at h; exact h
    · rename_i hl
      rw [if_neg hl] at h
      cases hr : run C f (start d i) with
      | none => rw [hr] at h; cases h
      | some r =>
        rw [run_mono hr f' hf]
        rw [hr] at h
        cases r with
        | run c => cases h
        | ub => exact h
        | done found v =>
          cases found with
          | true => exact h
          | false =>
            simp only at h ⊢
            split
            · rename_i hy; rw [if_pos hy] at h; exact h
            · rename_i hy
              rw [if_neg hy] at h
              exact execLoop_mono h (by omega) hf

/-- The answers that a call of `exec` at `i` may give, whatever the pattern. -/
def Fine (C : Ctx) (g y : Bool) (i : Nat) : Exec → Prop
  | .ub => False
  | .null last => last = (if g || y then some 0 else none)
  | .found p gs last => i ≤ p ∧ p ≤ C.str.length ∧ (y = true → p = i) ∧
      ∃ e, gs 0 = some (p, e) ∧ p ≤ e ∧ e ≤ C.str.length ∧
        last = (if g || y then some e else none) ∧
        ∀ j s t, gs j = some (s, t) → j < C.n ∧ s ≤ t ∧ t ≤ C.str.length

theorem found_fine (hn : numD d 1 C.n) {g y : Bool} {p e : Nat} {v : Vec} (hp : p ≤ C.str.length)
    (h0 : v 0 = some p) (h1 : v 1 = some e) (hle : p ≤ e)
    (hv : ∀ j q, v j = some q → q ≤ C.str.length) :
    Fine C g y p (.found p (fun i => if i < C.n then element v i else none)
      (if g || y then some e else none)) := by
  have hn0 := numD_le _ _ _ hn
  refine ⟨Nat.le_refl _, hp, fun _ => rfl, e, ?_, hle, hv _ _ h1, rfl, ?_⟩
  · simp only
    rw [if_pos (by omega)]
    simp only [element, Nat.mul_zero, Nat.zero_add, h0, h1]
    rw [if_neg (by omega)]
  · intro j s t hj
    simp only at hj
    split at hj
    · rename_i hjn
      refine ⟨hjn, ?_⟩
      unfold element at hj
      split at hj
      · rename_i a b ha hb
        have := hv _ _ ha
        have := hv _ _ hb
        split at hj <;> injection hj with hj <;> injection hj with q1 q2 <;> omega
      · cases hj
    · cases hj

theorem exec_fine (hn : numD d 1 C.n) (g y : Bool) : ∀ (m i : Nat), C.str.length + 1 - i ≤ m →
    ∃ f k o, execLoop C d g y f k i = some o ∧ Fine C g y i o := by
  intro m
  induction m with
  | zero =>
    intro i hm
    exact ⟨0, 1, .null (if g || y then some 0 else none),
      by simp only [execLoop]; rw [if_pos (by omega)], rfl⟩
  | succ m ih =>
    intro i hm
    by_cases hl : C.str.length < i
    · exact ⟨0, 1, .null (if g || y then some 0 else none),
        by simp only [execLoop]; rw [if_pos hl], rfl⟩
    have hp : i ≤ C.str.length := by omega
    cases ran hn hp with
    | yes f e v hr h0 h1 hle hv =>
      refine ⟨f, 1, _, ?_, found_fine (g := g) (y := y) hn hp h0 h1 hle hv⟩
      simp only [execLoop]
      rw [if_neg hl, hr]
      simp only [h0, h1]
      rw [if_pos hle]
    | no f v hr =>
      cases y with
      | true =>
        refine ⟨f, 1, .null (some 0), ?_, by simp [Fine]⟩
        simp only [execLoop]
        rw [if_neg hl, hr]
        simp
      | false =>
        have ha := advance_lt C i
        obtain ⟨f', k, o, h1, h2⟩ := ih (advance C i) (by omega)
        refine ⟨max f f', k + 1, o, ?_, ?_⟩
        · simp only [execLoop]
          rw [if_neg hl, run_mono hr _ (Nat.le_max_left ..)]
          simp only [Bool.false_eq_true, if_false]
          exact execLoop_mono h1 (Nat.le_refl _) (Nat.le_max_right ..)
        · cases o with
          | ub => exact h2
          | null last => exact h2
          | found p gs last =>
            obtain ⟨q1, q2, q3, q4⟩ := h2
            exact ⟨by omega, q2, by simp, q4⟩

/-- What `exec` answers is what the standard answers. -/
def Agrees (C : Ctx) (d : Alts) (g y : Bool) (i : Nat) (o : Exec) : Prop :=
  (o = .null (if g || y then some 0 else none) ∧
    (C.str.length < i ∨ (y = true ∧ i ≤ C.str.length ∧ Match (input C) d i none) ∨
      (y = false ∧ ∀ p, i ≤ p → p ≤ C.str.length → Match (input C) d p none))) ∨
  ∃ p x gs, o = .found p gs (if g || y then some x.pos else none) ∧ i ≤ p ∧ p ≤ C.str.length ∧
    (y = true → p = i) ∧ (∀ q, i ≤ q → q < p → Match (input C) d q none) ∧
    Match (input C) d p (some x) ∧ gs 0 = some (p, x.pos) ∧
    ∀ j, 1 ≤ j → j < C.n → gs j = x.caps j

theorem exec_agrees (hu : C.u = false) (hn : numD d 1 C.n) (hs : Spec.solidD d) (g y : Bool) :
    ∀ (m i : Nat), C.str.length + 1 - i ≤ m →
    ∃ f k o, execLoop C d g y f k i = some o ∧ Agrees C d g y i o := by
  intro m
  induction m with
  | zero =>
    intro i hm
    exact ⟨0, 1, .null (if g || y then some 0 else none),
      by simp only [execLoop]; rw [if_pos (by omega)], .inl ⟨rfl, .inl (by omega)⟩⟩
  | succ m ih =>
    intro i hm
    by_cases hl : C.str.length < i
    · exact ⟨0, 1, .null (if g || y then some 0 else none),
        by simp only [execLoop]; rw [if_pos hl], .inl ⟨rfl, .inl hl⟩⟩
    have hp : i ≤ C.str.length := by omega
    have hn0 := numD_le _ _ _ hn
    rcases ran_match hu hn hs hp with ⟨hm0, f, v, hr⟩ | ⟨x, hx, hle, f, v, hr, h0, h1, hc⟩
    · cases y with
      | true =>
        refine ⟨f, 1, .null (some 0), ?_, .inl ⟨by simp, .inr (.inl ⟨rfl, hp, hm0⟩)⟩⟩
        simp only [execLoop]
        rw [if_neg hl, hr]
        simp
      | false =>
        have ha : advance C i = i + 1 := by unfold advance; rw [if_pos hu]
        obtain ⟨f', k, o, e1, e2⟩ := ih (advance C i) (by omega)
        refine ⟨max f f', k + 1, o, ?_, ?_⟩
        · simp only [execLoop]
          rw [if_neg hl, run_mono hr _ (Nat.le_max_left ..)]
          simp only [Bool.false_eq_true, if_false]
          exact execLoop_mono e1 (Nat.le_refl _) (Nat.le_max_right ..)
        · have hq : ∀ q, i ≤ q → ¬ i + 1 ≤ q → q = i := by omega
          rcases e2 with ⟨e, h⟩ | ⟨p, x, gs, e, h1, h2, h3, h4, h5, h6, h7⟩
          · refine .inl ⟨e, .inr (.inr ⟨rfl, ?_⟩)⟩
            intro q h1 h2
            by_cases h3 : i + 1 ≤ q
            · rcases h with h | h | h
              · omega
              · cases h.1
              · exact h.2 q (by omega) h2
            · rw [hq q h1 h3]; exact hm0
          · refine .inr ⟨p, x, gs, e, by omega, h2, by simp, ?_, h5, h6, h7⟩
            intro q h1' h2'
            by_cases h3 : i + 1 ≤ q
            · exact h4 q (by omega) h2'
            · rw [hq q h1' h3]; exact hm0
    · refine ⟨f, 1, .found i (fun j => if j < C.n then element v j else none)
        (if g || y then some x.pos else none), ?_, .inr ⟨i, x, _, rfl, Nat.le_refl _, hp,
          fun _ => rfl, fun q h1 h2 => by omega, hx, ?_, ?_⟩⟩
      · simp only [execLoop]
        rw [if_neg hl, hr]
        simp only [h0, h1]
        rw [if_pos hle]
      · rw [if_pos (by omega)]
        simp only [element, Nat.mul_zero, Nat.zero_add, h0, h1]
        rw [if_neg (by omega)]
      · intro j hj hjn
        rw [if_pos hjn]
        exact hc j hj

theorem execLoop_unique {g y : Bool} {o o' : Exec} {f f' k k' i : Nat}
    (h : execLoop C d g y f k i = some o) (h' : execLoop C d g y f' k' i = some o') : o = o' := by
  have h1 := execLoop_mono h (k' := max k k') (f' := max f f') (Nat.le_max_left ..)
    (Nat.le_max_left ..)
  have h2 := execLoop_mono h' (k' := max k k') (f' := max f f') (Nat.le_max_right ..)
    (Nat.le_max_right ..)
  rw [h1] at h2
  exact Option.some.inj h2

end Verif.RegExp

import Verif.Lemmas.BufferContent
import Verif.Props.Atomics
/-
C42 and C65: `ArrayBuffer.prototype.slice` and the bulk operations of typed arrays.
-/
namespace Verif.Buffer
open NumConv Spec
open Raw (Byte Ty Val Fpu Stored Fits)
open Raw.Spec (IsInt Means element number)

variable {F : Fpu} {le : Bool} {s : State}

theorem run_append {es es' : List Ev} {s s' : State} (h : run F le s es = .ok s') : run F le s (es ++ es') = run F le s' es' := by
  induction es generalizing s with
  | nil => cases h; rfl
  | cons e es ih =>
    simp only [List.cons_append, run] at h ⊢
    cases he : step F le s e with
    | error f => rw [he] at h; cases h
    | ok p =>
      obtain ⟨s1, r⟩ := p
      rw [he] at h
      exact ih h

/-- The program runs in between: whatever it does, in the end the same operations are suspended. -/
def Between (F : Fpu) (le : Bool) (s s' : State) : Prop := ∃ es, run F le s es = .ok s' ∧ s'.frames = s.frames

theorem Reached.step {s' : State} {e : Ev} {r : Res} (h : Reached F le s) (he : step F le s e = .ok (s', r)) : Reached F le s' := by
  obtain ⟨es, h⟩ := h
  exact ⟨es ++ [e], by rw [run_append h]; simp [run, he]⟩

theorem Reached.between {s' : State} (h : Reached F le s) (hb : Between F le s s') : Reached F le s' := by
  obtain ⟨es, h⟩ := h
  obtain ⟨es', h', -⟩ := hb
  exact ⟨es ++ es', by rw [run_append h, h']⟩

/-! ### C42 -/

theorem shared_iff {b : Nat} : isShared s b = true ↔ Shared s b := by
  constructor
  · intro h
    unfold isShared at h
    split at h
    next k L e =>
      split at h
      next B hB => exact ⟨k, L, B, e, hB, h⟩
      · cases h
    · cases h
  · rintro ⟨k, L, B, h1, h2, h3⟩
    simp [isShared, h1, h2, h3]

/-- **C42**, the call: a TypeError for a shared or detached buffer. -/
theorem C42_call (hs : Reached F le s) {b : Nat} {hasEnd : Bool} :
    (b < s.bufs.length → (Shared s b ∨ Gone s b) → Ends F le s (.call (.abSlice b hasEnd)) s.frames .typeError) ∧
    ∀ m, Bytes s b m → ¬ Shared s b → Goes F le s (.call (.abSlice b hasEnd)) (.abStart b hasEnd m.length :: s.frames) := by
  have hI := hs.inv.log []
  have e0 : step F le s (.call (.abSlice b hasEnd)) = abBegin { s with log := [] } b hasEnd := rfl
  unfold abBegin at e0
  refine ⟨fun hb h => ?_, fun m hm hn => ?_⟩
  · have hB : ({ s with log := [] } : State).bufs[b]? = some s.bufs[b] := List.getElem?_eq_getElem hb
    rw [hB] at e0
    simp only at e0
    by_cases hsh : isShared { s with log := [] } b = true
    · rw [if_pos hsh] at e0
      exact ⟨_, e0, rfl, rfl, rfl, rfl, rfl⟩
    · rw [if_neg hsh] at e0
      rcases h with h | h
      · exact absurd (shared_iff (s := { s with log := [] }).2 h) hsh
      · rw [if_pos (gone_detached (s := { s with log := [] }) h)] at e0
        exact ⟨_, e0, rfl, rfl, rfl, rfl, rfl⟩
  · obtain ⟨k, L, ha, hk⟩ := bytes_att hm
    have ha' : Att { s with log := [] } b k L := ha
    obtain ⟨m', h1, h2⟩ := hI.att ha'
    rw [show mem { s with log := [] } k = some m from hk] at h1
    cases h1
    have hB : ({ s with log := [] } : State).bufs[b]? = some ⟨some k, L⟩ := ha'
    rw [hB] at e0
    simp only at e0
    rw [if_neg (fun h => hn (shared_iff (s := { s with log := [] }).1 h)), if_neg (by rw [attached_ok ha']; decide), ← h2] at e0
    exact ⟨_, e0, rfl, rfl, rfl, rfl, rfl⟩

/-- **C42**, the last part: the species constructor has returned the buffer `nb`. -/
theorem C42_copy (hs : Reached F le s) {b first n nb : Nat} {fs : List Frame} (hf : s.frames = .abSpecies b first n :: fs) :
    (nb < s.bufs.length → (Shared s nb ∨ Gone s nb ∨ nb = b ∨ Gone s b) → Ends F le s (.ret (.buf nb)) fs .typeError) ∧
    ∀ m mn, Bytes s b m → Bytes s nb mn → ¬ Shared s nb → nb ≠ b →
      (mn.length < n → Ends F le s (.ret (.buf nb)) fs .typeError) ∧
      (n ≤ mn.length → first + n ≤ m.length ∧
        ∃ s' mn', step F le s (.ret (.buf nb)) = .ok (s', .buf nb) ∧ s'.frames = fs ∧ Bytes s' b m ∧ Bytes s' nb mn' ∧
          mn'.length = mn.length ∧ (∀ i, i < n → mn'[i]? = m[first + i]?) ∧ (∀ i, n ≤ i → mn'[i]? = mn[i]?)) := by
  have hI := hs.inv.popped hf rfl
  have hfr : FrameOk s (.abSpecies b first n) := hs.inv.frame _ (by rw [hf]; exact List.mem_cons_self)
  have e0 : step F le s (.ret (.buf nb)) = abFinish { s with log := [], frames := fs } b first n nb := by
    rw [step_ret hf]; rfl
  unfold abFinish at e0
  refine ⟨fun hb h => ?_, fun m mn hm hmn hn hne => ?_⟩
  · have hB : ({ s with log := [], frames := fs } : State).bufs[nb]? = some s.bufs[nb] := List.getElem?_eq_getElem hb
    rw [hB] at e0
    simp only at e0
    split at e0
    · exact ends_of e0
    next h1 =>
    split at e0
    · exact ends_of e0
    next h2 =>
    split at e0
    · exact ends_of e0
    next h3 =>
    split at e0
    · exact ends_of e0
    split at e0
    · exact ends_of e0
    next h4 =>
    exfalso
    rcases h with h | h | h | h
    · exact h1 (shared_iff (s := { s with log := [], frames := fs }).2 h)
    · exact h2 (gone_detached (s := { s with log := [], frames := fs }) h)
    · exact h3 h
    · exact h4 (gone_detached (s := { s with log := [], frames := fs }) h)
  · obtain ⟨k, L, ha, hk⟩ := bytes_att hm
    obtain ⟨tk, Lt, hat, htk⟩ := bytes_att hmn
    have ha' : Att { s with log := [], frames := fs } b k L := ha
    have hat' : Att { s with log := [], frames := fs } nb tk Lt := hat
    have hk' : mem { s with log := [], frames := fs } k = some m := hk
    have htk' : mem { s with log := [], frames := fs } tk = some mn := htk
    obtain ⟨m', h1, h2⟩ := hI.att ha'
    rw [hk'] at h1
    cases h1
    obtain ⟨m', h1, h3⟩ := hI.att hat'
    rw [htk'] at h1
    cases h1
    have hB : ({ s with log := [], frames := fs } : State).bufs[nb]? = some ⟨some tk, Lt⟩ := hat'
    rw [hB] at e0
    simp only at e0
    rw [if_neg (fun h => hn (shared_iff (s := { s with log := [], frames := fs }).1 h)), if_neg (by rw [attached_ok hat']; decide), if_neg hne] at e0
    refine ⟨fun h => ?_, fun h => ?_⟩
    · rw [if_pos (by omega)] at e0
      exact ends_of e0
    · rw [if_neg (by omega), if_neg (by rw [attached_ok ha']; decide), blockOf_ok hat', blockOf_ok ha'] at e0
      simp only at e0
      have hfl := hfr.2 k L ha
      have hkk : tk ≠ k := by
        rintro rfl
        have hns : isShared { s with log := [], frames := fs } nb = false := by
          by_cases hc : isShared { s with log := [], frames := fs } nb = true
          · exact absurd (shared_iff.1 hc) hn
          · simpa using hc
        exact hne (not_same_block hI hat' ha' hns)
      refine ⟨by omega, ?_⟩
      rcases copy_spec (tlo := 0) (slo := first) (n := n) htk' hk' (by omega) (by omega) with ⟨-, h⟩ | ⟨s', f1, f2, f3, f4⟩
      · exact absurd h hkk
      · rw [f1] at e0
        have hl : ((m.drop first).take n).length = n := by simp; omega
        refine ⟨s', _, e0, f4.frames, ?_, ?_, Raw.overwrite_length (off := 0) (by rw [hl]; omega), ?_, ?_⟩
        · refine att_bytes (k := k) (L := L) (by unfold Att; rw [f4.bufs]; exact ha) ?_
          rw [f3 k (Ne.symm hkk)]
          exact hk'
        · exact att_bytes (k := tk) (L := Lt) (by unfold Att; rw [f4.bufs]; exact hat) f2
        · intro i hi
          have := overwrite_slice (m := mn) (b := (m.drop first).take n) (lo := 0) (by rw [hl]; omega)
          rw [hl] at this
          have := slice_get (c := Raw.overwrite mn 0 ((m.drop first).take n)) (m := m) (p := 0) (q := first) this hi
          simpa using this
        · intro i hi
          exact Raw.overwrite_out (off := 0) (by rw [hl]; omega) (by rw [hl]; omega)

/-- **C42**: `b.slice(x, y)`.  The arguments are converted with the length at the call (`L`), the program
may do anything during the conversions and in the species constructor.  Then the bytes of the new
buffer are those from `first` on, as many as there are up to `final`; the rest of the new buffer and
the old buffer are as before.  Everything else is a TypeError (`C42_call`, `C42_copy`). -/
theorem C42_slice {s0 s1 s1' s2 s2' s3 s3' : State} {b nb : Nat} {m0 m mn : List Byte} {x y : Num} {r1 r2 r3 : Res} (hs : Reached F le s0)
    (h0 : Bytes s0 b m0) (hn0 : ¬ Shared s0 b)
    (h1 : step F le s0 (.call (.abSlice b true)) = .ok (s1, r1)) (u1 : Between F le s1 s1')
    (h2 : step F le s1' (.ret (.num x)) = .ok (s2, r2)) (u2 : Between F le s2 s2')
    (h3 : step F le s2' (.ret (.num y)) = .ok (s3, r3)) (u3 : Between F le s3 s3')
    {first final : Nat} (hfirst : Clamp m0.length x first) (hfinal : Clamp m0.length y final)
    (hm : Bytes s3' b m) (hmn : Bytes s3' nb mn) (hn : ¬ Shared s3' nb) (hne : nb ≠ b) :
    (mn.length < final - first → Ends F le s3' (.ret (.buf nb)) s0.frames .typeError) ∧
    (final - first ≤ mn.length → first + (final - first) ≤ m.length ∧
      ∃ s' mn', step F le s3' (.ret (.buf nb)) = .ok (s', .buf nb) ∧ s'.frames = s0.frames ∧ Bytes s' b m ∧ Bytes s' nb mn' ∧
        mn'.length = mn.length ∧ (∀ i, i < final - first → mn'[i]? = m[first + i]?) ∧ (∀ i, final - first ≤ i → mn'[i]? = mn[i]?)) := by
  obtain ⟨t1, e1, f1, -⟩ := (C42_call hs (hasEnd := true)).2 m0 h0 hn0
  rw [e1] at h1
  cases h1
  have g1 : s1'.frames = .abStart b true m0.length :: s0.frames := by
    obtain ⟨-, -, h⟩ := u1
    rw [h, f1]
  have hs1 := (hs.step e1).between u1
  have hs2 := (hs1.step h2).between u2
  have hs3 := (hs2.step h3).between u3
  have g2 : s2'.frames = .abEnd b m0.length first :: s0.frames := by
    obtain ⟨-, -, h⟩ := u2
    rw [step_ret g1] at h2
    simp only [resume, onNum, push, if_true, Except.ok.injEq, Prod.mk.injEq] at h2
    rw [h, ← h2.1, clamp_rel hfirst]
  have g3 : s3'.frames = .abSpecies b first (final - first) :: s0.frames := by
    obtain ⟨-, -, h⟩ := u3
    rw [step_ret g2] at h3
    simp only [resume, onNum, push, Except.ok.injEq, Prod.mk.injEq] at h3
    rw [h, ← h3.1, clamp_rel hfinal]
  exact (C42_copy hs3 g3).2 m mn hm hmn hn hne

/-- **C42**: the same for `b.slice(x)`, up to the end. -/
theorem C42_slice_to_end {s0 s1 s1' s2 s2' : State} {b nb : Nat} {m0 m mn : List Byte} {x : Num} {r1 r2 : Res} (hs : Reached F le s0)
    (h0 : Bytes s0 b m0) (hn0 : ¬ Shared s0 b)
    (h1 : step F le s0 (.call (.abSlice b false)) = .ok (s1, r1)) (u1 : Between F le s1 s1')
    (h2 : step F le s1' (.ret (.num x)) = .ok (s2, r2)) (u2 : Between F le s2 s2')
    {first : Nat} (hfirst : Clamp m0.length x first)
    (hm : Bytes s2' b m) (hmn : Bytes s2' nb mn) (hn : ¬ Shared s2' nb) (hne : nb ≠ b) :
    (mn.length < m0.length - first → Ends F le s2' (.ret (.buf nb)) s0.frames .typeError) ∧
    (m0.length - first ≤ mn.length → first + (m0.length - first) ≤ m.length ∧
      ∃ s' mn', step F le s2' (.ret (.buf nb)) = .ok (s', .buf nb) ∧ s'.frames = s0.frames ∧ Bytes s' b m ∧ Bytes s' nb mn' ∧
        mn'.length = mn.length ∧ (∀ i, i < m0.length - first → mn'[i]? = m[first + i]?) ∧ (∀ i, m0.length - first ≤ i → mn'[i]? = mn[i]?)) := by
  obtain ⟨t1, e1, f1, -⟩ := (C42_call hs (hasEnd := false)).2 m0 h0 hn0
  rw [e1] at h1
  cases h1
  have g1 : s1'.frames = .abStart b false m0.length :: s0.frames := by
    obtain ⟨-, -, h⟩ := u1
    rw [h, f1]
  have hs1 := (hs.step e1).between u1
  have hs2 := (hs1.step h2).between u2
  have g2 : s2'.frames = .abSpecies b first (m0.length - first) :: s0.frames := by
    obtain ⟨-, -, h⟩ := u2
    rw [step_ret g1] at h2
    simp only [resume, onNum, push] at h2
    rw [if_neg (by decide)] at h2
    simp only [Except.ok.injEq, Prod.mk.injEq] at h2
    rw [h, ← h2.1, clamp_rel hfirst]
  exact (C42_copy hs2 g2).2 m mn hm hmn hn hne

/-! ### Examples -/

/-- Byte 3 of a buffer of 5 bytes is 9; `slice(-3)`, and the species constructor returns a new buffer
of 4 bytes. -/
def sliceRun : List Ev :=
  [.newBuf 5 false, .call (.taBuffer .u8 0 false), .ret .done, .ret (.num (int 0)), .call (.elemSet 0 (int 3)), .ret (.val (.num 0x4022000000000000)),
   .call (.abSlice 0 false), .ret (.num (.fin true 3 0)), .newBuf 4 false]

example (F : Fpu) : ∃ s s', run F true init sliceRun = .ok s ∧ s.frames = [.abSpecies 0 2 3] ∧ Bytes s 0 [0, 0, 0, 9, 0] ∧ Bytes s 1 [0, 0, 0, 0] ∧
    ¬ Shared s 1 ∧ ¬ Gone s 0 ∧ step F true s (.ret (.buf 1)) = .ok (s', .buf 1) ∧ (∃ m, Bytes s' 1 m ∧ m = [0, 9, 0, 0]) ∧
    -- the species constructor may also return the buffer itself, or a buffer which is too short
    ∃ s2, step F true s (.ret (.buf 0)) = .ok (s2, .typeError) := by
  refine ⟨_, _, rfl, rfl, ⟨0, 5, _, rfl, rfl, rfl⟩, ⟨1, 4, _, rfl, rfl, rfl⟩, ?_, fun h => h 0 5 rfl, rfl, ⟨_, ⟨1, 4, _, rfl, rfl, rfl⟩, rfl⟩, _, rfl⟩
  rintro ⟨k, L, B, h1, h2, h3⟩
  cases h1
  cases h2
  cases h3

end Verif.Buffer

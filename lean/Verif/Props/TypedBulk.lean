import Verif.Props.BufferBulk
/-
C65: the bulk operations of typed arrays.
-/
namespace Verif.Buffer
open NumConv Spec
open Raw (Byte Ty Val Fpu Stored Fits)
open Raw.Spec (IsInt Means element number)

variable {F : Fpu} {le : Bool} {s : State}

/-! ### The violation -/

def seven : Num := .fin false 7 0

/-- `slice` of a Uint8Array of 8 elements, whose species constructor returns the array 1. -/
def sliceOnto (shared : Bool) (off : Nat) : List Ev :=
  [.newBuf 16 shared, .call (.taBuffer .u8 0 true), .ret .done, .ret (.num zero), .ret (.num (.fin false 8 0)),
   .call (.taBuffer .u8 0 true), .ret .done, .ret (.num (.fin false off 0)), .ret (.num (.fin false 8 0)),
   .call (.slice 0 true), .ret (.num zero), .ret (.num seven)]

/-- **C65 is violated**: `slice` onto an array over the same buffer is a `memcpy` between overlapping
parts (the array begins one byte further), and with shared memory the lock of the memory is taken
twice, even if nothing overlaps (the array begins 8 bytes further). -/
theorem C65_violated (F : Fpu) (le : Bool) :
    (∃ s fs, run F le init (sliceOnto false 1) = .ok s ∧ s.frames = .slSpecies 0 0 7 :: fs ∧ step F le s (.ret (.view 1)) = .error .overlap) ∧
    (∃ s fs, run F le init (sliceOnto true 8) = .ok s ∧ s.frames = .slSpecies 0 0 7 :: fs ∧ step F le s (.ret (.view 1)) = .error .deadlock) :=
  ⟨⟨_, _, rfl, rfl, rfl⟩, ⟨_, _, rfl, rfl, rfl⟩⟩

/-! ### The calls and the arguments -/

/-- **C65**, the calls: a TypeError for a detached buffer, otherwise the first argument is converted.
(`set` and the constructor look at the buffers later.) -/
theorem C65_call (_hs : Reached F le s) {v : Nat} {V : View} {ty : Ty} (hV : s.views[v]? = some V) (hty : V.ty = some ty) (hasEnd : Bool) :
    (Gone s V.buf → Ends F le s (.call (.copyWithin v hasEnd)) s.frames .typeError ∧ Ends F le s (.call (.fill v hasEnd)) s.frames .typeError ∧
      Ends F le s (.call (.slice v hasEnd)) s.frames .typeError) ∧
    (¬ Gone s V.buf → Goes F le s (.call (.copyWithin v hasEnd)) (.cwTo v hasEnd :: s.frames) ∧
      Goes F le s (.call (.fill v hasEnd)) (.fillVal v hasEnd :: s.frames) ∧ Goes F le s (.call (.slice v hasEnd)) (.slStart v hasEnd :: s.frames)) ∧
    (∀ nty, Goes F le s (.call (.taTyped nty v)) (.taTyped nty v :: s.frames)) ∧
    ∀ t T tty, s.views[t]? = some T → T.ty = some tty → Goes F le s (.call (.setFrom t v)) (.setOff t v :: s.frames) := by
  have hT : typed { s with log := [] } v = some (V, ty) := typed_iff.2 ⟨hV, hty⟩
  refine ⟨fun h => ?_, fun h => ?_, fun nty => ?_, fun t T tty h1 h2 => ?_⟩
  · have hd := gone_detached (s := { s with log := [] }) h
    refine ⟨⟨{ s with log := [] }, ?_, rfl, rfl, rfl, rfl, rfl⟩, ⟨{ s with log := [] }, ?_, rfl, rfl, rfl, rfl, rfl⟩, ⟨{ s with log := [] }, ?_, rfl, rfl, rfl, rfl, rfl⟩⟩ <;>
      simp [step, begin, onValid, hT, hd]
  · have hd : ¬ detached { s with log := [] } V.buf = true := fun hd => h (detached_true hd)
    refine ⟨⟨{ s with log := [], frames := .cwTo v hasEnd :: s.frames }, ?_, rfl, rfl, rfl, rfl, rfl⟩,
      ⟨{ s with log := [], frames := .fillVal v hasEnd :: s.frames }, ?_, rfl, rfl, rfl, rfl, rfl⟩,
      ⟨{ s with log := [], frames := .slStart v hasEnd :: s.frames }, ?_, rfl, rfl, rfl, rfl, rfl⟩⟩ <;>
      simp [step, begin, onValid, hT, hd, push]
  · refine ⟨{ s with log := [], frames := .taTyped nty v :: s.frames }, ?_, rfl, rfl, rfl, rfl, rfl⟩
    simp [step, begin, hT, push]
  · have hT2 : typed { s with log := [] } t = some (T, tty) := typed_iff.2 ⟨h1, h2⟩
    refine ⟨{ s with log := [], frames := .setOff t v :: s.frames }, ?_, rfl, rfl, rfl, rfl, rfl⟩
    simp [step, begin, hT, hT2, push]

/-- **C65**, the arguments in between: each is an index relative to the length of the array. -/
theorem C65_arguments {v : Nat} {V : View} {ty : Ty} (hV : s.views[v]? = some V) (hty : V.ty = some ty) {fs : List Frame} {x : Num} {k : Nat}
    (hx : Clamp V.alen x k) :
    (∀ hasEnd, s.frames = .cwTo v hasEnd :: fs → Goes F le s (.ret (.num x)) (.cwFrom v hasEnd k :: fs)) ∧
    (∀ dst, s.frames = .cwFrom v true dst :: fs → Goes F le s (.ret (.num x)) (.cwEnd v dst k :: fs)) ∧
    (∀ hasEnd w, s.frames = .fillVal v hasEnd :: fs → fitsTy ty w = true → Goes F le s (.ret (.val w)) (.fillStart v hasEnd w :: fs)) ∧
    (∀ w, s.frames = .fillStart v true w :: fs → Goes F le s (.ret (.num x)) (.fillEnd v w k :: fs)) ∧
    (s.frames = .slStart v true :: fs → Goes F le s (.ret (.num x)) (.slEnd v k :: fs)) ∧
    (s.frames = .slStart v false :: fs → Goes F le s (.ret (.num x)) (.slSpecies v k V.alen :: fs)) ∧
    (∀ a, s.frames = .slEnd v a :: fs → Goes F le s (.ret (.num x)) (.slSpecies v a k :: fs)) := by
  have hT : ∀ fs, typed { s with log := [], frames := fs } v = some (V, ty) := fun fs => typed_iff.2 ⟨hV, hty⟩
  have hr := clamp_rel hx
  refine ⟨?_, ?_, ?_, ?_, ?_, ?_, ?_⟩
  · intro b hf
    exact ⟨{ s with log := [], frames := .cwFrom v b k :: fs }, by rw [step_ret hf]; simp [resume, onTyped, hT, onNum, hr, push], rfl, rfl, rfl, rfl, rfl⟩
  · intro d hf
    exact ⟨{ s with log := [], frames := .cwEnd v d k :: fs }, by rw [step_ret hf]; simp [resume, onTyped, hT, onNum, hr, push], rfl, rfl, rfl, rfl, rfl⟩
  · intro b w hf hw
    exact ⟨{ s with log := [], frames := .fillStart v b w :: fs }, by rw [step_ret hf]; simp [resume, onTyped, hT, onVal, hw, push], rfl, rfl, rfl, rfl, rfl⟩
  · intro w hf
    exact ⟨{ s with log := [], frames := .fillEnd v w k :: fs }, by rw [step_ret hf]; simp [resume, onTyped, hT, onNum, hr, push], rfl, rfl, rfl, rfl, rfl⟩
  · intro hf
    exact ⟨{ s with log := [], frames := .slEnd v k :: fs }, by rw [step_ret hf]; simp [resume, onTyped, hT, onNum, hr, push], rfl, rfl, rfl, rfl, rfl⟩
  · intro hf
    exact ⟨{ s with log := [], frames := .slSpecies v k V.alen :: fs }, by rw [step_ret hf]; simp [resume, onTyped, hT, onNum, hr, push], rfl, rfl, rfl, rfl, rfl⟩
  · intro a hf
    exact ⟨{ s with log := [], frames := .slSpecies v a k :: fs }, by rw [step_ret hf]; simp [resume, onTyped, hT, onNum, hr, push], rfl, rfl, rfl, rfl, rfl⟩

/-! ### copyWithin -/

/-- `copyWithin` ends: `count` elements from `frm` on are moved to `dst`, as they were before. -/
def MovesWithin (F : Fpu) (le : Bool) (s : State) (e : Ev) (fs : List Frame) (v : Nat) (V : View) (ty : Ty) (dst frm count : Nat) : Prop :=
  (count = 0 → Ends F le s e fs (.view v)) ∧
  (0 < count → Gone s V.buf → Ends F le s e fs .typeError) ∧
  ∀ m, 0 < count → Bytes s V.buf m → ∃ s' m', step F le s e = .ok (s', .view v) ∧ s'.frames = fs ∧ Bytes s' V.buf m' ∧ m'.length = m.length ∧
    (∀ j, j < ty.size * count → m'[V.off + ty.size * dst + j]? = m[V.off + ty.size * frm + j]?) ∧
    (∀ j, j < V.off + ty.size * dst ∨ V.off + ty.size * dst + ty.size * count ≤ j → m'[j]? = m[j]?)

theorem moves_of {v : Nat} {V : View} {ty : Ty} {f : Frame} {fs : List Frame} {e : Ev} {dst frm final : Nat} (hs : Reached F le s) (hf : s.frames = f :: fs)
    (hns : isSort f = false) (hV : s.views[v]? = some V) (hty : V.ty = some ty) (hd : dst ≤ V.alen) (hfin : final ≤ V.alen)
    (e0 : step F le s e = cwFinish { s with log := [], frames := fs } v V ty dst frm final) :
    MovesWithin F le s e fs v V ty dst frm (min (final - frm) (V.alen - dst)) := by
  have hI := hs.inv.popped hf hns
  unfold cwFinish at e0
  simp only at e0
  generalize hc : min (final - frm) (V.alen - dst) = count at *
  refine ⟨fun h => ?_, fun h hg => ?_, fun m h hm => ?_⟩
  · rw [if_neg (by omega)] at e0
    exact ends_of e0
  · rw [if_pos h, if_pos (gone_detached (s := { s with log := [], frames := fs }) hg)] at e0
    exact ends_of e0
  · obtain ⟨k, L, ha, hk⟩ := bytes_att hm
    have ha' : Att { s with log := [], frames := fs } V.buf k L := ha
    have hk' : mem { s with log := [], frames := fs } k = some m := hk
    obtain ⟨m', m1, m2, -⟩ := typed_mem hI ⟨hV, hty⟩ ha'
    rw [hk'] at m1
    cases m1
    rw [if_pos h, if_neg (by rw [attached_ok ha']; decide), blockOf_ok ha'] at e0
    simp only at e0
    have e1 : ty.size * (dst + count) ≤ ty.size * V.alen := Nat.mul_le_mul_left _ (by omega)
    have e2 : ty.size * (frm + count) ≤ ty.size * V.alen := Nat.mul_le_mul_left _ (by omega)
    rw [Nat.mul_add] at e1 e2
    have e3 : V.alen * ty.size = ty.size * V.alen := Nat.mul_comm _ _
    obtain ⟨s1, f1, f2, -, t1⟩ := move_spec (tk := k) (tlo := V.off + ty.size * dst) (sk := k) (slo := V.off + ty.size * frm) (n := ty.size * count) hk' hk' (by omega) (by omega)
    rw [f1] at e0
    have hl : ((m.drop (V.off + ty.size * frm)).take (ty.size * count)).length = ty.size * count := by simp; omega
    refine ⟨s1, _, e0, t1.frames, att_bytes (k := k) (L := L) (by unfold Att; rw [t1.bufs]; exact ha) f2, Raw.overwrite_length (by rw [hl]; omega), fun j hj => ?_, fun j hj => ?_⟩
    · have := overwrite_slice (m := m) (b := (m.drop (V.off + ty.size * frm)).take (ty.size * count)) (lo := V.off + ty.size * dst) (by rw [hl]; omega)
      rw [hl] at this
      exact slice_get this hj
    · exact Raw.overwrite_out (by rw [hl]; omega) (by rw [hl]; omega)

/-- **C65**, `copyWithin(to, from, end)` and `copyWithin(to, from)`. -/
theorem C65_copyWithin (hs : Reached F le s) {v : Nat} {V : View} {ty : Ty} (hV : s.views[v]? = some V) (hty : V.ty = some ty) {fs : List Frame} {x : Num} {k : Nat}
    (hx : Clamp V.alen x k) :
    (∀ dst frm, s.frames = .cwEnd v dst frm :: fs →
      MovesWithin F le s (.ret (.num x)) fs v V ty dst frm (min (k - frm) (V.alen - dst))) ∧
    (∀ dst, s.frames = .cwFrom v false dst :: fs →
      MovesWithin F le s (.ret (.num x)) fs v V ty dst k (min (V.alen - k) (V.alen - dst))) := by
  have hT : typed { s with log := [], frames := fs } v = some (V, ty) := typed_iff.2 ⟨hV, hty⟩
  have hr := clamp_rel hx
  have hk : k ≤ V.alen := by rw [← hr]; exact rel_le _ _
  refine ⟨fun dst frm hf => ?_, fun dst hf => ?_⟩
  · obtain ⟨V', ty', hV', h1, h2⟩ : FrameOk s (.cwEnd v dst frm) := hs.inv.frame _ (by rw [hf]; exact List.mem_cons_self)
    have := hV'.1
    rw [hV] at this
    cases this
    refine moves_of hs hf rfl hV hty h1 hk ?_
    rw [step_ret hf]
    simp [resume, onTyped, hT, onNum, hr]
  · obtain ⟨V', ty', hV', h1⟩ : FrameOk s (.cwFrom v false dst) := hs.inv.frame _ (by rw [hf]; exact List.mem_cons_self)
    have := hV'.1
    rw [hV] at this
    cases this
    refine moves_of hs hf rfl hV hty h1 (Nat.le_refl _) ?_
    rw [step_ret hf]
    simp [resume, onTyped, hT, onNum, hr]

/-! ### fill -/

/-- `fill` ends: the elements from `k` up to `final` hold the value, all other bytes are as before. -/
def Fills (F : Fpu) (le : Bool) (s : State) (e : Ev) (fs : List Frame) (v : Nat) (V : View) (ty : Ty) (w : Val) (k final : Nat) : Prop :=
  (Gone s V.buf → Ends F le s e fs .typeError) ∧
  ∀ m, Bytes s V.buf m → Fits ty w → ∃ s' m', step F le s e = .ok (s', .view v) ∧ s'.frames = fs ∧ Bytes s' V.buf m' ∧ m'.length = m.length ∧
    (∀ i, k ≤ i → i < final → Stored F ty w (element m' (V.off + ty.size * i) ty.size le)) ∧
    (∀ j, j < V.off + ty.size * k ∨ (V.off + ty.size * final ≤ j ∨ final ≤ k) → m'[j]? = m[j]?)

theorem fillLoop_cast {V : View} {ty : Ty} {x : Val} {k L : Nat} {z : Int} (hz : Raw.store F ty x = some z) :
    ∀ (n i : Nat) (s : State) (m : List Byte), s.bufs[V.buf]? = some ⟨some k, L⟩ → mem s k = some m →
      V.off + V.alen * ty.size ≤ m.length → fillLoop F le V ty x n i s ≠ .error .cast := by
  intro n
  induction n with
  | zero => intro i s m hb hm hl; simp [fillLoop]
  | succ n ih =>
    intro i s m hb hm hl
    rw [fillLoop]
    by_cases hv : validNat s V i = true
    · rw [if_pos hv]
      have hi : i < V.alen := by simp [validNat] at hv; exact hv.2
      unfold putElem
      rw [blockOf_ok hb]
      simp only
      have hin := in_elem (off := V.off) (sz := ty.size) hi
      rcases putAt_spec (F := F) (x := x) (little := le) hm (pos := V.off + ty.size * i) (ty := ty) (by omega) with ⟨-, h⟩ | ⟨s1, m1, e1, p1, a1, o1, t1⟩
      · unfold Raw.put at h
        rw [if_pos (by omega), hz] at h
        cases h
      · rw [e1]
        obtain ⟨-, -, -, z3, -⟩ := put_slice p1
        exact ih (i + 1) s1 m1 (by rw [t1.bufs]; exact hb) a1 (by omega)
    · rw [if_neg hv]
      exact ih (i + 1) s m hb hm hl

theorem fits_wf {ty : Ty} {w : Val} (h : Fits ty w) : ∀ x, w = .big x → x.WF := by
  rintro x rfl
  exact h.2.1

theorem fills_of {v : Nat} {V : View} {ty : Ty} {f : Frame} {fs : List Frame} {e : Ev} {w : Val} {k final : Nat} (hs : Reached F le s) (hf : s.frames = f :: fs)
    (hns : isSort f = false) (hV : s.views[v]? = some V) (hty : V.ty = some ty) (hfin : final ≤ V.alen)
    (e0 : step F le s e = fillFinish F le { s with log := [], frames := fs } v V ty w k final) :
    Fills F le s e fs v V ty w k final := by
  have hI := hs.inv.popped hf hns
  unfold fillFinish at e0
  refine ⟨fun hg => ?_, fun m hm hw => ?_⟩
  · rw [if_pos (gone_detached (s := { s with log := [], frames := fs }) hg)] at e0
    exact ends_of e0
  · obtain ⟨b, L, ha, hk⟩ := bytes_att hm
    have ha' : Att { s with log := [], frames := fs } V.buf b L := ha
    have hk' : mem { s with log := [], frames := fs } b = some m := hk
    obtain ⟨m', m1, m2, -⟩ := typed_mem hI ⟨hV, hty⟩ ha'
    rw [hk'] at m1
    cases m1
    rw [if_neg (by rw [attached_ok ha']; decide)] at e0
    obtain ⟨z, hz, -⟩ := Raw.store_spec (F := F) hw
    rcases fillLoop_spec (F := F) (le := le) (x := w) (ty := ty) (final - k) k _ m ha' hk' m2 with h | ⟨s1, m1, f1, f2, -, t1, f3, f4⟩
    · exact absurd h (fillLoop_cast hz _ _ _ m ha' hk' m2)
    · rw [f1] at e0
      obtain ⟨m'', g1, g2, -⟩ := t1.mem hk'
      rw [f2] at g1
      cases g1
      refine ⟨s1, m1, e0, t1.frames, att_bytes (k := b) (L := L) (by unfold Att; rw [t1.bufs]; exact ha) f2, g2, fun i h1 h2 => ?_, fun j hj => f4 j ?_⟩
      · obtain ⟨z', hz', hb⟩ := f3 (i - k) (by omega) (by omega)
        rw [show k + (i - k) = i by omega] at hb
        exact stored_of hz' (fits_wf hw) hb
      · by_cases hc : final ≤ k
        · rw [show final - k = 0 by omega, Nat.add_zero]
          omega
        · rw [show k + (final - k) = final by omega]
          omega

/-- **C65**, `fill(w, start, end)` and `fill(w, start)`; the value has been converted before. -/
theorem C65_fill (hs : Reached F le s) {v : Nat} {V : View} {ty : Ty} (hV : s.views[v]? = some V) (hty : V.ty = some ty) {fs : List Frame} {x : Num} {k : Nat}
    (hx : Clamp V.alen x k) :
    (∀ w a, s.frames = .fillEnd v w a :: fs → Fills F le s (.ret (.num x)) fs v V ty w a k) ∧
    (∀ w, s.frames = .fillStart v false w :: fs → Fills F le s (.ret (.num x)) fs v V ty w k V.alen) := by
  have hT : typed { s with log := [], frames := fs } v = some (V, ty) := typed_iff.2 ⟨hV, hty⟩
  have hr := clamp_rel hx
  have hk : k ≤ V.alen := by rw [← hr]; exact rel_le _ _
  refine ⟨fun w a hf => ?_, fun w hf => ?_⟩
  · refine fills_of hs hf rfl hV hty hk ?_
    rw [step_ret hf]
    simp [resume, onTyped, hT, onNum, hr]
  · refine fills_of hs hf rfl hV hty (Nat.le_refl _) ?_
    rw [step_ret hf]
    simp [resume, onTyped, hT, onNum, hr]

/-! ### set -/

/-- An offset which is negative. -/
def Negative (x : Num) : Prop := Integer x none true ∨ ∃ i neg, Integer x (some i) neg ∧ i < 0
/-- An offset `i`; `none` for infinity. -/
def Offset (x : Num) : Option Nat → Prop
  | none => Integer x none false
  | some i => ∃ neg, Integer x (some (i : Int)) neg

theorem negative_ioi {x : Num} (h : Negative x) : ioi x = .ninf ∨ ∃ i, ioi x = .fin i ∧ i < 0 := by
  have hi := integer_ioi x
  cases hx : ioi x with
  | ninf => exact Or.inl rfl
  | pinf =>
    rw [hx] at hi
    rcases h with h | ⟨i, neg, h, -⟩
    · exact absurd ((integer_unique hi h).2 rfl) (by decide)
    · exact absurd (integer_unique hi h).1 (by simp)
  | fin j =>
    rw [hx] at hi
    obtain ⟨neg', hi⟩ := hi
    rcases h with h | ⟨i, neg, h, hneg⟩
    · exact absurd (integer_unique hi h).1 (by simp)
    · have := (integer_unique hi h).1
      cases this
      exact Or.inr ⟨j, rfl, hneg⟩

theorem offset_ioi {x : Num} {o : Option Nat} (h : Offset x o) : (o = none ∧ ioi x = .pinf) ∨ ∃ i : Nat, o = some i ∧ ioi x = .fin i := by
  have hi := integer_ioi x
  cases o with
  | none =>
    have h : Integer x none false := h
    refine Or.inl ⟨rfl, ?_⟩
    cases hx : ioi x with
    | pinf => rfl
    | ninf => rw [hx] at hi; exact absurd ((integer_unique hi h).2 rfl) (by decide)
    | fin j =>
      rw [hx] at hi
      obtain ⟨neg', hi⟩ := hi
      exact absurd (integer_unique hi h).1 (by simp)
  | some i =>
    obtain ⟨neg, h⟩ := h
    refine Or.inr ⟨i, rfl, ?_⟩
    cases hx : ioi x with
    | pinf => rw [hx] at hi; exact absurd (integer_unique hi h).1 (by simp)
    | ninf => rw [hx] at hi; exact absurd (integer_unique hi h).1 (by simp)
    | fin j =>
      rw [hx] at hi
      obtain ⟨neg', hi⟩ := hi
      have := (integer_unique hi h).1
      cases this
      rfl

theorem offset_or (x : Num) : Negative x ∨ ∃ o, Offset x o := by
  have hi := integer_ioi x
  cases hx : ioi x with
  | pinf => rw [hx] at hi; exact Or.inr ⟨none, hi⟩
  | ninf => rw [hx] at hi; exact Or.inl (Or.inl hi)
  | fin j =>
    rw [hx] at hi
    obtain ⟨neg, hi⟩ := hi
    by_cases hj : j < 0
    · exact Or.inl (Or.inr ⟨j, neg, hi, hj⟩)
    · refine Or.inr ⟨some j.toNat, neg, ?_⟩
      rw [Int.toNat_of_nonneg (by omega)]
      exact hi

/-- Only one of the types is for BigInts. -/
def OtherKind (a b : Ty) : Prop := ¬ ((a = .bu64 ∨ a = .bi64) ↔ (b = .bu64 ∨ b = .bi64))

theorem otherKind_iff {a b : Ty} : OtherKind a b ↔ (isBig a != isBig b) = true := by
  cases a <;> cases b <;> simp [OtherKind, isBig]

/-- **C65**, `target.set(source, offset)`: the elements of the source, as they were before (also if
both arrays see the same memory), are converted to the elements of the target from the offset on, and
no other byte changes; or the conversion of some element is undefined (`C40_violated`). -/
theorem C65_set_partial (hs : Reached F le s) {t v : Nat} {T S : View} {tty sty : Ty} {fs : List Frame} (hf : s.frames = .setOff t v :: fs)
    (hT : s.views[t]? = some T) (htt : T.ty = some tty) (hS : s.views[v]? = some S) (hst : S.ty = some sty) (x : Num) :
    (Negative x → Ends F le s (.ret (.num x)) fs .rangeError) ∧
    ∀ o, Offset x o →
      ((Gone s T.buf ∨ Gone s S.buf) → Ends F le s (.ret (.num x)) fs .typeError) ∧
      ∀ mt ms, Bytes s T.buf mt → Bytes s S.buf ms →
        (o = none → Ends F le s (.ret (.num x)) fs .rangeError) ∧
        ∀ i, o = some i →
          (T.alen < S.alen + i → Ends F le s (.ret (.num x)) fs .rangeError) ∧
          (S.alen + i ≤ T.alen → OtherKind tty sty → Ends F le s (.ret (.num x)) fs .typeError) ∧
          (S.alen + i ≤ T.alen → ¬ OtherKind tty sty →
            (step F le s (.ret (.num x)) = .error .cast ∧ sty ≠ tty) ∨
            ∃ s' mt', step F le s (.ret (.num x)) = .ok (s', .undef) ∧ s'.frames = fs ∧ Bytes s' T.buf mt' ∧
              Copied F le sty tty ms S.off mt mt' (T.off + tty.size * i) S.alen ∧
              ∀ b m, Bytes s b m → ¬ SameMemory s b T.buf → Bytes s' b m) := by
  have hI := hs.inv.popped hf rfl
  have hT' : typed { s with log := [], frames := fs } t = some (T, tty) := typed_iff.2 ⟨hT, htt⟩
  have hS' : typed { s with log := [], frames := fs } v = some (S, sty) := typed_iff.2 ⟨hS, hst⟩
  have e0 : step F le s (.ret (.num x)) = setOff F le { s with log := [], frames := fs } t v x := by
    rw [step_ret hf]; rfl
  unfold setOff at e0
  rw [hT', hS'] at e0
  simp only at e0
  refine ⟨fun h => ?_, fun o ho => ?_⟩
  · rcases negative_ioi h with h | ⟨i, h, hi⟩
    · rw [h] at e0
      exact ends_of e0
    · rw [h] at e0
      simp only at e0
      rw [if_pos hi] at e0
      exact ends_of e0
  · have e1 : step F le s (.ret (.num x)) = setTyped F le { s with log := [], frames := fs } T S tty sty o := by
      rcases offset_ioi ho with ⟨rfl, h⟩ | ⟨i, rfl, h⟩
      · rw [h] at e0; exact e0
      · rw [h] at e0
        simp only at e0
        rw [if_neg (by omega)] at e0
        simpa using e0
    clear e0
    unfold setTyped at e1
    refine ⟨fun h => ?_, fun mt ms hmt hms => ?_⟩
    · by_cases hd : detached { s with log := [], frames := fs } T.buf = true
      · rw [if_pos hd] at e1
        exact ends_of e1
      · rw [if_neg hd] at e1
        rcases h with h | h
        · exact absurd (gone_detached (s := { s with log := [], frames := fs }) h) hd
        · rw [if_pos (gone_detached (s := { s with log := [], frames := fs }) h)] at e1
          exact ends_of e1
    · obtain ⟨tk, Lt, hat, htk⟩ := bytes_att hmt
      obtain ⟨sk, Ls, has, hsk⟩ := bytes_att hms
      have hat' : Att { s with log := [], frames := fs } T.buf tk Lt := hat
      have has' : Att { s with log := [], frames := fs } S.buf sk Ls := has
      have htk' : mem { s with log := [], frames := fs } tk = some mt := htk
      have hsk' : mem { s with log := [], frames := fs } sk = some ms := hsk
      rw [if_neg (by rw [attached_ok hat']; decide), if_neg (by rw [attached_ok has']; decide)] at e1
      refine ⟨fun h => ?_, fun i h => ⟨fun h1 => ?_, fun h1 h2 => ?_, fun h1 h2 => ?_⟩⟩
      · subst h
        exact ends_of e1
      · subst h
        simp only at e1
        rw [if_pos (by omega)] at e1
        exact ends_of e1
      · subst h
        simp only at e1
        rw [if_neg (by omega), if_pos (otherKind_iff.1 h2)] at e1
        exact ends_of e1
      · subst h
        simp only at e1
        rw [if_neg (by omega), if_neg (fun h => h2 (otherKind_iff.2 h)), blockOf_ok hat', blockOf_ok has'] at e1
        simp only at e1
        obtain ⟨m', q1, q2, -⟩ := typed_mem hI (typed_iff.1 hT') hat'
        rw [htk'] at q1
        cases q1
        obtain ⟨m', q1, q3, -⟩ := typed_mem hI (typed_iff.1 hS') has'
        rw [hsk'] at q1
        cases q1
        have f1 : tty.size * (i + S.alen) ≤ tty.size * T.alen := Nat.mul_le_mul_left _ (by omega)
        rw [Nat.mul_add] at f1
        have f2 : T.alen * tty.size = tty.size * T.alen := Nat.mul_comm _ _
        have f3 : i * tty.size = tty.size * i := Nat.mul_comm _ _
        have f4 : S.alen * sty.size = sty.size * S.alen := Nat.mul_comm _ _
        have hblen : S.blen = S.alen * sty.size := (hI.view v S hS).2.1 sty hst
        have hpos : i * tty.size + T.off = T.off + tty.size * i := by omega
        have hother : ∀ b m, Bytes s b m → ¬ SameMemory s b T.buf → ∃ k L, Att s b k L ∧ mem s k = some m ∧ k ≠ tk := by
          intro b m hb hn
          obtain ⟨k, L, p1, p2⟩ := bytes_att hb
          refine ⟨k, L, p1, p2, ?_⟩
          rintro rfl
          exact hn ⟨k, L, Lt, p1, hat⟩
        unfold cloneIf at e1
        by_cases heq : tk = sk
        · subst heq
          have hmm : ms = mt := Option.some.inj (hsk'.symm.trans htk')
          subst hmm
          rw [if_pos rfl] at e1
          have hlt : tk < s.blocks.length := att_block hI hat'
          have hold : mem (alloc { s with log := [], frames := fs } S.blen false) tk = some ms := alloc_mem_old hsk'
          have hnew := alloc_mem_new { s with log := [], frames := fs } S.blen false
          rcases copy_spec (tlo := 0) (slo := S.off) (n := S.blen) hnew hold (by simp) (by omega) with ⟨-, h⟩ | ⟨s', g1, g2, g3, g4⟩
          · exact absurd h (by simp only; omega)
          · rw [g1] at e1
            simp only at e1
            have hl2 : ((ms.drop S.off).take S.blen).length = S.blen := by simp; omega
            have ha' : (Raw.overwrite (List.replicate S.blen (0 : Byte)) 0 ((ms.drop S.off).take S.blen)).length = S.blen := by
              rw [Raw.overwrite_length (by simp)]; simp
            have hsl : slice (Raw.overwrite (List.replicate S.blen (0 : Byte)) 0 ((ms.drop S.off).take S.blen)) 0 (sty.size * S.alen) = slice ms S.off (sty.size * S.alen) := by
              have := overwrite_slice (m := List.replicate S.blen (0 : Byte)) (b := (ms.drop S.off).take S.blen) (lo := 0) (by simp)
              rw [hl2, hblen, f4] at this
              rw [hblen, f4]
              exact this
            have htk2 : mem s' tk = some ms := by
              rw [g3 tk (by simp only; omega)]
              exact hold
            have hbufs : ∀ b k L, Att s b k L → Att s' b k L := by
              intro b k L h
              unfold Att
              rw [g4.bufs]
              exact alloc_att.2 (Or.inl h)
            rcases transfer_copied (F := F) (le := le) (sp := 0) (sty := sty) (tp := i * tty.size + T.off) (tty := tty) (n := S.alen) g2 htk2
              (by rw [ha']; omega) (by omega) (by simp only; omega) with h | ⟨s'', mt', w1, w2, w3, w4, w5, w6, w7⟩
            · rw [h] at e1
              refine Or.inl ⟨e1, ?_⟩
              rintro rfl
              unfold transfer at h
              rw [if_pos rfl] at h
              rcases copy_spec htk2 g2 (tlo := i * sty.size + T.off) (slo := 0) (n := sty.size * S.alen) (by omega) (by rw [ha']; omega) with ⟨h', -⟩ | ⟨_, h', -⟩
              · rw [h'] at h; cases h
              · rw [h'] at h; cases h
            · rw [w1] at e1
              refine Or.inr ⟨s'', mt', e1, by rw [w6, g4.frames]; rfl, att_bytes (k := tk) (L := Lt) (by unfold Att; rw [w4]; exact hbufs _ _ _ hat) w2, ?_, ?_⟩
              · rw [← hpos]
                exact w7.clone hsl
              · intro b m hb hn
                obtain ⟨k, L, p1, p2, p3⟩ := hother b m hb hn
                refine att_bytes (k := k) (L := L) (by unfold Att; rw [w4]; exact hbufs _ _ _ p1) ?_
                have hk : k < s.blocks.length := att_block (s := { s with log := [], frames := fs }) hI p1
                rw [w3 k p3, g3 k (by simp only; omega)]
                exact alloc_mem_old p2
        · rw [if_neg heq] at e1
          simp only at e1
          rcases transfer_copied (F := F) (le := le) (sp := S.off) (sty := sty) (tp := i * tty.size + T.off) (tty := tty) (n := S.alen) hsk' htk'
              (by omega) (by omega) heq with h | ⟨s'', mt', w1, w2, w3, w4, w5, w6, w7⟩
          · rw [h] at e1
            refine Or.inl ⟨e1, ?_⟩
            rintro rfl
            unfold transfer at h
            rw [if_pos rfl] at h
            rcases copy_spec htk' hsk' (tlo := i * sty.size + T.off) (slo := S.off) (n := sty.size * S.alen) (by omega) (by omega) with ⟨h', -⟩ | ⟨_, h', -⟩
            · rw [h'] at h; cases h
            · rw [h'] at h; cases h
          · rw [w1] at e1
            refine Or.inr ⟨s'', mt', e1, by rw [w6], att_bytes (k := tk) (L := Lt) (by unfold Att; rw [w4]; exact hat) w2, ?_, ?_⟩
            · rw [← hpos]
              exact w7
            · intro b m hb hn
              obtain ⟨k, L, p1, p2, p3⟩ := hother b m hb hn
              refine att_bytes (k := k) (L := L) (by unfold Att; rw [w4]; exact p1) ?_
              rw [w3 k p3]
              exact p2

/-! ### The constructor with a typed array -/

/-- **C65**, `new TypedArray(source)`: a new buffer and a new array over all of it, which hold the
converted elements; no other memory changes. -/
theorem C65_construct_partial (hs : Reached F le s) {v : Nat} {S : View} {tty sty : Ty} {fs : List Frame} (hf : s.frames = .taTyped tty v :: fs)
    (hS : s.views[v]? = some S) (hst : S.ty = some sty) :
    (Gone s S.buf ∨ OtherKind tty sty → ∃ s', step F le s (.ret .done) = .ok (s', .typeError) ∧ s'.frames = fs ∧ s'.views = s.views) ∧
    ∀ ms, Bytes s S.buf ms → ¬ OtherKind tty sty →
      (step F le s (.ret .done) = .error .cast ∧ sty ≠ tty) ∨
      ∃ s' V mt', step F le s (.ret .done) = .ok (s', .view s.views.length) ∧ s'.frames = fs ∧ s'.views = s.views ++ [V] ∧
        V.buf = s.bufs.length ∧ V.off = 0 ∧ V.alen = S.alen ∧ V.blen = S.alen * tty.size ∧ V.ty = some tty ∧
        Bytes s' s.bufs.length mt' ∧ mt'.length = tty.size * S.alen ∧ ¬ Shared s' s.bufs.length ∧
        (∃ mt, Copied F le sty tty ms S.off mt mt' 0 S.alen) ∧ ∀ b m, Bytes s b m → Bytes s' b m := by
  have hI := hs.inv.popped hf rfl
  have hS' : typed { s with log := [], frames := fs } v = some (S, sty) := typed_iff.2 ⟨hS, hst⟩
  have e0 : step F le s (.ret .done) = initTyped F le { s with log := [], frames := fs } v tty := by
    rw [step_ret hf]; rfl
  unfold initTyped at e0
  rw [hS'] at e0
  simp only at e0
  have hbuf : S.buf < s.bufs.length := (hI.view v S hS).1
  refine ⟨fun h => ?_, fun ms hms hk => ?_⟩
  · by_cases hd : detached (alloc { s with log := [], frames := fs } (tty.size * S.alen) false) S.buf = true
    · rw [if_pos hd] at e0
      exact ⟨_, e0, rfl, rfl⟩
    · rw [if_neg hd] at e0
      rcases h with h | h
      · obtain ⟨k, L, ha⟩ := not_detached hd
        exact absurd ((alloc_ext { s with log := [], frames := fs } (tty.size * S.alen) false).bufs _ _ _ hbuf ha) (h k L)
      · rw [if_pos (otherKind_iff.1 h)] at e0
        exact ⟨_, e0, rfl, rfl⟩
  · obtain ⟨sk, Ls, has, hsk⟩ := bytes_att hms
    have has' : Att { s with log := [], frames := fs } S.buf sk Ls := has
    have hsk' : mem { s with log := [], frames := fs } sk = some ms := hsk
    have ha1 : Att (alloc { s with log := [], frames := fs } (tty.size * S.alen) false) S.buf sk Ls := alloc_att.2 (Or.inl has')
    rw [if_neg (by rw [attached_ok ha1]; decide), if_neg (fun h => hk (otherKind_iff.2 h)), blockOf_ok ha1] at e0
    simp only at e0
    obtain ⟨m', q1, q3, -⟩ := typed_mem hI (typed_iff.1 hS') has'
    rw [hsk'] at q1
    cases q1
    have f4 : S.alen * sty.size = sty.size * S.alen := Nat.mul_comm _ _
    have hlt : sk < s.blocks.length := att_block hI has'
    have hold := alloc_mem_old (n := tty.size * S.alen) (sh := false) hsk'
    have hnew := alloc_mem_new { s with log := [], frames := fs } (tty.size * S.alen) false
    rcases transfer_copied (F := F) (le := le) (sp := S.off) (sty := sty) (tp := 0) (tty := tty) (n := S.alen) hold hnew
        (by omega) (by simp) (by simp only; omega) with h | ⟨s'', mt', w1, w2, w3, w4, w5, w6, w7⟩
    · rw [h] at e0
      refine Or.inl ⟨e0, ?_⟩
      rintro rfl
      unfold transfer at h
      rw [if_pos rfl] at h
      rcases copy_spec hnew hold (tlo := 0) (slo := S.off) (n := sty.size * S.alen) (by simp) (by omega) with ⟨h', -⟩ | ⟨_, h', -⟩
      · rw [h'] at h; cases h
      · rw [h'] at h; cases h
    · rw [w1] at e0
      simp only [addView] at e0
      right
      have hnb : Att s'' s.bufs.length s.blocks.length (tty.size * S.alen) := by
        unfold Att
        rw [w4]
        simp [alloc]
      refine ⟨_, ⟨s.bufs.length, 0, tty.size * S.alen, S.alen, some tty⟩, mt', by rw [e0, w5]; rfl, by simp only; rw [w6]; rfl, rfl, rfl, rfl, rfl, Nat.mul_comm _ _, rfl,
        ?_, ?_, ?_, ⟨_, w7⟩, ?_⟩
      · exact att_bytes (s := { s'' with views := _ }) (k := s.blocks.length) (L := tty.size * S.alen) hnb w2
      · rw [w7.1]; simp
      · rintro ⟨k, L, B, p1, p2, p3⟩
        have p1 : s''.bufs[s.bufs.length]? = some ⟨some k, L⟩ := p1
        have p2 : s''.blocks[k]? = some B := p2
        have hnb' : s''.bufs[s.bufs.length]? = some ⟨some s.blocks.length, tty.size * S.alen⟩ := hnb
        rw [hnb'] at p1
        simp only [Option.some.injEq, Buf.mk.injEq] at p1
        obtain ⟨rfl, -⟩ := p1
        rcases transfer_spec (F := F) (le := le) (sp := S.off) (sty := sty) (tp := 0) (tty := tty) (n := S.alen) hold hnew
          (by omega) (by simp) (by simp only; omega) with h | ⟨s3, m3, g1, -, -, g2, -⟩
        · rw [w1] at h; cases h
        · rw [w1] at g1
          cases g1
          obtain ⟨B', b1, -, b2, -⟩ := g2.blocks s.blocks.length ⟨1, some (List.replicate (tty.size * S.alen) 0), false⟩ (by simp [alloc])
          rw [p2] at b1
          cases b1
          rw [b2] at p3
          cases p3
      · intro b m hb
        obtain ⟨k, L, p1, p2⟩ := bytes_att hb
        have hk : k < s.blocks.length := att_block (s := { s with log := [], frames := fs }) hI p1
        refine att_bytes (s := { s'' with views := _ }) (k := k) (L := L) ?_ ?_
        · show s''.bufs[b]? = _
          rw [w4]
          exact alloc_att.2 (Or.inl p1)
        · show mem s'' k = _
          rw [w3 k (by simp only; omega)]
          exact alloc_mem_old p2

/-! ### slice -/

/-- **C65**, `slice`, when the species constructor has returned the array `t`: the TypeErrors, and
the elements in the new array.  Partial: nothing is said about arrays of different types over the
same memory; the same memory and type with an overlap, or shared, is `C65_violated`; and the
conversion of an element may be undefined (`C40_violated`). -/
theorem C65_slice_partial (hs : Reached F le s) {v k final t : Nat} {V : View} {sty : Ty} {fs : List Frame} (hf : s.frames = .slSpecies v k final :: fs)
    (hV : s.views[v]? = some V) (hst : V.ty = some sty) :
    ((∀ T, s.views[t]? = some T → T.ty = none) → Ends F le s (.ret (.view t)) fs .typeError) ∧
    ∀ T tty, s.views[t]? = some T → T.ty = some tty →
      (Gone s T.buf ∨ T.alen < final - k ∨ OtherKind sty tty ∨ (k < final ∧ Gone s V.buf) → Ends F le s (.ret (.view t)) fs .typeError) ∧
      (¬ Gone s T.buf → final - k ≤ T.alen → ¬ OtherKind sty tty → final ≤ k → Ends F le s (.ret (.view t)) fs (.view t)) ∧
      ∀ mt ms, Bytes s T.buf mt → Bytes s V.buf ms → final - k ≤ T.alen → ¬ OtherKind sty tty → k < final →
        (¬ SameMemory s T.buf V.buf ∨ (sty = tty ∧ ¬ Shared s V.buf ∧
            (T.off + sty.size * (final - k) ≤ V.off + sty.size * k ∨ V.off + sty.size * final ≤ T.off))) →
        (step F le s (.ret (.view t)) = .error .cast ∧ sty ≠ tty) ∨
        ∃ s' mt', step F le s (.ret (.view t)) = .ok (s', .view t) ∧ s'.frames = fs ∧ Bytes s' T.buf mt' ∧
          Copied F le sty tty ms (V.off + sty.size * k) mt mt' T.off (final - k) ∧
          ∀ b m, Bytes s b m → ¬ SameMemory s b T.buf → Bytes s' b m := by
  have hI := hs.inv.popped hf rfl
  have hV' : typed { s with log := [], frames := fs } v = some (V, sty) := typed_iff.2 ⟨hV, hst⟩
  obtain ⟨V0, ty0, hV0, hk, hfin⟩ : FrameOk s (.slSpecies v k final) := hs.inv.frame _ (by rw [hf]; exact List.mem_cons_self)
  have hVV := hV0.1
  rw [hV] at hVV
  cases hVV
  have e0 : step F le s (.ret (.view t)) = slFinish F le { s with log := [], frames := fs } v k final t := by
    rw [step_ret hf]; rfl
  unfold slFinish at e0
  rw [hV'] at e0
  simp only at e0
  refine ⟨fun h => ?_, fun T tty hT htt => ?_⟩
  · have : typed { s with log := [], frames := fs } t = none := by
      cases ht : typed { s with log := [], frames := fs } t with
      | none => rfl
      | some p =>
        obtain ⟨T, tty⟩ := p
        have h1 := typed_iff.1 ht
        have h2 := h T h1.1
        rw [h1.2] at h2
        cases h2
    rw [this] at e0
    exact ends_of e0
  · have hT' : typed { s with log := [], frames := fs } t = some (T, tty) := typed_iff.2 ⟨hT, htt⟩
    rw [hT'] at e0
    simp only at e0
    refine ⟨fun h => ?_, fun h1 h2 h3 h4 => ?_, fun mt ms hmt hms h2 h3 h4 hsep => ?_⟩
    · split at e0
      · exact ends_of e0
      next c1 =>
      split at e0
      · exact ends_of e0
      next c2 =>
      split at e0
      · exact ends_of e0
      next c3 =>
      rcases h with h | h | h | ⟨h, h'⟩
      · exact absurd (gone_detached (s := { s with log := [], frames := fs }) h) c1
      · omega
      · exact absurd (otherKind_iff.1 h) c3
      · rw [if_pos (by omega), if_pos (gone_detached (s := { s with log := [], frames := fs }) h')] at e0
        exact ends_of e0
    · have hd : ¬ detached { s with log := [], frames := fs } T.buf = true := fun hd => h1 (detached_true hd)
      rw [if_neg hd, if_neg (by omega), if_neg (fun h => h3 (otherKind_iff.2 h)), if_neg (by omega)] at e0
      exact ends_of e0
    · obtain ⟨tk, Lt, hat, htk⟩ := bytes_att hmt
      obtain ⟨sk, Ls, has, hsk⟩ := bytes_att hms
      have hat' : Att { s with log := [], frames := fs } T.buf tk Lt := hat
      have has' : Att { s with log := [], frames := fs } V.buf sk Ls := has
      have htk' : mem { s with log := [], frames := fs } tk = some mt := htk
      have hsk' : mem { s with log := [], frames := fs } sk = some ms := hsk
      rw [if_neg (by rw [attached_ok hat']; decide), if_neg (by omega), if_neg (fun h => h3 (otherKind_iff.2 h)), if_pos (by omega), if_neg (by rw [attached_ok has']; decide)] at e0
      obtain ⟨m', q1, q2, -⟩ := typed_mem hI (typed_iff.1 hT') hat'
      rw [htk'] at q1
      cases q1
      obtain ⟨m', q1, q3, -⟩ := typed_mem hI (typed_iff.1 hV') has'
      rw [hsk'] at q1
      cases q1
      have hother : ∀ s'' : State, s''.bufs = s.bufs → (∀ j, j ≠ tk → mem s'' j = mem { s with log := [], frames := fs } j) →
          ∀ b m, Bytes s b m → ¬ SameMemory s b T.buf → Bytes s'' b m := by
        intro s'' w1 w2 b m hb hn
        obtain ⟨j, L, p1, p2⟩ := bytes_att hb
        refine att_bytes (k := j) (L := L) (by unfold Att; rw [w1]; exact p1) ?_
        rw [w2 j ?_]
        · exact p2
        · rintro rfl
          exact hn ⟨j, L, Lt, p1, hat⟩
      by_cases hty : sty = tty
      · subst hty
        rw [if_neg (by simp), blockOf_ok hat', blockOf_ok has'] at e0
        simp only at e0
        have hnd : ¬ (tk = sk ∧ isShared { s with log := [], frames := fs } V.buf = true) := by
          rintro ⟨rfl, hsh⟩
          rcases hsep with h | ⟨-, h, -⟩
          · exact h ⟨tk, Lt, Ls, hat, has⟩
          · exact h (shared_iff (s := { s with log := [], frames := fs }).1 hsh)
        rw [if_neg hnd] at e0
        have g1 : sty.size * (k + (final - k)) ≤ sty.size * V.alen := Nat.mul_le_mul_left _ (by omega)
        have g2 : sty.size * (final - k) ≤ sty.size * T.alen := Nat.mul_le_mul_left _ (by omega)
        have g0 : k + (final - k) = final := by omega
        have g3 : sty.size * final = sty.size * k + sty.size * (final - k) := by rw [← Nat.mul_add, g0]
        rw [g0] at g1
        have c1 : (final - k) * sty.size = sty.size * (final - k) := Nat.mul_comm _ _
        have c2 : k * sty.size = sty.size * k := Nat.mul_comm _ _
        have c3 : V.alen * sty.size = sty.size * V.alen := Nat.mul_comm _ _
        have c4 : T.alen * sty.size = sty.size * T.alen := Nat.mul_comm _ _
        rw [c1, c2] at e0
        have hno : copy { s with log := [], frames := fs } tk T.off sk (V.off + sty.size * k) (sty.size * (final - k)) =
            move { s with log := [], frames := fs } tk T.off sk (V.off + sty.size * k) (sty.size * (final - k)) := by
          unfold copy
          rw [if_neg]
          rintro ⟨rfl, a1, a2, a3⟩
          rcases hsep with h | ⟨-, -, h⟩
          · exact h ⟨tk, Lt, Ls, hat, has⟩
          · omega
        obtain ⟨s1, f1, f2, f3, t1⟩ := move_spec (tk := tk) (tlo := T.off) (sk := sk) (slo := V.off + sty.size * k) (n := sty.size * (final - k)) htk' hsk' (by omega) (by omega)
        rw [hno, f1] at e0
        have hl : ((ms.drop (V.off + sty.size * k)).take (sty.size * (final - k))).length = sty.size * (final - k) := by simp; omega
        refine Or.inr ⟨s1, _, e0, t1.frames, att_bytes (k := tk) (L := Lt) (by unfold Att; rw [t1.bufs]; exact hat) f2, ⟨Raw.overwrite_length (by rw [hl]; omega), fun j hj => ?_, fun _ j hj => ?_, fun h => absurd rfl h⟩, ?_⟩
        · exact Raw.overwrite_out (by rw [hl]; omega) (by rw [hl]; omega)
        · have := overwrite_slice (m := mt) (b := (ms.drop (V.off + sty.size * k)).take (sty.size * (final - k))) (lo := T.off) (by rw [hl]; omega)
          rw [hl] at this
          exact slice_get this hj
        · exact hother s1 t1.bufs f3
      · rw [if_pos hty] at e0
        have hne : sk ≠ tk := by
          rintro rfl
          rcases hsep with h | ⟨h, -⟩
          · exact h ⟨sk, Lt, Ls, hat, has⟩
          · exact hty h
        rcases sliceLoop_spec (F := F) (le := le) (final - k) k 0 _ ms mt has' hat' hsk' htk' q3 q2 with h | ⟨s1, m1, f1, f2, f3, t1, f4, f5⟩
        · rw [h] at e0
          exact Or.inl ⟨e0, hty⟩
        · rw [f1] at e0
          obtain ⟨m2, a1, a2, -⟩ := t1.mem htk'
          rw [f2] at a1
          cases a1
          refine Or.inr ⟨s1, m1, e0, t1.frames, att_bytes (k := tk) (L := Lt) (by unfold Att; rw [t1.bufs]; exact hat) f2, ⟨a2, fun j hj => f4 j ?_, fun h => absurd h hty, fun _ j hj => ?_⟩, hother s1 t1.bufs f3⟩
          · rw [Nat.mul_zero, Nat.zero_add]
            omega
          · obtain ⟨w, z, b1, b2, b3⟩ := f5 hne j hj (by omega) (by omega)
            rw [Nat.zero_add] at b3
            rw [Nat.mul_add, ← Nat.add_assoc] at b1
            exact moved_of b1 b2 b3

/-! ### Examples -/

/-- A Uint8Array with the elements 0 to 3. -/
def four : List Ev :=
  [.newBuf 4 false, .call (.taBuffer .u8 0 false), .ret .done, .ret (.num (int 0)),
   .call (.elemSet 0 (int 1)), .ret (.val (.num 0x3ff0000000000000)), .call (.elemSet 0 (int 2)), .ret (.val (.num 0x4000000000000000)),
   .call (.elemSet 0 (int 3)), .ret (.val (.num 0x4008000000000000))]

/-- `copyWithin(1, 0, -1)` moves 0, 1, 2 by one, although the parts overlap. -/
example (F : Fpu) : ∃ s s', run F true init (four ++ [.call (.copyWithin 0 true), .ret (.num (int 1)), .ret (.num (int 0))]) = .ok s ∧
    s.frames = [.cwEnd 0 1 0] ∧ Bytes s 0 [0, 1, 2, 3] ∧ step F true s (.ret (.num (.fin true 1 0))) = .ok (s', .view 0) ∧ Bytes s' 0 [0, 0, 1, 2] :=
  ⟨_, _, rfl, rfl, ⟨0, 4, _, rfl, rfl, rfl⟩, rfl, ⟨0, 4, _, rfl, rfl, rfl⟩⟩

/-- `fill(1, 2)`. -/
example (F : Fpu) : ∃ s s', run F true init (four ++ [.call (.fill 0 false), .ret (.val (.num 0x3ff0000000000000))]) = .ok s ∧
    s.frames = [.fillStart 0 false (.num 0x3ff0000000000000)] ∧ step F true s (.ret (.num (int 2))) = .ok (s', .view 0) ∧ Bytes s' 0 [0, 1, 1, 1] :=
  ⟨_, _, rfl, rfl, rfl, ⟨0, 4, _, rfl, rfl, rfl⟩⟩

/-- `set` from the first two elements, seen as Int8Array, to the place 1 of the same memory: with
the elements as they were before. -/
example (F : Fpu) : ∃ s s', run F true init (four ++ [.call (.taBuffer .i8 0 true), .ret .done, .ret (.num (int 0)), .ret (.num (int 3)), .call (.setFrom 0 1)]) = .ok s ∧
    s.frames = [.setOff 0 1] ∧ step F true s (.ret (.num (int 1))) = .ok (s', .undef) ∧ Bytes s' 0 [0, 0, 1, 2] :=
  ⟨_, _, rfl, rfl, rfl, ⟨0, 4, _, rfl, rfl, rfl⟩⟩

/-- `new Uint16Array(array)`. -/
example (F : Fpu) : ∃ s s', run F true init (four ++ [.call (.taTyped .u16 0)]) = .ok s ∧
    s.frames = [.taTyped .u16 0] ∧ step F true s (.ret .done) = .ok (s', .view 1) ∧ Bytes s' 1 [0, 0, 1, 0, 2, 0, 3, 0] ∧ Bytes s' 0 [0, 1, 2, 3] :=
  ⟨_, _, rfl, rfl, rfl, ⟨1, 8, _, rfl, rfl, rfl⟩, ⟨0, 4, _, rfl, rfl, rfl⟩⟩

/-- `slice(1, 3)` into a new array of length 2. -/
example (F : Fpu) : ∃ s s', run F true init (four ++ [.call (.slice 0 true), .ret (.num (int 1)), .ret (.num (int 3)),
      .call (.taLength .u8), .ret (.num (int 2)), .ret .done]) = .ok s ∧
    s.frames = [.slSpecies 0 1 3] ∧ step F true s (.ret (.view 1)) = .ok (s', .view 1) ∧ Bytes s' 1 [1, 2] ∧ Bytes s' 0 [0, 1, 2, 3] :=
  ⟨_, _, rfl, rfl, rfl, ⟨1, 2, _, rfl, rfl, rfl⟩, ⟨0, 4, _, rfl, rfl, rfl⟩⟩

end Verif.Buffer

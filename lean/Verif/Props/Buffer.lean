import Verif.Lemmas.BufferArgs
/-
C41 and C54: data views, typed arrays and `Atomics` stay inside of the memory they see.
-/
namespace Verif.Buffer
open NumConv Spec
open Raw (Byte Ty Val Fpu Stored Fits)
open Raw.Spec (IsInt Means element)

variable {F : Fpu} {le : Bool} {s : State}

/-- Some execution leads to the state. -/
def Reached (F : Fpu) (le : Bool) (s : State) : Prop := ∃ es, run F le init es = .ok s

theorem Reached.inv (h : Reached F le s) : Inv s := by
  obtain ⟨es, h⟩ := h
  exact inv_run inv_init h

/-- The operation ends with `r`, and nothing has been touched. -/
def Ends (F : Fpu) (le : Bool) (s : State) (e : Ev) (fs : List Frame) (r : Res) : Prop :=
  ∃ s', step F le s e = .ok (s', r) ∧ s'.frames = fs ∧ Unchanged s s'

/-- The operation is suspended with these frames, and nothing has been touched. -/
def Goes (F : Fpu) (le : Bool) (s : State) (e : Ev) (fs : List Frame) : Prop := Ends F le s e fs .pending

/-! ### C41: every access -/

/-- **C41**: in every execution, with calls back and detachments at any point, every byte that an
operation touches belongs to the part of the buffer that its view sees (`mayRead`, `mayWrite`; or to
memory which it has just allocated), and no other byte changes. -/
theorem C41_inside (hs : Reached F le s) (e : Ev) {s' : State} {r : Res} (h : step F le s e = .ok (s', r)) :
    Within (join (join (mayRead s e) (mayWrite s e)) (fresh s)) s' ∧ Kept (mayWrite s e) s s' := by
  have hg := good_step (F := F) (le := le) (e := e) hs.inv
  rw [h] at hg
  exact hg.2

/-- **C41**: nothing outside of a data block is ever accessed; a detached buffer, or freed memory,
only by the `Atomics` functions of `C54_violated`. -/
theorem C41_faults (hs : Reached F le s) (e : Ev) {f : Fault} (h : step F le s e = .error f) :
    f ≠ .bounds ∧
    (f = .null → ∃ v op fs r, s.frames = .atIdx v op :: fs ∧ e = .ret r) ∧
    (f = .freed → ∃ ty op k pos fs r, s.frames = .atVal ty op k pos :: fs ∧ e = .ret r) := by
  have hg := good_step (F := F) (le := le) (e := e) hs.inv
  rw [h] at hg
  refine ⟨?_, ?_, ?_⟩
  · rintro rfl; exact hg
  · rintro rfl
    obtain ⟨r, v, op, fs, V, h1, h2, -⟩ := hg
    exact ⟨v, op, fs, r, h2, h1⟩
  · rintro rfl
    obtain ⟨r, ty, op, k, pos, fs, h1, h2, -⟩ := hg
    exact ⟨ty, op, k, pos, fs, r, h2, h1⟩

/-- What a view sees is inside of the memory of its buffer, as long as there is one. -/
theorem C41_view (hs : Reached F le s) {v : Nat} {V : View} (hV : s.views[v]? = some V) {m : List Byte} (hm : Bytes s V.buf m) :
    V.off + V.blen ≤ m.length ∧ ∀ ty, V.ty = some ty → V.blen = V.alen * ty.size := by
  have hI := hs.inv
  obtain ⟨k, L, ha, hk⟩ := bytes_att hm
  obtain ⟨m', h1, h2⟩ := hI.att ha
  rw [hk] at h1
  cases h1
  obtain ⟨-, b, c⟩ := hI.view v V hV
  exact ⟨by rw [h2]; exact c k L ha, b⟩

/-- The regions in the frames of a sort and of `Atomics` are those of the view they were called on. -/
theorem C41_sort_region (hs : Reached F le s) {v : Nat} {s' : State} {r : Res} (h : step F le s (.call (.sort v)) = .ok (s', r))
    {k off n es : Nat} {fs : List Frame} (hp : r = .pending) (hf : s'.frames = .sort k off n es :: fs) (j i : Nat) :
    part k off (n * es) j i ↔ ofView s v j i := by
  have hI := hs.inv.log []
  subst hp
  simp only [step, begin, sortBegin] at h
  split at h
  next V ty hV =>
    split at h
    · cases h
    next hd =>
    obtain ⟨k', L, ha⟩ := not_detached hd
    rw [blockOf_ok ha] at h
    simp only [push, Except.ok.injEq, Prod.mk.injEq] at h
    rw [← h.1] at hf
    simp only [List.cons.injEq, Frame.sort.injEq] at hf
    obtain ⟨⟨rfl, rfl, rfl, rfl⟩, -⟩ := hf
    have hT := typed_iff.1 hV
    have hb := (hI.view v V hT.1).2.1 ty hT.2
    have ha' : s.bufs[V.buf]? = some ⟨some k', L⟩ := ha
    constructor
    · rintro ⟨rfl, h1, h2⟩
      exact ⟨V, hT.1, ⟨L, ha⟩, h1, by omega⟩
    · rintro ⟨V', hV', ⟨L', ha''⟩, h1, h2⟩
      have hVV : V' = V := by
        have := hT.1
        have hV' : s.views[v]? = some V' := hV'
        rw [show ({ s with log := [] } : State).views = s.views from rfl, hV'] at this
        exact Option.some.inj this
      subst hVV
      rw [ha'] at ha''
      simp only [Option.some.injEq, Buf.mk.injEq] at ha''
      exact ⟨ha''.1.symm, h1, by omega⟩
  · cases h

theorem step_ret {f : Frame} {fs : List Frame} (hf : s.frames = f :: fs) (r : Ret) :
    step F le s (.ret r) = resume F le { s with log := [], frames := fs } f r := by
  simp only [step, hf]

theorem ends_of {fs : List Frame} {e : Ev} {r : Res} (h : step F le s e = .ok ({ s with log := [], frames := fs }, r)) : Ends F le s e fs r :=
  ⟨_, h, rfl, rfl, rfl, rfl, rfl⟩

theorem Inv.popped {f : Frame} {fs : List Frame} (hI : Inv s) (hf : s.frames = f :: fs) (hns : isSort f = false) :
    Inv { s with log := [], frames := fs } := by
  have hf' : State.frames { s with log := [] } = f :: fs := hf
  exact ((hI.log []).pop hf' hns).1

theorem C54_region (hs : Reached F le s) {v : Nat} {op : Rmw} {fs : List Frame} (hf : s.frames = .atIdx v op :: fs) {x : Ret}
    {s' : State} {r : Res} (h : step F le s (.ret x) = .ok (s', r)) {ty : Ty} {op' : Rmw} {k pos : Nat} (hp : r = .pending)
    (hf' : s'.frames = .atVal ty op' k pos :: fs) (j i : Nat) (hj : part k pos ty.size j i) : ofView s v j i := by
  subst hp
  have hI := hs.inv.popped hf rfl
  rw [step_ret hf] at h
  simp only [resume, onTyped] at h
  split at h
  next V ty' hV =>
    have hT := typed_iff.1 hV
    unfold onNum at h
    split at h
    next n =>
      unfold atIdx at h
      split at h
      · cases h
      next i' _ =>
      split at h
      · cases h
      next hlt =>
      split at h
      · cases h
      next k' hk =>
      simp only [push, Except.ok.injEq, Prod.mk.injEq] at h
      rw [← h.1] at hf'
      simp only [List.cons.injEq, Frame.atVal.injEq] at hf'
      obtain ⟨⟨rfl, rfl, rfl, rfl⟩, -⟩ := hf'
      unfold blockOf at hk
      split at hk
      next k'' L ha =>
        cases hk
        obtain ⟨m, m1, m2, m3⟩ := typed_mem hI hT ha
        exact m3 j i (part_elem (by omega) j i hj)
      · cases hk
    · unfold wrong at h
      split at h
      · simp at h
      · simp at h
  · simp at h

/-! ### C41: data views -/

/-- **C41**, `DataView.prototype.get...`, when the index has been converted to the number `x`: the
RangeErrors and the TypeError, and otherwise the value of exactly the bytes asked for.  (Excluded is
the element `-2 ^ 63` of `getBigInt64`, see `C40_violated`.) -/
theorem C41_get (hs : Reached F le s) {v : Nat} {V : View} {ty : Ty} {little : Bool} {fs : List Frame} (hf : s.frames = .dvGet v ty little :: fs)
    (hV : s.views[v]? = some V) (hd : V.ty = none) (x : Num) :
    (NoIndex x → Ends F le s (.ret (.num x)) fs .rangeError) ∧
    ∀ i, Index x i →
      (Gone s V.buf → Ends F le s (.ret (.num x)) fs .typeError) ∧
      ∀ m, Bytes s V.buf m →
        (V.blen < i + ty.size → Ends F le s (.ret (.num x)) fs .rangeError) ∧
        (i + ty.size ≤ V.blen → (ty = .bi64 → element m (V.off + i) 8 little ≠ 2 ^ 63) →
          ∃ s' w, step F le s (.ret (.num x)) = .ok (s', .val w) ∧ s'.frames = fs ∧ s'.blocks = s.blocks ∧
            Means F ty (element m (V.off + i) ty.size little) w) := by
  have hI := hs.inv.popped hf rfl
  have hdv : dview { s with log := [], frames := fs } v = some V := by simp [dview, hV, hd]
  have e0 : step F le s (.ret (.num x)) = dvGet F { s with log := [], frames := fs } v ty little x := by
    rw [step_ret hf]; rfl
  unfold dvGet at e0
  rw [hdv] at e0
  simp only at e0
  refine ⟨fun h => ?_, fun i hi => ?_⟩
  · rw [noIndex_toIndex h] at e0
    exact ends_of e0
  · rw [index_toIndex hi] at e0
    simp only at e0
    refine ⟨fun h => ?_, fun m hm => ?_⟩
    · rw [if_pos (gone_detached (s := { s with log := [], frames := fs }) h)] at e0
      exact ends_of e0
    · obtain ⟨k, L, ha, hk⟩ := bytes_att hm
      have ha' : Att { s with log := [], frames := fs } V.buf k L := ha
      have hk' : mem { s with log := [], frames := fs } k = some m := hk
      obtain ⟨m', m1, m2, -⟩ := dview_mem hI hV ha'
      rw [hk'] at m1
      cases m1
      rw [if_neg (by rw [attached_ok ha']; decide)] at e0
      refine ⟨fun h => ?_, fun h hx => ?_⟩
      · rw [if_pos (by omega)] at e0
        exact ends_of e0
      · rw [if_neg (by omega), blockOf_ok ha'] at e0
        simp only at e0
        obtain ⟨w, w1, w2⟩ := Raw.C40_read_partial F m (V.off + i) ty little (by omega) hx
        rcases getAt_spec (F := F) (little := little) (pos := i + V.off) (ty := ty) hk' (by omega) with ⟨-, h2⟩ | ⟨s', w', e1, e2, e3, t⟩
        · rw [Nat.add_comm i V.off, w1] at h2
          cases h2
        · rw [Nat.add_comm i V.off, w1] at e2
          cases e2
          rw [e1] at e0
          exact ⟨s', w, e0, t.frames, e3, w2⟩

/-- **C41**, `DataView.prototype.set...`: the index is converted first, and only then the value. -/
theorem C41_set_index (_hs : Reached F le s) {v : Nat} {ty : Ty} {little : Bool} {fs : List Frame}
    (hf : s.frames = .dvSetIdx v ty little :: fs) (x : Num) :
    (NoIndex x → Ends F le s (.ret (.num x)) fs .rangeError) ∧
    ∀ i, Index x i → Goes F le s (.ret (.num x)) (.dvSetVal v ty little i :: fs) := by
  have e0 : step F le s (.ret (.num x)) = match toIndex x with
      | none => .ok ({ s with log := [], frames := fs }, .rangeError)
      | some i => push { s with log := [], frames := fs } (.dvSetVal v ty little i) := by
    rw [step_ret hf]; rfl
  refine ⟨fun h => ?_, fun i hi => ?_⟩
  · rw [noIndex_toIndex h] at e0
    exact ends_of e0
  · rw [index_toIndex hi] at e0
    exact ends_of e0

/-- **C41**, `DataView.prototype.set...`, when the value has been converted: exactly the bytes asked
for are changed and hold the value (values as in `Fits`, see `C40_violated`). -/
theorem C41_set (hs : Reached F le s) {v : Nat} {V : View} {ty : Ty} {little : Bool} {i : Nat} {fs : List Frame}
    (hf : s.frames = .dvSetVal v ty little i :: fs) (hV : s.views[v]? = some V) (hd : V.ty = none) (w : Val) (hw : fitsTy ty w = true) :
    (Gone s V.buf → Ends F le s (.ret (.val w)) fs .typeError) ∧
    ∀ m, Bytes s V.buf m →
      (V.blen < i + ty.size → Ends F le s (.ret (.val w)) fs .rangeError) ∧
      (i + ty.size ≤ V.blen → Fits ty w →
        ∃ s' m', step F le s (.ret (.val w)) = .ok (s', .undef) ∧ s'.frames = fs ∧ Bytes s' V.buf m' ∧ m'.length = m.length ∧
          (∀ j, j < V.off + i ∨ V.off + i + ty.size ≤ j → m'[j]? = m[j]?) ∧
          Stored F ty w (element m' (V.off + i) ty.size little)) := by
  have hI := hs.inv.popped hf rfl
  have hdv : dview { s with log := [], frames := fs } v = some V := by simp [dview, hV, hd]
  have e0 : step F le s (.ret (.val w)) = dvSetVal F { s with log := [], frames := fs } v ty little i w := by
    rw [step_ret hf]; simp only [resume, onVal, hw, if_true]
  unfold dvSetVal at e0
  rw [hdv] at e0
  simp only at e0
  refine ⟨fun h => ?_, fun m hm => ?_⟩
  · rw [if_pos (gone_detached (s := { s with log := [], frames := fs }) h)] at e0
    exact ends_of e0
  · obtain ⟨k, L, ha, hk⟩ := bytes_att hm
    have ha' : Att { s with log := [], frames := fs } V.buf k L := ha
    have hk' : mem { s with log := [], frames := fs } k = some m := hk
    obtain ⟨m', m1, m2, -⟩ := dview_mem hI hV ha'
    rw [hk'] at m1
    cases m1
    rw [if_neg (by rw [attached_ok ha']; decide)] at e0
    refine ⟨fun h => ?_, fun h hx => ?_⟩
    · rw [if_pos (by omega)] at e0
      exact ends_of e0
    · rw [if_neg (by omega), blockOf_ok ha'] at e0
      simp only at e0
      obtain ⟨m', w1, w2, w3, w4⟩ := Raw.C40_write_partial F m (V.off + i) ty w little (by omega) hx
      rcases putAt_spec (F := F) (little := little) (pos := i + V.off) (ty := ty) (x := w) hk' (by omega) with ⟨-, h2⟩ | ⟨s', m'', e1, e2, e3, -, t⟩
      · rw [Nat.add_comm i V.off, w1] at h2
        cases h2
      · rw [Nat.add_comm i V.off, w1] at e2
        cases e2
        rw [e1] at e0
        refine ⟨s', m', e0, t.frames, att_bytes (k := k) (L := L) ?_ e3, w2, w3, w4⟩
        unfold Att
        rw [t.bufs]
        exact ha'

/-- **C41**, the constructor of data views, after the conversion of the offset. -/
theorem C41_view_offset {b : Nat} {hasLen : Bool} {fs : List Frame}
    (hf : s.frames = .dvOff b hasLen :: fs) (x : Num) :
    (NoIndex x → Ends F le s (.ret (.num x)) fs .rangeError) ∧
    ∀ off, Index x off →
      (Gone s b → Ends F le s (.ret (.num x)) fs .typeError) ∧
      ∀ k L, s.bufs[b]? = some ⟨some k, L⟩ →
        (L < off → Ends F le s (.ret (.num x)) fs .rangeError) ∧
        (off ≤ L → hasLen = true → Goes F le s (.ret (.num x)) (.dvLen b off L :: fs)) ∧
        (off ≤ L → hasLen = false → Goes F le s (.ret (.num x)) (.dvProto b off (L - off) :: fs)) := by
  have e0 : step F le s (.ret (.num x)) = dvOff { s with log := [], frames := fs } b hasLen x := by
    rw [step_ret hf]; rfl
  unfold dvOff at e0
  refine ⟨fun h => ?_, fun off hi => ⟨fun h => ?_, fun k L ha => ?_⟩⟩
  · rw [noIndex_toIndex h] at e0
    exact ends_of e0
  · rw [index_toIndex hi] at e0
    simp only at e0
    split at e0
    next k L ha => exact absurd ha (h k L)
    · exact ends_of e0
  · rw [index_toIndex hi, ha] at e0
    simp only at e0
    refine ⟨fun h => ?_, fun h hl => ?_, fun h hl => ?_⟩
    · rw [if_pos h] at e0
      exact ends_of e0
    · rw [if_neg (by omega), if_pos hl] at e0
      exact ends_of e0
    · rw [if_neg (by omega), hl] at e0
      exact ends_of e0

/-- **C41**, the same after the conversion of the length. -/
theorem C41_view_length {b off cap : Nat} {fs : List Frame} (hf : s.frames = .dvLen b off cap :: fs) (x : Num) :
    (NoIndex x → Ends F le s (.ret (.num x)) fs .rangeError) ∧
    ∀ n, Index x n →
      (cap < off + n → Ends F le s (.ret (.num x)) fs .rangeError) ∧
      (off + n ≤ cap → Goes F le s (.ret (.num x)) (.dvProto b off n :: fs)) := by
  have e0 : step F le s (.ret (.num x)) = dvLen { s with log := [], frames := fs } b off cap x := by
    rw [step_ret hf]; rfl
  unfold dvLen at e0
  refine ⟨fun h => ?_, fun n hi => ⟨fun h => ?_, fun h => ?_⟩⟩
  · rw [noIndex_toIndex h] at e0
    exact ends_of e0
  · rw [index_toIndex hi] at e0
    simp only at e0
    rw [if_pos h] at e0
    exact ends_of e0
  · rw [index_toIndex hi] at e0
    simp only at e0
    rw [if_neg (by omega)] at e0
    exact ends_of e0

/-- **C41**, the same after the prototype has been looked up: the view sees exactly the part asked
for. -/
theorem C41_view_new {b off n : Nat} {fs : List Frame} (hf : s.frames = .dvProto b off n :: fs) :
    (Gone s b → Ends F le s (.ret .done) fs .typeError) ∧
    (¬ Gone s b → ∃ s' V, step F le s (.ret .done) = .ok (s', .view s.views.length) ∧ s'.frames = fs ∧
      s'.views = s.views ++ [V] ∧ V.buf = b ∧ V.off = off ∧ V.blen = n ∧ V.ty = none ∧ s'.blocks = s.blocks ∧ s'.bufs = s.bufs) := by
  have e0 : step F le s (.ret .done) = dvProto { s with log := [], frames := fs } b off n := by
    rw [step_ret hf]; rfl
  unfold dvProto at e0
  refine ⟨fun h => ?_, fun h => ?_⟩
  · rw [if_pos (gone_detached (s := { s with log := [], frames := fs }) h)] at e0
    exact ends_of e0
  · have : ¬ detached { s with log := [], frames := fs } b = true := fun hd => h (detached_true hd)
    rw [if_neg this] at e0
    exact ⟨_, _, e0, rfl, rfl, rfl, rfl, rfl, rfl, rfl, rfl⟩

/-! ### C41: typed arrays -/

/-- **C41**, the constructor of typed arrays on a buffer, after the conversion of the offset. -/
theorem C41_typed_offset {b : Nat} {ty : Ty} {hasLen : Bool} {fs : List Frame} (hf : s.frames = .taBufOff ty b hasLen :: fs) (x : Num) :
    (NoIndex x → Ends F le s (.ret (.num x)) fs .rangeError) ∧
    ∀ off, Index x off →
      (off % ty.size ≠ 0 → Ends F le s (.ret (.num x)) fs .rangeError) ∧
      (off % ty.size = 0 →
        (hasLen = true → Goes F le s (.ret (.num x)) (.taBufLen ty b off :: fs)) ∧
        (hasLen = false → Gone s b → Ends F le s (.ret (.num x)) fs .typeError) ∧
        ∀ k L, hasLen = false → s.bufs[b]? = some ⟨some k, L⟩ →
          (L % ty.size ≠ 0 ∨ L < off → Ends F le s (.ret (.num x)) fs .rangeError) ∧
          (L % ty.size = 0 → off ≤ L → ∃ s' V, step F le s (.ret (.num x)) = .ok (s', .view s.views.length) ∧ s'.frames = fs ∧
            s'.views = s.views ++ [V] ∧ V.buf = b ∧ V.off = off ∧ V.blen = L - off ∧ V.blen = V.alen * ty.size ∧ V.ty = some ty ∧
            s'.blocks = s.blocks ∧ s'.bufs = s.bufs)) := by
  have e0 : step F le s (.ret (.num x)) = taBufOff { s with log := [], frames := fs } ty b hasLen x := by
    rw [step_ret hf]; rfl
  unfold taBufOff at e0
  refine ⟨fun h => ?_, fun off hi => ⟨fun h => ?_, fun h => ⟨fun hl => ?_, fun hl hg => ?_, fun k L hl ha => ⟨fun hc => ?_, fun h1 h2 => ?_⟩⟩⟩⟩
  · rw [noIndex_toIndex h] at e0
    exact ends_of e0
  · rw [index_toIndex hi] at e0
    simp only at e0
    rw [if_pos h] at e0
    exact ends_of e0
  · rw [index_toIndex hi] at e0
    simp only at e0
    rw [if_neg (by omega), if_pos hl] at e0
    exact ends_of e0
  · rw [index_toIndex hi] at e0
    simp only at e0
    rw [if_neg (by omega), hl, if_neg (by decide)] at e0
    unfold initBuf at e0
    split at e0
    next k L ha => exact absurd ha (hg k L)
    · exact ends_of e0
  · rw [index_toIndex hi] at e0
    simp only at e0
    rw [if_neg (by omega), hl, if_neg (by decide)] at e0
    unfold initBuf at e0
    rw [ha] at e0
    simp only at e0
    by_cases h3 : L % ty.size = 0
    · rw [if_neg (by omega), if_pos (hc.resolve_left (by omega))] at e0
      exact ends_of e0
    · rw [if_pos h3] at e0
      exact ends_of e0
  · rw [index_toIndex hi] at e0
    simp only at e0
    rw [if_neg (by omega), hl, if_neg (by decide)] at e0
    unfold initBuf at e0
    rw [ha] at e0
    simp only at e0
    rw [if_neg (by omega), if_neg (by omega)] at e0
    refine ⟨_, _, e0, rfl, rfl, rfl, rfl, rfl, ?_, rfl, rfl, rfl⟩
    exact (Nat.div_mul_cancel (Nat.dvd_sub (Nat.dvd_of_mod_eq_zero h1) (Nat.dvd_of_mod_eq_zero h))).symm

/-- **C41**, the same after the conversion of the length. -/
theorem C41_typed_length {b off : Nat} {ty : Ty} {fs : List Frame} (hf : s.frames = .taBufLen ty b off :: fs) (x : Num) :
    (NoIndex x → Ends F le s (.ret (.num x)) fs .rangeError) ∧
    ∀ n, Index x n →
      (Gone s b → Ends F le s (.ret (.num x)) fs .typeError) ∧
      ∀ k L, s.bufs[b]? = some ⟨some k, L⟩ →
        (L < off + n * ty.size → Ends F le s (.ret (.num x)) fs .rangeError) ∧
        (off + n * ty.size ≤ L → ∃ s' V, step F le s (.ret (.num x)) = .ok (s', .view s.views.length) ∧ s'.frames = fs ∧
            s'.views = s.views ++ [V] ∧ V.buf = b ∧ V.off = off ∧ V.alen = n ∧ V.blen = n * ty.size ∧ V.ty = some ty ∧
            s'.blocks = s.blocks ∧ s'.bufs = s.bufs) := by
  have e0 : step F le s (.ret (.num x)) = match toIndex x with
      | none => .ok ({ s with log := [], frames := fs }, .rangeError)
      | some n => initBuf { s with log := [], frames := fs } ty b off (some n) := by
    rw [step_ret hf]; rfl
  refine ⟨fun h => ?_, fun n hi => ⟨fun h => ?_, fun k L ha => ⟨fun h => ?_, fun h => ?_⟩⟩⟩
  · rw [noIndex_toIndex h] at e0
    exact ends_of e0
  · rw [index_toIndex hi] at e0
    simp only at e0
    unfold initBuf at e0
    split at e0
    next k L ha => exact absurd ha (h k L)
    · exact ends_of e0
  · rw [index_toIndex hi] at e0
    simp only [initBuf, ha] at e0
    rw [if_pos h] at e0
    exact ends_of e0
  · rw [index_toIndex hi] at e0
    simp only [initBuf, ha] at e0
    rw [if_neg (by omega)] at e0
    exact ⟨_, _, e0, rfl, rfl, rfl, rfl, Nat.mul_div_cancel _ (size_pos ty), rfl, rfl, rfl, rfl⟩

/-- **C41**, reading an element: for an integer in range its value, for everything else (fractions,
minus zero, NaN, too large, or a detached buffer) `undefined`. -/
theorem C41_element_get (hs : Reached F le s) {v : Nat} {V : View} {ty : Ty} (hV : s.views[v]? = some V) (hty : V.ty = some ty) (n : Num) :
    ((Gone s V.buf ∨ ∀ i : Nat, IsInt n i → V.alen ≤ i) → Ends F le s (.call (.elemGet v n)) s.frames .undef) ∧
    ∀ (i : Nat) (m : List Byte), IsInt n i → i < V.alen → Bytes s V.buf m →
      (ty = .bi64 → element m (V.off + ty.size * i) 8 le ≠ 2 ^ 63) →
      ∃ s' w, step F le s (.call (.elemGet v n)) = .ok (s', .val w) ∧ s'.frames = s.frames ∧ s'.blocks = s.blocks ∧
        Means F ty (element m (V.off + ty.size * i) ty.size le) w := by
  have hI := hs.inv.log []
  have hT : typed { s with log := [] } v = some (V, ty) := typed_iff.2 ⟨hV, hty⟩
  have e0 : step F le s (.call (.elemGet v n)) = elemGet F le { s with log := [] } v n := rfl
  unfold elemGet at e0
  rw [hT] at e0
  simp only at e0
  refine ⟨fun h => ?_, fun i m hi hlt hm hx => ?_⟩
  · have hnone : validIndex { s with log := [] } V n = none := by
      cases hv : validIndex { s with log := [] } V n with
      | none => rfl
      | some i =>
        obtain ⟨h1, h2, k, L, h3⟩ := isInt_validIndex hv
        rcases h with h | h
        · exact absurd h3 (h k L)
        · have := h i h1
          omega
    rw [hnone] at e0
    exact ⟨_, e0, rfl, rfl, rfl, rfl, rfl⟩
  · obtain ⟨k, L, ha, hk⟩ := bytes_att hm
    have ha' : Att { s with log := [] } V.buf k L := ha
    have hk' : mem { s with log := [] } k = some m := hk
    obtain ⟨m', m1, m2, -⟩ := typed_mem hI (typed_iff.1 hT) ha'
    rw [hk'] at m1
    cases m1
    rw [validIndex_isInt ha' hi hlt] at e0
    simp only [elemAt, blockOf_ok ha'] at e0
    have hin := in_elem (off := V.off) (sz := ty.size) hlt
    obtain ⟨w, w1, w2⟩ := Raw.C40_read_partial F m (V.off + ty.size * i) ty le (by omega) hx
    rcases getAt_spec (F := F) (little := le) (pos := V.off + ty.size * i) (ty := ty) hk' (by omega) with ⟨-, h2⟩ | ⟨s', w', e1, e2, e3, t⟩
    · rw [w1] at h2
      cases h2
    · rw [w1] at e2
      cases e2
      rw [e1] at e0
      exact ⟨s', w, e0, t.frames, e3, w2⟩

/-- **C41**, writing an element, when the value has been converted. -/
theorem C41_element_set (hs : Reached F le s) {v : Nat} {V : View} {ty : Ty} {n : Num} {fs : List Frame} (hf : s.frames = .elemSet v n :: fs)
    (hV : s.views[v]? = some V) (hty : V.ty = some ty) (w : Val) (hw : fitsTy ty w = true) :
    ((Gone s V.buf ∨ ∀ i : Nat, IsInt n i → V.alen ≤ i) → Ends F le s (.ret (.val w)) fs .undef) ∧
    ∀ (i : Nat) (m : List Byte), IsInt n i → i < V.alen → Bytes s V.buf m → Fits ty w →
      ∃ s' m', step F le s (.ret (.val w)) = .ok (s', .undef) ∧ s'.frames = fs ∧ Bytes s' V.buf m' ∧ m'.length = m.length ∧
        (∀ j, j < V.off + ty.size * i ∨ V.off + ty.size * i + ty.size ≤ j → m'[j]? = m[j]?) ∧
        Stored F ty w (element m' (V.off + ty.size * i) ty.size le) := by
  have hI := hs.inv.popped hf rfl
  have hT : typed { s with log := [], frames := fs } v = some (V, ty) := typed_iff.2 ⟨hV, hty⟩
  have e0 : step F le s (.ret (.val w)) = elemSet F le { s with log := [], frames := fs } V ty n w := by
    rw [step_ret hf]; simp only [resume, onTyped, hT, onVal, hw, if_true]
  unfold elemSet at e0
  refine ⟨fun h => ?_, fun i m hi hlt hm hx => ?_⟩
  · have hnone : validIndex { s with log := [], frames := fs } V n = none := by
      cases hv : validIndex { s with log := [], frames := fs } V n with
      | none => rfl
      | some i =>
        obtain ⟨h1, h2, k, L, h3⟩ := isInt_validIndex hv
        rcases h with h | h
        · exact absurd h3 (h k L)
        · have := h i h1
          omega
    rw [hnone] at e0
    exact ends_of e0
  · obtain ⟨k, L, ha, hk⟩ := bytes_att hm
    have ha' : Att { s with log := [], frames := fs } V.buf k L := ha
    have hk' : mem { s with log := [], frames := fs } k = some m := hk
    obtain ⟨m', m1, m2, -⟩ := typed_mem hI (typed_iff.1 hT) ha'
    rw [hk'] at m1
    cases m1
    rw [validIndex_isInt ha' hi hlt] at e0
    simp only [putElem, blockOf_ok ha'] at e0
    have hin := in_elem (off := V.off) (sz := ty.size) hlt
    obtain ⟨m', w1, w2, w3, w4⟩ := Raw.C40_write_partial F m (V.off + ty.size * i) ty w le (by omega) hx
    rcases putAt_spec (F := F) (little := le) (pos := V.off + ty.size * i) (ty := ty) (x := w) hk' (by omega) with ⟨-, h2⟩ | ⟨s', m'', e1, e2, e3, -, t⟩
    · rw [w1] at h2
      cases h2
    · rw [w1] at e2
      cases e2
      rw [e1] at e0
      refine ⟨s', m', e0, t.frames, att_bytes (k := k) (L := L) ?_ e3, w2, w3, w4⟩
      unfold Att
      rw [t.bufs]
      exact ha'

/-- **C41**, the calls: what is converted first, before anything is looked at. -/
theorem C41_calls :
    (∀ b hasLen, b < s.bufs.length → Goes F le s (.call (.dataView b hasLen)) (.dvOff b hasLen :: s.frames)) ∧
    (∀ v V ty little, s.views[v]? = some V → V.ty = none →
      Goes F le s (.call (.dvGet v ty little)) (.dvGet v ty little :: s.frames) ∧
      Goes F le s (.call (.dvSet v ty little)) (.dvSetIdx v ty little :: s.frames)) ∧
    (∀ ty b hasLen, b < s.bufs.length → Goes F le s (.call (.taBuffer ty b hasLen)) (.taBufProto ty b hasLen :: s.frames)) ∧
    (∀ ty b hasLen fs, s.frames = .taBufProto ty b hasLen :: fs → Goes F le s (.ret .done) (.taBufOff ty b hasLen :: fs)) ∧
    (∀ v V ty n, s.views[v]? = some V → V.ty = some ty → Goes F le s (.call (.elemSet v n)) (.elemSet v n :: s.frames)) := by
  refine ⟨fun b hasLen hb => ?_, fun v V ty little hV hty => ⟨?_, ?_⟩, fun ty b hasLen hb => ?_, fun ty b hasLen fs hf => ?_, fun v V ty n hV hty => ?_⟩
  · refine ⟨{ s with log := [], frames := .dvOff b hasLen :: s.frames }, ?_, rfl, rfl, rfl, rfl, rfl⟩
    simp [step, begin, hb, push]
  · refine ⟨{ s with log := [], frames := .dvGet v ty little :: s.frames }, ?_, rfl, rfl, rfl, rfl, rfl⟩
    simp [step, begin, dview, hV, hty, push]
  · refine ⟨{ s with log := [], frames := .dvSetIdx v ty little :: s.frames }, ?_, rfl, rfl, rfl, rfl, rfl⟩
    simp [step, begin, dview, hV, hty, push]
  · refine ⟨{ s with log := [], frames := .taBufProto ty b hasLen :: s.frames }, ?_, rfl, rfl, rfl, rfl, rfl⟩
    simp [step, begin, hb, push]
  · exact ends_of (by rw [step_ret hf]; rfl)
  · have hT : typed { s with log := [] } v = some (V, ty) := typed_iff.2 ⟨hV, hty⟩
    refine ⟨{ s with log := [], frames := .elemSet v n :: s.frames }, ?_, rfl, rfl, rfl, rfl, rfl⟩
    simp [step, begin, hT, push]

/-! ### Examples -/

def int (n : Nat) : Num := .fin false n 0
theorem int_integer (n : Nat) : Integer (int n) (some (n : Int)) false := by
  have h := integer_ioi (int n)
  have e : ioi (int n) = .fin n := by simp [int, ioi, cut, num, den]
  rw [e] at h
  obtain ⟨neg, h⟩ := h
  cases h with
  | fin _ _ _ _ h => exact .fin false n 0 n h
theorem int_index {n : Nat} (h : n < 2 ^ 53) : Index (int n) n := ⟨false, int_integer n, h⟩

/-- A data view of the bytes 2 to 7 of a buffer of 10 bytes; `getUint16` waits for the index. -/
def viewRun : List Ev :=
  [.newBuf 10 false, .call (.dataView 0 true), .ret (.num (int 2)), .ret (.num (int 6)), .ret .done, .call (.dvGet 0 .u16 true)]

/-- Index 4 is the last one which is possible, 5 throws, and so does any index if the buffer is
detached in the meantime. -/
example (F : Fpu) (le : Bool) : ∃ s V m, run F le init viewRun = .ok s ∧ s.frames = [.dvGet 0 .u16 true] ∧ s.views[0]? = some V ∧ V.ty = none ∧
    Bytes s V.buf m ∧ 4 + Ty.u16.size ≤ V.blen ∧ V.blen < 5 + Ty.u16.size ∧ Index (int 4) 4 ∧
    (∃ s', step F le s (.ret (.num (int 4))) = .ok (s', .val (.num 0))) ∧
    (∃ s', step F le s (.ret (.num (int 5))) = .ok (s', .rangeError)) ∧
    ∃ s1 s2, step F le s (.detach 0) = .ok (s1, .undef) ∧ Gone s1 V.buf ∧ step F le s1 (.ret (.num (int 4))) = .ok (s2, .typeError) := by
  refine ⟨_, ⟨0, 2, 6, 0, none⟩, List.replicate 10 0, rfl, rfl, rfl, rfl, ⟨0, 10, _, rfl, rfl, rfl⟩, by decide, by decide, int_index (by decide), ⟨_, rfl⟩, ⟨_, rfl⟩, _, _, rfl, ?_, rfl⟩
  intro k L h
  cases h

/-- A Uint16Array over the bytes 4 to 9; element 2 is written while a sort of it is suspended. -/
def typedRun : List Ev :=
  [.newBuf 10 false, .call (.taBuffer .u16 0 true), .ret .done, .ret (.num (int 4)), .ret (.num (int 3)), .call (.sort 0), .call (.elemSet 0 (int 2))]

example (F : Fpu) (le : Bool) : ∃ s V m, run F le init typedRun = .ok s ∧ s.frames = [.elemSet 0 (int 2), .sort 0 4 3 2] ∧ s.views[0]? = some V ∧
    V.ty = some .u16 ∧ Bytes s V.buf m ∧ 2 < V.alen ∧
    (∃ s', step F le s (.ret (.val (.num 0x3ff0000000000000))) = .ok (s', .undef) ∧ s'.frames = [.sort 0 4 3 2] ∧ s'.log = [⟨0, 8, 2⟩]) ∧
    -- the buffer is detached: nothing is written, and the sort still has the memory
    ∃ s1 s2 s3, step F le s (.detach 0) = .ok (s1, .undef) ∧ Gone s1 V.buf ∧ step F le s1 (.ret (.val (.num 0x3ff0000000000000))) = .ok (s2, .undef) ∧ s2.log = [] ∧
      step F le s2 (.ret (.swap 2 [1, 2])) = .ok (s3, .pending) ∧ s3.log = [⟨0, 8, 2⟩, ⟨0, 8, 2⟩] := by
  refine ⟨_, ⟨0, 4, 6, 3, some .u16⟩, List.replicate 10 0, rfl, rfl, rfl, rfl, ⟨0, 10, _, rfl, rfl, rfl⟩, by decide, ⟨_, rfl, rfl, rfl⟩, _, _, _, rfl, ?_, rfl, rfl, rfl, rfl⟩
  intro k L h
  cases h

end Verif.Buffer

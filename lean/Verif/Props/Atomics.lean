import Verif.Props.Buffer
/-
C54 and C66: `Atomics` on buffers which are detached during a conversion; read and write in one.
-/
namespace Verif.Buffer
open NumConv Spec
open Raw (Byte Ty Val Fpu Stored Fits)
open Raw.Spec (IsInt Means element number)

variable {F : Fpu} {le : Bool} {s : State}

/-! ### C54 -/

def zero : Num := .fin false 0 0

/-- `ta = new Int32Array(new ArrayBuffer(8)); Atomics.add(ta, ...` up to the conversion of the index. -/
def addCall : List Ev :=
  [.newBuf 8 false, .call (.taBuffer .i32 0 false), .ret .done, .ret (.num zero), .call (.atRmw 0 .add)]

/-- **C54 is violated**: if the conversion of the index detaches the buffer, then `Atomics.add` and
the like use the data block which is not there; if the conversion of the value does, then they read
and write the freed memory. -/
theorem C54_violated (F : Fpu) (le : Bool) :
    (∃ s fs, run F le init (addCall ++ [.detach 0]) = .ok s ∧ s.frames = .atIdx 0 .add :: fs ∧
      step F le s (.ret (.num zero)) = .error .null) ∧
    (∃ s fs, run F le init (addCall ++ [.ret (.num zero), .detach 0]) = .ok s ∧ s.frames = .atVal .i32 .add 0 0 :: fs ∧
      step F le s (.ret (.val (.num 0#64))) = .error .freed) :=
  ⟨⟨_, _, rfl, rfl, rfl⟩, ⟨_, _, rfl, rfl, rfl⟩⟩

/-- **C54, partial** (the read): `Atomics.load` on a buffer detached during the conversion throws. -/
theorem C54_load_partial (hs : Reached F le s) {v : Nat} {V : View} {ty : Ty} {fs : List Frame} (hf : s.frames = .atLoad v :: fs)
    (hV : s.views[v]? = some V) (hty : V.ty = some ty) (x : Num) :
    ((NoIndex x ∨ ∃ i, Index x i ∧ V.alen ≤ i) → Ends F le s (.ret (.num x)) fs .rangeError) ∧
    ∀ i, Index x i → i < V.alen →
      (Gone s V.buf → Ends F le s (.ret (.num x)) fs .typeError) ∧
      ∀ m, Bytes s V.buf m → (ty = .bi64 → element m (V.off + ty.size * i) 8 le ≠ 2 ^ 63) →
        ∃ s' w, step F le s (.ret (.num x)) = .ok (s', .val w) ∧ s'.frames = fs ∧ s'.blocks = s.blocks ∧
          Means F ty (element m (V.off + ty.size * i) ty.size le) w := by
  have hI := hs.inv.popped hf rfl
  have hT : typed { s with log := [], frames := fs } v = some (V, ty) := typed_iff.2 ⟨hV, hty⟩
  have e0 : step F le s (.ret (.num x)) = atLoad F le { s with log := [], frames := fs } V ty x := by
    rw [step_ret hf]; simp only [resume, onTyped, hT, onNum]
  unfold atLoad at e0
  refine ⟨fun h => ?_, fun i hi hlt => ⟨fun h => ?_, fun m hm hx => ?_⟩⟩
  · rcases h with h | ⟨i, hi, h⟩
    · rw [noIndex_toIndex h] at e0
      exact ends_of e0
    · rw [index_toIndex hi] at e0
      simp only at e0
      rw [if_pos h] at e0
      exact ends_of e0
  · rw [index_toIndex hi] at e0
    simp only at e0
    rw [if_neg (by omega), if_pos (gone_detached (s := { s with log := [], frames := fs }) h)] at e0
    exact ends_of e0
  · obtain ⟨k, L, ha, hk⟩ := bytes_att hm
    have ha' : Att { s with log := [], frames := fs } V.buf k L := ha
    have hk' : mem { s with log := [], frames := fs } k = some m := hk
    obtain ⟨m', m1, m2, -⟩ := typed_mem hI (typed_iff.1 hT) ha'
    rw [hk'] at m1
    cases m1
    rw [index_toIndex hi] at e0
    simp only at e0
    rw [if_neg (by omega), if_neg (by rw [attached_ok ha']; decide)] at e0
    simp only [elemAt, blockOf_ok ha'] at e0
    have hin := in_elem (off := V.off) (sz := ty.size) hlt
    obtain ⟨w, w1, w2⟩ := Raw.C40_read_partial F m (V.off + ty.size * i) ty le (by omega) hx
    rcases getAt_spec (F := F) (little := le) (pos := V.off + ty.size * i) (ty := ty) hk' (by omega) with ⟨-, h2⟩ | ⟨s', w', e1, e2, e3, t⟩
    · rw [w1] at h2
      cases h2
    · rw [w1] at e2
      cases e2
      rw [e1] at e0
      exact ⟨s', w, e0, t.frames, e3, w2⟩

/-- **C54, partial** (the write, index): -/
theorem C54_store_index_partial {v : Nat} {V : View} {ty : Ty} {fs : List Frame} (hf : s.frames = .atStoreIdx v :: fs)
    (hV : s.views[v]? = some V) (hty : V.ty = some ty) (x : Num) :
    ((NoIndex x ∨ ∃ i, Index x i ∧ V.alen ≤ i) → Ends F le s (.ret (.num x)) fs .rangeError) ∧
    ∀ i, Index x i → i < V.alen → Goes F le s (.ret (.num x)) (.atStoreVal v i :: fs) := by
  have hT : typed { s with log := [], frames := fs } v = some (V, ty) := typed_iff.2 ⟨hV, hty⟩
  have e0 : step F le s (.ret (.num x)) = atStoreIdx { s with log := [], frames := fs } v V x := by
    rw [step_ret hf]; simp only [resume, onTyped, hT, onNum]
  unfold atStoreIdx at e0
  refine ⟨fun h => ?_, fun i hi hlt => ?_⟩
  · rcases h with h | ⟨i, hi, h⟩
    · rw [noIndex_toIndex h] at e0
      exact ends_of e0
    · rw [index_toIndex hi] at e0
      simp only at e0
      rw [if_pos h] at e0
      exact ends_of e0
  · rw [index_toIndex hi] at e0
    simp only at e0
    rw [if_neg (by omega)] at e0
    exact ends_of e0

/-- **C54, partial** (the write): `Atomics.store` on a buffer detached during a conversion throws. -/
theorem C54_store_partial (hs : Reached F le s) {v i : Nat} {V : View} {ty : Ty} {fs : List Frame} (hf : s.frames = .atStoreVal v i :: fs)
    (hV : s.views[v]? = some V) (hty : V.ty = some ty) (w : Val) (hw : fitsTy ty w = true) :
    (Gone s V.buf → Ends F le s (.ret (.val w)) fs .typeError) ∧
    ∀ m, Bytes s V.buf m → Fits ty w →
      ∃ s' m', step F le s (.ret (.val w)) = .ok (s', .val w) ∧ s'.frames = fs ∧ Bytes s' V.buf m' ∧ m'.length = m.length ∧
        (∀ j, j < V.off + ty.size * i ∨ V.off + ty.size * i + ty.size ≤ j → m'[j]? = m[j]?) ∧
        Stored F ty w (element m' (V.off + ty.size * i) ty.size le) := by
  have hI := hs.inv.popped hf rfl
  have hT : typed { s with log := [], frames := fs } v = some (V, ty) := typed_iff.2 ⟨hV, hty⟩
  have e0 : step F le s (.ret (.val w)) = atStoreVal F le { s with log := [], frames := fs } V ty i w := by
    rw [step_ret hf]; simp only [resume, onTyped, hT, onVal, hw, if_true]
  unfold atStoreVal at e0
  refine ⟨fun h => ?_, fun m hm hx => ?_⟩
  · rw [if_pos (gone_detached (s := { s with log := [], frames := fs }) h)] at e0
    exact ends_of e0
  · obtain ⟨V', ty', hV', hlt⟩ := hs.inv.frame _ (by rw [hf]; exact List.mem_cons_self)
    obtain ⟨rfl, rfl⟩ := isTyped_unique ⟨hV, hty⟩ hV'
    obtain ⟨k, L, ha, hk⟩ := bytes_att hm
    have ha' : Att { s with log := [], frames := fs } V'.buf k L := ha
    have hk' : mem { s with log := [], frames := fs } k = some m := hk
    obtain ⟨m', m1, m2, -⟩ := typed_mem hI (typed_iff.1 hT) ha'
    rw [hk'] at m1
    cases m1
    rw [if_neg (by rw [attached_ok ha']; decide)] at e0
    simp only [putElem, blockOf_ok ha'] at e0
    have hin := in_elem (off := V'.off) (sz := ty'.size) hlt
    obtain ⟨m', w1, w2, w3, w4⟩ := Raw.C40_write_partial F m (V'.off + ty'.size * i) ty' w le (by omega) hx
    rcases putAt_spec (F := F) (little := le) (pos := V'.off + ty'.size * i) (ty := ty') (x := w) hk' (by omega) with ⟨-, h2⟩ | ⟨s', m'', e1, e2, e3, -, t⟩
    · rw [w1] at h2
      cases h2
    · rw [w1] at e2
      cases e2
      rw [e1] at e0
      refine ⟨s', m', e0, t.frames, att_bytes (k := k) (L := L) ?_ e3, w2, w3, w4⟩
      unfold Att
      rw [t.bufs]
      exact ha'

/-- **C54, partial** (read and write in one, index): if the buffer is not detached when the index has
been converted. -/
theorem C54_rmw_index_partial {v : Nat} {V : View} {ty : Ty} {op : Rmw} {fs : List Frame} (hf : s.frames = .atIdx v op :: fs)
    (hV : s.views[v]? = some V) (hty : V.ty = some ty) (x : Num) :
    ((NoIndex x ∨ ∃ i, Index x i ∧ V.alen ≤ i) → Ends F le s (.ret (.num x)) fs .rangeError) ∧
    ∀ i k L, Index x i → i < V.alen → s.bufs[V.buf]? = some ⟨some k, L⟩ →
      Goes F le s (.ret (.num x)) (.atVal ty op k (V.off + ty.size * i) :: fs) := by
  have hT : typed { s with log := [], frames := fs } v = some (V, ty) := typed_iff.2 ⟨hV, hty⟩
  have e0 : step F le s (.ret (.num x)) = atIdx { s with log := [], frames := fs } V ty op x := by
    rw [step_ret hf]; simp only [resume, onTyped, hT, onNum]
  unfold atIdx at e0
  refine ⟨fun h => ?_, fun i k L hi hlt ha => ?_⟩
  · rcases h with h | ⟨i, hi, h⟩
    · rw [noIndex_toIndex h] at e0
      exact ends_of e0
    · rw [index_toIndex hi] at e0
      simp only at e0
      rw [if_pos h] at e0
      exact ends_of e0
  · rw [index_toIndex hi] at e0
    simp only at e0
    rw [if_neg (by omega), blockOf_ok (s := { s with log := [], frames := fs }) ha] at e0
    exact ends_of e0

/-! ### C66 -/

theorem combined_apply (op : Rmw) (w old z : Nat) (ho : old < 2 ^ w) (hz : z < 2 ^ w) : Combined op w old z (op.apply w old z) := by
  have hp : 0 < 2 ^ w := Nat.pow_pos (by decide)
  have hc : (((2 ^ w : Nat)) : Int) = 2 ^ w := by simp
  have hzm : z % 2 ^ w = z := Nat.mod_eq_of_lt hz
  cases op with
  | add =>
    refine ⟨Nat.mod_lt _ hp, -((((old + z) / 2 ^ w : Nat)) : Int), ?_⟩
    have h := Nat.mod_add_div (old + z) (2 ^ w)
    have h' : (((old + z) % 2 ^ w : Nat) : Int) + 2 ^ w * (((old + z) / 2 ^ w : Nat) : Int) = old + z := by
      rw [← hc]; exact_mod_cast h
    show (((old + z) % 2 ^ w : Nat) : Int) = _
    rw [Int.neg_mul, Int.mul_comm]
    omega
  | sub =>
    refine ⟨Nat.mod_lt _ hp, 1 - ((((old + (2 ^ w - z)) / 2 ^ w : Nat)) : Int), ?_⟩
    have h := Nat.mod_add_div (old + (2 ^ w - z)) (2 ^ w)
    have h' : (((old + (2 ^ w - z)) % 2 ^ w : Nat) : Int) + 2 ^ w * (((old + (2 ^ w - z)) / 2 ^ w : Nat) : Int) = old + (2 ^ w - z) := by
      have : ((2 ^ w - z : Nat) : Int) = 2 ^ w - z := by rw [← hc]; omega
      rw [← this, ← hc]; exact_mod_cast h
    show (((old + (2 ^ w - z % 2 ^ w)) % 2 ^ w : Nat) : Int) = _
    rw [hzm, Int.sub_mul, Int.one_mul, Int.mul_comm]
    omega
  | and =>
    have e : Rmw.apply .and w old z = old &&& z := by simp [Rmw.apply, hzm]
    rw [e]
    exact ⟨Nat.lt_of_le_of_lt Nat.and_le_left ho, fun i => Nat.testBit_and ..⟩
  | or =>
    have e : Rmw.apply .or w old z = old ||| z := by simp [Rmw.apply, hzm]
    rw [e]
    exact ⟨Nat.or_lt_two_pow ho hz, fun i => Nat.testBit_or ..⟩
  | xor =>
    have e : Rmw.apply .xor w old z = old ^^^ z := by simp [Rmw.apply, hzm]
    rw [e]
    exact ⟨Nat.xor_lt_two_pow ho hz, fun i => Nat.testBit_xor ..⟩
  | xchg =>
    have e : Rmw.apply .xchg w old z = z := by simp [Rmw.apply, hzm]
    rw [e]
    exact ⟨hz, rfl⟩

/-- **C66**: `Atomics.add`, `and`, `or`, `xor`, `sub`, `exchange`, when the value has been converted, and
some buffer still has the memory: in one step the old value is returned and the element holds the
combination; nothing else changes.  (Values as in `C40_partial`.) -/
theorem C66_rmw (hs : Reached F le s) {ty : Ty} {op : Rmw} {k pos : Nat} {fs : List Frame} (hf : s.frames = .atVal ty op k pos :: fs)
    {b L : Nat} {m : List Byte} (ha : s.bufs[b]? = some ⟨some k, L⟩) (hm : Bytes s b m) (w : Val) (hw : fitsTy ty w = true) (hx : Fits ty w)
    (hbi : ty = .bi64 → element m pos 8 le ≠ 2 ^ 63) :
    ∃ s' old z m', step F le s (.ret (.val w)) = .ok (s', .val old) ∧ s'.frames = fs ∧ Bytes s' b m' ∧ m'.length = m.length ∧
      (∀ j, j < pos ∨ pos + ty.size ≤ j → m'[j]? = m[j]?) ∧
      Means F ty (element m pos ty.size le) old ∧ Stored F ty w z ∧
      Combined op (8 * ty.size) (element m pos ty.size le) z (element m' pos ty.size le) := by
  obtain ⟨k', L', ha', hk⟩ := bytes_att hm
  have hkk : k' = k := by
    unfold Att at ha'
    rw [ha] at ha'
    simp only [Option.some.injEq, Buf.mk.injEq] at ha'
    exact ha'.1.symm
  subst hkk
  obtain ⟨B, hB, hBl⟩ := hs.inv.frame _ (by rw [hf]; exact List.mem_cons_self)
  have hl : pos + ty.size ≤ m.length := by
    obtain ⟨B', h1, h2⟩ := mem_some hk
    rw [hB] at h1
    cases h1
    exact hBl m h2
  have e0 : step F le s (.ret (.val w)) = atVal F le { s with log := [], frames := fs } ty op k' pos w := by
    rw [step_ret hf]; simp only [resume, onVal, hw, if_true]
  unfold atVal at e0
  obtain ⟨z, z1, z2⟩ := Raw.store_spec (F := F) hx
  rw [z1] at e0
  simp only at e0
  have hk' : mem { s with log := [], frames := fs } k' = some m := hk
  obtain ⟨s1, r1, r2, t1⟩ := rd_spec (n := ty.size) hk' hl
  rw [r1] at e0
  simp only at e0
  obtain ⟨old, o1, o2⟩ := Raw.C40_read_partial F m pos ty le hl hbi
  have hlen : ((m.drop pos).take ty.size).length = ty.size := by simp; omega
  have hel : (if le = true then Raw.orLittle 0 ((m.drop pos).take ty.size) else Raw.orBig ((m.drop pos).take ty.size)) = element m pos ty.size le := by
    unfold element
    cases le
    · simp [Raw.orBig_eq]
    · simp [Raw.orLittle_eq]
  have hget : Raw.get F ((m.drop pos).take ty.size) 0 ty le = some old := by
    rw [Raw.get_eq (by rw [hlen]; omega)]
    rw [Raw.get_eq hl] at o1
    rw [← o1]
    congr 1
    unfold element
    simp only [List.drop_zero, List.take_take, Nat.min_self]
  rw [hget] at e0
  simp only [hel] at e0
  have hw2 := Raw.bytes_length le ty.size ((op.apply (8 * ty.size) (element m pos ty.size le) (z % 2 ^ (8 * ty.size)).toNat : Nat) : Int)
  have hk1 : mem s1 k' = some m := by
    unfold mem
    rw [r2]
    exact hk'
  obtain ⟨s2, w1, w2, -, t2⟩ := wr_spec (s := s1) (lo := pos) (b := Raw.bytes le ty.size ((op.apply (8 * ty.size) (element m pos ty.size le) (z % 2 ^ (8 * ty.size)).toNat : Nat) : Int)) hk1 (by rw [hw2]; exact hl)
  rw [w1] at e0
  refine ⟨s2, old, _, _, e0, by rw [t2.frames, t1.frames], att_bytes (k := k') (L := L) (by unfold Att; rw [t2.bufs, t1.bufs]; exact ha) w2,
    Raw.overwrite_length (by rw [hw2]; exact hl), ?_, o2, z2, ?_⟩
  · intro j hj
    exact Raw.overwrite_out (by rw [hw2]; exact hl) (by rw [hw2]; exact hj)
  · have hz : (z % 2 ^ (8 * ty.size)).toNat < 2 ^ (8 * ty.size) := by
      have h1 := Int.emod_lt_of_pos z (b := 2 ^ (8 * ty.size)) (by exact_mod_cast Nat.pow_pos (by decide))
      have h0 := Int.emod_nonneg z (b := 2 ^ (8 * ty.size)) (by have : (0 : Int) < 2 ^ (8 * ty.size) := (by exact_mod_cast Nat.pow_pos (by decide)); omega)
      have hc : (((2 ^ (8 * ty.size) : Nat)) : Int) = 2 ^ (8 * ty.size) := by simp
      omega
    have hcomb := combined_apply op (8 * ty.size) (element m pos ty.size le) _ Raw.element_lt hz
    have hnew : element (Raw.overwrite m pos (Raw.bytes le ty.size ((op.apply (8 * ty.size) (element m pos ty.size le) (z % 2 ^ (8 * ty.size)).toNat : Nat) : Int))) pos ty.size le
        = op.apply (8 * ty.size) (element m pos ty.size le) (z % 2 ^ (8 * ty.size)).toNat := by
      have hin := Raw.overwrite_in (mem := m) (off := pos) (b := Raw.bytes le ty.size ((op.apply (8 * ty.size) (element m pos ty.size le) (z % 2 ^ (8 * ty.size)).toNat : Nat) : Int)) (by rw [hw2]; exact hl)
      rw [hw2] at hin
      generalize op.apply (8 * ty.size) (element m pos ty.size le) (z % 2 ^ (8 * ty.size)).toNat = y at *
      have hn := Raw.number_bytes ty.size (y : Int)
      have e : element (Raw.overwrite m pos (Raw.bytes le ty.size (y : Int))) pos ty.size le = number (Raw.bytes true ty.size (y : Int)) := by
        unfold element
        simp only [hin]
        cases le
        · simp [Raw.bytes_false]
        · simp
      rw [e]
      have hy := hcomb.1
      have hc : (((2 ^ (8 * ty.size) : Nat)) : Int) = 2 ^ (8 * ty.size) := by simp
      rw [Int.emod_eq_of_lt (by omega) (by rw [← hc]; omega)] at hn
      omega
    rw [hnew]
    exact hcomb

/-- An `Atomics.add` on element 1 of an Int32Array of 2 elements, with 7 and then again with 7. -/
def addRun : List Ev := addCall ++ [.ret (.num (int 1)), .ret (.val (.num 0x401c000000000000)), .call (.atRmw 0 .add), .ret (.num (int 1))]

example (F : Fpu) : ∃ s m, run F true init addRun = .ok s ∧ s.frames = [.atVal .i32 .add 0 4] ∧ Bytes s 0 m ∧ m = [0, 0, 0, 0, 7, 0, 0, 0] ∧
    ∃ s' w m', step F true s (.ret (.val (.num 0x401c000000000000))) = .ok (s', .val w) ∧ Bytes s' 0 m' ∧ m' = [0, 0, 0, 0, 14, 0, 0, 0] :=
  ⟨_, _, rfl, rfl, ⟨0, 8, _, rfl, rfl, rfl⟩, rfl, _, _, _, rfl, ⟨0, 8, _, rfl, rfl, rfl⟩, rfl⟩

/-- `Atomics.load` and `Atomics.store` after the buffer has been detached. -/
example (F : Fpu) (le : Bool) : ∃ s s1 s2, run F le init [.newBuf 8 false, .call (.taBuffer .i32 0 false), .ret .done, .ret (.num zero),
      .call (.atLoad 0), .call (.atStore 0), .ret (.num zero), .detach 0] = .ok s ∧ s.frames = [.atStoreVal 0 0, .atLoad 0] ∧ Gone s 0 ∧
    step F le s (.ret (.val (.num 0))) = .ok (s1, .typeError) ∧ step F le s1 (.ret (.num zero)) = .ok (s2, .typeError) := by
  refine ⟨_, _, _, rfl, rfl, ?_, rfl, rfl⟩
  intro k L h
  cases h

end Verif.Buffer

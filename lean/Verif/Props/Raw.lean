import Verif.Lemmas.Raw
import Verif.Props.NumConv
import Verif.Props.Value
/-
C40: elements in memory.
-/
namespace Verif.Raw
open NumConv BigInt Spec
open NumConv.Spec (IntOf Modular Nearest)
open Value (W)

/-- What an element with the number `z` holds after `v` has been written. -/
def Stored (F : Fpu) (ty : Ty) (v : Val) (z : Nat) : Prop :=
  match v with
  | .num b =>
    match ty with
    | .u8c => Clamped (dec b) z
    | .f32 => z = (F.narrow b).toNat
    | .f64 => z = b.toNat
    | _ => ∃ t, IntOf (dec b) t ∧ Modular (8 * ty.size) 0 t z
  | .big x => Modular 64 0 x.toInt z

/-- The values the theorems speak about: of the kind the element type takes; the integer part of a
number fits into 64 bits; of a big integer not `2 ^ 63` is left modulo `2 ^ 64`, if it is negative. -/
def Fits (ty : Ty) (v : Val) : Prop :=
  match v with
  | .num b => ty ≠ .bu64 ∧ ty ≠ .bi64 ∧
      (ty = .u8c ∨ intType ty = none ∨ ∀ t, IntOf (dec b) t → -(2 ^ 63) ≤ t ∧ t < 2 ^ 63)
  | .big x => (ty = .bu64 ∨ ty = .bi64) ∧ x.WF ∧ BigOk x

theorem clamped_range {x : Num} {i : Int} (hx : Clamped x i) : 0 ≤ i ∧ i < 256 := by
  cases x with
  | nan => have : i = 0 := hx; omega
  | inf n => have : i = if n then 0 else 255 := hx; cases n <;> simp at this <;> omega
  | fin n m e =>
    obtain ⟨c1, c2, c3⟩ := hx
    cases n with
    | true => have := c1 rfl; omega
    | false =>
      rcases Nat.le_total (255 * 2 ^ (-e).toNat) (m * 2 ^ e.toNat) with c | c
      · have := c2 rfl c; omega
      · obtain ⟨n1, n2, n3⟩ := c3 rfl c
        have hd : (0 : Int) < ((2 ^ (-e).toNat : Nat) : Int) := by exact_mod_cast Nat.pow_pos (by decide)
        have hc' : ((m * 2 ^ e.toNat : Nat) : Int) ≤ 255 * ((2 ^ (-e).toNat : Nat) : Int) := by exact_mod_cast c
        have ha : (0 : Int) ≤ ((m * 2 ^ e.toNat : Nat) : Int) := Int.natCast_nonneg _
        generalize ((2 ^ (-e).toNat : Nat) : Int) = d at *
        generalize ((m * 2 ^ e.toNat : Nat) : Int) = a at *
        have h510 : (2 * i - 1) * d ≤ 510 * d := by omega
        have h0 : 0 * d ≤ (2 * i + 1) * d := by omega
        have := Int.le_of_mul_le_mul_right h510 hd
        have := Int.le_of_mul_le_mul_right h0 hd
        omega

theorem store_spec {F : Fpu} {ty : Ty} {v : Val} (h : Fits ty v) :
    ∃ x, store F ty v = some x ∧ Stored F ty v (x % 2 ^ (8 * ty.size)).toNat := by
  cases v with
  | num b =>
    obtain ⟨h1, h2, h3⟩ := h
    obtain ⟨t, ht, -⟩ := C22_integer (dec b)
    have nat : ∀ (w : Nat) (x : Int), Modular w 0 t x → ∃ t, IntOf (dec b) t ∧ Modular w 0 t ((x % 2 ^ w).toNat : Int) := by
      intro w x hx
      have hx0 := hx.2.1
      have hx2 := hx.2.2
      rw [Int.emod_eq_of_lt hx0 (by omega), Int.toNat_of_nonneg hx0]
      exact ⟨t, ht, hx⟩
    have nats : ∀ (w : Nat) (lo x : Int), Modular w lo t x →
        ∃ t, IntOf (dec b) t ∧ Modular w 0 t ((x % 2 ^ w).toNat : Int) := by
      intro w lo x hx
      refine ⟨t, ht, ?_⟩
      rw [Int.toNat_of_nonneg (Int.emod_nonneg _ (Int.ne_of_gt (pow_pos' w)))]
      obtain ⟨⟨k, hk⟩, -⟩ := hx
      obtain ⟨⟨k', hk'⟩, c⟩ := wrapU_modular w x
      exact ⟨⟨k + k', by show wrapU w x = _; rw [hk', hk, Int.add_mul]; omega⟩, c⟩
    cases ty with
    | u8 | u16 | u32 =>
      obtain ⟨b1, b2⟩ := (h3.resolve_left (by simp)).resolve_left (by simp [intType]) t ht
      obtain ⟨x, hx, hm⟩ := toUint_spec _ ht b1 b2
      exact ⟨x, hx, nat _ x hm⟩
    | i8 =>
      obtain ⟨b1, b2⟩ := (h3.resolve_left (by simp)).resolve_left (by simp [intType]) t ht
      obtain ⟨x, hx, hm⟩ := toInt_spec 8 (by decide) ht b1 b2
      exact ⟨x, hx, nats _ _ x hm⟩
    | i16 =>
      obtain ⟨b1, b2⟩ := (h3.resolve_left (by simp)).resolve_left (by simp [intType]) t ht
      obtain ⟨x, hx, hm⟩ := toInt_spec 16 (by decide) ht b1 b2
      exact ⟨x, hx, nats _ _ x hm⟩
    | i32 =>
      obtain ⟨b1, b2⟩ := (h3.resolve_left (by simp)).resolve_left (by simp [intType]) t ht
      obtain ⟨x, hx, hm⟩ := toInt_spec 32 (by decide) ht b1 b2
      exact ⟨x, hx, nats _ _ x hm⟩
    | u8c =>
      refine ⟨_, rfl, ?_⟩
      have hc := C22_clamp (dec b)
      have hc : Clamped (dec b) (toUint8Clamp (dec b)) := hc
      have hr := clamped_range hc
      show Clamped (dec b) (((toUint8Clamp (dec b)) % 2 ^ (8 * 1)).toNat : Int)
      rw [Int.emod_eq_of_lt hr.1 (by have := hr.2; omega), Int.toNat_of_nonneg hr.1]
      exact hc
    | f32 =>
      refine ⟨_, rfl, ?_⟩
      show (((F.narrow b).toNat : Int) % 2 ^ (8 * 4)).toNat = (F.narrow b).toNat
      rw [Int.emod_eq_of_lt (by omega) (by have := (F.narrow b).isLt; omega)]
      rfl
    | f64 =>
      refine ⟨_, rfl, ?_⟩
      show ((b.toNat : Int) % 2 ^ (8 * 8)).toNat = b.toNat
      rw [Int.emod_eq_of_lt (by omega) (by have := b.isLt; omega)]
      rfl
    | bu64 => exact absurd rfl h1
    | bi64 => exact absurd rfl h2
  | big x =>
    obtain ⟨hty, hwf, hok⟩ := h
    obtain ⟨i, hi, ⟨k, hk⟩, -, -⟩ := toInt64_spec hwf hok
    have fin : ∀ y : Int, (∃ k, y = i + k * 2 ^ 64) → Modular 64 0 x.toInt ((y % 2 ^ 64).toNat : Int) := by
      rintro y ⟨k', hk'⟩
      rw [Int.toNat_of_nonneg (Int.emod_nonneg _ (by decide))]
      obtain ⟨⟨k'', hk''⟩, c⟩ := wrapU_modular 64 y
      refine ⟨⟨k + k' + k'', ?_⟩, c⟩
      show wrapU 64 y = _
      rw [hk'', hk', hk, Int.add_mul, Int.add_mul]
      omega
    rcases hty with rfl | rfl
    · refine ⟨wrapU 64 i, by simp [store, hi], fin _ ?_⟩
      obtain ⟨h1, -⟩ := wrapU_modular 64 i
      exact h1
    · exact ⟨i, by simp [store, hi], fin _ ⟨0, by omega⟩⟩

/-! ### Reading -/

theorem isNan64_iff (b : W) : isNan64 b = true ↔ NaN64 b := by
  have := b.isLt
  simp only [isNan64, NaN64, decide_eq_true_eq]
  omega
theorem isNan32_iff (b : BitVec 32) : isNan32 b = true ↔ NaN32 b := by
  have := b.isLt
  simp only [isNan32, NaN32, decide_eq_true_eq]
  omega

theorem load_bi64 (F : Fpu) (n : Nat) : load F .bi64 n = (readInt64 n).map .big := rfl
theorem load_bu64 (F : Fpu) (n : Nat) : load F .bu64 n = some (.big (fromUint64 n)) := rfl
theorem readInt64_min : readInt64 (2 ^ 63) = none := by decide +kernel

theorem load_bu64_means (F : Fpu) {n : Nat} (h : n < 2 ^ 64) : Means F .bu64 n (.big (fromUint64 n)) := by
  obtain ⟨a, b⟩ := fromUint64_spec h
  simp only [Means, intType]
  exact ⟨n, ⟨⟨0, by simp⟩, by omega, by omega⟩, Or.inl rfl, a, b⟩

theorem viaInt64_spec {w : Int} (h1 : -(2 ^ 63) < w) (h2 : w < 2 ^ 63) :
    ∃ x, viaInt64 w = some x ∧ x.WF ∧ x.toInt = w := by
  obtain ⟨x, e1, e2, e3⟩ := fromInt64_spec h1 h2
  have hv : BigOk x := by
    intro hn hv
    have hxi : x.toInt = -(val x.mag : Int) := by simp [BI.toInt, hn]
    omega
  obtain ⟨j, hj, -⟩ := toInt64_spec e2 hv
  refine ⟨x, ?_, e2, e3⟩
  unfold viaInt64
  rw [e1]
  simp only
  rw [hj]

theorem signed64 {n : Nat} {w : Int} (h : n < 2 ^ 64) (hx : n ≠ 2 ^ 63) (hm : Modular 64 (-(2 ^ 63)) n w) :
    -(2 ^ 63) < w ∧ w < 2 ^ 63 := by
  obtain ⟨⟨k, hk⟩, h1, h2⟩ := hm
  omega

theorem load_bi64_means (F : Fpu) {n : Nat} (h : n < 2 ^ 64) (hx : n ≠ 2 ^ 63) :
    ∃ x, readInt64 n = some x ∧ Means F .bi64 n (.big x) := by
  have hm : Modular 64 (-(2 ^ 63)) n (wrapS 64 n) := wrapS_modular 64 (by decide) n
  obtain ⟨h1, h2⟩ := signed64 h hx hm
  unfold readInt64
  obtain ⟨x, e1, e2, e3⟩ := viaInt64_spec h1 h2
  exact ⟨x, e1, wrapS 64 n, hm, Or.inr rfl, e2, e3⟩

theorem load_means (F : Fpu) {ty : Ty} {n : Nat} (h : n < 2 ^ (8 * ty.size)) (hx : ty = .bi64 → n ≠ 2 ^ 63) :
    ∃ v, load F ty n = some v ∧ Means F ty n v := by
  have self : ∀ w, n < 2 ^ w → Modular w 0 (n : Int) (n : Int) := by
    intro w hw
    have : ((n : Nat) : Int) < ((2 ^ w : Nat) : Int) := by exact_mod_cast hw
    exact ⟨⟨0, by simp⟩, by omega, by simpa using this⟩
  have num : ∀ (w : Nat) (lo x : Int), intType ty = some (w, lo) → ty ≠ .bu64 → ty ≠ .bi64 → Modular w lo n x →
      -(2 ^ 53) < x → x < 2 ^ 53 → Means F ty n (.num (encInt x)) := by
    intro w lo x h1 h2 h3 h4 h5 h6
    simp only [Means, h1]
    exact ⟨x, h4, h2, h3, encInt_isInt (by omega)⟩
  cases ty with
  | u8 | u8c =>
    have h : n < 2 ^ 8 := h
    exact ⟨_, rfl, num 8 0 n rfl (by simp) (by simp) (self 8 h) (by omega) (by omega)⟩
  | u16 =>
    have hm := wrapU_modular 16 n
    have m1 := hm.2.1
    have m2 := hm.2.2
    exact ⟨_, rfl, num 16 0 _ rfl (by simp) (by simp) hm (by omega) (by omega)⟩
  | u32 =>
    have hm := wrapU_modular 32 n
    have m1 := hm.2.1
    have m2 := hm.2.2
    exact ⟨_, rfl, num 32 0 _ rfl (by simp) (by simp) hm (by omega) (by omega)⟩
  | i8 =>
    have hm := wrapS_modular 8 (by decide) n
    have m1 := hm.2.1
    have m2 := hm.2.2
    exact ⟨_, rfl, num 8 _ _ rfl (by simp) (by simp) hm (by omega) (by omega)⟩
  | i16 =>
    have hm := wrapS_modular 16 (by decide) n
    have m1 := hm.2.1
    have m2 := hm.2.2
    exact ⟨_, rfl, num 16 _ _ rfl (by simp) (by simp) hm (by omega) (by omega)⟩
  | i32 =>
    have hm := wrapS_modular 32 (by decide) n
    have m1 := hm.2.1
    have m2 := hm.2.2
    exact ⟨_, rfl, num 32 _ _ rfl (by simp) (by simp) hm (by omega) (by omega)⟩
  | bu64 => exact ⟨_, load_bu64 F n, load_bu64_means F (by simpa [Ty.size] using h)⟩
  | bi64 =>
    obtain ⟨x, h1, h2⟩ := load_bi64_means F (n := n) (by simpa [Ty.size] using h) (hx rfl)
    exact ⟨_, by rw [load_bi64, h1]; rfl, h2⟩
  | f32 =>
    refine ⟨_, rfl, ?_⟩
    have h : n < 2 ^ 32 := h
    simp only [Means, intType, if_true]
    refine ⟨BitVec.ofNat 32 n, by rw [BitVec.toNat_ofNat, Nat.mod_eq_of_lt h], ?_⟩
    rw [← isNan32_iff]
    exact ⟨fun h => by rw [if_pos h], fun h => by rw [if_neg h]⟩
  | f64 =>
    refine ⟨_, rfl, ?_⟩
    have h : n < 2 ^ 64 := h
    simp only [Means, intType]
    rw [if_neg (by simp)]
    refine ⟨BitVec.ofNat 64 n, by rw [BitVec.toNat_ofNat, Nat.mod_eq_of_lt h], ?_⟩
    rw [← isNan64_iff]
    exact ⟨fun h => by rw [if_pos h], fun h => by rw [if_neg h]⟩

theorem get_eq {F : Fpu} {mem : List Byte} {off : Nat} {ty : Ty} {little : Bool}
    (h : off + ty.size ≤ mem.length) :
    get F mem off ty little = load F ty (element mem off ty.size little) := by
  unfold get element
  rw [if_pos h]
  cases little
  · simp [orBig_eq]
  · simp [orLittle_eq]

theorem element_lt {mem : List Byte} {off n : Nat} {little : Bool} : element mem off n little < 2 ^ (8 * n) := by
  unfold element
  have h1 : ((mem.drop off).take n).length ≤ n := by simp
  simp only
  generalize (mem.drop off).take n = l at *
  have h2 := number_lt (if little = true then l else l.reverse)
  have h3 : (if little = true then l else l.reverse).length ≤ n := by
    cases little <;> simpa using h1
  rw [← p256]
  exact Nat.lt_of_lt_of_le h2 (Nat.pow_le_pow_right (by decide) h3)

theorem stored_means {F : Fpu} {ty : Ty} {v r : Val} {z : Nat} (hf : Fits ty v) (hs : Stored F ty v z)
    (hm : Means F ty z r) : Converted F ty v r := by
  have tr : ∀ {w : Nat} {lo t i : Int}, Modular w 0 t z → Modular w lo z i → Modular w lo t i := by
    rintro w lo t i ⟨⟨k, hk⟩, -⟩ ⟨⟨k', hk'⟩, c⟩
    exact ⟨⟨k + k', by rw [hk', hk, Int.add_mul]; omega⟩, c⟩
  cases v with
  | num b =>
    cases ty with
    | u8 | u16 | u32 | i8 | i16 | i32 =>
      obtain ⟨t, ht, hz⟩ := hs
      obtain ⟨i, hi, hh⟩ := hm
      exact ⟨_, _, t, i, rfl, ht, tr hz hi, hh⟩
    | u8c =>
      obtain ⟨i, hi, hh⟩ := hm
      refine ⟨i, ?_, hh⟩
      have hc : Clamped (dec b) z := hs
      have : i = z := by
        have hr := clamped_range hc
        exact modular_unique hi ⟨⟨0, by simp⟩, by omega, by omega⟩
      rw [this]
      exact hc
    | f32 =>
      have hs : z = (F.narrow b).toNat := hs
      simp only [Means, intType, if_true] at hm
      obtain ⟨f, h1, h2⟩ := hm
      have : f = F.narrow b := BitVec.eq_of_toNat_eq (by rw [h1, hs])
      subst this
      exact h2
    | f64 =>
      have hs : z = b.toNat := hs
      simp only [Means, intType] at hm
      rw [if_neg (by simp)] at hm
      obtain ⟨f, h1, h2⟩ := hm
      have : f = b := BitVec.eq_of_toNat_eq (by rw [h1, hs])
      subst this
      exact h2
    | bu64 => exact absurd rfl hf.1
    | bi64 => exact absurd rfl hf.2.1
  | big x =>
    have hs : Modular 64 0 x.toInt z := hs
    rcases hf.1 with rfl | rfl
    · obtain ⟨i, hi, hh⟩ := hm
      exact ⟨0, i, rfl, tr hs hi, hh⟩
    · obtain ⟨i, hi, hh⟩ := hm
      exact ⟨_, i, rfl, tr hs hi, hh⟩

/-! ### C40 -/

/-- **C40 is violated**: writing the number `2 ^ 63` into an `Int8Array` is undefined, so is writing
`-(2n ** 63n)` into a `BigInt64Array`, and reading it from memory is. -/
theorem C40_violated (F : Fpu) :
    put F [0#8] 0 .i8 (.num 0x43e0000000000000#64) true = none ∧ IsInt (dec 0x43e0000000000000#64) (2 ^ 63) ∧
    put F (List.replicate 8 0#8) 0 .bi64 (.big ⟨true, [0, 2 ^ 31]⟩) true = none ∧
    BI.toInt ⟨true, [0, 2 ^ 31]⟩ = -(2 ^ 63) ∧
    get F [0#8, 0#8, 0#8, 0#8, 0#8, 0#8, 0#8, 0x80#8] 0 .bi64 true = none := by
  refine ⟨?_, ?_, ?_, by decide +kernel, ?_⟩
  · have : toInt 8 (dec 0x43e0000000000000#64) = none := by decide +kernel
    simp [put, store, Ty.size, this]
  · have : dec 0x43e0000000000000#64 = .fin false (2 ^ 52) 11 := by decide +kernel
    rw [this]
    simp [IsInt]
  · have : toInt64 ⟨true, [0, 2 ^ 31]⟩ = none := by decide +kernel
    simp only [put, store, this]
    split <;> rfl
  · have h1 : element [0#8, 0#8, 0#8, 0#8, 0#8, 0#8, 0#8, 0x80#8] 0 Ty.bi64.size true = 2 ^ 63 := by decide +kernel
    rw [get_eq (by decide), h1, load_bi64, readInt64_min]
    rfl

/-- **C40, partial** (excluded is only the `BigInt64` element `-2 ^ 63`): the value read is the one
that the bytes of the element stand for, in the order asked for. -/
theorem C40_read_partial (F : Fpu) (mem : List Byte) (off : Nat) (ty : Ty) (little : Bool)
    (h : off + ty.size ≤ mem.length) (hx : ty = .bi64 → element mem off 8 little ≠ 2 ^ 63) :
    ∃ v, get F mem off ty little = some v ∧ Means F ty (element mem off ty.size little) v := by
  rw [get_eq h]
  exact load_means F element_lt (fun e => by subst e; exact hx rfl)

/-- **C40, partial** (values as in `Fits`): a write changes exactly the bytes of the element; these
hold the value converted, in the order asked for. -/
theorem C40_write_partial (F : Fpu) (mem : List Byte) (off : Nat) (ty : Ty) (v : Val) (little : Bool)
    (h : off + ty.size ≤ mem.length) (hv : Fits ty v) :
    ∃ mem', put F mem off ty v little = some mem' ∧ mem'.length = mem.length ∧
      (∀ i, i < off ∨ off + ty.size ≤ i → mem'[i]? = mem[i]?) ∧
      Stored F ty v (element mem' off ty.size little) := by
  obtain ⟨x, hx, hs⟩ := store_spec (F := F) hv
  unfold put
  rw [if_pos h, hx]
  have hl := bytes_length little ty.size x
  refine ⟨_, rfl, overwrite_length (by rw [hl]; exact h), ?_, ?_⟩
  · intro i hi
    exact overwrite_out (by rw [hl]; exact h) (by rw [hl]; exact hi)
  · have : element (overwrite mem off (bytes little ty.size x)) off ty.size little = (x % 2 ^ (8 * ty.size)).toNat := by
      have hin := overwrite_in (mem := mem) (b := bytes little ty.size x) (off := off) (by rw [hl]; exact h)
      rw [hl] at hin
      have hn := number_bytes ty.size x
      have : element (overwrite mem off (bytes little ty.size x)) off ty.size little = number (bytes true ty.size x) := by
        unfold element
        simp only [hin]
        cases little
        · simp [bytes_false]
        · simp
      rw [this]
      omega
    rw [this]
    exact hs

/-- **C40, partial**: reading back in the same order gives the value converted to the element type
(values as in `Fits`, and not `-2 ^ 63` in a `BigInt64` element). -/
theorem C40_partial (F : Fpu) (mem : List Byte) (off : Nat) (ty : Ty) (v : Val) (little : Bool)
    (h : off + ty.size ≤ mem.length) (hv : Fits ty v)
    (hx : ∀ x, v = .big x → ty = .bi64 → ¬ Modular 64 0 x.toInt (2 ^ 63)) :
    ∃ mem' r, put F mem off ty v little = some mem' ∧ get F mem' off ty little = some r ∧ Converted F ty v r := by
  obtain ⟨mem', h1, h2, -, h4⟩ := C40_write_partial F mem off ty v little h hv
  obtain ⟨r, h5, h6⟩ := C40_read_partial F mem' off ty little (by omega) (by
    rintro rfl h8
    cases v with
    | num b => exact hv.2.1 rfl
    | big x =>
      have h4 : Modular 64 0 x.toInt (element mem' off 8 little) := h4
      rw [h8] at h4
      exact hx x rfl rfl h4)
  exact ⟨mem', r, h1, h5, stored_means hv h4 h6⟩

/-- The other byte order reads the same as the bytes of the element reversed. -/
theorem C40_order (F : Fpu) (mem : List Byte) (off : Nat) (ty : Ty) (little : Bool)
    (h : off + ty.size ≤ mem.length) :
    get F mem off ty (!little) = get F (overwrite mem off ((mem.drop off).take ty.size).reverse) off ty little := by
  have hl : ((mem.drop off).take ty.size).reverse.length = ty.size := by simp; omega
  have hin := overwrite_in (mem := mem) (b := ((mem.drop off).take ty.size).reverse) (off := off) (by rw [hl]; exact h)
  rw [hl] at hin
  rw [get_eq h, get_eq (by rw [overwrite_length (by rw [hl]; exact h)]; exact h)]
  unfold element
  rw [hin]
  cases little <;> simp

/-- Outside of the memory nothing is read or written: the model says so with `none`. -/
theorem C40_outside (F : Fpu) (mem : List Byte) (off : Nat) (ty : Ty) (v : Val) (little : Bool)
    (h : mem.length < off + ty.size) : get F mem off ty little = none ∧ put F mem off ty v little = none := by
  simp [get, put, Nat.not_le.2 h]

/-- A number read from memory is never taken for something else than a number, whatever the bytes
(that is how a NaN with payload does not become a pointer, see `C51_violated`). -/
theorem C51_buffer (F : Fpu) (hF : ∀ f, ¬ NaN32 f → ¬ NaN64 (F.widen f)) (mem : List Byte) (off : Nat) (ty : Ty)
    (little : Bool) (b : W) (hty : ty = .f32 ∨ ty = .f64) (h : get F mem off ty little = some (.num b)) :
    Value.getType (Value.setNumber b) = .number := by
  have hin : off + ty.size ≤ mem.length := by
    refine Classical.byContradiction fun hc => ?_
    rw [(C40_outside F mem off ty (.num b) little (by omega)).1] at h
    cases h
  have key : b = nan ∨ ¬ NaN64 b := by
    obtain ⟨v, h1, h2⟩ := C40_read_partial F mem off ty little hin (by rcases hty with rfl | rfl <;> simp)
    rw [h] at h1
    cases h1
    rcases hty with rfl | rfl
    · simp only [Means, intType, if_true] at h2
      obtain ⟨f, -, a1, a2⟩ := h2
      by_cases hn : NaN32 f
      · exact Or.inl (Val.num.inj (a1 hn))
      · rw [Val.num.inj (a2 hn)]
        exact Or.inr (hF f hn)
    · simp only [Means, intType] at h2
      rw [if_neg (by simp)] at h2
      obtain ⟨f, -, a1, a2⟩ := h2
      by_cases hn : NaN64 f
      · exact Or.inl (Val.num.inj (a1 hn))
      · rw [Val.num.inj (a2 hn)]
        exact Or.inr hn
  rcases key with rfl | hb
  · decide +kernel
  · refine (Value.C51_number b ?_).1
    intro hn
    apply hb
    have := b.isLt
    simp only [Value.Spec.IsNaN] at hn
    simp only [NaN64]
    omega

/-- -257 in an `Int16` element at the offset 1, most significant byte first; read back the other
way round. -/
example : let F : Fpu := ⟨fun _ => 0, fun _ => 0⟩
    put F [1#8, 2#8, 3#8, 4#8] 1 .i16 (.num 0xc070100000000000#64) false = some [1#8, 0xfe#8, 0xff#8, 4#8] ∧
    get F [1#8, 0xfe#8, 0xff#8, 4#8] 1 .i16 false = some (.num 0xc070100000000000#64) ∧
    get F [1#8, 0xfe#8, 0xff#8, 4#8] 1 .i16 true = some (.num 0xc000000000000000#64) := by
  decide +kernel

end Verif.Raw

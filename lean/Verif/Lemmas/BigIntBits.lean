import Verif.Lemmas.BigIntDiv
import Mathlib.Data.Nat.Bitwise
/-
Helper lemmas about two's complement, shifts, bit operations and truncation of
the big integer model.
-/
namespace Verif.BigInt

theorem base_eq : base = 2 ^ 32 := by decide

theorem base_pow (n : Nat) : base ^ n = 2 ^ (32 * n) := by rw [base_eq, ← pow_mul]

/-! ### complement -/

theorem val_map_compl (l : List Nat) (h : Digits l) :
    val (l.map fun d => base - 1 - d) + val l + 1 = base ^ l.length ∧
      Digits (l.map fun d => base - 1 - d) := by
  induction l with
  | nil => simp [Digits.nil]
  | cons d ds ih =>
    rw [digits_cons] at h
    obtain ⟨h1, h2⟩ := ih h.2
    have := h.1
    simp only [List.map_cons, val_cons, List.length_cons, pow_succ]
    refine ⟨?_, digits_cons.2 ⟨by unfold base; omega, h2⟩⟩
    unfold base at *; omega

theorem selfAddLoop_length (ds : List Nat) (left : Nat) (hds : Digits ds) (hl : left < base) :
    (selfAddLoop ds left).length = ds.length ∨
      ((selfAddLoop ds left).length = ds.length + 1 ∧ base ^ ds.length ≤ val ds + left) := by
  induction ds generalizing left with
  | nil =>
    unfold selfAddLoop
    split
    · right; simp; omega
    · left; rfl
  | cons d ds ih =>
    rw [digits_cons] at hds
    have hd := hds.1
    have hmod : (d + left) % word = d + left :=
      Nat.mod_eq_of_lt (by unfold word; unfold base at *; omega)
    rw [selfAddLoop]
    simp only [hmod]
    split
    · left; rfl
    · have hq : (d + left) / base < base := by unfold base at *; omega
      rcases ih _ hds.2 hq with h | ⟨h, h'⟩
      · left; simp [h]
      · right
        refine ⟨by simp [h], ?_⟩
        simp only [List.length_cons, pow_succ, val_cons]
        unfold base at *; omega

theorem complRaw_spec {l : List Nat} (h : Digits l) :
    val (complRaw l) + val l = base ^ l.length ∧ Digits (complRaw l) ∧
      (0 < val l → (complRaw l).length = l.length) := by
  obtain ⟨h1, h2⟩ := val_map_compl l h
  obtain ⟨g1, g2, _⟩ := selfAddLoop_spec (l.map fun d => base - 1 - d) 1 h2 (by decide)
  refine ⟨by rw [complRaw, g1]; omega, g2, ?_⟩
  intro hp
  rcases selfAddLoop_length (l.map fun d => base - 1 - d) 1 h2 (by decide) with h | ⟨_, h⟩
  · rw [complRaw, h]; simp
  · rw [List.length_map] at h; omega

theorem complement_spec {l : List Nat} (h : Digits l) :
    val (complement l) + val l = base ^ l.length ∧ Digits (complement l) ∧
      TopNZ (complement l) := by
  obtain ⟨h1, h2, _⟩ := complRaw_spec h
  exact ⟨by rw [complement, val_strip]; exact h1, strip_digits h2, strip_top _⟩

theorem toInt_neg_complement {l : List Nat} (h : Digits l) :
    (BI.negate (BI.ofMag (complement l))).toInt = (val l : Int) - (base : Int) ^ l.length ∧
      (BI.negate (BI.ofMag (complement l))).WF := by
  obtain ⟨h1, h2, h3⟩ := complement_spec h
  refine ⟨?_, WF.negate (WF.ofMag h2 h3)⟩
  rw [toInt_negate, toInt_ofMag]
  have : ((base ^ l.length : Nat) : Int) = (base : Int) ^ l.length := by push_cast; rfl
  rw [← this]; omega

/-! ### shifts -/

theorem val_drop (l : List Nat) (h : Digits l) (n : Nat) : val (l.drop n) = val l / base ^ n := by
  induction n generalizing l with
  | zero => simp
  | succ n ih =>
    cases l with
    | nil => simp
    | cons d ds =>
      rw [digits_cons] at h
      rw [List.drop_succ_cons, ih ds h.2, pow_succ, Nat.mul_comm (base ^ n), ← Nat.div_div_eq_div_mul]
      congr 1
      have := h.1
      simp only [val_cons]
      unfold base at *; omega

theorem digits_drop {l : List Nat} (h : Digits l) (n : Nat) : Digits (l.drop n) :=
  fun d hd => h d (List.mem_of_mem_drop hd)

/-- One limb of a right shift. -/
theorem shr_limb {d X b : Nat} (hd : d < base) (hb : b < 32) :
    (d + base * X) / 2 ^ b = (d + X % base * base) / 2 ^ b % base + base * (X / 2 ^ b) := by
  have hB : base = 2 ^ b * 2 ^ (32 - b) := by rw [← pow_add, base_eq]; congr 1; omega
  have hp : 0 < 2 ^ b := Nat.pow_pos (by omega)
  have hq : 0 < 2 ^ (32 - b) := Nat.pow_pos (by omega)
  have e1 : ∀ Y, (d + base * Y) / 2 ^ b = d / 2 ^ b + 2 ^ (32 - b) * Y := by
    intro Y
    rw [hB, Nat.mul_assoc, Nat.add_mul_div_left _ _ hp]
  have hdlt : d / 2 ^ b < 2 ^ (32 - b) := by
    rw [Nat.div_lt_iff_lt_mul hp, Nat.mul_comm, ← hB]; exact hd
  rw [e1, Nat.mul_comm (X % base) base, e1]
  have hX := Nat.div_add_mod X (2 ^ b)
  have hXm : X % base % 2 ^ b = X % 2 ^ b := Nat.mod_mod_of_dvd _ ⟨_, hB⟩
  have hY := Nat.div_add_mod (X % base) (2 ^ b)
  rw [hXm] at hY
  have hR : X % 2 ^ b < 2 ^ b := Nat.mod_lt _ hp
  have hlim : d / 2 ^ b + 2 ^ (32 - b) * (X % 2 ^ b) < base := by
    have : 2 ^ (32 - b) * (X % 2 ^ b + 1) ≤ 2 ^ (32 - b) * 2 ^ b := Nat.mul_le_mul_left _ hR
    rw [Nat.mul_comm (2 ^ (32 - b)) (2 ^ b), ← hB, Nat.mul_add] at this
    omega
  have f1 : 2 ^ (32 - b) * X = base * (X / 2 ^ b) + 2 ^ (32 - b) * (X % 2 ^ b) := by
    conv_lhs => rw [← hX]
    rw [hB]; ring
  have f2 : 2 ^ (32 - b) * (X % base) =
      base * (X % base / 2 ^ b) + 2 ^ (32 - b) * (X % 2 ^ b) := by
    conv_lhs => rw [← hY]
    rw [hB]; ring
  have f3 : (d / 2 ^ b + 2 ^ (32 - b) * (X % base)) % base =
      d / 2 ^ b + 2 ^ (32 - b) * (X % 2 ^ b) := by
    rw [f2, show d / 2 ^ b + (base * (X % base / 2 ^ b) + 2 ^ (32 - b) * (X % 2 ^ b)) =
      (d / 2 ^ b + 2 ^ (32 - b) * (X % 2 ^ b)) + base * (X % base / 2 ^ b) by ring,
      Nat.add_mul_mod_self_left, Nat.mod_eq_of_lt hlim]
  rw [f3, f1]; ring

theorem shrLoop_spec {bits ext : Nat} (hb : bits < 32) (hext : ext < base) (l : List Nat)
    (h : Digits l) :
    val (shrLoop bits ext l) = (val l + base ^ l.length * ext) / 2 ^ bits % base ^ l.length ∧
      Digits (shrLoop bits ext l) ∧ (shrLoop bits ext l).length = l.length := by
  induction l with
  | nil => simp [shrLoop, Digits.nil, Nat.mod_one]
  | cons d ds ih =>
    rw [digits_cons] at h
    obtain ⟨h1, h2, h3⟩ := ih h.2
    cases ds with
    | nil =>
      simp only [shrLoop, val_cons, val_nil, List.length_cons, List.length_nil]
      refine ⟨?_, digits_cons.2 ⟨Nat.mod_lt _ (by decide), Digits.nil⟩, trivial⟩
      simp [Nat.mul_comm]
    | cons d' ds' =>
      rw [shrLoop]
      refine ⟨?_, digits_cons.2 ⟨Nat.mod_lt _ (by decide), h2⟩, by simp [h3]⟩
      rw [val_cons, h1]
      generalize hX : val (d' :: ds') + base ^ (d' :: ds').length * ext = X
      have hd' : X % base = d' := by
        rw [← hX, val_cons, List.length_cons, pow_succ]
        have : d' + base * val ds' + base ^ ds'.length * base * ext =
          d' + base * (val ds' + base ^ ds'.length * ext) := by ring
        rw [this, Nat.add_mul_mod_self_left, Nat.mod_eq_of_lt (digits_cons.1 h.2).1]
      have hfull : val (d :: d' :: ds') + base ^ (d :: d' :: ds').length * ext = d + base * X := by
        rw [← hX, val_cons d, List.length_cons (a := d), pow_succ]; ring
      rw [hfull, shr_limb h.1 hb, hd', List.length_cons (a := d),
        mod_base_pow_succ (Nat.mod_lt _ (by decide))]

theorem shlLoop_spec {bits : Nat} (hb : bits < 32) (l : List Nat) (left : Nat) (h : Digits l)
    (hl : left < 2 ^ bits) :
    val (shlLoop bits l left).1 + base ^ l.length * (shlLoop bits l left).2 =
        val l * 2 ^ bits + left ∧
      Digits (shlLoop bits l left).1 ∧ (shlLoop bits l left).1.length = l.length ∧
      (shlLoop bits l left).2 < 2 ^ bits := by
  induction l generalizing left with
  | nil => simp [shlLoop, Digits.nil, hl]
  | cons d ds ih =>
    rw [digits_cons] at h
    have hd := h.1
    have hp31 : 2 ^ bits ≤ 2 ^ 31 := Nat.pow_le_pow_right (by omega) (by omega)
    have hp : 0 < 2 ^ bits := Nat.pow_pos (by omega)
    have hmax : d * 2 ^ bits + left < base * 2 ^ bits := by
      have : (d + 1) * 2 ^ bits ≤ base * 2 ^ bits := Nat.mul_le_mul_right _ hd
      rw [Nat.add_mul] at this; omega
    have hle : base * 2 ^ bits ≤ base * 2 ^ 31 := Nat.mul_le_mul_left _ hp31
    have hmod : d * 2 ^ bits % word = d * 2 ^ bits :=
      Nat.mod_eq_of_lt (by unfold word; unfold base at *; omega)
    have hq : (d * 2 ^ bits + left) / base < 2 ^ bits := by
      rw [Nat.div_lt_iff_lt_mul (by decide), Nat.mul_comm (2 ^ bits) base]; exact hmax
    have hq2 : (d * 2 ^ bits + left) / base % base = (d * 2 ^ bits + left) / base :=
      Nat.mod_eq_of_lt (by unfold base at *; omega)
    obtain ⟨h1, h2, h3, h4⟩ := ih _ h.2 hq
    rw [shlLoop]
    simp only [hmod, hq2]
    generalize shlLoop bits ds ((d * 2 ^ bits + left) / base) = p at *
    obtain ⟨r, o⟩ := p
    simp only at *
    refine ⟨?_, digits_cons.2 ⟨Nat.mod_lt _ (by decide), h2⟩, by simp [h3], h4⟩
    rw [val_cons, val_cons, List.length_cons, pow_succ]
    have hdm := Nat.div_add_mod (d * 2 ^ bits + left) base
    calc (d * 2 ^ bits + left) % base + base * val r + base ^ ds.length * base * o
        = (d * 2 ^ bits + left) % base + base * (val r + base ^ ds.length * o) := by ring
      _ = (d * 2 ^ bits + left) % base + base * (val ds * 2 ^ bits +
            (d * 2 ^ bits + left) / base) := by rw [h1]
      _ = (base * ((d * 2 ^ bits + left) / base) + (d * 2 ^ bits + left) % base) +
            base * (val ds * 2 ^ bits) := by ring
      _ = (d + base * val ds) * 2 ^ bits + left := by rw [hdm]; ring

/-- The two's complement reading of the stored limbs of a negative number. -/
theorem two_pow_split (amt : Nat) : 2 ^ amt = base ^ (amt / 32) * 2 ^ (amt % 32) := by
  rw [base_pow, ← pow_add]; congr 1; omega

theorem shr_nonneg {l : List Nat} (h : Digits l) (amt : Nat) :
    val (shrLoop (amt % 32) 0 (l.drop (amt / 32))) = val l / 2 ^ amt ∧
      Digits (shrLoop (amt % 32) 0 (l.drop (amt / 32))) := by
  obtain ⟨h1, h2, _⟩ := shrLoop_spec (bits := amt % 32) (ext := 0) (Nat.mod_lt _ (by omega))
    (by decide) (l.drop (amt / 32)) (digits_drop h _)
  refine ⟨?_, h2⟩
  rw [h1, Nat.mul_zero, Nat.add_zero, Nat.mod_eq_of_lt, val_drop _ h, Nat.div_div_eq_div_mul,
    ← two_pow_split]
  exact lt_of_le_of_lt (Nat.div_le_self _ _) (val_lt (digits_drop h _))

theorem int_floor_div_div (z : Int) (m n : Nat) : z / (m : Int) / (n : Int) = z / ((m * n : Nat) : Int) := by
  rw [Int.ediv_ediv_of_nonneg (Int.natCast_nonneg _)]
  push_cast; rfl

/-- Right shift of the limbs of `B^k - a`. -/
theorem shr_neg {s : List Nat} (h : Digits s) {a : Nat} (ha : 0 < a)
    (hs : val s + a = base ^ s.length) (amt : Nat) (hk : amt / 32 < s.length) :
    (val (shrLoop (amt % 32) (base - 1) (s.drop (amt / 32))) : Int) =
        (-(a : Int)) / ((2 ^ amt : Nat) : Int) + ((base ^ (s.length - amt / 32) : Nat) : Int) ∧
      Digits (shrLoop (amt % 32) (base - 1) (s.drop (amt / 32))) ∧
      (shrLoop (amt % 32) (base - 1) (s.drop (amt / 32))).length = s.length - amt / 32 := by
  obtain ⟨h1, h2, h3⟩ := shrLoop_spec (bits := amt % 32) (ext := base - 1)
    (Nat.mod_lt _ (by omega)) (by decide) (s.drop (amt / 32)) (digits_drop h _)
  have hlen : (s.drop (amt / 32)).length = s.length - amt / 32 := by simp
  rw [hlen] at h1 h3
  refine ⟨?_, h2, h3⟩
  rw [h1, val_drop _ h]
  have hsplit := two_pow_split amt
  have hb : amt % 32 < 32 := Nat.mod_lt _ (by omega)
  have hB : base = 2 ^ (amt % 32) * 2 ^ (32 - amt % 32) := by
    rw [← pow_add, base_eq]; congr 1; omega
  generalize amt / 32 = off at *
  generalize hbb : amt % 32 = b at *
  obtain ⟨k', hk'⟩ : ∃ k', s.length = off + k' := ⟨s.length - off, by omega⟩
  have hkk : s.length - off = k' := by omega
  rw [hkk]
  rw [hk', pow_add] at hs
  have hoff : (0 : Int) < ((base ^ off : Nat) : Int) := by
    exact_mod_cast Nat.pow_pos (by decide)
  have h2b : (0 : Int) < ((2 ^ b : Nat) : Int) := by exact_mod_cast Nat.pow_pos (by decide)
  -- value of the dropped limbs
  have e1 : ((val s / base ^ off : Nat) : Int) = (-(a : Int)) / ((base ^ off : Nat) : Int) +
      ((base ^ k' : Nat) : Int) := by
    rw [Int.natCast_ediv]
    have : (val s : Int) = -(a : Int) + ((base ^ off : Nat) : Int) * ((base ^ k' : Nat) : Int) := by
      have : ((val s + a : Nat) : Int) = ((base ^ off * base ^ k' : Nat) : Int) := by rw [hs]
      rw [Nat.cast_add, Nat.cast_mul] at this
      omega
    rw [this, Int.add_mul_ediv_left _ _ (by omega)]
  have e2 : (((val s / base ^ off + base ^ k' * (base - 1)) / 2 ^ b : Nat) : Int) =
      (-(a : Int)) / ((2 ^ amt : Nat) : Int) +
        ((base ^ k' : Nat) : Int) * ((2 ^ (32 - b) : Nat) : Int) := by
    rw [Int.natCast_ediv, Nat.cast_add, e1]
    have : (-(a : Int)) / ((base ^ off : Nat) : Int) + ((base ^ k' : Nat) : Int) +
        ((base ^ k' * (base - 1) : Nat) : Int) = (-(a : Int)) / ((base ^ off : Nat) : Int) +
        ((2 ^ b : Nat) : Int) * (((base ^ k' : Nat) : Int) * ((2 ^ (32 - b) : Nat) : Int)) := by
      have : ((base ^ k' : Nat) : Int) + ((base ^ k' * (base - 1) : Nat) : Int) =
          ((base ^ k' * base : Nat) : Int) := by
        rw [← Nat.cast_add]; congr 1
        rw [Nat.mul_sub]
        have : base ^ k' * 1 ≤ base ^ k' * base := Nat.mul_le_mul_left _ (by decide)
        omega
      rw [Int.add_assoc, this]
      congr 1
      rw [← Nat.cast_mul, ← Nat.cast_mul]
      congr 1
      calc base ^ k' * base = base ^ k' * (2 ^ b * 2 ^ (32 - b)) := by rw [← hB]
        _ = 2 ^ b * (base ^ k' * 2 ^ (32 - b)) := by ring
    rw [this, Int.add_mul_ediv_left _ _ (by omega), int_floor_div_div, hsplit]
  have hf1 : (-(a : Int)) / ((2 ^ amt : Nat) : Int) < 0 := by
    apply Int.ediv_neg_of_neg_of_pos
    · omega
    · exact_mod_cast Nat.pow_pos (by decide)
  have hf2 : -((base ^ k' : Nat) : Int) ≤ (-(a : Int)) / ((2 ^ amt : Nat) : Int) := by
    rw [Int.le_ediv_iff_mul_le (by exact_mod_cast Nat.pow_pos (by decide))]
    have : a ≤ base ^ k' * 2 ^ amt := by
      rw [hsplit]
      calc a ≤ base ^ off * base ^ k' := by omega
        _ = base ^ k' * (base ^ off * 1) := by ring
        _ ≤ base ^ k' * (base ^ off * 2 ^ b) :=
          Nat.mul_le_mul_left _ (Nat.mul_le_mul_left _ (Nat.one_le_two_pow))
    have : (a : Int) ≤ ((base ^ k' * 2 ^ amt : Nat) : Int) := by exact_mod_cast this
    rw [Nat.cast_mul] at this
    rw [Int.neg_mul]; omega
  rw [Int.natCast_emod, e2]
  generalize (-(a : Int)) / ((2 ^ amt : Nat) : Int) = f at *
  generalize ((base ^ k' : Nat) : Int) = P at *
  rw [Int.add_mul_emod_self_left]
  rw [← Int.add_emod_right, Int.emod_eq_of_lt (by omega) (by omega)]

theorem pow_base_inj {a b : Nat} (h : (base : Int) ^ a = (base : Int) ^ b) : a = b := by
  have : base ^ a = base ^ b := by exact_mod_cast h
  exact Nat.pow_right_injective (by decide : 2 ≤ base) this

theorem strip_length_le (l : List Nat) : (strip l).length ≤ l.length := by
  induction l with
  | nil => simp [strip]
  | cons d ds ih =>
    rw [strip_cons]
    split
    · split <;> simp
    · simp; omega

theorem strip_length_eq_iff {l : List Nat} (h : Digits l) (hne : l ≠ []) :
    (strip l).length = l.length ↔ base ^ (l.length - 1) ≤ val l := by
  constructor
  · intro he
    have hs : strip l ≠ [] := by
      intro h0; rw [h0] at he; exact hne (List.length_eq_zero_iff.1 he.symm)
    have := val_ge (strip_top l) hs
    rw [val_strip, he] at this
    exact this
  · intro hge
    have h1 := val_lt (strip_digits h)
    rw [val_strip] at h1
    have h2 := strip_length_le l
    by_contra hc
    have : base ^ (strip l).length ≤ base ^ (l.length - 1) :=
      Nat.pow_le_pow_right (by decide) (by omega)
    omega

/-! ### limbs and bits -/

theorem testBit_val {l : List Nat} (h : Digits l) (i : Nat) :
    (val l).testBit i = (l.getD (i / 32) 0).testBit (i % 32) := by
  rw [getD_val l h, base_pow, base_eq, Nat.testBit_mod_two_pow, Nat.testBit_div_two_pow]
  have : i % 32 < 32 := Nat.mod_lt _ (by omega)
  simp only [this, decide_true, Bool.true_and]
  congr 1; omega

theorem ibit_natCast (n i : Nat) : ibit (n : Int) i = n.testBit i := by
  unfold ibit
  rw [Nat.testBit_eq_decide_div_mod_eq]
  have : ((n : Int) / 2 ^ i % 2) = ((n / 2 ^ i % 2 : Nat) : Int) := by push_cast; rfl
  rw [this]
  congr 1
  rw [eq_iff_iff]; omega

theorem ibit_neg {v k : Nat} (hv : v < 2 ^ k) (i : Nat) :
    ibit ((v : Int) - ((2 ^ k : Nat) : Int)) i = if i < k then v.testBit i else true := by
  unfold ibit
  have h2i : (0 : Int) < ((2 ^ i : Nat) : Int) := by exact_mod_cast Nat.pow_pos (by decide)
  have hc : ((2 : Int) ^ i) = ((2 ^ i : Nat) : Int) := by push_cast; rfl
  rw [hc]
  split
  · rename_i h
    have e : ((2 ^ k : Nat) : Int) = ((2 ^ i : Nat) : Int) * (2 * ((2 ^ (k - i - 1) : Nat) : Int)) := by
      have : 2 ^ k = 2 ^ i * (2 * 2 ^ (k - i - 1)) := by
        rw [← pow_succ', ← pow_add]; congr 1; omega
      rw [this]; push_cast; ring
    rw [e, Int.sub_eq_add_neg, ← Int.mul_neg, Int.add_mul_ediv_left _ _ (by omega),
      ← ibit_natCast]
    unfold ibit
    rw [hc]
    congr 1
    rw [eq_iff_iff]; omega
  · rename_i h
    have hle : 2 ^ k ≤ 2 ^ i := Nat.pow_le_pow_right (by omega) (by omega)
    have : ((v : Int) - ((2 ^ k : Nat) : Int)) / ((2 ^ i : Nat) : Int) = -1 := by
      apply Int.ediv_eq_neg_one_of_neg_of_le <;> omega
    rw [this]; rfl

/-- A limb of `twosLimbs` extended by the sign. -/
def extGet (l : List Nat) (e i : Nat) : Nat := if i < l.length then l.getD i 0 else e

theorem bitLoop_length (op : BitOp) (e1 e2 : Nat) (a b : List Nat) :
    (bitLoop op e1 e2 a b).length = max a.length b.length := by
  induction a generalizing b with
  | nil => simp [bitLoop]
  | cons x xs ih =>
    cases b with
    | nil => simp [bitLoop, ih]
    | cons y ys => simp [bitLoop, ih]

theorem bitLoop_get (op : BitOp) (e1 e2 : Nat) (a b : List Nat) (i : Nat)
    (hi : i < max a.length b.length) :
    (bitLoop op e1 e2 a b).getD i 0 = op.apply (extGet a e1 i) (extGet b e2 i) := by
  induction a generalizing b i with
  | nil =>
    simp at hi
    simp [bitLoop, extGet, hi]
  | cons x xs ih =>
    cases b with
    | nil =>
      cases i with
      | zero => simp [bitLoop, extGet]
      | succ i =>
        have := ih [] i (by simp at *; omega)
        simpa [bitLoop, extGet] using this
    | cons y ys =>
      cases i with
      | zero => simp [bitLoop, extGet]
      | succ i =>
        have := ih ys i (by simp at *; omega)
        simpa [bitLoop, extGet] using this

/-- The bit-level meaning of an operation. -/
def BitOp.bool : BitOp → Bool → Bool → Bool
  | .and, a, b => a && b
  | .or, a, b => a || b
  | .xor, a, b => a ^^ b

theorem BitOp.testBit (op : BitOp) (a b i : Nat) :
    (op.apply a b).testBit i = op.bool (a.testBit i) (b.testBit i) := by
  cases op <;> simp [BitOp.apply, BitOp.bool]

theorem BitOp.lt (op : BitOp) {a b : Nat} (ha : a < base) (hb : b < base) : op.apply a b < base := by
  rw [base_eq] at *
  cases op
  · exact Nat.and_lt_two_pow _ hb
  · exact Nat.or_lt_two_pow ha hb
  · exact Nat.xor_lt_two_pow ha hb

/-- The sign limb. -/
def signLimb (n : Bool) : Nat := if n then base - 1 else 0

theorem testBit_signLimb (n : Bool) (i : Nat) (h : i < 32) : (signLimb n).testBit i = n := by
  cases n
  · simp [signLimb]
  · have : signLimb true = 2 ^ 32 - 1 := by decide
    rw [this, Nat.testBit_two_pow_sub_one]; simpa using h

theorem BitOp.signLimb (op : BitOp) (m n : Bool) :
    op.apply (signLimb m) (signLimb n) = BigInt.signLimb (op.bool m n) := by
  cases op <;> cases m <;> cases n <;> decide

theorem twosLimbs_spec {x : BI} (hx : x.WF) :
    Digits (twosLimbs x) ∧ (twosLimbs x).length = x.mag.length + 1 ∧
      (∀ i, ibit x.toInt i = (extGet (twosLimbs x) (signLimb x.neg) (i / 32)).testBit (i % 32)) ∧
      (∀ j, x.mag.length ≤ j → extGet (twosLimbs x) (signLimb x.neg) j = signLimb x.neg) := by
  have hr : ∀ i, i % 32 < 32 := fun i => Nat.mod_lt _ (by omega)
  cases hn : x.neg
  · have ht : twosLimbs x = x.mag ++ [0] := by simp [twosLimbs, hn]
    rw [ht]
    have hd : Digits (x.mag ++ [0]) := digits_append.2 ⟨hx.digits, by decide⟩
    refine ⟨hd, by simp, ?_, ?_⟩
    · intro i
      rw [toInt_of_neg hn]
      simp only [Bool.false_eq_true, if_false]
      rw [ibit_natCast, testBit_val hx.digits]
      unfold extGet
      split
      · rename_i h
        by_cases h' : i / 32 < x.mag.length
        · rw [List.getD_append _ _ _ _ h']
        · have : i / 32 = x.mag.length := by simp at h; omega
          simp [this]
      · rename_i h
        rw [testBit_signLimb _ _ (hr i), List.getD_eq_getElem?_getD, List.getElem?_eq_none (by simp at h; omega)]
        simp
    · intro j hj
      unfold extGet
      split
      · rename_i h
        have : j = x.mag.length := by simp at h; omega
        simp [this, signLimb]
      · rfl
  · have ht : twosLimbs x = complRaw x.mag ++ [base - 1] := by simp [twosLimbs, hn]
    rw [ht]
    obtain ⟨c1, c2, c3⟩ := complRaw_spec hx.digits
    have hne : x.mag ≠ [] := fun h => by rw [hx.sign h] at hn; cases hn
    have hpos := val_pos hx.top hne
    have hlen := c3 hpos
    have hd : Digits (complRaw x.mag ++ [base - 1]) := digits_append.2 ⟨c2, by decide⟩
    refine ⟨hd, by simp [hlen], ?_, ?_⟩
    · intro i
      rw [toInt_of_neg hn]
      simp only [if_true]
      have e : -(val x.mag : Int) = (val (complRaw x.mag) : Int) - ((2 ^ (32 * x.mag.length) : Nat) : Int) := by
        rw [← base_pow, ← c1]; push_cast; ring
      rw [e, ibit_neg (by rw [← base_pow, ← c1]; omega)]
      unfold extGet
      split
      · rename_i h
        have h' : i / 32 < (complRaw x.mag).length := by omega
        rw [testBit_val c2, if_pos (by simp; omega), List.getD_append _ _ _ _ h']
      · rename_i h
        split
        · rename_i h'
          have : i / 32 = (complRaw x.mag).length := by simp at h'; omega
          have hs := testBit_signLimb true (i % 32) (hr i)
          simp only [signLimb, if_true] at hs
          rw [this, List.getD_append_right _ _ _ _ (le_refl _), Nat.sub_self, List.getD_cons_zero, hs]
        · rw [testBit_signLimb _ _ (hr i)]
    · intro j hj
      unfold extGet
      split
      · rename_i h
        have : j = (complRaw x.mag).length := by simp at h; omega
        simp [this, signLimb]
      · rfl

theorem bitOp_spec (op : BitOp) {x y : BI} (hx : x.WF) (hy : y.WF) :
    (bitOp op x y).WF ∧
      ∀ i, ibit (bitOp op x y).toInt i = op.bool (ibit x.toInt i) (ibit y.toInt i) := by
  obtain ⟨a1, a2, a3, a4⟩ := twosLimbs_spec hx
  obtain ⟨b1, b2, b3, b4⟩ := twosLimbs_spec hy
  have hsx : (if x.neg = true then base - 1 else 0) = signLimb x.neg := rfl
  have hsy : (if y.neg = true then base - 1 else 0) = signLimb y.neg := rfl
  unfold bitOp
  simp only [hsx, hsy]
  have hlen := bitLoop_length op (signLimb x.neg) (signLimb y.neg) (twosLimbs x) (twosLimbs y)
  have hget := bitLoop_get op (signLimb x.neg) (signLimb y.neg) (twosLimbs x) (twosLimbs y)
  generalize hR : bitLoop op (signLimb x.neg) (signLimb y.neg) (twosLimbs x) (twosLimbs y) = R at *
  rw [a2, b2] at hlen hget
  have hsl : ∀ n, signLimb n < base := by intro n; cases n <;> decide
  have hext : ∀ (l : List Nat) (n : Bool) (i : Nat), Digits l → extGet l (signLimb n) i < base := by
    intro l n i hl
    unfold extGet
    split
    · rename_i h
      rw [List.getD_eq_getElem?_getD, List.getElem?_eq_getElem h]
      exact hl _ (List.getElem_mem h)
    · exact hsl n
  have hRd : Digits R := by
    intro d hd
    obtain ⟨i, hi, rfl⟩ := List.getElem_of_mem hd
    have := hget i (by omega)
    rw [List.getD_eq_getElem?_getD, List.getElem?_eq_getElem hi] at this
    simp only [Option.getD_some] at this
    rw [this]
    exact op.lt (hext _ _ _ a1) (hext _ _ _ b1)
  have hRne : R ≠ [] := by intro h; rw [h] at hlen; simp at hlen
  have hL : 0 < R.length := List.length_pos_iff.2 hRne
  have htop : R.getD (R.length - 1) 0 = signLimb (op.bool x.neg y.neg) := by
    rw [hget _ (by omega), a4 _ (by omega), b4 _ (by omega), op.signLimb]
  have hlast : R.getLastD 0 = signLimb (op.bool x.neg y.neg) := by
    rw [← htop, List.getLastD_eq_getLast?, List.getLast?_eq_getElem?, List.getD_eq_getElem?_getD]
  have hin : ∀ i, i / 32 < R.length → (val R).testBit i =
      op.bool (ibit x.toInt i) (ibit y.toInt i) := by
    intro i hi
    rw [testBit_val hRd, hget _ (by omega), op.testBit, a3, b3]
  have hout : ∀ i, R.length ≤ i / 32 → op.bool (ibit x.toInt i) (ibit y.toInt i) =
      op.bool x.neg y.neg := by
    intro i hi
    rw [a3, b3, a4 _ (by omega), b4 _ (by omega),
      testBit_signLimb _ _ (Nat.mod_lt _ (by omega)), testBit_signLimb _ _ (Nat.mod_lt _ (by omega))]
  rw [hlast]
  cases hs : op.bool x.neg y.neg
  · rw [if_neg (by decide)]
    refine ⟨WF.ofMag (strip_digits hRd) (strip_top _), ?_⟩
    intro i
    rw [toInt_ofMag, val_strip, ibit_natCast]
    by_cases hi : i / 32 < R.length
    · exact hin i hi
    · rw [hout i (by omega), hs, testBit_val hRd, List.getD_eq_getElem?_getD,
        List.getElem?_eq_none (by omega)]
      simp
  · rw [if_pos (by decide)]
    have htopnz : strip R = R := by
      apply strip_eq_self
      rw [hs] at htop
      have h0 : R.getD (R.length - 1) 0 ≠ 0 := by rw [htop]; decide
      have hge : base ^ (R.length - 1) ≤ val R := by
        rw [getD_val R hRd] at h0
        by_contra hc
        rw [Nat.div_eq_of_lt (by omega)] at h0
        simp at h0
      have := (strip_length_eq_iff hRd hRne).2 hge
      have hE : strip R = R := val_inj_len this (strip_digits hRd) hRd (val_strip R)
      rw [← hE]; exact strip_top R
    rw [htopnz]
    obtain ⟨n1, n2⟩ := toInt_neg_complement hRd
    refine ⟨n2, ?_⟩
    intro i
    have e : (base : Int) ^ R.length = ((2 ^ (32 * R.length) : Nat) : Int) := by
      rw [← base_pow]; push_cast; rfl
    rw [n1, e, ibit_neg (by rw [← base_pow]; exact val_lt hRd)]
    split
    · exact hin i (by omega)
    · rw [hout i (by omega), hs]

/-! ### truncation -/

theorem val_range_map (inp : List Nat) (h : Digits inp) (n : Nat) :
    val ((List.range n).map fun i => inp.getD i 0) = val inp % base ^ n ∧
      Digits ((List.range n).map fun i => inp.getD i 0) := by
  induction n with
  | zero => simp [Nat.mod_one, Digits.nil]
  | succ n ih =>
    rw [List.range_succ, List.map_append, val_append, ih.1]
    refine ⟨?_, digits_append.2 ⟨ih.2, ?_⟩⟩
    · simp only [List.length_map, List.length_range, List.map_cons, List.map_nil, val_cons, val_nil]
      rw [getD_val inp h, pow_succ, Nat.mod_mul]; simp
    · simp only [List.map_cons, List.map_nil]
      rw [digits_cons, getD_val inp h]
      exact ⟨Nat.mod_lt _ (by decide), Digits.nil⟩

theorem lowBits_spec {x : BI} (hx : x.WF) (bits : Nat) :
    val (lowBits x bits) =
        (if x.neg then base ^ x.mag.length - val x.mag else val x.mag) % 2 ^ bits ∧
      Digits (lowBits x bits) ∧ TopNZ (lowBits x bits) := by
  have key : ∀ inp : List Nat, Digits inp →
      val (strip (((List.range (bits / 32)).map fun i => inp.getD i 0) ++
        (if bits % 32 ≠ 0 then [inp.getD (bits / 32) 0 % 2 ^ (bits % 32)] else []))) =
        val inp % 2 ^ bits ∧
      Digits (strip (((List.range (bits / 32)).map fun i => inp.getD i 0) ++
        (if bits % 32 ≠ 0 then [inp.getD (bits / 32) 0 % 2 ^ (bits % 32)] else []))) := by
    intro inp hi
    obtain ⟨r1, r2⟩ := val_range_map inp hi (bits / 32)
    have hb : bits % 32 < 32 := Nat.mod_lt _ (by omega)
    have hdvd : base = 2 ^ (bits % 32) * 2 ^ (32 - bits % 32) := by
      rw [← pow_add, base_eq]; congr 1; omega
    refine ⟨?_, strip_digits (digits_append.2 ⟨r2, ?_⟩)⟩
    · rw [val_strip, val_append, r1, two_pow_split bits, Nat.mod_mul]
      congr 1
      simp only [List.length_map, List.length_range]
      congr 1
      split
      · simp only [val_cons, val_nil, Nat.mul_zero, Nat.add_zero]
        rw [getD_val inp hi, Nat.mod_mod_of_dvd _ ⟨_, hdvd⟩]
      · rename_i h
        have h : bits % 32 = 0 := by simpa using h
        rw [h]; simp [Nat.mod_one]
    · split
      · rw [digits_cons]
        refine ⟨lt_of_lt_of_le (Nat.mod_lt _ (Nat.pow_pos (by omega))) ?_, Digits.nil⟩
        rw [base_eq]; exact Nat.pow_le_pow_right (by omega) (by omega)
      · exact Digits.nil
  unfold lowBits
  simp only
  cases hn : x.neg
  · obtain ⟨k1, k2⟩ := key x.mag hx.digits
    exact ⟨by simpa using k1, by simpa using k2, strip_top _⟩
  · obtain ⟨c1, c2, _⟩ := complement_spec hx.digits
    obtain ⟨k1, k2⟩ := key (complement x.mag) c2
    refine ⟨?_, by simpa using k2, strip_top _⟩
    simp only [if_true]
    rw [k1]
    congr 1; omega

theorem high_mask {b : Nat} (hb : b < 32) : (base - 1) * 2 ^ b % base = base - 2 ^ b := by
  have hp : 0 < 2 ^ b := Nat.pow_pos (by omega)
  have hle : 2 ^ b ≤ base := by rw [base_eq]; exact Nat.pow_le_pow_right (by omega) (by omega)
  have : (base - 1) * 2 ^ b = (base - 2 ^ b) + base * (2 ^ b - 1) := by
    rw [Nat.sub_mul, Nat.mul_sub]
    have : base ≤ base * 2 ^ b := Nat.le_mul_of_pos_right _ hp
    omega
  rw [this, Nat.add_mul_mod_self_left, Nat.mod_eq_of_lt (by omega)]

/-- Filling the bits from `b` up. -/
theorem or_high {m b : Nat} (hm : m < 2 ^ b) (hb : b < 32) :
    m ||| ((base - 1) * 2 ^ b % base) = m + base - 2 ^ b := by
  rw [high_mask hb]
  have hB : base = 2 ^ b * 2 ^ (32 - b) := by rw [← pow_add, base_eq]; congr 1; omega
  have hhi : base - 2 ^ b = 2 ^ b * (2 ^ (32 - b) - 1) := by rw [Nat.mul_sub, ← hB, Nat.mul_one]
  have hle : 2 ^ b ≤ base := by rw [base_eq]; exact Nat.pow_le_pow_right (by omega) (by omega)
  rw [hhi, Nat.lor_comm, ← Nat.two_pow_add_eq_or_of_lt hm, ← hhi]
  omega

theorem eq_one_of_mod {q : Nat} (h : q < 2) (h' : q % 2 = 1) : q = 1 := by omega

theorem mod_one_iff {q : Nat} (h : q < 2) : q % 2 = 1 ↔ 1 ≤ q := by omega

theorem or_high_bit {m b : Nat} (hm : m < 2 ^ (b + 1)) (hbit : m / 2 ^ b % 2 = 1) (hb : b < 32) :
    m ||| ((base - 1) * 2 ^ b % base) = m + base - 2 ^ (b + 1) := by
  have hp : 0 < 2 ^ b := Nat.pow_pos (by omega)
  have hlt : m / 2 ^ b < 2 := by
    rw [Nat.div_lt_iff_lt_mul hp]; rw [pow_succ] at hm; omega
  have h1 : m / 2 ^ b = 1 := eq_one_of_mod hlt hbit
  have hdm := Nat.div_add_mod m (2 ^ b)
  rw [h1, Nat.mul_one] at hdm
  have hlo : m % 2 ^ b < 2 ^ b := Nat.mod_lt _ hp
  have e1 : m = 2 ^ b ||| m % 2 ^ b := by
    have := Nat.two_pow_add_eq_or_of_lt hlo 1
    rw [Nat.mul_one] at this
    rw [← this]; exact hdm.symm
  have hB : base = 2 ^ b * 2 ^ (32 - b) := by rw [← pow_add, base_eq]; congr 1; omega
  have hq : 2 ^ (32 - b) = 2 * 2 ^ (31 - b) := by rw [← pow_succ']; congr 1; omega
  have hq1 : 0 < 2 ^ (31 - b) := Nat.pow_pos (by omega)
  have hsub : 2 ^ (32 - b) - 1 = (2 * (2 ^ (31 - b) - 1)) ||| 1 := by
    have := Nat.two_pow_add_eq_or_of_lt (i := 1) (b := 1) (by omega) (2 ^ (31 - b) - 1)
    rw [pow_one] at this
    rw [← this]; omega
  have e2 : 2 ^ b ||| (base - 2 ^ b) = base - 2 ^ b := by
    have hhi : base - 2 ^ b = (2 ^ (32 - b) - 1) <<< b := by
      rw [Nat.shiftLeft_eq, Nat.sub_mul, Nat.mul_comm, ← hB, Nat.one_mul]
    have hlo' : 2 ^ b = 1 <<< b := by rw [Nat.shiftLeft_eq, Nat.one_mul]
    rw [hhi, hlo', ← Nat.shiftLeft_or_distrib, hsub, Nat.lor_comm 1, Nat.lor_assoc, Nat.or_self]
  have e3 := or_high hlo hb
  rw [high_mask hb] at *
  conv_lhs => rw [e1, Nat.lor_comm (2 ^ b), Nat.lor_assoc, e2]
  rw [e3, pow_succ]
  have hle : 2 ^ b * 2 ≤ base := by
    rw [← pow_succ, base_eq]; exact Nat.pow_le_pow_right (by omega) (by omega)
  omega

theorem val_set_top (l : List Nat) (o n : Nat) (h : l.length = o + 1) :
    val (l.set o n) + base ^ o * l.getD o 0 = val l + base ^ o * n := by
  induction o generalizing l with
  | zero =>
    obtain ⟨d, rfl⟩ := List.length_eq_one_iff.1 h
    simp; omega
  | succ o ih =>
    cases l with
    | nil => simp at h
    | cons d ds =>
      have := ih ds (by simpa using h)
      simp only [List.set_cons_succ, val_cons, List.getD_cons_succ, pow_succ]
      calc d + base * val (ds.set o n) + base ^ o * base * ds.getD o 0
          = d + base * (val (ds.set o n) + base ^ o * ds.getD o 0) := by ring
        _ = d + base * (val ds + base ^ o * n) := by rw [this]
        _ = _ := by ring

theorem asIntN_spec {x : BI} (hx : x.WF) {bits : Nat} (hb : 0 < bits) :
    (asIntN bits x).WF ∧ (asIntN bits x).toInt =
      (if val (lowBits x bits) < 2 ^ (bits - 1) then (val (lowBits x bits) : Int)
        else (val (lowBits x bits) : Int) - ((2 ^ bits : Nat) : Int)) := by
  obtain ⟨l1, l2, l3⟩ := lowBits_spec hx bits
  have hlt : val (lowBits x bits) < 2 ^ bits := by
    rw [l1]; exact Nat.mod_lt _ (Nat.pow_pos (by omega))
  unfold asIntN
  simp only
  generalize lowBits x bits = res at *
  have hsplit := two_pow_split (bits - 1)
  have hb31 : (bits - 1) % 32 < 32 := Nat.mod_lt _ (by omega)
  have hdm : 32 * ((bits - 1) / 32) + (bits - 1) % 32 = bits - 1 := Nat.div_add_mod _ _
  generalize (bits - 1) / 32 = o at *
  generalize (bits - 1) % 32 = b at *
  have hpo : 0 < base ^ o := Nat.pow_pos (by decide)
  have hpb : 0 < 2 ^ b := Nat.pow_pos (by decide)
  have hbits : 2 ^ bits = base ^ o * 2 ^ (b + 1) := by
    rw [base_pow, ← pow_add]; congr 1; omega
  have hle : base ^ o * 2 ^ (b + 1) ≤ base ^ (o + 1) := by
    rw [pow_succ (n := o), base_eq]
    exact Nat.mul_le_mul_left _ (Nat.pow_le_pow_right (by omega) (by omega))
  have hlen : res.length ≤ o + 1 := length_le_of_val_lt l3 (by omega)
  have hlimb : res.getD o 0 = val res / base ^ o := by
    rw [getD_val res l2, Nat.mod_eq_of_lt]
    rw [Nat.div_lt_iff_lt_mul hpo, Nat.mul_comm, ← pow_succ]
    omega
  have hlimblt : res.getD o 0 < 2 ^ (b + 1) := by
    rw [hlimb, Nat.div_lt_iff_lt_mul hpo, Nat.mul_comm, ← hbits]; exact hlt
  have hbit : res.getD o 0 / 2 ^ b % 2 = 1 ↔ 2 ^ (bits - 1) ≤ val res := by
    have h2 : res.getD o 0 / 2 ^ b < 2 := by
      rw [Nat.div_lt_iff_lt_mul hpb]; rw [pow_succ] at hlimblt; omega
    have : 2 ^ (bits - 1) ≤ val res ↔ 1 ≤ res.getD o 0 / 2 ^ b := by
      rw [hlimb, Nat.div_div_eq_div_mul, ← hsplit, Nat.le_div_iff_mul_le (Nat.pow_pos (by omega)),
        Nat.one_mul]
    rw [this]; exact mod_one_iff h2
  by_cases hc : val res < 2 ^ (bits - 1)
  · rw [if_neg (by rw [hbit]; omega), if_pos hc, toInt_ofMag]
    exact ⟨WF.ofMag l2 l3, rfl⟩
  · have hge : 2 ^ (bits - 1) ≤ val res := by omega
    have hlen' : res.length = o + 1 := by
      have : base ^ o ≤ val res := by
        calc base ^ o = base ^ o * 1 := by omega
          _ ≤ base ^ o * 2 ^ b := Nat.mul_le_mul_left _ hpb
          _ ≤ val res := by rw [← hsplit]; exact hge
      by_contra hne
      have h1 := val_lt l2
      have : base ^ res.length ≤ base ^ o := Nat.pow_le_pow_right (by decide) (by omega)
      omega
    rw [if_pos ⟨by omega, hbit.2 hge⟩, if_neg hc, or_high_bit hlimblt (hbit.2 hge) hb31]
    have hb1 : 2 ^ (b + 1) ≤ base := by
      rw [base_eq]; exact Nat.pow_le_pow_right (by omega) (by omega)
    have hdig : Digits (res.set o (res.getD o 0 + base - 2 ^ (b + 1))) := by
      intro d hd
      rcases List.mem_or_eq_of_mem_set hd with h | h
      · exact l2 d h
      · rw [h]; omega
    obtain ⟨n1, n2⟩ := toInt_neg_complement hdig
    refine ⟨n2, ?_⟩
    rw [n1, List.length_set, hlen']
    have hv := val_set_top res o (res.getD o 0 + base - 2 ^ (b + 1)) hlen'
    have hv2 : val (res.set o (res.getD o 0 + base - 2 ^ (b + 1))) + 2 ^ bits =
        val res + base ^ (o + 1) := by
      have e : res.getD o 0 + base - 2 ^ (b + 1) + 2 ^ (b + 1) = res.getD o 0 + base := by omega
      have : base ^ o * (res.getD o 0 + base - 2 ^ (b + 1)) + base ^ o * 2 ^ (b + 1) =
          base ^ o * res.getD o 0 + base ^ o * base := by
        rw [← Nat.mul_add, e, Nat.mul_add]
      rw [hbits, pow_succ base o]; omega
    have e : (base : Int) ^ (o + 1) = ((base ^ (o + 1) : Nat) : Int) := by push_cast; rfl
    rw [e]
    omega

end Verif.BigInt

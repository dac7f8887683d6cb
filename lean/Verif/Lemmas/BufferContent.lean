import Verif.Lemmas.BufferArgs
/-
What the bulk operations leave in memory.
-/
namespace Verif.Buffer
open NumConv Spec BigInt
open Raw (Byte Ty Val Fpu Stored Fits)
open Raw.Spec (IsInt Means element number)

variable {F : Fpu} {le : Bool} {s : State}

theorem slice_slice {m : List Byte} {lo N p n : Nat} (h : p + n ≤ N) : slice (slice m lo N) p n = slice m (lo + p) n := by
  unfold slice
  rw [List.drop_take, List.drop_drop, List.take_take, Nat.min_eq_left (by omega)]

theorem slice_sub {c m : List Byte} {lo N : Nat} (h : slice c 0 N = slice m lo N) {p n : Nat} (hp : p + n ≤ N) :
    slice c p n = slice m (lo + p) n := by
  have h1 := slice_slice (m := c) (lo := 0) (N := N) (p := p) (n := n) hp
  rw [h, slice_slice hp, Nat.zero_add] at h1
  exact h1.symm

theorem slice_get {c m : List Byte} {p q n : Nat} (h : slice c p n = slice m q n) {j : Nat} (hj : j < n) : c[p + j]? = m[q + j]? := by
  have : (slice c p n)[j]? = (slice m q n)[j]? := by rw [h]
  unfold slice at this
  rw [List.getElem?_take, List.getElem?_take, if_pos hj, if_pos hj, List.getElem?_drop, List.getElem?_drop] at this
  exact this

theorem get_congr {c m : List Byte} {p q : Nat} {ty : Ty} (h : slice c p ty.size = slice m q ty.size) (h1 : p + ty.size ≤ c.length)
    (h2 : q + ty.size ≤ m.length) : Raw.get F c p ty le = Raw.get F m q ty le := by
  rw [Raw.get_eq h1, Raw.get_eq h2]
  unfold element
  unfold slice at h
  rw [h]

/-- A value which has been read is what the bytes mean. -/
theorem get_means {m : List Byte} {p : Nat} {ty : Ty} {v : Val} (h : Raw.get F m p ty le = some v) : Means F ty (element m p ty.size le) v := by
  have hl : p + ty.size ≤ m.length := by
    refine Classical.byContradiction fun hc => ?_
    unfold Raw.get at h
    rw [if_neg hc] at h
    cases h
  by_cases hx : ty = .bi64 → element m p 8 le ≠ 2 ^ 63
  · obtain ⟨w, w1, w2⟩ := Raw.C40_read_partial F m p ty le hl hx
    rw [h] at w1
    cases w1
    exact w2
  · exfalso
    have ⟨e1, e2⟩ : ty = .bi64 ∧ element m p 8 le = 2 ^ 63 := by
      refine ⟨Classical.byContradiction fun hc => hx fun he => absurd he hc, Classical.byContradiction fun hc => hx fun _ => hc⟩
    subst e1
    rw [Raw.get_eq hl, show Ty.bi64.size = 8 from rfl, e2, Raw.load_bi64, Raw.readInt64_min] at h
    cases h

theorem means_wf {ty : Ty} {z : Nat} {x : BI} (h : Means F ty z (.big x)) : x.WF := by
  cases ty with
  | f32 =>
    simp only [Means, Raw.Spec.intType, if_true] at h
    obtain ⟨f, -, h1, h2⟩ := h
    by_cases hn : Raw.Spec.NaN32 f
    · cases h1 hn
    · cases h2 hn
  | f64 =>
    simp only [Means, Raw.Spec.intType] at h
    rw [if_neg (by decide)] at h
    obtain ⟨f, -, h1, h2⟩ := h
    by_cases hn : Raw.Spec.NaN64 f
    · cases h1 hn
    · cases h2 hn
  | _ =>
    obtain ⟨i, -, h1⟩ := h
    exact h1.2.1

/-- A value which can be stored is one of those that `C40_write_partial` speaks about. -/
theorem store_fits {ty : Ty} {v : Val} {z : Int} (h : Raw.store F ty v = some z) (hwf : ∀ x, v = .big x → x.WF) : Fits ty v := by
  cases v with
  | num b =>
    have key : ∀ w, (∃ f : Nat → Int → Int, (if special (Raw.dec b) then some 0 else (castInt64 (Raw.dec b)).map (f w)) = some z) →
        ∀ t, NumConv.Spec.IntOf (Raw.dec b) t → -(2 ^ 63) ≤ t ∧ t < 2 ^ 63 := by
      rintro w ⟨f, hf⟩ t ht
      cases hd : Raw.dec b with
      | nan =>
        rw [hd] at ht
        have : t = 0 := ht
        omega
      | inf neg =>
        rw [hd] at ht
        have : t = 0 := ht
        omega
      | fin neg m e =>
        rw [hd] at ht hf
        have ht : NumConv.Spec.IsTrunc (.fin neg m e) t := ht
        have hc := isTrunc_unique (cut_isTrunc neg m e) ht
        split at hf
        next hsp =>
          have hm0 : m = 0 := by
            simp only [special, beq_iff_eq] at hsp
            exact hsp
          subst hm0
          have h1 := ht.1.1
          have hp : 0 < 2 ^ (-e).toNat := Nat.pow_pos (by decide)
          have : t.natAbs = 0 := by
            rcases Nat.eq_zero_or_pos t.natAbs with h0 | h0
            · exact h0
            · have := Nat.mul_pos h0 hp
              omega
          omega
        · simp only [castInt64, NumConv.cast, hc] at hf
          split at hf
          next hr => omega
          · simp at hf
    cases ty with
    | u8 => exact ⟨by simp, by simp, Or.inr (Or.inr (key 8 ⟨wrapU, h⟩))⟩
    | u16 => exact ⟨by simp, by simp, Or.inr (Or.inr (key 16 ⟨wrapU, h⟩))⟩
    | u32 => exact ⟨by simp, by simp, Or.inr (Or.inr (key 32 ⟨wrapU, h⟩))⟩
    | i8 => exact ⟨by simp, by simp, Or.inr (Or.inr (key 8 ⟨wrapS, h⟩))⟩
    | i16 => exact ⟨by simp, by simp, Or.inr (Or.inr (key 16 ⟨wrapS, h⟩))⟩
    | i32 => exact ⟨by simp, by simp, Or.inr (Or.inr (key 32 ⟨wrapS, h⟩))⟩
    | u8c => exact ⟨by simp, by simp, Or.inl rfl⟩
    | f32 => exact ⟨by simp, by simp, Or.inr (Or.inl rfl)⟩
    | f64 => exact ⟨by simp, by simp, Or.inr (Or.inl rfl)⟩
    | bu64 => cases h
    | bi64 => cases h
  | big x =>
    have hw := hwf x rfl
    have key : Raw.toInt64 x ≠ none → Raw.BigOk x := by
      intro hn hneg he
      obtain ⟨i, ⟨k, hk⟩, h1, h2, h3⟩ := Raw.low64 hw
      rw [h3, if_pos hneg] at hn
      split at hn
      · exact hn rfl
      · omega
    cases ty with
    | bu64 =>
      refine ⟨Or.inl rfl, hw, key fun hn => ?_⟩
      simp [Raw.store, hn] at h
    | bi64 =>
      refine ⟨Or.inr rfl, hw, key fun hn => ?_⟩
      simp [Raw.store, hn] at h
    | _ => cases h

theorem bytes_element {m : List Byte} {p n : Nat} {z : Int} (h : slice m p n = Raw.bytes le n z) : element m p n le = (z % 2 ^ (8 * n)).toNat := by
  have hn := Raw.number_bytes n z
  unfold element
  unfold slice at h
  rw [h]
  cases le
  · simp only [Raw.bytes_false, List.reverse_reverse]
    simp
    omega
  · simp
    omega

theorem stored_of {m : List Byte} {p : Nat} {ty : Ty} {v : Val} {z : Int} (h : Raw.store F ty v = some z) (hwf : ∀ x, v = .big x → x.WF)
    (hb : slice m p ty.size = Raw.bytes le ty.size z) : Stored F ty v (element m p ty.size le) := by
  obtain ⟨z', h1, h2⟩ := Raw.store_spec (F := F) (store_fits h hwf)
  rw [h] at h1
  cases h1
  rw [bytes_element hb]
  exact h2

/-- The element at `q` of `mt` is the one at `p` of `ms`, converted. -/
def Moved (F : Fpu) (le : Bool) (sty tty : Ty) (ms : List Byte) (p : Nat) (mt : List Byte) (q : Nat) : Prop :=
  ∃ v, Means F sty (element ms p sty.size le) v ∧ Stored F tty v (element mt q tty.size le)

theorem moved_of {sty tty : Ty} {ms mt : List Byte} {p q : Nat} {v : Val} {z : Int} (h1 : Raw.get F ms p sty le = some v) (h2 : Raw.store F tty v = some z)
    (h3 : slice mt q tty.size = Raw.bytes le tty.size z) : Moved F le sty tty ms p mt q := by
  have hm := get_means h1
  exact ⟨v, hm, stored_of h2 (fun x e => by subst e; exact means_wf hm) h3⟩

/-- The memory after the elements of `n` have been moved. -/
def Copied (F : Fpu) (le : Bool) (sty tty : Ty) (ms : List Byte) (p : Nat) (mt mt' : List Byte) (q n : Nat) : Prop :=
  mt'.length = mt.length ∧ (∀ i, i < q ∨ q + tty.size * n ≤ i → mt'[i]? = mt[i]?) ∧
  (sty = tty → ∀ j, j < tty.size * n → mt'[q + j]? = ms[p + j]?) ∧
  (sty ≠ tty → ∀ j, j < n → Moved F le sty tty ms (p + sty.size * j) mt' (q + tty.size * j))

theorem transfer_copied {sk sp : Nat} {sty : Ty} {tk tp : Nat} {tty : Ty} {n : Nat} {ms mt : List Byte}
    (hs : mem s sk = some ms) (ht : mem s tk = some mt) (h1 : sp + sty.size * n ≤ ms.length) (h2 : tp + tty.size * n ≤ mt.length)
    (hne : tk ≠ sk) :
    transfer F le s sk sp sty tk tp tty n = .error .cast ∨
    ∃ s' mt', transfer F le s sk sp sty tk tp tty n = .ok s' ∧ mem s' tk = some mt' ∧ (∀ j, j ≠ tk → mem s' j = mem s j) ∧
      s'.bufs = s.bufs ∧ s'.views = s.views ∧ s'.frames = s.frames ∧ Copied F le sty tty ms sp mt mt' tp n := by
  rcases transfer_spec (F := F) (le := le) hs ht h1 h2 hne with h | ⟨s', mt', e1, e2, e3, t, c1, c2⟩
  · exact Or.inl h
  · refine Or.inr ⟨s', mt', e1, e2, e3, t.bufs, t.views, t.frames, ?_⟩
    obtain ⟨m2, a1, a2, a3⟩ := t.mem ht
    rw [e2] at a1
    cases a1
    refine ⟨a2, fun i hi => a3 i fun h => ?_, fun he j hj => ?_, fun he j hj => ?_⟩
    · have := h.2.1
      have := h.2.2
      omega
    · have := c1 he
      subst he
      exact slice_get this hj
    · obtain ⟨v, z, h1, h2, h3⟩ := c2 he j hj
      exact moved_of h1 h2 h3

/-- The source may also have been cloned before. -/
theorem Copied.clone {sty tty : Ty} {ms c : List Byte} {p : Nat} {mt mt' : List Byte} {q n : Nat} (h : Copied F le sty tty c 0 mt mt' q n)
    (hc : slice c 0 (sty.size * n) = slice ms p (sty.size * n)) : Copied F le sty tty ms p mt mt' q n := by
  obtain ⟨h1, h2, h3, h4⟩ := h
  refine ⟨h1, h2, fun he j hj => ?_, fun he j hj => ?_⟩
  · rw [h3 he j hj]
    have := slice_get hc (j := j) (by rw [he]; exact hj)
    simpa using this
  · obtain ⟨v, v1, v2⟩ := h4 he j hj
    refine ⟨v, ?_, v2⟩
    have hin : sty.size * j + sty.size ≤ sty.size * n := by
      have := Nat.mul_le_mul_left sty.size (show j + 1 ≤ n by omega)
      rw [Nat.mul_add] at this
      omega
    have := slice_sub hc (p := sty.size * j) (n := sty.size) hin
    unfold element at v1 ⊢
    unfold slice at this
    rw [Nat.zero_add, this] at v1
    exact v1

end Verif.Buffer

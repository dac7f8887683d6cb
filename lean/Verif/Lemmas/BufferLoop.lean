import Verif.Lemmas.Buffer
/-
The loops over elements.
-/
namespace Verif.Buffer
open NumConv Spec
open Raw (Byte Ty Val Fpu)

theorem size_pos (ty : Ty) : 0 < ty.size := by cases ty <;> decide

theorem blockOf_ok {s : State} {b k L : Nat} (h : s.bufs[b]? = some ⟨some k, L⟩) : blockOf s b = .ok k := by
  simp [blockOf, h]

theorem attached_ok {s : State} {b k L : Nat} (h : s.bufs[b]? = some ⟨some k, L⟩) : detached s b = false := by
  simp [detached, h]

theorem detached_false {s : State} {b : Nat} (h : detached s b = false) : ∃ k L, s.bufs[b]? = some ⟨some k, L⟩ := by
  unfold detached at h
  split at h
  next k L e => exact ⟨k, L, e⟩
  next => cases h

theorem detached_true {s : State} {b : Nat} (h : detached s b = true) : Gone s b := by
  intro k L e
  rw [attached_ok e] at h
  cases h

/-- `n` bytes of a list from `lo` on. -/
def slice (m : List Byte) (lo n : Nat) : List Byte := (m.drop lo).take n

theorem slice_congr {m m' : List Byte} {lo n : Nat} (h : ∀ i, lo ≤ i → i < lo + n → m'[i]? = m[i]?) :
    slice m' lo n = slice m lo n := by
  unfold slice
  apply List.ext_getElem?
  intro i
  rw [List.getElem?_take, List.getElem?_take]
  split
  next hi =>
    rw [List.getElem?_drop, List.getElem?_drop]
    exact h _ (by omega) (by omega)
  next => rfl

theorem overwrite_slice {m b : List Byte} {lo : Nat} (h : lo + b.length ≤ m.length) :
    slice (Raw.overwrite m lo b) lo b.length = b := Raw.overwrite_in h

theorem put_slice {F : Fpu} {m m' : List Byte} {pos : Nat} {ty : Ty} {x : Val} {le : Bool} (h : Raw.put F m pos ty x le = some m') :
    ∃ z, Raw.store F ty x = some z ∧ slice m' pos ty.size = Raw.bytes le ty.size z ∧ m'.length = m.length ∧
      ∀ i, i < pos ∨ pos + ty.size ≤ i → m'[i]? = m[i]? := by
  unfold Raw.put at h
  split at h
  next hl =>
    cases hz : Raw.store F ty x with
    | none => rw [hz] at h; cases h
    | some z =>
      rw [hz] at h
      simp only [Option.some.injEq] at h
      subst h
      have hb := Raw.bytes_length le ty.size z
      refine ⟨z, rfl, ?_, Raw.overwrite_length (by rw [hb]; exact hl), fun i hi => Raw.overwrite_out (by rw [hb]; exact hl) (by rw [hb]; exact hi)⟩
      have := overwrite_slice (m := m) (b := Raw.bytes le ty.size z) (lo := pos) (by rw [hb]; exact hl)
      rw [hb] at this
      exact this
  next => cases h

theorem in_elem {off sz n i : Nat} (h : i < n) : off + sz * i + sz ≤ off + n * sz := by
  have : sz * (i + 1) ≤ sz * n := Nat.mul_le_mul_left _ h
  rw [Nat.mul_add, Nat.mul_comm sz n] at this
  omega

theorem part_elem {k off sz n i : Nat} (h : i < n) : ∀ j b, part k (off + sz * i) sz j b → part k off (n * sz) j b := by
  rintro j b ⟨h1, h2, h3⟩
  have := in_elem (off := off) (sz := sz) h
  refine ⟨h1, ?_, by omega⟩
  have : 0 ≤ sz * i := Nat.zero_le _
  omega

theorem fillLoop_spec {F : Fpu} {le : Bool} {V : View} {ty : Ty} {x : Val} {k L : Nat} :
    ∀ (n i : Nat) (s : State) (m : List Byte), s.bufs[V.buf]? = some ⟨some k, L⟩ → mem s k = some m →
      V.off + V.alen * ty.size ≤ m.length →
      fillLoop F le V ty x n i s = .error .cast ∨
      ∃ s' m', fillLoop F le V ty x n i s = .ok s' ∧ mem s' k = some m' ∧ (∀ j, j ≠ k → mem s' j = mem s j) ∧
        Touch (part k V.off (V.alen * ty.size)) (part k V.off (V.alen * ty.size)) s s' ∧
        (∀ j, j < n → i + j < V.alen → ∃ z, Raw.store F ty x = some z ∧ slice m' (V.off + ty.size * (i + j)) ty.size = Raw.bytes le ty.size z) ∧
        (∀ p, (p < V.off + ty.size * i ∨ V.off + ty.size * (i + n) ≤ p) → m'[p]? = m[p]?) := by
  intro n
  induction n with
  | zero =>
    intro i s m hb hm hl
    exact Or.inr ⟨s, m, rfl, hm, fun _ _ => rfl, .refl _ _ _, fun j hj => by omega, fun _ _ => rfl⟩
  | succ n ih =>
    intro i s m hb hm hl
    rw [fillLoop]
    by_cases hv : validNat s V i = true
    · rw [if_pos hv]
      have hi : i < V.alen := by simp [validNat] at hv; exact hv.2
      unfold putElem
      rw [blockOf_ok hb]
      simp only
      have hin := in_elem (off := V.off) (sz := ty.size) hi
      rcases putAt_spec (F := F) (x := x) (little := le) hm (pos := V.off + ty.size * i) (ty := ty) (by omega) with ⟨h, -⟩ | ⟨s1, m1, e1, p1, a1, o1, t1⟩
      · rw [h]; exact Or.inl rfl
      · rw [e1]
        simp only
        obtain ⟨z, z1, z2, z3, z4⟩ := put_slice p1
        have t1' := t1.mono (part_elem hi) (part_elem hi)
        rcases ih (i + 1) s1 m1 (by rw [t1.bufs]; exact hb) a1 (by omega) with h | ⟨s2, m2, e2, a2, o2, t2, c2, u2⟩
        · exact Or.inl h
        · refine Or.inr ⟨s2, m2, e2, a2, fun j hj => by rw [o2 j hj, o1 j hj], t1'.trans t2, ?_, ?_⟩
          · intro j hj hij
            cases j with
            | zero =>
              refine ⟨z, z1, ?_⟩
              rw [← z2]
              apply slice_congr
              intro p p1 p2
              apply u2
              left
              rw [Nat.mul_add]
              simp at p2
              omega
            | succ j =>
              have := c2 j (by omega) (by omega)
              rw [show i + 1 + j = i + (j + 1) by omega] at this
              exact this
          · intro p hp
            rw [u2 p ?_, z4 p ?_]
            · have : ty.size * (i + (n + 1)) = ty.size * i + ty.size * n + ty.size := by rw [Nat.mul_add, Nat.mul_add]; omega
              omega
            · have : ty.size * (i + (n + 1)) = ty.size * i + ty.size * n + ty.size := by rw [Nat.mul_add, Nat.mul_add]; omega
              have : ty.size * (i + 1) = ty.size * i + ty.size := by rw [Nat.mul_add]; omega
              have : ty.size * (i + 1 + n) = ty.size * i + ty.size + ty.size * n := by rw [Nat.mul_add, Nat.mul_add]; omega
              omega
    · rw [if_neg hv]
      have hi : ¬ i < V.alen := by
        intro hi
        apply hv
        simp [validNat, attached_ok hb, hi]
      rcases ih (i + 1) s m hb hm hl with h | ⟨s2, m2, e2, a2, o2, t2, c2, u2⟩
      · exact Or.inl h
      · refine Or.inr ⟨s2, m2, e2, a2, o2, t2, fun j _ hj => by omega, ?_⟩
        intro p hp
        apply u2
        have : ty.size * (i + (n + 1)) = ty.size * i + ty.size * n + ty.size := by rw [Nat.mul_add, Nat.mul_add]; omega
        have : ty.size * (i + 1) = ty.size * i + ty.size := by rw [Nat.mul_add]; omega
        have : ty.size * (i + 1 + n) = ty.size * i + ty.size + ty.size * n := by rw [Nat.mul_add, Nat.mul_add]; omega
        omega

theorem part_sub {k lo n lo' n' : Nat} (h1 : lo' ≤ lo) (h2 : lo + n ≤ lo' + n') : ∀ j b, part k lo n j b → part k lo' n' j b := by
  rintro j b ⟨a, b1, b2⟩
  exact ⟨a, by omega, by omega⟩

/-- The loop of conversions; the safety part. -/
theorem convLoop_spec {F : Fpu} {le : Bool} {sk : Nat} {sty : Ty} {tk : Nat} {tty : Ty} :
    ∀ (n sp tp : Nat) (s : State) (ms mt : List Byte), mem s sk = some ms → mem s tk = some mt →
      sp + sty.size * n ≤ ms.length → tp + tty.size * n ≤ mt.length →
      convLoop F le sk sty tk tty n sp tp s = .error .cast ∨
      ∃ s' mt', convLoop F le sk sty tk tty n sp tp s = .ok s' ∧ mem s' tk = some mt' ∧ (∀ j, j ≠ tk → mem s' j = mem s j) ∧
        Touch (join (part sk sp (sty.size * n)) (part tk tp (tty.size * n))) (part tk tp (tty.size * n)) s s' ∧
        (∀ p, (p < tp ∨ tp + tty.size * n ≤ p) → mt'[p]? = mt[p]?) ∧
        (sk ≠ tk → ∀ j, j < n → ∃ v z, Raw.get F ms (sp + sty.size * j) sty le = some v ∧ Raw.store F tty v = some z ∧
          slice mt' (tp + tty.size * j) tty.size = Raw.bytes le tty.size z) := by
  intro n
  induction n with
  | zero =>
    intro sp tp s ms mt hs ht _ _
    exact Or.inr ⟨s, mt, rfl, ht, fun _ _ => rfl, .refl _ _ _, fun _ _ => rfl, fun _ j hj => by omega⟩
  | succ n ih =>
    intro sp tp s ms mt hs ht ls lt
    have es : sty.size * (n + 1) = sty.size * n + sty.size := by rw [Nat.mul_add]; omega
    have et : tty.size * (n + 1) = tty.size * n + tty.size := by rw [Nat.mul_add]; omega
    rw [convLoop]
    rcases getAt_spec (F := F) (little := le) hs (pos := sp) (ty := sty) (by omega) with ⟨h, -⟩ | ⟨s1, v, e1, g1, b1, t1⟩
    · rw [h]; exact Or.inl rfl
    rw [e1]
    simp only
    have ht1 : mem s1 tk = some mt := by
      have : mem s1 tk = mem s tk := by unfold mem; rw [b1]
      rw [this]; exact ht
    have hs1 : mem s1 sk = some ms := by
      have : mem s1 sk = mem s sk := by unfold mem; rw [b1]
      rw [this]; exact hs
    rcases putAt_spec (F := F) (x := v) (little := le) ht1 (pos := tp) (ty := tty) (by omega) with ⟨h, -⟩ | ⟨s2, m2, e2, p2, a2, o2, t2⟩
    · rw [h]; exact Or.inl rfl
    rw [e2]
    simp only
    obtain ⟨z, z1, z2, z3, z4⟩ := put_slice p2
    obtain ⟨ms2, k1, k2, -⟩ := t2.mem hs1
    rcases ih (sp + sty.size) (tp + tty.size) s2 ms2 m2 k1 a2 (by omega) (by omega) with h | ⟨s3, m3, e3, a3, o3, t3, u3, c3⟩
    · exact Or.inl h
    refine Or.inr ⟨s3, m3, e3, a3, ?_, ?_, ?_, ?_⟩
    · intro j hj
      rw [o3 j hj, o2 j hj]
      unfold mem
      rw [b1]
    · refine Touch.trans (Touch.trans (t1.mono ?_ ?_) (t2.mono ?_ ?_)) (t3.mono ?_ ?_)
      · exact fun j b h => Or.inl (part_sub (Nat.le_refl _) (by omega) j b h)
      · exact fun _ _ h => h.elim
      · exact fun j b h => Or.inr (part_sub (Nat.le_refl _) (by omega) j b h)
      · exact part_sub (Nat.le_refl _) (by omega)
      · rintro j b (h | h)
        · exact Or.inl (part_sub (by omega) (by omega) j b h)
        · exact Or.inr (part_sub (by omega) (by omega) j b h)
      · exact part_sub (by omega) (by omega)
    · intro p hp
      rw [u3 p (by omega), z4 p (by omega)]
    · intro hne j hj
      have hms : ms2 = ms := by
        have := o2 sk hne
        rw [k1, hs1] at this
        exact Option.some.inj this
      cases j with
      | zero =>
        refine ⟨v, z, by simpa using g1, z1, ?_⟩
        rw [← z2]
        have : tty.size * 0 = 0 := rfl
        rw [this]
        apply slice_congr
        intro p p1 p2
        apply u3
        left
        omega
      | succ j =>
        obtain ⟨v', z', w1, w2, w3⟩ := c3 hne j (by omega)
        rw [hms] at w1
        have q1 : sty.size * (j + 1) = sty.size * j + sty.size := by rw [Nat.mul_add]; omega
        have q2 : tty.size * (j + 1) = tty.size * j + tty.size := by rw [Nat.mul_add]; omega
        refine ⟨v', z', ?_, w2, ?_⟩
        · rw [q1, show sp + (sty.size * j + sty.size) = sp + sty.size + sty.size * j by omega]; exact w1
        · rw [q2, show tp + (tty.size * j + tty.size) = tp + tty.size + tty.size * j by omega]; exact w3

theorem sliceLoop_spec {F : Fpu} {le : Bool} {V : View} {sty : Ty} {T : View} {tty : Ty} {sk tk Ls Lt : Nat} :
    ∀ (n i j : Nat) (s : State) (ms mt : List Byte), s.bufs[V.buf]? = some ⟨some sk, Ls⟩ → s.bufs[T.buf]? = some ⟨some tk, Lt⟩ →
      mem s sk = some ms → mem s tk = some mt →
      V.off + V.alen * sty.size ≤ ms.length → T.off + T.alen * tty.size ≤ mt.length →
      sliceLoop F le V sty T tty n i j s = .error .cast ∨
      ∃ s' mt', sliceLoop F le V sty T tty n i j s = .ok s' ∧ mem s' tk = some mt' ∧ (∀ l, l ≠ tk → mem s' l = mem s l) ∧
        Touch (join (part sk V.off (V.alen * sty.size)) (part tk T.off (T.alen * tty.size))) (part tk T.off (T.alen * tty.size)) s s' ∧
        (∀ p, (p < T.off + tty.size * j ∨ T.off + tty.size * (j + n) ≤ p) → mt'[p]? = mt[p]?) ∧
        (sk ≠ tk → ∀ l, l < n → i + l < V.alen → j + l < T.alen → ∃ v z, Raw.get F ms (V.off + sty.size * (i + l)) sty le = some v ∧
          Raw.store F tty v = some z ∧ slice mt' (T.off + tty.size * (j + l)) tty.size = Raw.bytes le tty.size z) := by
  intro n
  induction n with
  | zero =>
    intro i j s ms mt hs ht hms hmt ls lt
    exact Or.inr ⟨s, mt, rfl, hmt, fun _ _ => rfl, .refl _ _ _, fun _ _ => rfl, fun _ j hj => by omega⟩
  | succ n ih =>
    intro i j s ms mt hs ht hms hmt ls lt
    have ej1 : tty.size * (j + 1) = tty.size * j + tty.size := by rw [Nat.mul_add]; omega
    have ej2 : tty.size * (j + (n + 1)) = tty.size * j + tty.size * n + tty.size := by rw [Nat.mul_add, Nat.mul_add]; omega
    have ej3 : tty.size * (j + 1 + n) = tty.size * j + tty.size + tty.size * n := by rw [Nat.mul_add, Nat.mul_add]; omega
    rw [sliceLoop]
    by_cases hv : validNat s V i = true
    · rw [if_pos hv]
      have hi : i < V.alen := by simp [validNat] at hv; exact hv.2
      have hin := in_elem (off := V.off) (sz := sty.size) hi
      unfold elemAt
      rw [blockOf_ok hs]
      simp only
      rcases getAt_spec (F := F) (little := le) hms (pos := V.off + sty.size * i) (ty := sty) (by omega) with ⟨h, -⟩ | ⟨s1, v, e1, g1, b1, t1⟩
      · rw [h]; exact Or.inl rfl
      rw [e1]
      simp only
      have hmt1 : mem s1 tk = some mt := by
        have : mem s1 tk = mem s tk := by unfold mem; rw [b1]
        rw [this]; exact hmt
      have hms1 : mem s1 sk = some ms := by
        have : mem s1 sk = mem s sk := by unfold mem; rw [b1]
        rw [this]; exact hms
      have hs1 : s1.bufs[V.buf]? = some ⟨some sk, Ls⟩ := by rw [t1.bufs]; exact hs
      have ht1 : s1.bufs[T.buf]? = some ⟨some tk, Lt⟩ := by rw [t1.bufs]; exact ht
      have t1' : Touch (join (part sk V.off (V.alen * sty.size)) (part tk T.off (T.alen * tty.size))) (part tk T.off (T.alen * tty.size)) s s1 :=
        t1.mono (fun a b h => Or.inl (part_elem hi a b h)) (fun _ _ h => h.elim)
      by_cases hw : validNat s1 T j = true
      · rw [if_pos hw]
        have hj : j < T.alen := by simp [validNat] at hw; exact hw.2
        have hjn := in_elem (off := T.off) (sz := tty.size) hj
        unfold putElem
        rw [blockOf_ok ht1]
        simp only
        rcases putAt_spec (F := F) (x := v) (little := le) hmt1 (pos := T.off + tty.size * j) (ty := tty) (by omega) with ⟨h, -⟩ | ⟨s2, m2, e2, p2, a2, o2, t2⟩
        · rw [h]; exact Or.inl rfl
        rw [e2]
        simp only
        obtain ⟨z, z1, z2, z3, z4⟩ := put_slice p2
        obtain ⟨ms2, k1, k2, -⟩ := t2.mem hms1
        rcases ih (i + 1) (j + 1) s2 ms2 m2 (by rw [t2.bufs]; exact hs1) (by rw [t2.bufs]; exact ht1) k1 a2 (by omega) (by omega) with h | ⟨s3, m3, e3, a3, o3, t3, u3, c3⟩
        · exact Or.inl h
        refine Or.inr ⟨s3, m3, e3, a3, ?_, t1'.trans (Touch.trans (t2.mono (fun a b h => Or.inr (part_elem hj a b h)) (part_elem hj)) t3), ?_, ?_⟩
        · intro l hl
          rw [o3 l hl, o2 l hl]
          unfold mem
          rw [b1]
        · intro p hp
          rw [u3 p (by omega), z4 p (by omega)]
        · intro hne l hl h1 h2
          have hms' : ms2 = ms := by
            have := o2 sk hne
            rw [k1, hms1] at this
            exact Option.some.inj this
          cases l with
          | zero =>
            refine ⟨v, z, by simpa using g1, z1, ?_⟩
            rw [← z2]
            apply slice_congr
            intro p p1 p2
            apply u3
            left
            simp at p2
            omega
          | succ l =>
            obtain ⟨v', z', w1, w2, w3⟩ := c3 hne l (by omega) (by omega) (by omega)
            rw [hms'] at w1
            rw [show i + (l + 1) = i + 1 + l by omega, show j + (l + 1) = j + 1 + l by omega]
            exact ⟨v', z', w1, w2, w3⟩
      · rw [if_neg hw]
        have hj : ¬ j < T.alen := by
          intro hj
          apply hw
          simp [validNat, attached_ok ht1, hj]
        rcases ih (i + 1) (j + 1) s1 ms mt hs1 ht1 hms1 hmt1 ls lt with h | ⟨s3, m3, e3, a3, o3, t3, u3, c3⟩
        · exact Or.inl h
        refine Or.inr ⟨s3, m3, e3, a3, ?_, t1'.trans t3, ?_, fun _ l _ _ h => by omega⟩
        · intro l hl
          rw [o3 l hl]
          unfold mem
          rw [b1]
        · intro p hp
          exact u3 p (by omega)
    · rw [if_neg hv]
      have hi : ¬ i < V.alen := by
        intro hi
        apply hv
        simp [validNat, attached_ok hs, hi]
      rcases ih (i + 1) (j + 1) s ms mt hs ht hms hmt ls lt with h | ⟨s3, m3, e3, a3, o3, t3, u3, c3⟩
      · exact Or.inl h
      exact Or.inr ⟨s3, m3, e3, a3, o3, t3, fun p hp => u3 p (by omega), fun _ l _ h => by omega⟩

end Verif.Buffer

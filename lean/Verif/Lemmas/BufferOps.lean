import Verif.Lemmas.BufferStep
/-
The operations with two arrays, reference counts, and the step.
-/
namespace Verif.Buffer
open NumConv Spec
open Raw (Byte Ty Val Fpu)

variable {s s' : State} {R W : Region} {E : Fault → Prop} {r : Res}

/-- The transfer between two data blocks. -/
theorem transfer_spec {F : Fpu} {le : Bool} {sk sp : Nat} {sty : Ty} {tk tp : Nat} {tty : Ty} {n : Nat} {ms mt : List Byte}
    (hs : mem s sk = some ms) (ht : mem s tk = some mt) (h1 : sp + sty.size * n ≤ ms.length) (h2 : tp + tty.size * n ≤ mt.length)
    (hne : tk ≠ sk) :
    transfer F le s sk sp sty tk tp tty n = .error .cast ∨
    ∃ s' mt', transfer F le s sk sp sty tk tp tty n = .ok s' ∧ mem s' tk = some mt' ∧ (∀ j, j ≠ tk → mem s' j = mem s j) ∧
      Touch (join (part sk sp (sty.size * n)) (part tk tp (tty.size * n))) (part tk tp (tty.size * n)) s s' ∧
      (sty = tty → slice mt' tp (tty.size * n) = slice ms sp (sty.size * n)) ∧
      (sty ≠ tty → ∀ j, j < n → ∃ v z, Raw.get F ms (sp + sty.size * j) sty le = some v ∧ Raw.store F tty v = some z ∧
          slice mt' (tp + tty.size * j) tty.size = Raw.bytes le tty.size z) := by
  unfold transfer
  by_cases hty : sty = tty
  · subst hty
    rw [if_pos rfl]
    rcases copy_spec ht hs h2 h1 with ⟨-, h⟩ | ⟨s1, e1, a1, o1, t1⟩
    · exact absurd h hne
    · refine Or.inr ⟨s1, _, e1, a1, o1, t1, fun _ => ?_, fun h => absurd rfl h⟩
      have hl : ((ms.drop sp).take (sty.size * n)).length = sty.size * n := by simp; omega
      have := overwrite_slice (m := mt) (b := (ms.drop sp).take (sty.size * n)) (lo := tp) (by rw [hl]; exact h2)
      rw [hl] at this
      exact this
  · rw [if_neg hty]
    rcases convLoop_spec (F := F) (le := le) n sp tp s ms mt hs ht h1 h2 with h | ⟨s1, m1, e1, a1, o1, t1, -, c1⟩
    · exact Or.inl h
    · exact Or.inr ⟨s1, m1, e1, a1, o1, t1, fun h => absurd h hty, fun _ => c1 (Ne.symm hne)⟩

theorem att_block (hI : Inv s) {b k L : Nat} (h : Att s b k L) : k < s.blocks.length := by
  obtain ⟨B, h1, -⟩ := hI.buf b k L h
  exact (List.getElem?_eq_some_iff.1 h1).1

theorem good_setTyped {F : Fpu} {le : Bool} {t v : Nat} {T S : View} {tty sty : Ty} {o : Option Nat} (hE : E .cast) (hI : Inv s)
    (hl : s.log = []) (hT : IsTyped s t T tty) (hS : IsTyped s v S sty) :
    Good s (join (ofView s v) (ofView s t)) (ofView s t) E (setTyped F le s T S tty sty o) := by
  unfold setTyped
  split
  · exact good_same hI hl
  next hd1 =>
  split
  · exact good_same hI hl
  next hd2 =>
  split
  · exact good_same hI hl
  next i =>
  split
  · exact good_same hI hl
  next hlen =>
  split
  · exact good_same hI hl
  obtain ⟨tk, Lt, hat⟩ := not_detached hd1
  obtain ⟨sk, Ls, has⟩ := not_detached hd2
  rw [blockOf_ok hat, blockOf_ok has]
  simp only
  obtain ⟨mt, t1, t2, t3⟩ := typed_mem hI hT hat
  obtain ⟨ms, s1, s2, s3⟩ := typed_mem hI hS has
  have e1 : tty.size * (i + S.alen) ≤ tty.size * T.alen := Nat.mul_le_mul_left _ (by omega)
  rw [Nat.mul_add] at e1
  have e2 : T.alen * tty.size = tty.size * T.alen := Nat.mul_comm _ _
  have e3 : i * tty.size = tty.size * i := Nat.mul_comm _ _
  have e4 : S.alen * sty.size = sty.size * S.alen := Nat.mul_comm _ _
  have hblen := (hI.view v S hS.1).2.1 sty hS.2
  have tsub : ∀ a b, part tk (i * tty.size + T.off) (tty.size * S.alen) a b → ofView s t a b :=
    fun a b h => t3 a b (part_sub (by omega) (by omega) a b h)
  unfold cloneIf
  by_cases heq : tk = sk
  · subst heq
    rw [if_pos rfl]
    have hlt := att_block hI hat
    have hms' : mem (alloc s S.blen false) tk = some ms := alloc_mem_old s1
    have hnew := alloc_mem_new s S.blen false
    rcases copy_spec (tlo := 0) (slo := S.off) (n := S.blen) hnew hms' (by simp) (by omega) with ⟨-, h⟩ | ⟨s', e, a, ot, tt⟩
    · omega
    · simp only [e]
      have hl2 : ((ms.drop S.off).take S.blen).length = S.blen := by simp; omega
      have ha' : (Raw.overwrite (List.replicate S.blen (0 : Byte)) 0 ((ms.drop S.off).take S.blen)).length = S.blen := by
        rw [Raw.overwrite_length (by simp)]; simp
      have htk : mem s' tk = some mt := by
        rw [ot tk (by omega)]
        exact alloc_mem_old t1
      rcases transfer_spec (F := F) (le := le) (sp := 0) (sty := sty) (tp := i * tty.size + T.off) (tty := tty) (n := S.alen) a htk
        (by rw [ha']; omega) (by omega) (by omega) with h | ⟨s'', m'', f1, -, -, f4, -⟩
      · rw [h]; exact hE
      · rw [f1]
        refine good_alloc (R' := fun a b => join (ofView s v) (ofView s t) a b ∨ s.blocks.length ≤ a) (W' := fun a b => ofView s t a b ∨ s.blocks.length ≤ a)
          hI hl ((tt.mono ?_ ?_).trans (f4.mono ?_ ?_)) (fun _ _ h => h) (fun _ _ h => h)
        · rintro a b (h | h)
          · exact Or.inl (Or.inl (s3 a b (part_sub (Nat.le_refl _) (by omega) a b h)))
          · right; have := h.1; omega
        · intro a b h; right; have := h.1; omega
        · rintro a b (h | h)
          · right; have := h.1; omega
          · exact Or.inl (Or.inr (tsub a b h))
        · intro a b h; exact Or.inl (tsub a b h)
  · have hne := heq
    rw [if_neg hne]
    simp only
    rcases transfer_spec (F := F) (le := le) (sp := S.off) (sty := sty) (tp := i * tty.size + T.off) (tty := tty) (n := S.alen) s1 t1
        (by omega) (by omega) hne with h | ⟨s'', m'', f1, -, -, f4, -⟩
    · rw [h]; exact hE
    · rw [f1]
      refine good_touch hI hl (f4.mono (fun _ _ h => h) tsub) ?_
      rintro a b (h | h)
      · exact Or.inl (s3 a b (part_sub (Nat.le_refl _) (by omega) a b h))
      · exact Or.inr (tsub a b h)

theorem good_setOff {F : Fpu} {le : Bool} {t v : Nat} {x : Num} (hE : E .cast) (hI : Inv s) (hl : s.log = []) :
    Good s (join (ofView s v) (ofView s t)) (ofView s t) E (setOff F le s t v x) := by
  unfold setOff
  split
  · exact good_same hI hl
  next T tty hT =>
  split
  · exact good_same hI hl
  next S sty hS =>
  split
  · exact good_same hI hl
  · exact good_setTyped hE hI hl (typed_iff.1 hT) (typed_iff.1 hS)
  · split
    · exact good_same hI hl
    · exact good_setTyped hE hI hl (typed_iff.1 hT) (typed_iff.1 hS)

theorem good_initTyped {F : Fpu} {le : Bool} {v : Nat} {ty : Ty} (hE : E .cast) (hI : Inv s) (hl : s.log = []) :
    Good s (ofView s v) nothing E (initTyped F le s v ty) := by
  unfold initTyped
  split
  · exact good_same hI hl
  next S sty hS =>
  have hS := typed_iff.1 hS
  simp only
  have h0 : ∀ r, Good s (ofView s v) nothing E (.ok (alloc s (ty.size * S.alen) false, r)) := fun r =>
    good_alloc (R' := nothing) (W' := nothing) hI hl (.refl _ _ _) (fun _ _ h => h.elim) (fun _ _ h => h.elim)
  split
  · exact h0 _
  next hd =>
  split
  · exact h0 _
  obtain ⟨sk, Ls, ha⟩ := not_detached hd
  have hbuf := (hI.view v S hS.1).1
  have has : Att s S.buf sk Ls := (alloc_ext _ _ _).bufs _ _ _ hbuf ha
  rw [blockOf_ok ha]
  obtain ⟨ms, s1, s2, s3⟩ := typed_mem hI hS has
  have hlt := att_block hI has
  have e4 : S.alen * sty.size = sty.size * S.alen := Nat.mul_comm _ _
  rcases transfer_spec (F := F) (le := le) (sp := S.off) (sty := sty) (tp := 0) (tty := ty) (n := S.alen) (alloc_mem_old s1)
      (alloc_mem_new s (ty.size * S.alen) false) (by omega) (by simp) (by omega) with h | ⟨s', m', f1, -, -, f4, -⟩
  · simp only [h]; exact hE
  · simp only [f1]
    obtain ⟨a, b, c⟩ := good_alloc (R := ofView s v) (W := nothing) (R' := fun a b => ofView s v a b ∨ s.blocks.length ≤ a) (W' := fun a b => s.blocks.length ≤ a) hI hl
      (f4.mono (by
        rintro a b (h | h)
        · exact Or.inl (s3 a b (part_sub (Nat.le_refl _) (by omega) a b h))
        · right; have := h.1; omega) (by intro a b h; have := h.1; omega)) (fun _ _ h => h) (fun _ _ h => Or.inr h)
    refine good_addView a b c ?_ ?_ ?_
    · rw [f4.bufs]; simp [alloc]
    · intro ty' e; cases e; exact Nat.mul_comm _ _
    · intro k L h
      unfold Att at h
      rw [f4.bufs] at h
      rcases alloc_att.1 h with h | ⟨-, -, rfl⟩
      · have := (List.getElem?_eq_some_iff.1 h).1
        simp at this
      · show 0 + ty.size * S.alen ≤ _
        omega

theorem good_slFinish {F : Fpu} {le : Bool} {v k final t : Nat} (hE : E .cast) (hE2 : E .overlap) (hE3 : E .deadlock) (hI : Inv s)
    (hl : s.log = []) (hf : FrameOk s (.slSpecies v k final)) :
    Good s (join (ofView s v) (ofView s t)) (ofView s t) E (slFinish F le s v k final t) := by
  obtain ⟨V', ty', hV', hk, hfin⟩ := hf
  unfold slFinish
  split
  · exact good_same hI hl
  next V sty hV =>
  have hV := typed_iff.1 hV
  have hVV : V' = V := by
    have := hV'.1
    rw [hV.1] at this
    exact (Option.some.inj this).symm
  subst hVV
  split
  · exact good_same hI hl
  next T tty hT =>
  have hT := typed_iff.1 hT
  simp only
  split
  · exact good_same hI hl
  next hd1 =>
  split
  · exact good_same hI hl
  next hlen =>
  split
  · exact good_same hI hl
  split
  · split
    · exact good_same hI hl
    next hd2 =>
    obtain ⟨tk, Lt, hat⟩ := not_detached hd1
    obtain ⟨sk, Ls, has⟩ := not_detached hd2
    obtain ⟨mt, t1, t2, t3⟩ := typed_mem hI hT hat
    obtain ⟨ms, s1, s2, s3⟩ := typed_mem hI hV has
    split
    · rcases sliceLoop_spec (F := F) (le := le) (final - k) k 0 s ms mt has hat s1 t1 s2 t2 with h | ⟨s', m', f1, -, -, f4, -⟩
      · simp only [h]; exact hE
      · simp only [f1]
        refine good_touch hI hl (f4.mono (fun _ _ h => h) t3) ?_
        rintro a b (h | h)
        · exact Or.inl (s3 a b h)
        · exact Or.inr (t3 a b h)
    · next hty =>
      have hty : sty = tty := by simpa using hty
      subst hty
      rw [blockOf_ok hat, blockOf_ok has]
      simp only
      split
      · exact hE3
      have e1 : (k + (final - k)) * sty.size ≤ V'.alen * sty.size := Nat.mul_le_mul_right _ (by omega)
      have e2 : (final - k) * sty.size ≤ T.alen * sty.size := Nat.mul_le_mul_right _ (by omega)
      rw [Nat.add_mul] at e1
      rcases copy_spec (tlo := T.off) (slo := V'.off + k * sty.size) (n := (final - k) * sty.size) t1 s1 (by omega) (by omega) with ⟨h, -⟩ | ⟨s', f1, -, -, f4⟩
      · rw [h]; exact hE2
      · rw [f1]
        refine good_touch hI hl (f4.mono (fun _ _ h => h) (fun a b h => t3 a b (part_sub (Nat.le_refl _) (by omega) a b h))) ?_
        rintro a b (h | h)
        · exact Or.inl (s3 a b (part_sub (by omega) (by omega) a b h))
        · exact Or.inr (t3 a b (part_sub (Nat.le_refl _) (by omega) a b h))
  · exact good_same hI hl

theorem isShared_att {b k L : Nat} (h : Att s b k L) {B : Block} (hB : s.blocks[k]? = some B) : isShared s b = B.shared := by
  unfold Att at h
  unfold isShared
  rw [h]
  simp only
  rw [hB]

/-- Two buffers with the same memory are the same or shared. -/
theorem not_same_block (hI : Inv s) {b b' k L L' : Nat} (h1 : Att s b k L) (h2 : Att s b' k L') (hs : isShared s b = false) : b = b' := by
  obtain ⟨B, hB, -⟩ := hI.buf b k L h1
  rw [isShared_att h1 hB] at hs
  exact hI.own b b' k L L' B h1 h2 hB hs

theorem good_abFinish {b first n nb : Nat} (hI : Inv s) (hl : s.log = []) (hf : FrameOk s (.abSpecies b first n)) :
    Good s (join (ofBuf s b first n) (ofBuf s nb 0 n)) (ofBuf s nb 0 n) E (abFinish s b first n nb) := by
  unfold abFinish
  obtain ⟨-, hf⟩ := hf
  split
  next NB hNB =>
    split
    · exact good_same hI hl
    next hsh =>
    split
    · exact good_same hI hl
    next hd1 =>
    split
    · exact good_same hI hl
    next hne =>
    split
    · exact good_same hI hl
    next hlen =>
    split
    · exact good_same hI hl
    next hd2 =>
    obtain ⟨tk, Lt, hat⟩ := not_detached hd1
    obtain ⟨sk, Ls, has⟩ := not_detached hd2
    rw [blockOf_ok hat, blockOf_ok has]
    simp only
    obtain ⟨mt, t1, t2⟩ := hI.att hat
    obtain ⟨ms, s1, s2⟩ := hI.att has
    have hL : NB.len = Lt := by
      unfold Att at hat
      rw [hNB] at hat
      cases hat
      rfl
    have hfs := hf sk Ls has
    rcases copy_spec (tlo := 0) (slo := first) (n := n) t1 s1 (by omega) (by omega) with ⟨-, h⟩ | ⟨s', f1, -, -, f4⟩
    · subst h
      exact absurd (not_same_block hI hat has (by simpa using hsh)) hne
    · rw [f1]
      refine good_touch hI hl (f4.mono (fun _ _ h => h) ?_) ?_
      · rintro a b ⟨rfl, h⟩; exact ⟨⟨Lt, hat⟩, h⟩
      · rintro a b (⟨rfl, h⟩ | ⟨rfl, h⟩)
        · exact Or.inl ⟨⟨Ls, has⟩, h⟩
        · exact Or.inr ⟨⟨Lt, hat⟩, h⟩
  · exact good_same hI hl

/-! ### References -/

/-- The blocks where one changes its reference count and maybe is freed. -/
structure Recount (k : Nat) (n : Nat) (s s' : State) : Prop where
  len : s'.blocks.length = s.blocks.length
  other : ∀ j, j ≠ k → s'.blocks[j]? = s.blocks[j]?
  this : ∀ B, s.blocks[k]? = some B → ∃ B', s'.blocks[k]? = some B' ∧ B'.refs = n ∧ B'.shared = B.shared ∧
    B'.mem = if n = 0 then none else B.mem

theorem ref_recount {k : Nat} {B : Block} (h : s.blocks[k]? = some B) : Recount k (B.refs + 1) s (ref s k) ∧
    (ref s k).bufs = s.bufs ∧ (ref s k).views = s.views ∧ (ref s k).frames = s.frames ∧ (ref s k).log = s.log := by
  have hk := (List.getElem?_eq_some_iff.1 h).1
  unfold ref
  rw [h]
  refine ⟨⟨by simp, ?_, ?_⟩, rfl, rfl, rfl, rfl⟩
  · intro j hj
    simp only [List.getElem?_set, if_neg (Ne.symm hj)]
  · intro B' hB'
    rw [h] at hB'
    cases hB'
    exact ⟨{ B with refs := B.refs + 1 }, by simp [hk], rfl, rfl, by simp⟩

theorem unref_recount {k : Nat} {B : Block} (h : s.blocks[k]? = some B) (hp : B.refs ≠ 0) : Recount k (B.refs - 1) s (unref s k) ∧
    (unref s k).bufs = s.bufs ∧ (unref s k).views = s.views ∧ (unref s k).frames = s.frames ∧ (unref s k).log = s.log := by
  have hk := (List.getElem?_eq_some_iff.1 h).1
  unfold unref
  rw [h]
  refine ⟨⟨by simp, ?_, ?_⟩, rfl, rfl, rfl, rfl⟩
  · intro j hj
    simp only [List.getElem?_set, if_neg (Ne.symm hj)]
  · intro B' hB'
    rw [h] at hB'
    cases hB'
    refine ⟨{ B with refs := B.refs - 1, mem := if B.refs = 1 then none else B.mem }, by simp [hk], rfl, rfl, ?_⟩
    show (if B.refs = 1 then none else B.mem) = if B.refs - 1 = 0 then none else B.mem
    by_cases h1 : B.refs = 1
    · rw [if_pos h1, if_pos (by omega)]
    · rw [if_neg h1, if_neg (by omega)]

theorem Recount.kept {k n : Nat} (h : Recount k n s s') : Kept W s s' := by
  intro j B B' m m' h1 h2 h3 h4
  by_cases hj : j = k
  · subst hj
    obtain ⟨B'', e1, -, -, e4⟩ := h.this B h1
    rw [e1] at h2
    cases h2
    rw [h4] at e4
    split at e4
    · cases e4
    · rw [h3] at e4
      cases e4
      exact ⟨rfl, fun _ _ => rfl⟩
  · rw [h.other j hj, h1] at h2
    cases h2
    rw [h3] at h4
    cases h4
    exact ⟨rfl, fun _ _ => rfl⟩

theorem Recount.ext {k n : Nat} (h : Recount k n s s') (hl : s.bufs.length ≤ s'.bufs.length)
    (hb : ∀ b k L, b < s.bufs.length → Att s' b k L → Att s b k L) (hv : s'.views = s.views) : Ext s s' := by
  refine ⟨hl, hb, fun v V h => by rw [hv]; exact h, ?_⟩
  intro j B hB
  by_cases hj : j = k
  · subst hj
    obtain ⟨B', e1, -, e3, e4⟩ := h.this B hB
    refine ⟨B', e1, e3, fun m' hm' => ?_⟩
    rw [e4] at hm'
    split at hm'
    · cases hm'
    · exact ⟨m', hm', rfl⟩
  · exact ⟨B, by rw [h.other j hj]; exact hB, rfl, fun m h => ⟨m, h, rfl⟩⟩

theorem Recount.back {k n : Nat} (h : Recount k n s s') {j : Nat} {B' : Block} (hB : s'.blocks[j]? = some B') :
    ∃ B, s.blocks[j]? = some B ∧ B'.shared = B.shared ∧ (∀ m, B'.mem = some m → B.mem = some m) ∧
      (j ≠ k → B' = B) ∧ (j = k → B'.refs = n ∧ B'.mem = if n = 0 then none else B.mem) := by
  have hk : j < s.blocks.length := by rw [← h.len]; exact (List.getElem?_eq_some_iff.1 hB).1
  by_cases hj : j = k
  · subst hj
    obtain ⟨B'', e1, e2, e3, e4⟩ := h.this _ (List.getElem?_eq_getElem hk)
    rw [e1] at hB
    cases hB
    refine ⟨_, List.getElem?_eq_getElem hk, e3, ?_, fun h => absurd rfl h, fun _ => ⟨e2, e4⟩⟩
    intro m hm
    rw [e4] at hm
    split at hm
    · cases hm
    · exact hm
  · rw [h.other j hj] at hB
    exact ⟨B', hB, rfl, fun _ h => h, fun _ => rfl, fun h => absurd h hj⟩

/-- The invariant after a change of the references. -/
theorem Inv.recount {k n : Nat} (hI : Inv s) (h : Recount k n s s') (hv : s'.views = s.views)
    (hlen : s.bufs.length ≤ s'.bufs.length)
    (hold : ∀ b k L, b < s.bufs.length → Att s' b k L → Att s b k L)
    (hnew : ∀ b k' L, s.bufs.length ≤ b → Att s' b k' L → k' = k ∧ n ≠ 0 ∧ (∃ b', b' < s.bufs.length ∧ Att s b' k L) ∧
      ∀ B, s.blocks[k]? = some B → B.shared = true)
    (hcount : ∀ B, s.blocks[k]? = some B → users s' k = n ∧ (n ≠ 0 → B.refs ≠ 0))
    (hoth : ∀ j, j ≠ k → users s' j = users s j)
    (hfr : ∀ f ∈ s'.frames, FrameOk s f) : Inv s' := by
  refine ⟨?_, ?_, ?_, ?_, ?_, ?_⟩
  · intro j B' hB'
    obtain ⟨B, e1, -, -, e4, e5⟩ := h.back hB'
    by_cases hj : j = k
    · obtain ⟨f1, f2⟩ := e5 hj
      subst hj
      rw [f1, f2]
      by_cases hn : n = 0
      · simp [hn]
      · rw [if_neg hn, hI.live j B e1]
        have := (hcount B e1).2 hn
        omega
    · rw [e4 hj]
      exact hI.live j B e1
  · intro j B' hB'
    obtain ⟨B, e1, -, -, e4, e5⟩ := h.back hB'
    by_cases hj : j = k
    · obtain ⟨f1, f2⟩ := e5 hj
      subst hj
      rw [f1, (hcount B e1).1]
    · rw [e4 hj, hoth j hj]
      exact hI.refs j B e1
  · intro b j L hb
    have key : ∃ b, Att s b j L := by
      by_cases hlt : b < s.bufs.length
      · exact ⟨b, hold b j L hlt hb⟩
      · obtain ⟨rfl, -, ⟨b', -, h'⟩, -⟩ := hnew b j L (by omega) hb
        exact ⟨b', h'⟩
    obtain ⟨b0, h0⟩ := key
    obtain ⟨B, a1, a2⟩ := hI.buf b0 j L h0
    obtain ⟨B', b1, -, b2⟩ := (h.ext hlen hold hv).blocks j B a1
    refine ⟨B', b1, fun m' hm' => ?_⟩
    obtain ⟨m, c1, c2⟩ := b2 m' hm'
    rw [c2]
    exact a2 m c1
  · intro b b' j L L' B' h1 h2 h3 h4
    obtain ⟨B, e1, e2, -⟩ := h.back h3
    have hold' : ∀ b L, Att s' b j L → Att s b j L := by
      intro b L hb
      by_cases hlt : b < s.bufs.length
      · exact hold b j L hlt hb
      · obtain ⟨rfl, -, -, h'⟩ := hnew b j L (by omega) hb
        have := h' B e1
        rw [← e2, h4] at this
        cases this
    exact hI.own b b' j L L' B (hold' b L h1) (hold' b' L' h2) e1 (by rw [← e2]; exact h4)
  · intro v V hV
    rw [hv] at hV
    obtain ⟨a, b, c⟩ := hI.view v V hV
    exact ⟨by omega, b, fun k' L hk => c k' L (hold _ _ _ a hk)⟩
  · intro f hf
    exact (hfr f hf).ext (h.ext hlen hold hv)

end Verif.Buffer

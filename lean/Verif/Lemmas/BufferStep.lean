import Verif.Lemmas.BufferInv
/-
Every step keeps the invariant and stays inside of the memory it may touch.
-/
namespace Verif.Buffer
open NumConv Spec
open Raw (Byte Ty Val Fpu)

/-- The operation keeps the invariant, looks at `R`, changes `W`, and has only the faults `E`. -/
def Good (s : State) (R W : Region) (E : Fault → Prop) : M (State × Res) → Prop
  | .error f => E f
  | .ok (s', _) => Inv s' ∧ Within (join R (fresh s)) s' ∧ Kept W s s'

variable {s s' : State} {R W : Region} {E : Fault → Prop} {r : Res}

theorem kept_same (h : s'.blocks = s.blocks) : Kept W s s' := by
  intro k B B' m m' h1 h2 h3 h4
  rw [h, h1] at h2
  cases h2
  rw [h3] at h4
  cases h4
  exact ⟨rfl, fun _ _ => rfl⟩

theorem within_nil (h : s'.log = []) : Within R s' := by
  intro a ha
  rw [h] at ha
  cases ha

theorem good_same (hI : Inv s) (hl : s.log = []) : Good s R W E (.ok (s, r)) :=
  ⟨hI, within_nil hl, kept_same rfl⟩

theorem good_push {f : Frame} (hI : Inv s) (hl : s.log = []) (hf : isSort f = false) (h : FrameOk s f) : Good s R W E (push s f) :=
  ⟨hI.push hf h, within_nil hl, kept_same rfl⟩

theorem good_back {f : Frame} (hI : Inv s) (hl : s.log = []) (hf : isSort f = false) (h : FrameOk s f) :
    Good s R W E (.ok ({ s with frames := f :: s.frames }, r)) :=
  ⟨hI.push hf h, within_nil hl, kept_same rfl⟩

theorem Touch.kept (h : Touch R W s s') : Kept W s s' := by
  intro k B B' m m' h1 h2 h3 h4
  obtain ⟨B1, e1, -, -, -, m1⟩ := h.blocks k B h1
  rw [e1] at h2
  cases h2
  obtain ⟨m2, a1, a2, a3⟩ := m1 m h3
  rw [a1] at h4
  cases h4
  exact ⟨a2, a3⟩

theorem Touch.within (h : Touch R W s s') (hl : s.log = []) : Within R s' := by
  intro a ha
  rcases h.log a ha with h | h
  · rw [hl] at h; cases h
  · exact h

theorem good_touch {R' : Region} (hI : Inv s) (hl : s.log = []) (h : Touch R' W s s') (hR : ∀ k i, R' k i → R k i) :
    Good s R W E (.ok (s', r)) :=
  ⟨hI.touch h, fun a ha i h1 h2 => Or.inl (hR _ _ (h.within hl a ha i h1 h2)), h.kept⟩

/-- An allocation, and then some accesses. -/
theorem good_alloc {R' W' : Region} {n : Nat} {sh : Bool} (hI : Inv s) (hl : s.log = []) (h : Touch R' W' (alloc s n sh) s')
    (hR : ∀ k i, R' k i → R k i ∨ s.blocks.length ≤ k) (hW : ∀ k i, W' k i → W k i ∨ s.blocks.length ≤ k) :
    Inv s' ∧ Within (join R (fresh s)) s' ∧ Kept W s s' := by
  refine ⟨(hI.alloc n sh).touch h, fun a ha i h1 h2 => hR _ _ (h.within hl a ha i h1 h2), ?_⟩
  intro k B B' m m' h1 h2 h3 h4
  have hk := (List.getElem?_eq_some_iff.1 h1).1
  have h1' : (alloc s n sh).blocks[k]? = some B := by simp only [alloc, List.getElem?_append, if_pos hk]; exact h1
  obtain ⟨a, b⟩ := h.kept k B B' m m' h1' h2 h3 h4
  refine ⟨a, fun i hi => b i fun hw => ?_⟩
  rcases hW k i hw with h | h
  · exact hi h
  · omega

theorem good_addView {V : View} (hI : Inv s') (hw : Within (join R (fresh s)) s') (hk : Kept W s s') (h1 : V.buf < s'.bufs.length)
    (h2 : ∀ ty, V.ty = some ty → V.blen = V.alen * ty.size) (h3 : ∀ k L, Att s' V.buf k L → V.off + V.blen ≤ L) :
    Good s R W E (addView s' V) :=
  ⟨hI.addView h1 h2 h3, hw, hk⟩

theorem good_wrong {f : Frame} {x : Ret} (hI : Inv s) (hl : s.log = []) (hf : isSort f = false) (h : FrameOk s f) :
    Good s R W E (wrong s f x) := by
  unfold wrong
  split
  · exact good_same hI hl
  · exact good_back hI hl hf h

theorem good_onNum {f : Frame} {x : Ret} {g : Num → M (State × Res)} (hI : Inv s) (hl : s.log = []) (hf : isSort f = false)
    (h : FrameOk s f) (hg : ∀ n, Good s R W E (g n)) : Good s R W E (onNum s f x g) := by
  unfold onNum
  split
  · exact hg _
  · exact good_wrong hI hl hf h

theorem good_onDone {f : Frame} {x : Ret} {g : M (State × Res)} (hI : Inv s) (hl : s.log = []) (hf : isSort f = false)
    (h : FrameOk s f) (hg : Good s R W E g) : Good s R W E (onDone s f x g) := by
  unfold onDone
  split
  · exact hg
  · exact good_wrong hI hl hf h

theorem good_onVal {f : Frame} {ty : Ty} {x : Ret} {g : Val → M (State × Res)} (hI : Inv s) (hl : s.log = []) (hf : isSort f = false)
    (h : FrameOk s f) (hg : ∀ v, Good s R W E (g v)) : Good s R W E (onVal s f ty x g) := by
  unfold onVal
  split
  · split
    · exact hg _
    · exact good_wrong hI hl hf h
  · exact good_wrong hI hl hf h

theorem typed_iff {v : Nat} {V : View} {ty : Ty} : typed s v = some (V, ty) ↔ IsTyped s v V ty := by
  unfold typed IsTyped
  cases h : s.views[v]? with
  | none => simp
  | some V' =>
    simp only [Option.some.injEq]
    cases h2 : V'.ty with
    | none =>
      simp only [reduceCtorEq, false_iff]
      rintro ⟨rfl, h3⟩
      rw [h2] at h3
      cases h3
    | some t =>
      simp only [Option.some.injEq, Prod.mk.injEq]
      constructor
      · rintro ⟨rfl, rfl⟩; exact ⟨rfl, h2⟩
      · rintro ⟨rfl, h3⟩
        rw [h2] at h3
        exact ⟨rfl, Option.some.inj h3⟩

theorem good_onTyped {v : Nat} {g : View → Ty → M (State × Res)} (hI : Inv s) (hl : s.log = [])
    (hg : ∀ V ty, IsTyped s v V ty → Good s R W E (g V ty)) : Good s R W E (onTyped s v g) := by
  unfold onTyped
  split
  next V ty h => exact hg V ty (typed_iff.1 h)
  next => exact good_same hI hl

theorem dview_some {v : Nat} {V : View} (h : dview s v = some V) : s.views[v]? = some V ∧ V.ty = none := by
  unfold dview at h
  split at h
  next V' e =>
    split at h
    next ht => cases h; exact ⟨e, ht⟩
    next => cases h
  next => cases h

/-- A typed array which is not detached, its memory, and its region. -/
theorem typed_mem (hI : Inv s) {v : Nat} {V : View} {ty : Ty} (hV : IsTyped s v V ty) {k L : Nat} (ha : Att s V.buf k L) :
    ∃ m, mem s k = some m ∧ V.off + V.alen * ty.size ≤ m.length ∧
      ∀ j i, part k V.off (V.alen * ty.size) j i → ofView s v j i := by
  obtain ⟨m, h1, h2⟩ := hI.att ha
  obtain ⟨-, b, c⟩ := hI.view v V hV.1
  have hb := b ty hV.2
  refine ⟨m, h1, by rw [← hb, h2]; exact c k L ha, ?_⟩
  rintro j i ⟨rfl, h3, h4⟩
  exact ⟨V, hV.1, ⟨L, ha⟩, h3, by rw [hb]; exact h4⟩

theorem not_detached {b : Nat} (h : ¬ detached s b = true) : ∃ k L, Att s b k L := by
  have : detached s b = false := by simpa using h
  exact detached_false this

/-! ### Conversions -/

theorem rel_le (len : Nat) (x : Num) : rel len x ≤ len := by
  unfold rel
  split
  · omega
  · omega
  · split <;> omega

/-! ### The operations -/

theorem good_onValid {v : Nat} {f : Frame} (hI : Inv s) (hl : s.log = []) (hf : isSort f = false) (h : FrameOk s f) :
    Good s R W E (onValid s v f) := by
  unfold onValid
  split
  · split
    · exact good_same hI hl
    · exact good_push hI hl hf h
  · exact good_same hI hl

theorem good_dvOff {b : Nat} {hasLen : Bool} {x : Num} (hI : Inv s) (hl : s.log = []) : Good s R W E (dvOff s b hasLen x) := by
  unfold dvOff
  split
  · exact good_same hI hl
  · next off _ =>
    split
    · next k L hb =>
      have hb' := (List.getElem?_eq_some_iff.1 hb).1
      have hL : ∀ k' L', Att s b k' L' → L' = L := by
        intro k' L' h
        unfold Att at h
        rw [hb] at h
        cases h
        rfl
      split
      · exact good_same hI hl
      · split
        · exact good_push hI hl rfl ⟨hb', by omega, hL⟩
        · exact good_push hI hl rfl ⟨hb', fun k' L' h => by have := hL k' L' h; omega⟩
    · exact good_same hI hl

theorem good_dvLen {b off cap : Nat} {x : Num} (hI : Inv s) (hl : s.log = []) (h : FrameOk s (.dvLen b off cap)) :
    Good s R W E (dvLen s b off cap x) := by
  unfold dvLen
  obtain ⟨h1, h2, h3⟩ := h
  split
  · exact good_same hI hl
  · split
    · exact good_same hI hl
    · exact good_push hI hl rfl ⟨h1, fun k L h => by have := h3 k L h; omega⟩

theorem good_dvProto {b off n : Nat} (hI : Inv s) (hl : s.log = []) (h : FrameOk s (.dvProto b off n)) :
    Good s R W E (dvProto s b off n) := by
  unfold dvProto
  obtain ⟨h1, h2⟩ := h
  split
  · exact good_same hI hl
  · refine good_addView hI (within_nil hl) (kept_same rfl) h1 (fun ty h => by cases h) h2

/-- Only conversions fail. -/

theorem dview_mem (hI : Inv s) {v : Nat} {V : View} (hV : s.views[v]? = some V) {k L : Nat} (ha : Att s V.buf k L) :
    ∃ m, mem s k = some m ∧ V.off + V.blen ≤ m.length ∧ ∀ j i, part k V.off V.blen j i → ofView s v j i := by
  obtain ⟨m, h1, h2⟩ := hI.att ha
  obtain ⟨-, -, c⟩ := hI.view v V hV
  refine ⟨m, h1, by rw [h2]; exact c k L ha, ?_⟩
  rintro j i ⟨rfl, h3, h4⟩
  exact ⟨V, hV, ⟨L, ha⟩, h3, h4⟩

theorem good_dvGet {F : Fpu} {v : Nat} {ty : Ty} {little : Bool} {x : Num} (hE : E .cast) (hI : Inv s) (hl : s.log = []) :
    Good s (ofView s v) W E (dvGet F s v ty little x) := by
  unfold dvGet
  split
  · exact good_same hI hl
  next V hV =>
  split
  · exact good_same hI hl
  next i hi =>
  split
  · exact good_same hI hl
  next hd =>
  split
  · exact good_same hI hl
  next hlen =>
  obtain ⟨k, L, ha⟩ := not_detached hd
  rw [blockOf_ok ha]
  obtain ⟨m, h1, h2, h3⟩ := dview_mem hI (dview_some hV).1 ha
  rcases getAt_spec (F := F) (little := little) h1 (pos := i + V.off) (ty := ty) (by omega) with ⟨h, -⟩ | ⟨s1, v', e1, -, b1, t1⟩
  · simp only [h]; exact hE
  · simp only [e1]
    exact good_touch hI hl (t1.mono (fun _ _ h => h) (fun _ _ h => h.elim))
      (fun a b h => h3 a b (part_sub (by omega) (by omega) a b h))

theorem good_dvSetVal {F : Fpu} {v : Nat} {ty : Ty} {little : Bool} {i : Nat} {x : Val} (hE : E .cast) (hI : Inv s) (hl : s.log = []) :
    Good s (ofView s v) (ofView s v) E (dvSetVal F s v ty little i x) := by
  unfold dvSetVal
  split
  · exact good_same hI hl
  next V hV =>
  split
  · exact good_same hI hl
  next hd =>
  split
  · exact good_same hI hl
  next hlen =>
  obtain ⟨k, L, ha⟩ := not_detached hd
  rw [blockOf_ok ha]
  obtain ⟨m, h1, h2, h3⟩ := dview_mem hI (dview_some hV).1 ha
  rcases putAt_spec (F := F) (x := x) (little := little) h1 (pos := i + V.off) (ty := ty) (by omega) with ⟨h, -⟩ | ⟨s1, m1, e1, -, -, -, t1⟩
  · simp only [h]; exact hE
  · simp only [e1]
    exact good_touch hI hl (t1.mono (fun a b h => h3 a b (part_sub (by omega) (by omega) a b h)) (fun a b h => h3 a b (part_sub (by omega) (by omega) a b h))) (fun _ _ h => h)

theorem validIndex_some {V : View} {n : Num} {i : Nat} (h : validIndex s V n = some i) : (∃ k L, Att s V.buf k L) ∧ i < V.alen := by
  unfold validIndex at h
  split at h
  · cases h
  next hd =>
  refine ⟨not_detached hd, ?_⟩
  split at h
  · split at h
    next hc => cases h; exact hc.2.2
    next => cases h
  · cases h

theorem elemAt_good {F : Fpu} {le : Bool} {v : Nat} {V : View} {ty : Ty} {i : Nat} (hI : Inv s) (hV : IsTyped s v V ty)
    (ha : ∃ k L, Att s V.buf k L) (hi : i < V.alen) :
    elemAt F le s V ty i = .error .cast ∨ ∃ s' x, elemAt F le s V ty i = .ok (s', x) ∧ Touch (ofView s v) nothing s s' := by
  obtain ⟨k, L, ha⟩ := ha
  unfold elemAt
  rw [blockOf_ok ha]
  obtain ⟨m, h1, h2, h3⟩ := typed_mem hI hV ha
  have hin := in_elem (off := V.off) (sz := ty.size) hi
  rcases getAt_spec (F := F) (little := le) h1 (pos := V.off + ty.size * i) (ty := ty) (by omega) with ⟨h, -⟩ | ⟨s1, v', e1, -, b1, t1⟩
  · exact Or.inl h
  · exact Or.inr ⟨s1, v', e1, t1.mono (fun a b h => h3 a b (part_elem hi a b h)) (fun _ _ h => h)⟩

theorem putElem_good {F : Fpu} {le : Bool} {v : Nat} {V : View} {ty : Ty} {i : Nat} {x : Val} (hI : Inv s) (hV : IsTyped s v V ty)
    (ha : ∃ k L, Att s V.buf k L) (hi : i < V.alen) :
    putElem F le s V ty i x = .error .cast ∨ ∃ s', putElem F le s V ty i x = .ok s' ∧ Touch (ofView s v) (ofView s v) s s' := by
  obtain ⟨k, L, ha⟩ := ha
  unfold putElem
  rw [blockOf_ok ha]
  obtain ⟨m, h1, h2, h3⟩ := typed_mem hI hV ha
  have hin := in_elem (off := V.off) (sz := ty.size) hi
  rcases putAt_spec (F := F) (x := x) (little := le) h1 (pos := V.off + ty.size * i) (ty := ty) (by omega) with ⟨h, -⟩ | ⟨s1, m1, e1, -, -, -, t1⟩
  · exact Or.inl h
  · exact Or.inr ⟨s1, e1, t1.mono (fun a b h => h3 a b (part_elem hi a b h)) (fun a b h => h3 a b (part_elem hi a b h))⟩

theorem good_elemGet {F : Fpu} {le : Bool} {v : Nat} {n : Num} (hE : E .cast) (hI : Inv s) (hl : s.log = []) :
    Good s (ofView s v) W E (elemGet F le s v n) := by
  unfold elemGet
  split
  next V ty hV =>
    split
    · exact good_same hI hl
    next i hi =>
    obtain ⟨ha, hlt⟩ := validIndex_some hi
    rcases elemAt_good (F := F) (le := le) hI (typed_iff.1 hV) ha hlt with h | ⟨s1, x, e1, t1⟩
    · simp only [h]; exact hE
    · simp only [e1]
      exact good_touch hI hl (t1.mono (fun _ _ h => h) (fun _ _ h => h.elim)) (fun _ _ h => h)
  · exact good_same hI hl

theorem Good.mono {R' W' : Region} {E' : Fault → Prop} {o : M (State × Res)} (h : Good s R W E o) (hR : ∀ k i, R k i → R' k i)
    (hW : ∀ k i, W k i → W' k i) (hE : ∀ f, E f → E' f) : Good s R' W' E' o := by
  unfold Good at *
  split at h
  · exact hE _ h
  · obtain ⟨a, b, c⟩ := h
    refine ⟨a, fun x hx i h1 h2 => (b x hx i h1 h2).imp (hR _ _) id, ?_⟩
    intro k B B' m m' h1 h2 h3 h4
    obtain ⟨d, e⟩ := c k B B' m m' h1 h2 h3 h4
    exact ⟨d, fun i hi => e i fun hw => hi (hW _ _ hw)⟩

theorem good_elemSet {F : Fpu} {le : Bool} {v : Nat} {V : View} {ty : Ty} {n : Num} {x : Val} (hE : E .cast) (hI : Inv s) (hl : s.log = [])
    (hV : IsTyped s v V ty) : Good s (ofView s v) (ofView s v) E (elemSet F le s V ty n x) := by
  unfold elemSet
  split
  · exact good_same hI hl
  next i hi =>
  obtain ⟨ha, hlt⟩ := validIndex_some hi
  rcases putElem_good (F := F) (le := le) (x := x) hI hV ha hlt with h | ⟨s1, e1, t1⟩
  · simp only [h]; exact hE
  · simp only [e1]
    exact good_touch hI hl t1 (fun _ _ h => h)

theorem good_taBufOff {ty : Ty} {b : Nat} {hasLen : Bool} {x : Num} (hI : Inv s) (hl : s.log = []) (hb : b < s.bufs.length) :
    Good s R W E (taBufOff s ty b hasLen x) := by
  unfold taBufOff
  split
  · exact good_same hI hl
  next off _ =>
  split
  · exact good_same hI hl
  next ho =>
  have ho : off % ty.size = 0 := by omega
  split
  · exact good_push hI hl rfl ⟨hb, ho⟩
  unfold initBuf
  split
  next k L ha =>
    simp only
    split
    · exact good_same hI hl
    next hL =>
    split
    · exact good_same hI hl
    next hLo =>
    refine good_addView hI (within_nil hl) (kept_same rfl) hb ?_ ?_
    · intro ty' e
      cases e
      have : (L - off) % ty.size = 0 := Nat.sub_mod_eq_zero_of_mod_eq (by omega)
      exact (Nat.div_mul_cancel (Nat.dvd_of_mod_eq_zero this)).symm
    · intro k' L' h
      unfold Att at h
      rw [ha] at h
      cases h
      show off + (L - off) ≤ L
      omega
  · exact good_same hI hl

theorem good_initBuf {ty : Ty} {b off n : Nat} (hI : Inv s) (hl : s.log = []) (hb : b < s.bufs.length) :
    Good s R W E (initBuf s ty b off (some n)) := by
  unfold initBuf
  split
  next k L ha =>
    simp only
    split
    · exact good_same hI hl
    next hL =>
    refine good_addView hI (within_nil hl) (kept_same rfl) hb ?_ ?_
    · intro ty' e
      cases e
      show n * ty.size = n * ty.size / ty.size * ty.size
      rw [Nat.mul_div_cancel _ (size_pos ty)]
    · intro k' L' h
      unfold Att at h
      rw [ha] at h
      cases h
      show off + n * ty.size ≤ L
      omega
  · exact good_same hI hl

theorem good_cwFinish {v : Nat} {V : View} {ty : Ty} {dst frm final : Nat} (hI : Inv s) (hl : s.log = []) (hV : IsTyped s v V ty)
    (h1 : dst ≤ V.alen) (h3 : final ≤ V.alen) :
    Good s (ofView s v) (ofView s v) E (cwFinish s v V ty dst frm final) := by
  unfold cwFinish
  simp only
  generalize hc : min (final - frm) (V.alen - dst) = count
  split
  next hpos =>
    split
    · exact good_same hI hl
    next hd =>
    obtain ⟨k, L, ha⟩ := not_detached hd
    rw [blockOf_ok ha]
    obtain ⟨m, a1, a2, a3⟩ := typed_mem hI hV ha
    have e1 : ty.size * (dst + count) ≤ ty.size * V.alen := Nat.mul_le_mul_left _ (by omega)
    have e2 : ty.size * (frm + count) ≤ ty.size * V.alen := Nat.mul_le_mul_left _ (by omega)
    rw [Nat.mul_add] at e1 e2
    have e3 : V.alen * ty.size = ty.size * V.alen := Nat.mul_comm _ _
    obtain ⟨s1, m1, -, -, t1⟩ := move_spec (tk := k) (tlo := V.off + ty.size * dst) (sk := k) (slo := V.off + ty.size * frm) (n := ty.size * count) a1 a1 (by omega) (by omega)
    simp only [m1]
    refine good_touch hI hl (t1.mono (fun _ _ h => h) (fun a b h => a3 a b (part_sub (by omega) (by omega) a b h))) ?_
    rintro a b (h | h)
    · exact a3 a b (part_sub (by omega) (by omega) a b h)
    · exact a3 a b (part_sub (by omega) (by omega) a b h)
  · exact good_same hI hl

theorem good_fillFinish {F : Fpu} {le : Bool} {v : Nat} {V : View} {ty : Ty} {x : Val} {k final : Nat} (hE : E .cast) (hI : Inv s) (hl : s.log = [])
    (hV : IsTyped s v V ty) : Good s (ofView s v) (ofView s v) E (fillFinish F le s v V ty x k final) := by
  unfold fillFinish
  split
  · exact good_same hI hl
  next hd =>
  obtain ⟨b, L, ha⟩ := not_detached hd
  obtain ⟨m, a1, a2, a3⟩ := typed_mem hI hV ha
  rcases fillLoop_spec (F := F) (le := le) (x := x) (ty := ty) (final - k) k s m ha a1 a2 with h | ⟨s1, m1, e1, -, -, t1, -⟩
  · simp only [h]; exact hE
  · simp only [e1]
    exact good_touch hI hl (t1.mono a3 a3) (fun _ _ h => h)

theorem good_atLoad {F : Fpu} {le : Bool} {v : Nat} {V : View} {ty : Ty} {x : Num} (hE : E .cast) (hI : Inv s) (hl : s.log = [])
    (hV : IsTyped s v V ty) : Good s (ofView s v) W E (atLoad F le s V ty x) := by
  unfold atLoad
  split
  · exact good_same hI hl
  next i _ =>
  split
  · exact good_same hI hl
  next hi =>
  split
  · exact good_same hI hl
  next hd =>
  rcases elemAt_good (F := F) (le := le) hI hV (not_detached hd) (i := i) (by omega) with h | ⟨s1, x, e1, t1⟩
  · simp only [h]; exact hE
  · simp only [e1]
    exact good_touch hI hl (t1.mono (fun _ _ h => h) (fun _ _ h => h.elim)) (fun _ _ h => h)

theorem good_atStoreIdx {v : Nat} {V : View} {ty : Ty} {x : Num} (hI : Inv s) (hl : s.log = []) (hV : IsTyped s v V ty) :
    Good s R W E (atStoreIdx s v V x) := by
  unfold atStoreIdx
  split
  · exact good_same hI hl
  · split
    · exact good_same hI hl
    · exact good_push hI hl rfl ⟨V, ty, hV, by omega⟩

theorem good_atStoreVal {F : Fpu} {le : Bool} {v : Nat} {V : View} {ty : Ty} {i : Nat} {x : Val} (hE : E .cast) (hI : Inv s) (hl : s.log = [])
    (hV : IsTyped s v V ty) (hi : i < V.alen) : Good s (ofView s v) (ofView s v) E (atStoreVal F le s V ty i x) := by
  unfold atStoreVal
  split
  · exact good_same hI hl
  next hd =>
  rcases putElem_good (F := F) (le := le) (x := x) hI hV (not_detached hd) hi with h | ⟨s1, e1, t1⟩
  · simp only [h]; exact hE
  · simp only [e1]
    exact good_touch hI hl t1 (fun _ _ h => h)

theorem good_atIdx {v : Nat} {V : View} {ty : Ty} {op : Rmw} {x : Num} (hE : Gone s V.buf → E .null) (hI : Inv s) (hl : s.log = [])
    (hV : IsTyped s v V ty) : Good s R W E (atIdx s V ty op x) := by
  unfold atIdx
  split
  · exact good_same hI hl
  next i _ =>
  split
  · exact good_same hI hl
  next hi =>
  cases hd : detached s V.buf with
  | true =>
    have : blockOf s V.buf = .error .null := by
      have hg := detached_true hd
      unfold blockOf
      split
      next k L e => exact absurd e (hg k L)
      next => rfl
    simp only [this]
    exact hE (detached_true hd)
  | false =>
    obtain ⟨k, L, ha⟩ := detached_false hd
    rw [blockOf_ok ha]
    obtain ⟨m, a1, a2, a3⟩ := typed_mem hI hV ha
    obtain ⟨B, b1, b2⟩ := mem_some a1
    have hin := in_elem (off := V.off) (sz := ty.size) (i := i) (n := V.alen) (by omega)
    refine good_push hI hl rfl ⟨B, b1, fun m' hm' => ?_⟩
    rw [b2] at hm'
    cases hm'
    omega

theorem good_atVal {F : Fpu} {le : Bool} {ty : Ty} {op : Rmw} {k pos : Nat} {x : Val} (hE : E .cast)
    (hF : (∀ B, s.blocks[k]? = some B → B.mem = none) → E .freed) (hI : Inv s) (hl : s.log = [])
    (hf : FrameOk s (.atVal ty op k pos)) : Good s (part k pos ty.size) (part k pos ty.size) E (atVal F le s ty op k pos x) := by
  obtain ⟨B, b1, b2⟩ := hf
  unfold atVal
  split
  · exact hE
  next z _ =>
  cases hm : B.mem with
  | none =>
    have : rd s k pos ty.size = .error .freed := by
      have hs := size_pos ty
      unfold rd
      rw [if_neg (by omega)]
      obtain ⟨r', mm, sh⟩ := B
      simp only at hm
      subst hm
      simp [memOf, b1]
    simp only [this]
    exact hF fun B' hB' => by rw [b1] at hB'; cases hB'; exact hm
  | some m =>
    have hm' : mem s k = some m := by simp [mem, b1, hm]
    obtain ⟨s1, e1, c1, t1⟩ := rd_spec hm' (b2 m hm)
    simp only [e1]
    split
    · exact hE
    next old _ =>
    have hm1 : mem s1 k = some m := by
      have : mem s1 k = mem s k := by unfold mem; rw [c1]
      rw [this]; exact hm'
    generalize hz : (op.apply (8 * ty.size) (if le = true then Raw.orLittle 0 ((m.drop pos).take ty.size) else Raw.orBig ((m.drop pos).take ty.size)) (z % 2 ^ (8 * ty.size)).toNat : Nat) = w
    obtain ⟨s2, e2, -, -, t2⟩ := wr_spec (b := Raw.bytes le ty.size (w : Int)) hm1 (lo := pos) (by rw [Raw.bytes_length]; exact b2 m hm)
    rw [Raw.bytes_length] at t2
    rw [e2]
    exact good_touch hI hl ((t1.mono (fun _ _ h => h) (fun _ _ h => h.elim)).trans t2) (fun _ _ h => h)

end Verif.Buffer

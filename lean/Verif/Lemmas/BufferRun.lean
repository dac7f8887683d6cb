import Verif.Lemmas.BufferOps
/-
The sort, detachment, and every step.
-/
namespace Verif.Buffer
open NumConv Spec
open Raw (Byte Ty Val Fpu)

variable {s s' : State} {R W : Region} {E : Fault → Prop} {r : Res}

theorem Good.base {s0 : State} {o : M (State × Res)} (h : Good s R W E o) (hb : s.blocks = s0.blocks) : Good s0 R W E o := by
  match o, h with
  | .error f, h => exact h
  | .ok (s', _), ⟨a, b, c⟩ =>
    refine ⟨a, fun x hx i h1 h2 => ?_, fun k B B' m m' h1 => ?_⟩
    · have := b x hx i h1 h2
      unfold fresh at this ⊢
      rw [hb] at this
      exact this
    · rw [← hb] at h1
      exact c k B B' m m' h1

theorem Inv.log (hI : Inv s) (l : List Acc) : Inv { s with log := l } := by
  refine ⟨hI.live, hI.refs, hI.buf, hI.own, hI.view, fun f hf => ?_⟩
  exact FrameOk.ext (s := s) (s' := { s with log := l }) ⟨Nat.le_refl _, fun _ _ _ _ h => h, fun _ _ h => h, fun _ B h => ⟨B, h, rfl, fun m h => ⟨m, h, rfl⟩⟩⟩ (hI.frame f hf)

/-! ### Sort -/

theorem good_sortBegin {v : Nat} (hI : Inv s) (hl : s.log = []) : Good s R W E (sortBegin s v) := by
  unfold sortBegin
  split
  next V ty hV =>
    split
    · exact good_same hI hl
    next hd =>
    obtain ⟨k, L, ha⟩ := not_detached hd
    rw [blockOf_ok ha]
    simp only
    obtain ⟨m, m1, m2, -⟩ := typed_mem hI (typed_iff.1 hV) ha
    obtain ⟨B, hB, hm⟩ := mem_some m1
    obtain ⟨hr, e1, e2, e3, e4⟩ := ref_recount hB
    unfold push
    have hr' : Recount k (B.refs + 1) s { ref s k with frames := .sort k V.off V.alen ty.size :: (ref s k).frames } :=
      ⟨hr.len, hr.other, hr.this⟩
    have hub : ∀ j, users { ref s k with frames := .sort k V.off V.alen ty.size :: (ref s k).frames } j = users s j + if j = k then 1 else 0 := by
      intro j
      unfold users
      show (ref s k).bufs.countP _ + _ = _
      rw [e1, e3, List.countP_cons]
      by_cases hj : j = k
      · subst hj; simp [sortsBlock]; omega
      · have : sortsBlock j (.sort k V.off V.alen ty.size) = false := by simp [sortsBlock]; omega
        rw [this]; simp [hj]
    refine ⟨hI.recount hr' e2 (by show _ ≤ (ref s k).bufs.length; rw [e1]) ?_ ?_ ?_ ?_ ?_, within_nil (by show (ref s k).log = _; rw [e4, hl]), hr'.kept⟩
    · intro b k' L' _ h
      unfold Att at h ⊢
      rw [show State.bufs { ref s k with frames := .sort k V.off V.alen ty.size :: (ref s k).frames } = s.bufs from e1] at h
      exact h
    · intro b k' L' hb h
      unfold Att at h
      rw [show State.bufs { ref s k with frames := .sort k V.off V.alen ty.size :: (ref s k).frames } = s.bufs from e1] at h
      have := (List.getElem?_eq_some_iff.1 h).1
      omega
    · intro B' hB'
      rw [hB] at hB'
      cases hB'
      rw [hub, if_pos rfl, ← hI.refs k B hB]
      refine ⟨rfl, fun _ h0 => ?_⟩
      have := (hI.live k B hB).2 h0
      rw [hm] at this
      cases this
    · intro j hj
      rw [hub, if_neg hj]; rfl
    · intro f hf
      rcases List.mem_cons.1 hf with rfl | hf
      · refine ⟨B, hB, fun m' hm' => ?_⟩
        rw [hm] at hm'
        cases hm'
        exact m2
      · rw [e3] at hf
        exact hI.frame f hf
  · exact good_same hI hl

theorem good_unsort {k off n es : Nat} {fs : List Frame} (hI : Inv s) (hl : s.log = []) (hf : s.frames = .sort k off n es :: fs) :
    Good s R W E (.ok (unref { s with frames := fs } k, r)) := by
  have hmem : Frame.sort k off n es ∈ s.frames := by rw [hf]; exact List.mem_cons_self
  obtain ⟨B, hB, -⟩ := hI.frame _ hmem
  have hu : users s k ≠ 0 := by
    unfold users
    rw [hf, List.countP_cons, if_pos (by simp [sortsBlock])]
    omega
  have hr0 : B.refs ≠ 0 := by rw [hI.refs k B hB]; exact hu
  obtain ⟨hr, e1, e2, e3, e4⟩ := unref_recount (s := { s with frames := fs }) hB hr0
  have hr' : Recount k (B.refs - 1) s (unref { s with frames := fs } k) := ⟨hr.len, hr.other, hr.this⟩
  refine ⟨hI.recount hr' e2 (by rw [e1]) ?_ ?_ ?_ ?_ ?_, within_nil (by rw [e4]; exact hl), hr'.kept⟩
  · intro b k' L' _ h
    unfold Att at h ⊢
    rw [e1] at h
    exact h
  · intro b k' L' hb h
    unfold Att at h
    rw [e1] at h
    have := (List.getElem?_eq_some_iff.1 h).1
    simp only at this
    omega
  · intro B' hB'
    rw [hB] at hB'
    cases hB'
    refine ⟨?_, fun _ => hr0⟩
    rw [hI.refs k B hB]
    unfold users
    rw [e1, e3, hf, List.countP_cons, if_pos (by simp [sortsBlock])]
    simp only
    omega
  · intro j hj
    unfold users
    rw [e1, e3, hf, List.countP_cons, if_neg (by simp [sortsBlock]; omega)]
    rfl
  · intro f h
    rw [e3] at h
    exact hI.frame f (by rw [hf]; exact List.mem_cons_of_mem _ h)

theorem good_sortGo {k off n es : Nat} {fs : List Frame} {x : Ret} (hI : Inv s) (hl : s.log = []) (hf : s.frames = .sort k off n es :: fs) :
    Good s (part k off (n * es)) (part k off (n * es)) E (sortGo { s with frames := fs } k off n es x) := by
  have hmem : Frame.sort k off n es ∈ s.frames := by rw [hf]; exact List.mem_cons_self
  have hback : (⟨s.blocks, s.bufs, s.views, .sort k off n es :: fs, s.log⟩ : State) = s := by rw [← hf]
  have hb : ∀ r, Good s (part k off (n * es)) (part k off (n * es)) E (.ok (⟨s.blocks, s.bufs, s.views, .sort k off n es :: fs, s.log⟩, r)) := by
    intro r
    rw [hback]
    exact good_same hI hl
  unfold sortGo
  split
  next i b =>
    split
    next hc =>
      obtain ⟨hi, hbl⟩ := hc
      obtain ⟨m, m1, m2⟩ := hI.sorted hmem
      have e1 : es * (i + 1) ≤ es * n := Nat.mul_le_mul_left _ (by omega)
      have e2 : n * es = es * n := Nat.mul_comm _ _
      rw [Nat.mul_add] at e1
      obtain ⟨s1, f1, g1, t1⟩ := rd_spec (s := { s with frames := fs }) (lo := off + es * i) (n := es) m1 (by omega)
      have m1' : mem s1 k = some m := by
        simp only [mem, g1]
        exact m1
      obtain ⟨s2, f2, -, -, t2⟩ := wr_spec (s := s1) (lo := off + es * i) (b := b) m1' (by omega)
      rw [f1]
      simp only
      rw [f2]
      simp only
      rw [hbl] at t2
      have hsub : ∀ j l, part k (off + es * i) es j l → part k off (n * es) j l := part_sub (by omega) (by omega)
      have t : Touch (part k off (n * es)) (part k off (n * es)) { s with frames := fs } s2 :=
        (t1.mono hsub (fun _ _ h => h.elim)).trans (t2.mono hsub hsub)
      have t' : Touch (part k off (n * es)) (part k off (n * es)) s { s2 with frames := .sort k off n es :: s2.frames } :=
        ⟨t.bufs, t.views, by show _ :: _ = _; rw [t.frames, hf], t.len, t.blocks, t.log⟩
      exact good_touch hI hl t' (fun _ _ h => h)
    · exact hb _
  · exact good_unsort hI hl hf
  · exact good_unsort hI hl hf
  · exact hb _

/-! ### Buffers -/

theorem good_detach {b : Nat} (hI : Inv s) (hl : s.log = []) : Good s R W E (.ok (detach s b, r)) := by
  unfold detach
  split
  next k L ha =>
    have ha : Att s b k L := ha
    simp only
    obtain ⟨B, hB, -⟩ := hI.buf b k L ha
    have hbl := (List.getElem?_eq_some_iff.1 ha).1
    have hbe := (List.getElem?_eq_some_iff.1 ha).2
    have hu : 0 < s.bufs.countP (usesBlock k) := countP_pos_of ha (by simp [usesBlock])
    have hr0 : B.refs ≠ 0 := by rw [hI.refs k B hB]; unfold users; omega
    obtain ⟨hr, e1, e2, e3, e4⟩ := unref_recount hB hr0
    have hr' : Recount k (B.refs - 1) s { unref s k with bufs := (unref s k).bufs.set b ⟨none, 0⟩ } := ⟨hr.len, hr.other, hr.this⟩
    have hatt : ∀ b' k' L', Att { unref s k with bufs := (unref s k).bufs.set b ⟨none, 0⟩ } b' k' L' → Att s b' k' L' := by
      intro b' k' L' h
      simp only [Att, e1, List.getElem?_set] at h
      by_cases hbb : b = b'
      · subst hbb
        simp [hbl] at h
      · rw [if_neg hbb] at h
        exact h
    have hub : ∀ j, users { unref s k with bufs := (unref s k).bufs.set b ⟨none, 0⟩ } j = users s j - if j = k then 1 else 0 := by
      intro j
      unfold users
      show ((unref s k).bufs.set b ⟨none, 0⟩).countP _ + (unref s k).frames.countP _ = _
      rw [e1, e3, List.countP_set hbl, hbe]
      by_cases hj : j = k
      · subst hj
        simp [usesBlock]
        have : 0 < s.bufs.countP (usesBlock j) := hu
        unfold usesBlock at this
        omega
      · have : usesBlock j ⟨some k, L⟩ = false := by simp [usesBlock]; omega
        rw [this]
        simp [usesBlock, hj]
    refine ⟨hI.recount hr' e2 (by show _ ≤ ((unref s k).bufs.set b _).length; rw [e1]; simp) (fun b' k' L' _ h => hatt b' k' L' h) ?_ ?_ ?_ ?_,
      within_nil (by show (unref s k).log = _; rw [e4, hl]), hr'.kept⟩
    · intro b' k' L' hb' h
      have := (List.getElem?_eq_some_iff.1 (hatt _ _ _ h)).1
      omega
    · intro B' hB'
      rw [hB] at hB'
      cases hB'
      refine ⟨?_, fun _ => hr0⟩
      rw [hub, if_pos rfl, hI.refs k B hB]
    · intro j hj
      rw [hub, if_neg hj]; rfl
    · intro f hf
      rw [show State.frames { unref s k with bufs := (unref s k).bufs.set b ⟨none, 0⟩ } = s.frames from e3] at hf
      exact hI.frame f hf
  · exact good_same hI hl

theorem good_alias {b : Nat} (hI : Inv s) (hl : s.log = []) {k L : Nat} (ha : Att s b k L) (hs : isShared s b = true) :
    Good s R W E (.ok ({ ref s k with bufs := s.bufs ++ [⟨some k, L⟩] }, r)) := by
  obtain ⟨B, hB, -⟩ := hI.buf b k L ha
  have hbl := (List.getElem?_eq_some_iff.1 ha).1
  have hu : 0 < s.bufs.countP (usesBlock k) := countP_pos_of ha (by simp [usesBlock])
  have hr0 : B.refs ≠ 0 := by rw [hI.refs k B hB]; unfold users; omega
  obtain ⟨hr, e1, e2, e3, e4⟩ := ref_recount hB
  have hr' : Recount k (B.refs + 1) s { ref s k with bufs := s.bufs ++ [⟨some k, L⟩] } := ⟨hr.len, hr.other, hr.this⟩
  have hub : ∀ j, users { ref s k with bufs := s.bufs ++ [⟨some k, L⟩] } j = users s j + if j = k then 1 else 0 := by
    intro j
    unfold users
    show (s.bufs ++ [(⟨some k, L⟩ : Buf)]).countP _ + (ref s k).frames.countP _ = _
    rw [e3, List.countP_append]
    by_cases hj : j = k
    · subst hj
      simp [usesBlock]
      omega
    · have : usesBlock j ⟨some k, L⟩ = false := by simp [usesBlock]; omega
      simp [this, hj]
  refine ⟨hI.recount hr' e2 (by show _ ≤ (s.bufs ++ _).length; simp) ?_ ?_ ?_ ?_ ?_,
    within_nil (by show (ref s k).log = _; rw [e4, hl]), hr'.kept⟩
  · intro b' k' L' hb' h
    simp only [Att, List.getElem?_append, if_pos hb'] at h
    exact h
  · intro b' k' L' hb' h
    simp only [Att, List.getElem?_append, if_neg (Nat.not_lt.2 hb')] at h
    have := List.mem_of_getElem? h
    simp at this
    obtain ⟨rfl, rfl⟩ := this
    refine ⟨rfl, by omega, ⟨b, hbl, ha⟩, fun B' hB' => ?_⟩
    rw [← isShared_att ha hB', hs]
  · intro B' hB'
    rw [hB] at hB'
    cases hB'
    exact ⟨by rw [hub, if_pos rfl, hI.refs k B hB], fun _ => hr0⟩
  · intro j hj
    rw [hub, if_neg hj]; rfl
  · intro f hf
    rw [show State.frames { ref s k with bufs := s.bufs ++ [⟨some k, L⟩] } = s.frames from e3] at hf
    exact hI.frame f hf

theorem good_abBegin {b : Nat} {hasEnd : Bool} (hI : Inv s) (hl : s.log = []) : Good s R W E (abBegin s b hasEnd) := by
  unfold abBegin
  split
  next B hB =>
    split
    · exact good_same hI hl
    split
    · exact good_same hI hl
    refine good_push hI hl rfl ⟨(List.getElem?_eq_some_iff.1 hB).1, fun k L h => ?_⟩
    unfold Att at h
    rw [hB] at h
    cases h
    rfl
  · exact good_same hI hl

theorem good_begin {F : Fpu} {le : Bool} {c : Call} (hE : E .cast) (hI : Inv s) (hl : s.log = []) :
    Good s (mayRead s (.call c)) W E (begin F le s c) := by
  cases c with
  | dataView b hasLen =>
    simp only [begin]
    split
    next h => exact good_push hI hl rfl h
    · exact good_same hI hl
  | dvGet v ty little | dvSet v ty little | taTyped v ty | elemSet v n | setFrom t src =>
    simp only [begin]
    split
    · exact good_push hI hl rfl trivial
    · exact good_same hI hl
  | taLength ty => exact good_push hI hl rfl trivial
  | taBuffer ty b hasLen =>
    simp only [begin]
    split
    next h => exact good_push hI hl rfl h
    · exact good_same hI hl
  | elemGet v n => exact good_elemGet hE hI hl
  | copyWithin | fill | slice | atLoad | atStore | atRmw => exact good_onValid hI hl rfl trivial
  | sort v => exact good_sortBegin hI hl
  | abSlice b hasEnd => exact good_abBegin hI hl

theorem isTyped_unique {v : Nat} {V V' : View} {ty ty' : Ty} (h : IsTyped s v V ty) (h' : IsTyped s v V' ty') : V' = V ∧ ty' = ty := by
  obtain ⟨a, b⟩ := h
  obtain ⟨c, d⟩ := h'
  rw [a] at c
  cases c
  rw [b] at d
  cases d
  exact ⟨rfl, rfl⟩

theorem good_taLenProto {ty : Ty} {n : Nat} (hI : Inv s) (hl : s.log = []) :
    Good s R W E (addView (alloc s (ty.size * n) false) ⟨s.bufs.length, 0, ty.size * n, n, some ty⟩) := by
  obtain ⟨a, b, c⟩ := good_alloc (R := R) (W := W) (R' := nothing) (W' := nothing) hI hl (.refl _ _ (alloc s (ty.size * n) false)) (fun _ _ h => h.elim) (fun _ _ h => h.elim)
  refine good_addView a b c (by simp [alloc]) ?_ ?_
  · intro ty' e; cases e; exact Nat.mul_comm _ _
  · intro k L h
    rcases alloc_att.1 h with h | ⟨-, -, rfl⟩
    · have := (List.getElem?_eq_some_iff.1 h).1
      simp at this
    · show 0 + ty.size * n ≤ _
      omega

/-- The faults which there may be when the program returns. -/
def frameFault (s : State) (f : Frame) : Fault → Prop
  | .cast => True
  | .overlap | .deadlock => ∃ v k final, f = .slSpecies v k final
  | .null => ∃ v op V, f = .atIdx v op ∧ s.views[v]? = some V ∧ Gone s V.buf
  | .freed => ∃ ty op k pos, f = .atVal ty op k pos ∧ ∀ B, s.blocks[k]? = some B → B.mem = none
  | .bounds => False

theorem good_resume {F : Fpu} {le : Bool} {f : Frame} {x : Ret} (hns : isSort f = false) (hI : Inv s) (hl : s.log = []) (hf : FrameOk s f) :
    Good s (join (readable s f x) (writable s f x)) (writable s f x) (frameFault s f) (resume F le s f x) := by
  have hE : frameFault s f .cast := trivial
  have left : ∀ (P Q : Region) k i, P k i → join P Q k i := fun _ _ _ _ h => Or.inl h
  have right : ∀ (P Q : Region) k i, Q k i → join P Q k i := fun _ _ _ _ h => Or.inr h
  have W0 : ∀ (P : Region) k i, nothing k i → P k i := fun _ _ _ h => h.elim
  have id2 : ∀ (P : Region) k i, P k i → P k i := fun _ _ _ h => h
  have idE : ∀ e, frameFault s f e → frameFault s f e := fun _ h => h
  cases f with
  | sort => cases hns
  | dvOff b hasLen => exact good_onNum hI hl rfl hf fun n => good_dvOff hI hl
  | dvLen b off cap => exact good_onNum hI hl rfl hf fun n => good_dvLen hI hl hf
  | dvProto b off n => exact good_onDone hI hl rfl hf (good_dvProto hI hl hf)
  | dvGet v ty little =>
    exact good_onNum hI hl rfl hf fun n => (good_dvGet hE hI hl).mono (left _ _) (id2 _) idE
  | dvSetIdx v ty little =>
    refine good_onNum hI hl rfl hf fun n => ?_
    split
    · exact good_same hI hl
    · exact good_push hI hl rfl trivial
  | dvSetVal v ty little i =>
    exact good_onVal hI hl rfl hf fun n => (good_dvSetVal hE hI hl).mono (right _ _) (id2 _) idE
  | taLen ty =>
    refine good_onNum hI hl rfl hf fun n => ?_
    split
    · exact good_same hI hl
    · exact good_push hI hl rfl trivial
  | taLenProto ty n => exact good_onDone hI hl rfl hf (good_taLenProto hI hl)
  | taBufProto ty b hasLen => exact good_onDone hI hl rfl hf (good_push hI hl rfl hf)
  | taBufOff ty b hasLen => exact good_onNum hI hl rfl hf fun n => good_taBufOff hI hl hf
  | taBufLen ty b off =>
    refine good_onNum hI hl rfl hf fun n => ?_
    split
    · exact good_same hI hl
    · exact good_initBuf hI hl hf.1
  | taTyped ty src => exact good_onDone hI hl rfl hf ((good_initTyped hE hI hl).mono (left _ _) (id2 _) idE)
  | elemSet v n =>
    refine good_onTyped hI hl fun V ty hV => good_onVal hI hl rfl hf fun y => ?_
    exact (good_elemSet hE hI hl hV).mono (right _ _) (id2 _) idE
  | cwTo v hasEnd =>
    refine good_onTyped hI hl fun V ty hV => good_onNum hI hl rfl hf fun y => ?_
    exact good_push hI hl rfl ⟨V, ty, hV, rel_le _ _⟩
  | cwFrom v hasEnd dst =>
    refine good_onTyped hI hl fun V ty hV => good_onNum hI hl rfl hf fun y => ?_
    obtain ⟨V', ty', hV', h1⟩ := hf
    obtain ⟨rfl, rfl⟩ := isTyped_unique hV hV'
    split
    · exact good_push hI hl rfl ⟨V', ty', hV, h1, rel_le _ _⟩
    · exact (good_cwFinish hI hl hV h1 (Nat.le_refl _)).mono (right _ _) (id2 _) idE
  | cwEnd v dst frm =>
    refine good_onTyped hI hl fun V ty hV => good_onNum hI hl rfl hf fun y => ?_
    obtain ⟨V', ty', hV', h1, h2⟩ := hf
    obtain ⟨rfl, rfl⟩ := isTyped_unique hV hV'
    exact (good_cwFinish hI hl hV h1 (rel_le _ _)).mono (right _ _) (id2 _) idE
  | fillVal v hasEnd =>
    exact good_onTyped hI hl fun V ty hV => good_onVal hI hl rfl hf fun y => good_push hI hl rfl trivial
  | fillStart v hasEnd z =>
    refine good_onTyped hI hl fun V ty hV => good_onNum hI hl rfl hf fun y => ?_
    split
    · exact good_push hI hl rfl trivial
    · exact (good_fillFinish hE hI hl hV).mono (right _ _) (id2 _) idE
  | fillEnd v z k =>
    refine good_onTyped hI hl fun V ty hV => good_onNum hI hl rfl hf fun y => ?_
    exact (good_fillFinish hE hI hl hV).mono (right _ _) (id2 _) idE
  | setOff t src => exact good_onNum hI hl rfl hf fun n => (good_setOff hE hI hl).mono (id2 _) (id2 _) idE
  | slStart v hasEnd =>
    refine good_onTyped hI hl fun V ty hV => good_onNum hI hl rfl hf fun y => ?_
    split
    · exact good_push hI hl rfl ⟨V, ty, hV, rel_le _ _⟩
    · exact good_push hI hl rfl ⟨V, ty, hV, rel_le _ _, Nat.le_refl _⟩
  | slEnd v k =>
    refine good_onTyped hI hl fun V ty hV => good_onNum hI hl rfl hf fun y => ?_
    obtain ⟨V', ty', hV', h1⟩ := hf
    obtain ⟨rfl, rfl⟩ := isTyped_unique hV hV'
    exact good_push hI hl rfl ⟨V', ty', hV, h1, rel_le _ _⟩
  | slSpecies v k final =>
    simp only [resume]
    split
    · exact (good_slFinish hE ⟨_, _, _, rfl⟩ ⟨_, _, _, rfl⟩ hI hl hf).mono (id2 _) (id2 _) idE
    · exact good_same hI hl
    · exact good_wrong hI hl rfl hf
  | abStart b hasEnd len =>
    refine good_onNum hI hl rfl hf fun y => ?_
    obtain ⟨h1, h2⟩ := hf
    have := rel_le len y
    split
    · exact good_push hI hl rfl ⟨h1, this, h2⟩
    · refine good_push hI hl rfl ⟨h1, fun k L h => ?_⟩
      rw [h2 k L h]
      omega
  | abEnd b len first =>
    refine good_onNum hI hl rfl hf fun y => ?_
    obtain ⟨h1, h3, h2⟩ := hf
    have := rel_le len y
    refine good_push hI hl rfl ⟨h1, fun k L h => ?_⟩
    rw [h2 k L h]
    omega
  | abSpecies b first n =>
    simp only [resume]
    split
    · exact (good_abFinish hI hl hf).mono (id2 _) (id2 _) idE
    · exact good_same hI hl
    · exact good_wrong hI hl rfl hf
  | atLoad v =>
    refine good_onTyped hI hl fun V ty hV => good_onNum hI hl rfl hf fun y => ?_
    exact (good_atLoad hE hI hl hV).mono (left _ _) (id2 _) idE
  | atStoreIdx v =>
    exact good_onTyped hI hl fun V ty hV => good_onNum hI hl rfl hf fun y => good_atStoreIdx hI hl hV
  | atStoreVal v i =>
    refine good_onTyped hI hl fun V ty hV => good_onVal hI hl rfl hf fun y => ?_
    obtain ⟨V', ty', hV', h1⟩ := hf
    obtain ⟨rfl, rfl⟩ := isTyped_unique hV hV'
    exact (good_atStoreVal hE hI hl hV h1).mono (right _ _) (id2 _) idE
  | atIdx v op =>
    exact good_onTyped hI hl fun V ty hV => good_onNum hI hl rfl hf fun y => good_atIdx (fun h => ⟨_, _, V, rfl, hV.1, h⟩) hI hl hV
  | atVal ty op k pos =>
    refine good_onVal hI hl rfl hf fun y => ?_
    exact (good_atVal hE (fun h => ⟨_, _, _, _, rfl, h⟩) hI hl hf).mono (right _ _) (id2 _) idE

theorem readable_same {fs : List Frame} (f : Frame) (x : Ret) : readable { s with frames := fs, log := [] } f x = readable s f x := by
  cases f <;> rfl

theorem writable_same {fs : List Frame} (f : Frame) (x : Ret) : writable { s with frames := fs, log := [] } f x = writable s f x := by
  cases f <;> rfl

theorem good_step {F : Fpu} {le : Bool} {e : Ev} (hI : Inv s) :
    Good s (join (mayRead s e) (mayWrite s e)) (mayWrite s e) (knownFault s e) (step F le s e) := by
  have hI0 := hI.log []
  unfold step
  cases e with
  | newBuf len shared =>
    exact (good_alloc (R' := nothing) (W' := nothing) hI0 rfl (.refl _ _ _) (fun _ _ h => h.elim) (fun _ _ h => h.elim) :
      Inv _ ∧ _ ∧ _)
  | «alias» b =>
    simp only
    split
    next k L ha =>
      split
      next hs => exact (good_alias hI0 rfl (b := b) (k := k) (L := L) ha hs).base rfl
      · exact (good_same hI0 rfl).base rfl
    · exact (good_same hI0 rfl).base rfl
  | detach b => exact (good_detach hI0 rfl).base rfl
  | call c =>
    refine (Good.base (s := { s with log := [] }) ?_ rfl)
    refine (good_begin (s := { s with log := [] }) (W := mayWrite s (.call c)) (E := knownFault s (.call c)) trivial hI0 rfl).mono (fun k i h => Or.inl ?_) (fun _ _ h => h) (fun _ h => h)
    cases c <;> exact h
  | ret x =>
    simp only
    split
    · exact (good_same hI0 rfl).base rfl
    next f fs hfr =>
    have hfr : s.frames = f :: fs := hfr
    have e1 : mayRead s (.ret x) = readable s f x := by simp only [mayRead, hfr]
    have e2 : mayWrite s (.ret x) = writable s f x := by simp only [mayWrite, hfr]
    rw [e1, e2]
    by_cases hs : isSort f = true
    · cases f with
      | sort k off n es =>
        have := (good_sortGo (s := { s with log := [] }) (E := knownFault s (.ret x)) (x := x) hI0 rfl hfr).base (s0 := s) rfl
        exact this.mono (fun _ _ h => Or.inl h) (fun _ _ h => h) (fun _ h => h)
      | _ => cases hs
    · have hs : isSort f = false := by simpa using hs
      obtain ⟨hI1, hf1⟩ := hI0.pop hfr hs
      have := (good_resume (F := F) (le := le) (x := x) hs hI1 rfl hf1).base (s0 := s) rfl
      rw [show (({ s with log := [], frames := fs } : State)) = { s with frames := fs, log := [] } from rfl, readable_same, writable_same] at this
      refine this.mono (fun _ _ h => h) (fun _ _ h => h) ?_
      intro fa hfa
      cases fa with
      | cast => trivial
      | bounds => exact hfa
      | overlap | deadlock =>
        obtain ⟨v, k, final, rfl⟩ := hfa
        exact ⟨x, v, k, final, fs, rfl, hfr⟩
      | null =>
        obtain ⟨v, op, V, rfl, h1, h2⟩ := hfa
        exact ⟨x, v, op, fs, V, rfl, hfr, h1, h2⟩
      | freed =>
        obtain ⟨ty, op, k, pos, rfl, h1⟩ := hfa
        exact ⟨x, ty, op, k, pos, fs, rfl, hfr, h1⟩

theorem inv_run {F : Fpu} {le : Bool} : ∀ {es : List Ev} {s s' : State}, Inv s → run F le s es = .ok s' → Inv s'
  | [], s, s', hI, h => by cases h; exact hI
  | e :: es, s, s', hI, h => by
    unfold run at h
    have hg := good_step (F := F) (le := le) (e := e) hI
    split at h
    · cases h
    next s1 _ he =>
      rw [he] at hg
      exact inv_run hg.1 h

end Verif.Buffer

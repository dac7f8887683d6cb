import Verif.Spec.Buffer
import Verif.Lemmas.Raw
/-
Memory accesses of the buffer operations stay where they should.
-/
namespace Verif.Buffer
open NumConv Spec
open Raw (Byte Ty Val Fpu)

/-- The memory of a data block. -/
def mem (s : State) (k : Nat) : Option (List Byte) :=
  match s.blocks[k]? with
  | some B => B.mem
  | none => none

/-- Nothing but memory inside of `W` and the list of accesses, new ones inside of `R`, changes. -/
structure Touch (R W : Region) (s s' : State) : Prop where
  bufs : s'.bufs = s.bufs
  views : s'.views = s.views
  frames : s'.frames = s.frames
  len : s'.blocks.length = s.blocks.length
  blocks : ∀ (k : Nat) (B : Block), s.blocks[k]? = some B → ∃ B', s'.blocks[k]? = some B' ∧ B'.refs = B.refs ∧ B'.shared = B.shared ∧
    (B.mem = none → B'.mem = none) ∧
    ∀ m, B.mem = some m → ∃ m', B'.mem = some m' ∧ m'.length = m.length ∧ ∀ i, ¬ W k i → m'[i]? = m[i]?
  log : ∀ a ∈ s'.log, a ∈ s.log ∨ ∀ i, a.lo ≤ i → i < a.lo + a.n → R a.blk i

theorem Touch.refl (R W : Region) (s : State) : Touch R W s s :=
  ⟨rfl, rfl, rfl, rfl, fun k B h => ⟨B, h, rfl, rfl, id, fun m hm => ⟨m, hm, rfl, fun _ _ => rfl⟩⟩, fun a h => Or.inl h⟩

theorem Touch.trans {R W : Region} {a b c : State} (h1 : Touch R W a b) (h2 : Touch R W b c) : Touch R W a c := by
  refine ⟨by rw [h2.bufs, h1.bufs], by rw [h2.views, h1.views], by rw [h2.frames, h1.frames], by rw [h2.len, h1.len], ?_, ?_⟩
  · intro k B hB
    obtain ⟨B1, e1, r1, s1, n1, m1⟩ := h1.blocks k B hB
    obtain ⟨B2, e2, r2, s2, n2, m2⟩ := h2.blocks k B1 e1
    refine ⟨B2, e2, by rw [r2, r1], by rw [s2, s1], fun h => n2 (n1 h), ?_⟩
    intro m hm
    obtain ⟨m', a1, a2, a3⟩ := m1 m hm
    obtain ⟨m'', b1, b2, b3⟩ := m2 m' a1
    exact ⟨m'', b1, by rw [b2, a2], fun i hi => by rw [b3 i hi, a3 i hi]⟩
  · intro x hx
    rcases h2.log x hx with h | h
    · exact h1.log x h
    · exact Or.inr h

theorem Touch.mono {R W R' W' : Region} {a b : State} (h : Touch R W a b) (hR : ∀ k i, R k i → R' k i)
    (hW : ∀ k i, W k i → W' k i) : Touch R' W' a b := by
  refine ⟨h.bufs, h.views, h.frames, h.len, ?_, ?_⟩
  · intro k B hB
    obtain ⟨B1, e1, r1, s1, n1, m1⟩ := h.blocks k B hB
    refine ⟨B1, e1, r1, s1, n1, ?_⟩
    intro m hm
    obtain ⟨m', a1, a2, a3⟩ := m1 m hm
    exact ⟨m', a1, a2, fun i hi => a3 i (fun hw => hi (hW k i hw))⟩
  · intro x hx
    rcases h.log x hx with h | h
    · exact Or.inl h
    · exact Or.inr fun i h1 h2 => hR _ _ (h i h1 h2)

theorem mem_some {s : State} {k : Nat} {m : List Byte} (h : mem s k = some m) :
    ∃ B, s.blocks[k]? = some B ∧ B.mem = some m := by
  unfold mem at h
  split at h
  next B e => exact ⟨B, e, h⟩
  next => cases h

theorem Touch.mem {R W : Region} {a b : State} (h : Touch R W a b) {k : Nat} {m : List Byte} (hm : mem a k = some m) :
    ∃ m', Buffer.mem b k = some m' ∧ m'.length = m.length ∧ ∀ i, ¬ W k i → m'[i]? = m[i]? := by
  obtain ⟨B, h1, h2⟩ := mem_some hm
  obtain ⟨B1, e1, -, -, -, m1⟩ := h.blocks k B h1
  obtain ⟨m', a1, a2, a3⟩ := m1 m h2
  exact ⟨m', by simp [Buffer.mem, e1, a1], a2, a3⟩

theorem memOf_ok {s : State} {k : Nat} {m : List Byte} (h : mem s k = some m) : memOf s k = .ok m := by
  obtain ⟨B, h1, h2⟩ := mem_some h
  obtain ⟨r, mm, sh⟩ := B
  simp only at h2
  subst h2
  simp [memOf, h1]

theorem part_zero {k lo : Nat} (j i : Nat) : ¬ part k lo 0 j i := by
  rintro ⟨-, h1, h2⟩
  omega

theorem note_touch (s : State) (k lo n : Nat) (W : Region) : Touch (part k lo n) W s (note s k lo n) := by
  refine ⟨rfl, rfl, rfl, rfl, fun k B h => ⟨B, h, rfl, rfl, id, fun m hm => ⟨m, hm, rfl, fun _ _ => rfl⟩⟩, ?_⟩
  intro a ha
  simp only [note, List.mem_append, List.mem_singleton] at ha
  rcases ha with h | rfl
  · exact Or.inl h
  · exact Or.inr fun i h1 h2 => ⟨rfl, h1, h2⟩

theorem rd_spec {s : State} {k lo n : Nat} {m : List Byte} (hm : mem s k = some m) (hl : lo + n ≤ m.length) :
    ∃ s', rd s k lo n = .ok (s', (m.drop lo).take n) ∧ s'.blocks = s.blocks ∧ Touch (part k lo n) nothing s s' := by
  unfold rd
  by_cases h0 : n = 0
  · subst h0
    rw [if_pos rfl]
    exact ⟨s, by simp, rfl, .refl _ _ _⟩
  · rw [if_neg h0, memOf_ok hm]
    simp only [if_pos hl]
    exact ⟨_, rfl, rfl, note_touch s k lo n _⟩

theorem setMem_blocks {s : State} {k : Nat} {B : Block} (h : s.blocks[k]? = some B) (m : List Byte) :
    setMem s k m = { s with blocks := s.blocks.set k { B with mem := some m } } := by
  simp [setMem, h]

theorem setMem_mem {s : State} {k : Nat} {m0 : List Byte} (h : mem s k = some m0) (m : List Byte) :
    mem (setMem s k m) k = some m ∧ ∀ j, j ≠ k → mem (setMem s k m) j = mem s j := by
  obtain ⟨B, h1, h2⟩ := mem_some h
  have hk : k < s.blocks.length := (List.getElem?_eq_some_iff.1 h1).1
  rw [setMem_blocks h1]
  constructor
  · simp [mem, List.getElem?_set, hk]
  · intro j hj
    simp only [mem, List.getElem?_set, if_neg (Ne.symm hj)]

theorem setMem_touch {s : State} {k : Nat} {m0 m : List Byte} (h : mem s k = some m0) (hl : m.length = m0.length)
    {R W : Region} (hw : ∀ i, ¬ W k i → m[i]? = m0[i]?) : Touch R W s (setMem s k m) := by
  obtain ⟨B, h1, h2⟩ := mem_some h
  have hk : k < s.blocks.length := (List.getElem?_eq_some_iff.1 h1).1
  rw [setMem_blocks h1]
  refine ⟨rfl, rfl, rfl, by simp, ?_, fun a ha => Or.inl ha⟩
  intro j C hC
  by_cases hj : k = j
  · subst hj
    rw [h1] at hC
    cases hC
    refine ⟨{ B with mem := some m }, by simp [List.getElem?_set, hk], rfl, rfl, ?_, ?_⟩
    · intro hn
      rw [h2] at hn
      cases hn
    · intro m' hm'
      rw [h2] at hm'
      cases hm'
      exact ⟨m, rfl, hl, hw⟩
  · exact ⟨C, by simp only [List.getElem?_set, if_neg hj]; exact hC, rfl, rfl, id, fun m hm => ⟨m, hm, rfl, fun _ _ => rfl⟩⟩

theorem overwrite_nil (m : List Byte) (lo : Nat) : Raw.overwrite m lo [] = m := by
  simp [Raw.overwrite]

theorem wr_spec {s : State} {k lo : Nat} {m b : List Byte} (hm : mem s k = some m) (hl : lo + b.length ≤ m.length) :
    ∃ s', wr s k lo b = .ok s' ∧ mem s' k = some (Raw.overwrite m lo b) ∧ (∀ j, j ≠ k → mem s' j = mem s j) ∧
      Touch (part k lo b.length) (part k lo b.length) s s' := by
  unfold wr
  by_cases h0 : b.length = 0
  · rw [if_pos h0]
    have : b = [] := List.eq_nil_of_length_eq_zero h0
    subst this
    exact ⟨s, rfl, by rw [overwrite_nil]; exact hm, fun _ _ => rfl, .refl _ _ _⟩
  · rw [if_neg h0, memOf_ok hm]
    simp only [if_pos hl]
    have hm' : mem (note s k lo b.length) k = some m := hm
    obtain ⟨a1, a2⟩ := setMem_mem hm' (Raw.overwrite m lo b)
    refine ⟨_, rfl, a1, a2, (note_touch s k lo _ _).trans (setMem_touch hm' (Raw.overwrite_length hl) ?_)⟩
    intro i hi
    apply Raw.overwrite_out hl
    simp only [part, true_and] at hi
    omega

theorem move_spec {s : State} {tk tlo sk slo n : Nat} {mt ms : List Byte} (ht : mem s tk = some mt) (hs : mem s sk = some ms)
    (h1 : tlo + n ≤ mt.length) (h2 : slo + n ≤ ms.length) :
    ∃ s', move s tk tlo sk slo n = .ok s' ∧ mem s' tk = some (Raw.overwrite mt tlo ((ms.drop slo).take n)) ∧
      (∀ j, j ≠ tk → mem s' j = mem s j) ∧ Touch (join (part sk slo n) (part tk tlo n)) (part tk tlo n) s s' := by
  obtain ⟨s1, e1, b1, t1⟩ := rd_spec hs h2
  have hl : ((ms.drop slo).take n).length = n := by simp; omega
  have ht1 : mem s1 tk = some mt := by
    have : mem s1 tk = mem s tk := by unfold mem; rw [b1]
    rw [this]; exact ht
  obtain ⟨s2, e2, a2, o2, t2⟩ := wr_spec (b := (ms.drop slo).take n) ht1 (by rw [hl]; exact h1)
  rw [hl] at t2
  refine ⟨s2, by simp only [move, e1, e2], a2, ?_, ?_⟩
  · intro j hj
    rw [o2 j hj]
    unfold mem
    rw [b1]
  · exact (t1.mono (fun _ _ h => Or.inl h) (fun _ _ h => h.elim)).trans (t2.mono (fun _ _ h => Or.inr h) (fun _ _ h => h))

theorem copy_spec {s : State} {tk tlo sk slo n : Nat} {mt ms : List Byte} (ht : mem s tk = some mt) (hs : mem s sk = some ms)
    (h1 : tlo + n ≤ mt.length) (h2 : slo + n ≤ ms.length) :
    (copy s tk tlo sk slo n = .error .overlap ∧ tk = sk) ∨
    ∃ s', copy s tk tlo sk slo n = .ok s' ∧ mem s' tk = some (Raw.overwrite mt tlo ((ms.drop slo).take n)) ∧
      (∀ j, j ≠ tk → mem s' j = mem s j) ∧ Touch (join (part sk slo n) (part tk tlo n)) (part tk tlo n) s s' := by
  unfold copy
  split
  next h => exact Or.inl ⟨rfl, h.1⟩
  next h => exact Or.inr (move_spec ht hs h1 h2)

/-- A read of an element. -/
theorem getAt_spec {F : Fpu} {s : State} {k pos : Nat} {ty : Ty} {little : Bool} {m : List Byte}
    (hm : mem s k = some m) (hl : pos + ty.size ≤ m.length) :
    (getAt F s k pos ty little = .error .cast ∧ Raw.get F m pos ty little = none) ∨
    ∃ s' v, getAt F s k pos ty little = .ok (s', v) ∧ Raw.get F m pos ty little = some v ∧ s'.blocks = s.blocks ∧
      Touch (part k pos ty.size) nothing s s' := by
  obtain ⟨s1, e1, b1, t1⟩ := rd_spec hm hl
  have hg : Raw.get F ((m.drop pos).take ty.size) 0 ty little = Raw.get F m pos ty little := by
    unfold Raw.get
    have hlen : ((m.drop pos).take ty.size).length = ty.size := by simp; omega
    rw [if_pos hl, if_pos (by omega)]
    simp [List.take_take]
  unfold getAt
  rw [e1]
  simp only [hg]
  cases hv : Raw.get F m pos ty little with
  | none => exact Or.inl ⟨rfl, rfl⟩
  | some v => exact Or.inr ⟨s1, v, rfl, rfl, b1, t1⟩

/-- A write of an element. -/
theorem putAt_spec {F : Fpu} {s : State} {k pos : Nat} {ty : Ty} {x : Val} {little : Bool} {m : List Byte}
    (hm : mem s k = some m) (hl : pos + ty.size ≤ m.length) :
    (putAt F s k pos ty x little = .error .cast ∧ Raw.put F m pos ty x little = none) ∨
    ∃ s' m', putAt F s k pos ty x little = .ok s' ∧ Raw.put F m pos ty x little = some m' ∧ mem s' k = some m' ∧
      (∀ j, j ≠ k → mem s' j = mem s j) ∧ Touch (part k pos ty.size) (part k pos ty.size) s s' := by
  unfold putAt Raw.put
  rw [if_pos hl, if_pos (by simp)]
  cases hz : Raw.store F ty x with
  | none => exact Or.inl ⟨rfl, rfl⟩
  | some z =>
    right
    have hb := Raw.bytes_length little ty.size z
    have ho : Raw.overwrite (List.replicate ty.size 0) 0 (Raw.bytes little ty.size z) = Raw.bytes little ty.size z := by
      simp [Raw.overwrite, hb]
    simp only [ho]
    obtain ⟨s', e, a, o, t⟩ := wr_spec (b := Raw.bytes little ty.size z) hm (by rw [hb]; exact hl)
    rw [hb] at t
    exact ⟨s', _, e, rfl, a, o, t⟩

end Verif.Buffer

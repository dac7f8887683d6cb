import Verif.Lemmas.BufferLoop
/-
The invariant of the states of the buffer operations.
-/
namespace Verif.Buffer
open NumConv Spec
open Raw (Byte Ty Val Fpu)

def usesBlock (k : Nat) (B : Buf) : Bool := decide (B.block = some k)
def sortsBlock (k : Nat) : Frame → Bool
  | .sort j _ _ _ => decide (j = k)
  | _ => false

/-- How many references to a data block there are. -/
def users (s : State) (k : Nat) : Nat := s.bufs.countP (usesBlock k) + s.frames.countP (sortsBlock k)

def IsTyped (s : State) (v : Nat) (V : View) (ty : Ty) : Prop := s.views[v]? = some V ∧ V.ty = some ty
def Att (s : State) (b k L : Nat) : Prop := s.bufs[b]? = some ⟨some k, L⟩

/-- What a suspended operation relies on. -/
def FrameOk (s : State) : Frame → Prop
  | .dvOff b _ => b < s.bufs.length
  | .dvLen b off cap => b < s.bufs.length ∧ off ≤ cap ∧ ∀ k L, Att s b k L → L = cap
  | .dvProto b off n => b < s.bufs.length ∧ ∀ k L, Att s b k L → off + n ≤ L
  | .taBufProto _ b _ => b < s.bufs.length
  | .taBufOff _ b _ => b < s.bufs.length
  | .taBufLen ty b off => b < s.bufs.length ∧ off % ty.size = 0
  | .cwFrom v _ dst => ∃ V ty, IsTyped s v V ty ∧ dst ≤ V.alen
  | .cwEnd v dst frm => ∃ V ty, IsTyped s v V ty ∧ dst ≤ V.alen ∧ frm ≤ V.alen
  | .slEnd v k => ∃ V ty, IsTyped s v V ty ∧ k ≤ V.alen
  | .slSpecies v k final => ∃ V ty, IsTyped s v V ty ∧ k ≤ V.alen ∧ final ≤ V.alen
  | .sort k off n es => ∃ B, s.blocks[k]? = some B ∧ ∀ m, B.mem = some m → off + n * es ≤ m.length
  | .abStart b _ len => b < s.bufs.length ∧ ∀ k L, Att s b k L → L = len
  | .abEnd b len first => b < s.bufs.length ∧ first ≤ len ∧ ∀ k L, Att s b k L → L = len
  | .abSpecies b first n => b < s.bufs.length ∧ ∀ k L, Att s b k L → first + n ≤ L
  | .atStoreVal v i => ∃ V ty, IsTyped s v V ty ∧ i < V.alen
  | .atVal ty _ k pos => ∃ B, s.blocks[k]? = some B ∧ ∀ m, B.mem = some m → pos + ty.size ≤ m.length
  | _ => True

structure Inv (s : State) : Prop where
  live : ∀ (k : Nat) (B : Block), s.blocks[k]? = some B → (B.mem = none ↔ B.refs = 0)
  refs : ∀ (k : Nat) (B : Block), s.blocks[k]? = some B → B.refs = users s k
  buf : ∀ b k L, Att s b k L → ∃ B, s.blocks[k]? = some B ∧ ∀ m, B.mem = some m → m.length = L
  own : ∀ b b' k L L' B, Att s b k L → Att s b' k L' → s.blocks[k]? = some B → B.shared = false → b = b'
  view : ∀ (v : Nat) (V : View), s.views[v]? = some V → V.buf < s.bufs.length ∧
    (∀ ty, V.ty = some ty → V.blen = V.alen * ty.size) ∧ ∀ k L, Att s V.buf k L → V.off + V.blen ≤ L
  frame : ∀ f ∈ s.frames, FrameOk s f

theorem inv_init : Inv init := by
  refine ⟨?_, ?_, ?_, ?_, ?_, ?_⟩ <;> simp [init, Att]

theorem countP_pos_of {α : Type} {p : α → Bool} {l : List α} {i : Nat} {a : α} (h : l[i]? = some a) (hp : p a = true) :
    0 < l.countP p := List.countP_pos_iff.2 ⟨a, List.mem_of_getElem? h, hp⟩

/-- The memory of a buffer which is not detached. -/
theorem Inv.att {s : State} (hI : Inv s) {b k L : Nat} (h : Att s b k L) : ∃ m, mem s k = some m ∧ m.length = L := by
  obtain ⟨B, hB, hl⟩ := hI.buf b k L h
  have hr : B.refs ≠ 0 := by
    rw [hI.refs k B hB]
    have : 0 < s.bufs.countP (usesBlock k) := countP_pos_of h (by simp [usesBlock])
    unfold users
    omega
  cases hm : B.mem with
  | none => exact absurd ((hI.live k B hB).1 hm) hr
  | some m => exact ⟨m, by simp [mem, hB, hm], hl m hm⟩

/-- The memory which is sorted. -/
theorem Inv.sorted {s : State} (hI : Inv s) {k off n es : Nat} (h : Frame.sort k off n es ∈ s.frames) :
    ∃ m, mem s k = some m ∧ off + n * es ≤ m.length := by
  obtain ⟨B, hB, hl⟩ := hI.frame _ h
  have hr : B.refs ≠ 0 := by
    rw [hI.refs k B hB]
    have : 0 < s.frames.countP (sortsBlock k) := List.countP_pos_iff.2 ⟨_, h, by simp [sortsBlock]⟩
    unfold users
    omega
  cases hm : B.mem with
  | none => exact absurd ((hI.live k B hB).1 hm) hr
  | some m => exact ⟨m, by simp [mem, hB, hm], hl m hm⟩

/-- Buffers are only detached, views stay, data blocks keep their length. -/
structure Ext (s s' : State) : Prop where
  len : s.bufs.length ≤ s'.bufs.length
  bufs : ∀ b k L, b < s.bufs.length → Att s' b k L → Att s b k L
  views : ∀ (v : Nat) (V : View), s.views[v]? = some V → s'.views[v]? = some V
  blocks : ∀ (k : Nat) (B : Block), s.blocks[k]? = some B → ∃ B', s'.blocks[k]? = some B' ∧ B'.shared = B.shared ∧
    ∀ m', B'.mem = some m' → ∃ m, B.mem = some m ∧ m'.length = m.length

theorem Ext.refl (s : State) : Ext s s :=
  ⟨Nat.le_refl _, fun _ _ _ _ h => h, fun _ _ h => h, fun _ B h => ⟨B, h, rfl, fun m h => ⟨m, h, rfl⟩⟩⟩

theorem FrameOk.ext {s s' : State} (h : Ext s s') {f : Frame} (hf : FrameOk s f) : FrameOk s' f := by
  have L := h.len
  have ty : ∀ {v V ty}, IsTyped s v V ty → IsTyped s' v V ty := fun ⟨a, b⟩ => ⟨h.views _ _ a, b⟩
  cases f with
  | dvOff | taBufProto | taBufOff => simp only [FrameOk] at hf ⊢; omega
  | dvLen b off cap =>
    obtain ⟨a, c, d⟩ := hf
    exact ⟨by omega, c, fun k L hk => d k L (h.bufs _ _ _ a hk)⟩
  | dvProto b off n =>
    obtain ⟨a, d⟩ := hf
    exact ⟨by omega, fun k L hk => d k L (h.bufs _ _ _ a hk)⟩
  | taBufLen ty b off =>
    obtain ⟨a, d⟩ := hf
    exact ⟨by omega, d⟩
  | abStart b e len =>
    obtain ⟨a, d⟩ := hf
    exact ⟨by omega, fun k L hk => d k L (h.bufs _ _ _ a hk)⟩
  | abEnd b len first =>
    obtain ⟨a, c, d⟩ := hf
    exact ⟨by omega, c, fun k L hk => d k L (h.bufs _ _ _ a hk)⟩
  | abSpecies b first n =>
    obtain ⟨a, d⟩ := hf
    exact ⟨by omega, fun k L hk => d k L (h.bufs _ _ _ a hk)⟩
  | cwFrom | slEnd | atStoreVal =>
    obtain ⟨V, t, a, b⟩ := hf
    exact ⟨V, t, ty a, b⟩
  | cwEnd | slSpecies =>
    obtain ⟨V, t, a, b, c⟩ := hf
    exact ⟨V, t, ty a, b, c⟩
  | sort k off n es =>
    obtain ⟨B, h1, h2⟩ := hf
    obtain ⟨B', h3, -, h4⟩ := h.blocks k B h1
    refine ⟨B', h3, fun m' hm' => ?_⟩
    obtain ⟨m, e1, e2⟩ := h4 m' hm'
    rw [e2]
    exact h2 m e1
  | atVal ty op k pos =>
    obtain ⟨B, h1, h2⟩ := hf
    obtain ⟨B', h3, -, h4⟩ := h.blocks k B h1
    refine ⟨B', h3, fun m' hm' => ?_⟩
    obtain ⟨m, e1, e2⟩ := h4 m' hm'
    rw [e2]
    exact h2 m e1
  | _ => trivial

theorem Touch.ext {R W : Region} {s s' : State} (h : Touch R W s s') : Ext s s' := by
  refine ⟨by rw [h.bufs], fun b k L _ hk => by unfold Att at *; rw [h.bufs] at hk; exact hk, fun v V hV => by rw [h.views]; exact hV, ?_⟩
  intro k B hB
  obtain ⟨B', e1, -, e2, e3, e4⟩ := h.blocks k B hB
  refine ⟨B', e1, e2, fun m' hm' => ?_⟩
  cases hm : B.mem with
  | none => rw [e3 hm] at hm'; cases hm'
  | some m =>
    obtain ⟨m2, a, b, -⟩ := e4 m hm
    rw [a] at hm'
    cases hm'
    exact ⟨m, rfl, b⟩

theorem Touch.block' {R W : Region} {s s' : State} (h : Touch R W s s') {k : Nat} {B' : Block} (hB : s'.blocks[k]? = some B') :
    ∃ B, s.blocks[k]? = some B ∧ B'.refs = B.refs ∧ B'.shared = B.shared ∧ (B'.mem = none ↔ B.mem = none) ∧
      ∀ m', B'.mem = some m' → ∃ m, B.mem = some m ∧ m'.length = m.length := by
  have hk : k < s.blocks.length := by rw [← h.len]; exact (List.getElem?_eq_some_iff.1 hB).1
  obtain ⟨B1, e1, r1, s1, n1, m1⟩ := h.blocks k _ (List.getElem?_eq_getElem hk)
  rw [e1] at hB
  cases hB
  refine ⟨_, List.getElem?_eq_getElem hk, r1, s1, ⟨fun hn => ?_, n1⟩, fun m' hm' => ?_⟩
  · cases hm : (s.blocks[k]).mem with
    | none => rfl
    | some m =>
      obtain ⟨m2, a, -⟩ := m1 m hm
      rw [hn] at a
      cases a
  · cases hm : (s.blocks[k]).mem with
    | none => rw [n1 hm] at hm'; cases hm'
    | some m =>
      obtain ⟨m2, a, b, -⟩ := m1 m hm
      rw [hm'] at a
      cases a
      exact ⟨m, rfl, b⟩

theorem Inv.touch {R W : Region} {s s' : State} (hI : Inv s) (h : Touch R W s s') : Inv s' := by
  have hatt : ∀ b k L, Att s' b k L ↔ Att s b k L := fun b k L => by unfold Att; rw [h.bufs]
  refine ⟨?_, ?_, ?_, ?_, ?_, ?_⟩
  · intro k B' hB'
    obtain ⟨B, e1, e2, e3, e4, -⟩ := h.block' hB'
    rw [e4, e2]
    exact hI.live k B e1
  · intro k B' hB'
    obtain ⟨B, e1, e2, e3, e4, -⟩ := h.block' hB'
    rw [e2, hI.refs k B e1]
    unfold users
    rw [h.bufs, h.frames]
  · intro b k L hb
    obtain ⟨B, a1, a2⟩ := hI.buf b k L ((hatt _ _ _).1 hb)
    obtain ⟨B', b1, -, b2⟩ := h.ext.blocks k B a1
    refine ⟨B', b1, fun m' hm' => ?_⟩
    obtain ⟨m, c1, c2⟩ := b2 m' hm'
    rw [c2]
    exact a2 m c1
  · intro b b' k L L' B' h1 h2 h3 h4
    obtain ⟨B, e1, e2, e3, e4, -⟩ := h.block' h3
    exact hI.own b b' k L L' B ((hatt _ _ _).1 h1) ((hatt _ _ _).1 h2) e1 (by rw [← e3]; exact h4)
  · intro v V hV
    rw [h.views] at hV
    rw [h.bufs]
    obtain ⟨a, b, c⟩ := hI.view v V hV
    exact ⟨a, b, fun k L hk => c k L ((hatt _ _ _).1 hk)⟩
  · intro f hf
    rw [h.frames] at hf
    exact (hI.frame f hf).ext h.ext

/-- Other frames, none of a sort more or less. -/
theorem Inv.frames {s : State} (hI : Inv s) {fs : List Frame} (hc : ∀ k, fs.countP (sortsBlock k) = s.frames.countP (sortsBlock k))
    (hf : ∀ f ∈ fs, FrameOk s f) : Inv { s with frames := fs } := by
  refine ⟨hI.live, ?_, hI.buf, hI.own, hI.view, ?_⟩
  · intro k B hB
    rw [hI.refs k B hB]
    unfold users
    rw [hc]
  · intro f h
    have := hf f h
    exact FrameOk.ext (s := s) ⟨Nat.le_refl _, fun _ _ _ _ h => h, fun _ _ h => h, fun _ B h => ⟨B, h, rfl, fun m h => ⟨m, h, rfl⟩⟩⟩ this

def isSort : Frame → Bool
  | .sort _ _ _ _ => true
  | _ => false

theorem sortsBlock_of {f : Frame} (h : isSort f = false) (k : Nat) : sortsBlock k f = false := by
  cases f <;> first | rfl | cases h

theorem Inv.pop {s : State} {f : Frame} {fs : List Frame} (hI : Inv s) (hs : s.frames = f :: fs) (hf : isSort f = false) :
    Inv { s with frames := fs } ∧ FrameOk { s with frames := fs } f := by
  constructor
  · apply hI.frames
    · intro k
      rw [hs, List.countP_cons_of_neg (by rw [sortsBlock_of hf]; decide)]
    · intro g hg
      exact hI.frame g (by rw [hs]; exact List.mem_cons_of_mem _ hg)
  · have := hI.frame f (by rw [hs]; exact List.mem_cons_self)
    exact FrameOk.ext (s := s) ⟨Nat.le_refl _, fun _ _ _ _ h => h, fun _ _ h => h, fun _ B h => ⟨B, h, rfl, fun m h => ⟨m, h, rfl⟩⟩⟩ this

theorem Inv.push {s : State} {f : Frame} (hI : Inv s) (hf : isSort f = false) (h : FrameOk s f) :
    Inv { s with frames := f :: s.frames } := by
  apply hI.frames
  · intro k
    rw [List.countP_cons_of_neg (by rw [sortsBlock_of hf]; decide)]
  · intro g hg
    rcases List.mem_cons.1 hg with rfl | hg
    · exact h
    · exact hI.frame g hg

theorem Inv.addView {s : State} {V : View} (hI : Inv s) (h1 : V.buf < s.bufs.length)
    (h2 : ∀ ty, V.ty = some ty → V.blen = V.alen * ty.size) (h3 : ∀ k L, Att s V.buf k L → V.off + V.blen ≤ L) :
    Inv { s with views := s.views ++ [V] } := by
  refine ⟨hI.live, hI.refs, hI.buf, hI.own, ?_, ?_⟩
  · intro v V' hV
    simp only [List.getElem?_append] at hV
    split at hV
    · exact hI.view v V' hV
    · have : V' = V := by
        have := List.mem_of_getElem? hV
        simpa using this
      subst this
      exact ⟨h1, h2, h3⟩
  · intro f hf
    refine FrameOk.ext (s := s) (s' := { s with views := s.views ++ [V] }) ⟨Nat.le_refl _, fun _ _ _ _ h => h, fun v V' hV => ?_, fun _ B h => ⟨B, h, rfl, fun m h => ⟨m, h, rfl⟩⟩⟩ (hI.frame f hf)
    have hl := (List.getElem?_eq_some_iff.1 hV).1
    simp only [List.getElem?_append, if_pos hl]
    exact hV

theorem alloc_ext (s : State) (n : Nat) (sh : Bool) : Ext s (alloc s n sh) := by
  refine ⟨by simp [alloc], ?_, fun _ _ h => h, ?_⟩
  · intro b k L hb h
    simp only [Att, alloc, List.getElem?_append, if_pos hb] at h
    exact h
  · intro k B hB
    have hl := (List.getElem?_eq_some_iff.1 hB).1
    exact ⟨B, by simp only [alloc, List.getElem?_append, if_pos hl]; exact hB, rfl, fun m h => ⟨m, h, rfl⟩⟩

/-- The buffers after an allocation. -/
theorem alloc_att {s : State} {n : Nat} {sh : Bool} {b k L : Nat} :
    Att (alloc s n sh) b k L ↔ Att s b k L ∨ (b = s.bufs.length ∧ k = s.blocks.length ∧ L = n) := by
  simp only [Att, alloc, List.getElem?_append]
  by_cases hb : b < s.bufs.length
  · rw [if_pos hb]
    constructor
    · exact Or.inl
    · rintro (h | h)
      · exact h
      · omega
  · rw [if_neg hb]
    constructor
    · intro h
      right
      have h1 := (List.getElem?_eq_some_iff.1 h).1
      simp at h1
      have hb' : b = s.bufs.length := by omega
      subst hb'
      simp at h
      exact ⟨rfl, h.1.symm, h.2.symm⟩
    · rintro (h | ⟨rfl, rfl, rfl⟩)
      · exact absurd (List.getElem?_eq_some_iff.1 h).1 hb
      · simp

theorem countP_zero_of_lt {s : State} (hI : Inv s) {k : Nat} (h : s.blocks.length ≤ k) : users s k = 0 := by
  unfold users
  have h1 : s.bufs.countP (usesBlock k) = 0 := by
    rw [List.countP_eq_zero]
    intro B hB hu
    obtain ⟨i, hi⟩ := List.getElem?_of_mem hB
    obtain ⟨bl, L⟩ := B
    simp [usesBlock] at hu
    subst hu
    obtain ⟨B', hB', -⟩ := hI.buf i k L hi
    have := (List.getElem?_eq_some_iff.1 hB').1
    omega
  have h2 : s.frames.countP (sortsBlock k) = 0 := by
    rw [List.countP_eq_zero]
    intro f hf hu
    cases f with
    | sort j off n es =>
      simp [sortsBlock] at hu
      subst hu
      obtain ⟨B', hB', -⟩ := hI.frame _ hf
      have := (List.getElem?_eq_some_iff.1 hB').1
      omega
    | _ => simp [sortsBlock] at hu
  omega

theorem alloc_block {s : State} {n : Nat} {sh : Bool} {k : Nat} {B : Block} (h : (alloc s n sh).blocks[k]? = some B) :
    s.blocks[k]? = some B ∨ (k = s.blocks.length ∧ B = ⟨1, some (List.replicate n 0), sh⟩) := by
  simp only [alloc, List.getElem?_append] at h
  split at h
  · exact Or.inl h
  · right
    have h1 := (List.getElem?_eq_some_iff.1 h).1
    simp at h1
    have : k = s.blocks.length := by omega
    subst this
    simp at h
    exact ⟨rfl, h.symm⟩

theorem alloc_users (s : State) (n : Nat) (sh : Bool) (k : Nat) :
    users (alloc s n sh) k = users s k + if k = s.blocks.length then 1 else 0 := by
  simp only [users, alloc, List.countP_append, List.countP_cons, List.countP_nil, usesBlock]
  by_cases h : k = s.blocks.length
  · simp [h]; omega
  · have : ¬ (some s.blocks.length = some k) := by intro e; cases e; exact h rfl
    simp [h]
    intro e
    exact absurd e.symm h

theorem Inv.alloc {s : State} (hI : Inv s) (n : Nat) (sh : Bool) : Inv (alloc s n sh) := by
  refine ⟨?_, ?_, ?_, ?_, ?_, ?_⟩
  · intro k B hB
    rcases alloc_block hB with h | ⟨rfl, rfl⟩
    · exact hI.live k B h
    · simp
  · intro k B hB
    rw [alloc_users]
    rcases alloc_block hB with h | ⟨rfl, rfl⟩
    · have := (List.getElem?_eq_some_iff.1 h).1
      rw [if_neg (by omega), hI.refs k B h]
      rfl
    · rw [if_pos rfl, countP_zero_of_lt hI (Nat.le_refl _)]
  · intro b k L hb
    rcases alloc_att.1 hb with h | ⟨rfl, rfl, rfl⟩
    · obtain ⟨B, a1, a2⟩ := hI.buf b k L h
      have hl := (List.getElem?_eq_some_iff.1 a1).1
      exact ⟨B, by simp only [Buffer.alloc, List.getElem?_append, if_pos hl]; exact a1, a2⟩
    · exact ⟨⟨1, some (List.replicate L 0), sh⟩, by simp [Buffer.alloc], fun m hm => by cases hm; simp⟩
  · intro b b' k L L' B h1 h2 h3 h4
    have new : ∀ {b L}, Att s b s.blocks.length L → False := by
      intro b L h
      obtain ⟨B, a1, -⟩ := hI.buf b _ L h
      have := (List.getElem?_eq_some_iff.1 a1).1
      omega
    rcases alloc_att.1 h1 with a | ⟨rfl, rfl, rfl⟩
    · rcases alloc_att.1 h2 with b | ⟨rfl, rfl, rfl⟩
      · rcases alloc_block h3 with c | ⟨rfl, rfl⟩
        · exact hI.own _ _ _ _ _ _ a b c h4
        · exact (new a).elim
      · exact (new a).elim
    · rcases alloc_att.1 h2 with b | ⟨rfl, -, rfl⟩
      · exact (new b).elim
      · rfl
  · intro v V hV
    obtain ⟨a, b, c⟩ := hI.view v V hV
    refine ⟨Nat.lt_of_lt_of_le a (alloc_ext s n sh).len, b, fun k L hk => ?_⟩
    exact c k L ((alloc_ext s n sh).bufs _ _ _ a hk)
  · intro f hf
    exact (hI.frame f hf).ext (alloc_ext s n sh)

theorem alloc_mem_old {s : State} {n : Nat} {sh : Bool} {k : Nat} {m : List Byte} (h : mem s k = some m) : mem (alloc s n sh) k = some m := by
  obtain ⟨B, h1, h2⟩ := mem_some h
  have hl := (List.getElem?_eq_some_iff.1 h1).1
  simp only [mem, alloc, List.getElem?_append, if_pos hl, h1, h2]

theorem alloc_mem_new (s : State) (n : Nat) (sh : Bool) : mem (alloc s n sh) s.blocks.length = some (List.replicate n 0) := by
  simp [mem, alloc]

end Verif.Buffer

import Verif.Spec.LinkedList
import Mathlib.Data.List.Nodup
/-
Helper lemmas for the linked lists.
-/
namespace Verif.LinkedList

/-- From node `a` along the nodes `xs` to node `b`. -/
def Seg (h : Heap) : Nat → List Nat → Nat → Prop
  | a, [], b => h.next a = b ∧ h.prev b = a
  | a, x :: xs, b => h.next a = x ∧ h.prev x = a ∧ Seg h x xs b

theorem seg_append {h : Heap} {a b : Nat} {xs ys : List Nat} {y : Nat} :
    Seg h a (xs ++ y :: ys) b ↔ Seg h a xs y ∧ Seg h y ys b := by
  induction xs generalizing a with
  | nil => simp [Seg, and_assoc]
  | cons x xs ih => simp [Seg, ih, and_assoc]

theorem seg_congr {h h' : Heap} {a b : Nat} {xs : List Nat}
    (hn : ∀ x ∈ a :: xs, h'.next x = h.next x) (hp : ∀ x ∈ b :: xs, h'.prev x = h.prev x)
    (hs : Seg h a xs b) : Seg h' a xs b := by
  induction xs generalizing a with
  | nil =>
    simp only [Seg] at hs ⊢
    rw [hn a (by simp), hp b (by simp)]
    exact hs
  | cons x xs ih =>
    simp only [Seg] at hs ⊢
    rw [hn a (by simp), hp x (by simp)]
    refine ⟨hs.1, hs.2.1, ih ?_ ?_ hs.2.2⟩
    · intro y hy; exact hn y (List.mem_cons_of_mem _ hy)
    · intro y hy
      apply hp y
      rcases List.mem_cons.1 hy with rfl | hy
      · simp
      · simp [hy]

/-- The relation between memory and sequences. -/
structure Rel (h : Heap) (m : Spec.World) : Prop where
  seg : ∀ l xs, m l = some xs → Seg h l xs l
  nodup : ∀ l xs, m l = some xs → (l :: xs).Nodup
  disj : ∀ l xs l' xs', m l = some xs → m l' = some xs' → l ≠ l' →
    ∀ a ∈ l :: xs, a ∉ l' :: xs'

theorem rel_empty (h : Heap) : Rel h (fun _ => none) :=
  ⟨by intro _ _ h; simp at h, by intro _ _ h; simp at h, by intro _ _ _ _ h; simp at h⟩

theorem last_cases (xs : List Nat) : xs = [] ∨ ∃ ys y, xs = ys ++ [y] := by
  rcases List.eq_nil_or_concat xs with h | ⟨ys, y, h⟩
  · exact Or.inl h
  · exact Or.inr ⟨ys, y, by simpa using h⟩

theorem seg_init {h : Heap} {l : Nat} : Seg (init h l) l [] l := by
  simp [Seg, init, Heap.setNext, Heap.setPrev]

theorem seg_appendNode {h : Heap} {l n : Nat} {xs : List Nat} (hs : Seg h l xs l)
    (hnd : (l :: xs).Nodup) (hn : n ∉ l :: xs) : Seg (append h l n) l (xs ++ [n]) l := by
  rw [show xs ++ [n] = xs ++ n :: [] from rfl, seg_append]
  simp only [List.mem_cons, not_or] at hn
  rcases last_cases xs with rfl | ⟨ys, y, rfl⟩
  · simp only [Seg] at hs ⊢
    have h1 : l ≠ n := fun e => hn.1 e.symm
    simp [append, Heap.setNext, Heap.setPrev, h1, hs.2, hn.1]
  · rw [show ys ++ [y] = ys ++ y :: [] from rfl, seg_append] at hs ⊢
    obtain ⟨hs1, hs2⟩ := hs
    simp only [Seg] at hs2
    simp only [List.nodup_cons, List.mem_append, List.mem_singleton, not_or,
      List.nodup_append] at hnd
    have hnl : n ≠ l := hn.1
    have hny : n ≠ y := by intro e; exact hn.2 (by simp [e])
    have hly : l ≠ y := hnd.1.2
    refine ⟨⟨seg_congr ?_ ?_ hs1, ?_⟩, ?_⟩
    · intro x hx
      have hxn : x ≠ n := by
        rintro rfl
        rcases List.mem_cons.1 hx with h | h
        · exact hnl h
        · exact hn.2 (by simp [h])
      have hxy : x ≠ y := by
        rintro rfl
        rcases List.mem_cons.1 hx with h | h
        · exact hly h.symm
        · exact hnd.2.2.2 x h x (by simp) rfl
      simp [append, Heap.setNext, Heap.setPrev, hxn, hnl.symm, hs2.2, hxy]
    · intro x hx
      have hxn : x ≠ n := by
        rintro rfl
        rcases List.mem_cons.1 hx with h | h
        · exact hny h
        · exact hn.2 (by simp [h])
      have hxl : x ≠ l := by
        rintro rfl
        rcases List.mem_cons.1 hx with h | h
        · exact hly h
        · exact hnd.1.1 h
      simp [append, Heap.setNext, Heap.setPrev, hxn, hxl]
    · simp [Seg, append, Heap.setNext, Heap.setPrev, hnl, hnl.symm, hs2.2]
    · simp [Seg, append, Heap.setNext, Heap.setPrev, hnl.symm, hs2.2, hny]

theorem seg_prependNode {h : Heap} {l n : Nat} {xs : List Nat} (hs : Seg h l xs l)
    (hnd : (l :: xs).Nodup) (hn : n ∉ l :: xs) : Seg (prepend h l n) l (n :: xs) l := by
  simp only [List.mem_cons, not_or] at hn
  have hnl : n ≠ l := hn.1
  cases xs with
  | nil =>
    simp only [Seg] at hs ⊢
    simp [prepend, Heap.setNext, Heap.setPrev, hnl, hnl.symm, hs.1]
  | cons x xs =>
    simp only [Seg] at hs
    simp only [List.nodup_cons, List.mem_cons, not_or] at hnd
    have hnx : n ≠ x := fun e => hn.2 (by simp [e])
    have hlx : l ≠ x := hnd.1.1
    refine ⟨?_, ?_, ?_, ?_, seg_congr ?_ ?_ hs.2.2⟩
    · simp [prepend, Heap.setNext, Heap.setPrev]
    · simp [prepend, Heap.setNext, Heap.setPrev, hnl.symm, hs.1, hnx]
    · simp [prepend, Heap.setNext, Heap.setPrev, hnl, hnl.symm, hs.1]
    · simp [prepend, Heap.setNext, Heap.setPrev, hnl.symm, hs.1]
    · intro y hy
      have h1 : y ≠ n := by rintro rfl; exact hn.2 hy
      have h2 : y ≠ l := by
        rintro rfl
        rcases List.mem_cons.1 hy with h | h
        · exact hlx h
        · exact hnd.1.2 h
      simp [prepend, Heap.setNext, Heap.setPrev, h1, h2]
    · intro y hy
      have h1 : y ≠ n := by
        rintro rfl
        rcases List.mem_cons.1 hy with h | h
        · exact hnl h
        · exact hn.2 (by simp [h])
      have h2 : y ≠ x := by
        rintro rfl
        rcases List.mem_cons.1 hy with h | h
        · exact hlx h.symm
        · exact hnd.2.1 h
      simp [prepend, Heap.setNext, Heap.setPrev, h1, h2, hnl.symm, hs.1]

/-- Predecessor and successor of a node of a list. -/
theorem seg_split_node {h : Heap} {a b n : Nat} {ys zs : List Nat}
    (hs : Seg h a (ys ++ n :: zs) b) :
    h.prev n = (a :: ys).getLast (by simp) ∧ h.next n = (zs ++ [b]).head (by simp) := by
  rw [seg_append] at hs
  constructor
  · rcases last_cases ys with rfl | ⟨ys, y, rfl⟩
    · exact hs.1.2
    · have := hs.1
      rw [show ys ++ [y] = ys ++ y :: [] from rfl, seg_append] at this
      rw [this.2.2]
      simp
  · cases zs with
    | nil => exact hs.2.1
    | cons z zs => exact hs.2.1

theorem seg_removeNode {h : Heap} {l n : Nat} {ys zs : List Nat}
    (hs : Seg h l (ys ++ n :: zs) l) (hnd : (l :: (ys ++ n :: zs)).Nodup) :
    Seg (remove h n) l (ys ++ zs) l := by
  obtain ⟨hp, hx⟩ := seg_split_node hs
  have hpn : h.prev n ≠ n := by
    rw [hp]
    intro e
    have hm : n ∈ l :: ys := by
      have := List.getLast_mem (l := l :: ys) (by simp)
      rwa [e] at this
    rw [show l :: (ys ++ n :: zs) = (l :: ys) ++ n :: zs from rfl, List.nodup_append] at hnd
    exact hnd.2.2 n hm n (by simp) rfl
  have hxn : h.next n ≠ n := by
    rw [hx]
    intro e
    have hm : n ∈ zs ++ [l] := by
      have := List.head_mem (l := zs ++ [l]) (by simp)
      rwa [e] at this
    simp only [List.nodup_cons, List.nodup_append, List.mem_append, List.mem_cons, not_or] at hnd
    rcases List.mem_append.1 hm with hm | hm
    · exact hnd.2.2.1.1 hm
    · rw [List.mem_singleton] at hm; exact hnd.1.2.1 hm.symm
  -- the new pointers
  have hN : ∀ a, (remove h n).next a = if a = h.prev n then h.next n else h.next a := by
    intro a
    simp [remove, Heap.setNext, Heap.setPrev]
  have hP : ∀ a, (remove h n).prev a = if a = h.next n then h.prev n else h.prev a := by
    intro a
    simp [remove, Heap.setNext, Heap.setPrev]
  rw [seg_append] at hs
  -- cut before the predecessor and after the successor
  rcases last_cases ys with rfl | ⟨ys, p, rfl⟩
  · cases zs with
    | nil =>
      simp only [List.getLast_singleton, List.nil_append, List.head_cons] at hp hx
      simp [Seg, hN, hP, hp, hx]
    | cons z zs =>
      simp only [List.getLast_singleton, List.cons_append, List.head_cons] at hp hx
      simp only [List.nil_append, List.nodup_cons, List.mem_cons, not_or] at hnd
      refine ⟨by simp [hN, hp, hx], by simp [hP, hp, hx], seg_congr ?_ ?_ hs.2.2.2⟩
      · intro y hy
        rw [hN, hp, if_neg]
        rintro rfl
        rcases List.mem_cons.1 hy with h | h
        · exact hnd.1.2.1 h
        · exact hnd.1.2.2 h
      · intro y hy
        rw [hP, hx, if_neg]
        rintro rfl
        rcases List.mem_cons.1 hy with h | h
        · exact hnd.1.2.1 h.symm
        · exact hnd.2.2.1 h
  · rw [show ys ++ [p] = ys ++ p :: [] from rfl, seg_append] at hs
    have hp' : h.prev n = p := by rw [hp]; simp
    rw [show ys ++ [p] ++ zs = ys ++ p :: zs from by simp, seg_append]
    rw [show l :: (ys ++ [p] ++ n :: zs) = l :: (ys ++ p :: n :: zs) from by simp] at hnd
    cases zs with
    | nil =>
      simp only [List.nil_append, List.head_cons] at hx
      simp only [List.nodup_cons, List.nodup_append, List.mem_append, List.mem_cons, not_or] at hnd
      refine ⟨seg_congr ?_ ?_ hs.1.1, by simp [hN, hp', hx], by simp [hP, hp', hx]⟩
      · intro y hy
        rw [hN, hp', if_neg]
        rintro rfl
        rcases List.mem_cons.1 hy with h | h
        · exact hnd.1.2.1 h.symm
        · exact hnd.2.2.2 _ h _ (Or.inl rfl) rfl
      · intro y hy
        rw [hP, hx, if_neg]
        rintro rfl
        rcases List.mem_cons.1 hy with h | h
        · exact hnd.1.2.1 h
        · exact hnd.1.1 h
    | cons z zs =>
      simp only [List.cons_append, List.head_cons] at hx
      simp only [List.nodup_cons, List.nodup_append, List.mem_append, List.mem_cons, not_or] at hnd
      refine ⟨seg_congr ?_ ?_ hs.1.1, by simp [hN, hp', hx], by simp [hP, hp', hx],
        seg_congr ?_ ?_ hs.2.2.2⟩
      · intro y hy
        rw [hN, hp', if_neg]
        rintro rfl
        rcases List.mem_cons.1 hy with h | h
        · exact hnd.1.2.1 h.symm
        · exact hnd.2.2.2 _ h _ (Or.inl rfl) rfl
      · intro y hy
        rw [hP, hx, if_neg]
        rintro rfl
        rcases List.mem_cons.1 hy with h | h
        · exact hnd.2.2.1.1.2.1 h.symm
        · exact hnd.2.2.2 _ h _ (Or.inr (Or.inr (Or.inl rfl))) rfl
      · intro y hy
        rw [hN, hp', if_neg]
        rintro rfl
        rcases List.mem_cons.1 hy with h | h
        · exact hnd.2.2.1.1.2.1 h
        · exact hnd.2.2.1.1.2.2 h
      · intro y hy
        rw [hP, hx, if_neg]
        rintro rfl
        rcases List.mem_cons.1 hy with h | h
        · exact hnd.1.2.2.2.1 h.symm
        · exact hnd.2.2.1.2.2.1 h

/-- First and last node of a list, seen from the head. -/
theorem seg_ends {h : Heap} {l : Nat} {xs : List Nat} (hs : Seg h l xs l) :
    h.next l = (xs ++ [l]).head (by simp) ∧ h.prev l = (l :: xs).getLast (by simp) := by
  constructor
  · cases xs with
    | nil => exact hs.1
    | cons x xs => exact hs.1
  · rcases last_cases xs with rfl | ⟨ys, y, rfl⟩
    · exact hs.2
    · rw [show ys ++ [y] = ys ++ y :: [] from rfl, seg_append] at hs
      rw [hs.2.2]
      simp

/-- Reuse a segment with another end. -/
theorem seg_retarget {h h' : Heap} {a b b' : Nat} {xs : List Nat} (hs : Seg h a xs b)
    (hn : ∀ x ∈ (a :: xs).dropLast, h'.next x = h.next x)
    (hp : ∀ x ∈ xs, h'.prev x = h.prev x)
    (h1 : h'.next ((a :: xs).getLast (by simp)) = b')
    (h2 : h'.prev b' = (a :: xs).getLast (by simp)) : Seg h' a xs b' := by
  induction xs generalizing a with
  | nil => exact ⟨h1, h2⟩
  | cons x xs ih =>
    simp only [Seg] at hs ⊢
    have hd : (a :: x :: xs).dropLast = a :: (x :: xs).dropLast := rfl
    rw [hd] at hn
    refine ⟨by rw [hn a (by simp)]; exact hs.1, by rw [hp x (by simp)]; exact hs.2.1,
      ih hs.2.2 ?_ ?_ ?_ ?_⟩
    · intro y hy; exact hn y (List.mem_cons_of_mem _ hy)
    · intro y hy; exact hp y (List.mem_cons_of_mem _ hy)
    · simpa using h1
    · simpa using h2

theorem getLast_not_mem_dropLast {xs : List Nat} (hnd : xs.Nodup) (hne : xs ≠ []) :
    xs.getLast hne ∉ xs.dropLast := by
  conv at hnd => rw [← List.dropLast_append_getLast hne]
  rw [List.nodup_append] at hnd
  intro hm
  exact hnd.2.2 _ hm _ (by simp) rfl

theorem isEmpty_iff {h : Heap} {l : Nat} {xs : List Nat} (hs : Seg h l xs l)
    (hnd : (l :: xs).Nodup) : isEmpty h l = true ↔ xs = [] := by
  unfold isEmpty
  rw [beq_iff_eq, (seg_ends hs).1]
  cases xs with
  | nil => simp
  | cons x xs =>
    simp only [List.nodup_cons, List.mem_cons, not_or] at hnd
    simp
    exact fun e => hnd.1.1 e.symm

theorem seg_join {h : Heap} {l1 l2 z : Nat} {xs zs : List Nat} (hs1 : Seg h l1 xs l1)
    (hs2 : Seg h l2 (z :: zs) l2) (hnd1 : (l1 :: xs).Nodup) (hnd2 : (l2 :: z :: zs).Nodup)
    (hd : ∀ a ∈ l1 :: xs, a ∉ l2 :: z :: zs) :
    Seg (join h l1 l2) l1 (xs ++ z :: zs) l1 := by
  have hne : ¬ isEmpty h l2 = true := by
    rw [isEmpty_iff hs2 hnd2]; simp
  obtain ⟨_, hp1⟩ := seg_ends hs1
  obtain ⟨hn2, hp2⟩ := seg_ends hs2
  simp only [List.cons_append, List.head_cons] at hn2
  have ht1 : h.prev l1 ∈ l1 :: xs := by rw [hp1]; exact List.getLast_mem _
  have hp2' : h.prev l2 = (z :: zs).getLast (by simp) := by rw [hp2]; simp
  have ht2 : h.prev l2 ∈ z :: zs := by rw [hp2']; exact List.getLast_mem _
  have hzl : z ≠ l1 := fun e => hd l1 (by simp) (by simp [e])
  have htt : h.prev l2 ≠ h.prev l1 := fun e => hd _ ht1 (by rw [← e]; exact List.mem_cons_of_mem _ ht2)
  have hN : ∀ a, (join h l1 l2).next a =
      if a = h.prev l2 then l1 else if a = h.prev l1 then z else h.next a := by
    intro a; simp [join, hne, Heap.setNext, Heap.setPrev, hn2]
  have hP : ∀ a, (join h l1 l2).prev a =
      if a = z then h.prev l1 else if a = l1 then h.prev l2 else h.prev a := by
    intro a; simp [join, hne, Heap.setNext, Heap.setPrev, hn2]
  rw [seg_append]
  constructor
  · refine seg_retarget hs1 ?_ ?_ ?_ ?_
    · intro x hx
      have hm := List.dropLast_subset _ hx
      rw [hN, if_neg, if_neg]
      · rw [hp1]; rintro rfl; exact getLast_not_mem_dropLast hnd1 _ hx
      · rintro rfl; exact hd _ hm (List.mem_cons_of_mem _ ht2)
    · intro x hx
      rw [hP, if_neg, if_neg]
      · rintro rfl; exact (List.nodup_cons.1 hnd1).1 hx
      · rintro rfl; exact hd _ (List.mem_cons_of_mem _ hx) (by simp)
    · rw [← hp1, hN, if_neg (fun e => htt e.symm), if_pos rfl]
    · rw [← hp1, hP, if_pos rfl]
  · refine seg_retarget hs2.2.2 ?_ ?_ ?_ ?_
    · intro x hx
      have hm := List.dropLast_subset _ hx
      rw [hN, if_neg, if_neg]
      · rintro rfl; exact hd _ ht1 (List.mem_cons_of_mem _ hm)
      · rw [hp2']; rintro rfl
        exact getLast_not_mem_dropLast (List.nodup_cons.1 hnd2).2 _ hx
    · intro x hx
      simp only [List.nodup_cons] at hnd2
      rw [hP, if_neg, if_neg]
      · rintro rfl; exact hd _ (List.mem_cons_self ..) (by simp [hx])
      · rintro rfl; exact hnd2.2.1 hx
    · rw [← hp2', hN, if_pos rfl]
    · rw [← hp2', hP, if_neg hzl.symm, if_pos rfl]

/-- The heaps agree outside of `T`. -/
def SameOff (T : Nat → Prop) (h h' : Heap) : Prop :=
  ∀ a, ¬ T a → h'.next a = h.next a ∧ h'.prev a = h.prev a

theorem seg_sameOff {T : Nat → Prop} {h h' : Heap} (hso : SameOff T h h') {l : Nat}
    {xs : List Nat} (hs : Seg h l xs l) (hT : ∀ a ∈ l :: xs, ¬ T a) : Seg h' l xs l :=
  seg_congr (fun x hx => (hso x (hT x hx)).1) (fun x hx => (hso x (hT x hx)).2) hs

theorem sameOff_init (h : Heap) (l : Nat) : SameOff (· = l) h (init h l) := by
  intro a ha
  simp at ha
  simp [init, Heap.setNext, Heap.setPrev, ha]

theorem sameOff_append {h : Heap} {l n : Nat} {xs : List Nat} (hs : Seg h l xs l)
    (hn : n ∉ l :: xs) : SameOff (fun a => a = n ∨ a ∈ l :: xs) h (append h l n) := by
  intro a ha
  simp only [not_or] at ha
  have hp : h.prev l ∈ l :: xs := by rw [(seg_ends hs).2]; exact List.getLast_mem _
  have h1 : a ≠ h.prev l := by rintro rfl; exact ha.2 hp
  have h2 : a ≠ l := by rintro rfl; exact ha.2 (by simp)
  have h3 : l ≠ n := by rintro rfl; exact hn (by simp)
  simp [append, Heap.setNext, Heap.setPrev, ha.1, h1, h2, h3]

theorem sameOff_prepend {h : Heap} {l n : Nat} {xs : List Nat} (hs : Seg h l xs l)
    (hn : n ∉ l :: xs) : SameOff (fun a => a = n ∨ a ∈ l :: xs) h (prepend h l n) := by
  intro a ha
  simp only [not_or] at ha
  have hp : h.next l ∈ l :: xs := by
    rw [(seg_ends hs).1]
    have := List.head_mem (l := xs ++ [l]) (by simp)
    simp only [List.mem_append, List.mem_singleton] at this
    simp only [List.mem_cons]
    tauto
  have h1 : a ≠ h.next l := by rintro rfl; exact ha.2 hp
  have h2 : a ≠ l := by rintro rfl; exact ha.2 (by simp)
  have h3 : l ≠ n := by rintro rfl; exact hn (by simp)
  simp [prepend, Heap.setNext, Heap.setPrev, ha.1, h1, h2, h3]

theorem neighbours_mem {h : Heap} {l n : Nat} {xs : List Nat} (hs : Seg h l xs l) (hn : n ∈ xs) :
    h.prev n ∈ l :: xs ∧ h.next n ∈ l :: xs := by
  obtain ⟨ys, zs, rfl⟩ := List.append_of_mem hn
  obtain ⟨hp, hx⟩ := seg_split_node hs
  constructor
  · rw [hp]
    have := List.getLast_mem (l := l :: ys) (by simp)
    simp only [List.mem_cons, List.mem_append] at this ⊢
    tauto
  · rw [hx]
    have := List.head_mem (l := zs ++ [l]) (by simp)
    simp only [List.mem_append, List.mem_singleton, List.mem_cons] at this ⊢
    tauto

theorem sameOff_remove {h : Heap} {l n : Nat} {xs : List Nat} (hs : Seg h l xs l)
    (hn : n ∈ xs) : SameOff (· ∈ l :: xs) h (remove h n) := by
  intro a ha
  obtain ⟨hp, hx⟩ := neighbours_mem hs hn
  have h1 : a ≠ h.prev n := by rintro rfl; exact ha hp
  have h2 : a ≠ h.next n := by rintro rfl; exact ha hx
  simp [remove, Heap.setNext, Heap.setPrev, h1, h2]

theorem sameOff_join {h : Heap} {l1 l2 : Nat} {xs ys : List Nat} (hs1 : Seg h l1 xs l1)
    (hs2 : Seg h l2 ys l2) :
    SameOff (fun a => a ∈ l1 :: xs ∨ a ∈ l2 :: ys) h (join h l1 l2) := by
  intro a ha
  simp only [not_or] at ha
  unfold join
  split
  · exact ⟨rfl, rfl⟩
  · have e1 : h.prev l1 ∈ l1 :: xs := by rw [(seg_ends hs1).2]; exact List.getLast_mem _
    have e2 : h.prev l2 ∈ l2 :: ys := by rw [(seg_ends hs2).2]; exact List.getLast_mem _
    have e3 : h.next l2 ∈ l2 :: ys := by
      rw [(seg_ends hs2).1]
      have := List.head_mem (l := ys ++ [l2]) (by simp)
      simp only [List.mem_append, List.mem_singleton] at this
      simp only [List.mem_cons]
      tauto
    have h1 : a ≠ h.prev l1 := by rintro rfl; exact ha.1 e1
    have h2 : a ≠ h.prev l2 := by rintro rfl; exact ha.2 e2
    have h3 : a ≠ h.next l2 := by rintro rfl; exact ha.2 e3
    have h4 : a ≠ l1 := by rintro rfl; exact ha.1 (by simp)
    simp [Heap.setNext, Heap.setPrev, h1, h2, h3, h4]

theorem filter_ne_append {ys zs : List Nat} {n : Nat} (hnd : (ys ++ n :: zs).Nodup) :
    (ys ++ n :: zs).filter (· ≠ n) = ys ++ zs := by
  rw [List.nodup_append] at hnd
  rw [List.filter_append, List.filter_cons_of_neg (by simp), List.filter_eq_self.2,
    List.filter_eq_self.2]
  · intro a ha
    simp
    rintro rfl
    exact (List.nodup_cons.1 hnd.2.1).1 ha
  · intro a ha
    simp
    rintro rfl
    exact hnd.2.2 _ ha _ (by simp) rfl

/-- Adding a fresh node to one list keeps the lists apart. -/
theorem rel_update {h h' : Heap} {m : Spec.World} (hr : Rel h m) {l n : Nat} {xs xs' : List Nat}
    (hl : m l = some xs) (hn : ¬ Spec.Used m n)
    (hmem : ∀ a, a ∈ xs' ↔ a = n ∨ a ∈ xs) (hnd : (l :: xs').Nodup)
    (hseg : Seg h' l xs' l) (hso : SameOff (fun a => a = n ∨ a ∈ l :: xs) h h') :
    Rel h' (fun a => if a = l then some xs' else m a) := by
  have hout : ∀ l' ys, m l' = some ys → l' ≠ l → ∀ a ∈ l' :: ys, a ≠ n ∧ a ∉ l :: xs := by
    intro l' ys hy hne a ha
    refine ⟨?_, hr.disj l' ys l xs hy hl hne a ha⟩
    rintro rfl
    exact hn ⟨l', ys, hy, ha⟩
  refine ⟨?_, ?_, ?_⟩
  · intro l' ys hy
    by_cases e : l' = l
    · subst e; simp at hy; subst hy; exact hseg
    · simp [e] at hy
      refine seg_sameOff hso (hr.seg l' ys hy) ?_
      intro a ha
      have := hout l' ys hy e a ha
      simp only [not_or]
      exact this
  · intro l' ys hy
    by_cases e : l' = l
    · subst e; simp at hy; subst hy; exact hnd
    · simp [e] at hy; exact hr.nodup l' ys hy
  · intro l1 ys1 l2 ys2 h1 h2 hne a ha hb
    by_cases e1 : l1 = l
    · have e2 : l2 ≠ l := fun e => hne (e1.trans e.symm)
      subst e1
      simp at h1
      subst h1
      simp [e2] at h2
      have := hout l2 ys2 h2 e2 a hb
      simp only [List.mem_cons, hmem] at ha
      simp only [List.mem_cons, not_or] at this
      tauto
    · simp [e1] at h1
      by_cases e2 : l2 = l
      · subst e2
        simp at h2
        subst h2
        have := hout l1 ys1 h1 e1 a ha
        simp only [List.mem_cons, hmem] at hb
        simp only [List.mem_cons, not_or] at this
        tauto
      · simp [e2] at h2
        exact hr.disj l1 ys1 l2 ys2 h1 h2 hne a ha hb

theorem step_rel {h : Heap} {m : Spec.World} (hr : Rel h m) (o : Op) (hp : Spec.Pre m o) :
    Rel (step h o) (Spec.step m o) := by
  cases o with
  | init l =>
    simp only [Spec.Pre] at hp
    have hml : ∀ xs, m l ≠ some xs := fun xs e => hp ⟨l, xs, e, by simp⟩
    have hout : ∀ l' ys, m l' = some ys → ∀ a ∈ l' :: ys, a ≠ l := by
      rintro l' ys hy a ha rfl
      exact hp ⟨l', ys, hy, ha⟩
    refine ⟨?_, ?_, ?_⟩
    · intro l' ys hy
      by_cases e : l' = l
      · subst e
        simp [Spec.step] at hy
        subst hy
        exact seg_init
      · simp [Spec.step, e] at hy
        exact seg_sameOff (sameOff_init h l) (hr.seg l' ys hy) (hout l' ys hy)
    · intro l' ys hy
      by_cases e : l' = l
      · subst e
        simp [Spec.step] at hy
        subst hy
        simp
      · simp [Spec.step, e] at hy
        exact hr.nodup l' ys hy
    · intro l1 ys1 l2 ys2 h1 h2 hne a ha hb
      by_cases e1 : l1 = l
      · have e2 : l2 ≠ l := fun e => hne (e1.trans e.symm)
        subst e1
        simp [Spec.step] at h1
        subst h1
        simp [Spec.step, e2] at h2
        simp at ha
        exact hout l2 ys2 h2 a hb ha
      · simp [Spec.step, e1] at h1
        by_cases e2 : l2 = l
        · subst e2
          simp [Spec.step] at h2
          subst h2
          simp at hb
          exact hout l1 ys1 h1 a ha hb
        · simp [Spec.step, e2] at h2
          exact hr.disj l1 ys1 l2 ys2 h1 h2 hne a ha hb
  | append l n =>
    obtain ⟨hl, hn⟩ := hp
    obtain ⟨xs, hxs⟩ := Option.isSome_iff_exists.1 hl
    have hn' : n ∉ l :: xs := fun hm => hn ⟨l, xs, hxs, hm⟩
    have hnd := hr.nodup l xs hxs
    have hw : Spec.step m (.append l n) = fun a => if a = l then some (xs ++ [n]) else m a := by
      funext a
      by_cases e : a = l
      · subst e; simp [Spec.step, hxs]
      · simp [Spec.step, e]
    rw [hw]
    refine rel_update hr hxs hn (by simp [or_comm]) ?_ (seg_appendNode (hr.seg l xs hxs) hnd hn')
      (sameOff_append (hr.seg l xs hxs) hn')
    rw [← List.cons_append, List.nodup_append]
    refine ⟨hnd, by simp, ?_⟩
    intro a ha b hb
    simp at hb
    subst hb
    rintro rfl
    exact hn' ha
  | prepend l n =>
    obtain ⟨hl, hn⟩ := hp
    obtain ⟨xs, hxs⟩ := Option.isSome_iff_exists.1 hl
    have hn' : n ∉ l :: xs := fun hm => hn ⟨l, xs, hxs, hm⟩
    have hnd := hr.nodup l xs hxs
    have hw : Spec.step m (.prepend l n) = fun a => if a = l then some (n :: xs) else m a := by
      funext a
      by_cases e : a = l
      · subst e; simp [Spec.step, hxs]
      · simp [Spec.step, e]
    rw [hw]
    refine rel_update hr hxs hn (by simp) ?_ (seg_prependNode (hr.seg l xs hxs) hnd hn')
      (sameOff_prepend (hr.seg l xs hxs) hn')
    simp only [List.nodup_cons, List.mem_cons, not_or] at hnd hn' ⊢
    exact ⟨⟨fun e => hn'.1 e.symm, hnd.1⟩, hn'.2, hnd.2⟩
  | remove n =>
    obtain ⟨l, xs, hxs, hn⟩ := hp
    have hnd := hr.nodup l xs hxs
    have hsub : ∀ l' ys, Spec.step m (.remove n) l' = some ys →
        ∃ zs, m l' = some zs ∧ ys = zs.filter (· ≠ n) := by
      intro l' ys hy
      simp only [Spec.step, Option.map_eq_some_iff] at hy
      obtain ⟨zs, h1, h2⟩ := hy
      exact ⟨zs, h1, h2.symm⟩
    refine ⟨?_, ?_, ?_⟩
    · intro l' ys hy
      obtain ⟨zs, hz, rfl⟩ := hsub l' ys hy
      by_cases e : l' = l
      · subst e
        rw [hxs] at hz
        cases hz
        obtain ⟨as, bs, rfl⟩ := List.append_of_mem hn
        rw [filter_ne_append (List.nodup_cons.1 hnd).2]
        exact seg_removeNode (hr.seg _ _ hxs) hnd
      · have hd := hr.disj l' zs l xs hz hxs e
        have : zs.filter (· ≠ n) = zs := by
          rw [List.filter_eq_self]
          intro a ha
          simp
          rintro rfl
          exact hd _ (List.mem_cons_of_mem _ ha) (List.mem_cons_of_mem _ hn)
        rw [this]
        exact seg_sameOff (sameOff_remove (hr.seg l xs hxs) hn) (hr.seg l' zs hz) hd
    · intro l' ys hy
      obtain ⟨zs, hz, rfl⟩ := hsub l' ys hy
      have := hr.nodup l' zs hz
      exact this.sublist (List.Sublist.cons_cons l' List.filter_sublist)
    · intro l1 ys1 l2 ys2 h1 h2 hne a ha hb
      obtain ⟨zs1, hz1, rfl⟩ := hsub l1 ys1 h1
      obtain ⟨zs2, hz2, rfl⟩ := hsub l2 ys2 h2
      refine hr.disj l1 zs1 l2 zs2 hz1 hz2 hne a ?_ ?_
      · exact (List.Sublist.cons_cons l1 List.filter_sublist).subset ha
      · exact (List.Sublist.cons_cons l2 List.filter_sublist).subset hb
  | join l1 l2 =>
    obtain ⟨hl1, hl2, hne⟩ := hp
    obtain ⟨xs, hxs⟩ := Option.isSome_iff_exists.1 hl1
    obtain ⟨ys, hys⟩ := Option.isSome_iff_exists.1 hl2
    have hs1 := hr.seg l1 xs hxs
    have hs2 := hr.seg l2 ys hys
    have hnd1 := hr.nodup l1 xs hxs
    have hnd2 := hr.nodup l2 ys hys
    have hd := hr.disj l1 xs l2 ys hxs hys hne
    cases ys with
    | nil =>
      have e : isEmpty h l2 = true := (isEmpty_iff hs2 hnd2).2 rfl
      have hw : Spec.step m (.join l1 l2) = m := by
        funext a
        by_cases ea : a = l1
        · subst ea; simp [Spec.step, hys, hxs]
        · simp [Spec.step, ea, hys]
      rw [hw]
      simpa [step, join, e] using hr
    | cons z zs =>
      have hout : ∀ l' ws, m l' = some ws → l' ≠ l1 → l' ≠ l2 → ∀ a ∈ l' :: ws,
          a ∉ l1 :: xs ∧ a ∉ l2 :: z :: zs := by
        intro l' ws hw h1 h2 a ha
        exact ⟨hr.disj l' ws l1 xs hw hxs h1 a ha, hr.disj l' ws l2 _ hw hys h2 a ha⟩
      have hcases : ∀ l' ws, Spec.step m (.join l1 l2) l' = some ws →
          (l' = l1 ∧ ws = xs ++ z :: zs) ∨ (l' ≠ l1 ∧ l' ≠ l2 ∧ m l' = some ws) := by
        intro l' ws hw
        by_cases e1 : l' = l1
        · subst e1
          simp [Spec.step, hxs, hys] at hw
          exact Or.inl ⟨rfl, hw.symm⟩
        · by_cases e2 : l' = l2
          · subst e2
            simp [Spec.step, e1, hys] at hw
          · simp [Spec.step, e1, e2] at hw
            exact Or.inr ⟨e1, e2, hw⟩
      have hmem : ∀ a, a ∈ l1 :: (xs ++ z :: zs) → a ∈ l1 :: xs ∨ a ∈ l2 :: z :: zs := by
        intro a ha
        simp only [List.mem_cons, List.mem_append] at ha ⊢
        tauto
      refine ⟨?_, ?_, ?_⟩
      · intro l' ws hw
        rcases hcases l' ws hw with ⟨rfl, rfl⟩ | ⟨h1, h2, hm⟩
        · exact seg_join hs1 hs2 hnd1 hnd2 hd
        · refine seg_sameOff (sameOff_join hs1 hs2) (hr.seg l' ws hm) ?_
          intro a ha
          simp only [not_or]
          exact hout l' ws hm h1 h2 a ha
      · intro l' ws hw
        rcases hcases l' ws hw with ⟨rfl, rfl⟩ | ⟨h1, h2, hm⟩
        · rw [← List.cons_append, List.nodup_append]
          refine ⟨hnd1, (List.nodup_cons.1 hnd2).2, ?_⟩
          rintro a ha b hb rfl
          exact hd a ha (List.mem_cons_of_mem _ hb)
        · exact hr.nodup l' ws hm
      · intro k1 ws1 k2 ws2 h1 h2 hk a ha hb
        rcases hcases k1 ws1 h1 with ⟨rfl, rfl⟩ | ⟨p1, p2, hm1⟩
        · rcases hcases k2 ws2 h2 with ⟨rfl, rfl⟩ | ⟨q1, q2, hm2⟩
          · exact hk rfl
          · have := hout k2 ws2 hm2 q1 q2 a hb
            rcases hmem a ha with h | h
            · exact this.1 h
            · exact this.2 h
        · rcases hcases k2 ws2 h2 with ⟨rfl, rfl⟩ | ⟨q1, q2, hm2⟩
          · have := hout k1 ws1 hm1 p1 p2 a ha
            rcases hmem a hb with h | h
            · exact this.1 h
            · exact this.2 h
          · exact hr.disj k1 ws1 k2 ws2 hm1 hm2 hk a ha hb

theorem run_rel (os : List Op) : ∀ (h : Heap) (m : Spec.World), Rel h m → Spec.Valid m os →
    Rel (os.foldl step h) (Spec.run m os) := by
  induction os with
  | nil => intro h m hr _; exact hr
  | cons o os ih =>
    intro h m hr hv
    exact ih _ _ (step_rel hr o hv.1) hv.2

theorem walkNext_seg {h : Heap} {l : Nat} : ∀ (xs : List Nat) (a : Nat) (fuel : Nat),
    Seg h a xs l → l ∉ xs → a ≠ l → xs.length + 2 ≤ fuel →
    walkNext h l fuel a = some (a :: xs) := by
  intro xs
  induction xs with
  | nil =>
    intro a fuel hs _ ha hf
    obtain ⟨f, rfl⟩ : ∃ f, fuel = f + 2 := ⟨fuel - 2, by simp at hf; omega⟩
    simp [walkNext, ha, hs.1]
  | cons x xs ih =>
    intro a fuel hs hl ha hf
    obtain ⟨f, rfl⟩ : ∃ f, fuel = f + 1 := ⟨fuel - 1, by simp at hf; omega⟩
    simp only [List.mem_cons, not_or] at hl
    have := ih x f hs.2.2 hl.2 (fun e => hl.1 e.symm) (by simp at hf; omega)
    simp [walkNext, ha, hs.1, this]

theorem walkNext_list {h : Heap} {l : Nat} {xs : List Nat} (hs : Seg h l xs l) (hl : l ∉ xs) :
    walkNext h l (xs.length + 1) (h.next l) = some xs := by
  cases xs with
  | nil => rw [hs.1]; simp [walkNext]
  | cons x xs =>
    simp only [List.mem_cons, not_or] at hl
    rw [hs.1]
    exact walkNext_seg xs x _ hs.2.2 hl.2 (fun e => hl.1 e.symm) (by simp)

/-- The heap with the two pointers exchanged. -/
def Heap.flip (h : Heap) : Heap := ⟨h.prev, h.next⟩

theorem seg_flip {h : Heap} {a b : Nat} {xs : List Nat} (hs : Seg h a xs b) :
    Seg h.flip b xs.reverse a := by
  induction xs generalizing a with
  | nil => exact ⟨hs.2, hs.1⟩
  | cons x xs ih =>
    rw [List.reverse_cons, show xs.reverse ++ [x] = xs.reverse ++ x :: [] from rfl, seg_append]
    exact ⟨ih hs.2.2, hs.2.1, hs.1⟩

theorem walkPrev_eq (h : Heap) (l : Nat) (fuel a : Nat) :
    walkPrev h l fuel a = walkNext h.flip l fuel a := by
  induction fuel generalizing a with
  | zero => rfl
  | succ f ih => simp [walkPrev, walkNext, ih, Heap.flip]

theorem walkPrev_list {h : Heap} {l : Nat} {xs : List Nat} (hs : Seg h l xs l) (hl : l ∉ xs) :
    walkPrev h l (xs.length + 1) (h.prev l) = some xs.reverse := by
  rw [walkPrev_eq]
  have := walkNext_list (seg_flip hs) (by simpa using hl)
  rw [List.length_reverse] at this
  exact this

end Verif.LinkedList

import Verif.Lemmas.RegExpTotal
import Verif.Spec.RegExp
/-
What every way of `Eng` satisfies: inside the string, far enough, only the groups of the piece
changed.
-/
namespace Verif.RegExp
open Spec (lenA lenT lenL lenD)

/-- `y` is at least `m` characters further than `x`. -/
def Ahead (rev : Bool) (m : Nat) (x y : ESt) : Prop :=
  if rev then y.pos + m ≤ x.pos else x.pos + m ≤ y.pos

def lenN : ENode → Nat
  | .atom t => lenA t.atom
  | .rep t cnt _ => (t.min - (cnt - 1)) * lenA t.atom
  | .seq ts => lenL ts
  | .alts d => lenD d

def Sound (C : Ctx) (rev : Bool) (m a b : Nat) (x y : ESt) : Prop :=
  Inside C y ∧ Ahead rev m x y ∧ Agree a b x.vec y.vec

variable {C : Ctx} {rev : Bool}

theorem ahead_zero (x : ESt) : Ahead rev 0 x x := by unfold Ahead; split <;> omega

theorem ahead_le {m m' : Nat} {x y : ESt} (h : Ahead rev m x y) (hm : m' ≤ m) :
    Ahead rev m' x y := by
  unfold Ahead at *
  split at h
  · rw [if_pos ‹_›]; omega
  · rw [if_neg ‹_›]; omega

theorem ahead_trans {m m' : Nat} {x y z : ESt} (h : Ahead rev m x y) (h' : Ahead rev m' y z) :
    Ahead rev (m + m') x z := by
  unfold Ahead at *
  split at h
  · rw [if_pos ‹_›] at *; omega
  · rw [if_neg ‹_›] at *; omega

theorem agree_trans {a b : Nat} {u v w : Vec} (h : Agree a b u v) (h' : Agree a b v w) :
    Agree a b u w := fun j hj => (h' j hj).trans (h j hj)

theorem agree_mono {a b a' b' : Nat} {u v : Vec} (h : Agree a b u v) (ha : a' ≤ a) (hb : b ≤ b') :
    Agree a' b' u v := fun j hj => h j (by omega)

theorem sound_self {x : ESt} (a b : Nat) (hx : Inside C x) : Sound C rev 0 a b x x :=
  ⟨hx, ahead_zero x, agree_refl _ _ _⟩

theorem sound_trans {m m' a b : Nat} {x y z : ESt} (h : Sound C rev m a b x y)
    (h' : Sound C rev m' a b y z) : Sound C rev (m + m') a b x z :=
  ⟨h'.1, ahead_trans h.2.1 h'.2.1, agree_trans h.2.2 h'.2.2⟩

theorem sound_le {m m' a b : Nat} {x y : ESt} (h : Sound C rev m a b x y) (hm : m' ≤ m) :
    Sound C rev m' a b x y := ⟨h.1, ahead_le h.2.1 hm, h.2.2⟩

theorem agree_put {a b i p : Nat} {v : Vec} (h : 2 * a ≤ i ∧ i < 2 * b) : Agree a b v (v.put i p) := by
  intro j hj
  simp only [Vec.put]
  rw [if_neg (by omega)]

theorem agree_clear {a b s e : Nat} {v : Vec} (h : a ≤ s ∧ e ≤ b) : Agree a b v (v.clear s e) := by
  intro j hj
  simp only [Vec.clear]
  rw [if_neg (by omega)]

theorem sound_fresh {m a b : Nat} {t : Term} {cnt : Nat} {x y : ESt} (ok : TermOk a b t)
    (h : Sound C rev m a b (x.fresh t cnt) y) : Sound C rev m a b x y := by
  refine ⟨h.1, ?_, ?_⟩
  · have := h.2.1
    unfold Ahead at *
    rw [fresh_pos] at this
    exact this
  · have h2 := h.2.2
    unfold ESt.fresh at h2
    split at h2
    · exact agree_trans (agree_clear ⟨ok.1, ok.2.1⟩) h2
    · exact h2

theorem lenL_append (ts us : List Term) : lenL (ts ++ us) = lenL ts + lenL us := by
  induction ts with
  | nil => simp [lenL]
  | cons t ts ih => simp only [List.cons_append, lenL, ih]; omega

theorem lenL_reverse (ts : List Term) : lenL ts.reverse = lenL ts := by
  induction ts with
  | nil => rfl
  | cons t ts ih => simp only [List.reverse_cons, lenL_append, lenL, ih]; omega

theorem lenL_order (ts : List Term) : lenL (if rev then ts.reverse else ts) = lenL ts := by
  cases rev
  · rfl
  · exact lenL_reverse ts

theorem readChar_ahead {x : ESt} (hx : Inside C x) {ch pos : Nat}
    (h : readChar C rev x.pos = .ok ch pos) (v : Vec) :
    pos ≤ C.str.length ∧ Ahead rev 1 x ⟨pos, v⟩ := by
  rcases readChar_total (C := C) (rev := rev) hx.1 with h1 | ⟨ch', pos', h1, h2, h3⟩
  · rw [h1] at h; cases h
  · rw [h1] at h
    injection h with _ h
    subst h
    refine ⟨h2, ?_⟩
    unfold Ahead
    split at h3
    · rw [if_pos ‹_›]; exact h3
    · rw [if_neg ‹_›]; exact h3

theorem backRefs_ahead {x : ESt} (hx : Inside C x) {ids : List Nat} {pos : Nat}
    (h : backRefs C rev x.vec x.pos ids = .yes pos) (v : Vec) :
    pos ≤ C.str.length ∧ Ahead rev 0 x ⟨pos, v⟩ := by
  rcases backRefs_total (rev := rev) hx ids with h1 | ⟨pos', h1, h2, h3⟩
  · rw [h1] at h; cases h
  · rw [h1] at h
    injection h with h
    subst h
    exact ⟨h2, h3⟩

theorem termOk_sub {a b : Nat} {t : Term} {d : Alts} (ok : TermOk a b t) (h : t.atom = .sub d) :
    NodeOk a b (.alts d) := by
  obtain ⟨h1, h2, h3⟩ := ok
  rw [h] at h3
  simp only [numA] at h3
  exact ⟨(numD_node h3).1, fun ts hts u hu => (numD_ok h3 ts hts u hu).mono h1 h2⟩

theorem termOk_look {a b : Nat} {t : Term} {d : Alts} {ahead neg : Bool} (ok : TermOk a b t)
    (h : t.atom = .look ahead neg d) : NodeOk a b (.alts d) := by
  obtain ⟨h1, h2, h3⟩ := ok
  rw [h] at h3
  simp only [numA] at h3
  exact ⟨(numD_node h3).1, fun ts hts u hu => (numD_ok h3 ts hts u hu).mono h1 h2⟩

theorem termOk_group {a b : Nat} {t : Term} {d : Alts} {i : Nat} (ok : TermOk a b t)
    (h : t.atom = .group i d) : i = t.start ∧ t.start < t.stop ∧ NodeOk (t.start + 1) t.stop (.alts d) := by
  obtain ⟨h1, h2, h3⟩ := ok
  rw [h] at h3
  simp only [numA] at h3
  have := numD_le _ _ _ h3.2
  obtain ⟨rfl, h3⟩ := h3
  exact ⟨rfl, by omega, numD_node h3⟩

theorem NodeOk.alts_mono {a b a' b' : Nat} {d : Alts} (h : NodeOk a b (.alts d)) (ha : a' ≤ a)
    (hb : b ≤ b') : NodeOk a' b' (.alts d) :=
  ⟨h.1, fun ts hts t ht => (h.2 ts hts t ht).mono ha hb⟩

theorem seq_node {a b : Nat} {ts : List Term} (h : ∀ t, t ∈ ts → TermOk a b t) :
    NodeOk a b (.seq (if rev then ts.reverse else ts)) := by
  intro t ht
  refine h t ?_
  cases rev
  · exact ht
  · exact List.mem_reverse.1 ht

theorem len_must {t : Term} {cnt : Nat} (h : cnt ≤ t.min) :
    (t.min - (cnt - 1)) * lenA t.atom ≤ lenA t.atom + (t.min - (cnt + 1 - 1)) * lenA t.atom := by
  have h1 : lenA t.atom + (t.min - (cnt + 1 - 1)) * lenA t.atom
      = (1 + (t.min - (cnt + 1 - 1))) * lenA t.atom := by rw [Nat.add_mul, Nat.one_mul]
  rw [h1]
  exact Nat.mul_le_mul_right _ (by omega)

theorem len_may {t : Term} {cnt : Nat} (h : t.min < cnt) : (t.min - (cnt - 1)) * lenA t.atom = 0 := by
  rw [show t.min - (cnt - 1) = 0 by omega, Nat.zero_mul]

mutual
theorem sound : ∀ {rev : Bool} {n : ENode} {x : ESt} {ys : List ESt}, Eng C rev n x ys →
    ∀ (a b : Nat), NodeOk a b n → Inside C x → ∀ y, y ∈ ys → Sound C rev (lenN n) a b x y
  | rev, _, _, _, .char _ t p x ch pos h1 h2 _ => by
    intro a b ok hx y hy
    simp only [List.mem_singleton] at hy
    subst hy
    obtain ⟨h3, h4⟩ := readChar_ahead hx h2 x.vec
    refine ⟨⟨h3, hx.2⟩, ?_, agree_refl _ _ _⟩
    simp only [lenN, h1, lenA]
    exact h4
  | _, _, _, _, .charNo .. => by intro a b _ _ y hy; simp at hy
  | _, _, _, _, .charEnd .. => by intro a b _ _ y hy; simp at hy
  | _, _, _, _, .cond _ t p x h1 _ => by
    intro a b ok hx y hy
    simp only [List.mem_singleton] at hy
    subst hy
    simp only [lenN, h1, lenA]
    exact sound_self _ _ hx
  | _, _, _, _, .condNo .. => by intro a b _ _ y hy; simp at hy
  | _, _, _, _, .ref _ t ids x pos h1 h2 => by
    intro a b ok hx y hy
    simp only [List.mem_singleton] at hy
    subst hy
    obtain ⟨h3, h4⟩ := backRefs_ahead hx h2 x.vec
    refine ⟨⟨h3, hx.2⟩, ?_, agree_refl _ _ _⟩
    simp only [lenN, h1, lenA]
    exact h4
  | _, _, _, _, .refNo .. => by intro a b _ _ y hy; simp at hy
  | _, _, _, _, .sub _ t d x ys h1 h2 => by
    intro a b ok hx y hy
    have := sound h2 _ _ (termOk_sub ok h1) hx y hy
    simp only [lenN, h1, lenA]
    exact this
  | _, _, _, _, .group _ t i d x ys h1 h2 h3 => by
    have ih := sound h3
    intro a b ok hx y hy
    obtain ⟨z, hz, rfl⟩ := List.mem_map.1 hy
    obtain ⟨rfl, hlt, okd⟩ := termOk_group ok h1
    have ha := ok.1
    have hb := ok.2.1
    obtain ⟨s1, s2, s3⟩ := ih _ _ okd (inside_put hx _) z hz
    refine ⟨inside_put s1 _, ?_, ?_⟩
    · simp only [lenN, h1, lenA]
      exact s2
    · refine agree_trans (agree_put (by omega)) (agree_trans (agree_mono s3 (by omega) hb)
        (agree_put (by omega)))
  | rev, _, _, _, .look _ t ahead d x y ys h1 h2 => by
    intro a b ok hx z hz
    simp only [List.mem_singleton] at hz
    subst hz
    obtain ⟨s1, s2, s3⟩ := sound h2 _ _ (termOk_look ok h1) hx y (by simp)
    refine ⟨⟨hx.1, s1.2⟩, ?_, s3⟩
    simp only [lenN, h1, lenA]
    exact ahead_zero (rev := rev) x
  | _, _, _, _, .lookFail .. => by intro a b _ _ y hy; simp at hy
  | rev, _, _, _, .lookNot _ t ahead d x h1 h2 _ => by
    intro a b ok hx z hz
    simp only [List.mem_singleton] at hz
    subst hz
    refine ⟨inside_clear hx _ _, ?_, agree_clear ⟨ok.1, ok.2.1⟩⟩
    simp only [lenN, h1, lenA]
    exact ahead_zero (rev := rev) x
  | _, _, _, _, .lookNotFail .. => by intro a b _ _ y hy; simp at hy
  | _, _, _, _, .repZero _ t cnt last x h => by
    intro a b ok hx y hy
    simp only [List.mem_singleton] at hy
    subst hy
    have : lenN (.rep t cnt last) = 0 := by
      simp only [lenN, h.1, Nat.zero_sub, Nat.zero_mul]
    rw [this]
    exact sound_self _ _ hx
  | _, _, _, _, .repOver _ t cnt last x _ h _ => by
    intro a b ok hx y hy
    simp only [List.mem_singleton] at hy
    subst hy
    simp only [lenN, len_may h]
    exact sound_self _ _ hx
  | _, _, _, _, .repEmpty _ t cnt last x _ h _ _ _ => by
    intro a b ok hx y hy
    simp only [List.mem_singleton] at hy
    subst hy
    simp only [lenN, len_may h]
    exact sound_self _ _ hx
  | _, _, _, _, .repMust _ t cnt last x ys zs h0 h1 h2 h3 h4 => by
    intro a b ok hx z hz
    obtain ⟨y, hy, hyi, s2⟩ := soundAll h4 a b ok
      (fun y hy => (sound h3 a b ok (inside_fresh hx _ _) y hy).1) z hz
    have s1 := sound_fresh ok (sound h3 a b ok (inside_fresh hx _ _) y hy)
    exact sound_le (sound_trans s1 s2) (len_must h1)
  | _, _, _, _, .repGreedy _ t cnt last x ys zs h0 h1 _ _ _ h2 h3 h4 => by
    intro a b ok hx z hz
    simp only [lenN, len_may h1]
    rcases List.mem_append.1 hz with hz | hz
    · obtain ⟨y, hy, hyi, s2⟩ := soundAll h4 a b ok
        (fun y hy => (sound h3 a b ok (inside_fresh hx _ _) y hy).1) z hz
      have s1 := sound_fresh ok (sound h3 a b ok (inside_fresh hx _ _) y hy)
      exact sound_le (sound_trans s1 s2) (Nat.zero_le _)
    · simp only [List.mem_singleton] at hz
      subst hz
      exact sound_self _ _ hx
  | _, _, _, _, .repLazy _ t cnt last x ys zs h0 h1 _ _ _ h2 h3 h4 => by
    intro a b ok hx z hz
    simp only [lenN, len_may h1]
    rcases List.mem_cons.1 hz with e | hz
    · rw [e]
      exact sound_self _ _ hx
    · obtain ⟨y, hy, hyi, s2⟩ := soundAll h4 a b ok
        (fun y hy => (sound h3 a b ok (inside_fresh hx _ _) y hy).1) z hz
      have s1 := sound_fresh ok (sound h3 a b ok (inside_fresh hx _ _) y hy)
      exact sound_le (sound_trans s1 s2) (Nat.zero_le _)
  | _, _, _, _, .seqNil _ x => by
    intro a b ok hx y hy
    simp only [List.mem_singleton] at hy
    subst hy
    exact sound_self _ _ hx
  | _, _, _, _, .seqCons _ t ts x ys zs h1 h2 => by
    intro a b ok hx z hz
    have okt : NodeOk a b (.rep t 1 none) := ok t (by simp)
    obtain ⟨y, hy, hyi, s2⟩ := soundAll h2 a b (fun u hu => ok u (by simp [hu]))
      (fun y hy => (sound h1 _ _ okt hx y hy).1) z hz
    have s1 := sound h1 _ _ okt hx y hy
    have := sound_trans s1 s2
    refine sound_le this ?_
    cases t with
    | mk at' mn mx g s e => simp [lenN, lenL, lenT, Term.min, Term.atom]
  | _, _, _, _, .altsOne rev a0 x ys h => by
    intro a b ok hx y hy
    have := sound h a b (seq_node (ok.2 a0 (by simp))) hx y hy
    simp only [lenN, lenL_order, lenD] at this ⊢
    exact this
  | _, _, _, _, .altsCons rev a0 b0 d x ys zs h1 h2 => by
    intro a b ok hx y hy
    rcases List.mem_append.1 hy with hy | hy
    · have := sound h1 a b (seq_node (ok.2 a0 (by simp))) hx y hy
      simp only [lenN, lenL_order, lenD] at this ⊢
      exact sound_le this (Nat.min_le_left ..)
    · have := sound h2 a b
        ⟨by simp, fun ts hts => ok.2 ts (List.mem_cons_of_mem _ hts)⟩ hx y hy
      simp only [lenN, lenD] at this ⊢
      exact sound_le this (Nat.min_le_right ..)
theorem soundAll : ∀ {rev : Bool} {n : ENode} {xs ys : List ESt}, EngAll C rev n xs ys →
    ∀ (a b : Nat), NodeOk a b n → (∀ x, x ∈ xs → Inside C x) → ∀ y, y ∈ ys →
    ∃ x, x ∈ xs ∧ Inside C x ∧ Sound C rev (lenN n) a b x y
  | _, _, _, _, .nil _ _ => by intro a b _ _ y hy; simp at hy
  | _, _, _, _, .cons _ _ x xs ys zs h1 h2 => by
    intro a b ok hx y hy
    rcases List.mem_append.1 hy with hy | hy
    · exact ⟨x, by simp, hx x (by simp), sound h1 _ _ ok (hx x (by simp)) y hy⟩
    · obtain ⟨x', h3, h4, h5⟩ := soundAll h2 _ _ ok (fun u hu => hx u (by simp [hu])) y hy
      exact ⟨x', by simp [h3], h4, h5⟩
end

end Verif.RegExp

import Verif.Lemmas.RegExpSound
/-
For patterns whose repeated atoms take at least one character, the ways of the program are those
of the standard.
-/
namespace Verif.RegExp
open Spec (lenA lenT lenL lenD groupsA groupsT groupsL groupsD solidA solidT solidL solidD Ways AllWays)

/-- The input of the standard's matcher, without the flag `u`: the code units. -/
def input (C : Ctx) : Spec.Input := ⟨C.str, C.canon⟩

/-- The capture that two entries of the vector stand for. -/
def capOf (v : Vec) (i : Nat) : Option (Nat × Nat) :=
  match v (2 * i), v (2 * i + 1) with
  | some s, some e => if s ≤ e then some (s, e) else some (e, s)
  | _, _ => none

def absSt (x : ESt) : Spec.St := ⟨x.pos, capOf x.vec⟩

/-- No group of `[a, b)` is set. -/
def Clean (a b : Nat) (v : Vec) : Prop := ∀ j, 2 * a ≤ j → j < 2 * b → v j = none

/-- The groups of different terms are different. -/
def Apart (ts : List Term) : Prop :=
  ts.Pairwise fun t u => t.stop ≤ u.start ∨ u.stop ≤ t.start

def transN : ENode → Spec.Node
  | .atom t => .atom t.atom
  | .rep t cnt _ => .rep t.atom (t.min - (cnt - 1)) (t.max.map (· - (cnt - 1))) t.greedy
  | .seq ts => .seq ts
  | .alts d => .alts d

/-- What has to be known where a piece starts. -/
def Ready : ENode → ESt → Prop
  | .atom t, x => Clean t.start t.stop x.vec ∧ solidA t.atom
  | .rep t cnt last, x => 1 ≤ cnt ∧ (cnt = 1 → Clean t.start t.stop x.vec) ∧ solidT t ∧
      ∀ p, last = some p → 0 < lenA t.atom → x.pos ≠ p
  | .seq ts, x => Apart ts ∧ ∀ t, t ∈ ts → Clean t.start t.stop x.vec ∧ solidT t
  | .alts d, x => ∀ a, a ∈ d → Apart a ∧ ∀ t, t ∈ a → Clean t.start t.stop x.vec ∧ solidT t

variable {C : Ctx} {rev : Bool}

/-! Groups -/

mutual
theorem groupsA_mem : ∀ (a : Atom) (k k' : Nat), numA a k k' → ∀ i, i ∈ groupsA a ↔ k ≤ i ∧ i < k'
  | .char _, k, k', h, i => by simp only [numA] at h; subst h; simp [groupsA]
  | .cond _, k, k', h, i => by simp only [numA] at h; subst h; simp [groupsA]
  | .ref _, k, k', h, i => by simp only [numA] at h; subst h; simp [groupsA]
  | .sub d, k, k', h, i => by simp only [numA] at h; simp only [groupsA]; exact groupsD_mem d k k' h i
  | .group g d, k, k', h, i => by
    simp only [numA] at h
    obtain ⟨rfl, h⟩ := h
    have := groupsD_mem d _ _ h i
    have hle := numD_le _ _ _ h
    simp only [groupsA, List.mem_cons, this]
    omega
  | .look _ _ d, k, k', h, i => by
    simp only [numA] at h; simp only [groupsA]; exact groupsD_mem d k k' h i
theorem groupsT_mem : ∀ (t : Term) (k k' : Nat), numT t k k' → ∀ i, i ∈ groupsT t ↔ k ≤ i ∧ i < k'
  | ⟨a, _, _, _, s, e⟩, k, k', h, i => by
    simp only [numT] at h
    simp only [groupsT]
    exact groupsA_mem a k k' h.2.2 i
theorem groupsL_mem : ∀ (ts : List Term) (k k' : Nat), numL ts k k' →
    ∀ i, i ∈ groupsL ts ↔ k ≤ i ∧ i < k'
  | [], k, k', h, i => by simp only [numL] at h; subst h; simp [groupsL]
  | t :: ts, k, k', h, i => by
    simp only [numL] at h
    obtain ⟨m, h1, h2⟩ := h
    have a1 := groupsT_mem t k m h1 i
    have a2 := groupsL_mem ts m k' h2 i
    have l1 := numT_le _ _ _ h1
    have l2 := numL_le _ _ _ h2
    simp only [groupsL, List.mem_append, a1, a2]
    omega
theorem groupsD_mem : ∀ (d : List (List Term)) (k k' : Nat), numD d k k' →
    ∀ i, i ∈ groupsD d ↔ k ≤ i ∧ i < k'
  | [], k, k', h, i => by simp only [numD] at h
  | [a], k, k', h, i => by
    simp only [numD] at h
    have := groupsL_mem a k k' h i
    simp only [groupsD, List.mem_append, this, List.not_mem_nil, or_false]
  | a :: b :: d, k, k', h, i => by
    simp only [numD] at h
    obtain ⟨m, h1, h2⟩ := h
    have a1 := groupsL_mem a k m h1 i
    have a2 := groupsD_mem (b :: d) m k' h2 i
    have l1 := numL_le _ _ _ h1
    have l2 := numD_le _ _ _ h2
    rw [groupsD]
    simp only [List.mem_append, a1, a2]
    omega
end

theorem numL_apart : ∀ {ts : List Term} {k k' : Nat}, numL ts k k' → Apart ts
  | [], _, _, _ => List.Pairwise.nil
  | t :: ts, k, k', h => by
    simp only [numL] at h
    obtain ⟨m, h1, h2⟩ := h
    refine List.Pairwise.cons ?_ (numL_apart h2)
    intro u hu
    have a1 := numT_ok h1
    have a2 := numL_ok h2 u hu
    left
    exact Nat.le_trans a1.2.1 a2.1

theorem numD_apart : ∀ {d : Alts} {k k' : Nat}, numD d k k' → ∀ a, a ∈ d → Apart a
  | [], _, _, _, a, ha => by simp at ha
  | [a0], k, k', h, a, ha => by
    simp only [numD] at h
    simp only [List.mem_singleton] at ha
    rw [ha]; exact numL_apart h
  | a0 :: b :: d, k, k', h, a, ha => by
    simp only [numD] at h
    obtain ⟨m, h1, h2⟩ := h
    rcases List.mem_cons.1 ha with e | ha
    · rw [e]; exact numL_apart h1
    · exact numD_apart h2 a ha

theorem apart_reverse {ts : List Term} (h : Apart ts) : Apart ts.reverse := by
  unfold Apart at *
  rw [List.pairwise_reverse]
  exact h.imp (fun h => h.symm)

theorem apart_order {ts : List Term} (h : Apart ts) : Apart (if rev then ts.reverse else ts) := by
  cases rev
  · exact h
  · exact apart_reverse h

theorem solidL_mem : ∀ {ts : List Term}, solidL ts → ∀ t, t ∈ ts → solidT t
  | [], _, t, ht => by simp at ht
  | u :: ts, h, t, ht => by
    simp only [solidL] at h
    rcases List.mem_cons.1 ht with e | ht
    · rw [e]; exact h.1
    · exact solidL_mem h.2 t ht

theorem solidD_mem : ∀ {d : Alts}, solidD d → ∀ a, a ∈ d → ∀ t, t ∈ a → solidT t
  | [], _, a, ha => by simp at ha
  | u :: d, h, a, ha => by
    simp only [solidD] at h
    rcases List.mem_cons.1 ha with e | ha
    · rw [e]; exact solidL_mem h.1
    · exact solidD_mem h.2 a ha

theorem clean_sub {a b a' b' : Nat} {v : Vec} (h : Clean a b v) (ha : a ≤ a') (hb : b' ≤ b) :
    Clean a' b' v := fun j h1 h2 => h j (by omega) (by omega)

/-- The alternatives inside a numbered piece are ready. -/
theorem ready_alts {d : Alts} {k k' : Nat} {x : ESt} (hn : numD d k k') (hs : solidD d)
    (hc : Clean k k' x.vec) : Ready (.alts d) x := by
  intro a ha
  refine ⟨numD_apart hn a ha, ?_⟩
  intro t ht
  have := numD_ok hn a ha t ht
  exact ⟨clean_sub hc this.1 this.2.1, solidD_mem hs a ha t ht⟩

theorem ready_order {a : List Term} {x : ESt}
    (h : Apart a ∧ ∀ t, t ∈ a → Clean t.start t.stop x.vec ∧ solidT t) :
    Ready (.seq (if rev then a.reverse else a)) x := by
  refine ⟨apart_order h.1, ?_⟩
  intro t ht
  refine h.2 t ?_
  cases rev
  · exact ht
  · exact List.mem_reverse.1 ht

/-! Vectors and captures -/

theorem capOf_congr {v w : Vec} {i : Nat} (h1 : v (2 * i) = w (2 * i))
    (h2 : v (2 * i + 1) = w (2 * i + 1)) : capOf v i = capOf w i := by
  simp only [capOf, h1, h2]

theorem abs_clear {t : Term} {a b : Nat} (ok : TermOk a b t) (x : ESt) :
    absSt ⟨x.pos, x.vec.clear t.start t.stop⟩ = (absSt x).forget (groupsA t.atom) := by
  unfold absSt Spec.St.forget
  congr 1
  funext i
  have := groupsA_mem t.atom _ _ ok.2.2 i
  simp only [this]
  split
  · rename_i h
    simp only [capOf, Vec.clear]
    rw [if_pos (by omega)]
  · rename_i h
    refine capOf_congr ?_ ?_
    · simp only [Vec.clear]; rw [if_neg (by omega)]
    · simp only [Vec.clear]; rw [if_neg (by omega)]

theorem clear_clean {s e : Nat} {v : Vec} (h : Clean s e v) : v.clear s e = v := by
  funext j
  simp only [Vec.clear]
  split
  · rename_i hj; exact (h j hj.1 hj.2).symm
  · rfl

theorem abs_forget_clean {t : Term} {a b : Nat} (ok : TermOk a b t) {x : ESt}
    (h : Clean t.start t.stop x.vec) : (absSt x).forget (groupsA t.atom) = absSt x := by
  rw [← abs_clear ok x, clear_clean h]

theorem clean_clear (s e : Nat) (v : Vec) : Clean s e (v.clear s e) := by
  intro j h1 h2
  simp only [Vec.clear]
  rw [if_pos ⟨h1, h2⟩]

theorem fresh_spec {t : Term} {a b cnt : Nat} (ok : TermOk a b t) {x : ESt} (h1 : 1 ≤ cnt)
    (h : cnt = 1 → Clean t.start t.stop x.vec) :
    absSt (x.fresh t cnt) = (absSt x).forget (groupsA t.atom) ∧
      Clean t.start t.stop (x.fresh t cnt).vec := by
  unfold ESt.fresh
  split
  · exact ⟨abs_clear ok x, clean_clear _ _ _⟩
  · have := h (by omega)
    exact ⟨(abs_forget_clean ok this).symm, this⟩

theorem clean_agree {s e a b : Nat} {v w : Vec} (h : Clean s e v) (hw : Agree a b v w)
    (hd : b ≤ s ∨ e ≤ a) : Clean s e w := by
  intro j h1 h2
  rw [hw j (by omega)]
  exact h j h1 h2

/-! Atoms -/

theorem readChar_spec (hu : C.u = false) {x : ESt} (hx : Inside C x) (p : Nat → Bool) :
    Spec.charWays (input C) (!rev) p (absSt x) =
      match readChar C rev x.pos with
      | .ok ch pos => if p ch then [absSt ⟨pos, x.vec⟩] else []
      | _ => [] := by
  have hp := hx.1
  unfold Spec.charWays readChar
  cases rev with
  | true =>
    simp only [Bool.not_true, Bool.false_eq_true, if_false, if_true, hu, false_and, and_false,
      absSt, input]
    by_cases h0 : x.pos = 0
    · simp only [h0, if_true]
    · have h0' : (if x.pos = 0 then (none : Option Nat) else C.str[x.pos - 1]?) = C.str[x.pos - 1]? :=
        if_neg h0
      have h1 := unitBefore_eq (C := C) (by omega : 0 < 1) (by omega : 1 ≤ x.pos) hp
      simp only [if_neg h0, h1, List.getElem?_eq_getElem (by omega : x.pos - 1 < C.str.length)] at h0' ⊢
  | false =>
    simp only [Bool.not_false, Bool.false_eq_true, if_false, if_true, hu, false_and, and_false,
      absSt, input]
    by_cases h0 : C.str.length ≤ x.pos
    · simp only [if_pos h0, List.getElem?_eq_none h0]
    · simp only [if_neg h0]
      rw [List.getElem?_eq_getElem (by omega : x.pos < C.str.length)]

theorem sameChars_true : ∀ {len p1 p2 : Nat}, sameChars C p1 p2 len = some true →
    Spec.Same (input C) p2 p1 len
  | 0, _, _, _ => fun i hi => by omega
  | len + 1, p1, p2, h => by
    simp only [sameChars] at h
    split at h
    · rename_i c1 c2 e1 e2
      split at h
      · rename_i hc
        have ih := sameChars_true h
        intro i hi
        cases i with
        | zero => simp only [Nat.add_zero, input, e1, e2, Option.map_some, hc]
        | succ i =>
          have := ih i (by omega)
          rw [show p2 + (i + 1) = p2 + 1 + i by omega, show p1 + (i + 1) = p1 + 1 + i by omega]
          exact this
      · cases h
    · cases h

theorem sameChars_false : ∀ {len p1 p2 : Nat}, sameChars C p1 p2 len = some false →
    ¬ Spec.Same (input C) p2 p1 len
  | 0, _, _, h => by simp [sameChars] at h
  | len + 1, p1, p2, h => by
    simp only [sameChars] at h
    split at h
    · rename_i c1 c2 e1 e2
      split at h
      · rename_i hc
        have ih := sameChars_false h
        intro hs
        refine ih (fun i hi => ?_)
        have := hs (i + 1) (by omega)
        rw [show p2 + (i + 1) = p2 + 1 + i by omega, show p1 + (i + 1) = p1 + 1 + i by omega] at this
        exact this
      · rename_i hc
        intro hs
        have := hs 0 (by omega)
        simp only [Nat.add_zero, input, e1, e2, Option.map_some, Option.some.injEq] at this
        exact hc this.symm
    · cases h

/-- Nothing is set beyond the last group. -/
def Beyond (C : Ctx) (v : Vec) : Prop := ∀ j, 2 * C.n ≤ j → v j = none

theorem backRef_spec {x : ESt} (hx : Inside C x) {id s e : Nat} (hn : id < C.n)
    (hc : capOf x.vec id = some (s, e)) (pre post : List Nat)
    (hpre : ∀ j, j ∈ pre → capOf x.vec j = none) :
    (∀ pos, backRef C rev x.vec x.pos id = .yes pos →
      Spec.RefWays (input C) (!rev) (pre ++ id :: post) (absSt x) [absSt ⟨pos, x.vec⟩]) ∧
    (backRef C rev x.vec x.pos id = .no →
      Spec.RefWays (input C) (!rev) (pre ++ id :: post) (absSt x) []) := by
  obtain ⟨hp, hv⟩ := hx
  unfold capOf at hc
  split at hc
  · rename_i s0 e0 h1 h2
    have b1 := hv _ _ h1
    have b2 := hv _ _ h2
    have hst : (if e0 < s0 then e0 else s0) = s := by
      split at hc <;> injection hc with hc <;> injection hc with q1 q2 <;> split <;> omega
    have hsp : (if e0 < s0 then s0 else e0) = e := by
      split at hc <;> injection hc with hc <;> injection hc with q1 q2 <;> split <;> omega
    have hle : s ≤ e := by rw [← hst, ← hsp]; split <;> omega
    have hel : e ≤ C.str.length := by rw [← hsp]; split <;> omega
    have hcap : (absSt x).caps id = some (s, e) := by
      simp only [absSt, capOf, h1, h2]
      exact hc
    have heq : backRef C rev x.vec x.pos id =
        if rev then
          if x.pos < e - s then .no
          else match sameChars C (x.pos - (e - s)) s (e - s) with
            | none => .ub
            | some false => .no
            | some true => .yes (x.pos - (e - s))
        else
          if C.str.length < x.pos + (e - s) then .no
          else match sameChars C x.pos s (e - s) with
            | none => .ub
            | some false => .no
            | some true => .yes (x.pos + (e - s)) := by
      unfold backRef
      rw [if_neg (by omega), h1, h2]
      simp only [hst, hsp]
      rfl
    rw [heq]
    cases rev with
    | true =>
      simp only [if_true, Bool.not_true]
      by_cases hlt : x.pos < e - s
      · rw [if_pos hlt]
        refine ⟨fun pos h => (by cases h), fun _ => ?_⟩
        refine .differs pre post id s e rfl hpre hcap (by simp) (fun _ h => ?_)
        simp only [absSt] at h
        omega
      · rw [if_neg hlt]
        obtain ⟨b, hb⟩ := sameChars_total (C := C) (e - s) (x.pos - (e - s)) s (by omega) (by omega)
        rw [hb]
        cases b with
        | true =>
          refine ⟨fun pos h => ?_, fun h => by cases h⟩
          injection h with h
          subst h
          exact .backward pre post id s e rfl hpre hcap rfl (by simp only [absSt]; omega)
            (sameChars_true hb)
        | false =>
          refine ⟨fun pos h => (by cases h), fun _ => ?_⟩
          refine .differs pre post id s e rfl hpre hcap (by simp) (fun _ h => ?_)
          exact sameChars_false hb h.2
    | false =>
      simp only [Bool.false_eq_true, if_false, Bool.not_false]
      by_cases hlt : C.str.length < x.pos + (e - s)
      · rw [if_pos hlt]
        refine ⟨fun pos h => (by cases h), fun _ => ?_⟩
        refine .differs pre post id s e rfl hpre hcap (fun _ h => ?_) (by simp)
        simp only [absSt, input] at h
        omega
      · rw [if_neg hlt]
        obtain ⟨b, hb⟩ := sameChars_total (C := C) (e - s) x.pos s (by omega) (by omega)
        rw [hb]
        cases b with
        | true =>
          refine ⟨fun pos h => ?_, fun h => by cases h⟩
          injection h with h
          subst h
          exact .forward pre post id s e rfl hpre hcap rfl (by simp only [absSt, input]; omega)
            (sameChars_true hb)
        | false =>
          refine ⟨fun pos h => (by cases h), fun _ => ?_⟩
          refine .differs pre post id s e rfl hpre hcap (fun _ h => ?_) (by simp)
          exact sameChars_false hb h.2
  · cases hc

theorem backRefs_spec {x : ESt} (hx : Inside C x) (hb : Beyond C x.vec) :
    ∀ (post pre : List Nat), (∀ j, j ∈ pre → capOf x.vec j = none) →
    (∀ pos, backRefs C rev x.vec x.pos post = .yes pos →
      Spec.RefWays (input C) (!rev) (pre ++ post) (absSt x) [absSt ⟨pos, x.vec⟩]) ∧
    (backRefs C rev x.vec x.pos post = .no →
      Spec.RefWays (input C) (!rev) (pre ++ post) (absSt x) [])
  | [], pre, hpre => by
    refine ⟨fun pos h => ?_, fun h => by simp [backRefs] at h⟩
    simp only [backRefs, Cmp.yes.injEq] at h
    subst h
    rw [List.append_nil]
    exact .unset hpre
  | i :: is, pre, hpre => by
    have skip : capOf x.vec i = none → ∀ j, j ∈ pre ++ [i] → capOf x.vec j = none := by
      intro h j hj
      rcases List.mem_append.1 hj with hj | hj
      · exact hpre j hj
      · simp only [List.mem_singleton] at hj; subst hj; exact h
    unfold backRefs
    by_cases hn : C.n ≤ i
    · rw [if_pos hn]
      have hc : capOf x.vec i = none := by
        simp only [capOf, hb (2 * i) (by omega)]
      have := backRefs_spec hx hb is (pre ++ [i]) (skip hc)
      simpa using this
    · rw [if_neg hn]
      cases h1 : x.vec (2 * i) with
      | none =>
        have hc : capOf x.vec i = none := by simp only [capOf, h1]
        have := backRefs_spec hx hb is (pre ++ [i]) (skip hc)
        simpa [h1] using this
      | some s =>
        cases h2 : x.vec (2 * i + 1) with
        | none =>
          have hc : capOf x.vec i = none := by simp only [capOf, h1, h2]
          have := backRefs_spec hx hb is (pre ++ [i]) (skip hc)
          simpa [h1, h2] using this
        | some e =>
          simp only
          have hc : ∃ s' e', capOf x.vec i = some (s', e') := by
            simp only [capOf, h1, h2]
            split <;> exact ⟨_, _, rfl⟩
          obtain ⟨s', e', hc⟩ := hc
          exact backRef_spec hx (by omega) hc pre is hpre

/-! Quantifiers -/

theorem ahead_ne {m : Nat} {x y : ESt} (h : Ahead rev m x y) (hm : 0 < m) : y.pos ≠ x.pos := by
  unfold Ahead at h
  split at h <;> omega

theorem filter_all {x : ESt} {ys : List ESt} (h : ∀ y, y ∈ ys → y.pos ≠ x.pos) :
    (ys.map absSt).filter (·.pos ≠ (absSt x).pos) = ys.map absSt := by
  rw [List.filter_eq_self]
  intro z hz
  obtain ⟨y, hy, rfl⟩ := List.mem_map.1 hz
  exact decide_eq_true (h y hy)

theorem lessOne_sub (m : Option Nat) (cnt : Nat) (h : 1 ≤ cnt) :
    Spec.lessOne (m.map (· - (cnt - 1))) = m.map (· - (cnt + 1 - 1)) := by
  cases m with
  | none => rfl
  | some m =>
    simp only [Spec.lessOne, Option.map_some, Option.some.injEq]
    omega

theorem over_max {t : Term} {cnt : Nat} (h1 : 1 ≤ cnt) :
    (t.over cnt = true → t.max.map (· - (cnt - 1)) = some 0) ∧
    (t.over cnt = false → t.max.map (· - (cnt - 1)) ≠ some 0) := by
  unfold Term.over
  cases t.max with
  | none => simp
  | some m =>
    simp only [Option.map_some, decide_eq_true_eq, decide_eq_false_iff_not, Option.some.injEq, ne_eq]
    constructor <;> intro h <;> omega

theorem solidT_parts : ∀ {t : Term}, solidT t →
    (∀ m, t.max = some m → t.min ≤ m) ∧ (t.max = some t.min ∨ 0 < lenA t.atom) ∧ solidA t.atom
  | ⟨_, _, _, _, _, _⟩, h => by simp only [solidT] at h; exact h

/-- An iteration that may be made takes something. -/
theorem solid_may {t : Term} {cnt : Nat} (h : solidT t) (hc : t.min < cnt) (ho : t.over cnt = false) :
    0 < lenA t.atom := by
  rcases (solidT_parts h).2.1 with h | h
  · unfold Term.over at ho
    rw [h] at ho
    simp only [decide_eq_false_iff_not] at ho
    omega
  · exact h

theorem abs_group {i : Nat} {v w : Vec} {p q : Nat} (h : w (2 * i) = some p)
    (ho : ∀ j, j ≠ 2 * i + 1 → v j = w j) (hi : v (2 * i + 1) = some q) :
    capOf v = fun j => if j = i then (if p ≤ q then some (p, q) else some (q, p)) else capOf w j := by
  funext j
  split
  · rename_i hj
    subst hj
    simp only [capOf, hi, ho (2 * j) (by omega), h]
  · rename_i hj
    exact capOf_congr (ho _ (by omega)) (ho _ (by omega))

theorem beyond_agree {a b : Nat} {v w : Vec} (h : Beyond C v) (hw : Agree a b v w) (hb : b ≤ C.n) :
    Beyond C w := fun j hj => by rw [hw j (by omega)]; exact h j hj

theorem order_spec (ts : List Term) :
    Spec.order (!rev) ts = if rev then ts.reverse else ts := by
  unfold Spec.order
  cases rev <;> rfl

theorem abs_start {i p : Nat} {v : Vec} (h : v (2 * i + 1) = none) (q : Nat) :
    absSt ⟨q, v.put (2 * i) p⟩ = absSt ⟨q, v⟩ := by
  unfold absSt
  congr 1
  funext j
  by_cases hj : j = i
  · subst hj
    simp only [capOf, Vec.put, h]
    rw [if_neg (show ¬ (2 * j + 1 = 2 * j) by omega)]
    split <;> split <;> simp_all
  · refine capOf_congr ?_ ?_
    · simp only [Vec.put]; rw [if_neg (by omega)]
    · simp only [Vec.put]; rw [if_neg (by omega)]

mutual
theorem corr (hu : C.u = false) : ∀ {rev : Bool} {n : ENode} {x : ESt} {ys : List ESt},
    Eng C rev n x ys → ∀ (a b : Nat), b ≤ C.n → NodeOk a b n → Inside C x → Beyond C x.vec →
    Ready n x → Ways (input C) (!rev) (transN n) (absSt x) (ys.map absSt)
  | rev, _, _, _, .char _ t p x ch pos h1 h2 h3 => by
    intro a b hb ok hx hy hr
    have := readChar_spec (rev := rev) hu hx p
    rw [h2] at this
    simp only [h3, if_true] at this
    simp only [transN, h1, List.map_cons, List.map_nil]
    rw [← this]
    exact .char ..
  | rev, _, _, _, .charNo _ t p x ch pos h1 h2 h3 => by
    intro a b hb ok hx hy hr
    have := readChar_spec (rev := rev) hu hx p
    rw [h2] at this
    simp only [h3, Bool.false_eq_true, if_false] at this
    simp only [transN, h1, List.map_nil]
    rw [← this]
    exact .char ..
  | rev, _, _, _, .charEnd _ t p x h1 h2 => by
    intro a b hb ok hx hy hr
    have := readChar_spec (rev := rev) hu hx p
    rw [h2] at this
    simp only [transN, h1, List.map_nil]
    simp only at this
    rw [← this]
    exact .char ..
  | rev, _, _, _, .cond _ t p x h1 h2 => by
    intro a b hb ok hx hy hr
    have : Spec.condWays (input C) p (absSt x) = [absSt x] := if_pos h2
    simp only [transN, h1, List.map_cons, List.map_nil]
    rw [← this]
    exact .cond ..
  | rev, _, _, _, .condNo _ t p x h1 h2 => by
    intro a b hb ok hx hy hr
    have : Spec.condWays (input C) p (absSt x) = [] := if_neg (by
      intro h
      have h3 : p (charBefore C x.pos) (charAt C x.pos) = true := h
      rw [h2] at h3
      cases h3)
    simp only [transN, h1, List.map_nil]
    rw [← this]
    exact .cond ..
  | rev, _, _, _, .ref _ t ids x pos h1 h2 => by
    intro a b hb ok hx hy hr
    have := (backRefs_spec (rev := rev) hx hy ids [] (by simp)).1 pos h2
    simp only [transN, h1, List.map_cons, List.map_nil]
    exact .ref _ _ _ _ this
  | rev, _, _, _, .refNo _ t ids x h1 h2 => by
    intro a b hb ok hx hy hr
    have := (backRefs_spec (rev := rev) hx hy ids [] (by simp)).2 h2
    simp only [transN, h1, List.map_nil]
    exact .ref _ _ _ _ this
  | rev, _, _, _, .sub _ t d x ys h1 h2 => by
    have ih := corr hu h2
    intro a b hb ok hx hy hr
    have hn := ok.2.2
    have hs := hr.2
    rw [h1] at hn hs
    simp only [numA] at hn
    simp only [solidA] at hs
    have := ih _ _ hb (termOk_sub ok h1) hx hy (ready_alts hn hs hr.1)
    simp only [transN, h1]
    exact .sub _ _ _ _ this
  | rev, _, _, _, .group _ t i d x ys h1 h2 h3 => by
    have ih := corr hu h3
    have sd := sound h3
    intro a b hb ok hx hy hr
    have hn := ok.2.2
    have hs := hr.2
    have hcl := hr.1
    rw [h1] at hn hs
    simp only [numA] at hn
    simp only [solidA] at hs
    obtain ⟨hi, hlt, okd⟩ := termOk_group ok h1
    have hle := ok.2.1
    have hput : Agree t.start (t.start + 1) x.vec (x.vec.put (2 * i) x.pos) :=
      agree_put (by omega)
    have hn' : numD d (t.start + 1) t.stop := hn.2
    have := ih _ _ (Nat.le_trans hle hb) okd (inside_put hx _)
      (beyond_agree hy hput (by omega))
      (ready_alts hn' hs (clean_agree (clean_sub hcl (Nat.le_succ _) (Nat.le_refl _)) hput
        (.inl (Nat.le_refl _))))
    have h0 : absSt ⟨x.pos, x.vec.put (2 * i) x.pos⟩ = absSt x :=
      abs_start (hcl _ (by omega) (by omega)) _
    simp only [h0] at this
    have hw := Ways.group (!rev) i d _ _ this
    simp only [transN, h1, List.map_map] at hw ⊢
    have he : ys.map (Spec.St.capture i (absSt x).pos ∘ absSt)
        = ys.map (absSt ∘ fun y => (⟨y.pos, y.vec.put (2 * i + 1) y.pos⟩ : ESt)) := by
      refine List.map_congr_left ?_
      intro y hym
      obtain ⟨_, _, s3⟩ := sd _ _ okd (inside_put hx _) y hym
      have hst : y.vec (2 * i) = some x.pos := by
        rw [s3 (2 * i) (by omega)]
        simp only [Vec.put, if_true]
      simp only [Function.comp, Spec.St.capture, absSt]
      congr 1
      exact (abs_group (v := y.vec.put (2 * i + 1) y.pos) hst
        (fun j hj => by simp only [Vec.put]; rw [if_neg hj])
        (by simp only [Vec.put, if_true])).symm
    rw [he] at hw
    exact hw
  | rev, _, _, _, .look _ t ahead d x y ys h1 h2 => by
    have ih := corr hu h2
    intro a b hb ok hx hy hr
    have hn := ok.2.2
    have hs := hr.2
    rw [h1] at hn hs
    simp only [numA] at hn
    simp only [solidA] at hs
    have := ih _ _ hb (termOk_look ok h1) hx hy (ready_alts hn hs hr.1)
    simp only [Bool.not_not, List.map_cons] at this
    simp only [transN, h1, List.map_cons, List.map_nil]
    exact .look _ _ _ _ _ _ this
  | rev, _, _, _, .lookFail _ t ahead d x h1 h2 => by
    have ih := corr hu h2
    intro a b hb ok hx hy hr
    have hn := ok.2.2
    have hs := hr.2
    rw [h1] at hn hs
    simp only [numA] at hn
    simp only [solidA] at hs
    have := ih _ _ hb (termOk_look ok h1) hx hy (ready_alts hn hs hr.1)
    simp only [Bool.not_not, List.map_nil] at this
    simp only [transN, h1, List.map_nil]
    exact .lookFail _ _ _ _ this
  | rev, _, _, _, .lookNot _ t ahead d x h1 h2 h3 => by
    have ih := corr hu h3
    intro a b hb ok hx hy hr
    have hn := ok.2.2
    have hs := hr.2
    have hcl := hr.1
    rw [h1] at hn hs
    simp only [numA] at hn
    simp only [solidA] at hs
    have := ih _ _ hb (termOk_look ok h1) hx hy (ready_alts hn hs hr.1)
    simp only [Bool.not_not, List.map_nil] at this
    simp only [transN, h1, List.map_cons, List.map_nil, clear_clean hcl]
    exact .lookNot _ _ _ _ this
  | rev, _, _, _, .lookNotFail _ t ahead d x y ys h1 h2 => by
    have ih := corr hu h2
    intro a b hb ok hx hy hr
    have hn := ok.2.2
    have hs := hr.2
    rw [h1] at hn hs
    simp only [numA] at hn
    simp only [solidA] at hs
    have := ih _ _ hb (termOk_look ok h1) hx hy (ready_alts hn hs hr.1)
    simp only [Bool.not_not, List.map_cons] at this
    simp only [transN, h1, List.map_nil]
    exact .lookNotFail _ _ _ _ _ _ this
  | rev, _, _, _, .repZero _ t cnt last x h => by
    intro a b hb ok hx hy hr
    simp only [transN, h.1, h.2, Option.map_some, Nat.zero_sub, List.map_cons, List.map_nil]
    exact .repDone ..
  | rev, _, _, _, .repOver _ t cnt last x _ h ho => by
    intro a b hb ok hx hy hr
    simp only [transN, (over_max hr.1).1 ho, List.map_cons, List.map_nil]
    exact .repDone ..
  | rev, _, _, _, .repEmpty _ t cnt last x _ h ho hc hl => by
    intro a b hb ok hx hy hr
    exact absurd rfl (hr.2.2.2 _ hl (solid_may hr.2.2.1 h ho))
  | rev, _, _, _, .repMust _ t cnt last x ys zs h0 h1 h2 h3 h4 => by
    have ih := corr hu h3
    have ihs := corrAll hu h4
    have sd := sound h3
    intro a b hb ok hx hy hr
    obtain ⟨r1, r2, r3, r4⟩ := hr
    obtain ⟨e1, e2⟩ := fresh_spec (cnt := cnt) ok r1 r2
    have so := solidT_parts r3
    have hbf : Beyond C (x.fresh t cnt).vec := by
      unfold ESt.fresh
      split
      · exact beyond_agree hy (agree_clear ⟨ok.1, ok.2.1⟩) hb
      · exact hy
    have w1 := ih a b hb ok (inside_fresh hx _ _) hbf ⟨e2, so.2.2⟩
    have w2 := ihs a b hb ok (fun y hym => by
      obtain ⟨s1, s2, s3⟩ := sd a b ok (inside_fresh hx _ _) y hym
      refine ⟨s1, beyond_agree hbf s3 hb, by omega, by intro h; omega, r3, ?_⟩
      intro p hp hl
      injection hp with hp
      rw [← hp]
      have := ahead_ne s2 hl
      rw [fresh_pos] at this
      exact this)
    rw [e1] at w1
    simp only [transN] at w1 w2 ⊢
    rw [← lessOne_sub _ _ r1] at w2
    rw [show t.min - (cnt - 1) = (t.min - (cnt + 1 - 1)) + 1 by omega]
    refine .repMust _ _ _ _ _ _ _ _ ?_ w1 w2
    cases hm : t.max with
    | none => simp
    | some m =>
      have := so.1 m hm
      simp only [Option.map_some, ne_eq, Option.some.injEq]
      omega
  | rev, _, _, _, .repGreedy _ t cnt last x ys zs h0 h1 ho _ hg h2 h3 h4 => by
    have ih := corr hu h3
    have ihs := corrAll hu h4
    have sd := sound h3
    intro a b hb ok hx hy hr
    obtain ⟨r1, r2, r3, r4⟩ := hr
    obtain ⟨e1, e2⟩ := fresh_spec (cnt := cnt) ok r1 r2
    have so := solidT_parts r3
    have hlen := solid_may r3 h1 ho
    have hbf : Beyond C (x.fresh t cnt).vec := by
      unfold ESt.fresh
      split
      · exact beyond_agree hy (agree_clear ⟨ok.1, ok.2.1⟩) hb
      · exact hy
    have w1 := ih a b hb ok (inside_fresh hx _ _) hbf ⟨e2, so.2.2⟩
    have hne : ∀ y, y ∈ ys → y.pos ≠ x.pos := by
      intro y hym
      have := ahead_ne (sd a b ok (inside_fresh hx _ _) y hym).2.1 hlen
      rw [fresh_pos] at this
      exact this
    have w2 := ihs a b hb ok (fun y hym => by
      obtain ⟨s1, s2, s3⟩ := sd a b ok (inside_fresh hx _ _) y hym
      refine ⟨s1, beyond_agree hbf s3 hb, by omega, by intro h; omega, r3, ?_⟩
      intro p hp hl
      injection hp with hp
      rw [← hp]
      exact hne y hym)
    rw [e1] at w1
    simp only [transN, hg] at w1 w2 ⊢
    rw [← lessOne_sub _ _ r1, show t.min - (cnt + 1 - 1) = 0 by omega] at w2
    rw [show t.min - (cnt - 1) = 0 by omega, List.map_append]
    refine .repGreedy _ _ _ _ _ _ ((over_max r1).2 ho) w1 ?_
    rw [filter_all hne]
    exact w2
  | rev, _, _, _, .repLazy _ t cnt last x ys zs h0 h1 ho _ hg h2 h3 h4 => by
    have ih := corr hu h3
    have ihs := corrAll hu h4
    have sd := sound h3
    intro a b hb ok hx hy hr
    obtain ⟨r1, r2, r3, r4⟩ := hr
    obtain ⟨e1, e2⟩ := fresh_spec (cnt := cnt) ok r1 r2
    have so := solidT_parts r3
    have hlen := solid_may r3 h1 ho
    have hbf : Beyond C (x.fresh t cnt).vec := by
      unfold ESt.fresh
      split
      · exact beyond_agree hy (agree_clear ⟨ok.1, ok.2.1⟩) hb
      · exact hy
    have w1 := ih a b hb ok (inside_fresh hx _ _) hbf ⟨e2, so.2.2⟩
    have hne : ∀ y, y ∈ ys → y.pos ≠ x.pos := by
      intro y hym
      have := ahead_ne (sd a b ok (inside_fresh hx _ _) y hym).2.1 hlen
      rw [fresh_pos] at this
      exact this
    have w2 := ihs a b hb ok (fun y hym => by
      obtain ⟨s1, s2, s3⟩ := sd a b ok (inside_fresh hx _ _) y hym
      refine ⟨s1, beyond_agree hbf s3 hb, by omega, by intro h; omega, r3, ?_⟩
      intro p hp hl
      injection hp with hp
      rw [← hp]
      exact hne y hym)
    rw [e1] at w1
    simp only [transN, hg] at w1 w2 ⊢
    rw [← lessOne_sub _ _ r1, show t.min - (cnt + 1 - 1) = 0 by omega] at w2
    rw [show t.min - (cnt - 1) = 0 by omega, List.map_cons]
    refine .repLazy _ _ _ _ _ _ ((over_max r1).2 ho) w1 ?_
    rw [filter_all hne]
    exact w2
  | rev, _, _, _, .seqNil _ x => by
    intro a b hb ok hx hy hr
    exact .seqNil ..
  | rev, _, _, _, .seqCons _ t ts x ys zs h1 h2 => by
    have ih := corr hu h1
    have ihs := corrAll hu h2
    have sd := sound h1
    intro a b hb ok hx hy hr
    obtain ⟨ap, hr⟩ := hr
    obtain ⟨ap1, ap2⟩ := List.pairwise_cons.1 ap
    have okt : TermOk a b t := ok t (by simp)
    obtain ⟨c1, c2⟩ := hr t (by simp)
    have okt' : NodeOk t.start t.stop (.rep t 1 none) := ⟨Nat.le_refl _, Nat.le_refl _, okt.2.2⟩
    have hle : t.stop ≤ C.n := Nat.le_trans okt.2.1 hb
    have w1 := ih _ _ hle okt' hx hy ⟨Nat.le_refl _, fun _ => c1, c2, by intro p hp; cases hp⟩
    have w2 := ihs a b hb (fun u hu => ok u (by simp [hu])) (fun y hym => by
      obtain ⟨s1, s2, s3⟩ := sd _ _ okt' hx y hym
      refine ⟨s1, beyond_agree hy s3 hle, ap2, ?_⟩
      intro u hum
      obtain ⟨d1, d2⟩ := hr u (by simp [hum])
      exact ⟨clean_agree d1 s3 (ap1 u hum), d2⟩)
    simp only [transN, Nat.sub_self, Nat.sub_zero, Option.map_id'] at w1 w2 ⊢
    exact .seqCons _ _ _ _ _ _ w1 w2
  | _, _, _, _, .altsOne rev a0 x ys h => by
    have ih := corr hu h
    intro a b hb ok hx hy hr
    have := ih a b hb (seq_node (ok.2 a0 (by simp))) hx hy (ready_order (hr a0 (by simp)))
    simp only [transN] at this ⊢
    rw [← order_spec] at this
    exact .altsOne _ _ _ _ this
  | _, _, _, _, .altsCons rev a0 b0 d x ys zs h1 h2 => by
    have ih1 := corr hu h1
    have ih2 := corr hu h2
    intro a b hb ok hx hy hr
    have w1 := ih1 a b hb (seq_node (ok.2 a0 (by simp))) hx hy (ready_order (hr a0 (by simp)))
    have w2 := ih2 a b hb ⟨by simp, fun ts hts => ok.2 ts (List.mem_cons_of_mem _ hts)⟩ hx hy
      (fun ts hts => hr ts (List.mem_cons_of_mem _ hts))
    simp only [transN, List.map_append] at w1 w2 ⊢
    rw [← order_spec] at w1
    exact .altsCons _ _ _ _ _ _ _ w1 w2
theorem corrAll (hu : C.u = false) : ∀ {rev : Bool} {n : ENode} {xs ys : List ESt},
    EngAll C rev n xs ys → ∀ (a b : Nat), b ≤ C.n → NodeOk a b n →
    (∀ x, x ∈ xs → Inside C x ∧ Beyond C x.vec ∧ Ready n x) →
    AllWays (input C) (!rev) (transN n) (xs.map absSt) (ys.map absSt)
  | _, _, _, _, .nil _ _ => by intro a b _ _ _; exact .nil ..
  | _, _, _, _, .cons _ _ x xs ys zs h1 h2 => by
    have ih1 := corr hu h1
    have ih2 := corrAll hu h2
    intro a b hb ok hx
    obtain ⟨q1, q2, q3⟩ := hx x (by simp)
    rw [List.map_cons, List.map_append]
    exact .cons _ _ _ _ _ _ (ih1 a b hb ok q1 q2 q3) (ih2 a b hb ok (fun u hu => hx u (by simp [hu])))
end

end Verif.RegExp

import Verif.Lemmas.ArrayOpsMut
/-! `reverse`, `splice`, and the methods that make a new array. -/
namespace Verif.ArrayOps
open Spec

variable {V : Type}

theorem newArray_ok (n : Nat) (hn : n < 2 ^ 32) :
    ∃ a : Obj V, newArray n = .ok a ∧ Plain a ∧ a.array = true ∧ a.len = n ∧
      ∀ i, a.elem i = none := by
  unfold newArray
  rw [if_neg (by omega)]
  refine ⟨_, rfl, ⟨rfl, rfl, ?_, ?_, ?_, ?_⟩, rfl, rfl, fun _ => rfl⟩
  · intro k s hs; cases hs
  · simp only; omega
  · intro _; exact hn
  · intro _ k _ _; rfl

theorem fresh_of_becomes {a a' : Obj V} {l : List (Option V)} (ha : a.array = true)
    (he : ∀ i, a.elem i = none) (b : Becomes a a' l) : Fresh a' l := by
  refine ⟨b.plain, b.array.trans ha, b.holds, ?_⟩
  intro k hk
  have hlen := b.holds.len
  by_cases h1 : k < 0 ∨ ((a.len : Int) ≤ k ∧ (a'.len : Int) ≤ k)
  · rw [b.others k h1, he]
  · exact b.gone k (by omega) (by omega)

section
variable [Inhabited V]

theorem swap_ok {o : Obj V} (h : Base o) (lower upper : Int) (hne : lower ≠ upper) :
    ∃ o', swap lower upper o = .ok o' ∧
      Steps o o' (upd (upd (val o) lower (val o upper)) upper (val o lower))
        (max (lower + 1) (upper + 1)) := by
  unfold swap
  simp only [has_eq, get_eq]
  cases hl : val o lower with
  | none =>
    cases hu : val o upper with
    | none =>
      refine ⟨o, rfl, (Steps.refl h _).congr ?_ (Int.le_refl _)⟩
      intro i; unfold upd
      split
      · next hi => rw [hi, hu]
      · split
        · next hi => rw [hi, hl]
        · rfl
    | some u =>
      obtain ⟨o1, e1, s1⟩ := set_ok h lower u
      obtain ⟨o2, e2, s2⟩ := del_ok s1.base upper
      refine ⟨o2, ?_, (s1.trans s2).congr ?_ (Int.le_refl _)⟩
      · simp [e1, ok_bind, e2]
      · intro i
        unfold upd
        simp only [s1.read]
        rfl
  | some w =>
    cases hu : val o upper with
    | none =>
      obtain ⟨o1, e1, s1⟩ := del_ok h lower
      obtain ⟨o2, e2, s2⟩ := set_ok s1.base upper w
      refine ⟨o2, ?_, (s1.trans s2).congr ?_ (Int.le_refl _)⟩
      · simp [e1, ok_bind, e2]
      · intro i
        unfold upd
        simp only [s1.read]
        rfl
    | some u =>
      obtain ⟨o1, e1, s1⟩ := set_ok h lower u
      obtain ⟨o2, e2, s2⟩ := set_ok s1.base upper w
      refine ⟨o2, ?_, (s1.trans s2).congr ?_ (Int.le_refl _)⟩
      · simp [e1, ok_bind, e2]
      · intro i
        unfold upd
        simp only [s1.read]
        rfl

theorem revUp (L : Int) (n : Nat) :
    ∀ (a : Int) (o : Obj V), Base o → 2 * (a + n) ≤ L → 0 ≤ a →
    ∃ o', up (fun lower => swap lower (L - lower - 1)) n a o = .ok o' ∧
      Steps o o' (fun i =>
        if (a ≤ i ∧ i < a + n) ∨ (L - a - n ≤ i ∧ i < L - a) then val o (L - 1 - i) else val o i)
        L := by
  induction n with
  | zero =>
    intro a o h _ _
    refine ⟨o, rfl, (Steps.refl h _).congr ?_ (Int.le_refl _)⟩
    intro i; rw [if_neg (by omega)]
  | succ n ih =>
    intro a o h ha h0
    obtain ⟨o1, h1, s1⟩ := swap_ok h a (L - a - 1) (by omega)
    obtain ⟨o2, h2, s2⟩ := ih (a + 1) o1 s1.base (by omega) (by omega)
    refine ⟨o2, by rw [up_succ, h1, ok_bind, h2], (s1.trans s2).congr ?_ (by omega)⟩
    intro i
    simp only [s1.read, upd]
    by_cases hi : i = L - a - 1
    · subst hi
      rw [if_neg (by omega), if_pos rfl, if_pos (by omega)]
      congr 1; omega
    · rw [if_neg (c := i = L - a - 1) hi]
      by_cases hi2 : i = a
      · subst hi2
        rw [if_neg (by omega), if_pos rfl, if_pos (by omega)]
        congr 1; omega
      · rw [if_neg (c := i = a) hi2]
        by_cases hr : (a ≤ i ∧ i < a + (n + 1 : Nat)) ∨ (L - a - (n + 1 : Nat) ≤ i ∧ i < L - a)
        · rw [if_pos (by omega), if_pos hr, if_neg (by omega), if_neg (by omega)]
        · rw [if_neg (by omega), if_neg hr]

theorem reverse_ok {o : Obj V} (h : Plain o) {l : List (Option V)} (hl : Holds o l) :
    ∃ o', reverse o = .ok o' ∧ Becomes o o' l.reverse := by
  unfold reverse forUp
  have hlen := hl.len
  obtain ⟨o1, e1, s1⟩ := revUp (o.len : Int) (((o.len / 2 : Nat) : Int) - 0).toNat 0 o h.base
    (by omega) (by omega)
  refine ⟨o1, e1, finish' h s1 _ (by simp [hlen]) (Int.le_refl _) ?_ ?_⟩
  · intro i hi
    rw [List.length_reverse] at hi
    rw [List.getElem?_reverse hi]
    by_cases hc : ((0 : Int) ≤ i ∧ (i : Int) < 0 + (((o.len / 2 : Nat) : Int) - 0).toNat) ∨
        ((o.len : Int) - 0 - (((o.len / 2 : Nat) : Int) - 0).toNat ≤ i ∧ (i : Int) < o.len - 0)
    · rw [if_pos hc, val_holds hl _ (by omega) (by omega)]
      congr 2; omega
    · rw [if_neg hc, val_holds hl _ (by omega) (by omega)]
      congr 2; omega
  · intro i hi; rw [if_neg (by omega)]

/-! ## `splice` -/

theorem count_eq (a : SpliceArgs V) (len : Nat) :
    a.from' len = (startOf len a : Nat) ∧ a.count len = (removed len (startOf len a) a : Nat) ∧
      startOf len a + removed len (startOf len a) a ≤ len ∧ a.items = inserted a := by
  cases a with
  | none =>
    refine ⟨?_, rfl, by simp [startOf, removed], rfl⟩
    simp [SpliceArgs.from', startOf, relIdx]; omega
  | start s =>
    have := place_le s len
    refine ⟨relIdx_eq s len, ?_, ?_, rfl⟩
    · simp only [SpliceArgs.count, SpliceArgs.from', relIdx_eq, startOf, removed]; omega
    · simp only [startOf, removed]; omega
  | full s d items =>
    have := place_le s len
    refine ⟨relIdx_eq s len, ?_, ?_, rfl⟩
    · simp only [SpliceArgs.count, SpliceArgs.from', relIdx_eq, startOf]
      cases d <;> simp only [clamp, removed] <;> omega
    · cases d <;> simp only [startOf, removed] <;> omega

theorem copyOut_eq (o : Obj V) (src : Int) (n : Nat) (a : Obj V) :
    copyOut o src n a = up (makeAt (fun k => val o (src + k)) 0) n 0 a := by
  unfold copyOut
  congr 1
  funext k b
  unfold makeAt
  rw [has_eq, get_eq]
  cases hv : val o (src + k) with
  | none => simp only [hv]; rfl
  | some v => simp [hv]

/-- The part of the list that is copied out. -/
theorem copyOut_ok {o : Obj V} {l : List (Option V)} (hl : Holds o l) (src n : Nat)
    (hs : src + n ≤ l.length) {a : Obj V} (ha : Plain a) (harr : a.array = true) (hlen : a.len = n)
    (he : ∀ i, a.elem i = none) (hn : n < 2 ^ 32) :
    ∃ a1 a2, copyOut o src n a = .ok a1 ∧ setLen a1 n = .ok a2 ∧
      Fresh a2 ((l.drop src).take n) := by
  rw [copyOut_eq]
  obtain ⟨a1, e1, s1⟩ := makeUp (fun k => val o (src + k)) 0 n 0 a ha.base
  have hlen' : ((l.drop src).take n).length = n := by simp; omega
  obtain ⟨a2, e2, b⟩ := finish ha s1 ((l.drop src).take n) n hlen'.symm (by omega)
    (fun _ => by omega)
    (by
      intro i hi
      rw [hlen'] at hi
      rw [if_pos (by omega), val_holds hl _ (by omega) (by omega), val_none.2 (he i),
        Option.or_none, List.getElem?_take_of_lt hi, List.getElem?_drop]
      congr 2)
    (by intro i hi hi2; omega)
    (by intro i hi; rw [if_neg (by omega)])
  exact ⟨a1, a2, e1, e2, fresh_of_becomes harr he b⟩

theorem up_add {σ : Type} (body : Int → σ → Except Err σ) (n m : Nat) :
    ∀ (k : Int) (s : σ), up body (n + m) k s = up body n k s >>= up body m (k + n) := by
  induction n with
  | zero => intro k s; simp [up, ok_bind]
  | succ n ih =>
    intro k s
    rw [show n + 1 + m = n + m + 1 from by omega, up_succ, up_succ]
    cases hb : body k s with
    | error e => rfl
    | ok s1 =>
      rw [ok_bind, ok_bind, ih, show k + 1 + (n : Int) = k + (n + 1 : Nat) from by omega]

theorem del_len {o o' : Obj V} {k : Int} (h : del o k = .ok o') : o'.len = o.len := by
  unfold del at h
  split at h
  · split at h
    · cases h; rfl
    · cases h
  · cases h; rfl

/-- Moving what is not there. -/
theorem moveNone (d e : Int) (hde : e ≤ d) (n : Nat) :
    ∀ (a : Int) (o : Obj V), Base o → (∀ i : Int, a + d ≤ i → i < a + d + n → val o i = none) →
    ∃ o', up (fun k => move (k + d) (k + e)) n a o = .ok o' ∧ o'.len = o.len ∧
      Steps o o' (fun i => if a + e ≤ i ∧ i < a + e + n then none else val o i) (a + e + n) := by
  induction n with
  | zero =>
    intro a o h _
    refine ⟨o, rfl, rfl, (Steps.refl h _).congr ?_ (Int.le_refl _)⟩
    intro i; rw [if_neg (by omega)]
  | succ n ih =>
    intro a o h hn
    obtain ⟨o1, h1, s1⟩ := del_ok h (a + e)
    have hm : move (a + d) (a + e) o = .ok o1 := by
      unfold move
      rw [has_eq, hn (a + d) (by omega) (by omega), ← h1]
      rfl
    obtain ⟨o2, h2, hl2, s2⟩ := ih (a + 1) o1 s1.base (by
      intro i hi1 hi2
      rw [s1.read]; unfold upd
      split
      · rfl
      · exact hn i (by omega) (by omega))
    refine ⟨o2, by rw [up_succ, hm, ok_bind, h2], by rw [hl2, del_len h1],
      (s1.trans s2).congr ?_ (by omega)⟩
    intro i
    simp only [s1.read, upd]
    by_cases hi : i = a + e
    · subst hi
      rw [if_neg (by omega), if_pos rfl, if_pos (by omega)]
    · rw [if_neg (c := i = a + e) hi]
      by_cases hr : a + e ≤ i ∧ i < a + e + (n + 1 : Nat)
      · rw [if_pos (by omega), if_pos hr]
      · rw [if_neg (by omega), if_neg hr]

theorem Steps.tight {o o' : Obj V} {f : Int → Option V} {hi hi' : Int} (s : Steps o o' f hi)
    (h : o'.len = o.len ∨ hi ≤ hi') : Steps o o' f hi' :=
  ⟨s.base, s.array, s.read, s.lenGe, by have := s.lenLe; omega, s.lenEq⟩

theorem spliceMove_ok {o : Obj V} (h : Plain o) (s c m : Nat) (hsc : s + c ≤ o.len)
    (hout : m < c → ∀ k : Int, (o.len : Int) ≤ k → k < o.len + c → o.elem k = none) :
    ∃ o1 f hi, spliceMove s c m o.len o = .ok o1 ∧ Steps o o1 f hi ∧
      hi ≤ max (o.len : Int) (o.len - c + m) ∧
      ∀ i : Int, (i < s ∨ (s + m : Int) ≤ i) → f i =
        if i < s then val o i
        else if i < o.len - c + m then val o (i - m + c)
        else if i < o.len then none
        else val o i := by
  unfold spliceMove
  by_cases h1 : (m : Int) < c
  · rw [if_pos h1]
    have hnone : ∀ k : Int, (o.len : Int) ≤ k → k < o.len + c → val o k = none :=
      fun k hk1 hk2 => val_none.2 (hout (by omega) k hk1 hk2)
    obtain ⟨o1, e1, s1⟩ := moveUp (c : Int) (m : Int) (by omega) (o.len - c - s) s o h.base
    obtain ⟨o2, e2, l2, s2⟩ := moveNone (c : Int) (m : Int) (by omega) c ((s : Int) + (o.len - c - s : Nat))
      o1 s1.base (by
        intro i hi1 hi2
        rw [s1.read, if_neg (by omega)]
        exact hnone i (by omega) (by omega))
    obtain ⟨o3, e3, s3⟩ := delDown (((o.len : Int) - (o.len - c + m + 1) + 1)).toNat o.len o2 s2.base
    refine ⟨o3, _, _, ?_, ((s1.trans (s2.tight (hi' := 0) (Or.inl l2))).trans s3), ?_, ?_⟩
    · unfold forUp forDown
      rw [show ((o.len : Int) - s).toNat = (o.len - c - s) + c from by omega, up_add, e1, ok_bind, e2,
        ok_bind, e3]
    · omega
    · intro i hi
      simp only [s1.read, s2.read]
      by_cases hi1 : i < s
      · rw [if_neg (by omega), if_neg (by omega), if_neg (by omega), if_pos hi1]
      · rw [if_neg (c := i < s) hi1]
        by_cases hi2 : i < o.len - c + m
        · rw [if_neg (by omega), if_neg (by omega), if_pos (by omega), if_pos hi2]
        · rw [if_neg (c := i < o.len - c + m) hi2]
          by_cases hi3 : i < o.len
          · rw [if_pos (by omega), if_pos hi3]
          · rw [if_neg (by omega), if_neg (c := i < o.len) hi3]
            by_cases hi4 : i < o.len + m
            · rw [if_pos (by omega), hnone _ (by omega) (by omega)]
            · rw [if_neg (by omega), if_neg (by omega)]
  · rw [if_neg h1]
    by_cases h2 : (c : Int) < m
    · rw [if_pos h2]
      have hfun : (fun k : Int => move (V := V) (k + c - 1) (k + m - 1)) =
          fun k => move (k + (c - 1 : Int)) (k + (m - 1 : Int)) := by
        funext k; congr 1 <;> omega
      obtain ⟨o1, e1, s1⟩ := moveDown (c - 1 : Int) (m - 1 : Int) (by omega)
        ((o.len : Int) - c - s + 1).toNat (o.len - c : Int) o h.base
      refine ⟨o1, _, _, ?_, s1, ?_, ?_⟩
      · unfold forDown; rw [hfun, e1]
      · omega
      · intro i hi
        by_cases hi1 : i < s
        · rw [if_neg (by omega), if_pos hi1]
        · rw [if_neg (c := i < s) hi1]
          by_cases hi2 : i < o.len - c + m
          · rw [if_pos (by omega), if_pos hi2]
            congr 1; omega
          · rw [if_neg (by omega), if_neg (c := i < o.len - c + m) hi2, if_neg (by omega)]
    · rw [if_neg h2]
      have hcm : c = m := by omega
      subst hcm
      refine ⟨o, _, (o.len : Int), rfl, Steps.refl h.base _, Int.le_max_left _ _, ?_⟩
      intro i hi
      by_cases hi1 : i < s
      · rw [if_pos hi1]
      · rw [if_neg hi1]
        by_cases hi2 : i < o.len - c + c
        · rw [if_pos hi2]; congr 1; omega
        · rw [if_neg hi2, if_neg (by omega)]

theorem splice_ok {o : Obj V} (h : Plain o) {l : List (Option V)} (hl : Holds o l)
    (args : SpliceArgs V) (s c : Nat) (hs : s = startOf l.length args)
    (hc : c = removed l.length s args)
    (h1 : l.length - c + (inserted args).length ≤ 2 ^ 53 - 1)
    (h2 : o.array = true → l.length - c + (inserted args).length < 2 ^ 32)
    (h3 : c < 2 ^ 32)
    (hout : (inserted args).length < c →
      ∀ k : Int, (o.len : Int) ≤ k → k < o.len + c → o.elem k = none) :
    ∃ a o', splice args o = .ok (a, o') ∧ Fresh a ((l.drop s).take c) ∧
      Becomes o o' (replaced l s c ((inserted args).map some)) := by
  have hlen := hl.len
  obtain ⟨q1, q2, q3, q4⟩ := count_eq args l.length
  rw [← hs] at q1 q2 q3
  rw [← hc] at q2 q3
  unfold splice
  rw [hlen, q1, q2, q4]
  simp only
  generalize inserted args = items at *
  rw [if_neg (by unfold maxInt; omega)]
  obtain ⟨a0, ea, pa, ha, la, va⟩ := newArray_ok (V := V) c h3
  obtain ⟨a1, a2, ea1, ea2, fr⟩ := copyOut_ok hl s c q3 pa ha la va h3
  obtain ⟨o1, f, hi, eo1, s1, hhi, hf⟩ := spliceMove_ok h s c items.length (by omega) hout
  obtain ⟨o2, eo2, s2⟩ := assign_ok items s o1 s1.base
  have hrl : (replaced l s c (items.map some)).length = l.length - c + items.length := by
    simp only [replaced, List.length_append, List.length_take, List.length_drop, List.length_map]
    omega
  obtain ⟨o3, eo3, b⟩ := finish h (s1.trans s2) (replaced l s c (items.map some))
    ((l.length : Int) - c + items.length).toNat (by omega) (by omega)
    (fun har => by have := h2 har; have := h.arrayLen har; omega)
    (by
      intro i hi'
      rw [hrl] at hi'
      simp only [s1.read]
      unfold replaced
      by_cases hi1 : i < s
      · rw [if_neg (by omega), hf i (by omega), if_pos (by omega), val_holds hl i (by omega) (by omega),
          List.getElem?_append_left (by simp; omega), List.getElem?_append_left (by simp; omega),
          List.getElem?_take_of_lt hi1]
        rfl
      · by_cases hi2 : i < s + items.length
        · rw [if_pos (by omega), List.getElem?_append_left (by simp; omega),
            List.getElem?_append_right (by simp; omega), List.getElem?_map]
          rw [show i - (List.take s l).length = ((i : Int) - s).toNat from by simp; omega,
            List.getElem?_eq_getElem (by omega)]
          rfl
        · rw [if_neg (by omega), hf i (by omega), if_neg (by omega), if_pos (by omega),
            val_holds hl _ (by omega) (by omega), List.getElem?_append_right (by simp; omega),
            List.getElem?_drop]
          congr 2
          simp only [List.length_append, List.length_take, List.length_map]; omega)
    (by
      intro i hi1 hi2
      rw [hrl] at hi1
      simp only [s1.read]
      rw [if_neg (by omega), hf i (by omega), if_neg (by omega), if_neg (by omega), if_pos hi2])
    (by
      intro i hi'
      rw [hrl] at hi'
      simp only [s1.read]
      rw [if_neg (by omega), hf i (by omega)]
      by_cases hi1 : i < 0
      · rw [if_pos (by omega)]
      · rw [if_neg (by omega), if_neg (by omega), if_neg (by omega)])
  rw [hlen] at eo1
  refine ⟨a2, o3, ?_, fr, b⟩
  rw [show ((c : Nat) : Int).toNat = c from rfl]
  simp only [ea, ok_bind, ea1, ea2, eo1, eo2, eo3]

end

end Verif.ArrayOps

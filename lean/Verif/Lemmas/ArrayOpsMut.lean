import Verif.Lemmas.ArrayOps
/-! The methods that change the array. -/
namespace Verif.ArrayOps
open Spec

variable {V : Type}

theorem val_holds {o : Obj V} {l : List (Option V)} (hl : Holds o l) (i : Int) (h0 : 0 ≤ i)
    (h1 : i < l.length) : val o i = (l[i.toNat]?).join := by
  have := hl.elem i.toNat (by omega)
  rw [show ((i.toNat : Nat) : Int) = i from by omega] at this
  exact this

/-- After the loops: `length` is set. -/
theorem finish {o o1 : Obj V} (h : Plain o) {f : Int → Option V} {hi : Int} (s : Steps o o1 f hi)
    (l : List (Option V)) (n : Nat) (hn : n = l.length) (hb : n ≤ 2 ^ 53 - 1)
    (ha : o.array = true → n < 2 ^ 32 ∧ hi ≤ 2 ^ 32 - 1)
    (hin : ∀ i : Nat, i < l.length → f i = (l[i]?).join)
    (hgone : ∀ i : Int, (l.length : Int) ≤ i → i < o.len → f i = none)
    (hoth : ∀ i : Int, i < 0 ∨ ((o.len : Int) ≤ i ∧ (l.length : Int) ≤ i) → f i = val o i) :
    ∃ o', setLen o1 n = .ok o' ∧ Becomes o o' l := by
  subst hn
  obtain ⟨o', h1, hbase, harr, hlen, hval⟩ := setLen_ok s.base l.length
    (fun hx => (ha (by rw [← s.array]; exact hx)).1)
  have hle := s.lenLe
  refine ⟨o', h1, ⟨⟨hbase.ext, hbase.lenWritable, hbase.slots, by omega, ?_, hbase.arrayEnd⟩,
    ⟨hlen, ?_⟩, harr.trans s.array, ?_, ?_⟩⟩
  · intro hx; rw [hlen]; exact (ha (by rw [← s.array, ← harr]; exact hx)).1
  · intro i hi'
    have := hval i
    rw [if_neg (by omega), s.read, hin i hi'] at this
    exact this
  · intro k hk1 hk2
    rw [hlen] at hk1
    rw [← val_none, hval]
    split
    · rfl
    · rw [s.read, hgone k hk1 hk2]
  · intro k hk
    rw [hlen] at hk
    apply elem_eq h.base hbase
    rw [hval]
    split
    · next hc =>
      have ha' : o.array = true := by rw [← s.array]; exact hc.1
      have := (ha ha').2
      exact (val_none.2 (h.arrayEnd ha' k (by omega) (by omega))).symm
    · rw [s.read, hoth k hk]

/-- After the loops: `length` stays as it is. -/
theorem finish' {o o1 : Obj V} (h : Plain o) {f : Int → Option V} {hi : Int} (s : Steps o o1 f hi)
    (l : List (Option V)) (hn : o.len = l.length) (hhi : hi ≤ o.len)
    (hin : ∀ i : Nat, i < l.length → f i = (l[i]?).join)
    (hoth : ∀ i : Int, i < 0 ∨ (o.len : Int) ≤ i → f i = val o i) :
    Becomes o o1 l := by
  have hle := s.lenLe
  have hge := s.lenGe
  have hlen : o1.len = o.len := by omega
  refine ⟨⟨s.base.ext, s.base.lenWritable, s.base.slots, by have := h.bound; omega, ?_,
    s.base.arrayEnd⟩, ⟨by omega, ?_⟩, s.array, ?_, ?_⟩
  · intro hx; rw [hlen]; exact h.arrayLen (by rw [← s.array]; exact hx)
  · intro i hi'
    have := s.read i
    rw [hin i hi'] at this
    exact this
  · intro k hk1 hk2; omega
  · intro k hk
    apply elem_eq h.base s.base
    rw [s.read]
    exact hoth k (by omega)

theorem relIdx_eq (r : Num) (len : Nat) : relIdx r len = (place len r : Nat) := by
  cases r with
  | pinf => rfl
  | ninf => rfl
  | fin n =>
    cases n with
    | ofNat n => simp only [relIdx, place]; rw [if_neg (by simp)]; simp; omega
    | negSucc n =>
      simp only [relIdx, place]
      rw [if_pos (by omega)]
      omega

theorem place_le (r : Num) (len : Nat) : place len r ≤ len := by
  cases r with
  | pinf => exact Nat.le_refl _
  | ninf => exact Nat.zero_le _
  | fin n => cases n <;> simp only [place] <;> omega

theorem relEnd_eq (r : Option Num) (len : Nat) : relEnd r len = (placeOr len r : Nat) := by
  cases r with
  | none => simp [relEnd, placeOr, relIdx]; omega
  | some r => exact relIdx_eq r len

theorem placeOr_le (r : Option Num) (len : Nat) : placeOr len r ≤ len := by
  cases r with
  | none => exact Nat.le_refl _
  | some r => exact place_le r len

section
variable [Inhabited V]

theorem push_ok {o : Obj V} (h : Plain o) {l : List (Option V)} (hl : Holds o l) (args : List V)
    (h1 : o.len + args.length ≤ 2 ^ 53 - 1)
    (h2 : o.array = true → o.len + args.length < 2 ^ 32) :
    ∃ o', push args o = .ok (o.len + args.length, o') ∧ Becomes o o' (l ++ args.map some) := by
  unfold push
  rw [if_neg (by unfold maxInt; omega)]
  obtain ⟨o1, e1, s1⟩ := assign_ok args o.len o h.base
  have hlen := hl.len
  obtain ⟨o2, e2, b⟩ := finish h s1 (l ++ args.map some) (o.len + args.length)
    (by simp [hlen]) (by omega) (fun ha => ⟨h2 ha, by have := h2 ha; omega⟩)
    (by
      intro i hi
      simp only [List.length_append, List.length_map] at hi
      by_cases hc : i < l.length
      · rw [if_neg (by omega), val_holds hl i (by omega) (by omega), List.getElem?_append_left hc]
        rfl
      · rw [if_pos (by omega), List.getElem?_append_right (by omega), List.getElem?_map,
          show ((i : Int) - o.len).toNat = i - l.length from by omega,
          List.getElem?_eq_getElem (by omega)]
        rfl)
    (by intro i hi hi2; simp only [List.length_append] at hi; omega)
    (by
      intro i hi
      simp only [List.length_append, List.length_map] at hi
      rw [if_neg (by omega)])
  exact ⟨o2, by simp only [e1, ok_bind, e2], b⟩

theorem pop_nil {o : Obj V} (h : Plain o) (hl : Holds o []) :
    ∃ o', pop o = .ok (default, o') ∧ Becomes o o' [] := by
  unfold pop
  have hlen : o.len = 0 := hl.len
  rw [if_pos hlen]
  obtain ⟨o2, e2, b⟩ := finish h (Steps.refl h.base 0) [] 0 rfl (by omega)
    (fun _ => ⟨by omega, by omega⟩) (by intro i hi; simp at hi) (by intro i hi hi2; simp at hi; omega)
    (by intro i hi; rfl)
  exact ⟨o2, by rw [e2, ok_bind], b⟩

theorem pop_ok {o : Obj V} (h : Plain o) {l : List (Option V)} {x : Option V}
    (hl : Holds o (l ++ [x])) :
    ∃ o', pop o = .ok (x.getD default, o') ∧ Becomes o o' l := by
  unfold pop
  have hlen : o.len = l.length + 1 := by rw [hl.len]; simp
  rw [if_neg (by omega)]
  obtain ⟨o1, e1, s1⟩ := del_ok h.base (o.len - 1 : Int)
  have hb := h.bound
  obtain ⟨o2, e2, b⟩ := finish h s1 l (o.len - 1) (by omega) (by omega)
    (fun ha => by have := h.arrayLen ha; omega)
    (by
      intro i hi
      unfold upd
      rw [if_neg (by omega), val_holds hl i (by omega) (by simp; omega)]
      rw [show ((i : Int)).toNat = i from rfl, List.getElem?_append_left hi])
    (by
      intro i hi hi2
      unfold upd
      rw [if_pos (by omega)])
    (by
      intro i hi
      unfold upd
      rw [if_neg (by omega)])
  refine ⟨o2, ?_, b⟩
  simp only [e1, ok_bind, e2]
  rw [get_eq, val_holds hl _ (by omega) (by simp; omega),
    show ((o.len : Int) - 1).toNat = l.length from by omega]
  simp

theorem shift_nil {o : Obj V} (h : Plain o) (hl : Holds o []) :
    ∃ o', shift o = .ok (default, o') ∧ Becomes o o' [] := by
  unfold shift
  have hlen : o.len = 0 := hl.len
  rw [if_pos hlen]
  obtain ⟨o2, e2, b⟩ := finish h (Steps.refl h.base 0) [] 0 rfl (by omega)
    (fun _ => ⟨by omega, by omega⟩) (by intro i hi; simp at hi) (by intro i hi hi2; simp at hi; omega)
    (by intro i hi; rfl)
  exact ⟨o2, by rw [e2, ok_bind], b⟩

theorem shift_ok {o : Obj V} (h : Plain o) {l : List (Option V)} {x : Option V}
    (hl : Holds o (x :: l)) :
    ∃ o', shift o = .ok (x.getD default, o') ∧ Becomes o o' l := by
  unfold shift
  have hlen : o.len = l.length + 1 := by rw [hl.len]; simp
  rw [if_neg (by omega)]
  obtain ⟨o1, e1, s1⟩ := moveUp 0 (-1) (by omega) ((o.len : Int) - 1).toNat 1 o h.base
  have hfun : (fun k : Int => move (V := V) k (k - 1)) = fun k => move (k + 0) (k + -1) := by
    funext k; rw [Int.add_zero, Int.sub_eq_add_neg]
  obtain ⟨o2, e2, s2⟩ := del_ok s1.base (o.len - 1 : Int)
  have hb := h.bound
  obtain ⟨o3, e3, b⟩ := finish h (s1.trans s2) l (o.len - 1) (by omega) (by omega)
    (fun ha => by have := h.arrayLen ha; omega)
    (by
      intro i hi
      simp only [upd, s1.read]
      rw [if_neg (by omega), if_pos (by omega), val_holds hl _ (by omega) (by simp; omega)]
      rw [show ((i : Int) - -1 + 0).toNat = i + 1 from by omega, List.getElem?_cons_succ])
    (by
      intro i hi hi2
      unfold upd
      rw [if_pos (by omega)])
    (by
      intro i hi
      simp only [upd, s1.read]
      rw [if_neg (by omega), if_neg (by omega)])
  refine ⟨o3, ?_, b⟩
  unfold forUp
  rw [hfun]
  simp only [e1, ok_bind, e2, e3]
  rw [get_eq, val_holds hl 0 (by omega) (by simp)]
  simp

theorem unshift_ok {o : Obj V} (h : Plain o) {l : List (Option V)} (hl : Holds o l) (args : List V)
    (h1 : o.len + args.length ≤ 2 ^ 53 - 1)
    (h2 : o.array = true → o.len + args.length < 2 ^ 32) :
    ∃ o', unshift args o = .ok (o.len + args.length, o') ∧ Becomes o o' (args.map some ++ l) := by
  unfold unshift
  have hlen := hl.len
  by_cases hc : 0 < args.length
  · simp only [if_pos hc, if_neg (show ¬ maxInt < o.len + args.length by unfold maxInt; omega)]
    obtain ⟨o1, e1, s1⟩ := moveDown (-1) (args.length - 1 : Int) (by omega) (o.len + 1) o.len o
      h.base
    have hfun : (fun k : Int => move (V := V) (k - 1) (k + args.length - 1)) =
        fun k => move (k + -1) (k + (args.length - 1 : Int)) := by
      funext k; rw [Int.sub_eq_add_neg]; congr 1; omega
    obtain ⟨o2, e2, s2⟩ := assign_ok args 0 o1 s1.base
    obtain ⟨o3, e3, b⟩ := finish h (s1.trans s2) (args.map some ++ l) (o.len + args.length)
      (by simp; omega) (by omega) (fun ha => by have := h2 ha; omega)
      (by
        intro i hi
        simp only [List.length_append, List.length_map] at hi
        simp only [s1.read]
        by_cases hi2 : i < args.length
        · rw [if_pos (by omega), List.getElem?_append_left (by simpa using hi2), List.getElem?_map,
            show ((i : Int) - 0).toNat = i from by omega,
            List.getElem?_eq_getElem (by omega)]
          rfl
        · rw [if_neg (by omega), if_pos (by omega), val_holds hl _ (by omega) (by omega),
            List.getElem?_append_right (by simpa using hi2)]
          congr 2
          simp only [List.length_map]; omega)
      (by intro i hi hi2; simp only [List.length_append] at hi; omega)
      (by
        intro i hi
        simp only [List.length_append, List.length_map] at hi
        simp only [s1.read]
        rw [if_neg (by omega), if_neg (by omega)])
    refine ⟨o3, ?_, b⟩
    unfold forDown
    rw [hfun, show ((o.len : Int) - 0 + 1).toNat = o.len + 1 from by omega]
    simp only [e1, ok_bind, e2, e3]
  · have hnil : args = [] := List.eq_nil_of_length_eq_zero (by omega)
    subst hnil
    simp only [List.length_nil, Nat.lt_irrefl, if_false, Nat.add_zero]
    have hb := h.bound
    obtain ⟨o2, e2, b⟩ := finish h (Steps.refl h.base 0) l o.len hlen (by omega)
      (fun ha => ⟨h.arrayLen ha, by omega⟩)
      (by intro i hi; exact val_holds hl i (by omega) (by omega))
      (by intro i hi hi2; omega) (by intro i hi; rfl)
    refine ⟨o2, ?_, by simpa using b⟩
    simp only [ok_bind, e2]

theorem fill_ok {o : Obj V} (h : Plain o) {l : List (Option V)} (hl : Holds o l) (v : V)
    (start : Num) (fin : Option Num) :
    ∃ o', fill v start fin o = .ok o' ∧
      Becomes o o' (filled l (place l.length start) (placeOr l.length fin) v) := by
  unfold fill forUp
  have hlen := hl.len
  rw [relIdx_eq, relEnd_eq, hlen]
  have h1 := place_le start l.length
  have h2 := placeOr_le fin l.length
  obtain ⟨o1, e1, s1⟩ := setUp (fun _ => v)
    ((placeOr l.length fin : Int) - (place l.length start : Int)).toNat
    (place l.length start) o h.base
  refine ⟨o1, e1, finish' h (s1.congr (fun _ => rfl) (hi' := o.len) (by omega)) _
    (by simp [filled, hlen]) (by omega) ?_ ?_⟩
  · intro i hi
    simp only [filled, List.length_mapIdx] at hi
    unfold filled
    rw [List.getElem?_mapIdx, List.getElem?_eq_getElem hi]
    by_cases hc : place l.length start ≤ i ∧ i < placeOr l.length fin
    · rw [if_pos (by omega)]; simp [hc]
    · rw [if_neg (by omega), val_holds hl i (by omega) (by omega)]
      simp only [Option.map_some, if_neg hc]
      rw [show ((i : Int)).toNat = i from rfl, List.getElem?_eq_getElem hi]
  · intro i hi; rw [if_neg (by omega)]

theorem copyWithin_ok {o : Obj V} (h : Plain o) {l : List (Option V)} (hl : Holds o l)
    (target start : Num) (fin : Option Num) :
    ∃ o', copyWithin target start fin o = .ok o' ∧
      Becomes o o' (copied l (place l.length start) (place l.length target)
        (min (placeOr l.length fin - place l.length start)
          (l.length - place l.length target))) := by
  unfold copyWithin
  have hlen := hl.len
  rw [relIdx_eq, relEnd_eq, relIdx_eq, hlen]
  have h1 := place_le start l.length
  have h2 := placeOr_le fin l.length
  have h3 := place_le target l.length
  generalize place l.length start = src at *
  generalize placeOr l.length fin = final at *
  generalize place l.length target = dst at *
  simp only
  have hcnt : (min ((final : Int) - (src : Int)) ((l.length : Int) - (dst : Int))).toNat =
      min (final - src) (l.length - dst) := by omega
  rw [hcnt]
  generalize hn : min (final - src) (l.length - dst) = n
  have hcl : o.len = (copied l src dst n).length := by
    simp only [copied, List.length_append, List.length_take, List.length_drop]; omega
  have hlist : ∀ (o1 : Obj V), Steps o o1
      (fun i => if (dst : Int) ≤ i ∧ i < dst + n then val o (i - dst + src) else val o i) o.len →
      Becomes o o1 (copied l src dst n) := by
    intro o1 s1
    refine finish' h s1 _ hcl (Int.le_refl _) ?_ (by intro i hi; rw [if_neg (by omega)])
    intro i hi
    rw [← hcl] at hi
    unfold copied
    by_cases hi1 : i < dst
    · rw [if_neg (by omega), val_holds hl i (by omega) (by omega),
        List.getElem?_append_left (by simp; omega), List.getElem?_append_left (by simp; omega),
        List.getElem?_take_of_lt (by omega)]
      rfl
    · by_cases hi2 : i < dst + n
      · rw [if_pos (by omega), val_holds hl _ (by omega) (by omega),
          List.getElem?_append_left (by simp; omega), List.getElem?_append_right (by simp; omega),
          List.getElem?_take_of_lt (by simp; omega), List.getElem?_drop]
        congr 2
        simp only [List.length_take]; omega
      · rw [if_neg (by omega), val_holds hl i (by omega) (by omega),
          List.getElem?_append_right (by simp; omega), List.getElem?_drop]
        congr 2
        simp only [List.length_append, List.length_take, List.length_drop]; omega
  have hfun : (fun i : Int => move (V := V) (src + i) (dst + i)) =
      fun k => move (k + src) (k + dst) := by
    funext k; rw [Int.add_comm, Int.add_comm (dst : Int)]
  rw [hfun]
  by_cases hdir : (src : Int) < dst ∧ (dst : Int) < src + min ((final : Int) - src) (l.length - dst)
  · rw [if_pos hdir]
    obtain ⟨o1, e1, s1⟩ := moveDown (src : Int) (dst : Int) (by omega) n
      (min ((final : Int) - src) (l.length - dst) - 1) o h.base
    refine ⟨o1, e1, hlist o1 (s1.congr ?_ (by omega))⟩
    intro i
    by_cases hc : (dst : Int) ≤ i ∧ i < dst + n
    · rw [if_pos hc, if_pos (by omega)]
    · rw [if_neg hc, if_neg (by omega)]
  · rw [if_neg hdir]
    by_cases hsd : (dst : Int) ≤ src
    · obtain ⟨o1, e1, s1⟩ := moveUp (src : Int) (dst : Int) hsd n 0 o h.base
      refine ⟨o1, e1, hlist o1 (s1.congr ?_ (by omega))⟩
      intro i
      by_cases hc : (dst : Int) ≤ i ∧ i < dst + n
      · rw [if_pos hc, if_pos (by omega)]
      · rw [if_neg hc, if_neg (by omega)]
    · obtain ⟨o1, e1, s1⟩ := moveApart (src : Int) (dst : Int) n 0 o h.base (by omega)
      refine ⟨o1, e1, hlist o1 (s1.congr ?_ (by omega))⟩
      intro i
      by_cases hc : (dst : Int) ≤ i ∧ i < dst + n
      · rw [if_pos hc, if_pos (by omega)]
      · rw [if_neg hc, if_neg (by omega)]

end

end Verif.ArrayOps

import Verif.Lemmas.ArrayOpsSplice
/-! The methods that leave the array as it is. -/
namespace Verif.ArrayOps
open Spec

variable {V : Type}

section
variable [Inhabited V]

theorem slice_ok {o : Obj V} {l : List (Option V)} (hl : Holds o l) (start : Num) (fin : Option Num)
    (hn : placeOr l.length fin - place l.length start < 2 ^ 32) :
    ∃ a, slice start fin o = .ok a ∧
      Fresh a ((l.take (placeOr l.length fin)).drop (place l.length start)) := by
  unfold slice
  rw [hl.len, relIdx_eq, relEnd_eq]
  have h1 := placeOr_le fin l.length
  generalize place l.length start = k at *
  generalize placeOr l.length fin = final at *
  simp only
  have e1 : (if (final : Int) < k then 0 else (final : Int) - k).toNat = final - k := by
    split <;> omega
  have e2 : ((final : Int) - k).toNat = final - k := by omega
  rw [e1, e2]
  obtain ⟨a0, ea, pa, ha, la, va⟩ := newArray_ok (V := V) (final - k) hn
  by_cases hk : k ≤ l.length
  · obtain ⟨a1, a2, ea1, ea2, fr⟩ := copyOut_ok hl k (final - k) (by omega) pa ha la va hn
    refine ⟨a2, by simp only [ea, ok_bind, ea1, ea2], ?_⟩
    rw [List.drop_take]; exact fr
  · rw [show final - k = 0 from by omega] at *
    obtain ⟨a1, a2, ea1, ea2, fr⟩ := copyOut_ok hl 0 0 (by omega) pa ha la va hn
    refine ⟨a2, ?_, ?_⟩
    · simp only [ea, ok_bind]
      have : copyOut o k 0 a0 = copyOut o (0 : Nat) 0 a0 := rfl
      rw [this, ea1, ok_bind, ea2]
    · rw [List.drop_eq_nil_of_le (by simp; omega)]; exact fr

theorem concatLoop_ok (items : List (Src V)) (ls : List (List (Option V)))
    (h : Parts items ls) :
    ∀ (n : Nat) (a : Obj V), Base a → (∀ i : Int, (n : Int) ≤ i → val a i = none) →
    n + ls.flatten.length ≤ 2 ^ 53 - 1 →
    ∃ a', concatLoop items n a = .ok (n + ls.flatten.length, a') ∧
      Steps a a' (fun i => if (n : Int) ≤ i ∧ i < n + ls.flatten.length
        then (ls.flatten[(i - n).toNat]?).join else val a i) (n + ls.flatten.length) := by
  induction h with
  | nil =>
    intro n a hb hv _
    refine ⟨a, rfl, (Steps.refl hb _).congr ?_ (Int.le_refl _)⟩
    intro i; rw [if_neg (by simp only [List.flatten_nil, List.length_nil]; omega)]
  | @cons it l items ls hp _ ih =>
    intro n a hb hv hn
    simp only [List.flatten_cons, List.length_append] at hn ⊢
    have hstep : ∃ a1, (∀ rest, concatLoop (it :: rest) n a = concatLoop rest (n + l.length) a1) ∧
        Steps a a1 (fun i => if (n : Int) ≤ i ∧ i < n + l.length then (l[(i - n).toNat]?).join
          else val a i) (n + l.length) := by
      cases hp with
      | one v =>
        obtain ⟨a1, e1, s1⟩ := create_ok hb (n : Int) v
        refine ⟨a1, ?_, s1.congr ?_ (by simp)⟩
        · intro rest
          rw [concatLoop]
          rw [if_neg (by unfold maxInt; simp at hn; omega), e1, ok_bind]
          rfl
        · intro i; unfold upd
          by_cases hi : i = n
          · rw [if_pos hi, if_pos (by simp; omega), hi]; simp
          · rw [if_neg hi, if_neg (by simp; omega)]
      | many e l he =>
        have hfun : (fun (k : Int) (a : Obj V) =>
            if has e k then create a (n + k) (get e k) else .ok a) = makeAt (val e) (n : Int) := by
          funext k b
          unfold makeAt
          rw [has_eq, get_eq]
          cases hv : val e k <;> simp
        obtain ⟨a1, e1, s1⟩ := makeUp (val e) (n : Int) e.len 0 a hb
        refine ⟨a1, ?_, s1.congr ?_ (by rw [he.len]; omega)⟩
        · intro rest
          rw [concatLoop]
          rw [if_neg (by unfold maxInt; rw [he.len]; omega), hfun, e1, ok_bind, he.len]
        · intro i
          rw [he.len]
          by_cases hi : (n : Int) ≤ i ∧ i < n + l.length
          · rw [if_pos (by omega), if_pos hi, hv i hi.1, Option.or_none,
              val_holds he _ (by omega) (by omega)]
          · rw [if_neg (by omega), if_neg hi]
    obtain ⟨a1, e1, s1⟩ := hstep
    obtain ⟨a2, e2, s2⟩ := ih (n + l.length) a1 s1.base
      (by intro i hi; rw [s1.read, if_neg (by omega)]; exact hv i (by omega)) (by omega)
    refine ⟨a2, by rw [e1, e2, Nat.add_assoc], (s1.trans s2).congr ?_ (by omega)⟩
    intro i
    simp only [s1.read]
    by_cases hi1 : (n : Int) ≤ i ∧ i < n + l.length
    · rw [if_neg (by omega), if_pos hi1, if_pos (by omega), List.getElem?_append_left (by omega)]
    · by_cases hi2 : ((n + l.length : Nat) : Int) ≤ i ∧ i < (n + l.length : Nat) + ls.flatten.length
      · rw [if_pos hi2, if_pos (by omega), List.getElem?_append_right (by omega)]
        congr 2; omega
      · rw [if_neg hi2, if_neg hi1, if_neg (by omega)]

theorem concat_ok (items : List (Src V)) (ls : List (List (Option V)))
    (h : Parts items ls) (hn : ls.flatten.length < 2 ^ 32) :
    ∃ a, concat items = .ok a ∧ Fresh a ls.flatten := by
  unfold concat
  obtain ⟨a0, ea, pa, ha, la, va⟩ := newArray_ok (V := V) 0 (by omega)
  obtain ⟨a1, e1, s1⟩ := concatLoop_ok items ls h 0 a0 pa.base (fun i _ => val_none.2 (va i))
    (by omega)
  obtain ⟨a2, e2, b⟩ := finish pa s1 ls.flatten (0 + ls.flatten.length) (by omega) (by omega)
    (fun _ => by omega)
    (by
      intro i hi
      rw [if_pos (by omega)]
      congr 2)
    (by intro i hi hi2; rw [la] at hi2; omega)
    (by intro i hi; rw [if_neg (by omega)])
  refine ⟨a2, ?_, fresh_of_becomes ha va b⟩
  simp only [ea, ok_bind, e1, e2]

omit [Inhabited V] in
/-- A new array of a given length, all of its elements made. -/
theorem build {a a1 : Obj V} (pa : Plain a) (ha : a.array = true) (va : ∀ i, a.elem i = none)
    (l : List (Option V)) (hl : a.len = l.length) {f : Int → Option V} {hi : Int}
    (s : Steps a a1 f hi) (hhi : hi ≤ a.len)
    (hin : ∀ i : Nat, i < l.length → f i = (l[i]?).join)
    (hoth : ∀ i : Int, i < 0 ∨ (a.len : Int) ≤ i → f i = val a i) : Fresh a1 l :=
  fresh_of_becomes ha va (finish' pa s l hl hhi hin hoth)

theorem dense_get {o : Obj V} {l : List (Option V)} (hl : Holds o l) (i : Int) (h0 : 0 ≤ i)
    (h1 : i < l.length) : some (get o i) = ((dense l)[i.toNat]?).join := by
  rw [get_eq, val_holds hl i h0 h1]
  unfold dense
  rw [List.getElem?_map, List.getElem?_eq_getElem (by omega)]
  rfl

omit [Inhabited V] in
theorem makeAt_some (g : Int → V) :
    (fun (k : Int) (a : Obj V) => create a k (g k)) = makeAt (fun k => some (g k)) 0 := by
  funext k a
  unfold makeAt
  rw [Int.zero_add]

theorem toReversed_ok {o : Obj V} {l : List (Option V)} (hl : Holds o l) (hn : l.length < 2 ^ 32) :
    ∃ a, toReversed o = .ok a ∧ Fresh a (dense l).reverse := by
  unfold toReversed forUp
  have hlen := hl.len
  obtain ⟨a0, ea, pa, ha, la, va⟩ := newArray_ok (V := V) o.len (by omega)
  rw [makeAt_some (fun k => get o (o.len - k - 1))]
  obtain ⟨a1, e1, s1⟩ := makeUp (fun k => some (get o (o.len - k - 1))) 0 ((o.len : Int) - 0).toNat 0
    a0 pa.base
  refine ⟨a1, by rw [ea, ok_bind, e1], build pa ha va _ (by simp [dense, la, hlen]) s1 (by omega) ?_ ?_⟩
  · intro i hi
    simp only [List.length_reverse, dense, List.length_map] at hi
    rw [if_pos (by omega), Option.some_or, dense_get hl _ (by omega) (by omega),
      List.getElem?_reverse (by simpa [dense] using hi)]
    congr 2
    simp only [dense, List.length_map]; omega
  · intro i hi; rw [if_neg (by omega)]

theorem with_ok {o : Obj V} {l : List (Option V)} (hl : Holds o l) (hn : l.length < 2 ^ 32)
    (index : Num) (v : V) (k : Nat) (hk : exact l.length index = some k) :
    ∃ a, with' index v o = .ok a ∧ Fresh a ((dense l).set k (some v)) := by
  have hlen := hl.len
  have hidx : actIndex index o.len = .ok (k : Int) ∧ k < l.length := by
    unfold actIndex
    unfold exact at hk
    split at hk
    · next n =>
      split at hk
      · cases hk
        refine ⟨?_, by assumption⟩
        rw [if_pos (by simp [Num.nonneg])]
        unfold toI64
        simp only [Int.ofNat_eq_natCast]
        rw [if_pos (by omega)]
      · cases hk
    · next n =>
      split at hk
      · next hlt =>
        cases hk
        refine ⟨?_, by omega⟩
        rw [if_neg (by simp [Num.nonneg])]
        unfold Num.addLen toI64
        simp only
        rw [if_pos (by omega)]
        congr 1; omega
      · cases hk
    · cases hk
  unfold with' forUp
  obtain ⟨a0, ea, pa, ha, la, va⟩ := newArray_ok (V := V) o.len (by omega)
  rw [hidx.1, ok_bind, if_neg (by omega), ea, ok_bind,
    makeAt_some (fun i => if i = (k : Int) then v else get o i)]
  obtain ⟨a1, e1, s1⟩ := makeUp (fun i => some (if i = (k : Int) then v else get o i)) 0
    ((o.len : Int) - 0).toNat 0 a0 pa.base
  refine ⟨a1, e1, build pa ha va _ (by simp [dense, la, hlen]) s1 (by omega) ?_ ?_⟩
  · intro i hi
    simp only [List.length_set, dense, List.length_map] at hi
    rw [if_pos (by omega), Option.some_or, List.getElem?_set]
    by_cases hik : k = i
    · subst hik
      rw [if_pos rfl, if_pos (by omega), if_pos (by rw [show (dense l).length = l.length from by simp [dense]]; omega)]; rfl
    · rw [if_neg hik, if_neg (by omega), dense_get hl _ (by omega) (by omega)]
      rfl
  · intro i hi; rw [if_neg (by omega)]

theorem with_range {o : Obj V} {l : List (Option V)} (hl : Holds o l) (hb : l.length < 2 ^ 53)
    (index : Num) (v : V) (hf : ∃ n, index = .fin n ∧ -(2 ^ 63) ≤ n ∧ n < 2 ^ 63)
    (hk : exact l.length index = none) :
    with' index v o = .error .range := by
  obtain ⟨n, rfl, h1, h2⟩ := hf
  have hlen := hl.len
  unfold with' actIndex
  cases n with
  | ofNat n =>
    rw [if_pos (by simp [Num.nonneg])]
    unfold exact at hk
    simp only at hk
    split at hk
    · cases hk
    · unfold toI64
      simp only
      rw [if_pos ⟨h1, h2⟩, ok_bind, if_pos (by simp only [Int.ofNat_eq_natCast]; omega)]
  | negSucc n =>
    rw [if_neg (by simp [Num.nonneg])]
    unfold exact at hk
    simp only at hk
    split at hk
    · cases hk
    · unfold Num.addLen toI64
      simp only
      rw [if_pos (by omega), ok_bind, if_pos (by omega)]

theorem at_ok {o : Obj V} {l : List (Option V)} (hl : Holds o l) (index : Num) :
    at' index o = (((exact l.length index).bind fun k => (l[k]?).join)).getD default := by
  have hlen := hl.len
  unfold at' exact
  cases index with
  | pinf => rfl
  | ninf => rfl
  | fin n =>
    cases n with
    | ofNat n =>
      have hk : (if (0 : Int) ≤ Int.ofNat n then Int.ofNat n else (o.len : Int) + Int.ofNat n) = n :=
        if_pos (by simp)
      simp only [hk]
      by_cases hc : n < l.length
      · simp only [if_pos hc, Option.bind_some]
        rw [if_neg (by omega), get_eq, val_holds hl _ (by omega) (by omega)]
        rfl
      · simp only [if_neg hc, Option.bind_none]
        rw [if_pos (by omega)]
        rfl
    | negSucc n =>
      have hk : (if (0 : Int) ≤ Int.negSucc n then Int.negSucc n else (o.len : Int) + Int.negSucc n)
          = o.len + Int.negSucc n := if_neg (by omega)
      simp only [hk]
      by_cases hc : n < l.length
      · simp only [if_pos hc, Option.bind_some]
        rw [if_neg (by omega), get_eq, val_holds hl _ (by omega) (by omega),
          show ((o.len : Int) + Int.negSucc n).toNat = l.length - (n + 1) from by omega]
      · simp only [if_neg hc, Option.bind_none]
        rw [if_pos (by omega)]
        rfl

theorem toSpliced_ok {o : Obj V} {l : List (Option V)} (hl : Holds o l)
    (args : SpliceArgs V) (s c : Nat) (hs : s = startOf l.length args)
    (hc : c = removed l.length s args)
    (h2 : l.length - c + (inserted args).length < 2 ^ 32) :
    ∃ a, toSpliced args o = .ok a ∧
      Fresh a (replaced (dense l) s c ((inserted args).map some)) := by
  have hlen := hl.len
  obtain ⟨q1, q2, q3, q4⟩ := count_eq args l.length
  rw [← hs] at q1 q2 q3
  rw [← hc] at q2 q3
  unfold toSpliced forUp
  rw [hlen, q1, q2, q4]
  simp only
  generalize inserted args = items at *
  rw [if_neg (by unfold maxInt; omega)]
  rw [show ((l.length : Int) - c + items.length).toNat = l.length - c + items.length from by omega]
  obtain ⟨a0, ea, pa, ha, la, va⟩ := newArray_ok (V := V) (l.length - c + items.length) h2
  rw [makeAt_some (fun i => get o i),
    makeAt_some (fun i => get o (i - ((s : Int) + items.length) + (s + c)))]
  obtain ⟨a1, e1, s1⟩ := makeUp (fun i => some (get o i)) 0 ((s : Int) - 0).toNat 0 a0 pa.base
  obtain ⟨a2, e2, s2⟩ := createAll_ok items (s : Int) a1 s1.base
  obtain ⟨a3, e3, s3⟩ := makeUp (fun i => some (get o (i - ((s : Int) + items.length) + (s + c)))) 0
    ((l.length : Int) - c + items.length - (s + items.length)).toNat (s + items.length) a2 s2.base
  refine ⟨a3, by simp only [ea, ok_bind, e1, e2, e3], build pa ha va _ ?_ ((s1.trans s2).trans s3)
    (by omega) ?_ ?_⟩
  · simp only [la, replaced, dense, List.length_append, List.length_take, List.length_drop,
      List.length_map]; omega
  · intro i hi
    simp only [replaced, dense, List.length_append, List.length_take, List.length_drop,
      List.length_map] at hi
    simp only [s1.read, s2.read]
    have hdl : (dense l).length = l.length := by simp [dense]
    unfold replaced
    by_cases hi1 : i < s
    · rw [if_neg (by omega), if_neg (by omega), if_pos (by omega), Option.some_or,
        dense_get hl _ (by omega) (by omega),
        List.getElem?_append_left (by simp [hdl]; omega), List.getElem?_append_left (by simp [hdl]; omega),
        List.getElem?_take_of_lt hi1]
      rfl
    · by_cases hi2 : i < s + items.length
      · rw [if_neg (by omega), if_pos (by omega), List.getElem?_append_left (by simp [hdl]; omega),
          List.getElem?_append_right (by simp [hdl]; omega), List.getElem?_map,
          show i - (List.take s (dense l)).length = ((i : Int) - s).toNat from by simp [hdl]; omega,
          List.getElem?_eq_getElem (by omega)]
        rfl
      · rw [if_pos (by omega), Option.some_or, dense_get hl _ (by omega) (by omega),
          List.getElem?_append_right (by simp [hdl]; omega), List.getElem?_drop]
        congr 2
        simp only [List.length_append, List.length_take, List.length_map, hdl]; omega
  · intro i hi
    simp only [s1.read, s2.read]
    rw [if_neg (by omega), if_neg (by omega), if_neg (by omega)]

/-! ## Searching -/

omit [Inhabited V] in
theorem searchUp_some (p : Int → Bool) (n : Nat) :
    ∀ k r, searchUp p n k = some r → k ≤ r ∧ r < k + n ∧ p r = true ∧ ∀ i, k ≤ i → i < r → p i = false := by
  induction n with
  | zero => intro k r h; cases h
  | succ n ih =>
    intro k r h
    unfold searchUp at h
    split at h
    · next hp => cases h; exact ⟨by omega, by omega, hp, fun i h1 h2 => by omega⟩
    · next hp =>
      obtain ⟨h1, h2, h3, h4⟩ := ih _ _ h
      refine ⟨by omega, by omega, h3, fun i hi1 hi2 => ?_⟩
      by_cases hik : i = k
      · subst hik; simpa using hp
      · exact h4 i (by omega) hi2

omit [Inhabited V] in
theorem searchUp_none (p : Int → Bool) (n : Nat) :
    ∀ k, searchUp p n k = none → ∀ i, k ≤ i → i < k + n → p i = false := by
  induction n with
  | zero => intro k _ i h1 h2; omega
  | succ n ih =>
    intro k h i h1 h2
    unfold searchUp at h
    split at h
    · cases h
    · next hp =>
      by_cases hik : i = k
      · subst hik; simpa using hp
      · exact ih _ h i (by omega) (by omega)

omit [Inhabited V] in
theorem searchDown_some (p : Int → Bool) (n : Nat) :
    ∀ k r, searchDown p n k = some r →
      k - n < r ∧ r ≤ k ∧ p r = true ∧ ∀ i, r < i → i ≤ k → p i = false := by
  induction n with
  | zero => intro k r h; cases h
  | succ n ih =>
    intro k r h
    unfold searchDown at h
    split at h
    · next hp => cases h; exact ⟨by omega, by omega, hp, fun i h1 h2 => by omega⟩
    · next hp =>
      obtain ⟨h1, h2, h3, h4⟩ := ih _ _ h
      refine ⟨by omega, by omega, h3, fun i hi1 hi2 => ?_⟩
      by_cases hik : i = k
      · subst hik; simpa using hp
      · exact h4 i (by omega) (by omega)

omit [Inhabited V] in
theorem searchDown_none (p : Int → Bool) (n : Nat) :
    ∀ k, searchDown p n k = none → ∀ i, k - n < i → i ≤ k → p i = false := by
  induction n with
  | zero => intro k _ i h1 h2; omega
  | succ n ih =>
    intro k h i h1 h2
    unfold searchDown at h
    split at h
    · cases h
    · next hp =>
      by_cases hik : i = k
      · subst hik; simpa using hp
      · exact ih _ h i (by omega) (by omega)

omit [Inhabited V] in
/-- Where the search starts: an infinite start is beyond the end. -/
theorem searchFrom_ok (n : Num) (len : Nat) (hb : len ≤ 2 ^ 53) (hf : Fits n) :
    (searchFrom n len = .ok none ∧ place len n = len) ∨
    ∃ k : Nat, searchFrom n len = .ok (some (k : Int)) ∧
      (k = place len n ∨ (len ≤ k ∧ place len n = len)) := by
  unfold searchFrom
  cases n with
  | pinf => exact Or.inl ⟨rfl, rfl⟩
  | ninf => exact Or.inr ⟨0, rfl, Or.inl rfl⟩
  | fin m =>
    obtain ⟨h1, h2⟩ := hf
    cases m with
    | ofNat m =>
      refine Or.inr ⟨m, ?_, ?_⟩
      · simp only
        rw [if_pos (by simp)]
        unfold toI64
        simp only
        rw [if_pos ⟨h1, h2⟩]
        rfl
      · simp only [place]; omega
    | negSucc m =>
      refine Or.inr ⟨len - (m + 1), ?_, Or.inl rfl⟩
      simp only
      rw [if_neg (by omega)]
      unfold toI64
      simp only
      rw [if_pos (by omega), ok_bind]
      split
      · congr 2; omega
      · congr 2; omega

theorem found_iff {eq : V → V → Bool} {x : V} {o : Obj V} {l : List (Option V)} (hl : Holds o l)
    {i : Nat} (hi : i < l.length) :
    (has o (i : Int) && eq (get o i) x) = true ↔ Found eq x l i := by
  have hv := val_holds hl (i : Int) (by omega) (by omega)
  rw [has_eq, get_eq, hv]
  unfold Found
  rw [show ((i : Int)).toNat = i from by omega, List.getElem?_eq_getElem hi]
  cases hc : l[i] with
  | none => simp
  | some v => simp

theorem includes_ok (eq : V → V → Bool) (x : V) (from' : Num) {o : Obj V} {l : List (Option V)}
    (hl : Holds o l) (hb : l.length ≤ 2 ^ 53) (hf : Fits from') :
    ∃ b, includes eq x from' o = .ok b ∧
      (b = true ↔ ∃ i, place l.length from' ≤ i ∧ ∃ h : i < l.length,
        eq (l[i].getD default) x = true) := by
  have hlen := hl.len
  have hp := place_le from' l.length
  have hget : ∀ i : Nat, (h : i < l.length) → get o (i : Int) = l[i].getD default := by
    intro i h
    rw [get_eq, val_holds hl (i : Int) (by omega) (by omega), Int.toNat_natCast,
      List.getElem?_eq_getElem h]
    rfl
  unfold includes
  by_cases h0 : o.len = 0
  · rw [if_pos h0]
    refine ⟨false, rfl, by simp, ?_⟩
    rintro ⟨i, _, h, _⟩; omega
  rw [if_neg h0, hlen]
  rcases searchFrom_ok from' l.length hb hf with ⟨e, he⟩ | ⟨k, e, he⟩
  · rw [e, ok_bind]
    refine ⟨false, rfl, by simp, ?_⟩
    rintro ⟨i, _, h, _⟩; omega
  · rw [e, ok_bind]
    refine ⟨_, rfl, ?_⟩
    cases hs : searchUp (fun k => eq (get o k) x) ((l.length : Int) - k).toNat k with
    | none =>
      have hn := searchUp_none _ _ _ hs
      refine ⟨by simp, ?_⟩
      rintro ⟨i, h1, h, h2⟩
      have := hn (i : Int) (by omega) (by omega)
      simp only [hget i h, h2] at this
      cases this
    | some r =>
      obtain ⟨h1, h2, h3, _⟩ := searchUp_some _ _ _ _ hs
      refine ⟨fun _ => ⟨r.toNat, by omega, by omega, ?_⟩, fun _ => rfl⟩
      rw [← hget r.toNat (by omega), show ((r.toNat : Nat) : Int) = r from by omega]
      exact h3

theorem indexOf_ok (eq : V → V → Bool) (x : V) (from' : Num) {o : Obj V} {l : List (Option V)}
    (hl : Holds o l) (hb : l.length ≤ 2 ^ 53) (hf : Fits from') :
    ∃ r, indexOf eq x from' o = .ok r ∧
      ((∃ i : Nat, r = i ∧ place l.length from' ≤ i ∧ Found eq x l i ∧
          ∀ j, place l.length from' ≤ j → j < i → ¬ Found eq x l j) ∨
        (r = -1 ∧ ∀ j, place l.length from' ≤ j → ¬ Found eq x l j)) := by
  have hlen := hl.len
  have hp := place_le from' l.length
  have hfl : ∀ j, Found eq x l j → j < l.length := by
    rintro j ⟨v, hv, _⟩
    exact (List.getElem?_eq_some_iff.1 hv).1
  unfold indexOf
  by_cases h0 : o.len = 0
  · rw [if_pos h0]
    refine ⟨-1, rfl, Or.inr ⟨rfl, fun j _ hj => ?_⟩⟩
    have := hfl j hj; omega
  rw [if_neg h0, hlen]
  rcases searchFrom_ok from' l.length hb hf with ⟨e, he⟩ | ⟨k, e, he⟩
  · rw [e, ok_bind]
    refine ⟨-1, rfl, Or.inr ⟨rfl, fun j hj1 hj => ?_⟩⟩
    have := hfl j hj; omega
  · rw [e, ok_bind]
    refine ⟨_, rfl, ?_⟩
    cases hs : searchUp (fun k => has o k && eq (get o k) x) ((l.length : Int) - k).toNat k with
    | none =>
      have hn := searchUp_none _ _ _ hs
      refine Or.inr ⟨rfl, fun j hj1 hj => ?_⟩
      have hjl := hfl j hj
      have := hn (j : Int) (by omega) (by omega)
      rw [(found_iff hl hjl).2 hj] at this
      cases this
    | some r =>
      obtain ⟨h1, h2, h3, h4⟩ := searchUp_some _ _ _ _ hs
      have hr : ((r.toNat : Nat) : Int) = r := by omega
      refine Or.inl ⟨r.toNat, by rw [hr]; rfl, by omega, ?_, ?_⟩
      · rw [← found_iff hl (by omega), hr]; exact h3
      · intro j hj1 hj2 hj
        have := h4 (j : Int) (by omega) (by omega)
        rw [(found_iff hl (by omega)).2 hj] at this
        cases this

omit [Inhabited V] in
theorem lastFrom_ok (from' : Option Num) (len : Nat) (h0 : len ≠ 0) (hb : len ≤ 2 ^ 53)
    (hf : ∀ n, from' = some n → Fits n) :
    ∃ k, lastFrom from' len = .ok k ∧ (k + 1).toNat = front len from' ∧ k < len := by
  unfold lastFrom
  cases from' with
  | none =>
    simp only [Option.getD_none]
    rw [if_pos (by omega)]
    exact ⟨_, rfl, by simp only [front]; omega, by omega⟩
  | some n =>
    simp only [Option.getD_some]
    cases n with
    | pinf => exact ⟨_, rfl, by simp only [front]; omega, by omega⟩
    | ninf => exact ⟨_, rfl, by simp only [front]; omega, by omega⟩
    | fin m =>
      obtain ⟨h1, h2⟩ := hf _ rfl
      cases m with
      | ofNat m =>
        simp only
        rw [if_pos (by simp)]
        exact ⟨_, rfl, by simp only [front, Int.ofNat_eq_natCast]; omega, by omega⟩
      | negSucc m =>
        simp only
        rw [if_neg (by omega)]
        unfold toI64
        simp only
        rw [if_pos (by omega)]
        exact ⟨_, rfl, by simp only [front]; omega, by omega⟩

theorem lastIndexOf_ok (eq : V → V → Bool) (x : V) (from' : Option Num) {o : Obj V}
    {l : List (Option V)} (hl : Holds o l) (hb : l.length ≤ 2 ^ 53)
    (hf : ∀ n, from' = some n → Fits n) :
    ∃ r, lastIndexOf eq x from' o = .ok r ∧
      ((∃ i : Nat, r = i ∧ i < front l.length from' ∧ Found eq x l i ∧
          ∀ j, i < j → j < front l.length from' → ¬ Found eq x l j) ∨
        (r = -1 ∧ ∀ j, j < front l.length from' → ¬ Found eq x l j)) := by
  have hlen := hl.len
  have hfl : ∀ j, Found eq x l j → j < l.length := by
    rintro j ⟨v, hv, _⟩
    exact (List.getElem?_eq_some_iff.1 hv).1
  unfold lastIndexOf
  by_cases h0 : o.len = 0
  · rw [if_pos h0]
    refine ⟨-1, rfl, Or.inr ⟨rfl, fun j _ hj => ?_⟩⟩
    have := hfl j hj; omega
  obtain ⟨k, e, hk, hkl⟩ := lastFrom_ok from' l.length (by omega) hb hf
  rw [if_neg h0, hlen, e, ok_bind]
  refine ⟨_, rfl, ?_⟩
  cases hs : searchDown (fun k => has o k && eq (get o k) x) (k + 1).toNat k with
  | none =>
    have hn := searchDown_none _ _ _ hs
    refine Or.inr ⟨rfl, fun j hj1 hj => ?_⟩
    have := hn (j : Int) (by omega) (by omega)
    rw [(found_iff hl (hfl j hj)).2 hj] at this
    cases this
  | some r =>
    obtain ⟨h1, h2, h3, h4⟩ := searchDown_some _ _ _ _ hs
    have hr : ((r.toNat : Nat) : Int) = r := by omega
    refine Or.inl ⟨r.toNat, by rw [hr]; rfl, by omega, ?_, ?_⟩
    · rw [← found_iff hl (by omega), hr]; exact h3
    · intro j hj1 hj2 hj
      have := h4 (j : Int) (by omega) (by omega)
      rw [(found_iff hl (by omega)).2 hj] at this
      cases this

/-! ## `join` -/

theorem joinLoop_ok (str : V → Option (List Nat)) (sep : List Nat) {o : Obj V} (n : Nat) :
    ∀ (k : Nat) (ls : List (Option V)), ls.length = n →
    (∀ i (h : i < ls.length), get o ((k + i : Nat) : Int) = ls[i].getD default) →
    joinLoop str sep o n k = (if 0 < k ∧ 0 < n then sep else []) ++
      List.intercalate sep (ls.map fun x => (str (x.getD default)).getD []) := by
  induction n with
  | zero =>
    intro k ls hn _
    cases ls with
    | nil => simp [joinLoop]
    | cons => cases hn
  | succ n ih =>
    intro k ls hn hg
    cases ls with
    | nil => cases hn
    | cons x t =>
      unfold joinLoop
      have h0 := hg 0 (by simp)
      simp only [Nat.add_zero, List.getElem_cons_zero] at h0
      rw [h0, ih (k + 1) t (by simpa using hn) (by
        intro i hi
        have := hg (i + 1) (by simp only [List.length_cons]; omega)
        simp only [List.getElem_cons_succ] at this
        rw [← this, show k + 1 + i = k + (i + 1) from by omega])]
      cases t with
      | nil =>
        simp only [List.length_cons, List.length_nil] at hn
        rw [show n = 0 from by omega]
        by_cases hk : 0 < k <;> simp [hk]
      | cons y t =>
        have : 0 < n := by simp only [List.length_cons] at hn; omega
        by_cases hk : 0 < k <;> simp [hk, this, List.intercalate, List.intersperse]

theorem join_ok (str : V → Option (List Nat)) (sep : Option (List Nat)) {o : Obj V}
    {l : List (Option V)} (hl : Holds o l) :
    join str sep o = List.intercalate (sep.getD [44])
      (l.map fun x => (str (x.getD default)).getD []) := by
  unfold join
  rw [joinLoop_ok str _ o.len 0 l hl.len.symm (by
    intro i h
    rw [get_eq, val_holds hl _ (by omega) (by omega), Int.toNat_natCast, Nat.zero_add,
      List.getElem?_eq_getElem h]
    rfl)]
  simp

end

/-! ## `flat` -/

mutual
/-- What `flattenInto` appends. -/
def flatOut (d : Depth) : Items V → List (Item V)
  | .nil => []
  | .hole t => flatOut d t
  | .cons h t => flatItem d h ++ flatOut d t
def flatItem (d : Depth) : Item V → List (Item V)
  | .arr l => if d = .fin 0 then [.arr l] else flatOut d.pred l
  | .val v => [.val v]
end

/-- `flattenInto` appends `out`. -/
def Appends (s : FlatState V) (r : Except Err (FlatState V)) (out : List (Item V)) : Prop :=
  s.1 + out.length ≤ 2 ^ 53 - 1 →
    ∃ a', r = .ok (s.1 + out.length, a') ∧
      Steps s.2 a' (fun i => if (s.1 : Int) ≤ i ∧ i < s.1 + out.length
        then out[(i - s.1).toNat]? else val s.2 i) (s.1 + out.length)

theorem append_one (s : FlatState V) (hb : Base s.2) (x : Item V) :
    Appends s (if maxInt ≤ s.1 then .error .type
      else do
        let a ← create s.2 s.1 x
        .ok (s.1 + 1, a)) [x] := by
  intro hn
  obtain ⟨a1, e1, s1⟩ := create_ok hb (s.1 : Int) x
  refine ⟨a1, ?_, s1.congr ?_ (by simp)⟩
  · rw [if_neg (by unfold maxInt; simp at hn; omega), e1, ok_bind]
    rfl
  · intro i; unfold upd
    by_cases hi : i = s.1
    · rw [if_pos hi, if_pos (by simp; omega), hi]; simp
    · rw [if_neg hi, if_neg (by simp; omega)]

mutual
theorem flattenInto_ok (l : Items V) : ∀ (d : Depth) (s : FlatState V), Base s.2 →
    Appends s (flattenInto d l s) (flatOut d l) := by
  match l with
  | .nil =>
    intro d s hb _
    refine ⟨s.2, ?_, (Steps.refl hb _).congr ?_ (Int.le_refl _)⟩
    · unfold flattenInto flatOut; rfl
    · intro i; rw [if_neg (by simp only [flatOut, List.length_nil]; omega)]
  | .hole t =>
    intro d s hb
    unfold flattenInto flatOut
    exact flattenInto_ok t d s hb
  | .cons h t =>
    intro d s hb hn
    unfold flattenInto
    simp only [flatOut, List.length_append] at hn ⊢
    obtain ⟨a1, e1, s1⟩ := flattenItem_ok h d s hb (by omega)
    obtain ⟨a2, e2, s2⟩ := flattenInto_ok t d (s.1 + (flatItem d h).length, a1) s1.base
      (by simp only; omega)
    simp only at e2 s2
    refine ⟨a2, by rw [e1, ok_bind, e2, Nat.add_assoc], (s1.trans s2).congr ?_ (by omega)⟩
    intro i
    simp only [s1.read]
    by_cases hi1 : (s.1 : Int) ≤ i ∧ i < s.1 + (flatItem d h).length
    · rw [if_neg (by omega), if_pos hi1, if_pos (by omega), List.getElem?_append_left (by omega)]
    · by_cases hi2 : ((s.1 + (flatItem d h).length : Nat) : Int) ≤ i ∧
          i < (s.1 + (flatItem d h).length : Nat) + (flatOut d t).length
      · rw [if_pos hi2, if_pos (by omega), List.getElem?_append_right (by omega)]
        congr 1; omega
      · rw [if_neg hi2, if_neg hi1, if_neg (by omega)]

theorem flattenItem_ok (x : Item V) : ∀ (d : Depth) (s : FlatState V), Base s.2 →
    Appends s (flattenItem d x s) (flatItem d x) := by
  match x with
  | .val v =>
    intro d s hb
    unfold flattenItem flatItem
    exact append_one s hb _
  | .arr l =>
    intro d s hb
    unfold flattenItem flatItem
    by_cases hd : d = .fin 0
    · rw [if_pos hd, if_pos hd]; exact append_one s hb _
    · rw [if_neg hd, if_neg hd]; exact flattenInto_ok l _ s hb
end

theorem flatOut_zero (l : Items V) : flatOut (.fin 0) l = present l := by
  match l with
  | .nil => rfl
  | .hole t => exact flatOut_zero t
  | .cons (.val v) t => simp only [flatOut, flatItem, present, flatOut_zero t]; rfl
  | .cons (.arr l') t => simp only [flatOut, flatItem, present, flatOut_zero t, if_true]; rfl

theorem level_append (a b : List (Item V)) : level (a ++ b) = level a ++ level b := by
  unfold level; exact List.flatMap_append

theorem levels_append (n : Nat) : ∀ a b : List (Item V), levels n (a ++ b) = levels n a ++ levels n b := by
  induction n with
  | zero => intro a b; rfl
  | succ n ih => intro a b; unfold levels; rw [level_append, ih]

theorem levels_val (n : Nat) (v : V) : levels n [Item.val v] = [Item.val v] := by
  induction n with
  | zero => rfl
  | succ n ih => exact ih

mutual
theorem flatOut_fin (l : Items V) : ∀ n, flatOut (.fin n) l = levels n (present l) := by
  intro n
  match l with
  | .nil =>
    simp only [flatOut, present]
    clear l
    induction n with
    | zero => rfl
    | succ n ih => exact ih
  | .hole t => simp only [flatOut, present]; exact flatOut_fin t n
  | .cons h t =>
    simp only [flatOut, present]
    rw [flatOut_fin t n, flatItem_fin h n, ← levels_append]
    rfl

theorem flatItem_fin (x : Item V) : ∀ n, flatItem (.fin n) x = levels n [x] := by
  intro n
  match x with
  | .val v => rw [levels_val]; rfl
  | .arr l =>
    unfold flatItem
    cases n with
    | zero => rfl
    | succ n =>
      rw [if_neg (by intro h; cases h)]
      simp only [Depth.pred, Nat.add_sub_cancel, levels]
      rw [flatOut_fin l n]
      simp [level]
end

mutual
theorem flatOut_inf (l : Items V) : flatOut .inf l = (leaves l).map Item.val := by
  match l with
  | .nil => rfl
  | .hole t => simp only [flatOut, leaves]; exact flatOut_inf t
  | .cons h t =>
    simp only [flatOut, leaves, List.map_append]
    rw [flatOut_inf t, flatItem_inf h]

theorem flatItem_inf (x : Item V) : flatItem .inf x = (leavesOf x).map Item.val := by
  match x with
  | .val v => rfl
  | .arr l =>
    unfold flatItem leavesOf
    rw [if_neg (by intro h; cases h)]
    exact flatOut_inf l
end

theorem flat_out (depth : Option Num) (l : Items V)
    (hn : (flatOut (depthOf depth) l).length < 2 ^ 32) :
    ∃ a, flat depth l = .ok a ∧ Fresh a ((flatOut (depthOf depth) l).map some) := by
  unfold flat
  obtain ⟨a0, ea, pa, ha, la, va⟩ := newArray_ok (V := Item V) 0 (by omega)
  obtain ⟨a1, e1, s1⟩ := flattenInto_ok l (depthOf depth) (0, a0) pa.base (by simp only; omega)
  simp only at e1 s1
  generalize flatOut (depthOf depth) l = out at *
  have hle := s1.lenLe
  have harr : a1.array = true := by rw [s1.array, ha]
  have hlen : a1.len = out.length := by
    by_cases h0 : out.length = 0
    · omega
    · have hr := s1.read (((out.length - 1 : Nat)) : Int)
      rw [if_pos (by omega), List.getElem?_eq_getElem (by omega)] at hr
      by_cases hc : out.length ≤ a1.len
      · omega
      · have := s1.base.arrayEnd harr ((out.length - 1 : Nat) : Int) (by omega) (by omega)
        rw [← val_none, hr] at this
        cases this
  refine ⟨a1, by simp only [ea, ok_bind, e1], ⟨s1.base.ext, s1.base.lenWritable, s1.base.slots,
    by omega, fun _ => by omega, s1.base.arrayEnd⟩, harr, ⟨by simpa using hlen, ?_⟩, ?_⟩
  · intro i hi
    simp only [List.length_map] at hi
    have := s1.read (i : Int)
    rw [if_pos (by omega)] at this
    unfold val at this
    rw [this, List.getElem?_map, show ((i : Int) - ((0 : Nat) : Int)).toNat = i from by omega,
      List.getElem?_eq_getElem hi]
    rfl
  · intro k hk
    simp only [List.length_map] at hk
    rw [← val_none, s1.read, if_neg (by omega)]
    exact val_none.2 (va k)

end Verif.ArrayOps

import Verif.Lemmas.Exotic2

/-! The objects of strings and typed arrays: what holds after every history. -/
namespace Verif.Exotic
open Obj (Val P Desc Fields descOf newProp check change noFlags isAcc isData isCompatible ofFields fieldsOk spOf WfP)
open Obj.Spec (Prp)

theorem decimal_odd (i : Nat) : ¬ Str.Spec.Odd (Str.decimal i) := by
  have hd := Str.decimal_isDecimal i
  have hw : ∀ c ∈ Str.decimal i, ¬ (c ∈ Str.Spec.whites ∨ c = 0x85) := by
    intro c hc h
    have := hd.digits c hc
    rcases h with h | h
    · have : ∀ c ∈ Str.Spec.whites, ¬ (48 ≤ c ∧ c ≤ 57) := by decide
      exact this c h (hd.digits c hc)
    · omega
  rintro (⟨c, t, h, hx⟩ | ⟨c, t, h, hx⟩ | ⟨c, t, h⟩)
  · exact hw c (by rw [h]; simp) hx
  · exact hw c (by rw [h]; simp) hx
  · have := hd.noLeadingZero (c :: t) h
    cases this

theorem toIndex_le {t : List Nat} {n : Nat} (h : Str.toIndex t = some n) : n ≤ 0xfffffffe := by
  unfold Str.toIndex at h
  split at h
  · cases h
  · split at h
    · cases h
    · split at h
      · cases h
      · rename_i m rest hl
        split at h
        · cases h
          obtain ⟨_, _, _, _, _, h5⟩ := Str.digitsLoop_inv _ _ _ _ hl
          exact h5 (by omega)
        · cases h

theorem slot_decimal (i : Nat) :
    slot (.str (Str.decimal i)) = if i < 2 ^ 32 - 1 then .idx i else .str (Str.decimal i) := by
  split
  · rename_i h
    exact (slot_idx (k := .str (Str.decimal i)) (decimal_odd i)).2 ⟨rfl, h⟩
  · rename_i h
    simp only [slot]
    cases hr : Str.resolve (Str.decimal i) with
    | index j =>
      obtain ⟨h1, h2⟩ := resolve_index (decimal_odd i) hr
      have := decimal_inj h1
      omega
    | name u => simp only [resolve_name hr]

/-- A key with the slot of an element has the number of the element. -/
theorem slot_num {L : Lang} (hL : Spec.Faithful L) {k : Key} {i : Nat} (hi : i < 2 ^ 53)
    (h : slot k = slot (.str (Str.decimal i))) : ∃ t, k = .str t ∧ L.toNum t = .int false i := by
  rw [slot_decimal] at h
  cases k with
  | sym n =>
    simp only [slot] at h
    split at h <;> cases h
  | str t =>
    refine ⟨t, rfl, ?_⟩
    simp only [slot] at h
    by_cases hl : i < 2 ^ 32 - 1
    · rw [if_pos hl] at h
      cases hr : Str.resolve t with
      | index j =>
        rw [hr] at h
        simp only [Slot.idx.injEq] at h
        subst h
        unfold Str.resolve at hr
        split at hr
        · rename_i n hn
          cases hr
          exact hL.index _ _ hn
        · cases hr
      | name u => rw [hr] at h; simp only [reduceCtorEq] at h
    · rw [if_neg hl] at h
      cases hr : Str.resolve t with
      | index j => rw [hr] at h; simp only [reduceCtorEq] at h
      | name u =>
        rw [hr] at h
        simp only [Slot.str.injEq] at h
        rw [resolve_name hr, h]
        exact hL.read i hi

theorem find_none {k : Slot} : ∀ {l : List (Slot × P)}, find k l = none ↔ k ∉ l.map (·.1)
  | [] => by simp [find]
  | (j, p) :: l => by
    simp only [find, List.map_cons, List.mem_cons, not_or]
    by_cases e : j = k
    · subst e; simp
    · rw [if_neg e, find_none]
      exact ⟨fun h => ⟨fun c => e c.symm, h⟩, fun h => h.2⟩

theorem put_keys {k : Slot} {p : P} : ∀ {l : List (Slot × P)}, (put k p l).map (·.1) = l.map (·.1)
  | [] => rfl
  | (j, q) :: l => by
    unfold put
    split
    · rfl
    · rw [List.map_cons, List.map_cons, put_keys]

theorem remove_sub {k : Slot} : ∀ {l : List (Slot × P)}, (remove k l).Sublist l
  | [] => .slnil
  | (j, q) :: l => by
    unfold remove
    split
    · exact List.sublist_cons_self _ _
    · exact List.Sublist.cons_cons _ remove_sub

/-- What holds of the object of a string in every state. -/
structure StrInv (u : List Nat) (m : St) : Prop where
  body : m.body = .str u
  nodup : (m.props.map (·.1)).Nodup
  from_ : ∀ sl ∈ m.props.map (·.1), ∃ k, sl = slot k
  free : ∀ i < u.length, slot (.str (Str.decimal i)) ∉ m.props.map (·.1)

theorem strInv_sub {u : List Nat} {m : St} (h : StrInv u m) {l : List (Slot × P)}
    (hs : (l.map (·.1)).Sublist (m.props.map (·.1))) (e : Bool) : StrInv u { m with props := l, ext := e } :=
  ⟨h.body, h.nodup.sublist hs, fun sl hsl => h.from_ sl (hs.subset hsl), fun i hi c => h.free i hi (hs.subset c)⟩

theorem strOwn_decimal {L : Lang} {u : List Nat} (hu : u.length ≤ 2 ^ 53) {t : List Nat} {i : Nat}
    (hi : i < u.length) (h : L.toNum t = .int false i) :
    strOwn L u (.str t) = .some { hasV := true, hasW := true, hasE := true, hasC := true, e := true, value := L.char (u.getD i 0) } := by
  simp only [strOwn]
  rw [h]
  simp only
  rw [if_neg (by omega), if_neg (by omega)]

theorem ordDefine_inv {L : Lang} (hL : Spec.Faithful L) {u : List Nat} (hu : u.length ≤ 2 ^ 53) {m : St} (h : StrInv u m)
    {k : Key} (hk : strOwn L u k = .none) (d : Desc) : StrInv u (ordDefine L m k d).1 := by
  have hslot : ∀ i < u.length, slot (.str (Str.decimal i)) ≠ slot k := by
    intro i hi c
    obtain ⟨t, rfl, ht⟩ := slot_num hL (by omega) c.symm
    rw [strOwn_decimal hu hi ht] at hk
    cases hk
  unfold ordDefine
  have hg : getOwn L m k = ordOwn m k := by
    unfold getOwn
    rw [h.body]
    simp only [hk]
    cases ordOwn m k <;> rfl
  rw [hg]
  unfold ordOwn
  cases hf : find (slot k) m.props with
  | none =>
    simp only [validateAndApply]
    split
    · exact h
    · have hn := find_none.1 hf
      refine ⟨h.body, ?_, ?_, ?_⟩
      · show ((m.props ++ _).map (·.1)).Nodup
        rw [List.map_append, List.nodup_append]
        refine ⟨h.nodup, by simp, ?_⟩
        intro a ha b hb c
        simp only [List.map_cons, List.map_nil, List.mem_singleton] at hb
        subst hb; subst c
        exact hn ha
      · intro sl hsl
        simp only [List.map_append, List.mem_append, List.map_cons, List.map_nil, List.mem_singleton] at hsl
        rcases hsl with hsl | hsl
        · exact h.from_ sl hsl
        · exact ⟨k, hsl⟩
      · intro i hi c
        simp only [List.map_append, List.mem_append, List.map_cons, List.map_nil, List.mem_singleton] at c
        rcases c with c | c
        · exact h.free i hi c
        · exact hslot i hi c
  | some p =>
    simp only [validateAndApply]
    split
    · exact h
    · split
      · exact h
      · rw [hf]
        exact strInv_sub h (l := put (slot k) _ m.props) (by rw [put_keys]) m.ext

theorem define_inv {L : Lang} (hL : Spec.Faithful L) {u : List Nat} (hu : u.length ≤ 2 ^ 53) {m : St} (h : StrInv u m)
    (k : Key) (d : Desc) : StrInv u (define L m k d).1 := by
  unfold define
  rw [h.body]
  simp only
  cases hk : strOwn L u k with
  | ub => exact h
  | some o => exact h
  | none => exact ordDefine_inv hL hu h hk d

theorem setData_inv {L : Lang} (hL : Spec.Faithful L) {u : List Nat} (hu : u.length ≤ 2 ^ 53) {m : St} (h : StrInv u m)
    (self : Bool) (k : Key) (v : Val) (w : Bool) : StrInv u (setData L self m k v w).1 := by
  unfold setData
  split
  · exact h
  · split
    · exact h
    · cases getOwn L m k with
      | ub => exact h
      | none => exact define_inv hL hu h k _
      | some d =>
        simp only
        split
        · exact h
        · split
          · exact h
          · exact define_inv hL hu h k _

theorem step_inv {L : Lang} (hL : Spec.Faithful L) {u : List Nat} (hu : u.length ≤ 2 ^ 53) {m : St} (h : StrInv u m)
    (op : Op) : StrInv u (step L m op).1 := by
  cases op with
  | getOwn k => exact h
  | define k f =>
    simp only [step]
    cases Obj.toDesc L.callable f with
    | none => exact h
    | some d => exact define_inv hL hu h k d
  | has k => exact h
  | get k => exact h
  | set self k v =>
    simp only [step, set]
    rw [h.body]
    simp only [ordSet]
    cases getOwn L m k with
    | ub => exact h
    | none =>
      simp only
      cases L.up k with
      | none => exact setData_inv hL hu h _ _ _ _
      | data x w => exact setData_inv hL hu h _ _ _ _
      | acc g s => simp only; split <;> exact h
    | some d =>
      simp only
      split
      · exact setData_inv hL hu h _ _ _ _
      · split <;> exact h
  | delete k =>
    simp only [step, delete]
    rw [h.body]
    simp only [ordDelete]
    cases getOwn L m k with
    | ub => exact h
    | none => exact h
    | some d =>
      simp only
      split
      · exact strInv_sub h (remove_sub.map _) m.ext
      · exact h
  | keys => exact h
  | prevent => exact ⟨h.body, h.nodup, h.from_, h.free⟩
  | write i v => simp only [step]; rw [h.body]; exact h
  | detach => simp only [step]; rw [h.body]; exact h

theorem run_inv {L : Lang} (hL : Spec.Faithful L) {u : List Nat} (hu : u.length ≤ 2 ^ 53) : ∀ (ops : List Op) {m : St},
    StrInv u m → StrInv u (run L m ops).1
  | [], _, h => h
  | op :: ops, _, h => run_inv hL hu ops (step_inv hL hu h op)

theorem new_inv (u : List Nat) : StrInv u (newStr u) := by
  refine ⟨rfl, by simp [newStr], ?_, ?_⟩
  · intro sl hsl
    exact ⟨lengthKey, List.mem_singleton.1 hsl⟩
  · intro i hi c
    have := slot_inj (a := .str (Str.decimal i)) (decimal_odd i) lengthKey_odd (List.mem_singleton.1 c)
    simp only [lengthKey, Key.str.injEq] at this
    have := (Str.decimal_isDecimal i).digits 108 (by rw [this]; simp)
    omega

theorem strs_mem {t : List Nat} : ∀ {l : List (Slot × P)}, t ∈ strs l ↔ .str t ∈ l.map (·.1)
  | [] => by simp [strs]
  | (.idx j, p) :: l => by simp [strs, strs_mem (l := l)]
  | (.str j, p) :: l => by simp [strs, strs_mem (l := l)]
  | (.sym j, p) :: l => by simp [strs, strs_mem (l := l)]

theorem syms_mem {t : Nat} : ∀ {l : List (Slot × P)}, t ∈ syms l ↔ .sym t ∈ l.map (·.1)
  | [] => by simp [syms]
  | (.idx j, p) :: l => by simp [syms, syms_mem (l := l)]
  | (.str j, p) :: l => by simp [syms, syms_mem (l := l)]
  | (.sym j, p) :: l => by simp [syms, syms_mem (l := l)]

theorem strs_nodup : ∀ {l : List (Slot × P)}, (l.map (·.1)).Nodup → (strs l).Nodup
  | [], _ => by simp [strs]
  | (.idx j, p) :: l, h => strs_nodup (l := l) (List.nodup_cons.1 h).2
  | (.sym j, p) :: l, h => strs_nodup (l := l) (List.nodup_cons.1 h).2
  | (.str j, p) :: l, h =>
    List.nodup_cons.2 ⟨fun c => (List.nodup_cons.1 h).1 (strs_mem.1 c), strs_nodup (l := l) (List.nodup_cons.1 h).2⟩

theorem syms_nodup : ∀ {l : List (Slot × P)}, (l.map (·.1)).Nodup → (syms l).Nodup
  | [], _ => by simp [syms]
  | (.idx j, p) :: l, h => syms_nodup (l := l) (List.nodup_cons.1 h).2
  | (.str j, p) :: l, h => syms_nodup (l := l) (List.nodup_cons.1 h).2
  | (.sym j, p) :: l, h =>
    List.nodup_cons.2 ⟨fun c => (List.nodup_cons.1 h).1 (syms_mem.1 c), syms_nodup (l := l) (List.nodup_cons.1 h).2⟩

theorem nodup_map {α β : Type} {f : α → β} (hf : ∀ a b, f a = f b → a = b) : ∀ {l : List α}, l.Nodup → (l.map f).Nodup
  | [], _ => by simp
  | a :: l, h => by
    rw [List.nodup_cons] at h
    rw [List.map_cons, List.nodup_cons]
    refine ⟨fun c => ?_, nodup_map hf h.2⟩
    obtain ⟨b, hb, e⟩ := List.mem_map.1 c
    exact h.1 (hf _ _ e ▸ hb)

/-- No key twice, if the slots are slots of keys. -/
theorem addKeys_nodup {l : List (Slot × P)} (h : (l.map (·.1)).Nodup) (hf : ∀ sl ∈ l.map (·.1), ∃ k, sl = slot k) :
    (addKeys l).Nodup := by
  unfold addKeys
  rw [List.nodup_append, List.nodup_append]
  refine ⟨nodup_map (fun a b e => decimal_inj (Key.str.inj e)) ((idxs_sorted h).imp (fun hlt => Nat.ne_of_lt hlt)),
    ⟨nodup_map (fun a b e => Key.str.inj e) (strs_nodup h), nodup_map (fun a b e => Key.sym.inj e) (syms_nodup h), ?_⟩, ?_⟩
  · intro a ha b hb c
    obtain ⟨x, _, rfl⟩ := List.mem_map.1 ha
    obtain ⟨y, _, rfl⟩ := List.mem_map.1 hb
    cases c
  · intro a ha b hb c
    obtain ⟨i, hi, rfl⟩ := List.mem_map.1 ha
    rcases List.mem_append.1 hb with hb | hb
    · obtain ⟨t, ht, rfl⟩ := List.mem_map.1 hb
      cases c
      have h1 := idxs_mem.1 hi
      obtain ⟨k, hk⟩ := hf _ (strs_mem.1 ht)
      obtain ⟨k', hk'⟩ := hf _ h1
      -- the string of the digits of an index resolves to the index
      cases k with
      | sym n => cases hk
      | str t =>
        simp only [slot] at hk
        cases hr : Str.resolve t with
        | index j => rw [hr] at hk; cases hk
        | name v =>
          rw [hr] at hk
          cases hk
          have := resolve_name hr
          subst this
          cases k' with
          | sym n => cases hk'
          | str t' =>
            simp only [slot] at hk'
            cases hr' : Str.resolve t' with
            | name v => rw [hr'] at hk'; cases hk'
            | index j =>
              rw [hr'] at hk'
              cases hk'
              have hj : i < 2 ^ 32 - 1 := by
                unfold Str.resolve at hr'
                split at hr'
                · rename_i n hn
                  cases hr'
                  have := toIndex_le hn
                  omega
                · cases hr'
              rw [resolve_decimal hj] at hr
              cases hr
    · obtain ⟨t, ht, rfl⟩ := List.mem_map.1 hb
      cases c

theorem addKeys_elem {l : List (Slot × P)} {i : Nat} (hf : ∀ sl ∈ l.map (·.1), ∃ k, sl = slot k)
    (h : .str (Str.decimal i) ∈ addKeys l) : slot (.str (Str.decimal i)) ∈ l.map (·.1) := by
  unfold addKeys at h
  rcases List.mem_append.1 h with h | h
  · obtain ⟨j, hj, e⟩ := List.mem_map.1 h
    have : j = i := decimal_inj (Key.str.inj e)
    subst this
    have hj := idxs_mem.1 hj
    obtain ⟨k, hk⟩ := hf _ hj
    have hlt : j < 2 ^ 32 - 1 := by
      cases k with
      | sym n => cases hk
      | str t =>
        simp only [slot] at hk
        cases hr : Str.resolve t with
        | name v => rw [hr] at hk; cases hk
        | index m =>
          rw [hr] at hk
          cases hk
          unfold Str.resolve at hr
          split at hr
          · rename_i n hn
            cases hr
            have := toIndex_le hn
            omega
          · cases hr
    rw [slot_decimal, if_pos hlt]
    exact hj
  · rcases List.mem_append.1 h with h | h
    · obtain ⟨t, ht, e⟩ := List.mem_map.1 h
      cases e
      have ht := strs_mem.1 ht
      obtain ⟨k, hk⟩ := hf _ ht
      cases k with
      | sym n => cases hk
      | str t =>
        rw [hk] at ht
        simp only [slot] at hk ht ⊢
        cases hr : Str.resolve t with
        | index j => rw [hr] at hk; cases hk
        | name v =>
          rw [hr] at hk ht
          cases hk
          rw [← resolve_name hr, hr]
          exact ht
    · obtain ⟨t, ht, e⟩ := List.mem_map.1 h
      cases e

/-- Every key the properties give is listed. -/
theorem addKeys_mem {l : List (Slot × P)} {k : Key} (hk : NotOdd k) (h : slot k ∈ l.map (·.1)) : k ∈ addKeys l := by
  unfold addKeys
  cases k with
  | sym n => exact List.mem_append_right _ (List.mem_append_right _ (List.mem_map_of_mem (syms_mem.2 h)))
  | str t =>
    simp only [slot] at h
    cases hr : Str.resolve t with
    | index i =>
      rw [hr] at h
      rw [(resolve_index hk hr).1]
      exact List.mem_append_left _ (List.mem_map_of_mem (idxs_mem.2 h))
    | name v =>
      rw [hr] at h
      rw [resolve_name hr]
      exact List.mem_append_right _ (List.mem_append_left _ (List.mem_map_of_mem (strs_mem.2 h)))

/-! ### Typed arrays -/

/-- What holds of a typed array of `n` elements in every state. -/
def ArrInv (n : Nat) (m : St) : Prop := ∃ el det, m.body = .arr el det ∧ el.length = n ∧ ∀ x ∈ el, x ≠ .undef

theorem ArrInv.props {n : Nat} {m : St} (h : ArrInv n m) (l : List (Slot × P)) (e : Bool) :
    ArrInv n { m with props := l, ext := e } := h

theorem validate_body (m : St) (k : Key) (d : Desc) (c : Option Desc) : (validateAndApply m k d c).1.body = m.body := by
  unfold validateAndApply
  cases c with
  | none => simp only; split <;> rfl
  | some c =>
    simp only
    split
    · rfl
    · split
      · rfl
      · split <;> rfl

theorem ordDefine_body (L : Lang) (m : St) (k : Key) (d : Desc) : (ordDefine L m k d).1.body = m.body := by
  unfold ordDefine
  cases getOwn L m k with
  | ub => rfl
  | none => exact validate_body _ _ _ _
  | some c => exact validate_body _ _ _ _

theorem finish_inv {L : Lang} (hL : Spec.Faithful L) {el : List Val} (hu : ∀ x ∈ el, x ≠ .undef) (det : Bool) (m : St)
    (n : Num) (v : Val) : ArrInv el.length (finish m (elemSet L el det n v)).1 := by
  unfold elemSet
  have hv := hL.elem v
  generalize L.conv v = c at hv
  obtain ⟨r, d⟩ := c
  cases r with
  | none => exact ⟨el, _, rfl, rfl, hu⟩
  | some x =>
    simp only
    cases valid el (det || d) n with
    | none => exact ⟨el, _, rfl, rfl, hu⟩
    | some i => exact ⟨el.set i x, _, rfl, by simp, mem_set hu (hv x rfl)⟩

theorem arrInv_of {n : Nat} {m m' : St} (h : ArrInv n m) (e : m'.body = m.body) : ArrInv n m' := by
  obtain ⟨el, det, hb, hl, hu⟩ := h
  exact ⟨el, det, e.trans hb, hl, hu⟩

theorem arr_define {L : Lang} (hL : Spec.Faithful L) {n : Nat} {m : St} (h : ArrInv n m) (k : Key) (d : Desc) :
    ArrInv n (define L m k d).1 := by
  have h' := h
  obtain ⟨el, det, hb, hl, hu⟩ := h'
  unfold define
  rw [hb]
  simp only
  cases numKey L k with
  | none => exact arrInv_of h (ordDefine_body _ _ _ _)
  | some x =>
    simp only
    repeat' split
    all_goals first
      | exact h
      | skip
    all_goals
      rename_i heq
      have := finish_inv hL hu det m x d.value
      rw [heq, hl] at this
      exact this

theorem arr_setData {L : Lang} (hL : Spec.Faithful L) {n : Nat} {m : St} (h : ArrInv n m)
    (self : Bool) (k : Key) (v : Val) (w : Bool) : ArrInv n (setData L self m k v w).1 := by
  unfold setData
  split
  · exact h
  · split
    · exact h
    · cases getOwn L m k with
      | ub => exact h
      | none => exact arr_define hL h k _
      | some d =>
        simp only
        split
        · exact h
        · split
          · exact h
          · exact arr_define hL h k _

theorem arr_ordSet {L : Lang} (hL : Spec.Faithful L) {n : Nat} {m : St} (h : ArrInv n m)
    (self : Bool) (k : Key) (v : Val) : ArrInv n (ordSet L self m k v).1 := by
  unfold ordSet
  cases getOwn L m k with
  | ub => exact h
  | none =>
    simp only
    cases L.up k with
    | none => exact arr_setData hL h _ _ _ _
    | data x w => exact arr_setData hL h _ _ _ _
    | acc g s => simp only; split <;> exact h
  | some d =>
    simp only
    split
    · exact arr_setData hL h _ _ _ _
    · split <;> exact h

theorem arr_step {L : Lang} (hL : Spec.Faithful L) {n : Nat} {m : St} (h : ArrInv n m) (op : Op) :
    ArrInv n (step L m op).1 := by
  have h' := h
  obtain ⟨el, det, hb, hl, hu⟩ := h'
  cases op with
  | getOwn k => exact h
  | define k f =>
    simp only [step]
    cases Obj.toDesc L.callable f with
    | none => exact h
    | some d => exact arr_define hL h k d
  | has k => exact h
  | get k => exact h
  | set self k v =>
    simp only [step, set]
    rw [hb]
    simp only
    cases numKey L k with
    | none => exact arr_ordSet hL h _ _ _
    | some x =>
      have := finish_inv hL hu det m x v
      rw [hl] at this
      exact this
  | delete k =>
    simp only [step, delete]
    rw [hb]
    simp only
    cases numKey L k with
    | some x => exact h
    | none =>
      simp only [ordDelete]
      cases getOwn L m k with
      | ub => exact h
      | none => exact h
      | some d =>
        simp only
        split
        · exact h
        · exact h
  | keys => exact h
  | prevent => exact h
  | write i v =>
    simp only [step]
    rw [hb]
    simp only
    have hv := hL.elem v
    generalize L.conv v = c at hv
    obtain ⟨r, d⟩ := c
    cases r with
    | none => exact h
    | some x => exact ⟨el.set i x, _, rfl, by simp [hl], mem_set hu (hv x rfl)⟩
  | detach =>
    simp only [step]
    rw [hb]
    exact ⟨el, _, rfl, hl, hu⟩

theorem arr_run {L : Lang} (hL : Spec.Faithful L) {n : Nat} : ∀ (ops : List Op) {m : St}, ArrInv n m → ArrInv n (run L m ops).1
  | [], _, h => h
  | op :: ops, _, h => arr_run hL ops (arr_step hL h op)

end Verif.Exotic

import Verif.Spec.Exotic
import Verif.Lemmas.Descriptor
import Verif.Lemmas.Intern

/-! Lemmas about the objects of strings and typed arrays: keys and lists of properties. -/
namespace Verif.Exotic
open Obj (Val P Desc Fields descOf newProp check change noFlags isAcc isData ofFields fieldsOk spOf WfP)
open Obj.Spec (Prp)

def NotOdd : Key → Prop
  | .str t => ¬ Str.Spec.Odd t
  | .sym _ => True

theorem resolve_index {t : List Nat} (h : ¬ Str.Spec.Odd t) {i : Nat} (e : Str.resolve t = .index i) :
    t = Str.decimal i ∧ i < 2 ^ 32 - 1 := by
  unfold Str.resolve at e
  split at e
  · rename_i n hn
    cases e
    obtain ⟨h1, h2⟩ := Str.toIndex_plain h hn
    exact ⟨Str.decimal_unique h1 (Str.decimal_isDecimal _), by omega⟩
  · cases e

theorem resolve_name {t u : List Nat} (e : Str.resolve t = .name u) : t = u := by
  unfold Str.resolve at e
  split at e
  · cases e
  · cases e; rfl

theorem resolve_decimal {i : Nat} (h : i < 2 ^ 32 - 1) : Str.resolve (Str.decimal i) = .index i := by
  simp [Str.resolve, Str.toIndex_decimal (Str.decimal_isDecimal i) (show i ≤ 0xfffffffe by omega)]

theorem decimal_inj {i j : Nat} (h : Str.decimal i = Str.decimal j) : i = j := by
  have a := (Str.decimal_isDecimal i).value
  rw [h, (Str.decimal_isDecimal j).value] at a
  exact a.symm

theorem slot_inj {a b : Key} (ha : NotOdd a) (hb : NotOdd b) (h : slot a = slot b) : a = b := by
  cases a with
  | sym n =>
    cases b with
    | sym m => simp only [slot, Slot.sym.injEq] at h; rw [h]
    | str t => simp only [slot] at h; split at h <;> cases h
  | str s =>
    cases b with
    | sym m => simp only [slot] at h; split at h <;> cases h
    | str t =>
      simp only [slot] at h
      cases hs : Str.resolve s with
      | index i =>
        rw [hs] at h
        cases ht : Str.resolve t with
        | index j =>
          rw [ht] at h
          simp only [Slot.idx.injEq] at h
          rw [(resolve_index ha hs).1, (resolve_index hb ht).1, h]
        | name u => rw [ht] at h; cases h
      | name u =>
        rw [hs] at h
        cases ht : Str.resolve t with
        | index j => rw [ht] at h; cases h
        | name v =>
          rw [ht] at h
          simp only [Slot.str.injEq] at h
          rw [resolve_name hs, resolve_name ht, h]

/-- The property of the model. -/
def toP : Prp → P
  | .data v w e c => ⟨w, e, c, .data v⟩
  | .acc g s e c => ⟨false, e, c, .acc g s⟩

theorem spOf_toP (p : Prp) : spOf (toP p) = p := by cases p <;> rfl

theorem toP_wf (p : Prp) : WfP (toP p) := by
  cases p with
  | data v w e c => intro g s h; cases h
  | acc g s e c => intro _ _ _; rfl

theorem toP_spOf {p : P} (h : WfP p) : toP (spOf p) = p := by
  obtain ⟨w, e, c, b⟩ := p
  cases b with
  | data v => rfl
  | acc g s =>
    have : w = false := h g s rfl
    subst this; rfl

/-- One property in both. -/
def conv1 (q : Key × Prp) : Slot × P := (slot q.1, toP q.2)

theorem find_map {k : Key} (hk : NotOdd k) : ∀ {l : List (Key × Prp)}, (∀ q ∈ l, NotOdd q.1) →
    find (slot k) (l.map conv1) = (Spec.find k l).map toP
  | [], _ => rfl
  | (j, p) :: l, h => by
    simp only [List.map_cons, find, Spec.find, conv1]
    by_cases e : j = k
    · subst e; simp
    · have : slot j ≠ slot k := fun c => e (slot_inj (h _ List.mem_cons_self) hk c)
      rw [if_neg this, if_neg e]
      exact find_map hk fun q hq => h q (List.mem_cons_of_mem _ hq)

theorem sfind_none {k : Key} : ∀ {l : List (Key × Prp)}, Spec.find k l = none ↔ k ∉ l.map (·.1)
  | [] => by simp [Spec.find]
  | (j, p) :: l => by
    simp only [Spec.find, List.map_cons, List.mem_cons, not_or]
    by_cases e : j = k
    · subst e; simp
    · rw [if_neg e, sfind_none]
      exact ⟨fun h => ⟨fun c => e c.symm, h⟩, fun h => h.2⟩

theorem map_id {k : Key} {p : Prp} {l : List (Key × Prp)} (h : k ∉ l.map (·.1)) :
    (l.map fun q => if q.1 = k then (k, p) else q) = l := by
  induction l with
  | nil => rfl
  | cons q l ih =>
    simp only [List.map_cons, List.mem_cons, not_or] at h
    rw [List.map_cons, if_neg (fun c => h.1 c.symm), ih h.2]

theorem map_same {k : Key} {p : Prp} : ∀ {l : List (Key × Prp)}, (l.map (·.1)).Nodup → Spec.find k l = some p →
    (l.map fun q => if q.1 = k then (k, p) else q) = l
  | [], _, h => by cases h
  | (j, q) :: l, hn, h => by
    simp only [List.map_cons, List.nodup_cons] at hn
    simp only [Spec.find] at h
    by_cases e : j = k
    · subst e
      rw [if_pos rfl] at h
      cases h
      rw [List.map_cons, map_id hn.1, if_pos rfl]
    · rw [if_neg e] at h
      rw [List.map_cons, map_same hn.2 h, if_neg e]

theorem put_map {k : Key} (hk : NotOdd k) {p : Prp} : ∀ {l : List (Key × Prp)}, (∀ q ∈ l, NotOdd q.1) →
    (l.map (·.1)).Nodup →
    put (slot k) (toP p) (l.map conv1) = (l.map fun q => if q.1 = k then (k, p) else q).map conv1
  | [], _, _ => rfl
  | (j, q) :: l, h, hn => by
    simp only [List.map_cons, List.nodup_cons] at hn
    simp only [List.map_cons, put, conv1]
    by_cases e : j = k
    · subst e
      rw [if_pos rfl, if_pos rfl, map_id hn.1]
    · have : slot j ≠ slot k := fun c => e (slot_inj (h _ List.mem_cons_self) hk c)
      rw [if_neg this, if_neg e]
      have := put_map hk (p := p) (l := l) (fun q hq => h q (List.mem_cons_of_mem _ hq)) hn.2
      rw [this]

theorem filter_id {k : Key} {l : List (Key × Prp)} (h : k ∉ l.map (·.1)) :
    (l.filter fun q => q.1 ≠ k) = l := by
  rw [List.filter_eq_self]
  intro q hq
  have : q.1 ≠ k := fun c => h (c ▸ List.mem_map_of_mem hq)
  simp [this]

theorem remove_map {k : Key} (hk : NotOdd k) : ∀ {l : List (Key × Prp)}, (∀ q ∈ l, NotOdd q.1) →
    (l.map (·.1)).Nodup →
    remove (slot k) (l.map conv1) = (l.filter fun q => q.1 ≠ k).map conv1
  | [], _, _ => rfl
  | (j, q) :: l, h, hn => by
    simp only [List.map_cons, List.nodup_cons] at hn
    simp only [List.map_cons, remove, conv1]
    by_cases e : j = k
    · subst e
      rw [if_pos rfl, List.filter_cons_of_neg (by simp), filter_id hn.1]
    · have : slot j ≠ slot k := fun c => e (slot_inj (h _ List.mem_cons_self) hk c)
      rw [if_neg this, List.filter_cons_of_pos (by simpa using e), List.map_cons,
        remove_map hk (fun q hq => h q (List.mem_cons_of_mem _ hq)) hn.2]
      rfl

/-! ### Elements -/

theorem element_some {n : Nat} {k : Key} {i : Nat} : Spec.element n k = some i ↔ k = .str (Str.decimal i) ∧ i < n := by
  cases k with
  | sym m => simp [Spec.element]
  | str t =>
    simp only [Spec.element, Key.str.injEq]
    constructor
    · intro h
      have h1 := List.find?_some h
      have h2 := List.mem_of_find?_eq_some h
      simp only [decide_eq_true_eq] at h1
      exact ⟨h1.symm, List.mem_range.1 h2⟩
    · rintro ⟨rfl, h⟩
      cases hf : (List.range n).find? fun j => Str.decimal j = Str.decimal i with
      | none =>
        rw [List.find?_eq_none] at hf
        exact absurd (decide_eq_true rfl) (hf i (List.mem_range.2 h))
      | some j =>
        have h1 := List.find?_some hf
        simp only [decide_eq_true_eq] at h1
        rw [decimal_inj h1]

theorem element_none {n : Nat} {k : Key} : Spec.element n k = none ↔ ∀ i < n, k ≠ .str (Str.decimal i) := by
  constructor
  · intro h i hi c
    have := (element_some (n := n) (k := k) (i := i)).2 ⟨c, hi⟩
    rw [h] at this; cases this
  · intro h
    cases he : Spec.element n k with
    | none => rfl
    | some i => exact absurd (element_some.1 he).1 (h i (element_some.1 he).2)

theorem decimal_ne_minus (i : Nat) : Str.decimal i ≠ [45, 48] := by
  intro h
  have := (Str.decimal_isDecimal i).digits 45 (by rw [h]; simp)
  omega

theorem numKey_isSome (L : Lang) (k : Key) : (numKey L k).isSome = Spec.numeric L k := by
  cases k with
  | sym n => rfl
  | str t =>
    simp only [numKey, canon, Spec.numeric]
    by_cases h1 : t = [45, 48]
    · rw [if_pos h1]; simp [h1]
    · rw [if_neg h1]
      by_cases h2 : L.toStr (L.toNum t) = t
      · rw [if_pos h2]; simp [h2]
      · rw [if_neg h2]; simp [h1, h2]

theorem numeric_element {L : Lang} (hL : Spec.Faithful L) {n : Nat} (hn : n ≤ 2 ^ 53) {k : Key} {i : Nat}
    (h : Spec.element n k = some i) : numKey L k = some (.int false i) := by
  obtain ⟨rfl, hi⟩ := element_some.1 h
  have hb : i < 2 ^ 53 := Nat.lt_of_lt_of_le hi hn
  simp only [numKey, canon]
  rw [if_neg (decimal_ne_minus i), hL.read i hb, hL.write i hb, if_pos rfl]

theorem valid_element {L : Lang} (hL : Spec.Faithful L) {el : List Val} {det : Bool} (hn : el.length ≤ 2 ^ 53)
    {k : Key} {n : Num} (h : numKey L k = some n) :
    valid el det n = Spec.element (Spec.live (.arr el det)) k := by
  cases det with
  | true =>
    simp only [valid, Spec.live, if_pos]
    symm
    rw [element_none]
    intro i hi; omega
  | false =>
    have hl : Spec.live (.arr el false) = el.length := by simp [Spec.live]
    rw [hl]
    cases he : Spec.element el.length k with
    | some i =>
      have h' := numeric_element hL hn he
      rw [h] at h'
      cases h'
      have := (element_some.1 he).2
      simp only [valid]
      rw [if_neg (by simp), if_neg (by omega)]
    | none =>
      unfold valid
      rw [if_neg (by simp)]
      cases n with
      | nan => rfl
      | inf b => rfl
      | frac q => rfl
      | int b m =>
        cases b with
        | true => rfl
        | false =>
          by_cases hm : m ≥ el.length
          · simp [hm]
          · exfalso
            cases k with
            | sym x => cases h
            | str t =>
              simp only [numKey, canon] at h
              have hb : m < 2 ^ 53 := by omega
              split at h
              · cases h
              · split at h
                · rename_i h2
                  cases hh : L.toNum t with
                  | int b' m' =>
                    rw [hh] at h h2
                    cases h
                    rw [hL.write m hb] at h2
                    exact element_none.1 he m (by omega) (by rw [h2])
                  | nan => rw [hh] at h; cases h
                  | inf b => rw [hh] at h; cases h
                  | frac q => rw [hh] at h; cases h
                · cases h

theorem str_element {L : Lang} (hL : Spec.Faithful L) {u : List Nat} (hn : u.length ≤ 2 ^ 53) {k : Key}
    (hk : Spec.PlainKey L (.str u) k) :
    strOwn L u k = match Spec.element u.length k with
      | none => .none
      | some i => .some (descOf (toP (.data (L.char (u.getD i 0)) false true false))) := by
  cases k with
  | sym n => rfl
  | str t =>
    obtain ⟨_, hp⟩ := hk
    cases he : Spec.element u.length (.str t) with
    | some i =>
      obtain ⟨h1, hi⟩ := element_some.1 he
      cases h1
      have hb : i < 2 ^ 53 := Nat.lt_of_lt_of_le hi hn
      simp only [strOwn]
      rw [hL.read i hb]
      simp only
      rw [if_neg (by omega), if_neg (by omega)]
      rfl
    | none =>
      simp only [strOwn]
      cases hh : L.toNum t with
      | nan => rfl
      | inf b => rfl
      | frac q => rfl
      | int b m =>
        cases b with
        | true => rfl
        | false =>
          obtain ⟨h1, h2⟩ := hp m hh
          simp only
          rw [if_neg (by omega)]
          by_cases hm : m ≥ u.length
          · rw [if_pos hm]
          · exact absurd (by rw [h2 (by omega)]) (element_none.1 he m (by omega))

/-! ### Keys in order -/

theorem insert_mem {i j : Nat} : ∀ {l : List Nat}, j ∈ insert i l ↔ j = i ∨ j ∈ l
  | [] => by simp [insert]
  | a :: l => by
    unfold insert
    split
    · simp
    · simp only [List.mem_cons, insert_mem]
      constructor
      · rintro (h | h | h) <;> simp [h]
      · rintro (h | h | h) <;> simp [h]

theorem insert_sorted {i : Nat} : ∀ {l : List Nat}, l.Pairwise (· < ·) → i ∉ l → (insert i l).Pairwise (· < ·)
  | [], _, _ => by simp [insert]
  | a :: l, h, hi => by
    rw [List.pairwise_cons] at h
    unfold insert
    split
    · rename_i hlt
      rw [List.pairwise_cons]
      refine ⟨fun b hb => ?_, List.pairwise_cons.2 h⟩
      rcases List.mem_cons.1 hb with rfl | hb
      · exact hlt
      · exact Nat.lt_trans hlt (h.1 b hb)
    · rename_i hlt
      rw [List.pairwise_cons]
      refine ⟨fun b hb => ?_, insert_sorted h.2 fun c => hi (List.mem_cons_of_mem _ c)⟩
      rcases insert_mem.1 hb with rfl | hb
      · have : b ≠ a := fun c => hi (c ▸ List.mem_cons_self)
        omega
      · exact h.1 b hb

theorem idxs_mem {i : Nat} : ∀ {l : List (Slot × P)}, i ∈ idxs l ↔ .idx i ∈ l.map (·.1)
  | [] => by simp [idxs]
  | (.idx j, p) :: l => by simp [idxs, insert_mem, idxs_mem (l := l)]
  | (.str j, p) :: l => by simp [idxs, idxs_mem (l := l)]
  | (.sym j, p) :: l => by simp [idxs, idxs_mem (l := l)]

theorem idxs_sorted : ∀ {l : List (Slot × P)}, (l.map (·.1)).Nodup → (idxs l).Pairwise (· < ·)
  | [], _ => by simp [idxs]
  | (.idx j, p) :: l, h => by
    simp only [List.map_cons, List.nodup_cons] at h
    exact insert_sorted (idxs_sorted h.2) fun c => h.1 (idxs_mem.1 c)
  | (.str j, p) :: l, h => by
    simp only [List.map_cons, List.nodup_cons] at h
    exact idxs_sorted (l := l) h.2
  | (.sym j, p) :: l, h => by
    simp only [List.map_cons, List.nodup_cons] at h
    exact idxs_sorted (l := l) h.2

theorem sorted_ext : ∀ {a b : List Nat}, a.Pairwise (· < ·) → b.Pairwise (· < ·) → (∀ i, i ∈ a ↔ i ∈ b) → a = b
  | [], [], _, _, _ => rfl
  | [], y :: b, _, _, h => absurd ((h y).2 List.mem_cons_self) (by simp)
  | x :: a, [], _, _, h => absurd ((h x).1 List.mem_cons_self) (by simp)
  | x :: a, y :: b, ha, hb, h => by
    rw [List.pairwise_cons] at ha hb
    have e : x = y := by
      have h1 := (h x).1 List.mem_cons_self
      have h2 := (h y).2 List.mem_cons_self
      rcases List.mem_cons.1 h1 with h1 | h1
      · exact h1
      · rcases List.mem_cons.1 h2 with h2 | h2
        · exact h2.symm
        · have := ha.1 _ h2
          have := hb.1 _ h1
          omega
    subst e
    rw [sorted_ext ha.2 hb.2 fun i => ?_]
    have hi := h i
    simp only [List.mem_cons] at hi
    constructor
    · intro c
      rcases hi.1 (Or.inr c) with rfl | d
      · exact absurd (ha.1 _ c) (Nat.lt_irrefl _)
      · exact d
    · intro c
      rcases hi.2 (Or.inr c) with rfl | d
      · exact absurd (hb.1 _ c) (Nat.lt_irrefl _)
      · exact d

theorem slot_idx {k : Key} (hk : NotOdd k) {i : Nat} : slot k = .idx i ↔ k = .str (Str.decimal i) ∧ i < 2 ^ 32 - 1 := by
  cases k with
  | sym n => simp [slot]
  | str t =>
    simp only [slot, Key.str.injEq]
    constructor
    · intro h
      cases hr : Str.resolve t with
      | index j =>
        rw [hr] at h
        cases h
        exact resolve_index hk hr
      | name u => rw [hr] at h; cases h
    · rintro ⟨rfl, h⟩
      rw [resolve_decimal h]

theorem slots_nodup : ∀ {l : List (Key × Prp)}, (∀ q ∈ l, NotOdd q.1) → (l.map (·.1)).Nodup →
    ((l.map conv1).map (·.1)).Nodup
  | [], _, _ => by simp
  | q :: l, h, hn => by
    simp only [List.map_cons, List.nodup_cons] at hn ⊢
    refine ⟨fun c => ?_, slots_nodup (fun r hr => h r (List.mem_cons_of_mem _ hr)) hn.2⟩
    rw [List.mem_map] at c
    obtain ⟨x, hx, e⟩ := c
    rw [List.mem_map] at hx
    obtain ⟨r, hr, rfl⟩ := hx
    have := slot_inj (h r (List.mem_cons_of_mem _ hr)) (h q List.mem_cons_self) e
    exact hn.1 (this ▸ List.mem_map_of_mem hr)

/-- An array index as the specification has it. -/
def isIdx (k : Key) : Bool :=
  match k with
  | .str t => ∀ i < 2 ^ 32 - 1, Str.decimal i ≠ t
  | .sym _ => false

theorem isIdx_str (t : List Nat) : isIdx (.str t) = true ↔ ∀ i < 2 ^ 32 - 1, Str.decimal i ≠ t := by
  unfold isIdx
  exact decide_eq_true_iff

theorem idxs_eq {l : List (Key × Prp)} (h : ∀ q ∈ l, NotOdd q.1) (hn : (l.map (·.1)).Nodup) (N : Nat)
    (hN : N = 2 ^ 32 - 1) :
    ((idxs (l.map conv1)).map fun i => Key.str (Str.decimal i)) =
      ((List.range N).map fun i => Key.str (Str.decimal i)).filter (fun k => k ∈ l.map (·.1)) := by
  rw [List.filter_map]
  refine congrArg (List.map _) ?_
  apply sorted_ext (idxs_sorted (slots_nodup h hn))
  · exact List.Pairwise.filter _ List.pairwise_lt_range
  · intro i
    rw [idxs_mem, List.mem_filter, List.mem_range, List.map_map, List.mem_map]
    simp only [Function.comp, decide_eq_true_eq]
    constructor
    · rintro ⟨q, hq, e⟩
      obtain ⟨h1, h2⟩ := (slot_idx (h q hq)).1 e
      exact ⟨hN ▸ h2, h1 ▸ List.mem_map_of_mem hq⟩
    · rintro ⟨h2, h1⟩
      rw [List.mem_map] at h1
      obtain ⟨q, hq, e⟩ := h1
      exact ⟨q, hq, (slot_idx (h q hq)).2 ⟨e, hN ▸ h2⟩⟩

theorem strs_eq : ∀ {l : List (Key × Prp)}, (∀ q ∈ l, NotOdd q.1) →
    (strs (l.map conv1)).map Key.str = (l.map (·.1)).filter isIdx
  | [], _ => rfl
  | (.sym n, p) :: l, h => by
    have ih := strs_eq fun r hr => h r (List.mem_cons_of_mem _ hr)
    rw [List.map_cons, List.map_cons, List.filter_cons_of_neg (by unfold isIdx; exact Bool.false_ne_true), ← ih]
    rfl
  | (.str t, p) :: l, h => by
    have ih := strs_eq fun r hr => h r (List.mem_cons_of_mem _ hr)
    have hq := h _ List.mem_cons_self
    rw [List.map_cons, List.map_cons]
    cases hr : Str.resolve t with
    | index i =>
      have e : conv1 (.str t, p) = (.idx i, toP p) := by simp [conv1, slot, hr]
      rw [e]
      obtain ⟨h1, h2⟩ := resolve_index hq hr
      rw [List.filter_cons_of_neg, ← ih]
      · rfl
      · rw [isIdx_str]
        intro c
        exact c i h2 h1.symm
    | name v =>
      have hv := resolve_name hr
      subst hv
      have e : conv1 (.str t, p) = (.str t, toP p) := by simp [conv1, slot, hr]
      rw [e, List.filter_cons_of_pos, ← ih]
      · rfl
      · rw [isIdx_str]
        intro i hi c
        rw [← c, resolve_decimal hi] at hr
        cases hr

theorem syms_eq : ∀ {l : List (Key × Prp)},
    (syms (l.map conv1)).map Key.sym =
      (l.map (·.1)).filter (fun k => match k with | .str _ => false | .sym _ => true)
  | [] => rfl
  | (.sym n, p) :: l => by
    rw [List.map_cons, List.map_cons, List.filter_cons_of_pos rfl, ← syms_eq]
    rfl
  | (.str t, p) :: l => by
    rw [List.map_cons, List.map_cons, List.filter_cons_of_neg (by simp), ← syms_eq]
    cases hr : Str.resolve t with
    | index i =>
      have e : conv1 (.str t, p) = (.idx i, toP p) := by simp [conv1, slot, hr]
      rw [e]; rfl
    | name v =>
      have e : conv1 (.str t, p) = (.str v, toP p) := by simp [conv1, slot, hr]
      rw [e]; rfl

theorem addKeys_eq {s : Spec.St} (h : ∀ q ∈ s.props, NotOdd q.1) (hn : (s.props.map (·.1)).Nodup) :
    addKeys (s.props.map conv1) = Spec.others s := by
  unfold addKeys Spec.others
  rw [idxs_eq h hn _ rfl, strs_eq h, syms_eq]
  rfl

end Verif.Exotic

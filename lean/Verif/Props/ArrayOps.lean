import Verif.Lemmas.ArrayOpsMut
import Verif.Lemmas.ArrayOpsSplice
import Verif.Lemmas.ArrayOpsRead
/-!
C74: the methods of `Array.prototype` that change the array.
C75: the methods that copy, search and flatten.
-/
namespace Verif.ArrayOps
open Spec

variable {V : Type} [Inhabited V]

/-! ## C74 -/

/-- `push` appends its arguments and returns the new length. -/
theorem C74_push {o : Obj V} (h : Plain o) {l : List (Option V)} (hl : Holds o l) (args : List V)
    (h1 : l.length + args.length ≤ 2 ^ 53 - 1)
    (h2 : o.array = true → l.length + args.length < 2 ^ 32) :
    ∃ o', push args o = .ok (l.length + args.length, o') ∧ Becomes o o' (l ++ args.map some) := by
  have := hl.len
  rw [← this] at h1 h2 ⊢
  exact push_ok h hl args h1 h2

/-- `pop` takes the last element away and returns it. -/
theorem C74_pop {o : Obj V} (h : Plain o) {l : List (Option V)} (hl : Holds o l) :
    ∃ o', pop o = .ok ((l.getLast?.join).getD default, o') ∧ Becomes o o' l.dropLast := by
  by_cases hn : l = []
  · subst hn; exact pop_nil h hl
  · have hx := List.dropLast_concat_getLast hn
    rw [← hx] at hl
    obtain ⟨o', e, b⟩ := pop_ok h hl
    refine ⟨o', ?_, b⟩
    rw [e, List.getLast?_eq_some_getLast hn]; rfl

/-- `shift` takes the first element away and returns it. -/
theorem C74_shift {o : Obj V} (h : Plain o) {l : List (Option V)} (hl : Holds o l) :
    ∃ o', shift o = .ok ((l.head?.join).getD default, o') ∧ Becomes o o' l.tail := by
  cases l with
  | nil => exact shift_nil h hl
  | cons x t => exact shift_ok h hl

/-- `unshift` puts its arguments in front and returns the new length. -/
theorem C74_unshift_partial {o : Obj V} (h : Plain o) {l : List (Option V)} (hl : Holds o l)
    (args : List V) (h1 : l.length + args.length ≤ 2 ^ 53 - 1)
    (h2 : o.array = true → l.length + args.length < 2 ^ 32) :
    ∃ o', unshift args o = .ok (l.length + args.length, o') ∧
      Becomes o o' (args.map some ++ l) := by
  have := hl.len
  rw [← this] at h1 h2 ⊢
  exact unshift_ok h hl args h1 h2

/-- `reverse` reverses; holes are carried along. -/
theorem C74_reverse {o : Obj V} (h : Plain o) {l : List (Option V)} (hl : Holds o l) :
    ∃ o', reverse o = .ok o' ∧ Becomes o o' l.reverse := reverse_ok h hl

/-- `fill`. -/
theorem C74_fill {o : Obj V} (h : Plain o) {l : List (Option V)} (hl : Holds o l) (v : V)
    (start : Num) (fin : Option Num) :
    ∃ o', fill v start fin o = .ok o' ∧
      Becomes o o' (filled l (place l.length start) (placeOr l.length fin) v) :=
  fill_ok h hl v start fin

/-- `copyWithin` copies as if the elements were set aside first, also when source and target
overlap. -/
theorem C74_copyWithin {o : Obj V} (h : Plain o) {l : List (Option V)} (hl : Holds o l)
    (target start : Num) (fin : Option Num) :
    ∃ o', copyWithin target start fin o = .ok o' ∧
      Becomes o o' (copied l (place l.length start) (place l.length target)
        (min (placeOr l.length fin - place l.length start)
          (l.length - place l.length target))) :=
  copyWithin_ok h hl target start fin

/-- `splice` on an array: the elements it removes, in a new array; the values it inserts in their
place. -/
theorem C74_splice_array {o : Obj V} (h : Plain o) (ha : o.array = true) {l : List (Option V)}
    (hl : Holds o l) (args : SpliceArgs V) (s c : Nat) (hs : s = startOf l.length args)
    (hc : c = removed l.length s args)
    (h1 : l.length - c + (inserted args).length < 2 ^ 32) (h2 : l.length + c < 2 ^ 32) :
    ∃ a o', splice args o = .ok (a, o') ∧ Fresh a ((l.drop s).take c) ∧
      Becomes o o' (replaced l s c ((inserted args).map some)) :=
  splice_ok h hl args s c hs hc (by omega) (fun _ => h1) (by omega)
    (fun _ k h3 h4 => h.arrayEnd ha k h3 (by rw [hl.len] at h4; omega))

/-- `splice` on any object that has no properties right after its elements.  Without `hout` this is
false: `C74_splice_violated`. -/
theorem C74_splice_partial {o : Obj V} (h : Plain o) {l : List (Option V)} (hl : Holds o l)
    (args : SpliceArgs V) (s c : Nat) (hs : s = startOf l.length args)
    (hc : c = removed l.length s args)
    (h1 : l.length - c + (inserted args).length ≤ 2 ^ 53 - 1)
    (h2 : o.array = true → l.length - c + (inserted args).length < 2 ^ 32)
    (h3 : c < 2 ^ 32)
    (hout : (inserted args).length < c →
      ∀ k : Int, (o.len : Int) ≤ k → k < o.len + c → o.elem k = none) :
    ∃ a o', splice args o = .ok (a, o') ∧ Fresh a ((l.drop s).take c) ∧
      Becomes o o' (replaced l s c ((inserted args).map some)) :=
  splice_ok h hl args s c hs hc h1 h2 h3 hout

/-- More than 2^53 - 1 elements are refused, before anything is changed. -/
theorem C74_too_long (o : Obj V) (args : List V) (hn : 2 ^ 53 - 1 < o.len + args.length) :
    push args o = .error .type ∧ (args ≠ [] → unshift args o = .error .type) := by
  refine ⟨by unfold push; rw [if_pos (by unfold maxInt; omega)], fun hne => ?_⟩
  have : 0 < args.length := List.length_pos_iff.2 hne
  unfold unshift
  simp only [if_pos this, if_pos (show maxInt < o.len + args.length by unfold maxInt; omega)]
  rfl

/-! ### Witnesses -/

def sample (n : Nat) (len : Nat) (array : Bool) : Obj Nat where
  elem k := if 0 ≤ k ∧ k < n then some { val := k.toNat + 10 } else none
  len := len
  array := array

theorem sample_plain (n len : Nat) (array : Bool) (h1 : len < 2 ^ 32) (h2 : array = true → n ≤ len) :
    Plain (sample n len array) := by
  refine ⟨rfl, rfl, ?_, by simp only [sample]; omega, fun _ => h1, ?_⟩
  · intro k s hs
    simp only [sample] at hs
    split at hs
    · cases hs; exact ⟨rfl, rfl⟩
    · cases hs
  · intro ha k hk1 hk2
    simp only [sample] at hk1 ha ⊢
    have := h2 ha
    rw [if_neg (by omega)]

theorem sample_holds (n len : Nat) (array : Bool) (h : len ≤ n) :
    Holds (sample n len array) ((List.range len).map fun i => some (i + 10)) := by
  refine ⟨by simp [sample], ?_⟩
  intro i hi
  simp only [List.length_map, List.length_range] at hi
  simp only [sample]
  rw [if_pos (by omega), List.getElem?_map, List.getElem?_range hi]
  rfl

/-- The object `{ length: 3, 0: 10, 1: 11, 2: 12, 3: 13, 4: 14 }`.  `splice(0, 2, 99)` on it leaves
two elements, as it should, and replaces its property `3`, which is not an element. -/
theorem C74_splice_violated :
    ∃ (o o' a : Obj Nat) (l : List (Option Nat)), Plain o ∧ Holds o l ∧
      splice (.full (.fin 0) (.fin 2) [99]) o = .ok (a, o') ∧
      Holds o' (replaced l 0 2 [some 99]) ∧
      ¬ Becomes o o' (replaced l 0 2 [some 99]) ∧
      (o.elem 3).map Slot.val = some 13 ∧ (o'.elem 3).map Slot.val = some 14 := by
  cases e : splice (.full (.fin 0) (.fin 2) [99]) (sample 5 3 false) with
  | error er =>
    have h := congrArg Except.toBool e
    rw [show (Except.error er : Except Err _).toBool = false from rfl] at h
    exact absurd h (by decide)
  | ok p =>
    obtain ⟨a, o'⟩ := p
    have hx : ∀ {β : Type} (f : Obj Nat → β),
        (splice (.full (.fin 0) (.fin 2) [99]) (sample 5 3 false)).toOption.map (fun p => f p.2) =
          some (f o') := by
      intro β f; rw [e]; rfl
    have h3 : (o'.elem 3).map Slot.val = some 14 := by
      have := hx (fun o => (o.elem 3).map Slot.val)
      exact Option.some.inj (this.symm.trans (by decide))
    refine ⟨sample 5 3 false, o', a, _, sample_plain 5 3 false (by omega) (by simp),
      sample_holds 5 3 false (by omega), e, ⟨?_, ?_⟩, ?_, by decide, h3⟩
    · exact Option.some.inj ((hx (fun o => o.len)).symm.trans (by decide))
    · intro i hi
      have hi : i < 2 := by simpa [replaced] using hi
      have := hx (fun o => (o.elem i).map Slot.val)
      match i, hi with
      | 0, _ => exact Option.some.inj (this.symm.trans (by decide))
      | 1, _ => exact Option.some.inj (this.symm.trans (by decide))
    · intro b
      have hlen : o'.len = 2 := Option.some.inj ((hx (fun o => o.len)).symm.trans (by decide))
      have := b.others 3 (Or.inr ⟨by decide, by rw [hlen]; decide⟩)
      rw [this] at h3
      exact absurd h3 (by decide)

/-- An array of one element, which can be assigned to and cannot be removed. -/
def fixed : Obj Nat where
  elem k := if k = 0 then some { val := 10, configurable := false } else none
  len := 1

/-- `unshift(9)` on it throws: the loop goes one step too far and removes the element.  By the steps
of the standard the array becomes `[9, 10]`. -/
theorem C74_unshift_violated :
    unshift [9] fixed = .error .type ∧
    ∃ o', Spec.unshift [9] fixed = .ok (2, o') ∧ Holds o' [some 9, some 10] := by
  refine ⟨by
    cases e : unshift [9] fixed with
    | ok p =>
      have h := congrArg Except.toBool e
      rw [show (Except.ok p : Except Err _).toBool = true from rfl] at h
      exact absurd h (by decide)
    | error er =>
      have : (match unshift [9] fixed with | .error e => some e | .ok _ => none) = some Err.type := by
        decide
      rw [e] at this
      rw [Option.some.inj this], ?_⟩
  cases e : Spec.unshift [9] fixed with
  | error er =>
    have h := congrArg Except.toBool e
    rw [show (Except.error er : Except Err _).toBool = false from rfl] at h
    exact absurd h (by decide)
  | ok p =>
    obtain ⟨n, o'⟩ := p
    have hx : ∀ {β : Type} (f : Nat × Obj Nat → β),
        (Spec.unshift [9] fixed).toOption.map f = some (f (n, o')) := by
      intro β f; rw [e]; rfl
    have hn : n = 2 := Option.some.inj ((hx (fun p => p.1)).symm.trans (by decide))
    subst hn
    refine ⟨o', rfl, ?_, ?_⟩
    · exact Option.some.inj ((hx (fun p => p.2.len)).symm.trans (by decide))
    · intro i hi
      have hi : i < 2 := by simpa using hi
      have := hx (fun p => (p.2.elem i).map Slot.val)
      match i, hi with
      | 0, _ => exact Option.some.inj (this.symm.trans (by decide))
      | 1, _ => exact Option.some.inj (this.symm.trans (by decide))

/-! ### Examples -/

example : ∃ o', push [1, 2] (sample 3 3 true) = .ok (5, o') ∧
    Becomes (sample 3 3 true) o' [some 10, some 11, some 12, some 1, some 2] :=
  C74_push (sample_plain 3 3 true (by omega) (by simp)) (sample_holds 3 3 true (by omega)) [1, 2]
    (by decide) (by decide)

example : ∃ o', shift (sample 3 3 true) = .ok (10, o') ∧
    Becomes (sample 3 3 true) o' [some 11, some 12] :=
  C74_shift (sample_plain 3 3 true (by omega) (by simp)) (sample_holds 3 3 true (by omega))

example : ∃ o', pop (sample 3 3 true) = .ok (12, o') ∧
    Becomes (sample 3 3 true) o' [some 10, some 11] :=
  C74_pop (sample_plain 3 3 true (by omega) (by simp)) (sample_holds 3 3 true (by omega))

example : ∃ o', unshift [7] (sample 3 3 false) = .ok (4, o') ∧
    Becomes (sample 3 3 false) o' [some 7, some 10, some 11, some 12] :=
  C74_unshift_partial (sample_plain 3 3 false (by omega) (by simp)) (sample_holds 3 3 false (by omega))
    [7] (by decide) (by decide)

example : ∃ o', copyWithin (.fin 1) (.fin 0) (some (.fin (-1))) (sample 3 3 true) = .ok o' ∧
    Becomes (sample 3 3 true) o' [some 10, some 10, some 11] :=
  C74_copyWithin (sample_plain 3 3 true (by omega) (by simp)) (sample_holds 3 3 true (by omega))
    (.fin 1) (.fin 0) (some (.fin (-1)))

example : ∃ o', fill 5 (.fin (-2)) none (sample 3 3 true) = .ok o' ∧
    Becomes (sample 3 3 true) o' [some 10, some 5, some 5] :=
  C74_fill (sample_plain 3 3 true (by omega) (by simp)) (sample_holds 3 3 true (by omega))
    5 (.fin (-2)) none

example : ∃ a o', splice (.full (.fin 1) (.fin 1) [7, 8]) (sample 3 3 true) = .ok (a, o') ∧
    Fresh a [some 11] ∧ Becomes (sample 3 3 true) o' [some 10, some 7, some 8, some 12] :=
  C74_splice_array (sample_plain 3 3 true (by omega) (by simp)) rfl (sample_holds 3 3 true (by omega))
    (.full (.fin 1) (.fin 1) [7, 8]) 1 1 rfl rfl (by decide) (by decide)

example : push (V := Nat) [1] { elem := fun _ => none, len := 2 ^ 53 - 1, array := false } =
    .error .type := (C74_too_long _ [1] (by decide)).1

/-! ## C75 -/

/-- `slice`. -/
theorem C75_slice {o : Obj V} {l : List (Option V)} (hl : Holds o l) (start : Num) (fin : Option Num)
    (hn : placeOr l.length fin - place l.length start < 2 ^ 32) :
    ∃ a, slice start fin o = .ok a ∧
      Fresh a ((l.take (placeOr l.length fin)).drop (place l.length start)) :=
  slice_ok hl start fin hn

/-- `concat`. -/
theorem C75_concat (items : List (Src V)) (ls : List (List (Option V)))
    (h : Parts items ls) (hn : ls.flatten.length < 2 ^ 32) :
    ∃ a, concat items = .ok a ∧ Fresh a ls.flatten := concat_ok items ls h hn

/-- `toReversed`, `toSpliced` and `with` give what `reverse`, `splice` and an assignment would, in
a new array without holes. -/
theorem C75_toReversed {o : Obj V} {l : List (Option V)} (hl : Holds o l) (hn : l.length < 2 ^ 32) :
    ∃ a, toReversed o = .ok a ∧ Fresh a (dense l).reverse := toReversed_ok hl hn

theorem C75_toSpliced {o : Obj V} {l : List (Option V)} (hl : Holds o l)
    (args : SpliceArgs V) (s c : Nat) (hs : s = startOf l.length args)
    (hc : c = removed l.length s args)
    (h2 : l.length - c + (inserted args).length < 2 ^ 32) :
    ∃ a, toSpliced args o = .ok a ∧
      Fresh a (replaced (dense l) s c ((inserted args).map some)) :=
  toSpliced_ok hl args s c hs hc h2

/-- `with`: a new array with one element replaced; a `RangeError` if there is no such element.  The
index must fit 64 bits: `C75_index_violated`. -/
theorem C75_with_partial {o : Obj V} {l : List (Option V)} (hl : Holds o l) (hn : l.length < 2 ^ 32)
    (index : Num) (v : V) :
    (∀ k, exact l.length index = some k →
      ∃ a, with' index v o = .ok a ∧ Fresh a ((dense l).set k (some v))) ∧
    (exact l.length index = none → (∃ n, index = .fin n ∧ -(2 ^ 63) ≤ n ∧ n < 2 ^ 63) →
      with' index v o = .error .range) :=
  ⟨fun k hk => with_ok hl hn index v k hk, fun hk hf => with_range hl (by omega) index v hf hk⟩

/-- `at`. -/
theorem C75_at {o : Obj V} {l : List (Option V)} (hl : Holds o l) (index : Num) :
    at' index o = ((exact l.length index).bind fun k => (l[k]?).join).getD default := at_ok hl index

/-- `includes` says if an element from the given place on is accepted; a hole counts as
`undefined`. -/
theorem C75_includes_partial (eq : V → V → Bool) (x : V) (from' : Num) {o : Obj V}
    {l : List (Option V)} (hl : Holds o l) (hb : l.length ≤ 2 ^ 53) (hf : Fits from') :
    ∃ b, includes eq x from' o = .ok b ∧
      (b = true ↔ ∃ i, place l.length from' ≤ i ∧ ∃ h : i < l.length,
        eq (l[i].getD default) x = true) := includes_ok eq x from' hl hb hf

/-- `indexOf` gives the first index from the given place on; holes are not looked at. -/
theorem C75_indexOf_partial (eq : V → V → Bool) (x : V) (from' : Num) {o : Obj V}
    {l : List (Option V)} (hl : Holds o l) (hb : l.length ≤ 2 ^ 53) (hf : Fits from') :
    ∃ r, indexOf eq x from' o = .ok r ∧
      ((∃ i : Nat, r = i ∧ place l.length from' ≤ i ∧ Found eq x l i ∧
          ∀ j, place l.length from' ≤ j → j < i → ¬ Found eq x l j) ∨
        (r = -1 ∧ ∀ j, place l.length from' ≤ j → ¬ Found eq x l j)) :=
  indexOf_ok eq x from' hl hb hf

/-- `lastIndexOf` gives the last index up to the given place. -/
theorem C75_lastIndexOf_partial (eq : V → V → Bool) (x : V) (from' : Option Num) {o : Obj V}
    {l : List (Option V)} (hl : Holds o l) (hb : l.length ≤ 2 ^ 53)
    (hf : ∀ n, from' = some n → Fits n) :
    ∃ r, lastIndexOf eq x from' o = .ok r ∧
      ((∃ i : Nat, r = i ∧ i < front l.length from' ∧ Found eq x l i ∧
          ∀ j, i < j → j < front l.length from' → ¬ Found eq x l j) ∨
        (r = -1 ∧ ∀ j, j < front l.length from' → ¬ Found eq x l j)) :=
  lastIndexOf_ok eq x from' hl hb hf

/-- `join` puts the separator between the texts; `undefined`, `null` and holes have none. -/
theorem C75_join (str : V → Option (List Nat)) (sep : Option (List Nat)) {o : Obj V}
    {l : List (Option V)} (hl : Holds o l) :
    join str sep o = List.intercalate (sep.getD [44])
      (l.map fun x => (str (x.getD default)).getD []) := join_ok str sep hl

/-- `flat(n)` takes `n` levels of arrays away, and all holes down to that level. -/
theorem C75_flat {W : Type} (l : Items W) (n : Nat) (hn : (levels n (present l)).length < 2 ^ 32) :
    ∃ a, flat (some (.fin n)) l = .ok a ∧ Fresh a ((levels n (present l)).map some) := by
  have := flat_out (some (.fin n)) l (by rw [show depthOf (some (.fin n)) = .fin n from rfl, flatOut_fin]; exact hn)
  rwa [show depthOf (some (.fin n)) = .fin n from rfl, flatOut_fin] at this

/-- Without an argument one level goes; a negative number takes none away. -/
theorem C75_flat_default {W : Type} (l : Items W) :
    flat none l = flat (some (.fin 1)) l ∧
    (∀ n : Int, n < 0 → flat (some (.fin n)) l = flat (some (.fin 0)) l) ∧
    flat (some .ninf) l = flat (some (.fin 0)) l := by
  refine ⟨rfl, fun n hn => ?_, rfl⟩
  unfold flat depthOf
  simp only
  rw [show n.toNat = 0 from by omega]
  rfl

/-- `flat(Infinity)` leaves no array in the array. -/
theorem C75_flat_inf {W : Type} (l : Items W) (hn : (leaves l).length < 2 ^ 32) :
    ∃ a, flat (some .pinf) l = .ok a ∧ Fresh a ((leaves l).map fun v => some (Item.val v)) := by
  have := flat_out (some .pinf) l (by rw [show depthOf (some .pinf) = .inf from rfl, flatOut_inf]; simpa using hn)
  rw [show depthOf (some .pinf) = .inf from rfl, flatOut_inf, List.map_map] at this
  exact this

/-- An index or a start that does not fit 64 bits is converted without a check. -/
theorem C75_index_violated :
    includes (fun a b => a == b) 10 (.fin (2 ^ 63)) (sample 1 1 true) = .error .undef ∧
    indexOf (fun a b => a == b) 10 (.fin (2 ^ 63)) (sample 1 1 true) = .error .undef ∧
    lastIndexOf (fun a b => a == b) 10 (some (.fin (-(2 ^ 64)))) (sample 1 1 true) = .error .undef ∧
    with' .pinf 7 (sample 1 1 true) = .error .undef ∧
    with' (.fin (2 ^ 63)) 7 (sample 1 1 true) = .error .undef := ⟨rfl, rfl, rfl, rfl, rfl⟩

/-! ### Examples -/

example : ∃ a, slice (.fin (-2)) none (sample 3 3 true) = .ok a ∧ Fresh a [some 11, some 12] :=
  C75_slice (sample_holds 3 3 true (by omega)) (.fin (-2)) none (by decide)

example : ∃ a, concat [.many (sample 2 2 true), .one 7, .many (sample 1 1 true)] = .ok a ∧
    Fresh a [some 10, some 11, some 7, some 10] :=
  C75_concat _ [[some 10, some 11], [some 7], [some 10]]
    (.cons (.many _ _ (sample_holds 2 2 true (by omega))) (.cons (.one 7)
      (.cons (.many _ _ (sample_holds 1 1 true (by omega))) .nil))) (by decide)

example : ∃ a, toSpliced (.full (.fin 1) (.fin 1) [7, 8]) (sample 3 3 true) = .ok a ∧
    Fresh a [some 10, some 7, some 8, some 12] :=
  C75_toSpliced (sample_holds 3 3 true (by omega)) (.full (.fin 1) (.fin 1) [7, 8]) 1 1 rfl rfl
    (by decide)

example : ∃ a, with' (.fin (-1)) 7 (sample 3 3 true) = .ok a ∧ Fresh a [some 10, some 11, some 7] :=
  (C75_with_partial (sample_holds 3 3 true (by omega)) (by decide) (.fin (-1)) 7).1 2 rfl

example : at' (.fin (-1)) (sample 3 3 true) = 12 :=
  C75_at (sample_holds 3 3 true (by omega)) (.fin (-1))

example : join (fun n : Nat => some [n]) (some [0]) (sample 3 3 true) = [10, 0, 11, 0, 12] :=
  C75_join _ _ (sample_holds 3 3 true (by omega))

example : ∃ r, indexOf (fun a b => a == b) 11 (.fin (-2)) (sample 3 3 true) = .ok r ∧ r = 1 := by
  obtain ⟨r, e, h⟩ := C75_indexOf_partial (fun a b : Nat => a == b) 11 (.fin (-2))
    (sample_holds 3 3 true (by omega)) (by decide) (by decide : -(2 ^ 63) ≤ (-2 : Int) ∧ (-2 : Int) < 2 ^ 63)
  refine ⟨r, e, ?_⟩
  have : indexOf (fun a b : Nat => a == b) 11 (.fin (-2)) (sample 3 3 true) = .ok 1 := by rfl
  rw [this] at e
  cases e; rfl

/-- `[1, , [2, [3]]]` -/
example : ∃ a, flat (some (.fin (1 : Nat)))
      (.cons (.val 1) (.hole (.cons (.arr (.cons (.val 2) (.cons (.arr (.cons (.val 3) .nil)) .nil))) .nil)))
      = .ok a ∧
    Fresh a [some (.val 1), some (.val 2), some (.arr (.cons (.val 3) .nil))] :=
  C75_flat _ 1 (by decide)

end Verif.ArrayOps

import Verif.Lemmas.Exotic3

/-! Property C91: the objects of strings and typed arrays. -/
namespace Verif.Exotic
open Obj (Val Fields)
open Obj.Spec (Prp)

/-- Conversions for the examples: "" is 0, "-0" is -0, "1e300" is a large integer, a string taken for
an index is the index, digits are their number, all else is not a number. -/
def exNum (s : List Nat) : Num :=
  if s = [] then .int false 0
  else if s = [45, 48] then .int true 0
  else if s = [49, 101, 51, 48, 48] then .int false (10 ^ 300)
  else
    match Str.toIndex s with
    | some i => .int false i
    | none =>
      if s.all Str.isDigit then .int false (s.foldl (fun n c => n * 10 + (c - 48)) 0) else .nan

def exStr : Num → List Nat
  | .int false n => Str.decimal n
  | .int true 0 => [48]
  | .int true n => 45 :: Str.decimal n
  | .inf _ => [73]
  | .frac _ => [46]
  | .nan => [78, 97, 78]

/-- Elements are numbers; `other 1` throws, `other 2` detaches the buffer and is 9. -/
def exL : Lang where
  toNum := exNum
  toStr := exStr
  char := .other
  conv v :=
    match v with
    | .num n => (some (.num n), false)
    | .other 1 => (none, false)
    | .other 2 => (some (.num 9), true)
    | _ => (some (.num 0), false)
  up _ := .none
  callable _ := true

theorem exL_faithful : Spec.Faithful exL where
  write n _ := rfl
  read n _ := by
    show exNum (Str.decimal n) = _
    have hd := Str.decimal_isDecimal n
    have h3 : Str.decimal n ≠ [49, 101, 51, 48, 48] := by
      intro h
      have := hd.digits 101 (by rw [h]; simp)
      omega
    unfold exNum
    rw [if_neg hd.nonempty, if_neg (decimal_ne_minus n), if_neg h3]
    cases ht : Str.toIndex (Str.decimal n) with
    | some i =>
      have := (Str.toIndex_plain (decimal_odd n) ht).1.value
      rw [hd.value] at this
      rw [this]
    | none =>
      have hall : (Str.decimal n).all Str.isDigit = true := by
        rw [List.all_eq_true]
        intro c hc
        have := hd.digits c hc
        simp [Str.isDigit, this.1, this.2]
      simp only
      rw [if_pos hall, hd.value]
  index s i h := by
    show exNum s = _
    unfold exNum
    have h1 : s ≠ [] := by rintro rfl; revert h; simp [Str.toIndex]
    have h2 : s ≠ [45, 48] := by rintro rfl; revert h; simp [Str.toIndex, Str.isWhite, Str.isDigit, List.dropWhile]
    have h3 : s ≠ [49, 101, 51, 48, 48] := by
      rintro rfl
      have : Str.toIndex [49, 101, 51, 48, 48] = none := by decide
      rw [this] at h; cases h
    rw [if_neg h1, if_neg h2, if_neg h3, h]
  elem v x h := by
    cases v with
    | undef => cases h; intro c; cases c
    | num n => cases h; intro c; cases c
    | other k =>
      simp only [exL] at h
      split at h
      · cases h; intro c; cases c
      · cases h
      · cases h; intro c; cases c
      · cases h; intro c; cases c

/-! ### The objects of strings -/

/-- C91, partial: every history of operations on the object of a string has the results and leaves the
properties the standard says, if the keys are plain: not taken for an array index written in another
way (C26), not another way to write the number of a character, not a number of 2^64 or more. -/
theorem C91_string_partial {L : Lang} (hL : Spec.Faithful L) (u : List Nat) (hu : u.length ≤ 2 ^ 53)
    (ops : List Op) (h : Spec.PlainRun L (Spec.newStr u) ops) :
    (run L (newStr u) ops).2 = (Spec.run L (Spec.newStr u) ops).2 :=
  (run_rel hL ops _ _ (rel_newStr L u hu) h).1

/-- C91: whatever is done, with whatever keys, the characters stay: each is a property which cannot be
written, configured or deleted. -/
theorem C91_string_elements {L : Lang} (hL : Spec.Faithful L) (u : List Nat) (hu : u.length ≤ 2 ^ 53)
    (ops : List Op) (i : Nat) (c : Nat) (hi : u[i]? = some c) :
    (step L (run L (newStr u) ops).1 (.getOwn (.str (Str.decimal i)))).2 =
      .desc (some { value := some (L.char c), writable := some false, enumerable := some true, configurable := some false }) := by
  have hlt : i < u.length := by
    rcases Nat.lt_or_ge i u.length with h | h
    · exact h
    · rw [List.getElem?_eq_none h] at hi; cases hi
  have hinv := run_inv hL hu ops (new_inv u)
  generalize (run L (newStr u) ops).1 = m at hinv
  simp only [step, getOwn]
  rw [hinv.body]
  simp only [ordOwn]
  rw [find_none.2 (hinv.free i hlt)]
  simp only
  rw [strOwn_decimal hu hlt (hL.read i (by omega)), List.getD_eq_getElem?_getD, hi]
  rfl

/-- C91: whatever is done, with whatever keys, no key is listed twice, the characters are listed first
and in order. -/
theorem C91_string_keys {L : Lang} (hL : Spec.Faithful L) (u : List Nat) (hu : u.length ≤ 2 ^ 53) (ops : List Op) :
    ∃ l, (step L (run L (newStr u) ops).1 .keys).2 =
        .keys (((List.range u.length).map fun i => .str (Str.decimal i)) ++ l) ∧
      (((List.range u.length).map fun i => Key.str (Str.decimal i)) ++ l).Nodup := by
  have hinv := run_inv hL hu ops (new_inv u)
  generalize (run L (newStr u) ops).1 = m at hinv
  refine ⟨addKeys m.props, ?_, ?_⟩
  · simp only [step, ownKeys]
    rw [hinv.body]
    simp only
    rw [elemKeys_eq hL hu]
  · rw [List.nodup_append]
    refine ⟨nodup_map (fun a b e => decimal_inj (Key.str.inj e)) List.nodup_range, addKeys_nodup hinv.nodup hinv.from_, ?_⟩
    intro a ha b hb c
    obtain ⟨i, hi, rfl⟩ := List.mem_map.1 ha
    subst c
    exact hinv.free i (List.mem_range.1 hi) (addKeys_elem hinv.from_ hb)

/-- C91 is violated: `new String("a")` has the property "" (which is its first character), although
the key is not listed, and the standard knows no such property. -/
theorem C91_spelling_violated :
    ∃ (L : Lang) (u : List Nat) (k : Key), Spec.Faithful L ∧
      (∃ d, (step L (newStr u) (.getOwn k)).2 = .desc (some d)) ∧
      k ∉ ownKeys L (newStr u) ∧ (Spec.step L (Spec.newStr u) (.getOwn k)).2 = .desc none :=
  ⟨exL, [97], .str [], exL_faithful, ⟨_, rfl⟩, by decide +kernel, by decide +kernel⟩

/-- C91 is violated: the key "1e300" is converted to a 64 bit integer, which is undefined. -/
theorem C91_large_violated :
    ∃ (L : Lang) (u : List Nat) (k : Key), Spec.Faithful L ∧ (step L (newStr u) (.getOwn k)).2 = .ub ∧
      (Spec.step L (Spec.newStr u) (.getOwn k)).2 = .desc none :=
  ⟨exL, [97], .str [49, 101, 51, 48, 48], exL_faithful, by decide +kernel, by decide +kernel⟩

/-! ### Typed arrays -/

/-- C91, partial: every history of operations on a typed array has the results the standard says, if
the keys are not taken for an array index written in another way (C26), the keys are not listed after
the buffer has been detached, and elements are assigned only for the typed array itself. -/
theorem C91_array_partial {L : Lang} (hL : Spec.Faithful L) (el : List Val) (hn : el.length ≤ 2 ^ 53)
    (hu : ∀ x ∈ el, x ≠ .undef) (ops : List Op) (h : Spec.PlainRun L (Spec.newArr el) ops) :
    (run L (newArr el) ops).2 = (Spec.run L (Spec.newArr el) ops).2 :=
  (run_rel hL ops _ _ (rel_newArr L el hn hu) h).1

/-- C91: whatever is done, with whatever keys, a typed array keeps its length: its elements are
properties which can be written, enumerated and configured, all of them or - the buffer is detached -
none, and beyond its length there are none. -/
theorem C91_array_elements {L : Lang} (hL : Spec.Faithful L) (el : List Val) (hn : el.length ≤ 2 ^ 53)
    (hu : ∀ x ∈ el, x ≠ .undef) (ops : List Op) :
    (∀ i < 2 ^ 53, el.length ≤ i → (step L (run L (newArr el) ops).1 (.getOwn (.str (Str.decimal i)))).2 = .desc none) ∧
    ((∀ i < el.length, (step L (run L (newArr el) ops).1 (.getOwn (.str (Str.decimal i)))).2 = .desc none) ∨
      ∀ i < el.length, ∃ v, (step L (run L (newArr el) ops).1 (.getOwn (.str (Str.decimal i)))).2 =
        .desc (some { value := some v, writable := some true, enumerable := some true, configurable := some true })) := by
  have hinv : ArrInv el.length (run L (newArr el) ops).1 := arr_run hL ops ⟨el, false, rfl, rfl, hu⟩
  generalize (run L (newArr el) ops).1 = m at hinv
  obtain ⟨el', det, hb, hl, hu'⟩ := hinv
  have hnum : ∀ i < 2 ^ 53, numKey L (.str (Str.decimal i)) = some (.int false i) := fun i hi =>
    numeric_element hL (Nat.le_refl _) (element_some.2 ⟨rfl, hi⟩)
  have hg : ∀ i < 2 ^ 53, (step L m (.getOwn (.str (Str.decimal i)))).2 =
      match (if elemGet el' det (.int false i) = .undef then Own.none
        else .some { hasV := true, hasW := true, hasE := true, hasC := true, w := true, e := true, c := true,
                     value := elemGet el' det (.int false i) }) with
      | .ub => .ub
      | .none => .desc none
      | .some d => .desc (some (Obj.fromDesc d)) := by
    intro i hi
    simp only [step, getOwn]
    rw [hb]
    simp only
    rw [hnum i hi]
    rfl
  refine ⟨fun i hi hle => ?_, ?_⟩
  · rw [hg i hi]
    have : elemGet el' det (.int false i) = .undef := by
      unfold elemGet valid
      cases det with
      | true => rfl
      | false => simp [hl, hle]
    rw [this]
    rfl
  · cases det with
    | true =>
      left
      intro i hi
      rw [hg i (by omega)]
      rfl
    | false =>
      right
      intro i hi
      have : elemGet el' false (.int false i) = el'.getD i .undef := by
        unfold elemGet valid
        simp only [Bool.false_eq_true, if_false]
        rw [if_neg (by omega)]
      refine ⟨el'.getD i .undef, ?_⟩
      rw [hg i (by omega), this, if_neg (hu' _ (getD_mem (by omega)))]
      rfl

/-- C91 is violated: when the buffer of a typed array is detached, its elements are gone, but their
keys are still listed. -/
theorem C91_detached_violated :
    ∃ (L : Lang) (el : List Val) (ops : List Op), Spec.Faithful L ∧
      (run L (newArr el) ops).2 = [.unit, .desc none, .keys [.str [48]]] ∧
      (Spec.run L (Spec.newArr el) ops).2 = [.unit, .desc none, .keys []] := by
  refine ⟨exL, [.num 7], [.detach, .getOwn (.str [48]), .keys], exL_faithful, by decide +kernel, ?_⟩
  have e1 : Spec.numeric exL (.str [48]) = true := by decide +kernel
  have e2 : ∀ b, Spec.others ⟨[], true, b⟩ = [] := by
    intro b
    simp only [Spec.others, List.map_nil, List.filter_nil, List.append_nil]
    rw [List.filter_eq_nil_iff]
    intro a _
    simp
  simp only [Spec.run, Spec.step, Spec.newArr, Spec.prop, e1, if_true, Spec.live, Spec.element, List.range_zero,
    List.find?_nil, Option.map_none, Spec.keys, List.map_nil, List.nil_append, e2]

/-- C91 is violated: the assignment to the key "01" makes a property beside the element "1", and the
key "1" is listed twice. -/
theorem C91_repeat_violated :
    ∃ (L : Lang) (el : List Val) (k : Key) (v : Val), Spec.Faithful L ∧
      (run L (newArr el) [.set true k v, .keys]).2 = [.bool true, .keys [.str [48], .str [49], .str [49]]] :=
  ⟨exL, [.num 7, .num 8], .str [48, 49], .num 5, exL_faithful, by decide +kernel⟩

/-- C91 is violated: an assignment for another object, which inherits from the typed array, writes the
element of the typed array; the standard leaves it to the other object. -/
theorem C91_receiver_violated :
    ∃ (L : Lang) (el : List Val) (k : Key) (v : Val), Spec.Faithful L ∧
      (run L (newArr el) [.set false k v, .get k]).2 = [.bool true, .value v] ∧
      (Spec.run L (Spec.newArr el) [.set false k v, .get k]).2 = [.receiver, .value (.num 7)] :=
  ⟨exL, [.num 7], .str [48], .num 5, exL_faithful, by decide +kernel, by decide +kernel⟩

/-! ### Keys -/

/-- C91, partial: after a history of plain operations on the object of a string, a plain key is listed
exactly if it is the key of a property. -/
theorem C91_listed_partial {L : Lang} (hL : Spec.Faithful L) (u : List Nat) (hu : u.length ≤ 2 ^ 53)
    (ops : List Op) (h : Spec.PlainRun L (Spec.newStr u) ops) (k : Key) (hk : Spec.PlainKey L (.str u) k) :
    k ∈ ownKeys L (run L (newStr u) ops).1 ↔ getOwn L (run L (newStr u) ops).1 k ≠ .none := by
  have hr := (run_rel hL ops _ _ (rel_newStr L u hu) h).2
  have hinv := run_inv hL hu ops (new_inv u)
  generalize (run L (newStr u) ops).1 = m at hr hinv
  generalize (Spec.run L (Spec.newStr u) ops).1 = s at hr
  have hb := hr.body
  rw [hinv.body] at hb
  rw [getOwn_rel hL hr (hb ▸ hk)]
  unfold Spec.prop ownKeys
  rw [hinv.body, ← hb]
  simp only
  rw [elemKeys_eq hL hu, List.mem_append]
  have hodd := plain_odd hk
  cases hf : Spec.find k s.props with
  | some p =>
    refine ⟨fun _ c => (nomatch c), fun _ => Or.inr (addKeys_mem hodd ?_)⟩
    have : find (slot k) m.props = some (toP p) := by rw [hr.props, find_map hodd hr.odd, hf]; rfl
    have hne : ¬ find (slot k) m.props = none := by rw [this]; simp
    rw [find_none] at hne
    exact Decidable.not_not.1 hne
  | none =>
    cases he : Spec.element u.length k with
    | some i =>
      obtain ⟨rfl, hi⟩ := element_some.1 he
      exact ⟨fun _ c => (nomatch c), fun _ => Or.inl (List.mem_map_of_mem (List.mem_range.2 hi))⟩
    | none =>
      refine ⟨fun c => ?_, fun c => absurd rfl c⟩
      exfalso
      rcases c with c | c
      · obtain ⟨i, hi, e⟩ := List.mem_map.1 c
        exact element_none.1 he i (List.mem_range.1 hi) e.symm
      · rw [hr.props, addKeys_eq hr.odd hr.nodup] at c
        apply sfind_none.1 hf
        unfold Spec.others at c
        rcases List.mem_append.1 c with c | c
        · simpa using (List.mem_filter.1 c).2
        · rcases List.mem_append.1 c with c | c
          · exact (List.mem_filter.1 c).1
          · exact (List.mem_filter.1 c).1

/-! ### Examples -/

/-- The keys "0", "x" and a symbol are plain; what is done with them. -/
def exOps : List Op :=
  [.set true (.str [48]) (.num 5), .get (.str [48]), .set true (.str [120]) (.num 6), .get (.str [120]),
    .define (.str [48]) { value := some (.num 5) }, .delete (.str [48]), .delete (.str [120]), .has (.str [120]),
    .set true (.sym 1) (.num 3), .getOwn (.sym 1)]

theorem exPlain (b : Body) (t : List Nat) (h : t = [48] ∨ t = [120]) (hb : b = .str [97] ∨ Spec.isArr b = true) :
    Spec.PlainKey exL b (.str t) := by
  have ho : ¬ Str.Spec.Odd t := by
    rcases h with rfl | rfl
    · have := decimal_odd 0
      rwa [show Str.decimal 0 = [48] by decide +kernel] at this
    · rintro (⟨c, t, h, hw⟩ | ⟨c, t, h, hw⟩ | ⟨c, t, h⟩)
      · obtain ⟨rfl, _⟩ := List.cons.inj h; revert hw; decide
      · have := congrArg List.getLast? h
        simp at this
        subst this; revert hw; decide
      · simp at h
  cases b with
  | arr el det => exact ho
  | str u =>
    have hu : u = [97] := by
      rcases hb with hb | hb
      · exact Body.str.inj hb
      · cases hb
    subst hu
    refine ⟨ho, fun n hn => ?_⟩
    rcases h with rfl | rfl
    · have : exL.toNum [48] = .int false 0 := by decide +kernel
      rw [this] at hn
      cases hn
      exact ⟨by decide, fun _ => by decide +kernel⟩
    · have : exL.toNum [120] = .nan := by decide +kernel
      rw [this] at hn
      cases hn

/-- The history is plain, for `new String("a")`: the character cannot be assigned or deleted, the other
property can. -/
example : Spec.PlainRun exL (Spec.newStr [97]) exOps ∧
    (run exL (newStr [97]) exOps).2 =
      [.bool false, .value (.other 97), .bool true, .value (.num 6), .bool false, .bool false, .bool true, .bool false,
        .bool true,
        .desc (some { value := some (.num 3), writable := some true, enumerable := some true, configurable := some true })] := by
  have h0 : ∀ b : Body, b = .str [97] → Spec.PlainKey exL b (.str [48]) := fun b h => exPlain b _ (Or.inl rfl) (Or.inl h)
  have h1 : ∀ b : Body, b = .str [97] → Spec.PlainKey exL b (.str [120]) := fun b h => exPlain b _ (Or.inr rfl) (Or.inl h)
  refine ⟨?_, by decide +kernel⟩
  refine ⟨⟨h0 _ ?_, ?_⟩, h0 _ ?_, ⟨h1 _ ?_, ?_⟩, h1 _ ?_, h0 _ ?_, h0 _ ?_, h1 _ ?_, h1 _ ?_, ⟨trivial, ?_⟩, trivial, trivial⟩
  all_goals first
    | decide +kernel
    | (intro c; cases c)

/-- It is for a typed array of one element: the element can be assigned, but not deleted. -/
example : Spec.PlainRun exL (Spec.newArr [.num 7]) exOps ∧
    (run exL (newArr [.num 7]) exOps).2 =
      [.bool true, .value (.num 5), .bool true, .value (.num 6), .bool true, .bool false, .bool true, .bool false,
        .bool true,
        .desc (some { value := some (.num 3), writable := some true, enumerable := some true, configurable := some true })] := by
  have h0 : ∀ b : Body, Spec.isArr b = true → Spec.PlainKey exL b (.str [48]) := fun b h => exPlain b _ (Or.inl rfl) (Or.inr h)
  have h1 : ∀ b : Body, Spec.isArr b = true → Spec.PlainKey exL b (.str [120]) := fun b h => exPlain b _ (Or.inr rfl) (Or.inr h)
  refine ⟨?_, by decide +kernel⟩
  refine ⟨⟨h0 _ ?_, ?_⟩, h0 _ ?_, ⟨h1 _ ?_, ?_⟩, h1 _ ?_, h0 _ ?_, h0 _ ?_, h1 _ ?_, h1 _ ?_, ⟨trivial, ?_⟩, trivial, trivial⟩
  all_goals first
    | decide +kernel
    | (intro c; cases c)

/-- Keys in order: the characters, the indices, the other strings, the symbols. -/
example : (run exL (newStr [97, 98]) [.set true (.sym 1) (.num 1), .set true (.str [120]) (.num 1),
    .set true (.str [57]) (.num 1), .set true (.str [53]) (.num 1), .keys]).2.getLast? =
    some (.keys [.str [48], .str [49], .str [53], .str [57], lengthKey, .str [120], .sym 1]) := by decide +kernel

/-- A conversion which detaches the buffer: nothing is written, nothing is thrown. -/
example : (run exL (newArr [.num 7]) [.set true (.str [48]) (.other 2), .get (.str [48]), .define (.str [48]) {},
    .set true (.str [48]) (.other 1)]).2 = [.bool true, .value .undef, .bool false, .throw] := by decide +kernel

end Verif.Exotic

import Verif.Lemmas.OperatorsOp
/-
C87: the operators on arbitrary values do what the standard says: equality, order, arithmetic,
conversions of objects; and where they do not.
-/
namespace Verif.Operators
open Verif.NumConv (Num num den)
open Verif.BigInt (BI)

variable {σ : Type}

/-! ### Numbers and big integers -/

/-- A big integer and a number are compared by their mathematical values, however large or small
the number is; the answer is `undefined` exactly for NaN. -/
theorem C87_compare_number {x : BI} (hx : x.WF) {n : Num} (hn : IsDouble n) :
    (compareNumber x n = .less ↔ (extB x).Lt (ext n)) ∧
    (compareNumber x n = .equal ↔ (extB x).Eq (ext n)) ∧
    (compareNumber x n = .greater ↔ (ext n).Lt (extB x)) ∧
    (compareNumber x n = .undefined ↔ n = .nan) := by
  obtain ⟨h1, h2, h3⟩ := compareNumber_spec hx hn
  refine ⟨h1, h2, h3, ?_⟩
  cases n with
  | nan => simp [compareNumber]
  | inf s => cases s <;> simp [compareNumber]
  | fin s m e =>
    simp only [reduceCtorEq, iff_false]
    intro h
    rcases Ext.total (a := extB x) (b := ext (.fin s m e)) (by simp [extB]) (by simp [ext]) with h' | h' | h'
    · rw [h1.mpr h'] at h; cases h
    · rw [h2.mpr h'] at h; cases h
    · rw [h3.mpr h'] at h; cases h

/-- 2^64 and the double 2^64 + 2^12; -5 and -5.5; 0 and 2^-1074. -/
example : compareNumber ⟨false, [0, 0, 1]⟩ (.fin false (2 ^ 52 + 1) 12) = .less := by decide +kernel
example : compareNumber ⟨true, [5]⟩ (.fin true 11 (-1)) = .greater := by decide +kernel
example : compareNumber ⟨false, []⟩ (.fin false 1 (-1074)) = .less := by decide +kernel
example : compareNumber ⟨false, [0, 0, 0, 1]⟩ (.fin false 1 96) = .equal := by decide +kernel

/-- Two numbers are compared by their mathematical values. -/
theorem C87_number_compare (a b : Num) :
    (numCmp a b = .less ↔ (ext a).Lt (ext b)) ∧
    (numCmp a b = .equal ↔ (ext a).Eq (ext b)) ∧
    (numCmp a b = .greater ↔ (ext b).Lt (ext a)) :=
  numCmp_spec a b

example : numCmp (.fin false 3 (-1)) (.fin false 6 (-2)) = .equal := by decide
example : numCmp (.fin true 0 0) (.fin false 0 5) = .equal := by decide

/-! ### Equality -/

/-- `===`. -/
theorem C87_strict (a b : V) : strictEq a b = true ↔ SameTy NumStrict a b := strict_iff a b

/-- SameValue (`Object.is`). -/
theorem C87_same_value (a b : V) : sameValue a b = true ↔ SameTy NumSame a b := sameValue_iff a b

/-- SameValueZero (keys of maps, `includes`). -/
theorem C87_same_value_zero (a b : V) : sameValue0 a b = true ↔ SameTy NumZero a b :=
  sameValue0_iff a b

/-- The values which are true. -/
theorem C87_to_boolean (v : V) : toBool v = true ↔ ¬ Falsy v := toBool_iff v

example : strictEq (.num nan) (.num nan) = false ∧ sameValue (.num nan) (.num nan) = true ∧
    sameValue0 (.num ⟨.fin true 0 0, by decide⟩) (.num (nat 0)) = true ∧
    sameValue (.num ⟨.fin true 0 0, by decide⟩) (.num (nat 0)) = false ∧
    strictEq (.str (.idx 12)) (.str (.units [49, 50])) = true := by decide +kernel

/-! ### A world for the examples -/

/-- Objects 1 and 2 have a method which depends on the hint, as the dates have; object 3 has a method
`valueOf` which gives its number of calls; object 4 has none. -/
def demo : World Nat where
  get o k := match o, k with
    | 1, .toPrimitive => ret (.obj 10)
    | 2, .toPrimitive => ret (.obj 10)
    | 3, .valueOf => ret (.obj 11)
    | _, _ => ret .undef
  callable f := f ≥ 10
  call f t as := match f, t, as with
    | 10, .obj o, [.str h] =>
      if h.chars = ascii "number" then ret (.num (if o = 1 then nat 0 else nat 86400000))
      else ret (.str (.units (ascii (if o = 1 then "Thu" else "Fri"))))
    | 11, _, _ => fun s => (.ok (.num (if s = 0 then nat 0 else nat 1)), s + 1)
    | _, _, _ => throw' .typeError
  strNum l := ⟨.fin false (ForIn.value l % 2 ^ 53) 0, Nat.mod_lt _ (by decide)⟩
  strBig l := if l = [55] then some ⟨⟨false, [7]⟩, by decide⟩ else none
  numStr _ := []
  bigStr _ := []
  nadd a _ := a
  badd a _ := a
  nbin _ a _ := a
  bbin _ _ _ := .error .rangeError
  nun _ a := a
  bun _ a := a

theorem demo_index : IndexNum demo := by
  intro n hn
  show Num.fin false (ForIn.value (Str.decimal n) % 2 ^ 53) 0 = _
  rw [ForIn.value_decimal, Nat.mod_eq_of_lt (Nat.lt_trans hn (by decide))]

/-! ### Conversions -/

/-- ToPrimitive. -/
theorem C87_to_primitive (W : World σ) (h : Hint) (a : V) (s : σ) (r : Except Exc P) (s' : σ) :
    ToPrim W h a s r s' ↔ Agree Is (toPrim W h a s).1 r ∧ (toPrim W h a s).2 = s' :=
  toPrim_iff

private theorem toNumber_eq (W : World σ) (a : V) :
    toNumber W a = (toPrim W .number a).andThen (toNumberP W) := by cases a <;> rfl

private theorem toStr_eq (W : World σ) (a : V) :
    toStr W a = (toPrim W .string a).andThen (toStringP W) := by cases a <;> rfl

/-- ToNumber. -/
theorem C87_to_number {W : World σ} (hW : IndexNum W) (a : V) (s : σ) (r : Except Exc Dbl) (s' : σ) :
    Conv W .number (numOf W) a s r s' ↔ toNumber W a s = (r, s') := by
  rw [toNumber_eq, conv_iff (R := (· = ·)) (fun _ _ _ h h' => h.symm.trans h')
    (fun v p hv => toNumberP_pure hW hv), agree_eq]
  exact ⟨fun ⟨h1, h2⟩ => Prod.ext h1 h2, fun h => by rw [h]; exact ⟨rfl, rfl⟩⟩

/-- ToString. -/
theorem C87_to_string (W : World σ) (a : V) (s : σ) (r : Except Exc (List Nat)) (s' : σ) :
    Conv W .string (strOf W) a s r s' ↔
      Agree (fun x l => x.chars = l) (toStr W a s).1 r ∧ (toStr W a s).2 = s' := by
  rw [toStr_eq]
  exact conv_iff (fun _ _ _ h h' => h.symm.trans h') (fun v p hv => toStringP_pure W hv)

/-- ToPropertyKey. -/
theorem C87_to_property_key (W : World σ) (a : V) (s : σ) (r : Except Exc P) (s' : σ) :
    Conv W .string (keyP W) a s r s' ↔ Agree Is (toKey W a s).1 r ∧ (toKey W a s).2 = s' := by
  refine conv_iff (fun _ _ _ h h' => h.unique h') (fun v p hv => ?_)
  have gen : Pure Is ((toStr W v).andThen fun s => ret (.str s)) ((strOf W p).map P.str) := by
    have e : (strOf W p).map P.str = (strOf W p).bind fun l => .ok (.str l) := by
      cases strOf W p <;> rfl
    rw [e]
    exact pure_bind (toStr_pure W hv) (by rintro x a rfl; exact pure_ret (.str x))
  cases hv with
  | sym i => exact pure_ret (.sym i)
  | _ => exact gen

/-! ### Operators -/

/-- `a + b`. -/
theorem C87_add {W : World σ} (hW : IndexNum W) (a b : V) (s : σ) (r : Except Exc P) (s' : σ) :
    Add W a b s r s' ↔ Agree Is (add W a b s).1 r ∧ (add W a b s).2 = s' := by
  refine binary_iff (R := Is) (S := Is) (fun _ _ _ h h' => h.unique h') conv_prim conv_prim
    (conv_total W _ _ _) (conv_total W _ _ _) ?_
  intro x y u v hx hy t
  refine pure_binary (fun _ _ _ h h' => h.unique h') ?_ t
  have e : (x.ty = .str ∨ y.ty = .str) ↔ (u.isStr || v.isStr) = true := by
    rw [isStr_ty hx, isStr_ty hy, Bool.or_eq_true]
  unfold addP
  by_cases h : x.ty = .str ∨ y.ty = .str
  · rw [if_pos h, if_pos (e.mp h)]
    refine pure_bind (toStr_pure W hx) ?_
    rintro ls a rfl
    refine pure_bind (toStr_pure W hy) ?_
    rintro rs b rfl
    exact pure_ret (.str (.units _))
  · rw [if_neg h, if_neg (fun h' => h (e.mpr h'))]
    refine pure_bind (toNumeric_pure hW hx) ?_
    intro ln a hl
    refine pure_bind (toNumeric_pure hW hy) ?_
    intro rn b hr
    exact numericOp_pure _ _ hl hr

private theorem conv_numeric {W : World σ} (hW : IndexNum W) {a : V} (s : σ)
    (r : Except Exc Numeric) (s' : σ) :
    Conv W .number (numericOf W) a s r s' ↔
      Agree NumIs (toNumeric W a s).1 r ∧ (toNumeric W a s).2 = s' :=
  conv_iff (fun _ _ _ h h' => h.unique h') (fun _ _ hv => numericP_pure hW hv)

/-- `a - b`, `a * b` and so on: the left operand is made a number or big integer before the right
one is looked at; a mixture is a TypeError. -/
theorem C87_arith {W : World σ} (hW : IndexNum W) (op : NOp) (a b : V) (s : σ) (r : Except Exc P)
    (s' : σ) :
    Arith W op a b s r s' ↔ Agree Is (arith W op a b s).1 r ∧ (arith W op a b s).2 = s' := by
  refine binary_iff (R := NumIs) (S := Is) (fun _ _ _ h h' => h.unique h') (conv_numeric hW)
    (conv_numeric hW) (conv_total W _ _ _) (conv_total W _ _ _) ?_
  intro x y u v hx hy t
  exact pure_binary (fun _ _ _ h h' => h.unique h') (numericOp_pure _ _ hx hy) t

/-- Unary minus, `~`, `++`, `--`. -/
theorem C87_unary {W : World σ} (hW : IndexNum W) (op : UOp) (a : V) (s : σ) (r : Except Exc P)
    (s' : σ) :
    Unary W op a s r s' ↔ Agree Is (unary W op a s).1 r ∧ (unary W op a s).2 = s' := by
  unfold unary
  rw [toNumeric_eq, andThen_assoc]
  refine conv_iff (fun _ _ _ h h' => h.unique h') (fun v p hv => ?_)
  have e : unaryP W op p = (numericOf W p).bind fun
      | .n x => .ok (.num (W.nun op x))
      | .b x => .ok (.big (W.bun op x)) := by
    unfold unaryP
    rcases numericOf W p with e | (x | x) <;> rfl
  rw [e]
  refine pure_bind (numericP_pure hW hv) ?_
  intro x a hx
  cases hx with
  | n x => exact pure_ret (.num _)
  | b x => exact pure_ret (.big _)

/-! ### Loose equality -/

/-- `a == b`; the recursion of the code is never deeper than five calls. -/
theorem C87_loose {W : World σ} (hW : IndexNum W) (n : Nat) (a b : V) (s : σ) (r : Except Exc Bool)
    (s' : σ) : Loose W a b s r s' ↔ looseEq W (n + 5) a b s = (r, s') := by
  refine ⟨loose_run hW n, fun h => ?_⟩
  obtain ⟨r0, s0, h0⟩ := loose_total W a b s
  have h1 := loose_run hW n h0
  rw [h] at h1
  injection h1 with h1 h2
  subst h1; subst h2
  exact h0

/-- `false == { valueOf() { ... } }` with a count of the calls, `"7" == 7n`, `null == 0`. -/
example : (looseEq demo 5 (.bool false) (.obj 3) 0).2 = 1 := rfl
example : Loose demo (.bool false) (.obj 3) 0 (.ok true) 1 := by
  rw [C87_loose demo_index 0]
  have h : (looseEq demo 5 (.bool false) (.obj 3) 0) =
      (.ok (strictEq (.num (nat 0)) (.num (nat 0))), 1) := rfl
  rw [h, show strictEq (.num (nat 0)) (.num (nat 0)) = true from by decide +kernel]
example : Loose demo .null (.num (nat 0)) 5 (.ok false) 5 :=
  .prims .null (.num _) (by rw [decides_ok]; simp [EqP])

/-! ### Relational operators -/

/-- The relational operators as the code computes them: the standard's algorithm with the hint
`default` where it says `number`. -/
theorem C87_relational_default {W : World σ} (hW : IndexNum W) (rl : Rel) (a b : V) (s : σ)
    (r : Except Exc Bool) (s' : σ) :
    Relational W .none rl a b s r s' ↔ rel W rl a b s = (r, s') := by
  rw [rel_eq]
  have := binary_iff (W := W) (h := .none) (a := a) (b := b) (f := .ok) (R := Is) (S := (· = ·))
    (Q := RelP W rl) (k := relPrim W rl) (fun _ _ _ h h' => h.unique h') conv_prim conv_prim
    (conv_total W _ _ _) (conv_total W _ _ _)
    (fun x y u v hx hy t => relPrim_spec hW rl hx hy t) (s := s) (r := r) (s' := s')
  unfold Relational
  rw [this, agree_eq]
  exact ⟨fun ⟨h1, h2⟩ => Prod.ext h1 h2, fun h => by rw [h]; exact ⟨rfl, rfl⟩⟩

/-- Primitive values, and objects without `@@toPrimitive`, do not depend on the hint. -/
theorem C87_hint_free (W : World σ) (a : V)
    (h : ∀ o, a = .obj o → ∀ s v s', W.get o .toPrimitive s = (.ok v, s') → v = .undef ∨ v = .null) :
    HintFree W a := by
  have key : ∀ h1 h2 : Hint, order h1 = order h2 → ∀ s r s', ToPrim W h1 a s r s' →
      ToPrim W h2 a s r s' := by
    intro h1 h2 ho s r s' ht
    cases ht with
    | prim hp => exact .prim hp
    | getErr hg => exact .getErr hg
    | notFn hg n1 n2 hc => exact .notFn hg n1 n2 hc
    | ordinary hg hv hr => exact .ordinary hg hv (ho ▸ hr)
    | callErr hg hc hcall => rcases h _ rfl _ _ _ hg with h' | h' <;> cases h'
    | exotic hg hc hcall hp => rcases h _ rfl _ _ _ hg with h' | h' <;> cases h'
    | object hg hc hcall => rcases h _ rfl _ _ _ hg with h' | h' <;> cases h'
  intro s r s'
  exact ⟨key .none .number rfl s r s', key .number .none rfl s r s'⟩

private theorem conv_hint {W : World σ} {a : V} (h : HintFree W a) {α : Type} {f : P → Except Exc α}
    {s : σ} {r : Except Exc α} {s' : σ} : Conv W .number f a s r s' ↔ Conv W .none f a s r s' := by
  constructor
  · intro hc
    cases hc with
    | err ht => exact .err ((h _ _ _).mpr ht)
    | val ht => exact .val ((h _ _ _).mpr ht)
  · intro hc
    cases hc with
    | err ht => exact .err ((h _ _ _).mp ht)
    | val ht => exact .val ((h _ _ _).mp ht)

/-- The relational operators are those of the standard for all operands whose conversion does not
depend on the hint (all primitive values and all objects without `@@toPrimitive`).  The full
statement has no such hypothesis; it does not hold (`C87_relational_violated`). -/
theorem C87_relational_partial {W : World σ} (hW : IndexNum W) (rl : Rel) {a b : V}
    (ha : HintFree W a) (hb : HintFree W b) (s : σ) (r : Except Exc Bool) (s' : σ) :
    Relational W .number rl a b s r s' ↔ rel W rl a b s = (r, s') := by
  rw [← C87_relational_default hW]
  unfold Relational
  constructor
  · intro h
    cases h with
    | left c => exact .left ((conv_hint ha).mp c)
    | right c c' => exact .right ((conv_hint ha).mp c) ((conv_hint hb).mp c')
    | both c c' q => exact .both ((conv_hint ha).mp c) ((conv_hint hb).mp c') q
  · intro h
    cases h with
    | left c => exact .left ((conv_hint ha).mpr c)
    | right c c' => exact .right ((conv_hint ha).mpr c) ((conv_hint hb).mpr c')
    | both c c' q => exact .both ((conv_hint ha).mpr c) ((conv_hint hb).mpr c') q

/-- Object 3 is such an operand: `o < 1` and `o < 1` again. -/
example : HintFree demo (.obj 3) :=
  C87_hint_free demo _ (by
    intro o h s v s' hg
    injection h with h; subst h
    have : (.ok .undef, s) = ((.ok v, s') : Except Exc V × Nat) := hg
    injection this with h1 h2; injection h1 with h1; exact .inl h1.symm)

/-- The same two dates: by their time values the first is less than the second; the code compares
the strings "Thu" and "Fri" and says no. -/
theorem C87_relational_violated :
    ¬ ∀ (σ : Type) (W : World σ), IndexNum W → ∀ rl a b s r s',
      Relational W .number rl a b s r s' → rel W rl a b s = (r, s') := by
  intro h
  have hs : Relational demo .number .lt (.obj 1) (.obj 2) 0 (.ok true) 0 := by
    refine .both (s' := 0) (x := .num (nat 0)) (y := .num (nat 86400000)) (.val (p := .num (nat 0)) ?_)
      (.val (p := .num (nat 86400000)) ?_) ?_
    · exact .exotic (f := 10) (s' := 0) (v := .num (nat 0)) rfl rfl
        (by simp [demo, hintStr, SV.chars, ret]) (.num _)
    · exact .exotic (f := 10) (s' := 0) (v := .num (nat 86400000)) rfl rfl
        (by simp [demo, hintStr, SV.chars, ret]) (.num _)
    · show Decides _ ((ext (.fin false 0 0)).Lt (ext (.fin false 86400000 0)))
      rw [decides_ok, ← dlt_iff]; decide +kernel
  have h1 := h Nat demo demo_index .lt (.obj 1) (.obj 2) 0 _ _ hs
  have h2 : (rel demo .lt (.obj 1) (.obj 2) 0).1 = .ok false := by
    exact congrArg Except.ok (by decide +kernel)
  rw [h1] at h2
  injection h2 with h2
  cases h2

end Verif.Operators

import Verif.Lemmas.Operators
import Verif.Lemmas.ForIn
/-
Lemmas for C87: equality.
-/
namespace Verif.Operators
open Verif.NumConv (Num num den)
open Verif.BigInt (BI)

variable {σ : Type}

theorem decides_ok {b : Bool} {A : Prop} : Decides (.ok b) A ↔ (b = true ↔ A) := by
  constructor
  · rintro ⟨b', h, h'⟩; injection h with h; subst h; exact h'
  · intro h; exact ⟨b, rfl, h⟩

theorem decides_unique {r r' : Except Exc Bool} {A : Prop} (h : Decides r A) (h' : Decides r' A) :
    r = r' := by
  obtain ⟨b, rfl, hb⟩ := h
  obtain ⟨b', rfl, hb'⟩ := h'
  have : b = b' := by cases b <;> cases b' <;> simp_all
  rw [this]

theorem strEq_iff (a b : SV) :
    strEq a b = true ↔ a.chars = b.chars := by
  cases a <;> cases b <;> simp only [strEq, SV.chars, beq_iff_eq]
  · constructor
    · rintro rfl; rfl
    · intro h; exact Fin.ext (ForIn.decimal_inj h)

theorem numCmp_eq (a b : Num) : (numCmp a b == .equal) = true ↔ (ext a).Eq (ext b) := by
  rw [beq_iff_eq]; exact (numCmp_spec a b).2.1

theorem bigCmp_eq (a b : Big) : (BigInt.compare a.1 b.1 == .equal) = true ↔ a.1.toInt = b.1.toInt := by
  rw [beq_iff_eq]; exact (BigInt.C21_compare a.2 b.2).2.1

theorem extB_eq (a b : BI) : (extB a).Eq (extB b) ↔ a.toInt = b.toInt := by
  simp [extB, Ext.Eq]

theorem cmpNum_eq (x : Big) (n : Dbl) :
    (compareNumber x.1 n.1 == .equal) = true ↔ (extB x.1).Eq (ext n.1) := by
  rw [beq_iff_eq]; exact (compareNumber_spec x.2 n.2).2.1

theorem eq_num {x : Dbl} {y : Dbl} :
    (∃ a b, (Except.ok (.n x) : Except Exc Numeric) = .ok a ∧
      (Except.ok (.n y) : Except Exc Numeric) = .ok b ∧ a.ext.Eq b.ext) ↔
    (ext x.1).Eq (ext y.1) := by
  constructor
  · rintro ⟨a, b, h1, h2, h⟩; injection h1 with h1; injection h2 with h2; subst h1; subst h2; exact h
  · intro h; exact ⟨_, _, rfl, rfl, h⟩

theorem sameNon_iff {N : Num → Num → Prop} {a b : V} (ht : a.ty = b.ty) (hn : a.ty ≠ .num)
    (hb : a.ty ≠ .big) : sameNonNumeric a b = true ↔ SameTy N a b := by
  cases a <;> cases b <;> first | (cases ht; done) | skip
  · exact ⟨fun _ => .undef, fun _ => rfl⟩
  · exact ⟨fun _ => .null, fun _ => rfl⟩
  · simp only [sameNonNumeric, beq_iff_eq]
    exact ⟨fun h => h ▸ .bool _, fun h => by cases h; rfl⟩
  · exact absurd rfl hn
  · simp only [sameNonNumeric, strEq_iff]
    exact ⟨.str, fun h => by cases h with | str h => exact h⟩
  · simp only [sameNonNumeric, beq_iff_eq]
    exact ⟨fun h => h ▸ .sym _, fun h => by cases h; rfl⟩
  · exact absurd rfl hb
  · simp only [sameNonNumeric, beq_iff_eq]
    exact ⟨fun h => h ▸ .obj _, fun h => by cases h; rfl⟩

theorem sameTy_ty {N : Num → Num → Prop} {a b : V} (h : SameTy N a b) : a.ty = b.ty := by
  cases h <;> rfl

theorem strict_iff (a b : V) : strictEq a b = true ↔ SameTy NumStrict a b := by
  unfold strictEq
  split
  · next h => exact ⟨fun h' => (by cases h'), fun h' => absurd (sameTy_ty h') h⟩
  · next h =>
    have h : a.ty = b.ty := Classical.not_not.mp h
    split
    · rw [numCmp_eq]; exact ⟨fun h => .num h, fun h => by cases h with | num h => exact h⟩
    · rw [bigCmp_eq]; exact ⟨.big, fun h => by cases h with | big h => exact h⟩
    · next h1 h2 =>
      refine sameNon_iff h ?_ ?_
      · intro hn; cases a <;> cases b <;> cases hn <;> cases h; exact h1 _ _ rfl rfl
      · intro hn; cases a <;> cases b <;> cases hn <;> cases h; exact h2 _ _ rfl rfl

theorem big_same (a b : Big) : BigInt.sameValue a.1 b.1 = true ↔ a.1.toInt = b.1.toInt :=
  (BigInt.C21_compare a.2 b.2).2.2.2.1

theorem sameValue0_iff (a b : V) : sameValue0 a b = true ↔ SameTy NumZero a b := by
  have hN : ∀ x y : Num, numSame0 x y = true ↔ NumZero x y := by
    intro x y
    unfold numSame0 NumZero
    split
    · next h =>
      simp only [Bool.and_eq_true] at h
      cases x <;> cases y <;> simp [isNan] at h ⊢
    · next h =>
      rw [deq_iff]
      constructor
      · exact .inl
      · rintro (h' | ⟨rfl, rfl⟩)
        · exact h'
        · exact absurd rfl h
  unfold sameValue0
  split
  · next h => exact ⟨fun h' => (by cases h'), fun h' => absurd (sameTy_ty h') h⟩
  · next h =>
    have h : a.ty = b.ty := Classical.not_not.mp h
    split
    · rw [hN]; exact ⟨.num, fun h => by cases h with | num h => exact h⟩
    · rw [big_same]; exact ⟨.big, fun h => by cases h with | big h => exact h⟩
    · next h1 h2 =>
      refine sameNon_iff h ?_ ?_
      · intro hn; cases a <;> cases b <;> cases hn <;> cases h; exact h1 _ _ rfl rfl
      · intro hn; cases a <;> cases b <;> cases hn <;> cases h; exact h2 _ _ rfl rfl

theorem valQ_zero (s : Bool) (e : Int) : valQ s 0 e = 0 := by simp [valQ]

theorem valQ_sign {m1 m2 : Nat} {e1 e2 : Int} (h : valQ false m1 e1 = valQ true m2 e2) :
    m1 = 0 ∧ m2 = 0 := by
  rw [valQ_eq] at h
  have h1 := den_pos e1
  have h2 := den_pos e2
  have p1 : ∀ m e, num m e = 0 → m = 0 := by
    intro m e h
    unfold num at h
    rcases Nat.mul_eq_zero.mp h with h | h
    · exact h
    · have : 0 < 2 ^ e.toNat := Nat.pow_pos (by decide)
      omega
  simp only [sgn, if_true, Bool.false_eq_true, if_false, Int.neg_mul] at h
  have q1 : (0 : Int) ≤ (num m1 e1 : Int) * den e2 := Int.mul_nonneg (by omega) (by omega)
  have q2 : (0 : Int) ≤ (num m2 e2 : Int) * den e1 := Int.mul_nonneg (by omega) (by omega)
  have r1 : (num m1 e1 : Int) * den e2 = 0 := by omega
  have r2 : (num m2 e2 : Int) * den e1 = 0 := by omega
  rw [Int.mul_eq_zero] at r1 r2
  exact ⟨p1 m1 e1 (by omega), p1 m2 e2 (by omega)⟩

theorem numSame_iff (x y : Num) : numSame x y = true ↔ NumSame x y := by
  unfold numSame NumSame
  cases x with
  | nan =>
    cases y with
    | nan => simp [isNan, NumZero, ZeroSign]
    | inf t => cases t <;> simp [isNan, NumZero, deq, ext, Ext.Eq]
    | fin t m e => simp [isNan, NumZero, deq, ext, Ext.Eq]
  | inf s =>
    cases y with
    | nan => cases s <;> simp [isNan, NumZero, deq, ext, Ext.Eq]
    | inf t => cases s <;> cases t <;> simp [isNan, NumZero, deq, ext, Ext.Eq, signbit, ZeroSign]
    | fin t m e => cases s <;> simp [isNan, NumZero, deq, ext, Ext.Eq]
  | fin s m1 e1 =>
    cases y with
    | nan => simp [isNan, NumZero, deq, ext, Ext.Eq]
    | inf t => cases t <;> simp [isNan, NumZero, deq, ext, Ext.Eq]
    | fin t m2 e2 =>
      have hd := deq_iff (.fin s m1 e1) (.fin t m2 e2)
      have e : numSame (.fin s m1 e1) (.fin t m2 e2) =
          if s ≠ t then false else deq (.fin s m1 e1) (.fin t m2 e2) := by
        cases s <;> cases t <;> rfl
      change numSame (.fin s m1 e1) (.fin t m2 e2) = true ↔ _
      rw [e]
      simp only [NumZero]
      by_cases hs : s ≠ t
      · rw [if_pos hs]
        simp only [Bool.false_eq_true, false_iff]
        rintro ⟨h1 | ⟨h, -⟩, h2⟩
        · have hz : m1 = 0 ∧ m2 = 0 := by
            simp only [ext, Ext.Eq] at h1
            cases s <;> cases t
            · exact absurd rfl hs
            · exact valQ_sign h1
            · exact (valQ_sign h1.symm).symm
            · exact absurd rfl hs
          obtain ⟨rfl, rfl⟩ := hz
          exact hs (h2 s t ⟨e1, rfl⟩ ⟨e2, rfl⟩)
        · cases h
      · have hs : s = t := Classical.not_not.mp hs
        rw [if_neg (fun h => h hs), hd]
        constructor
        · intro h
          refine ⟨.inl h, ?_⟩
          rintro s' t' ⟨e, h1⟩ ⟨e', h2⟩
          injection h1 with h1; injection h2 with h2
          rw [← h1, ← h2, hs]
        · rintro ⟨h | ⟨h, -⟩, -⟩
          · exact h
          · cases h

theorem sameValue_iff (a b : V) : sameValue a b = true ↔ SameTy NumSame a b := by
  unfold sameValue
  split
  · next h => exact ⟨fun h' => (by cases h'), fun h' => absurd (sameTy_ty h') h⟩
  · next h =>
    have h : a.ty = b.ty := Classical.not_not.mp h
    split
    · rw [numSame_iff]; exact ⟨.num, fun h => by cases h with | num h => exact h⟩
    · rw [big_same]; exact ⟨.big, fun h => by cases h with | big h => exact h⟩
    · next h1 h2 =>
      refine sameNon_iff h ?_ ?_
      · intro hn; cases a <;> cases b <;> cases hn <;> cases h; exact h1 _ _ rfl rfl
      · intro hn; cases a <;> cases b <;> cases hn <;> cases h; exact h2 _ _ rfl rfl

theorem toBool_iff (v : V) : toBool v = true ↔ ¬ Falsy v := by
  cases v with
  | undef => simp [toBool, Falsy]
  | null => simp [toBool, Falsy]
  | bool b => cases b <;> simp [toBool, Falsy]
  | num n =>
    simp only [toBool, Falsy, Bool.not_eq_true', Bool.or_eq_false_iff, not_or]
    have h1 := deq_iff n.1 (.fin false 0 0)
    have h0 : ext (.fin false 0 0) = .fin 0 := by simp [ext, valQ_zero]
    rw [h0] at h1
    have h2 : isNan n.1 = true ↔ n.1 = .nan := by cases n.1 <;> simp [isNan]
    rw [← h1, ← h2]
    simp only [Bool.not_eq_true]
    exact And.comm
  | str s =>
    cases s with
    | idx n =>
      simp only [toBool, Falsy, SV.chars, true_iff]
      unfold Str.decimal
      split <;> simp
    | units l => simp [toBool, Falsy, SV.chars]
  | sym i => simp [toBool, Falsy]
  | big x =>
    have := (BigInt.C21_compare x.2 x.2).2.2.2.2
    simp only [toBool, Falsy, ← this]
    simp
  | obj i => simp [toBool, Falsy]

theorem eqP_num (W : World σ) (p q : P) (x y : Numeric) (hp : numericOf W p = .ok x)
    (hq : numericOf W q = .ok y) :
    (∃ a b, numericOf W p = .ok a ∧ numericOf W q = .ok b ∧ a.ext.Eq b.ext) ↔
      x.ext.Eq y.ext := by
  constructor
  · rintro ⟨a, b, h1, h2, h⟩
    rw [hp] at h1; rw [hq] at h2
    injection h1 with h1; injection h2 with h2; subst h1; subst h2; exact h
  · intro h; exact ⟨_, _, hp, hq, h⟩

theorem strictNum (x y : Dbl) : strictEq (.num x) (.num y) = true ↔ (ext x.1).Eq (ext y.1) := by
  rw [strict_iff]; exact ⟨fun h => (by cases h with | num h => exact h), fun h => .num h⟩

theorem strictBig (x y : Big) : strictEq (.big x) (.big y) = true ↔ x.1.toInt = y.1.toInt := by
  rw [strict_iff]; exact ⟨fun h => (by cases h with | big h => exact h), fun h => .big h⟩

/-- The number of a truth value. -/
def boolNum (b : Bool) : Dbl := if b then nat 1 else nat 0

theorem numericOf_bool (W : World σ) (b : Bool) : numericOf W (.bool b) = .ok (.n (boolNum b)) := by
  cases b <;> rfl

theorem numericOf_str {W : World σ} (hW : IndexNum W) (s : SV) :
    numericOf W (.str s.chars) = .ok (.n (strToNum W s)) := by
  rw [strToNum_eq hW]; rfl

theorem loose_num_str (W : World σ) (n : Nat) (x : Dbl) (s : SV) :
    looseEq W (n + 2) (.num x) (.str s) = ret (strictEq (.num x) (.num (strToNum W s))) := rfl

theorem loose_str_num (W : World σ) (n : Nat) (x : Dbl) (s : SV) :
    looseEq W (n + 2) (.str s) (.num x) = ret (strictEq (.num (strToNum W s)) (.num x)) := rfl

theorem loose_big_str (W : World σ) (n : Nat) (x : Big) (s : SV) :
    ∃ c, looseEq W (n + 2) (.big x) (.str s) = ret c ∧
      (c = true ↔ ∃ y, W.strBig s.chars = some y ∧ (extB x.1).Eq (extB y.1)) := by
  have e : looseEq W (n + 2) (.big x) (.str s) =
      match W.strBig s.chars with
      | none => ret false
      | some y => looseEq W (n + 1) (.big x) (.big y) := rfl
  rw [e]
  cases h : W.strBig s.chars with
  | none => exact ⟨false, rfl, by simp⟩
  | some y =>
    refine ⟨strictEq (.big x) (.big y), rfl, ?_⟩
    rw [strictBig]
    constructor
    · intro h'; exact ⟨y, rfl, (extB_eq _ _).mpr h'⟩
    · rintro ⟨z, hz, h'⟩; injection hz with hz; subst hz; exact (extB_eq _ _).mp h'

theorem loose_num (W : World σ) (hW : IndexNum W) (n : Nat) (x : Dbl) {b : V} {q : P} (hb : Is b q) :
    ∃ c, looseEq W (n + 2) (.num x) b = ret c ∧ (c = true ↔ EqP W (.num x) q) := by
  cases hb with
  | undef => exact ⟨false, rfl, by simp [EqP]⟩
  | null => exact ⟨false, rfl, by simp [EqP]⟩
  | bool b =>
    refine ⟨strictEq (.num x) (.num (boolNum b)), rfl, ?_⟩
    rw [strictNum]; exact (eqP_num W (.num x) (.bool b) (.n x) (.n (boolNum b)) rfl (numericOf_bool W b)).symm
  | num y => exact ⟨_, rfl, (strictNum x y).trans (eqP_num W (.num x) (.num y) (.n x) (.n y) rfl rfl).symm⟩
  | str s =>
    refine ⟨_, rfl, (strictNum _ _).trans (eqP_num W (.num x) (.str s.chars) (.n x) (.n (strToNum W s)) rfl (numericOf_str hW s)).symm⟩
  | sym i =>
    refine ⟨false, rfl, ?_⟩
    simp only [EqP, Bool.false_eq_true, false_iff]
    rintro ⟨a, b, h1, h2, h⟩; cases h2
  | big y =>
    refine ⟨_, rfl, (cmpNum_eq y x).trans (Ext.eq_comm.trans
      (eqP_num W (.num x) (.big y) (.n x) (.b y) rfl rfl).symm)⟩

theorem loose_num' (W : World σ) (hW : IndexNum W) (n : Nat) (x : Dbl) {b : V} {q : P}
    (hb : Is b q) : ∃ c, looseEq W (n + 2) b (.num x) = ret c ∧ (c = true ↔ EqP W q (.num x)) := by
  cases hb with
  | undef => exact ⟨false, rfl, by simp [EqP]⟩
  | null => exact ⟨false, rfl, by simp [EqP]⟩
  | bool b =>
    refine ⟨strictEq (.num (boolNum b)) (.num x), rfl, ?_⟩
    rw [strictNum]; exact (eqP_num W (.bool b) (.num x) (.n (boolNum b)) (.n x) (numericOf_bool W b) rfl).symm
  | num y => exact ⟨_, rfl, (strictNum y x).trans (eqP_num W (.num y) (.num x) (.n y) (.n x) rfl rfl).symm⟩
  | str s =>
    refine ⟨_, rfl, (strictNum _ _).trans (eqP_num W (.str s.chars) (.num x) (.n (strToNum W s)) (.n x) (numericOf_str hW s) rfl).symm⟩
  | sym i =>
    refine ⟨false, rfl, ?_⟩
    simp only [EqP, Bool.false_eq_true, false_iff]
    rintro ⟨a, b, h1, h2, h⟩; cases h1
  | big y =>
    refine ⟨_, rfl, (cmpNum_eq y x).trans (eqP_num W (.big y) (.num x) (.b y) (.n x) rfl rfl).symm⟩

theorem eqP_bool_l {W : World σ} {b : Bool} {q : P} (h : ∀ c, q ≠ .bool c) :
    EqP W (.bool b) q ↔ EqP W (.num (boolNum b)) q := by
  cases q with
  | bool c => exact absurd rfl (h c)
  | undef => simp [EqP]
  | null => simp [EqP]
  | _ => simp only [EqP, numericOf_bool]; rfl

theorem eqP_bool_r {W : World σ} {b : Bool} {q : P} (h : ∀ c, q ≠ .bool c) :
    EqP W q (.bool b) ↔ EqP W q (.num (boolNum b)) := by
  cases q with
  | bool c => exact absurd rfl (h c)
  | undef => simp [EqP]
  | null => simp [EqP]
  | _ => simp only [EqP, numericOf_bool]; rfl

/-- The answer of `looseEq` on primitive values, with enough fuel. -/
theorem looseP {W : World σ} (hW : IndexNum W) (n : Nat) {a b : V} {p q : P} (ha : Is a p)
    (hb : Is b q) : ∃ c, looseEq W (n + 3) a b = ret c ∧ (c = true ↔ EqP W p q) := by
  cases ha with
  | num x => exact loose_num W hW (n + 1) x hb
  | undef => cases hb <;> first | exact ⟨false, rfl, by simp [EqP]⟩ | exact ⟨true, rfl, by simp [EqP]⟩
  | null => cases hb <;> first | exact ⟨false, rfl, by simp [EqP]⟩ | exact ⟨true, rfl, by simp [EqP]⟩
  | bool x =>
    cases hb with
    | bool y =>
      refine ⟨x == y, rfl, ?_⟩
      simp [EqP]
    | num y => exact loose_num' W hW (n + 1) y (.bool x)
    | undef => exact ⟨false, by cases x <;> rfl, by simp [EqP]⟩
    | null => exact ⟨false, by cases x <;> rfl, by simp [EqP]⟩
    | str s =>
      obtain ⟨c, h1, h2⟩ := loose_num W hW n (boolNum x) (.str s)
      exact ⟨c, h1, h2.trans (eqP_bool_l (by intro c h; cases h)).symm⟩
    | sym s =>
      obtain ⟨c, h1, h2⟩ := loose_num W hW n (boolNum x) (.sym s)
      exact ⟨c, h1, h2.trans (eqP_bool_l (by intro c h; cases h)).symm⟩
    | big s =>
      obtain ⟨c, h1, h2⟩ := loose_num W hW n (boolNum x) (.big s)
      exact ⟨c, h1, h2.trans (eqP_bool_l (by intro c h; cases h)).symm⟩
  | str s =>
    cases hb with
    | bool y =>
      obtain ⟨c, h1, h2⟩ := loose_num' W hW n (boolNum y) (.str s)
      exact ⟨c, h1, h2.trans (eqP_bool_r (by intro c h; cases h)).symm⟩
    | num y => exact loose_num' W hW (n + 1) y (.str s)
    | undef => exact ⟨false, rfl, by simp [EqP]⟩
    | null => exact ⟨false, rfl, by simp [EqP]⟩
    | str t => exact ⟨strEq s t, rfl, strEq_iff s t⟩
    | sym t =>
      refine ⟨false, rfl, ?_⟩
      simp only [EqP, Bool.false_eq_true, false_iff]
      rintro ⟨a, b, h1, h2, h⟩; cases h2
    | big x =>
      obtain ⟨c, h1, h2⟩ := loose_big_str W n x s
      refine ⟨c, h1, h2.trans ?_⟩
      constructor
      · rintro ⟨y, h, h'⟩; exact ⟨y, h, Ext.eq_comm.mp h'⟩
      · rintro ⟨y, h, h'⟩; exact ⟨y, h, Ext.eq_comm.mp h'⟩
  | sym s =>
    cases hb with
    | bool y =>
      obtain ⟨c, h1, h2⟩ := loose_num' W hW n (boolNum y) (.sym s)
      exact ⟨c, h1, h2.trans (eqP_bool_r (by intro c h; cases h)).symm⟩
    | num y => exact loose_num' W hW (n + 1) y (.sym s)
    | undef => exact ⟨false, rfl, by simp [EqP]⟩
    | null => exact ⟨false, rfl, by simp [EqP]⟩
    | sym t => exact ⟨s == t, rfl, by simp [EqP]⟩
    | str t =>
      refine ⟨false, rfl, ?_⟩
      simp only [EqP, Bool.false_eq_true, false_iff]
      rintro ⟨a, b, h1, h2, h⟩; cases h1
    | big t =>
      refine ⟨false, rfl, ?_⟩
      simp only [EqP, Bool.false_eq_true, false_iff]
      rintro ⟨a, b, h1, h2, h⟩; cases h1
  | big x =>
    cases hb with
    | bool y =>
      obtain ⟨c, h1, h2⟩ := loose_num' W hW n (boolNum y) (.big x)
      exact ⟨c, h1, h2.trans (eqP_bool_r (by intro c h; cases h)).symm⟩
    | num y => exact loose_num' W hW (n + 1) y (.big x)
    | undef => exact ⟨false, rfl, by simp [EqP]⟩
    | null => exact ⟨false, rfl, by simp [EqP]⟩
    | sym t =>
      refine ⟨false, rfl, ?_⟩
      simp only [EqP, Bool.false_eq_true, false_iff]
      rintro ⟨a, b, h1, h2, h⟩; cases h2
    | str t => exact loose_big_str W (n + 1) x t
    | big y =>
      refine ⟨strictEq (.big x) (.big y), rfl, ?_⟩
      rw [strictBig, ← extB_eq]; exact (eqP_num W (.big x) (.big y) (.b x) (.b y) rfl rfl).symm

theorem boolNum_eq (x y : Bool) : (ext (boolNum x).1).Eq (ext (boolNum y).1) ↔ x = y := by
  rw [← deq_iff]
  cases x <;> cases y <;> decide

theorem eqP_bool {W : World σ} (b : Bool) (q : P) :
    EqP W (.num (boolNum b)) q ↔ EqP W (.bool b) q := by
  by_cases h : ∃ c, q = .bool c
  · obtain ⟨c, rfl⟩ := h
    exact (eqP_num W (.num (boolNum b)) (.bool c) (.n (boolNum b)) (.n (boolNum c)) rfl
      (numericOf_bool W c)).trans (boolNum_eq b c)
  · exact (eqP_bool_l (fun c hc => h ⟨c, hc⟩)).symm

theorem eqP_bool' {W : World σ} (b : Bool) (q : P) :
    EqP W q (.num (boolNum b)) ↔ EqP W q (.bool b) := by
  by_cases h : ∃ c, q = .bool c
  · obtain ⟨c, rfl⟩ := h
    exact (eqP_num W (.bool c) (.num (boolNum b)) (.n (boolNum c)) (.n (boolNum b))
      (numericOf_bool W c) rfl).trans (boolNum_eq c b)
  · exact (eqP_bool_r (fun c hc => h ⟨c, hc⟩)).symm

/-- An object on the right: after at most two steps the converted value is compared. -/
theorem loose_obj_r {W : World σ} (hW : IndexNum W) (n : Nat) {a : V} {p : P} (ha : Is a p)
    (h1 : p ≠ .undef) (h2 : p ≠ .null) (j : Nat) :
    ∃ k : V → M σ Bool, looseEq W (n + 5) a (.obj j) = (toPrim W .none (.obj j)).andThen k ∧
      ∀ v q, Is v q → ∃ c, k v = ret c ∧ (c = true ↔ EqP W p q) := by
  cases ha with
  | undef => exact absurd rfl h1
  | null => exact absurd rfl h2
  | bool b =>
    refine ⟨fun q => looseEq W (n + 3) (.num (boolNum b)) q, rfl, ?_⟩
    intro v q hv
    obtain ⟨c, e1, e2⟩ := looseP hW n (.num (boolNum b)) hv
    exact ⟨c, e1, e2.trans (eqP_bool b q)⟩
  | num x => exact ⟨fun q => looseEq W (n + 4) (.num x) q, rfl, fun v q hv => looseP hW (n + 1) (.num x) hv⟩
  | str x => exact ⟨fun q => looseEq W (n + 4) (.str x) q, rfl, fun v q hv => looseP hW (n + 1) (.str x) hv⟩
  | sym x => exact ⟨fun q => looseEq W (n + 4) (.sym x) q, rfl, fun v q hv => looseP hW (n + 1) (.sym x) hv⟩
  | big x => exact ⟨fun q => looseEq W (n + 4) (.big x) q, rfl, fun v q hv => looseP hW (n + 1) (.big x) hv⟩

/-- An object on the left. -/
theorem loose_obj_l {W : World σ} (hW : IndexNum W) (n : Nat) {a : V} {p : P} (ha : Is a p)
    (h1 : p ≠ .undef) (h2 : p ≠ .null) (j : Nat) :
    ∃ k : V → M σ Bool, looseEq W (n + 5) (.obj j) a = (toPrim W .none (.obj j)).andThen k ∧
      ∀ v q, Is v q → ∃ c, k v = ret c ∧ (c = true ↔ EqP W q p) := by
  cases ha with
  | undef => exact absurd rfl h1
  | null => exact absurd rfl h2
  | bool b =>
    refine ⟨fun q => looseEq W (n + 3) q (.num (boolNum b)), rfl, ?_⟩
    intro v q hv
    obtain ⟨c, e1, e2⟩ := looseP hW n hv (.num (boolNum b))
    exact ⟨c, e1, e2.trans (eqP_bool' b q)⟩
  | num x => exact ⟨fun q => looseEq W (n + 4) q (.num x), rfl, fun v q hv => looseP hW (n + 1) hv (.num x)⟩
  | str x => exact ⟨fun q => looseEq W (n + 4) q (.str x), rfl, fun v q hv => looseP hW (n + 1) hv (.str x)⟩
  | sym x => exact ⟨fun q => looseEq W (n + 4) q (.sym x), rfl, fun v q hv => looseP hW (n + 1) hv (.sym x)⟩
  | big x => exact ⟨fun q => looseEq W (n + 4) q (.big x), rfl, fun v q hv => looseP hW (n + 1) hv (.big x)⟩

theorem decides_eq {r : Except Exc Bool} {c : Bool} {A : Prop} (h : Decides r A) (hc : c = true ↔ A) :
    r = .ok c := decides_unique h ⟨c, rfl, hc⟩

theorem prim_run_ok {W : World σ} {h : Hint} {a : V} {s s' : σ} {q : P} {k : V → M σ Bool}
    {r : Except Exc Bool} {A : P → Prop} (ht : ToPrim W h a s (.ok q) s')
    (hk : ∀ v q, Is v q → ∃ c, k v = ret c ∧ (c = true ↔ A q)) (hd : Decides r (A q)) :
    (toPrim W h a).andThen k s = (r, s') := by
  obtain ⟨h1, h2⟩ := toPrim_run ht
  rcases hm : toPrim W h a s with ⟨e | v, t⟩
  · rw [hm] at h1; exact h1.elim
  · rw [hm] at h1 h2
    rw [andThen_ok hm]
    obtain ⟨c, e1, e2⟩ := hk v q h1
    rw [e1, decides_eq hd e2]
    dsimp only at h2
    rw [h2]; rfl

theorem prim_run_err {W : World σ} {h : Hint} {a : V} {s s' : σ} {e : Exc} {k : V → M σ Bool}
    (ht : ToPrim W h a s (.error e) s') : (toPrim W h a).andThen k s = (.error e, s') := by
  obtain ⟨h1, h2⟩ := toPrim_run ht
  rcases hm : toPrim W h a s with ⟨e' | v, t⟩
  · rw [hm] at h1 h2
    rw [andThen_err hm]
    have h1 : e' = e := h1
    have h2 : t = s' := h2
    rw [h1, h2]
  · rw [hm] at h1; exact h1.elim

theorem loose_run {W : World σ} (hW : IndexNum W) (n : Nat) {a b : V} {s s' : σ}
    {r : Except Exc Bool} (h : Loose W a b s r s') : looseEq W (n + 5) a b s = (r, s') := by
  cases h with
  | prims ha hb hd =>
    obtain ⟨c, e1, e2⟩ := looseP hW (n + 2) ha hb
    rw [e1, decides_eq hd e2]; rfl
  | @objs i j s r hd =>
    have : looseEq W (n + 5) (.obj i) (.obj j) = ret (i == j) := rfl
    rw [this, decides_eq (c := i == j) hd (by simp)]; rfl
  | nullL ha => rcases ha with rfl | rfl <;> rfl
  | nullR hb => rcases hb with rfl | rfl <;> rfl
  | rightErr ha h1 h2 ht =>
    obtain ⟨k, e1, e2⟩ := loose_obj_r hW n ha h1 h2 _
    rw [e1]; exact prim_run_err ht
  | right ha h1 h2 ht hd =>
    obtain ⟨k, e1, e2⟩ := loose_obj_r hW n ha h1 h2 _
    rw [e1]; exact prim_run_ok ht e2 hd
  | leftErr ha h1 h2 ht =>
    obtain ⟨k, e1, e2⟩ := loose_obj_l hW n ha h1 h2 _
    rw [e1]; exact prim_run_err ht
  | @left i b q s p s' r ha h1 h2 ht hd =>
    obtain ⟨k, e1, e2⟩ := loose_obj_l hW n ha h1 h2 i
    rw [e1]; exact prim_run_ok (A := fun x => EqP W x q) ht e2 hd

theorem decides_total (A : Prop) : ∃ r, Decides r A := by
  classical
  exact ⟨.ok (decide A), _, rfl, by simp⟩

theorem loose_total (W : World σ) (a b : V) (s : σ) : ∃ r s', Loose W a b s r s' := by
  rcases Is.total a with ⟨p, hp⟩ | ⟨i, rfl⟩
  · rcases Is.total b with ⟨q, hq⟩ | ⟨j, rfl⟩
    · obtain ⟨r, hr⟩ := decides_total (EqP W p q)
      exact ⟨_, _, .prims hp hq hr⟩
    · by_cases h1 : p = .undef
      · subst h1; cases hp; exact ⟨_, _, .nullL (.inl rfl)⟩
      · by_cases h2 : p = .null
        · subst h2; cases hp; exact ⟨_, _, .nullL (.inr rfl)⟩
        · obtain ⟨r, s', ht⟩ := toPrim_total W .none (.obj j) s
          cases r with
          | error e => exact ⟨_, _, .rightErr hp h1 h2 ht⟩
          | ok q =>
            obtain ⟨r, hr⟩ := decides_total (EqP W p q)
            exact ⟨_, _, .right hp h1 h2 ht hr⟩
  · rcases Is.total b with ⟨q, hq⟩ | ⟨j, rfl⟩
    · by_cases h1 : q = .undef
      · subst h1; cases hq; exact ⟨_, _, .nullR (.inl rfl)⟩
      · by_cases h2 : q = .null
        · subst h2; cases hq; exact ⟨_, _, .nullR (.inr rfl)⟩
        · obtain ⟨r, s', ht⟩ := toPrim_total W .none (.obj i) s
          cases r with
          | error e => exact ⟨_, _, .leftErr hq h1 h2 ht⟩
          | ok p =>
            obtain ⟨r, hr⟩ := decides_total (EqP W p q)
            exact ⟨_, _, .left hq h1 h2 ht hr⟩
    · obtain ⟨r, hr⟩ := decides_total (i = j)
      exact ⟨_, _, .objs hr⟩

end Verif.Operators

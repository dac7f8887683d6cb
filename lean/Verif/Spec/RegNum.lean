import Verif.Model.RegNum

/-!
# Quantifiers and back references as the standard has them

22.2.1: `Quantifier :: QuantifierPrefix | QuantifierPrefix ?`, `QuantifierPrefix :: * | + | ? | { DecimalDigits } |
{ DecimalDigits , } | { DecimalDigits , DecimalDigits }`; the value of digits is the number they write
(MV of DecimalDigits), without a limit; it is an error if the first number is greater than the second.
-/

namespace Verif.RegNum.Spec

open Verif.RegNum

/-- The number that digits write: each counts by its place. -/
def value : List Nat → Nat
  | [] => 0
  | d :: ds => d * 10 ^ ds.length + value ds

/-- The character of a digit. -/
def char (d : Nat) : Char := Char.ofNat (48 + d)

/-- The text `t` begins with digits that write `n`; `rest` is behind them and begins with no digit. -/
def Number (t : List Char) (n : Nat) (rest : List Char) : Prop :=
  ∃ ds : List Nat, ds ≠ [] ∧ (∀ d ∈ ds, d < 10) ∧ t = ds.map char ++ rest ∧ value ds = n ∧
    ∀ d, d < 10 → ∀ r, rest ≠ char d :: r

/-- `QuantifierPrefix`, with the least and the greatest number of times. -/
inductive Prefix : List Char → Nat → Option Nat → List Char → Prop where
  | star (r) : Prefix ('*' :: r) 0 none r
  | plus (r) : Prefix ('+' :: r) 1 none r
  | ques (r) : Prefix ('?' :: r) 0 (some 1) r
  | exact {t n r} : Number t n ('}' :: r) → Prefix ('{' :: t) n (some n) r
  | atLeast {t n r} : Number t n (',' :: '}' :: r) → Prefix ('{' :: t) n none r
  | between {t n u m r} : Number t n (',' :: u) → Number u m ('}' :: r) → n ≤ m → Prefix ('{' :: t) n (some m) r

/-- `Quantifier`. -/
inductive Quantifier : List Char → Quant → List Char → Prop where
  | short {t n m r} : Prefix t n m ('?' :: r) → Quantifier t ⟨n, m, false⟩ r
  | greedy {t n m r} : Prefix t n m r → (∀ u, r ≠ '?' :: u) → Quantifier t ⟨n, m, true⟩ r

/-- A character that begins a quantifier. -/
def begins (t : List Char) : Prop := ∃ c r, t = c :: r ∧ c ∈ ['*', '+', '?', '{']

end Verif.RegNum.Spec

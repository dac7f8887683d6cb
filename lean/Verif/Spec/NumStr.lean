/-
Number to string, ECMA-262 6.1.6.1.20 (steps 5 to 12), and the value which a decimal literal
denotes (12.9.3).  Characters are code units.
-/
namespace Verif.NumStr.Spec

/-- The value of a list of digits. -/
def val : List Nat → Nat
  | [] => 0
  | d :: ds => d * 10 ^ ds.length + val ds

/-- `l` is the decimal representation of `n` without leading zeros. -/
def IsDec (n : Nat) (l : List Nat) : Prop :=
  (∀ d ∈ l, d < 10) ∧ val l = n ∧ l.head? ≠ some 0 ∧ l ≠ []

/-- The code units of digits. -/
def chars (l : List Nat) : List Nat := l.map (· + 48)

/-- The steps of the standard: `ds` are the digits of `s`, `k` is their number, the number is
`s * 10 ^ (n - k)`. -/
def Layout (neg : Bool) (ds : List Nat) (n : Int) (out : List Nat) : Prop :=
  ∃ b, out = (if neg then [45] else []) ++ b ∧
    (-5 ≤ n ∧ n ≤ 21 →
      (n ≥ ds.length → b = chars ds ++ List.replicate (n.toNat - ds.length) 48) ∧
      (n < ds.length → 0 < n → b = chars (ds.take n.toNat) ++ [46] ++ chars (ds.drop n.toNat)) ∧
      (n ≤ 0 → b = [48, 46] ++ List.replicate (-n).toNat 48 ++ chars ds)) ∧
    (¬ (-5 ≤ n ∧ n ≤ 21) →
      ∃ ex, IsDec (n - 1).natAbs ex ∧
        ∃ d rest, ds = d :: rest ∧
          b = chars [d] ++ (if rest = [] then [] else [46] ++ chars rest) ++ [101] ++
            (if n - 1 < 0 then [45] else [43]) ++ chars ex)

/-- The text denotes the number plus or minus `s * 10 ^ x`: an optional sign, digits, optionally a
point and digits, optionally an exponent. -/
def Denotes (out : List Nat) (neg : Bool) (s : Nat) (x : Int) : Prop :=
  ∃ i f : List Nat, ∃ e : Int, ∃ pt ex : List Nat,
    (∀ d ∈ i, d < 10) ∧ (∀ d ∈ f, d < 10) ∧ i ≠ [] ∧
    (pt = [46] ++ chars f ∧ f ≠ [] ∨ pt = [] ∧ f = []) ∧
    (ex = [] ∧ e = 0 ∨
      ∃ sg l, ex = [101] ++ sg ++ chars l ∧ (∀ d ∈ l, d < 10) ∧ l ≠ [] ∧
        (sg = [43] ∧ e = val l ∨ sg = [45] ∧ e = -(val l : Int))) ∧
    out = (if neg then [45] else []) ++ chars i ++ pt ++ ex ∧
    -- `val (i ++ f) * 10 ^ (e - |f|) = s * 10 ^ x`
    val (i ++ f) * 10 ^ (e - f.length).toNat * 10 ^ (-x).toNat =
      s * 10 ^ x.toNat * 10 ^ (f.length - e).toNat

end Verif.NumStr.Spec

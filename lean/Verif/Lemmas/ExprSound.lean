import Verif.Lemmas.ExprTok

/-
What the parser accepts is derived by the grammar.
-/

namespace Verif.Expr

/-! ### Chains of unit productions -/

/-- The non-terminal that has the given one as its only symbol. -/
def next : NT → NT
  | .primary => .member
  | .member => .newX
  | .newX => .lhs
  | .call => .lhs
  | .optional => .lhs
  | .lhs => .update
  | .update => .unary
  | .unary => .exp
  | .exp => .mul
  | .mul => .add
  | .add => .shift
  | .shift => .rel
  | .rel => .eq
  | .eq => .band
  | .band => .bxor
  | .bxor => .bor
  | .bor => .and
  | .and => .or
  | .or => .short
  | .coal => .short
  | .short => .cond
  | .cond => .assign
  | .assign => .expr
  | nt => nt

def up : Nat → NT → NT
  | 0, a => a
  | n + 1, a => up n (next a)

def reach (a b : NT) : Bool := (List.range 24).any fun n => up n a == b

theorem G.next {d : Dial} {f : Fl} {a : NT} {u : List Tok} {e : E} (h : G d f a u e) :
    G d f (next a) u e := by
  by_cases hn : Verif.Expr.next a = a
  · rw [hn]; exact h
  · refine .unit ?_ h
    revert hn
    cases a <;> simp [Verif.Expr.next, Unit]

theorem G.up {d : Dial} {f : Fl} {a : NT} {u : List Tok} {e : E} (n : Nat) (h : G d f a u e) :
    G d f (up n a) u e := by
  induction n generalizing a with
  | zero => exact h
  | succ n ih => exact ih h.next

theorem G.reach {d : Dial} {f : Fl} {a b : NT} {u : List Tok} {e : E} (hr : reach a b = true)
    (h : G d f a u e) : G d f b u e := by
  simp only [Verif.Expr.reach, List.any_eq_true, beq_iff_eq] at hr
  obtain ⟨n, _, rfl⟩ := hr
  exact h.up n

/-- The non-terminal of a priority. -/
def ntq : Nat → NT
  | 1 => .expr
  | 2 => .assign
  | 3 => .cond
  | 4 => .coal
  | 5 => .or
  | 6 => .and
  | 7 => .bor
  | 8 => .bxor
  | 9 => .band
  | 10 => .eq
  | 11 => .rel
  | 12 => .shift
  | 13 => .add
  | 14 => .mul
  | 15 => .exp
  | 16 => .unary
  | 17 => .update
  | _ => .expr

/-- What is read at a priority. -/
def ntOf : Nat → NT
  | 0 => .expr
  | 1 => .expr
  | 2 => .assign
  | 4 => .short
  | 18 => .lhs
  | p => ntq p

def Gp (f : Fl) (p : Nat) (u : List Tok) (e : E) : Prop :=
  if p ≤ 18 then G Super f (ntOf p) u e
  else G Super f .callee u e ∨ (p = 19 ∧ G Super f .newX u e)

/-! ### Heads of the rest -/

def memTok : TK → Bool
  | .dot | .lbrack | .templ _ | .quesDot => true
  | _ => false

def headN (ts : List Tok) : Prop := ∀ t r, ts = t :: r → memTok t.k = false

def head4 (ts : List Tok) : Prop :=
  ∀ t r, ts = t :: r → t.k ≠ .dot ∧ t.k ≠ .lbrack ∧ t.k ≠ .lpar ∧ ∀ n, t.k ≠ .templ n

def headL (ts : List Tok) : Prop := ∀ t r, ts = t :: r → t.k ≠ .lpar

/-- A result. -/
def Res (f : Fl) (p : Nat) (u : List Tok) (e : E) (r : List Tok) : Prop :=
  headIs .arrow r = true ∨ (Gp f p u e ∧ (19 ≤ p → headN r))

/-- What the loop has in hand. -/
inductive Kind (f : Fl) (p q : Nat) (u : List Tok) (e : E) (ts : List Tok) : Prop
  | low : 1 ≤ q → q ≤ 17 → p ≤ q → G Super f (ntq q) u e → Kind f p q u e ts
  | member : 18 ≤ q → p ≤ 20 → G Super f .member u e → Kind f p q u e ts
  | newX : q = 19 → p ≤ 19 → headN ts → headL ts → G Super f .newX u e → Kind f p q u e ts
  | call : q = 18 → p ≤ 18 → G Super f .call u e → Kind f p q u e ts
  | optional : q = 18 → p ≤ 18 → head4 ts → G Super f .optional u e → Kind f p q u e ts
  | callee : q = 18 → 19 ≤ p → p ≤ 20 → head4 ts → G Super f .callee u e → Kind f p q u e ts
  | params (k : TK) (n : Bool) : p ≤ 2 → u = [⟨k, n⟩] → e = .params k → BindId f k →
      headIs .arrow ts = true → Kind f p q u e ts
  | priv (k : Nat) (n : Bool) : q = 21 → p ≤ 11 → u = [⟨.priv k, n⟩] → e = .privRef k → f.inn = true →
      headIs (.op .in_) ts = true → Kind f p q u e ts

theorem low_tables : ∀ q < 18, 1 ≤ q → ∀ p < 18, p ≤ q → reach (ntq q) (ntOf p) = true := by
  decide

theorem high_tables : ∀ p < 19, reach .member (ntOf p) = true ∧ reach .newX (ntOf p) = true
    ∧ reach .call (ntOf p) = true ∧ reach .optional (ntOf p) = true := by
  decide

theorem Gp.low {f : Fl} {p : Nat} {u : List Tok} {e : E} {a : NT} (hp : p ≤ 18)
    (h : reach a (ntOf p) = true) (hg : G Super f a u e) : Gp f p u e := by
  rw [Gp, if_pos hp]
  exact hg.reach h

/-- Where the loop stops. -/
theorem Kind.stop {f : Fl} {p q : Nat} {u ts : List Tok} {e : E} (h : Kind f p q u e ts)
    (hd : 19 ≤ p → headN ts)
    (hi : headIs (.op .in_) ts = true → f.inn = true → p ≤ 11 → q = 21 → False) :
    Res f p u e ts := by
  cases h with
  | low h1 h2 h3 hg =>
    exact .inr ⟨Gp.low (by omega) (low_tables q (by omega) h1 p (by omega) h3) hg, hd⟩
  | member h1 h2 hg =>
    by_cases hp : p ≤ 18
    · exact .inr ⟨Gp.low hp (high_tables p (by omega)).1 hg, hd⟩
    · refine .inr ⟨?_, hd⟩
      rw [Gp, if_neg hp]
      exact .inl (.unit rfl hg)
  | newX h1 h2 h3 h4 hg =>
    by_cases hp : p ≤ 18
    · exact .inr ⟨Gp.low hp (high_tables p (by omega)).2.1 hg, hd⟩
    · refine .inr ⟨?_, hd⟩
      rw [Gp, if_neg hp]
      exact .inr ⟨by omega, hg⟩
  | call h1 h2 hg => exact .inr ⟨Gp.low h2 (high_tables p (by omega)).2.2.1 hg, hd⟩
  | optional h1 h2 _ hg => exact .inr ⟨Gp.low h2 (high_tables p (by omega)).2.2.2 hg, hd⟩
  | callee h1 h2 h3 _ hg =>
    refine .inr ⟨?_, hd⟩
    rw [Gp, if_neg (by omega)]
    exact .inl hg
  | params k n h1 h2 h3 h4 h5 => exact .inl h5
  | priv k n h1 h2 h3 h4 h5 h6 => exact (hi h6 h5 h2 h1).elim

/-- As the left operand of what binds less than members. -/
theorem Kind.left {f : Fl} {p q : Nat} {u ts : List Tok} {e : E} {l : NT} (h : Kind f p q u e ts)
    (hp : p ≤ 18) (ha : headIs .arrow ts = false) (hi : headIs (.op .in_) ts = false ∨ q ≠ 21)
    (hlow : 1 ≤ q → q ≤ 17 → reach (ntq q) l = true)
    (hhigh : 18 ≤ q → reach .member l = true ∧ reach .newX l = true ∧ reach .call l = true
      ∧ reach .optional l = true) : G Super f l u e := by
  cases h with
  | low h1 h2 h3 hg => exact hg.reach (hlow h1 h2)
  | member h1 h2 hg => exact hg.reach (hhigh h1).1
  | newX h1 h2 h3 h4 hg => exact hg.reach (hhigh (by omega)).2.1
  | call h1 h2 hg => exact hg.reach (hhigh (by omega)).2.2.1
  | optional h1 h2 _ hg => exact hg.reach (hhigh (by omega)).2.2.2
  | callee h1 h2 h3 _ hg => omega
  | params k n h1 h2 h3 h4 h5 => rw [ha] at h5; cases h5
  | priv k n h1 h2 h3 h4 h5 h6 =>
    rcases hi with hi | hi
    · rw [hi] at h6; cases h6
    · exact absurd h1 hi

/-- A member or a call in front of a member token. -/
theorem Kind.mc {f : Fl} {p q : Nat} {u ts : List Tok} {e : E} {t : Tok} (h : Kind f p q u e (t :: ts))
    (hq : ¬ q < 18) (ht : t.k = .dot ∨ t.k = .lbrack ∨ (∃ n, t.k = .templ n)) :
    ∃ nt, (nt = .member ∨ nt = .call) ∧ (nt = .call → p ≤ 18) ∧ p ≤ 20 ∧ G Super f nt u e := by
  cases h with
  | low h1 h2 h3 hg => omega
  | member h1 h2 hg => exact ⟨.member, .inl rfl, nofun, h2, hg⟩
  | newX h1 h2 h3 h4 hg =>
    have := h3 t ts rfl
    rcases ht with ht | ht | ⟨n, ht⟩ <;> simp [ht, memTok] at this
  | call h1 h2 hg => exact ⟨.call, .inr rfl, fun _ => h2, by omega, hg⟩
  | optional h1 h2 h3 hg =>
    obtain ⟨h4, h5, h6, h7⟩ := h3 t ts rfl
    rcases ht with ht | ht | ⟨n, ht⟩
    · exact absurd ht h4
    · exact absurd ht h5
    · exact absurd ht (h7 n)
  | callee h1 h2 h3 hh hg =>
    obtain ⟨h4, h5, h6, h7⟩ := hh t ts rfl
    rcases ht with ht | ht | ⟨n, ht⟩
    · exact absurd ht h4
    · exact absurd ht h5
    · exact absurd ht (h7 n)
  | params k n h1 h2 h3 h4 h5 =>
    simp only [headIs, beq_iff_eq] at h5
    rcases ht with ht | ht | ⟨n, ht⟩ <;> simp [ht] at h5
  | priv k n h1 h2 h3 h4 h5 h6 =>
    simp only [headIs, beq_iff_eq] at h6
    rcases ht with ht | ht | ⟨n, ht⟩ <;> simp [ht] at h6

theorem Kind.mk_mc {f : Fl} {p : Nat} {nt : NT} {u ts : List Tok} {e : E}
    (h : nt = .member ∨ nt = .call) (hp : nt = .call → p ≤ 18) (hp' : p ≤ 20) (hg : G Super f nt u e) :
    Kind f p 18 u e ts := by
  rcases h with rfl | rfl
  · exact .member (Nat.le_refl _) hp' hg
  · exact .call rfl (hp rfl) hg

/-- Behind an operand that ends in front of `=>` nothing more is read. -/
theorem loop_arrow {n : Nat} {f : Fl} {p q : Nat} {e e' : E} {ts r : List Tok}
    (ha : headIs .arrow ts = true) (he : paramsOf e = none)
    (h : loop n f p q e ts = .ok e' r) : r = ts ∧ e' = e := by
  cases n with
  | zero => rw [loop] at h; cases h
  | succ n =>
    cases ts with
    | nil => cases ha
    | cons t ts =>
      simp only [headIs, beq_iff_eq] at ha
      rw [loop] at h
      simp only [ha] at h
      split at h
      · cases h; exact ⟨rfl, rfl⟩
      · rw [he] at h; cases h

/-- Where an optional chain stands. -/
def Ctx (f : Fl) (b : E) (u : List Tok) (c : E) (ts : List Tok) : Prop :=
  (u = [] ∧ c = b) ∨ (∃ v l, u = v ++ [⟨.dot, l⟩] ∧ G Super f (.chain b) v c)
    ∨ (G Super f (.chain b) u c ∧ (headIs .lpar ts = true ∨ headIs .lbrack ts = true))

/-- What parentheses hold so far. -/
def Acc (f : Fl) (u : List Tok) : Option E → Prop
  | none => u = []
  | some a => ∃ v l, u = v ++ [⟨.comma, l⟩] ∧ G Super { f with inn := true } .expr v a

structure Snd (n : Nat) : Prop where
  expr : ∀ {f p ts e r}, expr n f p ts = .ok e r → p ≤ 20 → ∃ t u, ts = t :: u ++ r ∧
    (NoFold (t :: u) → Res f p (t :: u) e r)
  loop : ∀ {f p q e ts e' r}, loop n f p q e ts = .ok e' r → ∃ w, ts = w ++ r ∧
    ∀ u0, Kind f p q u0 e ts → NoFold (u0 ++ w) → Res f p (u0 ++ w) e' r
  index : ∀ {f ts e r}, indexX n f ts = .ok e r → ∃ w m, ts = w ++ ⟨.rbrack, m⟩ :: r ∧
    (NoFold w → G Super { f with inn := true } .expr w e)
  args : ∀ {f h ts e r}, argsX n f h ts = .ok e r → ∃ w, ts = w ++ r ∧
    (NoFold w → G Super f (.alist h) w e)
  parens : ∀ {f acc ts e r}, parens n f acc ts = .ok e r → ∃ w m, ts = w ++ ⟨.rpar, m⟩ :: r ∧
    ∀ u0, Acc f u0 acc → NoFold (u0 ++ w) →
      G Super { f with inn := true } .expr (u0 ++ w) e
      ∨ ∃ v l, u0 ++ w = v ++ [⟨.comma, l⟩] ∧ G Super { f with inn := true } .expr v e
  new : ∀ {f ts e r}, newX n f ts = .ok e r → paramsOf e = none ∧ ∃ w, ts = w ++ r ∧
    ∀ m, NoFold w → headIs .arrow r = true ∨ G Super f .member (⟨.new_, m⟩ :: w) e
      ∨ (G Super f .newX (⟨.new_, m⟩ :: w) e ∧ headN r ∧ headL r)
  super : ∀ {f ts e r}, superX n f ts = .ok e r → ∃ w, ts = w ++ r ∧
    ∀ m, NoFold w → G Super f .member (⟨.super_, m⟩ :: w) e ∨ G Super f .call (⟨.super_, m⟩ :: w) e
  yield : ∀ {f ts e r}, yieldX n f ts = .ok e r → paramsOf e = none ∧ ∃ w, ts = w ++ r ∧
    ∀ m, f.yld = true → NoFold w → headIs .arrow r = true ∨ G Super f .assign (⟨.yield_, m⟩ :: w) e
  chain : ∀ {f c ts e r}, chain n f c ts = .ok e r → head4 r ∧ ∃ w, ts = w ++ r ∧
    ∀ b u0, Ctx f b u0 c ts → NoFold (u0 ++ w) → G Super f (.chain b) (u0 ++ w) e
  more : ∀ {f c ts e r}, more n f c ts = .ok e r → head4 r ∧ ∃ w, ts = w ++ r ∧
    ∀ b u0, G Super f (.chain b) u0 c → NoFold (u0 ++ w) → G Super f (.chain b) (u0 ++ w) e

theorem R.bind_ok {x : R} {k : E → List Tok → R} {e : E} {r : List Tok} (h : x.bind k = .ok e r) :
    ∃ e' r', x = .ok e' r' ∧ k e' r' = .ok e r := by
  cases x with
  | ok e' r' => exact ⟨e', r', rfl, h⟩
  | bad => cases h
  | fuel => cases h

theorem uncons_ok {ts : List Tok} {k : Tok → List Tok → R} {e : E} {r : List Tok}
    (h : uncons ts k = .ok e r) : ∃ t ts', ts = t :: ts' ∧ k t ts' = .ok e r := by
  cases ts with
  | nil => cases h
  | cons t ts' => exact ⟨t, ts', rfl, h⟩

theorem headIs_tail {k : TK} {ts : List Tok} (h : headIs k ts = true) :
    ∃ n, ts = ⟨k, n⟩ :: ts.tail := by
  cases ts with
  | nil => cases h
  | cons t r =>
    simp only [headIs, beq_iff_eq] at h
    exact ⟨t.nl, by cases t; cases h; rfl⟩

/-- A result in front of a token that is not `=>`. -/
theorem Res.get {f : Fl} {p : Nat} {u : List Tok} {e : E} {t : Tok} {r : List Tok}
    (h : Res f p u e (t :: r)) (ht : t.k ≠ .arrow) : Gp f p u e := by
  rcases h with h | h
  · simp only [headIs, beq_iff_eq] at h
    exact absurd h ht
  · exact h.1

theorem Gp.g {f : Fl} {p : Nat} {u : List Tok} {e : E} (h : Gp f p u e) (hp : p ≤ 18) :
    G Super f (ntOf p) u e := by
  rwa [Gp, if_pos hp] at h

theorem sound_index {n : Nat} (ih : Snd n) {f : Fl} {ts r : List Tok} {e : E}
    (h : indexX (n + 1) f ts = .ok e r) : ∃ w m, ts = w ++ ⟨.rbrack, m⟩ :: r ∧
      (NoFold w → G Super { f with inn := true } .expr w e) := by
  rw [indexX] at h
  replace h := R.bind_ok h
  obtain ⟨i, r1, h1, h⟩ := h
  replace h := uncons_ok h
  obtain ⟨t, r2, rfl, h⟩ := h
  split at h
  · next hk =>
    cases h
    obtain ⟨t1, u, rfl, hg⟩ := ih.expr h1 (by decide)
    refine ⟨t1 :: u, t.nl, by cases t; cases hk; rfl, fun hn => ?_⟩
    exact ((hg hn).get (by simp [hk])).g (by decide)
  · cases h

theorem sound_args {n : Nat} (ih : Snd n) {f : Fl} {a : Bool} {ts r : List Tok} {e : E}
    (h : argsX (n + 1) f a ts = .ok e r) : ∃ w, ts = w ++ r ∧
      (NoFold w → G Super f (.alist a) w e) := by
  rw [argsX] at h
  split at h
  · next hr =>
    cases h
    obtain ⟨m, hm⟩ := headIs_tail hr
    exact ⟨[⟨.rpar, m⟩], hm, fun _ => .alistEnd⟩
  · replace h := R.bind_ok h
    obtain ⟨x, r1, h1, h⟩ := h
    replace h := uncons_ok h
    obtain ⟨t, r2, rfl, h⟩ := h
    obtain ⟨t1, u, hu, hg⟩ := ih.expr h1 (by decide)
    cases hd : headIs .dots ts with
    | true =>
      rw [hd] at h hu
      simp only [↓reduceIte] at h hu
      obtain ⟨m, hm⟩ := headIs_tail hd
      rw [hu] at hm
      split at h
      · next hk =>
        cases h
        refine ⟨⟨.dots, m⟩ :: (t1 :: u) ++ [⟨.rpar, t.nl⟩], ?_, fun hn => ?_⟩
        · rw [hm]; cases t; cases hk; simp
        · exact .alistLastSpread
            (((hg (noFold_append (noFold_tail hn)).1).get (by simp [hk])).g (by decide))
      · split at h
        · next hk =>
          replace h := R.bind_ok h
          obtain ⟨a', r3, h2, h⟩ := h
          cases h
          obtain ⟨w, rfl, hw⟩ := ih.args h2
          refine ⟨⟨.dots, m⟩ :: (t1 :: u) ++ ⟨.comma, t.nl⟩ :: w, ?_, fun hn => ?_⟩
          · rw [hm]; cases t; cases hk; simp
          · have h3 := noFold_append (noFold_tail hn)
            exact .alistMoreSpread (((hg h3.1).get (by simp [hk])).g (by decide))
              (hw (noFold_tail h3.2))
        · cases h
    | false =>
      rw [hd] at h hu
      simp only [Bool.false_eq_true, ↓reduceIte] at h hu
      split at h
      · next hk =>
        cases h
        refine ⟨(t1 :: u) ++ [⟨.rpar, t.nl⟩], ?_, fun hn => ?_⟩
        · rw [hu]; cases t; cases hk; simp
        · exact .alistLast (((hg (noFold_append hn).1).get (by simp [hk])).g (by decide))
      · split at h
        · next hk =>
          replace h := R.bind_ok h
          obtain ⟨a', r3, h2, h⟩ := h
          cases h
          obtain ⟨w, rfl, hw⟩ := ih.args h2
          refine ⟨(t1 :: u) ++ ⟨.comma, t.nl⟩ :: w, ?_, fun hn => ?_⟩
          · rw [hu]; cases t; cases hk; simp
          · have h3 := noFold_append hn
            exact .alistMore (((hg h3.1).get (by simp [hk])).g (by decide)) (hw (noFold_tail h3.2))
        · cases h

theorem sound_parens {n : Nat} (ih : Snd n) {f : Fl} {acc : Option E} {ts r : List Tok} {e : E}
    (h : parens (n + 1) f acc ts = .ok e r) : ∃ w m, ts = w ++ ⟨.rpar, m⟩ :: r ∧
    ∀ u0, Acc f u0 acc → NoFold (u0 ++ w) →
      G Super { f with inn := true } .expr (u0 ++ w) e
      ∨ ∃ v l, u0 ++ w = v ++ [⟨.comma, l⟩] ∧ G Super { f with inn := true } .expr v e := by
  rw [parens] at h
  split at h
  · next hr =>
    obtain ⟨m, hm⟩ := headIs_tail hr
    cases acc with
    | none => cases h
    | some a =>
      cases h
      refine ⟨[], m, hm, ?_⟩
      rintro u0 ⟨v, l, rfl, hg⟩ _
      exact .inr ⟨v, l, by simp, hg⟩
  · replace h := R.bind_ok h
    obtain ⟨x, r1, h1, h⟩ := h
    replace h := uncons_ok h
    obtain ⟨t, r2, rfl, h⟩ := h
    obtain ⟨t1, u, hu, hg⟩ := ih.expr h1 (by decide)
    have key : ∀ u0, t.k ≠ .arrow → Acc f u0 acc → NoFold (u0 ++ t1 :: u) →
        G Super { f with inn := true } .expr (u0 ++ t1 :: u) ((acc.map fun a => E.comma a x).getD x) := by
      intro u0 hk ha hn
      have hgx : G Super { f with inn := true } .assign (t1 :: u) x :=
        ((hg (noFold_append hn).2).get hk).g (by decide)
      cases acc with
      | none =>
        cases (ha : u0 = [])
        exact .unit rfl hgx
      | some a =>
        obtain ⟨v, l, rfl, hv⟩ := ha
        rw [List.append_assoc]
        exact .comma hv hgx
    split at h
    · next hk =>
      cases h
      refine ⟨t1 :: u, t.nl, by rw [hu]; cases t; cases hk; rfl, ?_⟩
      intro u0 ha hn
      exact .inl (key u0 (by simp [hk]) ha hn)
    · split at h
      · next hk =>
        obtain ⟨w, m, rfl, hw⟩ := ih.parens h
        refine ⟨t1 :: u ++ ⟨.comma, t.nl⟩ :: w, m, by rw [hu]; cases t; cases hk; simp, ?_⟩
        intro u0 ha hn
        have := hw (u0 ++ (t1 :: u) ++ [⟨.comma, t.nl⟩])
          ⟨u0 ++ t1 :: u, t.nl, rfl, key u0 (by simp [hk]) ha (by
            rw [← List.append_assoc] at hn
            exact (noFold_append hn).1)⟩ (by simpa using hn)
        simpa using this
      · cases h

theorem sound_super {n : Nat} (ih : Snd n) {f : Fl} {ts r : List Tok} {e : E}
    (h : superX (n + 1) f ts = .ok e r) : ∃ w, ts = w ++ r ∧
    ∀ m, NoFold w → G Super f .member (⟨.super_, m⟩ :: w) e ∨ G Super f .call (⟨.super_, m⟩ :: w) e := by
  cases ts with
  | nil => rw [superX] at h; cases h
  | cons t ts =>
    rw [superX] at h
    split at h
    · next hk =>
      replace h := uncons_ok h
      obtain ⟨u, r1, rfl, h⟩ := h
      split at h
      · next hw =>
        cases h
        refine ⟨[t, u], rfl, fun m _ => .inl ?_⟩
        cases t; cases hk
        exact .superDot ((isName_iff _).1 hw)
      · cases h
    · split at h
      · next hk =>
        replace h := R.bind_ok h
        obtain ⟨i, r1, h1, h⟩ := h
        cases h
        obtain ⟨w, m, rfl, hw⟩ := ih.index h1
        refine ⟨t :: w ++ [⟨.rbrack, m⟩], by simp, fun m' hn => .inl ?_⟩
        cases t; cases hk
        exact .superIndex (hw (noFold_append (noFold_tail hn)).1)
      · split at h
        · next hk =>
          replace h := R.bind_ok h
          obtain ⟨i, r1, h1, h⟩ := h
          cases h
          obtain ⟨w, rfl, hw⟩ := ih.args h1
          refine ⟨t :: w, by simp, fun m' hn => .inr ?_⟩
          cases t; cases hk
          exact .superCall (.args (hw (noFold_tail hn)))
        · cases h

theorem sound_new {n : Nat} (ih : Snd n) {f : Fl} {ts r : List Tok} {e : E}
    (h : newX (n + 1) f ts = .ok e r) : paramsOf e = none ∧ ∃ w, ts = w ++ r ∧
    ∀ m, NoFold w → headIs .arrow r = true ∨ G Super f .member (⟨.new_, m⟩ :: w) e
      ∨ (G Super f .newX (⟨.new_, m⟩ :: w) e ∧ headN r ∧ headL r) := by
  rw [newX] at h
  split at h
  · next hnew =>
    replace h := R.bind_ok h
    obtain ⟨x, r1, h1, h⟩ := h
    cases h
    obtain ⟨t1, u, rfl, hg⟩ := ih.expr h1 (by decide)
    refine ⟨rfl, t1 :: u, rfl, fun m hn => ?_⟩
    rcases hg hn with hr | ⟨hr, _⟩
    · exact .inl hr
    · right; left
      have hf : first (t1 :: u) = some .new_ := by
        simp only [List.cons_append, headIs, beq_iff_eq] at hnew
        simp [first, hnew]
      rw [Gp, if_neg (by decide)] at hr
      rcases hr with hr | ⟨_, hr⟩
      · exact .newNewMember rfl hf (.inr rfl) hr
      · exact .newNewMember rfl hf (.inl rfl) hr
  · next hnew =>
    replace h := R.bind_ok h
    obtain ⟨x, r1, h1, h⟩ := h
    obtain ⟨t1, u, rfl, hg⟩ := ih.expr h1 (by decide)
    have hd : Super.tight = true → first (t1 :: u) ≠ some .new_ ∧ first (t1 :: u) ≠ some .super_ := by
      intro _
      simp only [List.cons_append, headIs, beq_iff_eq] at hnew
      refine ⟨by simpa [first] using hnew, ?_⟩
      intro hs
      simp only [first, List.head?_cons, Option.map_some, Option.some.injEq] at hs
      cases n with
      | zero => rw [Verif.Expr.expr] at h1; cases h1
      | succ n =>
        rw [List.cons_append, Verif.Expr.expr] at h1
        simp [hs, isAtom, prefixOp, LH, MEMBER] at h1
    split at h
    · next hl =>
      replace h := R.bind_ok h
      obtain ⟨a, r2, h2, h⟩ := h
      cases h
      obtain ⟨m1, hm⟩ := headIs_tail hl
      obtain ⟨w, hw, hg2⟩ := ih.args h2
      refine ⟨rfl, t1 :: u ++ ⟨.lpar, m1⟩ :: w, by rw [hm, hw]; simp, fun m hn => ?_⟩
      have h3 := noFold_append hn
      right; left
      rw [hm] at hg
      have hc := (hg h3.1).get (by simp)
      rw [Gp, if_neg (by decide)] at hc
      rcases hc with hc | ⟨hc, _⟩
      · exact .newArgs hd hc (.args (hg2 (noFold_tail h3.2)))
      · cases hc
    · next hl =>
      cases h
      refine ⟨rfl, t1 :: u, rfl, fun m hn => ?_⟩
      rcases hg hn with hr | ⟨hr, hh⟩
      · exact .inl hr
      · right; right
        rw [Gp, if_neg (by decide)] at hr
        rcases hr with hr | ⟨hr, _⟩
        · refine ⟨.newBare hd hr, hh (by decide), ?_⟩
          rintro t r' rfl hk
          exact hl (by simp [headIs, hk])
        · cases hr

theorem sound_yield {n : Nat} (ih : Snd n) {f : Fl} {ts r : List Tok} {e : E}
    (h : yieldX (n + 1) f ts = .ok e r) : paramsOf e = none ∧ ∃ w, ts = w ++ r ∧
    ∀ m, f.yld = true → NoFold w →
      headIs .arrow r = true ∨ G Super f .assign (⟨.yield_, m⟩ :: w) e := by
  cases ts with
  | nil =>
    rw [yieldX] at h
    cases h
    exact ⟨rfl, [], rfl, fun m hy _ => .inr (.yield hy)⟩
  | cons t ts =>
    rw [yieldX] at h
    split at h
    · cases h
      exact ⟨rfl, [], rfl, fun m hy _ => .inr (.yield hy)⟩
    · next hnl =>
      have hnl : t.nl = false := by simpa using hnl
      split at h
      · next hk =>
        replace h := R.bind_ok h
        obtain ⟨x, r1, h1, h⟩ := h
        cases h
        obtain ⟨t1, u, rfl, hg⟩ := ih.expr h1 (by decide)
        refine ⟨rfl, t :: t1 :: u, rfl, fun m hy hn => ?_⟩
        rcases hg (noFold_tail hn) with hr | ⟨hr, _⟩
        · exact .inl hr
        · right
          obtain ⟨k, nl⟩ := t
          cases hk; cases hnl
          exact .yieldStar hy (hr.g (by decide))
      · split at h
        · next ho =>
          replace h := R.bind_ok h
          obtain ⟨x, r1, h1, h⟩ := h
          cases h
          obtain ⟨t1, u, hu, hg⟩ := ih.expr h1 (by decide)
          obtain ⟨rfl, rfl⟩ : t1 = t ∧ ts = u ++ r := by
            simp only [List.cons_append, List.cons.injEq] at hu
            exact ⟨hu.1.symm, hu.2⟩
          refine ⟨rfl, t1 :: u, rfl, fun m hy hn => ?_⟩
          rcases hg hn with hr | ⟨hr, _⟩
          · exact .inl hr
          · right
            refine .yieldE hy hnl (fun _ k hk => ?_) (hr.g (by decide))
            rw [hk] at ho
            cases ho
        · cases h
          exact ⟨rfl, [], rfl, fun m hy _ => .inr (.yield hy)⟩

theorem sound_more {n : Nat} (ih : Snd n) {f : Fl} {c : E} {ts r : List Tok} {e : E}
    (h : more (n + 1) f c ts = .ok e r) : head4 r ∧ ∃ w, ts = w ++ r ∧
    ∀ b u0, G Super f (.chain b) u0 c → NoFold (u0 ++ w) → G Super f (.chain b) (u0 ++ w) e := by
  cases ts with
  | nil =>
    rw [more] at h
    cases h
    refine ⟨nofun, [], rfl, fun b u0 hg _ => ?_⟩
    rwa [List.append_nil]
  | cons t ts =>
    rw [more] at h
    split at h
    · next hk =>
      obtain ⟨h4, w, rfl, hw⟩ := ih.chain h
      refine ⟨h4, t :: w, rfl, fun b u0 hg hn => ?_⟩
      have := hw b (u0 ++ [t]) (.inr (.inl ⟨u0, t.nl, by cases t; cases hk; rfl, hg⟩)) (by simpa using hn)
      simpa using this
    · next hk =>
      obtain ⟨h4, w, hw', hw⟩ := ih.chain h
      refine ⟨h4, w, hw', fun b u0 hg hn => ?_⟩
      exact hw b u0 (.inr (.inr ⟨hg, .inl (by simp [headIs, hk])⟩)) hn
    · next hk =>
      obtain ⟨h4, w, hw', hw⟩ := ih.chain h
      refine ⟨h4, w, hw', fun b u0 hg hn => ?_⟩
      exact hw b u0 (.inr (.inr ⟨hg, .inr (by simp [headIs, hk])⟩)) hn
    · next k hk =>
      exfalso
      cases n with
      | zero => rw [Verif.Expr.chain] at h; cases h
      | succ n =>
        rw [Verif.Expr.chain] at h
        simp [hk, isName] at h
    · next h1 h2 h3 h4 =>
      cases h
      refine ⟨?_, [], rfl, fun b u0 hg _ => by rwa [List.append_nil]⟩
      intro t' r' ht
      cases ht
      exact ⟨h1, h3, h2, h4⟩

theorem sound_chain {n : Nat} (ih : Snd n) {f : Fl} {c : E} {ts r : List Tok} {e : E}
    (h : chain (n + 1) f c ts = .ok e r) : head4 r ∧ ∃ w, ts = w ++ r ∧
    ∀ b u0, Ctx f b u0 c ts → NoFold (u0 ++ w) → G Super f (.chain b) (u0 ++ w) e := by
  cases ts with
  | nil => rw [chain] at h; cases h
  | cons t ts =>
    rw [chain] at h
    split at h
    · next hk =>
      replace h := R.bind_ok h
      obtain ⟨a, r1, h1, h⟩ := h
      obtain ⟨w, rfl, hw⟩ := ih.args h1
      obtain ⟨h4, v, rfl, hv⟩ := ih.more h
      refine ⟨h4, t :: w ++ v, by simp, fun b u0 hc hn => ?_⟩
      obtain ⟨k, nl⟩ := t
      cases hk
      have ha : G Super f .args (⟨.lpar, nl⟩ :: w) a :=
        .args (hw (noFold_tail (noFold_append (noFold_append hn).2).1))
      have := hv b (u0 ++ ⟨.lpar, nl⟩ :: w) ?_ (by simpa using hn)
      · simpa using this
      · rcases hc with ⟨rfl, rfl⟩ | ⟨v', l, rfl, hg⟩ | ⟨hg, _⟩
        · exact .chArgs ha
        · rw [List.append_assoc]
          exact .chDotArgs rfl hg ha
        · exact .chMoreArgs hg ha
    · split at h
      · next hk =>
        replace h := R.bind_ok h
        obtain ⟨a, r1, h1, h⟩ := h
        obtain ⟨w, m, rfl, hw⟩ := ih.index h1
        obtain ⟨h4, v, rfl, hv⟩ := ih.more h
        refine ⟨h4, t :: w ++ ⟨.rbrack, m⟩ :: v, by simp, fun b u0 hc hn => ?_⟩
        obtain ⟨k, nl⟩ := t
        cases hk
        have ha := hw (noFold_tail (noFold_append (noFold_append hn).2).1)
        have := hv b (u0 ++ ⟨.lbrack, nl⟩ :: w ++ [⟨.rbrack, m⟩]) ?_ (by simpa using hn)
        · simpa using this
        · rcases hc with ⟨rfl, rfl⟩ | ⟨v', l, rfl, hg⟩ | ⟨hg, _⟩
          · exact .chIndex ha
          · have := G.chDotIndex (l := l) (n := nl) (m := m) rfl hg ha
            simpa using this
          · exact .chMoreIndex hg ha
      · next hk1 hk2 =>
        have hplain : ¬ (headIs .lpar (t :: ts) = true ∨ headIs .lbrack (t :: ts) = true) := by
          simp [headIs, hk1, hk2]
        split at h
        · next hk =>
          obtain ⟨h4, v, rfl, hv⟩ := ih.more h
          refine ⟨h4, t :: v, rfl, fun b u0 hc hn => ?_⟩
          have := hv b (u0 ++ [t]) ?_ (by simpa using hn)
          · simpa using this
          · rcases hc with ⟨rfl, rfl⟩ | ⟨v', l, rfl, hg⟩ | ⟨_, hg⟩
            · exact .chName ((isName_iff _).1 hk)
            · rw [List.append_assoc]
              exact .chMoreName hg ((isName_iff _).1 hk)
            · exact absurd hg hplain
        · split at h
          · next k hk =>
            obtain ⟨h4, v, rfl, hv⟩ := ih.more h
            refine ⟨h4, t :: v, rfl, fun b u0 hc hn => ?_⟩
            have := hv b (u0 ++ [t]) ?_ (by simpa using hn)
            · simpa using this
            · rcases hc with ⟨rfl, rfl⟩ | ⟨v', l, rfl, hg⟩ | ⟨_, hg⟩
              · obtain ⟨k, nl⟩ := t
                cases hk
                exact .chPriv
              · rw [List.append_assoc]
                obtain ⟨k, nl⟩ := t
                cases hk
                exact .chMorePriv hg
              · exact absurd hg hplain
          · cases h

/-! ### The loop -/

theorem Snd.cont {n : Nat} (ih : Snd n) {f : Fl} {p q q' : Nat} {e e' e2 : E} {ts v r1 r : List Tok}
    (h : Verif.Expr.loop n f p q' e' r1 = .ok e2 r) (hts : ts = v ++ r1)
    (hk : ∀ u0, Kind f p q u0 e ts → NoFold (u0 ++ v) →
      (headIs .arrow r1 = true ∧ paramsOf e' = none) ∨ Kind f p q' (u0 ++ v) e' r1) :
    ∃ w, ts = w ++ r ∧ ∀ u0, Kind f p q u0 e ts → NoFold (u0 ++ w) → Res f p (u0 ++ w) e2 r := by
  obtain ⟨w, hw', hw⟩ := ih.loop h
  refine ⟨v ++ w, by rw [hts, hw']; simp, fun u0 hu hn => ?_⟩
  rw [← List.append_assoc] at hn ⊢
  rcases hk u0 hu (noFold_append hn).1 with ⟨h1, h2⟩ | h1
  · obtain ⟨rfl, _⟩ := loop_arrow h1 h2 h
    exact .inl h1
  · exact hw _ h1 hn

theorem stop_ok {f : Fl} {p q : Nat} {e e' : E} {ts r : List Tok} (h : R.ok e ts = .ok e' r)
    (hk : ∀ u0, Kind f p q u0 e ts → Res f p u0 e ts) :
    ∃ w, ts = w ++ r ∧ ∀ u0, Kind f p q u0 e ts → NoFold (u0 ++ w) → Res f p (u0 ++ w) e' r := by
  cases h
  refine ⟨[], rfl, fun u0 hu _ => ?_⟩
  rw [List.append_nil]
  exact hk u0 hu

theorem Kind.q_ge {f : Fl} {p q : Nat} {u ts : List Tok} {e : E} (h : Kind f p q u e ts)
    (hp : 19 ≤ p) : 18 ≤ q := by
  cases h <;> omega

theorem Kind.leftOp {f : Fl} {p q : Nat} {u ts : List Tok} {e : E} {l : NT} (h : Kind f p q u e ts)
    (hp : p ≤ 18) (ha : headIs .arrow ts = false)
    (hlow : 1 ≤ q → q ≤ 17 → reach (ntq q) l = true)
    (hhigh : 18 ≤ q → reach .member l = true ∧ reach .newX l = true ∧ reach .call l = true
      ∧ reach .optional l = true) :
    G Super f l u e ∨ ∃ k n, u = [⟨.priv k, n⟩] ∧ e = .privRef k ∧ f.inn = true
      ∧ headIs (.op .in_) ts = true := by
  by_cases hq : headIs (.op .in_) ts = false ∨ q ≠ 21
  · exact .inl (h.left hp ha hq hlow hhigh)
  · cases h with
    | low h1 h2 h3 hg => exact .inl (hg.reach (hlow h1 h2))
    | member h1 h2 hg => exact .inl (hg.reach (hhigh h1).1)
    | newX h1 h2 h3 h4 hg => exact .inl (hg.reach (hhigh (by omega)).2.1)
    | call h1 h2 hg => exact .inl (hg.reach (hhigh (by omega)).2.2.1)
    | optional h1 h2 _ hg => exact .inl (hg.reach (hhigh (by omega)).2.2.2)
    | callee h1 h2 h3 _ hg => omega
    | params k n h1 h2 h3 h4 h5 => rw [ha] at h5; cases h5
    | priv k n h1 h2 h3 h4 h5 h6 => exact .inr ⟨k, n, h3, h4, h5, h6⟩

theorem bin_tables {o : Bin} {q : Nat} (h : (row o).1 q = true) :
    ∃ l, Row o (ntq (row o).2.1) l (ntOf (row o).2.2)
      ∧ (1 ≤ q → q ≤ 17 → reach (ntq q) l = true)
      ∧ (18 ≤ q → reach .member l = true ∧ reach .newX l = true ∧ reach .call l = true
          ∧ reach .optional l = true) := by
  have aux : ∀ {m : Nat} {l : NT}, (∀ q < 18, m ≤ q → reach (ntq q) l = true) → m ≤ q →
      1 ≤ q → q ≤ 17 → reach (ntq q) l = true := fun h h1 _ h3 => h q (by omega) h1
  cases o with
  | ques =>
    simp only [row, Bool.or_eq_true, decide_eq_true_eq, beq_iff_eq] at h
    by_cases hq : q = 4
    · subst hq
      exact ⟨.coal, .coal2, fun _ _ => by decide, fun h => by omega⟩
    · exact ⟨.bor, .coal1, aux (m := 7) (by decide) (by simp only [BOR, QUES] at h; omega),
        fun _ => by decide⟩
  | exp => exact ⟨_, .exp, aux (m := 17) (by decide) (by simpa [row] using h), fun _ => by decide⟩
  | mul => exact ⟨_, .mul, aux (m := 14) (by decide) (by simpa [row] using h), fun _ => by decide⟩
  | div => exact ⟨_, .div, aux (m := 14) (by decide) (by simpa [row] using h), fun _ => by decide⟩
  | mod => exact ⟨_, .mod, aux (m := 14) (by decide) (by simpa [row] using h), fun _ => by decide⟩
  | add => exact ⟨_, .add, aux (m := 13) (by decide) (by simpa [row] using h), fun _ => by decide⟩
  | sub => exact ⟨_, .sub, aux (m := 13) (by decide) (by simpa [row] using h), fun _ => by decide⟩
  | shl => exact ⟨_, .shl, aux (m := 12) (by decide) (by simpa [row] using h), fun _ => by decide⟩
  | shr => exact ⟨_, .shr, aux (m := 12) (by decide) (by simpa [row] using h), fun _ => by decide⟩
  | ushr => exact ⟨_, .ushr, aux (m := 12) (by decide) (by simpa [row] using h), fun _ => by decide⟩
  | lt => exact ⟨_, .lt, aux (m := 11) (by decide) (by simpa [row] using h), fun _ => by decide⟩
  | gt => exact ⟨_, .gt, aux (m := 11) (by decide) (by simpa [row] using h), fun _ => by decide⟩
  | le => exact ⟨_, .le, aux (m := 11) (by decide) (by simpa [row] using h), fun _ => by decide⟩
  | ge => exact ⟨_, .ge, aux (m := 11) (by decide) (by simpa [row] using h), fun _ => by decide⟩
  | inst => exact ⟨_, .inst, aux (m := 11) (by decide) (by simpa [row] using h), fun _ => by decide⟩
  | in_ => exact ⟨_, .in_, aux (m := 11) (by decide) (by simpa [row] using h), fun _ => by decide⟩
  | eq => exact ⟨_, .eq, aux (m := 10) (by decide) (by simpa [row] using h), fun _ => by decide⟩
  | ne => exact ⟨_, .ne, aux (m := 10) (by decide) (by simpa [row] using h), fun _ => by decide⟩
  | seq => exact ⟨_, .seq, aux (m := 10) (by decide) (by simpa [row] using h), fun _ => by decide⟩
  | sne => exact ⟨_, .sne, aux (m := 10) (by decide) (by simpa [row] using h), fun _ => by decide⟩
  | band => exact ⟨_, .band, aux (m := 9) (by decide) (by simpa [row] using h), fun _ => by decide⟩
  | bxor => exact ⟨_, .bxor, aux (m := 8) (by decide) (by simpa [row] using h), fun _ => by decide⟩
  | bor => exact ⟨_, .bor, aux (m := 7) (by decide) (by simpa [row] using h), fun _ => by decide⟩
  | and => exact ⟨_, .and, aux (m := 6) (by decide) (by simpa [row] using h), fun _ => by decide⟩
  | or => exact ⟨_, .or, aux (m := 5) (by decide) (by simpa [row] using h), fun _ => by decide⟩

theorem row_bounds (o : Bin) : 1 ≤ (row o).2.1 ∧ (row o).2.1 ≤ 15 ∧ (row o).2.2 ≤ 18 := by
  cases o <;> decide

/-- The tokens `.`, `[` and a template. -/
theorem Snd.member {n : Nat} (ih : Snd n) {f : Fl} {p q : Nat} {e e' e2 : E} {t : Tok}
    {ts v r1 r : List Tok} (hq : ¬ q < 18)
    (ht : t.k = .dot ∨ t.k = .lbrack ∨ (∃ n, t.k = .templ n))
    (h : Verif.Expr.loop n f p 18 e' r1 = .ok e2 r) (hts : ts = v ++ r1)
    (hg : ∀ nt u0, nt = .member ∨ nt = .call → G Super f nt u0 e → NoFold (t :: v) →
      G Super f nt (u0 ++ t :: v) e') :
    ∃ w, t :: ts = w ++ r ∧
      ∀ u0, Kind f p q u0 e (t :: ts) → NoFold (u0 ++ w) → Res f p (u0 ++ w) e2 r := by
  refine ih.cont h (v := t :: v) (by rw [hts]; rfl) ?_
  intro u0 hk hn
  obtain ⟨nt, h1, h2, h3, h4⟩ := hk.mc hq ht
  exact .inr (Kind.mk_mc h1 h2 h3 (hg nt u0 h1 h4 (noFold_append hn).2))

/-- A result of an operand at the priority of AssignmentExpression. -/
theorem Res.cases {f : Fl} {p : Nat} {u r : List Tok} {e : E} (h : Res f p u e r) (hp : p ≤ 18) :
    headIs .arrow r = true ∨ G Super f (ntOf p) u e := by
  rcases h with h | ⟨h, _⟩
  · exact .inl h
  · exact .inr (h.g hp)

theorem not_params {d : Dial} {f : Fl} {nt : NT} {u : List Tok} {e : E} {k : TK} (h : G d f nt u e) :
    e ≠ .params k := by
  induction h with
  | unit _ _ ih => exact ih
  | args _ ih => exact ih
  | @alistEnd f h n => cases h <;> simp
  | _ => simp

theorem pre_tables {f : Fl} {k : TK} {o : Un} {nt : NT} (h : Pre f k o nt) :
    nt = ntq (preLev nt) ∧ 1 ≤ preLev nt ∧ preLev nt ≤ 17 := by
  cases h <;> exact ⟨rfl, by decide, by decide⟩

theorem sound_loop {n : Nat} (ih : Snd n) {f : Fl} {p q : Nat} {e e' : E} {ts r : List Tok}
    (h : loop (n + 1) f p q e ts = .ok e' r) : ∃ w, ts = w ++ r ∧
    ∀ u0, Kind f p q u0 e ts → NoFold (u0 ++ w) → Res f p (u0 ++ w) e' r := by
  cases ts with
  | nil =>
    rw [loop] at h
    exact stop_ok h fun u0 hk => hk.stop (fun _ => nofun) nofun
  | cons t ts =>
    rw [loop] at h
    have hin : t.k ≠ .op .in_ → headIs (.op .in_) (t :: ts) = true → f.inn = true → p ≤ 11 → q = 21 →
        False := by
      intro h1 h2 _ _ _
      simp only [headIs, beq_iff_eq] at h2
      exact h1 h2
    have hlowq : q < 18 → ∀ u0, t.k ≠ .op .in_ → Kind f p q u0 e (t :: ts) → Res f p u0 e (t :: ts) := by
      intro hq u0 h1 hk
      refine hk.stop (fun hp => ?_) (hin h1)
      have := hk.q_ge hp
      omega
    have hnm : memTok t.k = false → ∀ u0, t.k ≠ .op .in_ → Kind f p q u0 e (t :: ts) →
        Res f p u0 e (t :: ts) := by
      intro hm u0 h1 hk
      refine hk.stop (fun hp => ?_) (hin h1)
      intro t' r' ht
      cases ht
      exact hm
    have hleft : ∀ {u0 : List Tok} {l : NT}, Kind f p q u0 e (t :: ts) → t.k ≠ .op .in_ → t.k ≠ .arrow →
        p ≤ 18 → (1 ≤ q → q ≤ 17 → reach (ntq q) l = true) →
        (18 ≤ q → reach .member l = true ∧ reach .newX l = true ∧ reach .call l = true
          ∧ reach .optional l = true) → G Super f l u0 e := by
      intro u0 l hk h1 h2 hp
      exact hk.left hp (by simpa [headIs] using h2) (.inl (by simpa [headIs] using h1))
    split at h
    · next hk =>
      split at h
      · next hq => exact stop_ok h fun u0 => hlowq hq u0 (by simp [hk])
      · next hq =>
        replace h := uncons_ok h
        obtain ⟨u, r1, rfl, h⟩ := h
        obtain ⟨k, nl⟩ := t
        cases hk
        split at h
        · next hw =>
          refine ih.member hq (.inl rfl) h (v := [u]) rfl ?_
          intro nt u0 h1 h2 _
          exact .dot h1 h2 ((isName_iff _).1 hw)
        · split at h
          · next m hm =>
            refine ih.member hq (.inl rfl) h (v := [u]) rfl ?_
            intro nt u0 h1 h2 _
            obtain ⟨k, nl⟩ := u
            cases hm
            exact .dotPriv h1 h2
          · cases h
    · next hk =>
      split at h
      · next hq => exact stop_ok h fun u0 => hlowq hq u0 (by simp [hk])
      · next hq =>
        replace h := R.bind_ok h
        obtain ⟨i, r1, h1, h⟩ := h
        obtain ⟨w, m, rfl, hw⟩ := ih.index h1
        obtain ⟨k, nl⟩ := t
        cases hk
        refine ih.member hq (.inr (.inl rfl)) h (v := w ++ [⟨.rbrack, m⟩]) (by simp) ?_
        intro nt u0 h1 h2 hn
        have := G.index (n := nl) (m := m) h1 h2 (hw (noFold_append (noFold_tail hn)).1)
        simpa using this
    · next hk =>
      split at h
      · exact stop_ok h fun u0 => hnm (by simp [hk, memTok]) u0 (by simp [hk])
      · next hq =>
        simp only [Bool.or_eq_true, decide_eq_true_eq, not_or, LH] at hq
        replace h := R.bind_ok h
        obtain ⟨i, r1, h1, h⟩ := h
        obtain ⟨w, rfl, hw⟩ := ih.args h1
        obtain ⟨k, nl⟩ := t
        cases hk
        refine ih.cont h (v := ⟨.lpar, nl⟩ :: w) rfl ?_
        intro u0 hu hn
        right
        have ha : G Super f .args (⟨.lpar, nl⟩ :: w) i := .args (hw (noFold_tail (noFold_append hn).2))
        cases hu with
        | low h1 h2 h3 hg => omega
        | member h1 h2 hg => exact .call rfl (by omega) (.call (.inl rfl) hg ha)
        | newX h1 h2 h3 h4 hg => exact absurd rfl (h4 _ _ rfl)
        | call h1 h2 hg => exact .call rfl h2 (.call (.inr rfl) hg ha)
        | optional h1 h2 h3 hg => exact absurd rfl (h3 _ _ rfl).2.2.1
        | callee h1 h2 h3 h4 hg => omega
        | params k n h1 h2 h3 h4 h5 => simp [headIs] at h5
        | priv k n h1 h2 h3 h4 h5 h6 => simp [headIs] at h6
    · next m hk =>
      split at h
      · next hq => exact stop_ok h fun u0 => hlowq hq u0 (by simp [hk])
      · next hq =>
        obtain ⟨k, nl⟩ := t
        cases hk
        refine ih.member hq (.inr (.inr ⟨m, rfl⟩)) h (v := []) rfl ?_
        intro nt u0 h1 h2 hn
        exact .tag h1 h2
    · next hk =>
      split at h
      · next hq => exact stop_ok h fun u0 => hlowq hq u0 (by simp [hk])
      · next hq =>
        replace h := R.bind_ok h
        obtain ⟨c, r1, h1, h⟩ := h
        obtain ⟨h4, w, rfl, hw⟩ := ih.chain h1
        obtain ⟨k, nl⟩ := t
        cases hk
        refine ih.cont h (v := ⟨.quesDot, nl⟩ :: w) rfl ?_
        intro u0 hu hn
        right
        have hc : G Super f (.chain (.optBase e)) w c :=
          hw (.optBase e) [] (.inl ⟨rfl, rfl⟩) (noFold_tail (noFold_append hn).2)
        cases hu with
        | low h1 h2 h3 hg => simp only [LH] at hq; omega
        | member h1 h2 hg =>
          by_cases hp : p ≤ 18
          · exact .optional rfl hp h4 (.opt (.inl rfl) hg hc)
          · exact .callee rfl (by omega) h2 h4 (.newOpt rfl (.unit rfl hg) hc)
        | newX h1 h2 h3 h4 hg =>
          have := h3 _ _ rfl
          simp [memTok] at this
        | call h1 h2 hg => exact .optional rfl h2 h4 (.opt (.inr (.inl rfl)) hg hc)
        | optional h1 h2 h3 hg => exact .optional rfl h2 h4 (.opt (.inr (.inr rfl)) hg hc)
        | callee h1 h2 h3 h5 hg => exact .callee rfl h2 h3 h4 (.newOpt rfl hg hc)
        | params k n h1 h2 h3 h4 h5 => simp [headIs] at h5
        | priv k n h1 h2 h3 h4 h5 h6 => simp [headIs] at h6
    · next o hk =>
      split at h
      · next ho =>
        refine stop_ok h fun u0 hu => hu.stop (fun _ => ?_) ?_
        · intro t' r' ht
          cases ht
          simp [hk, memTok]
        · intro h1 h2 _ _
          simp only [headIs, hk, beq_iff_eq, TK.op.injEq] at h1
          simp [isOp, h1, h2] at ho
      · next ho =>
        split at h
        · next hc =>
          refine stop_ok h fun u0 hu => hu.stop (fun _ => ?_) ?_
          · intro t' r' ht
            cases ht
            simp [hk, memTok]
          · intro h1 h2 h3 h4
            simp only [headIs, hk, beq_iff_eq, TK.op.injEq] at h1
            subst h1 h4
            have e1 : (row .in_).1 21 = true := rfl
            have e2 : ¬ (row .in_).2.1 < p := by show ¬ 11 < p; omega
            simp [e1, e2] at hc
        · next hc =>
          simp only [Bool.or_eq_true, Bool.not_eq_eq_eq_not, Bool.not_true, decide_eq_true_eq, not_or,
            Bool.not_eq_false] at hc
          obtain ⟨h1, h2⟩ := hc
          obtain ⟨l, hr, t1, t2⟩ := bin_tables h1
          have hb := row_bounds o
          replace h := R.bind_ok h
          obtain ⟨b, r1, h3, h⟩ := h
          obtain ⟨t1', u, rfl, hg⟩ := ih.expr h3 (by omega)
          obtain ⟨k, nl⟩ := t
          cases hk
          refine ih.cont h (v := ⟨.op o, nl⟩ :: t1' :: u) rfl ?_
          intro u0 hu hn
          have hbG := (hg (noFold_tail (noFold_append hn).2)).cases hb.2.2
          rcases hu.leftOp (by omega) rfl t1 t2 with ha | ⟨k, m, rfl, rfl, hinn, hhd⟩
          · rw [mkBin_eq ha hn]
            rcases hbG with hbG | hbG
            · exact .inl ⟨hbG, rfl⟩
            · refine .inr (.low hb.1 (by omega) (by omega) (.bin hr ?_ ha hbG))
              intro ho'
              simpa [isOp, ho'] using ho
          · simp only [headIs, beq_iff_eq, TK.op.injEq] at hhd
            subst hhd
            rcases hbG with hbG | hbG
            · exact .inl ⟨hbG, rfl⟩
            · exact .inr (.low hb.1 (by omega) (by omega) (.privIn hinn hbG))
    · next hk =>
      split at h
      · exact stop_ok h fun u0 => hnm (by simp [hk, memTok]) u0 (by simp [hk])
      · next hq =>
        simp only [Bool.or_eq_true, decide_eq_true_eq, not_or, QUES, COND] at hq
        replace h := R.bind_ok h
        obtain ⟨a, r1, h1, h⟩ := h
        replace h := uncons_ok h
        obtain ⟨t', r2, rfl, h⟩ := h
        split at h
        · next hk' =>
          replace h := R.bind_ok h
          obtain ⟨b, r3, h2, h⟩ := h
          obtain ⟨t1, v, rfl, hg1⟩ := ih.expr h1 (by decide)
          obtain ⟨t2, w, rfl, hg2⟩ := ih.expr h2 (by decide)
          obtain ⟨k, nl⟩ := t
          cases hk
          obtain ⟨k, nl'⟩ := t'
          cases hk'
          refine ih.cont h (v := ⟨.quest, nl⟩ :: (t1 :: v) ++ ⟨.colon, nl'⟩ :: t2 :: w) (by simp) ?_
          intro u0 hu hn
          have hn1 := noFold_append hn
          have hn2 := noFold_append hn1.2
          have hc : G Super f .short u0 e := by
            refine hleft hu (by simp) (by simp) (by omega) ?_ (fun _ => by decide)
            intro _ h4
            exact (show ∀ q < 18, 4 ≤ q → reach (ntq q) .short = true by decide) q (by omega) (by omega)
          have ha : G Super { f with inn := true } .assign (t1 :: v) a :=
            ((hg1 (noFold_tail hn2.1)).get (by simp)).g (by decide)
          rw [List.cons_append] at hn
          rw [mkCond_eq hc hn]
          rcases (hg2 (noFold_tail hn2.2)).cases (by decide) with hb | hb
          · exact .inl ⟨hb, rfl⟩
          · refine .inr (.low (by decide) (by decide) (by simp only [COND]; omega) ?_)
            have := G.cond (n := nl) (m := nl') hc ha hb
            simpa [ntq] using this
        · cases h
    · next k hk =>
      split at h
      · exact stop_ok h fun u0 => hnm (by simp [hk, memTok]) u0 (by simp [hk])
      · next hq =>
        simp only [Bool.or_eq_true, decide_eq_true_eq, not_or, LH, ASSI] at hq
        split at h
        · next ht =>
          replace h := R.bind_ok h
          obtain ⟨b, r1, h1, h⟩ := h
          obtain ⟨t1, v, rfl, hg1⟩ := ih.expr h1 (by decide)
          obtain ⟨k', nl⟩ := t
          cases hk
          refine ih.cont h (v := ⟨.assi k, nl⟩ :: t1 :: v) rfl ?_
          intro u0 hu hn
          have hn1 := noFold_append hn
          have ha : G Super f .lhs u0 e :=
            hleft hu (by simp) (by simp) (by omega) (fun _ h => by omega) (fun _ => by decide)
          rcases (hg1 (noFold_tail hn1.2)).cases (by decide) with hb | hb
          · exact .inl ⟨hb, rfl⟩
          · refine .inr (.low (by decide) (by decide) (by simp only [ASSI]; omega) ?_)
            rw [strip_eq]
            exact .assign ha ((target_iff f e).1 ht) hb
        · cases h
    · next hk =>
      split at h
      · exact stop_ok h fun u0 => hnm (by simp [hk, memTok]) u0 (by simp [hk])
      · next hq =>
        simp only [COMMA] at hq
        replace h := R.bind_ok h
        obtain ⟨b, r1, h1, h⟩ := h
        obtain ⟨t1, v, rfl, hg1⟩ := ih.expr h1 (by decide)
        obtain ⟨k', nl⟩ := t
        cases hk
        refine ih.cont h (v := ⟨.comma, nl⟩ :: t1 :: v) rfl ?_
        intro u0 hu hn
        have hn1 := noFold_append hn
        have ha : G Super f .expr u0 e := by
          refine hleft hu (by simp) (by simp) (by omega) ?_ (fun _ => by decide)
          intro h3 h4
          exact (show ∀ q < 18, 1 ≤ q → reach (ntq q) .expr = true by decide) q (by omega) h3
        rcases (hg1 (noFold_tail hn1.2)).cases (by decide) with hb | hb
        · exact .inl ⟨hb, rfl⟩
        · exact .inr (.low (by decide) (by decide) (by simp only [COMMA]; omega) (.comma ha hb))
    · next hk =>
      split at h
      · exact stop_ok h fun u0 => hnm (by simp [hk, memTok]) u0 (by simp [hk])
      · next hq =>
        simp only [Bool.or_eq_true, decide_eq_true_eq, not_or, LH, UPDATE] at hq
        split at h
        · next ht =>
          obtain ⟨k', nl⟩ := t
          cases hk
          obtain rfl : nl = false := by simpa using hq.1.1
          refine ih.cont h (v := [⟨.incr, false⟩]) rfl ?_
          intro u0 hu hn
          have ha : G Super f .lhs u0 e :=
            hleft hu (by simp) (by simp) (by omega) (fun _ h => by omega) (fun _ => by decide)
          exact .inr (.low (by decide) (by decide) (by simp only [UPDATE]; omega)
            (.post (i := true) ha ((target_iff f e).1 ht)))
        · cases h
    · next hk =>
      split at h
      · exact stop_ok h fun u0 => hnm (by simp [hk, memTok]) u0 (by simp [hk])
      · next hq =>
        simp only [Bool.or_eq_true, decide_eq_true_eq, not_or, LH, UPDATE] at hq
        split at h
        · next ht =>
          obtain ⟨k', nl⟩ := t
          cases hk
          obtain rfl : nl = false := by simpa using hq.1.1
          refine ih.cont h (v := [⟨.decr, false⟩]) rfl ?_
          intro u0 hu hn
          have ha : G Super f .lhs u0 e :=
            hleft hu (by simp) (by simp) (by omega) (fun _ h => by omega) (fun _ => by decide)
          exact .inr (.low (by decide) (by decide) (by simp only [UPDATE]; omega)
            (.post (i := false) ha ((target_iff f e).1 ht)))
        · cases h
    · next hk =>
      split at h
      · exact stop_ok h fun u0 => hnm (by simp [hk, memTok]) u0 (by simp [hk])
      · next hq =>
        simp only [Bool.or_eq_true, decide_eq_true_eq, not_or, ASSI] at hq
        split at h
        · next k hp =>
          replace h := R.bind_ok h
          obtain ⟨b, r1, h1, h⟩ := h
          obtain ⟨t1, v, rfl, hg1⟩ := ih.expr h1 (by decide)
          obtain ⟨k', nl⟩ := t
          cases hk
          obtain rfl : nl = false := by simpa using hq.1
          refine ih.cont h (v := ⟨.arrow, false⟩ :: t1 :: v) rfl ?_
          intro u0 hu hn
          have hn1 := noFold_append hn
          obtain rfl : e = .params k := by
            revert hp
            cases e <;> simp [paramsOf]
          have hno : ∀ {nt : NT}, ¬ G Super f nt u0 (.params k) := fun hg => not_params hg rfl
          cases hu with
          | low h1 h2 h3 hg => exact (hno hg).elim
          | member h1 h2 hg => exact (hno hg).elim
          | newX h1 h2 h3 h4 hg => exact (hno hg).elim
          | call h1 h2 hg => exact (hno hg).elim
          | optional h1 h2 h3 hg => exact (hno hg).elim
          | callee h1 h2 h3 h5 hg => exact (hno hg).elim
          | params k' n h1 h2 h3 h4 h5 =>
            cases h3
            subst h2
            rcases (hg1 (noFold_tail hn1.2)).cases (by decide) with hb | hb
            · exact .inl ⟨hb, rfl⟩
            · exact .inr (.low (by decide) (by decide) h1 (.arrow h4 hb))
          | priv k n h1 h2 h3 h4 h5 h6 => cases h4
        · cases h
    · next h1 h2 h3 h4 h5 h6 h7 h8 h9 h10 h11 h12 =>
      refine stop_ok h fun u0 => hnm ?_ u0 (h6 _)
      cases hk : t.k <;> simp_all [memTok]

/-! ### The head -/

theorem sound_expr {n : Nat} (ih : Snd n) {f : Fl} {p : Nat} {e : E} {ts r : List Tok}
    (h : expr (n + 1) f p ts = .ok e r) (hp : p ≤ 20) : ∃ t u, ts = t :: u ++ r ∧
      (NoFold (t :: u) → Res f p (t :: u) e r) := by
  cases ts with
  | nil => rw [expr] at h; cases h
  | cons t ts =>
    rw [expr] at h
    -- one token, then the loop
    have one : ∀ {e0 : E}, loop n f p 21 e0 ts = .ok e r → Kind f p 21 [t] e0 ts →
        ∃ t' u, t :: ts = t' :: u ++ r ∧ (NoFold (t' :: u) → Res f p (t' :: u) e r) := by
      intro e0 h hk
      obtain ⟨w, rfl, hw⟩ := ih.loop h
      exact ⟨t, w, rfl, fun hn => hw [t] hk hn⟩
    -- more tokens, then the loop
    have many : ∀ {q : Nat} {e0 : E} {v r1 : List Tok}, loop n f p q e0 r1 = .ok e r → ts = v ++ r1 →
        (NoFold (t :: v) → (headIs .arrow r1 = true ∧ paramsOf e0 = none) ∨ Kind f p q (t :: v) e0 r1) →
        ∃ t' u, t :: ts = t' :: u ++ r ∧ (NoFold (t' :: u) → Res f p (t' :: u) e r) := by
      intro q e0 v r1 h hts hk
      obtain ⟨w, rfl, hw⟩ := ih.loop h
      refine ⟨t, v ++ w, by rw [hts]; simp, fun hn => ?_⟩
      rw [← List.cons_append] at hn ⊢
      rcases hk (noFold_append hn).1 with ⟨h1, h2⟩ | h1
      · obtain ⟨h3, _⟩ := loop_arrow h1 h2 h
        exact .inl (by rw [h3]; exact h1)
      · exact hw _ h1 hn
    split at h
    · next hk =>
      refine one h (.member (by decide) hp (.unit (b := .primary) rfl ?_))
      exact .atom ((isAtom_iff _).1 hk)
    · split at h
      · next o l ho =>
        split at h
        · cases h
        · next hl =>
          replace h := R.bind_ok h
          obtain ⟨x, r1, h1, h⟩ := h
          split at h
          · next hu =>
            obtain ⟨t1, v, rfl, hg⟩ := ih.expr h1 (by decide)
            refine many h (v := t1 :: v) rfl (fun hn => ?_)
            obtain ⟨nt, hpre, rfl⟩ := (prefixOp_iff f _ o l).1 ho
            rcases (hg (noFold_tail hn)).cases (by decide) with hb | hb
            · exact .inl ⟨hb, rfl⟩
            · right
              have hgp : G Super f nt (t :: t1 :: v) (.un o x) :=
                .pre hpre hb ((unOk_iff Super rfl f o x).1 hu)
              have hnt := pre_tables hpre
              rw [hnt.1] at hgp
              exact .low hnt.2.1 hnt.2.2 (by omega) hgp
          · cases h
      · split at h
        · next m hk =>
          split at h
          · next hc =>
            simp only [Bool.and_eq_true, decide_eq_true_eq, REL] at hc
            obtain ⟨k, nl⟩ := t
            cases hk
            exact one h (.priv m nl rfl hc.2 rfl rfl hc.1.1 hc.1.2)
          · cases h
        · next hk =>
          replace h := R.bind_ok h
          obtain ⟨x, r1, h1, h⟩ := h
          split at h
          · cases h
          · obtain ⟨w, m, rfl, hw⟩ := ih.parens h1
            obtain ⟨k, nl⟩ := t
            cases hk
            refine many h (v := w ++ [⟨.rpar, m⟩]) (by simp) (fun hn => .inr ?_)
            refine .member (by decide) hp (.unit (b := .primary) rfl ?_)
            rcases hw [] rfl (noFold_append (noFold_tail hn)).1 with hg | ⟨v, l, hv, hg⟩
            · exact .paren hg
            · have hv : w = v ++ [⟨.comma, l⟩] := hv
              have := G.parenComma (n := nl) (m := m) (l := l) rfl hg
              rw [hv]
              simpa using this
        · next hk =>
          split at h
          · cases h
          · next hl =>
            replace h := R.bind_ok h
            obtain ⟨x, r1, h1, h⟩ := h
            obtain ⟨w, rfl, hw⟩ := ih.super h1
            obtain ⟨k, nl⟩ := t
            cases hk
            refine many h (v := w) rfl (fun hn => .inr ?_)
            simp only [LH] at hl
            rcases hw nl (noFold_tail hn) with hg | hg
            · exact .member (by decide) hp hg
            · exact .call rfl (by omega) hg
        · next hk =>
          split at h
          · cases h
          · next hl =>
            replace h := R.bind_ok h
            obtain ⟨x, r1, h1, h⟩ := h
            obtain ⟨hpa, w, rfl, hw⟩ := ih.new h1
            obtain ⟨k, nl⟩ := t
            cases hk
            refine many h (v := w) rfl (fun hn => ?_)
            simp only [NEW] at hl
            rcases hw nl (noFold_tail hn) with hg | hg | ⟨hg, h2, h3⟩
            · exact .inl ⟨hg, hpa⟩
            · exact .inr (.member (by decide) hp hg)
            · exact .inr (.newX rfl (by omega) h2 h3 hg)
        · split at h
          · next hy =>
            simp only [Bool.and_eq_true, beq_iff_eq, decide_eq_true_eq, ASSI] at hy
            replace h := R.bind_ok h
            obtain ⟨x, r1, h1, h⟩ := h
            obtain ⟨hpa, w, rfl, hw⟩ := ih.yield h1
            obtain ⟨k, nl⟩ := t
            obtain ⟨⟨rfl, hy⟩, hp2⟩ := hy
            refine many h (v := w) rfl (fun hn => ?_)
            rcases hw nl hy (noFold_tail hn) with hg | hg
            · exact .inl ⟨hg, hpa⟩
            · exact .inr (.low (by decide) (by decide) hp2 hg)
          · split at h
            · next ha =>
              simp only [Bool.and_eq_true, decide_eq_true_eq, ASSI] at ha
              split at h
              · next hb =>
                exact one h (.params t.k t.nl ha.1 rfl rfl ((bindId_iff f _).1 hb) ha.2)
              · cases h
            · split at h
              · next hi =>
                refine one h (.member (by decide) hp (.unit (b := .primary) rfl ?_))
                exact .ident ((idRef_iff _ _).1 hi)
              · cases h

theorem sound_all : ∀ n, Snd n
  | 0 =>
    { expr := fun h => by rw [Verif.Expr.expr] at h; cases h
      loop := fun h => by rw [Verif.Expr.loop] at h; cases h
      index := fun h => by rw [indexX] at h; cases h
      args := fun h => by rw [argsX] at h; cases h
      parens := fun h => by rw [Verif.Expr.parens] at h; cases h
      new := fun h => by rw [newX] at h; cases h
      super := fun h => by rw [superX] at h; cases h
      yield := fun h => by rw [yieldX] at h; cases h
      chain := fun h => by rw [Verif.Expr.chain] at h; cases h
      more := fun h => by rw [Verif.Expr.more] at h; cases h }
  | n + 1 =>
    have ih := sound_all n
    { expr := sound_expr ih
      loop := sound_loop ih
      index := sound_index ih
      args := sound_args ih
      parens := sound_parens ih
      new := sound_new ih
      super := sound_super ih
      yield := sound_yield ih
      chain := sound_chain ih
      more := sound_more ih }

/-- What the parser reads in front of anything but `=>` is derived. -/
theorem sound {f : Fl} {ts r : List Tok} {e : E} (h : parse f ts = .ok e r)
    (hr : headIs .arrow r = false) :
    ∃ u, ts = u ++ r ∧ (NoFold u → G Super f .expr u e) := by
  obtain ⟨t, u, rfl, hg⟩ := (sound_all _).expr h (by decide)
  refine ⟨t :: u, rfl, fun hn => ?_⟩
  rcases (hg hn).cases (by decide) with h1 | h1
  · rw [hr] at h1; cases h1
  · exact h1

end Verif.Expr

import Verif.Lemmas.ExprTok

/-
Every derivation of the grammar is found by the parser: the loop that follows an
expression decides the rest.
-/

namespace Verif.Expr

/-- From some fuel on the result is `r`. -/
def Ev (g : Nat → R) (r : R) : Prop := ∃ n, ∀ m, n ≤ m → g m = r

theorem Ev.succ {g : Nat → R} {r : R} (n : Nat) (h : ∀ m, n ≤ m → g (m + 1) = r) : Ev g r := by
  refine ⟨n + 1, fun m hm => ?_⟩
  obtain ⟨m, rfl⟩ : ∃ k, m = k + 1 := ⟨m - 1, by omega⟩
  exact h m (by omega)

/-- How strongly a token carries on the expression in front of it. -/
def lvl (t : Tok) : Nat :=
  match t.k with
  | .dot | .lbrack | .templ _ => 20
  | .lpar => 19
  | .quesDot => 18
  | .incr | .decr => if t.nl then 0 else 17
  | .op o => (row o).2.1
  | .quest => 3
  | .assi _ => 2
  | .comma => 1
  | .arrow => 30
  | _ => 0

/-- Tokens that end any expression. -/
def closer : TK → Bool
  | .rpar | .rbrack | .colon | .dots | .other _ => true
  | _ => false

/-- How strong a token behind the non-terminal may be. -/
def fl : NT → Nat
  | .optional => 18
  | .newX | .lhs => 17
  | .update | .unary => 15
  | .exp | .mul => 14
  | .add => 13
  | .shift => 12
  | .rel => 11
  | .eq => 10
  | .band => 9
  | .bxor => 8
  | .bor => 7
  | .and => 6
  | .or => 5
  | .coal => 4
  | .short => 3
  | .cond | .assign | .expr => 1
  | _ => 20

/-- The highest priority at which the parser still reads the non-terminal. -/
def plev : NT → Nat
  | .primary => 21
  | .member | .callee => 20
  | .newX => 19
  | .call | .optional | .lhs => 18
  | .update => 17
  | .unary => 16
  | .exp => 15
  | .mul => 14
  | .add => 13
  | .shift => 12
  | .rel => 11
  | .eq => 10
  | .band => 9
  | .bxor => 8
  | .bor => 7
  | .and => 6
  | .or => 5
  | .coal | .short => 4
  | .cond => 3
  | .assign => 2
  | _ => 0

/-- The least `last_prio` behind the non-terminal. -/
def lev : NT → Nat
  | .update => 17
  | .unary => 16
  | .exp => 15
  | .mul => 14
  | .add => 13
  | .shift => 12
  | .rel => 11
  | .eq => 10
  | .band => 9
  | .bxor => 8
  | .bor => 7
  | .and => 6
  | .or => 5
  | .coal | .short => 4
  | .cond => 3
  | .assign => 2
  | .expr => 1
  | _ => 18

def Qk (nt : NT) (q : Nat) : Prop := lev nt ≤ q ∧ (nt = .coal → q = 4)

def Pk (nt : NT) (p : Nat) (u : List Tok) : Prop :=
  p ≤ plev nt ∧ (first u = some .new_ → p ≤ 19) ∧ (first u = some .super_ → p ≤ 18)

def Follow (nt : NT) (rest : List Tok) : Prop :=
  ∀ t r, rest = t :: r → lvl t ≤ fl nt ∧ (lvl t = 0 → t.nl = true ∨ closer t.k = true)

/-- Where the loop stops. -/
theorem stops {f : Fl} {p q : Nat} {e : E} {rest : List Tok}
    (h : ∀ t r, rest = t :: r → (lvl t ≤ 17 ∧ lvl t < p) ∨ lvl t = 0) :
    Ev (loop · f p q e rest) (.ok e rest) := by
  apply Ev.succ 0
  intro m _
  cases rest with
  | nil => rw [loop]
  | cons t r =>
    have h := h t r rfl
    rw [loop]
    unfold lvl at h
    split
    · next hk => simp [hk] at h
    · next hk => simp [hk] at h
    · next hk => simp [hk] at h
    · next hk => simp [hk] at h
    · next hk => simp [hk] at h
    · next o hk =>
      simp only [hk] at h
      split
      · rfl
      · rw [if_pos]
        rcases h with h | h
        · simp [h.2]
        · cases o <;> simp [row] at h
    · next hk =>
      simp only [hk] at h
      rw [if_pos]
      simp only [Bool.or_eq_true, decide_eq_true_eq]
      right
      rcases h with h | h
      · exact h.2
      · omega
    · next hk =>
      simp only [hk] at h
      rw [if_pos]
      simp only [Bool.or_eq_true, decide_eq_true_eq]
      right
      rcases h with h | h
      · exact h.2
      · omega
    · next hk =>
      simp only [hk] at h
      rw [if_pos]
      rcases h with h | h
      · simp only [COMMA]; omega
      · omega
    · next hk =>
      simp only [hk] at h
      rw [if_pos]
      cases hn : t.nl with
      | true => simp
      | false =>
        simp only [hn, Bool.false_eq_true, ↓reduceIte] at h
        simp only [Bool.false_or, Bool.or_eq_true, decide_eq_true_eq]
        right
        rcases h with h | h
        · exact h.2
        · omega
    · next hk =>
      simp only [hk] at h
      rw [if_pos]
      cases hn : t.nl with
      | true => simp
      | false =>
        simp only [hn, Bool.false_eq_true, ↓reduceIte] at h
        simp only [Bool.false_or, Bool.or_eq_true, decide_eq_true_eq]
        right
        rcases h with h | h
        · exact h.2
        · omega
    · next hk => simp [hk] at h
    · rfl

theorem stops_follow {f : Fl} {p q : Nat} {e : E} {rest : List Tok} {nt : NT} (h : Follow nt rest)
    (h1 : fl nt < p) (h2 : fl nt ≤ 17) : Ev (loop · f p q e rest) (.ok e rest) := by
  apply stops
  intro t r ht
  have := (h t r ht).1
  left
  omega

/-- Reading a non-terminal: what the loop behind it gives is the result. -/
def M (f : Fl) (nt : NT) (u : List Tok) (e : E) : Prop :=
  ∃ q, Qk nt q ∧ ∀ p rest r, Pk nt p u → Follow nt rest → Ev (loop · f p q e rest) r →
    Ev (expr · f p (u ++ rest)) r

/-- A finished reading. -/
theorem M.done {f : Fl} {nt : NT} {u rest : List Tok} {e : E} {p : Nat} (h : M f nt u e)
    (hp : Pk nt p u) (hf : Follow nt rest)
    (hs : ∀ q, Ev (loop · f p q e rest) (.ok e rest)) : Ev (expr · f p (u ++ rest)) (.ok e rest) := by
  obtain ⟨q, _, h⟩ := h
  exact h p rest _ hp hf (hs q)

theorem Pk_low {nt : NT} {p : Nat} {u : List Tok} (h : p ≤ plev nt) (h' : p ≤ 18) : Pk nt p u :=
  ⟨h, fun _ => by omega, fun _ => h'⟩

/-- Reading the inside of parentheses, behind a part already read. -/
def PR (f : Fl) (e : E) (rest : List Tok) (r : R) : Prop :=
  (∃ m s, rest = ⟨.rpar, m⟩ :: s ∧ r = .ok e s) ∨
  (∃ m s, rest = ⟨.comma, m⟩ :: s ∧ Ev (parens · f (some e) s) r)

def C2 (f : Fl) (u : List Tok) (e : E) : Prop :=
  ∀ f0 rest r, { f0 with inn := true } = f → PR f0 e rest r → Ev (parens · f0 none (u ++ rest)) r

/-- What is to be shown for each non-terminal. -/
def Cl (f : Fl) (nt : NT) (u : List Tok) (e : E) : Prop :=
  match nt with
  | .args => ∃ n v, u = ⟨.lpar, n⟩ :: v ∧ ∀ rest, Ev (argsX · f false (v ++ rest)) (.ok e rest)
  | .alist h => ∀ rest, Ev (argsX · f h (u ++ rest)) (.ok e rest)
  | .chain b => ∀ rest r, Ev (more · f e rest) r → Ev (chain · f b (u ++ rest)) r
  | .expr => M f .expr u e ∧ C2 f u e
  | nt => M f nt u e

theorem Cl.toM {f : Fl} {nt : NT} {u : List Tok} {e : E} (h : isExpr nt = true) (hc : Cl f nt u e) :
    M f nt u e := by
  cases nt <;> first | exact hc | exact hc.1 | cases h

/-! ### Unit productions -/

theorem unit_tables {a b : NT} (h : Unit a b = true) :
    isExpr a = true ∧ isExpr b = true ∧ fl a ≤ fl b ∧ plev a ≤ plev b ∧ lev a ≤ lev b ∧ a ≠ .coal
      ∧ (a = .expr → b = .assign) := by
  revert h
  cases a <;> cases b <;> simp [Unit, isExpr, fl, plev, lev]

theorem Follow.le {a b : NT} {rest : List Tok} (h : fl a ≤ fl b) (hf : Follow a rest) :
    Follow b rest :=
  fun t r ht => ⟨Nat.le_trans (hf t r ht).1 h, (hf t r ht).2⟩

theorem M.unit {f : Fl} {a b : NT} {u : List Tok} {e : E} (hu : Unit a b = true) (h : M f b u e) :
    M f a u e := by
  obtain ⟨_, _, h1, h2, h3, h4, _⟩ := unit_tables hu
  obtain ⟨q, hq, h⟩ := h
  refine ⟨q, ⟨Nat.le_trans h3 hq.1, fun h => absurd h h4⟩, ?_⟩
  intro p rest r hp hf hl
  exact h p rest r ⟨Nat.le_trans hp.1 h2, hp.2⟩ (hf.le h1) hl

theorem follow_tok {nt : NT} {t : Tok} {r : List Tok} (h1 : lvl t ≤ fl nt)
    (h2 : lvl t ≠ 0 ∨ closer t.k = true) : Follow nt (t :: r) := by
  intro t' r' ht
  cases ht
  refine ⟨h1, fun h => ?_⟩
  rcases h2 with h2 | h2
  · exact absurd h h2
  · exact .inr h2

theorem stops_tok {f : Fl} {p q : Nat} {e : E} {t : Tok} {r : List Tok}
    (h : (lvl t ≤ 17 ∧ lvl t < p) ∨ lvl t = 0) :
    Ev (loop · f p q e (t :: r)) (.ok e (t :: r)) := by
  apply stops
  intro t' r' ht
  cases ht
  exact h

/-- An AssignmentExpression in front of a closing token or a comma. -/
theorem M.assi {f : Fl} {u r : List Tok} {e : E} {t : Tok} (h : M f .assign u e)
    (ht : closer t.k = true ∨ t.k = .comma) : Ev (expr · f ASSI (u ++ t :: r)) (.ok e (t :: r)) := by
  have hl : lvl t ≤ 1 ∧ (lvl t ≠ 0 ∨ closer t.k = true) := by
    rcases ht with ht | ht
    · refine ⟨?_, .inr ht⟩
      unfold lvl
      split <;> simp_all [closer]
    · simp [lvl, ht]
  refine h.done (Pk_low (by simp [plev]) (by decide)) (follow_tok (by simpa [fl] using hl.1) hl.2) ?_
  intro q
  apply stops_tok
  left
  simp only [ASSI]
  omega

/-- An Expression in front of a closing token. -/
theorem M.full {f : Fl} {u r : List Tok} {e : E} {t : Tok} (h : M f .expr u e)
    (ht : closer t.k = true) : Ev (expr · f LOWEST (u ++ t :: r)) (.ok e (t :: r)) := by
  have hl : lvl t = 0 := by
    unfold lvl
    split <;> simp_all [closer]
  refine h.done (Pk_low (by simp) (by decide)) (follow_tok (by omega) (.inr ht)) ?_
  intro q
  exact stops_tok (.inr hl)

theorem headIs_starter {k : TK} {u v : List Tok} (h : ∃ t u', u = t :: u' ∧ starter t.k = true)
    (hk : starter k = false) : headIs k (u ++ v) = false := by
  obtain ⟨t, u', rfl, h⟩ := h
  simp only [List.cons_append, headIs]
  rw [beq_eq_false_iff_ne]
  intro h'
  rw [h', hk] at h
  cases h

theorem C2.unit {f : Fl} {u : List Tok} {e : E} (hst : ∃ t u', u = t :: u' ∧ starter t.k = true)
    (h : M f .assign u e) : C2 f u e := by
  intro f0 rest r hf0 hpr
  rcases hpr with ⟨m, s, rfl, rfl⟩ | ⟨m, s, rfl, n2, h2⟩
  · obtain ⟨n1, h1⟩ := h.assi (r := s) (t := ⟨.rpar, m⟩) (.inl rfl)
    apply Ev.succ n1
    intro k hk
    dsimp only at h1
    rw [parens, headIs_starter hst rfl, hf0, h1 k hk]
    simp [R.bind, uncons]
  · obtain ⟨n1, h1⟩ := h.assi (r := s) (t := ⟨.comma, m⟩) (.inr rfl)
    apply Ev.succ (n1 + n2)
    intro k hk
    dsimp only at h1
    rw [parens, headIs_starter hst rfl, hf0, h1 k (by omega)]
    simp only [R.bind, uncons, Bool.false_eq_true, ↓reduceIte, reduceCtorEq, Option.map, Option.getD]
    exact h2 k (by omega)

theorem C2.comma {f : Fl} {u v : List Tok} {a b : E} {n : Bool}
    (hst : ∃ t v', v = t :: v' ∧ starter t.k = true) (ha : C2 f u a) (h : M f .assign v b) :
    C2 f (u ++ ⟨.comma, n⟩ :: v) (.comma a b) := by
  intro f0 rest r hf0 hpr
  rw [List.append_assoc]
  apply ha f0 _ r hf0
  right
  refine ⟨n, v ++ rest, rfl, ?_⟩
  rcases hpr with ⟨m, s, rfl, rfl⟩ | ⟨m, s, rfl, n2, h2⟩
  · obtain ⟨n1, h1⟩ := h.assi (r := s) (t := ⟨.rpar, m⟩) (.inl rfl)
    apply Ev.succ n1
    intro k hk
    dsimp only at h1
    rw [parens, headIs_starter hst rfl, hf0, h1 k hk]
    simp [R.bind, uncons]
  · obtain ⟨n1, h1⟩ := h.assi (r := s) (t := ⟨.comma, m⟩) (.inr rfl)
    apply Ev.succ (n1 + n2)
    intro k hk
    dsimp only at h1
    rw [parens, headIs_starter hst rfl, hf0, h1 k (by omega)]
    simp only [R.bind, uncons, Bool.false_eq_true, ↓reduceIte, reduceCtorEq, Option.map, Option.getD]
    exact h2 k (by omega)

/-! ### Primary expressions -/

theorem M.atom {f : Fl} {k : TK} {n : Bool} (hk : Atomic k) : M f .primary [⟨k, n⟩] (.atom k) := by
  refine ⟨21, ⟨by simp [lev], nofun⟩, ?_⟩
  rintro p rest r _ _ ⟨n, h⟩
  apply Ev.succ n
  intro m hm
  rw [List.cons_append, List.nil_append, expr, if_pos ((isAtom_iff k).2 hk)]
  exact h m hm

theorem not_arrow {nt : NT} {rest : List Tok} (h : Follow nt rest) (hn : fl nt ≤ 20 := by simp [fl]) :
    headIs .arrow rest = false := by
  cases rest with
  | nil => rfl
  | cons t r =>
    have := (h t r rfl).1
    simp only [headIs]
    rw [beq_eq_false_iff_ne]
    intro hk
    unfold lvl at this
    rw [hk] at this
    simp only at this
    omega

theorem M.ident {f : Fl} {k : TK} {n : Bool} (hk : IdRef f k) : M f .primary [⟨k, n⟩] (.id k) := by
  refine ⟨21, ⟨by simp [lev], nofun⟩, ?_⟩
  rintro p rest r _ hf ⟨n, h⟩
  apply Ev.succ n
  intro m hm
  have ha := not_arrow hf
  have hi := (idRef_iff f k).2 hk
  rw [List.cons_append, List.nil_append, expr]
  cases hk with
  | id j => simpa [isAtom, prefixOp, ha, hi] using h m hm
  | yield h1 h2 => simpa [isAtom, prefixOp, ha, hi, h1] using h m hm
  | await h1 => simpa [isAtom, prefixOp, ha, hi, h1] using h m hm

theorem M.paren {f : Fl} {u : List Tok} {e : E} {n m : Bool} (h : C2 { f with inn := true } u e) :
    M f .primary (⟨.lpar, n⟩ :: u ++ [⟨.rpar, m⟩]) (.paren e) := by
  refine ⟨21, ⟨by simp [lev], nofun⟩, ?_⟩
  rintro p rest r _ hf ⟨n1, h1⟩
  obtain ⟨n2, h2⟩ := h f (⟨.rpar, m⟩ :: rest) (.ok e rest) rfl (.inl ⟨m, rest, rfl, rfl⟩)
  apply Ev.succ (n1 + n2)
  intro k hk
  have ha := not_arrow hf
  rw [List.append_assoc, List.cons_append, List.singleton_append, expr]
  simp only [isAtom, prefixOp, Bool.false_eq_true, ↓reduceIte]
  dsimp only at h2
  rw [h2 k (by omega)]
  simp only [R.bind, ha, Bool.and_false, Bool.false_eq_true, ↓reduceIte]
  exact h1 k (by omega)

/-! ### Productions that go on behind an expression -/

theorem first_append {u v : List Tok} (h : ∃ t u', u = t :: u' ∧ starter t.k = true) :
    first (u ++ v) = first u := by
  obtain ⟨t, u', rfl, _⟩ := h
  rfl

theorem M.extend {f : Fl} {nt nt' : NT} {u w : List Tok} {e e' : E} {q' : Nat}
    (hst : ∃ t u', u = t :: u' ∧ starter t.k = true) (h : M f nt u e)
    (ht : ∃ t w', w = t :: w' ∧ lvl t ≤ fl nt ∧ lvl t ≠ 0) (hp : plev nt' ≤ plev nt)
    (hq' : Qk nt' q')
    (hstep : ∀ p q rest r, Qk nt q → p ≤ plev nt' → Follow nt' rest →
      Ev (loop · f p q' e' rest) r → Ev (loop · f p q e (w ++ rest)) r) :
    M f nt' (u ++ w) e' := by
  obtain ⟨q, hq, h⟩ := h
  refine ⟨q', hq', ?_⟩
  intro p rest r hpk hf hl
  rw [List.append_assoc]
  refine h p _ r ?_ ?_ (hstep p q rest r hq hpk.1 hf hl)
  · refine ⟨Nat.le_trans hpk.1 hp, ?_⟩
    have := hpk.2
    rw [first_append hst] at this
    exact this
  · obtain ⟨t, w', rfl, h1, h2⟩ := ht
    exact follow_tok h1 (.inl h2)

theorem fl_mc {nt : NT} (h : nt = .member ∨ nt = .call) : fl nt = 20 := by
  rcases h with rfl | rfl <;> rfl

theorem qk_mc {nt : NT} (h : nt = .member ∨ nt = .call) : Qk nt 18 := by
  rcases h with rfl | rfl <;> exact ⟨by simp [lev], nofun⟩

theorem qk_ge {nt : NT} {q : Nat} (h : nt = .member ∨ nt = .call) (hq : Qk nt q) : ¬ q < 18 := by
  rcases h with rfl | rfl <;> (have := hq.1; simp only [lev] at this; omega)

theorem M.dot {f : Fl} {nt : NT} {u : List Tok} {e : E} {k : TK} {n m : Bool}
    (hn : nt = .member ∨ nt = .call) (hst : ∃ t u', u = t :: u' ∧ starter t.k = true)
    (h : M f nt u e) (hk : Word k) : M f nt (u ++ [⟨.dot, n⟩, ⟨k, m⟩]) (.member e k) := by
  refine h.extend hst ⟨_, _, rfl, by simp [lvl, fl_mc hn], by simp [lvl]⟩ (Nat.le_refl _) (qk_mc hn) ?_
  rintro p q rest r hq _ _ ⟨n1, h1⟩
  apply Ev.succ n1
  intro j hj
  dsimp only at h1
  rw [List.cons_append, List.cons_append, List.nil_append, loop]
  simp only [LH, if_neg (qk_ge hn hq), uncons, (isName_iff k).2 hk, ↓reduceIte, h1 j hj]

theorem M.dotPriv {f : Fl} {nt : NT} {u : List Tok} {e : E} {k : Nat} {n m : Bool}
    (hn : nt = .member ∨ nt = .call) (hst : ∃ t u', u = t :: u' ∧ starter t.k = true)
    (h : M f nt u e) : M f nt (u ++ [⟨.dot, n⟩, ⟨.priv k, m⟩]) (.privMember e k) := by
  refine h.extend hst ⟨_, _, rfl, by simp [lvl, fl_mc hn], by simp [lvl]⟩ (Nat.le_refl _) (qk_mc hn) ?_
  rintro p q rest r hq _ _ ⟨n1, h1⟩
  apply Ev.succ n1
  intro j hj
  dsimp only at h1
  rw [List.cons_append, List.cons_append, List.nil_append, loop]
  simp only [LH, if_neg (qk_ge hn hq), uncons, isName, Bool.false_eq_true, ↓reduceIte, h1 j hj]

theorem M.tag {f : Fl} {nt : NT} {u : List Tok} {e : E} {k : Nat} {n : Bool}
    (hn : nt = .member ∨ nt = .call) (hst : ∃ t u', u = t :: u' ∧ starter t.k = true)
    (h : M f nt u e) : M f nt (u ++ [⟨.templ k, n⟩]) (.tag e (.templ k)) := by
  refine h.extend hst ⟨_, _, rfl, by simp [lvl, fl_mc hn], by simp [lvl]⟩ (Nat.le_refl _) (qk_mc hn) ?_
  rintro p q rest r hq _ _ ⟨n1, h1⟩
  apply Ev.succ n1
  intro j hj
  dsimp only at h1
  rw [List.cons_append, List.nil_append, loop]
  simp only [LH, if_neg (qk_ge hn hq), h1 j hj]

/-- An Expression in brackets. -/
theorem index_ev {f : Fl} {v rest : List Tok} {i : E} {m : Bool} (h : M { f with inn := true } .expr v i) :
    Ev (indexX · f (v ++ ⟨.rbrack, m⟩ :: rest)) (.ok i rest) := by
  obtain ⟨n1, h1⟩ := h.full (r := rest) (t := ⟨.rbrack, m⟩) rfl
  apply Ev.succ n1
  intro j hj
  dsimp only at h1
  rw [indexX, h1 j hj]
  simp [R.bind, uncons]

theorem M.index {f : Fl} {nt : NT} {u v : List Tok} {e i : E} {n m : Bool}
    (hn : nt = .member ∨ nt = .call) (hst : ∃ t u', u = t :: u' ∧ starter t.k = true)
    (h : M f nt u e) (hi : M { f with inn := true } .expr v i) :
    M f nt (u ++ ⟨.lbrack, n⟩ :: v ++ [⟨.rbrack, m⟩]) (.index e i) := by
  rw [List.append_assoc]
  refine h.extend hst ⟨_, _, rfl, by simp [lvl, fl_mc hn], by simp [lvl]⟩ (Nat.le_refl _) (qk_mc hn) ?_
  rintro p q rest r hq _ _ ⟨n1, h1⟩
  obtain ⟨n2, h2⟩ := index_ev (rest := rest) (m := m) hi
  apply Ev.succ (n1 + n2)
  intro j hj
  dsimp only at h1 h2
  rw [List.cons_append, List.cons_append, List.append_assoc, List.singleton_append, loop]
  simp only [LH, if_neg (qk_ge hn hq)]
  rw [h2 j (by omega)]
  exact h1 j (by omega)

theorem M.call {f : Fl} {nt : NT} {u v : List Tok} {e a : E}
    (hn : nt = .member ∨ nt = .call) (hst : ∃ t u', u = t :: u' ∧ starter t.k = true)
    (h : M f nt u e) (ha : Cl f .args v a) : M f .call (u ++ v) (.call e a) := by
  obtain ⟨m, w, rfl, ha⟩ := ha
  refine h.extend hst ⟨_, _, rfl, by simp [lvl, fl_mc hn], by simp [lvl]⟩
    (by rcases hn with rfl | rfl <;> simp [plev]) (qk_mc (.inr rfl)) ?_
  rintro p q rest r hq hp _ ⟨n1, h1⟩
  obtain ⟨n2, h2⟩ := ha rest
  apply Ev.succ (n1 + n2)
  intro j hj
  dsimp only at h1 h2
  simp only [plev] at hp
  rw [List.cons_append, loop]
  have := qk_ge hn hq
  have hc : ¬ (decide (q < LH) || decide (LH < p)) = true := by
    simp only [LH, Bool.or_eq_true, decide_eq_true_eq]; omega
  simp only [if_neg hc]
  rw [h2 j (by omega)]
  exact h1 j (by omega)

theorem M.opt {f : Fl} {nt : NT} {u v : List Tok} {e c : E} {n : Bool}
    (hn : nt = .member ∨ nt = .call ∨ nt = .optional)
    (hst : ∃ t u', u = t :: u' ∧ starter t.k = true)
    (h : M f nt u e) (hc : Cl f (.chain (.optBase e)) v c) :
    M f .optional (u ++ ⟨.quesDot, n⟩ :: v) (.opt c) := by
  refine h.extend hst ⟨_, _, rfl, by rcases hn with rfl | rfl | rfl <;> simp [lvl, fl], by simp [lvl]⟩
    (by rcases hn with rfl | rfl | rfl <;> simp [plev]) (q' := 18) ⟨by simp [lev], nofun⟩ ?_
  rintro p q rest r hq hp hf ⟨n1, h1⟩
  have hmore : Ev (more · f c rest) (.ok c rest) := by
    apply Ev.succ 0
    intro j _
    cases rest with
    | nil => rw [more]
    | cons t s =>
      have := (hf t s rfl).1
      rw [more]
      unfold lvl at this
      split
      · next hk => simp [hk, fl] at this
      · next hk => simp [hk, fl] at this
      · next hk => simp [hk, fl] at this
      · next hk => simp [hk, fl] at this
      · rfl
  obtain ⟨n2, h2⟩ := hc rest _ hmore
  apply Ev.succ (n1 + n2)
  intro j hj
  dsimp only at h1 h2
  have hq : ¬ q < 18 := by
    rcases hn with rfl | rfl | rfl <;> (have := hq.1; simp only [lev] at this; omega)
  rw [List.cons_append, loop]
  simp only [LH, if_neg hq]
  rw [h2 j (by omega)]
  exact h1 j (by omega)

/-! ### Optional chains -/

theorem chain_args {f : Fl} {b a : E} {v : List Tok} (ha : Cl f .args v a) :
    Cl f (.chain b) v (.call b a) := by
  obtain ⟨m, w, rfl, ha⟩ := ha
  rintro rest r ⟨n1, h1⟩
  obtain ⟨n2, h2⟩ := ha rest
  apply Ev.succ (n1 + n2)
  intro j hj
  dsimp only at h1 h2
  rw [List.cons_append, chain]
  simp only [↓reduceIte]
  rw [h2 j (by omega)]
  exact h1 j (by omega)

theorem chain_index {f : Fl} {b i : E} {v : List Tok} {n m : Bool}
    (hi : M { f with inn := true } .expr v i) :
    Cl f (.chain b) (⟨.lbrack, n⟩ :: v ++ [⟨.rbrack, m⟩]) (.index b i) := by
  rintro rest r ⟨n1, h1⟩
  obtain ⟨n2, h2⟩ := index_ev (rest := rest) (m := m) hi
  apply Ev.succ (n1 + n2)
  intro j hj
  dsimp only at h1 h2
  rw [List.append_assoc, List.cons_append, List.singleton_append, chain]
  simp only [↓reduceIte, reduceCtorEq]
  rw [h2 j (by omega)]
  exact h1 j (by omega)

theorem chain_name {f : Fl} {b : E} {k : TK} {n : Bool} (hk : Word k) :
    Cl f (.chain b) [⟨k, n⟩] (.member b k) := by
  rintro rest r ⟨n1, h1⟩
  apply Ev.succ n1
  intro j hj
  dsimp only at h1
  have h2 : k ≠ .lpar := by rintro rfl; cases hk
  have h3 : k ≠ .lbrack := by rintro rfl; cases hk
  rw [List.cons_append, List.nil_append, chain]
  simp only [h2, h3, (isName_iff k).2 hk, ↓reduceIte]
  exact h1 j hj

theorem chain_priv {f : Fl} {b : E} {k : Nat} {n : Bool} :
    Cl f (.chain b) [⟨.priv k, n⟩] (.privMember b k) := by
  rintro rest r ⟨n1, h1⟩
  apply Ev.succ n1
  intro j hj
  dsimp only at h1
  rw [List.cons_append, List.nil_append, chain]
  simp only [isName, Bool.false_eq_true, reduceCtorEq, ↓reduceIte]
  exact h1 j hj

/-- A chain that goes on with `.`. -/
theorem more_dot {f : Fl} {c : E} {n : Bool} {ts : List Tok} {r : R} (h : Ev (chain · f c ts) r) :
    Ev (more · f c (⟨.dot, n⟩ :: ts)) r := by
  obtain ⟨n1, h1⟩ := h
  apply Ev.succ n1
  intro j hj
  rw [more]
  exact h1 j hj

theorem more_bracket {f : Fl} {c : E} {t : Tok} {ts : List Tok} {r : R}
    (ht : t.k = .lpar ∨ t.k = .lbrack) (h : Ev (chain · f c (t :: ts)) r) :
    Ev (more · f c (t :: ts)) r := by
  obtain ⟨n1, h1⟩ := h
  apply Ev.succ n1
  intro j hj
  rw [more]
  rcases ht with ht | ht <;> (simp only [ht]; exact h1 j hj)

theorem chain_more {f : Fl} {b c c' : E} {u v w : List Tok} (h : Cl f (.chain b) u c)
    (hv : Cl f (.chain c) v c')
    (hm : ∀ rest r, Ev (chain · f c (v ++ rest)) r → Ev (more · f c (w ++ rest)) r) :
    Cl f (.chain b) (u ++ w) c' := by
  intro rest r hr
  rw [List.append_assoc]
  exact h _ r (hm rest r (hv rest r hr))

/-! ### Arguments -/

theorem alist_end {f : Fl} {h n : Bool} :
    Cl f (.alist h) [⟨.rpar, n⟩] (if h then .alast else .anil) := by
  intro rest
  apply Ev.succ 0
  intro j _
  rw [List.cons_append, List.nil_append, argsX]
  simp [headIs]

theorem alist_last {f : Fl} {h n : Bool} {u : List Tok} {e : E}
    (hst : ∃ t u', u = t :: u' ∧ starter t.k = true) (hm : M { f with inn := true } .assign u e) :
    Cl f (.alist h) (u ++ [⟨.rpar, n⟩]) (.acons false e .anil) := by
  intro rest
  obtain ⟨n1, h1⟩ := hm.assi (r := rest) (t := ⟨.rpar, n⟩) (.inl rfl)
  apply Ev.succ n1
  intro j hj
  dsimp only at h1
  rw [List.append_assoc, List.singleton_append, argsX, headIs_starter hst rfl, headIs_starter hst rfl]
  simp only [Bool.false_eq_true, ↓reduceIte]
  rw [h1 j hj]
  simp [R.bind, uncons]

theorem alist_last_spread {f : Fl} {h n m : Bool} {u : List Tok} {e : E}
    (hm : M { f with inn := true } .assign u e) :
    Cl f (.alist h) (⟨.dots, m⟩ :: u ++ [⟨.rpar, n⟩]) (.acons true e .anil) := by
  intro rest
  obtain ⟨n1, h1⟩ := hm.assi (r := rest) (t := ⟨.rpar, n⟩) (.inl rfl)
  apply Ev.succ n1
  intro j hj
  dsimp only at h1
  rw [List.append_assoc, List.singleton_append, List.cons_append, argsX]
  simp only [headIs, beq_self_eq_true, reduceCtorEq, beq_iff_eq, ↓reduceIte, List.tail_cons]
  rw [h1 j hj]
  simp [R.bind, uncons]

theorem alist_more {f : Fl} {h n : Bool} {u v : List Tok} {e a : E}
    (hst : ∃ t u', u = t :: u' ∧ starter t.k = true) (hm : M { f with inn := true } .assign u e)
    (ha : Cl f (.alist true) v a) :
    Cl f (.alist h) (u ++ ⟨.comma, n⟩ :: v) (.acons false e a) := by
  intro rest
  obtain ⟨n1, h1⟩ := hm.assi (r := v ++ rest) (t := ⟨.comma, n⟩) (.inr rfl)
  obtain ⟨n2, h2⟩ := ha rest
  apply Ev.succ (n1 + n2)
  intro j hj
  dsimp only at h1 h2
  rw [List.append_assoc, List.cons_append, argsX, headIs_starter hst rfl, headIs_starter hst rfl]
  simp only [Bool.false_eq_true, ↓reduceIte]
  rw [h1 j (by omega)]
  simp only [R.bind, uncons, reduceCtorEq, ↓reduceIte]
  rw [h2 j (by omega)]

theorem alist_more_spread {f : Fl} {h n m : Bool} {u v : List Tok} {e a : E}
    (hm : M { f with inn := true } .assign u e) (ha : Cl f (.alist true) v a) :
    Cl f (.alist h) (⟨.dots, m⟩ :: u ++ ⟨.comma, n⟩ :: v) (.acons true e a) := by
  intro rest
  obtain ⟨n1, h1⟩ := hm.assi (r := v ++ rest) (t := ⟨.comma, n⟩) (.inr rfl)
  obtain ⟨n2, h2⟩ := ha rest
  apply Ev.succ (n1 + n2)
  intro j hj
  dsimp only at h1 h2
  rw [List.append_assoc, List.cons_append, List.cons_append, argsX]
  simp only [headIs, beq_self_eq_true, reduceCtorEq, beq_iff_eq, ↓reduceIte, List.tail_cons]
  rw [h1 j (by omega)]
  simp only [R.bind, uncons, reduceCtorEq, ↓reduceIte]
  rw [h2 j (by omega)]

/-! ### `super` and `new` -/

theorem M.super {f : Fl} {nt : NT} {n : Bool} {w : List Tok} {e : E}
    (hn : nt = .member ∨ nt = .call) (h : ∀ rest, Ev (superX · f (w ++ rest)) (.ok e rest)) :
    M f nt (⟨.super_, n⟩ :: w) e := by
  refine ⟨18, qk_mc hn, ?_⟩
  rintro p rest r hp _ ⟨n1, h1⟩
  obtain ⟨n2, h2⟩ := h rest
  apply Ev.succ (n1 + n2)
  intro j hj
  dsimp only at h1 h2
  have hp : p ≤ 18 := hp.2.2 rfl
  rw [List.cons_append, expr]
  have hc : ¬ LH < p := by simp only [LH]; omega
  simp only [isAtom, prefixOp, Bool.false_eq_true, ↓reduceIte, if_neg hc]
  rw [h2 j (by omega)]
  exact h1 j (by omega)

theorem super_dot {f : Fl} {k : TK} {m l : Bool} (hk : Word k) (rest : List Tok) :
    Ev (superX · f ([⟨.dot, m⟩, ⟨k, l⟩] ++ rest)) (.ok (.superMember k) rest) := by
  apply Ev.succ 0
  intro j _
  rw [List.cons_append, List.cons_append, List.nil_append, superX]
  simp only [↓reduceIte, uncons, (isName_iff k).2 hk]

theorem super_index {f : Fl} {v : List Tok} {i : E} {m l : Bool}
    (hi : M { f with inn := true } .expr v i) (rest : List Tok) :
    Ev (superX · f (⟨.lbrack, m⟩ :: v ++ [⟨.rbrack, l⟩] ++ rest)) (.ok (.superIndex i) rest) := by
  obtain ⟨n2, h2⟩ := index_ev (rest := rest) (m := l) hi
  apply Ev.succ n2
  intro j hj
  dsimp only at h2
  rw [List.append_assoc, List.cons_append, List.singleton_append, superX]
  simp only [↓reduceIte, reduceCtorEq]
  rw [h2 j hj]
  rfl

theorem super_call {f : Fl} {v : List Tok} {a : E} (ha : Cl f .args v a) (rest : List Tok) :
    Ev (superX · f (v ++ rest)) (.ok (.superCall a) rest) := by
  obtain ⟨m, w, rfl, ha⟩ := ha
  obtain ⟨n2, h2⟩ := ha rest
  apply Ev.succ n2
  intro j hj
  dsimp only at h2
  rw [List.cons_append, superX]
  simp only [↓reduceIte, reduceCtorEq]
  rw [h2 j hj]
  rfl

theorem M.new {f : Fl} {nt : NT} {n : Bool} {w : List Tok} {e : E}
    (hn : lev nt = 18 ∧ nt ≠ .coal)
    (h : ∀ rest, Follow nt rest → Ev (newX · f (w ++ rest)) (.ok e rest)) :
    M f nt (⟨.new_, n⟩ :: w) e := by
  refine ⟨19, ⟨by omega, fun h => absurd h hn.2⟩, ?_⟩
  rintro p rest r hp hf ⟨n1, h1⟩
  obtain ⟨n2, h2⟩ := h rest hf
  apply Ev.succ (n1 + n2)
  intro j hj
  dsimp only at h1 h2
  have hp : p ≤ 19 := hp.2.1 rfl
  rw [List.cons_append, expr]
  have hc : ¬ NEW < p := by simp only [NEW]; omega
  simp only [isAtom, prefixOp, Bool.false_eq_true, ↓reduceIte, if_neg hc]
  rw [h2 j (by omega)]
  exact h1 j (by omega)

theorem headIs_new {u v : List Tok} (hst : ∃ t u', u = t :: u' ∧ starter t.k = true)
    (h : first u ≠ some .new_) : headIs .new_ (u ++ v) = false := by
  obtain ⟨t, u', rfl, _⟩ := hst
  simp only [List.cons_append, headIs]
  rw [beq_eq_false_iff_ne]
  intro h'
  exact h (by simp [first, h'])

theorem M.newArgs {f : Fl} {u v : List Tok} {e a : E} {n : Bool}
    (hst : ∃ t u', u = t :: u' ∧ starter t.k = true)
    (h1 : first u ≠ some .new_) (h2 : first u ≠ some .super_) (h : M f .callee u e)
    (ha : Cl f .args v a) : M f .member (⟨.new_, n⟩ :: u ++ v) (.newE e a) := by
  obtain ⟨m, w, rfl, ha⟩ := ha
  apply M.new ⟨by simp [lev], by simp⟩
  intro rest _
  obtain ⟨n2, h3⟩ := ha rest
  obtain ⟨n1, h4⟩ : Ev (expr · f MEMBER (u ++ ⟨.lpar, m⟩ :: (w ++ rest)))
      (.ok e (⟨.lpar, m⟩ :: (w ++ rest))) := by
    refine h.done ⟨by simp [plev], fun h => absurd h h1, fun h => absurd h h2⟩
      (follow_tok (by simp [lvl, fl]) (.inl (by simp [lvl]))) ?_
    intro q
    apply Ev.succ 0
    intro j _
    rw [loop]
    simp [LH, MEMBER]
  apply Ev.succ (n1 + n2)
  intro j hj
  dsimp only at h3 h4
  rw [show u.append (⟨.lpar, m⟩ :: w) = u ++ ⟨.lpar, m⟩ :: w from rfl, List.append_assoc,
    List.cons_append, newX, headIs_new hst h1]
  simp only [Bool.false_eq_true, ↓reduceIte]
  rw [h4 j (by omega)]
  simp only [R.bind, headIs, beq_self_eq_true, ↓reduceIte, List.tail_cons]
  rw [h3 j (by omega)]

theorem M.newBare {f : Fl} {u : List Tok} {e : E} {n : Bool}
    (hst : ∃ t u', u = t :: u' ∧ starter t.k = true)
    (h1 : first u ≠ some .new_) (h2 : first u ≠ some .super_) (h : M f .callee u e) :
    M f .newX (⟨.new_, n⟩ :: u) (.newE e .anil) := by
  apply M.new ⟨by simp [lev], by simp⟩
  intro rest hf
  obtain ⟨n1, h4⟩ : Ev (expr · f MEMBER (u ++ rest)) (.ok e rest) := by
    refine h.done ⟨by simp [plev], fun h => absurd h h1, fun h => absurd h h2⟩
      (hf.le (by simp [fl])) ?_
    intro q
    exact stops_follow hf (by simp [fl, MEMBER]) (by simp [fl])
  have hl : headIs .lpar rest = false := by
    cases rest with
    | nil => rfl
    | cons t r =>
      have := (hf t r rfl).1
      simp only [headIs]
      rw [beq_eq_false_iff_ne]
      intro hk
      simp [lvl, hk, fl] at this
  apply Ev.succ n1
  intro j hj
  dsimp only at h4
  rw [newX, headIs_new hst h1]
  simp only [Bool.false_eq_true, ↓reduceIte]
  rw [h4 j (by omega)]
  simp only [R.bind, hl, Bool.false_eq_true, ↓reduceIte]

/-! ### Operators -/

theorem M.post {f : Fl} {u : List Tok} {e : E} {i : Bool}
    (hst : ∃ t u', u = t :: u' ∧ starter t.k = true) (h : M f .lhs u e) (hs : Simple f e) :
    M f .update (u ++ [⟨if i then .incr else .decr, false⟩]) (.post i e) := by
  refine h.extend hst ⟨_, _, rfl, by cases i <;> simp [lvl, fl], by cases i <;> simp [lvl]⟩
    (by simp [plev]) (q' := 17) ⟨by simp [lev], nofun⟩ ?_
  rintro p q rest r hq hp _ ⟨n1, h1⟩
  apply Ev.succ n1
  intro j hj
  dsimp only at h1
  have hq := hq.1
  simp only [lev, plev] at hq hp
  have hc : (decide (q < 18) || decide (17 < p)) = false := by
    simp only [Bool.or_eq_false_iff, decide_eq_false_iff_not]; omega
  rw [List.cons_append, List.nil_append, loop]
  cases i <;>
    simp only [↓reduceIte, Bool.false_eq_true, LH, UPDATE, Bool.false_or, hc, (target_iff f e).2 hs] <;>
    exact h1 j hj

theorem M.pre {f : Fl} {u : List Tok} {e : E} {k : TK} {o : Un} {nt : NT} {n : Bool}
    (hk : Pre f k o nt) (h : M f .unary u e) (ho : unOk f o e = true) :
    M f nt (⟨k, n⟩ :: u) (.un o e) := by
  have hnt : lev nt = preLev nt ∧ plev nt = preLev nt ∧ fl nt = 15 ∧ nt ≠ .coal ∧ preLev nt ≤ 17 := by
    cases hk <;> simp [lev, plev, preLev, fl]
  obtain ⟨a1, a2, a3, a4, a5⟩ := hnt
  refine ⟨preLev nt, ⟨by omega, fun h => absurd h a4⟩, ?_⟩
  rintro p rest r hp hf ⟨n1, h1⟩
  obtain ⟨n2, h2⟩ : Ev (expr · f UNARY (u ++ rest)) (.ok e rest) := by
    refine h.done (Pk_low (by simp [plev]) (by decide)) (hf.le (by rw [a3]; simp [fl])) ?_
    intro q
    exact stops_follow hf (by simp only [a3, UNARY]; omega) (by omega)
  apply Ev.succ (n1 + n2)
  intro j hj
  dsimp only at h1 h2
  have hp := hp.1
  have hat : isAtom k = false := by cases hk <;> rfl
  have hc : ¬ preLev nt < p := by omega
  rw [List.cons_append, expr]
  simp only [hat, (prefixOp_iff f k o _).2 ⟨nt, hk, rfl⟩, Bool.false_eq_true, ↓reduceIte, if_neg hc]
  rw [h2 j (by omega)]
  simp only [R.bind, ho, ↓reduceIte]
  exact h1 j (by omega)

theorem row_tables {o : Bin} {nt l r : NT} (h : Row o nt l r) :
    (row o).2.1 = plev nt ∧ (row o).2.1 = lev nt ∧ (row o).2.1 ≤ fl l ∧ (row o).2.2 = plev r
      ∧ plev r ≤ 18 ∧ fl nt < plev r ∧ fl nt ≤ fl r ∧ fl nt ≤ 17 ∧ plev nt ≤ plev l
      ∧ (row o).2.1 ≠ 0 ∧ isExpr nt = true ∧ isExpr l = true ∧ isExpr r = true
      ∧ (nt = .coal → lev nt = 4) := by
  cases h <;> simp [row, plev, lev, fl, isExpr, QUES]

theorem row_test {o : Bin} {nt l r : NT} {q : Nat} (h : Row o nt l r) (hq : Qk l q) :
    (row o).1 q = true := by
  have h1 := hq.1
  have h2 := hq.2
  cases h <;> simp_all [row, lev]
  all_goals omega

theorem M.bin {f : Fl} {u v : List Tok} {a b : E} {o : Bin} {nt l r : NT} {n : Bool}
    (hr : Row o nt l r) (hin : o = .in_ → f.inn = true)
    (hst : ∃ t u', u = t :: u' ∧ starter t.k = true) (ha : M f l u a) (hb : M f r v b)
    (hmk : mkBin o a b = .bin o a b) : M f nt (u ++ ⟨.op o, n⟩ :: v) (.bin o a b) := by
  obtain ⟨t1, t2, t3, t4, t5, t6, t7, t8, t9, t10, t11, t12, t13, t14⟩ := row_tables hr
  refine ha.extend hst ⟨_, _, rfl, by simpa [lvl] using t3, by simpa [lvl] using t10⟩ t9
    (q' := (row o).2.1) ⟨by omega, fun h => by have := t14 h; omega⟩ ?_
  rintro p q rest s hq hp hf ⟨n1, h1⟩
  obtain ⟨n2, h2⟩ : Ev (expr · f (row o).2.2 (v ++ rest)) (.ok b rest) := by
    refine hb.done (Pk_low (by omega) (by omega)) (hf.le t7) ?_
    intro q
    exact stops_follow hf (by omega) t8
  apply Ev.succ (n1 + n2)
  intro j hj
  dsimp only at h1 h2
  have hop : isOp f o = true := by
    unfold isOp
    by_cases ho : o = .in_
    · simp [hin ho]
    · simp [ho]
  have hc : ¬ (row o).2.1 < p := by omega
  rw [List.cons_append, loop]
  simp only [hop, row_test hr hq, Bool.not_true, Bool.false_eq_true, Bool.false_or, decide_eq_true_eq,
    hc, ↓reduceIte]
  rw [h2 j (by omega)]
  simp only [R.bind, hmk]
  exact h1 j (by omega)

theorem M.privIn {f : Fl} {v : List Tok} {b : E} {k : Nat} {n m : Bool} (hin : f.inn = true)
    (hb : M f .shift v b) :
    M f .rel (⟨.priv k, n⟩ :: ⟨.op .in_, m⟩ :: v) (.bin .in_ (.privRef k) b) := by
  refine ⟨11, ⟨by simp [lev], nofun⟩, ?_⟩
  rintro p rest r hp hf ⟨n1, h1⟩
  obtain ⟨n2, h2⟩ : Ev (expr · f 12 (v ++ rest)) (.ok b rest) := by
    refine hb.done (Pk_low (by simp [plev]) (by omega)) (hf.le (by simp [fl])) ?_
    intro q
    exact stops_follow hf (by simp [fl]) (by simp [fl])
  have hp := hp.1
  simp only [plev] at hp
  refine ⟨n1 + n2 + 2, fun j hj => ?_⟩
  obtain ⟨j, rfl⟩ : ∃ i, j = i + 1 + 1 := ⟨j - 2, by omega⟩
  dsimp only at h1 h2 ⊢
  rw [List.cons_append, List.cons_append, expr]
  simp only [isAtom, prefixOp, Bool.false_eq_true, ↓reduceIte, hin, headIs, beq_self_eq_true, REL, hp,
    decide_true, Bool.and_self]
  rw [loop]
  have hop : isOp f .in_ = true := by simp [isOp, hin]
  simp only [hop, Bool.not_true, Bool.false_eq_true, ↓reduceIte]
  rw [if_neg (by
      have h3 : (row .in_).1 HIGHEST = true := rfl
      have h4 : ¬ (row .in_).2.1 < p := by show ¬ 11 < p; omega
      simp [h3, h4]),
    show (row .in_).2.2 = 12 from rfl, show (row .in_).2.1 = 11 from rfl]
  rw [h2 j (by omega)]
  simp only [R.bind, mkBin]
  exact h1 j (by omega)

theorem M.cond {f : Fl} {u v w : List Tok} {c a b : E} {n m : Bool}
    (hst : ∃ t u', u = t :: u' ∧ starter t.k = true) (hc : M f .short u c)
    (ha : M { f with inn := true } .assign v a) (hb : M f .assign w b)
    (hmk : mkCond c a b = .cond c a b) :
    M f .cond (u ++ ⟨.quest, n⟩ :: v ++ ⟨.colon, m⟩ :: w) (.cond c a b) := by
  rw [List.append_assoc]
  refine hc.extend hst ⟨_, _, rfl, by simp [lvl, fl], by simp [lvl]⟩ (by simp [plev]) (q' := 3)
    ⟨by simp [lev], nofun⟩ ?_
  rintro p q rest r hq hp hf ⟨n1, h1⟩
  obtain ⟨n2, h2⟩ : Ev (expr · { f with inn := true } ASSI (v ++ ⟨.colon, m⟩ :: (w ++ rest)))
      (.ok a (⟨.colon, m⟩ :: (w ++ rest))) := ha.assi (.inl rfl)
  obtain ⟨n3, h3⟩ : Ev (expr · f ASSI (w ++ rest)) (.ok b rest) := by
    refine hb.done (Pk_low (by simp [plev]) (by decide)) (hf.le (by simp [fl])) ?_
    intro q
    exact stops_follow hf (by simp [fl, ASSI]) (by simp [fl])
  apply Ev.succ (n1 + n2 + n3)
  intro j hj
  dsimp only at h1 h2 h3
  have hq := hq.1
  simp only [lev, plev] at hq hp
  have hcc : (decide (q < 4) || decide (3 < p)) = false := by
    simp only [Bool.or_eq_false_iff, decide_eq_false_iff_not]; omega
  rw [List.append_assoc, List.cons_append, List.cons_append, loop]
  simp only [QUES, COND, hcc, Bool.false_eq_true, ↓reduceIte]
  rw [h2 j (by omega)]
  simp only [R.bind, uncons, ↓reduceIte]
  rw [h3 j (by omega)]
  simp only [hmk]
  exact h1 j (by omega)

theorem M.assign {f : Fl} {u v : List Tok} {a b : E} {k : Nat} {n : Bool}
    (hst : ∃ t u', u = t :: u' ∧ starter t.k = true) (ha : M f .lhs u a) (hs : Simple f a)
    (hb : M f .assign v b) : M f .assign (u ++ ⟨.assi k, n⟩ :: v) (.assign k (lhsTree k a) b) := by
  refine ha.extend hst ⟨_, _, rfl, by simp [lvl, fl], by simp [lvl]⟩ (by simp [plev]) (q' := 2)
    ⟨by simp [lev], nofun⟩ ?_
  rintro p q rest r hq hp hf ⟨n1, h1⟩
  obtain ⟨n3, h3⟩ : Ev (expr · f ASSI (v ++ rest)) (.ok b rest) := by
    refine hb.done (Pk_low (by simp [plev]) (by decide)) (hf.le (by simp [fl])) ?_
    intro q
    exact stops_follow hf (by simp [fl, ASSI]) (by simp [fl])
  apply Ev.succ (n1 + n3)
  intro j hj
  dsimp only at h1 h3
  have hq := hq.1
  simp only [lev, plev] at hq hp
  have hcc : (decide (q < LH) || decide (ASSI < p)) = false := by
    simp only [Bool.or_eq_false_iff, decide_eq_false_iff_not, LH, ASSI]; omega
  rw [List.cons_append, loop]
  simp only [hcc, Bool.false_eq_true, ↓reduceIte, (target_iff f a).2 hs]
  rw [h3 j (by omega)]
  simp only [R.bind, strip_eq]
  exact h1 j (by omega)

theorem M.arrow {f : Fl} {v : List Tok} {b : E} {k : TK} {n : Bool} (hk : BindId f k)
    (hb : M { f with yld := false, awt := false } .assign v b) :
    M f .assign (⟨k, n⟩ :: ⟨.arrow, false⟩ :: v) (.arrowFn k b) := by
  refine ⟨2, ⟨by simp [lev], nofun⟩, ?_⟩
  rintro p rest r hp hf ⟨n1, h1⟩
  obtain ⟨n2, h2⟩ : Ev (expr · { f with yld := false, awt := false } ASSI (v ++ rest))
      (.ok b rest) := by
    refine hb.done (Pk_low (by simp [plev]) (by decide)) (hf.le (by simp [fl])) ?_
    intro q
    exact stops_follow hf (by simp [fl, ASSI]) (by simp [fl])
  have hp := hp.1
  simp only [plev] at hp
  refine ⟨n1 + n2 + 2, fun j hj => ?_⟩
  obtain ⟨j, rfl⟩ : ∃ i, j = i + 1 + 1 := ⟨j - 2, by omega⟩
  dsimp only at h1 h2 ⊢
  have hl : loop (j + 1) f p HIGHEST (.params k) (⟨.arrow, false⟩ :: (v ++ rest)) = r := by
    rw [loop]
    have hc : (false || decide (ASSI < p)) = false := by
      simp only [Bool.false_or, decide_eq_false_iff_not, ASSI]; omega
    simp only [hc, Bool.false_eq_true, ↓reduceIte, paramsOf]
    rw [h2 j (by omega)]
    exact h1 j (by omega)
  have hb := (bindId_iff f k).2 hk
  have hpd : decide (p ≤ ASSI) = true := by simp only [decide_eq_true_eq, ASSI]; omega
  rw [List.cons_append, List.cons_append, expr]
  cases hk.1 with
  | id i =>
    simp only [isAtom, prefixOp, Bool.false_eq_true, ↓reduceIte, hpd, headIs, beq_self_eq_true,
      Bool.and_self, hb, Bool.false_and, Bool.and_true]
    exact hl
  | yield y1 y2 =>
    simp only [isAtom, prefixOp, Bool.false_eq_true, ↓reduceIte, hpd, headIs, beq_self_eq_true,
      Bool.and_self, hb, y1, Bool.false_and, Bool.and_false]
    exact hl
  | await y1 =>
    simp only [isAtom, prefixOp, Bool.false_eq_true, ↓reduceIte, hpd, headIs, beq_self_eq_true,
      Bool.and_self, hb, y1, reduceCtorEq, beq_iff_eq, Bool.false_and, Bool.and_true]
    exact hl

theorem M.yieldGen {f : Fl} {w : List Tok} {e : E} {n : Bool} (hy : f.yld = true)
    (h : ∀ rest, Follow .assign rest → Ev (yieldX · f (w ++ rest)) (.ok e rest)) :
    M f .assign (⟨.yield_, n⟩ :: w) e := by
  refine ⟨2, ⟨by simp [lev], nofun⟩, ?_⟩
  rintro p rest r hp hf ⟨n1, h1⟩
  obtain ⟨n2, h2⟩ := h rest hf
  apply Ev.succ (n1 + n2)
  intro j hj
  dsimp only at h1 h2
  have hp := hp.1
  simp only [plev] at hp
  have hpd : decide (p ≤ ASSI) = true := by simp only [decide_eq_true_eq, ASSI]; omega
  rw [List.cons_append, expr]
  simp only [isAtom, prefixOp, Bool.false_eq_true, ↓reduceIte, hpd, hy, beq_self_eq_true, Bool.and_self]
  rw [h2 j (by omega)]
  exact h1 j (by omega)

theorem M.yield {f : Fl} {n : Bool} (hy : f.yld = true) :
    M f .assign [⟨.yield_, n⟩] (.yield_ false .hole) := by
  apply M.yieldGen hy
  intro rest hf
  apply Ev.succ 0
  intro j _
  rw [List.nil_append]
  cases rest with
  | nil => rw [yieldX]
  | cons t r =>
    obtain ⟨h1, h2⟩ := hf t r rfl
    rw [yieldX]
    cases hn : t.nl with
    | true => rfl
    | false =>
      have hk : t.k = .comma ∨ closer t.k = true := by
        by_cases h0 : lvl t = 0
        · rcases h2 h0 with h | h
          · rw [hn] at h; cases h
          · exact .inr h
        · left
          unfold lvl at h0 h1
          revert h0 h1
          simp only [hn, fl]
          split <;> intro h1 h0 <;> first
            | assumption
            | (exfalso; simp at h0; done)
            | (exfalso; simp at h1; done)
            | (rename_i o _; exfalso; cases o <;> revert h1 <;> decide)
      have ho : t.k ≠ .op .mul ∧ opensOperand t.k = false := by
        rcases hk with hk | hk
        · rw [hk]; exact ⟨nofun, rfl⟩
        · revert hk
          cases t.k <;> simp [closer, opensOperand, isName, isAtom]
      simp only [Bool.false_eq_true, ↓reduceIte, ho.1, ho.2]

theorem M.yieldE {f : Fl} {v : List Tok} {e : E} {n : Bool} {t : Tok} (hy : f.yld = true)
    (hn : t.nl = false) (hk : ∀ k, t.k ≠ .priv k)
    (hst : starter t.k = true) (h : M f .assign (t :: v) e) :
    M f .assign (⟨.yield_, n⟩ :: t :: v) (.yield_ false e) := by
  apply M.yieldGen hy
  intro rest hf
  obtain ⟨n3, h3⟩ : Ev (expr · f ASSI (t :: v ++ rest)) (.ok e rest) := by
    refine h.done (Pk_low (by simp [plev]) (by decide)) hf ?_
    intro q
    exact stops_follow hf (by simp [fl, ASSI]) (by simp [fl])
  apply Ev.succ n3
  intro j hj
  dsimp only at h3
  rw [List.cons_append] at h3 ⊢
  rw [yieldX]
  have ho : t.k ≠ .op .mul ∧ opensOperand t.k = true := by
    unfold starter at hst
    revert hst hk
    cases t.k with
    | priv k => intro hk; exact absurd rfl (hk k)
    | op o => intro _ h; cases o <;> simp_all [opensOperand, isName, isAtom]
    | _ => simp [opensOperand, isName, isAtom]
  simp only [hn, Bool.false_eq_true, ↓reduceIte, ho.1, ho.2]
  rw [h3 j hj]
  rfl

theorem M.yieldStar {f : Fl} {v : List Tok} {e : E} {n : Bool} (hy : f.yld = true)
    (h : M f .assign v e) :
    M f .assign (⟨.yield_, n⟩ :: ⟨.op .mul, false⟩ :: v) (.yield_ true e) := by
  apply M.yieldGen hy
  intro rest hf
  obtain ⟨n3, h3⟩ : Ev (expr · f ASSI (v ++ rest)) (.ok e rest) := by
    refine h.done (Pk_low (by simp [plev]) (by decide)) hf ?_
    intro q
    exact stops_follow hf (by simp [fl, ASSI]) (by simp [fl])
  apply Ev.succ n3
  intro j hj
  dsimp only at h3
  rw [List.cons_append, yieldX]
  simp only [Bool.false_eq_true, ↓reduceIte]
  rw [h3 j hj]
  rfl

theorem M.comma {f : Fl} {u v : List Tok} {a b : E} {n : Bool}
    (hst : ∃ t u', u = t :: u' ∧ starter t.k = true) (ha : M f .expr u a) (hb : M f .assign v b) :
    M f .expr (u ++ ⟨.comma, n⟩ :: v) (.comma a b) := by
  refine ha.extend hst ⟨_, _, rfl, by simp [lvl, fl], by simp [lvl]⟩ (by simp [plev]) (q' := 1)
    ⟨by simp [lev], nofun⟩ ?_
  rintro p q rest r hq hp hf ⟨n1, h1⟩
  obtain ⟨n3, h3⟩ : Ev (expr · f ASSI (v ++ rest)) (.ok b rest) := by
    refine hb.done (Pk_low (by simp [plev]) (by decide)) (hf.le (by simp [fl])) ?_
    intro q
    exact stops_follow hf (by simp [fl, ASSI]) (by simp [fl])
  apply Ev.succ (n1 + n3)
  intro j hj
  dsimp only at h1 h3
  simp only [plev] at hp
  have hc : ¬ COMMA ≤ p := by simp only [COMMA]; omega
  rw [List.cons_append, loop]
  simp only [if_neg hc]
  rw [h3 j (by omega)]
  exact h1 j (by omega)

/-! ### All productions -/

theorem isExpr_mc {nt : NT} (h : nt = .member ∨ nt = .call) : isExpr nt = true := by
  rcases h with rfl | rfl <;> rfl

theorem Cl.ofM {f : Fl} {nt : NT} {u : List Tok} {e : E} (h : isExpr nt = true) (hne : nt ≠ .expr)
    (hm : M f nt u e) : Cl f nt u e := by
  cases nt <;> first | exact hm | exact absurd rfl hne | cases h

theorem complete_aux {d : Dial} (hl : d.loose = false) (ht : d.tight = true) {f : Fl} {nt : NT}
    {u : List Tok} {e : E} (h : G d f nt u e) : NoFold u → Cl f nt u e := by
  induction h with
  | @unit f a b u e hu hg ih =>
    intro hn
    obtain ⟨h1, h2, _, _, _, _, h7⟩ := unit_tables hu
    have hm := (ih hn).toM h2
    by_cases ha : a = .expr
    · subst ha
      cases h7 rfl
      exact ⟨hm.unit hu, C2.unit (starter_of hg rfl) hm⟩
    · exact Cl.ofM h1 ha (hm.unit hu)
  | atom hk => intro _; exact M.atom hk
  | ident hk => intro _; exact M.ident hk
  | paren _ ih =>
    intro hn
    exact M.paren (ih (noFold_append (noFold_tail hn)).1).2
  | parenComma hd => rw [hl] at hd; cases hd
  | dot hnt hg hk ih =>
    intro hn
    exact Cl.ofM (isExpr_mc hnt) (by rcases hnt with rfl | rfl <;> simp)
      (M.dot hnt (starter_of hg (isExpr_mc hnt)) ((ih (noFold_append hn).1).toM (isExpr_mc hnt)) hk)
  | dotPriv hnt hg ih =>
    intro hn
    exact Cl.ofM (isExpr_mc hnt) (by rcases hnt with rfl | rfl <;> simp)
      (M.dotPriv hnt (starter_of hg (isExpr_mc hnt)) ((ih (noFold_append hn).1).toM (isExpr_mc hnt)))
  | index hnt hg _ ih ih' =>
    intro hn
    have h1 := noFold_append (noFold_append hn).1
    exact Cl.ofM (isExpr_mc hnt) (by rcases hnt with rfl | rfl <;> simp)
      (M.index hnt (starter_of hg (isExpr_mc hnt)) ((ih h1.1).toM (isExpr_mc hnt))
        (ih' (noFold_tail h1.2)).1)
  | tag hnt hg ih =>
    intro hn
    exact Cl.ofM (isExpr_mc hnt) (by rcases hnt with rfl | rfl <;> simp)
      (M.tag hnt (starter_of hg (isExpr_mc hnt)) ((ih (noFold_append hn).1).toM (isExpr_mc hnt)))
  | superDot hk =>
    intro _
    exact M.super (.inl rfl) (super_dot hk)
  | superIndex _ ih =>
    intro hn
    exact M.super (.inl rfl) (super_index (ih (noFold_append (noFold_tail (noFold_tail hn))).1).1)
  | newArgs hd hg _ ih ih' =>
    intro hn
    have h1 := noFold_append hn
    exact M.newArgs (starter_of hg rfl) (hd ht).1 (hd ht).2 (ih (noFold_tail h1.1)) (ih' h1.2)
  | newBare hd hg ih =>
    intro hn
    exact M.newBare (starter_of hg rfl) (hd ht).1 (hd ht).2 (ih (noFold_tail hn))
  | newNew hd => rw [ht] at hd; cases hd
  | newNewMember hd => rw [hl] at hd; cases hd
  | newOpt hd => rw [hl] at hd; cases hd
  | call hnt hg _ ih ih' =>
    intro hn
    have h1 := noFold_append hn
    exact M.call hnt (starter_of hg (isExpr_mc hnt)) ((ih h1.1).toM (isExpr_mc hnt)) (ih' h1.2)
  | superCall _ ih =>
    intro hn
    exact M.super (.inr rfl) (super_call (ih (noFold_tail hn)))
  | args _ ih =>
    intro hn
    exact ⟨_, _, rfl, ih (noFold_tail hn)⟩
  | alistEnd => intro _; exact alist_end
  | alistLast hg ih =>
    intro hn
    exact alist_last (starter_of hg rfl) (ih (noFold_append hn).1)
  | alistLastSpread hg ih =>
    intro hn
    exact alist_last_spread (ih (noFold_append (noFold_tail hn)).1)
  | alistMore hg _ ih ih' =>
    intro hn
    have h1 := noFold_append hn
    exact alist_more (starter_of hg rfl) (ih h1.1) (ih' (noFold_tail h1.2))
  | alistMoreSpread hg _ ih ih' =>
    intro hn
    have h1 := noFold_append (noFold_tail hn)
    exact alist_more_spread (ih h1.1) (ih' (noFold_tail h1.2))
  | @opt f nt u v e c n hnt hg _ ih ih' =>
    intro hn
    have h1 := noFold_append hn
    have hx : isExpr nt = true := by
      rcases hnt with rfl | rfl | rfl
      · exact (rfl : isExpr .member = true)
      · exact (rfl : isExpr .call = true)
      · exact (rfl : isExpr .optional = true)
    exact M.opt hnt (starter_of hg hx) ((ih h1.1).toM hx) (ih' (noFold_tail h1.2))
  | chArgs _ ih => intro hn; exact chain_args (ih hn)
  | chIndex _ ih => intro hn; exact chain_index (ih (noFold_append (noFold_tail hn)).1).1
  | chName hk => intro _; exact chain_name hk
  | chPriv => intro _; exact chain_priv
  | chMoreArgs _ _ ih ih' =>
    intro hn
    have h1 := noFold_append hn
    have ha := ih' h1.2
    refine chain_more (ih h1.1) (chain_args ha) ?_
    intro rest r hr
    obtain ⟨m, w, rfl, _⟩ := ha
    exact more_bracket (.inl rfl) hr
  | @chMoreIndex f b c i u v n m _ _ ih ih' =>
    intro hn
    have h1 := noFold_append (noFold_append hn).1
    rw [List.append_assoc]
    refine chain_more (ih h1.1) (chain_index (n := n) (m := m) (ih' (noFold_tail h1.2)).1) ?_
    intro rest r hr
    exact more_bracket (.inr rfl) hr
  | @chMoreName f b c u k n m _ hk ih =>
    intro hn
    refine chain_more (ih (noFold_append hn).1) (chain_name (n := m) hk) ?_
    intro rest r hr
    exact more_dot hr
  | @chMorePriv f b c u k n m _ ih =>
    intro hn
    refine chain_more (ih (noFold_append hn).1) (chain_priv (n := m)) ?_
    intro rest r hr
    exact more_dot hr
  | chDotArgs hd => rw [hl] at hd; cases hd
  | chDotIndex hd => rw [hl] at hd; cases hd
  | post hg hs ih =>
    intro hn
    exact M.post (starter_of hg rfl) (ih (noFold_append hn).1) hs
  | @pre f u e k o nt n hk hg ho ih =>
    intro hn
    have hm := M.pre (n := n) hk (ih (noFold_tail hn)) ((unOk_iff d ht f o e).2 ho)
    exact Cl.ofM (by cases hk <;> rfl) (by cases hk <;> simp) hm
  | @bin f u v a b o nt l r n hr hin hg hg' ih ih' =>
    intro hn
    have h1 := noFold_append hn
    obtain ⟨_, _, _, _, _, _, _, _, _, _, t11, t12, t13, _⟩ := row_tables hr
    exact Cl.ofM t11 (by cases hr <;> simp) (M.bin hr hin (starter_of hg t12) ((ih h1.1).toM t12)
      ((ih' (noFold_tail h1.2)).toM t13) (mkBin_eq hg hn))
  | privIn hin _ ih =>
    intro hn
    exact M.privIn hin (ih (noFold_tail (noFold_tail hn)))
  | cond hg _ _ ih1 ih2 ih3 =>
    intro hn
    have h1 := noFold_append hn
    have h2 := noFold_append h1.1
    exact M.cond (starter_of hg rfl) (ih1 h2.1) (ih2 (noFold_tail h2.2)) (ih3 (noFold_tail h1.2))
      (mkCond_eq hg h1.1)
  | assign hg hs _ ih1 ih2 =>
    intro hn
    have h1 := noFold_append hn
    exact M.assign (starter_of hg rfl) (ih1 h1.1) hs (ih2 (noFold_tail h1.2))
  | arrow hk _ ih =>
    intro hn
    exact M.arrow hk (ih (noFold_tail (noFold_tail hn)))
  | yield hy => intro _; exact M.yield hy
  | yieldE hy hnl hk hg ih =>
    intro hn
    obtain ⟨t, u', h1, h2⟩ := starter_of hg rfl
    cases h1
    exact M.yieldE hy hnl (hk ht) h2 (ih (noFold_tail hn))
  | yieldStar hy _ ih =>
    intro hn
    exact M.yieldStar hy (ih (noFold_tail (noFold_tail hn)))
  | comma hg hg' ih1 ih2 =>
    intro hn
    have h1 := noFold_append hn
    have h2 := ih1 h1.1
    have h3 := ih2 (noFold_tail h1.2)
    exact ⟨M.comma (starter_of hg rfl) h2.1 h3, C2.comma (starter_of hg' rfl) h2.2 h3⟩

theorem ends_follow {rest : List Tok} (h : Ends rest.head?) :
    ∀ t r, rest = t :: r → lvl t = 0 ∧ (t.nl = true ∨ closer t.k = true) := by
  rintro t r rfl
  cases h with
  | close h =>
    rcases h with h | h | h | h | ⟨n, h⟩ <;> simp [lvl, closer, h]
  | word h1 h2 h3 h4 =>
    refine ⟨?_, .inl h1⟩
    simp only [lvl]
    cases hk : t.k <;> simp_all
    all_goals first | cases h2 | skip
    all_goals simp_all
  | atom h1 h2 h3 =>
    refine ⟨?_, .inl h1⟩
    cases hk : t.k <;> simp_all [lvl]
    all_goals cases h2
  | sign h1 h2 =>
    refine ⟨?_, .inl h1⟩
    rcases h2 with h | h | h | h | ⟨n, h⟩ <;> simp [lvl, h, h1]

/-- The parser finds every derivation. -/
theorem complete {d : Dial} (hl : d.loose = false) (ht : d.tight = true) {f : Fl} {u rest : List Tok}
    {e : E} (h : G d f .expr u e) (hn : NoFold u) (he : Ends rest.head?) :
    parse f (u ++ rest) = .ok e rest := by
  obtain ⟨n, hev⟩ : Ev (expr · f LOWEST (u ++ rest)) (.ok e rest) := by
    refine (complete_aux hl ht h hn).1.done (Pk_low (by simp) (by decide)) ?_ ?_
    · intro t r hr
      have := ends_follow he t r hr
      exact ⟨by omega, fun _ => this.2⟩
    · intro q
      apply stops
      intro t r hr
      exact .inr (ends_follow he t r hr).1
  exact parse_of_expr (hev n (Nat.le_refl _)) nofun

end Verif.Expr

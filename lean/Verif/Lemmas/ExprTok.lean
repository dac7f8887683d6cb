import Verif.Lemmas.ExprFuel
import Verif.Spec.Expr

/-
The tables of the model and of the grammar agree; facts about derivations used
by both directions.
-/

namespace Verif.Expr

theorem isName_iff (k : TK) : isName k = true ↔ Word k := by
  constructor
  · intro h
    cases k with
    | op o => cases o <;> first | constructor | cases h
    | _ => first | constructor | cases h
  · intro h; cases h <;> rfl

theorem isAtom_iff (k : TK) : isAtom k = true ↔ Atomic k := by
  constructor
  · intro h
    cases k with
    | _ => first | constructor | cases h
  · intro h; cases h <;> rfl

theorem idRef_iff (f : Fl) (k : TK) : idRef f k = true ↔ IdRef f k := by
  constructor
  · intro h
    cases k with
    | id n => constructor
    | yield_ =>
      simp only [idRef, Bool.and_eq_true, Bool.not_eq_true'] at h
      exact .yield h.1 h.2
    | await_ =>
      simp only [idRef, Bool.not_eq_true'] at h
      exact .await h
    | _ => cases h
  · intro h
    cases h with
    | id n => rfl
    | yield h1 h2 => simp [idRef, h1, h2]
    | await h => simp [idRef, h]

theorem bindId_iff (f : Fl) (k : TK) :
    (idRef f k && !(f.strict && badParam k)) = true ↔ BindId f k := by
  simp only [BindId, ← idRef_iff, Bool.and_eq_true, Bool.not_eq_true']
  constructor
  · rintro ⟨h1, h2⟩
    refine ⟨h1, fun hs => ?_⟩
    rw [hs] at h2
    constructor <;> (intro hk; subst hk; cases h2)
  · rintro ⟨h1, h2⟩
    refine ⟨h1, ?_⟩
    cases hs : f.strict with
    | false => rfl
    | true =>
      have := h2 hs
      simp only [Bool.true_and]
      cases k with
      | id n =>
        match n with
        | 0 => rfl
        | 1 => exact absurd rfl this.1
        | 2 => exact absurd rfl this.2
        | n + 3 => rfl
      | yield_ => simp [idRef, hs] at h1
      | _ => rfl

theorem target_iff (f : Fl) (e : E) : target f e = true ↔ Simple f e := by
  constructor
  · intro h
    induction e with
    | id k =>
      apply Simple.id
      intro hs
      simp only [target, hs, Bool.true_and, Bool.not_eq_true', Bool.or_eq_false_iff,
        beq_eq_false_iff_ne] at h
      exact h
    | paren e ih => exact .paren (ih (by simpa [target] using h))
    | _ => first | constructor | cases h
  · intro h
    induction h with
    | @id k hk =>
      simp only [target, Bool.not_eq_true']
      cases hs : f.strict with
      | false => rfl
      | true =>
        have := hk hs
        simp [this.1, this.2]
    | paren _ ih => simpa [target] using ih
    | _ => rfl

theorem delOk_iff (f : Fl) (e : E) :
    delOk f e = true ↔ (f.strict = true → ¬ NoDelete e ∧ ¬ NoDeleteOpt e) := by
  induction e with
  | paren e ih =>
    simp only [delOk, ih]
    constructor
    · intro h hs
      have := h hs
      exact ⟨fun hn => (by cases hn with | paren hn => exact this.1 hn),
        fun hn => (by cases hn with | paren hn => exact this.2 hn)⟩
    · intro h hs
      have := h hs
      exact ⟨fun hn => this.1 (.paren hn), fun hn => this.2 (.paren hn)⟩
  | id k =>
    simp only [delOk, Bool.not_eq_true']
    constructor
    · intro h hs; rw [h] at hs; cases hs
    · intro h
      cases hs : f.strict with
      | false => rfl
      | true => exact absurd (.id k) (h hs).1
  | privMember e n =>
    simp only [delOk, Bool.not_eq_true']
    constructor
    · intro h hs; rw [h] at hs; cases hs
    · intro h
      cases hs : f.strict with
      | false => rfl
      | true => exact absurd (.priv e n) (h hs).1
  | opt e =>
    simp only [delOk, Bool.not_eq_true']
    constructor
    · intro h hs; rw [h] at hs; cases hs
    · intro h
      cases hs : f.strict with
      | false => rfl
      | true => exact absurd (.opt e) (h hs).2
  | _ =>
    simp only [delOk, true_iff]
    intro _
    exact ⟨fun hn => (by cases hn), fun hn => (by cases hn)⟩

theorem unOk_iff (d : Dial) (hd : d.tight = true) (f : Fl) (o : Un) (e : E) :
    unOk f o e = true ↔ PreOk d f o e := by
  cases o with
  | del => simp only [unOk, PreOk, delOk_iff, hd, true_implies]
  | inc => simp only [unOk, PreOk, target_iff]
  | dec => simp only [unOk, PreOk, target_iff]
  | _ => simp only [unOk, PreOk]

/-- The priority of the two non-terminals of operators in front. -/
def preLev : NT → Nat
  | .update => 17
  | _ => 16

theorem prefixOp_iff (f : Fl) (k : TK) (o : Un) (l : Nat) :
    prefixOp f k = some (o, l) ↔ ∃ nt, Pre f k o nt ∧ l = preLev nt := by
  constructor
  · intro h
    cases k with
    | op b =>
      cases b with
      | add => cases h; exact ⟨_, .plus f, rfl⟩
      | sub => cases h; exact ⟨_, .neg f, rfl⟩
      | _ => cases h
    | tilde => cases h; exact ⟨_, .rev f, rfl⟩
    | bang => cases h; exact ⟨_, .not f, rfl⟩
    | incr => cases h; exact ⟨_, .inc f, rfl⟩
    | decr => cases h; exact ⟨_, .dec f, rfl⟩
    | delete_ => cases h; exact ⟨_, .del f, rfl⟩
    | void_ => cases h; exact ⟨_, .void f, rfl⟩
    | typeof_ => cases h; exact ⟨_, .typeof f, rfl⟩
    | await_ =>
      simp only [prefixOp] at h
      cases ha : f.awt with
      | false => rw [ha] at h; cases h
      | true =>
        rw [ha] at h
        cases h
        exact ⟨_, .await f ha, rfl⟩
    | _ => cases h
  · rintro ⟨nt, h, rfl⟩
    cases h <;> first | rfl | simp_all [prefixOp, preLev]

theorem strip_eq (e : E) : strip e = bare e := by
  induction e <;> simp_all [strip, bare]

/-- A token that can begin an expression. -/
def starter (k : TK) : Bool :=
  opensOperand k || (match k with | .priv _ => true | _ => false)

/-- The non-terminals of whole expressions. -/
def isExpr : NT → Bool
  | .args | .alist _ | .chain _ => false
  | _ => true

theorem starter_of {d : Dial} {f : Fl} {nt : NT} {u : List Tok} {e : E} (h : G d f nt u e) :
    isExpr nt = true → ∃ t u', u = t :: u' ∧ starter t.k = true := by
  have app : ∀ {u : List Tok} (v : List Tok), (∃ t u', u = t :: u' ∧ starter t.k = true) →
      ∃ t u', u ++ v = t :: u' ∧ starter t.k = true := by
    rintro _ v ⟨t, u', rfl, h⟩
    exact ⟨t, u' ++ v, rfl, h⟩
  induction h with
  | @unit f a b u e hu _ ih =>
    intro _
    apply ih
    revert hu
    cases a <;> cases b <;> simp [Unit, isExpr]
  | atom hk =>
    intro _
    refine ⟨_, _, rfl, ?_⟩
    cases hk <;> rfl
  | ident hk =>
    intro _
    refine ⟨_, _, rfl, ?_⟩
    cases hk <;> rfl
  | paren _ _ => intro _; exact ⟨_, _, rfl, rfl⟩
  | parenComma _ _ _ => intro _; exact ⟨_, _, rfl, rfl⟩
  | dot hn _ _ ih => intro hi; exact app _ (ih hi)
  | dotPriv hn _ ih => intro hi; exact app _ (ih hi)
  | index hn _ _ ih _ =>
    intro hi
    rw [List.append_assoc]
    exact app _ (ih hi)
  | tag hn _ ih => intro hi; exact app _ (ih hi)
  | superDot _ => intro _; exact ⟨_, _, rfl, rfl⟩
  | superIndex _ _ => intro _; exact ⟨_, _, rfl, rfl⟩
  | newArgs _ _ _ _ _ => intro _; exact ⟨_, _, rfl, rfl⟩
  | newBare _ _ _ => intro _; exact ⟨_, _, rfl, rfl⟩
  | newNew _ _ _ => intro _; exact ⟨_, _, rfl, rfl⟩
  | newNewMember _ _ _ _ _ => intro _; exact ⟨_, _, rfl, rfl⟩
  | newOpt _ _ _ ih _ => intro hi; exact app _ (ih hi)
  | call hn _ _ ih _ =>
    intro _
    apply app
    apply ih
    rcases hn with rfl | rfl <;> rfl
  | superCall _ _ => intro _; exact ⟨_, _, rfl, rfl⟩
  | args _ _ => intro hi; cases hi
  | alistEnd => intro hi; cases hi
  | alistLast _ _ => intro hi; cases hi
  | alistLastSpread _ _ => intro hi; cases hi
  | alistMore _ _ _ _ => intro hi; cases hi
  | alistMoreSpread _ _ _ _ => intro hi; cases hi
  | opt hn _ _ ih _ =>
    intro _
    apply app
    apply ih
    rcases hn with rfl | rfl | rfl <;> rfl
  | chArgs _ _ => intro hi; cases hi
  | chIndex _ _ => intro hi; cases hi
  | chName _ => intro hi; cases hi
  | chPriv => intro hi; cases hi
  | chMoreArgs _ _ _ _ => intro hi; cases hi
  | chMoreIndex _ _ _ _ => intro hi; cases hi
  | chMoreName _ _ _ => intro hi; cases hi
  | chMorePriv _ _ => intro hi; cases hi
  | chDotArgs _ _ _ _ _ => intro hi; cases hi
  | chDotIndex _ _ _ _ _ => intro hi; cases hi
  | post _ _ ih => intro _; exact app _ (ih rfl)
  | pre hk _ _ _ =>
    intro _
    refine ⟨_, _, rfl, ?_⟩
    cases hk <;> rfl
  | bin hr _ _ _ ih _ =>
    intro _
    apply app
    apply ih
    cases hr <;> rfl
  | privIn _ _ _ => intro _; exact ⟨_, _, rfl, rfl⟩
  | cond _ _ _ ih _ _ =>
    intro _
    rw [List.append_assoc]
    exact app _ (ih rfl)
  | assign _ _ _ ih _ => intro _; exact app _ (ih rfl)
  | arrow hk _ _ =>
    intro _
    refine ⟨_, _, rfl, ?_⟩
    cases hk.1 <;> rfl
  | yield _ => intro _; exact ⟨_, _, rfl, rfl⟩
  | yieldE _ _ _ _ _ => intro _; exact ⟨_, _, rfl, rfl⟩
  | yieldStar _ _ _ => intro _; exact ⟨_, _, rfl, rfl⟩
  | comma _ _ ih _ => intro _; exact app _ (ih rfl)

/-- A tree that is a single atom or name comes from a single token. -/
theorem single_aux {d : Dial} {f : Fl} {nt : NT} {u : List Tok} {e : E} (h : G d f nt u e) :
    ∀ k, e = .atom k ∨ e = .id k → isExpr nt = true ∧ ∃ n, u = [⟨k, n⟩] := by
  induction h with
  | @unit f a b u e hu _ ih =>
    intro k hk
    refine ⟨?_, (ih k hk).2⟩
    revert hu
    cases a <;> cases b <;> simp [Unit, isExpr]
  | atom _ => intro k hk; rcases hk with hk | hk <;> cases hk; exact ⟨rfl, _, rfl⟩
  | ident _ => intro k hk; rcases hk with hk | hk <;> cases hk; exact ⟨rfl, _, rfl⟩
  | @alistEnd f h n => intro k hk; cases h <;> rcases hk with hk | hk <;> cases hk
  | args _ ih => intro k hk; cases (ih k hk).1
  | _ => intro k hk; rcases hk with hk | hk <;> cases hk

theorem single_of {d : Dial} {f : Fl} {nt : NT} {u : List Tok} {e : E} (h : G d f nt u e) (k : TK)
    (hk : e = .atom k ∨ e = .id k) : ∃ n, u = [⟨k, n⟩] :=
  (single_aux h k hk).2

theorem noFold_append : ∀ {u v : List Tok}, NoFold (u ++ v) → NoFold u ∧ NoFold v
  | [], _, h => ⟨trivial, h⟩
  | [a], v, h => by
    refine ⟨trivial, ?_⟩
    cases v with
    | nil => trivial
    | cons b r => exact h.2.2
  | a :: b :: r, v, h => by
    obtain ⟨h1, h2, h3⟩ := h
    have := noFold_append (u := b :: r) (v := v) h3
    exact ⟨⟨h1, h2, this.1⟩, this.2⟩

theorem noFold_tail {t : Tok} {u : List Tok} (h : NoFold (t :: u)) : NoFold u :=
  (noFold_append (u := [t]) h).2

/-- The token behind a constant is none of the deciding operators. -/
theorem noFold_truth {k : TK} {n : Bool} {t : Tok} {r : List Tok} {b : Bool}
    (h : NoFold ([⟨k, n⟩] ++ t :: r)) (ht : truth (.atom k) = some b) :
    t.k ≠ .op .and ∧ t.k ≠ .op .or ∧ t.k ≠ .op .ques ∧ t.k ≠ .quest := by
  apply h.1
  cases k with
  | lit t n => exact .inl ⟨t, n, rfl⟩
  | tru => exact .inr (.inl rfl)
  | fls => exact .inr (.inr (.inl rfl))
  | null => exact .inr (.inr (.inr rfl))
  | _ => cases ht

theorem truth_atom {e : E} {b : Bool} (h : truth e = some b) : ∃ k, e = .atom k := by
  cases e with
  | atom k => exact ⟨k, rfl⟩
  | _ => cases h

theorem truth_none {d : Dial} {f : Fl} {nt : NT} {u r : List Tok} {a : E} {t : Tok}
    (hg : G d f nt u a) (hf : NoFold (u ++ t :: r))
    (ht : t.k = .op .and ∨ t.k = .op .or ∨ t.k = .op .ques ∨ t.k = .quest) : truth a = none := by
  cases hb : truth a with
  | none => rfl
  | some b =>
    exfalso
    obtain ⟨k, rfl⟩ := truth_atom hb
    obtain ⟨n, rfl⟩ := single_of hg k (.inl rfl)
    obtain ⟨h1, h2, h3, h4⟩ := noFold_truth hf hb
    rcases ht with h | h | h | h
    · exact h1 h
    · exact h2 h
    · exact h3 h
    · exact h4 h

theorem mkBin_eq {d : Dial} {f : Fl} {nt : NT} {u r : List Tok} {a b : E} {o : Bin} {n : Bool}
    (hg : G d f nt u a) (hf : NoFold (u ++ ⟨.op o, n⟩ :: r)) : mkBin o a b = .bin o a b := by
  cases o with
  | and => simp only [mkBin, truth_none hg hf (.inl rfl)]
  | or => simp only [mkBin, truth_none hg hf (.inr (.inl rfl))]
  | ques =>
    simp only [mkBin]
    rw [if_neg]
    rintro (h | h)
    · have := truth_none hg hf (.inr (.inr (.inl rfl)))
      rw [h] at this
      cases this
    · subst h
      obtain ⟨n, rfl⟩ := single_of hg _ (.inr rfl)
      exact hf.2.1 rfl rfl
  | _ => rfl

theorem mkCond_eq {d : Dial} {f : Fl} {nt : NT} {u r : List Tok} {c a b : E} {n : Bool}
    (hg : G d f nt u c) (hf : NoFold (u ++ ⟨.quest, n⟩ :: r)) : mkCond c a b = .cond c a b := by
  simp only [mkCond, truth_none hg hf (.inr (.inr (.inr rfl)))]

end Verif.Expr

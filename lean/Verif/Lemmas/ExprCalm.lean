import Verif.Lemmas.ExprStd

/-
Exchanging constants keeps derivations.
-/

namespace Verif.Expr

theorem calm_word {k : TK} (h : Word k) : Word (calm k) := by
  cases h with
  | id n =>
    match n with
    | 0 => exact .id 3
    | n + 1 => exact .id (n + 1)
  | _ => constructor

theorem calm_atomic {k : TK} (h : Atomic k) : Atomic (calm k) := by
  cases h <;> constructor

theorem calm_idRef {f : Fl} {k : TK} (h : IdRef f k) : IdRef f (calm k) := by
  cases h with
  | id n =>
    match n with
    | 0 => exact .id 3
    | n + 1 => exact .id (n + 1)
  | yield h1 h2 => exact .yield h1 h2
  | await h => exact .await h

theorem calm_bad {k : TK} (h : k ≠ .id 1 ∧ k ≠ .id 2) : calm k ≠ .id 1 ∧ calm k ≠ .id 2 := by
  unfold calm
  split <;> first | exact h | simp

theorem calm_bindId {f : Fl} {k : TK} (h : BindId f k) : BindId f (calm k) :=
  ⟨calm_idRef h.1, fun hs => calm_bad (h.2 hs)⟩

theorem calm_simple {f : Fl} {e : E} (h : Simple f e) : Simple f (calmE e) := by
  induction h with
  | id h => exact .id fun hs => calm_bad (h hs)
  | paren _ ih => exact .paren ih
  | _ => constructor

theorem calm_noDelete {e : E} (h : NoDelete (calmE e)) : NoDelete e := by
  induction e with
  | paren e ih =>
    cases h with
    | paren h => exact .paren (ih h)
  | opt e =>
    cases e <;> first | exact .optPriv _ _ | cases h
  | id k => exact .id k
  | privMember e n => exact .priv e n
  | _ => cases h

theorem calm_bare (e : E) : calmE (bare e) = bare (calmE e) := by
  induction e with
  | paren e ih => simpa [bare, calmE] using ih
  | _ => rfl

theorem calm_pre {f : Fl} {k : TK} {o : Un} {nt : NT} (h : Pre f k o nt) : calm k = k := by
  cases h <;> rfl

def calmN : NT → NT
  | .chain b => .chain (calmE b)
  | nt => nt

theorem calmN_expr {nt : NT} (h : isExpr nt = true) : calmN nt = nt := by
  cases nt <;> first | rfl | cases h

theorem calmT_append (u v : List Tok) : calmT (u ++ v) = calmT u ++ calmT v := by simp [calmT]

theorem calmT_cons (t : Tok) (u : List Tok) : calmT (t :: u) = ⟨calm t.k, t.nl⟩ :: calmT u := rfl

theorem calmT_nil : calmT [] = [] := rfl

theorem calm_derives {f : Fl} {nt : NT} {u : List Tok} {e : E} (h : G Std f nt u e) :
    G Std f (calmN nt) (calmT u) (calmE e) := by
  induction h with
  | unit hu _ ih =>
    have h1 := unit_isExpr hu
    rw [calmN_expr h1.1]
    rw [calmN_expr h1.2] at ih
    exact .unit hu ih
  | atom h => exact .atom (calm_atomic h)
  | ident h => exact .ident (calm_idRef h)
  | @paren f u e n m _ ih =>
    have := G.paren (n := n) (m := m) ih
    simpa [calmT_append, calmT_cons, calmT_nil, calm, calmE, calmN] using this
  | parenComma h => cases h
  | @dot f nt u e k n m hn _ hw ih1 =>
    rw [calmN_expr (mc_expr hn)] at ih1
    rw [calmN_expr (mc_expr hn)]
    have := G.dot (n := n) (m := m) hn ih1 (calm_word hw)
    simpa [calmT_append, calmT_cons, calmT_nil, calm, calmE, calmN] using this
  | @dotPriv f nt u e k n m hn _ ih1 =>
    rw [calmN_expr (mc_expr hn)] at ih1
    rw [calmN_expr (mc_expr hn)]
    have := G.dotPriv (n := n) (m := m) (k := k) hn ih1
    simpa [calmT_append, calmT_cons, calmT_nil, calm, calmE, calmN] using this
  | @index f nt u v e i n m hn _ _ ih1 ih2 =>
    rw [calmN_expr (mc_expr hn)] at ih1
    rw [calmN_expr (mc_expr hn)]
    have := G.index (n := n) (m := m) hn ih1 ih2
    simpa [calmT_append, calmT_cons, calmT_nil, calm, calmE, calmN] using this
  | @tag f nt u e k n hn _ ih1 =>
    rw [calmN_expr (mc_expr hn)] at ih1
    rw [calmN_expr (mc_expr hn)]
    have := G.tag (n := n) (k := k) hn ih1
    simpa [calmT_append, calmT_cons, calmT_nil, calm, calmE, calmN] using this
  | superDot hw =>
    exact .superDot (calm_word hw)
  | @superIndex f v i n m l _ ih1 =>
    have := G.superIndex (n := n) (m := m) (l := l) ih1
    simpa [calmT_append, calmT_cons, calmT_nil, calm, calmE, calmN] using this
  | @newArgs f u v e a n _ _ _ ih1 ih2 =>
    have := G.newArgs (n := n) (d := Std) nofun ih1 ih2
    simpa [calmT_append, calmT_cons, calmT_nil, calm, calmE, calmN] using this
  | @newBare f u e n _ _ ih1 =>
    have := G.newBare (n := n) (d := Std) nofun ih1
    simpa [calmT_append, calmT_cons, calmT_nil, calm, calmE, calmN] using this
  | @newNew f u e n _ _ ih1 =>
    have := G.newNew (n := n) (d := Std) rfl ih1
    simpa [calmT_append, calmT_cons, calmT_nil, calm, calmE, calmN] using this
  | newNewMember h =>
    cases h
  | newOpt h =>
    cases h
  | @call f nt u v e a hn _ _ ih1 ih2 =>
    rw [calmN_expr (mc_expr hn)] at ih1
    have := G.call hn ih1 ih2
    simpa [calmT_append, calmT_cons, calmT_nil, calm, calmE, calmN] using this
  | @superCall f v a n _ ih1 =>
    have := G.superCall (n := n) ih1
    simpa [calmT_append, calmT_cons, calmT_nil, calm, calmE, calmN] using this
  | @args f v a n _ ih1 =>
    have := G.args (n := n) ih1
    simpa [calmT_append, calmT_cons, calmT_nil, calm, calmE, calmN] using this
  | @alistEnd f h n =>
    have := G.alistEnd (d := Std) (f := f) (h := h) (n := n)
    cases h <;> exact this
  | @alistLast f h n u e _ ih1 =>
    have := G.alistLast (h := h) (n := n) ih1
    simpa [calmT_append, calmT_cons, calmT_nil, calm, calmE, calmN] using this
  | @alistLastSpread f h n m u e _ ih1 =>
    have := G.alistLastSpread (h := h) (n := n) (m := m) ih1
    simpa [calmT_append, calmT_cons, calmT_nil, calm, calmE, calmN] using this
  | @alistMore f h n u v e a _ _ ih1 ih2 =>
    have := G.alistMore (h := h) (n := n) ih1 ih2
    simpa [calmT_append, calmT_cons, calmT_nil, calm, calmE, calmN] using this
  | @alistMoreSpread f h n m u v e a _ _ ih1 ih2 =>
    have := G.alistMoreSpread (h := h) (n := n) (m := m) ih1 ih2
    simpa [calmT_append, calmT_cons, calmT_nil, calm, calmE, calmN] using this
  | @opt f nt u v e c n hn _ _ ih1 ih2 =>
    rw [calmN_expr (mco_expr hn)] at ih1
    have := G.opt (n := n) hn ih1 ih2
    simpa [calmT_append, calmT_cons, calmT_nil, calm, calmE, calmN] using this
  | @chArgs f b a v _ ih1 =>
    have := G.chArgs (b := calmE b) ih1
    simpa [calmT_append, calmT_cons, calmT_nil, calm, calmE, calmN] using this
  | @chIndex f b i v n m _ ih1 =>
    have := G.chIndex (b := calmE b) (n := n) (m := m) ih1
    simpa [calmT_append, calmT_cons, calmT_nil, calm, calmE, calmN] using this
  | chName h =>
    exact .chName (calm_word h)
  | chPriv =>
    exact .chPriv
  | @chMoreArgs f b c a u v _ _ ih1 ih2 =>
    have := G.chMoreArgs ih1 ih2
    simpa [calmT_append, calmT_cons, calmT_nil, calm, calmE, calmN] using this
  | @chMoreIndex f b c i u v n m _ _ ih1 ih2 =>
    have := G.chMoreIndex (n := n) (m := m) ih1 ih2
    simpa [calmT_append, calmT_cons, calmT_nil, calm, calmE, calmN] using this
  | @chMoreName f b c u k n m _ h ih1 =>
    have := G.chMoreName (n := n) (m := m) ih1 (calm_word h)
    simpa [calmT_append, calmT_cons, calmT_nil, calm, calmE, calmN] using this
  | @chMorePriv f b c u k n m _ ih1 =>
    have := G.chMorePriv (k := k) (n := n) (m := m) ih1
    simpa [calmT_append, calmT_cons, calmT_nil, calm, calmE, calmN] using this
  | chDotArgs h =>
    cases h
  | chDotIndex h =>
    cases h
  | @post f u e i _ hs ih1 =>
    have := G.post (i := i) ih1 (calm_simple hs)
    cases i <;> simpa [calmT_append, calmT_cons, calmT_nil, calm, calmE, calmN] using this
  | @pre f u e k o nt n hk _ ho ih1 =>
    have h1 : isExpr nt = true := by cases hk <;> rfl
    rw [calmN_expr h1, calmT_cons, calm_pre hk]
    refine .pre hk ih1 ?_
    cases o with
    | del => exact fun hs => ⟨fun h => (ho hs).1 (calm_noDelete h), nofun⟩
    | inc => exact calm_simple ho
    | dec => exact calm_simple ho
    | _ => trivial
  | @bin f u v a b o nt l r n hr hin _ _ ih1 ih2 =>
    have h1 := row_isExpr hr
    rw [calmN_expr h1.2.1] at ih1
    rw [calmN_expr h1.2.2] at ih2
    rw [calmN_expr h1.1]
    have := G.bin (n := n) hr hin ih1 ih2
    simpa [calmT_append, calmT_cons, calmT_nil, calm, calmE, calmN] using this
  | @privIn f v b k n m hin _ ih1 =>
    have := G.privIn (k := k) (n := n) (m := m) hin ih1
    simpa [calmT_append, calmT_cons, calmT_nil, calm, calmE, calmN] using this
  | @cond f u v w c a b n m _ _ _ ih1 ih2 ih3 =>
    have := G.cond (n := n) (m := m) ih1 ih2 ih3
    simpa [calmT_append, calmT_cons, calmT_nil, calm, calmE, calmN] using this
  | @assign f u v a b k n _ hs _ ih1 ih2 =>
    have := G.assign (k := k) (n := n) ih1 (calm_simple hs) ih2
    have hb : calmE (lhsTree k a) = lhsTree k (calmE a) := by
      unfold lhsTree
      split <;> simp [calm_bare]
    simpa [calmT_append, calmT_cons, calmT_nil, calm, calmE, calmN, hb] using this
  | @arrow f v b k n hk _ ih1 =>
    have := G.arrow (n := n) (calm_bindId hk) ih1
    simpa [calmT_append, calmT_cons, calmT_nil, calm, calmE, calmN] using this
  | yield hy =>
    exact .yield hy
  | @yieldE f v e n t hy hn _ _ ih1 =>
    exact .yieldE hy hn nofun ih1
  | @yieldStar f v e n hy _ ih1 =>
    have := G.yieldStar (n := n) hy ih1
    simpa [calmT_append, calmT_cons, calmT_nil, calm, calmE, calmN] using this
  | @comma f u v a b n _ _ ih1 ih2 =>
    have := G.comma (n := n) ih1 ih2
    simpa [calmT_append, calmT_cons, calmT_nil, calm, calmE, calmN] using this

theorem calm_noFold : ∀ u : List Tok, NoFold (calmT u)
  | [] => trivial
  | [_] => trivial
  | a :: b :: r => by
    refine ⟨?_, ?_, calm_noFold (b :: r)⟩
    · intro h
      exfalso
      dsimp only at h
      unfold calm at h
      split at h <;> simp_all
    · intro h
      exfalso
      dsimp only at h
      unfold calm at h
      split at h <;> simp_all

theorem calm_eq {k k' : TK} (hk : k' = .new_ ∨ k' = .super_ ∨ k' = .yield_ ∨ k' = .delete_ ∨ k' = .quesDot
    ∨ ∃ n, k' = .priv n) (h : calm k = k') : k = k' := by
  unfold calm at h
  split at h
  · subst h; simp at hk
  · subst h; simp at hk
  · subst h; simp at hk
  · subst h; simp at hk
  · subst h; simp at hk
  · exact h

theorem calm_beside {u : List Tok} {a b : TK → Prop} (ha : ∀ k, a (calm k) → a k)
    (hb : ∀ k, b (calm k) → b k) (h : Beside (calmT u) a b) : Beside u a b := by
  obtain ⟨x, s, t, y, h1, h2, h3⟩ := h
  unfold calmT at h1
  rw [List.map_eq_append_iff] at h1
  obtain ⟨x', v, rfl, _, h1⟩ := h1
  rw [List.map_eq_cons_iff] at h1
  obtain ⟨s', v', rfl, rfl, h1⟩ := h1
  rw [List.map_eq_cons_iff] at h1
  obtain ⟨t', y', rfl, rfl, _⟩ := h1
  exact ⟨x', s', t', y', rfl, ha _ h2, hb _ h3⟩

theorem calm_has {u : List Tok} {k : TK} (hk : ∀ k', calm k' = k → k' = k) (h : Has (calmT u) k) :
    Has u k := by
  obtain ⟨t, ht, h⟩ := h
  unfold calmT at ht
  rw [List.mem_map] at ht
  obtain ⟨t', h1, rfl⟩ := ht
  exact ⟨t', h1, hk _ h⟩

theorem calm_plain {f : Fl} {u : List Tok} (h : Plain f u) : Plain f (calmT u) := by
  refine ⟨fun h' => h.new (calm_beside ?_ ?_ h'), fun h' => h.yield (calm_beside ?_ ?_ h'),
    fun h1 h2 h3 => h.del h1 (calm_has ?_ h2) (calm_has ?_ h3)⟩
  · intro k hk; exact calm_eq (.inl rfl) hk
  · intro k hk
    rcases hk with hk | hk
    · exact .inl (calm_eq (.inl rfl) hk)
    · exact .inr (calm_eq (.inr (.inl rfl)) hk)
  · intro k hk; exact calm_eq (by simp) hk
  · rintro k ⟨n, hk⟩; exact ⟨n, calm_eq (by simp) hk⟩
  · intro k hk; exact calm_eq (by simp) hk
  · intro k hk; exact calm_eq (by simp) hk

/-! ### `new` and optional chains -/

theorem no_opt {f : Fl} {nt : NT} {u : List Tok} {e : E} (h : G Std f nt u e) :
    nt = .primary ∨ nt = .member ∨ nt = .callee ∨ nt = .newX → ∀ c, e ≠ .opt c := by
  induction h with
  | @unit f a b u e hu _ ih =>
    intro h
    apply ih
    rcases h with rfl | rfl | rfl | rfl <;> cases b <;> simp [Unit] at hu <;> simp
  | opt => intro h; rcases h with h | h | h | h <;> cases h
  | newOpt h => cases h
  | args => intro h; rcases h with h | h | h | h <;> cases h
  | alistEnd => intro h; rcases h with h | h | h | h <;> cases h
  | _ => intro _ c; simp

theorem new_no_opt {f : Fl} {nt : NT} {u : List Tok} {e : E} (h : G Std f nt u e) :
    ∀ c a, e ≠ .newE (.opt c) a := by
  induction h with
  | unit _ _ ih => exact ih
  | newArgs _ hg =>
    intro c a he
    cases he
    exact no_opt hg (by simp) _ rfl
  | newBare _ hg =>
    intro c a he
    cases he
    exact no_opt hg (by simp) _ rfl
  | newNew _ hg =>
    intro c a he
    cases he
    exact no_opt hg (by simp) _ rfl
  | newNewMember h => cases h
  | args _ ih => exact ih
  | @alistEnd f h n => intro c a; cases h <;> simp
  | _ => intro c a; simp

end Verif.Expr

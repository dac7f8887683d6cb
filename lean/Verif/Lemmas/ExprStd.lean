import Verif.Lemmas.ExprTok

/-
When a derivation of one dialect of the grammar is one of another.
-/

namespace Verif.Expr

theorem Beside.mono {x u y : List Tok} {a b : TK → Prop} (h : Beside u a b) :
    Beside (x ++ u ++ y) a b := by
  obtain ⟨x', s, t, y', rfl, h1, h2⟩ := h
  exact ⟨x ++ x', s, t, y' ++ y, by simp, h1, h2⟩

theorem Has.mono {x u y : List Tok} {k : TK} (h : Has u k) : Has (x ++ u ++ y) k := by
  obtain ⟨t, h1, h2⟩ := h
  exact ⟨t, by simp [h1], h2⟩

theorem Plain.part {f : Fl} (x : List Tok) {u : List Tok} (y : List Tok) (h : Plain f (x ++ u ++ y)) :
    Plain f u :=
  ⟨fun h' => h.new h'.mono, fun h' => h.yield h'.mono, fun h1 h2 h3 => h.del h1 h2.mono h3.mono⟩

theorem Plain.left {f : Fl} {u v : List Tok} (h : Plain f (u ++ v)) : Plain f u :=
  Plain.part [] v (by simpa using h)

theorem Plain.right {f : Fl} {u v : List Tok} (h : Plain f (u ++ v)) : Plain f v :=
  Plain.part u [] (by simpa using h)

theorem Plain.tail {f : Fl} {t : Tok} {v : List Tok} (h : Plain f (t :: v)) : Plain f v :=
  Plain.right (u := [t]) h

theorem Plain.flags {f f' : Fl} {u : List Tok} (h : Plain f u)
    (hs : f'.strict = f.strict) : Plain f' u :=
  ⟨h.new, h.yield, fun h1 => h.del (by rw [← hs]; exact h1)⟩

theorem Careful.part (x : List Tok) {u : List Tok} (y : List Tok) (h : Careful (x ++ u ++ y)) :
    Careful u :=
  ⟨fun h' => h.comma h'.mono, fun h' => h.dot h'.mono, fun h' => h.new h'.mono,
    fun h2 h3 => h.opt h2.mono h3.mono⟩

theorem Careful.left {u v : List Tok} (h : Careful (u ++ v)) : Careful u :=
  Careful.part [] v (by simpa using h)

theorem Careful.right {u v : List Tok} (h : Careful (u ++ v)) : Careful v :=
  Careful.part u [] (by simpa using h)

theorem Careful.tail {t : Tok} {v : List Tok} (h : Careful (t :: v)) : Careful v :=
  Careful.right (u := [t]) h

theorem first_some {u : List Tok} {k : TK} (h : first u = some k) : ∃ t v, u = t :: v ∧ t.k = k := by
  cases u with
  | nil => cases h
  | cons t v => exact ⟨t, v, rfl, by simpa [first] using h⟩

/-- A tree that ends in an optional chain comes from a text with `?.`. -/
theorem noDeleteOpt_has {d : Dial} {f : Fl} {nt : NT} {u : List Tok} {e : E} (h : G d f nt u e) :
    NoDeleteOpt e → Has u .quesDot := by
  induction h with
  | unit _ _ ih => exact ih
  | paren _ ih =>
    intro h
    cases h with
    | paren h => simpa using Has.mono (x := [_]) (y := [_]) (ih h)
  | parenComma _ _ ih =>
    intro h
    cases h with
    | paren h => simpa using Has.mono (x := [_]) (y := [_, _]) (ih h)
  | @newOpt f u v e c n => intro _; exact ⟨⟨.quesDot, n⟩, by simp, rfl⟩
  | @opt f nt u v e c n => intro _; exact ⟨⟨.quesDot, n⟩, by simp, rfl⟩
  | args _ ih => intro h; simpa using Has.mono (x := [_]) (y := []) (ih h)
  | @alistEnd f h n => intro h'; cases h <;> cases h'
  | _ => intro h; cases h

theorem newX_inv {f : Fl} {u : List Tok} {e : E} (h : G Std f .newX u e) (hu : first u ≠ some .new_) :
    G Std f .callee u e := by
  cases h with
  | @unit _ _ b _ _ hu hg =>
    cases b <;> simp [Unit] at hu
    exact .unit rfl hg
  | newBare => exact absurd rfl hu
  | newNew => exact absurd rfl hu
  | dot h => rcases h with h | h <;> cases h
  | dotPriv h => rcases h with h | h <;> cases h
  | index h => rcases h with h | h <;> cases h
  | tag h => rcases h with h | h <;> cases h
  | pre h => cases h
  | bin h => cases h

theorem std_sub {f : Fl} {nt : NT} {u : List Tok} {e : E} (h : G Std f nt u e) :
    Plain f u → G Sub f nt u e := by
  have hnew : ∀ {f : Fl} {n : Bool} {u v : List Tok}, Plain f (⟨.new_, n⟩ :: u ++ v) →
      first u ≠ some .new_ ∧ first u ≠ some .super_ := by
    intro f n u v hp
    constructor
    · intro h
      obtain ⟨t, w, rfl, hk⟩ := first_some h
      exact hp.new ⟨[], _, t, w ++ v, rfl, rfl, .inl hk⟩
    · intro h
      obtain ⟨t, w, rfl, hk⟩ := first_some h
      exact hp.new ⟨[], _, t, w ++ v, rfl, rfl, .inr hk⟩
  have hnew0 : ∀ {f : Fl} {n : Bool} {u : List Tok}, Plain f (⟨.new_, n⟩ :: u) →
      first u ≠ some .new_ ∧ first u ≠ some .super_ := by
    intro f n u hp
    exact hnew (v := []) (by simpa using hp)
  induction h with
  | unit hu _ ih => intro hp; exact .unit hu (ih hp)
  | atom h => intro _; exact .atom h
  | ident h => intro _; exact .ident h
  | paren _ ih => intro hp; exact .paren (ih (hp.tail.left.flags rfl))
  | parenComma h => cases h
  | dot hn _ hw ih => intro hp; exact .dot hn (ih hp.left) hw
  | dotPriv hn _ ih => intro hp; exact .dotPriv hn (ih hp.left)
  | index hn _ _ ih1 ih2 =>
    intro hp; exact .index hn (ih1 hp.left.left) (ih2 (hp.left.right.tail.flags rfl))
  | tag hn _ ih => intro hp; exact .tag hn (ih hp.left)
  | superDot hw => intro _; exact .superDot hw
  | superIndex _ ih => intro hp; exact .superIndex (ih (hp.tail.tail.left.flags rfl))
  | newArgs _ _ _ ih1 ih2 =>
    intro hp; exact .newArgs (fun _ => hnew hp) (ih1 hp.left.tail) (ih2 hp.right)
  | newBare _ _ ih => intro hp; exact .newBare (fun _ => hnew0 hp) (ih hp.tail)
  | newNew _ hg ih =>
    intro hp
    refine .newBare (fun _ => hnew0 hp) ?_
    have h1 := ih hp.tail
    cases h1 with
    | @unit _ _ b _ _ hu hg =>
      cases b <;> simp [Unit] at hu
      exact .unit rfl hg
    | newBare => exact absurd rfl (hnew0 hp).1
    | newNew h => cases h
    | dot h => rcases h with h | h <;> cases h
    | dotPriv h => rcases h with h | h <;> cases h
    | index h => rcases h with h | h <;> cases h
    | tag h => rcases h with h | h <;> cases h
    | pre h => cases h
    | bin h => cases h
  | newNewMember h => cases h
  | newOpt h => cases h
  | call hn _ _ ih1 ih2 => intro hp; exact .call hn (ih1 hp.left) (ih2 hp.right)
  | superCall _ ih => intro hp; exact .superCall (ih hp.tail)
  | args _ ih => intro hp; exact .args (ih hp.tail)
  | alistEnd => intro _; exact .alistEnd
  | alistLast _ ih => intro hp; exact .alistLast (ih (hp.left.flags rfl))
  | alistLastSpread _ ih => intro hp; exact .alistLastSpread (ih (hp.tail.left.flags rfl))
  | alistMore _ _ ih1 ih2 =>
    intro hp; exact .alistMore (ih1 (hp.left.flags rfl)) (ih2 hp.right.tail)
  | alistMoreSpread _ _ ih1 ih2 =>
    intro hp; exact .alistMoreSpread (ih1 (hp.tail.left.flags rfl)) (ih2 hp.tail.right.tail)
  | opt hn _ _ ih1 ih2 => intro hp; exact .opt hn (ih1 hp.left) (ih2 hp.right.tail)
  | chArgs _ ih => intro hp; exact .chArgs (ih hp)
  | chIndex _ ih => intro hp; exact .chIndex (ih (hp.tail.left.flags rfl))
  | chName h => intro _; exact .chName h
  | chPriv => intro _; exact .chPriv
  | chMoreArgs _ _ ih1 ih2 => intro hp; exact .chMoreArgs (ih1 hp.left) (ih2 hp.right)
  | chMoreIndex _ _ ih1 ih2 =>
    intro hp; exact .chMoreIndex (ih1 hp.left.left) (ih2 (hp.left.right.tail.flags rfl))
  | chMoreName _ h ih => intro hp; exact .chMoreName (ih hp.left) h
  | chMorePriv _ ih => intro hp; exact .chMorePriv (ih hp.left)
  | chDotArgs h => cases h
  | chDotIndex h => cases h
  | post _ hs ih => intro hp; exact .post (ih hp.left) hs
  | @pre f u e k o nt n hk hg ho ih =>
    intro hp
    refine .pre hk (ih hp.tail) ?_
    cases o with
    | del =>
      intro hs
      refine ⟨(ho hs).1, fun _ h => ?_⟩
      have hkd : k = .delete_ := by cases hk; rfl
      have hq : Has (⟨k, n⟩ :: u) .quesDot := by
        simpa using Has.mono (x := [⟨k, n⟩]) (y := []) (noDeleteOpt_has hg h)
      exact hp.del hs ⟨⟨k, n⟩, by simp, hkd⟩ hq
    | _ => exact ho
  | bin hr hin _ _ ih1 ih2 => intro hp; exact .bin hr hin (ih1 hp.left) (ih2 hp.right.tail)
  | privIn hin _ ih => intro hp; exact .privIn hin (ih hp.tail.tail)
  | cond _ _ _ ih1 ih2 ih3 =>
    intro hp
    exact .cond (ih1 hp.left.left) (ih2 (hp.left.right.tail.flags rfl)) (ih3 hp.right.tail)
  | assign _ hs _ ih1 ih2 => intro hp; exact .assign (ih1 hp.left) hs (ih2 hp.right.tail)
  | arrow hk _ ih => intro hp; exact .arrow hk (ih (hp.tail.tail.flags rfl))
  | yield hy => intro _; exact .yield hy
  | @yieldE f v e n t hy hn _ _ ih =>
    intro hp
    refine .yieldE hy hn (fun _ k hk => ?_) (ih hp.tail)
    exact hp.yield ⟨[], _, t, v, rfl, rfl, k, hk⟩
  | yieldStar hy _ ih => intro hp; exact .yieldStar hy (ih hp.tail.tail)
  | comma _ _ ih1 ih2 => intro hp; exact .comma (ih1 hp.left) (ih2 hp.right.tail)

theorem args_head {d : Dial} {f : Fl} {u : List Tok} {e : E} (h : G d f .args u e) :
    ∃ n v, u = ⟨.lpar, n⟩ :: v := by
  cases h with
  | unit hu => simp [Unit] at hu
  | args => exact ⟨_, _, rfl⟩
  | dot h => rcases h with h | h <;> cases h
  | dotPriv h => rcases h with h | h <;> cases h
  | index h => rcases h with h | h <;> cases h
  | tag h => rcases h with h | h <;> cases h
  | pre h => cases h
  | bin h => cases h

/-- `new` with a callee that holds an optional chain holds `?.`; without one the
derivation has no such production. -/
theorem super_std {f : Fl} {nt : NT} {u : List Tok} {e : E} (h : G Super f nt u e) :
    (nt = .callee → ¬ Has u .quesDot) → Careful u → G Std f nt u e := by
  have mc : ∀ {nt : NT} {P : Prop}, nt = .member ∨ nt = .call → nt = .callee → P := by
    intro nt P h h'
    subst h'
    rcases h with h | h <;> cases h
  have mco : ∀ {nt : NT} {P : Prop}, nt = .member ∨ nt = .call ∨ nt = .optional → nt = .callee → P := by
    intro nt P h h'
    subst h'
    rcases h with h | h | h <;> cases h
  have hnew : ∀ {n : Bool} {u v : List Tok}, Careful (⟨.new_, n⟩ :: u ++ v) → ¬ Has u .quesDot := by
    intro n u v hc hq
    exact hc.opt ⟨⟨.new_, n⟩, by simp, rfl⟩ (Has.mono (x := [_]) (y := v) hq)
  have hnew0 : ∀ {n : Bool} {u : List Tok}, Careful (⟨.new_, n⟩ :: u) → ¬ Has u .quesDot := by
    intro n u hc
    exact hnew (v := []) (by simpa using hc)
  induction h with
  | @unit f a b u e hu _ ih =>
    intro _ hc
    refine .unit hu (ih ?_ hc)
    intro hb
    subst hb
    cases a <;> simp [Unit] at hu
  | atom h => intro _ _; exact .atom h
  | ident h => intro _ _; exact .ident h
  | paren _ ih => intro _ hc; exact .paren (ih nofun hc.tail.left)
  | @parenComma f u e n m l => intro _ hc; exact (hc.comma ⟨⟨.lpar, n⟩ :: u, _, _, [], rfl, rfl, rfl⟩).elim
  | dot hn _ hw ih => intro _ hc; exact .dot hn (ih (mc hn) hc.left) hw
  | dotPriv hn _ ih => intro _ hc; exact .dotPriv hn (ih (mc hn) hc.left)
  | index hn _ _ ih1 ih2 =>
    intro _ hc; exact .index hn (ih1 (mc hn) hc.left.left) (ih2 nofun hc.left.right.tail)
  | tag hn _ ih => intro _ hc; exact .tag hn (ih (mc hn) hc.left)
  | superDot hw => intro _ _; exact .superDot hw
  | superIndex _ ih => intro _ hc; exact .superIndex (ih nofun hc.tail.tail.left)
  | newArgs _ _ _ ih1 ih2 =>
    intro _ hc
    exact .newArgs nofun (ih1 (fun _ => hnew hc) hc.left.tail) (ih2 nofun hc.right)
  | newBare _ _ ih =>
    intro _ hc
    exact .newBare nofun (ih (fun _ => hnew0 hc) hc.tail)
  | newNew h => cases h
  | newNewMember _ h =>
    intro _ hc
    obtain ⟨t, w, rfl, hk⟩ := first_some h
    exact (hc.new ⟨[], _, t, w, rfl, rfl, hk⟩).elim
  | @newOpt f u v e c n =>
    intro hq _
    exact (hq rfl ⟨⟨.quesDot, n⟩, by simp, rfl⟩).elim
  | call hn _ _ ih1 ih2 => intro _ hc; exact .call hn (ih1 (mc hn) hc.left) (ih2 nofun hc.right)
  | superCall _ ih => intro _ hc; exact .superCall (ih nofun hc.tail)
  | args _ ih => intro _ hc; exact .args (ih nofun hc.tail)
  | alistEnd => intro _ _; exact .alistEnd
  | alistLast _ ih => intro _ hc; exact .alistLast (ih nofun hc.left)
  | alistLastSpread _ ih => intro _ hc; exact .alistLastSpread (ih nofun hc.tail.left)
  | alistMore _ _ ih1 ih2 => intro _ hc; exact .alistMore (ih1 nofun hc.left) (ih2 nofun hc.right.tail)
  | alistMoreSpread _ _ ih1 ih2 =>
    intro _ hc; exact .alistMoreSpread (ih1 nofun hc.tail.left) (ih2 nofun hc.tail.right.tail)
  | opt hn _ _ ih1 ih2 => intro _ hc; exact .opt hn (ih1 (mco hn) hc.left) (ih2 nofun hc.right.tail)
  | chArgs _ ih => intro _ hc; exact .chArgs (ih nofun hc)
  | chIndex _ ih => intro _ hc; exact .chIndex (ih nofun hc.tail.left)
  | chName h => intro _ _; exact .chName h
  | chPriv => intro _ _; exact .chPriv
  | chMoreArgs _ _ ih1 ih2 => intro _ hc; exact .chMoreArgs (ih1 nofun hc.left) (ih2 nofun hc.right)
  | chMoreIndex _ _ ih1 ih2 =>
    intro _ hc; exact .chMoreIndex (ih1 nofun hc.left.left) (ih2 nofun hc.left.right.tail)
  | chMoreName _ h ih => intro _ hc; exact .chMoreName (ih nofun hc.left) h
  | chMorePriv _ ih => intro _ hc; exact .chMorePriv (ih nofun hc.left)
  | @chDotArgs f b c a u v n _ _ hg =>
    intro _ hc
    obtain ⟨m, w, rfl⟩ := args_head hg
    exact (hc.dot ⟨u, _, _, w, rfl, rfl, .inl rfl⟩).elim
  | @chDotIndex f b c i u v n m l =>
    intro _ hc
    exact (hc.dot ⟨u, ⟨.dot, l⟩, ⟨.lbrack, n⟩, v ++ [⟨.rbrack, m⟩], by simp, rfl, .inr rfl⟩).elim
  | post _ hs ih => intro _ hc; exact .post (ih nofun hc.left) hs
  | @pre f u e k o nt n hk hg ho ih =>
    intro _ hc
    refine .pre hk (ih nofun hc.tail) ?_
    cases o with
    | del =>
      intro hs
      exact ⟨(ho hs).1, nofun⟩
    | _ => exact ho
  | bin hr hin _ _ ih1 ih2 =>
    intro _ hc
    exact .bin hr hin (ih1 (by rintro rfl; cases hr) hc.left) (ih2 (by rintro rfl; cases hr) hc.right.tail)
  | privIn hin _ ih => intro _ hc; exact .privIn hin (ih nofun hc.tail.tail)
  | cond _ _ _ ih1 ih2 ih3 =>
    intro _ hc
    exact .cond (ih1 nofun hc.left.left) (ih2 nofun hc.left.right.tail) (ih3 nofun hc.right.tail)
  | assign _ hs _ ih1 ih2 => intro _ hc; exact .assign (ih1 nofun hc.left) hs (ih2 nofun hc.right.tail)
  | arrow hk _ ih => intro _ hc; exact .arrow hk (ih nofun hc.tail.tail)
  | yield hy => intro _ _; exact .yield hy
  | yieldE hy hn _ _ ih => intro _ hc; exact .yieldE hy hn nofun (ih nofun hc.tail)
  | yieldStar hy _ ih => intro _ hc; exact .yieldStar hy (ih nofun hc.tail.tail)
  | comma _ _ ih1 ih2 => intro _ hc; exact .comma (ih1 nofun hc.left) (ih2 nofun hc.right.tail)

/-! ### What a tree tells of its text -/

/-- Commas and dots. -/
def point : TK → Bool
  | .comma | .dot => true
  | _ => false

def points (u : List Tok) : Nat := u.countP fun t => point t.k

theorem points_nil : points [] = 0 := rfl

theorem points_cons (t : Tok) (u : List Tok) :
    points (t :: u) = points u + if point t.k then 1 else 0 := by
  simp [points, List.countP_cons]

theorem points_append (u v : List Tok) : points (u ++ v) = points u + points v := by
  simp [points]

/-- A member of the head of an optional chain is written without a dot of its
own. -/
def inner : E → Nat
  | .optBase _ => 0
  | _ => 1

/-- The last argument has no comma behind it. -/
def last : E → Nat
  | .anil => 0
  | _ => 1

/-- The commas and dots a tree stands for. -/
def pts : E → Nat
  | .member e _ | .privMember e _ => pts e + inner e
  | .superMember _ => 1
  | .paren e | .un _ e | .post _ e | .tag e _ | .superIndex e
  | .superCall e | .opt e | .optBase e | .arrowFn _ e | .yield_ _ e => pts e
  | .bin _ a b | .assign _ a b | .call a b | .newE a b | .index a b => pts a + pts b
  | .comma a b => pts a + 1 + pts b
  | .cond c a b => pts c + pts a + pts b
  | .acons _ e r => pts e + last r + pts r
  | _ => 0

def base : NT → Nat
  | .chain b => pts b
  | _ => 0

theorem pts_bare (e : E) : pts (bare e) = pts e := by
  induction e <;> simp_all [bare, pts]

theorem inner_of {e : E} (h : ∀ x, e ≠ .optBase x) : inner e = 1 := by
  cases e <;> first | rfl | exact absurd rfl (h _)

theorem last_of {e : E} (h : e ≠ .anil) : last e = 1 := by
  cases e <;> first | rfl | exact absurd rfl h

theorem base_expr {nt : NT} (h : isExpr nt = true) : base nt = 0 := by
  cases nt <;> first | rfl | cases h

theorem unit_isExpr {a b : NT} (h : Unit a b = true) : isExpr a = true ∧ isExpr b = true := by
  revert h
  cases a <;> cases b <;> simp [Unit, isExpr]

theorem isExpr_chain {nt : NT} (h : isExpr nt = true) : ∀ b, nt = .chain b → ∃ x, b = .optBase x := by
  rintro b rfl
  cases h

theorem word_point {k : TK} (h : Word k) : point k = false := by cases h <;> rfl

theorem pre_point {f : Fl} {k : TK} {o : Un} {nt : NT} (h : Pre f k o nt) : point k = false := by
  cases h <;> rfl

theorem idRef_point {f : Fl} {k : TK} (h : IdRef f k) : point k = false := by cases h <;> rfl

theorem mc_expr {nt : NT} (h : nt = .member ∨ nt = .call) : isExpr nt = true := by
  rcases h with rfl | rfl <;> rfl

theorem mco_expr {nt : NT} (h : nt = .member ∨ nt = .call ∨ nt = .optional) : isExpr nt = true := by
  rcases h with rfl | rfl | rfl <;> rfl

theorem row_isExpr {o : Bin} {nt l r : NT} (h : Row o nt l r) :
    isExpr nt = true ∧ isExpr l = true ∧ isExpr r = true := by
  cases h <;> exact ⟨rfl, rfl, rfl⟩

theorem point_simps :
    point .comma = true ∧ point .dot = true ∧ point .lpar = false ∧ point .rpar = false ∧ point .lbrack = false ∧ point .rbrack = false ∧ point .quesDot = false ∧ point .super_ = false ∧ point .new_ = false ∧ point .dots = false ∧ point .incr = false ∧ point .decr = false ∧ point .quest = false ∧ point .colon = false ∧ point .arrow = false ∧ point .yield_ = false
      ∧ (∀ n, point (.templ n) = false) ∧ (∀ n, point (.assi n) = false) ∧ (∀ n, point (.priv n) = false)
      ∧ (∀ o, point (.op o) = false) := by
  simp [point]

theorem pts_of {d : Dial} (hl : d.loose = false) {f : Fl} {nt : NT} {u : List Tok} {e : E}
    (h : G d f nt u e) : (∀ b, nt = .chain b → ∃ x, b = .optBase x) →
      (∀ x, e ≠ .optBase x) ∧ (nt = .alist true → e ≠ .anil) ∧ pts e = points u + base nt := by
  induction h with
  | unit hu _ ih =>
    intro _
    have h1 := unit_isExpr hu
    obtain ⟨h2, _, h3⟩ := ih (isExpr_chain h1.2)
    refine ⟨h2, fun h => ?_, by rw [h3, base_expr h1.1, base_expr h1.2]⟩
    rw [h] at h1
    cases h1.1
  | @atom f k n h =>
    intro _
    refine ⟨nofun, nofun, ?_⟩
    cases h <;> rfl
  | @ident f k n h =>
    intro _
    refine ⟨nofun, nofun, ?_⟩
    cases h <;> rfl
  | paren _ ih =>
    intro _
    have := (ih nofun).2.2
    exact ⟨nofun, nofun, by simp [pts, points_cons, points_append, point_simps, points_nil, this, base]⟩
  | parenComma h => rw [hl] at h; cases h
  | dot hn _ hw ih1 =>
    intro hch
    have j0 := ih1 (isExpr_chain (mc_expr hn))
    have j1 := j0.2.2
    rw [base_expr (mc_expr hn)] at j1
    refine ⟨nofun, by rcases hn with rfl | rfl <;> nofun, ?_⟩
    rw [base_expr (mc_expr hn)]
    simp [pts, points_cons, points_append, point_simps, points_nil, base, word_point hw, inner_of j0.1, j1]
  | dotPriv hn _ ih1 =>
    intro hch
    have j0 := ih1 (isExpr_chain (mc_expr hn))
    have j1 := j0.2.2
    rw [base_expr (mc_expr hn)] at j1
    refine ⟨nofun, by rcases hn with rfl | rfl <;> nofun, ?_⟩
    rw [base_expr (mc_expr hn)]
    simp [pts, points_cons, points_append, point_simps, points_nil, base, inner_of j0.1, j1]
  | index hn _ _ ih1 ih2 =>
    intro hch
    have j1 := (ih1 (isExpr_chain (mc_expr hn))).2.2
    rw [base_expr (mc_expr hn)] at j1
    have j2 := (ih2 nofun).2.2
    simp only [base] at j2
    refine ⟨nofun, by rcases hn with rfl | rfl <;> nofun, ?_⟩
    rw [base_expr (mc_expr hn)]
    simp [pts, points_cons, points_append, point_simps, points_nil, base, j1, j2]
  | tag hn _ ih1 =>
    intro hch
    have j1 := (ih1 (isExpr_chain (mc_expr hn))).2.2
    rw [base_expr (mc_expr hn)] at j1
    refine ⟨nofun, by rcases hn with rfl | rfl <;> nofun, ?_⟩
    rw [base_expr (mc_expr hn)]
    simp [pts, points_cons, points_append, point_simps, points_nil, base, j1]
  | superDot hw =>
    intro hch
    refine ⟨nofun, nofun, ?_⟩
    simp [pts, points_cons, points_append, point_simps, points_nil, base, word_point hw]
  | superIndex _ ih1 =>
    intro hch
    have j1 := (ih1 nofun).2.2
    simp only [base] at j1
    refine ⟨nofun, nofun, ?_⟩
    simp [pts, points_cons, points_append, point_simps, points_nil, base, j1]
  | newArgs _ _ _ ih1 ih2 =>
    intro hch
    have j1 := (ih1 nofun).2.2
    simp only [base] at j1
    have j2 := (ih2 nofun).2.2
    simp only [base] at j2
    refine ⟨nofun, nofun, ?_⟩
    simp [pts, points_cons, points_append, point_simps, points_nil, base, j1, j2]
  | newBare _ _ ih1 =>
    intro hch
    have j1 := (ih1 nofun).2.2
    simp only [base] at j1
    refine ⟨nofun, nofun, ?_⟩
    simp [pts, points_cons, points_append, point_simps, points_nil, base, j1]
  | newNew _ _ ih1 =>
    intro hch
    have j1 := (ih1 nofun).2.2
    simp only [base] at j1
    refine ⟨nofun, nofun, ?_⟩
    simp [pts, points_cons, points_append, point_simps, points_nil, base, j1]
  | newNewMember h =>
    intro hch
    rw [hl] at h; cases h
  | newOpt h =>
    intro hch
    rw [hl] at h; cases h
  | call hn _ _ ih1 ih2 =>
    intro hch
    have j1 := (ih1 (isExpr_chain (mc_expr hn))).2.2
    rw [base_expr (mc_expr hn)] at j1
    have j2 := (ih2 nofun).2.2
    simp only [base] at j2
    refine ⟨nofun, nofun, ?_⟩
    simp [pts, points_cons, points_append, point_simps, points_nil, base, j1, j2]
  | superCall _ ih1 =>
    intro hch
    have j1 := (ih1 nofun).2.2
    simp only [base] at j1
    refine ⟨nofun, nofun, ?_⟩
    simp [pts, points_cons, points_append, point_simps, points_nil, base, j1]
  | args _ ih1 =>
    intro hch
    have j0 := ih1 nofun
    have j1 := j0.2.2
    simp only [base] at j1
    refine ⟨j0.1, nofun, ?_⟩
    simp [pts, points_cons, points_append, point_simps, points_nil, base, j1]
  | @alistEnd f h n =>
    intro hch
    cases h <;> exact ⟨nofun, nofun, rfl⟩
  | alistLast _ ih1 =>
    intro hch
    have j1 := (ih1 nofun).2.2
    simp only [base] at j1
    refine ⟨nofun, nofun, ?_⟩
    simp [pts, points_cons, points_append, point_simps, points_nil, base, j1, last]
  | alistLastSpread _ ih1 =>
    intro hch
    have j1 := (ih1 nofun).2.2
    simp only [base] at j1
    refine ⟨nofun, nofun, ?_⟩
    simp [pts, points_cons, points_append, point_simps, points_nil, base, j1, last]
  | alistMore _ _ ih1 ih2 =>
    intro hch
    have j1 := (ih1 nofun).2.2
    have j0 := ih2 nofun
    have j2 := j0.2.2
    simp only [base] at j1 j2
    refine ⟨nofun, nofun, ?_⟩
    simp [pts, points_cons, points_append, point_simps, points_nil, base, last_of (j0.2.1 rfl), j1, j2]
    omega
  | alistMoreSpread _ _ ih1 ih2 =>
    intro hch
    have j1 := (ih1 nofun).2.2
    have j0 := ih2 nofun
    have j2 := j0.2.2
    simp only [base] at j1 j2
    refine ⟨nofun, nofun, ?_⟩
    simp [pts, points_cons, points_append, point_simps, points_nil, base, last_of (j0.2.1 rfl), j1, j2]
    omega
  | opt hn _ _ ih1 ih2 =>
    intro hch
    have j1 := (ih1 (isExpr_chain (mco_expr hn))).2.2
    rw [base_expr (mco_expr hn)] at j1
    have j2 := (ih2 (by rintro b ⟨⟩; exact ⟨_, rfl⟩)).2.2
    simp only [base, pts] at j2
    refine ⟨nofun, nofun, ?_⟩
    simp [pts, points_cons, points_append, point_simps, points_nil, base, j1, j2]
    omega
  | chArgs _ ih1 =>
    intro hch
    have j1 := (ih1 nofun).2.2
    simp only [base] at j1
    refine ⟨nofun, nofun, ?_⟩
    simp [pts, points_cons, points_append, point_simps, points_nil, base, j1]
    omega
  | chIndex _ ih1 =>
    intro hch
    have j1 := (ih1 nofun).2.2
    simp only [base] at j1
    refine ⟨nofun, nofun, ?_⟩
    simp [pts, points_cons, points_append, point_simps, points_nil, base, j1]
    omega
  | chName h =>
    intro hch
    obtain ⟨x, rfl⟩ := hch _ rfl
    refine ⟨nofun, nofun, ?_⟩
    simp [pts, points_cons, points_append, point_simps, points_nil, base, word_point h, inner]
  | chPriv =>
    intro hch
    obtain ⟨x, rfl⟩ := hch _ rfl
    refine ⟨nofun, nofun, ?_⟩
    simp [pts, points_cons, points_append, point_simps, points_nil, base, inner]
  | chMoreArgs _ _ ih1 ih2 =>
    intro hch
    have j0 := ih1 hch
    have j1 := j0.2.2
    simp only [base] at j1
    have j2 := (ih2 nofun).2.2
    simp only [base] at j2
    refine ⟨nofun, nofun, ?_⟩
    simp [pts, points_cons, points_append, point_simps, points_nil, base, j1, j2]
    try omega
  | chMoreIndex _ _ ih1 ih2 =>
    intro hch
    have j0 := ih1 hch
    have j1 := j0.2.2
    simp only [base] at j1
    have j2 := (ih2 nofun).2.2
    simp only [base] at j2
    refine ⟨nofun, nofun, ?_⟩
    simp [pts, points_cons, points_append, point_simps, points_nil, base, j1, j2]
    try omega
  | chMoreName _ h ih1 =>
    intro hch
    have j0 := ih1 hch
    have j1 := j0.2.2
    simp only [base] at j1
    refine ⟨nofun, nofun, ?_⟩
    simp [pts, points_cons, points_append, point_simps, points_nil, base, j1, word_point h, inner_of j0.1]
    try omega
  | chMorePriv _ ih1 =>
    intro hch
    have j0 := ih1 hch
    have j1 := j0.2.2
    simp only [base] at j1
    refine ⟨nofun, nofun, ?_⟩
    simp [pts, points_cons, points_append, point_simps, points_nil, base, j1, inner_of j0.1]
    try omega
  | chDotArgs h =>
    intro hch
    rw [hl] at h; cases h
  | chDotIndex h =>
    intro hch
    rw [hl] at h; cases h
  | @post f u e i _ _ ih1 =>
    intro hch
    have j1 := (ih1 nofun).2.2
    simp only [base] at j1
    refine ⟨nofun, nofun, ?_⟩
    cases i <;> simp [pts, points_cons, points_append, point_simps, points_nil, base, j1]
  | pre hk _ _ ih1 =>
    intro hch
    have j1 := (ih1 nofun).2.2
    simp only [base] at j1
    refine ⟨nofun, (by rintro rfl; cases hk), ?_⟩
    rw [base_expr (by cases hk <;> rfl)]
    simp [pts, points_cons, points_append, point_simps, points_nil, base, pre_point hk, j1]
  | bin hr _ _ _ ih1 ih2 =>
    intro hch
    have h1 := row_isExpr hr
    have j1 := (ih1 (isExpr_chain h1.2.1)).2.2
    rw [base_expr h1.2.1] at j1
    have j2 := (ih2 (isExpr_chain h1.2.2)).2.2
    rw [base_expr h1.2.2] at j2
    refine ⟨nofun, (by rintro rfl; cases hr), ?_⟩
    rw [base_expr h1.1]
    simp [pts, points_cons, points_append, point_simps, points_nil, base, j1, j2]
  | privIn _ _ ih1 =>
    intro hch
    have j1 := (ih1 nofun).2.2
    simp only [base] at j1
    refine ⟨nofun, nofun, ?_⟩
    simp [pts, points_cons, points_append, point_simps, points_nil, base, j1]
  | cond _ _ _ ih1 ih2 ih3 =>
    intro hch
    have j1 := (ih1 nofun).2.2
    simp only [base] at j1
    have j2 := (ih2 nofun).2.2
    simp only [base] at j2
    have j3 := (ih3 nofun).2.2
    simp only [base] at j3
    refine ⟨nofun, nofun, ?_⟩
    simp [pts, points_cons, points_append, point_simps, points_nil, base, j1, j2, j3]
    omega
  | @assign f u v a b k n _ _ _ ih1 ih2 =>
    intro hch
    have j1 := (ih1 nofun).2.2
    have j2 := (ih2 nofun).2.2
    simp only [base] at j1 j2
    have hb : pts (lhsTree k a) = pts a := by unfold lhsTree; split <;> simp [pts_bare]
    refine ⟨nofun, nofun, ?_⟩
    simp [pts, points_cons, points_append, point_simps, points_nil, base, j1, j2, hb]
  | arrow hk _ ih1 =>
    intro hch
    have j1 := (ih1 nofun).2.2
    simp only [base] at j1
    refine ⟨nofun, nofun, ?_⟩
    simp [pts, points_cons, points_append, point_simps, points_nil, base, idRef_point hk.1, j1]
  | yield =>
    intro hch
    refine ⟨nofun, nofun, ?_⟩
    simp [pts, points_cons, points_append, point_simps, points_nil, base]
  | yieldE _ _ _ _ ih1 =>
    intro hch
    have j1 := (ih1 nofun).2.2
    simp only [base] at j1
    refine ⟨nofun, nofun, ?_⟩
    rw [points_cons]
    simp [pts, points_cons, points_append, point_simps, points_nil, base, j1]
  | yieldStar _ _ ih1 =>
    intro hch
    have j1 := (ih1 nofun).2.2
    simp only [base] at j1
    refine ⟨nofun, nofun, ?_⟩
    simp [pts, points_cons, points_append, point_simps, points_nil, base, j1]
  | comma _ _ ih1 ih2 =>
    intro hch
    have j1 := (ih1 nofun).2.2
    simp only [base] at j1
    have j2 := (ih2 nofun).2.2
    simp only [base] at j2
    refine ⟨nofun, nofun, ?_⟩
    simp [pts, points_cons, points_append, point_simps, points_nil, base, j1, j2]
    omega

end Verif.Expr

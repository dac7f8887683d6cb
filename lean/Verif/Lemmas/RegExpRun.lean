import Verif.Lemmas.RegExpGen
/-
The stack machine produces the ways of `Eng`, for every pattern.
-/
namespace Verif.RegExp

/-- The terms that are matched from index `i` on. -/
def evalFrom (rev : Bool) (alter : List Term) (i : Nat) : List Term :=
  if rev then (alter.take (i + 1)).reverse else alter.drop i

/-- What is to be shown of a piece and its ways. -/
def Good (C : Ctx) (rev : Bool) (n : ENode) (x : ESt) (ys : List ESt) : Prop :=
  ∀ (a b : Nat) (P : Vec → Prop) (S : List Job) (k : Nat) (ctl : Ctl), NodeOk a b n →
    Closed a b P → P x.vec → k < S.length →
    match n with
    | .atom t => GenO C S k rev P (matchAtom C t ⟨ctl, x.pos, x.vec, rev, some k, S⟩) ys
    | .rep t cnt last =>
      GenO C S k rev P (matchTerm C t cnt last ⟨ctl, x.pos, x.vec, rev, some k, S⟩) ys
    | .seq ts => (ts = [] → ys = [x]) ∧ ∀ alter i, i < alter.length → evalFrom rev alter i = ts →
      GenO C S k rev P (matchTermList C alter i ⟨ctl, x.pos, x.vec, rev, some k, S⟩) ys
    | .alts d => GenO C S k rev P (matchAlts C d ⟨ctl, x.pos, x.vec, rev, some k, S⟩) ys

variable {C : Ctx} {S : List Job} {k : Nat} {rev : Bool} {P : Vec → Prop}

theorem GenO.mk {c : Cfg} {ys : List ESt} {o : Option Cfg} (h : o = some c)
    (g : Gen C S k rev P c ys) : GenO C S k rev P o ys := ⟨c, h, g⟩

/-- Entering a pattern is one round. -/
theorem Gen.enter {d : Alts} {x : ESt} {nx : Option Nat} {J : List Job} {ys : List ESt} {r : Bool}
    (h : GenO C S k rev P (matchAlts C d ⟨.enter d, x.pos, x.vec, r, nx, J⟩) ys) :
    Gen C S k rev P ⟨.enter d, x.pos, x.vec, r, nx, J⟩ ys := by
  obtain ⟨c, e, g⟩ := h
  refine g.star (.one ?_)
  simp only [step, e]
  rfl

theorem good_char (t : Term) (p : Nat → Bool) (x : ESt) (ch pos : Nat) (h : t.atom = .char p)
    (hr : readChar C rev x.pos = .ok ch pos) (hp : p ch = true) :
    Good C rev (.atom t) x [⟨pos, x.vec⟩] := by
  intro a b P S k ctl _ _ hx _
  refine GenO.mk ?_ (Gen.once (pos := pos) hx)
  simp only [matchAtom, h, hr, hp]
  rfl

theorem good_charNo (t : Term) (p : Nat → Bool) (x : ESt) (ch pos : Nat) (h : t.atom = .char p)
    (hr : readChar C rev x.pos = .ok ch pos) (hp : p ch = false) :
    Good C rev (.atom t) x [] := by
  intro a b P S k ctl _ _ hx _
  refine GenO.mk ?_ (Gen.nothing (pos := pos) (nx := some k) hx)
  simp only [matchAtom, h, hr, hp]
  rfl

theorem good_charEnd (t : Term) (p : Nat → Bool) (x : ESt) (h : t.atom = .char p)
    (hr : readChar C rev x.pos = .none) : Good C rev (.atom t) x [] := by
  intro a b P S k ctl _ _ hx _
  refine GenO.mk ?_ (Gen.nothing (pos := x.pos) (nx := some k) hx)
  simp only [matchAtom, h, hr]
  rfl

theorem good_cond (t : Term) (p) (x : ESt) (h : t.atom = .cond p)
    (hp : p (charBefore C x.pos) (charAt C x.pos) = true) : Good C rev (.atom t) x [x] := by
  intro a b P S k ctl _ _ hx _
  refine GenO.mk ?_ (Gen.once (pos := x.pos) hx)
  simp only [matchAtom, h, hp]
  rfl

theorem good_condNo (t : Term) (p) (x : ESt) (h : t.atom = .cond p)
    (hp : p (charBefore C x.pos) (charAt C x.pos) = false) : Good C rev (.atom t) x [] := by
  intro a b P S k ctl _ _ hx _
  refine GenO.mk ?_ (Gen.nothing (pos := x.pos) (nx := some k) hx)
  simp only [matchAtom, h, hp]
  rfl

theorem good_ref (t : Term) (ids : List Nat) (x : ESt) (pos : Nat) (h : t.atom = .ref ids)
    (hp : backRefs C rev x.vec x.pos ids = .yes pos) : Good C rev (.atom t) x [⟨pos, x.vec⟩] := by
  intro a b P S k ctl _ _ hx _
  refine GenO.mk ?_ (Gen.once (pos := pos) hx)
  simp only [matchAtom, h, hp]
  rfl

theorem good_refNo (t : Term) (ids : List Nat) (x : ESt) (h : t.atom = .ref ids)
    (hp : backRefs C rev x.vec x.pos ids = .no) : Good C rev (.atom t) x [] := by
  intro a b P S k ctl _ _ hx _
  refine GenO.mk ?_ (Gen.nothing (pos := x.pos) (nx := some k) hx)
  simp only [matchAtom, h, hp]
  rfl

theorem good_sub (t : Term) (d : Alts) (x : ESt) (ys : List ESt) (h : t.atom = .sub d)
    (g : Good C rev (.alts d) x ys) : Good C rev (.atom t) x ys := by
  intro a b P S k ctl ok hP hx hk
  have okd : NodeOk a b (.alts d) := by
    obtain ⟨h1, h2, h3⟩ := ok
    rw [h] at h3
    simp only [numA] at h3
    exact ⟨(numD_node h3).1, fun ts hts u hu => (numD_ok h3 ts hts u hu).mono h1 h2⟩
  refine GenO.mk ?_ (Gen.enter (g a b P S k (.enter d) okd hP hx hk))
  simp only [matchAtom, h]

theorem get_last (S : List Job) (j : Job) : (S ++ [j])[S.length]? = some j := by
  simp

theorem good_group (t : Term) (i : Nat) (d : Alts) (x : ESt) (ys : List ESt)
    (h : t.atom = .group i d) (hi : i < C.n)
    (g : Good C rev (.alts d) ⟨x.pos, x.vec.put (2 * i) x.pos⟩ ys) :
    Good C rev (.atom t) x (ys.map fun y => ⟨y.pos, y.vec.put (2 * i + 1) y.pos⟩) := by
  intro a b P S k ctl ok hP hx hk
  obtain ⟨h1, h2, h3⟩ := ok
  rw [h] at h3
  simp only [numA] at h3
  obtain ⟨rfl, h3⟩ := h3
  have hle := numD_le _ _ _ h3
  have okd : NodeOk a b (.alts d) :=
    ⟨(numD_node h3).1, fun ts hts u hu => (numD_ok h3 ts hts u hu).mono (by omega) h2⟩
  have g1 := Gen.enter (g a b P (S ++ [⟨.groupEnd t.start, some k⟩]) S.length (.enter d) okd hP
    (hP.put hx (by omega)) (by simp))
  refine GenO.mk ?_ (Gen.drop (j := ⟨.groupEnd t.start, some k⟩) (.inl ⟨_, rfl⟩)
    (Gen.bind (get_last S _) rfl g1 (Each.mono ?_ (Each.single ys))))
  · simp only [matchAtom, h, hi, if_true]
    rfl
  · intro y as e E _ hy
    subst e
    refine GenO.mk ?_ (Gen.once (pos := y.pos) (hP.put hy (by omega)))
    simp only [runJob, hi, if_true]
    rfl

/-- What the end of a lookaround does with a rejection. -/
theorem look_reject (neg : Bool) (s e pos : Nat) (vec : Vec) (r : Bool) (nx : Option Nat)
    (pos0 : Nat) :
    Star C ⟨.ret .reject, pos, vec, r, nx, S ++ [⟨.lookEnd neg s e pos0 rev, some k⟩] ++ [⟨.ok, none⟩]⟩
      ⟨.ret .reject, pos, vec, r, nx, S ++ [⟨.lookEnd neg s e pos0 rev, some k⟩]⟩ := by
  refine .one ?_
  rw [step_pop (.inl rfl)]
  rfl

theorem look_accept (neg : Bool) (s e pos0 : Nat) (y : ESt) (r : Bool) (E : List Job)
    (hE : Plain E) (c : Cfg)
    (hs : Star C c ⟨.ret .next, y.pos, y.vec, r, some (S.length + 1),
      S ++ [⟨.lookEnd neg s e pos0 rev, some k⟩] ++ [⟨.ok, none⟩] ++ E⟩) :
    ∃ nx, Star C c ⟨.ret .accept, y.pos, y.vec, r, nx,
      S ++ [⟨.lookEnd neg s e pos0 rev, some k⟩]⟩ := by
  have hok : (S ++ [⟨.lookEnd neg s e pos0 rev, some k⟩] ++ [⟨.ok, none⟩] ++ E)[S.length + 1]?
      = some (⟨.ok, none⟩ : Job) := by
    rw [List.getElem?_append_left (by simp)]
    have := get_last (S ++ [⟨.lookEnd neg s e pos0 rev, some k⟩]) ⟨.ok, none⟩
    rw [show (S ++ [(⟨.lookEnd neg s e pos0 rev, some k⟩ : Job)]).length = S.length + 1 by simp]
      at this
    exact this
  have h1 : step C ⟨.ret .next, y.pos, y.vec, r, some (S.length + 1),
      S ++ [⟨.lookEnd neg s e pos0 rev, some k⟩] ++ [⟨.ok, none⟩] ++ E⟩
      = .run ⟨.ret .accept, y.pos, y.vec, r, none,
        S ++ [⟨.lookEnd neg s e pos0 rev, some k⟩] ++ [⟨.ok, none⟩] ++ E⟩ := by
    rw [step_next hok]
    rfl
  have hE' : Plain ([⟨.ok, none⟩] ++ E) := by
    refine plain_cons ?_ hE
    exact Job.passes.isPlain (.inr (.inr (.inr rfl)))
  obtain ⟨nx, h2⟩ := accept_down (C := C) (S := S ++ [⟨.lookEnd neg s e pos0 rev, some k⟩])
    (rev := r) y.pos y.vec _ _ rfl hE' none
  refine ⟨nx, hs.trans (.head _ _ _ h1 ?_)⟩
  rw [← List.append_assoc] at h2
  exact h2

theorem matchAtom_look (t : Term) (ahead neg : Bool) (d : Alts) (x : ESt) (ctl : Ctl)
    (h : t.atom = .look ahead neg d) :
    matchAtom C t ⟨ctl, x.pos, x.vec, rev, some k, S⟩ = some ⟨.enter d, x.pos, x.vec, !ahead,
      some (S.length + 1),
      S ++ [⟨.lookEnd neg t.start t.stop x.pos rev, some k⟩] ++ [⟨.ok, none⟩]⟩ := by
  simp [matchAtom, h, Cfg.push, Cfg.pushNext]

/-- The run inside a lookaround. -/
theorem look_inner (t : Term) (ahead neg : Bool) (d : Alts) (x : ESt) (ys : List ESt) (a b : Nat)
    (h : t.atom = .look ahead neg d) (ok : NodeOk a b (.atom t))
    (g : Good C (!ahead) (.alts d) x ys) :
    Gen C (S ++ [⟨.lookEnd neg t.start t.stop x.pos rev, some k⟩] ++ [⟨.ok, none⟩]) (S.length + 1)
      (!ahead) (Agree t.start t.stop x.vec) ⟨.enter d, x.pos, x.vec, !ahead, some (S.length + 1),
        S ++ [⟨.lookEnd neg t.start t.stop x.pos rev, some k⟩] ++ [⟨.ok, none⟩]⟩ ys := by
  obtain ⟨h1, h2, h3⟩ := ok
  rw [h] at h3
  simp only [numA] at h3
  exact Gen.enter (g t.start t.stop _ _ (S.length + 1) (.enter d) (numD_node h3)
    (agree_closed _ _ _) (agree_refl _ _ _) (by simp))

theorem good_look (t : Term) (ahead : Bool) (d : Alts) (x y : ESt) (ys : List ESt)
    (h : t.atom = .look ahead false d) (g : Good C (!ahead) (.alts d) x (y :: ys)) :
    Good C rev (.atom t) x [⟨x.pos, y.vec⟩] := by
  intro a b P S k ctl ok hP hx hk
  obtain ⟨hy, E, hE, hs, _⟩ := look_inner (S := S) (k := k) (rev := rev) t ahead false d x _ a b h
    ok g
  obtain ⟨nx, h2⟩ := look_accept _ _ _ _ _ _ _ hE _ hs
  refine GenO.mk (matchAtom_look t ahead false d x ctl h) (Gen.star (h2.trans (.one ?_))
    (Gen.once (pos := x.pos) (hP.sub ok.1 ok.2.1 _ _ hy hx)))
  rw [step_pop (.inr rfl)]
  rfl

theorem good_lookFail (t : Term) (ahead : Bool) (d : Alts) (x : ESt)
    (h : t.atom = .look ahead false d) (g : Good C (!ahead) (.alts d) x []) :
    Good C rev (.atom t) x [] := by
  intro a b P S k ctl ok hP hx hk
  obtain ⟨pos, vec, nx, hv, hs⟩ := look_inner (S := S) (k := k) (rev := rev) t ahead false d x _ a b h
    ok g
  refine GenO.mk (matchAtom_look t ahead false d x ctl h)
    (Gen.star ((hs.trans (look_reject _ _ _ _ _ _ _ _)).trans (.one ?_))
    (Gen.nothing (pos := x.pos) (nx := some k) (hP.sub ok.1 ok.2.1 _ _ hv hx)))
  rw [step_pop (.inl rfl)]
  rfl

theorem clear_agree {s e : Nat} {v w : Vec} (h : Agree s e v w) : w.clear s e = v.clear s e := by
  funext j
  simp only [Vec.clear]
  split
  · rfl
  · exact h j (by omega)

theorem good_lookNot (t : Term) (ahead : Bool) (d : Alts) (x : ESt)
    (h : t.atom = .look ahead true d) (hv : InVec C t) (g : Good C (!ahead) (.alts d) x []) :
    Good C rev (.atom t) x [⟨x.pos, x.vec.clear t.start t.stop⟩] := by
  intro a b P S k ctl ok hP hx hk
  obtain ⟨pos, vec, nx, hv', hs⟩ := look_inner (S := S) (k := k) (rev := rev) t ahead true d x _ a b h
    ok g
  refine GenO.mk (matchAtom_look t ahead true d x ctl h)
    (Gen.star ((hs.trans (look_reject _ _ _ _ _ _ _ _)).trans (.one ?_))
    (Gen.once (pos := x.pos) (hP.clear hx ok.1 ok.2.1)))
  rw [step_pop (.inl rfl), ← clear_agree hv']
  simp only [runJob, if_neg hv, if_true]
  rfl

theorem good_lookNotFail (t : Term) (ahead : Bool) (d : Alts) (x y : ESt) (ys : List ESt)
    (h : t.atom = .look ahead true d) (g : Good C (!ahead) (.alts d) x (y :: ys)) :
    Good C rev (.atom t) x [] := by
  intro a b P S k ctl ok hP hx hk
  obtain ⟨hy, E, hE, hs, _⟩ := look_inner (S := S) (k := k) (rev := rev) t ahead true d x _ a b h
    ok g
  obtain ⟨nx, h2⟩ := look_accept _ _ _ _ _ _ _ hE _ hs
  refine GenO.mk (matchAtom_look t ahead true d x ctl h) (Gen.star (h2.trans (.one ?_))
    (Gen.nothing (pos := x.pos) (nx := some k) (hP.sub ok.1 ok.2.1 _ _ hy hx)))
  rw [step_pop (.inr rfl)]
  rfl

/-! Quantifiers -/

theorem matchTerm_stop (t : Term) (cnt : Nat) (last : Option Nat) (c : Cfg)
    (h : Zero t ∨ (t.min < cnt ∧ t.over cnt = true) ∨ (t.min < cnt ∧ 1 < cnt ∧ last = some c.pos)) :
    matchTerm C t cnt last c = some (c.back .next) := by
  unfold matchTerm
  split
  · rfl
  · rename_i h0
    split
    · rfl
    · rename_i h1
      split
      · rfl
      · rename_i h2
        exact absurd h (by simp only [not_or]; exact ⟨h0, h1, h2⟩)

theorem good_stop (t : Term) (cnt : Nat) (last : Option Nat) (x : ESt)
    (h : Zero t ∨ (t.min < cnt ∧ t.over cnt = true) ∨ (t.min < cnt ∧ 1 < cnt ∧ last = some x.pos)) :
    Good C rev (.rep t cnt last) x [x] := by
  intro a b P S k ctl ok hP hx hk
  exact GenO.mk (matchTerm_stop t cnt last _ h) (Gen.once (pos := x.pos) hx)

/-- One iteration and what follows it. -/
theorem iterate (t : Term) (cnt : Nat) (x : ESt) (ys zs : List ESt) (a b : Nat) (c : Cfg)
    (ok : TermOk a b t) (hP : Closed a b P) (hx : P x.vec)
    (hk : k < S.length) (hv : 1 < cnt → InVec C t)
    (hc : c = ⟨c.ctl, x.pos, x.vec, rev, some S.length, S ++ [⟨.term t (cnt + 1) x.pos, some k⟩]⟩)
    (g : Good C rev (.atom t) (x.fresh t cnt) ys)
    (e : Each (Good C rev (.rep t (cnt + 1) (some x.pos))) ys zs) :
    GenO C S k rev P
      (if 1 < cnt then (clearGroups C t c).bind (matchAtom C t) else matchAtom C t c) zs := by
  have hfresh : P (x.fresh t cnt).vec := by
    unfold ESt.fresh
    split
    · exact hP.clear hx ok.1 ok.2.1
    · exact hx
  have hpos : (x.fresh t cnt).pos = x.pos := by unfold ESt.fresh; split <;> rfl
  obtain ⟨c', e1, g1⟩ := g a b P (S ++ [⟨.term t (cnt + 1) x.pos, some k⟩]) S.length c.ctl ok hP
    hfresh (by simp)
  have e2 : (if 1 < cnt then (clearGroups C t c).bind (matchAtom C t) else matchAtom C t c)
      = some c' := by
    rw [← e1, hpos]
    split
    · rename_i h
      rw [hc]
      have := hv h
      simp only [clearGroups, InVec] at this ⊢
      rw [if_neg this]
      simp only [Option.bind_some, ESt.fresh, if_pos h]
    · rename_i h
      rw [hc]
      simp only [ESt.fresh, if_neg h]
  refine GenO.mk e2 (Gen.drop (j := ⟨.term t (cnt + 1) x.pos, some k⟩) (.inr (.inl ⟨_, _, _, rfl⟩))
    (Gen.bind (get_last S _) rfl g1 (Each.mono ?_ e)))
  intro y as gy E _ hy
  have := gy a b P (S ++ [⟨.term t (cnt + 1) x.pos, some k⟩] ++ E) k (.ret .next) ok hP hy
    (by simp; omega)
  simpa [runJob] using this

theorem good_must (t : Term) (cnt : Nat) (last : Option Nat) (x : ESt) (ys zs : List ESt)
    (h0 : ¬ Zero t) (hc : cnt ≤ t.min) (hv : 1 < cnt → InVec C t)
    (g : Good C rev (.atom t) (x.fresh t cnt) ys)
    (e : Each (Good C rev (.rep t (cnt + 1) (some x.pos))) ys zs) :
    Good C rev (.rep t cnt last) x zs := by
  intro a b P S k ctl ok hP hx hk
  have := iterate (P := P) (S := S) (k := k) t cnt x ys zs a b
    (Cfg.pushNext ⟨ctl, x.pos, x.vec, rev, some k, S⟩ (.term t (cnt + 1) x.pos)) ok hP hx hk hv rfl g e
  simp only [matchTerm]
  rw [if_neg (show ¬ (t.min = 0 ∧ t.max = some 0) from h0), if_neg (by omega), if_neg (by omega), if_pos hc]
  exact this

theorem good_greedy (t : Term) (cnt : Nat) (last : Option Nat) (x : ESt) (ys zs : List ESt)
    (h0 : ¬ Zero t) (hc : t.min < cnt) (ho : t.over cnt = false)
    (hl : ¬ (1 < cnt ∧ last = some x.pos)) (hg : t.greedy = true) (hv : 1 < cnt → InVec C t)
    (g : Good C rev (.atom t) (x.fresh t cnt) ys)
    (e : Each (Good C rev (.rep t (cnt + 1) (some x.pos))) ys zs) :
    Good C rev (.rep t cnt last) x (zs ++ [x]) := by
  intro a b P S k ctl ok hP hx hk
  have := iterate (P := P) (S := S ++ [⟨.greedyNext x.pos x.vec, some k⟩]) (k := k) t cnt x ys zs a b
    (Cfg.pushNext (Cfg.push ⟨ctl, x.pos, x.vec, rev, some k, S⟩ (.greedyNext x.pos x.vec))
      (.term t (cnt + 1) x.pos)) ok hP hx (by simp; omega) hv rfl g e
  obtain ⟨c', e1, g1⟩ := this
  refine GenO.mk (c := c') ?_ (Gen.choice (j := ⟨.greedyNext x.pos x.vec, some k⟩) ?_ ?_ g1)
  · simp only [matchTerm]
    rw [if_neg (show ¬ (t.min = 0 ∧ t.max = some 0) from h0), if_neg (by simp [ho]), if_neg (fun h => hl h.2), if_neg (by omega), if_pos hg]
    exact e1
  · intro neg a b p r h; cases h
  · intro pos vec nx _
    refine Gen.star (.one ?_) (Gen.once (pos := x.pos) hx)
    rw [step_pop (.inl rfl)]
    rfl

theorem good_lazy (t : Term) (cnt : Nat) (last : Option Nat) (x : ESt) (ys zs : List ESt)
    (h0 : ¬ Zero t) (hc : t.min < cnt) (ho : t.over cnt = false)
    (hl : ¬ (1 < cnt ∧ last = some x.pos)) (hg : t.greedy = false) (hv : 1 < cnt → InVec C t)
    (g : Good C rev (.atom t) (x.fresh t cnt) ys)
    (e : Each (Good C rev (.rep t (cnt + 1) (some x.pos))) ys zs) :
    Good C rev (.rep t cnt last) x (x :: zs) := by
  intro a b P S k ctl ok hP hx hk
  refine GenO.mk (c := ⟨.ret .next, x.pos, x.vec, rev, some k,
    S ++ [⟨.nonGreedy t cnt x.pos x.vec, some k⟩]⟩) ?_
    ⟨hx, [⟨.nonGreedy t cnt x.pos x.vec, some k⟩], ?_, .refl _, ?_⟩
  · simp only [matchTerm]
    rw [if_neg (show ¬ (t.min = 0 ∧ t.max = some 0) from h0), if_neg (by simp [ho]), if_neg (fun h => hl h.2), if_neg (by omega),
      if_neg (by simp [hg])]
    rfl
  · refine plain_cons ?_ (fun j hj => by simp at hj)
    intro neg a b p r h; cases h
  · intro pos vec nx _
    obtain ⟨c', e1, g1⟩ := iterate (P := P) (S := S) (k := k) t cnt x ys zs a b
      (Cfg.pushNext ⟨.ret .reject, x.pos, x.vec, rev, some k, S⟩ (.term t (cnt + 1) x.pos))
      ok hP hx hk hv rfl g e
    refine g1.star (.one ?_)
    rw [step_pop (.inl rfl)]
    have : runJob C ⟨.nonGreedy t cnt x.pos x.vec, some k⟩ .reject
        ⟨.ret .reject, pos, vec, rev, nx, S⟩ = some c' := by
      rw [← e1]
      rfl
    rw [this]
    rfl

/-! Lists of terms, alternatives -/

theorem evalFrom_cons {rev : Bool} {alter : List Term} {i : Nat} {t : Term} {ts : List Term}
    (h : evalFrom rev alter i = t :: ts) (hi : i < alter.length) :
    alter[i]? = some t ∧
    (ts = [] → if rev then i = 0 else i + 1 = alter.length) ∧
    (ts ≠ [] → if rev then i ≠ 0 ∧ evalFrom rev alter (i - 1) = ts
      else i + 1 < alter.length ∧ evalFrom rev alter (i + 1) = ts) := by
  cases rev with
  | false =>
    simp only [evalFrom, Bool.false_eq_true, if_false] at h ⊢
    rw [List.drop_eq_getElem_cons hi] at h
    injection h with h1 h2
    refine ⟨by rw [List.getElem?_eq_getElem hi, h1], ?_, ?_⟩
    · intro hn
      subst hn
      have := List.drop_eq_nil_iff.1 h2
      omega
    · intro hn
      refine ⟨?_, h2⟩
      rcases Nat.lt_or_ge (i + 1) alter.length with hlt | hge
      · exact hlt
      · rw [List.drop_eq_nil_of_le hge] at h2
        exact absurd h2.symm hn
  | true =>
    simp only [evalFrom, if_true] at h ⊢
    rw [List.take_add_one, List.getElem?_eq_getElem hi] at h
    simp only [Option.toList_some, List.reverse_append, List.reverse_cons, List.reverse_nil,
      List.nil_append, List.cons_append] at h
    injection h with h1 h2
    refine ⟨by rw [List.getElem?_eq_getElem hi, h1], ?_, ?_⟩
    · intro hn
      subst hn
      have := congrArg List.length h2
      simp only [List.length_reverse, List.length_take, List.length_nil] at this
      omega
    · intro hn
      have h0 : i ≠ 0 := by
        rintro rfl
        simp at h2
        exact hn h2
      refine ⟨h0, ?_⟩
      rw [show i - 1 + 1 = i by omega]
      exact h2

theorem good_seq (t : Term) (ts : List Term) (x : ESt) (ys zs : List ESt)
    (g : Good C rev (.rep t 1 none) x ys) (e : Each (Good C rev (.seq ts)) ys zs) :
    Good C rev (.seq (t :: ts)) x zs := by
  intro a b P S k ctl ok hP hx hk
  have okt : TermOk a b t := ok t (List.mem_cons_self ..)
  have oks : NodeOk a b (.seq ts) := fun u hu => ok u (List.mem_cons_of_mem _ hu)
  refine ⟨fun h => absurd h (by simp), ?_⟩
  intro alter i hi hev
  obtain ⟨h1, h2, h3⟩ := evalFrom_cons hev hi
  by_cases hts : ts = []
  · subst hts
    have hz : zs = ys := by
      refine Each.same (Each.mono ?_ e)
      intro y as gy
      exact (gy 0 0 (fun _ => True) [⟨.ok, none⟩] 0 ctl (fun u hu => by simp at hu)
        (fun _ _ _ _ => trivial) trivial (by simp)).1 rfl
    subst hz
    have hend := h2 rfl
    have : matchTermList C alter i ⟨ctl, x.pos, x.vec, rev, some k, S⟩
        = matchTerm C t 1 none ⟨ctl, x.pos, x.vec, rev, some k, S⟩ := by
      simp only [matchTermList, h1]
      cases rev <;> simp_all
    rw [this]
    exact g a b P S k ctl okt hP hx hk
  · have hnext := h3 hts
    obtain ⟨i', hi', hev', hm⟩ : ∃ i', i' < alter.length ∧ evalFrom rev alter i' = ts ∧
        matchTermList C alter i ⟨ctl, x.pos, x.vec, rev, some k, S⟩
          = matchTerm C t 1 none ⟨ctl, x.pos, x.vec, rev, some S.length,
              S ++ [⟨.termList alter i', some k⟩]⟩ := by
      cases rev with
      | true =>
        simp only [if_true] at hnext
        refine ⟨i - 1, by omega, hnext.2, ?_⟩
        simp only [matchTermList, h1, if_true]
        rw [if_neg hnext.1]
        rfl
      | false =>
        simp only [Bool.false_eq_true, if_false] at hnext
        refine ⟨i + 1, hnext.1, hnext.2, ?_⟩
        simp only [matchTermList, h1, Bool.false_eq_true, if_false]
        rw [if_neg (by omega)]
        rfl
    rw [hm]
    obtain ⟨c', e1, g1⟩ := g a b P (S ++ [⟨.termList alter i', some k⟩]) S.length ctl okt hP hx
      (by simp)
    refine GenO.mk e1 (Gen.drop (j := ⟨.termList alter i', some k⟩) (.inr (.inr (.inl ⟨_, _, rfl⟩)))
      (Gen.bind (get_last S _) rfl g1 (Each.mono ?_ e)))
    intro y as gy E _ hy
    have := (gy a b P (S ++ [⟨.termList alter i', some k⟩] ++ E) k (.ret .next) oks hP hy
      (by simp; omega)).2 alter i' hi' hev'
    simpa [runJob] using this

/-- An alternative, without the choice point. -/
theorem alter_alone (a : List Term) (x : ESt) (ys : List ESt) (lo hi : Nat) (ctl : Ctl)
    (ok : ∀ t, t ∈ a → TermOk lo hi t) (hP : Closed lo hi P) (hx : P x.vec) (hk : k < S.length)
    (g : Good C rev (.seq (if rev then a.reverse else a)) x ys) :
    GenO C S k rev P
      (if a.isEmpty = true then some ((⟨ctl, x.pos, x.vec, rev, some k, S⟩ : Cfg).back .next)
       else if rev = true then matchTermList C a (a.length - 1) ⟨ctl, x.pos, x.vec, rev, some k, S⟩
       else matchTermList C a 0 ⟨ctl, x.pos, x.vec, rev, some k, S⟩) ys := by
  have ok' : NodeOk lo hi (.seq (if rev then a.reverse else a)) := by
    intro t ht
    refine ok t ?_
    cases rev
    · exact ht
    · exact List.mem_reverse.1 ht
  obtain ⟨g1, g2⟩ := g lo hi P S k ctl ok' hP hx hk
  cases a with
  | nil =>
    have : ys = [x] := g1 (by cases rev <;> rfl)
    subst this
    exact GenO.mk rfl (Gen.once (pos := x.pos) hx)
  | cons t ts =>
    simp only [List.isEmpty_cons, Bool.false_eq_true, if_false]
    cases rev with
    | true =>
      refine g2 (t :: ts) _ (by simp) ?_
      simp only [evalFrom, if_true]
      rw [List.take_of_length_le (by simp)]
    | false =>
      refine g2 (t :: ts) 0 (by simp) ?_
      simp [evalFrom]

theorem good_altsOne (a : List Term) (x : ESt) (ys : List ESt)
    (g : Good C rev (.seq (if rev then a.reverse else a)) x ys) : Good C rev (.alts [a]) x ys := by
  intro lo hi P S k ctl ok hP hx hk
  have := alter_alone a x ys lo hi ctl (fun t ht => ok.2 a (by simp) t ht) hP hx hk g
  simpa [matchAlts] using this

theorem good_altsCons (a b : List Term) (d : Alts) (x : ESt) (ys zs : List ESt)
    (g : Good C rev (.seq (if rev then a.reverse else a)) x ys)
    (g2 : Good C rev (.alts (b :: d)) x zs) : Good C rev (.alts (a :: b :: d)) x (ys ++ zs) := by
  intro lo hi P S k ctl ok hP hx hk
  obtain ⟨c', e1, g1⟩ := alter_alone (S := S ++ [⟨.alter (b :: d) x.pos x.vec, some k⟩]) (k := k)
    a x ys lo hi ctl (fun t ht => ok.2 a (by simp) t ht) hP hx (by simp; omega) g
  refine GenO.mk (c := c') ?_ (Gen.choice (j := ⟨.alter (b :: d) x.pos x.vec, some k⟩) ?_ ?_ g1)
  · rw [← e1]
    simp only [matchAlts, List.isEmpty_cons, Bool.false_eq_true, if_false]
    rfl
  · intro neg a b p r h; cases h
  · intro pos vec nx _
    obtain ⟨c2, e2, h2⟩ := g2 lo hi P S k (.ret .reject)
      ⟨by simp, fun ts hts => ok.2 ts (List.mem_cons_of_mem _ hts)⟩ hP hx hk
    refine h2.star (.one ?_)
    rw [step_pop (.inl rfl)]
    have : runJob C ⟨.alter (b :: d) x.pos x.vec, some k⟩ .reject
        ⟨.ret .reject, pos, vec, rev, nx, S⟩ = some c2 := by
      rw [← e2]
      rfl
    rw [this]
    rfl

mutual
theorem gen : ∀ {rev : Bool} {n : ENode} {x : ESt} {ys : List ESt}, Eng C rev n x ys →
    Good C rev n x ys
  | _, _, _, _, .char _ t p x ch pos h1 h2 h3 => good_char t p x ch pos h1 h2 h3
  | _, _, _, _, .charNo _ t p x ch pos h1 h2 h3 => good_charNo t p x ch pos h1 h2 h3
  | _, _, _, _, .charEnd _ t p x h1 h2 => good_charEnd t p x h1 h2
  | _, _, _, _, .cond _ t p x h1 h2 => good_cond t p x h1 h2
  | _, _, _, _, .condNo _ t p x h1 h2 => good_condNo t p x h1 h2
  | _, _, _, _, .ref _ t ids x pos h1 h2 => good_ref t ids x pos h1 h2
  | _, _, _, _, .refNo _ t ids x h1 h2 => good_refNo t ids x h1 h2
  | _, _, _, _, .sub _ t d x ys h1 h2 => good_sub t d x ys h1 (gen h2)
  | _, _, _, _, .group _ t i d x ys h1 h2 h3 => good_group t i d x ys h1 h2 (gen h3)
  | _, _, _, _, .look _ t ahead d x y ys h1 h2 => good_look t ahead d x y ys h1 (gen h2)
  | _, _, _, _, .lookFail _ t ahead d x h1 h2 => good_lookFail t ahead d x h1 (gen h2)
  | _, _, _, _, .lookNot _ t ahead d x h1 h2 h3 => good_lookNot t ahead d x h1 h2 (gen h3)
  | _, _, _, _, .lookNotFail _ t ahead d x y ys h1 h2 =>
    good_lookNotFail t ahead d x y ys h1 (gen h2)
  | _, _, _, _, .repZero _ t cnt last x h => good_stop t cnt last x (.inl h)
  | _, _, _, _, .repOver _ t cnt last x _ h1 h2 => good_stop t cnt last x (.inr (.inl ⟨h1, h2⟩))
  | _, _, _, _, .repEmpty _ t cnt last x _ h1 _ h2 h3 =>
    good_stop t cnt last x (.inr (.inr ⟨h1, h2, h3⟩))
  | _, _, _, _, .repMust _ t cnt last x ys zs h0 h1 h2 h3 h4 =>
    good_must t cnt last x ys zs h0 h1 h2 (gen h3) (genAll h4)
  | _, _, _, _, .repGreedy _ t cnt last x ys zs h0 h1 h2 h3 h4 h5 h6 h7 =>
    good_greedy t cnt last x ys zs h0 h1 h2 h3 h4 h5 (gen h6) (genAll h7)
  | _, _, _, _, .repLazy _ t cnt last x ys zs h0 h1 h2 h3 h4 h5 h6 h7 =>
    good_lazy t cnt last x ys zs h0 h1 h2 h3 h4 h5 (gen h6) (genAll h7)
  | _, _, _, _, .seqNil _ x => fun _ _ _ _ _ _ _ _ _ _ => ⟨fun _ => rfl, fun alter i hi h => by
      exfalso
      cases ‹Bool›
      · simp only [evalFrom, Bool.false_eq_true, if_false] at h
        have := List.drop_eq_nil_iff.1 h
        omega
      · simp only [evalFrom, if_true, List.reverse_eq_nil_iff] at h
        have := congrArg List.length h
        simp only [List.length_take, List.length_nil] at this
        omega⟩
  | _, _, _, _, .seqCons _ t ts x ys zs h1 h2 => good_seq t ts x ys zs (gen h1) (genAll h2)
  | _, _, _, _, .altsOne _ a x ys h => good_altsOne a x ys (gen h)
  | _, _, _, _, .altsCons _ a b d x ys zs h1 h2 =>
    good_altsCons a b d x ys zs (gen h1) (gen h2)
theorem genAll : ∀ {rev : Bool} {n : ENode} {xs ys : List ESt}, EngAll C rev n xs ys →
    Each (Good C rev n) xs ys
  | _, _, _, _, .nil _ _ => .nil
  | _, _, _, _, .cons _ _ x xs ys zs h1 h2 => .cons x xs ys zs (gen h1) (genAll h2)
end

end Verif.RegExp

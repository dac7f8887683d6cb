import Verif.Lemmas.FlowSwitch

/-! The simulation for `try`. -/

namespace Verif.Flow

open Spec

variable {σ V : Type} {W : World σ V} {code : List (Cmd σ V)}

/-! ## Statements with a value -/

/-- A completion whose value is there. -/
def Valued : Comp V → Prop
  | .normal v => v.isSome = true
  | .brk v _ => v.isSome = true
  | .cont v _ => v.isSome = true
  | _ => True

theorem Valued.upd {c : Comp V} (h : Valued c) (x : Option V) : Spec.upd c x = c := by
  rcases c with (_ | _) | ⟨_ | _, _⟩ | ⟨_ | _, _⟩ | _ | _ <;> first | rfl | cases h

theorem valued_upd (c : Comp V) (v : V) : Valued (Spec.upd c (some v)) := by
  rcases c with (_ | _) | ⟨_ | _, _⟩ | ⟨_ | _, _⟩ | _ | _ <;> trivial

theorem valued_upd' {c : Comp V} (h : Valued c) (x : Option V) : Valued (Spec.upd c x) := by
  rw [h.upd]; exact h

theorem valued_breakable {c : Comp V} (h : Valued c) : Valued (breakable W c) := by
  rcases c with (_ | _) | ⟨_ | _, _ | _⟩ | ⟨_ | _, _⟩ | _ | _ <;> first | exact h | rfl

theorem valued_breakAt {c : Comp V} (k : Nat) (h : Valued c) : Valued (breakAt k c) := by
  rcases c with _ | ⟨v, _ | i⟩ | _ | _ | _ <;> try exact h
  simp only [breakAt]
  split
  · exact h
  · exact h

/-- Outcomes whose value is there. -/
def ValuedO (o : Out σ V) : Prop := ∀ w c, o = some (w, c) → Valued c

theorem ValuedO.mapC {o : Out σ V} {f : Comp V → Comp V} (h : ValuedO o) (hf : ∀ c, Valued c → Valued (f c)) :
    ValuedO (mapC f o) := by
  intro w c e
  rcases o with _ | ⟨w', c'⟩
  · cases e
  · simp only [Spec.mapC, Option.map_some, Option.some.injEq, Prod.mk.injEq] at e
    rw [← e.2]
    exact hf _ (h w' c' rfl)

theorem valuedO_upd (o : Out σ V) (v : V) : ValuedO (mapC (Spec.upd · (some v)) o) := by
  intro w c e
  rcases o with _ | ⟨w', c'⟩
  · cases e
  · simp only [Spec.mapC, Option.map_some, Option.some.injEq, Prod.mk.injEq] at e
    rw [← e.2]
    exact valued_upd _ _

theorem ValuedO.andThen {A : Type} {r : Res σ V A} {k : σ → A → Out σ V} (h : ∀ w a, ValuedO (k w a)) :
    ValuedO (andThen r k) := by
  cases r with
  | ok w a fx => exact h w a
  | thr w v =>
    intro w' c e
    simp only [Spec.andThen, Option.some.injEq, Prod.mk.injEq] at e
    rw [← e.2]
    trivial

/-- Turns of a loop whose result has a value. -/
def ValuedI (r : Option ((σ × V) ⊕ (σ × Comp V))) : Prop := ∀ w c, r = some (.inr (w, c)) → Valued c

theorem valued_iterate {f : σ × V → Option ((σ × V) ⊕ (σ × Comp V))} (h : ∀ a, ValuedI (f a)) (n : Nat) (a : σ × V) :
    ValuedO (iterate f n a) := by
  induction n generalizing a with
  | zero => intro w c e; cases e
  | succ n ih =>
    intro w c e
    simp only [iterate] at e
    cases hf : f a with
    | none => rw [hf] at e; cases e
    | some r =>
      rw [hf] at e
      rcases r with a' | ⟨w', c'⟩
      · exact ih a' w c e
      · simp only [Option.some.injEq, Prod.mk.injEq] at e
        rw [← e.2]
        exact h a w' c' hf

theorem valuedI_test {c : Option (Ex σ V)} {env : List Nat} {w : σ}
    {yes no : σ → Option ((σ × V) ⊕ (σ × Comp V))} (hy : ∀ w, ValuedI (yes w)) (hn : ∀ w, ValuedI (no w)) :
    ValuedI (test W c env w yes no) := by
  cases c with
  | none => exact hy w
  | some e =>
    simp only [test]
    cases e env w with
    | thr w' v =>
      intro w c e
      simp only [Option.some.injEq, Sum.inr.injEq, Prod.mk.injEq] at e
      rw [← e.2]; trivial
    | ok w' v fx =>
      simp only
      split
      · exact hy w'
      · exact hn w'

theorem valuedI_normal (w : σ) (v : V) : ValuedI (some (.inr (w, .normal (some v)))) := by
  intro w c e
  simp only [Option.some.injEq, Sum.inr.injEq, Prod.mk.injEq] at e
  rw [← e.2]; rfl

theorem valuedI_inl (a : σ × V) : ValuedI (some (.inl a)) := by
  intro w c e
  simp at e

theorem valuedI_turn {o : Out σ V} {ls : List Nat} {v : V} {next : σ → V → Option ((σ × V) ⊕ (σ × Comp V))}
    {done : σ → Comp V → σ × Comp V} (hn : ∀ w v, ValuedI (next w v)) (hd : ∀ w c, Valued c → Valued (done w c).2) :
    ValuedI (Spec.turn o ls v next done) := by
  rcases o with _ | ⟨w', c'⟩
  · intro w c e; cases e
  · simp only [Spec.turn]
    split
    · exact hn _ _
    · intro w c e
      simp only [Option.some.injEq, Sum.inr.injEq] at e
      have := hd w' _ (valued_upd c' v)
      rw [e] at this
      exact this

theorem valued_closing (of : Bool) (it : V) (w : σ) (c : Comp V) (h : Valued c) : Valued (closing W of it w c).2 := by
  cases of with
  | false => exact h
  | true =>
    simp only [closing, ↓reduceIte, iteratorClose]
    cases W.closeIt it w with
    | ok w' a fx => exact h
    | thr w' v => cases c <;> trivial

theorem valuedI_increment (e : Option (Ex σ V)) (env : List Nat) (w : σ) (v : V) : ValuedI (increment e env w v) := by
  cases e with
  | none => exact valuedI_inl _
  | some e =>
    simp only [increment]
    cases e env w with
    | ok w' x fx => exact valuedI_inl _
    | thr w' x =>
      intro w c e
      simp only [Option.some.injEq, Sum.inr.injEq, Prod.mk.injEq] at e
      rw [← e.2]; trivial

theorem valuedO_seq {o : Out σ V} {k : σ → Out σ V} (h : ValuedO o) : ValuedO (seqC o k) := by
  rcases o with _ | ⟨w', c'⟩
  · intro w c e; cases e
  · have h' := h w' c' rfl
    intro w c e
    cases c' with
    | normal v =>
      simp only [seqC] at e
      cases hk : k w' with
      | none => rw [hk] at e; cases e
      | some p =>
        rw [hk] at e
        simp only [Option.some.injEq, Prod.mk.injEq] at e
        rw [← e.2]
        cases v with
        | none => cases h'
        | some v => exact valued_upd _ _
    | _ =>
      simp only [seqC, Option.some.injEq, Prod.mk.injEq] at e
      rw [← e.2]
      exact h'

theorem valuedO_seq2 {o : Out σ V} {k : σ → Out σ V} (h : ∀ w c, o = some (w, c) → ∀ t, c ≠ .brk none t ∧ c ≠ .cont none t)
    (hk : ∀ w, ValuedO (k w)) : ValuedO (seqC o k) := by
  rcases o with _ | ⟨w', c'⟩
  · intro w c e; cases e
  · have h' := h w' c' rfl
    intro w c e
    rcases c' with v | ⟨_ | v, t⟩ | ⟨_ | v, t⟩ | v | v
    · simp only [seqC] at e
      cases hk' : k w' with
      | none => rw [hk'] at e; cases e
      | some p =>
        rw [hk'] at e
        simp only [Option.some.injEq, Prod.mk.injEq] at e
        rw [← e.2]
        exact valued_upd' (hk w' p.1 p.2 hk') _
    · exact absurd rfl (h' t).1
    · simp only [seqC, Option.some.injEq, Prod.mk.injEq] at e
      rw [← e.2]; rfl
    · exact absurd rfl (h' t).2
    · simp only [seqC, Option.some.injEq, Prod.mk.injEq] at e
      rw [← e.2]; rfl
    · simp only [seqC, Option.some.injEq, Prod.mk.injEq] at e
      rw [← e.2]; trivial
    · simp only [seqC, Option.some.injEq, Prod.mk.injEq] at e
      rw [← e.2]; trivial

theorem writes_valued (s : Stmt σ V) (h : writes s = true) (n : Nat) (ls : List Nat) (env : List Nat) (w : σ) :
    ValuedO (eval W n ls 0 s env w) := by
  induction s generalizing ls env w with
  | nil => cases h
  | empty => cases h
  | decl e => cases h
  | brk l => cases h
  | cont l => cases h
  | case c b r => cases h
  | cons s r ih1 ih2 =>
    simp only [eval]
    by_cases he : s = .empty ∨ ∃ e, s = .decl e
    · have hw : writes r = true := by
        rcases he with rfl | ⟨e, rfl⟩ <;> exact h
      refine valuedO_seq2 ?_ (fun w => ih2 hw _ _ _)
      intro w' c e t
      rcases he with rfl | ⟨d, rfl⟩
      · simp only [eval, Option.some.injEq, Prod.mk.injEq] at e
        rw [← e.2]; exact ⟨by simp, by simp⟩
      · simp only [eval] at e
        cases hd : d env w with
        | ok w1 v fx =>
          rw [hd] at e
          simp only [andThen, Option.some.injEq, Prod.mk.injEq] at e
          rw [← e.2]; exact ⟨by simp, by simp⟩
        | thr w1 v =>
          rw [hd] at e
          simp only [andThen, Option.some.injEq, Prod.mk.injEq] at e
          rw [← e.2]; exact ⟨by simp, by simp⟩
    · have hw : writes s = true := by
        cases s with
        | empty => exact absurd (.inl rfl) he
        | decl e => exact absurd (.inr ⟨e, rfl⟩) he
        | _ => exact h
      exact valuedO_seq (ih1 hw _ _ _)
  | expr e =>
    simp only [eval]
    refine ValuedO.andThen ?_
    intro w v w' c e
    simp only [Option.some.injEq, Prod.mk.injEq] at e
    rw [← e.2]; rfl
  | block d b ih => exact ih h _ _ _
  | ite c s t _ _ => exact valuedO_upd _ _
  | doWhile s c _ =>
    simp only [eval]
    refine ValuedO.mapC (valued_iterate ?_ _ _) (fun c hc => valued_breakable hc)
    intro a
    refine valuedI_turn (fun w v => valuedI_test (fun w => valuedI_inl _) (fun w => valuedI_normal _ _)) (fun w c hc => hc)
  | while_ c s _ =>
    simp only [eval]
    refine ValuedO.mapC (valued_iterate ?_ _ _) (fun c hc => valued_breakable hc)
    intro a
    refine valuedI_test (fun w => ?_) (fun w => valuedI_normal _ _)
    exact valuedI_turn (fun w v => valuedI_inl _) (fun w c hc => hc)
  | for_ d i c t s _ =>
    simp only [eval]
    have key : ∀ w, ValuedO (mapC (breakable W) (iterate (fun p : σ × V =>
          test W c (within d env) p.1
            (fun w' => Spec.turn (eval W n [] 0 s (within d env) w') ls p.2
              (fun w'' v => increment t (within d env) (perIteration W d (within d env) w'') v)
              (fun w'' c => (w'', c)))
            (fun w' => some (.inr (w', .normal (some p.2)))))
          n (perIteration W d (within d env) w, W.undef))) := by
      intro w
      refine ValuedO.mapC (valued_iterate ?_ _ _) (fun c hc => valued_breakable hc)
      intro a
      refine valuedI_test (fun w => ?_) (fun w => valuedI_normal _ _)
      exact valuedI_turn (fun w v => valuedI_increment _ _ _ _) (fun w c hc => hc)
    cases i with
    | none => exact key _
    | some e => exact ValuedO.andThen (fun w _ => key w)
  | forIn of d e f s _ =>
    simp only [eval]
    refine ValuedO.andThen (fun w x => ValuedO.andThen (fun w1 it => ?_))
    refine ValuedO.mapC (valued_iterate ?_ _ _) (fun c hc => valued_breakable hc)
    intro a
    cases W.stepIt of it a.1 with
    | thr w' x =>
      intro w c e
      simp only [nextValue, Option.some.injEq, Sum.inr.injEq, Prod.mk.injEq] at e
      rw [← e.2]; trivial
    | ok w' o fx =>
      cases o with
      | none => exact valuedI_normal _ _
      | some v =>
        simp only [nextValue]
        cases f v (within d env) w' with
        | thr w2 x =>
          intro w c e
          simp only [bound, Option.some.injEq, Sum.inr.injEq] at e
          have := valued_closing (W := W) of it w2 (.thr x) trivial
          rw [e] at this
          exact this
        | ok w2 x fx =>
          exact valuedI_turn (fun w v => valuedI_inl _) (fun w c hc => valued_closing of it w c hc)
  | switch d e c _ =>
    simp only [eval]
    exact ValuedO.andThen (fun w x => ValuedO.mapC (valuedO_upd _ _) (fun c hc => valued_breakable hc))
  | try_ b hc cd c hf f _ _ _ => exact valuedO_upd _ _
  | with_ e d s _ => exact ValuedO.andThen (fun w x => valuedO_upd _ _)
  | throw_ e =>
    refine ValuedO.andThen ?_
    intro w v w' c e
    simp only [Option.some.injEq, Prod.mk.injEq] at e
    rw [← e.2]; trivial
  | ret e =>
    cases e with
    | none =>
      intro w' c e
      simp only [eval, Option.some.injEq, Prod.mk.injEq] at e
      rw [← e.2]; trivial
    | some e =>
      refine ValuedO.andThen ?_
      intro w v w' c e
      simp only [Option.some.injEq, Prod.mk.injEq] at e
      rw [← e.2]; trivial
  | labelled k s ih =>
    simp only [eval]
    exact ValuedO.mapC (ih h _ _ _) (fun c hc => valued_breakAt k hc)

/-! ## The pending completion -/

/-- The state stack at the finally block. -/
structure PendS (X : Cx V) (q cip fip : Nat) (m : M σ V) (op : Op) (err : V) (nip : Option Nat) : Prop where
  stk : ∃ ph, m.stk = .tr ph op err cip fip nip :: X.K
  env : m.env = X.env
  ip : m.ip = q

/-- The completion `c` is pending. -/
def Pend (code : List (Cmd σ V)) (X : Cx V) (q cip fip : Nat) (m m2 : M σ V) (w' : σ) : Comp V → Prop
  | .normal v => ∃ err, PendS X q cip fip m2 .normal err none ∧ Fr X m m2 w' v
  | .brk v t => ∃ err a j, PendS X q cip fip m2 .normal err (some a) ∧ Fr X m m2 w' v ∧ lookup X.bl t = some j ∧
      AtJump code a (X.d - j.d) j.l
  | .cont v t => ∃ err a j, PendS X q cip fip m2 .normal err (some a) ∧ Fr X m m2 w' v ∧ lookup X.cl t = some j ∧
      AtJump code a (X.d - j.d) j.l
  | .ret v => ∃ err nip, PendS X q cip fip m2 .ret err nip ∧ FrR X m m2 w' v
  | .thr v => ∃ nip, PendS X q cip fip m2 .throw v nip ∧ FrT X m m2 w' v

/-- The state, with the pending completion kept. -/
structure Link (X : Cx V) (m2 m3 : M σ V) : Prop where
  stk : ∀ ph op err cip fip nip, m2.stk = .tr ph op err cip fip nip :: X.K →
    ∃ ph', m3.stk = .tr ph' op err cip fip nip :: X.K
  env : m3.env = m2.env
  flag : m3.flag = true → m2.flag = true
  retv : m3.retv = m2.retv
  regs : ∀ i, i < X.nr ∨ X.rv = some i → m3.regs i = m2.regs i

theorem Fr.link {X : Cx V} {m m2 m3 m4 : M σ V} {w' w'' : σ} {v : Option V} (h : Fr X m m2 w' v) (l : Link X m2 m3)
    (h1 : m4.w = w'') (h2 : m4.flag = m3.flag) (h3 : m4.retv = m3.retv) (h4 : m4.regs = m3.regs) : Fr X m m4 w'' v where
  w := h1
  flag := fun f => h.flag (l.flag (by rw [← h2]; exact f))
  retv := fun f => by rw [h3, l.retv]; exact h.retv f
  regs := fun i hi hr => by rw [h4, l.regs i (.inl hi)]; exact h.regs i hi hr
  rv := fun f r hr => by rw [h4, l.regs r (.inr hr)]; exact h.rv f r hr

/-- The end of a `try` statement takes up the pending completion. -/
theorem resume {X : Cx V} {m m2 m3 : M σ V} {q cip fip qe n l : Nat} {w' w'' : σ} {c : Comp V}
    (h : Pend code X q cip fip m m2 w' c) (hr : Reach W code (.inl m) (.inl m3)) (hl : Link X m2 m3)
    (hw : m3.w = w'') (hip : m3.ip = qe)
    (c1 : code[qe]? = some .tryEnd) (c2 : code[qe + 1]? = some (.stub l)) (c3 : code[qe + 1 + 1]? = some .pop) :
    Post W code X (qe + 1 + 1 + 1) n m (some (w'', c)) := by
  have go : ∀ op err nip, PendS X q cip fip m2 op err nip → Reach W code (.inl m) (popState W
      { m3 with ip := qe + 1 + 1, stk := .tr .end_ op err cip fip nip :: X.K }) ∧ m3.env = X.env := by
    intro op err nip hp
    obtain ⟨ph, hk⟩ := hp.stk
    obtain ⟨ph', hk'⟩ := hl.stk _ _ _ _ _ _ hk
    have s1 := step0 (W := W) (code := code) (m := m3) (c := .tryEnd) (by rw [hip]; exact c1)
    simp only [exec, setPhase, hk', hip] at s1
    have s2 := stub_step (W := W) (code := code) (l := l)
      (m := { m3 with ip := qe + 1, stk := .tr .end_ op err cip fip nip :: X.K }) c2
    have s3 := step0 (W := W) (code := code)
      (m := { m3 with ip := qe + 1 + 1, stk := .tr .end_ op err cip fip nip :: X.K }) (c := .pop) c3
    exact ⟨hr.trans (s1.trans (s2.to.trans s3)), hl.env.trans hp.env⟩
  cases c with
  | normal v =>
    obtain ⟨err, hp, hf⟩ := h
    obtain ⟨g1, g2⟩ := go _ _ _ hp
    simp only [popState] at g1
    exact ⟨_, g1, hf.link hl hw rfl rfl rfl, rfl, g2, rfl⟩
  | brk v t =>
    obtain ⟨err, a, j, hp, hf, hj, ha⟩ := h
    obtain ⟨g1, g2⟩ := go _ _ _ hp
    simp only [popState] at g1
    exact ⟨_, j, hj, g1, hf.link hl hw rfl rfl rfl, rfl, g2, ha⟩
  | cont v t =>
    obtain ⟨err, a, j, hp, hf, hj, ha⟩ := h
    obtain ⟨g1, g2⟩ := go _ _ _ hp
    simp only [popState] at g1
    exact ⟨_, j, hj, g1, hf.link hl hw rfl rfl rfl, rfl, g2, ha⟩
  | ret v =>
    obtain ⟨err, nip, hp, hf⟩ := h
    obtain ⟨g1, g2⟩ := go _ _ _ hp
    simp only [popState] at g1
    refine ⟨_, g1, ⟨hw, fun f => hf.flag (hl.flag f), hf.nofin, ?_, ?_⟩, g2⟩
    · exact hl.retv.trans hf.retv
    · exact fun i hi hr => (hl.regs i (.inl hi)).trans (hf.regs i hi hr)
  | thr v =>
    obtain ⟨nip, hp, hf⟩ := h
    obtain ⟨g1, g2⟩ := go _ _ _ hp
    simp only [popState] at g1
    refine ⟨_, g1, ⟨hw, rfl, rfl, ?_, ?_⟩, g2⟩
    · exact fun f => hl.retv.trans (hf.retv f)
    · exact fun i hi hr => (hl.regs i (.inl hi)).trans (hf.regs i hi hr)

/-- The end of the try or catch block makes its completion pending. -/
theorem toPend {X : Cx V} {m : M σ V} {q cip fip n : Nat} {w' : σ} {c : Comp V} {ph : Phase} {err : V}
    (hX : Near X) (hph : ph = .try_ ∨ ph = .catch_) (hc : ph = .try_ → ∀ v, c ≠ .thr v)
    (hq : ∀ m' : M σ V, m'.ip = fip → Reach W code (.inl m') (.inl { m' with ip := q }))
    (h : Post W code { X with d := X.d + 1, K := .tr ph .normal err cip fip none :: X.K } q n m (some (w', c))) :
    ∃ m2, Reach W code (.inl m) (.inl m2) ∧ Pend code X q cip fip m m2 w' c := by
  have jm : ∀ (m' : M σ V) (j : J), j.d ≤ X.d → AtJump code m'.ip (X.d + 1 - j.d) j.l →
      m'.stk = .tr ph .normal err cip fip none :: X.K →
      Reach W code (.inl m') (.inl { m' with ip := q, stk := .tr ph .normal err cip fip (some (m'.ip + 1)) :: X.K }) ∧
      AtJump code (m'.ip + 1) (X.d - j.d) j.l := by
    intro m' j hd ha hs
    rw [show X.d + 1 - j.d = (X.d - j.d) + 1 by omega] at ha
    have hp := ha.pop
    have s := step0 (W := W) hp.1
    have e : exec W code m' .pop = .inl { m' with stk := .tr ph .normal err cip fip (some (m'.ip + 1)) :: X.K, ip := fip } := by
      rcases hph with rfl | rfl <;> simp only [exec, popState, hs]
    rw [e] at s
    exact ⟨s.trans (hq _ rfl), hp.2⟩
  cases c with
  | normal v =>
    obtain ⟨m', h1, h2, h3, h4, h5⟩ := h
    exact ⟨m', h1, err, ⟨⟨ph, h3⟩, h4, h5⟩, ⟨h2.w, h2.flag, h2.retv, h2.regs, h2.rv⟩⟩
  | brk v t =>
    obtain ⟨m', j, h1, h2, h3, h4, h5, h6⟩ := h
    obtain ⟨e, he, hj, _⟩ := lookup_mem h1
    have hd : j.d ≤ X.d := hj ▸ hX.1 e he
    obtain ⟨g1, g2⟩ := jm m' j hd h6 h4
    exact ⟨_, h2.trans g1, err, _, j, ⟨⟨ph, rfl⟩, h5, rfl⟩, ⟨h3.w, h3.flag, h3.retv, h3.regs, h3.rv⟩, h1, g2⟩
  | cont v t =>
    obtain ⟨m', j, h1, h2, h3, h4, h5, h6⟩ := h
    obtain ⟨e, he, hj, _⟩ := lookup_mem h1
    have hd : j.d ≤ X.d := hj ▸ hX.2 e he
    obtain ⟨g1, g2⟩ := jm m' j hd h6 h4
    exact ⟨_, h2.trans g1, err, _, j, ⟨⟨ph, rfl⟩, h5, rfl⟩, ⟨h3.w, h3.flag, h3.retv, h3.regs, h3.rv⟩, h1, g2⟩
  | ret v =>
    obtain ⟨m', h1, h2, h3⟩ := h
    have e : unwind W (.tr ph .normal err cip fip none :: X.K) .ret m' =
        .inl { m' with stk := .tr ph .ret err cip fip none :: X.K, ip := fip } := by
      rcases hph with rfl | rfl <;> simp [unwind]
    have h1' : Reach W code (.inl m) (unwind W (.tr ph .normal err cip fip none :: X.K) .ret m') := h1
    rw [e] at h1'
    exact ⟨_, h1'.trans (hq _ rfl), err, none, ⟨⟨ph, rfl⟩, h3, rfl⟩, ⟨h2.w, h2.flag, h2.nofin, h2.retv, h2.regs⟩⟩
  | thr v =>
    rcases hph with rfl | rfl
    · exact absurd rfl (hc rfl v)
    obtain ⟨m', h1, h2, h3⟩ := h
    have e : unwind W (.tr .catch_ .normal err cip fip none :: X.K) .throw m' =
        .inl { m' with stk := .tr .catch_ .throw v cip fip none :: X.K, ip := fip } := by
      simp [unwind, h2.err]
    have h1' : Reach W code (.inl m) (unwind W (.tr .catch_ .normal err cip fip none :: X.K) .throw m') := h1
    rw [e] at h1'
    exact ⟨_, h1'.trans (hq _ rfl), none, ⟨⟨.catch_, rfl⟩, h3, rfl⟩, ⟨h2.w, h2.flag, h2.err, h2.retv, h2.regs⟩⟩

end Verif.Flow

import Verif.Lemmas.FlowSim

/-! The simulation for `if` and the loops. -/

namespace Verif.Flow

open Spec

variable {σ V : Type} {W : World σ V} {code : List (Cmd σ V)}

theorem Post.exit {X : Cx V} {m : M σ V} {q q' n : Nat} {o : Out σ V} (h : Post W code X q n m o)
    (e : q = q') : Post W code X q' n m o := e ▸ h

theorem jF_step {m : M σ V} {r l p : Nat} (hL : LOK code) (h : code[m.ip]? = some (.jF r l))
    (hp : code[p]? = some (.stub l)) :
    Reach1 W code (.inl m) (.inl { m with ip := if W.truthy (m.regs r) then m.ip + 1 else p }) := by
  have := step1 (W := W) h
  simp only [exec, hL p l hp] at this
  exact this

theorem jT_step {m : M σ V} {r l p : Nat} (hL : LOK code) (h : code[m.ip]? = some (.jT r l))
    (hp : code[p]? = some (.stub l)) :
    Reach1 W code (.inl m) (.inl { m with ip := if W.truthy (m.regs r) then p else m.ip + 1 }) := by
  have := step1 (W := W) h
  simp only [exec, hL p l hp] at this
  exact this

theorem mapC_andThen2 {A : Type} (r : Res σ V A) (k : σ → A → Out σ V) (ls : List Nat) (br : Bool) (x : V) :
    mapC (stop br ls) (mapC (upd · (some x)) (andThen r k)) =
      andThen r (fun w a => mapC (stop br ls) (mapC (upd · (some x)) (k w a))) := by
  cases r <;> rfl

theorem sim_ite {s t : Stmt σ V} (c : Ex σ V) (hL : LOK code) (h1 : Sim W code s) (h2 : Sim W code t) :
    Sim W code (.ite c s t) := by
  intro X E lb ls nr nl p n m h
  have hcode := h.code
  have hinv0 := h.inv.brk false (nl + 1)
  simp only [gen] at hcode ⊢
  generalize hE : ({ E with bs := ⟨ls, false, ⟨nl + 1, E.d, E.rv⟩⟩ :: E.bs } : Env) = E' at hcode hinv0 ⊢
  have hg1 := gen_nr E' [] s (nr + 1) (nl + 2)
  generalize ha : gen E' [] s (nr + 1) (nl + 2) = a at hcode hg1 ⊢
  generalize hb : gen E' [] t a.nr a.nl = b at hcode ⊢
  obtain ⟨c0, c1⟩ := hcode.append
  obtain ⟨c1, c2⟩ := c1.append
  obtain ⟨c1, c1'⟩ := c1.cons
  have c1' := c1'.cons.1
  obtain ⟨c2, c3⟩ := c2.append
  obtain ⟨c3, c4⟩ := c3.append
  obtain ⟨c3, c3'⟩ := c3.cons
  have c3' := c3'.cons.1
  obtain ⟨c4, c5⟩ := c4.append
  have c5 := c5.cons.1
  obtain ⟨m0, r1, r2, r3, r4, r5, r6, r7, _⟩ := loadRv_reach (W := W) (X := X) h.inv.rv h.ip c0
  have hpr := h.pr
  simp only [parse, Bool.and_eq_true] at hpr
  simp only [List.length_append, List.length_cons, List.length_nil, Nat.zero_add] at c1 c1' c2 c3 c3' c4 c5 ⊢
  obtain ⟨q, hq⟩ : ∃ q, q = p + ((loadRv E.rv : List (Cmd σ V)).length + (1 + 1 + (a.code.length + (1 + 1 + (b.code.length + 1))))) := ⟨_, rfl⟩
  rw [← hq]
  simp only [eval]
  rw [show c X.env m.w = c m0.env m0.w by rw [r4, r5, h.env]]
  have key : Post W code X q n m0 (mapC (stop false ls) (andThen (c m0.env m0.w) (fun w' v =>
      if W.truthy v then eval W n [] 0 s X.env w' else eval W n [] 0 t X.env w'))) := by
    rw [andThen_stop]
    refine Post.ex (by rw [r3]; exact c1) h.ok.1 (r6.trans h.stk) (r5.trans h.env) h.inv.lo
      (fun i hi => Nat.ne_of_lt (h.inv.hi i hi)) ?_
    intro w v
    have hj := jF_step (W := W) hL (m := { m0 with w := w, ip := m0.ip + 1, regs := setR m0.regs nr v })
      (by simp only [r3]; exact c1') c3'
    simp only [setR_eq] at hj
    refine Post.pre0 (hj.to) (Pre.regs_only rfl rfl (fun _ _ => rfl)) ?_
    cases htr : W.truthy v with
    | true =>
      simp only [↓reduceIte]
      have p1 := h1.use (n := n) (nl := nl + 2) (nr := nr + 1)
        (m := { m0 with w := w, ip := m0.ip + 1 + 1, regs := setR m0.regs nr v })
        ⟨hinv0.mono (Nat.le_succ nr), hpr.1, h.ok.2.1, by rw [ha]; exact c2, by simp only [r3], r6.trans h.stk, r5.trans h.env,
          fun hf => by simp only [r7]; exact h.flag hf⟩
      rw [ha] at p1
      have p2 := Post.next p1 (q' := _) (fun m' e _ => (jmp_step hL (by rw [e]; exact c3) c5).to)
      have p3 := Post.stop hL c5 p2
      refine p3.exit ?_
      omega
    | false =>
      simp only [Bool.false_eq_true, ↓reduceIte]
      have hs := stub_step (W := W) (code := code) (l := nl)
        (m := { m0 with w := w, ip := _, regs := setR m0.regs nr v }) c3'
      have p1 := h2.use (n := n) (nl := a.nl) (nr := a.nr)
        (m := { m0 with w := w, ip := p + (loadRv E.rv : List (Cmd σ V)).length + (1 + 1) + a.code.length + 1 + 1, regs := setR m0.regs nr v })
        ⟨hinv0.mono (Nat.le_trans (Nat.le_succ nr) hg1), hpr.2, h.ok.2.2, by rw [hb]; exact c4, rfl, r6.trans h.stk, r5.trans h.env,
          fun hf => by simp only [r7]; exact h.flag hf⟩
      rw [hb] at p1
      have p3 := Post.stop hL c5 p1
      have p4 := Post.pre0 hs.to (Pre.regs_only rfl rfl (fun _ _ => rfl)) p3
      refine p4.exit ?_
      omega
  have := Post.pre r1 r2 key
  rw [mapC_mapC] at this
  rw [mapC_mapC]
  simp only [stop_upd]
  exact this

/-- In a loop begun at `m`: the world is `w`, the last value `v`. -/
structure LA (W : World σ V) (code : List (Cmd σ V)) (X : Cx V) (m : M σ V) (w : σ) (v : V) (m1 : M σ V) :
    Prop where
  reach : Reach W code (.inl m) (.inl m1)
  pre : Pre X m m1 (some v)
  w : m1.w = w
  stk : m1.stk = X.K
  env : m1.env = X.env

theorem LA.go {X : Cx V} {m m1 m2 : M σ V} {w w' : σ} {v : V} (h : LA W code X m w v m1)
    (r : Reach W code (.inl m1) (.inl m2)) (hp : Pre X m1 m2 none) (hw : m2.w = w') (hs : m2.stk = m1.stk)
    (he : m2.env = m1.env) : LA W code X m w' v m2 :=
  ⟨h.reach.trans r, h.pre.trans (Same.refl X) hp, hw, hs.trans h.stk, he.trans h.env⟩

/-- Going on after a body. -/
theorem LA.body {X X1 : Cx V} {m m1 m2 : M σ V} {w w' : σ} {v : V} {x : Option V} (h : LA W code X m w v m1)
    (hX : Same X X1)
    (r : Reach W code (.inl m1) (.inl m2)) (hp : Fr X1 m1 m2 w' x) (hs : m2.stk = X.K)
    (he : m2.env = X.env) : LA W code X m w' (x.getD v) m2 := by
  refine ⟨h.reach.trans r, ?_, hp.w, hs, he⟩
  have := h.pre.trans hX hp.pre
  cases x <;> exact this

theorem LA.post {X : Cx V} {m m1 : M σ V} {w : σ} {v : V} {q n : Nat} {w' : σ} {c : Comp V}
    (h : LA W code X m w v m1) (hp : Post W code X q n m1 (some (w', c))) :
    Post W code X q n m (some (w', upd c (some v))) := Post.pre h.reach h.pre hp

/-- One turn of a loop, from `m1`. -/
def IterPost (W : World σ V) (code : List (Cmd σ V)) (X : Cx V) (m : M σ V) (J : σ → V → M σ V → Prop)
    (q n : Nat) (ls : List Nat) (m1 : M σ V) : Option ((σ × V) ⊕ (σ × Comp V)) → Prop
  | none => Runs W code n (.inl m1)
  | some (.inl (w', v')) => ∃ m2, Reach W code (.inl m1) (.inl m2) ∧ J w' v' m2
  | some (.inr (w', c)) => Post W code X q n m (some (w', stop false ls (breakable W c)))

theorem IterPost.pre {X : Cx V} {m m1 m2 : M σ V} {J : σ → V → M σ V → Prop} {q n : Nat} {ls : List Nat}
    {r : Option ((σ × V) ⊕ (σ × Comp V))} (h : Reach W code (.inl m1) (.inl m2))
    (hp : IterPost W code X m J q n ls m2 r) : IterPost W code X m J q n ls m1 r := by
  rcases r with _ | ⟨w', v'⟩ | ⟨w', c⟩
  · exact Runs.of_reach h hp
  · obtain ⟨m3, r, hj⟩ := hp
    exact ⟨m3, h.trans r, hj⟩
  · exact hp

theorem loop_sim {X : Cx V} {m m1 : M σ V} {J : σ → V → M σ V → Prop} {q n : Nat} {ls : List Nat}
    {f : σ × V → Option ((σ × V) ⊕ (σ × Comp V))} {a : σ × V}
    (hf : ∀ a m1, J a.1 a.2 m1 → ∃ m2, Reach1 W code (.inl m1) (.inl m2) ∧ IterPost W code X m J q n ls m2 (f a))
    (hr : Reach W code (.inl m) (.inl m1)) (hJ : J a.1 a.2 m1) :
    Post W code X q n m (mapC (stop false ls) (mapC (breakable W) (iterate f n a))) := by
  have := loop_post (W := W) (code := code) (f := f) (I := fun a m1 => J a.1 a.2 m1)
    (P := fun o => Post W code X q n m (some (o.1, stop false ls (breakable W o.2)))) (n := n) (by
      intro a m1 hJ
      obtain ⟨m2, hr, this⟩ := hf a m1 hJ
      refine ⟨fun h => ?_, fun a' h => ?_, fun o h => ?_⟩
      · rw [h] at this; exact Runs.of_reach hr.to this
      · rw [h] at this
        obtain ⟨m3, hr', hj⟩ := this
        exact ⟨m3, hr.trans hr', hj⟩
      · rw [h] at this; exact this) n (Nat.le_refl _) a m1 hJ
  cases hi : iterate f n a with
  | none => exact Runs.of_reach hr (this.1 hi)
  | some o => exact this.2 o hi

theorem Post.anyq {X : Cx V} {m : M σ V} {q q' n : Nat} {w' : σ} {c : Comp V} (hn : ∀ v, c ≠ .normal v)
    (h : Post W code X q n m (some (w', c))) : Post W code X q' n m (some (w', c)) := by
  cases c with
  | normal v => exact absurd rfl (hn v)
  | _ => exact h

/-- The body of a loop. -/
theorem turn_cases {X : Cx V} {m : M σ V} {qb qe qc n lbk lct : Nat} {w' : σ} {c : Comp V} {ls : List Nat}
    {rv rv' : Option Nat} (hL : LOK code) (he : code[qe]? = some (.stub lbk)) (hc : code[qc]? = some (.stub lct))
    (h : Post W code { X with bl := ⟨ls, true, ⟨lbk, X.d, rv⟩⟩ :: X.bl, cl := ⟨ls, true, ⟨lct, X.d, rv'⟩⟩ :: X.cl }
      qb n m (some (w', c))) :
    (loopContinues c ls = true → ∃ m2, Reach W code (.inl m) (.inl m2) ∧ Fr X m m2 w' (value c) ∧
      m2.stk = X.K ∧ m2.env = X.env ∧ (m2.ip = qb ∨ m2.ip = qc)) ∧
    (loopContinues c ls = false → Post W code X (qe + 1) n m (some (w', stop true ls c))) := by
  constructor
  · intro hl
    cases c with
    | normal v =>
      obtain ⟨m', h1, h2, h3, h4, h5⟩ := h
      exact ⟨m', h1, ⟨h2.w, h2.flag, h2.retv, h2.regs, h2.rv⟩, h3, h4, .inl h5⟩
    | cont v t =>
      obtain ⟨m', j, h1, h2, h3, h4, h5, h6⟩ := h
      rcases lookup_cons h1 with ⟨ht, rfl⟩ | ⟨ht, h1'⟩
      · have hj := h6.2
        simp only [Nat.sub_self, Nat.add_zero] at hj
        have r1 := jmp_step (W := W) hL hj hc
        exact ⟨_, h2.trans r1.to, ⟨h3.w, h3.flag, h3.retv, h3.regs, h3.rv⟩, h4, h5, .inr rfl⟩
      · cases t with
        | none => simp [hit] at ht
        | some k =>
          simp only [loopContinues, decide_eq_true_eq] at hl
          simp [hit, hl] at ht
    | brk v t => simp [loopContinues] at hl
    | ret v => simp [loopContinues] at hl
    | thr v => simp [loopContinues] at hl
  · intro hl
    have hn : ∀ v, c ≠ .normal v := by
      intro v e
      rw [e] at hl
      simp [loopContinues] at hl
    have h0 : Post W code { X with bl := ⟨ls, true, ⟨lbk, X.d, rv⟩⟩ :: X.bl } qe n m (some (w', c)) := by
      have := h.anyq (q' := qe) hn
      cases c with
      | normal v => exact absurd rfl (hn v)
      | cont v t =>
        obtain ⟨m', j, h1, h2, h3, h4⟩ := this
        rcases lookup_cons h1 with ⟨ht, rfl⟩ | ⟨ht, h1'⟩
        · cases t with
          | none => simp [loopContinues] at hl
          | some k =>
            simp only [loopContinues, decide_eq_false_iff_not] at hl
            simp [hit, hl] at ht
        · exact ⟨m', j, h1', h2, ⟨h3.w, h3.flag, h3.retv, h3.regs, h3.rv⟩, h4⟩
      | brk v t =>
        obtain ⟨m', j, h1, h2, h3, h4⟩ := this
        exact ⟨m', j, h1, h2, ⟨h3.w, h3.flag, h3.retv, h3.regs, h3.rv⟩, h4⟩
      | ret v =>
        obtain ⟨m', h1, h2, h3⟩ := this
        exact ⟨m', h1, ⟨h2.w, h2.flag, h2.nofin, h2.retv, h2.regs⟩, h3⟩
      | thr v =>
        obtain ⟨m', h1, h2, h3⟩ := this
        exact ⟨m', h1, ⟨h2.w, h2.flag, h2.err, h2.retv, h2.regs⟩, h3⟩
    exact Post.stop hL he h0

/-- The body of a loop, and what comes after it. -/
theorem IterPost.turn {X : Cx V} {m m1 : M σ V} {J : σ → V → M σ V → Prop} {qb qe qc n lbk lct : Nat}
    {o : Out σ V} {ls : List Nat} {w : σ} {v : V} {next : σ → V → Option ((σ × V) ⊕ (σ × Comp V))}
    {rv rv' : Option Nat} (hL : LOK code) (he : code[qe]? = some (.stub lbk)) (hc : code[qc]? = some (.stub lct))
    (hA : LA W code X m w v m1)
    (h : Post W code { X with bl := ⟨ls, true, ⟨lbk, X.d, rv⟩⟩ :: X.bl, cl := ⟨ls, true, ⟨lct, X.d, rv'⟩⟩ :: X.cl }
      qb n m1 o)
    (hn : ∀ w' v' m2, LA W code X m w' v' m2 → (m2.ip = qb ∨ m2.ip = qc) →
      IterPost W code X m J (qe + 1) n ls m2 (next w' v')) :
    IterPost W code X m J (qe + 1) n ls m1 (Spec.turn o ls v next (fun w' c => (w', c))) := by
  rcases o with _ | ⟨w', c⟩
  · exact h
  · simp only [Spec.turn]
    obtain ⟨h1, h2⟩ := turn_cases hL he hc h
    cases hl : loopContinues c ls with
    | true =>
      simp only [↓reduceIte]
      obtain ⟨m2, r, f, s, e, i⟩ := h1 hl
      exact IterPost.pre r (hn _ _ m2 (hA.body (Same.refl X) r f s e) i)
    | false =>
      simp only [Bool.false_eq_true, ↓reduceIte, IterPost]
      have := hA.post (h2 hl)
      rw [stop_breakable, stop_upd]
      exact this

/-- The condition of a loop (`test`). -/
theorem IterPost.cond {X : Cx V} {m m1 : M σ V} {J : σ → V → M σ V → Prop} {q n r : Nat}
    {ls : List Nat} {w : σ} {v : V} {c : Ex σ V} {yes no : σ → Option ((σ × V) ⊕ (σ × Comp V))}
    (hA : LA W code X m w v m1) (hc : code[m1.ip]? = some (.ex c r)) (hq : Quiet c) (h1 : X.nr ≤ r)
    (h2 : ∀ i, X.rv = some i → i ≠ r)
    (hy : ∀ w' x m2, LA W code X m w' v m2 → m2.ip = m1.ip + 1 → m2.regs r = x →
      IterPost W code X m J q n ls m2 (if W.truthy x then yes w' else no w')) :
    IterPost W code X m J q n ls m1 (test W (some c) X.env w yes no) := by
  have e : c X.env w = c m1.env m1.w := by rw [hA.env, hA.w]
  simp only [test]
  rw [e]
  cases hr : c m1.env m1.w with
  | thr w' x =>
    simp only [IterPost]
    have : Post W code X q n m1 (some (w', .thr x)) :=
      Post.throw (ex_thr hc hr).to hA.stk rfl rfl rfl hA.env (fun _ => rfl) (fun _ _ _ => rfl)
    exact hA.post this
  | ok w' x fx =>
    have hs := ex_ok (W := W) hc hq hr
    refine IterPost.pre hs.to (hy w' x _ (hA.go hs.to (Pre.regs_only rfl rfl ?_) rfl rfl rfl) rfl setR_eq)
    intro i hi
    rcases hi with hi | hi
    · exact setR_ne (by omega)
    · exact setR_ne (h2 i hi)

theorem LA.start {X : Cx V} {m m1 : M σ V} {v : V} (hr : Reach W code (.inl m) (.inl m1))
    (hp : Pre X m m1 (some v)) (hs : m1.stk = X.K) (he : m1.env = X.env) : LA W code X m m1.w v m1 :=
  ⟨hr, hp, rfl, hs, he⟩

/-- The loop ends normally. -/
theorem LA.done {X : Cx V} {m m1 : M σ V} {w : σ} {v : V} {q n : Nat} (h : LA W code X m w v m1)
    (hq : m1.ip = q) : Post W code X q n m (some (w, .normal (some v))) :=
  ⟨m1, h.reach, ⟨h.w, h.pre.flag, h.pre.retv, h.pre.regs, h.pre.rv⟩, h.stk, h.env, hq⟩

/-- Inside a loop. -/
theorem Inv.loop {X : Cx V} {E : Env} {lb ls : List Nat} {nr : Nat} (h : Inv X E lb ls nr) (l l' : Nat) :
    Inv { X with bl := ⟨ls, true, ⟨l, X.d, E.rv⟩⟩ :: X.bl, cl := ⟨ls, true, ⟨l', X.d, E.rv⟩⟩ :: X.cl }
      { E with bs := ⟨ls, true, ⟨l, E.d, E.rv⟩⟩ :: E.bs, cs := ⟨ls, true, ⟨l', E.d, E.rv⟩⟩ :: E.cs }
      lb [] nr where
  d := h.d
  rv := h.rv
  bs := by
    obtain ⟨ob, hob⟩ := h.bs
    exact ⟨ob, by simp [hob, h.d]⟩
  cs := by
    obtain ⟨ob, hob⟩ := h.cs
    exact ⟨ob, by simp [hob, h.d]⟩
  b := by
    intro t ht
    rcases List.mem_cons.mp ht with rfl | ht
    · exact ⟨Nat.le_refl _, h.rv, fun x hx => (h.ls x hx).1⟩
    · exact h.b t ht
  c := by
    intro t ht
    rcases List.mem_cons.mp ht with rfl | ht
    · exact ⟨rfl, Nat.le_refl _, h.rv⟩
    · exact h.c t ht
  ls := by simp
  lo := h.lo
  hi := h.hi

theorem sim_while {s : Stmt σ V} (c : Ex σ V) (hL : LOK code) (h1 : Sim W code s) :
    Sim W code (.while_ c s) := by
  intro X E lb ls nr nl p n m h
  have hcode := h.code
  have hinv0 := h.inv.loop (nl + 1) nl
  simp only [gen] at hcode ⊢
  generalize hE : ({ E with bs := ⟨ls, true, ⟨nl + 1, E.d, E.rv⟩⟩ :: E.bs, cs := ⟨ls, true, ⟨nl, E.d, E.rv⟩⟩ :: E.cs } : Env) = E' at hcode hinv0 ⊢
  generalize ha : gen E' [] s (nr + 1) (nl + 2) = a at hcode ⊢
  obtain ⟨c0, c1⟩ := hcode.append
  obtain ⟨c1, c2⟩ := c1.append
  obtain ⟨c1, c1'⟩ := c1.cons
  obtain ⟨c1', c1''⟩ := c1'.cons
  have c1'' := c1''.cons.1
  obtain ⟨c2, c3⟩ := c2.append
  obtain ⟨c3, c4⟩ := c3.cons
  have c4 := c4.cons.1
  obtain ⟨m0, r1, r2, r3, r4, r5, r6, r7, _⟩ := loadRv_reach (W := W) (X := X) h.inv.rv h.ip c0
  simp only [List.length_append, List.length_cons, List.length_nil, Nat.zero_add] at c1 c1' c1'' c2 c3 c4 ⊢
  simp only [eval]
  obtain ⟨q, hq⟩ : ∃ q, q = p + (loadRv E.rv : List (Cmd σ V)).length := ⟨_, rfl⟩
  rw [← hq] at c1 c1' c1'' c2 c3 c4 r3
  obtain ⟨qe, hqe⟩ : ∃ qe, qe = q + (1 + 1 + 1) + a.code.length + 1 := ⟨_, rfl⟩
  rw [← hqe] at c4
  have hfin : Post W code X (qe + 1) n m (mapC (stop false ls) (mapC (breakable W) (iterate (fun p : σ × V =>
        test W (some c) X.env p.1
          (fun w' => turn (eval W n [] 0 s X.env w') ls p.2
            (fun w'' v => some (.inl (w'', v))) (fun w'' c => (w'', c)))
          (fun w' => some (.inr (w', .normal (some p.2))))) n (m.w, W.undef)))) := by
    refine loop_sim (J := fun w v m1 => LA W code X m w v m1 ∧ m1.ip = q) (m1 := m0) ?_ r1 ?_
    · rintro ⟨w, v⟩ m1 ⟨hA, hip⟩
      have hs := stub_step (W := W) (code := code) (m := m1) (l := nl) (by rw [hip]; exact c1)
      have hA1 := hA.go hs.to (Pre.regs_only rfl rfl (fun _ _ => rfl)) hA.w rfl rfl
      refine ⟨_, hs, ?_⟩
      refine IterPost.cond hA1 (by simp only [hip]; exact c1') h.ok.1 h.inv.lo (fun i hi => Nat.ne_of_lt (h.inv.hi i hi)) ?_
      intro w' x m2 hA2 hip2 hx
      have hw2 := hA2.w
      subst hw2
      have hj := jF_step (W := W) hL (m := m2) (by rw [hip2]; simp only [hip]; exact c1'') c4
      rw [hx] at hj
      refine IterPost.pre hj.to ?_
      have hA3 := hA2.go hj.to (Pre.regs_only rfl rfl (fun _ _ => rfl)) hA2.w rfl rfl
      cases htr : W.truthy x with
      | true =>
        simp only [↓reduceIte]
        rw [htr] at hA3
        simp only [↓reduceIte] at hA3
        have hok2 : X.fin = false → m2.flag = false := flag_down h.flag hA2.pre.flag
        have p1 := h1.use (n := n) (nl := nl + 2) (nr := nr + 1) (m := { m2 with ip := m2.ip + 1 })
          ⟨hinv0.mono (Nat.le_succ nr), h.pr, h.ok.2, by rw [ha]; exact c2, by simp only [hip2, hip], hA3.stk, hA3.env, hok2⟩
        rw [ha] at p1
        refine IterPost.turn (qc := q) hL c4 c1 hA3 p1 ?_
        intro w3 v3 m3 hA4 hip3
        simp only [IterPost]
        rcases hip3 with hip3 | hip3
        · have hj := jmp_step (W := W) hL (m := m3) (by rw [hip3]; exact c3) c1
          exact ⟨_, hj.to, hA4.go hj.to (Pre.regs_only rfl rfl (fun _ _ => rfl)) hA4.w rfl rfl, rfl⟩
        · exact ⟨m3, .refl _, hA4, hip3⟩
      | false =>
        rw [htr] at hA3
        simp only [Bool.false_eq_true, ↓reduceIte] at hA3 ⊢
        have hs := stub_step (W := W) (code := code) (m := { m2 with ip := qe }) (l := nl + 1) c4
        simp only [IterPost]
        exact (hA3.go hs.to (Pre.regs_only rfl rfl (fun _ _ => rfl)) hA3.w rfl rfl).done rfl
    · refine ⟨?_, r3⟩
      have := LA.start r1 r2 (r6.trans h.stk) (r5.trans h.env)
      rw [r4] at this
      exact this
  refine hfin.exit ?_
  omega

end Verif.Flow

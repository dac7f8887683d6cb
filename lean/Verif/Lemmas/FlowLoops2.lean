import Verif.Lemmas.FlowLoops

/-! The simulation for `do`, `for`, `for`-`in` and `for`-`of`. -/

namespace Verif.Flow

open Spec

variable {σ V : Type} {W : World σ V} {code : List (Cmd σ V)}

theorem sim_doWhile {s : Stmt σ V} (c : Ex σ V) (hL : LOK code) (h1 : Sim W code s) :
    Sim W code (.doWhile s c) := by
  intro X E lb ls nr nl p n m h
  have hcode := h.code
  have hinv0 := h.inv.loop (nl + 1) (nl + 2)
  simp only [gen] at hcode ⊢
  generalize hE : ({ E with bs := ⟨ls, true, ⟨nl + 1, E.d, E.rv⟩⟩ :: E.bs, cs := ⟨ls, true, ⟨nl + 2, E.d, E.rv⟩⟩ :: E.cs } : Env) = E' at hcode hinv0 ⊢
  generalize ha : gen E' [] s (nr + 1) (nl + 3) = a at hcode ⊢
  obtain ⟨c0, c1⟩ := hcode.append
  obtain ⟨c1, c2⟩ := c1.append
  have c1 := c1.cons.1
  obtain ⟨c2, c3⟩ := c2.append
  obtain ⟨c3, c4⟩ := c3.cons
  obtain ⟨c4, c5⟩ := c4.cons
  obtain ⟨c5, c6⟩ := c5.cons
  have c6 := c6.cons.1
  obtain ⟨m0, r1, r2, r3, r4, r5, r6, r7, _⟩ := loadRv_reach (W := W) (X := X) h.inv.rv h.ip c0
  simp only [List.length_append, List.length_cons, List.length_nil, Nat.zero_add] at c1 c2 c3 c4 c5 c6 ⊢
  simp only [eval]
  obtain ⟨q, hq⟩ : ∃ q, q = p + (loadRv E.rv : List (Cmd σ V)).length := ⟨_, rfl⟩
  rw [← hq] at c1 c2 c3 c4 c5 c6 r3
  obtain ⟨qc, hqc⟩ : ∃ qc, qc = q + 1 + a.code.length := ⟨_, rfl⟩
  rw [← hqc] at c3 c4 c5 c6
  have hfin : Post W code X (qc + 1 + 1 + 1 + 1) n m (mapC (stop false ls) (mapC (breakable W) (iterate (fun p : σ × V =>
        turn (eval W n [] 0 s X.env p.1) ls p.2
          (fun w' v => test W (some c) X.env w' (fun w'' => some (.inl (w'', v)))
            (fun w'' => some (.inr (w'', .normal (some v)))))
          (fun w' c => (w', c))) n (m.w, W.undef)))) := by
    refine loop_sim (J := fun w v m1 => LA W code X m w v m1 ∧ m1.ip = q) (m1 := m0) ?_ r1 ?_
    · rintro ⟨w, v⟩ m1 ⟨hA, hip⟩
      have hs := stub_step (W := W) (code := code) (m := m1) (l := nl) (by rw [hip]; exact c1)
      have hA1 := hA.go hs.to (Pre.regs_only rfl rfl (fun _ _ => rfl)) hA.w rfl rfl
      refine ⟨_, hs, ?_⟩
      have hw1 := hA.w
      simp only at hw1
      subst hw1
      have hok2 : X.fin = false → m1.flag = false := flag_down h.flag hA.pre.flag
      have p1 := h1.use (n := n) (nl := nl + 3) (nr := nr + 1) (m := { m1 with ip := m1.ip + 1 })
        ⟨hinv0.mono (Nat.le_succ nr), h.pr, h.ok.2, by rw [ha]; exact c2, by simp only [hip], hA1.stk, hA1.env, hok2⟩
      rw [ha, ← hqc] at p1
      refine IterPost.turn (qc := qc) (qe := qc + 1 + 1 + 1) hL c6 c3 hA1 p1 ?_
      intro w3 v3 m3 hA4 hip3
      have hip3 : m3.ip = qc := by rcases hip3 with h | h <;> exact h
      have hs := stub_step (W := W) (code := code) (m := m3) (l := nl + 2) (by rw [hip3]; exact c3)
      have hA5 := hA4.go hs.to (Pre.regs_only rfl rfl (fun _ _ => rfl)) hA4.w rfl rfl
      refine IterPost.pre hs.to ?_
      refine IterPost.cond hA5 (by simp only [hip3]; exact c4) h.ok.1 h.inv.lo (fun i hi => Nat.ne_of_lt (h.inv.hi i hi)) ?_
      intro w' x m2 hA2 hip2 hx
      have hj := jT_step (W := W) hL (m := m2) (by rw [hip2]; simp only [hip3]; exact c5) c1
      rw [hx] at hj
      refine IterPost.pre hj.to ?_
      have hA3 := hA2.go hj.to (Pre.regs_only rfl rfl (fun _ _ => rfl)) hA2.w rfl rfl
      cases htr : W.truthy x with
      | true =>
        rw [htr] at hA3
        simp only [↓reduceIte] at hA3 ⊢
        exact ⟨_, .refl _, hA3, rfl⟩
      | false =>
        rw [htr] at hA3
        simp only [Bool.false_eq_true, ↓reduceIte] at hA3 ⊢
        have hs := stub_step (W := W) (code := code) (m := { m2 with ip := m2.ip + 1 }) (l := nl + 1)
          (by simp only [hip2, hip3]; exact c6)
        simp only [IterPost]
        exact (hA3.go hs.to (Pre.regs_only rfl rfl (fun _ _ => rfl)) hA3.w rfl rfl).done (by simp only [hip2, hip3])
    · refine ⟨?_, r3⟩
      have := LA.start r1 r2 (r6.trans h.stk) (r5.trans h.env)
      rw [r4] at this
      exact this
  refine hfin.exit ?_
  omega

/-- A copy of the loop variables. -/
theorem nextD_reach {m : M σ V} {p : Nat} {d : Option Nat} (hip : m.ip = p)
    (hc : CodeAt code p (nextD d)) :
    Reach W code (.inl m) (.inl { m with
      ip := p + (nextD d : List (Cmd σ V)).length, w := perIteration W d m.env m.w }) := by
  cases d with
  | none =>
    have : ({ m with ip := p + (nextD none : List (Cmd σ V)).length, w := perIteration W none m.env m.w } : M σ V) = m := by
      cases m; subst hip; rfl
    rw [this]
    exact .refl _
  | some i =>
    have := step0 (W := W) (m := m) (c := .nextEnv) (by rw [hip]; exact hc.cons.1)
    simp only [exec] at this
    rw [hip] at this
    exact this

theorem sim_for {s : Stmt σ V} (d : Option Nat) (init cond step : Option (Ex σ V)) (hL : LOK code)
    (h1 : Sim W code s) : Sim W code (.for_ d init cond step s) := by
  intro X E lb ls nr nl p n m h
  have hcode := h.code
  have hinvD := h.inv.deeper (depD d) (envs d ++ X.K) (within d X.env)
  have hinv0 := hinvD.loop (nl + 2) (nl + 1)
  obtain ⟨ok1, ok2, ok3, ok4⟩ := h.ok
  simp only [gen] at hcode ⊢
  generalize hE : ({ E with d := E.d + depD d, bs := ⟨ls, true, ⟨nl + 2, E.d + depD d, E.rv⟩⟩ :: E.bs, cs := ⟨ls, true, ⟨nl + 1, E.d + depD d, E.rv⟩⟩ :: E.cs } : Env) = E' at hcode hinv0 ⊢
  have hg1 := gen_nr E' [] s (nr + regO init + regO cond) (nl + 3)
  generalize ha : gen E' [] s (nr + regO init + regO cond) (nl + 3) = a at hcode hg1 ⊢
  obtain ⟨c0, c1⟩ := hcode.append
  obtain ⟨c1, c2⟩ := c1.append
  obtain ⟨c2, c3⟩ := c2.append
  obtain ⟨c3, c4⟩ := c3.append
  obtain ⟨c4, c5⟩ := c4.append
  have c4 := c4.cons.1
  obtain ⟨c5, c6⟩ := c5.append
  obtain ⟨c6, c7⟩ := c6.append
  obtain ⟨c7, c8⟩ := c7.append
  have c7 := c7.cons.1
  obtain ⟨c8, c9⟩ := c8.append
  obtain ⟨c9, c10⟩ := c9.append
  obtain ⟨c10, c12⟩ := c10.append
  obtain ⟨c10, c11⟩ := c10.cons
  have c11 := c11.cons.1
  simp only [List.length_append, List.length_cons, List.length_nil, Nat.zero_add] at c1 c2 c3 c4 c5 c6 c7 c8 c9 c10 c11 c12 ⊢
  obtain ⟨q1, hq1⟩ : ∃ q, q = p + (pushD d : List (Cmd σ V)).length := ⟨_, rfl⟩
  rw [← hq1] at c1 c2 c3 c4 c5 c6 c7 c8 c9 c10 c11 c12
  obtain ⟨q2, hq2⟩ : ∃ q, q = q1 + (exO init nr : List (Cmd σ V)).length := ⟨_, rfl⟩
  rw [← hq2] at c2 c3 c4 c5 c6 c7 c8 c9 c10 c11 c12
  obtain ⟨q3, hq3⟩ : ∃ q, q = q2 + (loadRv E.rv : List (Cmd σ V)).length := ⟨_, rfl⟩
  rw [← hq3] at c3 c4 c5 c6 c7 c8 c9 c10 c11 c12
  obtain ⟨q4, hq4⟩ : ∃ q, q = q3 + (nextD d : List (Cmd σ V)).length := ⟨_, rfl⟩
  rw [← hq4] at c4 c5 c6 c7 c8 c9 c10 c11 c12
  obtain ⟨q5, hq5⟩ : ∃ q, q = q4 + 1 + (condO cond (nr + regO init) (nl + 2) : List (Cmd σ V)).length := ⟨_, rfl⟩
  rw [← hq5] at c6 c7 c8 c9 c10 c11 c12
  obtain ⟨q6, hq6⟩ : ∃ q, q = q5 + a.code.length := ⟨_, rfl⟩
  rw [← hq6] at c7 c8 c9 c10 c11 c12
  obtain ⟨q7, hq7⟩ : ∃ q, q = q6 + 1 + (nextD d : List (Cmd σ V)).length := ⟨_, rfl⟩
  rw [← hq7] at c9 c10 c11 c12
  obtain ⟨q8, hq8⟩ : ∃ q, q = q7 + (exO step a.nr : List (Cmd σ V)).length := ⟨_, rfl⟩
  rw [← hq8] at c10 c11 c12
  simp only [eval]
  have hpush := pushD_reach (W := W) h.ip c0
  rw [← hq1] at hpush
  have key : Post W code (wd d X) (q8 + 1 + 1) n { m with ip := q1, env := within d m.env, stk := envs d ++ m.stk }
      (mapC (stop false ls) (effect init (within d X.env) m.w (fun w0 =>
        mapC (breakable W) (iterate (fun p : σ × V =>
          test W cond (within d X.env) p.1
            (fun w' => turn (eval W n [] 0 s (within d X.env) w') ls p.2
              (fun w'' v => increment step (within d X.env) (perIteration W d (within d X.env) w'') v)
              (fun w'' c => (w'', c)))
            (fun w' => some (.inr (w', .normal (some p.2)))))
          n (perIteration W d (within d X.env) w0, W.undef))))) := by
    have loop : ∀ ma : M σ V, ma.ip = q2 → ma.stk = (wd d X).K → ma.env = (wd d X).env → ma.flag = m.flag →
        Post W code (wd d X) (q8 + 1 + 1) n ma (mapC (stop false ls) (mapC (breakable W) (iterate (fun p : σ × V =>
          test W cond (within d X.env) p.1
            (fun w' => turn (eval W n [] 0 s (within d X.env) w') ls p.2
              (fun w'' v => increment step (within d X.env) (perIteration W d (within d X.env) w'') v)
              (fun w'' c => (w'', c)))
            (fun w' => some (.inr (w', .normal (some p.2)))))
          n (perIteration W d (within d X.env) ma.w, W.undef)))) := by
      intro ma hip hstk henv hfl
      obtain ⟨m0, r1, r2, r3, r4, r5, r6, r7, _⟩ := loadRv_reach (W := W) (X := wd d X) h.inv.rv hip c2
      rw [← hq3] at r3
      have hnx := nextD_reach (W := W) r3 c3
      rw [← hq4] at hnx
      refine loop_sim (J := fun w v m1 => LA W code (wd d X) ma w v m1 ∧ m1.ip = q4)
        (m1 := { m0 with ip := q4, w := perIteration W d m0.env m0.w }) ?_ (r1.trans hnx) ?_
      · rintro ⟨w, v⟩ m1 ⟨hA, hip⟩
        have hs := stub_step (W := W) (code := code) (m := m1) (l := nl) (by rw [hip]; exact c4)
        have hA1 := hA.go hs.to (Pre.regs_only rfl rfl (fun _ _ => rfl)) hA.w rfl rfl
        refine ⟨_, hs, ?_⟩
        have body : ∀ m2 : M σ V, ∀ w2, LA W code (wd d X) ma w2 v m2 → m2.ip = q5 →
            IterPost W code (wd d X) ma (fun w v m1 => LA W code (wd d X) ma w v m1 ∧ m1.ip = q4) (q8 + 1 + 1) n ls m2
              (turn (eval W n [] 0 s (within d X.env) w2) ls v
              (fun w'' v => increment step (within d X.env) (perIteration W d (within d X.env) w'') v)
              (fun w'' c => (w'', c))) := by
          intro m2 w2 hA2 hip2
          have hw2 := hA2.w
          subst hw2
          have hok2 : X.fin = false → m2.flag = false :=
            flag_down h.flag (fun hf => by have := hA2.pre.flag hf; rw [hfl] at this; exact this)
          have p1 := h1.use (n := n) (nl := nl + 3) (nr := nr + regO init + regO cond) (m := m2)
            ⟨hinv0.mono (by omega), h.pr, ok4, by rw [ha]; exact c6, hip2, hA2.stk, hA2.env, hok2⟩
          rw [ha, ← hq6] at p1
          refine IterPost.turn (X := wd d X) (qc := q6) (qe := q8 + 1) hL c11 c7 hA2 p1 ?_
          intro w3 v3 m3 hA3 hip3
          have hip3 : m3.ip = q6 := by rcases hip3 with h | h <;> exact h
          have hs := stub_step (W := W) (code := code) (m := m3) (l := nl + 1) (by rw [hip3]; exact c7)
          have hA4 := hA3.go hs.to (Pre.regs_only rfl rfl (fun _ _ => rfl)) hA3.w rfl rfl
          have hn2 := nextD_reach (W := W) (m := { m3 with ip := m3.ip + 1 }) (p := q6 + 1) (by simp only [hip3]) c8
          rw [← hq7] at hn2
          refine IterPost.pre (hs.to.trans hn2) ?_
          have hA5 := hA4.go hn2 (Pre.regs_only rfl rfl (fun _ _ => rfl)) rfl rfl rfl
          have ew : perIteration W d m3.env m3.w = perIteration W d (within d X.env) w3 := by
            rw [hA3.env, hA3.w]; rfl
          simp only [ew] at hA5 ⊢
          cases hst : step with
          | none =>
            rw [hst] at hq8
            have hj := jmp_step (W := W) hL (m := { m3 with ip := q7, w := perIteration W d (within d X.env) w3 }) (by
              simp only [exO, List.length_nil, Nat.add_zero] at hq8; rw [hq8] at c10; exact c10) c4
            exact ⟨_, hj.to, hA5.go hj.to (Pre.regs_only rfl rfl (fun _ _ => rfl)) rfl rfl rfl, rfl⟩
          | some e =>
            rw [hst] at hq8 c9
            have hc9 := c9.cons.1
            simp only [exO, List.length_cons, List.length_nil, Nat.zero_add] at hq8
            have henv5 : m3.env = within d X.env := hA3.env
            have hae : ∀ r, e (within d X.env) (perIteration W d (within d X.env) w3) = r →
              e ({ m3 with ip := q7, w := perIteration W d (within d X.env) w3 } : M σ V).env
                ({ m3 with ip := q7, w := perIteration W d (within d X.env) w3 } : M σ V).w = r := by
              intro r hr; simp only [henv5]; exact hr
            simp only [increment]
            cases hr : e (within d X.env) (perIteration W d (within d X.env) w3) with
            | thr w4 x =>
              simp only [IterPost]
              have : Post W code (wd d X) (q8 + 1 + 1) n { m3 with ip := q7, w := perIteration W d (within d X.env) w3 }
                  (some (w4, .thr x)) :=
                Post.throw (ex_thr hc9 (hae _ hr)).to hA5.stk rfl rfl rfl hA5.env (fun _ => rfl) (fun _ _ _ => rfl)
              exact hA5.post this
            | ok w4 x fx =>
              have hs := ex_ok (W := W) hc9 (ok3 e (by rw [hst]; rfl)) (hae _ hr)
              have hA6 := hA5.go hs.to (Pre.regs_only rfl rfl (by
                intro i hi
                have : i < a.nr := by
                  rcases hi with hi | hi
                  · have := h.inv.lo
                    have hi : i < X.nr := hi
                    omega
                  · have := h.inv.hi i hi
                    omega
                exact setR_ne (Nat.ne_of_lt this))) rfl rfl rfl
              have hj := jmp_step (W := W) hL (m := { m3 with w := w4, ip := q7 + 1, regs := setR m3.regs a.nr x }) (by
                rw [hq8] at c10; exact c10) c4
              exact ⟨_, hs.to.trans hj.to, hA6.go hj.to (Pre.regs_only rfl rfl (fun _ _ => rfl)) rfl rfl rfl, rfl⟩
        cases hcd : cond with
        | none =>
          rw [hcd] at hq5
          simp only [condO, List.length_nil, Nat.add_zero] at hq5
          exact body _ w hA1 (by simp only [hip]; omega)
        | some c =>
          rw [hcd] at c5
          obtain ⟨c5, c5'⟩ := c5.cons
          have c5' := c5'.cons.1
          rw [hcd] at hq5
          simp only [condO, List.length_cons, List.length_nil] at hq5
          refine IterPost.cond hA1 (by simp only [hip]; exact c5) (ok2 c (by rw [hcd]; rfl))
            (Nat.le_trans h.inv.lo (Nat.le_add_right _ _))
            (fun i hi => Nat.ne_of_lt (Nat.lt_of_lt_of_le (h.inv.hi i hi) (Nat.le_add_right _ _))) ?_
          intro w' x m2 hA2 hip2 hx
          have hj := jF_step (W := W) hL (m := m2) (by rw [hip2]; simp only [hip]; exact c5') c11
          rw [hx] at hj
          refine IterPost.pre hj.to ?_
          have hA3 := hA2.go hj.to (Pre.regs_only rfl rfl (fun _ _ => rfl)) hA2.w rfl rfl
          cases htr : W.truthy x with
          | true =>
            rw [htr] at hA3
            simp only [↓reduceIte] at hA3 ⊢
            exact body _ w' hA3 (by simp only [hip2, hip]; omega)
          | false =>
            rw [htr] at hA3
            simp only [Bool.false_eq_true, ↓reduceIte] at hA3 ⊢
            have hs := stub_step (W := W) (code := code) (m := { m2 with ip := q8 + 1 }) (l := nl + 2) c11
            simp only [IterPost]
            exact (hA3.go hs.to (Pre.regs_only rfl rfl (fun _ _ => rfl)) hA3.w rfl rfl).done rfl
      · refine ⟨?_, rfl⟩
        have ew : perIteration W d m0.env m0.w = perIteration W d (within d X.env) ma.w := by
          rw [r4, r5, henv]; rfl
        have := LA.start (W := W) (code := code) (X := wd d X) (m := ma) (v := W.undef)
          (m1 := { m0 with ip := q4, w := perIteration W d m0.env m0.w }) (r1.trans hnx)
          ⟨r2.flag, r2.retv, r2.regs, r2.rv⟩ (r6.trans hstk) (r5.trans henv)
        simp only [ew] at this ⊢
        exact this
    cases hin : init with
    | none =>
      rw [hin] at hq2
      simp only [exO, List.length_nil, Nat.add_zero] at hq2
      simp only [effect]
      exact loop { m with ip := q1, env := within d m.env, stk := envs d ++ m.stk } hq2.symm
        (by simp [h.stk, wd]) (by simp [h.env, wd]) rfl
    | some e =>
      rw [hin] at hq2 c1
      simp only [exO, List.length_cons, List.length_nil, Nat.zero_add] at hq2
      simp only [effect, andThen_stop]
      have ee : e (within d X.env) m.w = e ({ m with ip := q1, env := within d m.env, stk := envs d ++ m.stk } : M σ V).env
        ({ m with ip := q1, env := within d m.env, stk := envs d ++ m.stk } : M σ V).w := by simp [h.env]
      rw [ee]
      refine Post.ex (r := nr) c1.cons.1 (ok1 e (by rw [hin]; rfl)) (by simp [h.stk, wd]) (by simp [h.env, wd]) h.inv.lo
        (fun i hi => Nat.ne_of_lt (h.inv.hi i hi)) ?_
      intro w v
      exact loop { m with ip := q1 + 1, w := w, env := within d m.env, stk := envs d ++ m.stk, regs := setR m.regs nr v }
        hq2.symm (by simp [h.stk, wd]) (by simp [h.env, wd]) rfl
  have k2 := Post.scope h.inv.near c12 key
  have k3 := Post.pre0 hpush (Pre.regs_only rfl rfl (fun _ _ => rfl)) k2
  refine k3.exit ?_
  omega

end Verif.Flow

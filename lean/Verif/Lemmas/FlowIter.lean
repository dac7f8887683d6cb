import Verif.Lemmas.FlowLoops2

/-! The simulation for `for`-`in` and `for`-`of`. -/

namespace Verif.Flow

open Spec

variable {σ V : Type} {W : World σ V} {code : List (Cmd σ V)}

/-- The end of an optional scope, going on. -/
theorem popD_reach {m : M σ V} {p : Nat} {d : Option Nat} {env : List Nat} {K : List (Ent V)} (hip : m.ip = p)
    (hc : CodeAt code p (popD d)) (he : m.env = within d env) (hs : m.stk = envs d ++ K) :
    Reach W code (.inl m) (.inl { m with
      ip := p + (popD d : List (Cmd σ V)).length, env := env, stk := K }) := by
  cases d with
  | none =>
    have : ({ m with ip := p + (popD none : List (Cmd σ V)).length, env := env, stk := K } : M σ V) = m := by
      have e1 : m.env = env := he
      have e2 : m.stk = K := hs
      rw [← e1, ← e2]
      cases m; subst hip; rfl
    rw [this]
    exact .refl _
  | some i =>
    have := step0 (W := W) (m := m) (c := .pop) (by rw [hip]; exact hc.cons.1)
    have hs' : m.stk = .env :: K := hs
    have he' : m.env = i :: env := he
    simp only [exec, popState, hs', he', List.tail_cons, hip] at this
    exact this

theorem closing_map (ls : List Nat) (of : Bool) (it : V) (w : σ) (c : Comp V) (v : V) :
    ((closing W of it w (upd c (some v))).1, stop false ls (breakable W (closing W of it w (upd c (some v))).2)) =
      ((closing W of it w (stop true ls c)).1, upd (closing W of it w (stop true ls c)).2 (some v)) := by
  have e : ∀ c : Comp V, stop false ls (breakable W (upd c (some v))) = upd (stop true ls c) (some v) := by
    intro c
    rw [stop_breakable, stop_upd]
  cases of with
  | false => simp only [closing, Bool.false_eq_true, if_false, e]
  | true =>
    simp only [closing, if_true]
    cases ho : W.closeIt it w with
    | ok w' a fx => simp only [iteratorClose, ho, e]
    | thr w' x =>
      have hn : ∀ (c : Comp V), (∀ u, c ≠ .thr u) → iteratorClose W it w c = (w', .thr x) := by
        intro c h
        unfold iteratorClose
        rw [ho]
        cases c with
        | thr u => exact absurd rfl (h u)
        | _ => rfl
      by_cases hc : ∃ u, c = .thr u
      · obtain ⟨u, rfl⟩ := hc
        simp only [upd, stop, iteratorClose, ho, breakable]
      · have h1 : ∀ u, upd c (some v) ≠ .thr u := by
          intro u hu
          rcases c with (_ | _) | ⟨_ | _, _⟩ | ⟨_ | _, _⟩ | _ | u' <;> simp [upd] at hu
          exact hc ⟨u', rfl⟩
        have h2 : ∀ u, stop true ls c ≠ .thr u := by
          intro u hu
          rcases c with _ | ⟨_, _ | k⟩ | _ | _ | u'
          · simp [stop] at hu
          · simp [stop] at hu
          · by_cases hk : k ∈ ls <;> simp [stop, hk] at hu
          · simp [stop] at hu
          · simp [stop] at hu
          · exact hc ⟨u', rfl⟩
        rw [hn _ h1, hn _ h2]
        rfl

/-- The body of an iteration. -/
theorem IterPost.turnIter {X : Cx V} {m m1 : M σ V} {J : σ → V → M σ V → Prop} {qb qe qc n lbk lct : Nat}
    {o : Out σ V} {ls : List Nat} {w : σ} {v it : V} {of : Bool}
    {rv rv' : Option Nat} (hW : QuietWorld W) (hX : Near X) (hL : LOK code) (he : code[qe]? = some (.stub lbk))
    (hp : code[qe + 1]? = some .pop) (hc : code[qc]? = some (.stub lct))
    (hfl : of = true → m1.flag = false)
    (hA : LA W code { X with d := X.d + 1, K := .iter of it false :: X.K } m w v m1)
    (h : Post W code { X with d := X.d + 1, K := .iter of it false :: X.K,
                              bl := ⟨ls, true, ⟨lbk, X.d + 1, rv⟩⟩ :: X.bl,
                              cl := ⟨ls, true, ⟨lct, X.d + 1, rv'⟩⟩ :: X.cl } qb n m1 o)
    (hn : ∀ w' v' m2, LA W code { X with d := X.d + 1, K := .iter of it false :: X.K } m w' v' m2 →
      (m2.ip = qb ∨ m2.ip = qc) → ∃ m3, Reach W code (.inl m2) (.inl m3) ∧ J w' v' m3) :
    IterPost W code X m J (qe + 1 + 1) n ls m1
      (Spec.turn o ls v (fun w' v' => some (.inl (w', v'))) (closing W of it)) := by
  rcases o with _ | ⟨w', c⟩
  · exact h
  · simp only [Spec.turn]
    obtain ⟨h1, h2⟩ := turn_cases (X := { X with d := X.d + 1, K := .iter of it false :: X.K }) hL he hc h
    cases hl : loopContinues c ls with
    | true =>
      simp only [↓reduceIte]
      obtain ⟨m2, r, f, s, e, i⟩ := h1 hl
      exact IterPost.pre r (hn _ _ m2 (hA.body (Same.refl _) r f s e) i)
    | false =>
      simp only [Bool.false_eq_true, ↓reduceIte]
      have p1 := Post.iter hW hX hfl hp (h2 hl)
      have p2 := Post.pre (X := X) (x := some v) hA.reach ⟨hA.pre.flag, hA.pre.retv, hA.pre.regs, hA.pre.rv⟩ p1
      have e := closing_map (W := W) ls of it w' c v
      unfold IterPost
      have p3 : Post W code X (qe + 1 + 1) n m (some ((closing W of it w' (stop true ls c)).1,
          upd (closing W of it w' (stop true ls c)).2 (some v))) := p2
      rw [← e] at p3
      exact p3

theorem sim_forIn {s : Stmt σ V} (of : Bool) (d : Option Nat) (e : Ex σ V) (f : V → Ex σ V)
    (hW : QuietWorld W) (hL : LOK code)
    (h1 : Sim W code s) : Sim W code (.forIn of d e f s) := by
  intro X E lb ls nr nl p n m h
  have hcode := h.code
  obtain ⟨ok1, ok2, ok3, ok4⟩ := h.ok
  simp only [gen] at hcode ⊢
  have hinvI : ∀ it, _ := fun it => h.inv.deeper 1 (.iter of it false :: X.K) X.env
  have hinv0 : ∀ it, _ := fun it => ((hinvI it).loop (nl + 1) nl).deeper (depD d) (envs d ++ (.iter of it false :: X.K)) (within d X.env)
  generalize hE : ({ E with d := E.d + 1 + depD d, bs := ⟨ls, true, ⟨nl + 1, E.d + 1, E.rv⟩⟩ :: E.bs, cs := ⟨ls, true, ⟨nl, E.d + 1, E.rv⟩⟩ :: E.cs } : Env) = E' at hcode hinv0 ⊢
  generalize ha : gen E' [] s (nr + 3) (nl + 2) = a at hcode ⊢
  obtain ⟨c0, c1⟩ := hcode.append
  obtain ⟨c1, c2⟩ := c1.append
  have c1 := c1.cons.1
  obtain ⟨c2, c3⟩ := c2.append
  obtain ⟨c3, c4⟩ := c3.append
  have c3 := c3.cons.1
  obtain ⟨c4, c5⟩ := c4.append
  obtain ⟨c5, c6⟩ := c5.append
  obtain ⟨c5, c5'⟩ := c5.cons
  obtain ⟨c5', c5''⟩ := c5'.cons
  have c5'' := c5''.cons.1
  obtain ⟨c6, c7⟩ := c6.append
  obtain ⟨c7, c8⟩ := c7.append
  have c7 := c7.cons.1
  obtain ⟨c8, c9⟩ := c8.append
  obtain ⟨c9, c10⟩ := c9.append
  obtain ⟨c10, c11⟩ := c10.cons
  obtain ⟨c11, c12⟩ := c11.cons
  have c12 := c12.cons.1
  simp only [List.length_append, List.length_cons, List.length_nil, Nat.zero_add] at c1 c2 c3 c4 c5 c5' c5'' c6 c7 c8 c9 c10 c11 c12 ⊢
  obtain ⟨q1, hq1⟩ : ∃ q, q = p + (pushD d : List (Cmd σ V)).length := ⟨_, rfl⟩
  rw [← hq1] at c1 c2 c3 c4 c5 c5' c5'' c6 c7 c8 c9 c10 c11 c12
  obtain ⟨q2, hq2⟩ : ∃ q, q = q1 + 1 + (popD d : List (Cmd σ V)).length := ⟨_, rfl⟩
  rw [← hq2] at c3 c4 c5 c5' c5'' c6 c7 c8 c9 c10 c11 c12
  obtain ⟨q3, hq3⟩ : ∃ q, q = q2 + 1 + (loadRv E.rv : List (Cmd σ V)).length := ⟨_, rfl⟩
  rw [← hq3] at c5 c5' c5'' c6 c7 c8 c9 c10 c11 c12
  obtain ⟨q4, hq4⟩ : ∃ q, q = q3 + (1 + 1 + 1) + (pushD d : List (Cmd σ V)).length := ⟨_, rfl⟩
  rw [← hq4] at c7 c8 c9 c10 c11 c12
  obtain ⟨q5, hq5⟩ : ∃ q, q = q4 + 1 + a.code.length := ⟨_, rfl⟩
  rw [← hq5] at c9 c10 c11 c12
  obtain ⟨q6, hq6⟩ : ∃ q, q = q5 + (popD d : List (Cmd σ V)).length := ⟨_, rfl⟩
  rw [← hq6] at c10 c11 c12
  have lo1 : ∀ i, i < X.nr ∨ X.rv = some i → i < nr := by
    intro i hi
    rcases hi with hi | hi
    · exact Nat.lt_of_lt_of_le hi h.inv.lo
    · exact h.inv.hi i hi
  have hpush := pushD_reach (W := W) h.ip c0
  rw [← hq1] at hpush
  suffices key : Post W code X (q6 + 1 + 1 + 1) n { m with ip := q1, env := within d m.env, stk := envs d ++ m.stk }
      (mapC (stop false ls) (eval W n ls 0 (.forIn of d e f s) X.env m.w)) by
    have k3 := Post.pre0 hpush (Pre.regs_only rfl rfl (fun _ _ => rfl)) key
    refine k3.exit ?_
    omega
  simp only [eval, andThen_stop]
  have hme : ∀ r, e (within d X.env) m.w = r → e ({ m with ip := q1, env := within d m.env, stk := envs d ++ m.stk } : M σ V).env
        ({ m with ip := q1, env := within d m.env, stk := envs d ++ m.stk } : M σ V).w = r := by
    intro r hr; simp only [h.env]; exact hr
  cases hr : e (within d X.env) m.w with
  | thr w x =>
    simp only [andThen]
    have p0 : Post W code (wd d X) (q1 + 1) n { m with ip := q1, env := within d m.env, stk := envs d ++ m.stk } (some (w, .thr x)) :=
      Post.throw (ex_thr c1 (hme _ hr)).to (by simp [wd, h.stk]) rfl rfl rfl (by simp [wd, h.env]) (fun _ => rfl) (fun _ _ _ => rfl)
    exact (Post.scope h.inv.near c2 p0).anyq (by simp)
  | ok w x fx =>
    simp only [andThen]
    have hs0 := ex_ok (W := W) c1 ok1 (hme _ hr)
    have hs1 := popD_reach (W := W) (code := code) (d := d) (env := X.env) (K := X.K)
      (m := { m with ip := q1 + 1, w := w, env := within d m.env, stk := envs d ++ m.stk, regs := setR m.regs nr x })
      rfl c2 (by simp [h.env]) (by simp [h.stk])
    rw [← hq2] at hs1
    refine Post.pre0 (hs0.to.trans hs1) (Pre.regs_only rfl rfl (fun i hi => setR_ne (Nat.ne_of_lt (lo1 i hi)))) ?_
    have hop : ∀ r, W.openIt of x w = r → W.openIt of
        (({ m with ip := q2, w := w, env := X.env, stk := X.K, regs := setR m.regs nr x } : M σ V).regs nr)
        ({ m with ip := q2, w := w, env := X.env, stk := X.K, regs := setR m.regs nr x } : M σ V).w = r := by
      intro r hr; simp only [setR_eq]; exact hr
    cases ho : W.openIt of x w with
    | thr w1 u =>
      exact Post.throw (open_thr c3 (hop _ ho)).to rfl rfl rfl rfl rfl (fun _ => rfl) (fun _ _ _ => rfl)
    | ok w1 it fx1 =>
      simp only [andThen]
      have hs2 := open_ok hW c3 (hop _ ho)
      obtain ⟨ma, hma⟩ : ∃ ma : M σ V, ma = { m with ip := q2 + 1, w := w1, env := X.env, stk := .iter of it false :: X.K, regs := setR m.regs nr x } := ⟨_, rfl⟩
      refine Post.pre0 hs2.to (Pre.regs_only rfl rfl (fun _ _ => rfl)) ?_
      simp only
      rw [← hma]
      have ma1 : ma.ip = q2 + 1 := by rw [hma]
      have ma2 : ma.w = w1 := by rw [hma]
      have ma3 : ma.env = X.env := by rw [hma]
      have ma4 : ma.stk = .iter of it false :: X.K := by rw [hma]
      have ma5 : ma.flag = m.flag := by rw [hma]
      obtain ⟨m0, r1, r2, r3, r4, r5, r6, r7, _⟩ := loadRv_reach (W := W) (X := X) h.inv.rv ma1 c4
      rw [← hq3] at r3
      refine loop_sim (J := fun w v m1 => LA W code { X with d := X.d + 1, K := .iter of it false :: X.K } ma w v m1 ∧ m1.ip = q3) (m1 := m0) ?_ r1 ?_
      · rintro ⟨w, v⟩ m1 ⟨hA, hip⟩
        have hs := stub_step (W := W) (code := code) (m := m1) (l := nl) (by rw [hip]; exact c5)
        refine ⟨_, hs, ?_⟩
        have hA1 := hA.go hs.to (Pre.regs_only rfl rfl (fun _ _ => rfl)) hA.w rfl rfl
        have hfs := step0 (W := W) (m := { m1 with ip := m1.ip + 1 }) (c := .forStep (nr + 1) (nr + 2))
          (by simp only [hip]; exact c5')
        have hk1 : m1.stk = .iter of it false :: X.K := hA.stk
        have hw1 : m1.w = w := hA.w
        generalize hS : (Sum.inl { m1 with ip := m1.ip + 1 } : M σ V ⊕ Fin σ V) = S at hfs
        simp only [exec, forStepM, hk1, hw1, Bool.false_eq_true, if_false] at hfs
        subst hS
        have hq := hW.2.1 of it w
        have hfl : X.fin = false → m1.flag = false :=
          flag_down h.flag (fun hf => by have := hA.pre.flag hf; rw [ma5] at this; exact this)
        have regsF : ∀ (v0 b : V), ∀ i, i < X.nr ∨ X.rv = some i →
            setR (setR m1.regs (nr + 2) v0) (nr + 1) b i = m1.regs i := by
          intro v0 b i hi
          have := lo1 i hi
          rw [setR_ne (by omega), setR_ne (by omega)]
        cases hst : W.stepIt of it w with
        | thr w2 u =>
          rw [hst] at hfs
          simp only [nextValue, IterPost]
          simp only [unwind, Bool.not_true, Bool.and_false, Bool.false_eq_true, if_false] at hfs
          have : Post W code X (q6 + 1 + 1 + 1) n ma (some (w2, .thr u)) := by
            refine Post.throw (hA1.reach.trans hfs) rfl rfl rfl rfl hA.env ?_ ?_
            · exact fun f => hA.pre.retv (Cx.kt_kp f)
            · exact hA.pre.regs
          exact this
        | ok w2 r fx2 =>
          rw [hst] at hfs hq
          cases fx2 with
          | clear => exact hq.elim
          | stale _ => exact hq.elim
          | keep =>
            cases r with
            | none =>
              simp only [nextValue, IterPost, applyFx] at hfs ⊢
              have hj := jF_step (W := W) hL (m := { m1 with ip := m1.ip + 1 + 1, w := w2, regs := setR (setR m1.regs (nr + 2) W.undef) (nr + 1) (W.ofBool false), stk := .iter of it true :: X.K }) (r := nr + 1) (by simp only [hip]; exact c5'') c11
              simp only [setR_eq, W.truthy_ofBool, Bool.false_eq_true, ↓reduceIte] at hj
              have hs2 := stub_step (W := W) (code := code) (l := nl + 1) (m := { m1 with ip := q6 + 1, w := w2, regs := setR (setR m1.regs (nr + 2) W.undef) (nr + 1) (W.ofBool false), stk := .iter of it true :: X.K }) c11
              have hs3 := step0 (W := W) (code := code) (c := .pop) (m := { m1 with ip := q6 + 1 + 1, w := w2, regs := setR (setR m1.regs (nr + 2) W.undef) (nr + 1) (W.ofBool false), stk := .iter of it true :: X.K }) c12
              simp only [exec, popState, Bool.not_true, Bool.and_false, Bool.false_eq_true, if_false] at hs3
              refine ⟨_, hA1.reach.trans (Reach.trans hfs (hj.to.trans (hs2.to.trans hs3))),
                ⟨rfl, hA.pre.flag, hA.pre.retv, ?_, ?_⟩, rfl, hA.env, rfl⟩
              · intro i hi hi'
                simp only [regsF _ _ i (.inl hi)]
                exact hA.pre.regs i hi hi'
              · intro hr i hi
                simp only [regsF _ _ i (.inr hi)]
                exact hA.pre.rv hr i hi
            | some u =>
              simp only [nextValue, applyFx] at hfs ⊢
              obtain ⟨m2, hm2⟩ : ∃ m2 : M σ V, m2 = { m1 with ip := m1.ip + 1 + 1, w := w2, regs := setR (setR m1.regs (nr + 2) u) (nr + 1) (W.ofBool true) } := ⟨_, rfl⟩
              have hA2 : LA W code { X with d := X.d + 1, K := .iter of it false :: X.K } ma w2 v m2 := by
                refine hA1.go (m2 := m2) ?_ ?_ ?_ ?_ ?_
                · rw [hm2]; rw [← hk1] at hfs; exact hfs
                · rw [hm2]; exact Pre.regs_only rfl rfl (fun i hi => regsF _ _ i hi)
                · rw [hm2]
                · rw [hm2]
                · rw [hm2]
              have hr2 : Reach W code (.inl { m1 with ip := m1.ip + 1 }) (.inl m2) := by
                rw [hm2]; rw [← hk1] at hfs; exact hfs
              refine IterPost.pre hr2 ?_
              have g1 : m2.regs (nr + 1) = W.ofBool true := by rw [hm2]; simp [setR]
              have g2 : m2.regs (nr + 2) = u := by rw [hm2]; simp [setR]
              have g3 : m2.ip = q3 + 1 + 1 := by rw [hm2, ← hip]
              have g4 : m2.flag = m1.flag := by rw [hm2]
              have hj := jF_step (W := W) hL (m := m2) (r := nr + 1) (by rw [g3]; exact c5'') c11
              rw [g1, W.truthy_ofBool] at hj
              simp only [↓reduceIte] at hj
              have hpd := pushD_reach (W := W) (m := { m2 with ip := m2.ip + 1 }) (p := q3 + (1 + 1 + 1)) (d := d) (by simp only [g3]) c6
              rw [← hq4] at hpd
              have hA3 := hA2.go hj.to (Pre.regs_only rfl rfl (fun _ _ => rfl)) hA2.w rfl rfl
              have hpd' : Reach W code (.inl m2) _ := hj.to.trans hpd
              have g5 : m2.env = X.env := hA2.env
              have g6 : m2.stk = .iter of it false :: X.K := hA2.stk
              have hbe : ∀ r, f u (within d X.env) w2 = r → f (({ m2 with ip := q4, env := within d m2.env, stk := envs d ++ m2.stk } : M σ V).regs (nr + 2))
                  ({ m2 with ip := q4, env := within d m2.env, stk := envs d ++ m2.stk } : M σ V).env
                  ({ m2 with ip := q4, env := within d m2.env, stk := envs d ++ m2.stk } : M σ V).w = r := by
                intro r hr
                simp only [g2, g5]
                rw [hA2.w]
                exact hr
              have hflI : of = true → m2.flag = false := by
                intro ho
                rw [g4]
                exact hfl (ok3 ho)
              have nearI : Near ({ X with d := X.d + 1, K := .iter of it false :: X.K } : Cx V) :=
                (hinvI it).near
              cases hb : f u (within d X.env) w2 with
              | thr w3 y =>
                simp only [bound]
                unfold IterPost
                have p0 : Post W code (wd d { X with d := X.d + 1, K := .iter of it false :: X.K }) q5 n
                    { m2 with ip := q4, env := within d m2.env, stk := envs d ++ m2.stk } (some (w3, .thr y)) :=
                  Post.throw (bind_thr c7 (hbe _ hb)).to (by simp [wd, g6]) rfl rfl rfl (by simp [wd, g5]) (fun _ => rfl) (fun _ _ _ => rfl)
                have p1 := Post.scope nearI c9 p0
                have p2 := p1.anyq (q' := q6 + 1 + 1) (by simp)
                have p3 := Post.iter hW h.inv.near hflI c12 (Post.pre0 hpd' (Pre.regs_only rfl rfl (fun _ _ => rfl)) p2)
                have p4 := Post.pre (X := X) (x := some v) hA2.reach ⟨hA2.pre.flag, hA2.pre.retv, hA2.pre.regs, hA2.pre.rv⟩ p3
                have e := closing_map (W := W) ls of it w3 (.thr y) v
                have p5 : Post W code X (q6 + 1 + 1 + 1) n ma (some ((closing W of it w3 (stop true ls (.thr y))).1,
                  upd (closing W of it w3 (stop true ls (.thr y))).2 (some v))) := p4
                rw [← e] at p5
                exact p5
              | ok w3 y fx3 =>
                simp only [bound]
                have hbo := bind_ok (W := W) c7 ok2 (hbe _ hb)
                have p1 := h1.use (n := n) (nl := nl + 2) (nr := nr + 3)
                  (m := { m2 with ip := q4 + 1, w := w3, env := within d m2.env, stk := envs d ++ m2.stk })
                  ⟨(hinv0 it).mono (Nat.le_add_right _ _), h.pr, ok4, by rw [ha]; exact c8, rfl, by simp [g6], by simp [g5], fun hf => by
                    show m2.flag = false
                    rw [g4]; exact hfl hf⟩
                rw [ha, ← hq5] at p1
                have p2 := Post.scope (X := { X with d := X.d + 1, K := .iter of it false :: X.K, bl := ⟨ls, true, ⟨nl + 1, X.d + 1, E.rv⟩⟩ :: X.bl, cl := ⟨ls, true, ⟨nl, X.d + 1, E.rv⟩⟩ :: X.cl }) ((hinvI it).loop (nl + 1) nl).near c9 p1
                rw [← hq6] at p2
                have hstk : Reach W code (.inl m2) (.inl { m2 with ip := q4 + 1, w := w3, env := within d m2.env, stk := envs d ++ m2.stk }) := hpd'.trans hbo.to
                have p3 := Post.pre0 hstk (Pre.regs_only rfl rfl (fun _ _ => rfl)) p2
                refine IterPost.turnIter hW h.inv.near hL c11 c12 c5 hflI hA2 p3 ?_
                intro w' v' m4 hA4 hi
                rcases hi with hi | hi
                · have hj := jmp_step (W := W) (m := m4) hL (by rw [hi]; exact c10) c5
                  exact ⟨_, hj.to, hA4.go hj.to (Pre.regs_only rfl rfl (fun _ _ => rfl)) hA4.w rfl rfl, rfl⟩
                · exact ⟨m4, .refl _, hA4, hi⟩
      · refine ⟨?_, r3⟩
        have := LA.start (W := W) (code := code) (X := { X with d := X.d + 1, K := .iter of it false :: X.K }) (m := ma) (v := W.undef) r1 ⟨r2.flag, r2.retv, r2.regs, r2.rv⟩ (r6.trans ma4) (r5.trans ma3)
        rw [r4, ma2] at this
        exact this

end Verif.Flow

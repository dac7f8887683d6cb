import Verif.Lemmas.FlowTry

/-! The simulation for `try`, continued; the simulation for all statements. -/

namespace Verif.Flow

open Spec

variable {σ V : Type} {W : World σ V} {code : List (Cmd σ V)}

/-- The code of the catch clause. -/
def tryCatch (E : Env) (hc : Bool) (cd : Option (Nat × (V → Ex σ V))) (c : Stmt σ V) (r nl : Nat) : G σ V :=
  match hc with
  | true =>
    let k := gen { E with d := E.d + 1 + depD (cd.map Prod.fst) } [] c (r + 1) nl
    ⟨[.catchE r] ++ (catchO cd r ++ (k.code ++ popD (cd.map Prod.fst))), k.nr, k.nl⟩
  | false => ⟨[], r, nl⟩

/-- The code of the finally block. -/
def tryFin (E : Env) (hf : Bool) (f : Stmt σ V) (r nl : Nat) : G σ V :=
  match hf with
  | true =>
    let z := gen { E with d := E.d + 1, rv := E.rv.map (fun _ => r) } [] f (r + (if E.rv.isSome then 1 else 0)) nl
    ⟨[.fin] ++ (loadRv (E.rv.map (fun _ => r)) ++ z.code), z.nr, z.nl⟩
  | false => ⟨[], r, nl⟩

theorem tryCatch_nr (E : Env) (hc : Bool) (cd : Option (Nat × (V → Ex σ V))) (c : Stmt σ V) (r nl : Nat) :
    r ≤ (tryCatch E hc cd c r nl).nr := by
  cases hc with
  | false => exact Nat.le_refl _
  | true => exact Nat.le_trans (Nat.le_succ r) (gen_nr _ _ _ _ _)

theorem gen_try (E : Env) (ls : List Nat) (b : Stmt σ V) (hc : Bool) (cd : Option (Nat × (V → Ex σ V))) (c : Stmt σ V)
    (hf : Bool) (f : Stmt σ V) (nr nl : Nat) (a kc zc : G σ V)
    (ha : gen { E with d := E.d + 1, bs := ⟨ls, false, ⟨nl + 3, E.d + 1, E.rv⟩⟩ :: E.bs } [] b nr (nl + 4) = a)
    (hk : tryCatch E hc cd c a.nr a.nl = kc) (hz : tryFin E hf f kc.nr kc.nl = zc) :
    (gen E ls (.try_ b hc cd c hf f) nr nl).code = loadRv E.rv ++ ([.pushTry nl (nl + 1)] ++ (a.code ++
      ([.jmp (nl + 1), .stub nl] ++ (kc.code ++
        ([.stub (nl + 1), .stub (nl + 3)] ++ (zc.code ++ [.tryEnd, .stub (nl + 2), .pop])))))) := by
  subst ha hk hz
  cases hc <;> cases hf <;> rfl

theorem Pend.w {X : Cx V} {q cip fip : Nat} {m m2 : M σ V} {w' : σ} {c : Comp V}
    (h : Pend code X q cip fip m m2 w' c) : m2.w = w' ∧ m2.env = X.env ∧ m2.ip = q ∧
      (∃ ph op err nip, m2.stk = .tr ph op err cip fip nip :: X.K) ∧ (X.kt = true → m2.retv = m.retv) ∧
      (∀ i, i < X.nr → X.rv ≠ some i → m2.regs i = m.regs i) := by
  cases c with
  | normal v =>
    obtain ⟨err, hp, hf⟩ := h
    obtain ⟨ph, hk⟩ := hp.stk
    exact ⟨hf.w, hp.env, hp.ip, ⟨ph, _, _, _, hk⟩, fun f => hf.retv (Cx.kt_kp f), hf.regs⟩
  | brk v t =>
    obtain ⟨err, a, j, hp, hf, _⟩ := h
    obtain ⟨ph, hk⟩ := hp.stk
    exact ⟨hf.w, hp.env, hp.ip, ⟨ph, _, _, _, hk⟩, fun f => hf.retv (Cx.kt_kp f), hf.regs⟩
  | cont v t =>
    obtain ⟨err, a, j, hp, hf, _⟩ := h
    obtain ⟨ph, hk⟩ := hp.stk
    exact ⟨hf.w, hp.env, hp.ip, ⟨ph, _, _, _, hk⟩, fun f => hf.retv (Cx.kt_kp f), hf.regs⟩
  | ret v =>
    obtain ⟨err, nip, hp, hf⟩ := h
    obtain ⟨ph, hk⟩ := hp.stk
    exact ⟨hf.w, hp.env, hp.ip, ⟨ph, _, _, _, hk⟩, fun f => (by rw [hf.nofin] at f; cases f), hf.regs⟩
  | thr v =>
    obtain ⟨nip, hp, hf⟩ := h
    obtain ⟨ph, hk⟩ := hp.stk
    exact ⟨hf.w, hp.env, hp.ip, ⟨ph, _, _, _, hk⟩, hf.retv, hf.regs⟩

/-- The finally block and the end of the statement. -/
theorem fin_sim {f : Stmt σ V} {X : Cx V} {E : Env} {lb ls : List Nat} {hf : Bool} {nr r nl q cip fip n l : Nat}
    {m m2 : M σ V} {w' : σ} {c : Comp V} (h3 : Sim W code f) (hi : Inv X E lb ls nr) (hnr : nr ≤ r)
    (hok : hf = true → Ok false true true true f ∧ parse [] [] [] [] f = true)
    (hc : CodeAt code q ((tryFin E hf f r nl).code ++ [.tryEnd, .stub l, .pop]))
    (hr : Reach W code (.inl m) (.inl m2)) (hp : Pend code X q cip fip m m2 w' (stop false ls c)) :
    Post W code X (q + (tryFin E hf f r nl).code.length + 1 + 1 + 1) n m
      (mapC (stop false ls) (finishing hf (some (w', c)) (fun w => eval W n [] 0 f X.env w))) := by
  obtain ⟨c0, c1⟩ := hc.append
  obtain ⟨c1, c2⟩ := c1.cons
  obtain ⟨c2, c3⟩ := c2.cons
  have c3 := c3.cons.1
  obtain ⟨pw, pe, pi, ⟨ph, op, err, nip, pk⟩, prv, prg⟩ := hp.w
  cases hf with
  | false =>
    simp only [tryFin, finishing, mapC, Option.map_some] at c1 c2 c3 ⊢
    exact resume hp hr ⟨fun ph op err cip fip nip h => ⟨ph, h⟩, rfl, fun f => f, rfl, fun _ _ => rfl⟩ pw (by simpa using pi) c1 c2 c3
  | true =>
    obtain ⟨ok1, ok2⟩ := hok rfl
    simp only [tryFin] at c0 c1 c2 c3 ⊢
    generalize hE : ({ E with d := E.d + 1, rv := E.rv.map (fun _ => r) } : Env) = E' at c0 c1 c2 c3 ⊢
    generalize hz : gen E' [] f (r + (if E.rv.isSome then 1 else 0)) nl = z at c0 c1 c2 c3 ⊢
    obtain ⟨d0, d1⟩ := c0.append
    obtain ⟨d1, d2⟩ := d1.append
    have d0 := d0.cons.1
    simp only [List.length_append, List.length_cons, List.length_nil, Nat.zero_add] at d1 d2 c1 c2 c3 ⊢
    obtain ⟨XF, hXF⟩ : ∃ XF : Cx V, XF = { X with d := X.d + 1, K := .tr .fin op err cip fip nip :: X.K, rv := X.rv.map (fun _ => r), rvm := false, fin := true, ka := true, kt := true, nr := r, bl := [], cl := [] } := ⟨_, rfl⟩
    have s1 := step0 (W := W) (code := code) (m := m2) (c := .fin) (by rw [pi]; exact d0)
    simp only [exec, setPhase, pk, pi] at s1
    obtain ⟨m3, r1, r2, r3', r4, r5, r6, r7, r8, r9⟩ := loadRv_reach (W := W) (X := XF) (rv := E.rv.map (fun _ => r))
      (m := { m2 with ip := q + 1, stk := .tr .fin op err cip fip nip :: X.K }) (p := q + 1) (by rw [hXF, hi.rv]) rfl d1
    have hinv : Inv XF E' [] [] (r + (if E.rv.isSome then 1 else 0)) := by
      subst hXF hE
      refine ⟨by simp [hi.d], by simp [hi.rv], ⟨_, rfl⟩, ⟨_, rfl⟩, by simp, by simp, by simp, by simp, ?_⟩
      intro i hh
      rw [hi.rv]
      cases hx : X.rv with
      | none => simp [hx] at hh
      | some j =>
        simp only [hx, Option.map_some, Option.some.injEq] at hh
        subst hh
        simp
    have p1 := h3.use (n := n) (nl := nl) (m := m3) (p := q + 1 + (loadRv (E.rv.map (fun _ => r)) : List (Cmd σ V)).length)
      ⟨hinv, by rw [hXF]; exact ok2, by rw [hXF]; exact ok1, by rw [hz]; exact d2, r3', by rw [r6, hXF], by rw [r5, hXF]; exact pe,
        fun hh => by rw [hXF] at hh; cases hh⟩
    have r4' : m3.w = w' := r4.trans pw
    have hXe : XF.env = X.env := by rw [hXF]
    rw [hz, r4', hXe] at p1
    have hrr : Reach W code (.inl m) (.inl m3) := hr.trans (s1.trans r1)
    have hlk : ∀ i, i < X.nr ∨ X.rv = some i → i < XF.nr ∧ XF.rv ≠ some i := by
      intro i hh
      have : i < r := by
        rcases hh with hh | hh
        · have := hi.lo; omega
        · have := hi.hi i hh; omega
      rw [hXF]
      refine ⟨this, ?_⟩
      cases hx : X.rv with
      | none => simp
      | some j => simp; omega
    have hK : XF.K = .tr .fin op err cip fip nip :: X.K := by rw [hXF]
    have hfin : XF.kt = true := by rw [hXF]
    simp only [finishing]
    have wide : ∀ {A B : Nat}, A = B → Post W code X A n m (mapC (stop false ls) (override c (eval W n [] 0 f X.env w'))) →
        Post W code X B n m (mapC (stop false ls) (override c (eval W n [] 0 f X.env w'))) := by
      intro A B e h; exact e ▸ h
    cases ho : eval W n [] 0 f X.env w' with
    | none =>
      rw [ho] at p1
      exact Runs.of_reach hrr p1
    | some o =>
      obtain ⟨w2, c2'⟩ := o
      rw [ho] at p1
      cases c2' with
      | normal v =>
        obtain ⟨m4, g1, g2, g3, g4, g5⟩ := p1
        simp only [override, mapC, Option.map_some]
        refine resume (W := W) (l := l) (m3 := m4) hp (hrr.trans g1) ⟨?_, ?_, ?_, ?_, ?_⟩ g2.w ?_ c1 c2 c3
        · intro ph' op' err' cip' fip' nip' hh
          rw [pk] at hh
          simp only [List.cons.injEq, Ent.tr.injEq, and_true] at hh
          obtain ⟨_, rfl, rfl, rfl, rfl, rfl⟩ := hh
          exact ⟨.fin, g3.trans hK⟩
        · rw [g4, hXe, pe]
        · exact fun hh => by have := g2.flag hh; rw [r7] at this; exact this
        · rw [g2.retv (Cx.kt_kp hfin), r8]
        · intro i hh
          obtain ⟨e1, e2⟩ := hlk i hh
          rw [g2.regs i e1 e2, r9 i e2]
        · rw [g5]; omega
      | brk v t =>
        obtain ⟨m4, j, g1, _⟩ := p1
        rw [hXF] at g1
        cases t <;> cases g1
      | cont v t =>
        obtain ⟨m4, j, g1, _⟩ := p1
        rw [hXF] at g1
        cases t <;> cases g1
      | ret v =>
        obtain ⟨m4, g1, g2, _⟩ := p1
        have := g2.nofin
        rw [hfin] at this
        cases this
      | thr v =>
        obtain ⟨m4, g1, g2, g3⟩ := p1
        rw [hK] at g1
        simp only [unwind] at g1
        simp only [override, mapC, Option.map_some, stop]
        refine Post.throw (hrr.trans g1) rfl g2.w g2.flag g2.err (g3.trans hXe) ?_ ?_
        · intro hx
          rw [g2.retv hfin, r8]
          exact prv hx
        · intro i hx hx'
          obtain ⟨e1, e2⟩ := hlk i (.inl hx)
          rw [g2.regs i e1 e2, r9 i e2]
          exact prg i hx hx'

/-- The throw of a try block. -/
theorem toThrow {X : Cx V} {m : M σ V} {q cip fip n : Nat} {w' : σ} {v : V} {err : V}
    (h : Post W code { X with d := X.d + 1, K := .tr .try_ .normal err cip fip none :: X.K } q n m (some (w', .thr v))) :
    ∃ m2, Reach W code (.inl m) (.inl m2) ∧ m2.ip = cip ∧ m2.stk = .tr .try_ .throw v cip fip none :: X.K ∧
      m2.env = X.env ∧ FrT X m m2 w' v := by
  obtain ⟨m', h1, h2, h3⟩ := h
  simp only [unwind, if_true, h2.err] at h1
  exact ⟨_, h1, rfl, rfl, h3, ⟨h2.w, h2.flag, rfl, h2.retv, h2.regs⟩⟩

/-- The catch clause. -/
theorem catch_sim {c : Stmt σ V} {X : Cx V} {E : Env} {lb ls : List Nat} {hc : Bool} {cd : Option (Nat × (V → Ex σ V))}
    {nr r nl q0 qc qf n l0 : Nat}
    {m : M σ V} {o : Out σ V} (h2 : Sim W code c) (hi : Inv X E lb ls nr) (hnr : nr ≤ r)
    (hpr : hc = true → parse lb [] (names X.bl) (names X.cl) c = true)
    (hkk : X.kp = X.kt) (hok : hc = true → Ok X.rvm X.fin X.ka X.kt c ∧ (∀ p ∈ cd, ∀ v, Quiet (p.2 v)) ∧ (X.rvm = true → writes c = true))
    (hs : code[qc]? = some (.stub l0))
    (hcode : CodeAt code (qc + 1) (tryCatch E hc cd c r nl).code) (hqf : qf = qc + 1 + (tryCatch E hc cd c r nl).code.length)
    (hq : ∀ m' : M σ V, m'.ip = qf → Reach W code (.inl m') (.inl { m' with ip := q0 }))
    {err : V}
    (h : Post W code { X with d := X.d + 1, K := .tr .try_ .normal err qc qf none :: X.K } q0 n m (mapC (stop false ls) o)) :
    match handle hc o (fun w' v => withParam cd v X.env w' (fun env' w'' => eval W n [] 0 c env' w'')) with
    | none => Runs W code n (.inl m)
    | some (w', c') => ∃ m2, Reach W code (.inl m) (.inl m2) ∧ Pend code X q0 qc qf m m2 w' (stop false ls c') := by
  rcases o with _ | ⟨w', c'⟩
  · cases hc <;> exact h
  by_cases ht : ∃ v, c' = .thr v
  · obtain ⟨v, rfl⟩ := ht
    obtain ⟨m2, g1, g2, g3, g4, g5⟩ := toThrow h
    have s0 := stub_step (W := W) (code := code) (m := m2) (by rw [g2]; exact hs)
    cases hc with
    | false =>
      simp only [tryCatch, List.length_nil, Nat.add_zero] at hqf
      refine ⟨_, g1.trans (s0.to.trans (hq _ (by rw [hqf, g2]))), none, ⟨⟨.try_, g3⟩, g4, rfl⟩, ?_⟩
      exact ⟨g5.w, g5.flag, g5.err, g5.retv, g5.regs⟩
    | true =>
      obtain ⟨ok1, ok2, ok3⟩ := hok rfl
      have pr := hpr rfl
      simp only [tryCatch] at hcode hqf
      have hinv := (((hi.nolab.deeper 1 (.tr .catch_ .normal v qc qf none :: X.K) X.env).deeper (depD (cd.map Prod.fst))
        (envs (cd.map Prod.fst) ++ (.tr .catch_ .normal v qc qf none :: X.K)) (within (cd.map Prod.fst) X.env)).mono
          (Nat.le_trans hnr (Nat.le_succ r)))
      generalize hE : ({ E with d := E.d + 1 + depD (cd.map Prod.fst) } : Env) = E' at hcode hqf
      have hinv' : Inv (wd (cd.map Prod.fst) { X with d := X.d + 1, K := .tr .catch_ .normal v qc qf none :: X.K }) E' lb [] (r + 1) := by
        subst hE; exact hinv
      generalize hk : gen E' [] c (r + 1) nl = k at hcode hqf
      obtain ⟨c0, c1⟩ := hcode.append
      obtain ⟨c1, c2⟩ := c1.append
      obtain ⟨c2, c3⟩ := c2.append
      have c0 := c0.cons.1
      simp only [List.length_append, List.length_cons, List.length_nil, Nat.zero_add] at c1 c2 c3 hqf
      have s1 := step0 (W := W) (code := code) (m := { m2 with ip := m2.ip + 1 }) (c := .catchE r) (by simp only [g2]; exact c0)
      generalize hS : (Sum.inl { m2 with ip := m2.ip + 1 } : M σ V ⊕ Fin σ V) = S at s1
      simp only [exec, g3, caught, g5.flag, g5.err, ↓reduceIte] at s1
      subst hS
      obtain ⟨m3, hm3⟩ : ∃ m3 : M σ V, m3 = { m2 with ip := qc + 1 + 1, stk := .tr .catch_ .normal v qc qf none :: X.K, regs := setR m2.regs r v, flag := false, err := W.undef } := ⟨_, rfl⟩
      have s2 : Reach W code (.inl m) (.inl m3) := by
        rw [g2] at s1
        rw [hm3]
        rw [g2] at s0
        exact g1.trans (s0.to.trans s1)
      have f1 : m3.ip = qc + 1 + 1 := by rw [hm3]
      have f2 : m3.stk = .tr .catch_ .normal v qc qf none :: X.K := by rw [hm3]
      have f3 : m3.env = X.env := by rw [hm3]; exact g4
      have f4 : m3.w = w' := by rw [hm3]; exact g5.w
      have f5 : m3.regs r = v := by rw [hm3]; exact setR_eq
      have f6 : m3.flag = false := by rw [hm3]
      have f7 : X.kp = true → m3.retv = m.retv := by rw [hm3, hkk]; exact g5.retv
      have f8 : ∀ i, i < X.nr → X.rv ≠ some i → m3.regs i = m.regs i := by
        intro i hx hx'
        rw [hm3]
        simp only
        have := hi.lo
        rw [setR_ne (by omega)]
        exact g5.regs i hx hx'
      obtain ⟨o2, ho2⟩ : ∃ o2, o2 = withParam cd v X.env w' (fun env' w'' => eval W n [] 0 c env' w'') := ⟨_, rfl⟩
      have key : Post W code (wd (cd.map Prod.fst) { X with d := X.d + 1, K := .tr .catch_ .normal v qc qf none :: X.K })
          (qc + 1 + 1 + (catchO cd r : List (Cmd σ V)).length + k.code.length) n m3 o2 := by
        rw [ho2]
        cases cd with
        | none =>
          have p1 := h2.use (n := n) (nl := nl) (nr := r + 1) (m := m3)
            (p := qc + 1 + 1 + (catchO none r : List (Cmd σ V)).length)
            ⟨hinv', pr, ok1, by rw [hk]; exact c2, f1, f2, f3, fun _ => f6⟩
          rw [hk, f4] at p1
          exact p1
        | some ig =>
          obtain ⟨i, g⟩ := ig
          simp only [withParam]
          obtain ⟨d1, d2⟩ := c1.cons
          have d2 := d2.cons.1
          have t1 := step0 (W := W) (code := code) (m := m3) (c := .pushEnv i) (by rw [f1]; exact d1)
          simp only [exec, f1, f2, f3] at t1
          obtain ⟨m4, hm4⟩ : ∃ m4 : M σ V, m4 = { m3 with ip := qc + 1 + 1 + 1, env := i :: X.env, stk := .env :: .tr .catch_ .normal v qc qf none :: X.K } := ⟨_, rfl⟩
          rw [← hm4] at t1
          have j1 : m4.ip = qc + 1 + 1 + 1 := by rw [hm4]
          have j2 : m4.env = i :: X.env := by rw [hm4]
          have j3 : m4.w = w' := by rw [hm4]; exact f4
          have j4 : m4.regs = m3.regs := by rw [hm4]
          have j5 : m4.stk = .env :: .tr .catch_ .normal v qc qf none :: X.K := by rw [hm4]
          have j6 : m4.flag = false := by rw [hm4]; exact f6
          have j7 : m4.retv = m3.retv := by rw [hm4]
          refine Post.pre0 t1 (Pre.regs_only (by rw [j6, f6]) j7 (fun _ _ => by rw [j4])) ?_
          have hb : g (m4.regs r) m4.env m4.w = g v (i :: X.env) w' := by rw [j4, f5, j2, j3]
          cases hg : g v (i :: X.env) w' with
          | thr w3 y =>
            exact Post.throw (bind_thr (by rw [j1]; exact d2) (hb.trans hg)).to j5 rfl rfl rfl j2 (fun _ => rfl) (fun _ _ _ => rfl)
          | ok w3 y fx =>
            simp only [andThen]
            have t2 := bind_ok (W := W) (m := m4) (by rw [j1]; exact d2) (ok2 _ rfl) (hb.trans hg)
            refine Post.pre0 t2.to (Pre.regs_only rfl rfl (fun _ _ => rfl)) ?_
            have p1 := h2.use (n := n) (nl := nl) (nr := r + 1) (m := { m4 with ip := m4.ip + 1, w := w3 })
              (p := qc + 1 + 1 + (catchO (some (i, g)) r : List (Cmd σ V)).length)
              ⟨hinv', pr, ok1, by rw [hk]; exact c2, by simp only [j1, catchO, List.length_cons, List.length_nil], j5, j2, fun _ => j6⟩
            rw [hk] at p1
            exact p1
      have p2 := Post.scope (X := { X with d := X.d + 1, K := .tr .catch_ .normal v qc qf none :: X.K })
        (hi.nolab.deeper 1 (.tr .catch_ .normal v qc qf none :: X.K) X.env).near c3 key
      have p3 := p2.next (q' := q0) (fun m' hm _ => hq m' (by rw [hm, hqf]; omega))
      have fl : m3.flag = true → m.flag = true := by
        intro ff; rw [f6] at ff; cases ff
      have nv : X.rvm = false → X.rvm = true → ∀ i, X.rv = some i → m3.regs i = none.getD (m.regs i) := by
        intro h1 h2; rw [h1] at h2; cases h2
      have yv : X.rvm = true → ∀ i, X.rv = some i → m3.regs i = (X.rv.map m3.regs).getD (m.regs i) := by
        intro _ i hx; simp [hx]
      have p4 : Post W code { X with d := X.d + 1, K := .tr .catch_ .normal v qc qf none :: X.K } q0 n m o2 := by
        rcases Bool.eq_false_or_eq_true X.rvm with hv | hv
        case inr =>
          exact Post.pre0 s2 ⟨fl, f7, f8, nv hv⟩ p3
        case inl =>
          have p5 := Post.pre (X := { X with d := X.d + 1, K := .tr .catch_ .normal v qc qf none :: X.K }) (x := X.rv.map m3.regs) s2 ⟨fl, f7, f8, yv⟩ p3
          have hval : ValuedO o2 := by
            rw [ho2]
            cases cd with
            | none => exact writes_valued c (ok3 hv) _ _ _ _
            | some ig => exact ValuedO.andThen (fun w _ => writes_valued c (ok3 hv) _ _ _ _)
          rcases o2 with _ | ⟨w2, c2'⟩
          · exact p5
          · simp only [mapC, Option.map_some, (hval w2 c2' rfl).upd] at p5
            exact p5
      have p6 := Post.nolab (X := { X with d := X.d + 1, K := .tr .catch_ .normal v qc qf none :: X.K }) (fun x hx => (hi.ls x hx).2) p4
      simp only [handle]
      rw [← ho2]
      rcases o2 with _ | ⟨w2, c2'⟩
      · exact p6
      · exact toPend hi.near (.inr rfl) (by simp) hq p6
  · have e : handle hc (some (w', c')) (fun w' v => withParam cd v X.env w' (fun env' w'' => eval W n [] 0 c env' w'')) = some (w', c') := by
      cases hc with
      | false => rfl
      | true =>
        cases c' with
        | thr v => exact absurd ⟨v, rfl⟩ ht
        | _ => rfl
    rw [e]
    refine toPend hi.near (.inl rfl) ?_ hq h
    intro _ v hv
    rcases c' with _ | ⟨_, _ | k⟩ | _ | _ | _
    · cases hv
    · cases hv
    · simp only [stop] at hv
      split at hv <;> cases hv
    · cases hv
    · cases hv
    · exact ht ⟨_, rfl⟩

/-- Inside a `try` statement no return is allowed if the slot of the return value is to be kept. -/
def inTry (X : Cx V) : Cx V := { X with kt := X.ka || X.kt }

theorem inTry_kp (X : Cx V) : (inTry X).kp = (inTry X).kt := by
  unfold inTry Cx.kp
  cases X.ka <;> cases X.kt <;> rfl

theorem Post.weak {X : Cx V} {m : M σ V} {q n : Nat} {o : Out σ V} (h : Post W code (inTry X) q n m o) :
    Post W code X q n m o := by
  have kp : ∀ {A : Prop}, ((inTry X).kp = true → A) → X.kp = true → A := by
    intro A f hk
    refine f ?_
    rw [inTry_kp]
    exact hk
  have kt : X.kt = true → (inTry X).kt = true := by
    intro h; simp [inTry, h]
  rcases o with _ | ⟨w', c⟩
  · exact h
  cases c with
  | normal v =>
    obtain ⟨m', h1, h2, h3⟩ := h
    exact ⟨m', h1, ⟨h2.w, h2.flag, kp h2.retv, h2.regs, h2.rv⟩, h3⟩
  | brk v t =>
    obtain ⟨m', j, h0, h1, h2, h3⟩ := h
    exact ⟨m', j, h0, h1, ⟨h2.w, h2.flag, kp h2.retv, h2.regs, h2.rv⟩, h3⟩
  | cont v t =>
    obtain ⟨m', j, h0, h1, h2, h3⟩ := h
    exact ⟨m', j, h0, h1, ⟨h2.w, h2.flag, kp h2.retv, h2.regs, h2.rv⟩, h3⟩
  | ret v =>
    obtain ⟨m', h1, h2, h3⟩ := h
    refine ⟨m', h1, ⟨h2.w, h2.flag, ?_, h2.retv, h2.regs⟩, h3⟩
    have := h2.nofin
    cases hk : X.kt with
    | false => rfl
    | true => rw [kt hk] at this; cases this
  | thr v =>
    obtain ⟨m', h1, h2, h3⟩ := h
    exact ⟨m', h1, ⟨h2.w, h2.flag, h2.err, fun f => h2.retv (kt f), h2.regs⟩, h3⟩

theorem sim_try {b c f : Stmt σ V} (hc : Bool) (cd : Option (Nat × (V → Ex σ V))) (hf : Bool) (hL : LOK code)
    (h1 : Sim W code b) (h2 : Sim W code c) (h3 : Sim W code f) : Sim W code (.try_ b hc cd c hf f) := by
  intro X0 E lb ls nr nl p n m h0
  refine Post.weak ?_
  obtain ⟨X, hX⟩ : ∃ X : Cx V, X = inTry X0 := ⟨_, rfl⟩
  have hkk : X.kp = X.kt := by rw [hX]; exact inTry_kp X0
  have hinvX : Inv X E lb ls nr := by
    rw [hX]
    have i := h0.inv
    exact ⟨i.d, i.rv, i.bs, i.cs, i.b, i.c, i.ls, i.lo, i.hi⟩
  have h : Hyp code X0 E lb ls nr nl p (.try_ b hc cd c hf f) m := h0
  have hpr : parse lb ls (names X.bl) (names X.cl) (.try_ b hc cd c hf f) = true := by rw [hX]; exact h0.pr
  have hok : Ok X.rvm X.fin X.ka X.kt b ∧ (hc = true → Ok X.rvm X.fin X.ka X.kt c ∧
      (∀ p ∈ cd, ∀ v, Quiet (p.2 v)) ∧ (X.rvm = true → writes c = true)) ∧
      (hf = true → Ok false true true true f ∧ parse [] [] [] [] f = true) := by
    rw [hX]; exact h0.ok
  have hstk : m.stk = X.K := by rw [hX]; exact h0.stk
  have henv : m.env = X.env := by rw [hX]; exact h0.env
  have hflag : X.fin = false → m.flag = false := by rw [hX]; exact h0.flag
  have hx0 : X0.env = X.env := by rw [hX]; rfl
  rw [← hX, hx0]
  simp only [parse, Bool.and_eq_true, Bool.or_eq_true, Bool.not_eq_true'] at hpr
  obtain ⟨⟨⟨pr1, _⟩, pr2⟩, _⟩ := hpr
  obtain ⟨ok1, ok2, ok3⟩ := hok
  have hcode := h.code
  generalize ha : gen { E with d := E.d + 1, bs := ⟨ls, false, ⟨nl + 3, E.d + 1, E.rv⟩⟩ :: E.bs } [] b nr (nl + 4) = a
  generalize hk : tryCatch E hc cd c a.nr a.nl = kc
  generalize hz : tryFin E hf f kc.nr kc.nl = zc
  rw [gen_try E ls b hc cd c hf f nr nl a kc zc ha hk hz] at hcode ⊢
  have nr1 : nr ≤ a.nr := by subst ha; exact gen_nr _ _ _ _ _
  have nr2 : a.nr ≤ kc.nr := by subst hk; exact tryCatch_nr _ _ _ _ _ _
  obtain ⟨c0, c1⟩ := hcode.append
  obtain ⟨c1, c2⟩ := c1.append
  have c1 := c1.cons.1
  obtain ⟨c2, c3⟩ := c2.append
  obtain ⟨c3, c4⟩ := c3.append
  obtain ⟨c3, c3'⟩ := c3.cons
  have c3' := c3'.cons.1
  obtain ⟨c4, c5⟩ := c4.append
  obtain ⟨c5, c6⟩ := c5.append
  obtain ⟨c5, c5'⟩ := c5.cons
  have c5' := c5'.cons.1
  simp only [List.length_append, List.length_cons, List.length_nil, Nat.zero_add] at c1 c2 c3 c3' c4 c5 c5' c6 ⊢
  obtain ⟨q1, hq1⟩ : ∃ q, q = p + (loadRv E.rv : List (Cmd σ V)).length := ⟨_, rfl⟩
  rw [← hq1] at c1 c2 c3 c3' c4 c5 c5' c6
  obtain ⟨q2, hq2⟩ : ∃ q, q = q1 + 1 + a.code.length := ⟨_, rfl⟩
  rw [← hq2] at c3 c3' c4 c5 c5' c6
  have e4 : q2 + (1 + 1) = q2 + 1 + 1 := rfl
  rw [e4] at c4 c5 c5' c6
  obtain ⟨qf, hqf⟩ : ∃ q, q = q2 + 1 + 1 + kc.code.length := ⟨_, rfl⟩
  rw [← hqf] at c5 c5' c6
  have e5 : qf + (1 + 1) = qf + 1 + 1 := rfl
  rw [e5] at c6
  obtain ⟨m0, r1, r2, r3, r4, r5, r6, r7, _⟩ := loadRv_reach (W := W) (X := X) hinvX.rv h.ip c0
  rw [← hq1] at r3
  have s1 := step0 (W := W) (code := code) (m := m0) (c := .pushTry nl (nl + 1)) (by rw [r3]; exact c1)
  simp only [exec, hL _ _ c3', hL _ _ c5, r3, r6, hstk] at s1
  obtain ⟨m1, hm1⟩ : ∃ m1 : M σ V, m1 = { m0 with ip := q1 + 1, stk := .tr .try_ .normal W.undef (q2 + 1) qf none :: X.K } := ⟨_, rfl⟩
  rw [← hm1] at s1
  have g1 : m1.ip = q1 + 1 := by rw [hm1]
  have g2 : m1.stk = .tr .try_ .normal W.undef (q2 + 1) qf none :: X.K := by rw [hm1]
  have g3 : m1.env = X.env := by rw [hm1]; exact r5.trans henv
  have g4 : m1.w = m.w := by rw [hm1]; exact r4
  have g5 : m1.flag = m.flag := by rw [hm1]; exact r7
  have g6 : Pre X m m1 (some W.undef) := by rw [hm1]; exact ⟨r2.flag, r2.retv, r2.regs, r2.rv⟩
  have hinv := ((hinvX.deeper 1 (.tr .try_ .normal W.undef (q2 + 1) qf none :: X.K) X.env).brk false (nl + 3))
  have p1 := h1.use (n := n) (nl := nl + 4) (nr := nr) (m := m1) (p := q1 + 1)
    ⟨hinv, pr1, ok1, by rw [ha]; exact c2, g1, g2, g3, fun hh => by rw [g5]; exact hflag hh⟩
  rw [ha, ← hq2, g4] at p1
  have p2 := p1.next (q' := qf + 1) (fun m' hm _ => by
    have j1 := jmp_step (W := W) (m := m') hL (by rw [hm]; exact c3) c5
    have j2 := stub_step (W := W) (code := code) (m := { m' with ip := qf }) c5
    exact j1.to.trans j2.to)
  have p3 := Post.stop (X := { X with d := X.d + 1, K := .tr .try_ .normal W.undef (q2 + 1) qf none :: X.K }) hL c5' p2
  have hst : ∀ m' : M σ V, m'.ip = qf → Reach W code (.inl m') (.inl { m' with ip := qf + 1 + 1 }) := by
    intro m' hm
    have j1 := stub_step (W := W) (code := code) (m := m') (by rw [hm]; exact c5)
    have j2 := stub_step (W := W) (code := code) (m := { m' with ip := m'.ip + 1 }) (by simp only [hm]; exact c5')
    rw [hm] at j2
    rw [hm] at j1
    exact j1.to.trans j2.to
  have p4 := catch_sim (l0 := nl) (cd := cd) (hc := hc) h2 hinvX nr1
    (fun hh => pr2.resolve_left (by simp [hh])) hkk ok2 c3'
    (by rw [hk]; exact c4) (by rw [hk]; exact hqf) hst p3
  have hR : Reach W code (.inl m) (.inl m1) := r1.trans s1
  have fin : Post W code X (qf + 1 + 1 + zc.code.length + 1 + 1 + 1) n m1 (mapC (stop false ls) (finishing hf
        (handle hc (eval W n [] 0 b X.env m.w) (fun w' v =>
          withParam cd v X.env w' (fun env' w'' => eval W n [] 0 c env' w'')))
        (fun w' => eval W n [] 0 f X.env w'))) := by
    have p5 : match handle hc (eval W n [] 0 b X.env m.w) (fun w' v =>
          withParam cd v X.env w' (fun env' w'' => eval W n [] 0 c env' w'')) with
      | none => Runs W code n (.inl m1)
      | some (w', c') => ∃ m2, Reach W code (.inl m1) (.inl m2) ∧ Pend code X (qf + 1 + 1) (q2 + 1) qf m1 m2 w' (stop false ls c') := p4
    generalize handle hc (eval W n [] 0 b X.env m.w) (fun w' v =>
          withParam cd v X.env w' (fun env' w'' => eval W n [] 0 c env' w'')) = o at p5 ⊢
    rcases o with _ | ⟨w', c'⟩
    · cases hf <;> exact p5
    · obtain ⟨m2, k1, k2⟩ := p5
      have := fin_sim (W := W) (n := n) (l := nl + 2) (hf := hf) (r := kc.nr) (nl := kc.nl) h3 hinvX (Nat.le_trans nr1 nr2) ok3 (by rw [hz]; exact c6) k1 k2
      rw [hz] at this
      exact this
  have p6 := Post.pre hR g6 fin
  simp only [eval]
  have eo : ∀ o : Out σ V, mapC (upd · (some W.undef)) (mapC (stop false ls) o) =
      mapC (stop false ls) (mapC (upd · (some W.undef)) o) := by
    intro o
    rcases o with _ | ⟨w, c⟩
    · rfl
    · simp only [mapC, Option.map_some, stop_upd]
  rw [eo] at p6
  refine p6.exit ?_
  omega

/-- Every statement. -/
theorem sim (hW : QuietWorld W) (hL : LOK code) (s : Stmt σ V) : Sim W code s ∧ SimC W code s := by
  have no : ∀ {s : Stmt σ V}, (∀ lb bs cs, parse.clauses lb bs cs s = false) → SimC W code s := by
    intro s h X E lb nr nl p n m k _ hp
    rw [h] at hp
    cases hp
  induction s with
  | nil => exact ⟨sim_nil, simC_nil⟩
  | cons s r ih1 ih2 => exact ⟨sim_cons ih1.1 ih2.1, no (fun _ _ _ => rfl)⟩
  | empty => exact ⟨sim_empty, no (fun _ _ _ => rfl)⟩
  | expr e => exact ⟨sim_expr e, no (fun _ _ _ => rfl)⟩
  | decl e => exact ⟨sim_decl e, no (fun _ _ _ => rfl)⟩
  | block d b ih => exact ⟨sim_block d hL ih.1, no (fun _ _ _ => rfl)⟩
  | ite c s t ih1 ih2 => exact ⟨sim_ite c hL ih1.1 ih2.1, no (fun _ _ _ => rfl)⟩
  | doWhile s c ih => exact ⟨sim_doWhile c hL ih.1, no (fun _ _ _ => rfl)⟩
  | while_ c s ih => exact ⟨sim_while c hL ih.1, no (fun _ _ _ => rfl)⟩
  | for_ d i c t s ih => exact ⟨sim_for d i c t hL ih.1, no (fun _ _ _ => rfl)⟩
  | forIn of d e f s ih => exact ⟨sim_forIn of d e f hW hL ih.1, no (fun _ _ _ => rfl)⟩
  | switch d e c ih => exact ⟨sim_switch d e hL ih.2, no (fun _ _ _ => rfl)⟩
  | case c b r ih1 ih2 =>
    refine ⟨?_, simC_case c hL ih1.1 ih2.2⟩
    intro X E lb ls nr nl p n m h
    have := h.pr
    simp [parse] at this
  | try_ b hc cd c hf f ih1 ih2 ih3 => exact ⟨sim_try hc cd hf hL ih1.1 ih2.1 ih3.1, no (fun _ _ _ => rfl)⟩
  | with_ e d s ih => exact ⟨sim_with e d hL ih.1, no (fun _ _ _ => rfl)⟩
  | throw_ e => exact ⟨sim_throw e, no (fun _ _ _ => rfl)⟩
  | ret e => exact ⟨sim_ret e, no (fun _ _ _ => rfl)⟩
  | brk l => exact ⟨sim_brk l, no (fun _ _ _ => rfl)⟩
  | cont l => exact ⟨sim_cont l, no (fun _ _ _ => rfl)⟩
  | labelled k s ih => exact ⟨sim_labelled k ih.1, no (fun _ _ _ => rfl)⟩

end Verif.Flow

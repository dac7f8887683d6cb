import Verif.Lemmas.FlowIter

/-! The simulation for `switch`. -/

namespace Verif.Flow

open Spec

variable {σ V : Type} {W : World σ V} {code : List (Cmd σ V)}

theorem defLab_eq (c : Stmt σ V) (nl : Nat) : defLab c nl = (defaultClause c).map (nl + ·) := by
  induction c generalizing nl with
  | case e b r _ ih =>
    cases e with
    | none => rfl
    | some e =>
      simp only [defLab, defaultClause, ih, Option.map_map]
      congr 1
      funext i
      simp only [Function.comp]
      omega
  | _ => rfl

theorem default_lt (c : Stmt σ V) (i : Nat) (h : defaultClause c = some i) : i < clauseCount c := by
  induction c generalizing i with
  | case e b r _ ih =>
    cases e with
    | none =>
      simp only [defaultClause, Option.some.injEq] at h
      subst h
      simp [clauseCount]
    | some e =>
      simp only [defaultClause, Option.map_eq_some_iff] at h
      obtain ⟨j, hj, rfl⟩ := h
      have := ih j hj
      simp only [clauseCount]
      omega
  | _ => cases h

/-- Where the conditions of the clauses lead. -/
def SelPost (W : World σ V) (code : List (Cmd σ V)) (c : Stmt σ V) (nr nl q : Nat) (m : M σ V) :
    Res σ V (Option Nat) → Prop
  | .thr w v => ∃ g : Nat × (Nat → V), Reach W code (.inl m) (unwind W m.stk .throw { m with ip := g.1, w := w, regs := g.2, flag := true, err := v }) ∧
      ∀ i, i < nr → g.2 i = m.regs i
  | .ok w (some k) _ => k < clauseCount c ∧ ∃ g, Reach W code (.inl m) (.inl { m with ip := pos code (nl + k), w := w, regs := g }) ∧
      ∀ i, i < nr → g i = m.regs i
  | .ok w none _ => ∃ g, Reach W code (.inl m) (.inl { m with ip := q, w := w, regs := g }) ∧
      ∀ i, i < nr → g i = m.regs i

theorem conds_sim (rvm fin ka kt : Bool) (rid : Nat) (x : V) (c : Stmt σ V) (nr nl p : Nat) (m : M σ V) (hok : Ok rvm fin ka kt c)
    (hc : CodeAt code p (genConds rid c nr nl).code) (hip : m.ip = p) (hr : rid < nr) (hx : m.regs rid = x) :
    SelPost W code c nr nl (p + (genConds rid c nr nl).code.length) m (select W m.env x c m.w) := by
  induction c generalizing nr nl p m with
  | case e b r _ ih =>
    obtain ⟨ok1, _, ok3⟩ := hok
    cases e with
    | none =>
      simp only [genConds, select] at hc ⊢
      have := ih nr (nl + 1) p m ok3 hc hip hr hx
      cases hs : select W m.env x r m.w with
      | thr w v => rw [hs] at this; exact this
      | ok w o fx =>
        rw [hs] at this
        cases o with
        | none => exact this
        | some k =>
          obtain ⟨h1, g, h2, h3⟩ := this
          refine ⟨by simp only [clauseCount]; omega, g, ?_, h3⟩
          rw [show nl + (k + 1) = nl + 1 + k by omega]
          exact h2
    | some e =>
      simp only [genConds] at hc ⊢
      obtain ⟨c1, c2⟩ := hc.append
      obtain ⟨c1, c3⟩ := c1.cons
      obtain ⟨c3, c4⟩ := c3.cons
      have c4 := c4.cons.1
      simp only [select]
      cases he : e m.env m.w with
      | thr w v =>
        exact ⟨(m.ip, m.regs), (ex_thr (by rw [hip]; exact c1) he).to, fun _ _ => rfl⟩
      | ok w v fx =>
        simp only
        have s1 := ex_ok (W := W) (m := m) (by rw [hip]; exact c1) (ok1 e rfl) he
        obtain ⟨m1, hm1⟩ : ∃ m1 : M σ V, m1 = { m with ip := p + 1 + 1, w := w, regs := setR (setR m.regs nr v) (nr + 1) (W.ofBool (W.strictEq x v)) } := ⟨_, rfl⟩
        have s2 := step0 (W := W) (code := code) (m := { m with ip := m.ip + 1, w := w, regs := setR m.regs nr v })
          (c := .seq rid nr (nr + 1)) (by simp only [hip]; exact c3)
        simp only [exec, setR_eq, setR_ne (Nat.ne_of_lt hr), hx, hip] at s2
        rw [← hm1] at s2
        have s12 : Reach W code (.inl m) (.inl m1) := by
          rw [hip] at s1
          exact s1.to.trans s2
        have g1 : m1.regs (nr + 1) = W.ofBool (W.strictEq x v) := by rw [hm1]; exact setR_eq
        have g0 : ∀ i, i < nr → m1.regs i = m.regs i := by
          intro i hi
          rw [hm1]
          simp only
          rw [setR_ne (by omega), setR_ne (by omega)]
        have s3 := step0 (W := W) (code := code) (m := m1) (c := .jT (nr + 1) nl) (by rw [hm1]; exact c4)
        simp only [exec, g1, W.truthy_ofBool] at s3
        cases hq : W.strictEq x v with
        | true =>
          rw [hq] at s3
          simp only [↓reduceIte] at s3 ⊢
          refine ⟨by simp [clauseCount], m1.regs, ?_, g0⟩
          have e : ({ m1 with ip := pos code nl } : M σ V) = { m with ip := pos code (nl + 0), w := w, regs := m1.regs } := by
            rw [hm1]; rfl
          rw [e] at s3
          exact s12.trans s3
        | false =>
          rw [hq] at s3
          simp only [Bool.false_eq_true, ↓reduceIte] at s3 ⊢
          have := ih (nr + 2) (nl + 1) (p + 3) { m1 with ip := m1.ip + 1 } ok3 c2 (by rw [hm1]) (by omega)
            (by simp only; rw [g0 rid hr, hx])
          have hl : p + ([Cmd.ex e nr, Cmd.seq rid nr (nr + 1), Cmd.jT (nr + 1) nl] ++ (genConds rid r (nr + 2) (nl + 1)).code).length =
            p + 3 + (genConds rid r (nr + 2) (nl + 1)).code.length := by simp; omega
          rw [hl]
          have e1 : ({ m1 with ip := m1.ip + 1 } : M σ V).env = m.env := by rw [hm1]
          have e2 : ({ m1 with ip := m1.ip + 1 } : M σ V).w = w := by rw [hm1]
          rw [e1, e2] at this
          have s13 := s12.trans s3
          cases hs : select W m.env x r w with
          | thr w' v' =>
            rw [hs] at this
            obtain ⟨g, h1, h2⟩ := this
            refine ⟨g, ?_, fun i hi => (h2 i (by omega)).trans (g0 i hi)⟩
            subst hm1
            exact s13.trans h1
          | ok w' o fx' =>
            rw [hs] at this
            cases o with
            | none =>
              obtain ⟨g, h1, h2⟩ := this
              refine ⟨g, ?_, fun i hi => (h2 i (by omega)).trans (g0 i hi)⟩
              subst hm1
              exact s13.trans h1
            | some k =>
              obtain ⟨hk, g, h1, h2⟩ := this
              refine ⟨by simp only [clauseCount]; omega, g, ?_, fun i hi => (h2 i (by omega)).trans (g0 i hi)⟩
              rw [show nl + (k + 1) = nl + 1 + k by omega]
              subst hm1
              exact s13.trans h1
  | _ =>
    refine ⟨m.regs, ?_, fun _ _ => rfl⟩
    have : ({ m with ip := p, w := m.w, regs := m.regs } : M σ V) = m := by
      cases m; cases hip; rfl
    simp only [genConds, List.length_nil, Nat.add_zero]
    rw [this]
    exact .refl _

/-- The run of the clauses of a switch from clause `k` on. -/
def SimC (W : World σ V) (code : List (Cmd σ V)) (c : Stmt σ V) : Prop :=
  ∀ (X : Cx V) (E : Env) (lb : List Nat) (nr nl p n : Nat) (m : M σ V) (k : Nat), Inv X E lb [] nr →
    parse.clauses lb (names X.bl) (names X.cl) c = true → Ok X.rvm X.fin X.ka X.kt c →
    CodeAt code p (gen E [] c nr nl).code → m.stk = X.K → m.env = X.env → (X.fin = false → m.flag = false) →
    (k = 0 ∧ m.ip = p ∨ k < clauseCount c ∧ m.ip = pos code (E.clab + k) ∨
      k = clauseCount c ∧ m.ip = p + (gen E [] c nr nl).code.length) →
    Post W code X (p + (gen E [] c nr nl).code.length) n m (eval W n [] k c X.env m.w)

theorem simC_nil : SimC W code (.nil : Stmt σ V) := by
  intro X E lb nr nl p n m k hi hpr hok hc hs he hf hk
  have := Post.here (W := W) (code := code) (n := n) hs he
  have hip : m.ip = p := by
    rcases hk with hk | hk | hk
    · exact hk.2
    · exact absurd hk.1 (by simp [clauseCount])
    · simpa [gen] using hk.2
  rw [hip] at this
  simpa [gen, eval] using this

theorem simC_case {b r : Stmt σ V} (e : Option (Ex σ V)) (hL : LOK code) (h1 : Sim W code b) (h2 : SimC W code r) :
    SimC W code (.case e b r) := by
  intro X E lb nr nl p n m k hi hpr hok hc hs he hf hk
  simp only [parse.clauses, Bool.and_eq_true] at hpr
  obtain ⟨⟨hp1, _⟩, hp2⟩ := hpr
  obtain ⟨_, ok1, ok2⟩ := hok
  simp only [gen] at hc hk ⊢
  generalize ha : gen E [] b nr nl = a at hc hk ⊢
  generalize hE : ({ E with clab := E.clab + 1 } : Env) = E' at hc hk ⊢
  have hi' : Inv X E' lb [] a.nr := by
    subst hE
    subst ha
    have := hi.mono (gen_nr E [] b nr nl)
    exact ⟨this.d, this.rv, this.bs, this.cs, this.b, this.c, this.ls, this.lo, this.hi⟩
  have hcl : E'.clab = E.clab + 1 := by subst hE; rfl
  generalize hb : gen E' [] r a.nr a.nl = b' at hc hk ⊢
  obtain ⟨c0, c1⟩ := hc.append
  obtain ⟨c1, c2⟩ := c1.append
  have c0 := c0.cons.1
  have hl : p + ([Cmd.stub E.clab] ++ (a.code ++ b'.code)).length = p + 1 + a.code.length + b'.code.length := by
    simp only [List.length_append, List.length_cons, List.length_nil]; omega
  rw [hl] at hk ⊢
  cases k with
  | zero =>
    have hip : m.ip = p := by
      rcases hk with hk | hk | hk
      · exact hk.2
      · rw [hk.2]; exact hL p E.clab c0
      · exact absurd hk.1 (by simp [clauseCount])
    have hst := stub_step (W := W) (m := m) (by rw [hip]; exact c0)
    refine Post.pre0 hst.to (Pre.regs_only rfl rfl (fun _ _ => rfl)) ?_
    simp only [eval]
    have p1 := h1.use (n := n) (nl := nl) (nr := nr) (p := p + 1) (m := { m with ip := m.ip + 1 })
      ⟨hi, hp1, ok1, by rw [ha]; exact c1, by simp only [hip], hs, he, hf⟩
    rw [ha] at p1
    refine Post.seq p1 ?_
    intro m' hip' hstk henv hfl
    have := h2 X E' lb a.nr a.nl (p + 1 + a.code.length) n m' 0 hi' hp2 ok2 (by rw [hb]; exact c2) hstk henv
      (flag_down hf hfl) (.inl ⟨rfl, hip'⟩)
    rw [hb] at this
    exact this
  | succ k =>
    simp only [eval]
    have := h2 X E' lb a.nr a.nl (p + 1 + a.code.length) n m k hi' hp2 ok2 (by rw [hb]; exact c2) hs he hf (by
      rcases hk with hk | hk | hk
      · exact absurd hk.1 (by simp)
      · refine .inr (.inl ⟨by have := hk.1; simp only [clauseCount] at this; omega, ?_⟩)
        rw [hk.2, hcl]
        congr 1
        omega
      · refine .inr (.inr ⟨by have := hk.1; simp only [clauseCount] at this; omega, ?_⟩)
        rw [hb]
        exact hk.2)
    rw [hb] at this
    exact this

theorem sim_switch {c : Stmt σ V} (d : Nat) (e : Ex σ V) (hL : LOK code) (h1 : SimC W code c) :
    Sim W code (.switch d e c) := by
  intro X E lb ls nr nl p n m h
  have hcode := h.code
  have hpr := h.pr
  simp only [parse] at hpr
  obtain ⟨ok1, ok2⟩ := h.ok
  simp only [gen] at hcode ⊢
  have hinv := (h.inv.deeper 1 (.env :: X.K) (d :: X.env)).brk true nl
  generalize hq : genConds nr c (nr + 1) (nl + 1) = q at hcode ⊢
  have hqn : nr + 1 ≤ q.nr := by subst hq; exact conds_nr _ _ _ _
  generalize hE : ({ E with d := E.d + 1, bs := ⟨ls, true, ⟨nl, E.d + 1, E.rv⟩⟩ :: E.bs, clab := nl + 1 } : Env) = E' at hcode ⊢
  have hinv' : Inv { wd (some d) X with bl := ⟨ls, true, ⟨nl, X.d + 1, E.rv⟩⟩ :: X.bl } E' lb [] q.nr := by
    subst hE
    have := hinv.mono (Nat.le_trans (Nat.le_succ nr) hqn)
    exact ⟨this.d, this.rv, this.bs, this.cs, this.b, this.c, this.ls, this.lo, this.hi⟩
  have hcl : E'.clab = nl + 1 := by subst hE; rfl
  generalize ha : gen E' [] c q.nr q.nl = a at hcode ⊢
  obtain ⟨c0, c1⟩ := hcode.append
  obtain ⟨c1, c2⟩ := c1.append
  obtain ⟨c2, c3⟩ := c2.append
  obtain ⟨c3, c4⟩ := c3.append
  obtain ⟨c4, c5⟩ := c4.append
  have c4 := c4.cons.1
  obtain ⟨c5, c6⟩ := c5.append
  obtain ⟨c6, c7⟩ := c6.cons
  simp only [List.length_append, List.length_cons, List.length_nil, Nat.zero_add] at c1 c2 c3 c4 c5 c6 c7 ⊢
  obtain ⟨q1, hq1⟩ : ∃ q, q = p + 1 + (loadRv E.rv : List (Cmd σ V)).length := ⟨_, rfl⟩
  rw [← hq1] at c2 c3 c4 c5 c6 c7
  obtain ⟨q2, hq2⟩ : ∃ q', q' = q1 + 1 + q.code.length := ⟨_, rfl⟩
  rw [← hq2] at c4 c5 c6 c7
  obtain ⟨q3, hq3⟩ : ∃ q', q' = q2 + 1 + a.code.length := ⟨_, rfl⟩
  rw [← hq3] at c6 c7
  simp only [eval, andThen_stop]
  rw [← h.env]
  refine Post.ex (by rw [h.ip]; exact c0.cons.1) ok1 h.stk h.env h.inv.lo (fun i hi => Nat.ne_of_lt (h.inv.hi i hi)) ?_
  intro w v
  obtain ⟨m1, r1, r2, r3, r4, r5, r6, r7, _, r9⟩ := loadRv_reach (W := W) (X := X) h.inv.rv
    (m := { m with w := w, ip := m.ip + 1, regs := setR m.regs nr v }) (by simp [h.ip]) c1
  rw [← hq1] at r3
  have hr := pushD_reach (W := W) (d := some d) r3 c2
  obtain ⟨m2, hm2⟩ : ∃ m2 : M σ V, m2 = { m1 with ip := q1 + 1, env := d :: m1.env, stk := .env :: m1.stk } := ⟨_, rfl⟩
  have hr' : Reach W code (.inl m1) (.inl m2) := by rw [hm2]; exact hr
  have e1 : m2.env = d :: X.env := by rw [hm2]; simp [r5, h.env]
  have e2 : m2.stk = .env :: X.K := by rw [hm2]; simp [r6, h.stk]
  have e3 : m2.w = w := by rw [hm2]; simp [r4]
  have e4 : m2.flag = m.flag := by rw [hm2]; simp [r7]
  have e5 : m2.ip = q1 + 1 := by rw [hm2]
  have e6 : m2.regs = m1.regs := by rw [hm2]
  have e7 : m2.retv = m1.retv := by rw [hm2]
  have hx : m2.regs nr = v := by
    rw [e6, r9 nr (fun hh => Nat.lt_irrefl _ (h.inv.hi nr hh))]
    simp [setR]
  have lo1 : ∀ i, i < X.nr ∨ X.rv = some i → i < nr + 1 := by
    intro i hi
    rcases hi with hi | hi
    · have := h.inv.lo; omega
    · have := h.inv.hi i hi; omega
  have key : Post W code { wd (some d) X with bl := ⟨ls, true, ⟨nl, X.d + 1, E.rv⟩⟩ :: X.bl } q3 n m2
      (andThen (select W (d :: X.env) v c w) (fun w1 i =>
            eval W n [] ((i <|> defaultClause c).getD (clauseCount c)) c (d :: X.env) w1)) := by
    have hsel := conds_sim (W := W) X.rvm X.fin X.ka X.kt nr v c (nr + 1) (nl + 1) (q1 + 1) m2 ok2 (by rw [hq]; exact c3) e5 (Nat.lt_succ_self _) hx
    rw [e1, e3, hq, ← hq2] at hsel
    have go : ∀ (k : Nat) (w1 : σ) (g : Nat → V) (ip : Nat), (∀ i, i < nr + 1 → g i = m2.regs i) →
        Reach W code (.inl m2) (.inl { m2 with ip := ip, w := w1, regs := g }) →
        (k < clauseCount c ∧ ip = pos code (nl + 1 + k) ∨ k = clauseCount c ∧ ip = q3) →
        Post W code { wd (some d) X with bl := ⟨ls, true, ⟨nl, X.d + 1, E.rv⟩⟩ :: X.bl } q3 n m2
          (eval W n [] k c (d :: X.env) w1) := by
      intro k w1 g ip hg hre hk
      refine Post.pre0 hre (Pre.regs_only rfl rfl (fun i hi => hg i (lo1 i hi))) ?_
      have := h1 { wd (some d) X with bl := ⟨ls, true, ⟨nl, X.d + 1, E.rv⟩⟩ :: X.bl } E' lb q.nr q.nl (q2 + 1) n
        { m2 with ip := ip, w := w1, regs := g } k hinv' hpr ok2 (by rw [ha]; exact c5) e2 e1
        (fun hf => by simp only; rw [e4]; exact h.flag hf) (by
          rw [ha, hcl, ← hq3]
          exact .inr hk)
      rw [ha, ← hq3] at this
      exact this
    have jgo : ∀ (w1 : σ) (g : Nat → V) , Reach W code (.inl m2) (.inl { m2 with ip := q2, w := w1, regs := g }) →
        Reach W code (.inl m2) (.inl { m2 with ip := pos code ((defLab c (nl + 1)).getD nl), w := w1, regs := g }) := by
      intro w1 g hre
      have := step0 (W := W) (code := code) (m := { m2 with ip := q2, w := w1, regs := g }) (c := .jmp ((defLab c (nl + 1)).getD nl)) c4
      exact hre.trans this
    cases hs : select W (d :: X.env) v c w with
    | thr w1 u =>
      rw [hs] at hsel
      obtain ⟨g, h1, h2⟩ := hsel
      exact Post.throw h1 e2 rfl rfl rfl e1 (fun _ => rfl) (fun i hi _ => h2 i (lo1 i (.inl hi)))
    | ok w1 o fx =>
      rw [hs] at hsel
      cases o with
      | some k =>
        obtain ⟨hk, g, h1, h2⟩ := hsel
        exact go k w1 g _ h2 h1 (.inl ⟨hk, rfl⟩)
      | none =>
        obtain ⟨g, h1, h2⟩ := hsel
        have h3 := jgo w1 g h1
        simp only [andThen, Option.orElse_eq_orElse, Option.orElse_none]
        rw [defLab_eq] at h3
        cases hd : defaultClause c with
        | none =>
          rw [hd] at h3
          simp only [Option.map_none, Option.getD_none] at h3
          exact go _ w1 g _ h2 h3 (.inr ⟨rfl, hL q3 nl c6⟩)
        | some k =>
          rw [hd] at h3
          simp only [Option.map_some, Option.getD_some] at h3
          exact go k w1 g _ h2 h3 (.inl ⟨default_lt c k hd, rfl⟩)
  have p2 := Post.labelled (X := wd (some d) X) (x := W.undef) hL c6 (r1.trans hr')
    ⟨by rw [e4]; exact r2.flag ∘ (by rw [r7]; exact id), by rw [e7]; exact r2.retv, by rw [e6]; exact r2.regs, by rw [e6]; exact r2.rv⟩ key
  have p3 := Post.scope (d := some d) h.inv.near c7 p2
  have eo : ∀ o : Out σ V, mapC (stop true ls) (mapC (upd · (some W.undef)) o) =
      mapC (stop false ls) (mapC (breakable W) (mapC (upd · (some W.undef)) o)) := by
    intro o
    rcases o with _ | ⟨w, c⟩
    · rfl
    · simp only [mapC, Option.map_some, stop_breakable]
  rw [eo] at p3
  simp only [h.env] at p3 ⊢
  refine p3.exit ?_
  simp only [popD, List.length_cons, List.length_nil]
  omega

end Verif.Flow

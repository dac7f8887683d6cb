import Verif.Lemmas.FlowParts

/-! The simulation for statements without loops and `try`. -/

namespace Verif.Flow

open Spec

variable {σ V : Type} {W : World σ V} {code : List (Cmd σ V)}

/-- Registers only go up. -/
theorem conds_nr (rid : Nat) (s : Stmt σ V) (nr nl : Nat) : nr ≤ (genConds rid s nr nl).nr := by
  induction s generalizing nr nl with
  | case c b r _ ih =>
    cases c with
    | none => exact ih nr (nl + 1)
    | some e => exact Nat.le_trans (by omega) (ih (nr + 2) (nl + 1))
  | _ => exact Nat.le_refl _

theorem gen_nr (E : Env) (ls : List Nat) (s : Stmt σ V) (nr nl : Nat) : nr ≤ (gen E ls s nr nl).nr := by
  induction s generalizing E ls nr nl with
  | nil => exact Nat.le_refl _
  | cons s r ih1 ih2 => exact Nat.le_trans (ih1 _ _ _ _) (ih2 _ _ _ _)
  | empty => exact Nat.le_refl _
  | expr e =>
    simp only [gen]
    cases E.rv <;> simp
  | decl e => simp [gen]
  | block d b ih =>
    cases b with
    | nil => exact Nat.le_refl _
    | _ => exact ih { E with d := E.d + 1, bs := ⟨ls, false, ⟨nl, E.d + 1, E.rv⟩⟩ :: E.bs } [] nr (nl + 1)
  | ite c s t ih1 ih2 => exact Nat.le_trans (Nat.le_trans (by omega) (ih1 _ _ _ _)) (ih2 _ _ _ _)
  | doWhile s c ih => exact Nat.le_trans (Nat.le_succ nr) (ih _ _ _ _)
  | while_ c s ih => exact Nat.le_trans (Nat.le_succ nr) (ih _ _ _ _)
  | for_ d i c t s ih => exact Nat.le_trans (Nat.le_trans (by omega) (ih _ _ _ _)) (Nat.le_add_right _ _)
  | forIn of d e f s ih => exact Nat.le_trans (by omega) (ih _ _ _ _)
  | switch d e c ih => exact Nat.le_trans (Nat.le_trans (Nat.le_succ nr) (conds_nr _ _ _ _)) (ih _ _ _ _)
  | case c b r ih1 ih2 => exact Nat.le_trans (ih1 _ _ _ _) (ih2 _ _ _ _)
  | try_ b hc cd c hf f ih1 ih2 ih3 =>
    cases hc <;> cases hf <;> simp only [gen]
    · exact ih1 _ _ _ _
    · exact Nat.le_trans (Nat.le_trans (ih1 _ _ _ _) (Nat.le_add_right _ _)) (ih3 _ _ _ _)
    · exact Nat.le_trans (Nat.le_trans (ih1 _ _ _ _) (Nat.le_succ _)) (ih2 _ _ _ _)
    · exact Nat.le_trans (Nat.le_trans (Nat.le_trans (Nat.le_trans (ih1 _ _ _ _) (Nat.le_succ _)) (ih2 _ _ _ _))
        (Nat.le_add_right _ _)) (ih3 _ _ _ _)
  | with_ e d s ih => exact Nat.le_trans (Nat.le_succ nr) (ih _ _ _ _)
  | throw_ e => simp [gen]
  | ret e => cases e <;> simp [gen]
  | brk l =>
    simp only [gen]
    split
    · exact Nat.le_refl _
    · split <;> exact Nat.le_refl _
  | cont l =>
    simp only [gen]
    split <;> exact Nat.le_refl _
  | labelled n s ih => exact ih _ _ _ _

/-- A target as the parser sees it. -/
def names (bl : List Tgt) : List PTgt := bl.map (fun t => (t.names, t.brk))

/-- The generator's view of a place. -/
structure Inv (X : Cx V) (E : Env) (lb ls : List Nat) (nr : Nat) : Prop where
  d : E.d = X.d
  rv : E.rv = X.rv
  bs : ∃ ob, E.bs = X.bl ++ ob
  cs : ∃ oc, E.cs = X.cl ++ oc
  b : ∀ t ∈ X.bl, t.j.d ≤ X.d ∧ t.j.rv = X.rv ∧ ∀ x ∈ t.names, x ∈ lb
  c : ∀ t ∈ X.cl, t.brk = true ∧ t.j.d ≤ X.d ∧ t.j.rv = X.rv
  ls : ∀ x ∈ ls, x ∈ lb ∧ ∀ t ∈ X.bl, x ∉ t.names
  lo : X.nr ≤ nr
  hi : ∀ i, X.rv = some i → i < nr

theorem Inv.near {X : Cx V} {E : Env} {lb ls : List Nat} {nr : Nat} (h : Inv X E lb ls nr) : Near X :=
  ⟨fun t ht => (h.b t ht).1, fun t ht => (h.c t ht).2.1⟩

theorem Inv.mono {X : Cx V} {E : Env} {lb ls : List Nat} {nr nr' : Nat} (h : Inv X E lb ls nr)
    (hn : nr ≤ nr') : Inv X E lb ls nr' :=
  ⟨h.d, h.rv, h.bs, h.cs, h.b, h.c, h.ls, Nat.le_trans h.lo hn, fun i hi => Nat.lt_of_lt_of_le (h.hi i hi) hn⟩

theorem Inv.nolab {X : Cx V} {E : Env} {lb ls : List Nat} {nr : Nat} (h : Inv X E lb ls nr) :
    Inv X E lb [] nr :=
  ⟨h.d, h.rv, h.bs, h.cs, h.b, h.c, by simp, h.lo, h.hi⟩

/-- Inside a labelled or breakable statement. -/
theorem Inv.brk {X : Cx V} {E : Env} {lb ls : List Nat} {nr : Nat} (h : Inv X E lb ls nr)
    (br : Bool) (l : Nat) :
    Inv { X with bl := ⟨ls, br, ⟨l, X.d, E.rv⟩⟩ :: X.bl } { E with bs := ⟨ls, br, ⟨l, E.d, E.rv⟩⟩ :: E.bs }
      lb [] nr where
  d := h.d
  rv := h.rv
  bs := by
    obtain ⟨ob, hob⟩ := h.bs
    exact ⟨ob, by simp [hob, h.d]⟩
  cs := h.cs
  b := by
    intro t ht
    rcases List.mem_cons.mp ht with rfl | ht
    · exact ⟨Nat.le_refl _, h.rv, fun x hx => (h.ls x hx).1⟩
    · exact h.b t ht
  c := h.c
  ls := by simp
  lo := h.lo
  hi := h.hi

/-- Inside a scope. -/
theorem Inv.deeper {X : Cx V} {E : Env} {lb ls : List Nat} {nr : Nat} (h : Inv X E lb ls nr) (k : Nat)
    (K : List (Ent V)) (env : List Nat) :
    Inv { X with d := X.d + k, K := K, env := env } { E with d := E.d + k } lb ls nr where
  d := by simp [h.d]
  rv := h.rv
  bs := h.bs
  cs := h.cs
  b := fun t ht => ⟨Nat.le_trans (h.b t ht).1 (Nat.le_add_right _ _), (h.b t ht).2⟩
  c := fun t ht => ⟨(h.c t ht).1, Nat.le_trans (h.c t ht).2.1 (Nat.le_add_right _ _), (h.c t ht).2.2⟩
  ls := h.ls
  lo := h.lo
  hi := h.hi

/-- What the simulation assumes. -/
structure Hyp (code : List (Cmd σ V)) (X : Cx V) (E : Env) (lb ls : List Nat) (nr nl p : Nat)
    (s : Stmt σ V) (m : M σ V) : Prop where
  inv : Inv X E lb ls nr
  pr : parse lb ls (names X.bl) (names X.cl) s = true
  ok : Ok X.rvm X.fin X.ka X.kt s
  code : CodeAt code p (gen E ls s nr nl).code
  ip : m.ip = p
  stk : m.stk = X.K
  env : m.env = X.env
  flag : X.fin = false → m.flag = false

/-- The run of a statement does what the standard says. -/
def Sim (W : World σ V) (code : List (Cmd σ V)) (s : Stmt σ V) : Prop :=
  ∀ X E lb ls nr nl p n m, Hyp code X E lb ls nr nl p s m →
    Post W code X (p + (gen E ls s nr nl).code.length) n m
      (mapC (stop false ls) (eval W n ls 0 s X.env m.w))

/-- Without labels. -/
theorem Sim.use {s : Stmt σ V} (h : Sim W code s) {X : Cx V} {E : Env} {lb : List Nat} {nr nl p n : Nat}
    {m : M σ V} (hy : Hyp code X E lb [] nr nl p s m) :
    Post W code X (p + (gen E [] s nr nl).code.length) n m (eval W n [] 0 s X.env m.w) := by
  have := h X E lb [] nr nl p n m hy
  rwa [mapC_id] at this

theorem Post.here {X : Cx V} {m : M σ V} {n : Nat} (hs : m.stk = X.K) (he : m.env = X.env) :
    Post W code X m.ip n m (some (m.w, .normal none)) :=
  ⟨m, .refl _, ⟨rfl, fun h => h, fun _ => rfl, fun _ _ _ => rfl, fun _ _ _ => rfl⟩, hs, he, rfl⟩

theorem sim_nil : Sim W code (.nil : Stmt σ V) := by
  intro X E lb ls nr nl p n m h
  have := Post.here (W := W) (code := code) (n := n) h.stk h.env
  rw [h.ip] at this
  simpa [gen, eval, mapC, stop] using this

theorem sim_empty : Sim W code (.empty : Stmt σ V) := by
  intro X E lb ls nr nl p n m h
  have := Post.here (W := W) (code := code) (n := n) h.stk h.env
  rw [h.ip] at this
  simpa [gen, eval, mapC, stop] using this

theorem andThen_stop {A : Type} (r : Res σ V A) (k : σ → A → Out σ V) (ls : List Nat) (br : Bool) :
    mapC (stop br ls) (andThen r k) = andThen r (fun w a => mapC (stop br ls) (k w a)) := by
  cases r <;> rfl

theorem sim_decl (e : Ex σ V) : Sim W code (.decl e) := by
  intro X E lb ls nr nl p n m h
  have hc : code[m.ip]? = some (.ex e nr) := by rw [h.ip]; exact h.code.cons.1
  simp only [eval, andThen_stop]
  rw [← h.env]
  refine Post.ex hc h.ok h.stk h.env h.inv.lo (fun i hi => Nat.ne_of_lt (h.inv.hi i hi)) ?_
  intro w v
  have := Post.here (W := W) (code := code) (n := n) (X := X)
    (m := { m with w := w, ip := m.ip + 1, regs := setR m.regs nr v }) h.stk h.env
  simpa [gen, mapC, stop, h.ip] using this

theorem sim_expr (e : Ex σ V) : Sim W code (.expr e) := by
  intro X E lb ls nr nl p n m h
  simp only [eval, andThen_stop]
  cases hrv : E.rv with
  | none =>
    have hg : gen E ls (.expr e) nr nl = ⟨[.ex e nr], nr + 1, nl⟩ := by simp [gen, hrv]
    have hc : code[m.ip]? = some (.ex e nr) := by
      rw [h.ip]; have := h.code; rw [hg] at this; exact this.cons.1
    rw [← h.env]
    refine Post.ex hc h.ok h.stk h.env h.inv.lo (fun i hi => Nat.ne_of_lt (h.inv.hi i hi)) ?_
    intro w v
    rw [hg]
    refine ⟨_, .refl _, ⟨rfl, fun h => h, fun _ => rfl, fun _ _ _ => rfl, fun _ r hr => ?_⟩, h.stk, h.env, by simp [h.ip]⟩
    rw [← h.inv.rv, hrv] at hr
    cases hr
  | some r =>
    have hg : gen E ls (.expr e) nr nl = ⟨[.ex e r], nr, nl⟩ := by simp [gen, hrv]
    have hc : code[m.ip]? = some (.ex e r) := by
      rw [h.ip]; have := h.code; rw [hg] at this; exact this.cons.1
    rw [← h.env, hg]
    cases he : e m.env m.w with
    | ok w v fx =>
      refine ⟨_, (ex_ok hc h.ok he).to, ⟨rfl, fun h => h, fun _ => rfl, fun i _ hi => ?_, fun _ r' hr => ?_⟩,
        h.stk, h.env, by simp [h.ip]⟩
      · rw [← h.inv.rv, hrv] at hi
        exact setR_ne (fun e => hi (by rw [e]))
      · rw [← h.inv.rv, hrv] at hr
        cases hr
        simp [setR]
    | thr w v =>
      exact Post.throw (ex_thr hc he).to h.stk rfl rfl rfl h.env (fun _ => rfl) (fun _ _ _ => rfl)

/-- Labels no jump of the outcome goes to. -/
theorem Post.nolab {X : Cx V} {m : M σ V} {q n : Nat} {o : Out σ V} {ls : List Nat}
    (hl : ∀ x ∈ ls, ∀ t ∈ X.bl, x ∉ t.names) (h : Post W code X q n m o) :
    Post W code X q n m (mapC (Verif.Flow.stop false ls) o) := by
  rcases o with _ | ⟨w', c⟩
  · exact h
  · have e : Verif.Flow.stop false ls c = c := by
      rcases c with _ | ⟨v, _ | k⟩ | _ | _ | _
      · rfl
      · simp [Verif.Flow.stop]
      · obtain ⟨m', j, h1, _⟩ := h
        obtain ⟨e, he, _, hn⟩ := lookup_mem h1
        have : k ∉ ls := fun hk => hl k hk e he (hn k rfl)
        simp [Verif.Flow.stop, this]
      · rfl
      · rfl
      · rfl
    simp only [mapC, Option.map_some, e]
    exact h

/-- A flag that was down stays down. -/
theorem flag_down {X : Cx V} {m m' : M σ V} (h : X.fin = false → m.flag = false)
    (h' : m'.flag = true → m.flag = true) : X.fin = false → m'.flag = false := by
  intro hf
  cases e : m'.flag with
  | false => rfl
  | true => rw [h hf] at h'; exact absurd (h' e) (by simp)

theorem sim_cons {s r : Stmt σ V} (h1 : Sim W code s) (h2 : Sim W code r) : Sim W code (.cons s r) := by
  intro X E lb ls nr nl p n m h
  have hcode := h.code
  simp only [gen] at hcode
  have hpr := h.pr
  simp only [parse, Bool.and_eq_true] at hpr
  have p1 := h1.use (n := n) (nl := nl) (nr := nr) (p := p) ⟨h.inv.nolab, hpr.1, h.ok.1, hcode.append.1, h.ip, h.stk, h.env, h.flag⟩
  refine Post.nolab (fun x hx => (h.inv.ls x hx).2) ?_
  simp only [eval]
  refine Post.seq p1 ?_
  intro m' hip hstk henv hfl
  have p2 := h2.use (n := n) (nl := (gen E [] s nr nl).nl) (nr := (gen E [] s nr nl).nr)
    (p := p + (gen E [] s nr nl).code.length) (m := m')
    ⟨h.inv.nolab.mono (gen_nr _ _ _ _ _), hpr.2, h.ok.2, hcode.append.2, hip, hstk, henv, flag_down h.flag hfl⟩
  simpa only [gen, List.length_append, Nat.add_assoc] using p2

theorem sim_labelled {s : Stmt σ V} (k : Nat) (h1 : Sim W code s) : Sim W code (.labelled k s) := by
  intro X E lb ls nr nl p n m h
  have hpr := h.pr
  simp only [parse, Bool.and_eq_true, Bool.not_eq_true', decide_eq_false_iff_not] at hpr
  have hinv : Inv X E (k :: lb) (k :: ls) nr := by
    refine ⟨h.inv.d, h.inv.rv, h.inv.bs, h.inv.cs, ?_, h.inv.c, ?_, h.inv.lo, h.inv.hi⟩
    · intro t ht
      obtain ⟨a, b, c⟩ := h.inv.b t ht
      exact ⟨a, b, fun x hx => List.mem_cons_of_mem _ (c x hx)⟩
    · intro x hx
      rcases List.mem_cons.mp hx with rfl | hx
      · exact ⟨by simp, fun t ht hm => hpr.1 ((h.inv.b t ht).2.2 _ hm)⟩
      · exact ⟨List.mem_cons_of_mem _ (h.inv.ls x hx).1, (h.inv.ls x hx).2⟩
  have := h1 X E (k :: lb) (k :: ls) nr nl p n m ⟨hinv, hpr.2, h.ok, h.code, h.ip, h.stk, h.env, h.flag⟩
  simp only [gen, eval]
  have e : ∀ o : Out σ V, mapC (stop false ls) (mapC (breakAt k) o) = mapC (stop false (k :: ls)) o := by
    intro o
    rcases o with _ | ⟨w, c⟩
    · rfl
    · rcases c with _ | ⟨v, _ | i⟩ | _ | _ | _ <;> simp only [mapC, Option.map_some, breakAt, stop, List.mem_cons]
      by_cases hi : i = k <;> simp [hi]
  rw [e]
  exact this

theorem sim_block {b : Stmt σ V} (d : Nat) (hL : LOK code) (h1 : Sim W code b) : Sim W code (.block d b) := by
  intro X E lb ls nr nl p n m h
  by_cases hb : b = .nil
  · subst hb
    have := Post.here (W := W) (code := code) (n := n) h.stk h.env
    rw [h.ip] at this
    simpa [gen, eval, mapC, stop] using this
  have hg : gen E ls (.block d b) nr nl =
      ⟨[.pushEnv d] ++ ((gen { E with d := E.d + 1, bs := ⟨ls, false, ⟨nl, E.d + 1, E.rv⟩⟩ :: E.bs } [] b nr (nl + 1)).code
        ++ [.stub nl, .pop]), (gen { E with d := E.d + 1, bs := ⟨ls, false, ⟨nl, E.d + 1, E.rv⟩⟩ :: E.bs } [] b nr (nl + 1)).nr,
        (gen { E with d := E.d + 1, bs := ⟨ls, false, ⟨nl, E.d + 1, E.rv⟩⟩ :: E.bs } [] b nr (nl + 1)).nl⟩ := by
    cases b with
    | nil => exact absurd rfl hb
    | _ => rfl
  have hcode := h.code
  rw [hg] at hcode ⊢
  obtain ⟨c1, c2⟩ := hcode.append
  obtain ⟨c2, c3⟩ := c2.append
  obtain ⟨c3, c4⟩ := c3.cons
  have hr := pushD_reach (W := W) (d := some d) h.ip c1
  have hinv := (h.inv.deeper 1 (.env :: X.K) (d :: X.env)).brk false nl
  have p1 := h1.use (n := n) (nl := nl + 1) (nr := nr) (m := { m with ip := p + 1, env := d :: m.env, stk := .env :: m.stk })
    ⟨hinv, h.pr, h.ok, c2, rfl, by simp [h.stk], by simp [h.env], h.flag⟩
  have p2 := Post.stop (X := wd (some d) X) hL c3 p1
  have p3 := Post.scope (d := some d) h.inv.near c4 p2
  have p4 := Post.pre0 hr (Pre.regs_only rfl rfl (fun _ _ => rfl)) p3
  have e : p + ([Cmd.pushEnv d] ++ ((gen { E with d := E.d + 1, bs := ⟨ls, false, ⟨nl, E.d + 1, E.rv⟩⟩ :: E.bs } [] b nr (nl + 1)).code
        ++ [Cmd.stub nl, Cmd.pop])).length = p + 1 + (gen { E with d := E.d + 1, bs := ⟨ls, false, ⟨nl, E.d + 1, E.rv⟩⟩ :: E.bs } [] b nr (nl + 1)).code.length + 1 + 1 := by
    simp only [List.length_append, List.length_cons, List.length_nil]; omega
  rw [e]
  exact p4

theorem sim_throw (e : Ex σ V) : Sim W code (.throw_ e) := by
  intro X E lb ls nr nl p n m h
  obtain ⟨c1, c2⟩ := h.code.cons
  have hc : code[m.ip]? = some (.ex e nr) := by rw [h.ip]; exact c1
  simp only [eval, andThen_stop]
  rw [← h.env]
  refine Post.ex hc h.ok h.stk h.env h.inv.lo (fun i hi => Nat.ne_of_lt (h.inv.hi i hi)) ?_
  intro w v
  have hs := step0 (W := W) (m := { m with w := w, ip := m.ip + 1, regs := setR m.regs nr v })
    (c := .throwR nr) (by rw [h.ip]; exact c2.cons.1)
  simp only [exec] at hs
  exact Post.throw hs h.stk rfl rfl setR_eq h.env (fun _ => rfl) (fun _ _ _ => rfl)

theorem sim_ret (e : Option (Ex σ V)) : Sim W code (.ret e) := by
  intro X E lb ls nr nl p n m h
  have hok := h.ok
  simp only [Ok] at hok
  cases e with
  | none =>
    obtain ⟨c1, c2⟩ := h.code.cons
    have h1 := step0 (W := W) (m := m) (c := .loadU nr) (by rw [h.ip]; exact c1)
    simp only [exec] at h1
    have h2 := step0 (W := W) (m := { m with ip := m.ip + 1, regs := setR m.regs nr W.undef })
      (c := .retR nr) (by rw [h.ip]; exact c2.cons.1)
    simp only [exec] at h2
    exact Post.ret (h1.trans h2) h.stk rfl (fun f => f) hok.1 setR_eq h.env
      (fun i hi _ => setR_ne (Nat.ne_of_lt (Nat.lt_of_lt_of_le hi h.inv.lo)))
  | some e =>
    obtain ⟨c1, c2⟩ := h.code.cons
    have hc : code[m.ip]? = some (.ex e nr) := by rw [h.ip]; exact c1
    simp only [eval, andThen_stop]
    rw [← h.env]
    refine Post.ex hc (hok.2 e rfl) h.stk h.env h.inv.lo (fun i hi => Nat.ne_of_lt (h.inv.hi i hi)) ?_
    intro w v
    have hs := step0 (W := W) (m := { m with w := w, ip := m.ip + 1, regs := setR m.regs nr v })
      (c := .retR nr) (by rw [h.ip]; exact c2.cons.1)
    simp only [exec] at hs
    exact Post.ret hs h.stk rfl (fun f => f) hok.1 setR_eq h.env (fun _ _ _ => rfl)

theorem jump_at {E : Env} {j : J} {p : Nat} (hj : j.rv = E.rv) (hc : CodeAt code p (jump E j)) :
    AtJump code p (E.d - j.d) j.l := by
  have e : (jump E j : List (Cmd σ V)) = List.replicate (E.d - j.d) .pop ++ [.jmp j.l] := by
    unfold jump
    cases hr : E.rv with
    | none => simp
    | some r => rw [hj, hr]; simp
  rw [e] at hc
  obtain ⟨c1, c2⟩ := hc.append
  constructor
  · intro i hi
    have := c1 i (by simpa using hi)
    rw [this, List.getElem?_replicate]
    simp [hi]
  · have := c2.cons.1
    simpa using this

theorem sim_brk (l : Option Nat) : Sim W code (.brk l : Stmt σ V) := by
  intro X E lb ls nr nl p n m h
  have hcode := h.code
  by_cases hl : l.any (fun n => decide (n ∈ ls)) = true
  · have hg : gen E ls (.brk l : Stmt σ V) nr nl = ⟨[], nr, nl⟩ := by
      simp only [gen]; rw [if_pos hl]
    rw [hg]
    have := Post.here (W := W) (code := code) (n := n) h.stk h.env
    rw [h.ip] at this
    cases l with
    | none => simp at hl
    | some k =>
      have hk : k ∈ ls := by simpa using hl
      simp only [eval, mapC, Option.map_some, stop, hk, if_true]
      simpa using this
  · have hpr := h.pr
    have hlk : ∃ j, lookup X.bl l = some j := by
      cases l with
      | none =>
        simp only [parse, names, List.any_map, List.any_eq_true] at hpr
        obtain ⟨t, ht, hb⟩ := hpr
        simp only [lookup, Option.map_eq_some_iff]
        cases hf : X.bl.find? (·.brk) with
        | none => exact absurd hb (by simpa using List.find?_eq_none.mp hf t ht)
        | some e => exact ⟨e.j, e, rfl, rfl⟩
      | some k =>
        simp only [Option.any_some, decide_eq_true_eq] at hl
        simp only [parse, names, List.any_map, Bool.and_eq_true, Bool.or_eq_true, decide_eq_true_eq] at hpr
        obtain ⟨_, hx⟩ := hpr
        rcases hx with hx | hx
        · exact absurd hx hl
        · obtain ⟨t, ht, hb⟩ := List.any_eq_true.mp hx
          simp only [lookup, Option.map_eq_some_iff]
          cases hf : X.bl.find? (fun t => decide (k ∈ t.names)) with
          | none => exact absurd hb (by simpa using List.find?_eq_none.mp hf t ht)
          | some e => exact ⟨e.j, e, rfl, rfl⟩
    obtain ⟨j, hj⟩ := hlk
    obtain ⟨ob, hob⟩ := h.inv.bs
    have hj' : lookup E.bs l = some j := by rw [hob]; exact lookup_append hj
    have hg : gen E ls (.brk l : Stmt σ V) nr nl = ⟨jump E j, nr, nl⟩ := by
      simp only [gen]; rw [if_neg hl, hj']
    rw [hg] at hcode
    obtain ⟨t, ht, htj, _⟩ := lookup_mem hj
    have hrv : j.rv = E.rv := by rw [← htj, h.inv.rv]; exact (h.inv.b t ht).2.1
    have ha := jump_at hrv hcode
    have hs : stop false ls (.brk none l : Comp V) = .brk none l := by
      cases l with
      | none => simp [stop]
      | some k =>
        have : k ∉ ls := by simpa using hl
        simp [stop, this]
    simp only [eval, mapC, Option.map_some, hs]
    exact ⟨m, j, hj, .refl _, ⟨rfl, fun f => f, fun _ => rfl, fun _ _ _ => rfl, fun _ _ _ => rfl⟩, h.stk, h.env,
      by rw [h.ip, ← h.inv.d]; exact ha⟩

theorem sim_cont (l : Option Nat) : Sim W code (.cont l : Stmt σ V) := by
  intro X E lb ls nr nl p n m h
  have hcode := h.code
  have hpr := h.pr
  have hlk : ∃ j, lookup X.cl l = some j := by
    cases l with
    | none =>
      simp only [parse, names, Bool.not_eq_true', List.isEmpty_eq_false_iff, ne_eq, List.map_eq_nil_iff] at hpr
      cases hx : X.cl with
      | nil => exact absurd hx hpr
      | cons t r =>
        have := (h.inv.c t (by rw [hx]; simp)).1
        exact ⟨t.j, by simp [lookup, this]⟩
    | some k =>
      simp only [parse, names, List.any_map, Bool.and_eq_true, decide_eq_true_eq] at hpr
      obtain ⟨_, hx⟩ := hpr
      obtain ⟨t, ht, hb⟩ := List.any_eq_true.mp hx
      simp only [lookup, Option.map_eq_some_iff]
      cases hf : X.cl.find? (fun t => decide (k ∈ t.names)) with
      | none => exact absurd hb (by simpa using List.find?_eq_none.mp hf t ht)
      | some e => exact ⟨e.j, e, rfl, rfl⟩
  obtain ⟨j, hj⟩ := hlk
  obtain ⟨ob, hob⟩ := h.inv.cs
  have hj' : lookup E.cs l = some j := by rw [hob]; exact lookup_append hj
  have hg : gen E ls (.cont l : Stmt σ V) nr nl = ⟨jump E j, nr, nl⟩ := by
    simp only [gen]; rw [hj']
  rw [hg] at hcode
  obtain ⟨t, ht, htj, _⟩ := lookup_mem hj
  have hrv : j.rv = E.rv := by rw [← htj, h.inv.rv]; exact (h.inv.c t ht).2.2
  have ha := jump_at hrv hcode
  simp only [eval, mapC, Option.map_some, stop]
  exact ⟨m, j, hj, .refl _, ⟨rfl, fun f => f, fun _ => rfl, fun _ _ _ => rfl, fun _ _ _ => rfl⟩, h.stk, h.env,
    by rw [h.ip, ← h.inv.d]; exact ha⟩

theorem mapC_mapC (f g : Comp V → Comp V) (o : Out σ V) : mapC f (mapC g o) = mapC (fun c => f (g c)) o := by
  rcases o with _ | ⟨w, c⟩ <;> rfl

theorem mapC_andThen {A : Type} (f : Comp V → Comp V) (hf : ∀ v, f (.thr v) = .thr v) (r : Res σ V A)
    (k : σ → A → Out σ V) : mapC f (andThen r k) = andThen r (fun w a => mapC f (k w a)) := by
  cases r with
  | ok w a fx => rfl
  | thr w v => simp [andThen, mapC, hf]

/-- A part that starts with the completion value undefined and is the target of its labels. -/
theorem Post.labelled {X : Cx V} {m m1 : M σ V} {q n l : Nat} {o : Out σ V} {ls : List Nat} {br : Bool}
    {rv : Option Nat} {x : V} (hL : LOK code) (hq : code[q]? = some (.stub l))
    (hr : Reach W code (.inl m) (.inl m1)) (hp : Pre X m m1 (some x))
    (h : Post W code { X with bl := ⟨ls, br, ⟨l, X.d, rv⟩⟩ :: X.bl } q n m1 o) :
    Post W code X (q + 1) n m (mapC (Verif.Flow.stop br ls) (mapC (upd · (some x)) o)) := by
  have := Post.pre hr hp (Post.stop hL hq h)
  rcases o with _ | ⟨w, c⟩
  · exact this
  · simp only [mapC, Option.map_some] at this ⊢
    rw [stop_upd]
    exact this

theorem sim_with {s : Stmt σ V} (e : Ex σ V) (d : Nat) (hL : LOK code) (h1 : Sim W code s) :
    Sim W code (.with_ e d s) := by
  intro X E lb ls nr nl p n m h
  have hcode := h.code
  simp only [gen] at hcode ⊢
  obtain ⟨c0, c1⟩ := hcode.append
  obtain ⟨c1, c2⟩ := c1.append
  obtain ⟨c2, c3⟩ := c2.append
  obtain ⟨c3, c4⟩ := c3.append
  obtain ⟨c4, c5⟩ := c4.cons
  simp only [eval, andThen_stop]
  rw [← h.env]
  refine Post.ex (by rw [h.ip]; exact c0.cons.1) h.ok.1 h.stk h.env h.inv.lo (fun i hi => Nat.ne_of_lt (h.inv.hi i hi)) ?_
  intro w v
  obtain ⟨m1, r1, r2, r3, r4, r5, r6, r7, _⟩ := loadRv_reach (W := W) (X := X) h.inv.rv
    (m := { m with w := w, ip := m.ip + 1, regs := setR m.regs nr v }) (by simp [h.ip]) c1
  have hr := pushD_reach (W := W) (d := some d) r3 c2
  have hinv := ((h.inv.deeper 1 (.env :: X.K) (d :: X.env)).brk false nl).mono (Nat.le_succ nr)
  have p1 := h1.use (n := n) (nl := nl + 1) (nr := nr + 1)
    (m := { m1 with ip := p + 1 + (loadRv E.rv : List (Cmd σ V)).length + 1, env := d :: m1.env, stk := .env :: m1.stk })
    ⟨hinv, h.pr, h.ok.2, c3, rfl, by simp [r6, h.stk], by simp [r5, h.env], fun hf => by simp only [r7]; exact h.flag hf⟩
  have p2 := Post.labelled (X := wd (some d) X) (x := W.undef) hL c4 (r1.trans hr)
    ⟨r2.flag, r2.retv, r2.regs, r2.rv⟩ p1
  have p3 := Post.scope (d := some d) h.inv.near c5 p2
  simp only [r4, h.env] at p3 ⊢
  refine cast ?_ p3
  congr 1
  simp only [List.length_append, List.length_cons, List.length_nil, popD]; omega

end Verif.Flow

import Verif.Lemmas.FlowLabels

/-! Running code: reachability, code at a place, what a statement leaves. -/

namespace Verif.Flow

open Spec

variable {σ V : Type} {W : World σ V} {code : List (Cmd σ V)}

/-- Some number of turns leads from `a` to `b`. -/
def Reach (W : World σ V) (code : List (Cmd σ V)) (a b : M σ V ⊕ Fin σ V) : Prop :=
  ∃ k, run W code k a = b

/-- At least one turn. -/
def Reach1 (W : World σ V) (code : List (Cmd σ V)) (a b : M σ V ⊕ Fin σ V) : Prop :=
  ∃ k, run W code (k + 1) a = b

/-- Still running after `n` turns. -/
def Runs (W : World σ V) (code : List (Cmd σ V)) (n : Nat) (a : M σ V ⊕ Fin σ V) : Prop :=
  ∀ k, k ≤ n → ∃ m, run W code k a = .inl m

theorem run_inr (k : Nat) (f : Fin σ V) : run W code k (.inr f) = .inr f := by
  cases k <;> rfl

theorem run_add (j k : Nat) (a : M σ V ⊕ Fin σ V) :
    run W code (j + k) a = run W code k (run W code j a) := by
  induction j generalizing a with
  | zero => rw [Nat.zero_add]; rfl
  | succ j ih =>
    rw [Nat.succ_add]
    cases a with
    | inl m => exact ih _
    | inr f => simp only [run, run_inr]

theorem Reach.refl (a : M σ V ⊕ Fin σ V) : Reach W code a a := ⟨0, rfl⟩

theorem Reach.trans {a b c : M σ V ⊕ Fin σ V} (h : Reach W code a b) (h' : Reach W code b c) :
    Reach W code a c := by
  obtain ⟨j, rfl⟩ := h
  obtain ⟨k, rfl⟩ := h'
  exact ⟨j + k, run_add j k a⟩

theorem Reach1.to {a b : M σ V ⊕ Fin σ V} (h : Reach1 W code a b) : Reach W code a b := by
  obtain ⟨k, h⟩ := h
  exact ⟨k + 1, h⟩

theorem Reach1.trans {a b c : M σ V ⊕ Fin σ V} (h : Reach1 W code a b) (h' : Reach W code b c) :
    Reach1 W code a c := by
  obtain ⟨j, rfl⟩ := h
  obtain ⟨k, rfl⟩ := h'
  exact ⟨j + k, by rw [show j + k + 1 = (j + 1) + k by omega]; exact run_add (j + 1) k a⟩

theorem Reach.trans1 {a b c : M σ V ⊕ Fin σ V} (h : Reach W code a b) (h' : Reach1 W code b c) :
    Reach1 W code a c := by
  obtain ⟨j, rfl⟩ := h
  obtain ⟨k, rfl⟩ := h'
  exact ⟨j + k, by rw [show j + k + 1 = j + (k + 1) by omega]; exact run_add j (k + 1) a⟩

theorem step1 {m : M σ V} {c : Cmd σ V} (h : code[m.ip]? = some c) :
    Reach1 W code (.inl m) (exec W code m c) := by
  refine ⟨0, ?_⟩
  simp only [run, step, h]

theorem step0 {m : M σ V} {c : Cmd σ V} (h : code[m.ip]? = some c) :
    Reach W code (.inl m) (exec W code m c) := (step1 h).to

theorem Runs.of_reach {n : Nat} {a b : M σ V ⊕ Fin σ V} (h : Reach W code a b)
    (hr : Runs W code n b) : Runs W code n a := by
  obtain ⟨j, rfl⟩ := h
  intro k hk
  by_cases hjk : j ≤ k
  · obtain ⟨m, hm⟩ := hr (k - j) (by omega)
    exact ⟨m, by rw [← hm, ← run_add, Nat.add_sub_cancel' hjk]⟩
  · obtain ⟨m, hm⟩ := hr 0 (Nat.zero_le _)
    rw [show run W code 0 (run W code j a) = run W code j a from rfl] at hm
    cases hx : run W code k a with
    | inl m' => exact ⟨m', rfl⟩
    | inr f =>
      exfalso
      have : run W code j a = .inr f := by
        rw [show j = k + (j - k) by omega, run_add, hx, run_inr]
      rw [this] at hm
      cases hm

theorem Runs.of_reach1 {n : Nat} {a b : M σ V ⊕ Fin σ V} (h : Reach1 W code a b)
    (hr : Runs W code n b) : Runs W code (n + 1) a := by
  obtain ⟨j, rfl⟩ := h
  intro k hk
  by_cases hjk : j + 1 ≤ k
  · obtain ⟨m, hm⟩ := hr (k - (j + 1)) (by omega)
    exact ⟨m, by rw [← hm, ← run_add, Nat.add_sub_cancel' hjk]⟩
  · exact (Runs.of_reach (n := 0) ⟨j + 1, rfl⟩ (fun k hk => hr k (by omega))) |> fun _ => by
      obtain ⟨m, hm⟩ := hr 0 (Nat.zero_le _)
      rw [show run W code 0 (run W code (j + 1) a) = run W code (j + 1) a from rfl] at hm
      cases hx : run W code k a with
      | inl m' => exact ⟨m', rfl⟩
      | inr f =>
        exfalso
        have : run W code (j + 1) a = .inr f := by
          rw [show j + 1 = k + (j + 1 - k) by omega, run_add, hx, run_inr]
        rw [this] at hm
        cases hm

theorem Runs.mono {n k : Nat} {a : M σ V ⊕ Fin σ V} (h : Runs W code n a) (hk : k ≤ n) :
    Runs W code k a := fun i hi => h i (by omega)

theorem Runs.zero (m : M σ V) : Runs W code 0 (.inl m) := by
  intro k hk
  obtain rfl : k = 0 := by omega
  exact ⟨m, rfl⟩

/-- The commands `c` are in the code from `p` on. -/
def CodeAt (code : List (Cmd σ V)) (p : Nat) (c : List (Cmd σ V)) : Prop :=
  ∀ i, i < c.length → code[p + i]? = c[i]?

theorem CodeAt.append {p : Nat} {a b : List (Cmd σ V)} (h : CodeAt code p (a ++ b)) :
    CodeAt code p a ∧ CodeAt code (p + a.length) b := by
  constructor
  · intro i hi
    have := h i (by simp; omega)
    rw [this, List.getElem?_append_left hi]
  · intro i hi
    have := h (a.length + i) (by simp; omega)
    rw [Nat.add_assoc, this, List.getElem?_append_right (by omega), Nat.add_sub_cancel_left]

theorem CodeAt.cons {p : Nat} {c : Cmd σ V} {b : List (Cmd σ V)} (h : CodeAt code p (c :: b)) :
    code[p]? = some c ∧ CodeAt code (p + 1) b := by
  constructor
  · have := h 0 (by simp)
    simpa using this
  · intro i hi
    have := h (i + 1) (by simp; omega)
    rw [Nat.add_assoc, Nat.add_comm 1 i, this, List.getElem?_cons_succ]

/-- A jump is under way: `n` pops, then the jump to label `l`. -/
def AtJump (code : List (Cmd σ V)) (q n l : Nat) : Prop :=
  (∀ i, i < n → code[q + i]? = some .pop) ∧ code[q + n]? = some (.jmp l)

theorem AtJump.pop {q n l : Nat} (h : AtJump code q (n + 1) l) :
    code[q]? = some .pop ∧ AtJump code (q + 1) n l := by
  refine ⟨by simpa using h.1 0 (by omega), ?_, ?_⟩
  · intro i hi
    have := h.1 (i + 1) (by omega)
    rwa [show q + 1 + i = q + (i + 1) by omega]
  · have := h.2
    rwa [show q + 1 + n = q + (n + 1) by omega]

/-- Where a statement runs: the depth, the states and the environment around it, the register of the
completion value (`rvm`: the value counts), inside a finally block or not, the first free register,
the jump targets. -/
structure Cx (V : Type) where
  d : Nat
  K : List (Ent V)
  env : List Nat
  rv : Option Nat
  rvm : Bool
  fin : Bool
  ka : Bool
  kt : Bool
  nr : Nat
  bl : List Tgt
  cl : List Tgt

/-- The slot of the return value is kept (unless by a return). -/
def Cx.kp (X : Cx V) : Bool := X.ka || X.kt

theorem Cx.kt_kp {X : Cx V} (h : X.kt = true) : X.kp = true := by simp [Cx.kp, h]

/-- What going on (normally or by a jump) leaves: the world `w'`, the completion value `v`. -/
structure Fr (X : Cx V) (m m' : M σ V) (w' : σ) (v : Option V) : Prop where
  w : m'.w = w'
  flag : m'.flag = true → m.flag = true
  retv : X.kp = true → m'.retv = m.retv
  regs : ∀ i, i < X.nr → X.rv ≠ some i → m'.regs i = m.regs i
  rv : X.rvm = true → ∀ r, X.rv = some r → m'.regs r = v.getD (m.regs r)

/-- What a return leaves. -/
structure FrR (X : Cx V) (m m' : M σ V) (w' : σ) (v : V) : Prop where
  w : m'.w = w'
  flag : m'.flag = true → m.flag = true
  nofin : X.kt = false
  retv : m'.retv = v
  regs : ∀ i, i < X.nr → X.rv ≠ some i → m'.regs i = m.regs i

/-- What a throw leaves. -/
structure FrT (X : Cx V) (m m' : M σ V) (w' : σ) (v : V) : Prop where
  w : m'.w = w'
  flag : m'.flag = true
  err : m'.err = v
  retv : X.kt = true → m'.retv = m.retv
  regs : ∀ i, i < X.nr → X.rv ≠ some i → m'.regs i = m.regs i

/-- What the run from `m` does when the standard's outcome is the given one; `q` is the place after
the statement. -/
def Post (W : World σ V) (code : List (Cmd σ V)) (X : Cx V) (q n : Nat) (m : M σ V) :
    Out σ V → Prop
  | none => Runs W code n (.inl m)
  | some (w', .normal v) => ∃ m', Reach W code (.inl m) (.inl m') ∧ Fr X m m' w' v ∧ m'.stk = X.K ∧
      m'.env = X.env ∧ m'.ip = q
  | some (w', .brk v t) => ∃ m' j, lookup X.bl t = some j ∧ Reach W code (.inl m) (.inl m') ∧
      Fr X m m' w' v ∧ m'.stk = X.K ∧ m'.env = X.env ∧ AtJump code m'.ip (X.d - j.d) j.l
  | some (w', .cont v t) => ∃ m' j, lookup X.cl t = some j ∧ Reach W code (.inl m) (.inl m') ∧
      Fr X m m' w' v ∧ m'.stk = X.K ∧ m'.env = X.env ∧ AtJump code m'.ip (X.d - j.d) j.l
  | some (w', .ret v) => ∃ m', Reach W code (.inl m) (unwind W X.K .ret m') ∧ FrR X m m' w' v ∧
      m'.env = X.env
  | some (w', .thr v) => ∃ m', Reach W code (.inl m) (unwind W X.K .throw m') ∧ FrT X m m' w' v ∧
      m'.env = X.env

/-- From `m` to `m1` the frame is kept; the completion value register holds `x`. -/
structure Pre (X : Cx V) (m m1 : M σ V) (x : Option V) : Prop where
  flag : m1.flag = true → m.flag = true
  retv : X.kp = true → m1.retv = m.retv
  regs : ∀ i, i < X.nr → X.rv ≠ some i → m1.regs i = m.regs i
  rv : X.rvm = true → ∀ r, X.rv = some r → m1.regs r = x.getD (m.regs r)

theorem Fr.pre {X : Cx V} {m m' : M σ V} {w' : σ} {v : Option V} (h : Fr X m m' w' v) :
    Pre X m m' v := ⟨h.flag, h.retv, h.regs, h.rv⟩

theorem Pre.refl (X : Cx V) (m : M σ V) : Pre X m m none :=
  ⟨fun h => h, fun _ => rfl, fun _ _ _ => rfl, fun _ _ _ => rfl⟩

/-- `X1` has the frame of `X`, with more registers in use. -/
structure Same (X X1 : Cx V) : Prop where
  rv : X1.rv = X.rv
  rvm : X1.rvm = X.rvm
  fin : X1.fin = X.fin
  ka : X1.ka = X.ka
  kt : X1.kt = X.kt
  nr : X.nr ≤ X1.nr

theorem Same.refl (X : Cx V) : Same X X := ⟨rfl, rfl, rfl, rfl, rfl, Nat.le_refl _⟩

theorem Same.kp {X X1 : Cx V} (h : Same X X1) : X1.kp = X.kp := by simp [Cx.kp, h.ka, h.kt]

theorem Pre.fr {X X1 : Cx V} {m m1 m' : M σ V} {w' : σ} {x v : Option V} (hs : Same X X1)
    (h : Pre X m m1 x) (h' : Fr X1 m1 m' w' v) : Fr X m m' w' (v <|> x) where
  w := h'.w
  flag := fun f => h.flag (h'.flag f)
  retv := fun f => (h'.retv (by rw [hs.kp]; exact f)).trans (h.retv f)
  regs := fun i hi hr => (h'.regs i (Nat.lt_of_lt_of_le hi hs.nr) (by rw [hs.rv]; exact hr)).trans (h.regs i hi hr)
  rv := by
    intro f r hr
    rw [h'.rv (by rw [hs.rvm]; exact f) r (by rw [hs.rv]; exact hr), h.rv f r hr]
    cases v <;> cases x <;> rfl

theorem Pre.frR {X X1 : Cx V} {m m1 m' : M σ V} {w' : σ} {x : Option V} {v : V} (hs : Same X X1)
    (h : Pre X m m1 x) (h' : FrR X1 m1 m' w' v) : FrR X m m' w' v where
  w := h'.w
  flag := fun f => h.flag (h'.flag f)
  nofin := by rw [← hs.kt]; exact h'.nofin
  retv := h'.retv
  regs := fun i hi hr => (h'.regs i (Nat.lt_of_lt_of_le hi hs.nr) (by rw [hs.rv]; exact hr)).trans (h.regs i hi hr)

theorem Pre.frT {X X1 : Cx V} {m m1 m' : M σ V} {w' : σ} {x : Option V} {v : V} (hs : Same X X1)
    (h : Pre X m m1 x) (h' : FrT X1 m1 m' w' v) : FrT X m m' w' v where
  w := h'.w
  flag := h'.flag
  err := h'.err
  retv := fun f => (h'.retv (by rw [hs.kt]; exact f)).trans (h.retv (Cx.kt_kp f))
  regs := fun i hi hr => (h'.regs i (Nat.lt_of_lt_of_le hi hs.nr) (by rw [hs.rv]; exact hr)).trans (h.regs i hi hr)

theorem Pre.trans {X X1 : Cx V} {m m1 m2 : M σ V} {x v : Option V} (hs : Same X X1)
    (h : Pre X m m1 x) (h' : Pre X1 m1 m2 v) : Pre X m m2 (v <|> x) where
  flag := fun f => h.flag (h'.flag f)
  retv := fun f => (h'.retv (by rw [hs.kp]; exact f)).trans (h.retv f)
  regs := fun i hi hr => (h'.regs i (Nat.lt_of_lt_of_le hi hs.nr) (by rw [hs.rv]; exact hr)).trans (h.regs i hi hr)
  rv := by
    intro f r hr
    rw [h'.rv (by rw [hs.rvm]; exact f) r (by rw [hs.rv]; exact hr), h.rv f r hr]
    cases v <;> cases x <;> rfl

theorem upd_eq (c : Comp V) (x : Option V) : upd c x = (match c with
    | .normal v => .normal (v <|> x)
    | .brk v t => .brk (v <|> x) t
    | .cont v t => .cont (v <|> x) t
    | c => c) := by
  rcases c with (_ | _) | ⟨_ | _, _⟩ | ⟨_ | _, _⟩ | _ | _ <;> rfl

/-- The targets of an abrupt completion are found outside as inside. -/
def Out1 (bl1 bl cl1 cl : List Tgt) : Comp V → Prop
  | .normal _ => False
  | .brk _ t => ∀ j, lookup bl1 t = some j → lookup bl t = some j
  | .cont _ t => ∀ j, lookup cl1 t = some j → lookup cl t = some j
  | _ => True

/-- An abrupt outcome of a part is one of the whole. -/
theorem Post.lift {X X1 : Cx V} {m m1 : M σ V} {q q1 n : Nat} {w' : σ} {c : Comp V} {x : Option V}
    (hs : Same X X1) (hd : X1.d = X.d) (hK : X1.K = X.K) (he : X1.env = X.env)
    (hc : Out1 X1.bl X.bl X1.cl X.cl c)
    (hr : Reach W code (.inl m) (.inl m1)) (hp : Pre X m m1 x)
    (h : Post W code X1 q1 n m1 (some (w', c))) : Post W code X q n m (some (w', upd c x)) := by
  rw [upd_eq]
  cases c with
  | normal v => exact hc.elim
  | brk v t =>
    obtain ⟨m', j, h1, h2, h3, h4, h5, h6⟩ := h
    exact ⟨m', j, hc j h1, hr.trans h2, hp.fr hs h3, h4.trans hK, h5.trans he, by rw [← hd]; exact h6⟩
  | cont v t =>
    obtain ⟨m', j, h1, h2, h3, h4, h5, h6⟩ := h
    exact ⟨m', j, hc j h1, hr.trans h2, hp.fr hs h3, h4.trans hK, h5.trans he, by rw [← hd]; exact h6⟩
  | ret v =>
    obtain ⟨m', h1, h2, h3⟩ := h
    exact ⟨m', by rw [← hK]; exact hr.trans h1, hp.frR hs h2, h3.trans he⟩
  | thr v =>
    obtain ⟨m', h1, h2, h3⟩ := h
    exact ⟨m', by rw [← hK]; exact hr.trans h1, hp.frT hs h2, h3.trans he⟩

/-- Abrupt, and its target is not deeper than `d`. -/
def Leaves (bl cl : List Tgt) (d : Nat) : Comp V → Prop
  | .normal _ => False
  | .brk _ t => ∀ j, lookup bl t = some j → j.d ≤ d
  | .cont _ t => ∀ j, lookup cl t = some j → j.d ≤ d
  | _ => True

/-- Leaving an environment. -/
theorem Post.popEnv {X : Cx V} {m : M σ V} {q q1 n i : Nat} {w' : σ} {c : Comp V}
    (hl : Leaves X.bl X.cl X.d c)
    (h : Post W code { X with d := X.d + 1, K := .env :: X.K, env := i :: X.env } q1 n m (some (w', c))) :
    Post W code X q n m (some (w', c)) := by
  cases c with
  | normal v => exact hl.elim
  | brk v t =>
    obtain ⟨m', j, h1, h2, h3, h4, h5, h6⟩ := h
    have hj : j.d ≤ X.d := hl j h1
    have e : X.d + 1 - j.d = (X.d - j.d) + 1 := by omega
    have h6' : AtJump code m'.ip (X.d + 1 - j.d) j.l := h6
    rw [e] at h6'
    have hp := h6'.pop
    refine ⟨{ m' with ip := m'.ip + 1, env := m'.env.tail, stk := X.K }, j, h1, h2.trans ?_, ?_, rfl, ?_, hp.2⟩
    · have := step0 (W := W) hp.1
      simp only [exec, popState, h4] at this
      exact this
    · exact ⟨h3.w, h3.flag, h3.retv, h3.regs, h3.rv⟩
    · simp [h5]
  | cont v t =>
    obtain ⟨m', j, h1, h2, h3, h4, h5, h6⟩ := h
    have hj : j.d ≤ X.d := hl j h1
    have e : X.d + 1 - j.d = (X.d - j.d) + 1 := by omega
    have h6' : AtJump code m'.ip (X.d + 1 - j.d) j.l := h6
    rw [e] at h6'
    have hp := h6'.pop
    refine ⟨{ m' with ip := m'.ip + 1, env := m'.env.tail, stk := X.K }, j, h1, h2.trans ?_, ?_, rfl, ?_, hp.2⟩
    · have := step0 (W := W) hp.1
      simp only [exec, popState, h4] at this
      exact this
    · exact ⟨h3.w, h3.flag, h3.retv, h3.regs, h3.rv⟩
    · simp [h5]
  | ret v =>
    obtain ⟨m', h1, h2, h3⟩ := h
    refine ⟨{ m' with env := m'.env.tail }, h1, ⟨h2.w, h2.flag, h2.nofin, h2.retv, h2.regs⟩, ?_⟩
    simp [h3]
  | thr v =>
    obtain ⟨m', h1, h2, h3⟩ := h
    refine ⟨{ m' with env := m'.env.tail }, h1, ⟨h2.w, h2.flag, h2.err, h2.retv, h2.regs⟩, ?_⟩
    simp [h3]

theorem closeM_ok {it : V} {m : M σ V} {w : σ} {fx : Fx V} (h : W.closeIt it m.w = .ok w () fx)
    (hq : Keeps (W.closeIt it m.w)) : closeM W it m = ({ m with w := w }, true) := by
  rw [h] at hq
  cases fx with
  | keep =>
    unfold closeM
    rw [h]
    simp only [applyFx]
    cases hf : m.flag <;> simp
  | clear => exact hq.elim
  | stale v => exact hq.elim

theorem closeM_thr {it : V} {m : M σ V} {w : σ} {v : V} (h : W.closeIt it m.w = .thr w v) :
    closeM W it m = ({ m with w := w, flag := true, err := if m.flag then m.err else v }, false) := by
  unfold closeM
  rw [h]

/-- Leaving an iteration. -/
theorem Post.popIter {X : Cx V} {m : M σ V} {q q1 n : Nat} {w' : σ} {c : Comp V} {of : Bool} {it : V}
    (hW : QuietWorld W) (hl : Leaves X.bl X.cl X.d c) (hf : of = true → m.flag = false)
    (h : Post W code { X with d := X.d + 1, K := .iter of it false :: X.K } q1 n m (some (w', c))) :
    Post W code X q n m (some (if of then iteratorClose W it w' c else (w', c))) := by
  have hj6 : ∀ {m' : M σ V} {j : J}, j.d ≤ X.d → AtJump code m'.ip (X.d + 1 - j.d) j.l →
      code[m'.ip]? = some .pop ∧ AtJump code (m'.ip + 1) (X.d - j.d) j.l := by
    intro m' j hj h6
    rw [show X.d + 1 - j.d = (X.d - j.d) + 1 by omega] at h6
    exact h6.pop
  cases of with
  | false =>
    simp only [Bool.false_eq_true, if_false]
    cases c with
    | normal v => exact hl.elim
    | brk v t =>
      obtain ⟨m', j, h1, h2, h3, h4, h5, h6⟩ := h
      have hp := hj6 (hl j h1) h6
      refine ⟨{ m' with ip := m'.ip + 1, stk := X.K }, j, h1, h2.trans ?_,
        ⟨h3.w, h3.flag, h3.retv, h3.regs, h3.rv⟩, rfl, h5, hp.2⟩
      have := step0 (W := W) hp.1
      simp only [exec, popState, h4, Bool.false_and, Bool.false_eq_true, if_false] at this
      exact this
    | cont v t =>
      obtain ⟨m', j, h1, h2, h3, h4, h5, h6⟩ := h
      have hp := hj6 (hl j h1) h6
      refine ⟨{ m' with ip := m'.ip + 1, stk := X.K }, j, h1, h2.trans ?_,
        ⟨h3.w, h3.flag, h3.retv, h3.regs, h3.rv⟩, rfl, h5, hp.2⟩
      have := step0 (W := W) hp.1
      simp only [exec, popState, h4, Bool.false_and, Bool.false_eq_true, if_false] at this
      exact this
    | ret v =>
      obtain ⟨m', h1, h2, h3⟩ := h
      exact ⟨m', by simpa [unwind] using h1, ⟨h2.w, h2.flag, h2.nofin, h2.retv, h2.regs⟩, h3⟩
    | thr v =>
      obtain ⟨m', h1, h2, h3⟩ := h
      exact ⟨m', by simpa [unwind] using h1, ⟨h2.w, h2.flag, h2.err, h2.retv, h2.regs⟩, h3⟩
  | true =>
    simp only [if_true]
    have hm := hf rfl
    cases c with
    | normal v => exact hl.elim
    | brk v t =>
      obtain ⟨m', j, h1, h2, h3, h4, h5, h6⟩ := h
      have hp := hj6 (hl j h1) h6
      have hst := step0 (W := W) hp.1
      have hfl : m'.flag = false := by
        cases e : m'.flag with
        | false => rfl
        | true => rw [h3.flag e] at hm; cases hm
      unfold iteratorClose
      have hw : m'.w = w' := h3.w
      cases hcl : W.closeIt it w' with
      | ok w'' a fx =>
        simp only [exec, popState, h4, Bool.true_and, Bool.not_false, if_true] at hst
        rw [closeM_ok (w := w'') (fx := fx) (by rw [hw]; exact hcl) (hW.2.2 _ _)] at hst
        exact ⟨_, j, h1, h2.trans hst, ⟨rfl, h3.flag, h3.retv, h3.regs, h3.rv⟩, rfl, h5, hp.2⟩
      | thr w'' u =>
        simp only [exec, popState, h4, Bool.true_and, Bool.not_false, if_true] at hst
        rw [closeM_thr (w := w'') (v := u) (by rw [hw]; exact hcl)] at hst
        exact ⟨_, h2.trans hst, ⟨rfl, rfl, by simp [hfl], fun f => h3.retv (Cx.kt_kp f), h3.regs⟩, h5⟩
    | cont v t =>
      obtain ⟨m', j, h1, h2, h3, h4, h5, h6⟩ := h
      have hp := hj6 (hl j h1) h6
      have hst := step0 (W := W) hp.1
      have hfl : m'.flag = false := by
        cases e : m'.flag with
        | false => rfl
        | true => rw [h3.flag e] at hm; cases hm
      unfold iteratorClose
      have hw : m'.w = w' := h3.w
      cases hcl : W.closeIt it w' with
      | ok w'' a fx =>
        simp only [exec, popState, h4, Bool.true_and, Bool.not_false, if_true] at hst
        rw [closeM_ok (w := w'') (fx := fx) (by rw [hw]; exact hcl) (hW.2.2 _ _)] at hst
        exact ⟨_, j, h1, h2.trans hst, ⟨rfl, h3.flag, h3.retv, h3.regs, h3.rv⟩, rfl, h5, hp.2⟩
      | thr w'' u =>
        simp only [exec, popState, h4, Bool.true_and, Bool.not_false, if_true] at hst
        rw [closeM_thr (w := w'') (v := u) (by rw [hw]; exact hcl)] at hst
        exact ⟨_, h2.trans hst, ⟨rfl, rfl, by simp [hfl], fun f => h3.retv (Cx.kt_kp f), h3.regs⟩, h5⟩
    | ret v =>
      obtain ⟨m', h1, h2, h3⟩ := h
      have hfl : m'.flag = false := by
        cases e : m'.flag with
        | false => rfl
        | true => rw [h2.flag e] at hm; cases hm
      unfold iteratorClose
      have hw : m'.w = w' := h2.w
      simp only [unwind, Bool.true_and, Bool.not_false, if_true] at h1
      cases hcl : W.closeIt it w' with
      | ok w'' a fx =>
        rw [closeM_ok (w := w'') (fx := fx) (by rw [hw]; exact hcl) (hW.2.2 _ _)] at h1
        exact ⟨_, h1, ⟨rfl, h2.flag, h2.nofin, h2.retv, h2.regs⟩, h3⟩
      | thr w'' u =>
        rw [closeM_thr (w := w'') (v := u) (by rw [hw]; exact hcl)] at h1
        exact ⟨_, h1, ⟨rfl, rfl, by simp [hfl], fun e => absurd (e.symm.trans h2.nofin) (by simp), h2.regs⟩, h3⟩
    | thr v =>
      obtain ⟨m', h1, h2, h3⟩ := h
      have hfl : m'.flag = true := h2.flag
      unfold iteratorClose
      have hw : m'.w = w' := h2.w
      simp only [unwind, Bool.true_and, Bool.not_false, if_true] at h1
      cases hcl : W.closeIt it w' with
      | ok w'' a fx =>
        rw [closeM_ok (w := w'') (fx := fx) (by rw [hw]; exact hcl) (hW.2.2 _ _)] at h1
        exact ⟨_, h1, ⟨rfl, h2.flag, h2.err, h2.retv, h2.regs⟩, h3⟩
      | thr w'' u =>
        rw [closeM_thr (w := w'') (v := u) (by rw [hw]; exact hcl)] at h1
        exact ⟨_, h1, ⟨rfl, rfl, by simp [hfl, h2.err], h2.retv, h2.regs⟩, h3⟩

/-- A quiet expression that gives a value. -/
theorem ex_ok {m : M σ V} {e : Ex σ V} {r : Nat} {w : σ} {v : V} {fx : Fx V}
    (h : code[m.ip]? = some (.ex e r)) (hq : Quiet e) (he : e m.env m.w = .ok w v fx) :
    Reach1 W code (.inl m) (.inl { m with w := w, ip := m.ip + 1, regs := setR m.regs r v }) := by
  have := step1 (W := W) h
  have q := hq m.env m.w
  rw [he] at q
  cases fx with
  | keep => simpa only [exec, runEx, he, applyFx] using this
  | clear => exact q.elim
  | stale v => exact q.elim

/-- An expression that throws. -/
theorem ex_thr {m : M σ V} {e : Ex σ V} {r : Nat} {w : σ} {v : V}
    (h : code[m.ip]? = some (.ex e r)) (he : e m.env m.w = .thr w v) :
    Reach1 W code (.inl m) (unwind W m.stk .throw { m with w := w, flag := true, err := v }) := by
  have := step1 (W := W) h
  simpa only [exec, runEx, he] using this

theorem bind_ok {m : M σ V} {f : V → Ex σ V} {r : Nat} {w : σ} {v : V} {fx : Fx V}
    (h : code[m.ip]? = some (.bind f r)) (hq : ∀ v, Quiet (f v))
    (he : f (m.regs r) m.env m.w = .ok w v fx) :
    Reach1 W code (.inl m) (.inl { m with w := w, ip := m.ip + 1 }) := by
  have := step1 (W := W) h
  have q := hq (m.regs r) m.env m.w
  rw [he] at q
  cases fx with
  | keep => simpa only [exec, runEx, he, applyFx] using this
  | clear => exact q.elim
  | stale v => exact q.elim

theorem bind_thr {m : M σ V} {f : V → Ex σ V} {r : Nat} {w : σ} {v : V}
    (h : code[m.ip]? = some (.bind f r)) (he : f (m.regs r) m.env m.w = .thr w v) :
    Reach1 W code (.inl m) (unwind W m.stk .throw { m with w := w, flag := true, err := v }) := by
  have := step1 (W := W) h
  simpa only [exec, runEx, he] using this

theorem open_ok {m : M σ V} {of : Bool} {r : Nat} {w : σ} {v : V} {fx : Fx V} (hW : QuietWorld W)
    (h : code[m.ip]? = some (.pushIt of r)) (he : W.openIt of (m.regs r) m.w = .ok w v fx) :
    Reach1 W code (.inl m) (.inl { m with w := w, ip := m.ip + 1, stk := .iter of v false :: m.stk }) := by
  have := step1 (W := W) h
  have q := hW.1 of (m.regs r) m.w
  rw [he] at q
  cases fx with
  | keep => simpa only [exec, runEx, he, applyFx] using this
  | clear => exact q.elim
  | stale v => exact q.elim

theorem open_thr {m : M σ V} {of : Bool} {r : Nat} {w : σ} {v : V}
    (h : code[m.ip]? = some (.pushIt of r)) (he : W.openIt of (m.regs r) m.w = .thr w v) :
    Reach1 W code (.inl m) (unwind W m.stk .throw { m with w := w, flag := true, err := v }) := by
  have := step1 (W := W) h
  simpa only [exec, runEx, he] using this

/-- The step of a loop described by `iterate`. -/
theorem loop_post {α : Type} {f : α → Option (α ⊕ (σ × Comp V))} {I : α → M σ V → Prop}
    {P : σ × Comp V → Prop} {n : Nat}
    (h : ∀ a m, I a m → (f a = none → Runs W code n (.inl m)) ∧
      (∀ a', f a = some (.inl a') → ∃ m', Reach1 W code (.inl m) (.inl m') ∧ I a' m') ∧
      (∀ o, f a = some (.inr o) → P o)) :
    ∀ k, k ≤ n → ∀ a m, I a m → (iterate f k a = none → Runs W code k (.inl m)) ∧
      (∀ o, iterate f k a = some o → P o) := by
  intro k
  induction k with
  | zero =>
    intro _ a m _
    exact ⟨fun _ => Runs.zero m, fun o ho => by simp [iterate] at ho⟩
  | succ k ih =>
    intro hk a m hI
    obtain ⟨h1, h2, h3⟩ := h a m hI
    simp only [iterate]
    cases hfa : f a with
    | none => exact ⟨fun _ => (h1 hfa).mono hk, fun o ho => by simp at ho⟩
    | some r =>
      cases r with
      | inl a' =>
        obtain ⟨m', hr, hI'⟩ := h2 a' hfa
        obtain ⟨i1, i2⟩ := ih (by omega) a' m' hI'
        exact ⟨fun hn => Runs.of_reach1 hr (i1 hn), fun o ho => i2 o ho⟩
      | inr o =>
        refine ⟨fun hn => by simp at hn, fun o' ho => ?_⟩
        simp only [Option.some.injEq] at ho
        subst ho
        exact h3 o hfa

end Verif.Flow

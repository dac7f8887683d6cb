import Verif.Lemmas.Destr

/-! Helper lemmas: the byte code of patterns. -/

namespace Verif.Destr

open Spec

variable {σ : Type} {W : World σ} {fuel : Nat}

theorem exec_cons (c : Cmd) (cs : List Cmd) (m : M σ) :
    exec W fuel (c :: cs) 0 m =
      match step W fuel c m with
      | .next m k => exec W fuel cs k m
      | .err m => .err m
      | .bad => .bad
      | .fuel => .fuel := rfl

/-- A piece of byte code did what `c` says: afterwards `rest` is run, on a machine with `P`; or the
states above `base` are unwound. -/
def Post {A : Type} (W : World σ) (fuel : Nat) (x : Res σ) (rest : List Cmd) (base : List St)
    (P : M σ → A → Prop) : C σ A → Prop
  | .ok s a => ∃ m' : M σ, x = exec W fuel rest 0 m' ∧ m'.rt.w = s ∧ m'.rt.flag = false ∧ P m' a
  | .thr s e => ∃ (m' : M σ) (S : List St), x = .err m' ∧ m'.stack = S ++ base ∧
      unwind W S m'.rt = ⟨s, true, e⟩
  | .more => x = .fuel

/-- Pieces one after the other. -/
theorem Post.bind {A B : Type} {x : Res σ} {r1 r2 : List Cmd} {base : List St}
    {P : M σ → A → Prop} {Q : M σ → B → Prop} {c : C σ A} {f : σ → A → C σ B}
    (h : Post W fuel x r1 base P c)
    (g : ∀ (m' : M σ) a, m'.rt.flag = false → P m' a →
      Post W fuel (exec W fuel r1 0 m') r2 base Q (f m'.rt.w a)) :
    Post W fuel x r2 base Q (c.andThen f) := by
  cases c with
  | ok s a =>
    obtain ⟨m', h1, h2, h3, h4⟩ := h
    rw [h1]
    simp only [C.andThen, ← h2]
    exact g m' a h3 h4
  | thr s e => exact h
  | more => exact h

theorem Post.imp {A : Type} {x : Res σ} {r : List Cmd} {base : List St}
    {P Q : M σ → A → Prop} {c : C σ A} (h : Post W fuel x r base P c)
    (g : ∀ m' a, P m' a → Q m' a) : Post W fuel x r base Q c := by
  cases c with
  | ok s a =>
    obtain ⟨m', h1, h2, h3, h4⟩ := h
    exact ⟨m', h1, h2, h3, g _ _ h4⟩
  | thr s e => exact h
  | more => exact h

/-- The registers below `n` and the stack are as they were. -/
def Keep (n : Nat) (m m' : M σ) : Prop := (∀ q, q < n → m'.regs q = m.regs q) ∧ m'.stack = m.stack

theorem intoReg_post {r : Nat} {m : M σ} {x : R σ V} {c : C σ V} {rest : List Cmd} (h : Sim x c) :
    Post W fuel (match intoReg m r x with
      | .next m k => exec W fuel rest k m
      | .err m => .err m
      | .bad => .bad
      | .fuel => .fuel) rest m.stack
      (fun m' v => m'.regs = (fun q => if q = r then v else m.regs q) ∧ m'.refs = m.refs ∧
        m'.stack = m.stack) c := by
  rcases h.ok with ⟨rt, a, h1, h2, h3⟩ | ⟨s, e, h1, h2⟩
  · rw [h1, h2]
    exact ⟨_, rfl, rfl, h3, rfl, rfl, rfl⟩
  · rw [h1, h2]
    exact ⟨_, [], rfl, rfl, rfl⟩

theorem eval_post (hW : Calm W) (e r : Nat) (m : M σ) (rest : List Cmd) (hf : m.rt.flag = false) :
    Post W fuel (exec W fuel (.eval e r :: rest) 0 m) rest m.stack
      (fun m' v => m'.regs = (fun q => if q = r then v else m.regs q) ∧ m'.refs = m.refs ∧
        m'.stack = m.stack) (of (W.eval e m.rt.w)) :=
  intoReg_post (lift_sim (hW.eval e m.rt.w) hf)

theorem toProp_post (hW : Calm W) (a r : Nat) (m : M σ) (rest : List Cmd) (hf : m.rt.flag = false) :
    Post W fuel (exec W fuel (.toProp a r :: rest) 0 m) rest m.stack
      (fun m' v => m'.regs = (fun q => if q = r then v else m.regs q) ∧ m'.refs = m.refs ∧
        m'.stack = m.stack) (key W (m.regs a) m.rt.w) :=
  intoReg_post (toKey_sim hW (m.regs a) hf)

/-- The reference of a target. -/
def HasRef (t : Tgt) (i lref : Nat) (m : M σ) : Prop := ∀ k, t = .leaf k → m.refs i = lref

theorem refCode_post (hW : Calm W) (t : Tgt) (i : Nat) (m : M σ) (rest : List Cmd)
    (hf : m.rt.flag = false) :
    Post W fuel (exec W fuel (refCode t i ++ rest) 0 m) rest m.stack
      (fun m' lref => m'.regs = m.regs ∧ m'.stack = m.stack ∧ HasRef t i lref m')
      (target W t m.rt.w) := by
  cases t with
  | leaf k =>
    simp only [refCode, List.cons_append, List.nil_append, exec_cons, step, target]
    rcases (lift_sim (hW.ref k m.rt.w) hf).ok with ⟨rt, a, h1, h2, h3⟩ | ⟨s, e, h1, h2⟩
    · rw [h1, h2]
      exact ⟨_, rfl, rfl, h3, rfl, rfl, fun _ _ => by simp⟩
    · rw [h1, h2]
      exact ⟨_, [], rfl, rfl, rfl⟩
  | arr l => exact ⟨m, rfl, rfl, hf, rfl, rfl, fun _ h => nomatch h⟩
  | obj l => exact ⟨m, rfl, rfl, hf, rfl, rfl, fun _ h => nomatch h⟩

theorem initCode_post (hW : Calm W) (init : Option Nat) (r c : Nat) (hrc : r ≠ c) (m : M σ)
    (rest : List Cmd) (hf : m.rt.flag = false) :
    Post W fuel (exec W fuel (initCode init r c ++ rest) 0 m) rest m.stack
      (fun m' v => m'.regs r = v ∧ (∀ q, q ≠ r → q ≠ c → m'.regs q = m.regs q) ∧ m'.refs = m.refs ∧
        m'.stack = m.stack) (Spec.default W init (m.regs r) m.rt.w) := by
  cases init with
  | none => exact ⟨m, rfl, rfl, hf, rfl, fun _ _ _ => rfl, rfl, rfl⟩
  | some e =>
    simp only [initCode, List.cons_append, List.nil_append, exec_cons, step, M.setReg, if_true]
    by_cases hu : m.regs r = .undef
    · rw [hu]
      simp only [World.toBool, decide_true, if_true, Spec.default]
      have h := eval_post (W := W) (fuel := fuel) hW e r
        (m.setReg c (.bool true)) (.stub :: rest) hf
      have h2 := h.bind (Q := fun m' v => m'.regs r = v ∧ (∀ q, q ≠ r → q ≠ c → m'.regs q = m.regs q) ∧
          m'.refs = m.refs ∧ m'.stack = m.stack) (r2 := rest) (f := fun s v => .ok s v)
        (fun m' a hf' hp => ⟨m', rfl, rfl, hf', by rw [hp.1]; simp,
          fun q h1 h2 => by rw [hp.1]; simp [M.setReg, h1, h2], hp.2.1, hp.2.2⟩)
      have e1 : (of (W.eval e m.rt.w)).andThen (fun s v => .ok s v) = of (W.eval e m.rt.w) := by
        cases of (W.eval e m.rt.w) <;> rfl
      have e2 : (m.setReg c (.bool true)).rt.w = m.rt.w := rfl
      rw [e2, e1] at h2
      exact h2
    · have hd : Spec.default W (some e) (m.regs r) m.rt.w = .ok m.rt.w (m.regs r) := by
        unfold Spec.default
        cases hv : m.regs r with
        | undef => exact absurd hv hu
        | _ => rfl
      rw [hd]
      simp only [hu, decide_false, World.toBool, Bool.false_eq_true, if_false, exec]
      exact ⟨_, rfl, rfl, hf, by simp [hrc], fun q h1 h2 => by simp [h2], rfl, rfl⟩

/-- Reading a property of an object pattern. -/
theorem prop_post (hW : Calm W) (v k : V) (names : List V) (st : List St) (r : Nat) (m : M σ)
    (rest : List Cmd) (hf : m.rt.flag = false) :
    Post W fuel (match intoReg { m with stack := .obj v (propStep W v k names m.rt).2 :: st } r
        (propStep W v k names m.rt).1 with
      | .next m k => exec W fuel rest k m
      | .err m => .err m
      | .bad => .bad
      | .fuel => .fuel) rest st
      (fun m' x => m'.regs = (fun q => if q = r then x else m.regs q) ∧ m'.refs = m.refs ∧
        m'.stack = .obj v (if names.contains k then names else k :: names) :: st) (of (W.get v k m.rt.w)) := by
  unfold propStep
  rcases (lift_sim (hW.get v k m.rt.w) hf).ok with ⟨rt, a, h1, h2, h3⟩ | ⟨s, e, h1, h2⟩
  · rw [h1, h2]
    exact ⟨_, rfl, rfl, h3, rfl, rfl, rfl⟩
  · rw [h1, h2]
    exact ⟨_, [.obj v names], rfl, rfl, rfl⟩

/-- A base below one more state that does nothing when it is unwound. -/
theorem Post.lower {A : Type} {x : Res σ} {r : List Cmd} {v : V} {names : List V} {st : List St}
    {P : M σ → A → Prop} {c : C σ A} (h : Post W fuel x r (.obj v names :: st) P c) :
    Post W fuel x r st P c := by
  cases c with
  | ok s a => exact h
  | thr s e =>
    obtain ⟨m', S, h1, h2, h3⟩ := h
    refine ⟨m', S ++ [.obj v names], h1, by rw [h2, List.append_assoc]; rfl, ?_⟩
    rw [unwind_append, h3]
    rfl
  | more => exact h

/-- What is asked of the name, the target and the value of a property. -/
def propSpec (W : World σ) (nm : Name) (t : Tgt) (v : V) (s : σ) : C σ (V × Nat × V) :=
  (name W nm s).andThen fun s k =>
  (target W t s).andThen fun s lref =>
  (of (W.get v k s)).andThen fun s x => .ok s (k, lref, x)

theorem target_fixed (hR : RefFixed W) (t : Tgt) : ∃ i, ∀ s, target W t s = .ok s i := by
  cases t with
  | leaf k =>
    obtain ⟨i, hi⟩ := hR k
    exact ⟨i, fun s => by simp [target, hi, of]⟩
  | arr l => exact ⟨0, fun _ => rfl⟩
  | obj l => exact ⟨0, fun _ => rfl⟩

theorem nameCode_post (hW : Calm W) (md : Mode) (nm : Name) (t : Tgt) (v : V) (names : List V)
    (st : List St) (n : Nat) (m : M σ) (rest : List Cmd) (hf : m.rt.flag = false)
    (hs : m.stack = .obj v names :: st)
    (hc : md = .assi ∨ (∀ e, nm = .expr e → RefFixed W)) :
    Post W fuel (exec W fuel (nameCode md nm t n ++ rest) 0 m) rest st
      (fun m' x => (∀ q, q < n → m'.regs q = m.regs q) ∧ m'.regs n = x.2.2 ∧ HasRef t (n + 3) x.2.1 m' ∧
        m'.stack = .obj v (if names.contains x.1 then names else x.1 :: names) :: st)
      (propSpec W nm t v m.rt.w) := by
  -- reading by a key in a register
  have getE : ∀ (m1 : M σ) (lref : Nat), m1.rt.flag = false → (∀ q, q < n → m1.regs q = m.regs q) →
      m1.stack = .obj v names :: st → HasRef t (n + 3) lref m1 →
      Post W fuel (exec W fuel (.getPropE (n + 2) n :: rest) 0 m1) rest st
        (fun m' x => (∀ q, q < n → m'.regs q = m.regs q) ∧ m'.regs n = x.2.2 ∧ HasRef t (n + 3) x.2.1 m' ∧
          m'.stack = .obj v (if names.contains x.1 then names else x.1 :: names) :: st)
        ((of (W.get v (m1.regs (n + 2)) m1.rt.w)).andThen fun s x => .ok s (m1.regs (n + 2), lref, x)) := by
    intro m1 lref h1 h2 h3 h4
    rw [exec_cons]
    simp only [step, h3]
    refine (prop_post hW v (m1.regs (n + 2)) names st n m1 rest h1).bind ?_
    intro m' x g1 g2
    refine ⟨m', rfl, rfl, g1, ?_, ?_, ?_, g2.2.2⟩
    · intro q hq
      rw [g2.1]
      simp only [Nat.ne_of_lt hq, if_false]
      exact h2 q hq
    · rw [g2.1]; simp
    · intro k hk; rw [g2.2.1]; exact h4 k hk
  -- the key made after the target
  have late : ∀ (m1 : M σ), m1.rt.flag = false → (∀ q, q < n → m1.regs q = m.regs q) →
      m1.stack = .obj v names :: st →
      ((∃ k, m1.regs (n + 1) = .str k) ∨ RefFixed W) →
      Post W fuel (exec W fuel (refCode t (n + 3) ++ ([.toProp (n + 1) (n + 2), .getPropE (n + 2) n] ++ rest)) 0 m1)
        rest st
        (fun m' x => (∀ q, q < n → m'.regs q = m.regs q) ∧ m'.regs n = x.2.2 ∧ HasRef t (n + 3) x.2.1 m' ∧
          m'.stack = .obj v (if names.contains x.1 then names else x.1 :: names) :: st)
        ((key W (m1.regs (n + 1)) m1.rt.w).andThen fun s k =>
          (target W t s).andThen fun s lref =>
          (of (W.get v k s)).andThen fun s x => .ok s (k, lref, x)) := by
    intro m1 h1 h2 h3 h4
    have base : Post W fuel (exec W fuel (refCode t (n + 3) ++
        ([.toProp (n + 1) (n + 2), .getPropE (n + 2) n] ++ rest)) 0 m1) rest st
        (fun m' x => (∀ q, q < n → m'.regs q = m.regs q) ∧ m'.regs n = x.2.2 ∧ HasRef t (n + 3) x.2.1 m' ∧
          m'.stack = .obj v (if names.contains x.1 then names else x.1 :: names) :: st)
        ((target W t m1.rt.w).andThen fun s lref =>
          (key W (m1.regs (n + 1)) s).andThen fun s k =>
          (of (W.get v k s)).andThen fun s x => .ok s (k, lref, x)) := by
      have r1 := refCode_post (W := W) (fuel := fuel) hW t (n + 3) m1
        ([.toProp (n + 1) (n + 2), .getPropE (n + 2) n] ++ rest) h1
      rw [h3] at r1
      refine r1.lower.bind ?_
      intro m2 lref g1 g2
      have r2 := toProp_post (W := W) (fuel := fuel) hW (n + 1) (n + 2) m2
        ([.getPropE (n + 2) n] ++ rest) g1
      rw [g2.2.1] at r2
      rw [g2.1] at r2
      refine r2.lower.bind ?_
      intro m3 k k1 k2
      have hk : m3.regs (n + 2) = k := by rw [k2.1]; simp
      have := getE m3 lref k1 (fun q hq => by
        rw [k2.1]
        have : q ≠ n + 2 := by omega
        simp only [this, if_false]
        exact h2 q hq) k2.2.2 (fun j hj => by rw [k2.2.1]; exact g2.2.2 j hj)
      rw [hk] at this
      exact this
    rcases h4 with ⟨k, hk⟩ | hR
    · rw [hk] at base ⊢
      exact base
    · obtain ⟨i, hi⟩ := target_fixed hR t
      simp only [hi, C.andThen] at base ⊢
      cases hkk : key W (m1.regs (n + 1)) m1.rt.w with
      | ok s k => rw [hkk] at base; simpa using base
      | thr s e => rw [hkk] at base; simpa using base
      | more => rw [hkk] at base; simpa using base
  unfold propSpec
  cases md with
  | assi =>
    cases nm with
    | str k =>
      simp only [nameCode, name, C.andThen, List.append_assoc]
      have r1 := refCode_post (W := W) (fuel := fuel) hW t (n + 3) m ([.getProp k n] ++ rest) hf
      rw [hs] at r1
      refine r1.lower.bind ?_
      intro m1 lref h1 h2
      simp only [List.cons_append, List.nil_append]
      rw [exec_cons]
      simp only [step, h2.2.1]
      refine (prop_post hW v (.str k) names st n m1 rest h1).bind ?_
      intro m' x g1 g2
      refine ⟨m', rfl, rfl, g1, ?_, ?_, ?_, g2.2.2⟩
      · intro q hq
        rw [g2.1]
        simp only [Nat.ne_of_lt hq, if_false]
        rw [h2.1]
      · rw [g2.1]; simp
      · intro j hj; rw [g2.2.1]; exact h2.2.2 j hj
    | expr e =>
      simp only [nameCode, name, List.append_assoc]
      have r0 := eval_post (W := W) (fuel := fuel) hW e (n + 1) m
        (.toProp (n + 1) (n + 2) :: (refCode t (n + 3) ++ ([.getPropE (n + 2) n] ++ rest))) hf
      rw [hs] at r0
      have assoc : ∀ {A B D' : Type} (c : C σ A) (f : σ → A → C σ B) (g : σ → B → C σ D'),
          (c.andThen f).andThen g = c.andThen fun s a => (f s a).andThen g := by
        intro A B D' c f g; cases c <;> rfl
      rw [assoc]
      refine r0.lower.bind ?_
      intro m1 x h1 h2
      have r1 := toProp_post (W := W) (fuel := fuel) hW (n + 1) (n + 2) m1
        (refCode t (n + 3) ++ ([.getPropE (n + 2) n] ++ rest)) h1
      rw [h2.2.2] at r1
      have hx : m1.regs (n + 1) = x := by rw [h2.1]; simp
      rw [hx] at r1
      refine r1.lower.bind ?_
      intro m2 k g1 g2
      have r2 := refCode_post (W := W) (fuel := fuel) hW t (n + 3) m2 ([.getPropE (n + 2) n] ++ rest) g1
      rw [g2.2.2] at r2
      refine r2.lower.bind ?_
      intro m3 lref k1 k2
      have hk : m3.regs (n + 2) = k := by rw [k2.1, g2.1]; simp
      have := getE m3 lref k1 (fun q hq => by
        rw [k2.1, g2.1]
        have h3 : q ≠ n + 2 := by omega
        have h4 : q ≠ n + 1 := by omega
        simp only [h3, if_false, h2.1, h4]) k2.2.1 k2.2.2
      rw [hk] at this
      exact this
  | bind lex =>
    have hc : ∀ e, nm = .expr e → RefFixed W := by
      rcases hc with h | h
      · nomatch h
      · exact h
    cases nm with
    | str k =>
      simp only [nameCode, name, C.andThen, List.append_assoc]
      have := late (m.setReg (n + 1) (.str k)) hf (fun q hq => by
        have h4 : q ≠ n + 1 := by omega
        simp [M.setReg, h4]) hs (.inl ⟨k, by simp [M.setReg]⟩)
      have hk : (m.setReg (n + 1) (.str k)).regs (n + 1) = .str k := by simp [M.setReg]
      rw [hk] at this
      exact this
    | expr e =>
      simp only [nameCode, name, List.append_assoc]
      have r0 := eval_post (W := W) (fuel := fuel) hW e (n + 1) m
        (refCode t (n + 3) ++ ([.toProp (n + 1) (n + 2), .getPropE (n + 2) n] ++ rest)) hf
      rw [hs] at r0
      have assoc : ∀ {A B D' : Type} (c : C σ A) (f : σ → A → C σ B) (g : σ → B → C σ D'),
          (c.andThen f).andThen g = c.andThen fun s a => (f s a).andThen g := by
        intro A B D' c f g; cases c <;> rfl
      rw [assoc]
      refine r0.lower.bind ?_
      intro m1 x h1 h2
      have := late m1 h1 (fun q hq => by
        rw [h2.1]
        have h4 : q ≠ n + 1 := by omega
        simp [h4]) h2.2.2 (.inr (hc e rfl))
      have hx : m1.regs (n + 1) = x := by rw [h2.1]; simp
      rw [hx] at this
      exact this

end Verif.Destr

import Verif.Lemmas.FlowBase

/-! Building blocks of the simulation: sequences, scopes, targets, expressions. -/

namespace Verif.Flow

open Spec

variable {σ V : Type} {W : World σ V} {code : List (Cmd σ V)}

theorem upd_none (c : Comp V) : upd c none = c := by
  rw [upd_eq]; rcases c with (_ | _) | ⟨_ | _, _⟩ | ⟨_ | _, _⟩ | _ | _ <;> rfl

/-- What is left of a completion at the end of a statement with labels `ls`, breakable or not. -/
def stop (br : Bool) (ls : List Nat) : Comp V → Comp V
  | .brk v none => if br then .normal v else .brk v none
  | .brk v (some n) => if n ∈ ls then .normal v else .brk v (some n)
  | c => c

theorem stop_nil (c : Comp V) : stop false [] c = c := by
  rcases c with _ | ⟨_, _ | _⟩ | _ | _ | _ <;> simp [stop]

theorem stop_upd (br : Bool) (ls : List Nat) (c : Comp V) (x : Option V) :
    stop br ls (upd c x) = upd (stop br ls c) x := by
  rw [upd_eq, upd_eq]
  rcases c with _ | ⟨v, _ | k⟩ | _ | _ | _ <;> simp only [stop]
  · cases br <;> simp
  · by_cases h : k ∈ ls <;> simp [h]

theorem stop_breakable (ls : List Nat) (c : Comp V) (v : V) :
    stop false ls (breakable W (upd c (some v))) = stop true ls (upd c (some v)) := by
  rcases c with (_ | _) | ⟨_ | _, _ | _⟩ | ⟨_ | _, _⟩ | _ | _ <;> simp [stop, upd, breakable]

theorem mapC_id (o : Out σ V) : mapC (stop false []) o = o := by
  rcases o with _ | ⟨w, c⟩
  · rfl
  · simp [mapC, stop_nil]

/-- Does a jump to `t` stop at an entry with these names? -/
def hit (ls : List Nat) (br : Bool) : Option Nat → Bool
  | none => br
  | some n => decide (n ∈ ls)

theorem lookup_cons {ls : List Nat} {br : Bool} {j j' : J} {bl : List Tgt} {t : Option Nat}
    (h : lookup (⟨ls, br, j⟩ :: bl) t = some j') :
    (hit ls br t = true ∧ j' = j) ∨ (hit ls br t = false ∧ lookup bl t = some j') := by
  cases t with
  | none =>
    cases br with
    | true => left; simp [lookup] at h; exact ⟨rfl, h.symm⟩
    | false => right; exact ⟨rfl, by simpa [lookup] using h⟩
  | some n =>
    by_cases hn : n ∈ ls
    · left; simp [lookup, hn] at h; exact ⟨by simp [hit, hn], h.symm⟩
    · right; exact ⟨by simp [hit, hn], by simpa [lookup, hn] using h⟩

theorem lookup_mem {bl : List Tgt} {t : Option Nat} {j : J} (h : lookup bl t = some j) :
    ∃ e ∈ bl, e.j = j ∧ (∀ n, t = some n → n ∈ e.names) := by
  cases t with
  | none =>
    simp only [lookup, Option.map_eq_some_iff] at h
    obtain ⟨e, he, rfl⟩ := h
    exact ⟨e, List.mem_of_find?_eq_some he, rfl, by simp⟩
  | some n =>
    simp only [lookup, Option.map_eq_some_iff] at h
    obtain ⟨e, he, rfl⟩ := h
    refine ⟨e, List.mem_of_find?_eq_some he, rfl, ?_⟩
    intro k hk
    cases hk
    simpa using List.find?_some he

theorem lookup_append {bl ob : List Tgt} {t : Option Nat} {j : J} (h : lookup bl t = some j) :
    lookup (bl ++ ob) t = some j := by
  cases t with
  | none =>
    simp only [lookup, Option.map_eq_some_iff] at h ⊢
    obtain ⟨e, he, rfl⟩ := h
    exact ⟨e, by rw [List.find?_append, he]; rfl, rfl⟩
  | some n =>
    simp only [lookup, Option.map_eq_some_iff] at h ⊢
    obtain ⟨e, he, rfl⟩ := h
    exact ⟨e, by rw [List.find?_append, he]; rfl, rfl⟩

/-- A prefix that keeps the frame. -/
theorem Post.pre {X : Cx V} {m m1 : M σ V} {q n : Nat} {o : Out σ V} {x : Option V}
    (hr : Reach W code (.inl m) (.inl m1)) (hp : Pre X m m1 x) (h : Post W code X q n m1 o) :
    Post W code X q n m (mapC (upd · x) o) := by
  rcases o with _ | ⟨w', c⟩
  · exact Runs.of_reach hr h
  · simp only [mapC, Option.map_some]
    cases c with
    | normal v =>
      rw [upd_eq]
      obtain ⟨m', h1, h2, h3⟩ := h
      exact ⟨m', hr.trans h1, hp.fr (Same.refl X) h2, h3⟩
    | brk v t => exact Post.lift (Same.refl X) rfl rfl rfl (fun j h => h) hr hp h
    | cont v t => exact Post.lift (Same.refl X) rfl rfl rfl (fun j h => h) hr hp h
    | ret v => exact Post.lift (Same.refl X) rfl rfl rfl trivial hr hp h
    | thr v => exact Post.lift (Same.refl X) rfl rfl rfl trivial hr hp h

/-- A prefix that does not touch the completion value. -/
theorem Post.pre0 {X : Cx V} {m m1 : M σ V} {q n : Nat} {o : Out σ V}
    (hr : Reach W code (.inl m) (.inl m1)) (hp : Pre X m m1 none) (h : Post W code X q n m1 o) :
    Post W code X q n m o := by
  have := Post.pre hr hp h
  rcases o with _ | ⟨w', c⟩
  · exact this
  · simpa [mapC, upd_none] using this

/-- Code behind a statement that only moves on. -/
theorem Post.next {X : Cx V} {m : M σ V} {q q' n : Nat} {o : Out σ V}
    (h : Post W code X q n m o)
    (hn : ∀ m' : M σ V, m'.ip = q → m'.stk = X.K → Reach W code (.inl m') (.inl { m' with ip := q' })) :
    Post W code X q' n m o := by
  rcases o with _ | ⟨w', c⟩
  · exact h
  · cases c with
    | normal v =>
      obtain ⟨m', h1, h2, h3, h4, h5⟩ := h
      exact ⟨{ m' with ip := q' }, h1.trans (hn m' h5 h3), ⟨h2.w, h2.flag, h2.retv, h2.regs, h2.rv⟩,
        h3, h4, rfl⟩
    | brk v t => exact h
    | cont v t => exact h
    | ret v => exact h
    | thr v => exact h

theorem stub_step {m : M σ V} {l : Nat} (h : code[m.ip]? = some (.stub l)) :
    Reach1 W code (.inl m) (.inl { m with ip := m.ip + 1 }) := step1 h

theorem jmp_step {m : M σ V} {l p : Nat} (hL : LOK code) (h : code[m.ip]? = some (.jmp l))
    (hp : code[p]? = some (.stub l)) :
    Reach1 W code (.inl m) (.inl { m with ip := p }) := by
  have := step1 (W := W) h
  simp only [exec, hL p l hp] at this
  exact this

/-- Two statements. -/
theorem Post.seq {X : Cx V} {m : M σ V} {q q' n : Nat} {o : Out σ V} {k : σ → Out σ V}
    (h : Post W code X q n m o)
    (hk : ∀ m' : M σ V, m'.ip = q → m'.stk = X.K → m'.env = X.env →
      (m'.flag = true → m.flag = true) → Post W code X q' n m' (k m'.w)) :
    Post W code X q' n m (seqC o k) := by
  rcases o with _ | ⟨w', c⟩
  · exact h
  · cases c with
    | normal v =>
      obtain ⟨m', h1, h2, h3, h4, h5⟩ := h
      have := Post.pre h1 h2.pre (hk m' h5 h3 h4 h2.flag)
      rw [h2.w] at this
      simp only [seqC]
      cases hw : k w' with
      | none => rw [hw] at this; exact this
      | some r => rw [hw] at this; exact this
    | brk v t => exact h
    | cont v t => exact h
    | ret v => exact h
    | thr v => exact h

/-- The target of a breakable or labelled statement: its `stub` is at the end. -/
theorem Post.stop {X : Cx V} {m : M σ V} {q n l : Nat} {o : Out σ V} {ls : List Nat} {br : Bool}
    {rv : Option Nat} (hL : LOK code) (hq : code[q]? = some (.stub l))
    (h : Post W code { X with bl := ⟨ls, br, ⟨l, X.d, rv⟩⟩ :: X.bl } q n m o) :
    Post W code X (q + 1) n m (mapC (stop br ls) o) := by
  rcases o with _ | ⟨w', c⟩
  · exact h
  · simp only [mapC, Option.map_some]
    cases c with
    | normal v =>
      obtain ⟨m', h1, h2, h3, h4, h5⟩ := h
      refine ⟨{ m' with ip := m'.ip + 1 }, h1.trans (stub_step (by rw [h5]; exact hq)).to,
        ⟨h2.w, h2.flag, h2.retv, h2.regs, h2.rv⟩, h3, h4, by simp [h5]⟩
    | brk v t =>
      obtain ⟨m', j, h1, h2, h3, h4, h5, h6⟩ := h
      rcases lookup_cons h1 with ⟨ht, rfl⟩ | ⟨ht, h1'⟩
      · have e : Verif.Flow.stop br ls (.brk v t) = .normal v := by
          cases t with
          | none => simp only [hit] at ht; simp [Verif.Flow.stop, ht]
          | some k => simp only [hit, decide_eq_true_eq] at ht; simp [Verif.Flow.stop, ht]
        rw [e]
        have hj := h6.2
        simp only [Nat.sub_self, Nat.add_zero] at hj
        have r1 := jmp_step (W := W) hL hj hq
        have r2 := stub_step (W := W) (m := { m' with ip := q }) hq
        exact ⟨_, h2.trans (r1.to.trans r2.to), ⟨h3.w, h3.flag, h3.retv, h3.regs, h3.rv⟩, h4, h5, rfl⟩
      · have e : Verif.Flow.stop br ls (.brk v t) = .brk v t := by
          cases t with
          | none => simp only [hit] at ht; simp [Verif.Flow.stop, ht]
          | some k => simp only [hit, decide_eq_false_iff_not] at ht; simp [Verif.Flow.stop, ht]
        rw [e]
        exact ⟨m', j, h1', h2, ⟨h3.w, h3.flag, h3.retv, h3.regs, h3.rv⟩, h4, h5, h6⟩
    | cont v t =>
      obtain ⟨m', j, h1, h2, h3, h4⟩ := h
      exact ⟨m', j, h1, h2, ⟨h3.w, h3.flag, h3.retv, h3.regs, h3.rv⟩, h4⟩
    | ret v =>
      obtain ⟨m', h1, h2, h3⟩ := h
      exact ⟨m', h1, ⟨h2.w, h2.flag, h2.nofin, h2.retv, h2.regs⟩, h3⟩
    | thr v =>
      obtain ⟨m', h1, h2, h3⟩ := h
      exact ⟨m', h1, ⟨h2.w, h2.flag, h2.err, h2.retv, h2.regs⟩, h3⟩

/-- All targets are at most as deep as the place. -/
def Near (X : Cx V) : Prop := (∀ t ∈ X.bl, t.j.d ≤ X.d) ∧ (∀ t ∈ X.cl, t.j.d ≤ X.d)

theorem Near.leaves {X : Cx V} (h : Near X) (c : Comp V) (hn : ∀ v, c ≠ .normal v) :
    Leaves X.bl X.cl X.d c := by
  cases c with
  | normal v => exact hn v rfl
  | brk v t =>
    intro j hj
    obtain ⟨e, he, rfl, _⟩ := lookup_mem hj
    exact h.1 e he
  | cont v t =>
    intro j hj
    obtain ⟨e, he, rfl, _⟩ := lookup_mem hj
    exact h.2 e he
  | ret v => trivial
  | thr v => trivial

/-- The states of an optional scope. -/
def envs (d : Option Nat) : List (Ent V) :=
  match d with
  | some _ => [.env]
  | none => []

/-- The place inside an optional scope. -/
def wd (d : Option Nat) (X : Cx V) : Cx V :=
  { X with d := X.d + depD d, K := envs d ++ X.K, env := within d X.env }

/-- The end of an optional scope. -/
theorem Post.scope {X : Cx V} {m : M σ V} {q n : Nat} {o : Out σ V} {d : Option Nat}
    (hX : Near X) (hc : CodeAt code q (popD d)) (h : Post W code (wd d X) q n m o) :
    Post W code X (q + (popD d : List (Cmd σ V)).length) n m o := by
  cases d with
  | none => exact h
  | some i =>
    rcases o with _ | ⟨w', c⟩
    · exact h
    · cases c with
      | normal v =>
        obtain ⟨m', h1, h2, h3, h4, h5⟩ := h
        have hs := step0 (W := W) (m := m') (c := .pop) (by rw [h5]; exact hc.cons.1)
        have h3' : m'.stk = .env :: X.K := h3
        have h4' : m'.env = i :: X.env := h4
        simp only [exec, popState, h3'] at hs
        exact ⟨_, h1.trans hs, ⟨h2.w, h2.flag, h2.retv, h2.regs, h2.rv⟩, rfl, by simp [h4'], by simp [h5, popD]⟩
      | brk v t => exact Post.popEnv (hX.leaves _ (by simp)) h
      | cont v t => exact Post.popEnv (hX.leaves _ (by simp)) h
      | ret v => exact Post.popEnv (hX.leaves _ (by simp)) h
      | thr v => exact Post.popEnv (hX.leaves _ (by simp)) h

/-- The end of an iteration whose iterator is not used up. -/
theorem Post.iter {X : Cx V} {m : M σ V} {q n : Nat} {w' : σ} {c : Comp V} {of : Bool} {it : V}
    (hW : QuietWorld W) (hX : Near X) (hf : of = true → m.flag = false)
    (hq : code[q]? = some .pop)
    (h : Post W code { X with d := X.d + 1, K := .iter of it false :: X.K } q n m (some (w', c))) :
    Post W code X (q + 1) n m (some (if of then iteratorClose W it w' c else (w', c))) := by
  cases c with
  | normal v =>
    obtain ⟨m', h1, h2, h3, h4, h5⟩ := h
    have hst := step0 (W := W) (m := m') (c := .pop) (by rw [h5]; exact hq)
    have h3' : m'.stk = .iter of it false :: X.K := h3
    cases of with
    | false =>
      simp only [exec, popState, h3', Bool.false_and, Bool.false_eq_true, if_false] at hst
      simp only [Bool.false_eq_true, if_false]
      exact ⟨_, h1.trans hst, ⟨h2.w, h2.flag, h2.retv, h2.regs, h2.rv⟩, rfl, h4, by simp [h5]⟩
    | true =>
      simp only [exec, popState, h3', Bool.true_and, Bool.not_false, if_true] at hst
      simp only [if_true]
      have hw : m'.w = w' := h2.w
      have hm := hf rfl
      have hfl : m'.flag = false := by
        cases e : m'.flag with
        | false => rfl
        | true => rw [h2.flag e] at hm; cases hm
      unfold iteratorClose
      cases hcl : W.closeIt it w' with
      | ok w'' a fx =>
        rw [closeM_ok (w := w'') (fx := fx) (by rw [hw]; exact hcl) (hW.2.2 _ _)] at hst
        exact ⟨_, h1.trans hst, ⟨rfl, h2.flag, h2.retv, h2.regs, h2.rv⟩, rfl, h4, by simp [h5]⟩
      | thr w'' u =>
        rw [closeM_thr (w := w'') (v := u) (by rw [hw]; exact hcl)] at hst
        exact ⟨_, h1.trans hst, ⟨rfl, rfl, by simp [hfl], fun f => h2.retv (Cx.kt_kp f), h2.regs⟩, h4⟩
  | brk v t => exact Post.popIter hW (hX.leaves _ (by simp)) hf h
  | cont v t => exact Post.popIter hW (hX.leaves _ (by simp)) hf h
  | ret v => exact Post.popIter hW (hX.leaves _ (by simp)) hf h
  | thr v => exact Post.popIter hW (hX.leaves _ (by simp)) hf h

/-- A throw at this place. -/
theorem Post.throw {X : Cx V} {m m1 : M σ V} {q n : Nat} {w' : σ} {v : V} {k : List (Ent V)}
    (hr : Reach W code (.inl m) (unwind W k .throw m1)) (hk : k = X.K) (hw : m1.w = w') (hf : m1.flag = true)
    (he : m1.err = v) (henv : m1.env = X.env) (hv : X.kt = true → m1.retv = m.retv)
    (hg : ∀ i, i < X.nr → X.rv ≠ some i → m1.regs i = m.regs i) :
    Post W code X q n m (some (w', .thr v)) := ⟨m1, by rw [← hk]; exact hr, ⟨hw, hf, he, hv, hg⟩, henv⟩

/-- A return at this place. -/
theorem Post.ret {X : Cx V} {m m1 : M σ V} {q n : Nat} {w' : σ} {v : V} {k : List (Ent V)}
    (hr : Reach W code (.inl m) (unwind W k .ret m1)) (hk : k = X.K) (hw : m1.w = w')
    (hf : m1.flag = true → m.flag = true) (hx : X.kt = false)
    (hv : m1.retv = v) (henv : m1.env = X.env)
    (hg : ∀ i, i < X.nr → X.rv ≠ some i → m1.regs i = m.regs i) :
    Post W code X q n m (some (w', .ret v)) := ⟨m1, by rw [← hk]; exact hr, ⟨hw, hf, hx, hv, hg⟩, henv⟩

theorem setR_ne {regs : Nat → V} {r i : Nat} {v : V} (h : i ≠ r) : setR regs r v i = regs i := by
  simp [setR, h]

theorem setR_eq {regs : Nat → V} {r : Nat} {v : V} : setR regs r v r = v := by
  simp [setR]

/-- An expression, then the rest; the register is outside the frame. -/
theorem Post.ex {X : Cx V} {m : M σ V} {q n r : Nat} {e : Ex σ V} {k : σ → V → Out σ V}
    (hc : code[m.ip]? = some (.ex e r)) (hq : Quiet e) (hs : m.stk = X.K) (henv : m.env = X.env)
    (h1 : X.nr ≤ r) (h2 : ∀ i, X.rv = some i → i ≠ r)
    (h : ∀ w v, Post W code X q n { m with w := w, ip := m.ip + 1, regs := setR m.regs r v } (k w v)) :
    Post W code X q n m (andThen (e m.env m.w) k) := by
  cases he : e m.env m.w with
  | ok w v fx =>
    refine Post.pre0 (ex_ok hc hq he).to ?_ (h w v)
    refine ⟨fun f => f, fun _ => rfl, fun i hi _ => setR_ne (by omega), fun _ i hi => ?_⟩
    exact setR_ne (h2 i hi)
  | thr w v =>
    exact Post.throw (ex_thr hc he).to hs rfl rfl rfl henv (fun _ => rfl) (fun _ _ _ => rfl)

/-- A command that changes registers outside the frame only. -/
theorem Pre.regs_only {X : Cx V} {m m1 : M σ V} (h1 : m1.flag = m.flag) (h2 : m1.retv = m.retv)
    (h3 : ∀ i, i < X.nr ∨ X.rv = some i → m1.regs i = m.regs i) : Pre X m m1 none :=
  ⟨fun h => by rw [← h1]; exact h, fun _ => h2, fun i hi _ => h3 i (.inl hi), fun _ r hr => h3 r (.inr hr)⟩

/-- The register of the completion value is set to undefined. -/
theorem loadRv_reach {X : Cx V} {m : M σ V} {p : Nat} {rv : Option Nat} (he : rv = X.rv) (hip : m.ip = p)
    (hc : CodeAt code p (loadRv rv)) :
    ∃ m1 : M σ V, Reach W code (.inl m) (.inl m1) ∧ Pre X m m1 (some W.undef) ∧
      m1.ip = p + (loadRv rv : List (Cmd σ V)).length ∧ m1.w = m.w ∧ m1.env = m.env ∧ m1.stk = m.stk ∧
      m1.flag = m.flag ∧ m1.retv = m.retv ∧ (∀ i, X.rv ≠ some i → m1.regs i = m.regs i) := by
  subst he
  cases hrv : X.rv with
  | none =>
    exact ⟨m, .refl _, ⟨fun h => h, fun _ => rfl, fun _ _ _ => rfl, fun _ r hr => by rw [hrv] at hr; cases hr⟩,
      by simp [loadRv, hip], rfl, rfl, rfl, rfl, rfl, fun _ _ => rfl⟩
  | some r =>
    rw [hrv] at hc
    have := step0 (W := W) (m := m) (c := .loadU r) (by rw [hip]; exact hc.cons.1)
    simp only [exec] at this
    refine ⟨_, this, ⟨fun h => h, fun _ => rfl, fun i _ hi => ?_, fun _ r' hr => ?_⟩,
      by simp [loadRv, hip], rfl, rfl, rfl, rfl, rfl, ?_⟩
    · rw [hrv] at hi
      exact setR_ne (fun e => hi (by rw [e]))
    · rw [hrv] at hr
      cases hr
      simp [setR]
    · intro i hi
      exact setR_ne (fun e => hi (by rw [e]))

/-- The start of an optional scope. -/
theorem pushD_reach {m : M σ V} {p : Nat} {d : Option Nat} (hip : m.ip = p)
    (hc : CodeAt code p (pushD d)) :
    Reach W code (.inl m) (.inl { m with
      ip := p + (pushD d : List (Cmd σ V)).length, env := within d m.env, stk := envs d ++ m.stk }) := by
  cases d with
  | none =>
    have : ({ m with ip := p + (pushD none : List (Cmd σ V)).length, env := within none m.env, stk := envs none ++ m.stk } : M σ V) = m := by
      cases m; subst hip; rfl
    rw [this]
    exact .refl _
  | some i =>
    have := step0 (W := W) (m := m) (c := .pushEnv i) (by rw [hip]; exact hc.cons.1)
    simp only [exec] at this
    rw [hip] at this
    exact this

end Verif.Flow

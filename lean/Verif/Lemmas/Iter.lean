import Verif.Spec.Iter

/-! Helper lemmas for C97. -/

namespace Verif.Iter

open Spec

variable {σ V : Type} (W : World σ V)

/-- The C function shows what the action of the standard gives, whatever is in the register. -/
def Sim {α : Type} (x : Fn σ V α) (a : Act σ V α) : Prop := ∀ m, seen (x m) = some (a m.s)

variable {W}

theorem sim_pass {α : Type} (a : α) : Sim (pass a : Fn σ V α) (done a) := fun _ => rfl
theorem sim_raise {α : Type} (e : V) : Sim (raise e : Fn σ V α) (throw e) := fun _ => rfl

theorem leave_s (m : M σ V) (l : Leave V) : (leave W m l).s = m.s := by cases l <;> rfl

theorem sim_act {α : Type} (x : σ → Res σ V α) : Sim (act W x) (see x) := by
  intro m
  unfold act see
  cases x m.s with
  | ok s l a => simp [seen, leave_s]
  | thr s e => rfl

theorem sim_seq {α β : Type} {x : Fn σ V α} {a : Act σ V α} {f : α → Fn σ V β} {g : α → Act σ V β}
    (h : Sim x a) (k : ∀ v, Sim (f v) (g v)) : Sim (seq x f) (andThen a g) := by
  intro m
  have hm := h m
  unfold seq andThen
  cases hx : x m with
  | ok m' v =>
    rw [hx] at hm
    simp only [seen, Option.some.injEq] at hm
    simp only [← hm]
    exact k v m'
  | fail m' =>
    rw [hx] at hm
    simp only [seen] at hm ⊢
    cases hf : m'.flag with
    | false => rw [hf] at hm; simp at hm
    | true =>
      rw [hf] at hm
      simp only [if_true, Option.some.injEq] at hm
      simp only [← hm, if_true]

theorem sim_ite {α : Type} {b : Bool} {x y : Fn σ V α} {a c : Act σ V α} (h : Sim x a) (k : Sim y c) :
    Sim (if b then x else y) (if b then a else c) := by
  cases b
  · exact k
  · exact h

theorem sim_ite_not {α : Type} {b : Bool} {x y : Fn σ V α} {a c : Act σ V α} (h : Sim x a) (k : Sim y c) :
    Sim (if b then x else y) (if !b then c else a) := by
  cases b
  · exact k
  · exact h

theorem sim_call (f this : V) (args : List V) : Sim (Iter.call W f this args) (Spec.call W f this args) :=
  sim_ite (sim_act _) (sim_raise _)

theorem sim_getMethod (v : V) (n : Name) : Sim (getMethod W v n) (method W v n) := by
  refine sim_seq (sim_act _) fun f => ?_
  cases W.isUndef f
  · cases W.isNull f
    · simp only [Bool.or_false, Bool.false_eq_true, if_false]
      exact sim_ite_not (sim_pass _) (sim_raise _)
    · exact sim_pass _
  · exact sim_pass _

theorem sim_fromMethod (obj f : V) (wr : Bool) :
    Sim (fromMethod W obj (some f) wr) (iteratorFrom W obj f wr) :=
  sim_seq (sim_call _ _ _) fun _ => sim_ite_not (sim_seq (sim_act _) fun _ => sim_pass _) (sim_raise _)

theorem sim_fromNone (hu : W.callable W.undef = false) (obj : V) (wr : Bool) :
    Sim (fromMethod W obj none wr) (throw W.typeErr) := by
  intro m
  unfold fromMethod seq Iter.call
  simp [hu, raise, seen, Spec.throw]

theorem sim_fromOpt (hu : W.callable W.undef = false) (obj : V) (wr : Bool) (f : Option V) :
    Sim (fromMethod W obj f wr)
      (match f with | none => throw W.typeErr | some m => iteratorFrom W obj m wr) := by
  cases f with
  | none => exact sim_fromNone hu obj wr
  | some f => exact sim_fromMethod obj f wr

theorem sim_iterNext (r : Rec V) (arg : Option V) : Sim (iterNext W r arg) (next W r arg.toList) :=
  sim_seq (sim_call _ _ _) fun _ => sim_ite_not (sim_pass _) (sim_raise _)

theorem sim_complete (res : V) : Sim (complete W res) (completed W res) :=
  sim_seq (sim_act _) fun _ => sim_pass _

theorem sim_step (r : Rec V) : Sim (step W r) (stepOf W r) := by
  refine sim_seq (sim_iterNext r none) fun res => sim_seq (sim_complete res) fun d => ?_
  cases d
  · exact sim_pass _
  · exact sim_pass _

theorem sim_closeBody (r : Rec V) : Sim (closeBody W r) (closeNormal W r) := by
  intro m
  have h := sim_getMethod (W := W) r.iter .ret m
  unfold closeBody closeNormal callReturn seq
  unfold andThen
  cases hx : getMethod W r.iter .ret m with
  | fail m' =>
    rw [hx] at h
    simp only [seen] at h ⊢
    cases hf : m'.flag with
    | false => rw [hf] at h; simp at h
    | true =>
      rw [hf] at h
      simp only [if_true, Option.some.injEq] at h
      simp only [← h, if_true]
  | ok m' f =>
    rw [hx] at h
    simp only [seen, Option.some.injEq] at h
    simp only [← h]
    cases f with
    | none => rfl
    | some f =>
      have hc := sim_call (W := W) f r.iter [] m'
      simp only
      cases hy : Iter.call W f r.iter [] m' with
      | fail m'' =>
        rw [hy] at hc
        simp only [seen] at hc ⊢
        cases hf : m''.flag with
        | false => rw [hf] at hc; simp at hc
        | true =>
          rw [hf] at hc
          simp only [if_true, Option.some.injEq] at hc
          simp only [← hc, if_true]
      | ok m'' v =>
        rw [hy] at hc
        simp only [seen, Option.some.injEq] at hc
        simp only [← hc, done, Option.map_some, Option.getD_some]
        exact sim_ite (sim_pass ()) (sim_raise W.typeErr) m''

theorem closeBody_state (r : Rec V) (m : M σ V) (e : V) :
    closeThrow (α := Unit) W r e m.s =
      .thr (match closeBody W r m with | .ok m' _ => m'.s | .fail m' => m'.s) e := by
  have h := sim_closeBody (W := W) r m
  have key : ∀ c : Comp σ V (Option V), callReturn W r m.s = c →
      closeNormal W r m.s = match c with
        | .ok s v => (if (v.map W.isObj).getD true then done () else throw W.typeErr : Act σ V Unit) s
        | .thr s e => .thr s e := by
    intro c hc
    unfold closeNormal andThen
    rw [hc]
    cases c <;> rfl
  unfold closeThrow
  cases hc : callReturn W r m.s with
  | thr s e' =>
    rw [key _ hc] at h
    simp only at h ⊢
    cases hx : closeBody W r m with
    | ok m' a => rw [hx] at h; simp [seen] at h
    | fail m' =>
      rw [hx] at h
      simp only [seen] at h
      cases hf : m'.flag <;> rw [hf] at h <;> simp at h
      simp [h.1]
  | ok s v =>
    rw [key _ hc] at h
    simp only at h ⊢
    cases hx : closeBody W r m with
    | ok m' a =>
      rw [hx] at h
      cases hb : (v.map W.isObj).getD true <;> rw [hb] at h <;> simp [seen, done, Spec.throw] at h
      simp [h]
    | fail m' =>
      rw [hx] at h
      simp only [seen] at h
      cases hf : m'.flag <;> rw [hf] at h <;>
        cases hb : (v.map W.isObj).getD true <;> rw [hb] at h <;> simp [done, Spec.throw] at h
      simp [h.1]

theorem sim_orReject {α : Type} {pc : Cap V} (q : Quiet W pc) {x : Fn σ V α} {a : Act σ V α}
    {f : α → Fn σ V V} {g : α → Act σ V V} (h : Sim x a) (k : ∀ v, Sim (f v) (g v)) :
    Sim (orReject W pc x f) (rejecting W pc a g) := by
  intro m
  have hm := h m
  unfold orReject rejecting
  cases hx : x m with
  | ok m' v =>
    rw [hx] at hm
    simp only [seen, Option.some.injEq] at hm
    simp only [← hm]
    exact k v m'
  | fail m' =>
    rw [hx] at hm
    simp only [seen] at hm ⊢
    cases hf : m'.flag with
    | false => rw [hf] at hm; simp at hm
    | true =>
      rw [hf] at hm
      simp only [if_true, Option.some.injEq] at hm
      simp only [← hm]
      obtain ⟨s', l, y, hq⟩ := q.rejects m'.err m'.s
      simp [Iter.call, Spec.call, q.reject, act, see, hq, andThen, done, leave_s]

theorem sim_tell_reject {pc : Cap V} (q : Quiet W pc) (v : V) :
    Sim (tell W pc.reject v pc) (andThen (Spec.call W pc.reject W.undef [v]) fun _ => done pc.promise) := by
  intro m
  obtain ⟨s', l, y, hq⟩ := q.rejects v m.s
  simp [tell, Iter.call, Spec.call, q.reject, act, see, hq, andThen, done, leave_s, seen]

theorem sim_tell_resolve {pc : Cap V} (q : Quiet W pc) (v : V) :
    Sim (tell W pc.resolve v pc) (andThen (Spec.call W pc.resolve W.undef [v]) fun _ => done pc.promise) := by
  intro m
  obtain ⟨s', l, y, hq⟩ := q.resolves v m.s
  simp [tell, Iter.call, Spec.call, q.resolve, act, see, hq, andThen, done, leave_s, seen]

theorem sim_continuation {pc : Cap V} (q : Quiet W pc) (res : V) :
    Sim (continuation W res pc) (continued W res pc) :=
  sim_orReject q (sim_complete res) fun _ => sim_orReject q (sim_act _) fun _ =>
    sim_orReject q (sim_act _) fun _ => fun _ => rfl

theorem sim_checked {pc : Cap V} (q : Quiet W pc) {x : Fn σ V V} {a : Act σ V V} (h : Sim x a) :
    Sim (orReject W pc x fun res => if W.isObj res then continuation W res pc else tell W pc.reject W.typeErr pc)
      (checked W pc a) :=
  sim_orReject q h fun res => sim_ite_not (sim_continuation q res) (sim_tell_reject q _)

theorem sim_getResolve (c : V) : Sim (getResolve W c) (resolveOf W c) :=
  sim_seq (sim_act _) fun _ => sim_ite_not (sim_pass _) (sim_raise _)

theorem sim_raceOne (c resolve : V) (pc : Cap V) (v : V) :
    Sim (raceOne W c resolve pc v) (entrant W c resolve pc v) :=
  sim_seq (sim_call _ _ _) fun _ => sim_seq (sim_act _) fun _ => sim_call _ _ _

/-- The two ways a simulated function can end. -/
theorem Sim.ends {α : Type} {x : Fn σ V α} {a : Act σ V α} (h : Sim x a) (m : M σ V) :
    (∃ m' v, x m = .ok m' v ∧ a m.s = .ok m'.s v) ∨
    (∃ m', x m = .fail m' ∧ m'.flag = true ∧ a m.s = .thr m'.s m'.err) := by
  have hm := h m
  cases hx : x m with
  | ok m' v =>
    rw [hx] at hm
    simp only [seen, Option.some.injEq] at hm
    exact .inl ⟨m', v, rfl, hm.symm⟩
  | fail m' =>
    rw [hx] at hm
    simp only [seen] at hm
    cases hf : m'.flag with
    | false => rw [hf] at hm; simp at hm
    | true =>
      rw [hf] at hm
      simp only [if_true, Option.some.injEq] at hm
      exact .inr ⟨m', rfl, hf, hm.symm⟩

/-- What is left of the loop once the iterator is closed. -/
def closed (r : Rec V) : Out σ V Unit × Bool → Comp σ V Unit
  | (.ok m _, _) => .ok m.s ()
  | (.fail m, true) => .thr m.s m.err
  | (.fail m, false) => closeThrow W r m.err m.s

theorem raceLoop_eq (r : Rec V) (c resolve : V) (pc : Cap V) : ∀ (n : Nat) (m : M σ V),
    (raceLoop W r c resolve pc n m).map (closed (W := W) r) = raceRounds W r c resolve pc n m.s ∧
    ∀ m' b, raceLoop W r c resolve pc n m = some (.fail m', b) → m'.flag = true
  | 0, m => ⟨rfl, by intro m' b h; simp [raceLoop] at h⟩
  | n + 1, m => by
    rw [raceLoop, raceRounds]
    rcases (sim_step (W := W) r).ends m with ⟨m1, v, h1, h2⟩ | ⟨m1, h1, hf, h2⟩
    · rw [h1, h2]
      cases v with
      | none => exact ⟨rfl, by intro m' b h; simp at h⟩
      | some res =>
        simp only
        rcases (sim_act (W := W) (W.getV res .value)).ends m1 with ⟨m2, v, h3, h4⟩ | ⟨m2, h3, hf, h4⟩
        · have h5 : ∃ l, W.getV res .value m1.s = .ok m2.s l v := by
            unfold see at h4
            cases hg : W.getV res .value m1.s with
            | ok s l a => rw [hg] at h4; simp at h4; exact ⟨l, by rw [h4.1, h4.2]⟩
            | thr s e => rw [hg] at h4; simp at h4
          obtain ⟨l, h5⟩ := h5
          rw [Iter.value, h3, h5]
          simp only
          rcases (sim_raceOne (W := W) c resolve pc v).ends m2 with ⟨m3, y, h6, h7⟩ | ⟨m3, h6, hf, h7⟩
          · rw [h6, h7]
            exact raceLoop_eq r c resolve pc n m3
          · rw [h6, h7]
            refine ⟨rfl, ?_⟩
            intro m' b h
            simp at h
            rw [← h.1]; exact hf
        · have h5 : W.getV res .value m1.s = .thr m2.s m2.err := by
            unfold see at h4
            cases hg : W.getV res .value m1.s with
            | ok s l a => rw [hg] at h4; simp at h4
            | thr s e => rw [hg] at h4; simp at h4; rw [h4.1, h4.2]
          rw [Iter.value, h3, h5]
          refine ⟨rfl, ?_⟩
          intro m' b h
          simp at h
          rw [← h.1]; exact hf
    · rw [h1, h2]
      refine ⟨rfl, ?_⟩
      intro m' b h
      simp at h
      rw [← h.1]; exact hf

theorem reject_now {pc : Cap V} (q : Quiet W pc) (m : M σ V) :
    seen (orReject W pc (fun m => .fail m) (fun (_ : Unit) => pass pc.promise) m) =
      some (andThen (Spec.call W pc.reject W.undef [m.err]) (fun _ => done pc.promise) m.s) := by
  obtain ⟨s', l, y, hq⟩ := q.rejects m.err m.s
  simp [orReject, Iter.call, Spec.call, q.reject, act, see, hq, andThen, done, leave_s, seen]

end Verif.Iter

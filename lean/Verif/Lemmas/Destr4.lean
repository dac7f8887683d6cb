import Verif.Lemmas.Destr3

/-! Helper lemmas: the stack of states in any program; the fuel. -/

namespace Verif.Destr

open Spec

variable {σ : Type} {W : World σ} {fuel : Nat}

/-- Code that leaves the stack of states in one of the given shapes. -/
def Bal (W : World σ) (fuel : Nat) (x : Res σ) (rest : List Cmd) (P : List St → Prop) : Prop :=
  x = .fuel ∨ (∃ m', x = .err m') ∨ ∃ m' : M σ, x = exec W fuel rest 0 m' ∧ P m'.stack

theorem Bal.bind {x : Res σ} {r1 r2 : List Cmd} {P Q : List St → Prop} (h : Bal W fuel x r1 P)
    (g : ∀ m' : M σ, P m'.stack → Bal W fuel (exec W fuel r1 0 m') r2 Q) : Bal W fuel x r2 Q := by
  rcases h with h | h | ⟨m', h1, h2⟩
  · exact .inl h
  · exact .inr (.inl h)
  · rw [h1]; exact g m' h2

theorem bal_intoReg (m : M σ) (r : Nat) (x : R σ V) (rest : List Cmd) (P : List St → Prop) (h : P m.stack) :
    Bal W fuel (match intoReg m r x with
      | .next m k => exec W fuel rest k m
      | .err m => .err m
      | .bad => .bad
      | .fuel => .fuel) rest P := by
  cases x with
  | ok rt v => exact .inr (.inr ⟨_, rfl, h⟩)
  | err rt => exact .inr (.inl ⟨_, rfl⟩)

theorem bal_ref (t : Tgt) (i : Nat) (m : M σ) (rest : List Cmd) (P : List St → Prop) (h : P m.stack) :
    Bal W fuel (exec W fuel (refCode t i ++ rest) 0 m) rest P := by
  cases t with
  | leaf k =>
    simp only [refCode, List.cons_append, List.nil_append, exec_cons, step]
    cases lift m.rt (W.ref k m.rt.w) with
    | ok rt x => exact .inr (.inr ⟨_, rfl, h⟩)
    | err rt => exact .inr (.inl ⟨_, rfl⟩)
  | arr l => exact .inr (.inr ⟨m, rfl, h⟩)
  | obj l => exact .inr (.inr ⟨m, rfl, h⟩)

theorem bal_init (o : Option Nat) (r c : Nat) (m : M σ) (rest : List Cmd) (P : List St → Prop)
    (h : P m.stack) : Bal W fuel (exec W fuel (initCode o r c ++ rest) 0 m) rest P := by
  cases o with
  | none => exact .inr (.inr ⟨m, rfl, h⟩)
  | some e =>
    simp only [initCode, List.cons_append, List.nil_append, exec_cons, step]
    by_cases hv : W.toBool ((m.setReg c (.bool (m.regs r = .undef))).regs c) = true
    · simp only [hv, if_true, exec_cons, step]
      refine Bal.bind (bal_intoReg _ _ _ _ P h) ?_
      intro m' h'
      rw [exec_cons]
      exact .inr (.inr ⟨m', rfl, h'⟩)
    · simp only [hv, if_false]
      exact .inr (.inr ⟨_, rfl, h⟩)

theorem bal_load (k r : Nat) (m : M σ) (rest : List Cmd) (P : List St → Prop) (h : P m.stack) :
    Bal W fuel (exec W fuel (.load k r :: rest) 0 m) rest P := by
  rw [exec_cons]
  exact .inr (.inr ⟨_, rfl, h⟩)

theorem bal_eval (e r : Nat) (m : M σ) (rest : List Cmd) (P : List St → Prop) (h : P m.stack) :
    Bal W fuel (exec W fuel (.eval e r :: rest) 0 m) rest P := by
  rw [exec_cons]
  exact bal_intoReg _ _ _ _ P h

theorem bal_toProp (a r : Nat) (m : M σ) (rest : List Cmd) (P : List St → Prop) (h : P m.stack) :
    Bal W fuel (exec W fuel (.toProp a r :: rest) 0 m) rest P := by
  rw [exec_cons]
  exact bal_intoReg _ _ _ _ P h

/-- On top is the state of an object. -/
def OnObj (st : List St) (l : List St) : Prop := ∃ v names, l = .obj v names :: st

/-- On top is the state of an array. -/
def OnArr (st : List St) (l : List St) : Prop := ∃ it nx d, l = .arr it nx d :: st

theorem bal_getProp (k r : Nat) (m : M σ) (rest : List Cmd) (st : List St) (h : OnObj st m.stack) :
    Bal W fuel (exec W fuel (.getProp k r :: rest) 0 m) rest (OnObj st) := by
  obtain ⟨v, names, hs⟩ := h
  rw [exec_cons]
  simp only [step, hs]
  exact bal_intoReg _ _ _ _ _ ⟨_, _, rfl⟩

theorem bal_getPropE (k r : Nat) (m : M σ) (rest : List Cmd) (st : List St) (h : OnObj st m.stack) :
    Bal W fuel (exec W fuel (.getPropE k r :: rest) 0 m) rest (OnObj st) := by
  obtain ⟨v, names, hs⟩ := h
  rw [exec_cons]
  simp only [step, hs]
  exact bal_intoReg _ _ _ _ _ ⟨_, _, rfl⟩

theorem bal_name (md : Mode) (nm : Name) (t : Tgt) (n : Nat) (m : M σ) (rest : List Cmd) (st : List St)
    (h : OnObj st m.stack) :
    Bal W fuel (exec W fuel (nameCode md nm t n ++ rest) 0 m) rest (OnObj st) := by
  cases md with
  | assi =>
    cases nm with
    | str k =>
      simp only [nameCode, List.append_assoc, List.cons_append, List.nil_append]
      exact (bal_ref _ _ _ _ _ h).bind fun m' h => bal_getProp _ _ _ _ _ h
    | expr e =>
      simp only [nameCode, List.append_assoc, List.cons_append, List.nil_append]
      exact (bal_eval _ _ _ _ _ h).bind fun m' h => (bal_toProp _ _ _ _ _ h).bind fun m' h =>
        (bal_ref _ _ _ _ _ h).bind fun m' h => bal_getPropE _ _ _ _ _ h
  | bind lex =>
    cases nm with
    | str k =>
      simp only [nameCode, List.append_assoc, List.cons_append, List.nil_append]
      exact (bal_load _ _ _ _ _ h).bind fun m' h => (bal_ref _ _ _ _ _ h).bind fun m' h =>
        (bal_toProp _ _ _ _ _ h).bind fun m' h => bal_getPropE _ _ _ _ _ h
    | expr e =>
      simp only [nameCode, List.append_assoc, List.cons_append, List.nil_append]
      exact (bal_eval _ _ _ _ _ h).bind fun m' h => (bal_ref _ _ _ _ _ h).bind fun m' h =>
        (bal_toProp _ _ _ _ _ h).bind fun m' h => bal_getPropE _ _ _ _ _ h

mutual
theorem bal_T (md : Mode) : ∀ (t : Tgt) (r i n : Nat) (m : M σ) (rest : List Cmd) (P : List St → Prop),
    P m.stack → Bal W fuel (exec W fuel ((emitT md t r i n).1 ++ rest) 0 m) rest P
  | .leaf k, r, i, n, m, rest, P, h => by
    simp only [emitT, List.cons_append, List.nil_append, exec_cons, step]
    cases lift m.rt (W.put md.putK (m.refs i) (m.regs r) m.rt.w) with
    | ok rt x => exact .inr (.inr ⟨_, rfl, h⟩)
    | err rt => exact .inr (.inl ⟨_, rfl⟩)
  | .arr l, r, i, n, m, rest, P, h => by
    simp only [emitT, List.cons_append, List.append_assoc, exec_cons, step]
    cases getIterator W (m.regs r) m.rt with
    | err rt => exact .inr (.inl ⟨_, rfl⟩)
    | ok rt x =>
      refine (bal_E md l n _ _ m.stack ⟨_, _, _, rfl⟩).bind ?_
      intro m' h'
      obtain ⟨it, nx, d, hs⟩ := h'
      simp only [List.cons_append, List.nil_append, exec_cons, step, hs]
      cases deinit W (.arr it nx d) m'.rt with
      | ok rt x => exact .inr (.inr ⟨_, rfl, h⟩)
      | err rt => exact .inr (.inl ⟨_, rfl⟩)
  | .obj l, r, i, n, m, rest, P, h => by
    simp only [emitT, List.cons_append, List.append_assoc, exec_cons, step]
    have main : ∀ v, Bal W fuel (exec W fuel ((emitP md l n).1 ++ ([.pop] ++ rest)) 0
        { m with stack := .obj v [] :: m.stack }) rest P := by
      intro v
      refine (bal_P md l n _ _ m.stack ⟨_, _, rfl⟩).bind ?_
      intro m' h'
      obtain ⟨v, names, hs⟩ := h'
      simp only [List.cons_append, List.nil_append, exec_cons, step, hs, deinit]
      exact .inr (.inr ⟨_, rfl, h⟩)
    cases m.regs r with
    | undef => exact .inr (.inl ⟨_, rfl⟩)
    | null => exact .inr (.inl ⟨_, rfl⟩)
    | _ => exact main _
theorem bal_E (md : Mode) : ∀ (l : Elems) (n : Nat) (m : M σ) (rest : List Cmd) (st : List St),
    OnArr st m.stack → Bal W fuel (exec W fuel ((emitE md l n).1 ++ rest) 0 m) rest (OnArr st)
  | .nil, _, m, _, _, h => .inr (.inr ⟨m, rfl, h⟩)
  | .hole l, n, m, rest, st, h => by
    obtain ⟨it, nx, d, hs⟩ := h
    simp only [emitE, List.cons_append, exec_cons, step, hs]
    cases (itemStep W false it nx d m.rt).1 with
    | err rt => exact .inr (.inl ⟨_, rfl⟩)
    | ok rt x => exact bal_E md l n _ rest st ⟨_, _, _, rfl⟩
  | .elem t init l, n, m, rest, st, h => by
    simp only [emitE, List.cons_append, List.append_assoc]
    refine (bal_ref _ _ _ _ _ h).bind fun m' h => ?_
    obtain ⟨it, nx, d, hs⟩ := h
    simp only [exec_cons, step, hs]
    refine Bal.bind (bal_intoReg _ _ _ _ (OnArr st) ⟨_, _, _, rfl⟩) fun m' h => ?_
    refine (bal_init _ _ _ _ _ _ h).bind fun m' h => ?_
    refine (bal_T md t _ _ _ _ _ _ h).bind fun m' h => ?_
    exact bal_E md l _ _ _ _ h
  | .rest t, n, m, rest, st, h => by
    simp only [emitE, List.cons_append, List.append_assoc]
    refine (bal_ref _ _ _ _ _ h).bind fun m' h => ?_
    obtain ⟨it, nx, d, hs⟩ := h
    simp only [exec_cons, step, hs]
    cases itemRest W fuel it nx d m'.rt with
    | none => exact .inl rfl
    | some x =>
      refine Bal.bind (bal_intoReg _ _ _ _ (OnArr st) ⟨_, _, _, rfl⟩) fun m' h => ?_
      exact bal_T md t _ _ _ _ _ _ h
theorem bal_P (md : Mode) : ∀ (l : Props) (n : Nat) (m : M σ) (rest : List Cmd) (st : List St),
    OnObj st m.stack → Bal W fuel (exec W fuel ((emitP md l n).1 ++ rest) 0 m) rest (OnObj st)
  | .nil, _, m, _, _, h => .inr (.inr ⟨m, rfl, h⟩)
  | .prop nm t init l, n, m, rest, st, h => by
    simp only [emitP, List.append_assoc]
    exact (bal_name _ _ _ _ _ _ _ h).bind fun m' h => (bal_init _ _ _ _ _ _ h).bind fun m' h =>
      (bal_T md t _ _ _ _ _ _ h).bind fun m' h => bal_P md l _ _ _ _ h
  | .rest t, n, m, rest, st, h => by
    simp only [emitP, List.cons_append, List.append_assoc]
    refine (bal_ref _ _ _ _ _ h).bind fun m' h => ?_
    have h' := h
    obtain ⟨v, names, hs⟩ := h
    simp only [exec_cons, step, hs]
    exact Bal.bind (bal_intoReg _ _ _ _ (OnObj st) h') fun m' h => bal_T md t _ _ _ _ _ _ h
end

/-! ## Fuel -/

theorem of_more {A : Type} (o : Out σ A) : of o ≠ .more := by cases o <;> nofun

theorem C.andThen_more {A B : Type} {c : C σ A} {f : σ → A → C σ B} (h : c ≠ .more)
    (g : ∀ s a, f s a ≠ .more) : c.andThen f ≠ .more := by
  cases c with
  | ok s a => exact g s a
  | thr s e => nofun
  | more => exact absurd rfl h

theorem D.andThen_more {A B : Type} {c : D σ A} {f : σ → Bool → A → D σ B} (h : c ≠ .more)
    (g : ∀ s d a, f s d a ≠ .more) : c.andThen f ≠ .more := by
  cases c with
  | ok s d a => exact g s d a
  | thr s d e => nofun
  | more => exact absurd rfl h

theorem plain_more {A : Type} {d : Bool} {c : C σ A} (h : c ≠ .more) : Spec.plain d c ≠ .more := by
  cases c with
  | ok s a => nofun
  | thr s e => nofun
  | more => exact absurd rfl h

theorem call_more (f this : V) (s : σ) : Spec.call W f this s ≠ .more := by
  unfold Spec.call
  split
  · split
    · exact of_more _
    · nofun
  · nofun

theorem method_more (v k : V) (s : σ) : Spec.method W v k s ≠ .more := by
  refine C.andThen_more (of_more _) ?_
  intro s a
  split
  · nofun
  · nofun
  · split <;> nofun
  · nofun

theorem need_more (v : V) (s : σ) : Spec.needObject W v s ≠ .more := by
  unfold Spec.needObject
  split <;> nofun

theorem iterator_more (v : V) (s : σ) : Spec.iterator W v s ≠ .more :=
  C.andThen_more (method_more _ _ _) fun _ _ => C.andThen_more (call_more _ _ _) fun _ _ =>
    C.andThen_more (need_more _ _) fun _ _ => C.andThen_more (of_more _) fun _ _ => nofun

theorem advance_more (it nx : V) (s : σ) : Spec.advance W it nx s ≠ .more :=
  C.andThen_more (call_more _ _ _) fun _ _ => C.andThen_more (need_more _ _) fun _ _ =>
    C.andThen_more (of_more _) fun _ _ => nofun

theorem value_more (it nx : V) (d : Bool) (s : σ) : Spec.value W it nx d s ≠ .more := by
  unfold Spec.value
  split
  · nofun
  · have := advance_more (W := W) it nx s
    split
    · nofun
    · next h => exact absurd h this
    · nofun
    · split <;> nofun

theorem skip_more (it nx : V) (d : Bool) (s : σ) : Spec.skip W it nx d s ≠ .more := by
  unfold Spec.skip
  split
  · nofun
  · have := advance_more (W := W) it nx s
    split
    · nofun
    · next h => exact absurd h this
    · nofun
    · nofun

theorem close_more (it : V) {c : C σ Unit} (h : c ≠ .more) : Spec.close W it c ≠ .more := by
  cases c with
  | more => exact absurd rfl h
  | ok s a =>
    refine C.andThen_more (method_more _ _ _) ?_
    intro s f
    split
    · nofun
    · exact C.andThen_more (call_more _ _ _) fun _ _ => need_more _ _
  | thr s e =>
    have key : ∀ x : C σ Unit, x ≠ .more →
        (match x with
        | .ok s _ => C.thr s e
        | .thr s _ => C.thr s e
        | .more => C.more) ≠ (.more : C σ Unit) := by
      intro x hx
      cases x with
      | ok s a => nofun
      | thr s e => nofun
      | more => exact absurd rfl hx
    refine key _ (C.andThen_more (method_more _ _ _) ?_)
    intro s f
    split
    · nofun
    · exact C.andThen_more (call_more _ _ _) fun _ _ => nofun

theorem copy_more (o t : V) (ex : List V) : ∀ (ks : List V) (s : σ), Spec.copy W o t ex ks s ≠ .more
  | [], _ => nofun
  | k :: ks, s => by
    unfold Spec.copy
    split
    · exact copy_more o t ex ks s
    · refine C.andThen_more (of_more _) ?_
      intro s p
      split
      · exact C.andThen_more (of_more _) fun _ _ => copy_more o t ex ks _
      · exact copy_more o t ex ks s

theorem target_more (t : Tgt) (s : σ) : Spec.target W t s ≠ .more := by
  unfold Spec.target
  split
  · exact of_more _
  · nofun

theorem default_more (i : Option Nat) (v : V) (s : σ) : Spec.default W i v s ≠ .more := by
  unfold Spec.default
  split
  · exact of_more _
  · nofun

theorem name_more (n : Name) (s : σ) : Spec.name W n s ≠ .more := by
  unfold Spec.name
  split
  · nofun
  · refine C.andThen_more (of_more _) ?_
    intro s v
    unfold Spec.key
    split
    · nofun
    · exact of_more _

mutual
theorem assign_more (md : Mode) : ∀ (t : Tgt) (i : Nat) (v : V) (s : σ), restT t = false →
    assign W fuel md t i v s ≠ .more
  | .leaf _, _, _, _, _ => of_more _
  | .arr l, _, v, s, h => by
    unfold assign
    refine C.andThen_more (iterator_more _ _) ?_
    intro s x
    have := elements_more md l x.1 x.2 false s h
    split
    · next he => exact absurd he this
    · nofun
    · nofun
    · exact close_more _ nofun
    · exact close_more _ nofun
  | .obj l, _, v, s, h => by
    unfold assign
    split
    · nofun
    · nofun
    · exact properties_more md l _ _ _ h
theorem elements_more (md : Mode) : ∀ (l : Elems) (it nx : V) (d : Bool) (s : σ), restE l = false →
    elements W fuel md l it nx d s ≠ .more
  | .nil, _, _, _, _, _ => nofun
  | .hole l, it, nx, d, s, h => by
    unfold elements
    exact D.andThen_more (skip_more _ _ _ _) fun _ _ _ => elements_more md l _ _ _ _ h
  | .elem t init l, it, nx, d, s, h => by
    simp only [restE, Bool.or_eq_false_iff] at h
    unfold elements
    exact D.andThen_more (plain_more (target_more _ _)) fun _ _ _ =>
      D.andThen_more (value_more _ _ _ _) fun _ _ _ =>
      D.andThen_more (plain_more (default_more _ _ _)) fun _ _ _ =>
      D.andThen_more (plain_more (assign_more md t _ _ _ h.1)) fun _ _ _ =>
      elements_more md l _ _ _ _ h.2
  | .rest t, _, _, _, _, h => nomatch h
theorem properties_more (md : Mode) : ∀ (l : Props) (v : V) (seen : List V) (s : σ), restP l = false →
    properties W fuel md l v seen s ≠ .more
  | .nil, _, _, _, _ => nofun
  | .prop nm t init l, v, seen, s, h => by
    simp only [restP, Bool.or_eq_false_iff] at h
    unfold properties
    exact C.andThen_more (name_more _ _) fun _ _ => C.andThen_more (target_more _ _) fun _ _ =>
      C.andThen_more (of_more _) fun _ _ => C.andThen_more (default_more _ _ _) fun _ _ =>
      C.andThen_more (assign_more md t _ _ _ h.1) fun _ _ => properties_more md l _ _ _ h.2
  | .rest t, v, seen, s, h => by
    unfold properties
    refine C.andThen_more (target_more _ _) fun _ _ => C.andThen_more ?_ fun _ _ =>
      assign_more md t _ _ _ h
    exact C.andThen_more (of_more _) fun _ _ => C.andThen_more (copy_more _ _ _ _ _) fun _ _ => nofun
end

end Verif.Destr

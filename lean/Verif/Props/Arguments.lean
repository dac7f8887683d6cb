import Verif.Lemmas.Arguments

/-!
C79: the elements of the `arguments` object of a sloppy function with simple parameters are the
parameters, until they are deleted, made read-only or made accessors.
-/
namespace Verif.Args
open Obj (Val P Desc Fields)

/-- C79: whatever a program does with the object and the parameters, everything it gets to see is as
if the elements were the parameters themselves (`Spec`).  `bindings` is the table of the bindings of
the parameters: it has every name. -/
theorem C79 (callable : Val → Bool) (formals bindings : List Nat)
    (hb : ∀ q, q ∈ formals → q ∈ bindings) (args : List Val) (ops : List Op) :
    (run callable (new formals bindings args) ops).2 = (Spec.run callable (Spec.new formals args) ops).2 :=
  (run_rel callable ops (new_rel formals bindings hb args)).2

/-! ## Consequences, for the states that can be reached -/

/-- A state of the model after some operations. -/
def Reached (callable : Val → Bool) (s : St) : Prop :=
  ∃ formals bindings args ops, (∀ q, q ∈ formals → q ∈ bindings) ∧
    s = (run callable (new formals bindings args) ops).1

/-- C79: as long as element `i` is connected with the parameter `q`, it is an own writable data
property whose value is that of `q`; assigning to the one assigns to the other. -/
theorem C79_connected {callable : Val → Bool} {s : St} (h : Reached callable s) {i q : Nat}
    (hm : mapped s i = some q) :
    get s i = .value (s.env q) ∧
    (∃ e c, (getOwn s i).map Obj.fromDesc =
      some { value := some (s.env q), writable := some true, enumerable := some e, configurable := some c }) ∧
    (∀ v, (step callable s (.set i v)).2 = .bool true ∧ (step callable s (.set i v)).1.env q = v ∧
      ∀ q', q' ≠ q → (step callable s (.set i v)).1.env q' = s.env q') ∧
    (∀ v, get (step callable s (.assign q v)).1 i = .value v) := by
  obtain ⟨a, hr⟩ : ∃ a, Rel s a := by
    obtain ⟨formals, bindings, args, ops, hb, rfl⟩ := h
    exact ⟨_, (run_rel callable ops (new_rel formals bindings hb args)).1⟩
  rcases getOwn_rel hr i with ⟨_, _, _, h4⟩ | ⟨p, p', h1, h2, h3, h4, h5 | ⟨n, x, en, c, h5, rfl, rfl, h8⟩⟩
  · rw [hm] at h4; cases h4
  · rw [hm] at h5; cases h5.1
  rw [hm] at h5
  cases h5
  refine ⟨by unfold get; rw [hm], ⟨en, c, by rw [h2]; rfl⟩, fun v => ?_, fun v => ?_⟩
  · have hs := step_rel callable hr (.set i v)
    have hspec : Spec.step callable a (.set i v) =
        ({ a with elems := Spec.upd a.elems i (.shared q en c), env := Spec.upd a.env q v }, .bool true) := by
      unfold Spec.step
      simp only
      rw [h3]
      simp only [Obj.spOf, Obj.Spec.assign]
      rw [if_pos trivial]
      simp only
      unfold Spec.define
      rw [h3]
      have hal : Obj.Spec.allowed { value := some v } (.data (s.env q) true en c) = true := by
        cases c <;> rfl
      simp only [Obj.spOf, hal, if_true]
      unfold Spec.store
      rw [h8]
      rfl
    rw [hspec] at hs
    refine ⟨hs.2, ?_, fun q' hq => ?_⟩
    · rw [hs.1.env]; show Spec.upd a.env q v q = v; unfold Spec.upd; rw [if_pos rfl]
    · rw [hs.1.env]; show Spec.upd a.env q v q' = s.env q'; unfold Spec.upd; rw [if_neg hq, hr.env]
  · have : mapped (step callable s (.assign q v)).1 i = some q := hm
    unfold get
    rw [this]
    show Out.value (upd s.env q v q) = _
    unfold upd
    rw [if_pos rfl]

/-- C79: a connection that has ended does not come back. -/
theorem C79_ended (callable : Val → Bool) (s : St) (i : Nat) (h : mapped s i = none) (ops : List Op) :
    mapped (run callable s ops).1 i = none := by
  induction ops generalizing s with
  | nil => exact h
  | cons op ops ih =>
    apply ih
    rcases step_mapped callable s op i with h' | h'
    · rw [h', h]
    · exact h'

/-- C79: no parameter is connected with two elements. -/
theorem C79_one {callable : Val → Bool} {s : St} (h : Reached callable s) {i j q : Nat}
    (hi : mapped s i = some q) (hj : mapped s j = some q) : i = j := by
  obtain ⟨formals, bindings, args, ops, hb, rfl⟩ := h
  have hback : ∀ (ops : List Op) (s : St) (i q : Nat), mapped (run callable s ops).1 i = some q →
      mapped s i = some q := by
    intro ops
    induction ops with
    | nil => intro s i q h; exact h
    | cons op ops ih =>
      intro s i q h
      have := ih _ _ _ h
      rcases step_mapped callable s op i with h' | h'
      · rw [← h']; exact this
      · rw [h'] at this; cases this
  have h0 : ∀ i, mapped (new formals bindings args) i = some q → paramIndex formals q = some i := by
    intro i hi
    have hr := (new_rel formals bindings hb args).at_ i
    rw [hi] at hr
    obtain ⟨v, en, c, _, he⟩ := hr
    unfold Spec.new at he
    simp only at he
    split at he
    · cases he
    · split at he
      · rename_i q' hf
        split at he
        · cases he
        · cases he
          exact (paramIndex_some formals q i).2 ⟨hf, by assumption⟩
      · cases he
  have := h0 i (hback _ _ _ _ hi)
  rw [h0 j (hback _ _ _ _ hj)] at this
  exact (Option.some.inj this).symm

/-! ## Examples: `function f(a, b, a)` called with four arguments. -/

def exOps : List Op :=
  [.get 0, .set 2 (.num 9), .read 1, .assign 2 (.num 8), .get 1, .define 1 { writable := some false },
   .assign 2 (.num 7), .get 1, .delete 2, .get 2, .set 2 (.num 5), .read 1]

example : (run (fun _ => false) (new [1, 2, 1] [1, 2] [.num 10, .num 11, .num 12, .num 13]) exOps).2 =
    [.value (.num 10), .bool true, .value (.num 9), .unit, .value (.num 8), .bool true, .unit,
     .value (.num 8), .bool true, .value .undef, .bool true, .value (.num 9)] := by
  decide +kernel

example : mapped (new [1, 2, 1] [1, 2] [.num 10, .num 11, .num 12, .num 13]) 2 = some 1 ∧
    mapped (new [1, 2, 1] [1, 2] [.num 10, .num 11, .num 12, .num 13]) 0 = none := by
  decide +kernel

end Verif.Args

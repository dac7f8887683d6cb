import Verif.Spec.Private

/-! Helper lemmas about the standard's private elements, for C80. -/
namespace Verif.Priv.Spec
open Obj (Val)

/-- The element an operation would add: environment, object, identifier. -/
def adds : Op → Option (Nat × Nat × Nat)
  | .addField e o i _ => some (e, o, i)
  | .addMethod e o i _ => some (e, o, i)
  | .addGetter e o i _ => some (e, o, i)
  | .addSetter e o i _ => some (e, o, i)
  | _ => none

theorem withName_envs (s : St) (env i : Nat) (f : Name → St × Out) (hf : ∀ n, (f n).1.envs = s.envs) :
    (withName s env i f).1.envs = s.envs := by
  unfold withName
  split
  · rfl
  · exact hf _

theorem step_envs (s : St) (op : Op) : s.envs <+: (step s op).1.envs := by
  have hn : ∀ (s' : St), s'.envs = s.envs → s.envs <+: s'.envs := fun s' h => by rw [h]; exact List.prefix_refl _
  cases op <;> unfold step
  case newEnv outer ids => exact List.prefix_append _ _
  case putProp => simp only; apply hn; split <;> rfl
  case getProp => exact hn _ rfl
  case deleteProp => exact hn _ rfl
  case ownKeys => exact hn _ rfl
  all_goals
    apply hn
    apply withName_envs
    intro n
    try rfl
    try (split <;> rfl)

theorem resolve_prefix {l l' : List (List (Nat × List Nat))} (h : l <+: l') {e i : Nat} {n : Name}
    (hr : resolve i (l.getD e []) = some n) : resolve i (l'.getD e []) = some n := by
  obtain ⟨t, rfl⟩ := h
  by_cases he : e < l.length
  · rw [← hr]
    simp [List.getD_eq_getElem?_getD, List.getElem?_append_left he]
  · rw [List.getD_eq_getElem?_getD, List.getElem?_eq_none (by omega)] at hr
    simp [resolve] at hr

/-- A new element comes from an operation that adds it. -/
theorem step_elems (s : St) (op : Op) (o : Nat) (n : Name) (h : (step s op).1.elems o n ≠ none)
    (h0 : s.elems o n = none) : ∃ e i, adds op = some (e, o, i) ∧ resolve i (s.envs.getD e []) = some n := by
  have key : ∀ (env o' i : Nat) (f : Name → St × Out),
      (∀ m, (f m).1.elems o n ≠ none → o = o' ∧ n = m) →
      (withName s env i f).1.elems o n ≠ none →
      o = o' ∧ resolve i (s.envs.getD env []) = some n := by
    intro env o' i f hf hne
    unfold withName at hne
    split at hne
    · exact absurd h0 hne
    · rename_i m hm
      obtain ⟨h1, h2⟩ := hf m hne
      exact ⟨h1, by rw [hm, h2]⟩
  have hset : ∀ (o' : Nat) (m : Name) (x : Elem), (setElem s o' m x).elems o n ≠ none → o = o' ∧ n = m := by
    intro o' m x hne
    unfold setElem at hne
    simp only at hne
    split at hne
    · assumption
    · exact absurd h0 hne
  have hno : ∀ (o' : Nat) (m : Name), s.elems o n ≠ none → o = o' ∧ n = m := fun _ _ hne => absurd h0 hne
  cases op with
  | newEnv outer ids => exact absurd h0 h
  | get env o' i =>
    have : ∀ m, ((fun m => match s.elems o' m with
      | none => (s, Out.typeError)
      | some (.field v) => (s, .value v)
      | some (.method f) => (s, .value f)
      | some (.accessor (some g) _) => (s, .call g)
      | some (.accessor none _) => (s, .typeError)) m).1.elems o n = none := by
      intro m; simp only; split <;> exact h0
    unfold step withName at h
    simp only at h
    split at h
    · exact absurd h0 h
    · exact absurd (this _) h
  | set env o' i v =>
    unfold step withName at h
    simp only at h
    split at h
    · exact absurd h0 h
    · rename_i m _
      split at h
      · exact absurd h0 h
      · rename_i w hw
        obtain ⟨rfl, rfl⟩ := hset _ _ _ h
        rw [h0] at hw; cases hw
      · exact absurd h0 h
      · exact absurd h0 h
      · exact absurd h0 h
  | has env o' i =>
    unfold step withName at h
    simp only at h
    split at h <;> exact absurd h0 h
  | addField env o' i v =>
    have := key env o' i _ (fun m hne => ?_) h
    · obtain ⟨rfl, h2⟩ := this
      exact ⟨env, i, rfl, h2⟩
    · split at hne
      · exact hno _ _ hne
      · exact hset _ _ _ hne
  | addMethod env o' i v =>
    have := key env o' i _ (fun m hne => ?_) h
    · obtain ⟨rfl, h2⟩ := this
      exact ⟨env, i, rfl, h2⟩
    · split at hne
      · exact hno _ _ hne
      · exact hset _ _ _ hne
  | addGetter env o' i v =>
    have := key env o' i _ (fun m hne => ?_) h
    · obtain ⟨rfl, h2⟩ := this
      exact ⟨env, i, rfl, h2⟩
    · split at hne
      · exact hset _ _ _ hne
      · exact hset _ _ _ hne
      · exact hno _ _ hne
  | addSetter env o' i v =>
    have := key env o' i _ (fun m hne => ?_) h
    · obtain ⟨rfl, h2⟩ := this
      exact ⟨env, i, rfl, h2⟩
    · split at hne
      · exact hset _ _ _ hne
      · exact hset _ _ _ hne
      · exact hno _ _ hne
  | putProp o' sym k v =>
    unfold step at h
    simp only at h
    split at h <;> exact absurd h0 h
  | getProp o' sym k => exact absurd h0 h
  | deleteProp o' sym k => exact absurd h0 h
  | ownKeys o' => exact absurd h0 h

theorem run_envs (ops : List Op) : ∀ s, s.envs <+: (run s ops).1.envs := by
  induction ops with
  | nil => intro s; exact List.prefix_refl _
  | cons op ops ih => intro s; exact List.IsPrefix.trans (step_envs s op) (ih _)

theorem run_elems (ops : List Op) : ∀ s o n, (run s ops).1.elems o n ≠ none → s.elems o n = none →
    ∃ op e i, op ∈ ops ∧ adds op = some (e, o, i) ∧ resolve i ((run s ops).1.envs.getD e []) = some n := by
  induction ops with
  | nil => intro s o n h h0; exact absurd h0 h
  | cons op ops ih =>
    intro s o n h h0
    cases h1 : (step s op).1.elems o n with
    | none =>
      obtain ⟨op', e, i, hm, ha, hr⟩ := ih _ o n h h1
      exact ⟨op', e, i, List.mem_cons_of_mem _ hm, ha, hr⟩
    | some x =>
      obtain ⟨e, i, ha, hr⟩ := step_elems s op o n (by rw [h1]; simp) h0
      refine ⟨op, e, i, List.mem_cons_self, ha, ?_⟩
      exact resolve_prefix (List.IsPrefix.trans (step_envs s op) (run_envs ops _)) hr

/-! ## The ordinary operations -/

def ordinary : Op → Bool
  | .putProp .. => true
  | .getProp .. => true
  | .deleteProp .. => true
  | .ownKeys .. => true
  | _ => false

theorem withName_props (s : St) (env i : Nat) (f : Name → St × Out) (hf : ∀ n, (f n).1.props = s.props) :
    (withName s env i f).1.props = s.props := by
  unfold withName
  split
  · rfl
  · exact hf _

theorem step_private (s : St) (op : Op) (h : ordinary op = false) : (step s op).1.props = s.props := by
  cases op <;> first | (cases h; done) | skip
  all_goals unfold step
  case newEnv => rfl
  all_goals
    apply withName_props
    intro n
    try rfl
    try (split <;> rfl)

theorem step_ordinary (s s' : St) (op : Op) (h : ordinary op = true) (hp : s.props = s'.props) :
    (step s op).1.props = (step s' op).1.props ∧ (step s op).2 = (step s' op).2 := by
  cases op <;> first | (cases h; done) | skip
  · unfold step setProps
    simp only
    rw [hp]
    split <;> exact ⟨rfl, rfl⟩
  · unfold step; simp only; rw [hp]; exact ⟨rfl, rfl⟩
  · unfold step setProps; simp only; rw [hp]; exact ⟨rfl, trivial⟩
  · unfold step; simp only; rw [hp]; exact ⟨rfl, rfl⟩

theorem run_cons (s : St) (op : Op) (ops : List Op) :
    (run s (op :: ops)).2 = (step s op).2 :: (run (step s op).1 ops).2 := rfl

/-- The outputs of the ordinary operations. -/
def seen (ops : List Op) (outs : List Out) : List Out :=
  ((ops.zip outs).filter fun x => ordinary x.1).map (·.2)

theorem run_seen (ops : List Op) : ∀ s s' : St, s.props = s'.props →
    seen ops (run s ops).2 = (run s' (ops.filter ordinary)).2 := by
  induction ops with
  | nil => intro s s' _; rfl
  | cons op ops ih =>
    intro s s' hp
    rw [run_cons]
    unfold seen
    rw [List.zip_cons_cons]
    cases ho : ordinary op with
    | false =>
      rw [List.filter_cons_of_neg (by simp [ho]), List.filter_cons_of_neg (by simp [ho])]
      exact ih (step s op).1 s' (by rw [step_private s op ho, hp])
    | true =>
      rw [List.filter_cons_of_pos (by simpa using ho), List.filter_cons_of_pos (by simpa using ho)]
      obtain ⟨h1, h2⟩ := step_ordinary s s' op ho hp
      rw [List.map_cons, run_cons, ← h2]
      have := ih _ _ h1
      unfold seen at this
      rw [this]

end Verif.Priv.Spec

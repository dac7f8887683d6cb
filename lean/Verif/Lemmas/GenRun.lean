import Verif.Lemmas.GenHist
import Verif.Spec.Generator

/-! Prefixes of runs, and what runs of a generator with a given body do. -/

namespace Verif.Gen

/-- The state before the `j`-th operation. -/
theorem trace_at {ops : List Op} {outs : List Out} {s : State} (h : Trace ops outs s) :
    ∀ (j : Nat) op, ops[j]? = some op → ∃ t t' o, Trace (ops.take j) (outs.take j) t ∧
      step t op = .ok (t', o) ∧ outs[j]? = some o ∧
      Trace (ops.take (j + 1)) (outs.take (j + 1)) t' := by
  induction h with
  | nil => intro j op hj; simp at hj
  | snoc ht hs ih =>
    rename_i ops outs s s' op o
    intro j op' hj
    have hl := (trace_hist ht).len
    rcases snoc_some hj with hj | ⟨rfl, rfl⟩
    · obtain ⟨t, t', o', h1, h2, h3, h4⟩ := ih j op' hj
      have hlt := lt_of_some hj
      refine ⟨t, t', o', ?_, h2, snoc_old h3, ?_⟩
      · rw [List.take_append_of_le_length (by omega), List.take_append_of_le_length (by omega)]
        exact h1
      · rw [List.take_append_of_le_length (by omega), List.take_append_of_le_length (by omega)]
        exact h4
    · refine ⟨s, s', o, ?_, hs, ?_, ?_⟩
      · rw [List.take_append_of_le_length (by omega), List.take_append_of_le_length (by omega),
          List.take_of_length_le (by omega), List.take_of_length_le (by omega)]
        exact ht
      · rw [← hl]; exact snoc_new
      · rw [List.take_of_length_le (by simp), List.take_of_length_le (by simp [hl])]
        exact ht.snoc hs

theorem take_some {α : Type} {l : List α} {i j : Nat} {a : α} (h : (l.take j)[i]? = some a) :
    l[i]? = some a ∧ i < j := by
  rw [List.getElem?_take] at h
  split at h
  · exact ⟨h, by assumption⟩
  · simp at h

theorem some_take {α : Type} {l : List α} {i j : Nat} {a : α} (h : l[i]? = some a) (hl : i < j) :
    (l.take j)[i]? = some a := by
  rw [List.getElem?_take, if_pos hl]; exact h

/-! ### No assertion fails -/

theorem top_stuck {s : State} {g : Nat} {m : Mode} {e : Fault} (h : top s g m = .error e) :
    e = .stuck := by
  unfold top at h
  split at h
  · simp at h; exact h.symm
  · split at h
    · split at h
      · simp at h
      · simp at h; exact h.symm
    · simp at h; exact h.symm

theorem bindErr {α β : Type} {m : Except Fault α} {f : α → Except Fault β} {e : Fault}
    (h : (m >>= f) = .error e) : m = .error e ∨ ∃ a, m = .ok a ∧ f a = .error e := by
  cases m with
  | error e' => simp [bind, Except.bind] at h; subst h; exact Or.inl rfl
  | ok a => exact Or.inr ⟨a, rfl, h⟩

theorem act_stuck {s : State} {op : Op} {e : Fault} (h : act s op = .error e) : e = .stuck := by
  have hv : ∀ g, (∀ x, validate s g = some x → x.phase ≠ .executing) := by
    intro g x hx
    unfold validate at hx
    split at hx
    · simp at hx
    · split at hx
      · simp at hx
      · simp at hx; subst hx; assumption
  cases op with
  | create => simp [act] at h
  | call k g v =>
    cases k with
    | next =>
      simp only [act, resume] at h
      split at h
      · simp at h
      · rename_i x hx
        have := hv g x hx
        cases hp : x.phase <;> simp_all
    | ret =>
      simp only [act, resumeAbrupt] at h
      split at h
      · simp at h
      · rename_i x hx
        have := hv g x hx
        cases hp : x.phase <;> simp_all
    | thr =>
      simp only [act, resumeAbrupt] at h
      split at h
      · simp at h
      · rename_i x hx
        have := hv g x hx
        cases hp : x.phase <;> simp_all
  | yield g v =>
    rcases bindErr h with h | ⟨a, _, h⟩
    · exact top_stuck h
    · simp at h
  | ret g v =>
    rcases bindErr h with h | ⟨a, _, h⟩
    · exact top_stuck h
    · simp at h
  | throw g v =>
    rcases bindErr h with h | ⟨a, _, h⟩
    · exact top_stuck h
    · simp at h
  | star g =>
    rcases bindErr h with h | ⟨a, _, h⟩
    · exact top_stuck h
    · simp at h
  | result g r =>
    rcases bindErr h with h | ⟨a, _, h⟩
    · exact top_stuck h
    · obtain ⟨f, rest, x⟩ := a
      simp only [starResult] at h
      split at h <;> (try split at h) <;> simp at h
      exact h.symm

theorem run_stuck {ops : List Op} : ∀ {s : State} {e : Fault}, run s ops = .error e → e = .stuck := by
  induction ops with
  | nil => intro s e h; simp [run] at h
  | cons op ops ih =>
    intro s e h
    simp only [run] at h
    rcases bindErr h with h | ⟨⟨s1, o⟩, _, h⟩
    · unfold step at h
      rcases bindErr h with h | ⟨a, _, h⟩
      · exact act_stuck h
      · simp at h
    · rcases bindErr h with h | ⟨a, _, h⟩
      · exact ih h
      · simp at h

/-! ### The request a `yield*` passes on -/

/-- The generator an operation lets go on or calls. -/
def Op.target : Op → Option Nat
  | .call _ g _ => some g
  | .star g => some g
  | _ => none

/-- The contexts waiting for the iterator of a `yield*` know the request passed on last. -/
def Passed (ops : List Op) (outs : List Out) (s : State) : Prop :=
  ∀ f, f ∈ s.stack → f.mode = .delegate → ∃ x, s.gens[f.gen]? = some x ∧
    ∃ (i : Nat) (op : Op), ops[i]? = some op ∧ op.target = some f.gen ∧
      outs[i]? = some (.delegate x.kind x.val) ∧
      ∀ (i' : Nat) op' k v, i < i' → ops[i']? = some op' → op'.target = some f.gen →
        outs[i']? ≠ some (.delegate k v)

theorem trace_passed {ops : List Op} {outs : List Out} {s : State} (h : Trace ops outs s) :
    Passed ops outs s := by
  induction h with
  | nil => intro f hf; simp [init] at hf
  | snoc ht hs ih =>
    rename_i ops outs s s' op o
    have H := trace_hist ht
    obtain ⟨s1, ha, rfl⟩ := step_act hs
    have hd := act_did H.inv ha
    have hl := H.len
    -- a context that was there before
    have old : ∀ f : Frame, f ∈ s.stack → f.mode = .delegate →
        (op.target ≠ some f.gen ∨ ∀ k v, o ≠ .delegate k v) →
        (∀ x, s.gens[f.gen]? = some x → ∃ y, s1.gens[f.gen]? = some y ∧ y.kind = x.kind ∧ y.val = x.val) →
        ∃ x, s1.gens[f.gen]? = some x ∧
          ∃ (i : Nat) (op2 : Op), (ops ++ [op])[i]? = some op2 ∧ op2.target = some f.gen ∧
          (outs ++ [o])[i]? = some (.delegate x.kind x.val) ∧
          ∀ (i' : Nat) op' k v, i < i' → (ops ++ [op])[i']? = some op' → op'.target = some f.gen →
          (outs ++ [o])[i']? ≠ some (.delegate k v) := by
      intro f hf hm hno hkeep
      obtain ⟨x, hx, i, op2, h1, h2, h3, h4⟩ := ih f hf hm
      obtain ⟨y, hy, hyk, hyv⟩ := hkeep x hx
      refine ⟨y, hy, i, op2, snoc_old h1, h2, ?_, ?_⟩
      · rw [hyk, hyv]; exact snoc_old h3
      · intro i' op' k v hlt g1 g2 g3
        rcases snoc_some g1 with g1 | ⟨hi', g1⟩
        · rcases snoc_some g3 with g3 | ⟨hi', _⟩
          · exact h4 i' op' k v hlt g1 g2 g3
          · have := lt_of_some g1; omega
        · rcases snoc_some g3 with g3 | ⟨_, g3⟩
          · have := lt_of_some g3; omega
          · subst g1
            rcases hno with hno | hno
            · exact hno g2
            · exact hno k v g3
    -- the generators of the contexts below are other ones
    have other : ∀ (f f' : Frame) rest, s.stack = f :: rest → f' ∈ rest → f'.gen ≠ f.gen := by
      intro f f' rest hst hf' he
      have := H.inv.nodup
      rw [hst] at this
      simp only [List.map_cons, List.nodup_cons] at this
      exact this.1 (he ▸ List.mem_map_of_mem hf')
    have hset : ∀ (g : Nat) (y : Gen) (g' : Nat) (x : Gen), g' ≠ g → s.gens[g']? = some x →
        ∃ z, (s.gens.set g y)[g']? = some z ∧ z.kind = x.kind ∧ z.val = x.val := by
      intro g y g' x hne hx
      refine ⟨x, ?_, rfl, rfl⟩
      rw [List.getElem?_set, if_neg (fun h => hne h.symm)]; exact hx
    have hself : ∀ {g : Nat} {x y : Gen}, s.gens[g]? = some x → (s.gens.set g y)[g]? = some y := by
      intro g x y hg
      rw [List.getElem?_set, if_pos rfl, if_pos (List.getElem?_eq_some_iff.mp hg).1]
    have live : ∀ (f : Frame) (g : Nat) (x : Gen), f ∈ s.stack → s.gens[g]? = some x →
        x.phase ≠ .executing → f.gen ≠ g := by
      intro f g x hf hg hp he
      subst he
      exact hp (H.inv.executing hf hg)
    intro f hf hm
    cases hd with
    | create =>
      refine old f hf hm (Or.inl (by simp [Op.target])) ?_
      intro x hx; exact ⟨x, snoc_old hx, rfl, rfl⟩
    | noGen _ => exact old f hf hm (Or.inr (by simp)) (fun x hx => ⟨x, hx, rfl, rfl⟩)
    | busy _ _ => exact old f hf hm (Or.inr (by simp)) (fun x hx => ⟨x, hx, rfl, rfl⟩)
    | over _ _ => exact old f hf hm (Or.inr (by simp)) (fun x hx => ⟨x, hx, rfl, rfl⟩)
    | overRet hg hp =>
      refine old f hf hm (Or.inr (by simp)) (fun x hx => hset _ _ _ _ (live f _ _ hf hg ?_) hx)
      rcases hp with hp | hp <;> rw [hp] <;> simp
    | overThr hg hp =>
      refine old f hf hm (Or.inr (by simp)) (fun x hx => hset _ _ _ _ (live f _ _ hf hg ?_) hx)
      rcases hp with hp | hp <;> rw [hp] <;> simp
    | begin hg hp _ =>
      simp only [List.mem_cons] at hf
      rcases hf with hf | hf
      · subst hf; simp at hm
      · have hne := live f _ _ hf hg (by rw [hp]; simp)
        exact old f hf hm (Or.inr (by simp)) (fun x hx => hset _ _ _ _ hne hx)
    | again hg hp _ =>
      simp only [List.mem_cons] at hf
      rcases hf with hf | hf
      · subst hf; simp at hm
      · have hne := live f _ _ hf hg (by rw [hp]; simp)
        exact old f hf hm (Or.inr (by simp)) (fun x hx => hset _ _ _ _ hne hx)
    | pass hg hp _ =>
      simp only [List.mem_cons] at hf
      rcases hf with hf | hf
      · subst hf
        refine ⟨_, hself hg, ops.length, _, snoc_new, rfl, ?_, ?_⟩
        · rw [← hl]; exact snoc_new
        · intro i' op' k v hlt g1
          have := lt_of_some g1
          simp only [List.length_append, List.length_singleton] at this
          omega
      · have hne := live f _ _ hf hg (by rw [hp]; simp)
        refine old f hf hm (Or.inl ?_) (fun x hx => hset _ _ _ _ hne hx)
        simp only [Op.target, ne_eq, Option.some.injEq]
        exact fun h => hne h.symm
    | yield h1 _ h3 =>
      refine old f (by rw [h1]; exact List.mem_cons_of_mem _ hf) hm (Or.inl (by simp [Op.target])) ?_
      intro x hx; exact hset _ _ _ _ (other _ _ _ h1 hf) hx
    | ret h1 _ h3 =>
      refine old f (by rw [h1]; exact List.mem_cons_of_mem _ hf) hm (Or.inl (by simp [Op.target])) ?_
      intro x hx; exact hset _ _ _ _ (other _ _ _ h1 hf) hx
    | throw h1 _ h3 =>
      refine old f (by rw [h1]; exact List.mem_cons_of_mem _ hf) hm (Or.inl (by simp [Op.target])) ?_
      intro x hx; exact hset _ _ _ _ (other _ _ _ h1 hf) hx
    | star h1 _ h3 =>
      simp only [List.mem_cons] at hf
      rcases hf with hf | hf
      · subst hf
        refine ⟨_, hself h3, ops.length, _, snoc_new, rfl, ?_, ?_⟩
        · rw [← hl]; exact snoc_new
        · intro i' op' k v hlt g1
          have := lt_of_some g1
          simp only [List.length_append, List.length_singleton] at this
          omega
      · have hne := other _ _ _ h1 hf
        refine old f (by rw [h1]; exact List.mem_cons_of_mem _ hf) hm (Or.inl ?_)
          (fun x hx => hset _ _ _ _ hne hx)
        simp only [Op.target, ne_eq, Option.some.injEq]
        exact fun h => hne h.symm
    | passed h1 _ h3 _ =>
      refine old f (by rw [h1]; exact List.mem_cons_of_mem _ hf) hm (Or.inl (by simp [Op.target])) ?_
      intro x hx; exact hset _ _ _ _ (other _ _ _ h1 hf) hx
    | left h1 _ h3 _ _ =>
      simp only [List.mem_cons] at hf
      rcases hf with hf | hf
      · subst hf; simp at hm
      · refine old f (by rw [h1]; exact List.mem_cons_of_mem _ hf) hm (Or.inl (by simp [Op.target])) ?_
        intro x hx; exact ⟨x, hx, rfl, rfl⟩

/-- What the end of the method called by a `yield*` does. -/
theorem result_star {s s' : State} {g : Nat} {r : Result} {o : Out}
    (h : act s (.result g r) = .ok (s', o)) : ∃ f rest x, s.stack = f :: rest ∧ f.gen = g ∧
      f.mode = .delegate ∧ s.gens[f.gen]? = some x ∧ Spec.star f.call x.kind x.val r = some o := by
  obtain ⟨⟨f, rest, x⟩, h1, h2⟩ := bindOk h
  obtain ⟨h3, h4, h5, h6⟩ := top_ok h1
  refine ⟨f, rest, x, h3, h5, h4, h6, ?_⟩
  simp only [starResult] at h2
  unfold Spec.star
  split at h2
  all_goals (try split at h2)
  all_goals
    simp only [Except.ok.injEq, back, leave, Prod.mk.injEq, reduceCtorEq] at h2
  all_goals
    obtain ⟨_, rfl⟩ := h2
    simp_all

end Verif.Gen

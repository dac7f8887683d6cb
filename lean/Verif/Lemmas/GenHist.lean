import Verif.Lemmas.Generator

/-! The history of a run: which operation answered which call. -/

namespace Verif.Gen

/-- A run from the start, built up at its end. -/
inductive Trace : List Op → List Out → State → Prop where
  | nil : Trace [] [] init
  | snoc {ops : List Op} {outs : List Out} {s s' : State} {op : Op} {o : Out} :
      Trace ops outs s → step s op = .ok (s', o) → Trace (ops ++ [op]) (outs ++ [o]) s'

theorem run_append {ops : List Op} : ∀ {s s1 s2 : State} {l m : List Out} {ops' : List Op},
    run s ops = .ok (s1, l) → run s1 ops' = .ok (s2, m) →
    run s (ops ++ ops') = .ok (s2, l ++ m) := by
  induction ops with
  | nil =>
    intro s s1 s2 l m ops' h h'
    simp only [run, Except.ok.injEq, Prod.mk.injEq] at h
    obtain ⟨rfl, rfl⟩ := h
    exact h'
  | cons op ops ih =>
    intro s s1 s2 l m ops' h h'
    simp only [run] at h
    obtain ⟨⟨s3, o⟩, h1, h2⟩ := bindOk h
    obtain ⟨⟨s4, k⟩, h3, h4⟩ := bindOk h2
    simp only [Except.ok.injEq, Prod.mk.injEq] at h4
    obtain ⟨rfl, rfl⟩ := h4
    simp only [List.cons_append, run, h1, ih h3 h', bind, Except.bind]

theorem trace_go {ops : List Op} : ∀ {s s' : State} {pre : List Op} {l outs : List Out},
    Trace pre l s → run s ops = .ok (s', outs) → Trace (pre ++ ops) (l ++ outs) s' := by
  induction ops with
  | nil =>
    intro s s' pre l outs ht h
    simp only [run, Except.ok.injEq, Prod.mk.injEq] at h
    obtain ⟨rfl, rfl⟩ := h
    simpa using ht
  | cons op ops ih =>
    intro s s' pre l outs ht h
    simp only [run] at h
    obtain ⟨⟨s3, o⟩, h1, h2⟩ := bindOk h
    obtain ⟨⟨s4, k⟩, h3, h4⟩ := bindOk h2
    simp only [Except.ok.injEq, Prod.mk.injEq] at h4
    obtain ⟨rfl, rfl⟩ := h4
    have := ih (ht.snoc h1) h3
    simpa using this

theorem run_trace {ops : List Op} {outs : List Out} {s : State} (h : run init ops = .ok (s, outs)) :
    Trace ops outs s := by
  have := trace_go Trace.nil h
  simpa using this

/-- The calls still open: generator and number of the call. -/
def State.open (s : State) : List (Nat × Nat) := s.stack.map fun f => (f.gen, f.call)

/-- The answer made by an operation of the generator's code. -/
def Made : Op → Answer → Prop
  | .yield _ v, a => a = .result ⟨v, false⟩
  | .ret _ v, a => a = .result ⟨v, true⟩
  | .throw _ e, a => a = .threw e
  | .result _ (.object o), a => a = .result o ∧ o.done = false
  | _, _ => False

/-- An answer that says that the generator is finished. -/
def Final : Answer → Prop
  | .result o => o.done = true
  | .threw _ => True
  | .typeError => False

/-- A coarser classification of the steps. -/
inductive Cat (s : State) (op : Op) (s' : State) (o : Out) : Prop where
  | imm {k : Kind} {g : Nat} {v : Val} {a : Answer} : op = .call k g v → o = .answer s.time a →
      s'.open = s.open →
      (Final a → ∃ x, s'.gens[g]? = some x ∧ x.phase = .completed) →
      (∀ (j : Nat) (y : Gen), s'.gens[j]? = some y → s.gens[j]? = some y ∨ y.phase = .completed) → 
      Cat s op s' o
  | ent {k : Kind} {g : Nat} {v : Val} : op = .call k g v → (∀ c a, o ≠ .answer c a) →
      s'.open = (g, s.time) :: s.open → 
      (∀ (j : Nat) (y : Gen), s'.gens[j]? = some y → s.gens[j]? = some y ∨ y.phase = .executing) →
      Cat s op s' o
  | prod {g c : Nat} {a : Answer} {rest : List (Nat × Nat)} : op.actor = some g →
      o = .answer c a → Made op a → s.open = (g, c) :: rest → s'.open = rest →
      (∃ y, s'.gens[g]? = some y ∧ (Final a → y.phase = .completed) ∧
        (¬ Final a → y.phase = .yielded ∧
          ((y.pos = .resume ∧ ∃ v, op = .yield g v) ∨ (y.pos = .star ∧ ∃ r, op = .result g r)))) →
      (∀ j : Nat, j ≠ g → s'.gens[j]? = s.gens[j]?) → Cat s op s' o
  | quiet : (∀ c a, o ≠ .answer c a) → (∀ k g v, op ≠ .call k g v) → s'.open = s.open →
      (∀ g, op.actor = some g → ∃ x, s.gens[g]? = some x ∧ x.phase = .executing) →
      (∀ (j : Nat) (y : Gen), s'.gens[j]? = some y → s.gens[j]? = some y ∨ y.phase = .executing ∨
        s.gens.length ≤ j ∧ y.phase = .start) → Cat s op s' o

theorem set_cases {l : List Gen} {g j : Nat} {x y : Gen} (h : (l.set g x)[j]? = some y) :
    l[j]? = some y ∨ y = x := by
  rcases getElem?_set_some h with ⟨_, h, _⟩ | ⟨_, h⟩
  · exact Or.inr h.symm
  · exact Or.inl h

theorem did_cat {s s' : State} {op : Op} {o : Out} (hi : Inv s) (h : Did s op s' o) :
    Cat s op s' o := by
  have hset : ∀ {g : Nat} {x y : Gen}, s.gens[g]? = some x → (s.gens.set g y)[g]? = some y := by
    intro g x y hg
    rw [List.getElem?_set, if_pos rfl, if_pos (List.getElem?_eq_some_iff.mp hg).1]
  cases h with
  | create =>
    refine .quiet (by simp) (by simp) rfl (by simp [Op.actor]) ?_
    intro j y hy
    rw [List.getElem?_append] at hy
    split at hy
    · exact Or.inl hy
    · rename_i hge
      rw [List.getElem?_singleton] at hy
      split at hy
      · simp only [Option.some.injEq] at hy; subst hy
        exact Or.inr (Or.inr ⟨by omega, rfl⟩)
      · simp at hy
  | noGen hg => exact .imm rfl rfl rfl (by simp [Final]) (fun _ _ h => Or.inl h)
  | busy hg hp => exact .imm rfl rfl rfl (by simp [Final]) (fun _ _ h => Or.inl h)
  | over hg hp => exact .imm rfl rfl rfl (fun _ => ⟨_, hg, hp⟩) (fun _ _ h => Or.inl h)
  | overRet hg hp =>
    refine .imm rfl rfl rfl (fun _ => ⟨_, hset hg, rfl⟩) ?_
    intro j y hy
    rcases set_cases hy with h | h
    · exact Or.inl h
    · exact Or.inr (by rw [h])
  | overThr hg hp =>
    refine .imm rfl rfl rfl (fun _ => ⟨_, hset hg, rfl⟩) ?_
    intro j y hy
    rcases set_cases hy with h | h
    · exact Or.inl h
    · exact Or.inr (by rw [h])
  | begin hg hp hpos =>
    refine .ent rfl (by simp) rfl ?_
    intro j y hy
    rcases set_cases hy with h | h
    · exact Or.inl h
    · exact Or.inr (by rw [h])
  | again hg hp hpos =>
    refine .ent rfl (by simp) rfl ?_
    intro j y hy
    rcases set_cases hy with h | h
    · exact Or.inl h
    · exact Or.inr (by rw [h])
  | pass hg hp hpos =>
    refine .ent rfl (by simp) rfl ?_
    intro j y hy
    rcases set_cases hy with h | h
    · exact Or.inl h
    · exact Or.inr (by rw [h])
  | yield h1 h2 h3 =>
    refine .prod rfl rfl rfl (by unfold State.open; rw [h1]; rfl) rfl
      ⟨_, hset h3, by simp [Final], fun _ => ⟨rfl, Or.inl ⟨rfl, _, rfl⟩⟩⟩ ?_
    intro j hj
    simp only []
    rw [List.getElem?_set, if_neg (fun h => hj h.symm)]
  | ret h1 h2 h3 =>
    refine .prod rfl rfl rfl (by unfold State.open; rw [h1]; rfl) rfl
      ⟨_, hset h3, by simp, by simp [Final]⟩ ?_
    intro j hj
    simp only []
    rw [List.getElem?_set, if_neg (fun h => hj h.symm)]
  | throw h1 h2 h3 =>
    refine .prod rfl rfl rfl (by unfold State.open; rw [h1]; rfl) rfl
      ⟨_, hset h3, by simp, by simp [Final]⟩ ?_
    intro j hj
    simp only []
    rw [List.getElem?_set, if_neg (fun h => hj h.symm)]
  | star h1 h2 h3 =>
    rename_i x f rest
    have he := hi.executing (f := f) (by rw [h1]; simp) h3
    refine .quiet (by simp) (by simp) (by unfold State.open; rw [h1]; rfl) ?_ ?_
    · intro g hg
      simp only [Op.actor, Option.some.injEq] at hg
      subst hg
      exact ⟨_, h3, he⟩
    · intro j y hy
      rcases set_cases hy with h | h
      · exact Or.inl h
      · exact Or.inr (Or.inl (by rw [h]; exact he))
  | passed h1 h2 h3 hd =>
    refine .prod rfl rfl ⟨rfl, hd⟩ (by unfold State.open; rw [h1]; rfl) rfl
      ⟨_, hset h3, by simp [Final, hd], fun _ => ⟨rfl, Or.inr ⟨rfl, _, rfl⟩⟩⟩ ?_
    intro j hj
    simp only []
    rw [List.getElem?_set, if_neg (fun h => hj h.symm)]
  | left h1 h2 h3 h4 h5 =>
    rename_i r x f rest
    have he := hi.executing (f := f) (by rw [h1]; simp) h3
    refine .quiet h4 (by simp) (by unfold State.open; rw [h1]; rfl) ?_ (fun _ _ h => Or.inl h)
    intro g hg
    simp only [Op.actor, Option.some.injEq] at hg
    subst hg
    exact ⟨_, h3, he⟩

/-- What is known of a run. -/
structure Hist (ops : List Op) (outs : List Out) (s : State) : Prop where
  time : s.time = ops.length
  len : outs.length = ops.length
  inv : Inv s
  calls : ∀ g c, (g, c) ∈ s.open → ∃ k v, ops[c]? = some (.call k g v)
  unanswered : ∀ g c, (g, c) ∈ s.open → ∀ (j : Nat) a, outs[j]? ≠ some (.answer c a)
  prior : ∀ g c, (g, c) ∈ s.open → ∀ (j : Nat) op c' a, ops[j]? = some op → op.actor = some g →
    outs[j]? = some (.answer c' a) → j < c
  pending : ∀ (i : Nat) k g v, ops[i]? = some (.call k g v) →
    (∃ (j : Nat) (a : Answer), outs[j]? = some (.answer i a)) ∨ (g, i) ∈ s.open
  once : ∀ (j j' : Nat) i a a', outs[j]? = some (.answer i a) → outs[j']? = some (.answer i a') →
    j = j'
  source : ∀ (j i : Nat) a, outs[j]? = some (.answer i a) → ∃ k g v, ops[i]? = some (.call k g v) ∧
    (j = i ∨ (i < j ∧ ∃ op, ops[j]? = some op ∧ op.actor = some g ∧ Made op a))
  disjoint : ∀ (j1 j2 : Nat) op1 op2 i1 i2 a1 a2 g, j1 < j2 → ops[j1]? = some op1 →
    ops[j2]? = some op2 → op1.actor = some g → op2.actor = some g →
    outs[j1]? = some (.answer i1 a1) → outs[j2]? = some (.answer i2 a2) → j1 < i2
  over : ∀ (j i : Nat) a k g v, outs[j]? = some (.answer i a) → ops[i]? = some (.call k g v) →
    Final a → ∃ x, s.gens[g]? = some x ∧ x.phase = .completed
  last : ∀ (g : Nat) x, s.gens[g]? = some x → x.phase = .yielded → ∃ (j : Nat) (op : Op) (c : Nat) (a : Answer),
    ops[j]? = some op ∧ op.actor = some g ∧ outs[j]? = some (.answer c a) ∧
    (∀ (j' : Nat) op' c' a', ops[j']? = some op' → op'.actor = some g →
      outs[j']? = some (.answer c' a') → j' ≤ j) ∧
    ((x.pos = .resume ∧ ∃ v, op = .yield g v) ∨ (x.pos = .star ∧ ∃ r, op = .result g r))
  first : ∀ (g : Nat) x, s.gens[g]? = some x → x.phase = .start →
    ∀ (j : Nat) op, ops[j]? = some op → op.actor ≠ some g
  known : ∀ (g : Nat), s.gens[g]? = none → ∀ (j : Nat) op, ops[j]? = some op → op.actor ≠ some g

theorem snoc_some {α : Type} {l : List α} {a b : α} {i : Nat} (h : (l ++ [a])[i]? = some b) :
    l[i]? = some b ∨ (i = l.length ∧ a = b) := by
  rw [List.getElem?_append] at h
  split at h
  · exact Or.inl h
  · rw [List.getElem?_singleton] at h
    split at h
    · simp only [Option.some.injEq] at h
      exact Or.inr ⟨by omega, h⟩
    · simp at h

theorem snoc_old {α : Type} {l : List α} {a b : α} {i : Nat} (h : l[i]? = some b) :
    (l ++ [a])[i]? = some b := by
  rw [List.getElem?_append_left (List.getElem?_eq_some_iff.mp h).1]; exact h

theorem snoc_new {α : Type} {l : List α} {a : α} : (l ++ [a])[l.length]? = some a := by
  rw [List.getElem?_append_right (Nat.le_refl _)]; simp

theorem lt_of_some {α : Type} {l : List α} {i : Nat} {a : α} (h : l[i]? = some a) :
    i < l.length := (List.getElem?_eq_some_iff.mp h).1

theorem hist_nil : Hist [] [] init where
  time := rfl
  len := rfl
  inv := inv_init
  calls := by simp [State.open, init]
  unanswered := by simp [State.open, init]
  prior := by simp [State.open, init]
  pending := by simp
  once := by simp
  source := by simp
  disjoint := by simp
  over := by simp
  last := by simp [init]
  first := by simp [init]
  known := by simp

/-- The generator of an open call is executing. -/
theorem Inv.of_open {s : State} (hi : Inv s) {g c : Nat} (h : (g, c) ∈ s.open) :
    ∃ x, s.gens[g]? = some x ∧ x.phase = .executing := by
  unfold State.open at h
  obtain ⟨f, hf, he⟩ := List.mem_map.mp h
  simp only [Prod.mk.injEq] at he
  obtain ⟨rfl, rfl⟩ := he
  have hlt := hi.inside f hf
  exact ⟨s.gens[f.gen], List.getElem?_eq_getElem hlt,
    hi.executing hf (List.getElem?_eq_getElem hlt)⟩

theorem hist_snoc {ops : List Op} {outs : List Out} {s s1 : State} {op : Op} {o : Out}
    (H : Hist ops outs s) (hi1 : Inv s1) (hc : Cat s op s1 o)
    (hk : ∀ (g : Nat), s1.gens[g]? = none → s.gens[g]? = none)
    (hcomp : ∀ (g : Nat) x, s.gens[g]? = some x → x.phase = .completed →
      ∃ y, s1.gens[g]? = some y ∧ y.phase = .completed) :
    Hist (ops ++ [op]) (outs ++ [o]) { s1 with time := s.time + 1 } := by
  have hlen := H.len
  have hopen : ({ s1 with time := s.time + 1 } : State).open = s1.open := rfl
  -- no answer so far mentions the new operation
  have hnew : ∀ (j : Nat) a, outs[j]? ≠ some (.answer ops.length a) := by
    intro j a h
    obtain ⟨k, g, v, h, _⟩ := H.source j _ a h
    exact absurd (lt_of_some h) (by omega)
  cases hc with
  | imm hop ho hst hfin hg =>
    rename_i k g v a
    subst hop ho
    rw [H.time] at *
    have hcl : ∀ g' c, (g', c) ∈ s.open → c < ops.length := by
      intro g' c hm
      obtain ⟨k', v', h⟩ := H.calls g' c hm
      exact lt_of_some h
    refine { time := by simp [H.time], len := by simp [hlen], inv := ?_, calls := ?_,
             unanswered := ?_, prior := ?_, pending := ?_, once := ?_, source := ?_,
             disjoint := ?_, over := ?_, last := ?_, first := ?_, known := ?_ }
    · exact ⟨hi1.nodup, hi1.exec, hi1.inside, hi1.fresh, hi1.gone⟩
    · intro g' c hm
      rw [hopen, hst] at hm
      obtain ⟨k', v', h⟩ := H.calls g' c hm
      exact ⟨k', v', snoc_old h⟩
    · intro g' c hm j a' h
      rw [hopen, hst] at hm
      rcases snoc_some h with h | ⟨_, h⟩
      · exact H.unanswered g' c hm j a' h
      · simp only [Out.answer.injEq] at h
        have := hcl g' c hm
        omega
    · intro g' c hm j op' c' a' h1 h2 h3
      rw [hopen, hst] at hm
      rcases snoc_some h1 with h1 | ⟨hj, h1⟩
      · rcases snoc_some h3 with h3 | ⟨hj, h3⟩
        · exact H.prior g' c hm j op' c' a' h1 h2 h3
        · exact absurd (lt_of_some h1) (by omega)
      · subst h1; simp [Op.actor] at h2
    · intro i k' g' v' h
      rw [hopen, hst]
      rcases snoc_some h with h | ⟨hj, h⟩
      · rcases H.pending i k' g' v' h with ⟨j, a', h⟩ | h
        · exact Or.inl ⟨j, a', snoc_old h⟩
        · exact Or.inr h
      · subst hj
        exact Or.inl ⟨outs.length, a, snoc_new⟩
    · intro j j' i a1 a2 h1 h2
      rcases snoc_some h1 with h1 | ⟨hj, h1⟩
      · rcases snoc_some h2 with h2 | ⟨hj', h2⟩
        · exact H.once j j' i a1 a2 h1 h2
        · simp only [Out.answer.injEq] at h2
          rw [← h2.1] at h1
          exact absurd h1 (hnew j a1)
      · rcases snoc_some h2 with h2 | ⟨hj', h2⟩
        · simp only [Out.answer.injEq] at h1
          rw [← h1.1] at h2
          exact absurd h2 (hnew j' a2)
        · omega
    · intro j i a' h
      rcases snoc_some h with h | ⟨hj, h⟩
      · obtain ⟨k', g', v', h1, h2⟩ := H.source j i a' h
        refine ⟨k', g', v', snoc_old h1, ?_⟩
        rcases h2 with h2 | ⟨h2, op', h3, h4⟩
        · exact Or.inl h2
        · exact Or.inr ⟨h2, op', snoc_old h3, h4⟩
      · simp only [Out.answer.injEq] at h
        obtain ⟨rfl, rfl⟩ := h
        exact ⟨k, g, v, snoc_new, Or.inl (by omega)⟩
    · intro j1 j2 op1 op2 i1 i2 a1 a2 g' hlt h1 h2 h3 h4 h5 h6
      rcases snoc_some h2 with h2 | ⟨hj, h2⟩
      · have hl2 := lt_of_some h2
        rcases snoc_some h1 with h1 | ⟨hj, h1⟩
        · rcases snoc_some h5 with h5 | ⟨hj, h5⟩
          · rcases snoc_some h6 with h6 | ⟨hj, h6⟩
            · exact H.disjoint j1 j2 op1 op2 i1 i2 a1 a2 g' hlt h1 h2 h3 h4 h5 h6
            · omega
          · have := lt_of_some h1; omega
        · omega
      · subst h2; simp [Op.actor] at h4
    · intro j i a' k' g' v' h1 h2 h3
      rcases snoc_some h1 with h1 | ⟨hj, h1⟩
      · obtain ⟨k2, g2, v2, hs, _⟩ := H.source j i a' h1
        rw [snoc_old hs] at h2
        simp only [Option.some.injEq, Op.call.injEq] at h2
        obtain ⟨rfl, rfl, rfl⟩ := h2
        obtain ⟨x, hx, hp⟩ := H.over j i a' k2 g2 v2 h1 hs h3
        exact hcomp _ x hx hp
      · simp only [Out.answer.injEq] at h1
        obtain ⟨rfl, rfl⟩ := h1
        rw [snoc_new] at h2
        simp only [Option.some.injEq, Op.call.injEq] at h2
        obtain ⟨rfl, rfl, rfl⟩ := h2
        exact hfin h3
    · intro g' x hx hp
      rcases hg g' x hx with h | h
      · obtain ⟨j, op', c, a', h1, h2, h3, h4, h5⟩ := H.last g' x h hp
        refine ⟨j, op', c, a', snoc_old h1, h2, snoc_old h3, ?_, h5⟩
        intro j' op2 c2 a2 g1 g2 g3
        rcases snoc_some g1 with g1 | ⟨_, g1⟩
        · rcases snoc_some g3 with g3 | ⟨hj, _⟩
          · exact h4 j' op2 c2 a2 g1 g2 g3
          · have := lt_of_some g1; omega
        · subst g1; simp [Op.actor] at g2
      · rw [hp] at h; simp at h
    · intro g' x hx hp j op' h1 h2
      rcases snoc_some h1 with h1 | ⟨_, h1⟩
      · rcases hg g' x hx with h | h
        · exact H.first g' x h hp j op' h1 h2
        · rw [hp] at h; simp at h
      · subst h1; simp [Op.actor] at h2
    · intro g' hx j op' h1 h2
      rcases snoc_some h1 with h1 | ⟨_, h1⟩
      · exact H.known g' (hk g' hx) j op' h1 h2
      · subst h1; simp [Op.actor] at h2
  | ent hop ho hst hg =>
    rename_i k g v
    subst hop
    rw [H.time] at *
    have hans : ∀ {j i : Nat} {a : Answer}, (outs ++ [o])[j]? = some (.answer i a) →
        outs[j]? = some (.answer i a) := by
      intro j i a h
      rcases snoc_some h with h | ⟨_, h⟩
      · exact h
      · exact absurd h (ho i a)
    have hact : ∀ {j : Nat} {op' : Op} {g' : Nat}, (ops ++ [Op.call k g v])[j]? = some op' →
        op'.actor = some g' → ops[j]? = some op' := by
      intro j op' g' h h'
      rcases snoc_some h with h | ⟨_, h⟩
      · exact h
      · subst h; simp [Op.actor] at h'
    refine { time := by simp [H.time], len := by simp [hlen], inv := ?_, calls := ?_,
             unanswered := ?_, prior := ?_, pending := ?_, once := ?_, source := ?_,
             disjoint := ?_, over := ?_, last := ?_, first := ?_, known := ?_ }
    · exact ⟨hi1.nodup, hi1.exec, hi1.inside, hi1.fresh, hi1.gone⟩
    · intro g' c hm
      rw [hopen, hst, List.mem_cons] at hm
      rcases hm with hm | hm
      · simp only [Prod.mk.injEq] at hm
        obtain ⟨rfl, rfl⟩ := hm
        exact ⟨k, v, snoc_new⟩
      · obtain ⟨k', v', h⟩ := H.calls g' c hm
        exact ⟨k', v', snoc_old h⟩
    · intro g' c hm j a' h
      rw [hopen, hst, List.mem_cons] at hm
      have h := hans h
      rcases hm with hm | hm
      · simp only [Prod.mk.injEq] at hm
        obtain ⟨rfl, rfl⟩ := hm
        exact hnew j a' h
      · exact H.unanswered g' c hm j a' h
    · intro g' c hm j op' c' a' h1 h2 h3
      rw [hopen, hst, List.mem_cons] at hm
      have h1' := hact h1 h2
      rcases hm with hm | hm
      · simp only [Prod.mk.injEq] at hm
        obtain ⟨rfl, rfl⟩ := hm
        exact lt_of_some h1'
      · exact H.prior g' c hm j op' c' a' h1' h2 (hans h3)
    · intro i k' g' v' h
      rw [hopen, hst, List.mem_cons]
      rcases snoc_some h with h | ⟨hj, h⟩
      · rcases H.pending i k' g' v' h with ⟨j, a', h⟩ | h
        · exact Or.inl ⟨j, a', snoc_old h⟩
        · exact Or.inr (Or.inr h)
      · simp only [Op.call.injEq] at h
        obtain ⟨rfl, rfl, rfl⟩ := h
        subst hj
        exact Or.inr (Or.inl rfl)
    · intro j j' i a1 a2 h1 h2
      exact H.once j j' i a1 a2 (hans h1) (hans h2)
    · intro j i a' h
      obtain ⟨k', g', v', h1, h2⟩ := H.source j i a' (hans h)
      refine ⟨k', g', v', snoc_old h1, ?_⟩
      rcases h2 with h2 | ⟨h2, op', h3, h4⟩
      · exact Or.inl h2
      · exact Or.inr ⟨h2, op', snoc_old h3, h4⟩
    · intro j1 j2 op1 op2 i1 i2 a1 a2 g' hlt h1 h2 h3 h4 h5 h6
      exact H.disjoint j1 j2 op1 op2 i1 i2 a1 a2 g' hlt (hact h1 h3) (hact h2 h4) h3 h4
        (hans h5) (hans h6)
    · intro j i a' k' g' v' h1 h2 h3
      have h1 := hans h1
      obtain ⟨k2, g2, v2, hs, _⟩ := H.source j i a' h1
      rw [snoc_old hs] at h2
      simp only [Option.some.injEq, Op.call.injEq] at h2
      obtain ⟨rfl, rfl, rfl⟩ := h2
      obtain ⟨x, hx, hp⟩ := H.over j i a' k2 g2 v2 h1 hs h3
      exact hcomp _ x hx hp
    · intro g' x hx hp
      rcases hg g' x hx with h | h
      · obtain ⟨j, op', c, a', h1, h2, h3, h4, h5⟩ := H.last g' x h hp
        refine ⟨j, op', c, a', snoc_old h1, h2, snoc_old h3, ?_, h5⟩
        intro j' op2 c2 a2 g1 g2 g3
        exact h4 j' op2 c2 a2 (hact g1 g2) g2 (hans g3)
      · rw [hp] at h; simp at h
    · intro g' x hx hp j op' h1 h2
      rcases hg g' x hx with h | h
      · exact H.first g' x h hp j op' (hact h1 h2) h2
      · rw [hp] at h; simp at h
    · intro g' hx j op' h1 h2
      exact H.known g' (hk g' hx) j op' (hact h1 h2) h2
  | prod hop ho hm hst hst' hy hg =>
    rename_i g c a rest
    subst ho
    obtain ⟨y, hy, hyf, hyn⟩ := hy
    have hmem : (g, c) ∈ s.open := by rw [hst]; simp
    have hsub : ∀ p, p ∈ rest → p ∈ s.open := by
      intro p hp; rw [hst]; exact List.mem_cons_of_mem _ hp
    obtain ⟨kc, vc, hcall⟩ := H.calls g c hmem
    have hnd := H.inv.nodup
    have hgs : ∀ c', (g, c') ∉ rest := by
      intro c' hm'
      unfold State.open at hst
      cases hs : s.stack with
      | nil => rw [hs] at hst; simp at hst
      | cons f fs =>
        rw [hs] at hst hnd
        simp only [List.map_cons, List.cons.injEq, Prod.mk.injEq] at hst
        simp only [List.map_cons, List.nodup_cons] at hnd
        rw [← hst.2] at hm'
        obtain ⟨f', hf', he⟩ := List.mem_map.mp hm'
        simp only [Prod.mk.injEq] at he
        apply hnd.1
        rw [hst.1.1, ← he.1]
        exact List.mem_map_of_mem hf'
    have hcs : ∀ g', (g', c) ∉ rest ∨ g' = g := by
      intro g'
      by_cases hg' : (g', c) ∈ rest
      · right
        obtain ⟨k', v', h⟩ := H.calls g' c (hsub _ hg')
        rw [hcall] at h
        simp only [Option.some.injEq, Op.call.injEq] at h
        exact h.2.1.symm
      · exact Or.inl hg'
    have hncall : ∀ k' g' v', op ≠ .call k' g' v' := by
      intro k' g' v' h; subst h; simp [Op.actor] at hop
    have hclt := lt_of_some hcall
    refine { time := by simp [H.time], len := by simp [hlen], inv := ?_, calls := ?_,
             unanswered := ?_, prior := ?_, pending := ?_, once := ?_, source := ?_,
             disjoint := ?_, over := ?_, last := ?_, first := ?_, known := ?_ }
    · exact ⟨hi1.nodup, hi1.exec, hi1.inside, hi1.fresh, hi1.gone⟩
    · intro g' c' hm'
      rw [hopen, hst'] at hm'
      obtain ⟨k', v', h⟩ := H.calls g' c' (hsub _ hm')
      exact ⟨k', v', snoc_old h⟩
    · intro g' c' hm' j a' h
      rw [hopen, hst'] at hm'
      rcases snoc_some h with h | ⟨_, h⟩
      · exact H.unanswered g' c' (hsub _ hm') j a' h
      · simp only [Out.answer.injEq] at h
        obtain ⟨rfl, rfl⟩ := h
        rcases hcs g' with h | h
        · exact h hm'
        · subst h; exact hgs _ hm'
    · intro g' c' hm' j op' c2 a' h1 h2 h3
      rw [hopen, hst'] at hm'
      rcases snoc_some h1 with h1 | ⟨hj, h1⟩
      · rcases snoc_some h3 with h3 | ⟨hj, h3⟩
        · exact H.prior g' c' (hsub _ hm') j op' c2 a' h1 h2 h3
        · exact absurd (lt_of_some h1) (by omega)
      · subst h1
        rw [hop] at h2
        simp only [Option.some.injEq] at h2
        subst h2
        exact absurd hm' (hgs _)
    · intro i k' g' v' h
      rw [hopen, hst']
      rcases snoc_some h with h | ⟨hj, h⟩
      · rcases H.pending i k' g' v' h with ⟨j, a', h⟩ | h
        · exact Or.inl ⟨j, a', snoc_old h⟩
        · rw [hst, List.mem_cons] at h
          rcases h with h | h
          · simp only [Prod.mk.injEq] at h
            obtain ⟨rfl, rfl⟩ := h
            exact Or.inl ⟨outs.length, a, snoc_new⟩
          · exact Or.inr h
      · exact absurd h (hncall k' g' v')
    · intro j j' i a1 a2 h1 h2
      rcases snoc_some h1 with h1 | ⟨hj, h1⟩
      · rcases snoc_some h2 with h2 | ⟨hj', h2⟩
        · exact H.once j j' i a1 a2 h1 h2
        · simp only [Out.answer.injEq] at h2
          rw [← h2.1] at h1
          exact absurd h1 (H.unanswered g c hmem j a1)
      · rcases snoc_some h2 with h2 | ⟨hj', h2⟩
        · simp only [Out.answer.injEq] at h1
          rw [← h1.1] at h2
          exact absurd h2 (H.unanswered g c hmem j' a2)
        · omega
    · intro j i a' h
      rcases snoc_some h with h | ⟨hj, h⟩
      · obtain ⟨k', g', v', h1, h2⟩ := H.source j i a' h
        refine ⟨k', g', v', snoc_old h1, ?_⟩
        rcases h2 with h2 | ⟨h2, op', h3, h4⟩
        · exact Or.inl h2
        · exact Or.inr ⟨h2, op', snoc_old h3, h4⟩
      · simp only [Out.answer.injEq] at h
        obtain ⟨rfl, rfl⟩ := h
        refine ⟨kc, g, vc, snoc_old hcall, Or.inr ⟨by omega, op, ?_, hop, hm⟩⟩
        rw [hj, hlen]; exact snoc_new
    · intro j1 j2 op1 op2 i1 i2 a1 a2 g' hlt h1 h2 h3 h4 h5 h6
      rcases snoc_some h2 with h2 | ⟨hj, h2⟩
      · have hl2 := lt_of_some h2
        rcases snoc_some h1 with h1 | ⟨hj, h1⟩
        · rcases snoc_some h5 with h5 | ⟨hj, h5⟩
          · rcases snoc_some h6 with h6 | ⟨hj, h6⟩
            · exact H.disjoint j1 j2 op1 op2 i1 i2 a1 a2 g' hlt h1 h2 h3 h4 h5 h6
            · omega
          · have := lt_of_some h1; omega
        · omega
      · subst h2
        rw [hop] at h4
        simp only [Option.some.injEq] at h4
        subst h4
        rcases snoc_some h6 with h6 | ⟨_, h6⟩
        · have := lt_of_some h6; omega
        · simp only [Out.answer.injEq] at h6
          obtain ⟨rfl, rfl⟩ := h6
          rcases snoc_some h1 with h1 | ⟨_, h1⟩
          · rcases snoc_some h5 with h5 | ⟨hj5, h5⟩
            · exact H.prior g c hmem j1 op1 i1 a1 h1 h3 h5
            · have := lt_of_some h1; omega
          · omega
    · intro j i a' k' g' v' h1 h2 h3
      rcases snoc_some h1 with h1 | ⟨hj, h1⟩
      · obtain ⟨k2, g2, v2, hs, _⟩ := H.source j i a' h1
        rw [snoc_old hs] at h2
        simp only [Option.some.injEq, Op.call.injEq] at h2
        obtain ⟨rfl, rfl, rfl⟩ := h2
        obtain ⟨x, hx, hp⟩ := H.over j i a' k2 g2 v2 h1 hs h3
        exact hcomp _ x hx hp
      · simp only [Out.answer.injEq] at h1
        obtain ⟨rfl, rfl⟩ := h1
        rw [snoc_old hcall] at h2
        simp only [Option.some.injEq, Op.call.injEq] at h2
        obtain ⟨rfl, rfl, rfl⟩ := h2
        exact ⟨y, hy, hyf h3⟩
    · intro g' x hx hp
      by_cases hgg : g' = g
      · subst hgg
        simp only at hx
        rw [hy] at hx
        simp only [Option.some.injEq] at hx
        subst hx
        have hnf : ¬ Final a := by
          intro hf
          rw [hyf hf] at hp; simp at hp
        obtain ⟨_, hpos⟩ := hyn hnf
        refine ⟨ops.length, op, c, a, snoc_new, hop, ?_, ?_, hpos⟩
        · rw [← hlen]; exact snoc_new
        · intro j' op2 c2 a2 g1 _ _
          have := lt_of_some g1
          simp only [List.length_append, List.length_singleton] at this
          omega
      · simp only at hx
        rw [hg g' hgg] at hx
        obtain ⟨j, op', c', a', h1, h2, h3, h4, h5⟩ := H.last g' x hx hp
        refine ⟨j, op', c', a', snoc_old h1, h2, snoc_old h3, ?_, h5⟩
        intro j' op2 c2 a2 g1 g2 g3
        rcases snoc_some g1 with g1 | ⟨_, g1⟩
        · rcases snoc_some g3 with g3 | ⟨hj, _⟩
          · exact h4 j' op2 c2 a2 g1 g2 g3
          · have := lt_of_some g1; omega
        · subst g1
          rw [hop] at g2
          simp only [Option.some.injEq] at g2
          exact absurd g2.symm hgg
    · intro g' x hx hp j op' h1 h2
      by_cases hgg : g' = g
      · subst hgg
        simp only at hx
        rw [hy] at hx
        simp only [Option.some.injEq] at hx
        subst hx
        by_cases hf : Final a
        · rw [hyf hf] at hp; simp at hp
        · rw [(hyn hf).1] at hp; simp at hp
      · simp only at hx
        rw [hg g' hgg] at hx
        rcases snoc_some h1 with h1 | ⟨_, h1⟩
        · exact H.first g' x hx hp j op' h1 h2
        · subst h1
          rw [hop] at h2
          simp only [Option.some.injEq] at h2
          exact absurd h2.symm hgg
    · intro g' hx j op' h1 h2
      rcases snoc_some h1 with h1 | ⟨_, h1⟩
      · exact H.known g' (hk g' hx) j op' h1 h2
      · subst h1
        rw [hop] at h2
        simp only [Option.some.injEq] at h2
        subst h2
        simp only at hx
        rw [hy] at hx; simp at hx
  | quiet ho hop hst hex hg =>
    have hans : ∀ {j i : Nat} {a : Answer}, (outs ++ [o])[j]? = some (.answer i a) →
        outs[j]? = some (.answer i a) := by
      intro j i a h
      rcases snoc_some h with h | ⟨_, h⟩
      · exact h
      · exact absurd h (ho i a)
    have hold : ∀ {j : Nat} {op' : Op} {i : Nat} {a : Answer}, (ops ++ [op])[j]? = some op' →
        outs[j]? = some (.answer i a) → ops[j]? = some op' := by
      intro j op' i a h h'
      rcases snoc_some h with h | ⟨hj, h⟩
      · exact h
      · have := lt_of_some h'; omega
    have hcall : ∀ {j : Nat} {k : Kind} {g : Nat} {v : Val},
        (ops ++ [op])[j]? = some (.call k g v) → ops[j]? = some (.call k g v) := by
      intro j k g v h
      rcases snoc_some h with h | ⟨hj, h⟩
      · exact h
      · exact absurd h (hop k g v)
    refine { time := by simp [H.time], len := by simp [hlen], inv := ?_, calls := ?_,
             unanswered := ?_, prior := ?_, pending := ?_, once := ?_, source := ?_,
             disjoint := ?_, over := ?_, last := ?_, first := ?_, known := ?_ }
    · exact ⟨hi1.nodup, hi1.exec, hi1.inside, hi1.fresh, hi1.gone⟩
    · intro g' c hm
      rw [hopen, hst] at hm
      obtain ⟨k', v', h⟩ := H.calls g' c hm
      exact ⟨k', v', snoc_old h⟩
    · intro g' c hm j a' h
      rw [hopen, hst] at hm
      exact H.unanswered g' c hm j a' (hans h)
    · intro g' c hm j op' c' a' h1 h2 h3
      rw [hopen, hst] at hm
      exact H.prior g' c hm j op' c' a' (hold h1 (hans h3)) h2 (hans h3)
    · intro i k' g' v' h
      rw [hopen, hst]
      rcases H.pending i k' g' v' (hcall h) with ⟨j, a', h⟩ | h
      · exact Or.inl ⟨j, a', snoc_old h⟩
      · exact Or.inr h
    · intro j j' i a1 a2 h1 h2
      exact H.once j j' i a1 a2 (hans h1) (hans h2)
    · intro j i a' h
      obtain ⟨k', g', v', h1, h2⟩ := H.source j i a' (hans h)
      refine ⟨k', g', v', snoc_old h1, ?_⟩
      rcases h2 with h2 | ⟨h2, op', h3, h4⟩
      · exact Or.inl h2
      · exact Or.inr ⟨h2, op', snoc_old h3, h4⟩
    · intro j1 j2 op1 op2 i1 i2 a1 a2 g' hlt h1 h2 h3 h4 h5 h6
      exact H.disjoint j1 j2 op1 op2 i1 i2 a1 a2 g' hlt (hold h1 (hans h5)) (hold h2 (hans h6)) h3 h4
        (hans h5) (hans h6)
    · intro j i a' k' g' v' h1 h2 h3
      obtain ⟨x, hx, hp⟩ := H.over j i a' k' g' v' (hans h1) (hcall h2) h3
      exact hcomp _ x hx hp
    · intro g' x hx hp
      rcases hg g' x hx with h | h | ⟨_, h⟩
      · obtain ⟨j, op', c, a', h1, h2, h3, h4, h5⟩ := H.last g' x h hp
        refine ⟨j, op', c, a', snoc_old h1, h2, snoc_old h3, ?_, h5⟩
        intro j' op2 c2 a2 g1 g2 g3
        exact h4 j' op2 c2 a2 (hold g1 (hans g3)) g2 (hans g3)
      · rw [hp] at h; simp at h
      · rw [hp] at h; simp at h
    · intro g' x hx hp j op' h1 h2
      rcases hg g' x hx with h | h | ⟨hge, h⟩
      · rcases snoc_some h1 with h1 | ⟨_, h1⟩
        · exact H.first g' x h hp j op' h1 h2
        · subst h1
          obtain ⟨x', hx', hp'⟩ := hex g' h2
          rw [h] at hx'
          simp only [Option.some.injEq] at hx'
          subst hx'
          rw [hp] at hp'; simp at hp'
      · rw [hp] at h; simp at h
      · have hn : s.gens[g']? = none := List.getElem?_eq_none hge
        rcases snoc_some h1 with h1 | ⟨_, h1⟩
        · exact H.known g' hn j op' h1 h2
        · subst h1
          obtain ⟨x', hx', _⟩ := hex g' h2
          rw [hn] at hx'; simp at hx'
    · intro g' hx j op' h1 h2
      have hn := hk g' hx
      rcases snoc_some h1 with h1 | ⟨_, h1⟩
      · exact H.known g' hn j op' h1 h2
      · subst h1
        obtain ⟨x', hx', _⟩ := hex g' h2
        rw [hn] at hx'; simp at hx'

/-- A finished generator stays finished. -/
theorem did_completed {s s' : State} {op : Op} {o : Out} (hi : Inv s) (h : Did s op s' o) {g : Nat}
    {x : Gen} (hx : s.gens[g]? = some x) (hp : x.phase = .completed) :
    ∃ y, s'.gens[g]? = some y ∧ y.phase = .completed := by
  have key : ∀ (g' : Nat) (x' y : Gen), s.gens[g']? = some x' →
      (x'.phase ≠ .completed ∨ y.phase = .completed) →
      ∃ z, (s.gens.set g' y)[g]? = some z ∧ z.phase = .completed := by
    intro g' x' y hx' hy
    rw [List.getElem?_set]
    split
    · rename_i he
      subst he
      rw [hx] at hx'
      simp only [Option.some.injEq] at hx'
      subst hx'
      rw [if_pos (lt_of_some hx)]
      rcases hy with hy | hy
      · exact absurd hp hy
      · exact ⟨y, rfl, hy⟩
    · exact ⟨x, hx, hp⟩
  have hexe : ∀ {f : Frame} {rest : List Frame} {x' : Gen}, s.stack = f :: rest →
      s.gens[f.gen]? = some x' → x'.phase ≠ .completed := by
    intro f rest x' h1 h3
    rw [hi.executing (f := f) (by rw [h1]; simp) h3]; simp
  cases h with
  | create =>
    refine ⟨x, ?_, hp⟩
    simp only []
    exact snoc_old hx
  | noGen _ => exact ⟨x, hx, hp⟩
  | busy _ _ => exact ⟨x, hx, hp⟩
  | over _ _ => exact ⟨x, hx, hp⟩
  | overRet hg _ => exact key _ _ _ hg (Or.inr rfl)
  | overThr hg _ => exact key _ _ _ hg (Or.inr rfl)
  | begin hg h _ => exact key _ _ _ hg (Or.inl (by rw [h]; simp))
  | again hg h _ => exact key _ _ _ hg (Or.inl (by rw [h]; simp))
  | pass hg h _ => exact key _ _ _ hg (Or.inl (by rw [h]; simp))
  | yield h1 _ h3 => exact key _ _ _ h3 (Or.inl (hexe h1 h3))
  | ret h1 _ h3 => exact key _ _ _ h3 (Or.inl (hexe h1 h3))
  | throw h1 _ h3 => exact key _ _ _ h3 (Or.inl (hexe h1 h3))
  | star h1 _ h3 => exact key _ _ _ h3 (Or.inl (hexe h1 h3))
  | passed h1 _ h3 _ => exact key _ _ _ h3 (Or.inl (hexe h1 h3))
  | left _ _ _ _ _ => exact ⟨x, hx, hp⟩

theorem did_none {s s' : State} {op : Op} {o : Out} (h : Did s op s' o) (g : Nat)
    (hn : s'.gens[g]? = none) : s.gens[g]? = none := by
  rw [List.getElem?_eq_none_iff] at hn ⊢
  cases h <;> simp_all
  omega

theorem step_act {s s' : State} {op : Op} {o : Out} (h : step s op = .ok (s', o)) :
    ∃ s1, act s op = .ok (s1, o) ∧ s' = { s1 with time := s1.time + 1 } := by
  unfold step at h
  obtain ⟨⟨s1, o1⟩, h1, h2⟩ := bindOk h
  simp only [Except.ok.injEq, Prod.mk.injEq] at h2
  obtain ⟨rfl, rfl⟩ := h2
  exact ⟨s1, h1, rfl⟩

theorem did_time {s s' : State} {op : Op} {o : Out} (h : Did s op s' o) : s'.time = s.time := by
  cases h <;> rfl

theorem trace_hist {ops : List Op} {outs : List Out} {s : State} (h : Trace ops outs s) :
    Hist ops outs s := by
  induction h with
  | nil => exact hist_nil
  | snoc ht hs ih =>
    obtain ⟨s1, ha, rfl⟩ := step_act hs
    have hd := act_did ih.inv ha
    have := hist_snoc ih (did_inv ih.inv hd) (did_cat ih.inv hd) (did_none hd)
      (fun g x => did_completed ih.inv hd)
    rw [did_time hd]
    exact this

end Verif.Gen

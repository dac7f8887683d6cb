import Verif.Spec.AsyncGen

/-! Lemmas about async generators: the shapes of a state, and what one operation does. -/

namespace Verif.AsyncGen

theorem bindOk {α β : Type} {m : Except Fault α} {f : α → Except Fault β} {b : β}
    (h : (m >>= f) = .ok b) : ∃ a, m = .ok a ∧ f a = .ok b := by
  cases m with
  | error e => simp [bind, Except.bind] at h
  | ok a => exact ⟨a, rfl, h⟩

/-- The states possible. -/
inductive Shape : State → Prop where
  | start {kind : Option Kind} {val : Val} {log : List (Nat × Answer)} {count : Nat} :
      Shape ⟨.start, [], kind, val, .begin, none, 0, 0, [], log, count⟩
  | yielded {kind : Option Kind} {val : Val} {log : List (Nat × Answer)} {count : Nat} :
      Shape ⟨.yielded, [], kind, val, .resume, none, 0, 0, [], log, count⟩
  | star {kind : Option Kind} {val : Val} {pos : Pos} {log : List (Nat × Answer)} {count : Nat} :
      Shape ⟨.yielded, [], kind, val, pos, some .iterNext, 0, 0, [], log, count⟩
  | body {r : Req} {q : List Req} {kind : Option Kind} {val : Val} {pos : Pos}
      {log : List (Nat × Answer)} {count : Nat} :
      Shape ⟨.executing, r :: q, kind, val, pos, none, 0, 0, [.body], log, count⟩
  | delegate {r : Req} {q : List Req} {kind : Kind} {val : Val} {pos : Pos}
      {log : List (Nat × Answer)} {count : Nat} :
      Shape ⟨.executing, r :: q, some kind, val, pos, none, 0, 0, [.delegate], log, count⟩
  | awaiting {r : Req} {q : List Req} {kind : Option Kind} {val : Val} {pos : Pos} {op : AOp}
      {log : List (Nat × Answer)} {count : Nat} : op ≠ .iterNext →
      Shape ⟨.executing, r :: q, kind, val, pos, some op, 1, 0, [], log, count⟩
  | completing {r : Req} {q : List Req} {kind : Option Kind} {val : Val} {pos : Pos} {c : Cont}
      {log : List (Nat × Answer)} {count : Nat} : c = .yield ∨ c = .star →
      r.id ∈ log.map Prod.fst →
      Shape ⟨.executing, r :: q, kind, val, pos, none, 0, 0, [.completing r.id c], log, count⟩
  | finishing {r : Req} {q : List Req} {kind : Option Kind} {val : Val} {pos : Pos} {c : Cont}
      {log : List (Nat × Answer)} {count : Nat} : c = .finish ∨ c = .drain →
      r.id ∈ log.map Prod.fst →
      Shape ⟨.completed, r :: q, kind, val, pos, none, 0, 0, [.completing r.id c], log, count⟩
  | completed {kind : Option Kind} {val : Val} {pos : Pos} {log : List (Nat × Answer)}
      {count : Nat} : Shape ⟨.completed, [], kind, val, pos, none, 0, 0, [], log, count⟩
  | returning {r : Req} {q : List Req} {kind : Option Kind} {val : Val} {pos : Pos}
      {log : List (Nat × Answer)} {count : Nat} : r.kind = .ret →
      Shape ⟨.awaitReturn, r :: q, kind, val, pos, none, 0, 0, [.returning r.bad], log, count⟩
  | waiting {r : Req} {q : List Req} {kind : Option Kind} {val : Val} {pos : Pos}
      {log : List (Nat × Answer)} {count : Nat} : r.kind = .ret →
      Shape ⟨.awaitReturn, r :: q, kind, val, pos, none, 0, 1, [], log, count⟩

/-- The generator is finished, or waits for the value of a `return` that finishes it. -/
def Phase.over : Phase → Prop
  | .completed => True
  | .awaitReturn => True
  | _ => False

/-- The answer given to a request taken from the queue of a finished generator. -/
def drained (r : Req) : Answer :=
  if r.kind = .thr then .rejected r.val else .result ⟨r.val, true⟩

/-- The answers given by one operation, to the requests `l`. -/
inductive Answers (p p' : Phase) : List Req → List (Nat × Answer) → Prop where
  | none : (p.over ↔ p'.over) → (p' = .completed → p = .completed) → Answers p p' [] []
  | value {r : Req} {v : Val} : p = .executing → p' = .executing →
      Answers p p' [r] [(r.id, .result ⟨v, false⟩)]
  | final {r : Req} {a : Answer} {l : List Req} : Final a → p'.over →
      (p = .awaitReturn → r.kind = .ret) →
      (∀ x, x ∈ l → x.kind ≠ .ret) → p ≠ .completed →
      Answers p p' (r :: l) ((r.id, a) :: l.map fun x => (x.id, drained x))
  | drained {l : List Req} : p = .completed → p'.over → (∀ x, x ∈ l → x.kind ≠ .ret) →
      Answers p p' l (l.map fun x => (x.id, drained x))

/-- What one operation does with the requests. -/
inductive Effect (s : State) (s' : State) : Op → Prop where
  | push {k : Kind} {v : Val} {bad : Option Val} : s'.count = s.count + 1 → s'.log = s.log →
      s'.pending = s.pending ++ [⟨s.count, k, v, bad⟩] → (s.phase.over → s'.phase.over) →
      (s'.phase.over → s.phase.over ∨ (s.phase = .start ∧ k = .ret)) →
      (s'.phase = .completed → s.phase = .completed) →
      Effect s s' (.call k v bad)
  | next {v : Val} {bad : Option Val} : s.phase = .completed → s'.phase = .completed →
      s'.count = s.count + 1 → s'.log = s.log ++ [(s.count, .result ⟨undef, true⟩)] →
      s'.pending = s.pending → Effect s s' (.call .next v bad)
  | thr {v : Val} {bad : Option Val} : s.phase = .completed ∨ s.phase = .start →
      s'.phase = .completed → s'.count = s.count + 1 →
      s'.log = s.log ++ [(s.count, .rejected v)] → s'.pending = s.pending →
      Effect s s' (.call .thr v bad)
  | other {op : Op} {l : List Req} {a : List (Nat × Answer)} : (∀ k v bad, op ≠ .call k v bad) →
      s'.count = s.count → s.pending = l ++ s'.pending → s'.log = s.log ++ a →
      Answers s.phase s'.phase l a → Effect s s' op

theorem drainLoop_ok (q : List Req) : ∀ (kind : Option Kind) (val : Val) (pos : Pos) (q0 : List Req)
    (log : List (Nat × Answer)) (count : Nat), ∃ s' done,
    drainLoop ⟨.completed, q0, kind, val, pos, none, 0, 0, [], log, count⟩ q = .ok s' ∧ Shape s' ∧
      q = done ++ s'.pending ∧ s'.log = log ++ done.map (fun r => (r.id, drained r)) ∧
      s'.count = count ∧ (∀ r, r ∈ done → r.kind ≠ .ret) ∧ s'.phase.over := by
  induction q with
  | nil =>
    intro kind val pos q0 log count
    exact ⟨⟨.completed, [], kind, val, pos, none, 0, 0, [], log, count⟩, [], rfl, .completed, rfl,
      by simp, rfl, by simp, trivial⟩
  | cons r q ih =>
    intro kind val pos q0 log count
    cases hk : r.kind with
    | ret =>
      refine ⟨⟨.awaitReturn, r :: q, kind, val, pos, none, 0, 0, [.returning r.bad], log, count⟩, [],
        ?_, .returning hk, rfl, by simp, rfl, by simp, trivial⟩
      simp [drainLoop, hk, awaitReturn]
    | thr =>
      obtain ⟨s', done, h1, h2, h3, h4, h5, h6, h7⟩ :=
        ih kind val pos q0 (log ++ [(r.id, .rejected r.val)]) count
      refine ⟨s', r :: done, ?_, h2, by rw [h3]; rfl, ?_, h5, ?_, h7⟩
      · simp only [drainLoop, hk, settle]; exact h1
      · rw [h4]; simp [drained, hk]
      · intro x hx
        rcases List.mem_cons.mp hx with rfl | hx
        · rw [hk]; simp
        · exact h6 x hx
    | next =>
      refine ⟨⟨.completed, r :: q, kind, val, pos, none, 0, 0, [.completing r.id .drain],
        log ++ [(r.id, .result ⟨r.val, true⟩)], count⟩, [r], ?_, .finishing (Or.inr rfl) (by simp), ?_, ?_, rfl,
        ?_, trivial⟩
      · simp [drainLoop, hk, resolve, settle]
      · simp [State.pending]
      · simp [drained, hk]
      · intro x hx; simp at hx; subst hx; rw [hk]; simp

theorem filter_head {r : Req} {q : List Req} (h : ((r :: q).map Req.id).Nodup) :
    (r :: q).filter (·.id ≠ r.id) = q := by
  simp only [List.map_cons, List.nodup_cons] at h
  rw [List.filter_cons]
  simp only [ne_eq, not_true_eq_false, decide_false, Bool.false_eq_true, if_false]
  rw [List.filter_eq_self]
  intro x hx
  simp only [decide_eq_true_eq]
  intro he
  exact h.1 (he ▸ List.mem_map_of_mem hx)

theorem Calm.tame {s : State} {op : Op} (h : Calm s op) : Tame s op := by
  cases op <;> try trivial
  rename_i k v bad
  cases k <;> first | trivial | exact h

/-- The outcome of an operation: what it does, or that it is impossible. -/
def Good (s : State) (op : Op) (r : Except Fault (State × Out)) : Prop :=
  r = .error .stuck ∨ ∃ s' o, r = .ok (s', o) ∧ Shape s' ∧ Effect s s' op

theorem good_ok {s s' : State} {op : Op} {o : Out} (h : Shape s') (he : Effect s s' op) :
    Good s op (.ok (s', o)) := Or.inr ⟨s', o, rfl, h, he⟩

theorem finishError_ok (r : Req) (q : List Req) (p : Phase) (kind : Option Kind) (val : Val) (pos : Pos)
    (log : List (Nat × Answer)) (count : Nat) (e : Val) : ∃ s' done,
    finishError ⟨p, r :: q, kind, val, pos, none, 0, 0, [], log, count⟩ e = .ok s' ∧ Shape s' ∧
      q = done ++ s'.pending ∧
      s'.log = log ++ (r.id, .rejected e) :: done.map (fun r => (r.id, drained r)) ∧
      s'.count = count ∧ (∀ r, r ∈ done → r.kind ≠ .ret) ∧ s'.phase.over := by
  obtain ⟨s', done, h1, h2, h3, h4, h5, h6, h7⟩ :=
    drainLoop_ok q kind val pos q (log ++ [(r.id, .rejected e)]) count
  refine ⟨s', done, ?_, h2, h3, by rw [h4]; simp, h5, h6, h7⟩
  simp only [finishError, rejectFirst, settle, drain, bind, Except.bind, if_true]
  exact h1

theorem yieldResume_good {s : State} {op : Op} {r : Req} {q : List Req} {kind : Option Kind}
    {val : Val} {pos : Pos} {log : List (Nat × Answer)} {count : Nat}
    (he : ∀ s' : State, s'.phase = .executing → s'.pending = r :: q → s'.log = log →
      s'.count = count → Effect s s' op) :
    Good s op (yieldResume ⟨.executing, r :: q, kind, val, pos, none, 0, 0, [], log, count⟩) := by
  simp only [yieldResume]
  cases hk : r.kind with
  | next => exact good_ok .body (he _ rfl rfl rfl rfl)
  | thr => exact good_ok .body (he _ rfl rfl rfl rfl)
  | ret =>
    simp only
    cases r.bad with
    | none => exact good_ok (.awaiting (by simp)) (he _ rfl rfl rfl rfl)
    | some e => exact good_ok .body (he _ rfl rfl rfl rfl)

theorem iterNext_good {s : State} {op : Op} {r : Req} {q : List Req} {kind : Option Kind}
    {val : Val} {pos : Pos} {log : List (Nat × Answer)} {count : Nat}
    (he : ∀ s' : State, s'.phase = .executing → s'.pending = r :: q → s'.log = log →
      s'.count = count → Effect s s' op) :
    Good s op (iterNext ⟨.executing, r :: q, kind, val, pos, none, 0, 0, [], log, count⟩) := by
  simp only [iterNext]
  cases hk : r.kind with
  | next => exact good_ok .delegate (he _ rfl rfl rfl rfl)
  | thr => exact good_ok .delegate (he _ rfl rfl rfl rfl)
  | ret =>
    simp only
    cases r.bad with
    | none => exact good_ok (.awaiting (by simp)) (he _ rfl rfl rfl rfl)
    | some e => exact good_ok .body (he _ rfl rfl rfl rfl)

theorem call_good {s : State} (hs : Shape s) (k : Kind) (v : Val) (bad : Option Val)
    (ht : Tame s (.call k v bad)) : Good s (.call k v bad) (call s k v bad) := by
  -- a call that is only put into the queue
  have push : ∀ s' : State, s'.count = s.count + 1 → s'.log = s.log →
      s'.pending = s.pending ++ [⟨s.count, k, v, bad⟩] → s'.phase = s.phase →
      Effect s s' (.call k v bad) := by
    intro s' h1 h2 h3 h4
    exact .push h1 h2 h3 (by rw [h4]; exact id) (by rw [h4]; exact Or.inl) (by rw [h4]; exact id)
  cases hs with
  | start =>
    cases k with
    | next =>
      refine good_ok (o := .enter) (s' := ⟨.executing, [⟨_, .next, v, bad⟩], _, _, .begin, none, 0, 0,
        [.body], _, _ + 1⟩) .body ?_
      exact .push rfl rfl rfl (by simp [Phase.over]) (by simp [Phase.over]) (by simp)
    | ret =>
      refine good_ok (o := .none) (s' := ⟨.awaitReturn, [⟨_, .ret, v, bad⟩], _, _, .begin, none, 0, 0,
        [.returning bad], _, _ + 1⟩) (.returning rfl) ?_
      exact .push rfl rfl rfl (by simp [Phase.over]) (by simp) (by simp)
    | thr =>
      refine good_ok (o := .none) (s' := ⟨.completed, [], _, _, .begin, none, 0, 0,
        [], _ ++ [(_, .rejected v)], _ + 1⟩) .completed ?_
      exact .thr (Or.inr rfl) rfl rfl rfl rfl
  | yielded =>
    rename_i kind val log count
    have hy : ∀ (k' : Kind), k' = k → Good ⟨.yielded, [], kind, val, .resume, none, 0, 0, [], log, count⟩ (.call k v bad)
        (yieldResume ⟨.executing,
        [⟨count, k', v, bad⟩], kind, val, .resume, none, 0, 0, [], log, count + 1⟩) := by
      intro k' hk
      refine yieldResume_good ?_
      intro s' h1 h2 h3 h4
      subst hk
      exact .push h4 h3 h2 (by simp [Phase.over]) (by rw [h1]; simp [Phase.over]) (by rw [h1]; simp)
    cases k with
    | next => exact hy .next rfl
    | ret => exact hy .ret rfl
    | thr => exact hy .thr rfl
  | star =>
    rename_i kind val pos log count
    have hy : ∀ (k' : Kind), k' = k → Good ⟨.yielded, [], kind, val, pos, some .iterNext, 0, 0, [], log, count⟩ (.call k v bad)
        (iterNext ⟨.executing,
        [⟨count, k', v, bad⟩], kind, val, pos, none, 0, 0, [], log, count + 1⟩) := by
      intro k' hk
      refine iterNext_good ?_
      intro s' h1 h2 h3 h4
      subst hk
      exact .push h4 h3 h2 (by simp [Phase.over]) (by rw [h1]; simp [Phase.over]) (by rw [h1]; simp)
    cases k with
    | next => exact hy .next rfl
    | ret => exact hy .ret rfl
    | thr => exact hy .thr rfl
  | body =>
    rename_i r q kind val pos log count
    have : Good _ (.call k v bad) (.ok (⟨.executing, r :: (q ++ [⟨count, k, v, bad⟩]), kind, val, pos, none,
        0, 0, [.body], log, count + 1⟩, .none)) := good_ok .body (push _ rfl rfl rfl rfl)
    cases k <;> exact this
  | delegate =>
    rename_i r q kind val pos log count
    have : Good _ (.call k v bad) (.ok (⟨.executing, r :: (q ++ [⟨count, k, v, bad⟩]), some kind, val, pos, none,
        0, 0, [.delegate], log, count + 1⟩, .none)) := good_ok .delegate (push _ rfl rfl rfl rfl)
    cases k <;> exact this
  | awaiting hop =>
    rename_i r q kind val pos op log count
    have : Good _ (.call k v bad) (.ok (⟨.executing, r :: (q ++ [⟨count, k, v, bad⟩]), kind, val, pos,
        some op, 1, 0, [], log, count + 1⟩, .none)) := good_ok (.awaiting hop) (push _ rfl rfl rfl rfl)
    cases k <;> exact this
  | completing hc hl =>
    rename_i r q kind val pos c log count
    have : Good _ (.call k v bad) (.ok (⟨.executing, r :: (q ++ [⟨count, k, v, bad⟩]), kind, val, pos,
        none, 0, 0, [.completing r.id c], log, count + 1⟩, .none)) :=
      good_ok (.completing hc hl) (push _ rfl rfl rfl rfl)
    cases k <;> exact this
  | finishing hc hl =>
    rename_i r q kind val pos c log count
    cases k with
    | next =>
      refine good_ok (o := .none) (s' := ⟨.completed, r :: q, kind, val, pos, none, 0, 0,
        [.completing r.id c], log ++ [(count, .result ⟨undef, true⟩)], count + 1⟩) (.finishing hc (by simp [List.map_append] at hl ⊢; exact Or.inl hl)) ?_
      exact .next rfl rfl rfl rfl rfl
    | ret => exact absurd ⟨_, List.mem_singleton.mpr rfl, by rcases hc with rfl | rfl <;> trivial⟩ ht
    | thr =>
      refine good_ok (o := .none) (s' := ⟨.completed, r :: q, kind, val, pos, none, 0, 0,
        [.completing r.id c], log ++ [(count, .rejected v)], count + 1⟩) (.finishing hc (by simp [List.map_append] at hl ⊢; exact Or.inl hl)) ?_
      exact .thr (Or.inl rfl) rfl rfl rfl rfl
  | completed =>
    rename_i kind val pos log count
    cases k with
    | next =>
      refine good_ok (o := .none) (s' := ⟨.completed, [], kind, val, pos, none, 0, 0,
        [], log ++ [(count, .result ⟨undef, true⟩)], count + 1⟩) .completed ?_
      exact .next rfl rfl rfl rfl rfl
    | ret =>
      exact good_ok (o := .none) (s' := ⟨.awaitReturn, [⟨count, .ret, v, bad⟩], kind, val, pos, none, 0,
        0, [.returning bad], log, count + 1⟩) (.returning rfl)
        (.push rfl rfl rfl (fun _ => trivial) (fun _ => Or.inl trivial) (fun _ => rfl))
    | thr =>
      refine good_ok (o := .none) (s' := ⟨.completed, [], kind, val, pos, none, 0, 0,
        [], log ++ [(count, .rejected v)], count + 1⟩) .completed ?_
      exact .thr (Or.inl rfl) rfl rfl rfl rfl
  | returning hk =>
    rename_i r q kind val pos log count
    have : Good _ (.call k v bad) (.ok (⟨.awaitReturn, r :: (q ++ [⟨count, k, v, bad⟩]), kind, val, pos,
        none, 0, 0, [.returning r.bad], log, count + 1⟩, .none)) :=
      good_ok (.returning hk) (push _ rfl rfl rfl rfl)
    cases k <;> exact this
  | waiting hk =>
    rename_i r q kind val pos log count
    have : Good _ (.call k v bad) (.ok (⟨.awaitReturn, r :: (q ++ [⟨count, k, v, bad⟩]), kind, val, pos,
        none, 0, 1, [], log, count + 1⟩, .none)) :=
      good_ok (.waiting hk) (push _ rfl rfl rfl rfl)
    cases k <;> exact this

theorem step_good {s : State} (hs : Shape s) (hn : (s.queue.map Req.id).Nodup) (op : Op)
    (ht : Tame s op) : Good s op (step s op) := by
  -- an operation that answers nothing
  have quiet : ∀ {s0 s' : State} {op : Op}, (∀ k v bad, op ≠ .call k v bad) → s'.count = s0.count →
      s'.log = s0.log → s'.pending = s0.pending → (s0.phase.over ↔ s'.phase.over) →
      (s'.phase = .completed → s0.phase = .completed) → Effect s0 s' op := by
    intro s0 s' op h1 h2 h3 h4 h5 h6
    exact .other (l := []) (a := []) h1 h2 (by simp [h4]) (by simp [h3]) (.none h5 h6)
  cases op with
  | call k v bad => exact call_good hs k v bad ht
  | back =>
    cases hs with
    | start => exact Or.inl rfl
    | yielded => exact Or.inl rfl
    | star => exact Or.inl rfl
    | body => exact Or.inl rfl
    | delegate => exact Or.inl rfl
    | awaiting => exact Or.inl rfl
    | completed => exact Or.inl rfl
    | waiting => exact Or.inl rfl
    | completing hc hl =>
      rename_i r q kind val pos c log count
      have hf := filter_head hn
      simp only [step, completed, List.any_cons, decide_true, Bool.true_or, if_true, hf]
      rcases hc with rfl | rfl
      · cases q with
        | nil => exact good_ok .yielded (quiet (by simp) rfl rfl rfl (by simp [Phase.over]) (by simp))
        | cons r' q =>
          simp only [List.isEmpty_cons, Bool.false_eq_true, if_false]
          refine yieldResume_good ?_
          intro s' h1 h2 h3 h4
          exact quiet (by simp) h4 h3 h2 (by rw [h1]) (by rw [h1]; exact id)
      · cases q with
        | nil => exact good_ok .star (quiet (by simp) rfl rfl rfl (by simp [Phase.over]) (by simp))
        | cons r' q =>
          simp only [List.isEmpty_cons, Bool.false_eq_true, if_false]
          refine iterNext_good ?_
          intro s' h1 h2 h3 h4
          exact quiet (by simp) h4 h3 h2 (by rw [h1]) (by rw [h1]; exact id)
    | finishing hc hl =>
      rename_i r q kind val pos c log count
      have hf := filter_head hn
      obtain ⟨s', done, h1, h2, h3, h4, h5, h6, h7⟩ := drainLoop_ok q kind val pos q log count
      have : Good ⟨.completed, r :: q, kind, val, pos, none, 0, 0, [.completing r.id c], log, count⟩ .back
          (.ok (s', .none)) := good_ok h2 (.other (by simp) h5 h3 h4 (.drained rfl h7 h6))
      simp only [step, completed, List.any_cons, decide_true, Bool.true_or, if_true, hf]
      rcases hc with rfl | rfl
      · simp only [drain, if_true, h1, bind, Except.bind]
        exact this
      · simp only [h1, bind, Except.bind]
        exact this
    | returning hk =>
      rename_i r q kind val pos log count
      cases hb : r.bad with
      | none =>
        have : Good _ .back (.ok (⟨.awaitReturn, r :: q, kind, val, pos, none, 0, 1, [], log, count⟩, .none)) :=
          good_ok (s := ⟨.awaitReturn, r :: q, kind, val, pos, none, 0, 0, [.returning none], log,
            count⟩) (.waiting hk) (quiet (by simp) rfl rfl rfl Iff.rfl id)
        exact this
      | some e =>
        obtain ⟨s', done, h1, h2, h3, h4, h5, h6, h7⟩ :=
          finishError_ok r q .awaitReturn kind val pos log count e
        simp only [step, h1, bind, Except.bind]
        refine good_ok h2 (.other (l := r :: done) (by simp) h5 ?_ h4 ?_)
        · simp [State.pending, h3]
        · exact .final trivial h7 (fun _ => hk) h6 (by simp)
  | await =>
    cases hs <;> first
      | exact Or.inl rfl
      | exact good_ok (.awaiting (by simp)) (quiet (by simp) rfl rfl rfl Iff.rfl id)
  | yield =>
    cases hs <;> first
      | exact Or.inl rfl
      | exact good_ok (.awaiting (by simp)) (quiet (by simp) rfl rfl rfl Iff.rfl id)
  | ret v =>
    cases hs <;> first
      | exact Or.inl rfl
      | skip
    rename_i r q kind val pos log count
    refine good_ok (s' := ⟨.completed, r :: q, kind, val, pos, none, 0, 0, [.completing r.id .finish],
      log ++ [(r.id, .result ⟨v, true⟩)], count⟩) (.finishing (Or.inl rfl) (by simp)) ?_
    exact .other (l := [r]) (by simp) rfl rfl rfl (.final (l := []) rfl trivial (by simp) (by simp) (by simp))
  | throw e =>
    cases hs <;> first
      | exact Or.inl rfl
      | skip
    rename_i r q kind val pos log count
    obtain ⟨s', done, h1, h2, h3, h4, h5, h6, h7⟩ :=
      finishError_ok r q .executing kind val pos log count e
    simp only [step, h1, bind, Except.bind]
    refine good_ok h2 (.other (l := r :: done) (by simp) h5 ?_ h4 ?_)
    · simp [State.pending, h3]
    · exact .final trivial h7 (by simp) h6 (by simp)
  | star =>
    cases hs <;> first
      | exact Or.inl rfl
      | exact good_ok .delegate (quiet (by simp) rfl rfl rfl Iff.rfl id)
  | starThrew e =>
    cases hs <;> first
      | exact Or.inl rfl
      | exact good_ok .body (quiet (by simp) rfl rfl rfl Iff.rfl id)
  | starAwait has =>
    cases hs <;> first
      | exact Or.inl rfl
      | skip
    rename_i r q kind val pos log count
    cases kind <;> cases has <;>
      exact good_ok (.awaiting (by simp)) (quiet (by simp) rfl rfl rfl Iff.rfl id)
  | starClosed =>
    cases hs <;> first
      | exact Or.inl rfl
      | skip
    rename_i r q kind val pos log count
    cases kind <;> first
      | exact Or.inl rfl
      | exact good_ok .body (quiet (by simp) rfl rfl rfl Iff.rfl id)
  | fulfill v res =>
    cases hs <;> first
      | exact Or.inl rfl
      | skip
    rename_i r q kind val pos aop log count hop
    have ans : ∀ (w : Val) (c : Cont), c = .yield ∨ c = .star → 
        Good ⟨.executing, r :: q, kind, val, pos, some aop, 1, 0, [], log, count⟩ (.fulfill v res)
          (.ok (⟨.executing, r :: q, kind, val, pos, none, 0, 0, [.completing r.id c],
            log ++ [(r.id, .result ⟨w, false⟩)], count⟩, .none)) := by
      intro w c hc
      exact good_ok (.completing hc (by simp)) (.other (l := [r]) (by simp) rfl rfl rfl (.value rfl rfl))
    cases aop with
    | command => exact good_ok .body (quiet (by simp) rfl rfl rfl Iff.rfl id)
    | yieldV => exact ans v .yield (Or.inl rfl)
    | yieldReturn => exact good_ok .body (quiet (by simp) rfl rfl rfl Iff.rfl id)
    | iterYieldNext =>
      cases res with
      | notObject => exact good_ok .body (quiet (by simp) rfl rfl rfl Iff.rfl id)
      | threw e => exact good_ok .body (quiet (by simp) rfl rfl rfl Iff.rfl id)
      | object o =>
        obtain ⟨w, d⟩ := o
        cases d with
        | false => exact ans w .star (Or.inr rfl)
        | true =>
          simp only [step, settled, and_self, gt_iff_lt, Nat.lt_one_iff, if_true, fulfilled]
          by_cases hk : kind = some .ret
          · simp only [hk, if_true]
            exact good_ok .body (quiet (by simp) rfl rfl rfl Iff.rfl id)
          · simp only [hk, if_false]
            exact good_ok .body (quiet (by simp) rfl rfl rfl Iff.rfl id)
    | iterNext => exact absurd rfl hop
    | iterReturn => exact good_ok .delegate (quiet (by simp) rfl rfl rfl Iff.rfl id)
    | throwTypeError => exact good_ok .body (quiet (by simp) rfl rfl rfl Iff.rfl id)
    | returnUndefined => exact good_ok .body (quiet (by simp) rfl rfl rfl Iff.rfl id)
  | reject e =>
    cases hs <;> first
      | exact Or.inl rfl
      | skip
    rename_i r q kind val pos aop log count hop
    cases aop with
    | iterNext => exact absurd rfl hop
    | iterReturn => exact good_ok .delegate (quiet (by simp) rfl rfl rfl Iff.rfl id)
    | _ => exact good_ok .body (quiet (by simp) rfl rfl rfl Iff.rfl id)
  | returned v =>
    cases hs <;> first
      | exact Or.inl rfl
      | skip
    rename_i r q kind val pos log count hk
    refine good_ok (s' := ⟨.completed, r :: q, kind, val, pos, none, 0, 0, [.completing r.id .finish],
      log ++ [(r.id, .result ⟨v, true⟩)], count⟩) (.finishing (Or.inl rfl) (by simp)) ?_
    exact .other (l := [r]) (by simp) rfl rfl rfl
      (.final (l := []) rfl trivial (fun _ => hk) (by simp) (by simp))
  | returnFailed e =>
    cases hs <;> first
      | exact Or.inl rfl
      | skip
    rename_i r q kind val pos log count hk
    obtain ⟨s', done, h1, h2, h3, h4, h5, h6, h7⟩ :=
      finishError_ok r q .awaitReturn kind val pos log count e
    have : step ⟨.awaitReturn, r :: q, kind, val, pos, none, 0, 1, [], log, count⟩ (.returnFailed e) =
        .ok (s', .none) := by
      simp [step, h1, bind, Except.bind]
    rw [this]
    refine good_ok h2 (.other (l := r :: done) (by simp) h5 ?_ h4 ?_)
    · simp [State.pending, h3]
    · exact .final trivial h7 (fun _ => hk) h6 (by simp)

end Verif.AsyncGen

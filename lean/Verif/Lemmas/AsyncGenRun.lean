import Verif.Lemmas.AsyncGenHist

/-! A run of an async generator with given code serves the calls one after the other. -/

namespace Verif.AsyncGen
open Spec

/-- The value of an answer to a `next` of a finished generator: undefined, or the argument. -/
def Loose (v w : Val) : Prop := w = undef ∨ w = v

/-- The call of a request. -/
def Req.toCall (out : Nat → Outcome) (r : Req) : Call := ⟨r.kind, r.val, out r.id⟩

/-- The call `c` of the session `x` is being served, and has come so far. -/
def Prog (b : Body) (x : Session) (c : Call) (m : Mode) (h : List Ev) : Prop :=
  ∀ y a, Goes b m h y a → Serve b Loose x c y a

theorem Prog.go {b : Body} {x : Session} {c : Call} {m m' : Mode} {h : List Ev} {ev : Ev}
    (hp : Prog b x c m h) (hr : react h m (b h) = .go ev m') : Prog b x c m' (h ++ [ev]) :=
  fun y a hg => hp y a (.go hr hg)

theorem Prog.answer {b : Body} {x y : Session} {c : Call} {m : Mode} {h : List Ev} {a : Answer}
    (hp : Prog b x c m h) (hr : react h m (b h) = .answer y a) : Serve b Loose x c y a :=
  hp y a (.answer hr)

/-- What is awaited, in the words of the code. -/
def Waits (b : Body) (x : Session) (c : Call) (h : List Ev) (kind : Option Kind) : AOp → Prop
  | .command => Prog b x c .body h ∧ ∃ o, b h = .await o
  | .yieldV => Prog b x c .body h ∧ ∃ o, b h = .yield o
  | .yieldReturn => x = .active h ∧ c.kind = .ret
  | .iterYieldNext => ∃ k has o r, kind = some k ∧ b h = .starAwait has o r ∧
      (has = true ∨ k = .next) ∧ Prog b x c (.iter k) h
  | .iterNext => False
  | .iterReturn => x = .star h ∧ c.kind = .ret
  | .throwTypeError => ∃ o r, b h = .starAwait false o r ∧ Prog b x c (.iter .thr) h
  | .returnUndefined => ∃ o r, b h = .starAwait false o r ∧ Prog b x c (.iter .ret) h

/-- The state in the words of a session. -/
inductive At (b : Body) (out : Nat → Outcome) (h : List Ev) (x : Session) : State → Prop where
  | start {kind : Option Kind} {val : Val} {log : List (Nat × Answer)} {count : Nat} :
      x = .fresh → h = [] →
      At b out h x ⟨.start, [], kind, val, .begin, none, 0, 0, [], log, count⟩
  | yielded {kind : Option Kind} {val : Val} {log : List (Nat × Answer)} {count : Nat} :
      x = .active h →
      At b out h x ⟨.yielded, [], kind, val, .resume, none, 0, 0, [], log, count⟩
  | star {kind : Option Kind} {val : Val} {pos : Pos} {log : List (Nat × Answer)} {count : Nat} :
      x = .star h →
      At b out h x ⟨.yielded, [], kind, val, pos, some .iterNext, 0, 0, [], log, count⟩
  | body {r : Req} {q : List Req} {kind : Option Kind} {val : Val} {pos : Pos}
      {log : List (Nat × Answer)} {count : Nat} : Prog b x (r.toCall out) .body h →
      At b out h x ⟨.executing, r :: q, kind, val, pos, none, 0, 0, [.body], log, count⟩
  | delegate {r : Req} {q : List Req} {kind : Kind} {val : Val} {pos : Pos}
      {log : List (Nat × Answer)} {count : Nat} : Prog b x (r.toCall out) (.iter kind) h →
      At b out h x ⟨.executing, r :: q, some kind, val, pos, none, 0, 0, [.delegate], log, count⟩
  | awaiting {r : Req} {q : List Req} {kind : Option Kind} {val : Val} {pos : Pos} {op : AOp}
      {log : List (Nat × Answer)} {count : Nat} : Waits b x (r.toCall out) h kind op →
      At b out h x ⟨.executing, r :: q, kind, val, pos, some op, 1, 0, [], log, count⟩
  | yielding {r : Req} {q : List Req} {kind : Option Kind} {val : Val} {pos : Pos}
      {log : List (Nat × Answer)} {count : Nat} : x = .active h →
      At b out h x ⟨.executing, r :: q, kind, val, pos, none, 0, 0, [.completing r.id .yield], log, count⟩
  | starring {r : Req} {q : List Req} {kind : Option Kind} {val : Val} {pos : Pos}
      {log : List (Nat × Answer)} {count : Nat} : x = .star h →
      At b out h x ⟨.executing, r :: q, kind, val, pos, none, 0, 0, [.completing r.id .star], log, count⟩
  | finishing {r : Req} {q : List Req} {kind : Option Kind} {val : Val} {pos : Pos} {c : Cont}
      {log : List (Nat × Answer)} {count : Nat} : c = .finish ∨ c = .drain → x = .finished →
      At b out h x ⟨.completed, r :: q, kind, val, pos, none, 0, 0, [.completing r.id c], log, count⟩
  | completed {kind : Option Kind} {val : Val} {pos : Pos} {log : List (Nat × Answer)}
      {count : Nat} : x = .finished →
      At b out h x ⟨.completed, [], kind, val, pos, none, 0, 0, [], log, count⟩
  | returning {r : Req} {q : List Req} {kind : Option Kind} {val : Val} {pos : Pos}
      {log : List (Nat × Answer)} {count : Nat} : r.kind = .ret → x = .fresh ∨ x = .finished →
      At b out h x ⟨.awaitReturn, r :: q, kind, val, pos, none, 0, 0, [.returning r.bad], log, count⟩
  | waiting {r : Req} {q : List Req} {kind : Option Kind} {val : Val} {pos : Pos}
      {log : List (Nat × Answer)} {count : Nat} : r.kind = .ret → x = .fresh ∨ x = .finished →
      At b out h x ⟨.awaitReturn, r :: q, kind, val, pos, none, 0, 1, [], log, count⟩

/-- The request of an operation. -/
def request (s : State) : Op → List Req
  | .call k v bad => [⟨s.count, k, v, bad⟩]
  | _ => []

/-- What one operation comes to: some of the calls, the one just made included, are served. -/
def Moves (b : Body) (out : Nat → Outcome) (x : Session) (s : State) (h : List Ev) (op : Op)
    (r : Except Fault (State × Out)) : Prop :=
  ∀ s' o, r = .ok (s', o) → ∃ x' l a, At b out (h ++ o.ev) x' s' ∧
    s.pending ++ request s op = l ++ s'.pending ∧ s'.log = s.log ++ a ∧
    a.map Prod.fst = l.map Req.id ∧
    Serves b Loose x (l.map (Req.toCall out)) (a.map Prod.snd) x' ∧
    (∀ r, r ∈ s'.queue → r ∈ s.queue ++ request s op)

theorem moves_stuck {b : Body} {out : Nat → Outcome} {x : Session} {s : State} {h : List Ev} {op : Op}
    {f : Fault} : Moves b out x s h op (.error f) := by
  intro s' o hr; simp at hr

theorem moves_ok {b : Body} {out : Nat → Outcome} {x : Session} {s : State} {h : List Ev} {op : Op}
    {s' : State} {o : Out} (x' : Session) (l : List Req) (a : List (Nat × Answer))
    (h1 : At b out (h ++ o.ev) x' s')
    (h2 : s.pending ++ request s op = l ++ s'.pending) (h3 : s'.log = s.log ++ a)
    (h4 : a.map Prod.fst = l.map Req.id)
    (h5 : Serves b Loose x (l.map (Req.toCall out)) (a.map Prod.snd) x')
    (h6 : ∀ r, r ∈ s'.queue → r ∈ s.queue ++ request s op) :
    Moves b out x s h op (.ok (s', o)) := by
  intro s'' o' hr
  simp only [Except.ok.injEq, Prod.mk.injEq] at hr
  obtain ⟨rfl, rfl⟩ := hr
  exact ⟨x', l, a, h1, h2, h3, h4, h5, h6⟩

/-- An operation that answers nothing. -/
theorem moves_quiet {b : Body} {out : Nat → Outcome} {x : Session} {s : State} {h : List Ev} {op : Op}
    {s' : State} {o : Out} (h1 : At b out (h ++ o.ev) x s')
    (h2 : s'.pending = s.pending ++ request s op) (h3 : s'.log = s.log)
    (h6 : ∀ r, r ∈ s'.queue → r ∈ s.queue ++ request s op) :
    Moves b out x s h op (.ok (s', o)) :=
  moves_ok x [] [] h1 (by simp [h2]) (by simp [h3]) rfl .nil h6

theorem Spec.Serves.one {b : Body} {W : Val → Val → Prop} {x y : Session} {c : Call} {a : Answer}
    (h : Serve b W x c y a) : Serves b W x [c] [a] y := .cons h .nil

theorem Spec.Serves.append {b : Body} {W : Val → Val → Prop} {x y z : Session} {cs cs' : List Call}
    {as as' : List Answer} (h : Serves b W x cs as y) (h' : Serves b W y cs' as' z) :
    Serves b W x (cs ++ cs') (as ++ as') z := by
  induction h with
  | nil => exact h'
  | cons h1 _ ih => exact .cons h1 (ih h')

theorem drainLoop_at (b : Body) (out : Nat → Outcome) (h : List Ev) (q : List Req) :
    ∀ (kind : Option Kind) (val : Val) (pos : Pos) (q0 : List Req)
    (log : List (Nat × Answer)) (count : Nat), ∃ s' done,
    drainLoop ⟨.completed, q0, kind, val, pos, none, 0, 0, [], log, count⟩ q = .ok s' ∧
      At b out h .finished s' ∧ q = done ++ s'.pending ∧
      s'.log = log ++ done.map (fun r => (r.id, drained r)) ∧
      Serves b Loose .finished (done.map (Req.toCall out)) (done.map drained) .finished ∧
      (∀ r, r ∈ s'.queue → r ∈ q) := by
  induction q with
  | nil =>
    intro kind val pos q0 log count
    exact ⟨⟨.completed, [], kind, val, pos, none, 0, 0, [], log, count⟩, [], rfl, .completed rfl, rfl,
      by simp, .nil, by simp⟩
  | cons r q ih =>
    intro kind val pos q0 log count
    cases hk : r.kind with
    | ret =>
      refine ⟨⟨.awaitReturn, r :: q, kind, val, pos, none, 0, 0, [.returning r.bad], log, count⟩, [],
        ?_, .returning hk (Or.inr rfl), rfl, by simp, .nil, fun _ h => h⟩
      simp [drainLoop, hk, awaitReturn]
    | thr =>
      obtain ⟨s', done, h1, h2, h3, h4, h5, h6⟩ :=
        ih kind val pos q0 (log ++ [(r.id, .rejected r.val)]) count
      refine ⟨s', r :: done, ?_, h2, by rw [h3]; rfl, ?_, ?_, fun x hx => List.mem_cons_of_mem _ (h6 x hx)⟩
      · simp only [drainLoop, hk, settle]; exact h1
      · rw [h4]; simp [drained, hk]
      · refine .cons ?_ h5
        simp only [Req.toCall, hk, drained, if_true]
        exact .thr (Or.inr rfl)
    | next =>
      refine ⟨⟨.completed, r :: q, kind, val, pos, none, 0, 0, [.completing r.id .drain],
        log ++ [(r.id, .result ⟨r.val, true⟩)], count⟩, [r], ?_, .finishing (Or.inr rfl) rfl, ?_, ?_,
        ?_, fun _ h => h⟩
      · simp [drainLoop, hk, resolve, settle]
      · simp [State.pending]
      · simp [drained, hk]
      · refine .cons ?_ .nil
        simp only [Req.toCall, hk, drained]
        exact .next (Or.inr rfl)

theorem finishError_at (b : Body) (out : Nat → Outcome) (h : List Ev) (r : Req) (q : List Req) (p : Phase)
    (kind : Option Kind) (val : Val) (pos : Pos)
    (log : List (Nat × Answer)) (count : Nat) (e : Val) : ∃ s' done,
    finishError ⟨p, r :: q, kind, val, pos, none, 0, 0, [], log, count⟩ e = .ok s' ∧
      At b out h .finished s' ∧ q = done ++ s'.pending ∧
      s'.log = log ++ (r.id, .rejected e) :: done.map (fun r => (r.id, drained r)) ∧
      Serves b Loose .finished (done.map (Req.toCall out)) (done.map drained) .finished ∧
      (∀ r, r ∈ s'.queue → r ∈ q) := by
  obtain ⟨s', done, h1, h2, h3, h4, h5, h6⟩ :=
    drainLoop_at b out h q kind val pos q (log ++ [(r.id, .rejected e)]) count
  refine ⟨s', done, ?_, h2, h3, by rw [h4]; simp, h5, h6⟩
  simp only [finishError, rejectFirst, settle, drain, bind, Except.bind, if_true]
  exact h1

theorem yieldResume_moves {b : Body} {out : Nat → Outcome} {x : Session} {s : State} {h : List Ev}
    {op : Op} {r : Req} {q : List Req} {kind : Option Kind}
    {val : Val} {pos : Pos} {log : List (Nat × Answer)} {count : Nat}
    (hx : x = .active h) (hb : r.bad = none) (hp : s.pending ++ request s op = r :: q)
    (hl : s.log = log) (hq : ∀ y, y ∈ r :: q → y ∈ s.queue ++ request s op) :
    Moves b out x s h op
      (yieldResume ⟨.executing, r :: q, kind, val, pos, none, 0, 0, [], log, count⟩) := by
  subst hx
  simp only [yieldResume]
  cases hk : r.kind with
  | next =>
    refine moves_quiet (.body ?_) hp.symm hl.symm hq
    intro y a hg
    refine .active ?_
    simpa [Call.received, Req.toCall, hk, Out.ev] using hg
  | thr =>
    refine moves_quiet (.body ?_) hp.symm hl.symm hq
    intro y a hg
    refine .active ?_
    simpa [Call.received, Req.toCall, hk, Out.ev] using hg
  | ret =>
    simp only [hb]
    refine moves_quiet (.awaiting ?_) hp.symm hl.symm hq
    exact ⟨by simp [Out.ev], hk⟩

theorem iterNext_moves {b : Body} {out : Nat → Outcome} {x : Session} {s : State} {h : List Ev}
    {op : Op} {r : Req} {q : List Req} {kind : Option Kind}
    {val : Val} {pos : Pos} {log : List (Nat × Answer)} {count : Nat}
    (hx : x = .star h) (hb : r.bad = none) (hp : s.pending ++ request s op = r :: q)
    (hl : s.log = log) (hq : ∀ y, y ∈ r :: q → y ∈ s.queue ++ request s op) :
    Moves b out x s h op
      (iterNext ⟨.executing, r :: q, kind, val, pos, none, 0, 0, [], log, count⟩) := by
  subst hx
  simp only [iterNext]
  cases hk : r.kind with
  | next =>
    refine moves_quiet (.delegate ?_) hp.symm hl.symm hq
    intro y a hg
    refine .star ?_
    simpa [Call.received, Req.toCall, hk, Out.ev] using hg
  | thr =>
    refine moves_quiet (.delegate ?_) hp.symm hl.symm hq
    intro y a hg
    refine .star ?_
    simpa [Call.received, Req.toCall, hk, Out.ev] using hg
  | ret =>
    simp only [hb]
    refine moves_quiet (.awaiting ?_) hp.symm hl.symm hq
    exact ⟨by simp [Out.ev], hk⟩

theorem call_moves {b : Body} {out : Nat → Outcome} {x : Session} {s : State} {h : List Ev}
    (ha : At b out h x s) (k : Kind) (v : Val) (hc : Calm s (.call k v none)) :
    Moves b out x s h (.call k v none) (call s k v none) := by
  -- a call that is only put into the queue
  have push : ∀ {s0 s' : State}, At b out h x s' →
      s'.log = s0.log → s'.pending = s0.pending ++ [⟨s0.count, k, v, none⟩] →
      s'.queue = s0.queue ++ [⟨s0.count, k, v, none⟩] →
      Moves b out x s0 h (.call k v none) (.ok (s', .none)) := by
    intro s0 s' h1 h2 h3 h4
    refine moves_quiet (by simpa [Out.ev] using h1) (by simpa [request] using h3) h2 ?_
    intro r hr; rw [h4] at hr; exact hr
  cases ha with
  | start hx hh =>
    rename_i kind val log count
    subst hx hh
    cases k with
    | next =>
      refine moves_quiet (s' := ⟨.executing, [⟨count, .next, v, none⟩], kind, val, .begin, none, 0, 0,
        [.body], log, count + 1⟩) (o := .enter) (.body ?_) rfl rfl (fun _ h => h)
      intro y a hg
      exact .begin hg
    | ret =>
      refine moves_quiet (s' := ⟨.awaitReturn, [⟨count, .ret, v, none⟩], kind, val, .begin, none, 0, 0,
        [.returning none], log, count + 1⟩) (o := .none) (.returning rfl (Or.inl rfl)) rfl rfl
        (fun _ h => h)
    | thr =>
      refine moves_ok (s' := ⟨.completed, [], kind, val, .begin, none, 0, 0,
        [], log ++ [(count, .rejected v)], count + 1⟩) (o := .none) .finished [⟨count, .thr, v, none⟩]
        [(count, .rejected v)] (.completed rfl) ?_ ?_ rfl (.one (.thr (Or.inl rfl))) (by simp) <;> rfl
  | yielded hx =>
    rename_i kind val log count
    have hy : ∀ (k' : Kind), k' = k → Moves b out x ⟨.yielded, [], kind, val, .resume, none, 0, 0, [], log, count⟩
        h (.call k v none) (yieldResume ⟨.executing,
        [⟨count, k', v, none⟩], kind, val, .resume, none, 0, 0, [], log, count + 1⟩) := by
      intro k' hk
      subst hk
      exact yieldResume_moves hx rfl rfl rfl (fun _ h => h)
    cases k with
    | next => exact hy .next rfl
    | ret => exact hy .ret rfl
    | thr => exact hy .thr rfl
  | star hx =>
    rename_i kind val pos log count
    have hy : ∀ (k' : Kind), k' = k → Moves b out x ⟨.yielded, [], kind, val, pos, some .iterNext, 0, 0, [], log, count⟩
        h (.call k v none) (iterNext ⟨.executing,
        [⟨count, k', v, none⟩], kind, val, pos, none, 0, 0, [], log, count + 1⟩) := by
      intro k' hk
      subst hk
      exact iterNext_moves hx rfl rfl rfl (fun _ h => h)
    cases k with
    | next => exact hy .next rfl
    | ret => exact hy .ret rfl
    | thr => exact hy .thr rfl
  | body hp =>
    rename_i r q kind val pos log count
    have : Moves b out x ⟨.executing, r :: q, kind, val, pos, none, 0, 0, [.body], log, count⟩ h
        (.call k v none) (.ok (⟨.executing, r :: (q ++ [⟨count, k, v, none⟩]), kind, val, pos, none,
        0, 0, [.body], log, count + 1⟩, .none)) := push (.body hp) rfl rfl rfl
    cases k <;> exact this
  | delegate hp =>
    rename_i r q kind val pos log count
    have : Moves b out x ⟨.executing, r :: q, some kind, val, pos, none, 0, 0, [.delegate], log, count⟩ h
        (.call k v none) (.ok (⟨.executing, r :: (q ++ [⟨count, k, v, none⟩]), some kind, val, pos, none,
        0, 0, [.delegate], log, count + 1⟩, .none)) := push (.delegate hp) rfl rfl rfl
    cases k <;> exact this
  | awaiting hw =>
    rename_i r q kind val pos op log count
    have : Moves b out x ⟨.executing, r :: q, kind, val, pos, some op, 1, 0, [], log, count⟩ h
        (.call k v none) (.ok (⟨.executing, r :: (q ++ [⟨count, k, v, none⟩]), kind, val, pos, some op,
        1, 0, [], log, count + 1⟩, .none)) := push (.awaiting hw) rfl rfl rfl
    cases k <;> exact this
  | yielding hx =>
    rename_i r q kind val pos log count
    have : Moves b out x ⟨.executing, r :: q, kind, val, pos, none, 0, 0, [.completing r.id .yield], log, count⟩ h
        (.call k v none) (.ok (⟨.executing, r :: (q ++ [⟨count, k, v, none⟩]), kind, val, pos, none,
        0, 0, [.completing r.id .yield], log, count + 1⟩, .none)) := push (.yielding hx) rfl rfl rfl
    cases k <;> exact this
  | starring hx =>
    rename_i r q kind val pos log count
    have : Moves b out x ⟨.executing, r :: q, kind, val, pos, none, 0, 0, [.completing r.id .star], log, count⟩ h
        (.call k v none) (.ok (⟨.executing, r :: (q ++ [⟨count, k, v, none⟩]), kind, val, pos, none,
        0, 0, [.completing r.id .star], log, count + 1⟩, .none)) := push (.starring hx) rfl rfl rfl
    cases k <;> exact this
  | finishing hf hx => exact absurd ⟨_, List.mem_singleton.mpr rfl, by rcases hf with rfl | rfl <;> trivial⟩ hc
  | completed hx =>
    rename_i kind val pos log count
    subst hx
    cases k with
    | next =>
      refine moves_ok (s' := ⟨.completed, [], kind, val, pos, none, 0, 0,
        [], log ++ [(count, .result ⟨undef, true⟩)], count + 1⟩) (o := .none) .finished
        [⟨count, .next, v, none⟩] [(count, .result ⟨undef, true⟩)] (.completed rfl) ?_ ?_ rfl
        (.one (.next (Or.inl rfl))) (by simp) <;> rfl
    | ret =>
      exact moves_quiet (s' := ⟨.awaitReturn, [⟨count, .ret, v, none⟩], kind, val, pos, none, 0, 0,
        [.returning none], log, count + 1⟩) (o := .none) (.returning rfl (Or.inr rfl)) rfl rfl
        (fun _ h => h)
    | thr =>
      refine moves_ok (s' := ⟨.completed, [], kind, val, pos, none, 0, 0,
        [], log ++ [(count, .rejected v)], count + 1⟩) (o := .none) .finished [⟨count, .thr, v, none⟩]
        [(count, .rejected v)] (.completed rfl) ?_ ?_ rfl (.one (.thr (Or.inr rfl))) (by simp) <;> rfl
  | returning hk hx =>
    rename_i r q kind val pos log count
    have : Moves b out x ⟨.awaitReturn, r :: q, kind, val, pos, none, 0, 0, [.returning r.bad], log, count⟩ h
        (.call k v none) (.ok (⟨.awaitReturn, r :: (q ++ [⟨count, k, v, none⟩]), kind, val, pos, none,
        0, 0, [.returning r.bad], log, count + 1⟩, .none)) := push (.returning hk hx) rfl rfl rfl
    cases k <;> exact this
  | waiting hk hx =>
    rename_i r q kind val pos log count
    have : Moves b out x ⟨.awaitReturn, r :: q, kind, val, pos, none, 0, 1, [], log, count⟩ h
        (.call k v none) (.ok (⟨.awaitReturn, r :: (q ++ [⟨count, k, v, none⟩]), kind, val, pos, none,
        0, 1, [], log, count + 1⟩, .none)) := push (.waiting hk hx) rfl rfl rfl
    cases k <;> exact this

theorem step_moves {b : Body} {out : Nat → Outcome} {x : Session} {s : State} {h : List Ev}
    (ha : At b out h x s) (hn : (s.queue.map Req.id).Nodup) (hbad : ∀ r, r ∈ s.queue → r.bad = none)
    (op : Op) (hc : Calm s op) (ho : Obeys b out s h op) : Moves b out x s h op (step s op) := by
  have quiet : ∀ {s0 s' : State} {op : Op} {o : Out}, request s0 op = [] → At b out (h ++ o.ev) x s' →
      s'.pending = s0.pending → s'.log = s0.log → s'.queue = s0.queue →
      Moves b out x s0 h op (.ok (s', o)) := by
    intro s0 s' op o h1 h2 h3 h4 h5
    refine moves_quiet h2 (by simp [h1, h3]) h4 ?_
    intro r hr; rw [h5] at hr; simp [hr]
  cases op with
  | call k v bad =>
    have : bad = none := ho
    subst this
    exact call_moves ha k v hc
  | back =>
    cases ha with
    | start => exact moves_stuck
    | yielded => exact moves_stuck
    | star => exact moves_stuck
    | body => exact moves_stuck
    | delegate => exact moves_stuck
    | awaiting => exact moves_stuck
    | completed => exact moves_stuck
    | waiting => exact moves_stuck
    | yielding hx =>
      rename_i r q kind val pos log count
      have hf := filter_head hn
      simp only [step, completed, List.any_cons, decide_true, Bool.true_or, if_true, hf]
      cases q with
      | nil =>
        refine moves_quiet (o := .none) (.yielded (by simp [Out.ev, hx])) rfl rfl (by simp)
      | cons r' q =>
        simp only [List.isEmpty_cons, Bool.false_eq_true, if_false]
        exact yieldResume_moves hx (hbad r' (by simp)) (by simp [State.pending, request]) rfl
          (fun y hy => by simp [request] at hy ⊢; exact Or.inr hy)
    | starring hx =>
      rename_i r q kind val pos log count
      have hf := filter_head hn
      simp only [step, completed, List.any_cons, decide_true, Bool.true_or, if_true, hf]
      cases q with
      | nil =>
        refine moves_quiet (o := .none) (.star (by simp [Out.ev, hx])) rfl rfl (by simp)
      | cons r' q =>
        simp only [List.isEmpty_cons, Bool.false_eq_true, if_false]
        exact iterNext_moves hx (hbad r' (by simp)) (by simp [State.pending, request]) rfl
          (fun y hy => by simp [request] at hy ⊢; exact Or.inr hy)
    | finishing hc' hx =>
      rename_i r q kind val pos c log count
      subst hx
      have hf := filter_head hn
      obtain ⟨s', done, h1, h2, h3, h4, h5, h6⟩ := drainLoop_at b out h q kind val pos q log count
      have : Moves b out .finished ⟨.completed, r :: q, kind, val, pos, none, 0, 0, [.completing r.id c], log, count⟩
          h .back (.ok (s', .none)) := by
        refine moves_ok .finished done _ (by simpa [Out.ev] using h2) ?_ h4 ?_ ?_ ?_
        · simp [State.pending, request]; exact h3
        · simp [Function.comp_def]
        · simpa [Function.comp_def] using h5
        · intro r hr; simp [request, h6 r hr]
      simp only [step, completed, List.any_cons, decide_true, Bool.true_or, if_true, hf]
      rcases hc' with rfl | rfl
      · simp only [drain, if_true, h1, bind, Except.bind]
        exact this
      · simp only [h1, bind, Except.bind]
        exact this
    | returning hk hx =>
      rename_i r q kind val pos log count
      have hb : r.bad = none := hbad r (by simp)
      have : Moves b out x ⟨.awaitReturn, r :: q, kind, val, pos, none, 0, 0, [.returning r.bad], log, count⟩ h
          .back (.ok (⟨.awaitReturn, r :: q, kind, val, pos, none, 0, 1, [], log, count⟩, .none)) :=
        quiet rfl (.waiting hk hx) rfl rfl rfl
      simp only [step, hb] at this ⊢
      exact this
  | await =>
    cases ha <;> first
      | exact moves_stuck
      | skip
    rename_i hp
    exact quiet rfl (.awaiting ⟨by simpa [Out.ev] using hp, by simpa [Out.ev, Obeys] using ho⟩) rfl rfl rfl
  | yield =>
    cases ha <;> first
      | exact moves_stuck
      | skip
    rename_i hp
    exact quiet rfl (.awaiting ⟨by simpa [Out.ev] using hp, by simpa [Out.ev, Obeys] using ho⟩) rfl rfl rfl
  | ret v =>
    cases ha <;> first
      | exact moves_stuck
      | skip
    rename_i r q kind val pos log count hp
    have ho' : b h = .ret v := ho
    refine moves_ok (s' := ⟨.completed, r :: q, kind, val, pos, none, 0, 0, [.completing r.id .finish],
      log ++ [(r.id, .result ⟨v, true⟩)], count⟩) (o := .none) .finished [r] [(r.id, .result ⟨v, true⟩)]
      (.finishing (Or.inl rfl) rfl) ?_ ?_ rfl
      (.one (hp.answer (by rw [ho']; rfl))) ?_ <;> simp [State.pending, request]
  | throw e =>
    cases ha <;> first
      | exact moves_stuck
      | skip
    rename_i r q kind val pos log count hp
    have ho' : b h = .throw e := ho
    obtain ⟨s', done, h1, h2, h3, h4, h5, h6⟩ :=
      finishError_at b out h r q .executing kind val pos log count e
    simp only [step, h1, bind, Except.bind]
    refine moves_ok .finished (r :: done) _ (by simpa [Out.ev] using h2) ?_ h4 ?_ ?_ ?_
    · simp [State.pending, request]; exact h3
    · simp [Function.comp_def]
    · simp only [List.map_cons, List.map_map, Function.comp_def]
      exact .cons (hp.answer (by rw [ho']; rfl)) h5
    · intro y hy; simp [request, h6 y hy]
  | star =>
    cases ha <;> first
      | exact moves_stuck
      | skip
    rename_i hp
    have ho' : b h = .star := ho
    exact quiet rfl (.delegate (hp.go (by rw [ho']; rfl))) rfl rfl rfl
  | starThrew e =>
    cases ha <;> first
      | exact moves_stuck
      | skip
    rename_i kind val pos log count hp
    have ho' : b h = .starThrew e := ho
    exact quiet rfl (.body (hp.go (by rw [ho']; cases kind <;> rfl))) rfl rfl rfl
  | starAwait has =>
    cases ha <;> first
      | exact moves_stuck
      | skip
    rename_i r q kind val pos log count hp
    obtain ⟨o, res, ho'⟩ : ∃ o r, b h = .starAwait has o r := ho
    have hp' : Prog b x (r.toCall out) (.iter kind) (h ++ Out.none.ev) := by simpa [Out.ev] using hp
    have ho'' : b (h ++ Out.none.ev) = .starAwait has o res := by simpa [Out.ev] using ho'
    cases kind with
    | next =>
      exact quiet (o := .none) rfl (.awaiting (op := .iterYieldNext) ⟨.next, has, o, res, rfl, ho'', Or.inr rfl, hp'⟩)
        rfl rfl rfl
    | thr =>
      cases has with
      | true =>
        exact quiet (o := .none) rfl (.awaiting (op := .iterYieldNext) ⟨.thr, true, o, res, rfl, ho'', Or.inl rfl, hp'⟩)
          rfl rfl rfl
      | false => exact quiet (o := .none) rfl (.awaiting (op := .throwTypeError) ⟨o, res, ho'', hp'⟩) rfl rfl rfl
    | ret =>
      cases has with
      | true =>
        exact quiet (o := .none) rfl (.awaiting (op := .iterYieldNext) ⟨.ret, true, o, res, rfl, ho'', Or.inl rfl, hp'⟩)
          rfl rfl rfl
      | false => exact quiet (o := .none) rfl (.awaiting (op := .returnUndefined) ⟨o, res, ho'', hp'⟩) rfl rfl rfl
  | starClosed =>
    cases ha <;> first
      | exact moves_stuck
      | skip
    rename_i r q kind val pos log count hp
    have ho' : b h = .starClosed := ho
    cases kind <;> first
      | exact moves_stuck
      | exact quiet rfl (.body (hp.go (by rw [ho']; rfl))) rfl rfl rfl
  | fulfill v res =>
    cases ha <;> first
      | exact moves_stuck
      | skip
    rename_i r q kind val pos aop log count hw
    have ans : ∀ {y : Session} {w : Val} {c : Cont}, Serve b Loose x (r.toCall out) y (.result ⟨w, false⟩) →
        At b out h y ⟨.executing, r :: q, kind, val, pos, none, 0, 0, [.completing r.id c],
            log ++ [(r.id, .result ⟨w, false⟩)], count⟩ →
        Moves b out x ⟨.executing, r :: q, kind, val, pos, some aop, 1, 0, [], log, count⟩ h (.fulfill v res)
          (.ok (⟨.executing, r :: q, kind, val, pos, none, 0, 0, [.completing r.id c],
            log ++ [(r.id, .result ⟨w, false⟩)], count⟩, .none)) := by
      intro y w c h1 h2
      exact moves_ok y [r] [(r.id, .result ⟨w, false⟩)] (by simpa [Out.ev] using h2)
        (by simp [State.pending, request]) rfl rfl (.one h1) (by simp [request])
    cases aop with
    | command =>
      have ho' : b h = .await (.ok v) := ho
      exact quiet rfl (.body (hw.1.go (by rw [ho']; rfl))) rfl rfl rfl
    | yieldV =>
      have ho' : b h = .yield (.ok v) := ho
      exact ans (hw.1.answer (y := .active h) (by rw [ho']; rfl)) (.yielding rfl)
    | yieldReturn =>
      have ho' : out r.id = .ok v := ho r q rfl
      refine quiet (o := .deliver .ret v) rfl (.body ?_) rfl rfl rfl
      intro y a hg
      rw [hw.1]
      refine .active ?_
      have hk : r.kind = .ret := hw.2
      simpa [Call.received, Req.toCall, hk, ho', Out.ev] using hg
    | iterYieldNext =>
      obtain ⟨has, ho'⟩ : ∃ has, b h = .starAwait has (.ok v) res := ho
      obtain ⟨k, has', o', r', rfl, hb, hor, hp⟩ := hw
      rw [ho'] at hb
      simp only [Act.starAwait.injEq] at hb
      obtain ⟨rfl, rfl, rfl⟩ := hb
      have hr : react h (.iter k) (b h) = result h k res := by
        rw [ho']
        cases k <;> simp_all [react]
      cases res with
      | notObject => exact quiet (o := .starThrow none) rfl (.body (hp.go (by rw [hr]; rfl))) rfl rfl rfl
      | threw e => exact quiet (o := .starThrow (some e)) rfl (.body (hp.go (by rw [hr]; rfl))) rfl rfl rfl
      | object o =>
        obtain ⟨w, d⟩ := o
        cases d with
        | false => exact ans (hp.answer (y := .star h) (by rw [hr]; rfl)) (.starring rfl)
        | true =>
          cases k with
          | ret => exact quiet (o := .starReturn w) rfl (.body (hp.go (by rw [hr]; rfl))) rfl rfl rfl
          | next => exact quiet (o := .starValue w) rfl (.body (hp.go (by rw [hr]; rfl))) rfl rfl rfl
          | thr => exact quiet (o := .starValue w) rfl (.body (hp.go (by rw [hr]; rfl))) rfl rfl rfl
    | iterNext => exact hw.elim
    | iterReturn =>
      have ho' : out r.id = .ok v := ho r q rfl
      refine quiet (o := .delegate .ret v) rfl (.delegate ?_) rfl rfl rfl
      intro y a hg
      rw [hw.1]
      refine .star ?_
      have hk : r.kind = .ret := hw.2
      simpa [Call.received, Req.toCall, hk, ho', Out.ev] using hg
    | throwTypeError =>
      obtain ⟨has, ho'⟩ : ∃ has, b h = .starAwait has (.ok v) res := ho
      obtain ⟨o', r', hb, hp⟩ := hw
      rw [hb] at ho'
      simp only [Act.starAwait.injEq] at ho'
      obtain ⟨rfl, rfl, rfl⟩ := ho'
      exact quiet (o := .starThrow none) rfl (.body (hp.go (by rw [hb]; rfl))) rfl rfl rfl
    | returnUndefined =>
      obtain ⟨has, ho'⟩ : ∃ has, b h = .starAwait has (.ok v) res := ho
      obtain ⟨o', r', hb, hp⟩ := hw
      rw [hb] at ho'
      simp only [Act.starAwait.injEq] at ho'
      obtain ⟨rfl, rfl, rfl⟩ := ho'
      exact quiet (o := .starReturn v) rfl (.body (hp.go (by rw [hb]; rfl))) rfl rfl rfl
  | reject e =>
    cases ha <;> first
      | exact moves_stuck
      | skip
    rename_i r q kind val pos aop log count hw
    obtain ⟨res, ho⟩ := ho
    cases aop with
    | command =>
      have ho' : b h = .await (.err e) := ho
      exact quiet rfl (.body (hw.1.go (by rw [ho']; rfl))) rfl rfl rfl
    | yieldV =>
      have ho' : b h = .yield (.err e) := ho
      exact quiet rfl (.body (hw.1.go (by rw [ho']; rfl))) rfl rfl rfl
    | yieldReturn =>
      have ho' : out r.id = .err e := ho r q rfl
      refine quiet (o := .deliver .thr e) rfl (.body ?_) rfl rfl rfl
      intro y a hg
      rw [hw.1]
      refine .active ?_
      have hk : r.kind = .ret := hw.2
      simpa [Call.received, Req.toCall, hk, ho', Out.ev] using hg
    | iterYieldNext =>
      obtain ⟨has, ho'⟩ : ∃ has, b h = .starAwait has (.err e) res := ho
      obtain ⟨k, has', o', r', rfl, hb, hor, hp⟩ := hw
      exact quiet (o := .starThrow (some e)) rfl (.body (hp.go (by rw [ho']; cases k <;> rfl))) rfl rfl rfl
    | iterNext => exact hw.elim
    | iterReturn =>
      have ho' : out r.id = .err e := ho r q rfl
      refine quiet (o := .delegate .thr e) rfl (.delegate ?_) rfl rfl rfl
      intro y a hg
      rw [hw.1]
      refine .star ?_
      have hk : r.kind = .ret := hw.2
      simpa [Call.received, Req.toCall, hk, ho', Out.ev] using hg
    | throwTypeError =>
      obtain ⟨has, ho'⟩ : ∃ has, b h = .starAwait has (.err e) res := ho
      obtain ⟨o', r', hb, hp⟩ := hw
      exact quiet (o := .starThrow (some e)) rfl (.body (hp.go (by rw [ho']; rfl))) rfl rfl rfl
    | returnUndefined =>
      obtain ⟨has, ho'⟩ : ∃ has, b h = .starAwait has (.err e) res := ho
      obtain ⟨o', r', hb, hp⟩ := hw
      exact quiet (o := .starThrow (some e)) rfl (.body (hp.go (by rw [ho']; rfl))) rfl rfl rfl
  | returned v =>
    cases ha <;> first
      | exact moves_stuck
      | skip
    rename_i r q kind val pos log count hk hx
    have ho' : out r.id = .ok v := ho r q rfl
    refine moves_ok (s' := ⟨.completed, r :: q, kind, val, pos, none, 0, 0, [.completing r.id .finish],
      log ++ [(r.id, .result ⟨v, true⟩)], count⟩) (o := .none) .finished [r] [(r.id, .result ⟨v, true⟩)]
      (.finishing (Or.inl rfl) rfl) ?_ ?_ rfl
      (.one ?_) ?_ <;> try (simp [State.pending, request]; done)
    have : Serve b Loose x ⟨.ret, r.val, out r.id⟩ .finished (out r.id).close := .ret hx
    simpa [Req.toCall, hk, ho', Outcome.close] using this
  | returnFailed e =>
    cases ha <;> first
      | exact moves_stuck
      | skip
    rename_i r q kind val pos log count hk hx
    have ho' : out r.id = .err e := ho r q rfl
    obtain ⟨s', done, h1, h2, h3, h4, h5, h6⟩ :=
      finishError_at b out h r q .awaitReturn kind val pos log count e
    have : step ⟨.awaitReturn, r :: q, kind, val, pos, none, 0, 1, [], log, count⟩ (.returnFailed e) =
        .ok (s', .none) := by
      simp [step, h1, bind, Except.bind]
    rw [this]
    refine moves_ok .finished (r :: done) _ (by simpa [Out.ev] using h2) ?_ h4 ?_ ?_ ?_
    · simp [State.pending, request]; exact h3
    · simp [Function.comp_def]
    · simp only [List.map_cons, List.map_map, Function.comp_def]
      refine .cons ?_ h5
      have : Serve b Loose x ⟨.ret, r.val, out r.id⟩ .finished (out r.id).close := .ret hx
      simpa [Req.toCall, hk, ho', Outcome.close] using this
    · intro y hy; simp [request, h6 y hy]

/-- The requests of a run. -/
def requests : Nat → List Op → List Req
  | _, [] => []
  | n, .call k v bad :: ops => ⟨n, k, v, bad⟩ :: requests (n + 1) ops
  | n, _ :: ops => requests n ops

theorem requests_cons (s : State) (op : Op) (ops : List Op) :
    requests s.count (op :: ops) = request s op ++ requests (s.count + op.call?.toList.length) ops := by
  cases op <;> rfl

theorem calls_requests (out : Nat → Outcome) (ops : List Op) :
    ∀ n, calls out n ops = (requests n ops).map (Req.toCall out) := by
  induction ops with
  | nil => intro n; rfl
  | cons op ops ih =>
    intro n
    cases op <;> simp [calls, requests, ih, Req.toCall]

theorem driven_serves {b : Body} {out : Nat → Outcome} {s s' : State} {h h' : List Ev} {ops : List Op}
    (hd : Driven b out s h ops s' h') : ∀ (cs : List (Kind × Val)) (x : Session), Hist cs s →
    At b out h x s → (∀ r, r ∈ s.queue → r.bad = none) →
    ∃ x' l a, At b out h' x' s' ∧ s.pending ++ requests s.count ops = l ++ s'.pending ∧
      s'.log = s.log ++ a ∧ a.map Prod.fst = l.map Req.id ∧
      Serves b Loose x (l.map (Req.toCall out)) (a.map Prod.snd) x' := by
  induction hd with
  | nil =>
    intro cs x _ ha _
    exact ⟨x, [], [], ha, by simp [requests], by simp, rfl, .nil⟩
  | cons hc ho hs _ ih =>
    rename_i s s1 s2 h h2 op ops o _
    intro cs x hh ha hb
    obtain ⟨x1, l1, a1, h1, h2, h3, h4, h5, h6⟩ := step_moves ha hh.nodup hb op hc ho s1 o hs
    rcases hist_step hh hc.tame with he | ⟨s1', o', he, _, hh1⟩
    · rw [hs] at he; simp at he
    · rw [hs] at he
      simp only [Except.ok.injEq, Prod.mk.injEq] at he
      obtain ⟨rfl, rfl⟩ := he
      have hb1 : ∀ r, r ∈ s1.queue → r.bad = none := by
        intro r hr
        rcases List.mem_append.mp (h6 r hr) with hr | hr
        · exact hb r hr
        · cases op <;> simp [request] at hr
          rw [hr]; exact ho
      obtain ⟨x2, l2, a2, g1, g2, g3, g4, g5⟩ := ih _ x1 hh1 h1 hb1
      have hcount : s1.count = s.count + op.call?.toList.length := by
        rw [hh1.count, hh.count, List.length_append]
      refine ⟨x2, l1 ++ l2, a1 ++ a2, g1, ?_, ?_, ?_, ?_⟩
      · rw [requests_cons, ← List.append_assoc, h2, List.append_assoc, ← hcount, g2, List.append_assoc]
      · rw [g3, h3, List.append_assoc]
      · rw [List.map_append, List.map_append, h4, g4]
      · rw [List.map_append, List.map_append]
        exact h5.append g5

theorem Spec.Serves.length {b : Body} {W : Val → Val → Prop} {x y : Session} {cs : List Call}
    {as : List Answer} (h : Serves b W x cs as y) : cs.length = as.length := by
  induction h with
  | nil => rfl
  | cons _ _ ih => simp [ih]

theorem Spec.Serves.strict {b : Body} {x y : Session} {cs : List Call} {as : List Answer}
    (h : Serves b Loose x cs as y) (hu : ∀ c, c ∈ cs → c.kind = .next → c.val = undef) :
    Serves b (fun _ w => w = undef) x cs as y := by
  induction h with
  | nil => exact .nil
  | cons hs _ ih =>
    refine .cons ?_ (ih fun c hc => hu c (List.mem_cons_of_mem _ hc))
    cases hs with
    | begin h => exact .begin h
    | active h => exact .active h
    | star h => exact .star h
    | ret h => exact .ret h
    | thr h => exact .thr h
    | next h =>
      refine .next ?_
      have := hu _ List.mem_cons_self rfl
      rcases h with h | h
      · exact h
      · rw [h]; exact this

end Verif.AsyncGen

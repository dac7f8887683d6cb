import Verif.Lemmas.AsyncGenRun

/-!
# C39: async generators

`exec init ops` is any run of an async generator: the operations are the calls of `next`, `return`
and `throw`, made at any moment at which other code runs, everything the code of the generator and
the iterator of its `yield*` do, and the settling of the promises awaited.  `s.log` lists the
promises settled, in order, by the number of their call; `s.pending` the requests not answered.

The property does not hold of all runs: three kinds of runs violate it, shown by
`C39_violated_value` (an argument given back by a finished generator), `C39_violated_assert` (a `return` called while the last promise is resolved), `C39_violated_order` (a
`next` called then is answered before older calls).  The partial theorems exclude calls made at that
moment: `Tame` those of `return`, `Calm` all of them.
-/

namespace Verif.AsyncGen
open Spec

/-- **C39, a run never goes wrong.** No assertion fails, no request is used after it was deleted, no
promise settled goes unnoticed.  Missing: calls of `return` from an accessor `then` of
`Object.prototype` while a last promise is resolved. -/
theorem C39_safe_partial {ops : List Op} {f : Fault} (ha : Along Tame init ops)
    (h : exec init ops = .error f) : f = .stuck := by
  rcases hist_exec ops [] init hist_init ha with h1 | ⟨s', outs, h1, _⟩
  · rw [h] at h1; simpa using h1
  · rw [h] at h1; simp at h1

/-- **C39, answered once.** The calls whose promise was settled and those not answered yet are all
the calls, each once.  When nothing runs and nothing is awaited, all are answered. -/
theorem C39_once_partial {ops : List Op} {s : State} {outs : List Out} (ha : Along Tame init ops)
    (h : exec init ops = .ok (s, outs)) :
    (s.log.map Prod.fst).Nodup ∧
    (∀ i, i < (ops.filterMap Op.call?).length ↔
      i ∈ s.log.map Prod.fst ∨ i ∈ s.pending.map Req.id) ∧
    (∀ i, i ∈ s.log.map Prod.fst → i ∉ s.pending.map Req.id) ∧
    (s.stack = [] → s.armed = 0 → s.returns = 0 → s.pending = [] ∧
      ∀ i, i < (ops.filterMap Op.call?).length → i ∈ s.log.map Prod.fst) := by
  rcases hist_exec ops [] init hist_init ha with h1 | ⟨s', outs', h1, hh⟩
  · rw [h] at h1; simp at h1
  rw [h] at h1
  simp only [Except.ok.injEq, Prod.mk.injEq] at h1
  obtain ⟨rfl, rfl⟩ := h1
  have hn := perm_nodup hh.perm
  rw [List.nodup_append] at hn
  have hm : ∀ i, i < (ops.filterMap Op.call?).length ↔
      i ∈ s.log.map Prod.fst ∨ i ∈ s.pending.map Req.id := by
    intro i
    rw [← List.mem_append, hh.perm.mem_iff, List.mem_range, hh.count]
    simp
  refine ⟨hn.1, hm, fun i h1 h2 => hn.2.2 i h1 i h2 rfl, ?_⟩
  intro hs ha hr
  have hp : s.pending = [] := by
    cases hh.shape <;> simp_all [State.pending]
  refine ⟨hp, fun i hi => ?_⟩
  rcases (hm i).mp hi with h1 | h1
  · exact h1
  · rw [hp] at h1; simp at h1

/-- **C39, answered in call order.** The promise settled as number `j` is that of call `j`.  Missing:
calls made from an accessor `then` while a last promise is resolved. -/
theorem C39_order_partial {ops : List Op} {s : State} {outs : List Out} (ha : Along Calm init ops)
    (h : exec init ops = .ok (s, outs)) (j i : Nat) (a : Answer) (hj : s.log[j]? = some (i, a)) :
    i = j := by
  have ho := inOrder_exec ops [] init hist_init (by simp [InOrder, init, State.pending]) ha s outs h
  unfold InOrder at ho
  have h1 : (s.log.map Prod.fst)[j]? = some i := by simp [hj]
  have h2 : (List.range s.count)[j]? = some i := by
    rw [← ho, List.getElem?_append_left]
    · exact h1
    · exact (List.getElem?_eq_some_iff.mp h1).1
  rw [List.getElem?_range] at h2
  · simpa using h2.symm
  · have := (List.getElem?_eq_some_iff.mp h2).1
    simpa using this

/-- **C39, after the end.** After an answer that says that the generator is finished (`done: true`,
or a rejection), a `next` is answered `{value: undefined, done: true}` — or with its argument as the
value, which is the violation shown below —, a `throw` is rejected with its argument and a `return` is
answered with `done: true` or rejected.  A `next` or `throw` called when the generator is completed
is answered at once. -/
theorem C39_finished_partial {ops : List Op} {s : State} {outs : List Out} (ha : Along Tame init ops)
    (h : exec init ops = .ok (s, outs)) :
    (∀ (p q i i' : Nat) (a a' : Answer), p < q → s.log[p]? = some (i, a) → Final a →
      s.log[q]? = some (i', a') → ∃ k v, (ops.filterMap Op.call?)[i']? = some (k, v) ∧
        match k with
        | .next => a' = .result ⟨undef, true⟩ ∨ a' = .result ⟨v, true⟩
        | .thr => a' = .rejected v
        | .ret => Final a') ∧
    (s.phase = .completed → ∀ v bad,
      (∃ s1, step s (.call .next v bad) = .ok (s1, .none) ∧
        s1.log = s.log ++ [((ops.filterMap Op.call?).length, .result ⟨undef, true⟩)]) ∧
      (∃ s1, step s (.call .thr v bad) = .ok (s1, .none) ∧
        s1.log = s.log ++ [((ops.filterMap Op.call?).length, .rejected v)])) := by
  rcases hist_exec ops [] init hist_init ha with h1 | ⟨s', outs', h1, hh⟩
  · rw [h] at h1; simp at h1
  rw [h] at h1
  simp only [Except.ok.injEq, Prod.mk.injEq] at h1
  obtain ⟨rfl, rfl⟩ := h1
  have hc := hh.count
  simp only [List.nil_append] at hc
  refine ⟨?_, ?_⟩
  · intro p q i i' a a' hpq hp hf hq
    obtain ⟨A, B, h1, h2, h3, h4⟩ := hh.log.split
    have hpA : A.length ≤ p := by
      apply Classical.byContradiction
      intro hlt
      have hlt : p < A.length := by omega
      rw [h1, List.getElem?_append_left hlt] at hp
      exact h2 _ (List.mem_of_getElem? hp) hf
    rw [h1, List.getElem?_append_right (by omega)] at hq
    rcases h4 with rfl | ⟨_, f, L, rfl, _, h6⟩
    · simp at hq
    · obtain ⟨n, hn⟩ : ∃ n, q - A.length = n + 1 := ⟨q - A.length - 1, by omega⟩
      rw [hn, List.getElem?_cons_succ] at hq
      obtain ⟨⟨k, v⟩, hk, hl⟩ := h6 _ (List.mem_of_getElem? hq)
      exact ⟨k, v, hk, hl⟩
  · intro hp v bad
    refine ⟨⟨{ settle s s.count (.result ⟨undef, true⟩) with count := s.count + 1 }, ?_, ?_⟩,
      ⟨{ settle s s.count (.rejected v) with count := s.count + 1 }, ?_, ?_⟩⟩
    · simp [step, call, hp]
    · simp [settle, hc]
    · simp [step, call, hp]
    · simp [settle, hc]

/-- **C39, the answers.** Let `b` be the code of the generator: what it does next, given everything it
has received.  However the calls are interleaved with the running of the code and with the settling
of the promises awaited, the answers given are those of a session in which the calls are made one
after the other, each only when the one before it is answered; `Spec.Serves` defines such a session
without a queue.  Only a `next` answered by the finished generator may get its argument back. -/
theorem C39_session_partial {b : Body} {out : Nat → Outcome} {ops : List Op} {s : State}
    {h : List Ev} (hd : Driven b out init [] ops s h) :
    ∃ x, Serves b (fun v w => w = undef ∨ w = v) .fresh
      ((calls out 0 ops).take s.log.length) (s.log.map Prod.snd) x := by
  obtain ⟨x, l, a, _, h2, h3, _, h5⟩ := driven_serves hd [] .fresh hist_init (.start rfl rfl)
    (by simp [init])
  refine ⟨x, ?_⟩
  have hl := h5.length
  simp only [List.length_map] at hl
  have h3' : s.log = a := by simpa [init] using h3
  have h2' : requests 0 ops = l ++ s.pending := by simpa [init, State.pending] using h2
  rw [calls_requests, h2', h3', ← hl, List.map_append, List.take_append_of_le_length (by simp),
    List.take_of_length_le (by simp)]
  exact h5

/-- **C39, the answers, if every `next` is called without argument** (or with undefined): exactly
those of the session, a finished generator answering `{value: undefined, done: true}`. -/
theorem C39_session {b : Body} {out : Nat → Outcome} {ops : List Op} {s : State}
    {h : List Ev} (hd : Driven b out init [] ops s h)
    (hu : ∀ v bad, Op.call .next v bad ∈ ops → v = undef) :
    ∃ x, Serves b (fun _ w => w = undef) .fresh
      ((calls out 0 ops).take s.log.length) (s.log.map Prod.snd) x := by
  obtain ⟨x, hx⟩ := C39_session_partial hd
  refine ⟨x, Spec.Serves.strict hx ?_⟩
  intro c hc hk
  have hc := List.mem_of_mem_take hc
  have : ∀ (ops : List Op) n, c ∈ calls out n ops → ∃ bad, Op.call .next c.val bad ∈ ops := by
    intro ops
    induction ops with
    | nil => intro n h; simp [calls] at h
    | cons op ops ih =>
      intro n h
      have go : ∀ n, c ∈ calls out n ops → ∃ bad, Op.call .next c.val bad ∈ op :: ops := by
        intro n h
        obtain ⟨bad, hb⟩ := ih n h
        exact ⟨bad, List.mem_cons_of_mem _ hb⟩
      cases op with
      | call k v bad =>
        simp only [calls, List.mem_cons] at h
        rcases h with h | h
        · refine ⟨bad, ?_⟩
          rw [h] at hk
          simp only at hk
          rw [hk, h]
          exact List.mem_cons_self
        · exact go _ h
      | _ => exact go _ h
  obtain ⟨bad, hb⟩ := this ops 0 hc
  exact hu _ _ hb

/-- **C39 violated, the value.** `next()`, then `next(7)` while the code runs, which ends by returning
1: the second call is answered `{value: 7, done: true}` (rjs_generator_opt.c:429-436). -/
theorem C39_violated_value : ∃ ops s outs, exec init ops = .ok (s, outs) ∧ Along Calm init ops ∧
    (ops.filterMap Op.call?)[1]? = some (.next, 7) ∧
    s.log = [(0, .result ⟨1, true⟩), (1, .result ⟨7, true⟩)] := by
  refine ⟨[.call .next 0 none, .call .next 7 none, .ret 1, .back, .back], _, _, rfl, ?_, rfl, rfl⟩
  simp [Along, Calm, State.finishing, step, call, init, enqueue, resume, run, finishValue, resolve,
    settle, completed, drain, drainLoop, bind, Except.bind]

/-- **C39 violated, assertions.** While the promise of the last answer is resolved, an accessor `then`
calls `return`: the first request of the queue is still the one being answered.  If it is no `return`
the first assertion fails (rjs_generator_opt.c:386); if it is, its value is awaited once more, and
the queue is drained although the generator is not completed (427). -/
theorem C39_violated_assert :
    exec init [.call .next 0 none, .ret 1, .call .ret 2 none] = .error .assert ∧
    exec init [.call .ret 1 none, .back, .returned 1, .call .ret 2 none, .back, .back] =
      .error .assert := ⟨rfl, rfl⟩

/-- **C39 violated, the order.** Two calls wait; while the promise of the first is resolved with the
last answer, an accessor `then` calls `next`, which is answered before the second call. -/
theorem C39_violated_order : ∃ ops s outs, exec init ops = .ok (s, outs) ∧
    s.log = [(0, .result ⟨1, true⟩), (2, .result ⟨undef, true⟩), (1, .result ⟨0, true⟩)] :=
  ⟨[.call .next 0 none, .call .next 0 none, .ret 1, .call .next 0 none, .back, .back], _, _, rfl, rfl⟩

/-! ## Examples -/

/-- Three calls while the code runs: it yields 5, awaits, returns 3; then the queue is drained. -/
def demo : List Op :=
  [.call .next 0 none, .call .next 0 none, .call .ret 2 none, .call .thr 8 none, .yield, .fulfill 5 .notObject,
    .back, .await, .call .next 0 none, .fulfill 3 .notObject, .ret 3, .back, .back, .returned 4, .back, .back]

theorem demo_calm : Along Calm init demo := by
  simp [demo, Along, Calm, State.finishing, step, call, init, enqueue, resume, run, finishValue, resolve,
    settle, settled, suspend, fulfilled, completed, yieldResume, drain, drainLoop, awaitReturn, bind,
    Except.bind]

theorem demo_tame : Along Tame init demo := by
  simp [demo, Along, Tame, State.finishing, step, call, init, enqueue, resume, run, finishValue, resolve,
    settle, settled, suspend, fulfilled, completed, yieldResume, drain, drainLoop, awaitReturn, bind,
    Except.bind]

/-- Five calls, five answers, in order; nothing is left. -/
example : ∃ s outs, exec init demo = .ok (s, outs) ∧ s.stack = [] ∧ s.armed = 0 ∧ s.returns = 0 ∧
    s.log = [(0, .result ⟨5, false⟩), (1, .result ⟨3, true⟩), (2, .result ⟨4, true⟩), (3, .rejected 8),
      (4, .result ⟨0, true⟩)] := ⟨_, _, rfl, rfl, rfl, rfl, rfl⟩

example : ∀ i, i < 5 → ∃ s outs, exec init demo = .ok (s, outs) ∧ i ∈ s.log.map Prod.fst := by
  intro i hi
  obtain ⟨_, _, _, h⟩ := C39_once_partial demo_tame (s := _) (outs := _) rfl
  exact ⟨_, _, rfl, (h rfl rfl rfl).2 i hi⟩

example : ∃ s outs, exec init demo = .ok (s, outs) ∧ ∀ (j i : Nat) (a : Answer), s.log[j]? = some (i, a) → i = j :=
  ⟨_, _, rfl, C39_order_partial demo_calm rfl⟩

/-- An operation that cannot happen is the only way a run can stop: the code is not running. -/
example : exec init [.call .next 0 none, .yield, .yield] = .error .stuck ∧
    Along Tame init [.call .next 0 none, .yield, .yield] :=
  ⟨rfl, by simp [Along, Tame, step, call, init, enqueue, resume, run, suspend]⟩

/-- Code that yields 5, awaits, and returns what it has got. -/
def demoBody : Body
  | [.enter] => .yield (.ok 5)
  | [.enter, .resume .next _] => .await (.ok 3)
  | [.enter, .resume .next _, .awaited v] => .ret v
  | _ => .throw 9

theorem demo_driven : ∃ s h, Driven demoBody (fun _ => .ok 4) init [] demo s h ∧ s.log.length = 5 := by
  refine ⟨_, _, .cons ?_ rfl rfl (.cons ?_ rfl rfl (.cons ?_ rfl rfl (.cons ?_ rfl rfl
    (.cons trivial ⟨_, rfl⟩ rfl (.cons trivial rfl rfl (.cons trivial trivial rfl
    (.cons trivial ⟨_, rfl⟩ rfl (.cons ?_ rfl rfl (.cons trivial rfl rfl (.cons trivial rfl rfl
    (.cons trivial trivial rfl (.cons trivial trivial rfl (.cons trivial ?_ rfl
    (.cons trivial trivial rfl (.cons trivial trivial rfl .nil))))))))))))))), rfl⟩
  all_goals first
    | (simp [Calm, State.finishing, init, enqueue, run]; done)
    | (intro x rest _; rfl)
    | (intro hx
       obtain ⟨f, hm, hf⟩ := hx
       exact absurd hm List.not_mem_nil)

example : ∃ s h x, Driven demoBody (fun _ => .ok 4) init [] demo s h ∧
    Serves demoBody (fun _ w => w = undef) .fresh
      [⟨.next, 0, .ok 4⟩, ⟨.next, 0, .ok 4⟩, ⟨.ret, 2, .ok 4⟩, ⟨.thr, 8, .ok 4⟩, ⟨.next, 0, .ok 4⟩]
      (s.log.map Prod.snd) x := by
  obtain ⟨s, h, hd, hl⟩ := demo_driven
  obtain ⟨x, hx⟩ := C39_session hd (by simp [demo, undef])
  rw [hl] at hx
  exact ⟨s, h, x, hd, hx⟩

end Verif.AsyncGen

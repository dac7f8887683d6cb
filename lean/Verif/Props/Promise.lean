import Verif.Lemmas.Promise
/-
C11 and C12: promises settle once; reactions run once and in order.
-/
namespace Verif.Promise
open Spec

/-- **C11.**  For every sequence of events the assertions that a promise to be settled is
pending hold (`run` succeeds), and a promise which is settled after some of the events
keeps its state and its result for ever. -/
theorem C11_settles_once (es fs : List Event) :
    ∃ s s', run init es = some s ∧ run init (es ++ fs) = some s' ∧
      ∀ p, (s.proms p).state ≠ .pending → (s'.proms p).state = (s.proms p).state := by
  obtain ⟨s, h1, g1⟩ := run_good es init _ inv_init hist_init
  obtain ⟨s', h2, g2⟩ := run_good fs s _ g1.inv g1.hist
  exact ⟨s, s', h1, by rw [run_append, h1]; exact h2, g2.keep⟩

/-- **C11.**  Only one party at a time may settle a promise: as soon as one of the resolving
functions of a pair has been called, all further calls of the pair do nothing. -/
theorem C11_first_call_wins (es : List Event) (s : St) (i p : Nat) (v : Val)
    (h : run init es = some s) (hs : s.status[i]? = some (p, true)) :
    step s (.resolve i v) = some s ∧ step s (.reject i v) = some s := by
  simp [step, callResolve, callReject, hs]

/-- **C11.**  The first call of a resolving function decides: reject rejects with its
argument, resolve with a value which is not an object fulfils with it, resolve with the
promise itself rejects; in every case the pair is used up. -/
theorem C11_first_call (es : List Event) (s : St) (i p : Nat) (v : Val)
    (h : run init es = some s) (hs : s.status[i]? = some (p, false)) :
    (∃ s', step s (.reject i v) = some s' ∧ (s'.proms p).state = .rejected v ∧
      s'.status[i]? = some (p, true)) ∧
    (v.isObject = false → ∃ s', step s (.resolve i v) = some s' ∧
      (s'.proms p).state = .fulfilled v ∧ s'.status[i]? = some (p, true)) ∧
    ∃ s', step s (.resolve i (.promise p)) = some s' ∧
      (s'.proms p).state = .rejected .selfError ∧ s'.status[i]? = some (p, true) := by
  obtain ⟨s0, h0, g0⟩ := run_good es init _ inv_init hist_init
  rw [h] at h0
  obtain rfl := Option.some.inj h0
  have hlt : i < s.status.length := by
    obtain ⟨h, _⟩ := List.getElem?_eq_some_iff.1 hs; exact h
  have hp : (s.proms p).state = .pending := by
    have := tok_use g0.inv hs p
    rw [if_pos rfl] at this
    unfold room at this
    by_contra hc
    rw [if_neg (fun h => hc h.1)] at this
    omega
  refine ⟨?_, fun hv => ?_, ?_⟩
  · simp only [step, callReject, hs, Bool.false_eq_true, if_false, rejectPromise, hp, if_true]
    exact ⟨_, rfl, by simp [trigger, setProm], by simp [trigger, hlt]⟩
  · have hne : v ≠ .promise p := by rintro rfl; simp [Val.isObject] at hv
    simp only [step, callResolve, hs, Bool.false_eq_true, if_false, hne, hv, Bool.not_false,
      if_true, fulfillPromise, hp]
    exact ⟨_, rfl, by simp [trigger, setProm], by simp [trigger, hlt]⟩
  · simp only [step, callResolve, hs, Bool.false_eq_true, if_false, rejectPromise, hp, if_true]
    exact ⟨_, rfl, by simp [trigger, setProm], by simp [trigger, hlt]⟩

/-- A promise resolved with a thenable whose `then` getter calls both resolving functions
again, and whose `then` method resolves and rejects. -/
example : (run init [.newPromise, .then_ 0 7 true true none, .resolve 0 (.obj 1), .resolve 0 (.prim 2),
    .reject 0 (.prim 3), .getThen 0 .callable, .runJob, .resolve 1 (.prim 4), .reject 1 (.prim 5),
    .reject 0 (.prim 6)]).map (fun s => ((s.proms 0).state, s.jobs, s.status)) =
    some (.fulfilled (.prim 4), [.reactionJob 0 ⟨7, .fulfill, true, none⟩ (.prim 4)],
      [(0, true), (0, true)]) := by decide

/-- **C12.**  After every sequence of events, the reaction jobs which have been queued for a
promise are: none while it is pending; afterwards exactly one for each `then` call made on
it, in the order of the calls, of the kind which fits its state, with its result. -/
theorem C12_reactions (es : List Event) :
    ∃ s, run init es = some s ∧
      ∀ p, queuedFor p s.log = expected (s.proms p).state (calls p es) := by
  obtain ⟨s, h, g⟩ := run_good es init _ inv_init hist_init
  exact ⟨s, h, fun p => by simpa using g.hist.log p⟩

example : (run init [.newPromise, .then_ 0 1 true false none, .then_ 0 2 true true none,
    .resolve 0 (.prim 9), .then_ 0 3 false true none]).map (fun s => queuedFor 0 s.log) =
    some [(⟨1, .fulfill, true, none⟩, .prim 9), (⟨2, .fulfill, true, none⟩, .prim 9),
      (⟨3, .fulfill, false, none⟩, .prim 9)] := by decide

/-- **C12.**  The reaction jobs are started in the order in which they were queued, each
one once: what has been started, followed by what is still in the queue, is what has been
queued. -/
theorem C12_started (es : List Event) (s : St) (h : run init es = some s) :
    s.log = s.started ++ reactionsOf s.jobs :=
  logged_run es (s := init) rfl h

/-- The result of the reaction of `then(onFulfilled, onRejected)` in ECMAScript terms: a
handler decides by returning or throwing, without one the result is passed on. -/
def passOn (st : State) (c : Call) (handler : Outcome) : Option Outcome :=
  match st with
  | .pending => none
  | .fulfilled v => some (if c.onFulfilled then handler else .returns v)
  | .rejected v => some (if c.onRejected then handler else .throws v)

/-- **C12.**  A finished reaction settles the promise derived by `then`: for every reaction
job queued for a promise there is a `then` call such that, when its handler is done, the
resolve function of the derived promise gets the value returned (or the fulfilment value
if there is no handler), or its reject function the value thrown (or the reason). -/
theorem C12_derived (es : List Event) (s : St) (h : run init es = some s) (p : Nat) (r : Reaction)
    (v : Val) (hr : (p, r, v) ∈ s.log) (i k : Nat) (hi : s.running[i]? = some (r, v))
    (hk : r.cap = some k) (o : Outcome) :
    ∃ c ∈ calls p es, c.id = r.id ∧ c.cap = some k ∧
      ∃ x, passOn (s.proms p).state c o = some x ∧
        step s (.handlerDone i o) =
          match x with
          | .returns w => callResolve { s with running := s.running.eraseIdx i } k w
          | .throws w => callReject { s with running := s.running.eraseIdx i } k w := by
  obtain ⟨s0, h0, hq⟩ := C12_reactions es
  rw [h] at h0
  obtain rfl := Option.some.inj h0
  have hm : (r, v) ∈ queuedFor p s.log := by
    simp only [queuedFor, List.mem_map, List.mem_filter]
    exact ⟨_, ⟨hr, by simp⟩, rfl⟩
  rw [hq p] at hm
  cases hs : (s.proms p).state with
  | pending => rw [hs] at hm; simp [expected] at hm
  | fulfilled w =>
    rw [hs] at hm
    simp only [expected, List.mem_map] at hm
    obtain ⟨c, hc, he⟩ := hm
    obtain ⟨rfl, rfl⟩ := Prod.mk.inj he
    refine ⟨c, hc, rfl, hk, _, rfl, ?_⟩
    have hk' : c.cap = some k := hk
    simp only [step, hi, reactionOutcome, Call.fulfill, hk']
    cases c.onFulfilled <;> cases o <;> rfl
  | rejected w =>
    rw [hs] at hm
    simp only [expected, List.mem_map] at hm
    obtain ⟨c, hc, he⟩ := hm
    obtain ⟨rfl, rfl⟩ := Prod.mk.inj he
    refine ⟨c, hc, rfl, hk, _, rfl, ?_⟩
    have hk' : c.cap = some k := hk
    simp only [step, hi, reactionOutcome, Call.reject, hk']
    cases c.onRejected <;> cases o <;> rfl

example : (run init [.newPromise, .newPromise, .then_ 0 7 true true (some 1), .resolve 0 (.prim 1),
    .runJob, .handlerDone 0 (.throws (.prim 5))]).map (fun s => (s.proms 1).state) =
    some (.rejected (.prim 5)) := by decide

end Verif.Promise

import Verif.Spec.Promise
import Mathlib.Data.List.Nodup
/-
Helper lemmas for the promises.
-/
namespace Verif.Promise
open Spec

def isTok (p : Nat) (j : Job) : Bool :=
  match j with
  | .thenJob q _ => q = p
  | _ => false

/-- How many parties may still settle promise `p`: unused pairs of resolving functions,
resolve calls waiting for a `then` getter, queued then jobs. -/
def tok (s : St) (p : Nat) : Nat :=
  s.status.countP (fun x => x.1 = p && !x.2) + s.gets.countP (fun x => x.1 = p) +
    s.jobs.countP (isTok p)

def room (s : St) (p : Nat) : Nat := if (s.proms p).state = .pending ∧ p < s.next then 1 else 0

structure Inv (s : St) : Prop where
  tok : ∀ p, tok s p ≤ room s p
  fresh : ∀ p, s.next ≤ p → (s.proms p).state = .pending

/-- The reactions stored and queued for a promise fit the `then` calls made so far. -/
structure Hist (s : St) (c : Nat → List Call) : Prop where
  pend : ∀ p, (s.proms p).state = .pending →
    (s.proms p).fulfillReactions = (c p).map Call.fulfill ∧
    (s.proms p).rejectReactions = (c p).map Call.reject
  log : ∀ p, queuedFor p s.log = expected (s.proms p).state (c p)

theorem isTok_reaction (q p : Nat) (l : List Reaction) (v : Val) :
    (l.map fun r => Job.reactionJob p r v).countP (isTok q) = 0 := by
  rw [List.countP_eq_zero]
  intro j hj
  obtain ⟨r, _, rfl⟩ := List.mem_map.1 hj
  simp [isTok]

/-- Settling a promise which no other party may settle any more. -/
structure Settled (s s' : St) (p : Nat) : Prop where
  tok : ∀ q, tok s' q = tok s q
  state : ∀ q, q ≠ p → (s'.proms q).state = (s.proms q).state
  next : s'.next = s.next

theorem tok_trigger (s : St) (q p : Nat) (l : List Reaction) (v : Val) :
    tok (trigger s p l v) q = tok s q := by
  simp only [tok, trigger, List.countP_append, isTok_reaction, Nat.add_zero]

theorem inv_settle {s : St} {p : Nat} {x : Prom} {l : List Reaction} {v : Val}
    (h1 : ∀ q, tok s q + (if q = p then 1 else 0) ≤ room s q)
    (h2 : ∀ q, s.next ≤ q → (s.proms q).state = .pending) :
    (s.proms p).state = .pending ∧
    Inv (trigger { s with proms := setProm s.proms p x } p l v) := by
  have hp := h1 p
  rw [if_pos rfl] at hp
  have hroom : (s.proms p).state = .pending ∧ p < s.next := by
    unfold room at hp
    by_contra hc
    rw [if_neg hc] at hp
    omega
  refine ⟨hroom.1, ⟨fun q => ?_, fun q hq => ?_⟩⟩
  · rw [tok_trigger]
    have := h1 q
    by_cases hqp : q = p
    · subst hqp
      rw [if_pos rfl] at this
      have hr : room s q ≤ 1 := by unfold room; split <;> omega
      have : tok { s with proms := setProm s.proms q x } q = tok s q := rfl
      omega
    · rw [if_neg hqp] at this
      have e : room (trigger { s with proms := setProm s.proms p x } p l v) q = room s q := by
        simp [room, trigger, setProm, hqp]
      rw [e]; exact this
  · have hqp : q ≠ p := by
      have : s.next ≤ q := hq
      omega
    simp only [trigger, setProm, hqp, if_false]
    exact h2 q hq

theorem queuedFor_append (p : Nat) (a b : List (Nat × Reaction × Val)) :
    queuedFor p (a ++ b) = queuedFor p a ++ queuedFor p b := by
  simp [queuedFor, List.filter_append]

theorem queuedFor_same (p : Nat) (l : List Reaction) (v : Val) :
    queuedFor p (l.map fun r => (p, r, v)) = l.map fun r => (r, v) := by
  induction l with
  | nil => rfl
  | cons a l ih =>
    simp only [List.map_cons]
    rw [← ih]
    simp [queuedFor]

theorem queuedFor_other {p q : Nat} (h : q ≠ p) (l : List Reaction) (v : Val) :
    queuedFor q (l.map fun r => (p, r, v)) = [] := by
  have : ∀ e ∈ (l.map fun r => (p, r, v)), ¬ (decide (e.1 = q) = true) := by
    intro e he
    obtain ⟨r, _, rfl⟩ := List.mem_map.1 he
    simpa using fun h' => h h'.symm
  unfold queuedFor
  rw [List.filter_eq_nil_iff.2 this]
  rfl

theorem hist_fulfill {s : St} {c : Nat → List Call} {p : Nat} {v : Val} (h : Hist s c)
    (hp : (s.proms p).state = .pending) :
    Hist (trigger { s with proms := setProm s.proms p ⟨.fulfilled v, [], []⟩ } p
      (s.proms p).fulfillReactions v) c := by
  refine ⟨fun q hq => ?_, fun q => ?_⟩
  · by_cases hqp : q = p
    · subst hqp; simp [trigger, setProm] at hq
    · simp only [trigger, setProm, hqp, if_false] at hq ⊢
      exact h.pend q hq
  · by_cases hqp : q = p
    · subst hqp
      simp only [trigger, setProm, if_true, queuedFor_append, queuedFor_same, (h.pend q hp).1]
      rw [h.log q, hp]
      simp [expected]
    · simp only [trigger, setProm, hqp, if_false, queuedFor_append, queuedFor_other hqp]
      rw [List.append_nil]; exact h.log q

theorem hist_reject {s : St} {c : Nat → List Call} {p : Nat} {v : Val} (h : Hist s c)
    (hp : (s.proms p).state = .pending) :
    Hist (trigger { s with proms := setProm s.proms p ⟨.rejected v, [], []⟩ } p
      (s.proms p).rejectReactions v) c := by
  refine ⟨fun q hq => ?_, fun q => ?_⟩
  · by_cases hqp : q = p
    · subst hqp; simp [trigger, setProm] at hq
    · simp only [trigger, setProm, hqp, if_false] at hq ⊢
      exact h.pend q hq
  · by_cases hqp : q = p
    · subst hqp
      simp only [trigger, setProm, if_true, queuedFor_append, queuedFor_same, (h.pend q hp).2]
      rw [h.log q, hp]
      simp [expected]
    · simp only [trigger, setProm, hqp, if_false, queuedFor_append, queuedFor_other hqp]
      rw [List.append_nil]; exact h.log q

/-- What every step keeps: the invariants, and the state of settled promises. -/
structure Good (f : Nat → Prom) (s' : St) (c : Nat → List Call) : Prop where
  inv : Inv s'
  hist : Hist s' c
  keep : ∀ p, (f p).state ≠ .pending → (s'.proms p).state = (f p).state

theorem keep_setProm {s : St} {p : Nat} {x : Prom} (hp : (s.proms p).state = .pending) (l v) :
    ∀ q, (s.proms q).state ≠ .pending →
      ((trigger { s with proms := setProm s.proms p x } p l v).proms q).state = (s.proms q).state := by
  intro q hq
  have : q ≠ p := fun h => hq (h ▸ hp)
  simp [trigger, setProm, this]

theorem fulfill_good {s : St} {c : Nat → List Call} {p : Nat} {v : Val} (hh : Hist s c)
    (h1 : ∀ q, tok s q + (if q = p then 1 else 0) ≤ room s q)
    (h2 : ∀ q, s.next ≤ q → (s.proms q).state = .pending) :
    ∃ s', fulfillPromise s p v = some s' ∧ Good s.proms s' c := by
  obtain ⟨hp, hi⟩ := inv_settle (x := ⟨.fulfilled v, [], []⟩) (l := (s.proms p).fulfillReactions)
    (v := v) h1 h2
  exact ⟨_, by simp [fulfillPromise, hp], hi, hist_fulfill hh hp, keep_setProm hp _ _⟩

theorem reject_good {s : St} {c : Nat → List Call} {p : Nat} {v : Val} (hh : Hist s c)
    (h1 : ∀ q, tok s q + (if q = p then 1 else 0) ≤ room s q)
    (h2 : ∀ q, s.next ≤ q → (s.proms q).state = .pending) :
    ∃ s', rejectPromise s p v = some s' ∧ Good s.proms s' c := by
  obtain ⟨hp, hi⟩ := inv_settle (x := ⟨.rejected v, [], []⟩) (l := (s.proms p).rejectReactions)
    (v := v) h1 h2
  exact ⟨_, by simp [rejectPromise, hp], hi, hist_reject hh hp, keep_setProm hp _ _⟩

/-- Using up a pair of resolving functions gives the right to settle the promise. -/
theorem tok_use {s : St} {i p : Nat} (hi : Inv s) (h : s.status[i]? = some (p, false)) (q : Nat) :
    tok { s with status := s.status.set i (p, true) } q + (if q = p then 1 else 0) ≤
      room s q := by
  have := hi.tok q
  obtain ⟨hlt, hget⟩ := List.getElem?_eq_some_iff.1 h
  have hc := List.countP_set (p := fun x : Nat × Bool => decide (x.1 = q) && !x.2) (a := (p, true)) hlt
  rw [hget] at hc
  simp only [Bool.not_true, Bool.and_false, Bool.false_eq_true, if_false, Bool.not_false,
    Bool.and_true, decide_eq_true_eq] at hc
  unfold tok at this ⊢
  simp only
  rw [hc]
  by_cases hqp : q = p
  · subst hqp
    have hpos : 0 < s.status.countP fun x : Nat × Bool => decide (x.1 = q) && !x.2 := by
      rw [List.countP_pos_iff]
      exact ⟨(q, false), List.mem_of_getElem? h, by simp⟩
    simp only [if_true]
    omega
  · have hpq : ¬ p = q := fun h => hqp h.symm
    simp only [hqp, hpq, if_false]
    omega

theorem resolve_good {s : St} {c : Nat → List Call} (hi : Inv s) (hh : Hist s c) (i : Nat) (v : Val) :
    ∃ s', callResolve s i v = some s' ∧ Good s.proms s' c := by
  have same : Good s.proms s c := ⟨hi, hh, fun _ _ => rfl⟩
  unfold callResolve
  cases h : s.status[i]? with
  | none => exact ⟨s, rfl, same⟩
  | some x =>
    obtain ⟨p, b⟩ := x
    cases b with
    | true => exact ⟨s, rfl, same⟩
    | false =>
      simp only [Bool.false_eq_true, if_false]
      have ht := tok_use hi h
      have hh' : Hist { s with status := s.status.set i (p, true) } c := ⟨hh.pend, hh.log⟩
      split
      · exact reject_good (s := { s with status := s.status.set i (p, true) }) hh' ht hi.fresh
      · split
        · exact fulfill_good (s := { s with status := s.status.set i (p, true) }) hh' ht hi.fresh
        · refine ⟨_, rfl, ⟨fun q => ?_, hi.fresh⟩, ⟨hh.pend, hh.log⟩, fun _ _ => rfl⟩
          have := ht q
          simp only [tok, List.countP_append] at this ⊢
          simp only [room] at this ⊢
          have e : List.countP (fun x : Nat × Val => decide (x.1 = q)) [(p, v)] =
              if q = p then 1 else 0 := by
            by_cases hqp : q = p
            · simp [hqp]
            · have : ¬ p = q := fun h => hqp h.symm
              simp [hqp, this]
          rw [e]; omega

theorem rejectCall_good {s : St} {c : Nat → List Call} (hi : Inv s) (hh : Hist s c) (i : Nat) (v : Val) :
    ∃ s', callReject s i v = some s' ∧ Good s.proms s' c := by
  have same : Good s.proms s c := ⟨hi, hh, fun _ _ => rfl⟩
  unfold callReject
  cases h : s.status[i]? with
  | none => exact ⟨s, rfl, same⟩
  | some x =>
    obtain ⟨p, b⟩ := x
    cases b with
    | true => exact ⟨s, rfl, same⟩
    | false =>
      simp only [Bool.false_eq_true, if_false]
      exact reject_good (s := { s with status := s.status.set i (p, true) })
        ⟨hh.pend, hh.log⟩ (tok_use hi h) hi.fresh

theorem countP_eraseIdx {α : Type} (f : α → Bool) : ∀ (l : List α) (i : Nat) (a : α),
    l[i]? = some a → (l.eraseIdx i).countP f + (if f a then 1 else 0) = l.countP f
  | [], i, a, h => by simp at h
  | x :: l, 0, a, h => by
    obtain rfl : x = a := by simpa using h
    simp [List.countP_cons]
  | x :: l, i + 1, a, h => by
    have ih := countP_eraseIdx f l i a (by simpa using h)
    simp only [List.eraseIdx_cons_succ, List.countP_cons]
    omega

theorem getThen_good {s : St} {c : Nat → List Call} (hi : Inv s) (hh : Hist s c) (i : Nat)
    (o : GetThen) : ∃ s', getThenDone s i o = some s' ∧ Good s.proms s' c := by
  unfold getThenDone
  cases h : s.gets[i]? with
  | none => exact ⟨s, rfl, hi, hh, fun _ _ => rfl⟩
  | some x =>
    obtain ⟨p, res⟩ := x
    simp only
    have ht : ∀ q, tok { s with gets := s.gets.eraseIdx i } q + (if q = p then 1 else 0) ≤ room s q := by
      intro q
      have := hi.tok q
      have hc := countP_eraseIdx (fun x : Nat × Val => decide (x.1 = q)) _ _ _ h
      simp only [decide_eq_true_eq] at hc
      have e : (if p = q then 1 else 0) = (if q = p then 1 else 0) := by simp only [eq_comm]
      rw [e] at hc
      unfold tok at this ⊢
      simp only
      omega
    have hh' : Hist { s with gets := s.gets.eraseIdx i } c := ⟨hh.pend, hh.log⟩
    cases o with
    | throws e => exact reject_good (s := { s with gets := s.gets.eraseIdx i }) hh' ht hi.fresh
    | notCallable => exact fulfill_good (s := { s with gets := s.gets.eraseIdx i }) hh' ht hi.fresh
    | callable =>
      refine ⟨_, rfl, ⟨fun q => ?_, hi.fresh⟩, ⟨hh.pend, hh.log⟩, fun _ _ => rfl⟩
      have := ht q
      simp only [tok, List.countP_append, room] at this ⊢
      have e : List.countP (isTok q) [Job.thenJob p res] = if q = p then 1 else 0 := by
        by_cases hqp : q = p
        · simp [isTok, hqp]
        · have : ¬ p = q := fun h => hqp h.symm
          simp [isTok, hqp, this]
      rw [e]; omega

/-- One more `then` call on `p`. -/
def addCall (c : Nat → List Call) (p : Nat) (x : Call) : Nat → List Call :=
  fun q => if q = p then c q ++ [x] else c q

theorem then_good {s : St} {c : Nat → List Call} (hi : Inv s) (hh : Hist s c) (p id : Nat)
    (f r : Bool) (cap : Option Nat) :
    Good s.proms (performThen s p id f r cap) (addCall c p ⟨id, f, r, cap⟩) := by
  unfold performThen
  cases hs : (s.proms p).state with
  | pending =>
    simp only
    refine ⟨⟨fun q => ?_, fun q hq => ?_⟩, ⟨fun q hq => ?_, fun q => ?_⟩, fun q hq => ?_⟩
    · have := hi.tok q
      by_cases hqp : q = p
      · subst hqp
        simp only [room, setProm, if_true, hs] at this ⊢
        exact this
      · simp only [room, setProm, hqp, if_false] at this ⊢
        exact this
    · simp only [setProm]; split
      · rfl
      · exact hi.fresh q hq
    · by_cases hqp : q = p
      · subst hqp
        obtain ⟨a, b⟩ := hh.pend q hs
        simp [setProm, addCall, a, b, Call.fulfill, Call.reject]
      · simp only [setProm, addCall, hqp, if_false] at hq ⊢
        exact hh.pend q hq
    · have := hh.log q
      by_cases hqp : q = p
      · subst hqp
        simp only [setProm, if_true]
        rw [this, hs]; rfl
      · simp only [setProm, addCall, hqp, if_false]; exact this
    · have hqp : q ≠ p := fun h => hq (h ▸ hs)
      simp [setProm, hqp]
  | fulfilled v =>
    refine ⟨⟨fun q => ?_, hi.fresh⟩, ⟨fun q hq => ?_, fun q => ?_⟩, fun q hq => rfl⟩
    · rw [tok_trigger]; exact hi.tok q
    · have hqp : q ≠ p := fun h => by
        subst h
        have : (s.proms q).state = .pending := hq
        rw [hs] at this; simp at this
      simp only [addCall, hqp, if_false]
      exact hh.pend q hq
    · simp only [trigger]
      rw [queuedFor_append]
      have := hh.log q
      by_cases hqp : q = p
      · subst hqp
        rw [queuedFor_same, this, hs]
        simp [expected, addCall, Call.fulfill]
      · rw [queuedFor_other hqp, List.append_nil]
        simp only [addCall, hqp, if_false]; exact this
  | rejected v =>
    refine ⟨⟨fun q => ?_, hi.fresh⟩, ⟨fun q hq => ?_, fun q => ?_⟩, fun q hq => rfl⟩
    · rw [tok_trigger]; exact hi.tok q
    · have hqp : q ≠ p := fun h => by
        subst h
        have : (s.proms q).state = .pending := hq
        rw [hs] at this; simp at this
      simp only [addCall, hqp, if_false]
      exact hh.pend q hq
    · simp only [trigger]
      rw [queuedFor_append]
      have := hh.log q
      by_cases hqp : q = p
      · subst hqp
        rw [queuedFor_same, this, hs]
        simp [expected, addCall, Call.reject]
      · rw [queuedFor_other hqp, List.append_nil]
        simp only [addCall, hqp, if_false]; exact this

/-- The `then` calls after one more event. -/
def note (c : Nat → List Call) : Event → Nat → List Call
  | .then_ p id f r cap => addCall c p ⟨id, f, r, cap⟩
  | _ => c

theorem step_good {s : St} {c : Nat → List Call} (hi : Inv s) (hh : Hist s c) (e : Event) :
    ∃ s', step s e = some s' ∧ Good s.proms s' (note c e) := by
  cases e with
  | newPromise =>
    refine ⟨_, rfl, ⟨fun q => ?_, fun q hq => hi.fresh q (Nat.le_of_succ_le hq)⟩,
      ⟨hh.pend, hh.log⟩, fun _ _ => rfl⟩
    have := hi.tok q
    simp only [tok, List.countP_append, room] at this ⊢
    by_cases hq : q = s.next
    · subst hq
      have hpend := hi.fresh s.next (Nat.le_refl _)
      simp only [Nat.lt_irrefl, and_false, if_false, hpend, Nat.lt_succ_self, and_self, if_true] at this ⊢
      simp
      omega
    · have hn : ¬ s.next = q := fun h => hq h.symm
      have e : List.countP (fun x : Nat × Bool => decide (x.1 = q) && !x.2) [(s.next, false)] = 0 := by
        simp [hn]
      rw [e]
      have : q < s.next + 1 ↔ q < s.next := by omega
      simp only [this]
      omega
  | resolve i v => exact resolve_good hi hh i v
  | reject i v => exact rejectCall_good hi hh i v
  | getThen i o => exact getThen_good hi hh i o
  | then_ p id f r cap => exact ⟨_, rfl, then_good hi hh p id f r cap⟩
  | runJob =>
    cases hj : s.jobs with
    | nil => exact ⟨s, by simp [step, hj], hi, hh, fun _ _ => rfl⟩
    | cons j js =>
      cases j with
      | thenJob p v =>
        simp only [step, hj]
        refine ⟨_, rfl, ⟨fun q => ?_, hi.fresh⟩, ⟨hh.pend, hh.log⟩, fun _ _ => rfl⟩
        have := hi.tok q
        simp only [tok, List.countP_append, room, hj, List.countP_cons, isTok] at this ⊢
        by_cases hqp : p = q
        · simp [hqp] at this ⊢; omega
        · simp [hqp] at this ⊢; omega
      | reactionJob p r v =>
        simp only [step, hj]
        refine ⟨_, rfl, ⟨fun q => ?_, hi.fresh⟩, ⟨hh.pend, hh.log⟩, fun _ _ => rfl⟩
        have := hi.tok q
        simp only [tok, room, hj, List.countP_cons, isTok] at this ⊢
        simpa using this
  | handlerDone i o =>
    simp only [step]
    cases h : s.running[i]? with
    | none => exact ⟨s, rfl, hi, hh, fun _ _ => rfl⟩
    | some x =>
      obtain ⟨r, arg⟩ := x
      simp only
      have hi' : Inv { s with running := s.running.eraseIdx i } := ⟨hi.tok, hi.fresh⟩
      have hh' : Hist { s with running := s.running.eraseIdx i } c := ⟨hh.pend, hh.log⟩
      cases r.cap with
      | none => exact ⟨_, rfl, hi', hh', fun _ _ => rfl⟩
      | some k =>
        simp only
        cases reactionOutcome r arg o with
        | returns v => exact resolve_good hi' hh' k v
        | throws v => exact rejectCall_good hi' hh' k v

theorem note_calls (c : Nat → List Call) (e : Event) (es : List Event) (p : Nat) :
    note c e p ++ calls p es = c p ++ calls p (e :: es) := by
  cases e with
  | then_ q id f r cap =>
    simp only [note, addCall, calls]
    by_cases h : p = q
    · subst h; simp
    · have : ¬ q = p := fun h' => h h'.symm
      simp [h, this]
  | _ => rfl

theorem run_good : ∀ (es : List Event) (s : St) (c : Nat → List Call), Inv s → Hist s c →
    ∃ s', run s es = some s' ∧ Good s.proms s' (fun p => c p ++ calls p es)
  | [], s, c, hi, hh => ⟨s, rfl, hi, by simpa [calls] using hh, fun _ _ => rfl⟩
  | e :: es, s, c, hi, hh => by
    obtain ⟨s1, h1, g1⟩ := step_good hi hh e
    obtain ⟨s2, h2, g2⟩ := run_good es s1 (note c e) g1.inv g1.hist
    refine ⟨s2, by simp [run, h1, h2], g2.inv, ?_, fun p hp => ?_⟩
    · have := g2.hist
      simp only [note_calls] at this
      exact this
    · have hk := g1.keep p hp
      rw [← hk]
      exact g2.keep p (by rw [hk]; exact hp)

/-- What has been taken from the queue so far, together with what is still queued, is what
has ever been queued. -/
def Logged (s : St) : Prop := s.log = s.started ++ reactionsOf s.jobs

theorem reactionsOf_append (a b : List Job) :
    reactionsOf (a ++ b) = reactionsOf a ++ reactionsOf b := by
  induction a with
  | nil => rfl
  | cons j a ih => cases j <;> simp [reactionsOf, ih]

theorem reactionsOf_map (p : Nat) (l : List Reaction) (v : Val) :
    reactionsOf (l.map fun r => Job.reactionJob p r v) = l.map fun r => (p, r, v) := by
  induction l with
  | nil => rfl
  | cons a l ih =>
    simp only [List.map_cons]
    rw [← ih]
    simp [reactionsOf]

theorem logged_trigger {s : St} (h : Logged s) (p : Nat) (l : List Reaction) (v : Val) :
    Logged (trigger s p l v) := by
  unfold Logged at h ⊢
  simp only [trigger]
  rw [h, reactionsOf_append, reactionsOf_map, List.append_assoc]

theorem logged_fulfill {s s' : St} (h : Logged s) {p v} (e : fulfillPromise s p v = some s') :
    Logged s' := by
  unfold fulfillPromise at e
  split at e
  · obtain rfl := Option.some.inj e
    exact logged_trigger (s := { s with proms := _ }) h _ _ _
  · exact absurd e (by simp)

theorem logged_reject {s s' : St} (h : Logged s) {p v} (e : rejectPromise s p v = some s') :
    Logged s' := by
  unfold rejectPromise at e
  split at e
  · obtain rfl := Option.some.inj e
    exact logged_trigger (s := { s with proms := _ }) h _ _ _
  · exact absurd e (by simp)

theorem logged_callResolve {s s' : St} (h : Logged s) {i v}
    (e : callResolve s i v = some s') : Logged s' := by
  unfold callResolve at e
  cases hs : s.status[i]? with
  | none => rw [hs] at e; obtain rfl := Option.some.inj e; exact h
  | some x =>
    obtain ⟨p, b⟩ := x
    rw [hs] at e
    simp only at e
    split at e
    · obtain rfl := Option.some.inj e; exact h
    · split at e
      · exact logged_reject (by exact h) e
      · split at e
        · exact logged_fulfill (by exact h) e
        · obtain rfl := Option.some.inj e; exact h

theorem logged_callReject {s s' : St} (h : Logged s) {i v}
    (e : callReject s i v = some s') : Logged s' := by
  unfold callReject at e
  cases hs : s.status[i]? with
  | none => rw [hs] at e; obtain rfl := Option.some.inj e; exact h
  | some x =>
    obtain ⟨p, b⟩ := x
    rw [hs] at e
    simp only at e
    split at e
    · obtain rfl := Option.some.inj e; exact h
    · exact logged_reject (by exact h) e

theorem logged_step {s s' : St} (h : Logged s) {e : Event} (he : step s e = some s') : Logged s' := by
  cases e with
  | newPromise => obtain rfl := Option.some.inj he; exact h
  | resolve i v => exact logged_callResolve h he
  | reject i v => exact logged_callReject h he
  | getThen i o =>
    simp only [step, getThenDone] at he
    cases hg : s.gets[i]? with
    | none => rw [hg] at he; obtain rfl := Option.some.inj he; exact h
    | some x =>
      obtain ⟨p, res⟩ := x
      rw [hg] at he
      simp only at he
      cases o with
      | throws e => exact logged_reject (by exact h) he
      | notCallable => exact logged_fulfill (by exact h) he
      | callable =>
        obtain rfl := Option.some.inj he
        unfold Logged at h ⊢
        simp only
        rw [h, reactionsOf_append]; simp [reactionsOf]
  | then_ p id f r cap =>
    obtain rfl := Option.some.inj he
    unfold performThen
    cases hs : (s.proms p).state with
    | pending => exact h
    | fulfilled v => exact logged_trigger h _ _ _
    | rejected v => exact logged_trigger h _ _ _
  | runJob =>
    simp only [step] at he
    cases hj : s.jobs with
    | nil => rw [hj] at he; obtain rfl := Option.some.inj he; exact h
    | cons j js =>
      rw [hj] at he
      unfold Logged at h ⊢
      rw [hj] at h
      cases j with
      | thenJob p v => obtain rfl := Option.some.inj he; exact h
      | reactionJob p r v =>
        obtain rfl := Option.some.inj he
        simp only
        rw [h]; simp [reactionsOf]
  | handlerDone i o =>
    simp only [step] at he
    cases hr : s.running[i]? with
    | none => rw [hr] at he; obtain rfl := Option.some.inj he; exact h
    | some x =>
      obtain ⟨r, arg⟩ := x
      rw [hr] at he
      simp only at he
      cases hc : r.cap with
      | none => rw [hc] at he; obtain rfl := Option.some.inj he; exact h
      | some k =>
        rw [hc] at he
        simp only at he
        cases ho : reactionOutcome r arg o with
        | returns v =>
          rw [ho] at he
          exact logged_callResolve (by exact h) he
        | throws v =>
          rw [ho] at he
          exact logged_callReject (by exact h) he

theorem logged_run : ∀ (es : List Event) {s s' : St}, Logged s → run s es = some s' → Logged s'
  | [], s, s', h, he => by obtain rfl := Option.some.inj he; exact h
  | e :: es, s, s', h, he => by
    simp only [run] at he
    cases h1 : step s e with
    | none => rw [h1] at he; exact absurd he (by simp)
    | some t => rw [h1] at he; exact logged_run es (logged_step h h1) he

theorem inv_init : Inv init := ⟨fun p => by simp [tok, init], fun p _ => rfl⟩

theorem hist_init : Hist init fun _ => [] :=
  ⟨fun p _ => by simp [init], fun p => by simp [init, queuedFor, expected]⟩

theorem run_append (es fs : List Event) (s : St) :
    run s (es ++ fs) = (run s es).bind fun s => run s fs := by
  induction es generalizing s with
  | nil => rfl
  | cons e es ih =>
    simp only [List.cons_append, run]
    cases step s e with
    | none => rfl
    | some s => exact ih s

end Verif.Promise

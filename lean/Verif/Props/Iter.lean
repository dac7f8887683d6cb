import Verif.Lemmas.Iter

/-!
# C97: iterators, async-from-sync iterators and `Promise.race` on arbitrary objects
-/

namespace Verif.Iter

open Spec

variable {σ V : Type}

/-- A world for the examples.  Values: 0 undefined, 1 null, 2 false, 3 true, 9 a TypeError, 10 to 49 objects,
50 to 99 functions.  The state lists the functions called, the last first.  Object 10 has an iterator, 12,
whose `next` (51) gives two results, 13, with the value 20, and then 14 (done); its `return` (52) throws 70.
11 has an iterator, 15, whose `next` gives 13 and whose `return` (55) gives an object.  60 is a constructor
with capability 30, 61, 62; its `resolve` is 53, whose results have `then` = 54.  63 is a constructor with
capability 31, 61, 64, where 64 throws 71; 65 is one whose `resolve` (56) throws 72.  40 is a promise; 41 has
a `constructor` that throws. -/
def demo : World (List Nat) Nat where
  isObj v := 10 ≤ v
  callable v := 50 ≤ v
  isUndef v := v == 0
  isNull v := v == 1
  truthy v := v == 3 || 9 ≤ v
  undef := 0
  typeErr := 9
  result v d := 1000 + 2 * v + cond d 1 0
  getV v n s := .ok s .keep (match v, n with
    | 10, .iterator => 50
    | 11, .iterator => 57
    | 12, .next => 51 | 12, .ret => 52
    | 13, .done => 2 | 13, .value => 20
    | 14, .done => 3 | 14, .value => 41
    | 15, .next => 58 | 15, .ret => 55
    | 60, .resolve => 53 | 63, .resolve => 53 | 65, .resolve => 56
    | 21, .then_ => 54
    | _, _ => 0)
  callF f _ _ s := match f with
    | 50 => .ok (f :: s) .keep 12
    | 51 => .ok (f :: s) .keep (if s.count 51 < 2 then 13 else 14)
    | 52 => .thr (f :: s) 70
    | 53 => .ok (f :: s) .keep 21
    | 55 => .ok (f :: s) .clear 33
    | 56 => .thr (f :: s) 72
    | 57 => .ok (f :: s) .keep 15
    | 58 => .ok (f :: s) .keep 13
    | 64 => .thr (f :: s) 71
    | _ => .ok (f :: s) .keep 0
  wrap v s := if v == 41 then .thr s 73 else .ok s .keep 40
  newCap c s := match c with
    | 60 => .ok s .keep ⟨30, 61, 62⟩
    | 63 => .ok s .keep ⟨31, 61, 64⟩
    | 65 => .ok s .keep ⟨30, 61, 62⟩
    | _ => .thr s 9
  chain w d _ s := (w + cond d 1000 2000) :: s

/-- C97: `GetIterator` does what the standard says, whatever the object does and whatever is in the error
register: the same calls in the same order, the same iterator, and the same exception, which is then in the
register. -/
theorem C97_get_iterator (W : World σ V) (hu : W.callable W.undef = false) (obj : V) (async : Bool)
    (m : M σ V) : seen (getIterator W obj async m) = some (iteratorOf W obj async m.s) := by
  cases async with
  | false => exact sim_seq (sim_getMethod obj .iterator) (sim_fromOpt hu obj false) m
  | true =>
    refine sim_seq (sim_getMethod obj .asyncIterator) (fun f => ?_) m
    cases f with
    | none => exact sim_seq (sim_getMethod obj .iterator) (sim_fromOpt hu obj true)
    | some f => exact sim_fromMethod obj f false

example : demo.callable demo.undef = false ∧
    getIterator demo 10 true ⟨[], false, 0⟩ = .ok ⟨[50], false, 0⟩ ⟨12, 51, true⟩ ∧
    getIterator demo 20 false ⟨[], false, 0⟩ = .fail ⟨[], true, 9⟩ := by decide

/-- C97: `IteratorStep` does what the standard says, whatever the iterator does. -/
theorem C97_step (W : World σ V) (r : Rec V) (m : M σ V) :
    seen (step W r m) = some (stepOf W r m.s) := sim_step r m

example : step demo ⟨12, 51, false⟩ ⟨[51, 51], true, 5⟩ = .ok ⟨[51, 51, 51], true, 5⟩ none ∧
    step demo ⟨12, 51, false⟩ ⟨[], false, 0⟩ = .ok ⟨[51], false, 0⟩ (some 13) ∧
    step demo ⟨12, 7, false⟩ ⟨[], false, 0⟩ = .fail ⟨[], true, 9⟩ := by decide

/-- C97, part: closing an iterator without an exception does what the standard says if the register is
clear.  Missing: nothing clears it when an exception becomes a rejected promise, see
`C97_stale_error_violated`. -/
theorem C97_close_partial (W : World σ V) (r : Rec V) (m : M σ V) (h : m.flag = false) :
    seen (close W r m) = some (closeNormal W r m.s) := by
  have hb := sim_closeBody (W := W) r m
  unfold close
  cases hx : closeBody W r m with
  | ok m' a => rw [hx] at hb; simpa [h] using hb
  | fail m' => rw [hx] at hb; simpa [h] using hb

example : close demo ⟨12, 51, false⟩ ⟨[], false, 0⟩ = .fail ⟨[52], true, 70⟩ ∧
    close demo ⟨15, 58, false⟩ ⟨[], false, 0⟩ = .ok ⟨[55], false, 0⟩ () := by decide

/-- C97: closing an iterator because of an exception makes the calls of the standard and keeps the
exception's value, whatever `return` does. -/
theorem C97_close_error (W : World σ V) (r : Rec V) (m : M σ V) (h : m.flag = true) :
    ∃ m', (close W r m = .ok m' () ∨ close W r m = .fail m') ∧
      closeThrow (α := Unit) W r m.err m.s = .thr m'.s m'.err := by
  have hs := closeBody_state (W := W) r m m.err
  unfold close
  cases hx : closeBody W r m with
  | ok m' a => rw [hx] at hs; exact ⟨{ m' with err := m.err }, by simp [h], hs⟩
  | fail m' => rw [hx] at hs; exact ⟨{ m' with err := m.err }, by simp [h], hs⟩

example : close demo ⟨12, 51, false⟩ ⟨[], true, 7⟩ = .fail ⟨[52], true, 7⟩ ∧
    close demo ⟨15, 58, false⟩ ⟨[], true, 7⟩ = .ok ⟨[55], false, 7⟩ () := by decide

/-- C97: the methods of async-from-sync iterators do what the standard says, whatever the iterator does: the
same calls in the same order and the same settling of the promise.  The functions of the promise, which is
one of `%Promise%`, do not throw. -/
theorem C97_from_sync (W : World σ V) (r : Rec V) (pc : Cap V) (q : Quiet W pc) (m : M σ V) :
    (∀ arg : Option V, seen (nextFn W r pc arg m) = some (asyncNext W r pc arg.toList m.s)) ∧
    (∀ arg : Option V, seen (returnFn W r pc arg m) = some (asyncReturn W r pc arg.toList m.s)) ∧
    (∀ v : V, seen (throwFn W r pc v m) = some (asyncThrow W r pc v m.s)) := by
  refine ⟨fun arg => ?_, fun arg => ?_, fun v => ?_⟩
  · exact sim_orReject q (sim_iterNext r arg) (fun res => sim_continuation q res) m
  · refine sim_orReject q (sim_getMethod r.iter .ret) (fun f => ?_) m
    cases f with
    | none => cases arg <;> exact sim_tell_resolve q _
    | some f => exact sim_checked q (sim_call _ _ _)
  · refine sim_orReject q (sim_getMethod r.iter .throw) (fun f => ?_) m
    cases f with
    | none => exact sim_tell_reject q _
    | some f => exact sim_checked q (sim_call _ _ _)

example : Quiet demo ⟨30, 61, 62⟩ := ⟨rfl, rfl, fun _ _ => ⟨_, _, _, rfl⟩, fun _ _ => ⟨_, _, _, rfl⟩⟩
example : nextFn demo ⟨12, 51, true⟩ ⟨30, 61, 62⟩ (some 5) ⟨[], false, 0⟩ = .ok ⟨[2040, 51], false, 0⟩ 30 ∧
    nextFn demo ⟨12, 51, true⟩ ⟨30, 61, 62⟩ none ⟨[51, 51], false, 0⟩ = .ok ⟨[62, 51, 51, 51], true, 73⟩ 30 ∧
    returnFn demo ⟨12, 51, true⟩ ⟨30, 61, 62⟩ none ⟨[], false, 0⟩ = .ok ⟨[62, 52], true, 70⟩ 30 ∧
    returnFn demo ⟨13, 51, true⟩ ⟨30, 61, 62⟩ (some 5) ⟨[], false, 0⟩ = .ok ⟨[61], false, 0⟩ 30 ∧
    throwFn demo ⟨12, 51, true⟩ ⟨30, 61, 62⟩ 5 ⟨[], false, 0⟩ = .ok ⟨[62], false, 0⟩ 30 := by decide

/-- C97, part: `Promise.race` does what the standard says, for every constructor whose capabilities have
functions that do not throw, every iterable and every number of rounds: the same calls in the same order,
the iterator closed exactly when `resolve` or `then` throws, the promise rejected with the exception.
Missing: functions that throw, see `C97_reject_throws_violated`. -/
theorem C97_race_partial (W : World σ V) (hu : W.callable W.undef = false) (c iterable : V) (n : Nat)
    (m : M σ V) (hq : ∀ s s' l pc, W.newCap c s = .ok s' l pc → Quiet W pc) :
    (race W c iterable n m).map seen = (raceOf W c iterable n m.s).map some := by
  unfold race raceOf
  cases hn : W.newCap c m.s with
  | thr s e => simp [act, hn, seen]
  | ok s l pc =>
    have q := hq _ _ _ _ hn
    simp only [act, hn]
    generalize hm1 : leave W { m with s := s } l = m1
    have hs1 : m1.s = s := by rw [← hm1, leave_s]
    subst hs1
    rcases (sim_getResolve (W := W) c).ends m1 with ⟨m2, resolve, h1, h2⟩ | ⟨m2, h1, _, h2⟩
    · rw [h1, h2]
      simp only
      have hg : Sim (getIterator W iterable false) (iteratorOf W iterable false) :=
        C97_get_iterator W hu iterable false
      rcases hg.ends m2 with ⟨m3, r, h3, h4⟩ | ⟨m3, h3, _, h4⟩
      · rw [h3, h4]
        simp only
        obtain ⟨hl, hf⟩ := raceLoop_eq (W := W) r c resolve pc n m3
        rw [← hl]
        cases hx : raceLoop W r c resolve pc n m3 with
        | none => rfl
        | some ob =>
          obtain ⟨o, b⟩ := ob
          cases o with
          | ok m4 a => rfl
          | fail m4 =>
            have hfl := hf _ _ hx
            cases b with
            | true =>
              simp only [Option.map_some, closed, raceEnd]
              rw [reject_now q]
            | false =>
              simp only [Option.map_some, closed, raceEnd]
              obtain ⟨m5, h5, h6⟩ := C97_close_error W r m4 hfl
              rw [h6]
              rcases h5 with h5 | h5 <;> simp only [h5] <;> rw [reject_now q] <;> rfl
      · rw [h3, h4]
        simp only [Option.map_some]
        rw [reject_now q]
    · rw [h1, h2]
      simp only [Option.map_some]
      rw [reject_now q]

example : (∀ s s' l pc, demo.newCap 60 s = .ok s' l pc → Quiet demo pc) := by
  intro s s' l pc h
  simp [demo] at h
  obtain ⟨-, -, rfl⟩ := h
  exact ⟨rfl, rfl, fun _ _ => ⟨_, _, _, rfl⟩, fun _ _ => ⟨_, _, _, rfl⟩⟩
example : race demo 60 10 5 ⟨[], false, 0⟩ = some (.ok ⟨[51, 54, 53, 51, 54, 53, 51, 50], false, 0⟩ 30) ∧
    race demo 65 11 5 ⟨[], false, 0⟩ = some (.ok ⟨[62, 55, 56, 58, 57], false, 72⟩ 30) ∧
    race demo 60 11 3 ⟨[], false, 0⟩ = none := by decide

/-- C97 fails: an exception that became a rejected promise stays in the register, and replaces the one of
the next iterator's `return` method:
`Promise.race(1); for (x of {[Symbol.iterator]() { return {next() { return {} }, return() { throw e }} }}) break`
throws the TypeError of the first statement instead of `e`. -/
theorem C97_stale_error_violated :
    ∃ (W : World (List Nat) Nat) (c x : Nat) (r : Rec Nat) (m m' : M (List Nat) Nat) (p : Nat),
      m.flag = false ∧ race W c x 5 m = some (.ok m' p) ∧
      closeNormal W r m'.s = .thr (52 :: m'.s) 70 ∧ close W r m' = .fail ⟨52 :: m'.s, true, 9⟩ :=
  ⟨demo, 60, 20, ⟨12, 51, false⟩, ⟨[], false, 0⟩, ⟨[62], true, 9⟩, 30, by decide⟩

/-- C97 fails: an exception of the capability's `reject` function is lost: with
`class C extends Promise { constructor(f) { super(() => {}); f(() => {}, () => { throw e }) } }` the call
`Promise.race.call(C, 1)` gives a promise instead of throwing `e`. -/
theorem C97_reject_throws_violated :
    ∃ (W : World (List Nat) Nat) (c x : Nat) (m m' : M (List Nat) Nat) (p : Nat),
      W.callable W.undef = false ∧
      race W c x 5 m = some (.ok m' p) ∧ raceOf W c x 5 m.s = some (.thr m'.s 71) :=
  ⟨demo, 63, 20, ⟨[], false, 0⟩, ⟨[64], true, 71⟩, 31, by decide⟩

end Verif.Iter

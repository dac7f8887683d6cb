import Verif.Model.Iter

/-!
# Iterators, `%AsyncFromSyncIteratorPrototype%` and `Promise.race` as the standard has them

ECMAScript 2023, 7.4 (iterators), 27.1.4.2, 27.1.4.4 (async-from-sync iterators), 27.2.1.1.1
(IfAbruptRejectPromise), 27.2.4.5 (`Promise.race`).  There is no register: an exception is what an action
ends with.  Of the model only the program's values are used.
-/

namespace Verif.Iter.Spec

open Verif.Iter

variable {σ V : Type}

/-- A completion. -/
inductive Comp (σ V α : Type) where
  | ok (s : σ) (a : α)
  | thr (s : σ) (e : V)
  deriving DecidableEq

abbrev Act (σ V α : Type) := σ → Comp σ V α

def done {α : Type} (a : α) : Act σ V α := fun s => .ok s a
def throw {α : Type} (e : V) : Act σ V α := fun s => .thr s e

/-- `? x`. -/
def andThen {α β : Type} (x : Act σ V α) (f : α → Act σ V β) : Act σ V β := fun s =>
  match x s with
  | .ok s a => f a s
  | .thr s e => .thr s e

/-- An access or a call, seen by the program. -/
def see {α : Type} (x : σ → Res σ V α) : Act σ V α := fun s =>
  match x s with
  | .ok s _ a => .ok s a
  | .thr s e => .thr s e

/-- Call (7.3.14). -/
def call (W : World σ V) (f this : V) (args : List V) : Act σ V V :=
  if W.callable f then see (W.callF f this args) else throw W.typeErr

/-- GetMethod (7.3.11). -/
def method (W : World σ V) (v : V) (n : Name) : Act σ V (Option V) :=
  andThen (see (W.getV v n)) fun f =>
  if W.isUndef f || W.isNull f then done none
  else if !W.callable f then throw W.typeErr
  else done (some f)

/-- GetIteratorFromMethod (7.4.2). -/
def iteratorFrom (W : World σ V) (obj m : V) (wrapped : Bool) : Act σ V (Rec V) :=
  andThen (call W m obj []) fun it =>
  if !W.isObj it then throw W.typeErr
  else andThen (see (W.getV it .next)) fun nx => done ⟨it, nx, wrapped⟩

/-- GetIterator (7.4.3). -/
def iteratorOf (W : World σ V) (obj : V) (async : Bool) : Act σ V (Rec V) :=
  let sync (wrapped : Bool) : Act σ V (Rec V) :=
    andThen (method W obj .iterator) fun m =>
    match m with
    | none => throw W.typeErr
    | some m => iteratorFrom W obj m wrapped
  if async then
    andThen (method W obj .asyncIterator) fun m =>
    match m with
    | none => sync true
    | some m => iteratorFrom W obj m false
  else sync false

/-- IteratorNext (7.4.4). -/
def next (W : World σ V) (r : Rec V) (args : List V) : Act σ V V :=
  andThen (call W r.next r.iter args) fun res => if !W.isObj res then throw W.typeErr else done res

/-- IteratorComplete (7.4.5). -/
def completed (W : World σ V) (res : V) : Act σ V Bool :=
  andThen (see (W.getV res .done)) fun d => done (W.truthy d)

/-- IteratorStep (7.4.7). -/
def stepOf (W : World σ V) (r : Rec V) : Act σ V (Option V) :=
  andThen (next W r []) fun res =>
  andThen (completed W res) fun d => done (if d then none else some res)

/-- What IteratorClose (7.4.9) does to the iterator: GetMethod and Call (steps 3, 4). -/
def callReturn (W : World σ V) (r : Rec V) : Act σ V (Option V) :=
  andThen (method W r.iter .ret) fun f =>
  match f with
  | none => done none
  | some f => andThen (call W f r.iter []) fun v => done (some v)

/-- IteratorClose with a normal completion. -/
def closeNormal (W : World σ V) (r : Rec V) : Act σ V Unit :=
  andThen (callReturn W r) fun v =>
  if (v.map W.isObj).getD true then done () else throw W.typeErr

/-- IteratorClose with a throw completion: the completion is given back, whatever happens. -/
def closeThrow {α : Type} (W : World σ V) (r : Rec V) (e : V) : Act σ V α := fun s =>
  match callReturn W r s with
  | .ok s _ => .thr s e
  | .thr s _ => .thr s e

/-- IfAbruptRejectPromise (27.2.1.1.1). -/
def rejecting {α : Type} (W : World σ V) (pc : Cap V) (x : Act σ V α) (f : α → Act σ V V) : Act σ V V := fun s =>
  match x s with
  | .ok s a => f a s
  | .thr s e => andThen (call W pc.reject W.undef [e]) (fun _ => done pc.promise) s

/-- AsyncFromSyncIteratorContinuation (27.1.4.4). -/
def continued (W : World σ V) (res : V) (pc : Cap V) : Act σ V V :=
  rejecting W pc (completed W res) fun d =>
  rejecting W pc (see (W.getV res .value)) fun v =>
  rejecting W pc (see (W.wrap v)) fun w => fun s => .ok (W.chain w d pc s) pc.promise

/-- 27.1.4.2.1 -/
def asyncNext (W : World σ V) (r : Rec V) (pc : Cap V) (args : List V) : Act σ V V :=
  rejecting W pc (next W r args) fun res => continued W res pc

/-- "If result is not an Object": reject with a TypeError, else go on. -/
def checked (W : World σ V) (pc : Cap V) (x : Act σ V V) : Act σ V V :=
  rejecting W pc x fun res =>
  if !W.isObj res then andThen (call W pc.reject W.undef [W.typeErr]) fun _ => done pc.promise
  else continued W res pc

/-- 27.1.4.2.2 -/
def asyncReturn (W : World σ V) (r : Rec V) (pc : Cap V) (args : List V) : Act σ V V :=
  rejecting W pc (method W r.iter .ret) fun f =>
  match f with
  | none => andThen (call W pc.resolve W.undef [W.result (args.headD W.undef) true]) fun _ => done pc.promise
  | some f => checked W pc (call W f r.iter args)

/-- 27.1.4.2.3, with an argument. -/
def asyncThrow (W : World σ V) (r : Rec V) (pc : Cap V) (v : V) : Act σ V V :=
  rejecting W pc (method W r.iter .throw) fun f =>
  match f with
  | none => andThen (call W pc.reject W.undef [v]) fun _ => done pc.promise
  | some f => checked W pc (call W f r.iter [v])

/-- GetPromiseResolve (27.2.4.1.1). -/
def resolveOf (W : World σ V) (c : V) : Act σ V V :=
  andThen (see (W.getV c .resolve)) fun f => if !W.callable f then throw W.typeErr else done f

/-- One round of PerformPromiseRace after the value was read (27.2.4.5.1, steps e, f). -/
def entrant (W : World σ V) (c resolve : V) (pc : Cap V) (v : V) : Act σ V V :=
  andThen (call W resolve c [v]) fun p =>
  andThen (see (W.getV p .then_)) fun th => call W th p [pc.resolve, pc.reject]

/-- PerformPromiseRace with the closing of the iterator (27.2.4.5, steps 6, 7a), at most `n` rounds.  An
exception of the iterator itself does not close it. -/
def raceRounds (W : World σ V) (r : Rec V) (c resolve : V) (pc : Cap V) : Nat → σ → Option (Comp σ V Unit)
  | 0, _ => none
  | n + 1, s =>
    match stepOf W r s with
    | .thr s e => some (.thr s e)
    | .ok s none => some (.ok s ())
    | .ok s (some res) =>
      match W.getV res .value s with
      | .thr s e => some (.thr s e)
      | .ok s _ v =>
        match entrant W c resolve pc v s with
        | .thr s e => some (closeThrow W r e s)
        | .ok s _ => raceRounds W r c resolve pc n s

/-- `Promise.race` (27.2.4.5), at most `n` rounds. -/
def raceOf (W : World σ V) (c iterable : V) (n : Nat) (s : σ) : Option (Comp σ V V) :=
  match W.newCap c s with
  | .thr s e => some (.thr s e)
  | .ok s _ pc =>
    let rej (e : V) (s : σ) : Option (Comp σ V V) :=
      some (andThen (call W pc.reject W.undef [e]) (fun _ => done pc.promise) s)
    match resolveOf W c s with
    | .thr s e => rej e s
    | .ok s resolve =>
      match iteratorOf W iterable false s with
      | .thr s e => rej e s
      | .ok s r =>
        match raceRounds W r c resolve pc n s with
        | none => none
        | some (.ok s _) => some (.ok s pc.promise)
        | some (.thr s e) => rej e s

/-- What a caller sees of the end of a C function; `none`: an error without an exception in the register,
which a `catch` clause would not find. -/
def seen {α : Type} : Out σ V α → Option (Comp σ V α)
  | .ok m a => some (.ok m.s a)
  | .fail m => if m.flag then some (.thr m.s m.err) else none

/-- The capability's functions do not throw (those of `%Promise%` never do). -/
structure Quiet (W : World σ V) (pc : Cap V) : Prop where
  reject : W.callable pc.reject = true
  resolve : W.callable pc.resolve = true
  rejects : ∀ v s, ∃ s' l x, W.callF pc.reject W.undef [v] s = .ok s' l x
  resolves : ∀ v s, ∃ s' l x, W.callF pc.resolve W.undef [v] s = .ok s' l x

end Verif.Iter.Spec

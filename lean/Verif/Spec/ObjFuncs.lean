import Verif.Model.ObjFuncs

/-!
# The functions of `Object` as the standard has them

20.1.2, 6.2.6.5 (ToPropertyDescriptor), 7.3.15, 7.3.16 (integrity levels), 7.3.24
(EnumerableOwnProperties).  The steps are written with sequences of actions; of the model only the objects
and the data types are used.
-/

namespace Verif.ObjFuncs.Spec

open Verif.ObjFuncs

variable {σ K V E : Type}

/-- Actions. -/
abbrev Act (σ E α : Type) := σ → Out σ E α

def done {α : Type} (a : α) : Act σ E α := fun s => .ok s a
def throw {α : Type} (e : E) : Act σ E α := fun s => .thr s e
/-- `? x`: go on with the value, pass exceptions on. -/
def andThen {α β : Type} (x : Act σ E α) (f : α → Act σ E β) : Act σ E β := fun s =>
  match x s with
  | .ok s a => f a s
  | .thr s e => .thr s e

/-- Do something for each item. -/
def each {α : Type} (l : List α) (f : α → Act σ E Unit) : Act σ E Unit :=
  l.foldr (fun a r => andThen (f a) fun _ => r) (done ())

/-- Collect what each item gives. -/
def collect {α β : Type} (l : List α) (f : α → Act σ E (List β)) : Act σ E (List β) :=
  l.foldr (fun a r => andThen (f a) fun x => andThen r fun y => done (x ++ y)) (done [])

/-- "If success is false, throw a TypeError exception." -/
def must (W : World σ K V E) (x : Act σ E Bool) : Act σ E Unit :=
  andThen x fun b => if b then done () else throw W.typeErr

/-- SetIntegrityLevel (7.3.15). -/
def setLevel (W : World σ K V E) (o : V) (frozen : Bool) : Act σ E Bool :=
  andThen (W.prevent o) fun b =>
  if b then
    andThen (W.keys o) fun ks =>
    andThen (each ks fun k =>
      if frozen then
        andThen (W.getOwn o k) fun a =>
        match a with
        | none => done ()
        | some a => must W (W.define o k
            (if a.acc then { c := some false } else { c := some false, w := some false }))
      else must W (W.define o k { c := some false })) fun _ => done true
  else done false

/-- Has the property the level? -/
def levelOf (frozen : Bool) (a : Attr) : Bool := !a.c && (!frozen || a.acc || !a.w)

/-- All of them, as long as they have the level (7.3.16, step 5). -/
def allLevel (W : World σ K V E) (o : V) (frozen : Bool) : List K → Act σ E Bool
  | [] => done true
  | k :: ks => andThen (W.getOwn o k) fun a =>
    if (a.map (levelOf frozen)).getD true then allLevel W o frozen ks else done false

/-- TestIntegrityLevel (7.3.16). -/
def testLevel (W : World σ K V E) (o : V) (frozen : Bool) : Act σ E Bool :=
  andThen (W.isExt o) fun b =>
  if b then done false else andThen (W.keys o) fun ks => allLevel W o frozen ks

/-- 20.1.2.6, 20.1.2.22 -/
def freezeOrSeal (W : World σ K V E) (o : V) (frozen : Bool) : Act σ E V :=
  if W.isObj o then andThen (must W (setLevel W o frozen)) fun _ => done o else done o

/-- 20.1.2.16, 20.1.2.17 -/
def isFrozenOrSealed (W : World σ K V E) (o : V) (frozen : Bool) : Act σ E Bool :=
  if W.isObj o then testLevel W o frozen else done true

/-- 20.1.2.20 -/
def preventExtensions (W : World σ K V E) (o : V) : Act σ E V :=
  if W.isObj o then andThen (must W (W.prevent o)) fun _ => done o else done o

/-- 20.1.2.15 -/
def isExtensible (W : World σ K V E) (o : V) : Act σ E Bool :=
  if W.isObj o then W.isExt o else done false

/-- The field of a descriptor object, if it has it. -/
def field (W : World σ K V E) (o : V) (f : Field) : Act σ E (Option V) :=
  andThen (W.has o (W.name f)) fun b =>
  if b then andThen (W.get o (W.name f)) fun v => done (some v) else done none

/-- A getter or setter is callable or undefined. -/
def funcOk (W : World σ K V E) : Option V → Bool
  | none => true
  | some v => W.callable v || W.undef v

/-- ToPropertyDescriptor (6.2.6.5). -/
def descriptor (W : World σ K V E) (o : V) : Act σ E (Desc V) :=
  if W.isObj o then
    andThen (field W o .enumerable) fun e =>
    andThen (field W o .configurable) fun c =>
    andThen (field W o .value) fun v =>
    andThen (field W o .writable) fun w =>
    andThen (field W o .get) fun g =>
    if funcOk W g then
      andThen (field W o .set) fun s =>
      if funcOk W s then
        if (g ≠ none ∨ s ≠ none) ∧ (v ≠ none ∨ w ≠ none) then throw W.typeErr
        else done ⟨e.map W.truthy, c.map W.truthy, v, w.map W.truthy, g, s⟩
      else throw W.typeErr
    else throw W.typeErr
  else throw W.typeErr

/-- ObjectDefineProperties (20.1.2.3.1): all descriptors are read, then all properties are defined. -/
def defineProperties (W : World σ K V E) (o props : V) : Act σ E V :=
  if W.isObj o then
    andThen (W.toObj props) fun p =>
    andThen (W.keys p) fun ks =>
    andThen (collect ks fun k =>
      andThen (W.getOwn p k) fun a =>
      if (a.map Attr.e).getD false then
        andThen (W.get p k) fun v => andThen (descriptor W v) fun d => done [(k, d)]
      else done []) fun ds =>
    andThen (each ds fun x => must W (W.define o x.1 x.2)) fun _ => done o
  else throw W.typeErr

/-- 20.1.2.4 -/
def defineProperty (W : World σ K V E) (o p attrs : V) : Act σ E V :=
  if W.isObj o then
    andThen (W.toKey p) fun k =>
    andThen (descriptor W attrs) fun d =>
    andThen (must W (W.define o k d)) fun _ => done o
  else throw W.typeErr

/-- EnumerableOwnProperties (7.3.24). -/
def enumerable (W : World σ K V E) (o : V) (kind : Kind) : Act σ E (List (Item K V)) :=
  andThen (W.toObj o) fun o =>
  andThen (W.keys o) fun ks =>
  collect (ks.filter W.isStr) fun k =>
    andThen (W.getOwn o k) fun a =>
    if (a.map Attr.e).getD false then
      match kind with
      | .key => done [.key k]
      | .value => andThen (W.get o k) fun v => done [.value v]
      | .entry => andThen (W.get o k) fun v => done [.entry k v]
    else done []

/-- 20.1.2.1 -/
def assign (W : World σ K V E) (target : V) (sources : List V) : Act σ E V :=
  andThen (W.toObj target) fun dst =>
  andThen (each sources fun x =>
    if W.isNullish x then done ()
    else
      andThen (W.toObj x) fun src =>
      andThen (W.keys src) fun ks =>
      each ks fun k =>
        andThen (W.getOwn src k) fun a =>
        if (a.map Attr.e).getD false then
          andThen (W.get src k) fun v => must W (W.set dst k v)
        else done ()) fun _ => done dst

end Verif.ObjFuncs.Spec

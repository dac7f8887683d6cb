import Verif.Model.RegMethods

/-!
# The methods of `RegExp.prototype` as the standard has them

22.2.6.8 (match), 22.2.6.9 (matchAll), 22.2.6.11 (replace), 22.2.6.12 (search), 22.2.6.14 (split), 22.2.6.16
(test), 22.2.6.17 (toString), 22.2.7.1 (RegExpExec), 22.2.7.3 (AdvanceStringIndex), 22.2.9 (iterator).  Of the
model only the world and the sequencing of steps are used.
-/

namespace Verif.RegMethods.Spec

open Verif.RegMethods

variable {σ V E : Type}

/-- RegExpExec (22.2.7.1), for strings. -/
def regExpExec (W : World σ V E) (r : V) (s : Str) : Act σ E V :=
  andThen (W.get r .exec) fun f =>
  if W.callable f then
    andThen (W.call f r [W.ofStr s]) fun v =>
    if W.isObj v || W.isNull v then done v else throw W.typeErr
  else if W.isRegExp r then W.builtin r s else throw W.typeErr

def lead (c : Option Nat) : Bool := c.any fun c => 0xD800 ≤ c && c < 0xDC00
def trail (c : Option Nat) : Bool := c.any fun c => 0xDC00 ≤ c && c < 0xE000

/-- AdvanceStringIndex (22.2.7.3): one code point in unicode mode. -/
def advance (s : Str) (i : Nat) (unicode : Bool) : Nat :=
  if unicode && lead s[i]? && trail s[i + 1]? then i + 2 else i + 1

/-- Get and ToString, Get and ToLength. -/
def getStr (W : World σ V E) (o : V) (f : Fld) : Act σ E Str := andThen (W.get o f) W.toStr
def getLen (W : World σ V E) (o : V) (f : Fld) : Act σ E Nat := andThen (W.get o f) W.toLen

/-- An empty match: the next search starts one code point later. -/
def skip (W : World σ V E) (r : V) (s : Str) (unicode : Bool) : Act σ E Unit :=
  andThen (getLen W r .lastIndex) fun i => W.setLast r (W.ofNum (advance s i unicode))

/-- All matches, with the text of each: search until there is none (at most `n` searches). -/
def findAll (W : World σ V E) (r : V) (s : Str) (unicode : Bool) : Nat → Act σ E (List (V × Str))
  | 0 => fun _ => .more
  | n + 1 =>
    andThen (regExpExec W r s) fun m =>
    if W.isNull m then done []
    else
      andThen (getStr W m (.item 0)) fun x =>
      andThen (if x = [] then skip W r s unicode else done ()) fun _ =>
      andThen (findAll W r s unicode n) fun l => done ((m, x) :: l)

/-- 22.2.6.8 -/
def match_ (W : World σ V E) (n : Nat) (r str : V) : Act σ E (Found V) :=
  if W.isObj r then
    andThen (W.toStr str) fun s =>
    andThen (getStr W r .flags) fun flags =>
    if 103 ∈ flags then
      andThen (W.setLast r (W.ofNum 0)) fun _ =>
      andThen (findAll W r s (decide (117 ∈ flags)) n) fun l =>
      done (.all (if l = [] then none else some (l.map Prod.snd)))
    else andThen (regExpExec W r s) fun v => done (.one v)
  else throw W.typeErr

/-- 22.2.6.12 -/
def search (W : World σ V E) (minusOne : V) (r str : V) : Act σ E V :=
  if W.isObj r then
    andThen (W.toStr str) fun s =>
    andThen (W.get r .lastIndex) fun prev =>
    andThen (if W.same (W.ofNum 0) prev then done () else W.setLast r (W.ofNum 0)) fun _ =>
    andThen (regExpExec W r s) fun m =>
    andThen (W.get r .lastIndex) fun cur =>
    andThen (if W.same cur prev then done () else W.setLast r prev) fun _ =>
    if W.isNull m then done minusOne else W.get m .index
  else throw W.typeErr

/-- 22.2.6.16 -/
def test (W : World σ V E) (r str : V) : Act σ E Bool :=
  if W.isObj r then
    andThen (W.toStr str) fun s => andThen (regExpExec W r s) fun m => done (!W.isNull m)
  else throw W.typeErr

/-- 22.2.6.17 -/
def toString_ (W : World σ V E) (r : V) : Act σ E Str :=
  if W.isObj r then
    andThen (getStr W r .source) fun p =>
    andThen (getStr W r .flags) fun f => done (47 :: p ++ 47 :: f)
  else throw W.typeErr

/-- The units from `a` to `b`. -/
def part (s : Str) (a b : Nat) : Str := (s.take b).drop a

/-- Captures `i`, …, while there is room for them; what room is left (`none`: it was used up). -/
def captures (W : World σ V E) (z : V) : List Nat → Nat → Act σ E (List V × Nat)
  | [], room => done ([], room)
  | i :: is, room =>
    andThen (W.get z (.item i)) fun v =>
    if room = 1 then done ([v], 0)
    else andThen (captures W z is (room - 1)) fun x => done (v :: x.1, x.2)

/-- The pieces from the end `p` of the last separator on, with the search at `q`, room for `room` pieces
(22.2.6.14, step 18). -/
def pieces (W : World σ V E) (sp : V) (s : Str) (unicode : Bool) : Nat → Nat → Nat → Nat → Act σ E (List V)
  | 0, _, _, _ => fun _ => .more
  | n + 1, p, q, room =>
    if s.length ≤ q then done [W.ofStr (part s p s.length)]
    else
      andThen (W.setLast sp (W.ofNum q)) fun _ =>
      andThen (regExpExec W sp s) fun z =>
      if W.isNull z then pieces W sp s unicode n p (advance s q unicode) room
      else
        andThen (getLen W sp .lastIndex) fun li =>
        let e := min li s.length
        if e = p then pieces W sp s unicode n p (advance s q unicode) room
        else if room = 1 then done [W.ofStr (part s p q)]
        else
          andThen (getLen W z .length) fun nc =>
          andThen (captures W z (List.range' 1 (nc - 1)) (room - 1)) fun x =>
          andThen (if x.2 = 0 then done [] else pieces W sp s unicode n e e x.2) fun l =>
          done (W.ofStr (part s p q) :: x.1 ++ l)

/-- 22.2.6.14 -/
def split (W : World σ V E) (n : Nat) (r str limit : V) : Act σ E (List V) :=
  if W.isObj r then
    andThen (W.toStr str) fun s =>
    andThen (W.species r) fun c =>
    andThen (getStr W r .flags) fun flags =>
    andThen (W.construct c [r, W.ofStr (if 121 ∈ flags then flags else flags ++ [121])]) fun sp =>
    andThen (if W.isUndef limit then done (2 ^ 32 - 1) else W.toU32 limit) fun lim =>
    if lim = 0 then done []
    else if s = [] then
      andThen (regExpExec W sp s) fun z => done (if W.isNull z then [W.ofStr s] else [])
    else pieces W sp s (decide (117 ∈ flags)) n 0 0 lim
  else throw W.typeErr

/-- A capture for the function: undefined, or a string (22.2.6.11, step 14.i). -/
def capture (W : World σ V E) (m : V) (i : Nat) : Act σ E V :=
  andThen (W.get m (.item i)) fun v =>
  if W.isUndef v then done v else andThen (W.toStr v) fun x => done (W.ofStr x)

def captureList (W : World σ V E) (m : V) (is : List Nat) : Act σ E (List V) :=
  is.foldr (fun i r => andThen (capture W m i) fun v => andThen r fun l => done (v :: l)) (done [])

/-- One replacement (22.2.6.11, step 14.a-l): its position, the length of the match, its text. -/
def replacement (W : World σ V E) (s : Str) (rep : V ⊕ Str) (m : V) : Act σ E (Nat × Nat × Str) :=
  andThen (getLen W m .length) fun len =>
  andThen (getStr W m (.item 0)) fun x =>
  andThen (andThen (W.get m .index) W.toInt) fun i =>
  let pos := min i.toNat s.length
  match rep with
  | .inl f =>
    andThen (captureList W m (List.range' 1 (len - 1))) fun caps =>
    andThen (W.get m .groups) fun g =>
    andThen (andThen (W.call f W.undef
      (W.ofStr x :: caps ++ [W.ofNum pos, W.ofStr s] ++ if W.isUndef g then [] else [g])) W.toStr) fun y =>
    done (pos, x.length, y)
  | .inr t => andThen (W.subst s pos m t) fun y => done (pos, x.length, y)

/-- The replacements are put in, those that overlap the one before left out (step 14.m). -/
def fill (s : Str) : Nat → List (Nat × Nat × Str) → Str
  | next, [] => part s next s.length
  | next, (pos, len, y) :: l =>
    if next ≤ pos then part s next pos ++ y ++ fill s (pos + len) l else fill s next l

def replacements (W : World σ V E) (s : Str) (rep : V ⊕ Str) (ms : List V) : Act σ E (List (Nat × Nat × Str)) :=
  ms.foldr (fun m r => andThen (replacement W s rep m) fun x => andThen r fun l => done (x :: l)) (done [])

/-- Steps 1 to 10. -/
def replaceBegin (W : World σ V E) (r str repv : V) : Act σ E (Str × (V ⊕ Str) × Bool × Bool) :=
  if W.isObj r then
    andThen (W.toStr str) fun s =>
    andThen (if W.callable repv then done (.inl repv) else andThen (W.toStr repv) fun t => done (.inr t)) fun rep =>
    andThen (getStr W r .flags) fun flags =>
    if 103 ∈ flags then
      andThen (W.setLast r (W.ofNum 0)) fun _ => done (s, rep, true, decide (117 ∈ flags))
    else done (s, rep, false, false)
  else throw W.typeErr

/-- Steps 11 and 12: first all matches. -/
def results (W : World σ V E) (n : Nat) (r : V) (s : Str) (global unicode : Bool) : Act σ E (List V) :=
  if global then andThen (findAll W r s unicode n) fun l => done (l.map Prod.fst)
  else andThen (regExpExec W r s) fun m => done (if W.isNull m then [] else [m])

/-- 22.2.6.11 -/
def replace (W : World σ V E) (n : Nat) (r str repv : V) : Act σ E Str :=
  andThen (replaceBegin W r str repv) fun x =>
  andThen (results W n r x.1 x.2.2.1 x.2.2.2) fun ms =>
  andThen (replacements W x.1 x.2.1 ms) fun l => done (fill x.1 0 l)

/-- 22.2.6.9: the iterator of the string. -/
def matchAll (W : World σ V E) (r str : V) : Act σ E (Iter V) :=
  if W.isObj r then
    andThen (W.toStr str) fun s =>
    andThen (W.species r) fun c =>
    andThen (getStr W r .flags) fun flags =>
    andThen (W.construct c [r, W.ofStr flags]) fun m =>
    andThen (getLen W r .lastIndex) fun i =>
    andThen (W.setLast m (W.ofNum i)) fun _ =>
    done ⟨m, W.ofStr s, decide (103 ∈ flags), decide (117 ∈ flags), false⟩
  else throw W.typeErr

/-- The body of the generator up to the next yield (22.2.9.1). -/
def nextMatch (W : World σ V E) (re : V) (s : Str) (global unicode : Bool) : Act σ E (Option V) :=
  andThen (regExpExec W re s) fun m =>
  if W.isNull m then done none
  else if global then
    andThen (getStr W m (.item 0)) fun x =>
    andThen (if x = [] then skip W re s unicode else done ()) fun _ => done (some m)
  else done (some m)

/-- A generator that has ended, or thrown, is finished. -/
def next (W : World σ V E) (it : Iter V) (str : Str) (s : σ) : Out σ E (Option V) × Iter V :=
  if it.fin then (.ok s none, it)
  else
    match nextMatch W it.re str it.global it.unicode s with
    | .ok s none => (.ok s none, { it with fin := true })
    | .ok s (some m) => (.ok s (some m), { it with fin := !it.global })
    | x => (x, { it with fin := true })

end Verif.RegMethods.Spec

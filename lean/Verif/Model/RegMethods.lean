/-!
# The methods of `RegExp.prototype` on arbitrary objects

`@@match`, `@@matchAll` with its iterator, `@@replace`, `@@search`, `@@split`, `test`, `toString`
(rjs_regexp_object_inc.c) and `rjs_regexp_exec` (rjs_regexp.c:3023-3053).  The regular expression and the
matches may be any objects: reading a property, converting a value and calling a function change the state, give
a value or throw.

Simplifications: the arrays made are lists; `rjs_get_substitution` (C52) is one step `subst` that may read the
match; the loops get a number of rounds, after which the end is `more`; `rjs_to_integer_or_infinity` gives an
integer (infinity is a large one); 32 bit counters of the results do not overflow (a string has less than 2^32
units).  Memory that is no string read as a string is the end `ub`.
-/

namespace Verif.RegMethods

/-- UTF-16 code units. -/
abbrev Str := List Nat

/-- The end of an operation. -/
inductive Out (σ E α : Type) where
  | ok (s : σ) (a : α)
  | thr (s : σ) (e : E)
  /-- a value that is no string is read as a string -/
  | ub
  /-- the rounds are used up -/
  | more
  deriving DecidableEq

/-- Steps. -/
abbrev Act (σ E α : Type) := σ → Out σ E α

def done {σ E α : Type} (a : α) : Act σ E α := fun s => .ok s a
def throw {σ E α : Type} (e : E) : Act σ E α := fun s => .thr s e
/-- The C pattern `if ((r = x) == RJS_ERR) goto end;`. -/
def andThen {σ E α β : Type} (x : Act σ E α) (f : α → Act σ E β) : Act σ E β := fun s =>
  match x s with
  | .ok s a => f a s
  | .thr s e => .thr s e
  | .ub => .ub
  | .more => .more

/-- The properties that are read. -/
inductive Fld where
  | exec | flags | lastIndex | index | length | groups | source
  | item (i : Nat)
  deriving DecidableEq

/-- The objects and the program. -/
structure World (σ V E : Type) where
  isObj : V → Bool
  isNull : V → Bool
  isUndef : V → Bool
  callable : V → Bool
  isRegExp : V → Bool
  same : V → V → Bool
  asStr : V → Option Str
  ofStr : Str → V
  ofNum : Nat → V
  undef : V
  typeErr : E
  toStr : V → Act σ E Str
  toLen : V → Act σ E Nat
  toInt : V → Act σ E Int
  toU32 : V → Act σ E Nat
  get : V → Fld → Act σ E V
  /-- `rjs_set` of `lastIndex`, with exception -/
  setLast : V → V → Act σ E Unit
  call : V → V → List V → Act σ E V
  species : V → Act σ E V
  construct : V → List V → Act σ E V
  /-- `rjs_regexp_builtin_exec` (C72) -/
  builtin : V → Str → Act σ E V
  /-- `rjs_get_substitution` (C52): string, position, match, template -/
  subst : Str → Nat → V → Str → Act σ E Str

variable {σ V E : Type}

/-- `rjs_regexp_exec` (rjs_regexp.c:3023-3053). -/
def exec (W : World σ V E) (r str : V) : Act σ E V :=
  andThen (W.get r .exec) fun f =>
  if W.callable f then
    andThen (W.call f r [str]) fun v =>
    if !W.isObj v && !W.isNull v then throw W.typeErr else done v
  else if !W.isRegExp r then throw W.typeErr
  else match W.asStr str with
    | some s => W.builtin r s
    | none => fun _ => .ub

/-- `adv_str_index` (rjs_regexp_object_inc.c:127-149). -/
def adv (s : Str) (i : Nat) (unicode : Bool) : Nat :=
  if !unicode then i + 1
  else if i + 1 ≥ s.length then i + 1
  else if 0xD800 ≤ s.getD i 0 && s.getD i 0 ≤ 0xDBFF then
    if 0xDC00 ≤ s.getD (i + 1) 0 && s.getD (i + 1) 0 ≤ 0xDFFF then i + 2 else i + 1
  else i + 1

/-- Step over an empty match (rjs_regexp_object_inc.c:223-238, 563-577, 1179-1194). -/
def bump (W : World σ V E) (r : V) (s : Str) (unicode : Bool) : Act σ E Unit :=
  andThen (W.get r .lastIndex) fun v =>
  andThen (W.toLen v) fun i =>
  W.setLast r (W.ofNum (adv s i unicode))

/-- The loop of `RegExp_prototype_match` (rjs_regexp_object_inc.c:203-241); `acc`: the array. -/
def matchLoop (W : World σ V E) (r : V) (s : Str) (unicode : Bool) : Nat → List Str → Act σ E (Option (List Str))
  | 0, _ => fun _ => .more
  | n + 1, acc =>
    andThen (exec W r (W.ofStr s)) fun m =>
    if W.isNull m then (if acc.length = 0 then done none else done (some acc))
    else
      andThen (W.get m (.item 0)) fun v =>
      andThen (W.toStr v) fun x =>
      if x.length = 0 then
        andThen (bump W r s unicode) fun _ => matchLoop W r s unicode n (acc ++ [x])
      else matchLoop W r s unicode n (acc ++ [x])

/-- What `@@match` gives: the result of one search, or all matches (`none`: null). -/
inductive Found (V : Type) where
  | one (v : V)
  | all (l : Option (List Str))
  deriving DecidableEq

/-- `RegExp_prototype_match` (rjs_regexp_object_inc.c:152-247). -/
def matchFn (W : World σ V E) (n : Nat) (r str : V) : Act σ E (Found V) :=
  if !W.isObj r then throw W.typeErr
  else
    andThen (W.toStr str) fun s =>
    andThen (W.get r .flags) fun fv =>
    andThen (W.toStr fv) fun flags =>
    if !flags.contains 103 then andThen (exec W r (W.ofStr s)) fun v => done (.one v)
    else
      andThen (W.setLast r (W.ofNum 0)) fun _ =>
      andThen (matchLoop W r s (flags.contains 117) n []) fun l => done (.all l)

/-- `RegExp_prototype_search` (rjs_regexp_object_inc.c:595-644). -/
def searchFn (W : World σ V E) (minusOne : V) (r str : V) : Act σ E V :=
  if !W.isObj r then throw W.typeErr
  else
    andThen (W.toStr str) fun s =>
    andThen (W.get r .lastIndex) fun prev =>
    andThen (if !W.same (W.ofNum 0) prev then W.setLast r (W.ofNum 0) else done ()) fun _ =>
    andThen (exec W r (W.ofStr s)) fun m =>
    andThen (W.get r .lastIndex) fun cur =>
    andThen (if !W.same cur prev then W.setLast r prev else done ()) fun _ =>
    if W.isNull m then done minusOne else W.get m .index

/-- `RegExp_prototype_test` (rjs_regexp_object_inc.c:806-830). -/
def testFn (W : World σ V E) (r str : V) : Act σ E Bool :=
  if !W.isObj r then throw W.typeErr
  else
    andThen (W.toStr str) fun s =>
    andThen (exec W r (W.ofStr s)) fun m => done (!W.isNull m)

/-- `rjs_uchar_buffer_append_string` (rjs_uchar_buffer.c:133-145): the value must be a string. -/
def readStr (W : World σ V E) (v : V) : Act σ E Str :=
  match W.asStr v with
  | some s => done s
  | none => fun _ => .ub

/-- `RegExp_prototype_toString` (rjs_regexp_object_inc.c:833-864). -/
def toStringFn (W : World σ V E) (r : V) : Act σ E Str :=
  if !W.isObj r then throw W.typeErr
  else
    andThen (W.get r .source) fun p =>
    andThen (W.get r .flags) fun f =>
    andThen (readStr W p) fun ps =>
    andThen (readStr W f) fun fs => done ([47] ++ ps ++ [47] ++ fs)

/-- The loop over the captures in `RegExp_prototype_split` (rjs_regexp_object_inc.c:773-784), `i` of `c`; the
answer tells whether the limit is reached. -/
def capLoop (W : World σ V E) (z : V) (lim : Nat) : Nat → Nat → List V → Act σ E (Bool × List V)
  | _, 0, acc => done (false, acc)
  | i, c + 1, acc =>
    andThen (W.get z (.item i)) fun v =>
    if (acc ++ [v]).length = lim then done (true, acc ++ [v]) else capLoop W z lim (i + 1) c (acc ++ [v])

/-- `rjs_string_substr`. -/
def sub (s : Str) (a b : Nat) : Str := (s.drop a).take (b - a)

/-- The loop of `RegExp_prototype_split` (rjs_regexp_object_inc.c:732-795). -/
def splitLoop (W : World σ V E) (sp : V) (s : Str) (unicode : Bool) (lim : Nat) :
    Nat → Nat → Nat → List V → Act σ E (List V)
  | 0, _, _, _ => fun _ => .more
  | n + 1, p, q, acc =>
    if q < s.length then
      andThen (W.setLast sp (W.ofNum q)) fun _ =>
      andThen (exec W sp (W.ofStr s)) fun z =>
      if W.isNull z then splitLoop W sp s unicode lim n p (adv s q unicode) acc
      else
        andThen (W.get sp .lastIndex) fun v =>
        andThen (W.toLen v) fun li =>
        if min li s.length = p then splitLoop W sp s unicode lim n p (adv s q unicode) acc
        else if (acc ++ [W.ofStr (sub s p q)]).length = lim then done (acc ++ [W.ofStr (sub s p q)])
        else
          andThen (W.get z .length) fun lv =>
          andThen (W.toLen lv) fun nc =>
          andThen (capLoop W z lim 1 (nc - 1) (acc ++ [W.ofStr (sub s p q)])) fun x =>
          if x.1 then done x.2
          else splitLoop W sp s unicode lim n (min li s.length) (min li s.length) x.2
    else done (acc ++ [W.ofStr (sub s p s.length)])

/-- `RegExp_prototype_split` (rjs_regexp_object_inc.c:648-803). -/
def splitFn (W : World σ V E) (n : Nat) (r str limit : V) : Act σ E (List V) :=
  if !W.isObj r then throw W.typeErr
  else
    andThen (W.toStr str) fun s =>
    andThen (W.species r) fun c =>
    andThen (W.get r .flags) fun fv =>
    andThen (W.toStr fv) fun flags =>
    andThen (W.construct c [r, W.ofStr (if flags.contains 121 then flags else flags ++ [121])]) fun sp =>
    andThen (if W.isUndef limit then done 0xFFFFFFFF else W.toU32 limit) fun lim =>
    if lim = 0 then done []
    else if s.length = 0 then
      andThen (exec W sp (W.ofStr s)) fun z =>
      if !W.isNull z then done [] else done [W.ofStr s]
    else splitLoop W sp s (flags.contains 117) lim n 0 0 []

/-- Read captures `i`, `i + 1`, … (`c` of them) for the function (rjs_regexp_object_inc.c:420-429): each is
converted to a string. -/
def capArgs (W : World σ V E) (m : V) : Nat → Nat → Act σ E (List V)
  | _, 0 => done []
  | i, c + 1 =>
    andThen (W.get m (.item i)) fun v =>
    andThen (W.toStr v) fun x =>
    andThen (capArgs W m (i + 1) c) fun l => done (W.ofStr x :: l)

/-- `replace_func` (rjs_regexp_object_inc.c:382-455). -/
def replaceFunc (W : World σ V E) (s : Str) (f : V) (x : Str) (pos : Nat) (m : V) : Act σ E Str :=
  andThen (W.get m .length) fun lv =>
  andThen (W.toLen lv) fun len =>
  andThen (W.get m .groups) fun g =>
  andThen (capArgs W m 1 (len - 1)) fun caps =>
  andThen (W.call f W.undef
    ([W.ofStr x] ++ caps ++ [W.ofNum pos, W.ofStr s] ++ (if !W.isUndef g then [g] else []))) fun v =>
  W.toStr v

/-- `RJS_CLAMP(posn, 0, len)`. -/
def clamp (i : Int) (len : Nat) : Nat := min i.toNat len

/-- The loop of `RegExp_prototype_replace` (rjs_regexp_object_inc.c:512-580), and the rest of the string
(582-586); `rep`: the function or the template, `buf`: what is written. -/
def replaceLoop (W : World σ V E) (r : V) (s : Str) (rep : V ⊕ Str) (global unicode : Bool) :
    Nat → Nat → Str → Act σ E Str
  | 0, _, _ => fun _ => .more
  | n + 1, start, buf =>
    andThen (exec W r (W.ofStr s)) fun m =>
    if W.isNull m then done (if start < s.length then buf ++ sub s start s.length else buf)
    else
      andThen (W.get m .index) fun iv =>
      andThen (W.toInt iv) fun posn =>
      if clamp posn s.length ≥ start then
        andThen (W.get m (.item 0)) fun v =>
        andThen (W.toStr v) fun x =>
        andThen (match rep with
          | .inl f => replaceFunc W s f x (clamp posn s.length) m
          | .inr t => W.subst s (clamp posn s.length) m t) fun y =>
        andThen (W.get m .index) fun iv =>
        andThen (W.toLen iv) fun idx =>
        let start' := idx + x.length
        let buf' := buf ++ sub s start (clamp posn s.length) ++ y
        if !global then done (if start' < s.length then buf' ++ sub s start' s.length else buf')
        else if x.length = 0 then
          andThen (bump W r s unicode) fun _ => replaceLoop W r s rep global unicode n start' buf'
        else replaceLoop W r s rep global unicode n start' buf'
      else replaceLoop W r s rep global unicode n start buf

/-- The beginning of `RegExp_prototype_replace` (rjs_regexp_object_inc.c:478-507): string, function or template,
flags. -/
def replaceStart (W : World σ V E) (r str repv : V) : Act σ E (Str × (V ⊕ Str) × Bool × Bool) :=
  if !W.isObj r then throw W.typeErr
  else
    andThen (W.toStr str) fun s =>
    andThen (if W.callable repv then done (.inl repv) else andThen (W.toStr repv) fun t => done (.inr t)) fun rep =>
    andThen (W.get r .flags) fun fv =>
    andThen (W.toStr fv) fun flags =>
    if flags.contains 103 then
      andThen (W.setLast r (W.ofNum 0)) fun _ => done (s, rep, true, flags.contains 117)
    else done (s, rep, false, false)

/-- `RegExp_prototype_replace` (rjs_regexp_object_inc.c:458-592). -/
def replaceFn (W : World σ V E) (n : Nat) (r str repv : V) : Act σ E Str :=
  andThen (replaceStart W r str repv) fun x => replaceLoop W r x.1 x.2.1 x.2.2.1 x.2.2.2 n 0 []

/-- `RJS_RegExpStringIterator` (rjs_regexp_object_inc.c:248-255). -/
structure Iter (V : Type) where
  re : V
  str : V
  global : Bool
  unicode : Bool
  fin : Bool
  deriving DecidableEq

/-- `RegExp_prototype_matchAll` (rjs_regexp_object_inc.c:316-379): the iterator gets the argument, not the string
made of it (375). -/
def matchAllFn (W : World σ V E) (r str : V) : Act σ E (Iter V) :=
  if !W.isObj r then throw W.typeErr
  else
    andThen (W.toStr str) fun _ =>
    andThen (W.species r) fun c =>
    andThen (W.get r .flags) fun fv =>
    andThen (W.toStr fv) fun flags =>
    andThen (W.construct c [r, W.ofStr flags]) fun m =>
    andThen (W.get r .lastIndex) fun iv =>
    andThen (W.toLen iv) fun i =>
    andThen (W.setLast m (W.ofNum i)) fun _ =>
    done ⟨m, str, flags.contains 103, flags.contains 117, false⟩

/-- The part of `next` for a match of a global iterator (rjs_regexp_object_inc.c:1172-1195): the string is read
only for unicode (133-140). -/
def stepOver (W : World σ V E) (it : Iter V) (m : V) : Act σ E Unit :=
  andThen (W.get m (.item 0)) fun v =>
  andThen (W.toStr v) fun x =>
  if x.length = 0 then
    andThen (W.get it.re .lastIndex) fun v =>
    andThen (W.toLen v) fun i =>
    andThen (if it.unicode then readStr W it.str else done []) fun s =>
    W.setLast it.re (W.ofNum (adv s i it.unicode))
  else done ()

/-- `RegExpStringIteratorPrototype_next` (rjs_regexp_object_inc.c:1143-1203): the result (`none`: done) and the
iterator afterwards. -/
def nextFn (W : World σ V E) (it : Iter V) (s : σ) : Out σ E (Option V) × Iter V :=
  if it.fin then (.ok s none, it)
  else
    match exec W it.re it.str s with
    | .thr s e => (.thr s e, it)
    | .ub => (.ub, it)
    | .more => (.more, it)
    | .ok s m =>
      if W.isNull m then (.ok s none, { it with fin := true })
      else if !it.global then (.ok s (some m), { it with fin := true })
      else
        match stepOver W it m s with
        | .thr s e => (.thr s e, it)
        | .ub => (.ub, it)
        | .more => (.more, it)
        | .ok s _ => (.ok s (some m), it)

end Verif.RegMethods

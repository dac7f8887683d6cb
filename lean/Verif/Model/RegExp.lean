/-
Model of the regular expression matcher, /repo/src/lib/rjs_regexp.c 1826-2793.

The C code runs a pattern with ONE stack of "jobs".  A job is either a continuation (what to do
when the part now matched has matched) or a choice point (what to try when it has not).  The field
`nextp` is the index of the next continuation in that same stack.

Simplifications:
* what a character atom accepts (a character, `.`, a class, `\d` …, with the flags) is one test
  `p : Nat → Bool` on the character that was read; what `^ $ \b \B` accept is one test on the
  code units before and at the position;
* the position vector `vec` is a function from indices (−1 is `none`); every access is checked
  against `2 * group_num` and is undefined behaviour outside;
* a choice point holds the vector it saved, in place of the offset `vsp` of the copy in
  `vec_stack` (pushed and popped together with the job, 2009-2018, 2021-2043);
* growing the two stacks does not fail.
-/
namespace Verif.RegExp

mutual
/-- Terms without their quantifier: /repo/src/lib/rjs_regexp.c 96-178 (`RJS_RegExpTermType` and
the union `t`). -/
inductive Atom where
  /-- `CHAR`, `ALL`, `CLASS`: reads one character -/
  | char (p : Nat → Bool)
  /-- `LINE_START`, `LINE_END`, `b`, `B`: looks at the code units before and at the position -/
  | cond (p : Option Nat → Option Nat → Bool)
  /-- `BR_ID` (one number), `BR_NAME` (the numbers of the groups with that name) -/
  | ref (ids : List Nat)
  /-- `PATTERN`, `(?:…)` -/
  | sub (d : List (List Term))
  /-- `GROUP`, `(…)`, with its number -/
  | group (i : Nat) (d : List (List Term))
  /-- `LA`, `LA_NOT`, `LB`, `LB_NOT` -/
  | look (ahead neg : Bool) (d : List (List Term))
/-- `RJS_RegExpTerm` (/repo/src/lib/rjs_regexp.c 143-178): `max = none` is −1, `start`, `stop` are
`group_start`, `group_end`. -/
inductive Term where
  | mk (atom : Atom) (min : Nat) (max : Option Nat) (greedy : Bool) (start stop : Nat)
end

/-- Alternatives of a pattern, each a list of terms (`RJS_RegExpPattern`, `RJS_RegExpAlter`,
/repo/src/lib/rjs_regexp.c 82-95). -/
abbrev Alts := List (List Term)

def Term.atom : Term → Atom | ⟨a, _, _, _, _, _⟩ => a
def Term.min : Term → Nat | ⟨_, m, _, _, _, _⟩ => m
def Term.max : Term → Option Nat | ⟨_, _, m, _, _, _⟩ => m
def Term.greedy : Term → Bool | ⟨_, _, _, g, _, _⟩ => g
def Term.start : Term → Nat | ⟨_, _, _, _, s, _⟩ => s
def Term.stop : Term → Nat | ⟨_, _, _, _, _, e⟩ => e

mutual
/-- How the parser numbers groups (/repo/src/lib/rjs_regexp.c 1154 and 1389, `group_start` and
`group_end` of every term; 1219, 1254 the number of a group; 389 the first number is 1):
`numA a k k'`: parsing `a` took the counter `group_num` from `k` to `k'`. -/
def numA : Atom → Nat → Nat → Prop
  | .char _, k, k' => k = k'
  | .cond _, k, k' => k = k'
  | .ref _, k, k' => k = k'
  | .sub d, k, k' => numD d k k'
  | .group i d, k, k' => i = k ∧ numD d (k + 1) k'
  | .look _ _ d, k, k' => numD d k k'
def numT : Term → Nat → Nat → Prop
  | ⟨a, _, _, _, s, e⟩, k, k' => s = k ∧ e = k' ∧ numA a k k'
def numL : List Term → Nat → Nat → Prop
  | [], k, k' => k = k'
  | t :: ts, k, k' => ∃ m, numT t k m ∧ numL ts m k'
/-- A pattern has at least one alternative (1427-1448). -/
def numD : List (List Term) → Nat → Nat → Prop
  | [], _, _ => False
  | [a], k, k' => numL a k k'
  | a :: b :: d, k, k' => ∃ m, numL a k m ∧ numD (b :: d) m k'
end

/-- The position vector `ctxt->vec`: entries `2i` and `2i+1` are the two ends of group `i`. -/
abbrev Vec := Nat → Option Nat

/-- The parts of `RJS_RegExpCtxt` that do not change (/repo/src/lib/rjs_regexp.c 214-229): the
string, `canonicalize` under the flags (1826-1848), the flag `u`, `group_num`. -/
structure Ctx where
  str : List Nat
  canon : Nat → Nat
  u : Bool
  n : Nat

/-- `RJS_RegExpResult` (/repo/src/lib/rjs_regexp.c 180-186). -/
inductive Res where
  | reject | accept | next | success
deriving DecidableEq, Repr

/-- The operation of a job with the fields it uses (`RJS_RegExpJob`,
/repo/src/lib/rjs_regexp.c 196-212). -/
inductive Op where
  | ok
  | success
  | groupEnd (i : Nat)
  | lookEnd (neg : Bool) (start stop : Nat) (pos : Nat) (rev : Bool)
  | greedyNext (pos : Nat) (vec : Vec)
  | term (t : Term) (count : Nat) (pos : Nat)
  | nonGreedy (t : Term) (count : Nat) (pos : Nat) (vec : Vec)
  /-- `job_alter`: the next alternative and those after it -/
  | alter (rest : Alts) (pos : Nat) (vec : Vec)
  /-- `job_term_list`: the alternative and the index of the term -/
  | termList (alter : List Term) (i : Nat)

/-- A job: operation and `nextp` (−1 is `none`). -/
structure Job where
  op : Op
  nextp : Option Nat

/-- Where the matcher is.  All calls of `match_pattern` from `match_atom` are in tail position
(2418-2427; `match_la_lb` answers with what `match_pattern` answered), so the call is a control
state of its own; `ret r` is the head of the main loop with `r`. -/
inductive Ctl where
  | enter (d : Alts)
  | ret (r : Res)

/-- `RJS_RegExpCtxt` (/repo/src/lib/rjs_regexp.c 214-229) and the control state. -/
structure Cfg where
  ctl : Ctl
  pos : Nat
  vec : Vec
  rev : Bool
  next : Option Nat
  jobs : List Job

/-- One entry of the vector is written. -/
def Vec.put (v : Vec) (j : Nat) (x : Nat) : Vec := fun k => if k = j then some x else v k

/-- The loop that clears the groups `start ≤ i < stop` (/repo/src/lib/rjs_regexp.c 2218-2221,
2501-2508, 2596-2602). -/
def Vec.clear (v : Vec) (start stop : Nat) : Vec :=
  fun k => if 2 * start ≤ k ∧ k < 2 * stop then none else v k

/-- rjs_uchar_is_leading_surrogate, rjs_uchar_is_trailing_surrogate,
rjs_surrogate_pair_to_uc (/repo/src/lib/include/rjs_uchar.h 150-196). -/
def isLead (c : Nat) : Bool := decide (0xd800 ≤ c ∧ c ≤ 0xdbff)
def isTrail (c : Nat) : Bool := decide (0xdc00 ≤ c ∧ c ≤ 0xdfff)
def pair (l t : Nat) : Nat := ((l - 0xd800) <<< 10 ||| (t - 0xdc00)) + 0x10000

/-- What reading gave: nothing there, a read outside the string, or a character and the new
position. -/
inductive Read where
  | none | ub
  | ok (c : Nat) (pos : Nat)
deriving DecidableEq, Repr

/-- `get_char` at `pos - 1` (/repo/src/lib/rjs_regexp.c 1873-1884); position 0 gives −1. -/
def charBefore (C : Ctx) (pos : Nat) : Option Nat := if pos = 0 then .none else C.str[pos - 1]?

/-- `get_char` at `pos`. -/
def charAt (C : Ctx) (pos : Nat) : Option Nat := C.str[pos]?

/-- `str[pos - k]`; a negative index is outside the string. -/
def unitBefore (C : Ctx) (pos k : Nat) : Option Nat := if pos < k then .none else C.str[pos - k]?

/-- `read_char` (/repo/src/lib/rjs_regexp.c 1887-1940). -/
def readChar (C : Ctx) (rev : Bool) (pos : Nat) : Read :=
  if rev then
    if pos = 0 then .none
    else match unitBefore C pos 1 with
      | .none => .ub
      | some c =>
        if 1 < pos ∧ C.u = true ∧ isTrail c = true then
          match unitBefore C pos 2 with
          | .none => .ub
          | some c2 => if isLead c2 then .ok (pair c2 c) (pos - 2) else .ok c (pos - 1)
        else .ok c (pos - 1)
  else
    if C.str.length ≤ pos then .none
    else match C.str[pos]? with
      | .none => .ub
      | some c =>
        if pos < C.str.length - 1 ∧ C.u = true ∧ isLead c = true then
          match C.str[pos + 1]? with
          | .none => .ub
          | some c2 => if isTrail c2 then .ok (pair c c2) (pos + 2) else .ok c (pos + 1)
        else .ok c (pos + 1)

/-- What comparing with a group gave. -/
inductive Cmp where
  | ub | no
  | yes (pos : Nat)
deriving DecidableEq, Repr

/-- The comparing loop of `match_back_ref` (/repo/src/lib/rjs_regexp.c 2305-2317); `none` is a
read outside the string. -/
def sameChars (C : Ctx) : Nat → Nat → Nat → Option Bool
  | _, _, 0 => some true
  | p1, p2, len + 1 =>
    match C.str[p1]?, C.str[p2]? with
    | some c1, some c2 => if C.canon c1 = C.canon c2 then sameChars C (p1 + 1) (p2 + 1) len
                          else some false
    | _, _ => none

/-- `match_back_ref` (/repo/src/lib/rjs_regexp.c 2261-2327). -/
def backRef (C : Ctx) (rev : Bool) (vec : Vec) (pos id : Nat) : Cmp :=
  if C.n ≤ id then .yes pos
  else match vec (2 * id), vec (2 * id + 1) with
    | some s, some e =>
      let start := if e < s then e else s
      let stop := if e < s then s else e
      let len := stop - start
      if rev then
        if pos < len then .no
        else match sameChars C (pos - len) start len with
          | none => .ub
          | some false => .no
          | some true => .yes (pos - len)
      else
        if C.str.length < pos + len then .no
        else match sameChars C pos start len with
          | none => .ub
          | some false => .no
          | some true => .yes (pos + len)
    | _, _ => .yes pos

/-- The cases `BR_ID` and `BR_NAME` of `match_atom` (/repo/src/lib/rjs_regexp.c 2402-2417): the
first of the groups that has both ends is compared; if there is none the term matches. -/
def backRefs (C : Ctx) (rev : Bool) (vec : Vec) (pos : Nat) : List Nat → Cmp
  | [] => .yes pos
  | i :: is =>
    if C.n ≤ i then backRefs C rev vec pos is
    else match vec (2 * i), vec (2 * i + 1) with
      | some _, some _ => backRef C rev vec pos i
      | _, _ => backRefs C rev vec pos is

/-- `push_job` and the fields given to the job (/repo/src/lib/rjs_regexp.c 1989-2003); the index
of the new job is the old length. -/
def Cfg.push (c : Cfg) (op : Op) : Cfg := { c with jobs := c.jobs ++ [⟨op, c.next⟩] }

/-- `push_job` followed by `ctxt->nextp = jid`. -/
def Cfg.pushNext (c : Cfg) (op : Op) : Cfg :=
  { c with jobs := c.jobs ++ [⟨op, c.next⟩], next := some c.jobs.length }

/-- A return of the matching functions. -/
def Cfg.back (c : Cfg) (r : Res) : Cfg := { c with ctl := .ret r }

/-- `match_atom` with `match_group` and `match_la_lb` (/repo/src/lib/rjs_regexp.c 2330-2431,
2176-2197, 2227-2258); `none` is undefined behaviour. -/
def matchAtom (C : Ctx) (t : Term) (c : Cfg) : Option Cfg :=
  match t.atom with
  | .char p =>
    match readChar C c.rev c.pos with
    | .ub => none
    | .none => some (c.back .reject)
    | .ok ch pos =>
      some ({ c with pos := pos }.back (if p ch then .next else .reject))
  | .cond p =>
    some (c.back (if p (charBefore C c.pos) (charAt C c.pos) then .next else .reject))
  | .ref ids =>
    match backRefs C c.rev c.vec c.pos ids with
    | .ub => none
    | .no => some (c.back .reject)
    | .yes pos => some ({ c with pos := pos }.back .next)
  | .sub d => some { c with ctl := .enter d }
  | .group i d =>
    if i < C.n then
      some { ({ c with vec := c.vec.put (2 * i) c.pos } : Cfg).pushNext (.groupEnd i) with
        ctl := .enter d }
    else none
  | .look ahead neg d =>
    let c1 := c.push (.lookEnd neg t.start t.stop c.pos c.rev)
    let c2 := { c1 with next := none }.pushNext .ok
    some { c2 with rev := !ahead, ctl := .enter d }

/-- The clearing loop of `match_term` and `job_non_greedy_loop`; writes outside the vector are
undefined. -/
def clearGroups (C : Ctx) (t : Term) (c : Cfg) : Option Cfg :=
  if t.start < t.stop ∧ C.n < t.stop then none
  else some { c with vec := c.vec.clear t.start t.stop }

/-- `(term->max != -1) && (cnt > term->max)` (/repo/src/lib/rjs_regexp.c 2526). -/
def Term.over (t : Term) (cnt : Nat) : Bool :=
  match t.max with
  | some m => decide (m < cnt)
  | none => false

/-- `match_term` (/repo/src/lib/rjs_regexp.c 2518-2605); `last` is the argument `pos`
(`none` is −1). -/
def matchTerm (C : Ctx) (t : Term) (cnt : Nat) (last : Option Nat) (c : Cfg) : Option Cfg :=
  if t.min = 0 ∧ t.max = some 0 then some (c.back .next)
  else if t.min < cnt ∧ t.over cnt = true then some (c.back .next)
  else if t.min < cnt ∧ 1 < cnt ∧ last = some c.pos then some (c.back .next)
  else if cnt ≤ t.min then
    let c1 := c.pushNext (.term t (cnt + 1) c.pos)
    if 1 < cnt then (clearGroups C t c1).bind (matchAtom C t) else matchAtom C t c1
  else if t.greedy then
    let c1 := (c.push (.greedyNext c.pos c.vec)).pushNext (.term t (cnt + 1) c.pos)
    if 1 < cnt then (clearGroups C t c1).bind (matchAtom C t) else matchAtom C t c1
  else
    some ((c.push (.nonGreedy t cnt c.pos c.vec)).back .next)

/-- `match_term_list` (/repo/src/lib/rjs_regexp.c 2648-2684): the term at `i`, after it the next
one in the direction of matching. -/
def matchTermList (C : Ctx) (alter : List Term) (i : Nat) (c : Cfg) : Option Cfg :=
  match alter[i]? with
  | none => none
  | some t =>
    if c.rev then
      if i = 0 then matchTerm C t 1 none c
      else matchTerm C t 1 none (c.pushNext (.termList alter (i - 1)))
    else
      if i + 1 = alter.length then matchTerm C t 1 none c
      else matchTerm C t 1 none (c.pushNext (.termList alter (i + 1)))

/-- `match_pattern` and `match_alter` (/repo/src/lib/rjs_regexp.c 2687-2734). -/
def matchAlts (C : Ctx) (d : Alts) (c : Cfg) : Option Cfg :=
  match d with
  | [] => some (c.back .next)
  | a :: rest =>
    let c1 := if rest.isEmpty then c else c.push (.alter rest c.pos c.vec)
    if a.isEmpty then some (c1.back .next)
    else if c1.rev then matchTermList C a (a.length - 1) c1
    else matchTermList C a 0 c1

/-- The job operations (/repo/src/lib/rjs_regexp.c 2046-2072 `job_ok`, `job_success`; 2160-2173
`job_group_end`; 2200-2224 `job_la_lb_end`; 2434-2448 `job_greedy_next`; 2451-2468 `job_term`;
2471-2515 `job_non_greedy_loop`; 2608-2628 `job_alter`; 2631-2645 `job_term_list`), called with
the result `r`. -/
def runJob (C : Ctx) (j : Job) (r : Res) (c : Cfg) : Option Cfg :=
  match j.op with
  | .ok => some (c.back (if r = .next then .accept else r))
  | .success =>
    if r = .next then
      if 1 < 2 * C.n then some ({ c with vec := c.vec.put 1 c.pos }.back .success) else none
    else some (c.back r)
  | .groupEnd i =>
    if r = .next then
      if i < C.n then some ({ c with vec := c.vec.put (2 * i + 1) c.pos }.back .next) else none
    else some (c.back r)
  | .lookEnd neg start stop pos rev =>
    let c1 := { c with pos := pos, rev := rev, next := j.nextp }
    if neg then
      if r = .reject then
        if start < stop ∧ C.n < stop then none
        else some ({ c1 with vec := c1.vec.clear start stop }.back .next)
      else some (c1.back .reject)
    else some (c1.back (if r = .reject then .reject else .next))
  | .greedyNext pos vec =>
    if r = .accept then some ({ c with next := j.nextp }.back r)
    else some ({ c with next := j.nextp, pos := pos, vec := vec }.back .next)
  | .term t count pos =>
    if r = .next then matchTerm C t count (some pos) c else some (c.back r)
  | .nonGreedy t count pos vec =>
    if r = .accept then some ({ c with next := j.nextp }.back r)
    else
      let c1 := { c with next := j.nextp, pos := pos, vec := vec }.pushNext
        (.term t (count + 1) pos)
      if 1 < count then (clearGroups C t c1).bind (matchAtom C t) else matchAtom C t c1
  | .alter rest pos vec =>
    if r = .accept then some ({ c with next := j.nextp }.back r)
    else matchAlts C rest { c with next := j.nextp, pos := pos, vec := vec }
  | .termList alter i =>
    if r = .next then matchTermList C alter i c else some (c.back r)

/-- What one round of the main loop gives. -/
inductive Out where
  | run (c : Cfg)
  | done (found : Bool) (vec : Vec)
  | ub

/-- `none` is undefined behaviour. -/
def Out.of : Option Cfg → Out
  | none => .ub
  | some c => .run c

/-- The main loop of `match_regexp` (/repo/src/lib/rjs_regexp.c 2771-2792).  A continuation that
is not in the stack (`nextp` −1 or too large) is undefined behaviour. -/
def step (C : Ctx) (c : Cfg) : Out :=
  match c.ctl with
  | .enter d => .of (matchAlts C d c)
  | .ret r =>
    if r = .success then .done true c.vec
    else if c.jobs.isEmpty then .done false c.vec
    else if r = .next then
      match c.next with
      | none => .ub
      | some k =>
        match c.jobs[k]? with
        | none => .ub
        | some j => .of (runJob C j r { c with next := j.nextp })
    else
      match c.jobs.getLast? with
      | none => .ub
      | some j => .of (runJob C j r { c with jobs := c.jobs.dropLast })

/-- The start of `match_regexp` (/repo/src/lib/rjs_regexp.c 2737-2769). -/
def start (d : Alts) (pos : Nat) : Cfg where
  ctl := .enter d
  pos := pos
  vec := Vec.put (fun _ => none) 0 pos
  rev := false
  next := some 0
  jobs := [⟨.success, none⟩]

/-- The loop with at most `fuel` rounds; `none` if it has not ended. -/
def run (C : Ctx) : Nat → Cfg → Option Out
  | 0, _ => none
  | fuel + 1, c =>
    match step C c with
    | .run c' => run C fuel c'
    | o => some o

end Verif.RegExp

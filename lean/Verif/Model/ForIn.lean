import Verif.Model.Str

/-!
Model of the iterator behind `for (x in o)` (`for_in_iterator_proto_next`,
`/repo/src/lib/rjs_for_in_iterator.c`:142-225), with the table of the names it has seen.

A name is a string, and a string value is either an index string or a string on the heap
(rjs_value.h:457-468).  The table of seen names hashes an index string by its number and the others
by their characters (lines 28-39), but comparing an index string with a string of the heap turns the
index string, where it is stored, into a string of the heap (`rjs_string_equal`,
rjs_string.c:937-949; `rjs_index_string_normalize`, 1379-1391).  So the model keeps, for every name of
the list of keys and of the table, what it is at the moment.

The objects are reached one after the other along the prototype chain and are called 0, 1, 2, ….
What they answer is given by a world: each answer may depend on everything asked and answered
before, so any program may run between two calls of `next` (or in the traps of a proxy).
Simplified: running out of memory, and the objects made for the results.
-/
namespace Verif.ForIn

/-- A string value: an index string, or a string on the heap. -/
inductive Key
  | idx (n : Nat)
  | heap (s : List Nat)
  deriving DecidableEq, Repr

/-- An item of the list of the keys of an object. -/
inductive Item
  | str (k : Key)
  | sym
  deriving DecidableEq, Repr

/-- The characters. -/
def Key.text : Key → List Nat
  | .idx n => Str.decimal n
  | .heap s => s

/-- `rjs_value_get_string` (rjs_value.h:457-468): what the value is afterwards. -/
def Key.norm : Key → Key
  | .idx n => .heap (Str.decimal n)
  | .heap s => .heap s

/-- `hash_op_string_key` (rjs_string.c:861-883); `size_t` has 64 bits. -/
def strHash (s : List Nat) : Nat :=
  if s = [] then 0 else s.foldl (fun v c => ((v <<< 5) ||| c) % 2 ^ 64) 0x19781009

/-- `hash_op_string_prop_key` (rjs_for_in_iterator.c:28-39). -/
def hash : Key → Nat
  | .idx n => n
  | .heap s => strHash s

/-- `rjs_string_equal` (rjs_string.c:937-949): the answer, and what the two values are afterwards. -/
def equal : Key → Key → Bool × Key × Key
  | .idx a, .idx b => (a == b, .idx a, .idx b)
  | a, b => (a.text == b.text, a.norm, b.norm)

/-- `RJS_Hash`: its lists, and the number of its entries. -/
structure Table where
  lists : List (List Key) := [[]]
  num : Nat := 0
  deriving DecidableEq, Repr

/-- The loop of `rjs_hash_lookup` (rjs_hash.c:111-118) along one list: whether the key is found,
and what the entries and the key are afterwards. -/
def scan : List Key → Key → Bool × List Key × Key
  | [], k => (false, [], k)
  | e :: es, k =>
    if (equal e k).1 then (true, (equal e k).2.1 :: es, (equal e k).2.2)
    else ((scan es (equal e k).2.2).1, (equal e k).2.1 :: (scan es (equal e k).2.2).2.1,
      (scan es (equal e k).2.2).2.2)

/-- The list a key belongs to (rjs_hash.c:103-109, 148-154). -/
def Table.pos (t : Table) (k : Key) : Nat :=
  if t.lists.length = 1 then 0 else hash k % t.lists.length

/-- What `rjs_hash_lookup` (rjs_hash.c:92-127) gives: whether the key is found, the table, the key
(`items[id]`) and the list the pointer `phe` points into; `none` for `NULL`. -/
structure Found where
  found : Bool
  table : Table
  key : Key
  phe : Option Nat

def Table.lookup (t : Table) (k : Key) : Found :=
  if t.num = 0 then ⟨false, t, k, none⟩
  else
    ⟨(scan (t.lists.getD (t.pos k) []) k).1,
      { t with lists := t.lists.set (t.pos k) (scan (t.lists.getD (t.pos k) []) k).2.1 },
      (scan (t.lists.getD (t.pos k) []) k).2.2, some (t.pos k)⟩

/-- The body of the loop of `hash_expand` (rjs_hash.c:47-56). -/
def place (ns : Nat) (ls : List (List Key)) (k : Key) : List (List Key) :=
  ls.modify (hash k % ns) (k :: ·)

/-- `hash_expand` (rjs_hash.c:28-64). -/
def Table.expand (t : Table) : Table :=
  { lists := t.lists.flatten.foldl (place (max t.num 8)) (List.replicate (max t.num 8) [])
    num := t.num }

/-- The end of `rjs_hash_insert` (rjs_hash.c:147-161).  A pointer left by a lookup without success
points to the end of its list. -/
def Table.link (t : Table) (k : Key) : Option Nat → Table
  | some b => { lists := t.lists.modify b (· ++ [k]), num := t.num + 1 }
  | none => { lists := t.lists.modify (t.pos k) (k :: ·), num := t.num + 1 }

/-- `rjs_hash_insert` (rjs_hash.c:138-162). -/
def Table.insert (t : Table) (k : Key) (phe : Option Nat) : Table :=
  if t.num ≥ t.lists.length * 3 then t.expand.link k none else t.link k phe

/-! ## The world -/

/-- What was asked of an object, and the answer.  An answer `none` is something thrown. -/
inductive Ev
  /-- The own keys of an object. -/
  | keys (o : Nat) (a : Option (List Item))
  /-- The own property of a name: `none` when there is none, or whether it is enumerable. -/
  | own (o : Nat) (name : List Nat) (a : Option (Option Bool))
  /-- The prototype: whether it is `null`. -/
  | proto (o : Nat) (a : Option Bool)
  deriving DecidableEq, Repr

structure World where
  keys : List Ev → Nat → Option (List Item)
  own : List Ev → Nat → List Nat → Option (Option Bool)
  proto : List Ev → Nat → Option Bool

/-- What `next` gives.  `stuck`: the number of rounds allowed was not enough (the model's loop is
bounded, so that it is a total function; a chain of proxies may be endless). -/
inductive Out
  | name (s : List Nat)
  | done
  | threw
  | stuck
  deriving DecidableEq, Repr

/-- `RJS_ForInIterator` (rjs_for_in_iterator.h): the object (`none` for `null`), whether its keys have
been listed, the keys from `id` on, the table; and what has happened so far. -/
structure Iter where
  obj : Option Nat
  visited : Bool
  rest : List Item
  table : Table
  hist : List Ev

/-- What the loop over the keys gives. -/
inductive Keys
  | name (s : List Nat) (rest : List Item) (t : Table) (h : List Ev)
  | threw (rest : List Item) (t : Table) (h : List Ev)
  | over (rest : List Item) (t : Table) (h : List Ev)

/-- The loop over the keys of an object (rjs_for_in_iterator.c:170-207). -/
def keysLoop (w : World) (o : Nat) : List Item → Table → List Ev → Keys
  | [], t, h => .over [] t h
  | .sym :: r, t, h => .over (.sym :: r) t h
  | .str k :: r, t, h =>
    if (t.lookup k).found then keysLoop w o r (t.lookup k).table h
    else
      match w.own h o k.text with
      | none => .threw (.str (t.lookup k).key :: r) (t.lookup k).table (.own o k.text none :: h)
      | some none => keysLoop w o r (t.lookup k).table (.own o k.text (some none) :: h)
      | some (some true) =>
        .name k.text (.str (t.lookup k).key :: r)
          ((t.lookup k).table.insert (t.lookup k).key (t.lookup k).phe)
          (.own o k.text (some (some true)) :: h)
      | some (some false) =>
        keysLoop w o r ((t.lookup k).table.insert (t.lookup k).key (t.lookup k).phe)
          (.own o k.text (some (some false)) :: h)

/-- The round of the outer loop after the keys are listed (rjs_for_in_iterator.c:165-215).  `none` in
the first component: go round again. -/
def afterKeys (w : World) (o : Nat) : Keys → Option Out × Iter
  | .name s r t h => (some (.name s), ⟨some o, true, r, t, h⟩)
  | .threw r t h => (some .threw, ⟨some o, true, r, t, h⟩)
  | .over r t h =>
    match w.proto h o with
    | none => (some .threw, ⟨some o, true, r, t, .proto o none :: h⟩)
    | some true => (none, ⟨none, false, r, t, .proto o (some true) :: h⟩)
    | some false => (none, ⟨some (o + 1), false, r, t, .proto o (some false) :: h⟩)

/-- One round of the outer loop for an object (rjs_for_in_iterator.c:157-215). -/
def round (w : World) (o : Nat) (it : Iter) : Option Out × Iter :=
  if it.visited then afterKeys w o (keysLoop w o it.rest it.table it.hist)
  else
    match w.keys it.hist o with
    | none => (some .threw, { it with hist := .keys o none :: it.hist })
    | some ks => afterKeys w o (keysLoop w o ks it.table (.keys o (some ks) :: it.hist))

/-- `for_in_iterator_proto_next` (rjs_for_in_iterator.c:142-225). -/
def next (w : World) : Nat → Iter → Out × Iter
  | 0, it => (.stuck, it)
  | f + 1, it =>
    match it.obj with
    | none => (.done, it)
    | some o =>
      match round w o it with
      | (some out, it) => (out, it)
      | (none, it) => next w f it

/-- `rjs_for_in_iterator_new` (rjs_for_in_iterator.c:116-140); the argument is whether the value is
neither `null` nor `undefined`. -/
def start (isObj : Bool) : Iter :=
  if isObj then ⟨some 0, false, [], {}, []⟩ else ⟨none, true, [], {}, []⟩

/-- The loop of the program: it calls `next` until there is no further name, or something is thrown,
at most `n` times.  What it gets, and what was asked. -/
def loop (w : World) (f : Nat) : Nat → Iter → List Out × List Ev
  | 0, it => ([], it.hist)
  | n + 1, it =>
    match next w f it with
    | (.name s, it) => (.name s :: (loop w f n it).1, (loop w f n it).2)
    | (out, it) => ([out], it.hist)

end Verif.ForIn

import Verif.Model.Str
/-
Model of the table of property key strings (`/repo/src/lib/rjs_string.c`).

Strings are things of the heap, named by numbers.  The hash table `str_prop_key_hash` is the
list of its keys: that the hash table behaves like this is C02 (equal strings have the same
hash code, `hash_op_string_key` (lines 862-883) being a function of the characters).
-/
namespace Verif.Str

structure Strings where
  /-- The characters of the strings which are alive. -/
  chars : Nat → Option (List Nat)
  /-- `RJS_STRING_FL_PROP_KEY`. -/
  key : Nat → Bool
  /-- `rt->str_prop_key_hash`. -/
  table : List Nat

/-- No string, an empty table (`rjs_runtime_string_init`, line 788). -/
def Strings.init : Strings := ⟨fun _ => none, fun _ => false, []⟩

/-- `hash_op_string_equal` (rjs_string.c:887-919).  `none`: a string is not alive. -/
def equal (s : Strings) (i j : Nat) : Option Bool :=
  match s.chars i, s.chars j with
  | some a, some b =>
    if i = j then some true
    else if s.key i && s.key j then some false
    else if a.length ≠ b.length then some false
    else some (a == b)
  | _, _ => none

/-- `rjs_hash_lookup` in the table: the entry which is equal to the string.  The outer `none`
is the use of a dead string. -/
def lookup (s : Strings) (i : Nat) : List Nat → Option (Option Nat)
  | [] => some none
  | e :: es =>
    match equal s e i with
    | none => none
    | some true => some (some e)
    | some false => lookup s i es

/-- `string_new` and the characters (rjs_string.c:74-89, 229-257) at an address `i` which is
free. -/
def newString (s : Strings) (i : Nat) (cs : List Nat) : Strings :=
  { s with
    chars := fun j => if j = i then some cs else s.chars j
    key := fun j => if j = i then false else s.key j }

/-- `rjs_string_to_property_key` (rjs_string.c:443-472): the new state and the string which
replaces `i`. -/
def toPropertyKey (s : Strings) (i : Nat) : Option (Strings × Nat) :=
  if s.key i then some (s, i)
  else
    match lookup s i s.table with
    | none => none
    | some (some e) => some (s, e)
    | some none =>
      some ({ s with table := i :: s.table, key := fun j => if j = i then true else s.key j }, i)

/-- `string_op_gc_free` (rjs_string.c:30-55).  `none` also if the assertion of line 41
fails. -/
def freeString (s : Strings) (i : Nat) : Option Strings :=
  let dead := fun j => if j = i then none else s.chars j
  if s.key i then
    match lookup s i s.table with
    | some (some e) => some { s with chars := dead, table := s.table.erase e }
    | _ => none
  else some { s with chars := dead }

/-- A string value: an index string (`RJS_VALUE_TAG_INDEX_STRING`) or a string. -/
inductive SVal where
  | idx (n : Nat)
  | str (i : Nat)

/-- The characters of a value; an index string is first replaced by its digits
(`rjs_index_string_normalize`). -/
def SVal.chars (s : Strings) : SVal → Option (List Nat)
  | .idx n => some (decimal n)
  | .str i => s.chars i

/-- `rjs_string_equal` (rjs_string.c:938-949).  The string which replaces an index string is
new and has no flags, so that its characters are compared. -/
def equalVal (s : Strings) : SVal → SVal → Option Bool
  | .idx m, .idx n => some (m == n)
  | .str i, .str j => equal s i j
  | a, b =>
    match a.chars s, b.chars s with
    | some x, some y => if x.length ≠ y.length then some false else some (x == y)
    | _, _ => none

/-- What can happen to the strings: a new one at a free address, conversion to a property key,
the death of one. -/
inductive SOp where
  | new (i : Nat) (cs : List Nat)
  | key (i : Nat)
  | free (i : Nat)

def stepS (s : Strings) : SOp → Option Strings
  | .new i cs => if s.chars i = none then some (newString s i cs) else some s
  | .key i => if s.chars i = none then some s else (toPropertyKey s i).map (·.1)
  | .free i => if s.chars i = none then some s else freeString s i

def runS : Strings → List SOp → Option Strings
  | s, [] => some s
  | s, o :: os => (stepS s o).bind (runS · os)

end Verif.Str

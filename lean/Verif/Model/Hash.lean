/-
Model of the hash table (`/repo/src/lib/rjs_hash.c`, `/repo/include/ratjs/rjs_hash.h`).

The bucket array is a list of lists of entries.  An entry is its key and the
address (or any other datum) of the structure it is embedded in.  A pointer `pe`
to a link is the pair (bucket, number of entries before the link).  Using a link
that does not exist, or removing through the terminating NULL link, is the outcome
`none` (undefined behaviour in C).  The hash function and the key comparison are
parameters.  Simplified: `size_t` is unbounded, allocation does not fail.
-/
namespace Verif.Hash

/-- `RJS_Hash` (include/ratjs/rjs_type.h; `list_num` is the number of lists). -/
structure Table (K V : Type) where
  entryNum : Nat
  lists : List (List (K × V))
deriving Repr, DecidableEq

/-- `rjs_hash_init` (rjs_hash.h:59-65): no entry, one list. -/
def init {K V : Type} : Table K V := ⟨0, [[]]⟩

/-- The head of the list a key belongs to (rjs_hash.c:103-109, 148-154): the hash
function is not called if there is only one list. -/
def bucketOf {K : Type} (hash : K → Nat) (listNum : Nat) (k : K) : Nat :=
  if listNum = 1 then 0 else hash k % listNum

/-- The walk along a list (rjs_hash.c:111-118): the entry found, and the number of
links passed. -/
def walk {K V : Type} (eqv : K → K → Bool) (k : K) : List (K × V) → Option V × Nat
  | [] => (none, 0)
  | e :: r =>
    if eqv e.1 k then (some e.2, 0)
    else
      let q := walk eqv k r
      (q.1, q.2 + 1)

/-- `rjs_hash_lookup` (rjs_hash.c:92-127): the entry found and the link `pe`
(`none` is NULL). -/
def lookup {K V : Type} (hash : K → Nat) (eqv : K → K → Bool) (t : Table K V) (k : K) :
    Option V × Option (Nat × Nat) :=
  if t.entryNum = 0 then (none, none)
  else
    let i := bucketOf hash t.lists.length k
    let q := walk eqv k (t.lists.getD i [])
    (q.1, some (i, q.2))

/-- Push an entry at the head of its new list (rjs_hash.c:50-53). -/
def push {K V : Type} (hash : K → Nat) (nb : List (List (K × V))) (e : K × V) :
    List (List (K × V)) :=
  nb.modify (hash e.1 % nb.length) (e :: ·)

/-- `hash_expand` (rjs_hash.c:30-64). -/
def expand {K V : Type} (hash : K → Nat) (t : Table K V) : Table K V :=
  ⟨t.entryNum, t.lists.flatten.foldl (push hash) (List.replicate (max t.entryNum 8) [])⟩

/-- Write through a link (rjs_hash.c:157-161): `none` if there is no such link. -/
def insertAt {K V : Type} (t : Table K V) (pe : Nat × Nat) (e : K × V) : Option (Table K V) :=
  match t.lists[pe.1]? with
  | none => none
  | some l =>
    if pe.2 ≤ l.length then
      some ⟨t.entryNum + 1, t.lists.modify pe.1 (List.insertIdx · pe.2 e)⟩
    else none

/-- `rjs_hash_insert` (rjs_hash.c:138-162). -/
def insert {K V : Type} (hash : K → Nat) (t : Table K V) (k : K) (v : V)
    (pe : Option (Nat × Nat)) : Option (Table K V) :=
  let q := if t.entryNum ≥ t.lists.length * 3 then (expand hash t, none) else (t, pe)
  insertAt q.1 (q.2.getD (bucketOf hash q.1.lists.length k, 0)) (k, v)

/-- `rjs_hash_remove` (rjs_hash.c:170-182): `none` for a NULL `pe` (the assertion)
and for `*pe == NULL`. -/
def remove {K V : Type} (t : Table K V) (pe : Option (Nat × Nat)) : Option (Table K V) :=
  match pe with
  | none => none
  | some pe =>
    match t.lists[pe.1]? with
    | none => none
    | some l =>
      if pe.2 < l.length then
        some ⟨t.entryNum - 1, t.lists.modify pe.1 (·.eraseIdx pe.2)⟩
      else none

/-- The uses of the table: a lookup; a lookup followed by the insertion of an absent
key, with the link of the lookup (`usePe`, as in rjs_hash_object_inc.c:320-328) or
with NULL; a lookup followed by the removal of a present key
(rjs_hash_object_inc.c:366-372). -/
inductive Op (K V : Type)
  | lookup (k : K)
  | insert (k : K) (v : V) (usePe : Bool)
  | remove (k : K)
deriving Repr

/-- One use of the table: the entry found by the lookup and the new table. -/
def step {K V : Type} (hash : K → Nat) (eqv : K → K → Bool) (t : Table K V) :
    Op K V → Option (Option V × Table K V)
  | .lookup k => some ((lookup hash eqv t k).1, t)
  | .insert k v usePe =>
    let q := lookup hash eqv t k
    match q.1 with
    | some w => some (some w, t)
    | none => (insert hash t k v (if usePe then q.2 else none)).map fun t' => (none, t')
  | .remove k =>
    let q := lookup hash eqv t k
    match q.1 with
    | some w => (remove t q.2).map fun t' => (some w, t')
    | none => some (none, t)

/-- A sequence of uses: the results of the lookups and the final table. -/
def run {K V : Type} (hash : K → Nat) (eqv : K → K → Bool) :
    Table K V → List (Op K V) → Option (List (Option V) × Table K V)
  | t, [] => some ([], t)
  | t, o :: os =>
    match step hash eqv t o with
    | none => none
    | some (r, t') => (run hash eqv t' os).map fun q => (r :: q.1, q.2)

end Verif.Hash

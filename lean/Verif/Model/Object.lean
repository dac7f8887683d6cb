import Verif.Model.PropStore
/-
Model of ordinary objects and arrays: `/repo/src/lib/rjs_object.c:194-471, 560-701, 706-847,
908-1357`, `/repo/src/lib/rjs_array.c:29-254` and `/repo/src/lib/rjs_operation.c:436-469, 652-674,
937-1059`.

The objects are in a list; an object is named by its place.  Objects are never freed.  All
objects use the operations of ordinary objects or of arrays.  A call of a getter or setter is the
end of an operation: what the called function does are further operations.

`none` as the result of a function: see `Verif.PropStore`; it is also used for an operation on an
object which does not exist.
-/
namespace Verif.Obj
open PropStore (Store)

/-- Values, up to SameValue.  `num n`: the number `n`. -/
inductive Val where
  | undef
  | num (n : Nat)
  | other (k : Nat)
deriving DecidableEq

/-- The union in `RJS_Property` (include/rjs_object.h:40-60).  It also stands for the bit
`RJS_PROP_ATTR_ACCESSOR`: the code always writes the union when it changes the bit. -/
inductive Body where
  | data (v : Val)
  | acc (g s : Val)
deriving DecidableEq

/-- `RJS_Property`; `w`, `e`, `c` are the bits `WRITABLE`, `ENUMERABLE`, `CONFIGURABLE` of
`attrs`. -/
structure P where
  w : Bool
  e : Bool
  c : Bool
  body : Body
deriving DecidableEq

/-- A string which is not an array index, or a symbol. -/
inductive Name where
  | str (n : Nat)
  | sym (n : Nat)
deriving DecidableEq

/-- A resolved property name (`prop_resolve`, rjs_object.c:194-217; an index is at most 0xfffffffe,
rjs_string.c:519, rjs_number.c:244). -/
inductive Key where
  | idx (i : Fin (2 ^ 32 - 1))
  | name (n : Name)
deriving DecidableEq

/-- The name "length". -/
def lengthKey : Key := .name (.str 0)

/-- `RJS_PropertyDesc` with its flags. -/
structure Desc where
  hasV : Bool := false
  hasW : Bool := false
  hasE : Bool := false
  hasC : Bool := false
  hasG : Bool := false
  hasS : Bool := false
  w : Bool := false
  e : Bool := false
  c : Bool := false
  value : Val := .undef
  get : Val := .undef
  set : Val := .undef
deriving DecidableEq

/-- `rjs_is_accessor_descriptor` (include/ratjs/rjs_operation.h:180-189). -/
def isAcc (d : Desc) : Bool := d.hasG || d.hasS

/-- `rjs_is_data_descriptor` (include/ratjs/rjs_operation.h:198-207). -/
def isData (d : Desc) : Bool := d.hasW || d.hasV

/-- `rjs_is_generic_descriptor` (include/ratjs/rjs_operation.h:216-228). -/
def isGeneric (d : Desc) : Bool := if isAcc d then false else if isData d then false else true

/-- `!desc->flags`. -/
def noFlags (d : Desc) : Bool :=
  !(d.hasV || d.hasW || d.hasE || d.hasC || d.hasG || d.hasS || d.w || d.e || d.c)

/-- `RJS_Object`.  `named` is `prop_list`; `prop_hash` holds the same properties.  `arr`: the
operations of arrays. -/
structure Obj where
  store : Store P
  named : List (Name × P)
  ext : Bool
  proto : Option Nat
  arr : Bool

/-- `rjs_object_init` (lines 1333-1357). -/
def new (proto : Option Nat) (arr : Bool) : Obj := ⟨PropStore.empty, [], true, proto, arr⟩

/-- The hash table: the property with a name (lines 266-277). -/
def findName (n : Name) : List (Name × P) → Option P
  | [] => none
  | (k, p) :: l => if k = n then some p else findName n l

/-- `prop_lookup` (lines 232-279). -/
def propLookup (o : Obj) : Key → Option (Option P)
  | .idx i => PropStore.lookup o.store i
  | .name n => some (findName n o.named)

/-- `prop_add` (lines 361-414) and the filling in of the property. -/
def propAdd (o : Obj) (k : Key) (p : P) : Option Obj :=
  match k with
  | .idx i =>
    match PropStore.add o.store i p with
    | none => none
    | some s => some { o with store := s }
  | .name n => some { o with named := o.named ++ [(n, p)] }

/-- Replace a property in the list. -/
def setName (n : Name) (p : P) : List (Name × P) → List (Name × P)
  | [] => []
  | (k, q) :: l => if k = n then (k, p) :: l else (k, q) :: setName n p l

/-- The change of the property found by `prop_lookup` (line 784). -/
def propUpdate (o : Obj) (k : Key) (p : P) : Option Obj :=
  match k with
  | .idx i =>
    match PropStore.update o.store i p with
    | none => none
    | some s => some { o with store := s }
  | .name n =>
    match findName n o.named with
    | none => none
    | some _ => some { o with named := setName n p o.named }

/-- Remove a property from the list. -/
def removeName (n : Name) : List (Name × P) → List (Name × P)
  | [] => []
  | (k, q) :: l => if k = n then l else (k, q) :: removeName n l

/-- `prop_delete` (lines 418-471). -/
def propDelete (o : Obj) (k : Key) : Option Obj :=
  match k with
  | .idx i =>
    match PropStore.delete o.store i with
    | none => none
    | some s => some { o with store := s }
  | .name n =>
    match findName n o.named with
    | none => none
    | some _ => some { o with named := removeName n o.named }

/-- The descriptor of a property (lines 681-698). -/
def descOf (p : P) : Desc :=
  match p.body with
  | .acc g s =>
    { hasG := true, hasS := true, hasE := true, hasC := true, get := g, set := s, c := p.c, e := p.e }
  | .data v =>
    { hasV := true, hasW := true, hasE := true, hasC := true, w := p.w, value := v, c := p.c, e := p.e }

/-- `rjs_ordinary_object_op_get_own_property` (lines 670-701). -/
def getOwn (o : Obj) (k : Key) : Option (Option Desc) :=
  match propLookup o k with
  | none => none
  | some none => some none
  | some (some p) => some (some (descOf p))

/-- A new property (lines 726-750). -/
def newProp (d : Desc) : P :=
  if isAcc d then
    { w := false, e := d.e, c := d.c
      body := .acc (if d.hasG then d.get else .undef) (if d.hasS then d.set else .undef) }
  else
    { w := d.w, e := d.e, c := d.c, body := .data (if d.hasV then d.value else .undef) }

/-- The checks (lines 758-779). -/
def check (d curr : Desc) : Bool :=
  if !curr.c then
    if d.hasC && d.c then false
    else if d.hasE && (d.e != curr.e) then false
    else if !isGeneric d && (isAcc d != isAcc curr) then false
    else if isAcc d then
      if d.hasG && (d.get != curr.get) then false
      else if d.hasS && (d.set != curr.set) then false
      else true
    else if !curr.w then
      if d.hasW && d.w then false
      else if d.hasV && (d.value != curr.value) then false
      else true
    else true
  else true

/-- The change of a property (lines 787-843). -/
def change (p : P) (d curr : Desc) : P :=
  let p := if d.hasC then { p with c := d.c } else p
  let p := if d.hasE then { p with e := d.e } else p
  if isData d && isAcc curr then
    { p with
      body := .data (if d.hasV then d.value else .undef)
      w := if d.hasW && d.w then true else p.w }
  else if isAcc d && isData curr then
    { p with
      w := false
      body := .acc (if d.hasG then d.get else .undef) (if d.hasS then d.set else .undef) }
  else
    match p.body with
    | .acc g s =>
      { p with body := .acc (if d.hasG then d.get else g) (if d.hasS then d.set else s) }
    | .data v =>
      { p with
        body := .data (if d.hasV then d.value else v)
        w := if d.hasW then d.w else p.w }

/-- `validate_and_apply_property` (lines 706-847) with an object. -/
def validateAndApply (o : Obj) (k : Key) (ext : Bool) (d : Desc) (curr : Option Desc) :
    Option (Obj × Bool) :=
  match curr with
  | none =>
    if !ext then some (o, false)
    else
      match propAdd o k (newProp d) with
      | none => none
      | some o => some (o, true)
  | some curr =>
    if noFlags d then some (o, true)
    else if !check d curr then some (o, false)
    else
      match propLookup o k with
      | some (some p) =>
        match propUpdate o k (change p d curr) with
        | none => none
        | some o => some (o, true)
      | _ => none

/-- `rjs_is_compatible_property_descriptor` (lines 892-896): `validate_and_apply_property` with no
object. -/
def isCompatible (ext : Bool) (d : Desc) (curr : Option Desc) : Bool :=
  match curr with
  | none => if !ext then false else true
  | some curr => if noFlags d then true else check d curr

/-- `rjs_ordinary_object_op_define_own_property` (lines 908-933). -/
def defineOrdinary (o : Obj) (k : Key) (d : Desc) : Option (Obj × Bool) :=
  match getOwn o k with
  | none => none
  | some curr => validateAndApply o k o.ext d curr

/-- `rjs_ordinary_object_op_delete` (lines 1133-1162). -/
def delete (o : Obj) (k : Key) : Option (Obj × Bool) :=
  match getOwn o k with
  | none => none
  | some none => some (o, true)
  | some (some d) =>
    if d.c then
      match propDelete o k with
      | none => none
      | some o => some (o, true)
    else some (o, false)

/-- The result of an operation. -/
inductive Ret where
  | bool (b : Bool)
  | throw
  /-- The getter or setter `f` is called. -/
  | call (f : Val)
deriving DecidableEq

/-- `rjs_to_number` of a value if it is one of the integers 0, 1, ... (rjs_array.c:51-58); `oth` is
the conversion of the values which are not numbers.  User code called by it runs before anything
else is done. -/
def toLen (oth : Nat → Option Nat) : Val → Option Nat
  | .undef => none
  | .num n => if n < 2 ^ 32 then some n else none
  | .other k =>
    match oth k with
    | none => none
    | some n => if n < 2 ^ 32 then some n else none

/-- The descriptor of "length" as `old_len` and `old_desc` (rjs_array.c:63-64, 144-146). -/
def oldLength (o : Obj) : Option (Nat × Desc) :=
  match getOwn o lengthKey with
  | some (some d) =>
    match d.value with
    | .num n => some (n % 2 ^ 32, d)
    | _ => none
  | _ => none

/-- The end of `array_set_length` (rjs_array.c:86-125), after the new length has been stored. -/
def shrink (o : Obj) (newLen : Nat) (newWr : Bool) (d : Desc) : Option (Obj × Ret) :=
  match PropStore.deleteFrom (fun p => p.c) o.store newLen with
  | none => none
  | some (s, some i) =>
    let nd : Desc :=
      { value := .num (i + 1), hasV := true, hasW := !newWr, get := d.get, set := d.set }
    match defineOrdinary { o with store := s } lengthKey nd with
    | none => none
    | some (o, _) => some (o, .bool false)
  | some (s, none) =>
    if !newWr then
      let nd : Desc := { hasW := true, value := .num newLen, get := d.get, set := d.set }
      match defineOrdinary { o with store := s } lengthKey nd with
      | none => none
      | some (o, _) => some (o, .bool true)
    else some ({ o with store := s }, .bool true)

/-- `array_set_length` (rjs_array.c:29-131). -/
def setLength (oth : Nat → Option Nat) (o : Obj) (d : Desc) : Option (Obj × Ret) :=
  if !d.hasV then
    match defineOrdinary o lengthKey d with
    | none => none
    | some (o, b) => some (o, .bool b)
  else
    match toLen oth d.value with
    | none => some (o, .throw)
    | some newLen =>
      let nd : Desc := { d with value := .num newLen }
      match oldLength o with
      | none => none
      | some (oldLen, old) =>
        if newLen ≥ oldLen then
          match defineOrdinary o lengthKey nd with
          | none => none
          | some (o, b) => some (o, .bool b)
        else if !old.w then some (o, .bool false)
        else
          let newWr := !nd.hasW || nd.w
          let nd := if newWr then nd else { nd with w := true }
          match defineOrdinary o lengthKey nd with
          | none => none
          | some (o, false) => some (o, .bool false)
          | some (o, true) => shrink o newLen newWr nd

/-- `array_set_item` (rjs_array.c:134-169). -/
def setItem (o : Obj) (i : Fin (2 ^ 32 - 1)) (d : Desc) : Option (Obj × Ret) :=
  match oldLength o with
  | none => none
  | some (olen, old) =>
    if i.val ≥ olen ∧ !old.w then some (o, .bool false)
    else
      match defineOrdinary o (.idx i) d with
      | none => none
      | some (o, false) => some (o, .bool false)
      | some (o, true) =>
        if i.val ≥ olen then
          match defineOrdinary o lengthKey { old with value := .num (i.val + 1) } with
          | none => none
          | some (o, _) => some (o, .bool true)
        else some (o, .bool true)

/-- `rjs_object_define_own_property`: the operation of the object (`array_op_define_own_property`,
rjs_array.c:172-189). -/
def define (oth : Nat → Option Nat) (o : Obj) (k : Key) (d : Desc) : Option (Obj × Ret) :=
  if o.arr then
    match k with
    | .idx i => setItem o i d
    | .name n =>
      if n = .str 0 then setLength oth o d
      else
        match defineOrdinary o k d with
        | none => none
        | some (o, b) => some (o, .bool b)
  else
    match defineOrdinary o k d with
    | none => none
    | some (o, b) => some (o, .bool b)

/-- `rjs_array_new` (rjs_array.c:223-254). -/
def newArray (len : Nat) (proto : Option Nat) : Option Obj :=
  match defineOrdinary (new proto true) lengthKey
    { hasV := true, hasW := true, hasE := true, hasC := true, w := true, value := .num len } with
  | none => none
  | some (o, _) => some o

/-- The strings or symbols of the list (lines 1210-1229). -/
def strNames (l : List (Name × P)) : List Name :=
  (l.map (·.1)).filter fun n => match n with | .str _ => true | .sym _ => false
def symNames (l : List (Name × P)) : List Name :=
  (l.map (·.1)).filter fun n => match n with | .str _ => false | .sym _ => true

/-- An index as key; the code keeps it as a 32 bit number. -/
def idxKey (i : Nat) : Key := .idx (Fin.ofNat (2 ^ 32 - 1) i)

/-- `rjs_ordinary_object_op_own_property_keys` (lines 1172-1252). -/
def ownKeys (o : Obj) : Option (List Key) :=
  match PropStore.keys o.store with
  | none => none
  | some l => some (l.map idxKey ++ ((strNames o.named).map .name ++ (symNames o.named).map .name))

/-- `rjs_set_integrity_level` for one key: the descriptor (rjs_operation.c:956-987). -/
def levelDesc (frozen : Bool) (d : Desc) : Desc :=
  if frozen then
    if isAcc d then { d with hasV := false, hasW := false, hasE := false, hasC := true, hasG := false, hasS := false, w := false, e := false, c := false }
    else { d with hasV := false, hasW := true, hasE := false, hasC := true, hasG := false, hasS := false, w := false, e := false, c := false }
  else { hasC := true }

/-- The loops of `rjs_set_integrity_level` (rjs_operation.c:959-993). -/
def levelLoop (oth : Nat → Option Nat) (frozen : Bool) : List Key → Obj → Option (Obj × Ret)
  | [], o => some (o, .bool true)
  | k :: ks, o =>
    match getOwn o k with
    | none => none
    | some d =>
      if frozen && d.isNone then levelLoop oth frozen ks o
      else
        match define oth o k (levelDesc frozen (d.getD {})) with
        | none => none
        | some (o, .bool true) => levelLoop oth frozen ks o
        | some (o, _) => some (o, .throw)

/-- `rjs_set_integrity_level` (rjs_operation.c:937-999). -/
def setIntegrity (oth : Nat → Option Nat) (frozen : Bool) (o : Obj) : Option (Obj × Ret) :=
  let o := { o with ext := false }
  match ownKeys o with
  | none => none
  | some ks => levelLoop oth frozen ks o

/-- The loop of `rjs_test_integrity_level` (rjs_operation.c:1031-1052). -/
def testLoop (frozen : Bool) (o : Obj) : List Key → Option Bool
  | [] => some true
  | k :: ks =>
    match getOwn o k with
    | none => none
    | some none => testLoop frozen o ks
    | some (some d) =>
      if d.c then some false
      else if frozen && isData d && d.w then some false
      else testLoop frozen o ks

/-- `rjs_test_integrity_level` (rjs_operation.c:1011-1059). -/
def testIntegrity (frozen : Bool) (o : Obj) : Option Bool :=
  if o.ext then some false
  else
    match ownKeys o with
    | none => none
    | some ks => testLoop frozen o ks

/-- What `rjs_to_property_descriptor` reads from the object of a program: `none`, the field is
absent.  `enumerable`, `configurable` and `writable` after `rjs_to_boolean`. -/
structure Fields where
  enumerable : Option Bool := none
  configurable : Option Bool := none
  value : Option Val := none
  writable : Option Bool := none
  get : Option Val := none
  set : Option Val := none
deriving DecidableEq

/-- `rjs_to_property_descriptor` (rjs_operation.c:253-361); `none`: TypeError.  User code called
by it runs before anything else is done. -/
def toDesc (callable : Val → Bool) (f : Fields) : Option Desc :=
  let d : Desc := {}
  let d := match f.enumerable with
    | some b => if b then { d with hasE := true, e := true } else { d with hasE := true }
    | none => d
  let d := match f.configurable with
    | some b => if b then { d with hasC := true, c := true } else { d with hasC := true }
    | none => d
  let d := match f.value with
    | some v => { d with hasV := true, value := v }
    | none => d
  let d := match f.writable with
    | some b => if b then { d with hasW := true, w := true } else { d with hasW := true }
    | none => d
  let d := match f.get with
    | some v => { d with hasG := true, get := v }
    | none => d
  if d.hasG && !callable d.get && (d.get != .undef) then none
  else
    let d := match f.set with
      | some v => { d with hasS := true, set := v }
      | none => d
    if d.hasS && !callable d.set && (d.set != .undef) then none
    else if (d.hasG || d.hasS) && (d.hasV || d.hasW) then none
    else some d

/-- `rjs_from_property_descriptor` (rjs_operation.c:372-428): the fields of the new object. -/
def fromDesc (d : Desc) : Fields where
  value := if d.hasV then some d.value else none
  writable := if d.hasW then some d.w else none
  get := if d.hasG then some d.get else none
  set := if d.hasS then some d.set else none
  enumerable := if d.hasE then some d.e else none
  configurable := if d.hasC then some d.c else none

/-- `Object.getOwnPropertyDescriptor` (rjs_object_object_inc.c:380-408) on an object. -/
def report (o : Obj) (k : Key) : Option (Option Fields) :=
  match getOwn o k with
  | none => none
  | some none => some none
  | some (some d) => some (some (fromDesc d))

/-- `rjs_complete_property_descriptor` (rjs_operation.c:436-469). -/
def complete (d : Desc) : Desc :=
  let d := if isGeneric d || isData d then
      let d := if !d.hasV then { d with hasV := true, value := .undef } else d
      if !d.hasW then { d with hasW := true, w := false } else d
    else
      let d := if !d.hasG then { d with hasG := true, get := .undef } else d
      if !d.hasS then { d with hasS := true, set := .undef } else d
  let d := if !d.hasC then { d with hasC := true, c := false } else d
  if !d.hasE then { d with hasE := true, e := false } else d

/-! ### Several objects -/

abbrev Heap := List Obj

/-- The loop of `rjs_ordinary_object_op_set_prototype_of` (lines 596-617): does the chain from `p`
reach `v`?  `none`: no end within the given number of rounds (shown not to happen), or no such
object. -/
def hits (h : Heap) (v : Nat) : Nat → Option Nat → Option Bool
  | _, none => some false
  | 0, some _ => none
  | f + 1, some p =>
    if p = v then some true
    else
      match h[p]? with
      | none => none
      | some o => hits h v f o.proto

/-- `rjs_ordinary_object_op_set_prototype_of` (lines 578-624). -/
def setProto (h : Heap) (v : Nat) (p : Option Nat) : Option (Heap × Ret) :=
  match h[v]? with
  | none => none
  | some o =>
    if o.proto = p then some (h, .bool true)
    else if !o.ext then some (h, .bool false)
    else
      match hits h v (h.length + 1) p with
      | none => none
      | some true => some (h, .bool false)
      | some false => some (h.set v { o with proto := p }, .bool true)

/-- The search for a property along the chain (`rjs_ordinary_object_op_has_property`, lines
944-973; `..._get`, lines 993-1010; `..._set`, lines 1049-1061).  `none`: as in `hits`. -/
def findProp (h : Heap) (k : Key) : Nat → Nat → Option (Option Desc)
  | 0, _ => none
  | f + 1, v =>
    match h[v]? with
    | none => none
    | some o =>
      match getOwn o k with
      | none => none
      | some (some d) => some (some d)
      | some none =>
        match o.proto with
        | none => some none
        | some p => findProp h k f p

/-- The end of `rjs_ordinary_object_op_set` (lines 1071-1117) with the descriptor found.  `recv`:
the receiver, if it is an object. -/
def setFound (oth : Nat → Option Nat) (h : Heap) (k : Key) (v : Val) (recv : Option Nat) (d : Desc) :
    Option (Heap × Ret) :=
  if isData d then
    if !d.w then some (h, .bool false)
    else
      match recv with
      | none => some (h, .bool false)
      | some r =>
        match h[r]? with
        | none => none
        | some o =>
          match getOwn o k with
          | none => none
          | some (some ed) =>
            if isAcc ed then some (h, .bool false)
            else if !ed.w then some (h, .bool false)
            else
              match define oth o k { hasV := true, value := v, get := ed.get, set := ed.set } with
              | none => none
              | some (o, x) => some (h.set r o, x)
          | some none =>
            match define oth o k
              { hasV := true, hasW := true, hasE := true, hasC := true, w := true, e := true, c := true, value := v } with
            | none => none
            | some (o, x) => some (h.set r o, x)
  else if d.set = .undef then some (h, .bool false)
  else some (h, .call d.set)

/-- `rjs_ordinary_object_op_set` (lines 1040-1122). -/
def set (oth : Nat → Option Nat) (h : Heap) (o : Nat) (k : Key) (v : Val) (recv : Option Nat) :
    Option (Heap × Ret) :=
  match findProp h k (h.length + 1) o with
  | none => none
  | some none =>
    setFound oth h k v recv
      { hasV := true, hasW := true, hasE := true, hasC := true, w := true, e := true, c := true }
  | some (some d) => setFound oth h k v recv d

/-- What a program can do with objects. -/
inductive Op where
  | create (proto : Option Nat)
  | createArray (len : Nat) (proto : Option Nat)
  | define (o : Nat) (k : Key) (f : Fields)
  | set (o : Nat) (k : Key) (v : Val) (recv : Option Nat)
  | delete (o : Nat) (k : Key)
  | preventExt (o : Nat)
  | setProto (o : Nat) (p : Option Nat)
  | setIntegrity (frozen : Bool) (o : Nat)
deriving DecidableEq

/-- Change one object. -/
def onObj (h : Heap) (v : Nat) (f : Obj → Option (Obj × Ret)) : Option (Heap × Ret) :=
  match h[v]? with
  | none => none
  | some o =>
    match f o with
    | none => none
    | some (o, r) => some (h.set v o, r)

/-- What is left open: conversions of values, and which values are functions. -/
structure Env where
  oth : Nat → Option Nat
  callable : Val → Bool

/-- One operation.  A prototype must exist. -/
def step (E : Env) (h : Heap) : Op → Option (Heap × Ret)
  | .create p =>
    if p.all (· < h.length) then some (h ++ [new p false], .bool true) else none
  | .createArray len p =>
    if p.all (· < h.length) then
      if len > 0xffffffff then some (h, .throw)
      else
        match newArray len p with
        | none => none
        | some o => some (h ++ [o], .bool true)
    else none
  | .define o k f => 
    match toDesc E.callable f with
    | none => some (h, .throw)
    | some d => onObj h o fun o => define E.oth o k d
  | .set o k v r => set E.oth h o k v r
  | .delete o k => onObj h o fun o =>
      match delete o k with
      | none => none
      | some (o, b) => some (o, .bool b)
  | .preventExt o => onObj h o fun o => some ({ o with ext := false }, .bool true)
  | .setProto o p => if p.all (· < h.length) then setProto h o p else none
  | .setIntegrity fr o => onObj h o fun o => setIntegrity E.oth fr o

/-- Several operations: the objects at the end. -/
def run (E : Env) : Heap → List Op → Option Heap
  | h, [] => some h
  | h, a :: l =>
    match step E h a with
    | none => none
    | some (h, _) => run E h l

end Verif.Obj

/-!
# The functions of `Object` on arbitrary objects

`Object.assign`, `defineProperties`, `defineProperty`, `keys`, `values`, `entries`, `freeze`, `seal`,
`preventExtensions`, `isFrozen`, `isSealed`, `isExtensible` (rjs_object_object_inc.c) with `ToPropertyDescriptor`, `SetIntegrityLevel` and
`TestIntegrityLevel` (rjs_operation.c).  The objects may be proxies: each internal method is any function
that changes the state and gives a result or throws.

Simplifications: the arrays that are made are lists (nobody else sees them before the end); an exception
that is swallowed changes nothing but the state (its value stays in the runtime, unseen); built-in getters
that give RJS_FALSE are left out.
-/

namespace Verif.ObjFuncs

/-- The end of an operation: a value, an exception. -/
inductive Out (σ E α : Type) where
  | ok (s : σ) (a : α)
  | thr (s : σ) (e : E)
  deriving DecidableEq

/-- `RJS_PropertyDesc` as far as it is looked at: accessor, writable, enumerable, configurable. -/
structure Attr where
  acc : Bool
  w : Bool
  e : Bool
  c : Bool
  deriving DecidableEq

/-- The fields of a descriptor (`RJS_PROP_FL_HAS_…`). -/
inductive Field where
  | enumerable | configurable | value | writable | get | set
  deriving DecidableEq

/-- A descriptor to be defined. -/
structure Desc (V : Type) where
  e : Option Bool := none
  c : Option Bool := none
  v : Option V := none
  w : Option Bool := none
  g : Option V := none
  s : Option V := none
  deriving DecidableEq

/-- The objects of the program: the internal methods, which may call any code.  `junk`: the bit
`RJS_PROP_FL_ENUMERABLE` that a `get_own_property` which throws leaves behind (a proxy may have filled in
the descriptor before, rjs_proxy_object_opt.c:334-349). -/
structure World (σ K V E : Type) where
  isObj : V → Bool
  isNullish : V → Bool
  callable : V → Bool
  undef : V → Bool
  truthy : V → Bool
  isStr : K → Bool
  name : Field → K
  typeErr : E
  toObj : V → σ → Out σ E V
  toKey : V → σ → Out σ E K
  keys : V → σ → Out σ E (List K)
  getOwn : V → K → σ → Out σ E (Option Attr)
  has : V → K → σ → Out σ E Bool
  get : V → K → σ → Out σ E V
  set : V → K → V → σ → Out σ E Bool
  define : V → K → Desc V → σ → Out σ E Bool
  prevent : V → σ → Out σ E Bool
  isExt : V → σ → Out σ E Bool
  junk : σ → Bool → Bool

variable {σ K V E : Type}

/-- `rjs_define_property_or_throw` (include/ratjs/rjs_operation.h:1746-1757). -/
def defineOrThrow (W : World σ K V E) (o : V) (k : K) (d : Desc V) (s : σ) : Out σ E Unit :=
  match W.define o k d s with
  | .thr s e => .thr s e
  | .ok s false => .thr s W.typeErr
  | .ok s true => .ok s ()

/-- The loop for `RJS_INTEGRITY_SEALED` (rjs_operation.c:954-968). -/
def sealLoop (W : World σ K V E) (o : V) : List K → σ → Out σ E Bool
  | [], s => .ok s true
  | k :: ks, s =>
    match defineOrThrow W o k { c := some false } s with
    | .thr s e => .thr s e
    | .ok s _ => sealLoop W o ks s

/-- The loop for `RJS_INTEGRITY_FROZEN` (rjs_operation.c:970-994); `r` is the result so far, and what is
given back at the end. -/
def freezeLoop (W : World σ K V E) (o : V) : List K → Bool → σ → Out σ E Bool
  | [], r, s => .ok s r
  | k :: ks, _, s =>
    match W.getOwn o k s with
    | .thr s e => .thr s e
    | .ok s none => freezeLoop W o ks false s
    | .ok s (some a) =>
      match defineOrThrow W o k (if a.acc then { c := some false } else { c := some false, w := some false }) s with
      | .thr s e => .thr s e
      | .ok s _ => freezeLoop W o ks true s

/-- `rjs_set_integrity_level` (rjs_operation.c:936-1000). -/
def setIntegrity (W : World σ K V E) (o : V) (frozen : Bool) (s : σ) : Out σ E Bool :=
  match W.prevent o s with
  | .thr s e => .thr s e
  | .ok s false => .ok s false
  | .ok s true =>
    match W.keys o s with
    | .thr s e => .thr s e
    | .ok s ks => if frozen then freezeLoop W o ks true s else sealLoop W o ks s

/-- The loop of `rjs_test_integrity_level` (rjs_operation.c:1030-1053). -/
def testLoop (W : World σ K V E) (o : V) (frozen : Bool) : List K → σ → Out σ E Bool
  | [], s => .ok s true
  | k :: ks, s =>
    match W.getOwn o k s with
    | .thr s e => .thr s e
    | .ok s none => testLoop W o frozen ks s
    | .ok s (some a) =>
      if a.c then .ok s false
      else if frozen && !a.acc && a.w then .ok s false
      else testLoop W o frozen ks s

/-- `rjs_test_integrity_level` (rjs_operation.c:1010-1059): an error of `rjs_object_is_extensible` is
taken for yes (line 1022). -/
def testIntegrity (W : World σ K V E) (o : V) (frozen : Bool) (s : σ) : Out σ E Bool :=
  match W.isExt o s with
  | .thr s _ => .ok s false
  | .ok s true => .ok s false
  | .ok s false =>
    match W.keys o s with
    | .thr s e => .thr s e
    | .ok s ks => testLoop W o frozen ks s

/-- `Object.freeze`, `Object.seal` (rjs_object_object_inc.c:306-328, 682-704). -/
def setFn (W : World σ K V E) (o : V) (frozen : Bool) (s : σ) : Out σ E V :=
  if W.isObj o then
    match setIntegrity W o frozen s with
    | .thr s e => .thr s e
    | .ok s false => .thr s W.typeErr
    | .ok s true => .ok s o
  else .ok s o

/-- `Object.isFrozen`, `Object.isSealed` (rjs_object_object_inc.c:605-637). -/
def testFn (W : World σ K V E) (o : V) (frozen : Bool) (s : σ) : Out σ E Bool :=
  if W.isObj o then testIntegrity W o frozen s else .ok s true

/-- `Object.preventExtensions` (rjs_object_object_inc.c:657-679). -/
def preventFn (W : World σ K V E) (o : V) (s : σ) : Out σ E V :=
  if W.isObj o then
    match W.prevent o s with
    | .thr s e => .thr s e
    | .ok s false => .thr s W.typeErr
    | .ok s true => .ok s o
  else .ok s o

/-- `Object.isExtensible` (rjs_object_object_inc.c:587-602). -/
def isExtFn (W : World σ K V E) (o : V) (s : σ) : Out σ E Bool :=
  if W.isObj o then W.isExt o s else .ok s false

/-- One field that is a truth value (rjs_operation.c:268-278, 281-291, 303-313). -/
def boolField (W : World σ K V E) (o : V) (f : Field) (s : σ) : Out σ E (Option Bool) :=
  match W.has o (W.name f) s with
  | .thr s e => .thr s e
  | .ok s false => .ok s none
  | .ok s true =>
    match W.get o (W.name f) s with
    | .thr s e => .thr s e
    | .ok s v => .ok s (some (W.truthy v))

/-- The value (rjs_operation.c:294-301). -/
def valueField (W : World σ K V E) (o : V) (s : σ) : Out σ E (Option V) :=
  match W.has o (W.name .value) s with
  | .thr s e => .thr s e
  | .ok s false => .ok s none
  | .ok s true =>
    match W.get o (W.name .value) s with
    | .thr s e => .thr s e
    | .ok s v => .ok s (some v)

/-- `get`, `set` (rjs_operation.c:316-328, 331-343). -/
def funcField (W : World σ K V E) (o : V) (f : Field) (s : σ) : Out σ E (Option V) :=
  match W.has o (W.name f) s with
  | .thr s e => .thr s e
  | .ok s false => .ok s none
  | .ok s true =>
    match W.get o (W.name f) s with
    | .thr s e => .thr s e
    | .ok s v => if !W.callable v && !W.undef v then .thr s W.typeErr else .ok s (some v)

/-- `rjs_to_property_descriptor` (rjs_operation.c:252-354). -/
def toDesc (W : World σ K V E) (o : V) (s : σ) : Out σ E (Desc V) :=
  if W.isObj o then
    match boolField W o .enumerable s with
    | .thr s e => .thr s e
    | .ok s en =>
    match boolField W o .configurable s with
    | .thr s e => .thr s e
    | .ok s c =>
    match valueField W o s with
    | .thr s e => .thr s e
    | .ok s v =>
    match boolField W o .writable s with
    | .thr s e => .thr s e
    | .ok s w =>
    match funcField W o .get s with
    | .thr s e => .thr s e
    | .ok s g =>
    match funcField W o .set s with
    | .thr s e => .thr s e
    | .ok s st =>
      if (g.isSome || st.isSome) && (v.isSome || w.isSome) then .thr s W.typeErr
      else .ok s ⟨en, c, v, w, g, st⟩
  else .thr s W.typeErr

/-- The loop of `object_define_properties` (rjs_object_object_inc.c:110-130): `r = RJS_OK` for
`r == RJS_OK`, so that an exception and a property that is not there are taken for a property; `en` is the
bit in `pd.flags`. -/
def defineLoop (W : World σ K V E) (o props : V) : List K → Bool → σ → Out σ E Unit
  | [], _, s => .ok s ()
  | k :: ks, en, s =>
    let x := match W.getOwn props k s with
      | .thr s _ => (s, W.junk s en)
      | .ok s none => (s, en)
      | .ok s (some a) => (s, a.e)
    if x.2 then
      match W.get props k x.1 with
      | .thr s e => .thr s e
      | .ok s v =>
        match toDesc W v s with
        | .thr s e => .thr s e
        | .ok s d =>
          match defineOrThrow W o k d s with
          | .thr s e => .thr s e
          | .ok s _ => defineLoop W o props ks x.2 s
    else defineLoop W o props ks x.2 x.1

/-- `Object.defineProperties` (rjs_object_object_inc.c:90-139, 166-181). -/
def definePropertiesFn (W : World σ K V E) (o props : V) (s : σ) : Out σ E V :=
  if W.isObj o then
    match W.toObj props s with
    | .thr s e => .thr s e
    | .ok s p =>
      match W.keys p s with
      | .thr s e => .thr s e
      | .ok s ks =>
        match defineLoop W o p ks false s with
        | .thr s e => .thr s e
        | .ok s _ => .ok s o
  else .thr s W.typeErr

/-- `Object.defineProperty` (rjs_object_object_inc.c:184-217). -/
def definePropertyFn (W : World σ K V E) (o p attrs : V) (s : σ) : Out σ E V :=
  if W.isObj o then
    match W.toKey p s with
    | .thr s e => .thr s e
    | .ok s k =>
      match toDesc W attrs s with
      | .thr s e => .thr s e
      | .ok s d =>
        match defineOrThrow W o k d s with
        | .thr s e => .thr s e
        | .ok s _ => .ok s o
  else .thr s W.typeErr

/-- What `Object.keys`, `values` and `entries` collect. -/
inductive Kind where
  | key | value | entry

/-- Items of their arrays. -/
inductive Item (K V : Type) where
  | key (k : K)
  | value (v : V)
  | entry (k : K) (v : V)
  deriving DecidableEq

/-- The loop of `array_from_own_properties` (rjs_object_object_inc.c:245-277); `acc`: the array. -/
def listLoop (W : World σ K V E) (o : V) (kind : Kind) : List K → List (Item K V) → σ →
    Out σ E (List (Item K V))
  | [], acc, s => .ok s acc
  | k :: ks, acc, s =>
    if W.isStr k then
      match W.getOwn o k s with
      | .thr s e => .thr s e
      | .ok s none => listLoop W o kind ks acc s
      | .ok s (some a) =>
        if a.e then
          match kind with
          | .key => listLoop W o kind ks (acc ++ [.key k]) s
          | .value =>
            match W.get o k s with
            | .thr s e => .thr s e
            | .ok s v => listLoop W o kind ks (acc ++ [.value v]) s
          | .entry =>
            match W.get o k s with
            | .thr s e => .thr s e
            | .ok s v => listLoop W o kind ks (acc ++ [.entry k v]) s
        else listLoop W o kind ks acc s
    else listLoop W o kind ks acc s

/-- `Object.keys`, `Object.values`, `Object.entries` (rjs_object_object_inc.c:223-304, 640-654,
735-749). -/
def listFn (W : World σ K V E) (o : V) (kind : Kind) (s : σ) : Out σ E (List (Item K V)) :=
  match W.toObj o s with
  | .thr s e => .thr s e
  | .ok s o =>
    match W.keys o s with
    | .thr s e => .thr s e
    | .ok s ks => listLoop W o kind ks [] s

/-- The loop of `rjs_object_assign` (rjs_object.c:1555-1573). -/
def assignLoop (W : World σ K V E) (dst src : V) : List K → σ → Out σ E Unit
  | [], s => .ok s ()
  | k :: ks, s =>
    match W.getOwn src k s with
    | .thr s e => .thr s e
    | .ok s none => assignLoop W dst src ks s
    | .ok s (some a) =>
      if a.e then
        match W.get src k s with
        | .thr s e => .thr s e
        | .ok s v =>
          match W.set dst k v s with
          | .thr s e => .thr s e
          | .ok s false => .thr s W.typeErr
          | .ok s true => assignLoop W dst src ks s
      else assignLoop W dst src ks s

/-- The loop of `Object.assign` (rjs_object_object_inc.c:73-80) over its sources, with
`rjs_object_assign` (rjs_object.c:1534-1580). -/
def sourcesLoop (W : World σ K V E) (dst : V) : List V → σ → Out σ E Unit
  | [], s => .ok s ()
  | x :: xs, s =>
    if W.isNullish x then sourcesLoop W dst xs s
    else
      match W.toObj x s with
      | .thr s e => .thr s e
      | .ok s src =>
        match W.keys src s with
        | .thr s e => .thr s e
        | .ok s ks =>
          match assignLoop W dst src ks s with
          | .thr s e => .thr s e
          | .ok s _ => sourcesLoop W dst xs s

/-- `Object.assign` (rjs_object_object_inc.c:52-87). -/
def assignFn (W : World σ K V E) (target : V) (sources : List V) (s : σ) : Out σ E V :=
  match W.toObj target s with
  | .thr s e => .thr s e
  | .ok s dst =>
    match sourcesLoop W dst sources s with
    | .thr s e => .thr s e
    | .ok s _ => .ok s dst

end Verif.ObjFuncs

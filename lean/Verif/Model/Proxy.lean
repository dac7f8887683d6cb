import Verif.Model.Object
import Verif.Model.InstanceOf
/-
Model of the operations of proxies: `/repo/src/lib/rjs_proxy_object_opt.c:52-957`.

The target is an ordinary object or array of `Verif.Obj`.  A trap is a function of the program:
what it does to the objects and what it gives back are arbitrary.  The arguments of a call are
pointers to cells of the caller (`/repo/src/lib/rjs_builtin_func_object.c:99`), and the checks made
after the call read the target from the same cell `target`; so a call also gives the new value of
that cell.  A script function gets copies of its arguments and does not change the cell.

Not modelled: targets which are proxies or other exotic objects; allocation failures.
-/
namespace Verif.Proxy
open Obj (Heap Key Desc Fields Val Ret)

/-- How an operation ends.  `typeError`: `rjs_throw_type_error` in this file; `thrown`: an exception
passed on; `call`: (only if there is no trap) the getter or setter of the target is called, and
its result is the result. -/
inductive Out (α : Type) where
  | ret (a : α)
  | typeError
  | thrown
  | call (f : Val)
deriving DecidableEq

/-- A call of a trap: the objects after it, the cell `target` after it, and the value returned
(`none`: it throws). -/
structure Call (α : Type) where
  heap : Heap
  cell : Nat
  res : Option α

/-- What `rjs_get_method(rt, handler, name, trap)` finds (it can run a getter of the program): an
exception or a value which is no function, nothing, or a function which is then called. -/
inductive Found (α : Type) where
  | thrown (h : Heap)
  | missing (h : Heap)
  | trap (c : Call α)

/-- The frame of all operations (e.g. lines 63-80): `target` is null after `revoke`; `fwd` is the
operation of the target; `chk` is what is done after the call of the trap. -/
def viaTrap {α β : Type} (target : Option Nat) (h : Heap) (f : Found α)
    (fwd : Heap → Nat → Option (Heap × Out β)) (chk : Heap → Nat → α → Option (Heap × Out β)) :
    Option (Heap × Out β) :=
  match target with
  | none => some (h, .typeError)
  | some t =>
    match f with
    | .thrown h => some (h, .thrown)
    | .missing h => fwd h t
    | .trap c =>
      match c.res with
      | none => some (c.heap, .thrown)
      | some a => chk c.heap c.cell a

/-- The result of an operation of the target. -/
def ofRet : Option (Heap × Ret) → Option (Heap × Out Bool)
  | none => none
  | some (h, .bool b) => some (h, .ret b)
  | some (h, .throw) => some (h, .thrown)
  | some (h, .call f) => some (h, .call f)

/-! ### Prototype and extensibility -/

/-- A value: an object, null, or something else. -/
inductive PVal where
  | obj (n : Nat)
  | null
  | prim
deriving DecidableEq

/-- Lines 82-100. -/
def chkGetProto (h : Heap) (c : Nat) (v : PVal) : Option (Heap × Out (Option Nat)) :=
  match h[c]? with
  | none => none
  | some o =>
    match v with
    | .prim => some (h, .typeError)
    | .obj n => if o.ext then some (h, .ret (some n)) else if some n ≠ o.proto then some (h, .typeError) else some (h, .ret (some n))
    | .null => if o.ext then some (h, .ret none) else if none ≠ o.proto then some (h, .typeError) else some (h, .ret none)

/-- `rjs_object_get_prototype_of` on the target. -/
def fwdGetProto (h : Heap) (t : Nat) : Option (Heap × Out (Option Nat)) :=
  match h[t]? with
  | none => none
  | some o => some (h, .ret o.proto)

/-- `proxy_object_op_get_prototype_of` (lines 52-104). -/
def getProto (target : Option Nat) (h : Heap) (f : Found PVal) : Option (Heap × Out (Option Nat)) :=
  viaTrap target h f fwdGetProto chkGetProto

/-- Lines 140-156; `p` is the prototype requested. -/
def chkSetProto (p : Option Nat) (h : Heap) (c : Nat) (b : Bool) : Option (Heap × Out Bool) :=
  if !b then some (h, .ret false)
  else
    match h[c]? with
    | none => none
    | some o =>
      if o.ext then some (h, .ret true)
      else if p ≠ o.proto then some (h, .typeError)
      else some (h, .ret true)

/-- `proxy_object_op_set_prototype_of` (lines 107-160). -/
def setProto (target : Option Nat) (h : Heap) (p : Option Nat) (f : Found Bool) : Option (Heap × Out Bool) :=
  viaTrap target h f (fun h t => ofRet (Obj.setProto h t p)) (chkSetProto p)

/-- Lines 194-202. -/
def chkIsExt (h : Heap) (c : Nat) (b : Bool) : Option (Heap × Out Bool) :=
  match h[c]? with
  | none => none
  | some o => if b ≠ o.ext then some (h, .typeError) else some (h, .ret b)

/-- `rjs_object_is_extensible` on the target. -/
def fwdIsExt (h : Heap) (t : Nat) : Option (Heap × Out Bool) :=
  match h[t]? with
  | none => none
  | some o => some (h, .ret o.ext)

/-- `proxy_object_op_is_extensible` (lines 163-206). -/
def isExt (target : Option Nat) (h : Heap) (f : Found Bool) : Option (Heap × Out Bool) :=
  viaTrap target h f fwdIsExt chkIsExt

/-- Lines 240-250. -/
def chkPreventExt (h : Heap) (c : Nat) (b : Bool) : Option (Heap × Out Bool) :=
  if b then
    match h[c]? with
    | none => none
    | some o => if o.ext then some (h, .typeError) else some (h, .ret true)
  else some (h, .ret false)

/-- `rjs_object_prevent_extensions` on the target. -/
def fwdPreventExt (h : Heap) (t : Nat) : Option (Heap × Out Bool) :=
  ofRet (Obj.onObj h t fun o => some ({ o with ext := false }, .bool true))

/-- `proxy_object_op_prevent_extensions` (lines 209-254). -/
def preventExt (target : Option Nat) (h : Heap) (f : Found Bool) : Option (Heap × Out Bool) :=
  viaTrap target h f fwdPreventExt chkPreventExt

/-! ### Own properties -/

/-- What the trap `getOwnPropertyDescriptor` returns.  `obj`: an object; `fields`: what
`rjs_to_property_descriptor` reads from it (`none`: an exception); `heap`: the objects after
that, as its getters run code of the program. -/
inductive DVal where
  | undef
  | prim
  | obj (fields : Option Fields) (heap : Heap)

/-- The end of line 334 to 360: `e` is `is_ext`, `tpd` the descriptor of the target's property. -/
def compareOwn (e : Bool) (tpd : Option Desc) (d : Desc) : Out (Option Desc) :=
  let pd := Obj.complete d
  if !Obj.isCompatible e pd tpd then .typeError
  else if !pd.c then
    match tpd with
    | none => .typeError
    | some tpd =>
      if tpd.c then .typeError
      else if !pd.w && tpd.w then .typeError
      else .ret (some pd)
  else .ret (some pd)

/-- Lines 293-360. -/
def chkGetOwn (callable : Val → Bool) (k : Key) (h : Heap) (c : Nat) (v : DVal) : Option (Heap × Out (Option Desc)) :=
  match v with
  | .prim => some (h, .typeError)
  | .undef =>
    match h[c]? with
    | none => none
    | some o =>
      match Obj.getOwn o k with
      | none => none
      | some none => some (h, .ret none)
      | some (some tpd) =>
        if !tpd.c then some (h, .typeError)
        else if !o.ext then some (h, .typeError)
        else some (h, .ret none)
  | .obj fs h' =>
    match h[c]? with
    | none => none
    | some o =>
      match Obj.getOwn o k with
      | none => none
      | some tpd =>
        match fs with
        | none => some (h', .thrown)
        | some f =>
          match Obj.toDesc callable f with
          | none => some (h', .thrown)
          | some d => some (h', compareOwn o.ext tpd d)

/-- `rjs_object_get_own_property` on the target. -/
def fwdGetOwn (k : Key) (h : Heap) (t : Nat) : Option (Heap × Out (Option Desc)) :=
  match h[t]? with
  | none => none
  | some o =>
    match Obj.getOwn o k with
    | none => none
    | some x => some (h, .ret x)

/-- `proxy_object_op_get_own_property` (lines 257-367). -/
def getOwn (callable : Val → Bool) (target : Option Nat) (h : Heap) (k : Key) (f : Found DVal) :
    Option (Heap × Out (Option Desc)) :=
  viaTrap target h f (fwdGetOwn k) (chkGetOwn callable k)

/-- Lines 425-456. -/
def compareDefine (e : Bool) (tpd : Option Desc) (d : Desc) : Out Bool :=
  let setCfgFalse := d.hasC && !d.c
  match tpd with
  | none => if !e || setCfgFalse then .typeError else .ret true
  | some tpd =>
    if !Obj.isCompatible e d (some tpd) then .typeError
    else if setCfgFalse && tpd.c then .typeError
    else if Obj.isData tpd && !tpd.c && tpd.w then
      if d.hasW && !d.w then .typeError else .ret true
    else .ret true

/-- Lines 410-456. -/
def chkDefine (k : Key) (d : Desc) (h : Heap) (c : Nat) (b : Bool) : Option (Heap × Out Bool) :=
  if !b then some (h, .ret false)
  else
    match h[c]? with
    | none => none
    | some o =>
      match Obj.getOwn o k with
      | none => none
      | some tpd => some (h, compareDefine o.ext tpd d)

/-- `proxy_object_op_define_own_property` (lines 370-463).  The object made from the descriptor for
the trap is not one of the objects here. -/
def define (oth : Nat → Option Nat) (target : Option Nat) (h : Heap) (k : Key) (d : Desc) (f : Found Bool) :
    Option (Heap × Out Bool) :=
  viaTrap target h f (fun h t => ofRet (Obj.onObj h t fun o => Obj.define oth o k d)) (chkDefine k d)

/-- Lines 501-520. -/
def chkHas (k : Key) (h : Heap) (c : Nat) (b : Bool) : Option (Heap × Out Bool) :=
  if !b then
    match h[c]? with
    | none => none
    | some o =>
      match Obj.getOwn o k with
      | none => none
      | some none => some (h, .ret b)
      | some (some tpd) => if !tpd.c || !o.ext then some (h, .typeError) else some (h, .ret b)
  else some (h, .ret b)

/-- `rjs_object_has_property` on the target. -/
def fwdHas (k : Key) (h : Heap) (t : Nat) : Option (Heap × Out Bool) :=
  match Obj.findProp h k (h.length + 1) t with
  | none => none
  | some x => some (h, .ret x.isSome)

/-- `proxy_object_op_has_property` (lines 466-524). -/
def has (target : Option Nat) (h : Heap) (k : Key) (f : Found Bool) : Option (Heap × Out Bool) :=
  viaTrap target h f (fwdHas k) (chkHas k)

/-- Lines 571-587. -/
def compareGet (tpd : Option Desc) (v : Val) : Out Val :=
  match tpd with
  | none => .ret v
  | some tpd =>
    if !tpd.c then
      if Obj.isData tpd && !tpd.w && (v != tpd.value) then .typeError
      else if Obj.isAcc tpd && (tpd.get == .undef) && (v != .undef) then .typeError
      else .ret v
    else .ret v

/-- Lines 563-587. -/
def chkGet (k : Key) (h : Heap) (c : Nat) (v : Val) : Option (Heap × Out Val) :=
  match h[c]? with
  | none => none
  | some o =>
    match Obj.getOwn o k with
    | none => none
    | some tpd => some (h, compareGet tpd v)

/-- `rjs_object_get` on the target (rjs_object.c:984-1037). -/
def fwdGet (k : Key) (h : Heap) (t : Nat) : Option (Heap × Out Val) :=
  match Obj.findProp h k (h.length + 1) t with
  | none => none
  | some none => some (h, .ret .undef)
  | some (some d) =>
    if Obj.isData d then some (h, .ret d.value)
    else if d.get = .undef then some (h, .ret .undef)
    else some (h, .call d.get)

/-- `proxy_object_op_get` (lines 527-594). -/
def get (target : Option Nat) (h : Heap) (k : Key) (f : Found Val) : Option (Heap × Out Val) :=
  viaTrap target h f (fwdGet k) (chkGet k)

/-- Lines 651-667. -/
def compareSet (tpd : Option Desc) (v : Val) : Out Bool :=
  match tpd with
  | none => .ret true
  | some tpd =>
    if !tpd.c then
      if Obj.isData tpd && !tpd.w && (v != tpd.value) then .typeError
      else if Obj.isAcc tpd && (tpd.set == .undef) then .typeError
      else .ret true
    else .ret true

/-- Lines 637-667. -/
def chkSet (k : Key) (v : Val) (h : Heap) (c : Nat) (b : Bool) : Option (Heap × Out Bool) :=
  if !b then some (h, .ret b)
  else
    match h[c]? with
    | none => none
    | some o =>
      match Obj.getOwn o k with
      | none => none
      | some tpd => some (h, compareSet tpd v)

/-- `proxy_object_op_set` (lines 597-674). -/
def set (oth : Nat → Option Nat) (target : Option Nat) (h : Heap) (k : Key) (v : Val) (recv : Option Nat)
    (f : Found Bool) : Option (Heap × Out Bool) :=
  viaTrap target h f (fun h t => ofRet (Obj.set oth h t k v recv)) (chkSet k v)

/-- Lines 713-735. -/
def chkDelete (k : Key) (h : Heap) (c : Nat) (b : Bool) : Option (Heap × Out Bool) :=
  if !b then some (h, .ret b)
  else
    match h[c]? with
    | none => none
    | some o =>
      match Obj.getOwn o k with
      | none => none
      | some none => some (h, .ret true)
      | some (some tpd) => if !tpd.c || !o.ext then some (h, .typeError) else some (h, .ret true)

/-- `rjs_object_delete` on the target. -/
def fwdDelete (k : Key) (h : Heap) (t : Nat) : Option (Heap × Out Bool) :=
  ofRet (Obj.onObj h t fun o =>
    match Obj.delete o k with
    | none => none
    | some (o, b) => some (o, .bool b))

/-- `proxy_object_op_delete` (lines 677-742). -/
def delete (target : Option Nat) (h : Heap) (k : Key) (f : Found Bool) : Option (Heap × Out Bool) :=
  viaTrap target h f (fwdDelete k) (chkDelete k)

/-! ### Keys -/

/-- An element of the list of keys: a string or symbol, or another value.  A string is the key with
its text. -/
inductive Elem where
  | key (k : Key)
  | other

/-- What the trap `ownKeys` returns, with what is read from it: `none` for an exception of reading
its length, or of reading an element.  Reading it is regarded as part of the call of the trap
(nothing is read from the target before it ends). -/
inductive KVal where
  | prim
  | obj (elems : Option (List (Option Elem)))

/-- The loop of `pkl_from_object` (lines 785-816).  `hash`: the keys in the hash table; the result is
the list of keys (and the keys in the hash table are the same). -/
def readKeys : List (Option Elem) → List Key → Out (List Key)
  | [], ks => .ret ks
  | none :: _, _ => .thrown
  | some .other :: _, _ => .typeError
  | some (.key k) :: l, ks => if k ∈ ks then .typeError else readKeys l (ks ++ [k])

/-- The loop of lines 883-897: the keys which are not configurable, and the others. -/
def splitKeys (o : Obj.Obj) : List Key → Option (List Key × List Key)
  | [] => some ([], [])
  | k :: l =>
    match Obj.getOwn o k, splitKeys o l with
    | some d, some (ncfg, cfg) =>
      match d with
      | some d => if !d.c then some (k :: ncfg, cfg) else some (ncfg, k :: cfg)
      | none => some (ncfg, k :: cfg)
    | _, _ => none

/-- The loops of lines 904-916 and 923-935: each key is looked up in the hash table and removed;
`none`: one is missing. -/
def removeKeys : List Key → List Key → Option (List Key)
  | [], hash => some hash
  | k :: l, hash => if k ∈ hash then removeKeys l (hash.erase k) else none

/-- Lines 899-942. -/
def compareKeys (ext : Bool) (ncfg cfg ks : List Key) : Out (List Key) :=
  if ext && ncfg.isEmpty then .ret ks
  else
    match removeKeys ncfg ks with
    | none => .typeError
    | some hash =>
      if ext then .ret ks
      else
        match removeKeys cfg hash with
        | none => .typeError
        | some hash => if !hash.isEmpty then .typeError else .ret ks

/-- Lines 867-942. -/
def chkKeys (h : Heap) (c : Nat) (v : KVal) : Option (Heap × Out (List Key)) :=
  match v with
  | .prim => some (h, .typeError)
  | .obj none => some (h, .thrown)
  | .obj (some l) =>
    match readKeys l [] with
    | .ret ks =>
      match h[c]? with
      | none => none
      | some o =>
        match Obj.ownKeys o with
        | none => none
        | some tks =>
          match splitKeys o tks with
          | none => none
          | some (ncfg, cfg) => some (h, compareKeys o.ext ncfg cfg ks)
    | r => some (h, r)

/-- `rjs_object_own_property_keys` on the target. -/
def fwdKeys (h : Heap) (t : Nat) : Option (Heap × Out (List Key)) :=
  match h[t]? with
  | none => none
  | some o =>
    match Obj.ownKeys o with
    | none => none
    | some ks => some (h, .ret ks)

/-- `proxy_object_op_own_property_keys` (lines 824-957). -/
def ownKeys (target : Option Nat) (h : Heap) (f : Found KVal) : Option (Heap × Out (List Key)) :=
  viaTrap target h f fwdKeys chkKeys

/-! ### A native function as trap -/

/-- The prototypes of the objects, for `Verif.InstanceOf`. -/
def protos (h : Heap) : InstanceOf.Heap := fun i =>
  match h[i]? with
  | none => none
  | some o => o.proto

/-- The call of `Function.prototype[Symbol.hasInstance]` as a trap: `this` is the handler, a function
whose property `prototype` is the object `p`, and the operand is the cell `target`
(rjs_function_object_inc.c:268-279, rjs_operation.c:1230-1281).  `conv`: the result as the
operation takes it. -/
def hasInstanceTrap {α : Type} (conv : Bool → α) (h : Heap) (p t : Nat) : Option (Call α) :=
  match InstanceOf.hasInstance (protos h) (h.length + 1) (.func (some p)) (.obj t) with
  | some (some b, .obj c) => some ⟨h, c, some (conv b)⟩
  | _ => none

end Verif.Proxy

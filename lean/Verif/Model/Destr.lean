/-!
# Destructuring patterns

The byte code of array and object patterns (rjs_bc_gen.c:847-1045 for assignments, 2730-2977 for
declarations and parameters), the states it works on (rjs_native_stack.c) and the unwinding of the
states after an exception (rjs_bc_call.c:1326-1363).

What the program does at every observable step (properties, calls, initialisers, targets) is given
by a `World`; its steps may do anything to the state `σ` and may throw.
-/

namespace Verif.Destr

/-- Values; `str`: strings and symbols (keys of properties). -/
inductive V where
  | undef
  | null
  | bool (b : Bool)
  | num (n : Nat)
  | str (n : Nat)
  | obj (n : Nat)
  deriving DecidableEq, Repr, Inhabited

/-- `Symbol.iterator` and the names `next`, `done`, `value`, `return`. -/
def kIter : V := .str 0
def kNext : V := .str 1
def kDone : V := .str 2
def kValue : V := .str 3
def kReturn : V := .str 4

/-- What a step that succeeds leaves in `rt->error_flag` and `rt->error`: as they were; cleared,
because something was caught (rjs_error.c:351-363); set, because something was thrown and then
overridden by a `finally` block. -/
inductive Touch where
  | same
  | clear
  | set (e : V)
  deriving DecidableEq

/-- The end of a step of the program: a value or an exception. -/
inductive Out (σ A : Type) where
  | ok (s : σ) (t : Touch) (a : A)
  | thr (s : σ) (e : V)

/-- How a value is given to a target: `binding_init` or `binding_set`, `prop_set`, … -/
inductive Put where
  | assign
  | initial
  deriving DecidableEq

/-- The program around the pattern. -/
structure World (σ : Type) where
  /-- `rjs_get_v`, `rjs_get` -/
  get : V → V → σ → Out σ V
  /-- a callable object called with a `this` value and no arguments -/
  call : Nat → V → σ → Out σ V
  callable : Nat → Bool
  /-- truth of numbers and strings -/
  truthy : V → Bool
  /-- a new TypeError (simplification: its creation is not observable) -/
  typeErr : V
  /-- initialisers and computed names -/
  eval : Nat → σ → Out σ V
  /-- `rjs_to_property_key` of a value that is not a string or symbol -/
  key : V → σ → Out σ V
  /-- the evaluation of a target that is not a pattern (rjs_bc_gen.c:441-611, 2892-2913) to a
  reference -/
  ref : Nat → σ → Out σ Nat
  /-- the reference is given its value -/
  put : Put → Nat → V → σ → Out σ Unit
  newArr : σ → σ × V
  addArr : V → Nat → V → σ → σ
  newObj : σ → σ × V
  addProp : V → V → V → σ → σ
  /-- `rjs_to_object` of a value that is not undefined or null -/
  toObj : V → σ → σ × V
  ownKeys : V → σ → Out σ (List V)
  /-- own property: is it there, is it enumerable -/
  own : V → V → σ → Out σ (Option Bool)

variable {σ : Type}

/-- `rjs_to_boolean`. -/
def World.toBool (W : World σ) : V → Bool
  | .undef => false
  | .null => false
  | .bool b => b
  | .obj _ => true
  | v => W.truthy v

/-! ## Patterns -/

/-- Names of properties: a string, or an expression (numbers and computed names). -/
inductive Name where
  | str (n : Nat)
  | expr (e : Nat)

mutual
/-- Targets: a simple one (name, member) or a pattern. -/
inductive Tgt where
  | leaf (t : Nat)
  | arr (l : Elems)
  | obj (l : Props)
/-- The elements of an array pattern; `init`: the initialiser. -/
inductive Elems where
  | nil
  | hole (l : Elems)
  | elem (t : Tgt) (init : Option Nat) (l : Elems)
  | rest (t : Tgt)
/-- The properties of an object pattern. -/
inductive Props where
  | nil
  | prop (name : Name) (t : Tgt) (init : Option Nat) (l : Props)
  | rest (t : Tgt)
end

/-- Assignment expressions, or declarations and parameters (`lex`: `is_lex`, the binding is
initialised). -/
inductive Mode where
  | assi
  | bind (lex : Bool)
  deriving DecidableEq

/-- The command that stores (rjs_bc_gen.c:2926-2937, 1036-1042). -/
def Mode.putK : Mode → Put
  | .assi => .assign
  | .bind lex => if lex then .initial else .assign

/-! ## Byte code -/

/-- The commands; the numbers are registers, references have registers of their own.  `eval` stands
for the commands of an expression, `ref` for those of `bc_gen_ref`. -/
inductive Cmd where
  | pushArr (r : Nat)
  | nextItem
  | getItem (r : Nat)
  | restItems (r : Nat)
  | pushObj (r : Nat)
  | getProp (k : Nat) (r : Nat)
  | getPropE (k : Nat) (r : Nat)
  | restProps (r : Nat)
  | pop
  | load (k : Nat) (r : Nat)
  | eval (e : Nat) (r : Nat)
  | toProp (a r : Nat)
  | ref (t : Nat) (i : Nat)
  | put (p : Put) (i : Nat) (r : Nat)
  | isUndef (a r : Nat)
  | jumpFalse (r : Nat) (n : Nat)
  | stub
  deriving DecidableEq

/-- `bc_gen_default_init` (rjs_bc_gen.c:2732-2762); the label is the stub. -/
def initCode (o : Option Nat) (r c : Nat) : List Cmd :=
  match o with
  | none => []
  | some e => [.isUndef r c, .jumpFalse c 1, .eval e r, .stub]

/-- `bc_gen_assi_ref` (rjs_bc_gen.c:1019-1026), `bc_gen_binding_assi_ref` (2892-2913). -/
def refCode : Tgt → Nat → List Cmd
  | .leaf t, i => [.ref t i]
  | _, _ => []

/-- The name of a property, up to the command that reads it: in assignments the key is made before
the target is evaluated (rjs_bc_gen.c:940-982), in declarations after it (2843-2857). -/
def nameCode (m : Mode) (name : Name) (t : Tgt) (n : Nat) : List Cmd :=
  match m, name with
  | .assi, .str k => refCode t (n + 3) ++ [.getProp k n]
  | .assi, .expr e => [.eval e (n + 1), .toProp (n + 1) (n + 2)] ++ refCode t (n + 3) ++
      [.getPropE (n + 2) n]
  | .bind _, .str k => [.load k (n + 1)] ++ refCode t (n + 3) ++
      [.toProp (n + 1) (n + 2), .getPropE (n + 2) n]
  | .bind _, .expr e => [.eval e (n + 1)] ++ refCode t (n + 3) ++
      [.toProp (n + 1) (n + 2), .getPropE (n + 2) n]

mutual
/-- `bc_gen_assi` (rjs_bc_gen.c:1030-1045), `bc_gen_binding_assi` (2917-2977): the value is in
register `r`, the reference in `i`, the registers from `n` are free.  (Simplification: every element
takes the same number of registers.) -/
def emitT (m : Mode) : Tgt → Nat → Nat → Nat → List Cmd × Nat
  | .leaf _, r, i, n => ([.put m.putK i r], n)
  | .arr l, r, _, n =>
    let x := emitE m l n
    (.pushArr r :: (x.1 ++ [.pop]), x.2)
  | .obj l, r, _, n =>
    let x := emitP m l n
    (.pushObj r :: (x.1 ++ [.pop]), x.2)
/-- The elements of `bc_gen_array_assi` (rjs_bc_gen.c:862-907), `bc_gen_binding_elem_init`
(2766-2821). -/
def emitE (m : Mode) : Elems → Nat → List Cmd × Nat
  | .nil, n => ([], n)
  | .hole l, n =>
    let x := emitE m l n
    (.nextItem :: x.1, x.2)
  | .elem t init l, n =>
    let a := emitT m t n (n + 3) (n + 5)
    let b := emitE m l a.2
    (refCode t (n + 3) ++ (.getItem n :: (initCode init n (n + 4) ++ (a.1 ++ b.1))), b.2)
  | .rest t, n =>
    let a := emitT m t n (n + 3) (n + 5)
    (refCode t (n + 3) ++ (.restItems n :: a.1), a.2)
/-- The properties of `bc_gen_object_assi` (rjs_bc_gen.c:929-1010), `bc_gen_binding_prop_init`
(2825-2888). -/
def emitP (m : Mode) : Props → Nat → List Cmd × Nat
  | .nil, n => ([], n)
  | .prop name t init l, n =>
    let a := emitT m t n (n + 3) (n + 5)
    let b := emitP m l a.2
    (nameCode m name t n ++ (initCode init n (n + 4) ++ (a.1 ++ b.1)), b.2)
  | .rest t, n =>
    let a := emitT m t n (n + 3) (n + 5)
    (refCode t (n + 3) ++ (.restProps n :: a.1), a.2)
end

/-! ## The machine -/

/-- The state of the program and `rt->error_flag`, `rt->error`. -/
structure RT (σ : Type) where
  w : σ
  flag : Bool
  err : V

/-- The result of a C function: `RJS_OK` with its result, `RJS_ERR`. -/
inductive R (σ A : Type) where
  | ok (rt : RT σ) (a : A)
  | err (rt : RT σ)

/-- The error after a step that succeeds. -/
def touch (t : Touch) (rt : RT σ) : RT σ :=
  match t with
  | .same => rt
  | .clear => { rt with flag := false, err := .undef }
  | .set e => { rt with flag := true, err := e }

/-- A step of the program seen from C (`rjs_throw`, rjs_error.c:258-280). -/
def lift {A : Type} (rt : RT σ) : Out σ A → R σ A
  | .ok s t a => .ok (touch t { rt with w := s }) a
  | .thr s e => .err ⟨s, true, e⟩

/-- `rjs_throw_type_error`. -/
def typeError {A : Type} (W : World σ) (rt : RT σ) : R σ A := .err { rt with flag := true, err := W.typeErr }

/-- `rjs_is_callable`. -/
def World.isCallable (W : World σ) : V → Bool
  | .obj n => W.callable n
  | _ => false

/-- `rjs_get_method` (rjs_operation.h:1249-1269). -/
def getMethod (W : World σ) (v k : V) (rt : RT σ) : R σ V :=
  match lift rt (W.get v k rt.w) with
  | .err rt => .err rt
  | .ok rt f =>
    if f = .undef then .ok rt .undef
    else if f = .null then .ok rt .undef
    else if W.isCallable f then .ok rt f
    else typeError W rt

/-- `rjs_call` (rjs_operation.h:1414-1420). -/
def callE (W : World σ) (f v : V) (rt : RT σ) : R σ V :=
  match f with
  | .obj n => if W.callable n then lift rt (W.call n v rt.w) else typeError W rt
  | _ => typeError W rt

/-- `rjs_value_is_object`. -/
def isObj : V → Bool
  | .obj _ => true
  | _ => false

/-- `rjs_get_iterator` for iterators that are not asynchronous (rjs_iterator.c:104-162): the iterator
and its `next` method. -/
def getIterator (W : World σ) (v : V) (rt : RT σ) : R σ (V × V) :=
  match getMethod W v kIter rt with
  | .err rt => .err rt
  | .ok rt f =>
    match callE W f v rt with
    | .err rt => .err rt
    | .ok rt it =>
      if isObj it then
        match lift rt (W.get it kNext rt.w) with
        | .err rt => .err rt
        | .ok rt nx => .ok rt (it, nx)
      else typeError W rt

/-- `rjs_iterator_step` (rjs_iterator.c:174-256): the result object, `none` at the end. -/
def iterStep (W : World σ) (it nx : V) (rt : RT σ) : R σ (Option V) :=
  match callE W nx it rt with
  | .err rt => .err rt
  | .ok rt res =>
    if isObj res then
      match lift rt (W.get res kDone rt.w) with
      | .err rt => .err rt
      | .ok rt d => if W.toBool d then .ok rt none else .ok rt (some res)
    else typeError W rt

/-- `rjs_iterator_close` (rjs_iterator.c:266-302) without the last lines. -/
def closeCore (W : World σ) (it : V) (rt : RT σ) : R σ Unit :=
  match getMethod W it kReturn rt with
  | .err rt => .err rt
  | .ok rt f =>
    if f = .undef then .ok rt ()
    else
      match callE W f it rt with
      | .err rt => .err rt
      | .ok rt res => if isObj res then .ok rt () else typeError W rt

/-- `rjs_iterator_close` (rjs_iterator.c:266-302): the value of an error that was there before is put
back, the flag is not. -/
def iterClose (W : World σ) (it : V) (rt : RT σ) : R σ Unit :=
  match closeCore W it rt with
  | .err rt' => .err (if rt.flag then { rt' with err := rt.err } else rt')
  | .ok rt' a => .ok (if rt.flag then { rt' with err := rt.err } else rt') a

/-- States on the stack: `RJS_STATE_ARRAY_ASSI` (iterator, `next`, `done`) and
`RJS_STATE_OBJECT_ASSI` (value, names that were read). -/
inductive St where
  | arr (it nx : V) (done : Bool)
  | obj (v : V) (names : List V)

/-- `rjs_state_deinit` (rjs_native_stack.c:94-175) for the two kinds of states. -/
def deinit (W : World σ) (s : St) (rt : RT σ) : R σ Unit :=
  match s with
  | .arr it _ done => if done then .ok rt () else iterClose W it rt
  | .obj _ _ => .ok rt ()

/-- The machine: registers, references, the stack of states. -/
structure M (σ : Type) where
  rt : RT σ
  regs : Nat → V
  refs : Nat → Nat
  stack : List St

/-- A register gets a value. -/
def M.setReg (m : M σ) (r : Nat) (v : V) : M σ :=
  { m with regs := fun q => if q = r then v else m.regs q }

/-- `rjs_iter_state_step` (rjs_native_stack.c:297-330): the value (if it is asked for) and the new
`done`. -/
def itemStep (W : World σ) (want : Bool) (it nx : V) (done : Bool) (rt : RT σ) : R σ V × Bool :=
  if done then (.ok rt .undef, true)
  else
    match iterStep W it nx rt with
    | .err rt => (.err rt, true)
    | .ok rt none => (.ok rt .undef, true)
    | .ok rt (some res) =>
      if want then
        match lift rt (W.get res kValue rt.w) with
        | .err rt => (.err rt, true)
        | .ok rt v => (.ok rt v, false)
      else (.ok rt .undef, false)

/-- The loop of `rjs_iter_state_rest` (rjs_native_stack.c:453-473): an error of `value` does not set
`done`.  `none`: more items than `fuel`. -/
def restLoop (W : World σ) (it nx arr : V) : Nat → Nat → RT σ → Option (R σ Unit × Bool)
  | 0, _, _ => none
  | fuel + 1, i, rt =>
    match iterStep W it nx rt with
    | .err rt => some (.err rt, true)
    | .ok rt none => some (.ok rt (), true)
    | .ok rt (some res) =>
      match lift rt (W.get res kValue rt.w) with
      | .err rt => some (.err rt, false)
      | .ok rt v => restLoop W it nx arr fuel (i + 1) { rt with w := W.addArr arr i v rt.w }

/-- `rjs_iter_state_rest` (rjs_native_stack.c:438-479). -/
def itemRest (W : World σ) (fuel : Nat) (it nx : V) (done : Bool) (rt : RT σ) :
    Option (R σ V × Bool) :=
  let a := W.newArr rt.w
  let rt := { rt with w := a.1 }
  if done then some (.ok rt a.2, true)
  else
    match restLoop W it nx a.2 fuel 0 rt with
    | none => none
    | some (.err rt, d) => some (.err rt, d)
    | some (.ok rt _, d) => some (.ok rt a.2, d)

/-- The loop of `copy_data_properties` (rjs_native_stack.c:1456-1485). -/
def copyLoop (W : World σ) (o target : V) (names : List V) : List V → RT σ → R σ Unit
  | [], rt => .ok rt ()
  | k :: ks, rt =>
    if names.contains k then copyLoop W o target names ks rt
    else
      match lift rt (W.own o k rt.w) with
      | .err rt => .err rt
      | .ok rt (some true) =>
        match lift rt (W.get o k rt.w) with
        | .err rt => .err rt
        | .ok rt v => copyLoop W o target names ks { rt with w := W.addProp target k v rt.w }
      | .ok rt _ => copyLoop W o target names ks rt

/-- `rjs_object_assi_state_rest` (rjs_native_stack.c:1607-1618) with `copy_data_properties`
(1430-1492). -/
def propsRest (W : World σ) (v : V) (names : List V) (rt : RT σ) : R σ V :=
  let t := W.newObj rt.w
  let o := W.toObj v t.1
  let rt := { rt with w := o.1 }
  match lift rt (W.ownKeys o.2 rt.w) with
  | .err rt => .err rt
  | .ok rt ks =>
    match copyLoop W o.2 t.2 names ks rt with
    | .err rt => .err rt
    | .ok rt _ => .ok rt t.2

/-- `rjs_object_assi_state_step` (rjs_native_stack.c:1567-1597). -/
def propStep (W : World σ) (v k : V) (names : List V) (rt : RT σ) : R σ V × List V :=
  match lift rt (W.get v k rt.w) with
  | .err rt => (.err rt, names)
  | .ok rt x => (.ok rt x, if names.contains k then names else k :: names)

/-- `rjs_to_property_key`. -/
def toKey (W : World σ) (v : V) (rt : RT σ) : R σ V :=
  match v with
  | .str n => .ok rt (.str n)
  | v => lift rt (W.key v rt.w)

/-- The end of one command: on with the next (after `skip` commands), `goto error`, a failed
assertion, a rest element with more items than the fuel. -/
inductive Step (σ : Type) where
  | next (m : M σ) (skip : Nat)
  | err (m : M σ)
  | bad
  | fuel

/-- A C function that gives a value for a register. -/
def intoReg (m : M σ) (r : Nat) : R σ V → Step σ
  | .ok rt v => .next { m.setReg r v with rt := rt } 0
  | .err rt => .err { m with rt := rt }

/-- One command (rjs_bc_call.c:245-271, 893-901, 1023-1057, 1091-1140, 1207-1211). -/
def step (W : World σ) (fuel : Nat) (c : Cmd) (m : M σ) : Step σ :=
  match c with
  | .pushArr r =>
    match getIterator W (m.regs r) m.rt with
    | .err rt => .err { m with rt := rt }
    | .ok rt x => .next { m with rt := rt, stack := .arr x.1 x.2 false :: m.stack } 0
  | .nextItem =>
    match m.stack with
    | .arr it nx done :: st =>
      let x := itemStep W false it nx done m.rt
      match x.1 with
      | .ok rt _ => .next { m with rt := rt, stack := .arr it nx x.2 :: st } 0
      | .err rt => .err { m with rt := rt, stack := .arr it nx x.2 :: st }
    | _ => .bad
  | .getItem r =>
    match m.stack with
    | .arr it nx done :: st =>
      let x := itemStep W true it nx done m.rt
      intoReg { m with stack := .arr it nx x.2 :: st } r x.1
    | _ => .bad
  | .restItems r =>
    match m.stack with
    | .arr it nx done :: st =>
      match itemRest W fuel it nx done m.rt with
      | none => .fuel
      | some x => intoReg { m with stack := .arr it nx x.2 :: st } r x.1
    | _ => .bad
  | .pushObj r =>
    match m.regs r with
    | .undef => .err { m with rt := { m.rt with flag := true, err := W.typeErr } }
    | .null => .err { m with rt := { m.rt with flag := true, err := W.typeErr } }
    | v => .next { m with stack := .obj v [] :: m.stack } 0
  | .getProp k r =>
    match m.stack with
    | .obj v names :: st =>
      let x := propStep W v (.str k) names m.rt
      intoReg { m with stack := .obj v x.2 :: st } r x.1
    | _ => .bad
  | .getPropE kr r =>
    match m.stack with
    | .obj v names :: st =>
      let x := propStep W v (m.regs kr) names m.rt
      intoReg { m with stack := .obj v x.2 :: st } r x.1
    | _ => .bad
  | .restProps r =>
    match m.stack with
    | .obj v names :: _ => intoReg m r (propsRest W v names m.rt)
    | _ => .bad
  | .pop =>
    match m.stack with
    | s :: st =>
      match deinit W s m.rt with
      | .ok rt _ => .next { m with rt := rt, stack := st } 0
      | .err rt => .err { m with rt := rt, stack := st }
    | [] => .bad
  | .load k r => .next (m.setReg r (.str k)) 0
  | .eval e r => intoReg m r (lift m.rt (W.eval e m.rt.w))
  | .toProp a r => intoReg m r (toKey W (m.regs a) m.rt)
  | .ref t i =>
    match lift m.rt (W.ref t m.rt.w) with
    | .ok rt x => .next { m with rt := rt, refs := fun q => if q = i then x else m.refs q } 0
    | .err rt => .err { m with rt := rt }
  | .put p i r =>
    match lift m.rt (W.put p (m.refs i) (m.regs r) m.rt.w) with
    | .ok rt _ => .next { m with rt := rt } 0
    | .err rt => .err { m with rt := rt }
  | .isUndef a r => .next (m.setReg r (.bool (m.regs a = .undef))) 0
  | .jumpFalse r n => .next m (if W.toBool (m.regs r) then 0 else n)
  | .stub => .next m 0

/-- The end of a piece of byte code. -/
inductive Res (σ : Type) where
  | fin (m : M σ)
  | err (m : M σ)
  | bad
  | fuel

/-- The loop of `rjs_bc_call` (rjs_bc_call.c:1306-1320); `skip`: commands a jump leaves out. -/
def exec (W : World σ) (fuel : Nat) : List Cmd → Nat → M σ → Res σ
  | [], _, m => .fin m
  | _ :: cs, k + 1, m => exec W fuel cs k m
  | c :: cs, 0, m =>
    match step W fuel c m with
    | .next m k => exec W fuel cs k m
    | .err m => .err m
    | .bad => .bad
    | .fuel => .fuel

/-- The loop at `error:` (rjs_bc_call.c:1327-1363) over the states of the pattern; the result stays
`RJS_ERR` whatever the states do. -/
def unwind (W : World σ) : List St → RT σ → RT σ
  | [], rt => rt
  | s :: st, rt =>
    match deinit W s rt with
    | .ok rt _ => unwind W st rt
    | .err rt => unwind W st rt

/-- The end of the pattern. -/
inductive Ende (σ : Type) where
  /-- the state, and the value of register 0 -/
  | norm (s : σ) (v : V)
  /-- the state and what a `catch` clause gets -/
  | thr (s : σ) (e : V)
  | bad
  | fuel

/-- What `rjs_catch` gives (`bc_catch_error`, rjs_bc_call.c:1160-1166). -/
def caught (rt : RT σ) : V := if rt.flag then rt.err else .undef

/-- A pattern whose value is in register 0 (`bc_gen_assi_expr`, rjs_bc_gen.c:1058-1067; there the
register is the result of the expression, too). -/
def run (W : World σ) (fuel : Nat) (m : Mode) (t : Tgt) (v : V) (rt : RT σ) : Ende σ :=
  match exec W fuel (emitT m t 0 0 1).1 0 ⟨rt, fun q => if q = 0 then v else .undef, fun _ => 0, []⟩ with
  | .fin x => .norm x.rt.w (x.regs 0)
  | .err x =>
    let rt := unwind W x.stack x.rt
    .thr rt.w (caught rt)
  | .bad => .bad
  | .fuel => .fuel

end Verif.Destr

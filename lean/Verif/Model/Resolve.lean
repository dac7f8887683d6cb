import Verif.Model.Sort
import Verif.Model.Str
/-
Model of the names of modules: the entries made by the parser (`/repo/src/lib/rjs_parser.c`,
`/repo/src/lib/rjs_code_gen_inc.c`), the search for an exported name and the environment made
when a module is linked (`/repo/src/lib/rjs_module_opt.c`), the bindings of imported names
(`/repo/src/lib/rjs_module_env_opt.c`) and module namespace objects
(`/repo/src/lib/rjs_module_ns_object_opt.c`).

A program has `n` modules which are loaded; an entry holds the module itself where the code has an
index into the table of requests.  Names are compared by content (see `Intern`).  Hash tables are
lists.  Memory never runs out; the C stack does when a recursion has no end (`limit`).
-/
namespace Verif.Resolve

/-- A name: code units. -/
abbrev Name := List Nat

/-- `rjs_s_default`. -/
def dflt : Name := [100, 101, 102, 97, 117, 108, 116]

/-- An import of a module (`RJS_AstImport`, rjs_parser.c:8550-8667, 8743-8750); no name for
`import * as loc`. -/
structure Imp (n : Nat) where
  mod : Fin n
  name : Option Name
  loc : Name
deriving DecidableEq

/-- An export (`RJS_AstExport`, rjs_parser.c:8808-9243): a local name, a name of another module, the
namespace of another module, or all names of another module. -/
inductive Exp (n : Nat) where
  | loc (ex l : Name)
  | ind (ex : Name) (k : Fin n) (im : Name)
  | ns (ex : Name) (k : Fin n)
  | star (k : Fin n)
deriving DecidableEq

/-- What a module says about its names; `decls` are the names of its own declarations. -/
structure Src (n : Nat) where
  imports : List (Imp n)
  exports : List (Exp n)
  decls : List Name

abbrev Prog (n : Nat) := Fin n → Src n

variable {n : Nat}

/-- `RJS_ResolveBinding`: a variable of a module, or the namespace of a module (the name is
undefined). -/
inductive Bind (n : Nat) where
  | var (k : Fin n) (l : Name)
  | ns (k : Fin n)
deriving DecidableEq

/-- Where an export entry leads to (rjs_module_opt.c:1892-1909). -/
inductive Target (n : Nat) where
  | fin (b : Bind n)
  | go (k : Fin n) (im : Name)
deriving DecidableEq

/-! ### The entries of a module -/

/-- `!ee->module` (rjs_parser.c:9254). -/
def Exp.isLocal : Exp n → Bool
  | .loc _ _ => true
  | _ => false

/-- The last case of rjs_parser.c:9260. -/
def Exp.isIndir : Exp n → Bool
  | .ind _ _ _ => true
  | .ns _ _ => true
  | _ => false

/-- `!ee->export_name` (rjs_parser.c:9257). -/
def Exp.isStar : Exp n → Bool
  | .star _ => true
  | _ => false

/-- The table of entries: local, indirect, star (rjs_code_gen_inc.c:647-665). -/
def Src.entries (s : Src n) : List (Exp n) :=
  s.exports.filter Exp.isLocal ++ (s.exports.filter Exp.isIndir ++ s.exports.filter Exp.isStar)

/-- The name and the meaning of an entry of module `m` (rjs_module_opt.c:1892-1909). -/
def Exp.entry (m : Fin n) : Exp n → Option (Name × Target n)
  | .loc ex l => some (ex, .fin (.var m l))
  | .ind ex k im => some (ex, .go k im)
  | .ns ex k => some (ex, .fin (.ns k))
  | .star _ => none

/-- The module of a star entry. -/
def Exp.starOf : Exp n → Option (Fin n)
  | .star k => some k
  | _ => none

/-- The lookup in `export_hash` (rjs_module_opt.c:1889, rjs_code_gen_inc.c:674-686).  The parser
refuses a module with two entries of the same name (rjs_parser.c:9239-9251). -/
def lookup (P : Prog n) (m : Fin n) (x : Name) : Option (Target n) :=
  (((P m).entries.filterMap (Exp.entry m)).find? (fun p => p.1 == x)).map (·.2)

/-- The modules of the star entries (rjs_module_opt.c:1922-1928). -/
def stars (P : Prog n) (m : Fin n) : List (Fin n) := (P m).entries.filterMap Exp.starOf

/-! ### `resolve_export` -/

/-- The result of `resolve_export`: `RJS_FALSE`; `RJS_TRUE`, `RJS_AMBIGUOUS` with what is in `rb`;
`limit`: the model's fuel is used up. -/
inductive Out (n : Nat) where
  | none
  | one (b : Bind n)
  | amb (b : Bind n)
  | limit
deriving DecidableEq

/-- `ResolveBindingList`: the searches begun. -/
abbrev Seen (n : Nat) := List (Fin n × Name)

/-- The loop over the star entries (rjs_module_opt.c:1925-1948); `acc` is `rb` if `resolved`.
`RJS_AMBIGUOUS` is not zero (rjs_types.h:68), `if (r)` takes it for a success. -/
def starLoop (rec : Seen n → Fin n → Out n × Seen n) :
    List (Fin n) → Option (Bind n) → Seen n → Out n × Seen n
  | [], none, s => (.none, s)
  | [], some b, s => (.one b, s)
  | k :: ks, acc, s =>
    match rec s k with
    | (.limit, s') => (.limit, s')
    | (.none, s') => starLoop rec ks acc s'
    | (.one b, s') =>
      match acc with
      | none => starLoop rec ks (some b) s'
      | some a => if b = a then starLoop rec ks (some a) s' else (.amb a, s')
    | (.amb b, s') =>
      match acc with
      | none => starLoop rec ks (some b) s'
      | some a => if b = a then starLoop rec ks (some a) s' else (.amb a, s')

/-- `resolve_export` (rjs_module_opt.c:1856-1952). -/
def resolve (P : Prog n) : Nat → Seen n → Fin n → Name → Out n × Seen n
  | 0, s, _, _ => (.limit, s)
  | f + 1, s, m, x =>
    if (m, x) ∈ s then (.none, s)
    else
      match lookup P m x with
      | some (.fin b) => (.one b, (m, x) :: s)
      | some (.go k im) => resolve P f ((m, x) :: s) k im
      | none =>
        if x = dflt then (.none, (m, x) :: s)
        else starLoop (fun s k => resolve P f s k x) (stars P m) none ((m, x) :: s)

/-- The number of entries of a program. -/
def size (P : Prog n) : Nat :=
  ((List.finRange n).map fun m => (P m).exports.length + (P m).imports.length).sum

/-- Enough for every search (`C88_ends`). -/
def fuel (P : Prog n) : Nat := n * (size P + 1) + 1

/-- `rjs_module_resolve_export` (rjs_module_opt.c:1966-1985). -/
def resolveExport (P : Prog n) (m : Fin n) (x : Name) : Out n := (resolve P (fuel P) [] m x).1

/-! ### Namespace objects -/

/-- The state of `get_export_names`: `star_set` and the list of names. -/
abbrev NSt (n : Nat) := List (Fin n) × List Name

/-- The body of the loop for an entry with a name (rjs_module_ns_object_opt.c:403-434).  (The
search for `default` in the list finds what the hash table finds.) -/
def addName (l : List Name) (x : Name) : List Name := if x ∈ l then l else l ++ [x]

/-- The loop of `get_export_names` (rjs_module_ns_object_opt.c:397-444). -/
def entLoop (rec : NSt n → Fin n → Option (NSt n)) : List (Exp n) → NSt n → Option (NSt n)
  | [], st => some st
  | .star k :: es, st => (rec st k).bind (entLoop rec es)
  | .loc ex _ :: es, st => entLoop rec es (st.1, addName st.2 ex)
  | .ind ex _ _ :: es, st => entLoop rec es (st.1, addName st.2 ex)
  | .ns ex _ :: es, st => entLoop rec es (st.1, addName st.2 ex)

/-- `get_export_names` (rjs_module_ns_object_opt.c:377-449); `none`: out of fuel. -/
def getNames (P : Prog n) : Nat → NSt n → Fin n → Option (NSt n)
  | 0, _, _ => none
  | f + 1, st, m =>
    if m ∈ st.1 then some st
    else entLoop (getNames P f) (P m).entries (m :: st.1, st.2)

/-- `string_compare` (rjs_module_ns_object_opt.c:452-460) for `rjs_sort`. -/
def nameCmp (s : Unit) (a b : Name) : Unit × Sort.CR :=
  (s, match Str.compare a b with
    | .greater => .greater
    | _ => .other)

/-- The names of a namespace object (`rjs_module_ns_object_new`,
rjs_module_ns_object_opt.c:470-528): the exported names which resolve, sorted.  `none`: the model's
fuel is used up. -/
def nsNames (P : Prog n) (m : Fin n) : Option (List Name) :=
  (getNames P (n + 1) ([], []) m).map fun st =>
    (Sort.rjsSort nameCmp () (st.2.filter fun x =>
      match resolveExport P m x with
      | .one _ => true
      | _ => false)).arr

/-! ### Linking and reading -/

/-- A binding of a module environment: an imported variable (`RJS_ImportBinding`), an imported
namespace (which is immutable), one which is not initialized, or one with a value. -/
inductive Cell (n : Nat) (V : Type) where
  | imp (k : Fin n) (l : Name)
  | fixed (v : V)
  | uninit
  | val (v : V)

/-- The environments of the modules: none before linking; bindings by name. -/
abbrev Envs (n : Nat) (V : Type) := Fin n → Option (Name → Option (Cell n V))

variable {V : Type}

/-- The first loop of `module_init_env` (rjs_module_opt.c:328-354): the indirect exports resolve. -/
def checkIndir (P : Prog n) (m : Fin n) : List (Exp n) → Bool
  | [] => true
  | .ind ex _ _ :: es =>
    match resolveExport P m ex with
    | .one _ => checkIndir P m es
    | _ => false
  | .ns ex _ :: es =>
    match resolveExport P m ex with
    | .one _ => checkIndir P m es
    | _ => false
  | _ :: es => checkIndir P m es

/-- An import entry (rjs_module_opt.c:360-415); `nsv k` is the namespace object of `k`.  `none`: a
SyntaxError. -/
def bindImp (P : Prog n) (nsv : Fin n → V) (i : Imp n) : Option (Cell n V) :=
  match i.name with
  | none => some (.fixed (nsv i.mod))
  | some y =>
    match resolveExport P i.mod y with
    | .one (.ns k) => some (.fixed (nsv k))
    | .one (.var k l) => some (.imp k l)
    | _ => none

/-- Add a binding. -/
def setCell (e : Name → Option (Cell n V)) (x : Name) (c : Cell n V) : Name → Option (Cell n V) :=
  fun y => if y = x then some c else e y

/-- The loop over the import entries (rjs_module_opt.c:360-415). -/
def bindImports (P : Prog n) (nsv : Fin n → V) :
    List (Imp n) → (Name → Option (Cell n V)) → Option (Name → Option (Cell n V))
  | [], e => some e
  | i :: is, e =>
    match bindImp P nsv i with
    | none => none
    | some c => bindImports P nsv is (setCell e i.loc c)

/-- `module_declaration_instantiation` (rjs_module_opt.c:257-308), without values: functions and
`var` are given theirs by later steps. -/
def declare : List Name → (Name → Option (Cell n V)) → Name → Option (Cell n V)
  | [], e => e
  | x :: xs, e => declare xs (setCell e x .uninit)

/-- `module_init_env` (rjs_module_opt.c:312-429); `none`: a SyntaxError. -/
def initEnv (P : Prog n) (nsv : Fin n → V) (m : Fin n) : Option (Name → Option (Cell n V)) :=
  if checkIndir P m ((P m).exports.filter Exp.isIndir) then
    (bindImports P nsv (P m).imports (fun _ => none)).map (declare (P m).decls)
  else none

/-- What happens to environments: a module is linked, a variable of a module gets a value. -/
inductive Op (n : Nat) (V : Type) where
  | link (m : Fin n)
  | put (m : Fin n) (x : Name) (v : V)

/-- One of these.  A module is linked at most once (`inner_module_link`,
rjs_module_opt.c:734-790); imported names cannot be assigned (`RJS_BINDING_FL_IMMUTABLE`,
rjs_module_env_opt.c:187, and `rjs_env_create_immutable_binding`, rjs_module_opt.c:377, 404). -/
def step (P : Prog n) (nsv : Fin n → V) (st : Envs n V) : Op n V → Envs n V
  | .link m =>
    match st m with
    | some _ => st
    | none =>
      match initEnv P nsv m with
      | none => st
      | some e => fun k => if k = m then some e else st k
  | .put m x v =>
    match st m with
    | none => st
    | some e =>
      match e x with
      | none => st
      | some (.imp _ _) => st
      | some (.fixed _) => st
      | some _ => fun k => if k = m then some (setCell e x (.val v)) else st k

/-- All environments, from none on. -/
def run (P : Prog n) (nsv : Fin n → V) (ops : List (Op n V)) : Envs n V :=
  ops.foldl (step P nsv) (fun _ => none)

/-- The result of reading a variable. -/
inductive Rd (V : Type) where
  | value (v : V)
  | referenceError
  | noBinding
  | limit
deriving DecidableEq

/-- `module_env_op_get_binding_value` (rjs_module_env_opt.c:47-75).  An assertion fails if there is
no such binding (`noBinding`); `limit`: the recursion was not at its end after `fuel` calls. -/
def read (st : Envs n V) : Nat → Fin n → Name → Rd V
  | 0, _, _ => .limit
  | f + 1, m, x =>
    match st m with
    | none => .referenceError
    | some e =>
      match e x with
      | none => .noBinding
      | some (.imp k l) => read st f k l
      | some (.fixed v) => .value v
      | some .uninit => .referenceError
      | some (.val v) => .value v

/-- `module_ns_object_op_get` of a name (rjs_module_ns_object_opt.c:216-277): `none` is undefined;
`noBinding` also stands for the assertion of line 249. -/
def nsGet (P : Prog n) (nsv : Fin n → V) (st : Envs n V) (f : Nat) (names : List Name) (m : Fin n)
    (x : Name) : Option (Rd V) :=
  if x ∈ names then
    match resolveExport P m x with
    | .one (.ns k) => some (.value (nsv k))
    | .one (.var k l) => some (read st f k l)
    | _ => some .noBinding
  else none

/-- A property descriptor, as far as namespace objects look at it. -/
structure Desc (V : Type) where
  value : Option V
  writable : Option Bool
  enumerable : Option Bool
  configurable : Option Bool
  accessor : Bool

/-- `module_ns_object_op_get_own_property` of a name (rjs_module_ns_object_opt.c:99-134): an
exception, nothing, or a descriptor. -/
def nsGetOwn (P : Prog n) (nsv : Fin n → V) (st : Envs n V) (f : Nat) (names : List Name)
    (m : Fin n) (x : Name) : Except (Rd V) (Option (Desc V)) :=
  if x ∈ names then
    match nsGet P nsv st f names m x with
    | some (.value v) => .ok (some ⟨some v, some true, some true, some false, false⟩)
    | some e => .error e
    | none => .ok none
  else .ok none

/-- `module_ns_object_op_define_own_property` of a name (rjs_module_ns_object_opt.c:137-187). -/
def nsDefine [DecidableEq V] (P : Prog n) (nsv : Fin n → V) (st : Envs n V) (f : Nat)
    (names : List Name) (m : Fin n) (x : Name) (d : Desc V) : Except (Rd V) Bool :=
  match nsGetOwn P nsv st f names m x with
  | .error e => .error e
  | .ok none => .ok false
  | .ok (some c) =>
    if d.configurable = some true then .ok false
    else if d.enumerable = some false then .ok false
    else if d.accessor then .ok false
    else if d.writable = some false then .ok false
    else
      match d.value with
      | some v => .ok (decide (some v = c.value))
      | none => .ok true

/-- `module_ns_object_op_has_property` (190-213). -/
def nsHas (names : List Name) (x : Name) : Bool := decide (x ∈ names)

/-- `module_ns_object_op_delete` (288-320). -/
def nsDelete (names : List Name) (x : Name) : Bool := !decide (x ∈ names)

/-- `module_ns_object_op_set` (281-285). -/
def nsSet (_ : Name) (_ : V) : Bool := false

end Verif.Resolve

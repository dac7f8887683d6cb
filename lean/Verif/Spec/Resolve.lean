import Verif.Model.Resolve
/-
What exported names mean (ECMAScript 2024, 16.2.1.6: ParseModule, GetExportedNames,
ResolveExport), said twice: as the standard's algorithm, and without an algorithm.

Only the types of programs and results are taken from the model.
-/
namespace Verif.Resolve
variable {n : Nat}

/-- ParseModule, step 10: what the export entries of a module say.  A local export of an imported
name is an indirect export; unless it is a namespace which was imported. -/
inductive Explicit (P : Prog n) (m : Fin n) : Name → Target n → Prop where
  | own {ex l : Name} : .loc ex l ∈ (P m).exports →
      (∀ i ∈ (P m).imports, i.loc = l → i.name = none) → Explicit P m ex (.fin (.var m l))
  | again {ex im : Name} {i : Imp n} : .loc ex i.loc ∈ (P m).exports → i ∈ (P m).imports →
      i.name = some im → Explicit P m ex (.go i.mod im)
  | ind {ex im : Name} {k : Fin n} : .ind ex k im ∈ (P m).exports → Explicit P m ex (.go k im)
  | ns {ex : Name} {k : Fin n} : .ns ex k ∈ (P m).exports → Explicit P m ex (.fin (.ns k))

/-- One step of the search for a name: to the module an entry names, or, without an entry, to any of
the modules all of whose names are exported. -/
inductive Edge (P : Prog n) : Fin n × Name → Fin n × Name → Prop where
  | entry {m k : Fin n} {x y : Name} : Explicit P m x (.go k y) → Edge P (m, x) (k, y)
  | star {m k : Fin n} {x : Name} : (∀ t, ¬ Explicit P m x t) → x ≠ dflt →
      .star k ∈ (P m).exports → Edge P (m, x) (k, x)

/-- The variables (and namespaces) a name can lead to. -/
inductive Cand (P : Prog n) : Fin n × Name → Bind n → Prop where
  | here {m : Fin n} {x : Name} {b : Bind n} : Explicit P m x (.fin b) → Cand P (m, x) b
  | next {v w : Fin n × Name} {b : Bind n} : Edge P v w → Cand P w b → Cand P v b

/-- What an exported name means: nothing, one thing, or it is ambiguous. -/
inductive Meaning (P : Prog n) (v : Fin n × Name) : Out n → Prop where
  | nothing : (∀ b, ¬ Cand P v b) → Meaning P v .none
  | one {b : Bind n} : Cand P v b → (∀ b', Cand P v b' → b' = b) → Meaning P v (.one b)
  | ambiguous {b b' : Bind n} : Cand P v b → Cand P v b' → b' ≠ b → Meaning P v (.amb b)

/-! ### The standard's algorithm -/

/-- A local export, given the import of its local name if there is one. -/
def Std.ofImport (m : Fin n) (ex l : Name) : Option (Imp n) → Name × Target n
  | some ⟨k, some im, _⟩ => (ex, .go k im)
  | _ => (ex, .fin (.var m l))

/-- An export entry after ParseModule. -/
def Std.entry (s : Src n) (m : Fin n) : Exp n → Option (Name × Target n)
  | .loc ex l => some (Std.ofImport m ex l (s.imports.find? (fun i => i.loc == l)))
  | .ind ex k im => some (ex, .go k im)
  | .ns ex k => some (ex, .fin (.ns k))
  | .star _ => none

/-- ResolveExport, step 9: for each star export entry.  An ambiguous answer is passed on. -/
def Std.loop (rec : Seen n → Fin n → Out n × Seen n) :
    List (Fin n) → Option (Bind n) → Seen n → Out n × Seen n
  | [], none, s => (.none, s)
  | [], some b, s => (.one b, s)
  | k :: ks, acc, s =>
    match rec s k with
    | (.limit, s') => (.limit, s')
    | (.amb b, s') => (.amb b, s')
    | (.none, s') => Std.loop rec ks acc s'
    | (.one b, s') =>
      match acc with
      | none => Std.loop rec ks (some b) s'
      | some a => if b = a then Std.loop rec ks (some a) s' else (.amb a, s')

/-- ResolveExport(exportName, resolveSet), with a bound for the recursion. -/
def Std.resolve (P : Prog n) : Nat → Seen n → Fin n → Name → Out n × Seen n
  | 0, s, _, _ => (.limit, s)
  | f + 1, s, m, x =>
    if (m, x) ∈ s then (.none, s)
    else
      match ((P m).exports.filterMap (Std.entry (P m) m)).find? (fun p => p.1 == x) with
      | some (_, .fin b) => (.one b, (m, x) :: s)
      | some (_, .go k im) => Std.resolve P f ((m, x) :: s) k im
      | none =>
        if x = dflt then (.none, (m, x) :: s)
        else Std.loop (fun s k => Std.resolve P f s k x) ((P m).exports.filterMap Exp.starOf) none
          ((m, x) :: s)

/-- The same answer; which of several candidates comes with `amb` is of no importance. -/
def Out.Same : Out n → Out n → Prop
  | .amb _, .amb _ => True
  | a, b => a = b

/-! ### Programs -/

/-- The name of an export. -/
def Exp.name : Exp n → Option Name
  | .loc ex _ => some ex
  | .ind ex _ _ => some ex
  | .ns ex _ => some ex
  | .star _ => none

/-- What the standard's early errors say about a module (16.2.1.1): no name is exported twice; no
name is imported or declared twice; a local export names an import or a declaration. -/
structure Src.Ok (s : Src n) : Prop where
  exports : (s.exports.filterMap Exp.name).Nodup
  imports : (s.imports.map (·.loc) ++ s.decls).Nodup
  defined : ∀ ex l, .loc ex l ∈ s.exports → l ∈ s.imports.map (·.loc) ++ s.decls

def Prog.Ok (P : Prog n) : Prop := ∀ m, (P m).Ok

/-- No imported name is exported by a local export (`import {x} from "a"; export {x};`). -/
def NoReexport (P : Prog n) : Prop :=
  ∀ m ex i, i ∈ (P m).imports → i.name ≠ none → .loc ex i.loc ∉ (P m).exports

/-- A node reached from another. -/
inductive Reach (P : Prog n) : Fin n × Name → Fin n × Name → Prop where
  | refl (v : Fin n × Name) : Reach P v v
  | step {u v w : Fin n × Name} : Reach P u v → Edge P v w → Reach P u w

/-- Below `v`, no name is ambiguous inside of a module all of whose names are exported. -/
def PlainBelow (P : Prog n) (v : Fin n × Name) : Prop :=
  ∀ m k x, Reach P v (m, x) → (∀ t, ¬ Explicit P m x t) → x ≠ dflt → .star k ∈ (P m).exports →
    ∀ b b', Cand P (k, x) b → Cand P (k, x) b' → b = b'

/-- InitializeEnvironment succeeds: all indirect exports and all imports mean one thing. -/
def Links (P : Prog n) (m : Fin n) : Prop :=
  (∀ x k y, Explicit P m x (.go k y) → ∃ b, Meaning P (m, x) (.one b)) ∧
  ∀ i ∈ (P m).imports, ∀ y, i.name = some y → ∃ b, Meaning P (i.mod, y) (.one b)

/-- Reading a variable or a namespace gives `r`: the value it has in its own module, or a
ReferenceError if it has none yet. -/
inductive Now {V : Type} (nsv : Fin n → V) (st : Envs n V) : Bind n → Rd V → Prop where
  | namespace (k : Fin n) : Now nsv st (.ns k) (.value (nsv k))
  | value {k : Fin n} {l : Name} {e : Name → Option (Cell n V)} {v : V} :
      st k = some e → e l = some (.val v) → Now nsv st (.var k l) (.value v)
  | fixed {k : Fin n} {l : Name} {e : Name → Option (Cell n V)} {v : V} :
      st k = some e → e l = some (.fixed v) → Now nsv st (.var k l) (.value v)
  | early {k : Fin n} {l : Name} : st k = none → Now nsv st (.var k l) .referenceError
  | uninit {k : Fin n} {l : Name} {e : Name → Option (Cell n V)} :
      st k = some e → e l = some .uninit → Now nsv st (.var k l) .referenceError

end Verif.Resolve

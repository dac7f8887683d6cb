import Verif.Lemmas.Class

/-! # C81 — Class definitions make the class, and its instances, the standard describes -/
namespace Verif.Class
open Obj (Val)
open Priv.Spec (Elem)

/-- The list the engine keeps for the instances and the record of the standard describe the same
elements: the same fields in the same order, and private methods whose getters and setters, when
collected name by name as the standard does, give the standard's list. -/
def Describes (cl : Clazz) (r : Spec.Record) : Prop :=
  r.fields = cl.fields ∧
  r.privateMethods = cl.methods.foldl (fun l m => Spec.unite l m.2.1 (Spec.elemOf m.1 m.2.2)) []

/-- Evaluating names of elements and defining the public methods gives the constructor no private
element of this class. -/
structure Apart {σ : Type} (W : World σ) (c : Nat) (n : Nat) : Prop where
  key : ∀ e s, s.elems c n = none → (W.key e s).1.elems c n = none
  defMethod : ∀ st k m f s, s.elems c n = none → (W.defMethod st k m f s).1.elems c n = none

/-- No static field and no static block. -/
def NoStatics (srcs : List Src) : Prop := ∀ x, x ∈ srcs → Spec.isStaticInit x = false

/-- The outcomes agree: both throw, in states that differ at most in the class having its list, or
both succeed in the same state with lists describing the same elements. -/
def Agree {σ : Type} : St σ × Option Clazz → St σ × Option Spec.Record → Prop
  | (s, some cl), (t, some r) => s = t ∧ Describes cl r
  | (s, none), (t, none) => { s with ready := t.ready } = t
  | _, _ => False

section
variable {σ : Type} (W : World σ)

theorem body_agrees (c : Nat) (srcs : List Src) (s : St σ)
    (hon : Spec.Once (Spec.declared true srcs)) (hm : Spec.MethodsFirst srcs)
    (hap : ∀ m, m ∈ Spec.declared true srcs → Apart W c m.2.1 ∧ s.elems c m.2.1 = none)
    (hb : ∀ els : List El, els.map tag = srcs.filterMap srcTag →
      ∀ s, Spec.statics W c (staticsOf els) { s with ready := true } =
      Spec.withReady true (Spec.statics W c (staticsOf els) s)) :
    Agree (classBody W c srcs s) (Spec.classBody W c srcs s) := by
  unfold classBody Spec.classBody
  have he := elements_eq W srcs [] s
  have he' : Spec.elements W ⟨[], [], [], []⟩ srcs s = mapRes collOf (addElements W [] srcs s) := he
  rw [he']
  cases hx : addElements W [] srcs s with
  | mk s' r =>
    cases r with
    | none => rfl
    | some els =>
      have ht := addElements_tag W srcs [] s s' els hx
      simp only [List.map_nil, List.nil_append] at ht
      have hd := staticPriv_declared els srcs ht
      have hfresh : ∀ m, m ∈ staticPrivOf els → s'.elems c m.2.1 = none := by
        intro m hmem
        rw [hd] at hmem
        obtain ⟨hap1, h0⟩ := hap m hmem
        have := addElements_keeps W (fun s => s.elems c m.2.1 = none) hap1.key hap1.defMethod srcs [] s h0
        rw [hx] at this
        exact this
      obtain ⟨x, h1, h2⟩ := finish_eq W c els s' (ht ▸ tagOrder_of srcs hm) (hd ▸ hon) hfresh (hb els ht)
      simp only [mapRes, Option.map_some]
      unfold classInit
      rw [h1, h2]
      obtain ⟨s'', r⟩ := x
      cases r with
      | none => rfl
      | some u => exact ⟨rfl, rfl, rfl⟩

/-- **C81 (partial).** For every class body in which no static private method stands after a static
field or block, and whose static fields and blocks run code that makes no instance of the class: the
evaluation of the body does what the standard's ClassDefinitionEvaluation does, for every behaviour of
the code that names, initialisers and blocks run. The names are evaluated and public methods defined in
order; the static private methods are added; static fields and blocks are evaluated in order; an
exception stops the evaluation at the same point with the same effects.

The full statement has neither condition: `C81_order_violated`, `C81_ready_violated`. -/
theorem C81_partial (c : Nat) (srcs : List Src) (s : St σ)
    (once : Spec.Once (Spec.declared true srcs)) (first : Spec.MethodsFirst srcs) (blind : Spec.Blind W)
    (fresh : ∀ m, m ∈ Spec.declared true srcs → Apart W c m.2.1 ∧ s.elems c m.2.1 = none) :
    Agree (classBody W c srcs s) (Spec.classBody W c srcs s) :=
  body_agrees W c srcs s once first fresh fun els _ s => statics_ready W blind c (staticsOf els) true s

/-- **C81, classes without static fields and blocks.** No other condition on the code run. -/
theorem C81_plain (c : Nat) (srcs : List Src) (s : St σ)
    (once : Spec.Once (Spec.declared true srcs)) (plain : NoStatics srcs)
    (fresh : ∀ m, m ∈ Spec.declared true srcs → Apart W c m.2.1 ∧ s.elems c m.2.1 = none) :
    Agree (classBody W c srcs s) (Spec.classBody W c srcs s) := by
  apply body_agrees W c srcs s once _ fresh
  · intro els ht s
    rw [statics_none els srcs ht plain]; rfl
  · apply List.pairwise_of_forall_mem_list
    intro a ha b _ hc
    rw [plain a ha] at hc
    cases hc.1

/-- **C81, instances.** An object that has none of the private methods of the class gets what
InitializeInstanceElements gives it: all private methods first, then the fields in order, whatever the
initialisers do. -/
theorem C81_instance (cl : Clazz) (r : Spec.Record) (h : Describes cl r) (o : Nat) (s : St σ)
    (once : Spec.Once cl.methods) (fresh : ∀ m, m ∈ cl.methods → s.elems o m.2.1 = none) :
    initInstance W cl o s = Spec.initInstance W r o s := by
  obtain ⟨hf, hm⟩ := h
  obtain ⟨h1, h2⟩ := install_eq o s cl.methods once fresh
  unfold initInstance Spec.initInstance
  have hm' : r.privateMethods = unitedFrom [] cl.methods := hm
  rw [h1, hm', h2, hf]
  exact installFields_eq W o cl.fields _

/-- **C81, once only.** Initialising an object a second time (a base constructor returning an object
that was initialised before) throws at once, without effect, as the standard has it. -/
theorem C81_twice (cl : Clazz) (r : Spec.Record) (h : Describes cl r) (o : Nat) (s : St σ)
    (some_ : cl.methods ≠ []) (has : ∀ m, m ∈ cl.methods → Spec.HasMethod s o m) :
    initInstance W cl o s = (s, none) ∧ Spec.initInstance W r o s = (s, none) := by
  obtain ⟨ms, fs⟩ := cl
  obtain ⟨_, hm⟩ := h
  cases ms with
  | nil => exact absurd rfl some_
  | cons m ms =>
    obtain ⟨h1, h2⟩ := install_again o s m ms (has m List.mem_cons_self)
    have hm' : r.privateMethods = unitedFrom [] (m :: ms) := hm
    unfold initInstance Spec.initInstance
    rw [hm', h2]
    simp only at h1 ⊢
    rw [h1]
    exact ⟨rfl, trivial⟩

end

/-! ## The conditions are needed -/

/-- `class C { static x = C.#m(); static #m() {} }`: the initialiser looks for the element 0 of the
constructor. -/
def orderWorld : World Unit where
  key e s := (s, some e)
  defMethod _ _ _ _ s := (s, some ())
  init _ o s := match s.elems o 0 with | some (.method _) => (s, some .undef) | _ => (s, none)
  define _ _ _ s := (s, some ())
  block _ _ s := (s, some ())

def orderSrcs : List Src := [.field true (.pub 0) (some (.num 1)), .method true .method (.priv 0) (.num 2)]

def emptySt : St Unit := ⟨false, fun _ _ => none, ()⟩

theorem orderBlind : Spec.Blind orderWorld := by
  constructor
  · intro f o s b
    show (match s.elems o 0 with | some (Elem.method _) => _ | _ => _) = _
    unfold orderWorld
    simp only
    split <;> rfl
  · intros; rfl
  · intros; rfl

/-- **C81 violated (order).** A static field whose initialiser calls a static private method written
later: the standard adds all static private methods before any static field is evaluated, the engine adds
them in the order of the text (rjs_native_stack.c:663-671), so the initialiser throws a TypeError. -/
theorem C81_order_violated :
    ∃ (W : World Unit) (c : Nat) (srcs : List Src) (s : St Unit),
      Spec.Once (Spec.declared true srcs) ∧ Spec.Blind W ∧
      (∀ m, m ∈ Spec.declared true srcs → Apart W c m.2.1 ∧ s.elems c m.2.1 = none) ∧
      (Spec.classBody W c srcs s).2.isSome = true ∧ (classBody W c srcs s).2 = none := by
  refine ⟨orderWorld, 5, orderSrcs, emptySt, ?_, orderBlind, ?_, rfl, rfl⟩
  · exact List.pairwise_singleton _ _
  · intro m _
    exact ⟨⟨fun _ _ h => h, fun _ _ _ _ _ h => h⟩, rfl⟩

/-- `class C { #m() {} static { o = new C(); } }`: the block makes an instance, the object 7. Without the
list nothing is added (rjs_function.c:123). -/
def readyWorld : World Unit where
  key e s := (s, some e)
  defMethod _ _ _ _ s := (s, some ())
  init _ _ s := (s, some .undef)
  define _ _ _ s := (s, some ())
  block _ _ s := if s.ready then initInstance orderWorld ⟨[(.method, 0, .num 2)], []⟩ 7 s else (s, some ())

def readySrcs : List Src := [.method false .method (.priv 0) (.num 2), .block (.num 1)]

/-- **C81 violated (instances made by static code).** A static block making an instance of the class: in
the standard the constructor has its lists by then and the instance gets its private method; the engine
sets `clazz` of the constructor after the loop (rjs_native_stack.c:697), so the instance gets nothing. -/
theorem C81_ready_violated :
    ∃ (W : World Unit) (c : Nat) (srcs : List Src) (s : St Unit),
      Spec.Once (Spec.declared true srcs) ∧ Spec.MethodsFirst srcs ∧
      (Spec.classBody W c srcs s).2.isSome = true ∧ (classBody W c srcs s).2.isSome = true ∧
      (Spec.classBody W c srcs s).1.elems 7 0 = some (.method (.num 2)) ∧
      (classBody W c srcs s).1.elems 7 0 = none := by
  refine ⟨readyWorld, 5, readySrcs, emptySt, List.Pairwise.nil, ?_, rfl, rfl, rfl, rfl⟩
  refine List.pairwise_pair.2 ?_
  rintro ⟨h, _⟩; cases h

/-! ## Examples -/

/-- `class C { static #g…; static get #p; static set #p; x = 1; #y = 2; static z = 3; static { } }` -/
def sampleSrcs : List Src :=
  [.method true .method (.priv 0) (.num 10), .method true .getter (.priv 1) (.num 11),
   .field false (.pub 4) (some (.num 12)), .method true .setter (.priv 1) (.num 13),
   .field false (.priv 2) none, .method false .getter (.priv 3) (.num 14),
   .field true (.pub 6) (some (.num 15)), .block (.num 16)]

example : Spec.Once (Spec.declared true sampleSrcs) := by
  refine .cons ?_ (.cons ?_ (.cons ?_ .nil)) <;> intro a ha <;> simp at ha
  · rcases ha with rfl | rfl <;> simp
  · subst ha; simp

example : Spec.MethodsFirst sampleSrcs := by
  unfold Spec.MethodsFirst sampleSrcs
  simp [Spec.isStaticInit, Spec.isStaticPrivate]

/-- The hypotheses of `C81_partial` hold for it, and the constructor has its elements after. -/
example : (classBody orderWorld 5 sampleSrcs emptySt).2 =
      some ⟨[(.getter, 3, .num 14)], [(.pub 4, some (.num 12)), (.priv 2, none)]⟩ ∧
    (classBody orderWorld 5 sampleSrcs emptySt).1.elems 5 1 = some (.accessor (some (.num 11)) (some (.num 13))) ∧
    (classBody orderWorld 5 sampleSrcs emptySt).1.ready = true := ⟨rfl, rfl, rfl⟩

/-- Instances: a getter and a setter written apart, a method between, and a private field. -/
example : let cl : Clazz := ⟨[(.getter, 1, .num 11), (.method, 0, .num 10), (.setter, 1, .num 13)], [(.priv 2, none)]⟩
    (initInstance orderWorld cl 9 emptySt).2 = some () ∧
    (initInstance orderWorld cl 9 emptySt).1.elems 9 1 = some (.accessor (some (.num 11)) (some (.num 13))) ∧
    (initInstance orderWorld cl 9 emptySt).1.elems 9 2 = some (.field .undef) ∧
    (initInstance orderWorld cl 9 (initInstance orderWorld cl 9 emptySt).1).2 = none := ⟨rfl, rfl, rfl, rfl⟩

end Verif.Class

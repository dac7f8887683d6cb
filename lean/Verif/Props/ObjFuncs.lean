import Verif.Lemmas.ObjFuncs

/-!
# C95: the functions of `Object` on arbitrary objects
-/

namespace Verif.ObjFuncs

open Spec

variable {σ K V E : Type}

/-- A world for the examples.  The state lists what was defined or set, the last first.  Objects are 0 to 9;
2 is the descriptor `{value: 5}`, 1 is `{1: 2, 2: 42}` (the second no descriptor), 9 is `{1: 2, 3: 2}`; 3 is a
proxy with keys 6 and 7 which has no descriptor for 7; 4 is a proxy whose `getOwnPropertyDescriptor` throws; 5
is a proxy whose `isExtensible` throws; 6 is a proxy with keys 1 and 8 which has no descriptor for 8. -/
def demo : World (List (Nat × Nat)) Nat Nat String where
  isObj v := v < 10
  isNullish v := v == 90
  callable v := v == 80
  undef v := v == 90
  truthy v := v != 0
  isStr k := k < 50
  name f := match f with
    | .enumerable => 100 | .configurable => 101 | .value => 102 | .writable => 103 | .get => 104 | .set => 105
  typeErr := "TypeError"
  toObj v s := if v == 90 then .thr s "TypeError" else .ok s v
  toKey v s := .ok s v
  keys o s := .ok s (match o with | 1 => [1, 2] | 3 => [6, 7] | 4 => [1] | 6 => [1, 8] | 9 => [1, 3, 60] | _ => [])
  getOwn o k s :=
    if o == 4 then .thr s "trap"
    else if (o, k) == (3, 7) || (o, k) == (6, 8) then .ok s none
    else .ok s (some ⟨false, o != 9, true, o != 9⟩)
  has _ k s := .ok s (k == 102)
  get o k s := .ok s (if (o, k) == (1, 2) then 42 else if o == 2 then 5 else 2)
  set o k _ s := .ok ((o, k) :: s) true
  define o k _ s := .ok ((o, k) :: s) true
  prevent _ s := .ok s true
  isExt o s := if o == 5 then .thr s "trap" else .ok s false
  junk _ en := en

/-- C95: `Object.assign` does what the standard says, whatever the objects do: the same calls in the same
order, the same result or exception. -/
theorem C95_assign (W : World σ K V E) (target : V) (sources : List V) (s : σ) :
    assignFn W target sources s = assign W target sources s := by
  unfold assignFn assign
  simp only [sourcesLoop_eq]
  unfold andThen
  cases W.toObj target s with
  | thr s e => rfl
  | ok s dst =>
    simp only
    change (match each sources (fun x => if W.isNullish x then done () else
        andThen (W.toObj x) fun src => andThen (W.keys src) fun ks => each ks (assignOne W dst src)) s with
      | .thr s e => .thr s e
      | .ok s _ => .ok s dst) =
      andThen (each sources (fun x => if W.isNullish x then done () else
        andThen (W.toObj x) fun src => andThen (W.keys src) fun ks => each ks (assignOne W dst src)))
        (fun _ => done dst) s
    unfold andThen
    generalize each sources _ s = x
    cases x <;> rfl

example : assignFn demo 0 [90, 9, 3] [] = .ok [(0, 6), (0, 60), (0, 3), (0, 1)] 0 := by decide

/-- C95: `Object.keys`, `Object.values` and `Object.entries` do what the standard says, whatever the objects
do. -/
theorem C95_list (W : World σ K V E) (o : V) (kind : Kind) (s : σ) :
    listFn W o kind s = enumerable W o kind s := by
  unfold listFn enumerable
  simp only [andThen]
  cases W.toObj o s with
  | thr s e => rfl
  | ok s o =>
    simp only
    cases W.keys o s with
    | thr s e => rfl
    | ok s ks =>
      simp only [listLoop_eq, List.nil_append]
      change _ = collect (ks.filter W.isStr) (listOne W o kind) s
      simp only [andThen]
      cases collect (ks.filter W.isStr) (listOne W o kind) s <;> rfl

example : listFn demo 1 .entry [] = .ok [] [.entry 1 2, .entry 2 42] := by decide
example : listFn demo 9 .key [] = .ok [] [.key 1, .key 3] := by decide

/-- C95: reading a descriptor object (`ToPropertyDescriptor`): the fields in the standard's order, each with
`has` and then `get`, the checks where the standard has them. -/
theorem C95_descriptor (W : World σ K V E) (o : V) (s : σ) : toDesc W o s = descriptor W o s :=
  toDesc_eq W o s

/-- C95: `Object.defineProperty` does what the standard says, whatever the objects do. -/
theorem C95_define (W : World σ K V E) (o p attrs : V) (s : σ) :
    definePropertyFn W o p attrs s = defineProperty W o p attrs s := by
  unfold definePropertyFn defineProperty
  cases W.isObj o with
  | false => rfl
  | true =>
    simp only [if_true, andThen, toDesc_eq, defineOrThrow_eq]
    cases W.toKey p s with
    | thr s e => rfl
    | ok s k =>
      simp only
      cases descriptor W attrs s with
      | thr s e => rfl
      | ok s d =>
        simp only
        cases must W (W.define o k d) s <;> rfl

example : toDesc demo 2 [] = .ok [] { v := some 5 } := by decide
example : definePropertyFn demo 0 7 2 [] = .ok [(0, 7)] 0 := by decide
example : definePropertyFn demo 0 7 42 [] = .thr [] "TypeError" := by decide

/-- C95: `Object.seal` does what the standard says, whatever the objects do. -/
theorem C95_seal (W : World σ K V E) (o : V) (s : σ) :
    setFn W o false s = freezeOrSeal W o false s :=
  setFn_of W o false s (setIntegrity_false W o s)

example : setFn demo 3 false [] = .ok [(3, 7), (3, 6)] 3 := by decide

/-- C95: `Object.freeze`, whatever the objects do: the same calls in the same order, and the standard's result
or exception, or else a TypeError where the standard gives the object. -/
theorem C95_freeze_calls (W : World σ K V E) (o : V) (s : σ) :
    setFn W o true s = freezeOrSeal W o true s ∨
    ∃ s', freezeOrSeal W o true s = .ok s' o ∧ setFn W o true s = .thr s' W.typeErr := by
  rcases setIntegrity_rel W o s with h | ⟨s', h1, h2⟩
  · exact .inl (setFn_of W o true s h)
  · by_cases ho : W.isObj o = true
    · refine .inr ⟨s', ?_, ?_⟩
      · simp [freezeOrSeal, ho, must, andThen, h1, done]
      · simp [setFn, ho, h2]
    · refine .inl ?_
      simp [setFn, freezeOrSeal, ho, done]

/-- C95: `Object.freeze` does what the standard says for an object that has a descriptor for each key asked
for.  Missing: proxies (and other objects) that have none; see `C95_freeze_violated`. -/
theorem C95_freeze_partial (W : World σ K V E) (o : V) (h : ∀ k s s', W.getOwn o k s ≠ .ok s' none) (s : σ) :
    setFn W o true s = freezeOrSeal W o true s :=
  setFn_of W o true s (setIntegrity_true W o h s)

example : ∀ k s s', demo.getOwn 1 k s ≠ .ok s' none := by
  intro k s s'
  simp [demo]
example : setFn demo 1 true [] = .ok [(1, 2), (1, 1)] 1 := by decide

/-- C95 violated: a proxy that lists a last key for which it has no descriptor is frozen, and then
`Object.freeze` throws a TypeError; the standard gives the proxy. -/
theorem C95_freeze_violated :
    ∃ o, freezeOrSeal demo o true [] = .ok [(o, 6)] o ∧
      setFn demo o true [] = .thr [(o, 6)] "TypeError" :=
  ⟨3, by decide, by decide⟩

/-- C95: `Object.isFrozen` and `Object.isSealed` do what the standard says if asking whether the object is
extensible does not throw.  Missing: proxies where it does; see `C95_test_violated`. -/
theorem C95_test_partial (W : World σ K V E) (o : V) (frozen : Bool) (s : σ)
    (h : ∀ s' e, W.isExt o s ≠ .thr s' e) : testFn W o frozen s = isFrozenOrSealed W o frozen s := by
  unfold testFn isFrozenOrSealed
  cases W.isObj o with
  | false => rfl
  | true =>
    simp only [if_true, testIntegrity, testLevel, andThen]
    cases hx : W.isExt o s with
    | thr s' e => exact absurd hx (h s' e)
    | ok s b =>
      cases b with
      | true => rfl
      | false =>
        simp only [Bool.false_eq_true, if_false, andThen]
        cases W.keys o s with
        | thr s e => rfl
        | ok s ks => exact testLoop_eq W o frozen ks s

example : (∀ s' e, demo.isExt 9 [] ≠ .thr s' e) ∧ testFn demo 9 true [] = .ok [] true ∧
    testFn demo 1 true [] = .ok [] false := by
  refine ⟨fun s' e => ?_, by decide, by decide⟩
  simp [demo]

/-- C95 violated: the exception of an `isExtensible` trap is lost, the answer is `false`. -/
theorem C95_test_violated :
    ∃ o, ∀ frozen, isFrozenOrSealed demo o frozen [] = .thr [] "trap" ∧ testFn demo o frozen [] = .ok [] false :=
  ⟨5, by decide⟩

/-- C95: `Object.preventExtensions` and `Object.isExtensible` do what the standard says. -/
theorem C95_extensible (W : World σ K V E) (o : V) (s : σ) :
    preventFn W o s = preventExtensions W o s ∧ isExtFn W o s = isExtensible W o s := by
  unfold preventFn preventExtensions isExtFn isExtensible
  cases W.isObj o with
  | false => exact ⟨rfl, rfl⟩
  | true =>
    refine ⟨?_, rfl⟩
    simp only [if_true, must, andThen]
    cases W.prevent o s with
    | thr s e => rfl
    | ok s b => cases b <;> rfl

example : preventFn demo 1 [] = .ok [] 1 ∧ isExtFn demo 5 [] = .thr [] "trap" := by decide

/-- C95: `Object.defineProperties` does what the standard says if reading the descriptors has no effect, does
not throw and does not depend on what is defined.  Missing: all other property lists; see the three theorems
below. -/
theorem C95_define_properties_partial (W : World σ K V E) (o props : V) (s : σ)
    (h : ∀ s' p, W.toObj props s = .ok s' p → ∀ s'' ks, W.keys p s' = .ok s'' ks → ∀ k ∈ ks, Plain W p k) :
    definePropertiesFn W o props s = defineProperties W o props s := by
  unfold definePropertiesFn defineProperties
  cases W.isObj o with
  | false => rfl
  | true =>
    simp only [if_true, andThen]
    cases hp : W.toObj props s with
    | thr s e => rfl
    | ok s' p =>
      simp only
      cases hk : W.keys p s' with
      | thr s e => rfl
      | ok s'' ks =>
        obtain ⟨ds, h1, h2⟩ := defineLoop_eq W o p ks false (h s' p hp s'' ks hk)
        unfold readOne at h1
        simp only [h1, h2]
        generalize each ds _ s'' = x
        cases x <;> rfl

example : ∀ s' p, demo.toObj 9 [] = .ok s' p → ∀ s'' ks, demo.keys p s' = .ok s'' ks →
    ∀ k ∈ ks, Plain demo p k := by
  intro s' p hp s'' ks _ k _
  have : p = 9 := by simp [demo] at hp; exact hp.2.symm
  subst this
  refine ⟨⟨false, false, true, false⟩, fun s => by simp [demo], fun _ => ⟨2, { v := some 5 }, fun s => by simp [demo], fun s => ?_⟩⟩
  simp [descriptor, andThen, field, done, funcOk, demo]
example : definePropertiesFn demo 0 9 [] = .ok [(0, 60), (0, 3), (0, 1)] 0 := by decide

/-- C95 violated: `Object.defineProperties(o, {a: {value: 5}, b: 42})` throws, as it should, but has defined
`a` before. -/
theorem C95_define_order_violated :
    ∃ o props, defineProperties demo o props [] = .thr [] "TypeError" ∧
      definePropertiesFn demo o props [] = .thr [(o, 1)] "TypeError" :=
  ⟨0, 1, by decide, by decide⟩

/-- C95 violated: the exception of a `getOwnPropertyDescriptor` trap is lost; nothing is defined and the
object is given back. -/
theorem C95_define_lost_violated :
    ∃ o props, defineProperties demo o props [] = .thr [] "trap" ∧
      definePropertiesFn demo o props [] = .ok [] o :=
  ⟨0, 4, by decide, by decide⟩

/-- C95 violated: a key for which the list has no property is taken for enumerable if the one before was, and
is defined. -/
theorem C95_define_missing_violated :
    ∃ o props, defineProperties demo o props [] = .ok [(o, 1)] o ∧
      definePropertiesFn demo o props [] = .ok [(o, 8), (o, 1)] o :=
  ⟨0, 6, by decide, by decide⟩

end Verif.ObjFuncs

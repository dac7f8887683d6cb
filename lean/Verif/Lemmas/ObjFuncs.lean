import Verif.Spec.ObjFuncs

/-! Helper lemmas for C95. -/

namespace Verif.ObjFuncs

open Spec

variable {σ K V E : Type} (W : World σ K V E)

theorem defineOrThrow_eq (o : V) (k : K) (d : Desc V) (s : σ) :
    defineOrThrow W o k d s = must W (W.define o k d) s := by
  unfold defineOrThrow must andThen
  cases W.define o k d s with
  | thr s e => rfl
  | ok s b => cases b <;> rfl

theorem each_cons {α : Type} (a : α) (l : List α) (f : α → Act σ E Unit) :
    each (a :: l) f = andThen (f a) fun _ => each l f := rfl

theorem collect_cons {α β : Type} (a : α) (l : List α) (f : α → Act σ E (List β)) :
    collect (a :: l) f = andThen (f a) fun x => andThen (collect l f) fun y => done (x ++ y) := rfl

theorem sealLoop_eq (o : V) : ∀ (ks : List K) (s : σ),
    sealLoop W o ks s =
      andThen (each ks fun k => must W (W.define o k { c := some false })) (fun _ => done true) s
  | [], s => rfl
  | k :: ks, s => by
    rw [sealLoop, defineOrThrow_eq, each_cons]
    unfold andThen
    cases must W (W.define o k { c := some false }) s with
    | thr s e => rfl
    | ok s a => exact sealLoop_eq o ks s

/-- What the standard does with one key when it freezes. -/
def freezeOne (o : V) (k : K) : Act σ E Unit :=
  andThen (W.getOwn o k) fun a =>
  match a with
  | none => done ()
  | some a => must W (W.define o k
      (if a.acc then { c := some false } else { c := some false, w := some false }))

/-- Same state; the same end, or `false` for `true`. -/
theorem freezeLoop_rel (o : V) : ∀ (ks : List K) (r : Bool) (s : σ),
    match each ks (freezeOne W o) s with
    | .thr s' e => freezeLoop W o ks r s = .thr s' e
    | .ok s' _ => ∃ b, freezeLoop W o ks r s = .ok s' b
  | [], r, s => ⟨r, rfl⟩
  | k :: ks, r, s => by
    rw [each_cons]
    simp only [freezeLoop, andThen, freezeOne]
    cases W.getOwn o k s with
    | thr s e => exact rfl
    | ok s a =>
      cases a with
      | none => exact freezeLoop_rel o ks false s
      | some a =>
        simp only [defineOrThrow_eq]
        cases must W (W.define o k
          (if a.acc then { c := some false } else { c := some false, w := some false })) s with
        | thr s e => exact rfl
        | ok s x => exact freezeLoop_rel o ks true s

theorem freezeLoop_eq (o : V) (h : ∀ k s s', W.getOwn o k s ≠ .ok s' none) : ∀ (ks : List K) (s : σ),
    freezeLoop W o ks true s = andThen (each ks (freezeOne W o)) (fun _ => done true) s
  | [], s => rfl
  | k :: ks, s => by
    rw [freezeLoop, each_cons]
    unfold andThen
    unfold freezeOne
    unfold andThen
    cases hg : W.getOwn o k s with
    | thr s e => rfl
    | ok s' a =>
      cases a with
      | none => exact absurd hg (h k s s')
      | some a =>
        simp only [defineOrThrow_eq]
        cases must W (W.define o k
          (if a.acc then { c := some false } else { c := some false, w := some false })) s' with
        | thr s e => rfl
        | ok s x => exact freezeLoop_eq o h ks s

theorem testLoop_eq (o : V) (frozen : Bool) : ∀ (ks : List K) (s : σ),
    testLoop W o frozen ks s = allLevel W o frozen ks s
  | [], s => rfl
  | k :: ks, s => by
    rw [testLoop, allLevel]
    unfold andThen
    cases W.getOwn o k s with
    | thr s e => rfl
    | ok s a =>
      cases a with
      | none => exact testLoop_eq o frozen ks s
      | some a =>
        obtain ⟨acc, w, e, c⟩ := a
        cases c <;> cases frozen <;> cases acc <;> cases w <;>
          first
            | exact testLoop_eq o _ ks s
            | rfl

/-- The level is set with some action for each key. -/
def levelWith (o : V) (f : K → Act σ E Unit) : Act σ E Bool :=
  andThen (W.prevent o) fun b =>
  if b then andThen (W.keys o) fun ks => andThen (each ks f) fun _ => done true else done false

theorem setLevel_true (o : V) : setLevel W o true = levelWith W o (freezeOne W o) := rfl

theorem setLevel_false (o : V) :
    setLevel W o false = levelWith W o fun k => must W (W.define o k { c := some false }) := rfl

theorem setIntegrity_false (o : V) (s : σ) : setIntegrity W o false s = setLevel W o false s := by
  rw [setLevel_false]
  simp only [setIntegrity, levelWith, andThen]
  cases W.prevent o s with
  | thr s e => rfl
  | ok s b =>
    cases b with
    | false => rfl
    | true =>
      simp only [if_true, andThen]
      cases W.keys o s with
      | thr s e => rfl
      | ok s ks =>
        simp only [Bool.false_eq_true, if_false, sealLoop_eq]
        rfl

theorem setIntegrity_true (o : V) (h : ∀ k s s', W.getOwn o k s ≠ .ok s' none) (s : σ) :
    setIntegrity W o true s = setLevel W o true s := by
  rw [setLevel_true]
  simp only [setIntegrity, levelWith, andThen]
  cases W.prevent o s with
  | thr s e => rfl
  | ok s b =>
    cases b with
    | false => rfl
    | true =>
      simp only [if_true, andThen]
      cases W.keys o s with
      | thr s e => rfl
      | ok s ks =>
        simp only [freezeLoop_eq W o h]
        rfl

theorem setIntegrity_rel (o : V) (s : σ) :
    setIntegrity W o true s = setLevel W o true s ∨
    ∃ s', setLevel W o true s = .ok s' true ∧ setIntegrity W o true s = .ok s' false := by
  rw [setLevel_true]
  simp only [setIntegrity, levelWith, andThen]
  cases W.prevent o s with
  | thr s e => exact .inl rfl
  | ok s b =>
    cases b with
    | false => exact .inl rfl
    | true =>
      simp only [if_true, andThen]
      cases W.keys o s with
      | thr s e => exact .inl rfl
      | ok s ks =>
        simp only
        have h := freezeLoop_rel W o ks true s
        revert h
        generalize each ks (freezeOne W o) s = x
        cases x with
        | thr s e => intro h; exact .inl h
        | ok s a =>
          rintro ⟨b, h⟩
          cases b with
          | true => exact .inl h
          | false => exact .inr ⟨s, rfl, h⟩

theorem setFn_of (o : V) (frozen : Bool) (s : σ) (h : setIntegrity W o frozen s = setLevel W o frozen s) :
    setFn W o frozen s = freezeOrSeal W o frozen s := by
  unfold setFn freezeOrSeal
  cases W.isObj o with
  | false => rfl
  | true =>
    simp only [if_true, must, andThen, h]
    cases setLevel W o frozen s with
    | thr s e => rfl
    | ok s b => cases b <;> rfl

/-! ## Descriptors -/

theorem boolField_eq (o : V) (f : Field) (s : σ) :
    boolField W o f s = andThen (field W o f) (fun x => done (x.map W.truthy)) s := by
  unfold boolField field andThen
  cases W.has o (W.name f) s with
  | thr s e => rfl
  | ok s b =>
    cases b with
    | false => rfl
    | true =>
      simp only [if_true]
      cases W.get o (W.name f) s <;> rfl

theorem valueField_eq (o : V) (s : σ) : valueField W o s = field W o .value s := by
  unfold valueField field andThen
  cases W.has o (W.name .value) s with
  | thr s e => rfl
  | ok s b =>
    cases b with
    | false => rfl
    | true =>
      simp only [if_true]
      cases W.get o (W.name .value) s <;> rfl

theorem funcField_eq (o : V) (f : Field) (s : σ) :
    funcField W o f s = andThen (field W o f) (fun x => if funcOk W x then done x else throw W.typeErr) s := by
  unfold funcField field andThen
  cases W.has o (W.name f) s with
  | thr s e => rfl
  | ok s b =>
    cases b with
    | false => rfl
    | true =>
      simp only [if_true]
      cases W.get o (W.name f) s with
      | thr s e => rfl
      | ok s v =>
        simp only [done, funcOk]
        by_cases h1 : W.callable v = true <;> by_cases h2 : W.undef v = true <;>
          simp [h1, h2, done, Spec.throw]

theorem isSome_ne {α : Type} (x : Option α) : x.isSome = true ↔ x ≠ none := by
  cases x <;> simp

theorem toDesc_eq (o : V) (s : σ) : toDesc W o s = descriptor W o s := by
  unfold toDesc descriptor
  cases W.isObj o with
  | false => rfl
  | true =>
    simp only [if_true, boolField_eq, valueField_eq, funcField_eq]
    simp only [andThen]
    cases field W o .enumerable s with
    | thr s e => rfl
    | ok s en =>
    simp only [done]
    cases field W o .configurable s with
    | thr s e => rfl
    | ok s c =>
    simp only
    cases field W o .value s with
    | thr s e => rfl
    | ok s v =>
    simp only
    cases field W o .writable s with
    | thr s e => rfl
    | ok s w =>
    simp only
    cases field W o .get s with
    | thr s e => rfl
    | ok s g =>
    simp only
    by_cases hg : funcOk W g = true
    case neg => simp [hg, Spec.throw]
    simp only [hg, if_true, done, andThen]
    cases field W o .set s with
    | thr s e => rfl
    | ok s st =>
    simp only
    by_cases hs : funcOk W st = true
    case neg => simp [hs, Spec.throw]
    simp only [hs, if_true, done]
    cases g <;> cases st <;> cases v <;> cases w <;> rfl

/-! ## Lists -/

theorem collect_acc {α β : Type} (l : List α) (f : α → Act σ E (List β)) (acc x : List β) (s : σ) :
    andThen (collect l f) (fun y => done (acc ++ x ++ y)) s =
      andThen (fun s => andThen (collect l f) (fun y => done (x ++ y)) s) (fun y => done (acc ++ y)) s := by
  simp only [andThen]
  cases h : collect l f s with
  | thr s e => rfl
  | ok s y => simp only [done, List.append_assoc]

/-- What the standard does with one key. -/
def listOne (o : V) (kind : Kind) (k : K) : Act σ E (List (Item K V)) :=
  andThen (W.getOwn o k) fun a =>
  if (a.map Attr.e).getD false then
    match kind with
    | .key => done [.key k]
    | .value => andThen (W.get o k) fun v => done [.value v]
    | .entry => andThen (W.get o k) fun v => done [.entry k v]
  else done []

theorem listLoop_eq (o : V) (kind : Kind) : ∀ (ks : List K) (acc : List (Item K V)) (s : σ),
    listLoop W o kind ks acc s =
      andThen (collect (ks.filter W.isStr) (listOne W o kind)) (fun y => done (acc ++ y)) s
  | [], acc, s => by simp [listLoop, collect, andThen, done]
  | k :: ks, acc, s => by
    rw [listLoop]
    cases hk : W.isStr k with
    | false =>
      rw [List.filter_cons_of_neg (by simp [hk])]
      exact listLoop_eq o kind ks acc s
    | true =>
      rw [List.filter_cons_of_pos (by simp [hk]), collect_cons]
      simp only [if_true]
      have step : ∀ (x : List (Item K V)) (s : σ), listLoop W o kind ks (acc ++ x) s =
          andThen (fun s => andThen (collect (ks.filter W.isStr) (listOne W o kind))
            (fun y => done (x ++ y)) s) (fun y => done (acc ++ y)) s := fun x s => by
        rw [listLoop_eq o kind ks (acc ++ x) s, collect_acc]
      have step0 : ∀ (s : σ), listLoop W o kind ks acc s =
          andThen (fun s => andThen (collect (ks.filter W.isStr) (listOne W o kind))
            (fun y => done ([] ++ y)) s) (fun y => done (acc ++ y)) s := fun s => by
        have := step [] s
        rwa [List.append_nil] at this
      cases hg : W.getOwn o k s with
      | thr s' e => simp only [andThen, listOne, hg]
      | ok s' a =>
        cases a with
        | none =>
          simp only
          rw [step0]
          simp only [andThen, listOne, hg, Option.map, Option.getD, Bool.false_eq_true, if_false, done]
        | some a =>
          cases ha : a.e with
          | false =>
            simp only [ha, Bool.false_eq_true, if_false]
            rw [step0]
            simp only [andThen, listOne, hg, Option.map, Option.getD, ha, Bool.false_eq_true, if_false, done]
          | true =>
            simp only [ha, if_true]
            cases kind with
            | key =>
              simp only
              rw [step]
              simp only [andThen, listOne, hg, Option.map, Option.getD, ha, if_true, done]
            | value =>
              simp only
              cases hv : W.get o k s' with
              | thr s'' e => simp only [andThen, listOne, hg, Option.map, Option.getD, ha, if_true, hv]
              | ok s'' v =>
                simp only
                rw [step]
                simp only [andThen, listOne, hg, Option.map, Option.getD, ha, if_true, done, hv]
            | entry =>
              simp only
              cases hv : W.get o k s' with
              | thr s'' e => simp only [andThen, listOne, hg, Option.map, Option.getD, ha, if_true, hv]
              | ok s'' v =>
                simp only
                rw [step]
                simp only [andThen, listOne, hg, Option.map, Option.getD, ha, if_true, done, hv]

/-! ## Assign -/

def assignOne (dst src : V) (k : K) : Act σ E Unit :=
  andThen (W.getOwn src k) fun a =>
  if (a.map Attr.e).getD false then
    andThen (W.get src k) fun v => must W (W.set dst k v)
  else done ()

theorem assignLoop_eq (dst src : V) : ∀ (ks : List K) (s : σ),
    assignLoop W dst src ks s = each ks (assignOne W dst src) s
  | [], s => rfl
  | k :: ks, s => by
    rw [assignLoop, each_cons]
    cases hg : W.getOwn src k s with
    | thr s' e => simp only [andThen, assignOne, hg]
    | ok s' a =>
      cases a with
      | none =>
        simp only [andThen, assignOne, hg, Option.map, Option.getD, Bool.false_eq_true, if_false, done]
        exact assignLoop_eq dst src ks s'
      | some a =>
        cases ha : a.e with
        | false =>
          simp only [andThen, assignOne, hg, Option.map, Option.getD, ha, Bool.false_eq_true, if_false, done]
          exact assignLoop_eq dst src ks s'
        | true =>
          simp only [andThen, assignOne, hg, Option.map, Option.getD, ha, if_true]
          cases hv : W.get src k s' with
          | thr s'' e => rfl
          | ok s'' v =>
            simp only [must, andThen]
            cases hb : W.set dst k v s'' with
            | thr s3 e => rfl
            | ok s3 b =>
              cases b with
              | false => rfl
              | true => simp only [if_true, done]; exact assignLoop_eq dst src ks s3

theorem sourcesLoop_eq (dst : V) : ∀ (xs : List V) (s : σ),
    sourcesLoop W dst xs s = each xs (fun x =>
      if W.isNullish x then done ()
      else
        andThen (W.toObj x) fun src =>
        andThen (W.keys src) fun ks => each ks (assignOne W dst src)) s
  | [], s => rfl
  | x :: xs, s => by
    rw [sourcesLoop, each_cons]
    cases hn : W.isNullish x with
    | true =>
      simp only [andThen, if_true, done]
      exact sourcesLoop_eq dst xs s
    | false =>
      simp only [andThen, Bool.false_eq_true, if_false]
      cases W.toObj x s with
      | thr s e => rfl
      | ok s src =>
        simp only
        cases W.keys src s with
        | thr s e => rfl
        | ok s ks =>
          simp only [assignLoop_eq]
          cases each ks (assignOne W dst src) s with
          | thr s e => rfl
          | ok s a => exact sourcesLoop_eq dst xs s

/-! ## defineProperties -/

/-- Reading the descriptors of a plain object: nothing changes, nothing throws, whatever the state. -/
def Plain (p : V) (k : K) : Prop :=
  ∃ a, (∀ s, W.getOwn p k s = .ok s (some a)) ∧
    (a.e = true → ∃ v d, (∀ s, W.get p k s = .ok s v) ∧ ∀ s, descriptor W v s = .ok s d)

def readOne (p : V) (k : K) : Act σ E (List (K × Desc V)) :=
  andThen (W.getOwn p k) fun a =>
  if (a.map Attr.e).getD false then
    andThen (W.get p k) fun v => andThen (descriptor W v) fun d => done [(k, d)]
  else done []

theorem defineLoop_eq (o p : V) : ∀ (ks : List K) (en : Bool), (∀ k ∈ ks, Plain W p k) →
    ∃ ds, (∀ s, collect ks (readOne W p) s = .ok s ds) ∧
      ∀ s, defineLoop W o p ks en s = each ds (fun x => must W (W.define o x.1 x.2)) s
  | [], en, _ => ⟨[], fun _ => rfl, fun _ => rfl⟩
  | k :: ks, en, h => by
    obtain ⟨a, h1, h2⟩ := h k (List.mem_cons_self ..)
    cases ha : a.e with
    | false =>
      obtain ⟨ds, h3, h4⟩ := defineLoop_eq o p ks false fun k hk => h k (List.mem_cons_of_mem _ hk)
      refine ⟨ds, fun s => ?_, fun s => ?_⟩
      · rw [collect_cons]
        simp only [andThen, readOne, h1, Option.map, Option.getD, ha, Bool.false_eq_true, if_false, done]
        have := h3 s
        simp only [this, List.nil_append]
      · rw [defineLoop]
        simp only [h1, ha, Bool.false_eq_true, if_false]
        exact h4 s
    | true =>
      obtain ⟨v, d, h5, h6⟩ := h2 ha
      obtain ⟨ds, h3, h4⟩ := defineLoop_eq o p ks true fun k hk => h k (List.mem_cons_of_mem _ hk)
      refine ⟨(k, d) :: ds, fun s => ?_, fun s => ?_⟩
      · rw [collect_cons]
        simp only [andThen, readOne, h1, Option.map, Option.getD, ha, if_true, h5, h6, done]
        have := h3 s
        simp only [this, List.singleton_append]
      · rw [defineLoop, each_cons]
        simp only [h1, ha, if_true, h5, toDesc_eq, h6, defineOrThrow_eq, andThen]
        cases must W (W.define o k d) s with
        | thr s e => rfl
        | ok s x => exact h4 s

end Verif.ObjFuncs

import Verif.Lemmas.ResolveCheck
import Verif.Props.Sort
import Verif.Props.Str
/-
C88: which variable an exported or imported name of a module stands for, and what namespace objects
show.
-/
namespace Verif.Resolve
variable {n : Nat} {V : Type}

/-- C88.  The search for an exported name ends, whatever cycles there are between modules. -/
theorem C88_ends (P : Prog n) (m : Fin n) (x : Name) : resolveExport P m x ≠ .limit :=
  resolve_ends P m x

/-- About the specification: the algorithm of the standard finds what the relational definition
says. -/
theorem C88_standard (P : Prog n) (h : P.Ok) (m : Fin n) (x : Name) :
    Meaning P (m, x) (Std.resolve P (fuel P) [] m x).1 := std_meaning h m x

/-- About the specification: a name has only one meaning. -/
theorem C88_one_meaning (P : Prog n) (v : Fin n × Name) (o o' : Out n) (h : Meaning P v o)
    (h' : Meaning P v o') : o.Same o' := meaning_same h h'

/-- C88, partial: where no imported name is exported again by a local export, and no name is
ambiguous within an `export *`, the code gives an exported name its meaning.  (Not so in general:
`C88_nested_ambiguity_violated`, `C88_reexport_violated`.) -/
theorem C88_resolve_partial (P : Prog n) (h : P.Ok) (hr : NoReexport P) (m : Fin n) (x : Name)
    (hp : PlainBelow P (m, x)) : Meaning P (m, x) (resolveExport P m x) := resolve_meaning h hr hp

/-- C88, partial: with ambiguous names allowed: names without a meaning have none, names with one
meaning have this one, and for an ambiguous name nothing is made up: the answer is ambiguous or one
of the candidates. -/
theorem C88_unambiguous_partial (P : Prog n) (h : P.Ok) (hr : NoReexport P) (m : Fin n) (x : Name) :
    (resolveExport P m x = .none ↔ Meaning P (m, x) .none) ∧
    (∀ b, Meaning P (m, x) (.one b) → resolveExport P m x = .one b) ∧
    (∀ b, resolveExport P m x = .one b → Cand P (m, x) b) ∧
    (∀ b, resolveExport P m x = .amb b → Meaning P (m, x) (.amb b)) := by
  obtain ⟨h0, h1, h2⟩ := resolve_weak h hr m x
  refine ⟨h0.trans ⟨.nothing, fun hm => ?_⟩, fun b => resolve_one h hr, h1, fun b e => ?_⟩
  · cases hm with
    | nothing hn => exact hn
  · obtain ⟨h3, b', h4, h5⟩ := h2 b e
    exact .ambiguous h3 h5 h4

/-- C88.  The names of a namespace object: each name which resolves to one binding, once, in the
order of the code units. -/
theorem C88_names (P : Prog n) (h : P.Ok) (m : Fin n) :
    ∃ l, nsNames P m = some l ∧ l.Pairwise (List.Lex (· < ·)) ∧
      ∀ x, x ∈ l ↔ ∃ b, resolveExport P m x = .one b := by
  cases hg : getNames P (n + 1) ([], []) m with
  | none =>
    refine absurd hg (getNames_ends _ _ _ ?_)
    refine Nat.lt_succ_of_le (Nat.le_trans (List.length_filter_le _ _) ?_)
    simp
  | some st =>
    obtain ⟨g, hm⟩ := getNames_good _ _ _ _ hg
    unfold nsNames
    rw [hg]
    refine ⟨_, rfl, ?_⟩
    dsimp only
    generalize hq : (fun x => match resolveExport P m x with
      | .one _ => true
      | _ => false) = q
    have hq' : ∀ x, q x = true ↔ ∃ b, resolveExport P m x = .one b := by
      intro x
      subst hq
      dsimp only
      cases resolveExport P m x <;> simp
    let le : Name → Name → Bool := fun a b => decide (Str.compare a b ≠ .greater)
    have hle : ∀ a b, le a b = true ↔ Str.compare a b ≠ .greater := fun a b => decide_eq_true_iff
    obtain ⟨_, hperm, hsorted, _⟩ := Sort.C01_sorted_stable le
      (by
        intro x y z hxy hyz
        rw [hle] at *
        rw [Ne, (Str.C27_compare _ _).2.2] at *
        exact List.not_lt.2 (List.le_trans (List.not_lt.1 hxy) (List.not_lt.1 hyz)))
      (by
        intro x y
        rw [hle, hle]
        by_cases hx : Str.compare x y = .greater
        · right
          rw [(Str.C27_order y x y).2.1.2 hx]
          exact fun e => nomatch e
        · exact .inl hx)
      nameCmp
      (by
        intro s x y
        refine ⟨rfl, ?_, ?_⟩
        · unfold nameCmp
          dsimp only
          cases Str.compare x y <;> exact fun e => nomatch e
        · rw [hle]
          unfold nameCmp
          dsimp only
          cases Str.compare x y <;> simp)
      () (st.2.filter q)
    generalize (Sort.rjsSort nameCmp () (st.2.filter q)).arr = arr at hperm hsorted
    have hnd : arr.Nodup := hperm.nodup_iff.2 ((g.nodup List.nodup_nil).filter q)
    refine ⟨?_, fun x => ?_⟩
    · refine (hsorted.and hnd).imp ?_
      rintro a b ⟨h1, h2⟩
      rw [hle] at h1
      rcases (Str.C27_order a b a).2.2 with h3 | h3 | h3
      · exact absurd ((Str.C27_compare a b).2.1.1 h3) h2
      · exact (Str.C27_compare a b).1.1 h3
      · exact absurd h3 h1
    · rw [hperm.mem_iff, List.mem_filter, hq']
      refine ⟨fun h => h.2, fun hx => ⟨?_, hx⟩⟩
      obtain ⟨b, hb⟩ := hx
      have hs := resolve_snd P m x
      rw [hb] at hs
      exact names_of_cand g.closed h hs hm

/-- C88, partial: where no imported name is exported again, a namespace has all names with exactly
one meaning, and no name without a meaning. -/
theorem C88_names_partial (P : Prog n) (h : P.Ok) (hr : NoReexport P) (m : Fin n) (l : List Name)
    (hl : nsNames P m = some l) (x : Name) :
    ((∃ b, Meaning P (m, x) (.one b)) → x ∈ l) ∧ (x ∈ l → ∃ b, Cand P (m, x) b) ∧
    (PlainBelow P (m, x) → (x ∈ l ↔ ∃ b, Meaning P (m, x) (.one b))) := by
  obtain ⟨l', h1, _, h2⟩ := C88_names P h m
  rw [hl] at h1
  cases h1
  have a : (∃ b, Meaning P (m, x) (.one b)) → x ∈ l := by
    rintro ⟨b, hb⟩
    exact (h2 x).2 ⟨b, resolve_one h hr hb⟩
  refine ⟨a, fun hx => ?_, fun hp => ⟨fun hx => ?_, a⟩⟩
  · obtain ⟨b, hb⟩ := (h2 x).1 hx
    exact ⟨b, (resolve_weak h hr m x).2.1 b hb⟩
  · obtain ⟨b, hb⟩ := (h2 x).1 hx
    have := resolve_meaning h hr hp
    rw [hb] at this
    exact ⟨b, this⟩

/-- C88.  A module is linked if and only if each of its indirect exports and each of its imports
resolves. -/
theorem C88_link (P : Prog n) (nsv : Fin n → V) (m : Fin n) :
    initEnv P nsv m ≠ none ↔
      (∀ x k y, .ind x k y ∈ (P m).exports → ∃ b, resolveExport P m x = .one b) ∧
      (∀ x k, .ns x k ∈ (P m).exports → ∃ b, resolveExport P m x = .one b) ∧
      ∀ i ∈ (P m).imports, ∀ y, i.name = some y → ∃ b, resolveExport P i.mod y = .one b := by
  rw [initEnv_iff]
  constructor
  · rintro ⟨h1, h2⟩
    exact ⟨fun x k y h => h1 _ h rfl x rfl, fun x k h => h1 _ h rfl x rfl, h2⟩
  · rintro ⟨h1, h2, h3⟩
    refine ⟨fun e he hi x hx => ?_, h3⟩
    cases e with
    | loc ex l => cases hi
    | star k => cases hi
    | ind ex k im => cases hx; exact h1 _ _ _ he
    | ns ex k => cases hx; exact h2 _ _ he

/-- C88, partial: where no imported name is exported again, what the standard links is linked; where
besides no name is ambiguous within an `export *`, nothing else is. -/
theorem C88_link_partial (P : Prog n) (h : P.Ok) (hr : NoReexport P) (nsv : Fin n → V) (m : Fin n) :
    (Links P m → initEnv P nsv m ≠ none) ∧
    ((∀ k x, PlainBelow P (k, x)) → initEnv P nsv m ≠ none → Links P m) := by
  constructor
  · rintro ⟨h1, h2⟩
    rw [C88_link]
    refine ⟨fun x k y hx => ?_, fun x k hx => ?_, fun i hi y hy => ?_⟩
    · obtain ⟨b, hb⟩ := h1 x k y (.ind hx)
      exact ⟨b, resolve_one h hr hb⟩
    · exact ⟨_, resolve_one h hr (explicit_one h (.ns hx))⟩
    · obtain ⟨b, hb⟩ := h2 i hi y hy
      exact ⟨b, resolve_one h hr hb⟩
  · intro hp he
    rw [C88_link] at he
    obtain ⟨h1, _, h3⟩ := he
    refine ⟨fun x k y hx => ?_, fun i hi y hy => ?_⟩
    · cases hx with
      | again he hi hn => exact absurd he (hr m _ _ hi (by rw [hn]; exact fun e => nomatch e))
      | ind he =>
        obtain ⟨b, hb⟩ := h1 _ _ _ he
        have := resolve_meaning h hr (hp m x)
        rw [hb] at this
        exact ⟨b, this⟩
    · obtain ⟨b, hb⟩ := h3 i hi y hy
      have := resolve_meaning h hr (hp i.mod y)
      rw [hb] at this
      exact ⟨b, this⟩

/-- C88, partial: where no imported name is exported again: after any linking and assigning of
variables, reading an imported name with one meaning gives what the variable it stands for has now
in its own module.  (Two calls are enough.) -/
theorem C88_live_partial (P : Prog n) (h : P.Ok) (hr : NoReexport P) (nsv : Fin n → V)
    (ops : List (Op n V)) (m : Fin n) (i : Imp n) (hi : i ∈ (P m).imports) (y : Name)
    (hy : i.name = some y) (b : Bind n) (hb : Meaning P (i.mod, y) (.one b))
    (hm : run P nsv ops m ≠ none) (f : Nat) :
    Now nsv (run P nsv ops) b (read (run P nsv ops) (f + 2) m i.loc) := by
  have inv := inv_run (nsv := nsv) h ops
  generalize run P nsv ops = st at inv hm
  cases hs : st m with
  | none => exact absurd hs hm
  | some e =>
    obtain ⟨c, hc, hec⟩ := (inv m e hs).imp i hi
    have hres := resolve_one h hr hb
    rcases bindImp_cases hc with ⟨h1, _⟩ | ⟨y', h1, ⟨k, h2, rfl⟩ | ⟨k, l, h2, rfl⟩⟩
    · rw [hy] at h1; cases h1
    · rw [hy] at h1; cases h1
      rw [hres] at h2
      cases h2
      unfold read
      simp only [hs, hec]
      exact .namespace k
    · rw [hy] at h1; cases h1
      rw [hres] at h2
      cases h2
      have hsnd := resolve_snd P i.mod y
      rw [hres] at hsnd
      have : read st (f + 2) m i.loc = read st (f + 1) k l := by
        rw [read]; simp only [hs, hec]
      rw [this]
      rcases cand_code h hsnd with ⟨_, h3⟩ | ⟨p, j, z, h3, h4, h5, h6⟩
      · obtain ⟨⟨x, hx⟩, hl⟩ := h3 k l rfl
        exact read_own h inv hx hl f
      · cases h3
        obtain ⟨x, hx⟩ : ∃ x, .loc x j.loc ∈ (P k).exports := exported_of_cand h hsnd
        exact absurd hx (hr k x j h4 (by rw [h5]; exact fun e => nomatch e))

/-- C88, partial: with imported names exported again, and all modules linked: if reading an imported
name with one meaning ends, it gives what the variable it stands for has.  (It need not end:
`C88_cycle_violated`.) -/
theorem C88_again_partial (P : Prog n) (h : P.Ok) (nsv : Fin n → V) (ops : List (Op n V))
    (hall : ∀ k, run P nsv ops k ≠ none) (m : Fin n) (i : Imp n) (hi : i ∈ (P m).imports)
    (y : Name) (hy : i.name = some y) (b : Bind n) (hb : Meaning P (i.mod, y) (.one b)) (f : Nat) :
    read (run P nsv ops) f m i.loc = .limit ∨
      Now nsv (run P nsv ops) b (read (run P nsv ops) f m i.loc) := by
  cases hb with
  | one _ hu => exact read_import h (inv_run h ops) hall f m i y hi hy hu

/-- C88.  Imported names cannot be assigned. -/
theorem C88_import_constant (P : Prog n) (h : P.Ok) (nsv : Fin n → V) (ops : List (Op n V))
    (m : Fin n) (i : Imp n) (hi : i ∈ (P m).imports) (v : V) :
    run P nsv (ops ++ [.put m i.loc v]) = run P nsv ops := by
  have inv := inv_run (nsv := nsv) h ops
  have : run P nsv (ops ++ [.put m i.loc v]) = step P nsv (run P nsv ops) (.put m i.loc v) := by
    unfold run; rw [List.foldl_append]; rfl
  rw [this]
  generalize run P nsv ops = st at inv
  dsimp only [step]
  cases hs : st m with
  | none => rfl
  | some e =>
    obtain ⟨c, hc, hec⟩ := (inv m e hs).imp i hi
    dsimp only
    rw [hec]
    rcases bindImp_cases hc with ⟨_, rfl⟩ | ⟨y', _, ⟨k, _, rfl⟩ | ⟨k, l, _, rfl⟩⟩ <;> rfl

/-- C88, partial: where no imported name is exported again: a property of a namespace object gives,
at any time, what the variable has in its own module; names which are not listed give undefined. -/
theorem C88_get_partial (P : Prog n) (h : P.Ok) (hr : NoReexport P) (nsv : Fin n → V)
    (ops : List (Op n V)) (m : Fin n) (l : List Name) (hl : nsNames P m = some l) (x : Name)
    (f : Nat) :
    (x ∉ l → nsGet P nsv (run P nsv ops) (f + 1) l m x = none) ∧
    (x ∈ l → ∃ b r, Cand P (m, x) b ∧ Now nsv (run P nsv ops) b r ∧
      nsGet P nsv (run P nsv ops) (f + 1) l m x = some r) ∧
    ∀ b, Meaning P (m, x) (.one b) → ∃ r, Now nsv (run P nsv ops) b r ∧
      nsGet P nsv (run P nsv ops) (f + 1) l m x = some r := by
  obtain ⟨l', h1, _, h2⟩ := C88_names P h m
  rw [hl] at h1
  cases h1
  have inv := inv_run (nsv := nsv) h ops
  generalize run P nsv ops = st at inv
  have key : ∀ b, resolveExport P m x = .one b → Cand P (m, x) b ∧ ∃ r, Now nsv st b r ∧
      nsGet P nsv st (f + 1) l m x = some r := by
    intro b hb
    have hx := (h2 x).2 ⟨b, hb⟩
    refine ⟨(resolve_weak h hr m x).2.1 b hb, ?_⟩
    unfold nsGet
    rw [if_pos hx, hb]
    cases b with
    | ns k => exact ⟨_, .namespace k, rfl⟩
    | var k v =>
      refine ⟨_, ?_, rfl⟩
      have hsnd := resolve_snd P m x
      rw [hb] at hsnd
      rcases cand_code h hsnd with ⟨_, h3⟩ | ⟨p, j, z, h3, h4, h5, h6⟩
      · obtain ⟨⟨x, hx⟩, hl⟩ := h3 k v rfl
        exact read_own h inv hx hl f
      · cases h3
        obtain ⟨x, hx⟩ : ∃ x, .loc x j.loc ∈ (P k).exports := exported_of_cand h hsnd
        exact absurd hx (hr k x j h4 (by rw [h5]; exact fun e => nomatch e))
  refine ⟨fun hx => ?_, fun hx => ?_, fun b hb => (key b (resolve_one h hr hb)).2⟩
  · unfold nsGet; rw [if_neg hx]
  · obtain ⟨b, hb⟩ := (h2 x).1 hx
    obtain ⟨h3, r, h4, h5⟩ := key b hb
    exact ⟨b, r, h3, h4, h5⟩

/-- C88.  Properties of a namespace object cannot be changed: a definition succeeds if and only if
the property exists and nothing about it would become different; nothing is assigned; nothing
which exists is deleted. -/
theorem C88_fixed [DecidableEq V] (P : Prog n) (nsv : Fin n → V) (st : Envs n V) (f : Nat)
    (l : List Name) (m : Fin n) (x : Name) (d : Desc V) (v : V) :
    (nsDefine P nsv st f l m x d = .ok true ↔
      ∃ w, nsGet P nsv st f l m x = some (.value w) ∧ d.accessor = false ∧
        (∀ u, d.value = some u → u = w) ∧ (∀ b, d.writable = some b → b = true) ∧
        (∀ b, d.enumerable = some b → b = true) ∧ ∀ b, d.configurable = some b → b = false) ∧
    nsSet x v = false ∧ (nsHas l x = true ↔ x ∈ l) ∧ (nsDelete l x = true ↔ x ∉ l) := by
  refine ⟨?_, rfl, by simp [nsHas], by simp [nsDelete]⟩
  obtain ⟨dv, dw, de, dc, da⟩ := d
  unfold nsDefine nsGetOwn
  by_cases hx : x ∈ l
  · rw [if_pos hx]
    generalize nsGet P nsv st f l m x = g
    cases g with
    | none => simp
    | some r =>
      cases r with
      | value w =>
        rcases dv with _ | dv <;> rcases dw with _ | _ | _ <;> rcases de with _ | _ | _ <;>
          rcases dc with _ | _ | _ <;> rcases da with _ | _ <;> simp
      | referenceError => simp
      | noBinding => simp
      | limit => simp
  · rw [if_neg hx]
    have : nsGet P nsv st f l m x = none := by unfold nsGet; rw [if_neg hx]
    simp [this]

/-- C88.  The descriptors of a namespace object: writable, enumerable, not configurable, with the
current value; the ReferenceError of a variable without a value is passed on. -/
theorem C88_descriptor (P : Prog n) (nsv : Fin n → V) (st : Envs n V) (f : Nat) (l : List Name)
    (m : Fin n) (x : Name) :
    (∀ d, nsGetOwn P nsv st f l m x = .ok (some d) ↔
      ∃ v, nsGet P nsv st f l m x = some (.value v) ∧ d.value = some v ∧ d.writable = some true ∧
        d.enumerable = some true ∧ d.configurable = some false ∧ d.accessor = false) ∧
    (nsGetOwn P nsv st f l m x = .ok none ↔ x ∉ l) ∧
    (nsGet P nsv st f l m x = some .referenceError →
      nsGetOwn P nsv st f l m x = .error .referenceError) := by
  unfold nsGetOwn
  by_cases hx : x ∈ l
  · have hne : nsGet P nsv st f l m x ≠ none := by
      unfold nsGet
      rw [if_pos hx]
      split <;> exact fun e => nomatch e
    simp only [if_pos hx]
    generalize nsGet P nsv st f l m x = g at hne
    rcases g with _ | ⟨v⟩ | _ | _ | _
    · exact absurd rfl hne
    · refine ⟨fun d => ?_, ?_, ?_⟩
      · constructor
        · intro e
          cases e
          exact ⟨v, rfl, rfl, rfl, rfl, rfl, rfl⟩
        · rintro ⟨w, hw, h1, h2, h3, h4, h5⟩
          obtain ⟨a, b, c, e, g⟩ := d
          cases hw; cases h1; cases h2; cases h3; cases h4; cases h5
          rfl
      · simp [hx]
      · exact fun e => nomatch e
    · simp [hx]
    · simp [hx]
    · simp [hx]
  · have : nsGet P nsv st f l m x = none := by unfold nsGet; rw [if_neg hx]
    simp [this, hx]

/-- C88.  Linking changes nothing where it was done before, or fails; otherwise the module has an
environment in which no declared variable has a value, and other modules are as before. -/
theorem C88_link_once (P : Prog n) (nsv : Fin n → V) (ops : List (Op n V)) (m : Fin n) :
    let st := run P nsv ops
    let st' := run P nsv (ops ++ [.link m])
    (∀ k, k ≠ m → st' k = st k) ∧ (st m ≠ none → st' = st) ∧
    (st m = none → (st' m ≠ none ↔ initEnv P nsv m ≠ none) ∧
      (st' m ≠ none → ∀ f, ∀ x ∈ (P m).decls, read st' (f + 1) m x = .referenceError)) := by
  have : run P nsv (ops ++ [.link m]) = step P nsv (run P nsv ops) (.link m) := by
    unfold run; rw [List.foldl_append]; rfl
  dsimp only
  rw [this]
  generalize run P nsv ops = st
  dsimp only [step]
  cases hs : st m with
  | some e => exact ⟨fun _ _ => rfl, fun _ => rfl, fun e => nomatch e⟩
  | none =>
    dsimp only
    cases he : initEnv P nsv m with
    | none =>
      exact ⟨fun _ _ => rfl, fun e => absurd rfl e,
        fun _ => ⟨⟨fun h => absurd hs h, fun h => absurd rfl h⟩, fun h => absurd hs h⟩⟩
    | some e =>
      dsimp only
      refine ⟨fun k hk => if_neg hk, fun e => absurd rfl e, fun _ => ⟨?_, fun _ f x hx => ?_⟩⟩
      · rw [if_pos rfl]
      · unfold read
        rw [if_pos rfl]
        dsimp only
        have : e x = some .uninit := by
          unfold initEnv at he
          split at he
          · cases hb : bindImports P nsv (P m).imports (fun _ => none) with
            | none => rw [hb] at he; cases he
            | some e0 =>
              rw [hb] at he
              cases he
              exact (declare_spec (P m).decls e0).1 x hx
          · cases he
        rw [this]

/-! ### Where the code is wrong -/

/-- `x`, `y` and so on. -/
def nx : Name := [120]
def ny : Name := [121]

/-- `m0: export * from m1`, `m1: export * from m2; export * from m3`, and `m2` and `m3` both
`export let x`. -/
def nested : Prog 4
  | 0 => ⟨[], [.star 1], []⟩
  | 1 => ⟨[], [.star 2, .star 3], []⟩
  | 2 => ⟨[], [.loc nx nx], [nx]⟩
  | 3 => ⟨[], [.loc nx nx], [nx]⟩

/-- C88, violated: a name which is ambiguous in a module all of whose names are exported is taken
for the first of its candidates; and the namespace has it. -/
theorem C88_nested_ambiguity_violated : nested.Ok ∧ NoReexport nested ∧
    (∃ b, Meaning nested (0, nx) (.amb b)) ∧ (∃ b, Meaning nested (1, nx) (.amb b)) ∧
    resolveExport nested 0 nx = .one (.var 2 nx) ∧ (∃ b, resolveExport nested 1 nx = .amb b) ∧
    nsNames nested 0 = some [nx] ∧ nsNames nested 1 = some [] := by
  have hok : nested.Ok := ok_of_check (by decide)
  exact ⟨hok, noRe_of_check (by decide), ⟨.var 2 nx, std_meaning hok 0 nx⟩,
    ⟨.var 2 nx, std_meaning hok 1 nx⟩, by decide, ⟨.var 2 nx, by decide⟩, by decide +kernel,
    by decide +kernel⟩

/-- `m0: export * from m1; export * from m2`, `m1: import {x} from m3; export {x}`,
`m2: export {x} from m3`, `m3: export let x`. -/
def again : Prog 4
  | 0 => ⟨[], [.star 1, .star 2], []⟩
  | 1 => ⟨[⟨3, some nx, nx⟩], [.loc nx nx], []⟩
  | 2 => ⟨[], [.ind nx 3 nx], []⟩
  | 3 => ⟨[], [.loc nx nx], [nx]⟩

/-- C88, violated: an imported name which is exported again is taken for a variable of its own, so
that a name with one meaning is ambiguous. -/
theorem C88_reexport_violated : again.Ok ∧ Meaning again (0, nx) (.one (.var 3 nx)) ∧
    (∃ b, resolveExport again 0 nx = .amb b) ∧ nsNames again 0 = some [] := by
  have hok : again.Ok := ok_of_check (by decide)
  exact ⟨hok, std_meaning hok 0 nx, ⟨.var 1 nx, by decide⟩, by decide +kernel⟩

/-- `m0: import {x} from m1; export {x}`, `m1: export * from m2`,
`m2: export * from m0; export * from m3`, `m3: export let x`. -/
def cycle : Prog 4
  | 0 => ⟨[⟨1, some nx, nx⟩], [.loc nx nx], []⟩
  | 1 => ⟨[], [.star 2], []⟩
  | 2 => ⟨[], [.star 0, .star 3], []⟩
  | 3 => ⟨[], [.loc nx nx], [nx]⟩

/-- All modules of it are linked, and the variable gets a value. -/
def cycleOps : List (Op 4 Nat) := [.link 3, .link 2, .link 1, .link 0, .put 3 nx 7]

/-- C88, violated: the standard links all modules of this program, and the imported `x` stands for
the variable of `m3`; in the code the imported name stands for itself, and reading it never ends. -/
theorem C88_cycle_violated : cycle.Ok ∧ (∀ m, Links cycle m) ∧
    Meaning cycle (1, nx) (.one (.var 3 nx)) ∧
    (∀ k, run cycle (fun _ => 0) cycleOps k ≠ none) ∧
    Now (fun _ => 0) (run cycle (fun _ => 0) cycleOps) (.var 3 nx) (.value 7) ∧
    ∀ f, read (run cycle (fun _ => 0) cycleOps) f 0 nx = .limit := by
  have hok : cycle.Ok := ok_of_check (by decide)
  have hm1 : Meaning cycle (1, nx) (.one (.var 3 nx)) := std_meaning hok 1 nx
  refine ⟨hok, ?_, hm1, by decide, .value rfl rfl, ?_⟩
  · have : ∀ m, linksB cycle m = true := by decide
    exact fun m => links_of_check hok (this m)
  · intro f
    induction f with
    | zero => rfl
    | succ f ih => exact ih

/-- `m0: import {x} from m1; export {x}`, `m1: import {x} from m0; export {x}`. -/
def circular : Prog 2
  | 0 => ⟨[⟨1, some nx, nx⟩], [.loc nx nx], []⟩
  | 1 => ⟨[⟨0, some nx, nx⟩], [.loc nx nx], []⟩

/-- C88, violated: names which stand for each other have no meaning, and the standard does not link
the modules; the code does. -/
theorem C88_circular_violated : circular.Ok ∧ Meaning circular (1, nx) .none ∧
    ¬ Links circular 0 ∧ initEnv circular (fun _ => (0 : Nat)) 0 ≠ none ∧
    initEnv circular (fun _ => (0 : Nat)) 1 ≠ none := by
  have hok : circular.Ok := ok_of_check (by decide)
  have hm : Meaning circular (1, nx) .none := std_meaning hok 1 nx
  refine ⟨hok, hm, fun h => ?_, ?_, ?_⟩
  · obtain ⟨b, hb⟩ := h.2 _ (List.mem_cons_self ..) nx rfl
    exact nomatch meaning_same hm hb
  · exact fun e => nomatch e
  · exact fun e => nomatch e

/-! ### Examples -/

/-- `m0: import {x as y, z} from m1; import * as w from m2; export {y as z} from m2`,
`m1: export * from m2; export * from m0; export * as z from m2`, `m2: export let y; let x; export {x}`. -/
def prog : Prog 3
  | 0 => ⟨[⟨1, some nx, ny⟩, ⟨1, some [122], [122]⟩, ⟨2, none, [119]⟩], [.ind [122] 2 ny, .star 1], []⟩
  | 1 => ⟨[], [.star 2, .star 0, .ns [122] 2], []⟩
  | 2 => ⟨[], [.loc ny ny, .loc nx nx], [nx, ny]⟩

theorem prog_ok : prog.Ok := ok_of_check (by decide)
theorem prog_noRe : NoReexport prog := noRe_of_check (by decide)

example : prog.Ok ∧ NoReexport prog ∧ PlainBelow prog (0, nx) ∧
    resolveExport prog 0 nx = .one (.var 2 nx) ∧ resolveExport prog 0 [122] = .one (.var 2 ny) ∧
    resolveExport prog 1 [122] = .one (.ns 2) ∧ resolveExport prog 1 [97] = .none :=
  ⟨prog_ok, prog_noRe,
    plain_of_check prog_ok (S := [(0, nx), (1, nx), (2, nx)]) (by decide) (by decide),
    by decide, by decide, by decide, by decide⟩

example : nsNames prog 0 = some [nx, ny, [122]] ∧ nsNames prog 1 = some [nx, ny, [122]] := by
  decide +kernel

/-- Linking and reading: `y` of `m0` is `x` of `m2`, before and after it has a value. -/
example : let ops : List (Op 3 Nat) := [.link 2, .link 1, .link 0]
    run prog (fun _ => 0) ops 0 ≠ none ∧ Links prog 0 ∧
    Meaning prog (1, nx) (.one (.var 2 nx)) ∧
    read (run prog (fun _ => 0) ops) 2 0 ny = .referenceError ∧
    read (run prog (fun _ => 0) (ops ++ [.put 2 nx 5])) 2 0 ny = .value 5 ∧
    read (run prog (fun _ => 0) (ops ++ [.put 2 nx 5, .put 2 nx 6])) 2 0 ny = .value 6 ∧
    nsGet prog (fun _ => 0) (run prog (fun _ => 0) (ops ++ [.put 2 nx 5])) 1 [nx, ny, [122]] 1 nx =
      some (.value 5) := by
  exact ⟨by decide, links_of_check prog_ok (by decide), std_meaning prog_ok 1 nx, by decide,
    by decide, by decide, by decide⟩

/-- A program of `C88_again_partial` where the read ends: an imported name exported again. -/
example : let st := run again (fun _ => 0) [.link 3, .link 2, .link 1, .link 0, .put 3 nx 9]
    again.Ok ∧ (∀ k, st k ≠ none) ∧ Meaning again (3, nx) (.one (.var 3 nx)) ∧
    read st 2 1 nx = .value 9 :=
  ⟨ok_of_check (by decide), by decide, std_meaning (ok_of_check (by decide)) 3 nx, by decide⟩

/-- Definitions on a namespace object. -/
example : let st := run prog (fun _ => (0 : Nat)) [.link 2, .put 2 nx 5]
    nsDefine prog (fun _ => 0) st 1 [nx, ny] 2 nx ⟨some 5, none, some true, none, false⟩ = .ok true ∧
    nsDefine prog (fun _ => 0) st 1 [nx, ny] 2 nx ⟨some 6, none, none, none, false⟩ = .ok false ∧
    nsDefine prog (fun _ => 0) st 1 [nx, ny] 2 nx ⟨none, none, none, some true, false⟩ = .ok false :=
  ⟨rfl, rfl, rfl⟩

end Verif.Resolve

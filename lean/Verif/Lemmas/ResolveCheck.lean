import Verif.Lemmas.ResolveEnv
/-
Answers with re-exports excluded, and checks of concrete programs.
-/
namespace Verif.Resolve
variable {n : Nat}

theorem resolve_ends (P : Prog n) (m : Fin n) (x : Name) : resolveExport P m x ≠ .limit := by
  rw [resolveExport_eq]; exact code_ends P m x

theorem std_meaning {P : Prog n} (h : P.Ok) (m : Fin n) (x : Name) :
    Meaning P (m, x) (Std.resolve P (fuel P) [] m x).1 := by
  rw [stdResolve_eq]
  exact (meaning_iff h).1 (meaning_gres (std_ends P m x) (fun e => nomatch e))

theorem cand_of_code {P : Prog n} (h : P.Ok) (hr : NoReexport P) {v : Fin n × Name} {b : Bind n} :
    GCand (codeTab P) v b ↔ Cand P v b := by
  rw [tab_eq h hr]; exact cand_iff h

theorem resolve_meaning {P : Prog n} (h : P.Ok) (hr : NoReexport P) {m : Fin n} {x : Name}
    (hp : PlainBelow P (m, x)) : Meaning P (m, x) (resolveExport P m x) := by
  have he := code_ends P m x
  rw [resolveExport_eq]
  rw [tab_eq h hr] at he ⊢
  refine (meaning_iff h).1 (meaning_gres he fun _ v k hv hl hd hk b b' hb hb' => ?_)
  exact hp v.1 k v.2 ((reach_iff h).1 hv) ((stdLook_none (h _)).1 hl) hd (mem_starOf.1 hk) b b'
    ((cand_iff h).1 hb) ((cand_iff h).1 hb')

/-- Without assumptions about ambiguous names. -/
theorem resolve_weak {P : Prog n} (h : P.Ok) (hr : NoReexport P) (m : Fin n) (x : Name) :
    (resolveExport P m x = .none ↔ ∀ b, ¬ Cand P (m, x) b) ∧
    (∀ b, resolveExport P m x = .one b → Cand P (m, x) b) ∧
    (∀ b, resolveExport P m x = .amb b → Cand P (m, x) b ∧ ∃ b', b' ≠ b ∧ Cand P (m, x) b') := by
  have hs := resolve_snd P m x
  have hw := (weak_gres (sw := true) (T := codeTab P) (f := fuel P) (v := (m, x))
    (code_ends P m x)).2
  rw [← resolveExport_eq] at hw
  have hl := resolve_ends P m x
  have h1 : ∀ b, resolveExport P m x = .one b → Cand P (m, x) b := by
    intro b e; rw [e] at hs; exact (cand_of_code h hr).1 hs
  have h2 : ∀ b, resolveExport P m x = .amb b →
      Cand P (m, x) b ∧ ∃ b', b' ≠ b ∧ Cand P (m, x) b' := by
    intro b e
    rw [e] at hs
    obtain ⟨h3, b', h4, h5⟩ := hs
    exact ⟨(cand_of_code h hr).1 h3, b', h4, (cand_of_code h hr).1 h5⟩
  refine ⟨⟨fun e b hb => hw e b ((cand_of_code h hr).2 hb), fun hn => ?_⟩, h1, h2⟩
  cases e : resolveExport P m x with
  | none => rfl
  | limit => exact absurd e hl
  | one b => exact absurd (h1 b e) (hn b)
  | amb b => exact absurd (h2 b e).1 (hn b)

theorem resolve_one {P : Prog n} (h : P.Ok) (hr : NoReexport P) {m : Fin n} {x : Name}
    {b : Bind n} (hm : Meaning P (m, x) (.one b)) : resolveExport P m x = .one b := by
  obtain ⟨h0, h1, h2⟩ := resolve_weak h hr m x
  cases hm with
  | one hc hu =>
    cases e : resolveExport P m x with
    | none => exact absurd hc (h0.1 e b)
    | limit => exact absurd e (resolve_ends P m x)
    | one c => rw [hu c (h1 c e)]
    | amb c =>
      obtain ⟨hc1, c', hne, hc2⟩ := h2 c e
      exact absurd ((hu _ hc2).trans (hu _ hc1).symm) hne

/-- A name with an entry of its own has this meaning only. -/
theorem explicit_one {P : Prog n} (h : P.Ok) {m : Fin n} {x : Name} {b : Bind n}
    (he : Explicit P m x (.fin b)) : Meaning P (m, x) (.one b) := by
  refine .one (.here he) fun b' hb' => ?_
  have h1 := (explicit_iff (h m)).2 he
  cases hb' with
  | here h2 =>
    have := (explicit_iff (h m)).2 h2
    rw [h1] at this
    cases this
    rfl
  | next h2 _ =>
    cases h2 with
    | entry h3 =>
      have := (explicit_iff (h m)).2 h3
      rw [h1] at this
      cases this
    | star h3 _ _ => exact absurd he (h3 _)

theorem checkIndir_iff {P : Prog n} {m : Fin n} : ∀ es : List (Exp n),
    checkIndir P m es = true ↔
      ∀ e ∈ es, e.isIndir = true → ∀ x, e.name = some x → ∃ b, resolveExport P m x = .one b := by
  intro es
  induction es with
  | nil => exact ⟨fun _ e he => absurd he List.not_mem_nil, fun _ => rfl⟩
  | cons e es ih =>
    have go : ∀ ex, e.isIndir = true → e.name = some ex →
        ((match resolveExport P m ex with
          | .one _ => checkIndir P m es
          | _ => false) = true ↔
        ∀ e' ∈ e :: es, e'.isIndir = true → ∀ x, e'.name = some x →
          ∃ b, resolveExport P m x = .one b) := by
      intro ex hi hn
      cases hr : resolveExport P m ex with
      | one b =>
        dsimp only
        rw [ih]
        constructor
        · intro h e' he' hi' x hx
          rcases List.mem_cons.1 he' with rfl | he'
          · rw [hn] at hx; cases hx; exact ⟨b, hr⟩
          · exact h e' he' hi' x hx
        · intro h e' he'; exact h e' (List.mem_cons_of_mem _ he')
      | none =>
        refine ⟨fun h => (nomatch h), fun h => ?_⟩
        obtain ⟨b, hb⟩ := h e (List.mem_cons_self ..) hi ex hn
        rw [hr] at hb; cases hb
      | limit =>
        refine ⟨fun h => (nomatch h), fun h => ?_⟩
        obtain ⟨b, hb⟩ := h e (List.mem_cons_self ..) hi ex hn
        rw [hr] at hb; cases hb
      | amb c =>
        refine ⟨fun h => (nomatch h), fun h => ?_⟩
        obtain ⟨b, hb⟩ := h e (List.mem_cons_self ..) hi ex hn
        rw [hr] at hb; cases hb
    have skip : e.isIndir = false → checkIndir P m (e :: es) = checkIndir P m es →
        (checkIndir P m (e :: es) = true ↔
        ∀ e' ∈ e :: es, e'.isIndir = true → ∀ x, e'.name = some x →
          ∃ b, resolveExport P m x = .one b) := by
      intro hi hc
      rw [hc, ih]
      constructor
      · intro h e' he' hi' x hx
        rcases List.mem_cons.1 he' with rfl | he'
        · rw [hi] at hi'; cases hi'
        · exact h e' he' hi' x hx
      · intro h e' he'; exact h e' (List.mem_cons_of_mem _ he')
    cases e with
    | loc ex l => exact skip rfl rfl
    | star k => exact skip rfl rfl
    | ind ex k im => exact go ex rfl rfl
    | ns ex k => exact go ex rfl rfl

theorem initEnv_iff {V : Type} {P : Prog n} {nsv : Fin n → V} {m : Fin n} :
    initEnv P nsv m ≠ none ↔
      (∀ e ∈ (P m).exports, e.isIndir = true → ∀ x, e.name = some x →
        ∃ b, resolveExport P m x = .one b) ∧
      ∀ i ∈ (P m).imports, ∀ y, i.name = some y → ∃ b, resolveExport P i.mod y = .one b := by
  have hb : ∀ i : Imp n, bindImp P nsv i ≠ none ↔
      ∀ y, i.name = some y → ∃ b, resolveExport P i.mod y = .one b := by
    intro i
    constructor
    · intro h y hy
      cases hc : bindImp P nsv i with
      | none => exact absurd hc h
      | some c =>
        rcases bindImp_cases hc with ⟨h1, _⟩ | ⟨y', h1, ⟨k, h2, _⟩ | ⟨k, l, h2, _⟩⟩
        · rw [hy] at h1; cases h1
        · rw [hy] at h1; cases h1; exact ⟨_, h2⟩
        · rw [hy] at h1; cases h1; exact ⟨_, h2⟩
    · intro h hc
      unfold bindImp at hc
      cases hn : i.name with
      | none => rw [hn] at hc; cases hc
      | some y =>
        obtain ⟨b, hr⟩ := h y hn
        rw [hn] at hc
        dsimp only at hc
        rw [hr] at hc
        cases b <;> cases hc
  have hm := bindImports_iff (P := P) (nsv := nsv) (P m).imports (fun _ => none)
  have hci := checkIndir_iff (P := P) (m := m) ((P m).exports.filter Exp.isIndir)
  unfold initEnv
  by_cases hc : checkIndir P m ((P m).exports.filter Exp.isIndir) = true
  · rw [if_pos hc]
    have h1 := hci.1 hc
    have h1' : ∀ e ∈ (P m).exports, e.isIndir = true → ∀ x, e.name = some x →
        ∃ b, resolveExport P m x = .one b := fun e he hi =>
      h1 e (List.mem_filter.2 ⟨he, hi⟩) hi
    have : ((bindImports P nsv (P m).imports fun _ => none).map (declare (P m).decls)) ≠ none ↔
        bindImports P nsv (P m).imports (fun _ => none) ≠ none := by
      cases bindImports P nsv (P m).imports (fun _ => none) <;> simp
    rw [this, hm]
    exact ⟨fun h => ⟨h1', fun i hi => (hb i).1 (h i hi)⟩, fun h i hi => (hb i).2 (h.2 i hi)⟩
  · rw [if_neg hc]
    refine ⟨fun h => absurd rfl h, fun h => absurd (hci.2 fun e he => ?_) hc⟩
    exact h.1 e (List.mem_filter.1 he).1

theorem exported_of_cand {P : Prog n} (h : P.Ok) {v : Fin n × Name} {k : Fin n} {l : Name}
    (c : GCand (codeTab P) v (.var k l)) : ∃ x, .loc x l ∈ (P k).exports := by
  generalize hb : Bind.var k l = b at c
  induction c with
  | here hl =>
    subst hb
    rcases look_some h hl with ⟨_, h2⟩ | ⟨i, y, h1, _, _, h2, _⟩
    · obtain ⟨rfl, h3, _⟩ := h2 k l rfl
      exact ⟨_, h3⟩
    · cases h1; exact ⟨_, h2⟩
  | next _ _ ih => exact ih hb

/-! ### Checks of concrete programs -/

/-- The condition of `Src.Ok` as a test. -/
def okB (s : Src n) : Bool :=
  decide (s.exports.filterMap Exp.name).Nodup &&
  decide (s.imports.map (·.loc) ++ s.decls).Nodup &&
  s.exports.all fun e =>
    match e with
    | .loc _ l => decide (l ∈ s.imports.map (·.loc) ++ s.decls)
    | _ => true

theorem ok_of_check {P : Prog n} (h : ∀ m, okB (P m) = true) : P.Ok := by
  intro m
  have := h m
  simp only [okB, Bool.and_eq_true, decide_eq_true_eq] at this
  exact ⟨this.1.1, this.1.2, fun ex l hx => of_decide_eq_true (List.all_eq_true.1 this.2 _ hx)⟩

/-- The condition of `NoReexport` as a test. -/
def noReB (s : Src n) : Bool :=
  s.imports.all fun i => i.name.isNone || s.exports.all fun e =>
    match e with
    | .loc _ l => decide (l ≠ i.loc)
    | _ => true

theorem noRe_of_check {P : Prog n} (h : ∀ m, noReB (P m) = true) : NoReexport P := by
  intro m ex i hi hn he
  have := List.all_eq_true.1 (h m) i hi
  rw [Bool.or_eq_true] at this
  rcases this with h1 | h1
  · cases hx : i.name with
    | none => exact hn hx
    | some y => rw [hx] at h1; cases h1
  · exact absurd rfl (of_decide_eq_true (List.all_eq_true.1 h1 _ he))

/-- The nodes after a node. -/
def succs (P : Prog n) (v : Fin n × Name) : List (Fin n × Name) :=
  match (stdTab P).look v.1 v.2 with
  | some (.go k y) => [(k, y)]
  | some (.fin _) => []
  | none => ((stdTab P).stars v.1).map fun k => (k, v.2)

def Out.isAmb : Out n → Bool
  | .amb _ => true
  | _ => false

/-- The condition of `PlainBelow` as a test, given the nodes below. -/
def plainB (P : Prog n) (S : List (Fin n × Name)) : Bool :=
  S.all fun v => ((succs P v).all fun w => decide (w ∈ S)) &&
    ((stdTab P).stars v.1).all fun k => !(Std.resolve P (fuel P) [] k v.2).1.isAmb

theorem plain_of_check {P : Prog n} (h : P.Ok) {S : List (Fin n × Name)}
    (hS : plainB P S = true) {v : Fin n × Name} (hv : v ∈ S) : PlainBelow P v := by
  have hc : ∀ w, Reach P v w → w ∈ S := by
    intro w r
    induction r with
    | refl => exact hv
    | @step u w' r e ih =>
      have h1 := List.all_eq_true.1 hS _ ih
      rw [Bool.and_eq_true] at h1
      refine of_decide_eq_true (List.all_eq_true.1 h1.1 _ ?_)
      unfold succs
      cases (edge_iff h).2 e with
      | entry hl => rw [hl]; exact List.mem_singleton.2 rfl
      | star hl _ hk => rw [hl]; exact List.mem_map.2 ⟨_, hk, rfl⟩
  intro m k x r _ _ hk b b' hb hb'
  have h1 := List.all_eq_true.1 hS _ (hc _ r)
  rw [Bool.and_eq_true] at h1
  have h2 := List.all_eq_true.1 h1.2 k (mem_starOf.2 hk)
  have hm := std_meaning h k x
  dsimp only at h2
  generalize Std.resolve P (fuel P) [] k x = q at h2 hm
  obtain ⟨o, s⟩ := q
  cases hm with
  | nothing h3 => exact absurd hb (h3 b)
  | one _ h3 => rw [h3 b hb, h3 b' hb']
  | ambiguous _ _ _ => cases h2

def Out.isOne : Out n → Bool
  | .one _ => true
  | _ => false

/-- The condition of `Links` as a test. -/
def linksB (P : Prog n) (m : Fin n) : Bool :=
  ((P m).exports.all fun e =>
    match Std.entry (P m) m e with
    | some (x, .go _ _) => (Std.resolve P (fuel P) [] m x).1.isOne
    | _ => true) &&
  (P m).imports.all fun i =>
    match i.name with
    | some y => (Std.resolve P (fuel P) [] i.mod y).1.isOne
    | none => true

theorem links_of_check {P : Prog n} (h : P.Ok) {m : Fin n} (hc : linksB P m = true) :
    Links P m := by
  have one : ∀ (k : Fin n) (x : Name), (Std.resolve P (fuel P) [] k x).1.isOne = true →
      ∃ b, Meaning P (k, x) (.one b) := by
    intro k x hx
    have hm := std_meaning h k x
    generalize Std.resolve P (fuel P) [] k x = q at hx hm
    obtain ⟨o, s⟩ := q
    cases o with
    | one b => exact ⟨b, hm⟩
    | none => cases hx
    | amb b => cases hx
    | limit => cases hx
  unfold linksB at hc
  rw [Bool.and_eq_true] at hc
  refine ⟨fun x k y he => ?_, fun i hi y hy => ?_⟩
  · obtain ⟨e, h1, h2⟩ := (stdLook_iff (h m)).1 ((explicit_iff (h m)).2 he)
    have := List.all_eq_true.1 hc.1 e h1
    rw [h2] at this
    exact one m x this
  · have := List.all_eq_true.1 hc.2 i hi
    rw [hy] at this
    exact one i.mod y this

end Verif.Resolve

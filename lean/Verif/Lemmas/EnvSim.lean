import Verif.Spec.EnvCode
import Verif.Lemmas.EnvBase

/-! The relation between the engine's state and the specified world for programs that follow
their static structure, and the lookups in related states. -/

namespace Verif.Env

/-- The `k`th scope around scope `σ`. -/
def sanc (P : Code) : Nat → Nat → Nat
  | σ, 0 => σ
  | σ, k + 1 => sanc P (P.parent σ) k

theorem sanc_succ (P : Code) (σ k : Nat) : sanc P σ (k + 1) = P.parent (sanc P σ k) := by
  induction k generalizing σ with
  | zero => rfl
  | succ k ih =>
    show sanc P (P.parent σ) (k + 1) = P.parent (sanc P (P.parent σ) k)
    exact ih _

/-- The names bound in environments of scope `σ`, in order. -/
def layout (P : Code) (w : Spec.World) (σ : Nat) : List Name :=
  if σ = 0 then
    match w.records[0]? with
    | some r => r.bindings.map Prod.fst
    | none => []
  else (P.decls σ).map fun d => P.name d.1

/-- The sort of record for a kind of environment. -/
def formOf : Kind → Spec.Form
  | .withObj => .object
  | .global => .global
  | _ => .declarative

/-- A binding and its specification. -/
structure CellOk (x : Cell) (d : Spec.Binding) : Prop where
  imm : x.immutable = !d.mutable
  strict : x.strict = d.strict
  del : x.deletable = false
  del' : d.deletable = false
  none' : d.value = none → x.initialized = false
  some' : ∀ v, d.value = some v → x.initialized = true ∧ x.value = v

/-- An environment and its record. -/
structure EnvOk (P : Code) (sc : List Nat) (cells : List (Option Cell)) (envs : List Env)
    (w : Spec.World) (e : Nat) (env : Env) (rec : Spec.Record) (σ : Nat) : Prop where
  outer : env.outer = rec.outer
  form : rec.form = formOf env.kind
  cache : env.cache = true
  obj : ∀ n, find env.obj n = find rec.object n
  vec : env.vec = env.hash.map Prod.snd
  len : env.hash.length = rec.bindings.length
  entry : ∀ i n c, env.hash[i]? = some (n, c) → ∃ d x, rec.bindings[i]? = some (n, d) ∧
    cells[c]? = some (some x) ∧ CellOk x d ∧ x.idx = i % 65536
  nodup : (env.hash.map Prod.fst).Nodup
  few : env.hash.length ≤ 65536
  names : env.hash.map Prod.fst = layout P w σ
  depth : env.depth = P.depth σ
  zero : e = 0 → σ = 0 ∧ env.kind = .global ∧ env.outer = none
  pos : e ≠ 0 → σ ≠ 0 ∧ env.kind = P.kind σ ∧
    ∃ o, env.outer = some o ∧ o < e ∧ sc[o]? = some (P.parent σ)
  stack : ∀ l, env.stack = some l → l.length = env.depth ∧
    ∀ k f, l[k]? = some f → anc envs e (k + 1) = some f

/-- The static resolution of binding name `b` is the `k`th scope outwards. -/
structure Res (P : Code) (w : Spec.World) (b k : Nat) : Prop where
  before : ∀ i, i < k → sanc P (P.scopeOf b) i ≠ 0 ∧
    P.kind (sanc P (P.scopeOf b) i) ≠ .withObj ∧
    P.name b ∉ layout P w (sanc P (P.scopeOf b) i)
  zero : sanc P (P.scopeOf b) k = 0 → ∃ r, w.records[0]? = some r ∧ r.has (P.name b) = true
  pos : sanc P (P.scopeOf b) k ≠ 0 → P.kind (sanc P (P.scopeOf b) k) ≠ .withObj ∧
    P.name b ∈ layout P w (sanc P (P.scopeOf b) k)

/-- A reference from binding name `b` to environment `f`. -/
def RefOk (P : Code) (sc : List Nat) (w : Spec.World) (b f : Nat) : Prop :=
  ∃ k, sc[f]? = some (sanc P (P.scopeOf b) k) ∧
    (∀ i, i < k → sanc P (P.scopeOf b) i ≠ 0 ∧
      (P.kind (sanc P (P.scopeOf b) i) = .withObj ∨
        P.name b ∉ layout P w (sanc P (P.scopeOf b) i))) ∧
    (sanc P (P.scopeOf b) k = 0 → ∃ r, w.records[0]? = some r ∧ r.has (P.name b) = true) ∧
    (sanc P (P.scopeOf b) k ≠ 0 → P.kind (sanc P (P.scopeOf b) k) ≠ .withObj →
      P.name b ∈ layout P w (sanc P (P.scopeOf b) k))

/-- A binding name. -/
structure NameOk (P : Code) (w : Spec.World) (b : Nat) (bn : BName) : Prop where
  name : bn.name = P.name b
  none' : bn.envIdx = noIdx → bn.bindIdx = noIdx
  env : bn.envIdx ≠ noIdx → Res P w b bn.envIdx
  bind : bn.bindIdx ≠ noIdx →
    (layout P w (sanc P (P.scopeOf b) bn.envIdx))[bn.bindIdx]? = some (P.name b)

/-- The relation. -/
structure Sim (P : Code) (sc : List Nat) (s : State) (w : Spec.World) : Prop where
  lenE : s.envs.length = w.records.length
  lenS : s.envs.length = sc.length
  pos : 0 < s.envs.length
  env : ∀ e env rec σ, s.envs[e]? = some env → w.records[e]? = some rec → sc[e]? = some σ →
    EnvOk P sc s.cells s.envs w e env rec σ
  apart : ∀ (e e' : Nat) (env env' : Env) (i i' : Nat) (n n' : Name) (c : Nat), s.envs[e]? = some env → s.envs[e']? = some env' →
    env.hash[i]? = some (n, c) → env'.hash[i']? = some (n', c) → e = e' ∧ i = i'
  lenN : s.names.length = P.names.length
  name : ∀ b bn, s.names[b]? = some bn → NameOk P w b bn
  lenR : s.refs.length = w.references.length
  ref : ∀ (r : Nat) (x : Ref) (y : Spec.Reference), s.refs[r]? = some x → w.references[r]? = some y →
    y.name = P.name x.name ∧ y.base = x.env ∧ x.name < P.names.length ∧
    ∀ f, x.env = some f → RefOk P sc w x.name f

/-- Environment `e` of related states. -/
theorem Sim.at {P : Code} {sc : List Nat} {s : State} {w : Spec.World} (h : Sim P sc s w)
    {e : Nat} {rec : Spec.Record} (hr : w.records[e]? = some rec) :
    ∃ env σ, s.envs[e]? = some env ∧ sc[e]? = some σ ∧
      EnvOk P sc s.cells s.envs w e env rec σ := by
  have hlt : e < w.records.length := by
    obtain ⟨h1, _⟩ := List.getElem?_eq_some_iff.mp hr
    exact h1
  have h1 : e < s.envs.length := by rw [h.lenE]; exact hlt
  have h2 : e < sc.length := by rw [← h.lenS]; exact h1
  exact ⟨_, _, List.getElem?_eq_getElem h1, List.getElem?_eq_getElem h2,
    h.env e _ _ _ (List.getElem?_eq_getElem h1) hr (List.getElem?_eq_getElem h2)⟩

theorem Sim.at' {P : Code} {sc : List Nat} {s : State} {w : Spec.World} (h : Sim P sc s w)
    {e σ : Nat} (hs : sc[e]? = some σ) :
    ∃ env rec, s.envs[e]? = some env ∧ w.records[e]? = some rec ∧
      EnvOk P sc s.cells s.envs w e env rec σ := by
  have hlt : e < sc.length := by
    obtain ⟨h1, _⟩ := List.getElem?_eq_some_iff.mp hs
    exact h1
  have h1 : e < s.envs.length := by rw [h.lenS]; exact hlt
  have h2 : e < w.records.length := by rw [← h.lenE]; exact h1
  exact ⟨_, _, List.getElem?_eq_getElem h1, List.getElem?_eq_getElem h2,
    h.env e _ _ _ (List.getElem?_eq_getElem h1) (List.getElem?_eq_getElem h2) hs⟩

theorem Sim.bn {P : Code} {sc : List Nat} {s : State} {w : Spec.World} (h : Sim P sc s w)
    {b : Nat} (hb : b < P.names.length) :
    ∃ bn, s.names[b]? = some bn ∧ NameOk P w b bn := by
  have h1 : b < s.names.length := by rw [h.lenN]; exact hb
  exact ⟨_, List.getElem?_eq_getElem h1, h.name b _ (List.getElem?_eq_getElem h1)⟩

/-- The binding part of a record and the table of the environment. -/
theorem EnvOk.get_none {P : Code} {sc : List Nat} {cells envs w e env rec σ}
    (h : EnvOk P sc cells envs w e env rec σ) (n : Name) :
    find env.hash n = none ↔ find rec.bindings n = none := by
  have hnames : rec.bindings.map Prod.fst = env.hash.map Prod.fst := by
    apply List.ext_getElem?
    intro i
    rw [List.getElem?_map, List.getElem?_map]
    cases hi : env.hash[i]? with
    | none =>
      have : rec.bindings[i]? = none := by
        rw [List.getElem?_eq_none_iff] at hi ⊢
        rw [← h.len]; exact hi
      rw [this]; rfl
    | some p =>
      obtain ⟨n', c⟩ := p
      obtain ⟨d, x, hd, _⟩ := h.entry i n' c hi
      rw [hd]; rfl
  rw [find_none_iff, find_none_iff, hnames]

theorem EnvOk.bnames {P : Code} {sc : List Nat} {cells envs w e env rec σ}
    (h : EnvOk P sc cells envs w e env rec σ) :
    rec.bindings.map Prod.fst = layout P w σ := by
  rw [← h.names]
  apply List.ext_getElem?
  intro i
  rw [List.getElem?_map, List.getElem?_map]
  cases hi : env.hash[i]? with
  | none =>
    have : rec.bindings[i]? = none := by
      rw [List.getElem?_eq_none_iff] at hi ⊢
      rw [← h.len]; exact hi
    rw [this]; rfl
  | some p =>
    obtain ⟨n', c⟩ := p
    obtain ⟨d, x, hd, _⟩ := h.entry i n' c hi
    rw [hd]; rfl

theorem EnvOk.get_some {P : Code} {sc : List Nat} {cells envs w e env rec σ}
    (h : EnvOk P sc cells envs w e env rec σ) {n : Name} {c : Nat}
    (hf : find env.hash n = some c) :
    ∃ (i : Nat) (d : Spec.Binding) (x : Cell), env.hash[i]? = some (n, c) ∧
      find rec.bindings n = some d ∧ rec.bindings[i]? = some (n, d) ∧
      cells[c]? = some (some x) ∧ CellOk x d ∧ x.idx = i := by
  obtain ⟨i, hi⟩ := find_some_idx hf
  obtain ⟨d, x, hd, hx, hok, hidx⟩ := h.entry i n c hi
  have hnd : (rec.bindings.map Prod.fst).Nodup := by
    rw [h.bnames, ← h.names]; exact h.nodup
  have hlt : i < env.hash.length := by
    obtain ⟨h1, _⟩ := List.getElem?_eq_some_iff.mp hi
    exact h1
  have := h.few
  exact ⟨i, d, x, hi, find_of_idx hnd hd, hd, hx, hok, by rw [hidx]; omega⟩

/-- Changing only the cached index of a binding name keeps the relation. -/
theorem Sim.setName {P : Code} {sc : List Nat} {s : State} {w : Spec.World} (h : Sim P sc s w)
    {b : Nat} {bn : BName} (hn : NameOk P w b bn) :
    Sim P sc { s with names := s.names.set b bn } w := by
  refine { lenE := h.lenE, lenS := h.lenS, pos := h.pos, env := h.env, apart := h.apart,
           lenN := ?_, name := ?_, lenR := h.lenR, ref := h.ref }
  · simp only [List.length_set]; exact h.lenN
  · intro b' bn' hb'
    simp only [List.getElem?_set] at hb'
    by_cases hbb : b = b'
    · subst hbb
      rw [if_pos rfl] at hb'
      by_cases hl : b < s.names.length
      · rw [if_pos hl] at hb'
        simp only [Option.some.injEq] at hb'
        subst hb'
        exact hn
      · rw [if_neg hl] at hb'
        simp at hb'
    · rw [if_neg hbb] at hb'
      exact h.name b' bn' hb'

/-- A reference and the static resolution of its binding name agree. -/
theorem RefOk.res {P : Code} {sc : List Nat} {w : Spec.World} {b f k : Nat}
    (h : RefOk P sc w b f) (hr : Res P w b k) : sc[f]? = some (sanc P (P.scopeOf b) k) := by
  obtain ⟨k', h1, h2, h3, h4⟩ := h
  rcases Nat.lt_trichotomy k k' with hlt | heq | hgt
  · exfalso
    obtain ⟨hz, hw⟩ := h2 k hlt
    obtain ⟨hk, hm⟩ := hr.pos hz
    rcases hw with hw | hw
    · exact hk hw
    · exact hw hm
  · subst heq; exact h1
  · exfalso
    obtain ⟨hz, hk, hm⟩ := hr.before k' hgt
    exact hm (h4 hz hk)

/-- Looking a name up in the environment it refers to gives the entry of the table, whatever is
cached. -/
theorem lookup_ref {P : Code} {sc : List Nat} {s : State} {w : Spec.World} (h : Sim P sc s w)
    {b f : Nat} {env : Env} {slot : Bool} (hb : b < P.names.length) (hf : RefOk P sc w b f)
    (he : s.envs[f]? = some env) :
    ∃ names, lookup s f b slot = .ok ({ s with names := names }, find env.hash (P.name b)) ∧
      Sim P sc { s with names := names } w := by
  obtain ⟨bn, hbn, hok⟩ := h.bn hb
  have hsc : ∃ σ, sc[f]? = some σ := by
    obtain ⟨k, h1, _⟩ := hf
    exact ⟨_, h1⟩
  obtain ⟨σ, hσ⟩ := hsc
  obtain ⟨env', rec, he', hr, hE⟩ := h.at' hσ
  rw [he] at he'
  simp only [Option.some.injEq] at he'
  subst he'
  unfold lookup
  simp only [env_ok he, bname_ok hbn, bind, Except.bind, hok.name]
  by_cases hc : env.cache = true ∧ slot = false ∧ bn.bindIdx ≠ noIdx
  · rw [if_pos hc]
    have henv : bn.envIdx ≠ noIdx := fun h' => hc.2.2 (hok.none' h')
    have hsame := hf.res (hok.env henv)
    rw [hσ] at hsame
    simp only [Option.some.injEq] at hsame
    have hbind := hok.bind hc.2.2
    rw [← hsame, ← hE.names, List.getElem?_map] at hbind
    cases hi : env.hash[bn.bindIdx]? with
    | none => rw [hi] at hbind; simp at hbind
    | some p =>
      obtain ⟨n, c⟩ := p
      rw [hi] at hbind
      simp only [Option.map_some, Option.some.injEq] at hbind
      subst hbind
      rw [hE.vec, List.getElem?_map, hi, find_of_idx hE.nodup hi]
      exact ⟨s.names, rfl, h⟩
  · rw [if_neg hc]
    cases hfind : find env.hash (P.name b) with
    | none => exact ⟨s.names, rfl, h⟩
    | some c =>
      simp only
      by_cases hc2 : env.cache = true ∧ bn.envIdx ≠ noIdx
      · rw [if_pos hc2]
        obtain ⟨i, d, x, hi, hd, hdi, hx, hxok, hidx⟩ := hE.get_some hfind
        rw [cell_ok hx]
        simp only
        refine ⟨s.names.set b { bn with bindIdx := x.idx }, by rw [hok.name], h.setName ?_⟩
        refine { name := hok.name, none' := fun h' => absurd h' hc2.2, env := hok.env,
                 bind := fun _ => ?_ }
        have hsame := hf.res (hok.env hc2.2)
        rw [hσ] at hsame
        simp only [Option.some.injEq] at hsame
        show (layout P w (sanc P (P.scopeOf b) bn.envIdx))[x.idx]? = some (P.name b)
        rw [← hsame, ← hE.names, List.getElem?_map, hidx, hi]
        rfl
      · rw [if_neg hc2]
        exact ⟨s.names, rfl, h⟩

/-- Looking up a name that has not been cached changes nothing. -/
theorem lookup_fresh {s : State} {b f : Nat} {env : Env} {bn : BName} {slot : Bool}
    (he : s.envs[f]? = some env) (hbn : s.names[b]? = some bn) (hx : bn.envIdx = noIdx)
    (hy : bn.bindIdx = noIdx) : lookup s f b slot = .ok (s, find env.hash bn.name) := by
  unfold lookup
  simp only [env_ok he, bname_ok hbn, bind, Except.bind]
  rw [if_neg (fun h => h.2.2 hy)]
  cases hfind : find env.hash bn.name with
  | none => rfl
  | some c =>
    simp only
    rw [if_neg (fun h => h.2 hx)]

end Verif.Env

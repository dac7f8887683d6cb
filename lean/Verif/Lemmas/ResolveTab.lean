import Verif.Lemmas.Resolve
/-
The tables of the code and of the standard.
-/
namespace Verif.Resolve
variable {n : Nat}

def codeTab (P : Prog n) : Tab n := ⟨lookup P, stars P⟩

def stdTab (P : Prog n) : Tab n :=
  ⟨fun m x => (((P m).exports.filterMap (Std.entry (P m) m)).find? (fun p => p.1 == x)).map (·.2),
    fun m => (P m).exports.filterMap Exp.starOf⟩

theorem starLoop_eq {rec : Seen n → Fin n → Out n × Seen n} :
    ∀ (ks : List (Fin n)) (acc : Option (Bind n)) (s : Seen n),
      starLoop rec ks acc s = gloop true rec ks acc s := by
  intro ks
  induction ks with
  | nil => intro acc s; cases acc <;> rfl
  | cons k ks ih =>
    intro acc s
    unfold starLoop gloop
    generalize rec s k = q
    obtain ⟨o, s'⟩ := q
    cases o with
    | none => exact ih _ _
    | limit => rfl
    | one b => cases acc <;> simp only [ih]
    | amb b => cases acc <;> simp only [ih, if_true]

theorem stdLoop_eq {rec : Seen n → Fin n → Out n × Seen n} :
    ∀ (ks : List (Fin n)) (acc : Option (Bind n)) (s : Seen n),
      Std.loop rec ks acc s = gloop false rec ks acc s := by
  intro ks
  induction ks with
  | nil => intro acc s; cases acc <;> rfl
  | cons k ks ih =>
    intro acc s
    unfold Std.loop gloop
    generalize rec s k = q
    obtain ⟨o, s'⟩ := q
    cases o with
    | none => exact ih _ _
    | limit => rfl
    | one b => cases acc <;> simp only [ih]
    | amb b => rfl

theorem resolve_eq (P : Prog n) : ∀ (f : Nat) (s : Seen n) (m : Fin n) (x : Name),
    resolve P f s m x = gres true (codeTab P) f s (m, x) := by
  intro f
  induction f with
  | zero => intro s m x; rfl
  | succ f ih =>
    intro s m x
    unfold resolve gres
    simp only [codeTab, starLoop_eq, ih]
    cases lookup P m x with
    | none => rfl
    | some t => cases t <;> rfl

theorem stdResolve_eq (P : Prog n) : ∀ (f : Nat) (s : Seen n) (m : Fin n) (x : Name),
    Std.resolve P f s m x = gres false (stdTab P) f s (m, x) := by
  intro f
  induction f with
  | zero => intro s m x; rfl
  | succ f ih =>
    intro s m x
    unfold Std.resolve gres
    simp only [stdTab, stdLoop_eq, ih]
    cases ((P m).exports.filterMap (Std.entry (P m) m)).find? (fun p => p.1 == x) with
    | none => rfl
    | some t => obtain ⟨a, t⟩ := t; cases t <;> rfl

/-! ### Entries -/

theorem entries_perm (s : Src n) : s.entries.Perm s.exports := by
  unfold Src.entries
  induction s.exports with
  | nil => exact List.Perm.refl _
  | cons e es ih =>
    cases e with
    | loc ex l => exact ih.cons _
    | ind ex k im =>
      refine List.Perm.trans ?_ (ih.cons _)
      exact List.perm_middle
    | ns ex k =>
      refine List.Perm.trans ?_ (ih.cons _)
      exact List.perm_middle
    | star k =>
      refine List.Perm.trans ?_ (ih.cons _)
      exact (List.perm_middle.append_left _).trans List.perm_middle

theorem find_name {α : Type} {l : List (Name × α)} (h : (l.map (·.1)).Nodup) {x : Name} {a : α} :
    (l.find? (fun p => p.1 == x)).map (·.2) = some a ↔ (x, a) ∈ l := by
  induction l with
  | nil => simp
  | cons p l ih =>
    obtain ⟨y, b⟩ := p
    simp only [List.map_cons, List.nodup_cons] at h
    by_cases hy : y = x
    · subst hy
      simp only [List.find?_cons, beq_self_eq_true, Option.map_some, Option.some.injEq,
        List.mem_cons, Prod.mk.injEq, true_and]
      constructor
      · intro e; exact .inl e.symm
      · intro e
        rcases e with e | e
        · exact e.symm
        · exact absurd (List.mem_map.2 ⟨_, e, rfl⟩) h.1
    · have : ((y, b).1 == x) = false := by simpa using hy
      rw [List.find?_cons, this]
      simp only [ih h.2, List.mem_cons, Prod.mk.injEq]
      constructor
      · intro e; exact .inr e
      · intro e
        rcases e with ⟨e, _⟩ | e
        · exact absurd e.symm hy
        · exact e

theorem names_entry (s : Src n) (m : Fin n) (es : List (Exp n)) :
    (es.filterMap (Std.entry s m)).map (·.1) = es.filterMap Exp.name := by
  induction es with
  | nil => rfl
  | cons e es ih =>
    cases e with
    | loc ex l =>
      have : ∃ t, Std.entry s m (.loc ex l) = some (ex, t) := by
        unfold Std.entry Std.ofImport
        dsimp only
        split
        · exact ⟨_, rfl⟩
        · exact ⟨_, rfl⟩
      obtain ⟨t, ht⟩ := this
      simp only [List.filterMap_cons, ht, Exp.name, List.map_cons, ih]
    | ind ex k im => simp only [List.filterMap_cons, Std.entry, Exp.name, List.map_cons, ih]
    | ns ex k => simp only [List.filterMap_cons, Std.entry, Exp.name, List.map_cons, ih]
    | star k => simp only [List.filterMap_cons, Std.entry, Exp.name, ih]

theorem names_code (m : Fin n) (es : List (Exp n)) :
    (es.filterMap (Exp.entry m)).map (·.1) = es.filterMap Exp.name := by
  induction es with
  | nil => rfl
  | cons e es ih =>
    cases e <;> simp only [List.filterMap_cons, Exp.entry, Exp.name, List.map_cons, ih]

theorem lookup_iff {P : Prog n} {m : Fin n} (h : (P m).Ok) {x : Name} {t : Target n} :
    lookup P m x = some t ↔ ∃ e ∈ (P m).exports, Exp.entry m e = some (x, t) := by
  have hn : ((((P m).entries.filterMap (Exp.entry m))).map (·.1)).Nodup := by
    rw [names_code]
    exact (((entries_perm (P m)).filterMap _).nodup_iff).2 h.exports
  unfold lookup
  rw [find_name hn, List.mem_filterMap]
  simp only [(entries_perm (P m)).mem_iff]

theorem stdLook_iff {P : Prog n} {m : Fin n} (h : (P m).Ok) {x : Name} {t : Target n} :
    (stdTab P).look m x = some t ↔ ∃ e ∈ (P m).exports, Std.entry (P m) m e = some (x, t) := by
  have hn : ((((P m).exports.filterMap (Std.entry (P m) m))).map (·.1)).Nodup := by
    rw [names_entry]; exact h.exports
  show Option.map _ _ = _ ↔ _
  rw [find_name hn, List.mem_filterMap]

theorem imports_nodup {s : Src n} (h : s.Ok) : (s.imports.map (·.loc)).Nodup :=
  (List.nodup_append.1 h.imports).1

theorem find_import {s : Src n} (h : s.Ok) {i : Imp n} (hi : i ∈ s.imports) :
    s.imports.find? (fun j => j.loc == i.loc) = some i := by
  have hn := imports_nodup h
  revert hi hn
  induction s.imports with
  | nil => intro hi; cases hi
  | cons j js ih =>
    intro hi hn
    simp only [List.map_cons, List.nodup_cons] at hn
    rw [List.find?_cons]
    rcases List.mem_cons.1 hi with rfl | hi'
    · simp
    · have hne : (j.loc == i.loc) = false := by
        simp only [beq_eq_false_iff_ne, ne_eq]
        intro e
        exact hn.1 (e ▸ List.mem_map.2 ⟨i, hi', rfl⟩)
      rw [hne]
      exact ih hi' hn.2

theorem explicit_iff {P : Prog n} {m : Fin n} (h : (P m).Ok) {x : Name} {t : Target n} :
    (stdTab P).look m x = some t ↔ Explicit P m x t := by
  rw [stdLook_iff h]
  constructor
  · rintro ⟨e, he, hx⟩
    cases e with
    | loc ex l =>
      dsimp only [Std.entry] at hx
      cases hf : (P m).imports.find? (fun i => i.loc == l) with
      | none =>
        rw [hf] at hx
        cases hx
        refine .own he fun i hi hl => ?_
        have := List.find?_eq_none.1 hf i hi
        simp [hl] at this
      | some i =>
        rw [hf] at hx
        have hi := List.mem_of_find?_eq_some hf
        have hl := List.find?_some hf
        simp only [beq_iff_eq] at hl
        obtain ⟨k, nm, lo⟩ := i
        cases nm with
        | none =>
          cases hx
          refine .own he fun j hj hjl => ?_
          have h1 := find_import h hj
          rw [hjl, hf] at h1
          cases h1; rfl
        | some im =>
          cases hx
          dsimp only at hl
          subst hl
          exact .again (i := ⟨k, some im, lo⟩) he hi rfl
    | ind ex k im => cases hx; exact .ind he
    | ns ex k => cases hx; exact .ns he
    | star k => cases hx
  · intro hx
    cases hx with
    | @own l he hi =>
      refine ⟨_, he, ?_⟩
      dsimp only [Std.entry]
      cases hf : (P m).imports.find? (fun i => i.loc == l) with
      | none => rfl
      | some i =>
        have hm := List.mem_of_find?_eq_some hf
        have hl := List.find?_some hf
        simp only [beq_iff_eq] at hl
        have := hi i hm hl
        obtain ⟨k, nm, lo⟩ := i
        cases this
        rfl
    | @again im i he hi hnm =>
      refine ⟨_, he, ?_⟩
      dsimp only [Std.entry]
      rw [find_import h hi]
      obtain ⟨k, nm, lo⟩ := i
      cases hnm
      rfl
    | ind he => exact ⟨_, he, rfl⟩
    | ns he => exact ⟨_, he, rfl⟩

theorem stdLook_none {P : Prog n} {m : Fin n} (h : (P m).Ok) {x : Name} :
    (stdTab P).look m x = none ↔ ∀ t, ¬ Explicit P m x t := by
  constructor
  · intro e t ht
    rw [(explicit_iff h).2 ht] at e; cases e
  · intro e
    cases hl : (stdTab P).look m x with
    | none => rfl
    | some t => exact absurd ((explicit_iff h).1 hl) (e t)

theorem mem_starOf {es : List (Exp n)} {k : Fin n} : k ∈ es.filterMap Exp.starOf ↔ .star k ∈ es := by
  rw [List.mem_filterMap]
  constructor
  · rintro ⟨e, he, hk⟩
    cases e <;> cases hk
    exact he
  · intro h; exact ⟨_, h, rfl⟩

theorem mem_stars {P : Prog n} {m k : Fin n} : k ∈ stars P m ↔ .star k ∈ (P m).exports := by
  unfold stars
  rw [mem_starOf, (entries_perm (P m)).mem_iff]

theorem edge_iff {P : Prog n} (h : P.Ok) {v w : Fin n × Name} :
    GEdge (stdTab P) v w ↔ Edge P v w := by
  constructor
  · intro e
    cases e with
    | entry hl => exact .entry ((explicit_iff (h _)).1 hl)
    | star hl hd hk => exact .star ((stdLook_none (h _)).1 hl) hd (mem_starOf.1 hk)
  · intro e
    cases e with
    | @entry m k x y hl => exact .entry (v := (m, x)) (w := (k, y)) ((explicit_iff (h _)).2 hl)
    | @star m k x hl hd hk =>
      exact .star (v := (m, x)) ((stdLook_none (h _)).2 hl) hd (mem_starOf.2 hk)

theorem cand_iff {P : Prog n} (h : P.Ok) {v : Fin n × Name} {b : Bind n} :
    GCand (stdTab P) v b ↔ Cand P v b := by
  constructor
  · intro c
    induction c with
    | here hl => exact .here ((explicit_iff (h _)).1 hl)
    | next he _ ih => exact .next ((edge_iff h).1 he) ih
  · intro c
    induction c with
    | @here m x b hl => exact .here (v := (m, x)) ((explicit_iff (h _)).2 hl)
    | next he _ ih => exact .next ((edge_iff h).2 he) ih

theorem meaning_iff {P : Prog n} (h : P.Ok) {v : Fin n × Name} {o : Out n} :
    GMeaning (stdTab P) v o ↔ Meaning P v o := by
  constructor
  · intro m
    cases m with
    | nothing h1 => exact .nothing fun b hb => h1 b ((cand_iff h).2 hb)
    | one h1 h2 => exact .one ((cand_iff h).1 h1) fun b hb => h2 b ((cand_iff h).2 hb)
    | ambiguous h1 h2 h3 => exact .ambiguous ((cand_iff h).1 h1) ((cand_iff h).1 h2) h3
  · intro m
    cases m with
    | nothing h1 => exact .nothing fun b hb => h1 b ((cand_iff h).1 hb)
    | one h1 h2 => exact .one ((cand_iff h).2 h1) fun b hb => h2 b ((cand_iff h).1 hb)
    | ambiguous h1 h2 h3 => exact .ambiguous ((cand_iff h).2 h1) ((cand_iff h).2 h2) h3

theorem reach_iff {P : Prog n} (h : P.Ok) {v w : Fin n × Name} :
    GReach (stdTab P) v w ↔ Reach P v w := by
  constructor
  · intro r
    induction r with
    | refl => exact .refl _
    | step _ e ih => exact .step ih ((edge_iff h).1 e)
  · intro r
    induction r with
    | refl => exact .refl _
    | step _ e ih => exact .step ih ((edge_iff h).2 e)

/-! ### The searches end -/

/-- Names imported by the entries of a module. -/
def goNames (s : Src n) : List Name :=
  s.exports.filterMap (fun | .ind _ _ im => some im | _ => none) ++ s.imports.filterMap (·.name)

def allNames (P : Prog n) : List Name := (List.finRange n).flatMap fun m => goNames (P m)

def nodes (P : Prog n) (x : Name) : Seen n :=
  (List.finRange n).flatMap fun m => (x :: allNames P).map fun y => (m, y)

theorem mem_nodes {P : Prog n} {x : Name} {v : Fin n × Name} :
    v ∈ nodes P x ↔ v.2 ∈ x :: allNames P := by
  unfold nodes
  rw [List.mem_flatMap]
  constructor
  · rintro ⟨m, _, hv⟩
    obtain ⟨y, hy, rfl⟩ := List.mem_map.1 hv
    exact hy
  · intro h
    exact ⟨v.1, List.mem_finRange _, List.mem_map.2 ⟨v.2, h, rfl⟩⟩

theorem length_goNames (s : Src n) : (goNames s).length ≤ s.exports.length + s.imports.length := by
  unfold goNames
  rw [List.length_append]
  exact Nat.add_le_add (List.length_filterMap_le _ _) (List.length_filterMap_le _ _)

theorem length_allNames (P : Prog n) : (allNames P).length ≤ size P := by
  unfold allNames size
  induction List.finRange n with
  | nil => exact Nat.le_refl _
  | cons m ms ih =>
    simp only [List.flatMap_cons, List.length_append, List.map_cons, List.sum_cons]
    have := length_goNames (P m)
    omega

theorem length_nodes (P : Prog n) (x : Name) : (nodes P x).length < fuel P := by
  have h : ∀ l : List (Fin n), (l.flatMap fun m => (x :: allNames P).map fun y => (m, y)).length =
      l.length * ((allNames P).length + 1) := by
    intro l
    induction l with
    | nil => simp
    | cons m ms ih =>
      rw [List.flatMap_cons, List.length_append, ih, List.length_map, List.length_cons,
        List.length_cons, Nat.succ_mul]
      omega
  unfold nodes fuel
  rw [h, List.length_finRange]
  have := Nat.mul_le_mul_left n (Nat.add_le_add_right (length_allNames P) 1)
  omega

theorem mem_allNames {P : Prog n} {m : Fin n} {y : Name} (h : y ∈ goNames (P m)) :
    y ∈ allNames P := List.mem_flatMap.2 ⟨m, List.mem_finRange _, h⟩

theorem mem_of_find {α : Type} {l : List (Name × α)} {x : Name} {a : α}
    (h : (l.find? (fun p => p.1 == x)).map (·.2) = some a) : ∃ y, (y, a) ∈ l := by
  cases hf : l.find? (fun p => p.1 == x) with
  | none => rw [hf] at h; cases h
  | some p =>
    rw [hf] at h
    obtain ⟨y, b⟩ := p
    cases h
    exact ⟨y, List.mem_of_find?_eq_some hf⟩

theorem goNames_ind {s : Src n} {ex im : Name} {k : Fin n} (h : .ind ex k im ∈ s.exports) :
    im ∈ goNames s := List.mem_append_left _ (List.mem_filterMap.2 ⟨_, h, rfl⟩)

theorem goNames_imp {s : Src n} {i : Imp n} {im : Name} (h : i ∈ s.imports)
    (hn : i.name = some im) : im ∈ goNames s :=
  List.mem_append_right _ (List.mem_filterMap.2 ⟨_, h, hn⟩)

theorem nodes_code {P : Prog n} {x : Name} (v w : Fin n × Name) (hv : v ∈ nodes P x)
    (e : GEdge (codeTab P) v w) : w ∈ nodes P x := by
  rw [mem_nodes] at *
  cases e with
  | star _ _ _ => exact hv
  | entry hl =>
    refine List.mem_cons_of_mem _ (mem_allNames (m := v.1) ?_)
    obtain ⟨y, hy⟩ := mem_of_find hl
    obtain ⟨e, he, hx⟩ := List.mem_filterMap.1 hy
    rw [(entries_perm (P v.1)).mem_iff] at he
    cases e <;> cases hx
    exact goNames_ind he

theorem nodes_std {P : Prog n} {x : Name} (v w : Fin n × Name) (hv : v ∈ nodes P x)
    (e : GEdge (stdTab P) v w) : w ∈ nodes P x := by
  rw [mem_nodes] at *
  cases e with
  | star _ _ _ => exact hv
  | entry hl =>
    refine List.mem_cons_of_mem _ (mem_allNames (m := v.1) ?_)
    obtain ⟨y, hy⟩ := mem_of_find hl
    obtain ⟨e, he, hx⟩ := List.mem_filterMap.1 hy
    cases e with
    | loc ex l =>
      dsimp only [Std.entry] at hx
      cases hf : (P v.1).imports.find? (fun i => i.loc == l) with
      | none => rw [hf] at hx; cases hx
      | some i =>
        have hi := List.mem_of_find?_eq_some hf
        rw [hf] at hx
        obtain ⟨k, nm, lo⟩ := i
        cases nm with
        | none => cases hx
        | some im =>
          cases hx
          exact goNames_imp hi rfl
    | ind ex k im => cases hx; exact goNames_ind he
    | ns ex k => cases hx
    | star k => cases hx

theorem left_lt_fuel (P : Prog n) (x : Name) : left (nodes P x) [] < fuel P :=
  Nat.lt_of_le_of_lt (List.length_filter_le _ _) (length_nodes P x)

theorem code_ends (P : Prog n) (m : Fin n) (x : Name) :
    (gres true (codeTab P) (fuel P) [] (m, x)).1 ≠ .limit :=
  ends_gres (nodes_code (x := x)) _ _ _ (mem_nodes.2 (List.mem_cons_self ..)) (left_lt_fuel P x)

theorem std_ends (P : Prog n) (m : Fin n) (x : Name) :
    (gres false (stdTab P) (fuel P) [] (m, x)).1 ≠ .limit :=
  ends_gres (nodes_std (x := x)) _ _ _ (mem_nodes.2 (List.mem_cons_self ..)) (left_lt_fuel P x)

theorem resolveExport_eq (P : Prog n) (m : Fin n) (x : Name) :
    resolveExport P m x = (gres true (codeTab P) (fuel P) [] (m, x)).1 := by
  unfold resolveExport
  rw [resolve_eq]

end Verif.Resolve

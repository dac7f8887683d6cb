import Verif.Lemmas.ResolveTab
/-
The code's table against the standard's; namespaces; linking and reading.
-/
namespace Verif.Resolve
variable {n : Nat}

/-! ### The two tables -/

theorem stars_eq (P : Prog n) (m : Fin n) : stars P m = (P m).exports.filterMap Exp.starOf := by
  unfold stars Src.entries
  induction (P m).exports with
  | nil => rfl
  | cons e es ih =>
    rw [List.filterMap_append, List.filterMap_append] at ih
    have h1 : ∀ es : List (Exp n), (es.filter Exp.isLocal).filterMap Exp.starOf = [] := by
      intro es
      induction es with
      | nil => rfl
      | cons e es ih => cases e <;> simpa [List.filter_cons, Exp.isLocal, Exp.starOf] using ih
    have h2 : ∀ es : List (Exp n), (es.filter Exp.isIndir).filterMap Exp.starOf = [] := by
      intro es
      induction es with
      | nil => rfl
      | cons e es ih => cases e <;> simpa [List.filter_cons, Exp.isIndir, Exp.starOf] using ih
    rw [List.filterMap_append, List.filterMap_append, h1, h2]
    rw [h1, h2] at ih
    cases e with
    | star k =>
      have : Exp.isStar (.star k : Exp n) = true := rfl
      rw [List.filter_cons, if_pos this, List.filterMap_cons, List.filterMap_cons]
      simpa [Exp.starOf] using ih
    | loc ex l =>
      rw [List.filter_cons, if_neg (fun h => nomatch h), List.filterMap_cons]
      exact ih
    | ind ex k im =>
      rw [List.filter_cons, if_neg (fun h => nomatch h), List.filterMap_cons]
      exact ih
    | ns ex k =>
      rw [List.filter_cons, if_neg (fun h => nomatch h), List.filterMap_cons]
      exact ih

/-- Both tables have the same names. -/
theorem look_none {P : Prog n} (h : P.Ok) {m : Fin n} {x : Name} :
    lookup P m x = none ↔ (stdTab P).look m x = none := by
  have key : ∀ {o : Option (Target n)}, o = none ↔ ¬ ∃ t, o = some t := by
    intro o; cases o <;> simp
  rw [key, key]
  refine not_congr ?_
  constructor
  · rintro ⟨t, ht⟩
    obtain ⟨e, he, hx⟩ := (lookup_iff (h m)).1 ht
    have : ∃ t', Std.entry (P m) m e = some (x, t') := by
      cases e with
      | loc ex l =>
        cases hx
        dsimp only [Std.entry]
        unfold Std.ofImport
        split
        · exact ⟨_, rfl⟩
        · exact ⟨_, rfl⟩
      | ind ex k im => cases hx; exact ⟨_, rfl⟩
      | ns ex k => cases hx; exact ⟨_, rfl⟩
      | star k => cases hx
    obtain ⟨t', ht'⟩ := this
    exact ⟨t', (stdLook_iff (h m)).2 ⟨e, he, ht'⟩⟩
  · rintro ⟨t, ht⟩
    cases (explicit_iff (h m)).1 ht with
    | own he _ => exact ⟨_, (lookup_iff (h m)).2 ⟨_, he, rfl⟩⟩
    | again he _ _ => exact ⟨_, (lookup_iff (h m)).2 ⟨_, he, rfl⟩⟩
    | ind he => exact ⟨_, (lookup_iff (h m)).2 ⟨_, he, rfl⟩⟩
    | ns he => exact ⟨_, (lookup_iff (h m)).2 ⟨_, he, rfl⟩⟩

/-- An entry of the code is the standard's, or the local export of an imported name. -/
theorem look_some {P : Prog n} (h : P.Ok) {m : Fin n} {x : Name} {t : Target n}
    (hl : lookup P m x = some t) :
    (Explicit P m x t ∧ ∀ k l, t = .fin (.var k l) →
      k = m ∧ .loc x l ∈ (P m).exports ∧ ∀ i ∈ (P m).imports, i.loc = l → i.name = none) ∨
    ∃ i y, t = .fin (.var m i.loc) ∧ i ∈ (P m).imports ∧ i.name = some y ∧
      .loc x i.loc ∈ (P m).exports ∧ Explicit P m x (.go i.mod y) := by
  obtain ⟨e, he, hx⟩ := (lookup_iff (h m)).1 hl
  cases e with
  | loc ex l =>
    cases hx
    by_cases hi : ∃ i ∈ (P m).imports, i.loc = l ∧ i.name ≠ none
    · obtain ⟨i, hi, rfl, hn⟩ := hi
      cases hnm : i.name with
      | none => exact absurd hnm hn
      | some y => exact .inr ⟨i, y, rfl, hi, hnm, he, .again he hi hnm⟩
    · have hh : ∀ i ∈ (P m).imports, i.loc = l → i.name = none := by
        intro i h1 h2
        apply Classical.byContradiction
        intro h3
        exact hi ⟨i, h1, h2, h3⟩
      refine .inl ⟨.own he hh, fun k l' e => ?_⟩
      cases e
      exact ⟨rfl, he, hh⟩
  | ind ex k im => cases hx; exact .inl ⟨.ind he, fun _ _ e => by cases e⟩
  | ns ex k => cases hx; exact .inl ⟨.ns he, fun _ _ e => by cases e⟩
  | star k => cases hx

theorem tab_eq {P : Prog n} (h : P.Ok) (hr : NoReexport P) : codeTab P = stdTab P := by
  have hl : lookup P = (stdTab P).look := by
    funext m x
    cases hx : lookup P m x with
    | none => exact (look_none h |>.1 hx).symm
    | some t =>
      rcases look_some h hx with ⟨he, _⟩ | ⟨i, y, rfl, hi, hn, he, _⟩
      · exact ((explicit_iff (h m)).2 he).symm
      · exact absurd he (hr m x i hi (by rw [hn]; exact fun e => by cases e))
  have hs : stars P = (stdTab P).stars := funext fun m => stars_eq P m
  show Tab.mk _ _ = _
  rw [hl, hs]

/-- A candidate of the code is one of the standard, or an imported name which is exported again. -/
theorem cand_code {P : Prog n} (h : P.Ok) {v : Fin n × Name} {b : Bind n}
    (c : GCand (codeTab P) v b) :
    (Cand P v b ∧ ∀ k l, b = .var k l →
      (∃ x, .loc x l ∈ (P k).exports) ∧ ∀ i ∈ (P k).imports, i.loc = l → i.name = none) ∨
    ∃ p i y, b = .var p i.loc ∧ i ∈ (P p).imports ∧ i.name = some y ∧
      ∀ c, Cand P (i.mod, y) c → Cand P v c := by
  have lift : ∀ {v w : Fin n × Name}, GEdge (codeTab P) v w → Edge P v w := by
    intro v w e
    cases e with
    | entry hl =>
      rcases look_some h hl with ⟨he, _⟩ | ⟨i, y, hc, _⟩
      · exact .entry he
      · cases hc
    | star hl hd hk =>
      exact .star ((stdLook_none (h _)).1 ((look_none h).1 hl)) hd (mem_stars.1 hk)
  induction c with
  | @here v b hl =>
    rcases look_some h hl with ⟨he, hv⟩ | ⟨i, y, hc, hi, hn, _, he⟩
    · refine .inl ⟨.here he, fun k l e => ?_⟩
      obtain ⟨rfl, h1, h2⟩ := hv k l (by rw [e])
      exact ⟨⟨_, h1⟩, h2⟩
    · cases hc
      exact .inr ⟨v.1, i, y, rfl, hi, hn, fun c hc => .next (.entry he) hc⟩
  | next he _ ih =>
    rcases ih with ⟨h1, h2⟩ | ⟨p, i, y, h1, h2, h3, h4⟩
    · exact .inl ⟨.next (lift he) h1, h2⟩
    · exact .inr ⟨p, i, y, h1, h2, h3, fun c hc => .next (lift he) (h4 c hc)⟩

theorem meaning_same {P : Prog n} {v : Fin n × Name} {o o' : Out n} (h : Meaning P v o)
    (h' : Meaning P v o') : o.Same o' := by
  cases h with
  | nothing h1 =>
    cases h' with
    | nothing => rfl
    | one h2 => exact absurd h2 (h1 _)
    | ambiguous h2 => exact absurd h2 (h1 _)
  | one h1 h2 =>
    cases h' with
    | nothing h3 => exact absurd h1 (h3 _)
    | one h3 => rw [h2 _ h3]; rfl
    | ambiguous h3 h4 h5 => exact absurd ((h2 _ h4).trans (h2 _ h3).symm) h5
  | ambiguous h1 h2 h3 =>
    cases h' with
    | nothing h4 => exact absurd h1 (h4 _)
    | one h4 h5 => exact absurd ((h5 _ h2).trans (h5 _ h1).symm) h3
    | ambiguous => trivial

theorem resolve_snd (P : Prog n) (m : Fin n) (x : Name) :
    Snd (codeTab P) (m, x) (resolveExport P m x) := by
  rw [resolveExport_eq]
  exact snd_gres _ _ _

/-! ### The names of a namespace -/

/-- What was visited between two states is complete. -/
def NClosed (P : Prog n) (s : List (Fin n)) (st' : NSt n) : Prop :=
  ∀ u ∈ st'.1, u ∉ s → ∀ e ∈ (P u).exports,
    (∀ x, e.name = some x → x ∈ st'.2) ∧ ∀ k, e = .star k → k ∈ st'.1

structure NGood (P : Prog n) (st st' : NSt n) : Prop where
  seen : st.1 ⊆ st'.1
  names : st.2 ⊆ st'.2
  nodup : st.2.Nodup → st'.2.Nodup
  closed : NClosed P st.1 st'

theorem NGood.rfl {P : Prog n} {st : NSt n} : NGood P st st :=
  ⟨List.Subset.refl _, List.Subset.refl _, id, fun _ h1 h2 => absurd h1 h2⟩

theorem NGood.trans {P : Prog n} {a b c : NSt n} (h1 : NGood P a b) (h2 : NGood P b c) :
    NGood P a c := by
  refine ⟨h1.seen.trans h2.seen, h1.names.trans h2.names, h2.nodup ∘ h1.nodup, ?_⟩
  intro u hu hn e he
  by_cases h : u ∈ b.1
  · have := h1.closed u h hn e he
    exact ⟨fun x hx => h2.names (this.1 x hx), fun k hk => h2.seen (this.2 k hk)⟩
  · exact h2.closed u hu h e he

theorem addName_good {P : Prog n} {st : NSt n} {x : Name} :
    NGood P st (st.1, addName st.2 x) ∧ x ∈ addName st.2 x := by
  unfold addName
  by_cases h : x ∈ st.2
  · rw [if_pos h]; exact ⟨NGood.rfl, h⟩
  · rw [if_neg h]
    refine ⟨⟨List.Subset.refl _, fun y hy => List.mem_append_left _ hy, fun hn => ?_,
      fun u h1 h2 => absurd h1 h2⟩, List.mem_append_right _ (List.mem_singleton.2 _root_.rfl)⟩
    rw [List.nodup_append]
    refine ⟨hn, List.nodup_cons.2 ⟨List.not_mem_nil, List.nodup_nil⟩, fun a ha b hb e => ?_⟩
    cases List.mem_singleton.1 hb
    exact h (e ▸ ha)

theorem entLoop_good {P : Prog n} {rec : NSt n → Fin n → Option (NSt n)}
    (hrec : ∀ st k st', rec st k = some st' → NGood P st st' ∧ k ∈ st'.1) :
    ∀ (es : List (Exp n)) (st st' : NSt n), entLoop rec es st = some st' →
      NGood P st st' ∧ ∀ e ∈ es, (∀ x, e.name = some x → x ∈ st'.2) ∧
        ∀ k, e = .star k → k ∈ st'.1 := by
  intro es
  induction es with
  | nil =>
    intro st st' h
    cases h
    exact ⟨NGood.rfl, fun e he => absurd he List.not_mem_nil⟩
  | cons e es ih =>
    intro st st' h
    have nm : ∀ ex, e.name = some ex → (∀ k, e ≠ .star k) →
        entLoop rec es (st.1, addName st.2 ex) = some st' →
        NGood P st st' ∧ ∀ e' ∈ e :: es, (∀ x, e'.name = some x → x ∈ st'.2) ∧
        ∀ k, e' = .star k → k ∈ st'.1 := by
      intro ex hex hns h
      obtain ⟨g, he⟩ := ih _ _ h
      obtain ⟨g0, hm⟩ := addName_good (P := P) (st := st) (x := ex)
      refine ⟨g0.trans g, fun e' he' => ?_⟩
      rcases List.mem_cons.1 he' with rfl | he'
      · refine ⟨fun x hx => ?_, fun k hk => absurd hk (hns k)⟩
        rw [hex] at hx; cases hx
        exact g.names hm
      · exact he e' he'
    cases e with
    | loc ex l => exact nm ex rfl (fun _ h => by cases h) h
    | ind ex k im => exact nm ex rfl (fun _ h => by cases h) h
    | ns ex k => exact nm ex rfl (fun _ h => by cases h) h
    | star k =>
      unfold entLoop at h
      cases hk : rec st k with
      | none => rw [hk] at h; cases h
      | some st1 =>
        rw [hk] at h
        obtain ⟨g1, hm⟩ := hrec _ _ _ hk
        obtain ⟨g, he⟩ := ih _ _ h
        refine ⟨g1.trans g, fun e' he' => ?_⟩
        rcases List.mem_cons.1 he' with rfl | he'
        · refine ⟨fun x hx => (nomatch hx), fun k' hk' => ?_⟩
          cases hk'
          exact g.seen hm
        · exact he e' he'

theorem getNames_good {P : Prog n} : ∀ (f : Nat) (st : NSt n) (m : Fin n) (st' : NSt n),
    getNames P f st m = some st' → NGood P st st' ∧ m ∈ st'.1 := by
  intro f
  induction f with
  | zero => intro st m st' h; cases h
  | succ f ih =>
    intro st m st' h
    unfold getNames at h
    by_cases hm : m ∈ st.1
    · rw [if_pos hm] at h
      cases h
      exact ⟨NGood.rfl, hm⟩
    · rw [if_neg hm] at h
      obtain ⟨g, he⟩ := entLoop_good ih _ _ _ h
      have hms : m ∈ st'.1 := g.seen (List.mem_cons_self ..)
      refine ⟨⟨fun u hu => g.seen (List.mem_cons_of_mem _ hu), g.names, g.nodup, ?_⟩, hms⟩
      intro u hu hn e hue
      by_cases h1 : u = m
      · subst h1
        exact he e ((entries_perm (P u)).mem_iff.2 hue)
      · exact g.closed u hu (fun hc => by
          rcases List.mem_cons.1 hc with hc | hc
          · exact h1 hc
          · exact hn hc) e hue

theorem entLoop_ends {P : Prog n} {rec : NSt n → Fin n → Option (NSt n)} {s0 : List (Fin n)}
    (hrec : ∀ st k, s0 ⊆ st.1 → rec st k ≠ none)
    (hg : ∀ st k st', rec st k = some st' → NGood P st st' ∧ k ∈ st'.1) :
    ∀ (es : List (Exp n)) (st : NSt n), s0 ⊆ st.1 → entLoop rec es st ≠ none := by
  intro es
  induction es with
  | nil => intro st _ h; cases h
  | cons e es ih =>
    intro st h0
    cases e with
    | loc ex l => exact ih _ h0
    | ind ex k im => exact ih _ h0
    | ns ex k => exact ih _ h0
    | star k =>
      unfold entLoop
      cases hk : rec st k with
      | none => exact absurd hk (hrec st k h0)
      | some st1 => exact ih st1 (h0.trans (hg _ _ _ hk).1.seen)

theorem getNames_ends {P : Prog n} : ∀ (f : Nat) (st : NSt n) (m : Fin n),
    left (List.finRange n) st.1 < f → getNames P f st m ≠ none := by
  intro f
  induction f with
  | zero => intro st m h; exact absurd h (Nat.not_lt_zero _)
  | succ f ih =>
    intro st m hf
    unfold getNames
    by_cases hm : m ∈ st.1
    · rw [if_pos hm]; exact fun h => by cases h
    · rw [if_neg hm]
      have hlt := left_lt (List.mem_finRange m) hm
      refine entLoop_ends (P := P) (s0 := m :: st.1) (fun st' k h0 => ?_) (getNames_good f) _ _
        (List.Subset.refl _)
      have := left_mono (U := List.finRange n) h0
      exact ih st' k (by omega)

theorem names_of_cand {P : Prog n} {st : NSt n} (hc : NClosed P [] st) {v : Fin n × Name}
    {b : Bind n} (h : P.Ok) (c : GCand (codeTab P) v b) : v.1 ∈ st.1 → v.2 ∈ st.2 := by
  have ex : ∀ {v : Fin n × Name} {t : Target n}, v.1 ∈ st.1 → lookup P v.1 v.2 = some t →
      v.2 ∈ st.2 := by
    intro v t hv hl
    obtain ⟨e, he, hx⟩ := (lookup_iff (h v.1)).1 hl
    refine (hc v.1 hv List.not_mem_nil e he).1 _ ?_
    cases e <;> cases hx <;> rfl
  induction c with
  | here hl => intro hv; exact ex hv hl
  | next he _ ih =>
    intro hv
    cases he with
    | entry hl => exact ex hv hl
    | star _ _ hk =>
      exact ih ((hc _ hv List.not_mem_nil _ (mem_stars.1 hk)).2 _ rfl)

/-! ### Environments -/

variable {V : Type}

/-- What an environment made by linking looks like, at any later time. -/
structure EnvOk (P : Prog n) (nsv : Fin n → V) (m : Fin n) (e : Name → Option (Cell n V)) : Prop where
  imp : ∀ i ∈ (P m).imports, ∃ c, bindImp P nsv i = some c ∧ e i.loc = some c
  decl : ∀ x ∈ (P m).decls, e x = some .uninit ∨ ∃ v, e x = some (.val v)

theorem bindImp_cases {P : Prog n} {nsv : Fin n → V} {i : Imp n} {c : Cell n V}
    (h : bindImp P nsv i = some c) :
    (i.name = none ∧ c = .fixed (nsv i.mod)) ∨ ∃ y, i.name = some y ∧
      ((∃ k, resolveExport P i.mod y = .one (.ns k) ∧ c = .fixed (nsv k)) ∨
        ∃ k l, resolveExport P i.mod y = .one (.var k l) ∧ c = .imp k l) := by
  unfold bindImp at h
  cases hn : i.name with
  | none => rw [hn] at h; cases h; exact .inl ⟨rfl, rfl⟩
  | some y =>
    rw [hn] at h
    dsimp only at h
    refine .inr ⟨y, rfl, ?_⟩
    cases hr : resolveExport P i.mod y with
    | none => rw [hr] at h; cases h
    | amb b => rw [hr] at h; cases h
    | limit => rw [hr] at h; cases h
    | one b =>
      rw [hr] at h
      cases b with
      | ns k => cases h; exact .inl ⟨k, rfl, rfl⟩
      | var k l => cases h; exact .inr ⟨k, l, rfl, rfl⟩

theorem bindImports_some {P : Prog n} {nsv : Fin n → V} :
    ∀ (is : List (Imp n)) (e e' : Name → Option (Cell n V)), (is.map (·.loc)).Nodup →
      bindImports P nsv is e = some e' →
      (∀ i ∈ is, ∃ c, bindImp P nsv i = some c ∧ e' i.loc = some c) ∧
      ∀ x, x ∉ is.map (·.loc) → e' x = e x := by
  intro is
  induction is with
  | nil =>
    intro e e' _ h
    cases h
    exact ⟨fun i hi => absurd hi List.not_mem_nil, fun _ _ => rfl⟩
  | cons i is ih =>
    intro e e' hn h
    simp only [List.map_cons, List.nodup_cons] at hn
    unfold bindImports at h
    cases hc : bindImp P nsv i with
    | none => rw [hc] at h; cases h
    | some c =>
      rw [hc] at h
      obtain ⟨h1, h2⟩ := ih _ _ hn.2 h
      refine ⟨fun j hj => ?_, fun x hx => ?_⟩
      · rcases List.mem_cons.1 hj with rfl | hj
        · refine ⟨c, hc, ?_⟩
          rw [h2 _ hn.1]
          simp [setCell]
        · exact h1 j hj
      · simp only [List.map_cons, List.mem_cons, not_or] at hx
        rw [h2 x hx.2]
        simp [setCell, hx.1]

theorem bindImports_iff {P : Prog n} {nsv : Fin n → V} :
    ∀ (is : List (Imp n)) (e : Name → Option (Cell n V)),
      bindImports P nsv is e ≠ none ↔ ∀ i ∈ is, bindImp P nsv i ≠ none := by
  intro is
  induction is with
  | nil =>
    intro e
    exact ⟨fun _ i hi => absurd hi List.not_mem_nil, fun _ h => by cases h⟩
  | cons i is ih =>
    intro e
    unfold bindImports
    cases hc : bindImp P nsv i with
    | none =>
      refine ⟨fun h => absurd rfl h, fun h => absurd hc (h i (List.mem_cons_self ..))⟩
    | some c =>
      dsimp only
      rw [ih]
      constructor
      · intro h j hj
        rcases List.mem_cons.1 hj with rfl | hj
        · rw [hc]; exact fun e => by cases e
        · exact h j hj
      · intro h j hj
        exact h j (List.mem_cons_of_mem _ hj)

theorem declare_spec : ∀ (xs : List Name) (e : Name → Option (Cell n V)),
    (∀ x ∈ xs, declare xs e x = some .uninit) ∧ ∀ x, x ∉ xs → declare xs e x = e x := by
  intro xs
  induction xs with
  | nil => intro e; exact ⟨fun x h => absurd h List.not_mem_nil, fun _ _ => rfl⟩
  | cons y ys ih =>
    intro e
    obtain ⟨h1, h2⟩ := ih (setCell e y .uninit)
    unfold declare
    refine ⟨fun x hx => ?_, fun x hx => ?_⟩
    · by_cases hxy : x ∈ ys
      · exact h1 x hxy
      · rw [h2 x hxy]
        rcases List.mem_cons.1 hx with rfl | hx
        · simp [setCell]
        · exact absurd hx hxy
    · simp only [List.mem_cons, not_or] at hx
      rw [h2 x hx.2]
      simp [setCell, hx.1]

theorem initEnv_ok {P : Prog n} {nsv : Fin n → V} {m : Fin n} (h : (P m).Ok)
    {e : Name → Option (Cell n V)} (he : initEnv P nsv m = some e) : EnvOk P nsv m e := by
  unfold initEnv at he
  split at he
  · cases hb : bindImports P nsv (P m).imports (fun _ => none) with
    | none => rw [hb] at he; cases he
    | some e0 =>
      rw [hb] at he
      cases he
      obtain ⟨h1, _⟩ := bindImports_some _ _ _ (imports_nodup h) hb
      obtain ⟨d1, d2⟩ := declare_spec (P m).decls e0
      refine ⟨fun i hi => ?_, fun x hx => .inl (d1 x hx)⟩
      obtain ⟨c, hc, hec⟩ := h1 i hi
      refine ⟨c, hc, ?_⟩
      rw [d2]
      · exact hec
      · intro hd
        exact (List.nodup_append.1 h.imports).2.2 _ (List.mem_map.2 ⟨i, hi, rfl⟩) _ hd rfl
  · cases he

/-- All environments are like this. -/
def Inv (P : Prog n) (nsv : Fin n → V) (st : Envs n V) : Prop :=
  ∀ m e, st m = some e → EnvOk P nsv m e

theorem inv_step {P : Prog n} {nsv : Fin n → V} (h : P.Ok) {st : Envs n V} (hi : Inv P nsv st)
    (o : Op n V) : Inv P nsv (step P nsv st o) := by
  cases o with
  | link m =>
    dsimp only [step]
    cases hm : st m with
    | some e => exact hi
    | none =>
      dsimp only
      cases he : initEnv P nsv m with
      | none => exact hi
      | some e =>
        intro k e' hk
        dsimp only at hk
        by_cases hkm : k = m
        · subst hkm
          rw [if_pos rfl] at hk
          cases hk
          exact initEnv_ok (h k) he
        · rw [if_neg hkm] at hk
          exact hi k e' hk
  | put m x v =>
    dsimp only [step]
    cases hm : st m with
    | none => exact hi
    | some e =>
      dsimp only
      have ok := hi m e hm
      have go : (e x = some .uninit ∨ ∃ v, e x = some (.val v)) →
          Inv P nsv (fun k => if k = m then some (setCell e x (.val v)) else st k) := by
        intro hx k e' hk
        dsimp only at hk
        by_cases hkm : k = m
        · subst hkm
          rw [if_pos rfl] at hk
          cases hk
          refine ⟨fun i hii => ?_, fun y hy => ?_⟩
          · obtain ⟨c, hc, hec⟩ := ok.imp i hii
            refine ⟨c, hc, ?_⟩
            unfold setCell
            by_cases hix : i.loc = x
            · exfalso
              rw [hix] at hec
              rcases bindImp_cases hc with ⟨_, rfl⟩ | ⟨_, _, ⟨_, _, rfl⟩ | ⟨_, _, _, rfl⟩⟩ <;>
              · rw [hec] at hx
                rcases hx with hx | ⟨_, hx⟩ <;> cases hx
            · rw [if_neg hix]; exact hec
          · unfold setCell
            by_cases hyx : y = x
            · rw [if_pos hyx]; exact .inr ⟨v, rfl⟩
            · rw [if_neg hyx]; exact ok.decl y hy
        · rw [if_neg hkm] at hk
          exact hi k e' hk
      cases hx : e x with
      | none => exact hi
      | some c =>
        cases c with
        | imp k l => exact hi
        | fixed v => exact hi
        | uninit => exact go (.inl hx)
        | val w => exact go (.inr ⟨w, hx⟩)

theorem inv_run {P : Prog n} {nsv : Fin n → V} (h : P.Ok) (ops : List (Op n V)) :
    Inv P nsv (run P nsv ops) := by
  unfold run
  have : ∀ (ops : List (Op n V)) (st : Envs n V), Inv P nsv st →
      Inv P nsv (ops.foldl (step P nsv) st) := by
    intro ops
    induction ops with
    | nil => intro st hs; exact hs
    | cons o os ih => intro st hs; exact ih _ (inv_step h hs o)
  exact this ops _ (fun m e he => by cases he)

/-- A variable which is not imported by name is read in one step. -/
theorem read_own {P : Prog n} {nsv : Fin n → V} (h : P.Ok) {st : Envs n V} (hi : Inv P nsv st)
    {k : Fin n} {l x : Name} (hx : .loc x l ∈ (P k).exports)
    (hl : ∀ i ∈ (P k).imports, i.loc = l → i.name = none) (f : Nat) :
    Now nsv st (.var k l) (read st (f + 1) k l) := by
  unfold read
  cases hk : st k with
  | none => exact .early hk
  | some e =>
    dsimp only
    have ok := hi k e hk
    rcases List.mem_append.1 ((h k).defined x l hx) with hm | hm
    · obtain ⟨i, hii, rfl⟩ := List.mem_map.1 hm
      obtain ⟨c, hc, hec⟩ := ok.imp i hii
      rcases bindImp_cases hc with ⟨_, rfl⟩ | ⟨y, hy, _⟩
      · rw [hec]; exact .fixed hk hec
      · rw [hl i hii rfl] at hy; cases hy
    · rcases ok.decl l hm with hu | ⟨v, hv⟩
      · rw [hu]; exact .uninit hk hu
      · rw [hv]; exact .value hk hv

/-- Reading an imported name, if it ends, reads what the standard says. -/
theorem read_import {P : Prog n} {nsv : Fin n → V} (h : P.Ok) {st : Envs n V}
    (hi : Inv P nsv st) (hall : ∀ k, st k ≠ none) {b : Bind n} :
    ∀ (f : Nat) (m : Fin n) (i : Imp n) (y : Name), i ∈ (P m).imports → i.name = some y →
      (∀ c, Cand P (i.mod, y) c → c = b) →
      read st f m i.loc = .limit ∨ Now nsv st b (read st f m i.loc) := by
  intro f
  induction f with
  | zero => intro m i y _ _ _; exact .inl rfl
  | succ f ih =>
    intro m i y him hn hb
    cases hm : st m with
    | none => exact absurd hm (hall m)
    | some e =>
      obtain ⟨c, hc, hec⟩ := (hi m e hm).imp i him
      unfold read
      simp only [hm, hec]
      have hs := resolve_snd P i.mod y
      rcases bindImp_cases hc with ⟨hn', _⟩ | ⟨y', hy', hr⟩
      · rw [hn] at hn'; cases hn'
      · rw [hn] at hy'; cases hy'
        rcases hr with ⟨k, hr, rfl⟩ | ⟨k, l, hr, rfl⟩
        · rw [hr] at hs
          rcases cand_code h hs with ⟨h1, _⟩ | ⟨_, _, _, h1, _⟩
          · rw [← hb _ h1]; exact .inr (.namespace k)
          · cases h1
        · rw [hr] at hs
          dsimp only
          rcases cand_code h hs with ⟨h1, h2⟩ | ⟨p, j, z, h1, h2, h3, h4⟩
          · obtain ⟨⟨x, hx⟩, hl⟩ := h2 k l rfl
            rw [← hb _ h1]
            cases f with
            | zero => exact .inl rfl
            | succ f => exact .inr (read_own h hi hx hl f)
          · cases h1
            exact ih k j z h2 h3 fun c hc => hb c (h4 c hc)

end Verif.Resolve

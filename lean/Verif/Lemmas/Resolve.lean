import Verif.Spec.Resolve
/-
The search for an exported name, for any table of entries and both treatments of an ambiguous
answer.
-/
namespace Verif.Resolve
variable {n : Nat}

/-- Entries by name, and star entries. -/
structure Tab (n : Nat) where
  look : Fin n → Name → Option (Target n)
  stars : Fin n → List (Fin n)

/-- The loop; `sw`: an ambiguous answer is taken for a success. -/
def gloop (sw : Bool) (rec : Seen n → Fin n → Out n × Seen n) :
    List (Fin n) → Option (Bind n) → Seen n → Out n × Seen n
  | [], none, s => (.none, s)
  | [], some b, s => (.one b, s)
  | k :: ks, acc, s =>
    match rec s k with
    | (.limit, s') => (.limit, s')
    | (.none, s') => gloop sw rec ks acc s'
    | (.one b, s') =>
      match acc with
      | none => gloop sw rec ks (some b) s'
      | some a => if b = a then gloop sw rec ks (some a) s' else (.amb a, s')
    | (.amb b, s') =>
      if sw then
        match acc with
        | none => gloop sw rec ks (some b) s'
        | some a => if b = a then gloop sw rec ks (some a) s' else (.amb a, s')
      else (.amb b, s')

def gres (sw : Bool) (T : Tab n) : Nat → Seen n → Fin n × Name → Out n × Seen n
  | 0, s, _ => (.limit, s)
  | f + 1, s, v =>
    if v ∈ s then (.none, s)
    else
      match T.look v.1 v.2 with
      | some (.fin b) => (.one b, v :: s)
      | some (.go k im) => gres sw T f (v :: s) (k, im)
      | none =>
        if v.2 = dflt then (.none, v :: s)
        else gloop sw (fun s k => gres sw T f s (k, v.2)) (T.stars v.1) none (v :: s)

inductive GEdge (T : Tab n) : Fin n × Name → Fin n × Name → Prop where
  | entry {v w : Fin n × Name} : T.look v.1 v.2 = some (.go w.1 w.2) → GEdge T v w
  | star {v : Fin n × Name} {k : Fin n} : T.look v.1 v.2 = none → v.2 ≠ dflt → k ∈ T.stars v.1 →
      GEdge T v (k, v.2)

inductive GCand (T : Tab n) : Fin n × Name → Bind n → Prop where
  | here {v : Fin n × Name} {b : Bind n} : T.look v.1 v.2 = some (.fin b) → GCand T v b
  | next {v w : Fin n × Name} {b : Bind n} : GEdge T v w → GCand T w b → GCand T v b

inductive GReach (T : Tab n) : Fin n × Name → Fin n × Name → Prop where
  | refl (v : Fin n × Name) : GReach T v v
  | step {u v w : Fin n × Name} : GReach T u v → GEdge T v w → GReach T u w

/-! ### Soundness -/

/-- The answer is right as far as it goes. -/
def Snd (T : Tab n) (v : Fin n × Name) : Out n → Prop
  | .none => True
  | .limit => True
  | .one b => GCand T v b
  | .amb b => GCand T v b ∧ ∃ b', b' ≠ b ∧ GCand T v b'

theorem snd_gloop {sw : Bool} {T : Tab n} {v : Fin n × Name}
    {rec : Seen n → Fin n → Out n × Seen n} (hl : T.look v.1 v.2 = none) (hd : v.2 ≠ dflt)
    (hrec : ∀ s k, k ∈ T.stars v.1 → Snd T (k, v.2) (rec s k).1) :
    ∀ (ks : List (Fin n)) (acc : Option (Bind n)) (s : Seen n), (∀ k ∈ ks, k ∈ T.stars v.1) →
      (∀ a, acc = some a → GCand T v a) → Snd T v (gloop sw rec ks acc s).1 := by
  intro ks
  induction ks with
  | nil =>
    intro acc s _ hacc
    cases acc with
    | none => trivial
    | some a => exact hacc a rfl
  | cons k ks ih =>
    intro acc s hks hacc
    have hk := hks k (List.mem_cons_self ..)
    have hks' : ∀ k ∈ ks, k ∈ T.stars v.1 := fun k' h => hks k' (List.mem_cons_of_mem _ h)
    have hs := hrec s k hk
    have he : GEdge T v (k, v.2) := .star hl hd hk
    have two : ∀ b a s', GCand T (k, v.2) b → acc = some a →
        Snd T v (if b = a then gloop sw rec ks (some a) s' else (.amb a, s')).1 := by
      intro b a s' hb ha
      by_cases hba : b = a
      · rw [if_pos hba]
        exact ih _ _ hks' (fun a' h => by cases h; exact hacc a ha)
      · rw [if_neg hba]
        exact ⟨hacc a ha, b, hba, .next he hb⟩
    unfold gloop
    generalize rec s k = q at hs
    obtain ⟨o, s'⟩ := q
    cases o with
    | none => exact ih _ _ hks' hacc
    | limit => trivial
    | one b =>
      cases acc with
      | none => exact ih _ _ hks' (fun a h => by cases h; exact .next he hs)
      | some a => exact two b a s' hs rfl
    | amb b =>
      obtain ⟨hb, b', hb', hc'⟩ := hs
      cases sw with
      | false => exact ⟨.next he hb, b', hb', .next he hc'⟩
      | true =>
        cases acc with
        | none => exact ih _ _ hks' (fun a h => by cases h; exact .next he hb)
        | some a => exact two b a s' hb rfl

theorem snd_gres {sw : Bool} {T : Tab n} : ∀ (f : Nat) (s : Seen n) (v : Fin n × Name),
    Snd T v (gres sw T f s v).1 := by
  intro f
  induction f with
  | zero => intro s v; trivial
  | succ f ih =>
    intro s v
    unfold gres
    by_cases hv : v ∈ s
    · rw [if_pos hv]; trivial
    · rw [if_neg hv]
      cases hl : T.look v.1 v.2 with
      | some t =>
        cases t with
        | fin b => exact .here hl
        | go k im =>
          have he : GEdge T v (k, im) := .entry hl
          have h := ih (v :: s) (k, im)
          show Snd T v (gres sw T f (v :: s) (k, im)).1
          generalize gres sw T f (v :: s) (k, im) = q at h
          obtain ⟨o, s'⟩ := q
          cases o with
          | none => trivial
          | limit => trivial
          | one b => exact .next he h
          | amb b =>
            obtain ⟨hb, b', hb', hc'⟩ := h
            exact ⟨.next he hb, b', hb', .next he hc'⟩
      | none =>
        by_cases hd : v.2 = dflt
        · simp only [hd, if_true]; trivial
        · simp only [hd, if_false]
          exact snd_gloop hl hd (fun s k _ => ih s (k, v.2)) _ _ _ (fun _ h => h)
            (fun a h => by cases h)

/-! ### The set of searches grows -/

theorem sub_gloop {sw : Bool} {rec : Seen n → Fin n → Out n × Seen n}
    (hrec : ∀ s k, s ⊆ (rec s k).2) :
    ∀ (ks : List (Fin n)) (acc : Option (Bind n)) (s : Seen n), s ⊆ (gloop sw rec ks acc s).2 := by
  intro ks
  induction ks with
  | nil => intro acc s; cases acc <;> exact List.Subset.refl _
  | cons k ks ih =>
    intro acc s
    have hs := hrec s k
    have two : ∀ (b a : Bind n) (s' : Seen n), s ⊆ s' →
        s ⊆ (if b = a then gloop sw rec ks (some a) s' else (.amb a, s')).2 := by
      intro b a s' h
      by_cases hba : b = a
      · rw [if_pos hba]; exact h.trans (ih _ _)
      · rw [if_neg hba]; exact h
    unfold gloop
    generalize rec s k = q at hs
    obtain ⟨o, s'⟩ := q
    cases o with
    | none => exact hs.trans (ih _ _)
    | limit => exact hs
    | one b =>
      cases acc with
      | none => exact hs.trans (ih _ _)
      | some a => exact two b a s' hs
    | amb b =>
      cases sw with
      | false => exact hs
      | true =>
        cases acc with
        | none => exact hs.trans (ih _ _)
        | some a => exact two b a s' hs

theorem sub_gres {sw : Bool} {T : Tab n} : ∀ (f : Nat) (s : Seen n) (v : Fin n × Name),
    s ⊆ (gres sw T f s v).2 := by
  intro f
  induction f with
  | zero => intro s v; exact List.Subset.refl _
  | succ f ih =>
    intro s v
    have hc : s ⊆ v :: s := List.subset_cons_self _ _
    unfold gres
    by_cases hv : v ∈ s
    · rw [if_pos hv]; exact List.Subset.refl _
    · rw [if_neg hv]
      cases hl : T.look v.1 v.2 with
      | some t =>
        cases t with
        | fin b => exact hc
        | go k im => exact hc.trans (ih _ _)
      | none =>
        by_cases hd : v.2 = dflt
        · simp only [hd, if_true]; exact hc
        · simp only [hd, if_false]
          exact hc.trans (sub_gloop (fun s k => ih s _) _ _ _)

theorem mem_gres {sw : Bool} {T : Tab n} {f : Nat} {s : Seen n} {v : Fin n × Name}
    (h : (gres sw T f s v).1 ≠ .limit) : v ∈ (gres sw T f s v).2 := by
  cases f with
  | zero => exact absurd rfl h
  | succ f =>
    have hc : v ∈ v :: s := List.mem_cons_self ..
    unfold gres
    by_cases hv : v ∈ s
    · rw [if_pos hv]; exact hv
    · rw [if_neg hv]
      cases hl : T.look v.1 v.2 with
      | some t =>
        cases t with
        | fin b => exact hc
        | go k im => exact sub_gres _ _ _ hc
      | none =>
        by_cases hd : v.2 = dflt
        · simp only [hd, if_true]; exact hc
        · simp only [hd, if_false]
          exact sub_gloop (fun s k => sub_gres _ _ _) _ _ _ hc

/-! ### It ends -/

/-- Members of `U` which are not in `s`. -/
def left {α : Type} [DecidableEq α] (U s : List α) : Nat := (U.filter fun u => decide (u ∉ s)).length

theorem left_mono {α : Type} [DecidableEq α] {U s s' : List α} (h : s ⊆ s') : left U s' ≤ left U s := by
  unfold left
  induction U with
  | nil => exact Nat.le_refl _
  | cons u U ih =>
    simp only [List.filter_cons]
    by_cases h1 : u ∈ s
    · simp only [h1, h h1, not_true_eq_false, decide_false, Bool.false_eq_true, if_false]; exact ih
    · by_cases h2 : u ∈ s'
      · simp only [h1, h2, not_true_eq_false, not_false_eq_true, decide_false, decide_true,
          Bool.false_eq_true, if_false, if_true, List.length_cons]; omega
      · simp only [h1, h2, not_false_eq_true, decide_true, if_true, List.length_cons]; omega

theorem left_lt {α : Type} [DecidableEq α] {U s : List α} {v : α} (hu : v ∈ U) (hs : v ∉ s) :
    left U (v :: s) < left U s := by
  induction U with
  | nil => cases hu
  | cons u U ih =>
    have hm : left U (v :: s) ≤ left U s := left_mono (List.subset_cons_self _ _)
    by_cases huv : u = v
    · subst huv
      unfold left at hm ⊢
      simp only [List.filter_cons, hs, List.mem_cons, true_or, not_true_eq_false,
        not_false_eq_true, decide_false, decide_true, Bool.false_eq_true, if_false, if_true,
        List.length_cons] at hm ⊢
      omega
    · have hu' : v ∈ U := by
        rcases List.mem_cons.1 hu with h | h
        · exact absurd h.symm huv
        · exact h
      have := ih hu'
      unfold left at this ⊢
      simp only [List.filter_cons, List.mem_cons, huv, false_or] at this ⊢
      by_cases h1 : u ∈ s
      · simp only [h1, not_true_eq_false, decide_false, Bool.false_eq_true, if_false]; exact this
      · simp only [h1, not_false_eq_true, decide_true, if_true, List.length_cons]; omega

theorem ends_gloop {sw : Bool} {rec : Seen n → Fin n → Out n × Seen n} {s0 : Seen n}
    (hsub : ∀ s k, s ⊆ (rec s k).2) :
    ∀ (ks : List (Fin n)), (∀ s k, k ∈ ks → s0 ⊆ s → (rec s k).1 ≠ .limit) →
      ∀ (acc : Option (Bind n)) (s : Seen n), s0 ⊆ s → (gloop sw rec ks acc s).1 ≠ .limit := by
  intro ks
  induction ks with
  | nil => intro _ acc s _; cases acc <;> exact (fun h => nomatch h)
  | cons k ks ih =>
    intro hrec acc s h0
    have hs := hsub s k
    have hn := hrec s k (List.mem_cons_self ..) h0
    have ih := ih (fun s k hk => hrec s k (List.mem_cons_of_mem _ hk))
    have two : ∀ (b a : Bind n) (s' : Seen n), s ⊆ s' →
        (if b = a then gloop sw rec ks (some a) s' else (.amb a, s')).1 ≠ .limit := by
      intro b a s' h
      by_cases hba : b = a
      · rw [if_pos hba]; exact ih _ _ (h0.trans h)
      · rw [if_neg hba]; exact (fun h => nomatch h)
    unfold gloop
    generalize rec s k = q at hs hn
    obtain ⟨o, s'⟩ := q
    cases o with
    | none => exact ih _ _ (h0.trans hs)
    | limit => exact absurd rfl hn
    | one b =>
      cases acc with
      | none => exact ih _ _ (h0.trans hs)
      | some a => exact two b a s' hs
    | amb b =>
      cases sw with
      | false => exact (fun h => nomatch h)
      | true =>
        cases acc with
        | none => exact ih _ _ (h0.trans hs)
        | some a => exact two b a s' hs

theorem ends_gres {sw : Bool} {T : Tab n} {U : Seen n}
    (hU : ∀ v w, v ∈ U → GEdge T v w → w ∈ U) :
    ∀ (f : Nat) (s : Seen n) (v : Fin n × Name), v ∈ U → left U s < f →
      (gres sw T f s v).1 ≠ .limit := by
  intro f
  induction f with
  | zero => intro s v _ h; exact absurd h (Nat.not_lt_zero _)
  | succ f ih =>
    intro s v hv hf
    unfold gres
    by_cases hs : v ∈ s
    · rw [if_pos hs]; exact (fun h => nomatch h)
    · rw [if_neg hs]
      have hlt := left_lt hv hs
      cases hl : T.look v.1 v.2 with
      | some t =>
        cases t with
        | fin b => exact (fun h => nomatch h)
        | go k im => exact ih _ _ (hU _ _ hv (.entry hl)) (by omega)
      | none =>
        by_cases hd : v.2 = dflt
        · simp only [hd, if_true]; exact (fun h => nomatch h)
        · simp only [hd, if_false]
          refine ends_gloop (s0 := v :: s) (fun s k => sub_gres _ _ _) _ ?_ _ _
            (List.Subset.refl _)
          intro s' k hk h0
          have := left_mono (U := U) h0
          exact ih _ _ (hU _ _ hv (.star hl hd hk)) (by omega)

/-! ### Completeness -/

/-- All that was searched between `s` and `s'` leads to nothing but `B`, or to what was searched. -/
def Closed (T : Tab n) (s s' : Seen n) (B : Bind n → Prop) : Prop :=
  ∀ u, u ∈ s' → u ∉ s → (∀ b, T.look u.1 u.2 = some (.fin b) → B b) ∧ ∀ w, GEdge T u w → w ∈ s'

theorem Closed.trans {T : Tab n} {s s1 s' : Seen n} {B B1 : Bind n → Prop}
    (h1 : Closed T s s1 B1) (h2 : Closed T s1 s' B) (hb : ∀ b, B1 b → B b) (hs : s1 ⊆ s') :
    Closed T s s' B := by
  intro u hu hn
  by_cases h : u ∈ s1
  · have := h1 u h hn
    exact ⟨fun b hl => hb b (this.1 b hl), fun w hw => hs (this.2 w hw)⟩
  · exact h2 u hu h

theorem Closed.refl {T : Tab n} {s : Seen n} {B : Bind n → Prop} : Closed T s s B :=
  fun _ hu hn => absurd hu hn

/-- An answer whose search was complete: nothing, or one thing, and no ambiguous answer was taken
for a success on the way. -/
def Full (sw : Bool) (N : Prop) : Out n → Prop
  | .none => True
  | .one _ => sw = false ∨ N
  | _ => False

theorem closed_gloop {sw : Bool} {N : Prop} {T : Tab n} {x : Name}
    {rec : Seen n → Fin n → Out n × Seen n}
    (hsub : ∀ s k, s ⊆ (rec s k).2)
    (hmem : ∀ s k, (rec s k).1 ≠ .limit → (k, x) ∈ (rec s k).2) :
    ∀ (ks : List (Fin n)),
    (∀ s k, k ∈ ks → Full sw N (rec s k).1 →
      Closed T s (rec s k).2 (fun b => (rec s k).1 = .one b)) →
    (∀ s k b, k ∈ ks → sw = true → N → (rec s k).1 ≠ .amb b) →
    ∀ (acc : Option (Bind n)) (s : Seen n), Full sw N (gloop sw rec ks acc s).1 →
      (∀ k ∈ ks, (k, x) ∈ (gloop sw rec ks acc s).2) ∧
      Closed T s (gloop sw rec ks acc s).2 (fun b => (gloop sw rec ks acc s).1 = .one b) ∧
      ∀ a, acc = some a → (gloop sw rec ks acc s).1 = .one a := by
  intro ks
  induction ks with
  | nil =>
    intro _ _ acc s _
    refine ⟨fun k h => (by cases h), ?_, ?_⟩
    · cases acc <;> exact Closed.refl
    · intro a h; subst h; rfl
  | cons k ks ih =>
    intro hcl hna acc s hf
    have hs := hsub s k
    have hm := hmem s k
    have hc := hcl s k (List.mem_cons_self ..)
    have hn : ∀ b, sw = true → N → (rec s k).1 ≠ .amb b :=
      fun b => hna s k b (List.mem_cons_self ..)
    have ih := ih (fun s k hk => hcl s k (List.mem_cons_of_mem _ hk))
      (fun s k b hk => hna s k b (List.mem_cons_of_mem _ hk))
    have go : ∀ (acc' : Option (Bind n)) (s' : Seen n) (B1 : Bind n → Prop), s ⊆ s' →
        (k, x) ∈ s' → Full sw N (gloop sw rec ks acc' s').1 →
        (Full sw N (gloop sw rec ks acc' s').1 → Closed T s s' B1) →
        (∀ b, B1 b → (gloop sw rec ks acc' s').1 = .one b) →
        (∀ a, acc = some a → acc' = some a) →
        (∀ k' ∈ k :: ks, (k', x) ∈ (gloop sw rec ks acc' s').2) ∧
        Closed T s (gloop sw rec ks acc' s').2 (fun b => (gloop sw rec ks acc' s').1 = .one b) ∧
        ∀ a, acc = some a → (gloop sw rec ks acc' s').1 = .one a := by
      intro acc' s' B1 h1 h2 h3 h4 h5 h6
      obtain ⟨i1, i2, i3⟩ := ih acc' s' h3
      have hsl := sub_gloop (sw := sw) hsub ks acc' s'
      refine ⟨fun k' hk' => ?_, (h4 h3).trans i2 h5 hsl, fun a ha => i3 a (h6 a ha)⟩
      rcases List.mem_cons.1 hk' with rfl | h
      · exact hsl h2
      · exact i1 k' h
    unfold gloop at hf ⊢
    generalize hq : rec s k = q at hs hm hc hf hn
    obtain ⟨o, s'⟩ := q
    cases o with
    | limit => exact absurd hf id
    | none =>
      exact go acc s' (fun _ => False) hs (hm (fun h => nomatch h)) hf
        (fun _ u hu hnu =>
          ⟨fun b hl => (by have := (hc trivial u hu hnu).1 b hl; cases this),
            (hc trivial u hu hnu).2⟩)
        (fun _ h => h.elim) (fun _ h => h)
    | one b =>
      have hm := hm (fun h => nomatch h)
      have aux : ∀ a, (gloop sw rec ks (some a) s').1 = .one a → b = a →
          Full sw N (gloop sw rec ks (some a) s').1 → Closed T s s' (fun c => c = a) := by
        intro a h1 h2 h3
        rw [h1] at h3
        have := hc h3
        intro u hu hnu
        exact ⟨fun c hl => by
          have h4 : Out.one b = Out.one c := (this u hu hnu).1 c hl
          cases h4; exact h2, (this u hu hnu).2⟩
      cases acc with
      | none =>
        have h1 := (ih (some b) s' hf).2.2 b rfl
        exact go (some b) s' (fun c => c = b) hs hm hf (aux b h1 rfl)
          (fun c hcb => by rw [hcb]; exact h1) (fun a h => by cases h)
      | some a =>
        by_cases hba : b = a
        · simp only [hba, if_true] at hf ⊢
          have h1 := (ih (some a) s' hf).2.2 a rfl
          exact go (some a) s' (fun c => c = a) hs hm hf (aux a h1 hba)
            (fun c hca => by rw [hca]; exact h1) (fun a' h => h)
        · simp only [hba, if_false] at hf; exact absurd hf id
    | amb b =>
      cases sw with
      | false => exact absurd hf id
      | true =>
        exfalso
        have nn : ¬ N := fun hN => hn b rfl hN rfl
        have no : ∀ a, Full true N (gloop true rec ks (some a) s').1 → False := by
          intro a h
          rw [(ih (some a) s' h).2.2 a rfl] at h
          rcases h with h | h
          · cases h
          · exact nn h
        cases acc with
        | none => exact no b hf
        | some a =>
          by_cases hba : b = a
          · simp only [hba, if_true] at hf
            exact no a hf
          · simp only [hba, if_true, if_false] at hf; exact absurd hf id

/-- If `N` holds then no answer of a star entry is ambiguous. -/
def Calm (T : Tab n) (R : Fin n × Name → Prop) : Prop :=
  ∀ (v : Fin n × Name) (k : Fin n), R v → T.look v.1 v.2 = none → v.2 ≠ dflt → k ∈ T.stars v.1 →
    ∀ b b', GCand T (k, v.2) b → GCand T (k, v.2) b' → b = b'

theorem closed_gres {sw : Bool} {N : Prop} {T : Tab n} {R : Fin n × Name → Prop}
    (hR : ∀ v w, R v → GEdge T v w → R w) (hN : sw = true → N → Calm T R) :
    ∀ (f : Nat) (s : Seen n) (v : Fin n × Name), R v → Full sw N (gres sw T f s v).1 →
      Closed T s (gres sw T f s v).2 (fun b => (gres sw T f s v).1 = .one b) := by
  intro f
  induction f with
  | zero => intro s v _ h; exact absurd h id
  | succ f ih =>
    intro s v hv hf
    unfold gres at hf ⊢
    by_cases hs : v ∈ s
    · rw [if_pos hs]; exact Closed.refl
    · rw [if_neg hs] at hf ⊢
      have mem : ∀ {u : Fin n × Name}, u ∈ v :: s → u ∉ s → u = v := by
        intro u hu hnu
        rcases List.mem_cons.1 hu with h | h
        · exact h
        · exact absurd h hnu
      cases hl : T.look v.1 v.2 with
      | some t =>
        simp only [hl] at hf
        cases t with
        | fin b =>
          intro u hu hnu
          obtain rfl := mem hu hnu
          refine ⟨fun c hc => ?_, fun w hw => ?_⟩
          · rw [hl] at hc; cases hc; rfl
          · cases hw with
            | entry h => rw [hl] at h; cases h
            | star h => rw [hl] at h; cases h
        | go k im =>
          have hfr : Full sw N (gres sw T f (v :: s) (k, im)).1 := hf
          have h := ih (v :: s) (k, im) (hR _ _ hv (.entry hl)) hfr
          have hm : (k, im) ∈ (gres sw T f (v :: s) (k, im)).2 := mem_gres (fun e => by
            rw [e] at hfr; exact hfr)
          show Closed T s (gres sw T f (v :: s) (k, im)).2
            (fun b => (gres sw T f (v :: s) (k, im)).1 = .one b)
          intro u hu hnu
          by_cases huv : u = v
          · subst huv
            refine ⟨fun c hc => (by rw [hl] at hc; cases hc), fun w hw => ?_⟩
            cases hw with
            | entry h' => rw [hl] at h'; cases h'; exact hm
            | star h' => rw [hl] at h'; cases h'
          · exact h u hu (fun hc => huv (mem hc hnu))
      | none =>
        simp only [hl] at hf
        by_cases hd : v.2 = dflt
        · simp only [hd, if_true] at hf ⊢
          intro u hu hnu
          obtain rfl := mem hu hnu
          refine ⟨fun c hc => (by rw [hl] at hc; cases hc), fun w hw => ?_⟩
          cases hw with
          | entry h => rw [hl] at h; cases h
          | star h h2 => exact absurd hd h2
        · simp only [hd, if_false] at hf ⊢
          have h := closed_gloop (N := N) (T := T) (x := v.2)
            (rec := fun s k => gres sw T f s (k, v.2)) (fun s k => sub_gres _ _ _)
            (fun s k => mem_gres) (T.stars v.1)
            (fun s' k hk => ih s' (k, v.2) (hR _ _ hv (.star hl hd hk)))
            (fun s' k b hk h1 h2 e => by
              have hsnd := snd_gres (sw := sw) (T := T) f s' (k, v.2)
              rw [e] at hsnd
              obtain ⟨c1, b', hb', c2⟩ := hsnd
              exact hb' (hN h1 h2 v k hv hl hd hk _ _ c2 c1))
            none (v :: s) hf
          obtain ⟨h1, h2, _⟩ := h
          intro u hu hnu
          by_cases huv : u = v
          · subst huv
            refine ⟨fun c hc => (by rw [hl] at hc; cases hc), fun w hw => ?_⟩
            cases hw with
            | entry h' => rw [hl] at h'; cases h'
            | star _ _ hk => exact h1 _ hk
          · exact h2 u hu (fun hc => huv (mem hc hnu))

theorem cand_closed {T : Tab n} {s' : Seen n} {B : Bind n → Prop} (h : Closed T [] s' B)
    {v : Fin n × Name} {b : Bind n} (hc : GCand T v b) : v ∈ s' → B b := by
  induction hc with
  | here hl => intro hv; exact (h _ hv (List.not_mem_nil)).1 _ hl
  | next he _ ih => intro hv; exact ih ((h _ hv (List.not_mem_nil)).2 _ he)

/-- What the answers mean. -/
inductive GMeaning (T : Tab n) (v : Fin n × Name) : Out n → Prop where
  | nothing : (∀ b, ¬ GCand T v b) → GMeaning T v .none
  | one {b : Bind n} : GCand T v b → (∀ b', GCand T v b' → b' = b) → GMeaning T v (.one b)
  | ambiguous {b b' : Bind n} : GCand T v b → GCand T v b' → b' ≠ b → GMeaning T v (.amb b)

theorem reach_closed {T : Tab n} {v : Fin n × Name} :
    ∀ u w, GReach T v u → GEdge T u w → GReach T v w := fun _ _ h e => .step h e

theorem meaning_gres {sw : Bool} {T : Tab n} {f : Nat} {v : Fin n × Name}
    (hl : (gres sw T f [] v).1 ≠ .limit) (hN : sw = true → Calm T (GReach T v)) :
    GMeaning T v (gres sw T f [] v).1 := by
  have hs := snd_gres (sw := sw) (T := T) f [] v
  have hc := closed_gres (N := sw = true → Calm T (GReach T v)) (reach_closed (T := T) (v := v))
    (fun h1 h2 => h2 h1) f [] v (.refl v)
  have hm := mem_gres hl
  generalize gres sw T f [] v = q at hs hc hm hl
  obtain ⟨o, s'⟩ := q
  cases o with
  | limit => exact absurd rfl hl
  | none =>
    refine .nothing fun b hb => ?_
    have := cand_closed (hc trivial) hb hm
    cases this
  | one b =>
    refine .one hs fun b' hb' => ?_
    have := cand_closed (hc (.inr hN)) hb' hm
    exact (by cases this; rfl)
  | amb b =>
    obtain ⟨h1, b', h2, h3⟩ := hs
    exact .ambiguous h1 h3 h2

/-- Without any assumption: nothing is found only if there is nothing; what is found is a
candidate; ambiguous names have two. -/
theorem weak_gres {sw : Bool} {T : Tab n} {f : Nat} {v : Fin n × Name}
    (hl : (gres sw T f [] v).1 ≠ .limit) :
    Snd T v (gres sw T f [] v).1 ∧ ((gres sw T f [] v).1 = .none → ∀ b, ¬ GCand T v b) := by
  refine ⟨snd_gres f [] v, fun e b hb => ?_⟩
  have hc := closed_gres (sw := sw) (N := False) (reach_closed (T := T) (v := v))
    (fun _ h => h.elim) f [] v (.refl v)
  have hm := mem_gres hl
  have := cand_closed (hc (by rw [e]; trivial)) hb hm
  rw [e] at this
  cases this

end Verif.Resolve

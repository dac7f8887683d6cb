import Verif.Model.Module
/-
The body of a module is started at most once.
-/
namespace Verif.Module

theorem bindOk {α β : Type} {x : M α} {f : α → M β} {b : β} (h : (x >>= f) = .ok b) :
    ∃ a, x = .ok a ∧ f a = .ok b := by
  cases x with
  | error e => cases h
  | ok a => exact ⟨a, rfl, h⟩

theorem checkOk {c : Bool} {n : Nat} {a : Unit} (h : check c n = .ok a) : c = true := by
  cases c with
  | true => rfl
  | false => simp [check] at h

@[simp] theorem set_mods (s : St) (m : Nat) (v : Mod) (x : Nat) :
    (set s m v).mods x = if x = m then v else s.mods x := rfl
@[simp] theorem set_trace (s : St) (m : Nat) (v : Mod) : (set s m v).trace = s.trace := rfl
@[simp] theorem set_cnt (s : St) (m : Nat) (v : Mod) : (set s m v).cnt = s.cnt := rfl
@[simp] theorem emit_mods (s : St) (e : Event) : (emit s e).mods = s.mods := rfl
@[simp] theorem emit_trace (s : St) (e : Event) : (emit s e).trace = s.trace ++ [e] := rfl
@[simp] theorem emit_cnt (s : St) (e : Event) : (emit s e).cnt = s.cnt := rfl

/-- How many times the body of the module has been started. -/
def starts (s : St) (m : Nat) : Nat := s.trace.count (.start m)

/-- Between two operations. -/
def Once (s : St) : Prop :=
  ∀ m, starts s m ≤ 1 ∧ (starts s m ≠ 0 → (s.mods m).pending = 0 ∧ (s.mods m).status ≠ .linked)

/-- Only modules that were not yet visited have been changed. -/
def Ext (s s' : St) (x : Nat) : Prop :=
  (s.mods x).status ≠ .linked →
    (s'.mods x).status ≠ .linked ∧ (s'.mods x).pending = (s.mods x).pending ∧
      starts s' x = starts s x

theorem Ext.rfl {s : St} {x : Nat} : Ext s s x := fun h => ⟨h, Eq.refl _, Eq.refl _⟩

theorem Ext.trans {a b c : St} {x : Nat} (h : Ext a b x) (k : Ext b c x) : Ext a c x := by
  intro hx
  obtain ⟨h1, h2, h3⟩ := h hx
  obtain ⟨k1, k2, k3⟩ := k h1
  exact ⟨k1, k2.trans h2, k3.trans h3⟩

/-- A change that concerns neither the bodies nor `pending_async`. -/
def Same (s s' : St) : Prop :=
  s'.trace = s.trace ∧ ∀ x, (s'.mods x).pending = (s.mods x).pending ∧
    ((s.mods x).status ≠ .linked → (s'.mods x).status ≠ .linked)

theorem Same.once {s s' : St} (h : Same s s') (o : Once s) : Once s' := by
  intro m
  have e : starts s' m = starts s m := by simp [starts, h.1]
  rw [e, (h.2 m).1]
  exact ⟨(o m).1, fun k => ⟨((o m).2 k).1, (h.2 m).2 ((o m).2 k).2⟩⟩

theorem Same.ext {s s' : St} (h : Same s s') (x : Nat) : Ext s s' x :=
  fun k => ⟨(h.2 x).2 k, (h.2 x).1, by simp [starts, h.1]⟩

theorem Same.rfl {s : St} : Same s s := ⟨Eq.refl _, fun _ => ⟨Eq.refl _, id⟩⟩

theorem Same.trans {a b c : St} (h : Same a b) (k : Same b c) : Same a c :=
  ⟨k.1.trans h.1, fun x => ⟨(k.2 x).1.trans (h.2 x).1, fun q => (k.2 x).2 ((h.2 x).2 q)⟩⟩

/-- The status of one module changes. -/
theorem Same.of_set {s : St} {m : Nat} {v : Mod} (h1 : v.pending = (s.mods m).pending)
    (h2 : (s.mods m).status ≠ .linked → v.status ≠ .linked) : Same s (set s m v) := by
  refine ⟨Eq.refl _, fun x => ?_⟩
  by_cases hx : x = m
  · subst hx; simp [h1]; exact h2
  · simp [hx]

theorem settleCap_pending (p : Prom) (m : Mod) : (settleCap p m).pending = m.pending := by
  unfold settleCap; split <;> rfl

theorem settleCap_status (p : Prom) (m : Mod) : (settleCap p m).status = m.status := by
  unfold settleCap; split <;> rfl

theorem Same.settleCap (s : St) (m : Nat) (p : Prom) :
    Same s (set s m (settleCap p (s.mods m))) :=
  Same.of_set (settleCap_pending _ _) (by rw [settleCap_status]; exact id)

/-! ## Bodies -/

theorem starts_emit_start (s : St) (m x : Nat) :
    starts (emit s (.start m)) x = starts s x + (if x = m then 1 else 0) := by
  simp only [starts, emit_trace, List.count_append, List.count_singleton]
  by_cases h : x = m
  · subst h; simp
  · have : ¬ m = x := fun k => h k.symm
    simp [h, this]

theorem starts_emit_done (s : St) (m x : Nat) : starts (emit s (.done m)) x = starts s x := by
  simp [starts, List.count_append]

theorem starts_emit_fail (s : St) (m e x : Nat) : starts (emit s (.fail m e)) x = starts s x := by
  simp [starts, List.count_append]

theorem executeSync_mods (G : Graph) (s : St) (m : Nat) : (executeSync G s m).1.mods = s.mods := by
  unfold executeSync
  simp only
  split <;> rfl

theorem executeSync_starts (G : Graph) (s : St) (m x : Nat) :
    starts (executeSync G s m).1 x = starts s x + (if x = m then 1 else 0) := by
  unfold executeSync
  simp only
  split
  · rw [starts_emit_done, starts_emit_start]
  · rw [starts_emit_fail, starts_emit_start]

theorem executeAsync_starts (s : St) (m x : Nat) :
    starts (executeAsync s m) x = starts s x + (if x = m then 1 else 0) := by
  unfold executeAsync
  rw [starts_emit_start]
  rfl

theorem executeAsync_pending (s : St) (m x : Nat) :
    ((executeAsync s m).mods x).pending = (s.mods x).pending := by
  unfold executeAsync
  simp only [emit_mods, set_mods]
  split
  · next h => subst h; rfl
  · rfl

theorem executeAsync_status (s : St) (m x : Nat) :
    ((executeAsync s m).mods x).status = (s.mods x).status := by
  unfold executeAsync
  simp only [emit_mods, set_mods]
  split
  · next h => subst h; rfl
  · rfl

/-- Starting a body that has not been started. -/
theorem Once.start {s s' : St} {m : Nat} (o : Once s)
    (hs : ∀ x, starts s' x = starts s x + (if x = m then 1 else 0))
    (hp : ∀ x, (s'.mods x).pending = (s.mods x).pending)
    (ht : ∀ x, (s'.mods x).status = (s.mods x).status)
    (h0 : starts s m = 0) (h1 : (s.mods m).pending = 0) (h2 : (s.mods m).status ≠ .linked) :
    Once s' := by
  intro x
  rw [hs, hp, ht]
  by_cases hx : x = m
  · subst hx; rw [h0]; simp [h1, h2]
  · simpa [hx] using o x

/-! ## Evaluation -/

theorem wait_spec (s : St) (m t : Nat) :
    (visit.wait s m t).trace = s.trace ∧
    (∀ x, ((visit.wait s m t).mods x).status = (s.mods x).status) ∧
    (∀ x, x ≠ m → ((visit.wait s m t).mods x).pending = (s.mods x).pending) := by
  unfold visit.wait
  split
  · refine ⟨rfl, fun x => ?_, fun x hx => ?_⟩
    · by_cases h1 : x = m <;> by_cases h2 : x = t <;> simp [h1, h2] <;> (try subst h1) <;>
        (try subst h2) <;> (try simp) <;> split <;> simp_all
    · by_cases h2 : x = t
      · subst h2; simp [hx]
      · simp [hx, h2]
  · exact ⟨rfl, fun _ => rfl, fun _ _ => rfl⟩

theorem visit_spec {s s' : St} {m d : Nat} {r : Option Nat} (h : visit s m d = .ok (s', r)) :
    s'.trace = s.trace ∧ (∀ x, (s'.mods x).status = (s.mods x).status) ∧
    (∀ x, x ≠ m → (s'.mods x).pending = (s.mods x).pending) := by
  unfold visit at h
  split at h
  · cases h
    obtain ⟨h1, h2, h3⟩ := wait_spec
      (set s m { s.mods m with anc := min (s.mods m).anc (s.mods d).anc }) m d
    refine ⟨h1, fun x => ?_, fun x hx => ?_⟩
    · rw [h2]
      by_cases hx : x = m
      · subst hx; simp
      · simp [hx]
    · rw [h3 x hx]; simp [hx]
  split at h
  · cases h
  split at h
  · cases h
  · obtain ⟨_, _, h⟩ := bindOk h
    split at h
    · cases h; exact ⟨rfl, fun _ => rfl, fun _ _ => rfl⟩
    · cases h; exact wait_spec _ _ _

/-- The module being evaluated: visited, and its body is not started. -/
structure Opened (s : St) (m : Nat) : Prop where
  starts : starts s m = 0
  status : (s.mods m).status ≠ .linked

theorem Opened.ext {s s' : St} {m : Nat} (h : Opened s m) (e : Ext s s' m) : Opened s' m :=
  ⟨(e h.status).2.2.trans h.starts, (e h.status).1⟩

theorem visit_once {s s' : St} {m d : Nat} {r : Option Nat} (h : visit s m d = .ok (s', r))
    (o : Once s) (hm : Opened s m) :
    Once s' ∧ Opened s' m ∧ ∀ x, x ≠ m → Ext s s' x := by
  obtain ⟨h1, h2, h3⟩ := visit_spec h
  have hs : ∀ x, starts s' x = starts s x := fun x => by simp [starts, h1]
  refine ⟨fun x => ?_, ⟨(hs m).trans hm.starts, by rw [h2]; exact hm.status⟩, fun x hx k =>
    ⟨by rw [h2]; exact k, h3 x hx, hs x⟩⟩
  rw [hs, h2]
  refine ⟨(o x).1, fun k => ?_⟩
  have hx : x ≠ m := fun q => k (q ▸ hm.starts)
  rw [h3 x hx]
  exact (o x).2 k

theorem visitAll_once {rec : St → List Nat → Nat → Nat → M (St × List Nat × Res)} {m : Nat}
    (hrec : ∀ s st i d s' st' r, Once s → rec s st i d = .ok (s', st', r) →
      Once s' ∧ ∀ x, Ext s s' x) :
    ∀ ds s st i s' st' r, Once s → Opened s m → visitAll rec m ds s st i = .ok (s', st', r) →
      Once s' ∧ Opened s' m ∧ ∀ x, x ≠ m → Ext s s' x
  | [], s, st, i, s', st', r, o, hm, h => by
    cases h
    exact ⟨o, hm, fun _ _ => Ext.rfl⟩
  | d :: ds, s, st, i, s', st', r, o, hm, h => by
    simp only [visitAll] at h
    obtain ⟨⟨s1, st1, r1⟩, h1, h⟩ := bindOk h
    obtain ⟨o1, e1⟩ := hrec _ _ _ _ _ _ _ o h1
    simp only at h
    split at h
    · cases h; exact ⟨o1, hm.ext (e1 m), fun x _ => e1 x⟩
    · obtain ⟨⟨s2, r2⟩, h2, h⟩ := bindOk h
      obtain ⟨o2, hm2, e2⟩ := visit_once h2 o1 (hm.ext (e1 m))
      simp only at h
      split at h
      · cases h; exact ⟨o2, hm2, fun x hx => (e1 x).trans (e2 x hx)⟩
      · obtain ⟨o3, hm3, e3⟩ := visitAll_once hrec ds _ _ _ _ _ _ o2 hm2 h
        exact ⟨o3, hm3, fun x hx => ((e1 x).trans (e2 x hx)).trans (e3 x hx)⟩

theorem execute_once {G : Graph} {s s' : St} {m : Nat} {r : Option Nat}
    (h : execute G s m = .ok (s', r)) (o : Once s) (hm : Opened s m) :
    Once s' ∧ (s'.mods m).status ≠ .linked ∧ ∀ x, x ≠ m → Ext s s' x := by
  unfold execute at h
  split at h
  · obtain ⟨_, _, h⟩ := bindOk h
    simp only [Pure.pure, Except.pure, Except.ok.injEq, Prod.mk.injEq] at h
    obtain ⟨h, -⟩ := h
    let s1 : St := { set s m { s.mods m with order := s.cnt } with cnt := s.cnt + 1 }
    have a : Same s s1 := by
      refine ⟨rfl, fun x => ?_⟩
      by_cases hx : x = m
      · subst hx; simp [s1]
      · simp [s1, hx]
    have o1 := a.once o
    have hm1 := hm.ext (a.ext m)
    change (if (s1.mods m).pending = 0 then executeAsync s1 m else s1) = s' at h
    split at h
    · next hp =>
      subst h
      refine ⟨o1.start (m := m) (executeAsync_starts _ _) (executeAsync_pending _ _)
        (executeAsync_status _ _) hm1.starts hp hm1.status, ?_, fun x hx => ?_⟩
      · rw [executeAsync_status]; exact hm1.status
      · refine (a.ext x).trans fun k => ⟨?_, ?_, ?_⟩
        · rw [executeAsync_status]; exact k
        · rw [executeAsync_pending]
        · rw [executeAsync_starts]; simp [hx]
    · subst h
      exact ⟨o1, hm1.status, fun x _ => a.ext x⟩
  · next hc =>
    have hp : (s.mods m).pending = 0 := by
      apply Decidable.byContradiction; intro k; exact hc (Or.inl k)
    cases h2 : executeSync G s m with
    | mk s2 r2 =>
      rw [h2] at h
      cases h
      have e1 : s' = (executeSync G s m).1 := by rw [h2]
      have hmods : s'.mods = s.mods := by rw [e1, executeSync_mods]
      have hst : ∀ x, starts s' x = starts s x + (if x = m then 1 else 0) := by
        intro x; rw [e1, executeSync_starts]
      refine ⟨o.start (m := m) hst (fun x => by rw [hmods]) (fun x => by rw [hmods]) hm.starts hp
        hm.status, by rw [hmods]; exact hm.status, fun x hx k => ⟨by rw [hmods]; exact k,
          by rw [hmods], by rw [hst]; simp [hx]⟩⟩

theorem popCycle_same (m : Nat) : ∀ st s, Same s (popCycle m st s).1
  | [], s => Same.rfl
  | x :: st, s => by
    simp only [popCycle]
    have a : Same s (set s x { s.mods x with root := some m, status := if (s.mods x).order ≠ 0 then .evaluatingAsync else .evaluated }) :=
      Same.of_set rfl (fun _ => by simp only; split <;> simp)
    split
    · exact a
    · exact a.trans (popCycle_same m st _)

theorem inner_once (G : Graph) : ∀ f s st i m s' st' r, Once s →
    inner G f s st i m = .ok (s', st', r) → Once s' ∧ ∀ x, Ext s s' x
  | 0, _, _, _, _, _, _, _, _, h => by cases h
  | f + 1, s, st, i, m, s', st', r, o, h => by
    simp only [inner] at h
    split at h
    · split at h <;> cases h <;> exact ⟨o, fun _ => Ext.rfl⟩
    · split at h <;> cases h <;> exact ⟨o, fun _ => Ext.rfl⟩
    · cases h; exact ⟨o, fun _ => Ext.rfl⟩
    · next hl =>
      obtain ⟨⟨s2, st2, r2⟩, h2, h⟩ := bindOk h
      have a : Same s (set s m { s.mods m with status := .evaluating, dfs := i, anc := i }) :=
        Same.of_set rfl (fun _ => by simp)
      have h0 : starts s m = 0 := by
        apply Decidable.byContradiction; intro k; exact ((o m).2 k).2 hl
      obtain ⟨o2, hm2, e2⟩ := visitAll_once (inner_once G f) _ _ _ _ _ _ _ (a.once o)
        ⟨h0, by simp⟩ h2
      have fin : ∀ {t : St}, (∀ x, x ≠ m → Ext s t x) → ∀ x, Ext s t x := by
        intro t k x
        by_cases hx : x = m
        · subst hx; intro q; exact absurd hl q
        · exact k x hx
      have e2' : ∀ x, x ≠ m → Ext s s2 x := fun x hx => (a.ext x).trans (e2 x hx)
      simp only at h
      split at h
      · cases h; exact ⟨o2, fin e2'⟩
      · obtain ⟨⟨s3, r3⟩, h3, h⟩ := bindOk h
        obtain ⟨o3, hm3, e3⟩ := execute_once h3 o2 hm2
        have e3' : ∀ x, x ≠ m → Ext s s3 x := fun x hx => (e2' x hx).trans (e3 x hx)
        simp only at h
        split at h
        · cases h; exact ⟨o3, fin e3'⟩
        · split at h
          · cases h
            have p := popCycle_same m st2 s3
            exact ⟨p.once o3, fin fun x hx => (e3' x hx).trans (p.ext x)⟩
          · cases h; exact ⟨o3, fin e3'⟩

/-! ## Asynchronous completion -/

theorem foldlM_same {α : Type} {f : St → α → M St}
    (hf : ∀ s a s', f s a = .ok s' → Same s s') :
    ∀ (l : List α) s s', l.foldlM f s = .ok s' → Same s s'
  | [], s, s', h => by
    simp only [List.foldlM, Pure.pure, Except.pure, Except.ok.injEq] at h; subst h; exact Same.rfl
  | a :: l, s, s', h => by
    simp only [List.foldlM] at h
    obtain ⟨s1, h1, h⟩ := bindOk h
    exact (hf _ _ _ h1).trans (foldlM_same hf l _ _ h)

theorem rejected_same : ∀ f s m e s', rejected f s m e = .ok s' → Same s s'
  | 0, _, _, _, _, h => by cases h
  | f + 1, s, m, e, s', h => by
    simp only [rejected] at h
    split at h
    · obtain ⟨_, _, h⟩ := bindOk h
      cases h; exact Same.rfl
    · obtain ⟨_, _, h⟩ := bindOk h
      obtain ⟨s2, h2, h⟩ := bindOk h
      have a : Same s (set s m { s.mods m with status := .evaluated, err := some e }) :=
        Same.of_set rfl (fun _ => by simp)
      have b := a.trans (foldlM_same (fun s p s' => rejected_same f s p e s') _ _ _ h2)
      have c : ∀ {t : St}, set s2 m (settleCap (.rejected e) (s2.mods m)) = t → Same s t := by
        intro t ht; subst ht; exact b.trans (Same.settleCap _ _ _)
      split at h
      · obtain ⟨_, _, h⟩ := bindOk h
        cases h; exact c rfl
      · cases h; exact c rfl

/-- While modules are gathered. -/
structure Ready (s : St) (l : List Nat) : Prop where
  once : Once s
  nodup : l.Nodup
  ready : ∀ p ∈ l, starts s p = 0 ∧ (s.mods p).pending = 0 ∧ (s.mods p).status ≠ .linked

theorem gatherOne_ready {G : Graph} {rec : Gather → Nat → M Gather} {g g' : Gather} {p : Nat}
    (hrec : ∀ g m g', Ready g.st g.ready → rec g m = .ok g' → Ready g'.st g'.ready)
    (h : gatherOne G rec g p = .ok g') (k : Ready g.st g.ready) : Ready g'.st g'.ready := by
  unfold gatherOne at h
  split at h
  · cases h; exact k
  split at h
  · cases h; exact k
  split at h
  · cases h; exact k
  obtain ⟨_, h1, h⟩ := bindOk h
  obtain ⟨_, _, h⟩ := bindOk h
  obtain ⟨_, _, h⟩ := bindOk h
  obtain ⟨_, h2, h⟩ := bindOk h
  have h1 := of_decide_eq_true (checkOk h1)
  have h2 := of_decide_eq_true (checkOk h2)
  simp only at h1 h2
  have hns : starts g.st p = 0 := by
    apply Decidable.byContradiction; intro q
    have := ((k.once p).2 q).1; omega
  have hnr : p ∉ g.ready := fun q => by have := (k.ready p q).2.1; omega
  let s1 := set g.st p { g.st.mods p with pending := (g.st.mods p).pending - 1 }
  have hst : ∀ x, starts s1 x = starts g.st x := fun _ => rfl
  have k1 : Ready s1 g.ready := by
    refine ⟨fun x => ?_, k.nodup, fun x hx => ?_⟩
    · by_cases hx : x = p
      · subst hx; rw [hst, hns]; simp
      · rw [hst]; simpa [s1, hx] using k.once x
    · have hxp : x ≠ p := fun q => hnr (q ▸ hx)
      rw [hst]; simpa [s1, hxp] using k.ready x hx
  simp only at h
  split at h
  · next hz =>
    have k2 : Ready s1 (g.ready ++ [p]) := by
      refine ⟨k1.once, ?_, fun x hx => ?_⟩
      · rw [List.nodup_append]
        refine ⟨k.nodup, by simp, fun a ha b hb => ?_⟩
        simp only [List.mem_singleton] at hb
        subst hb
        exact fun q => hnr (q ▸ ha)
      · rcases List.mem_append.1 hx with hx | hx
        · exact k1.ready x hx
        · simp only [List.mem_singleton] at hx
          subst hx
          refine ⟨by rw [hst]; exact hns, hz, ?_⟩
          simp [s1, h1]
    split at h
    · cases h; exact k2
    · exact hrec _ _ _ k2 h
  · cases h; exact k1

theorem foldlM_ready {G : Graph} {rec : Gather → Nat → M Gather}
    (hrec : ∀ g m g', Ready g.st g.ready → rec g m = .ok g' → Ready g'.st g'.ready) :
    ∀ (l : List Nat) g g', l.foldlM (gatherOne G rec) g = .ok g' → Ready g.st g.ready →
      Ready g'.st g'.ready
  | [], g, g', h, k => by
    simp only [List.foldlM, Pure.pure, Except.pure, Except.ok.injEq] at h; subst h; exact k
  | p :: l, g, g', h, k => by
    simp only [List.foldlM] at h
    obtain ⟨g1, h1, h⟩ := bindOk h
    exact foldlM_ready hrec l _ _ h (gatherOne_ready hrec h1 k)

theorem gather_ready (G : Graph) : ∀ f g m g', Ready g.st g.ready → gather G f g m = .ok g' →
    Ready g'.st g'.ready
  | 0, _, _, _, _, h => by cases h
  | f + 1, g, m, g', k, h => by
    simp only [gather] at h
    exact foldlM_ready (gather_ready G f) _ _ _ h k

theorem insert_perm (key : Nat → Nat) (x : Nat) : ∀ l, (insert key x l).Perm (x :: l)
  | [] => List.Perm.refl _
  | y :: l => by
    simp only [insert]
    split
    · exact List.Perm.refl _
    · exact ((insert_perm key x l).cons y).trans (List.Perm.swap _ _ _)

theorem sort_perm (key : Nat → Nat) : ∀ l, (sort key l).Perm l
  | [] => List.Perm.refl _
  | x :: l => by
    simp only [sort]
    exact (insert_perm key x _).trans ((sort_perm key l).cons x)

theorem Ready.same {s s' : St} {l : List Nat} (k : Ready s l) (a : Same s s') : Ready s' l :=
  ⟨a.once k.once, k.nodup, fun p hp => by
    obtain ⟨h1, h2, h3⟩ := k.ready p hp
    exact ⟨by simpa [starts, a.1] using h1, (a.2 p).1.trans h2, (a.2 p).2 h3⟩⟩

/-- The first of the modules that are ready is started. -/
theorem Ready.start {s s' : St} {p : Nat} {l : List Nat} (k : Ready s (p :: l))
    (hs : ∀ x, starts s' x = starts s x + (if x = p then 1 else 0))
    (hp : ∀ x, (s'.mods x).pending = (s.mods x).pending)
    (ht : ∀ x, (s'.mods x).status = (s.mods x).status) : Ready s' l := by
  obtain ⟨h1, h2, h3⟩ := k.ready p (by simp)
  obtain ⟨n1, n2⟩ := List.nodup_cons.1 k.nodup
  refine ⟨k.once.start (m := p) hs hp ht h1 h2 h3, n2, fun x hx => ?_⟩
  have hxp : x ≠ p := fun q => n1 (q ▸ hx)
  obtain ⟨q1, q2, q3⟩ := k.ready x (by simp [hx])
  rw [hs, hp, ht]
  simp [hxp, q1, q2, q3]

theorem Ready.tail {s : St} {p : Nat} {l : List Nat} (k : Ready s (p :: l)) : Ready s l :=
  ⟨k.once, (List.nodup_cons.1 k.nodup).2, fun x hx => k.ready x (by simp [hx])⟩

theorem executeOne_ready {G : Graph} {a a' : St × List Nat} {p : Nat} {l : List Nat}
    (h : executeOne G a p = .ok a') (k : Ready a.1 (p :: l)) : Ready a'.1 l := by
  obtain ⟨s, d⟩ := a
  simp only [executeOne] at h
  split at h
  · obtain ⟨_, _, h⟩ := bindOk h
    cases h; exact k.tail
  split at h
  · cases h
    exact k.start (executeAsync_starts _ _) (executeAsync_pending _ _) (executeAsync_status _ _)
  · have k1 : Ready (executeSync G s p).1 l :=
      k.start (executeSync_starts _ _ _) (fun x => by rw [executeSync_mods])
        (fun x => by rw [executeSync_mods])
    split at h
    · next s1 e he =>
      rw [he] at k1
      obtain ⟨s2, h2, h⟩ := bindOk h
      cases h
      exact k1.same (rejected_same _ _ _ _ _ h2)
    · next s1 he =>
      rw [he] at k1
      have k2 : Ready (set s1 p { s1.mods p with status := .evaluated }) l :=
        k1.same (Same.of_set rfl (fun _ => by simp))
      split at h
      · obtain ⟨_, _, h⟩ := bindOk h
        cases h
        exact k2.same (Same.settleCap _ _ _)
      · cases h
        exact k2.same (Same.settleCap _ _ _)

theorem executeAll_ready {G : Graph} : ∀ (l : List Nat) a a',
    l.foldlM (executeOne G) a = .ok a' → Ready a.1 l → Once a'.1
  | [], a, a', h, k => by
    simp only [List.foldlM, Pure.pure, Except.pure, Except.ok.injEq] at h; subst h; exact k.once
  | p :: l, a, a', h, k => by
    simp only [List.foldlM] at h
    obtain ⟨a1, h1, h⟩ := bindOk h
    exact executeAll_ready l _ _ h (executeOne_ready h1 k)

theorem foldlM_once {f : St → Nat → M St} (hf : ∀ s a s', Once s → f s a = .ok s' → Once s') :
    ∀ (l : List Nat) s s', l.foldlM f s = .ok s' → Once s → Once s'
  | [], s, s', h, o => by
    simp only [List.foldlM, Pure.pure, Except.pure, Except.ok.injEq] at h; subst h; exact o
  | a :: l, s, s', h, o => by
    simp only [List.foldlM] at h
    obtain ⟨s1, h1, h⟩ := bindOk h
    exact foldlM_once hf l _ _ h (hf _ _ _ o h1)

theorem executeValid_once (G : Graph) : ∀ f s m s', Once s → executeValid G f s m = .ok s' →
    Once s'
  | 0, _, _, _, _, h => by cases h
  | f + 1, s, m, s', o, h => by
    simp only [executeValid] at h
    obtain ⟨g, h1, h⟩ := bindOk h
    obtain ⟨⟨s2, done⟩, h2, h⟩ := bindOk h
    have k := gather_ready G G.fuel { st := s } m g ⟨o, by simp, by simp⟩ h1
    have p := sort_perm (fun p => (g.st.mods p).order) g.ready
    have k' : Ready g.st (sort (fun p => (g.st.mods p).order) g.ready) :=
      ⟨k.once, p.nodup_iff.2 k.nodup, fun x hx => k.ready x (p.mem_iff.1 hx)⟩
    exact foldlM_once (executeValid_once G f) _ _ _ h (executeAll_ready _ _ _ h2 k')

theorem fulfilled_once {G : Graph} {s s' : St} {m : Nat} (o : Once s)
    (h : fulfilled G s m = .ok s') : Once s' := by
  unfold fulfilled at h
  split at h
  · obtain ⟨_, _, h⟩ := bindOk h
    cases h; exact o
  · refine executeValid_once G _ _ _ _ ?_ h
    refine (Same.settleCap _ _ _).once ((Same.of_set ?_ ?_).once o)
    · rfl
    · exact fun _ => by simp

/-! ## Executions -/

theorem finish_same {s s' : St} {m : Nat} {st : List Nat} {r : Res}
    (h : finish s m st r = .ok s') : Same s s' := by
  cases r with
  | threw e =>
    obtain ⟨s3, h3, h⟩ := bindOk h
    cases h
    refine (foldlM_same (fun s x s' hx => ?_) _ _ _ h3).trans (Same.settleCap _ _ _)
    obtain ⟨_, _, hx⟩ := bindOk hx
    cases hx
    exact Same.of_set rfl (fun _ => by simp)
  | ok i =>
    obtain ⟨_, _, h⟩ := bindOk h
    cases h
    split
    · refine Same.of_set ?_ ?_
      · rw [settleCap_pending]
      · rw [settleCap_status]; exact fun _ => by simp
    · exact Same.rfl

theorem evaluate_once {G : Graph} {s s' : St} {m r : Nat} (o : Once s)
    (h : evaluate G s m = .ok (s', r)) : Once s' := by
  simp only [evaluate] at h
  obtain ⟨m1, _, h⟩ := bindOk h
  split at h
  · cases h; exact o
  · obtain ⟨⟨s2, st, r2⟩, h2, h⟩ := bindOk h
    have a : Same s (set s m1 { s.mods m1 with cap := some .pending }) := Same.of_set rfl id
    obtain ⟨o2, -⟩ := inner_once G _ _ _ _ _ _ _ _ (a.once o) h2
    obtain ⟨s3, h3, h⟩ := bindOk h
    cases h
    exact (finish_same h3).once o2

theorem step_once {G : Graph} {s s' : St} {o : Op} (k : Once s) (h : step G s o = .ok s') :
    Once s' := by
  cases o with
  | evaluate m =>
    simp only [step] at h
    obtain ⟨⟨s1, _⟩, h1, h⟩ := bindOk h
    cases h
    exact evaluate_once k h1
  | settle m r =>
    have a : Same s (set s m { s.mods m with running := false }) := Same.of_set rfl id
    have o1 := a.once k
    cases r with
    | none =>
      refine fulfilled_once (fun x => ?_) h
      rw [starts_emit_done]; exact o1 x
    | some e =>
      refine (rejected_same _ _ _ _ _ h).once (fun x => ?_)
      rw [starts_emit_fail]; exact o1 x

theorem Run.once {G : Graph} {s : St} (h : Run G s) : Once s := by
  induction h with
  | init => intro m; simp [starts, Module.init]
  | step _ _ h ih => exact step_once ih h

end Verif.Module

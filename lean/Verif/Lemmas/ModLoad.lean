import Verif.Spec.ModLoad

/-! Helper lemmas for C99. -/

namespace Verif.ModLoad

open Spec

theorem upd_same {α : Type} (f : Nat → α) (k : Nat) (v : α) : upd f k v k = v := by simp [upd]
theorem upd_other {α : Type} (f : Nat → α) {k i : Nat} (v : α) (h : i ≠ k) : upd f k v i = f i := by
  simp [upd, h]

/-- While modules are added; `stk` are the ones whose requests are gone through. -/
structure Inv (H : Host) (root : Nat) (stk : List Nat) (s : S) : Prop where
  asked : ∀ x ∈ s.hash, Asked H root x
  part : ∀ x ∈ s.hash, x ∈ s.list ∨ x ∈ stk ∨ s.st x = .failed ∨ s.st x = .unlinked
  lreq : ∀ x ∈ s.list, s.st x = .requested
  lh : ∀ x ∈ s.list, x ∈ s.hash
  sh : ∀ x ∈ stk, x ∈ s.hash
  dis : ∀ x ∈ stk, x ∉ s.list
  fill : ∀ x ∈ s.list, ∀ t ∈ s.filled x, t ∈ s.hash ∨ s.st t = .failed
  pre : ∀ x, ∃ rest, H.reqs x = (s.filled x).map some ++ rest
  short : ∀ x ∈ s.list, H.reqs x = (s.filled x).map some ∨ none ∈ H.reqs x ∨ ∃ t ∈ s.filled x, s.st t = .failed
  sfail : ∀ x, s.st x = .failed → H.loadable x = false
  sload : ∀ x, s.st x = .loaded ∨ s.st x = .requested → H.loadable x = true
  sun : ∀ x, s.st x = .unlinked → H.loadable x = true ∧ H.reqs x = (s.filled x).map some ∧
    ∀ t ∈ s.filled x, s.st t = .unlinked
  hst : ∀ x ∈ s.hash, s.st x = .requested ∨ s.st x = .failed ∨ s.st x = .unlinked
  out : ∀ x, x ∉ s.hash → (s.st x ≠ .unlinked → s.filled x = []) ∧ s.st x ≠ .requested
  ff : ∀ x, s.st x = .failed → s.filled x = []

/-- What stays; `e`: the module whose requests are gone through. -/
structure Mono (e : Option Nat) (s s' : S) : Prop where
  hash : ∀ x ∈ s.hash, x ∈ s'.hash
  fail : ∀ x, s.st x = .failed → s'.st x = .failed
  req : ∀ x, s.st x = .requested → s'.st x = .requested
  unl : ∀ x, s.st x = .unlinked → s'.st x = .unlinked
  fil : ∀ x ∈ s.hash, some x ≠ e → s'.filled x = s.filled x

theorem Mono.refl (e : Option Nat) (s : S) : Mono e s s :=
  ⟨fun _ h => h, fun _ h => h, fun _ h => h, fun _ h => h, fun _ _ _ => rfl⟩

theorem Mono.trans {e : Option Nat} {a b c : S} (h : Mono e a b) (k : Mono e b c) : Mono e a c :=
  ⟨fun x hx => k.hash x (h.hash x hx), fun x hx => k.fail x (h.fail x hx), fun x hx => k.req x (h.req x hx),
    fun x hx => k.unl x (h.unl x hx),
    fun x hx he => (k.fil x (h.hash x hx) he).trans (h.fil x hx he)⟩

theorem Mono.weak {e : Option Nat} {a b : S} (h : Mono none a b) : Mono e a b :=
  ⟨h.hash, h.fail, h.req, h.unl, fun x hx _ => h.fil x hx (by simp)⟩

variable {H : Host} {root : Nat}

/-- A look up changes the status of an absent module only. -/
theorem lookup_cases (H : Host) (t : Nat) (s : S) :
    (s.st t ≠ .absent ∧ lookup H t s = s) ∨
    (s.st t = .absent ∧ lookup H t s = { s with st := upd s.st t (if H.loadable t then .loaded else .failed) }) := by
  unfold lookup
  cases h : s.st t <;> simp

theorem inv_lookup {stk : List Nat} {s : S} (h : Inv H root stk s) (t : Nat) :
    Inv H root stk (lookup H t s) ∧ Mono none s (lookup H t s) ∧ (lookup H t s).st t ≠ .absent ∧
      (lookup H t s).filled = s.filled ∧ (lookup H t s).hash = s.hash ∧ (lookup H t s).list = s.list := by
  rcases lookup_cases H t s with ⟨ha, e⟩ | ⟨ha, e⟩
  · rw [e]; exact ⟨h, Mono.refl _ _, ha, rfl, rfl, rfl⟩
  · have hth : t ∉ s.hash := fun hx => by rcases h.hst t hx with h | h | h <;> rw [ha] at h <;> cases h
    have ne : ∀ x, s.st x ≠ .absent → x ≠ t := fun x hx e => hx (e ▸ ha)
    have keep : ∀ x v, s.st x = v → v ≠ .absent →
        upd s.st t (if H.loadable t then .loaded else .failed) x = v := fun x v hx hv => by
      rw [upd_other _ _ (ne x (by rw [hx]; exact hv)), hx]
    rw [e]
    refine ⟨⟨h.asked, ?_, ?_, h.lh, h.sh, h.dis, ?_, h.pre, ?_, ?_, ?_, ?_, ?_, ?_, ?_⟩,
      ⟨fun _ h => h, fun x hx => keep x _ hx (by simp), fun x hx => keep x _ hx (by simp),
        fun x hx => keep x _ hx (by simp), fun _ _ _ => rfl⟩, ?_, rfl, rfl, rfl⟩
    · intro x hx
      rcases h.part x hx with h | h | h | h
      · exact .inl h
      · exact .inr (.inl h)
      · exact .inr (.inr (.inl (keep x _ h (by simp))))
      · exact .inr (.inr (.inr (keep x _ h (by simp))))
    · intro x hx; exact keep x _ (h.lreq x hx) (by simp)
    · intro x hx y hy
      rcases h.fill x hx y hy with h | h
      · exact .inl h
      · exact .inr (keep y _ h (by simp))
    · intro x hx
      rcases h.short x hx with h | h | ⟨y, hy, h⟩
      · exact .inl h
      · exact .inr (.inl h)
      · exact .inr (.inr ⟨y, hy, keep y _ h (by simp)⟩)
    · intro x hx
      by_cases ex : x = t
      · subst ex
        simp only [upd_same] at hx
        cases hl : H.loadable x with
        | false => rfl
        | true => rw [hl] at hx; simp at hx
      · simp only [upd_other _ _ ex] at hx; exact h.sfail x hx
    · intro x hx
      by_cases ex : x = t
      · subst ex
        simp only [upd_same] at hx
        cases hl : H.loadable x with
        | true => rfl
        | false => rw [hl] at hx; simp at hx
      · simp only [upd_other _ _ ex] at hx; exact h.sload x hx
    · intro x hx
      by_cases ex : x = t
      · subst ex
        simp only [upd_same] at hx
        cases hl : H.loadable x <;> rw [hl] at hx <;> simp at hx
      · simp only [upd_other _ _ ex] at hx
        obtain ⟨u1, u2, u3⟩ := h.sun x hx
        exact ⟨u1, u2, fun y hy => keep y _ (u3 y hy) (by simp)⟩
    · intro x hx
      have : x ≠ t := fun e => hth (e ▸ hx)
      simp only [upd_other _ _ this]; exact h.hst x hx
    · intro x hx
      by_cases ex : x = t
      · subst ex
        refine ⟨fun _ => (h.out x hx).1 (by rw [ha]; simp), ?_⟩
        simp only [upd_same]
        cases H.loadable x <;> simp
      · simp only [upd_other _ _ ex]; exact h.out x hx
    · intro x hx
      by_cases ex : x = t
      · rw [ex]; exact (h.out t hth).1 (by rw [ha]; simp)
      · simp only [upd_other _ _ ex] at hx; exact h.ff x hx
    · simp only [upd_same]
      cases H.loadable t <;> simp

/-- What is known of a call of `module_load_req_data_add`. -/
def AddOk (H : Host) (root : Nat) (f : Nat → S → Option S) : Prop :=
  ∀ m s s' stk, Inv H root stk s → Asked H root m → s.st m ≠ .absent → f m s = some s' →
    Inv H root stk s' ∧ Mono none s s' ∧ m ∈ s'.hash

theorem requests_ok {f : Nat → S → Option S} (hf : AddOk H root f) {m : Nat} (hm : Asked H root m) {stk : List Nat} :
    ∀ (rs : List (Option Nat)) (s s' : S), Inv H root (m :: stk) s → s.st m = .requested →
      H.reqs m = (s.filled m).map some ++ rs → (∀ t ∈ s.filled m, t ∈ s.hash ∨ s.st t = .failed) →
      requests H f m rs s = some s' →
      Inv H root (m :: stk) s' ∧ Mono (some m) s s' ∧ s'.st m = .requested ∧
        (∀ t ∈ s'.filled m, t ∈ s'.hash ∨ s'.st t = .failed) ∧
        (H.reqs m = (s'.filled m).map some ∨ none ∈ H.reqs m ∨ ∃ t ∈ s'.filled m, s'.st t = .failed)
  | [], s, s', h, hr, hp, ht, he => by
    simp only [requests, Option.some.injEq] at he
    subst he
    exact ⟨h, Mono.refl _ _, hr, ht, .inl (by simpa using hp)⟩
  | none :: rs, s, s', h, hr, hp, ht, he => by
    simp only [requests, Option.some.injEq] at he
    subst he
    exact ⟨h, Mono.refl _ _, hr, ht, .inr (.inl (by rw [hp]; simp))⟩
  | some t :: rs, s, s', h, hr, hp, ht, he => by
    obtain ⟨i1, m1, a1, e1, e2, e3⟩ := inv_lookup h t
    have hat : Asked H root t := .next hm (by rw [hp]; simp)
    rw [requests] at he
    generalize hs1 : lookup H t s = s1 at *
    have hmh : m ∈ s1.hash := i1.sh m (List.mem_cons_self ..)
    have hml : m ∉ s1.list := i1.dis m (List.mem_cons_self ..)
    have fo : ∀ x, x ≠ m → upd s1.filled m (s1.filled m ++ [t]) x = s1.filled x := fun x hx => upd_other _ _ hx
    have lm : ∀ x ∈ s1.list, x ≠ m := fun x hx e => hml (e ▸ hx)
    have i2 : Inv H root (m :: stk) { s1 with filled := upd s1.filled m (s1.filled m ++ [t]) } := by
      refine ⟨i1.asked, i1.part, i1.lreq, i1.lh, i1.sh, i1.dis, ?_, ?_, ?_, i1.sfail, i1.sload, ?_, i1.hst, ?_, ?_⟩
      · intro x hx; simp only [fo x (lm x hx)]; exact i1.fill x hx
      · intro x
        by_cases ex : x = m
        · subst ex
          refine ⟨rs, ?_⟩
          simp only [upd_same, e1, hp]; simp
        · simp only [fo x ex]; exact i1.pre x
      · intro x hx; simp only [fo x (lm x hx)]; exact i1.short x hx
      · intro x hx
        have : x ≠ m := fun e => by rw [e, m1.req m hr] at hx; cases hx
        simp only [fo x this]; exact i1.sun x hx
      · intro x hx
        have : x ≠ m := fun e => hx (e ▸ hmh)
        simp only [fo x this]; exact i1.out x hx
      · intro x hx
        have : x ≠ m := fun e => by rw [e, m1.req m hr] at hx; cases hx
        simp only [fo x this]; exact i1.ff x hx
    have m2 : Mono (some m) s1 { s1 with filled := upd s1.filled m (s1.filled m ++ [t]) } :=
      ⟨fun _ h => h, fun _ h => h, fun _ h => h, fun _ h => h, fun x _ hx => fo x (by simpa using hx)⟩
    have ht1 : ∀ y ∈ s1.filled m, y ∈ s1.hash ∨ s1.st y = .failed := by
      intro y hy
      rw [e1] at hy
      rcases ht y hy with h | h
      · exact .inl (m1.hash y h)
      · exact .inr (m1.fail y h)
    by_cases hc : s.st t = .absent ∧ H.loadable t = false ∧ H.errs t = true
    · simp only [hc, and_self, if_true, Option.some.injEq] at he
      have hf1 : s1.st t = .failed := by
        rcases lookup_cases H t s with ⟨ha, e⟩ | ⟨ha, e⟩
        · exact absurd hc.1 ha
        · rw [← hs1, e]; simp [upd_same, hc.2.1]
      subst he
      refine ⟨i2, m1.weak.trans m2, m1.req m hr, ?_, .inr (.inr ⟨t, ?_, hf1⟩)⟩
      · intro y hy
        simp only [upd_same, List.mem_append, List.mem_singleton] at hy
        rcases hy with hy | rfl
        · exact ht1 y hy
        · exact .inr hf1
      · simp [upd_same]
    · rw [if_neg hc] at he
      cases ha : f t { s1 with filled := upd s1.filled m (s1.filled m ++ [t]) } with
      | none => rw [ha] at he; simp at he
      | some s3 =>
        rw [ha] at he
        simp only at he
        obtain ⟨i3, m3, h3⟩ := hf t _ s3 _ i2 hat a1 ha
        have f3 : s3.filled m = s1.filled m ++ [t] := by
          rw [m3.fil m hmh (by simp)]; simp [upd_same]
        have r3 : s3.st m = .requested := m3.req m (m1.req m hr)
        obtain ⟨i4, m4, r4, t4, c4⟩ := requests_ok hf hm rs s3 s' i3 r3
          (by rw [f3, e1, hp]; simp) (by
            intro y hy
            rw [f3] at hy
            simp only [List.mem_append, List.mem_singleton] at hy
            rcases hy with hy | rfl
            · rcases ht1 y hy with h | h
              · exact .inl (m3.hash y h)
              · exact .inr (m3.fail y h)
            · exact .inl h3) he
        exact ⟨i4, m1.weak.trans (m2.trans (m3.weak.trans m4)), r4, t4, c4⟩

theorem add_ok : ∀ n, AddOk H root (add H n)
  | 0 => by intro m s s' stk _ _ _ he; simp [add] at he
  | n + 1 => by
    intro m s s' stk h hm ha he
    rw [add] at he
    by_cases hh : m ∈ s.hash
    · simp only [hh, if_true, Option.some.injEq] at he
      subst he
      exact ⟨h, Mono.refl _ _, hh⟩
    · simp only [hh, if_false] at he
      cases hs : s.st m with
      | absent => exact absurd hs ha
      | requested => exact absurd hs (h.out m hh).2
      | failed | unlinked =>
        simp only [hs, Option.some.injEq] at he
        subst he
        refine ⟨⟨?_, ?_, h.lreq, ?_, ?_, h.dis, ?_, h.pre, h.short, h.sfail, h.sload, h.sun, ?_, ?_, h.ff⟩,
          ⟨fun x hx => List.mem_cons_of_mem _ hx, fun _ h => h, fun _ h => h, fun _ h => h, fun _ _ _ => rfl⟩,
          List.mem_cons_self ..⟩
        · intro x hx
          rcases List.mem_cons.1 hx with rfl | hx
          · exact hm
          · exact h.asked x hx
        · intro x hx
          rcases List.mem_cons.1 hx with rfl | hx
          · simp [hs]
          · exact h.part x hx
        · intro x hx; exact List.mem_cons_of_mem _ (h.lh x hx)
        · intro x hx; exact List.mem_cons_of_mem _ (h.sh x hx)
        · intro x hx t ht
          rcases h.fill x hx t ht with h | h
          · exact .inl (List.mem_cons_of_mem _ h)
          · exact .inr h
        · intro x hx
          rcases List.mem_cons.1 hx with rfl | hx
          · simp [hs]
          · exact h.hst x hx
        · intro x hx
          exact h.out x (fun hx' => hx (List.mem_cons_of_mem _ hx'))
      | loaded =>
        simp only [hs] at he
        have keep : ∀ x v, s.st x = v → v ≠ .loaded → upd s.st m .requested x = v := fun x v hx hv => by
          rw [upd_other _ _ (fun e => hv (by rw [← hx, e, hs])), hx]
        have hmf : s.filled m = [] := (h.out m hh).1 (by rw [hs]; simp)
        have hms : m ∉ stk := fun hx => hh (h.sh m hx)
        have hml : m ∉ s.list := fun hx => hh (h.lh m hx)
        have i0 : Inv H root (m :: stk) { s with hash := m :: s.hash, st := upd s.st m .requested } := by
          refine ⟨?_, ?_, ?_, ?_, ?_, ?_, ?_, h.pre, ?_, ?_, ?_, ?_, ?_, ?_, ?_⟩
          · intro x hx
            rcases List.mem_cons.1 hx with rfl | hx
            · exact hm
            · exact h.asked x hx
          · intro x hx
            rcases List.mem_cons.1 hx with rfl | hx
            · exact .inr (.inl (List.mem_cons_self ..))
            · rcases h.part x hx with h | h | h | h
              · exact .inl h
              · exact .inr (.inl (List.mem_cons_of_mem _ h))
              · exact .inr (.inr (.inl (keep x _ h (by simp))))
              · exact .inr (.inr (.inr (keep x _ h (by simp))))
          · intro x hx; exact keep x _ (h.lreq x hx) (by simp)
          · intro x hx; exact List.mem_cons_of_mem _ (h.lh x hx)
          · intro x hx
            rcases List.mem_cons.1 hx with rfl | hx
            · exact List.mem_cons_self ..
            · exact List.mem_cons_of_mem _ (h.sh x hx)
          · intro x hx
            rcases List.mem_cons.1 hx with rfl | hx
            · exact hml
            · exact h.dis x hx
          · intro x hx t ht
            rcases h.fill x hx t ht with h | h
            · exact .inl (List.mem_cons_of_mem _ h)
            · exact .inr (keep t _ h (by simp))
          · intro x hx
            rcases h.short x hx with h | h | ⟨t, ht, h⟩
            · exact .inl h
            · exact .inr (.inl h)
            · exact .inr (.inr ⟨t, ht, keep t _ h (by simp)⟩)
          · intro x hx
            by_cases ex : x = m
            · subst ex; simp [upd_same] at hx
            · simp only [upd_other _ _ ex] at hx; exact h.sfail x hx
          · intro x hx
            by_cases ex : x = m
            · subst ex; exact h.sload x (.inl hs)
            · simp only [upd_other _ _ ex] at hx; exact h.sload x hx
          · intro x hx
            by_cases ex : x = m
            · subst ex; simp [upd_same] at hx
            · simp only [upd_other _ _ ex] at hx
              obtain ⟨u1, u2, u3⟩ := h.sun x hx
              exact ⟨u1, u2, fun y hy => keep y _ (u3 y hy) (by simp)⟩
          · intro x hx
            rcases List.mem_cons.1 hx with rfl | hx
            · exact .inl (upd_same ..)
            · rcases h.hst x hx with h | h | h
              · exact .inl (keep x _ h (by simp))
              · exact .inr (.inl (keep x _ h (by simp)))
              · exact .inr (.inr (keep x _ h (by simp)))
          · intro x hx
            have h1 : x ≠ m := fun e => hx (by rw [e]; exact List.mem_cons_self ..)
            have h2 := h.out x (fun hx' => hx (List.mem_cons_of_mem _ hx'))
            simp only [upd_other _ _ h1]; exact h2
          · intro x hx
            by_cases ex : x = m
            · subst ex; exact hmf
            · simp only [upd_other _ _ ex] at hx; exact h.ff x hx
        cases hq : requests H (add H n) m (H.reqs m)
            { s with hash := m :: s.hash, st := upd s.st m .requested } with
        | none => rw [hq] at he; simp at he
        | some s1 =>
          rw [hq] at he
          simp only [Option.map_some, Option.some.injEq] at he
          obtain ⟨i1, m1, r1, t1, c1⟩ := requests_ok (add_ok n) hm (H.reqs m) _ s1 i0 (upd_same ..)
            (by simp [hmf]) (by simp [hmf]) hq
          subst he
          have hmh : m ∈ s1.hash := i1.sh m (List.mem_cons_self ..)
          refine ⟨⟨i1.asked, ?_, ?_, ?_, ?_, ?_, ?_, i1.pre, ?_, i1.sfail, i1.sload, i1.sun, i1.hst, i1.out, i1.ff⟩,
            ⟨fun x hx => m1.hash x (List.mem_cons_of_mem _ hx), fun x hx => m1.fail x (keep x _ hx (by simp)),
              fun x hx => m1.req x (keep x _ hx (by simp)), fun x hx => m1.unl x (keep x _ hx (by simp)),
              fun x hx _ => ?_⟩, hmh⟩
          · intro x hx
            rcases i1.part x hx with h | h | h
            · exact .inl (List.mem_append_left _ h)
            · rcases List.mem_cons.1 h with rfl | h
              · exact .inl (by simp)
              · exact .inr (.inl h)
            · exact .inr (.inr h)
          · intro x hx
            simp only [List.mem_append, List.mem_singleton] at hx
            rcases hx with hx | rfl
            · exact i1.lreq x hx
            · exact r1
          · intro x hx
            simp only [List.mem_append, List.mem_singleton] at hx
            rcases hx with hx | rfl
            · exact i1.lh x hx
            · exact hmh
          · intro x hx; exact i1.sh x (List.mem_cons_of_mem _ hx)
          · intro x hx hx'
            simp only [List.mem_append, List.mem_singleton] at hx'
            rcases hx' with hx' | rfl
            · exact i1.dis x (List.mem_cons_of_mem _ hx) hx'
            · exact hms hx
          · intro x hx
            simp only [List.mem_append, List.mem_singleton] at hx
            rcases hx with hx | rfl
            · exact i1.fill x hx
            · exact t1
          · intro x hx
            simp only [List.mem_append, List.mem_singleton] at hx
            rcases hx with hx | rfl
            · exact i1.short x hx
            · exact c1
          · have : x ≠ m := fun e => hh (e ▸ hx)
            exact m1.fil x (List.mem_cons_of_mem _ hx) (by simpa using this)

theorem inv_start {s : S} (h : Sound H s) (root : Nat) : Inv H root [] { s with hash := [], list := [] } := by
  refine ⟨by simp, by simp, by simp, by simp, by simp, by simp, by simp, fun x => ?_, by simp, h.failed, ?_,
    h.linked, by simp, fun x _ => ⟨h.fresh x, h.ended x⟩,
    fun x hx => h.fresh x (by simp only at hx; rw [hx]; simp)⟩
  · by_cases hx : s.st x = .unlinked
    · exact ⟨[], by rw [(h.linked x hx).2.1]; simp⟩
    · exact ⟨H.reqs x, by simp [h.fresh x hx]⟩
  · intro x hx
    rcases hx with hx | hx
    · exact h.loaded x hx
    · exact absurd hx (h.ended x)

theorem sound_init (H : Host) (root : Nat) (hl : H.loadable root = true) : Sound H (init root) := by
  have st : ∀ x, x ≠ root → (init root).st x = .absent := fun x hx => by simp [init, upd_other _ _ hx]
  have sr : (init root).st root = .loaded := by simp [init, upd_same]
  refine ⟨?_, fun _ _ => rfl, ?_, ?_, ?_⟩ <;> intro x <;> by_cases ex : x = root
  all_goals first | subst ex; simp [sr, hl] | simp [st x ex]

theorem sound_lookup {s : S} (h : Sound H s) (t : Nat) : Sound H (lookup H t s) := by
  rcases lookup_cases H t s with ⟨_, e⟩ | ⟨ha, e⟩
  · rw [e]; exact h
  · rw [e]
    refine ⟨?_, ?_, ?_, ?_, ?_⟩ <;> intro x
    · intro hx
      by_cases ex : x = t
      · subst ex; simp only [upd_same] at hx; cases hl : H.loadable x <;> rw [hl] at hx <;> simp at hx
      · simp only [upd_other _ _ ex] at hx
        obtain ⟨u1, u2, u3⟩ := h.linked x hx
        refine ⟨u1, u2, fun y hy => ?_⟩
        have hy' := u3 y hy
        have ny : y ≠ t := fun e => by rw [e, ha] at hy'; cases hy'
        simp only [upd_other _ _ ny]; exact hy'
    · intro hx
      apply h.fresh x
      by_cases ex : x = t
      · subst ex; rw [ha]; simp
      · simpa only [upd_other _ _ ex] using hx
    · intro hx
      by_cases ex : x = t
      · subst ex; simp only [upd_same] at hx; cases hl : H.loadable x <;> rw [hl] at hx <;> simp at hx ⊢
      · simp only [upd_other _ _ ex] at hx; exact h.loaded x hx
    · intro hx
      by_cases ex : x = t
      · subst ex; simp only [upd_same] at hx; cases hl : H.loadable x <;> rw [hl] at hx <;> simp at hx ⊢
      · simp only [upd_other _ _ ex] at hx; exact h.failed x hx
    · by_cases ex : x = t
      · subst ex; simp only [upd_same]; cases H.loadable x <;> simp
      · simp only [upd_other _ _ ex]; exact h.ended x

/-- The same requests and the same failed modules. -/
def Like (s s' : S) : Prop := s'.filled = s.filled ∧ ∀ x, s'.st x = .failed ↔ s.st x = .failed

theorem failing_like {s s' : S} (h : Like s s') (m : Nat) : failing H s' m = failing H s m := by
  unfold failing
  rw [h.1]
  congr 1
  congr 1
  funext t
  simp [h.2 t]

theorem like_upd {s : S} {m : Nat} (h : s.st m ≠ .failed) : Like s { s with st := upd s.st m .unlinked } := by
  refine ⟨rfl, fun x => ?_⟩
  by_cases ex : x = m
  · subst ex; simp [upd_same, h]
  · simp [upd_other _ _ ex]

theorem Like.trans {a b c : S} (h : Like a b) (k : Like b c) : Like a c :=
  ⟨k.1.trans h.1, fun x => (k.2 x).trans (h.2 x)⟩

theorem pass_spec : ∀ (l : List Nat) (s : S), (∀ x ∈ l, s.st x ≠ .failed) →
    Like s (pass H l s).2.1 ∧ (∀ x, s.st x = .unlinked → (pass H l s).2.1.st x = .unlinked) ∧
    (pass H l s).2.2.1 = l.any (failing H s) ∧
    (∀ x ∈ l, x ∈ (pass H l s).1 ∨ (pass H l s).2.1.st x = .unlinked) ∧
    (∀ x ∈ (pass H l s).1, x ∈ l ∧ failing H s x = false) ∧
    (pass H l s).1.length ≤ l.length ∧
    ((pass H l s).2.2.2 = true → (pass H l s).1.length < l.length)
  | [], s, _ => by simp [pass, Like]
  | m :: l, s, h => by
    have hm := h m (List.mem_cons_self ..)
    unfold pass
    by_cases hc : (failing H s m || !waiting s m) = true
    · simp only [hc, if_true]
      have lk := like_upd hm
      obtain ⟨p1, p2, p3, p4, p5, p6, p7⟩ := pass_spec l { s with st := upd s.st m .unlinked } (by
        intro x hx
        exact fun e => h x (List.mem_cons_of_mem _ hx) ((lk.2 x).1 e))
      refine ⟨lk.trans p1, ?_, ?_, ?_, ?_, ?_, ?_⟩
      · intro x hx
        apply p2
        by_cases ex : x = m
        · subst ex; exact upd_same ..
        · simp only [upd_other _ _ ex]; exact hx
      · rw [p3, List.any_cons]
        congr 1
        congr 1
        funext x
        exact failing_like lk x
      · intro x hx
        rcases List.mem_cons.1 hx with rfl | hx
        · exact .inr (p2 x (upd_same ..))
        · exact p4 x hx
      · intro x hx
        obtain ⟨q1, q2⟩ := p5 x hx
        exact ⟨List.mem_cons_of_mem _ q1, by rw [← failing_like lk x]; exact q2⟩
      · simp only [List.length_cons]; omega
      · intro _; simp only [List.length_cons]; omega
    · simp only [hc]
      obtain ⟨p1, p2, p3, p4, p5, p6, p7⟩ := pass_spec l s (fun x hx => h x (List.mem_cons_of_mem _ hx))
      have hf : failing H s m = false := by
        cases hf : failing H s m with
        | false => rfl
        | true => rw [hf] at hc; simp at hc
      refine ⟨p1, p2, ?_, ?_, ?_, ?_, ?_⟩
      · simp [p3, hf]
      · intro x hx
        rcases List.mem_cons.1 hx with rfl | hx
        · exact .inl (by simp)
        · rcases p4 x hx with h | h
          · exact .inl (by simp [h])
          · exact .inr h
      · intro x hx
        simp only [Bool.false_eq_true, if_false] at hx
        rcases List.mem_cons.1 hx with rfl | hx
        · exact ⟨List.mem_cons_self .., hf⟩
        · exact ⟨List.mem_cons_of_mem _ (p5 x hx).1, (p5 x hx).2⟩
      · simp only [Bool.false_eq_true, if_false, List.length_cons]; omega
      · intro hx
        simp only [Bool.false_eq_true, if_false, List.length_cons] at hx ⊢
        have := p7 hx
        omega

theorem unlinkAll_spec : ∀ (l : List Nat) (s : S),
    (unlinkAll l s).filled = s.filled ∧ (∀ x, s.st x = .unlinked → (unlinkAll l s).st x = .unlinked) ∧
    ∀ x ∈ l, (unlinkAll l s).st x = .unlinked
  | [], s => by simp [unlinkAll]
  | m :: l, s => by
    obtain ⟨h1, h2, h3⟩ := unlinkAll_spec l { s with st := upd s.st m .unlinked }
    refine ⟨h1, ?_, ?_⟩
    · intro x hx
      apply h2
      by_cases ex : x = m
      · subst ex; exact upd_same ..
      · simp only [upd_other _ _ ex]; exact hx
    · intro x hx
      rcases List.mem_cons.1 hx with rfl | hx
      · exact h2 x (upd_same ..)
      · exact h3 x hx

theorem result_spec : ∀ (n : Nat) (l : List Nat) (s : S), l.length < n → (∀ x ∈ l, s.st x ≠ .failed) →
    (result H n l s).1.filled = s.filled ∧
    (∀ x, s.st x = .unlinked → (result H n l s).1.st x = .unlinked) ∧
    (∀ x ∈ l, (result H n l s).1.st x = .unlinked) ∧ (result H n l s).2 = l.any (failing H s)
  | 0, l, s, h, _ => by omega
  | n + 1, [], s, _, _ => by simp [result]
  | n + 1, m :: l, s, hn, hf => by
    obtain ⟨p1, p2, p3, p4, p5, p6, p7⟩ := pass_spec (H := H) (m :: l) s hf
    rw [result]
    generalize pass H (m :: l) s = r at *
    by_cases hr : r.2.2.2 = true
    · simp only [hr, if_true]
      have hlen : r.1.length < n := by
        have := p7 hr
        simp only [List.length_cons] at this hn
        omega
      obtain ⟨q1, q2, q3, q4⟩ := result_spec n r.1 r.2.1 hlen
        (fun x hx e => hf x (p5 x hx).1 ((p1.2 x).1 e))
      refine ⟨q1.trans p1.1, fun x hx => q2 x (p2 x hx), ?_, ?_⟩
      · intro x hx
        rcases p4 x hx with h | h
        · exact q3 x h
        · exact q2 x h
      · have : r.1.any (failing H r.2.1) = false := by
          rw [List.any_eq_false]
          intro x hx
          rw [failing_like p1 x, (p5 x hx).2]
          simp
        rw [q4, this, p3, Bool.or_false]
    · simp only [hr]
      obtain ⟨q1, q2, q3⟩ := unlinkAll_spec r.1 r.2.1
      refine ⟨q1.trans p1.1, fun x hx => q2 x (p2 x hx), ?_, p3⟩
      intro x hx
      rcases p4 x hx with h | h
      · exact q3 x h
      · exact q2 x h

theorem pass_other : ∀ (l : List Nat) (s : S) (x : Nat), x ∉ l → (pass H l s).2.1.st x = s.st x
  | [], _, _, _ => rfl
  | m :: l, s, x, h => by
    have h1 : x ≠ m := fun e => h (by rw [e]; exact List.mem_cons_self ..)
    have h2 : x ∉ l := fun e => h (List.mem_cons_of_mem _ e)
    unfold pass
    split
    · simp only [pass_other l _ x h2, upd_other _ _ h1]
    · simp only [pass_other l _ x h2]

theorem unlinkAll_other : ∀ (l : List Nat) (s : S) (x : Nat), x ∉ l → (unlinkAll l s).st x = s.st x
  | [], _, _, _ => rfl
  | m :: l, s, x, h => by
    have h1 : x ≠ m := fun e => h (by rw [e]; exact List.mem_cons_self ..)
    have h2 : x ∉ l := fun e => h (List.mem_cons_of_mem _ e)
    rw [unlinkAll, unlinkAll_other l _ x h2]
    exact upd_other _ _ h1

theorem pass_sub : ∀ (l : List Nat) (s : S) (x : Nat), x ∈ (pass H l s).1 → x ∈ l
  | [], _, _, h => by simp [pass] at h
  | m :: l, s, x, h => by
    unfold pass at h
    split at h
    · exact List.mem_cons_of_mem _ (pass_sub l _ x h)
    · rcases List.mem_cons.1 h with rfl | h
      · exact List.mem_cons_self ..
      · exact List.mem_cons_of_mem _ (pass_sub l _ x h)

theorem result_other : ∀ (n : Nat) (l : List Nat) (s : S) (x : Nat), x ∉ l → (result H n l s).1.st x = s.st x
  | 0, _, _, _, _ => rfl
  | _ + 1, [], _, _, _ => rfl
  | n + 1, m :: l, s, x, h => by
    have h1 : x ∉ (pass H (m :: l) s).1 := fun e => h (pass_sub _ _ _ e)
    rw [result]
    simp only
    split
    · simp only [result_other n _ _ x h1, pass_other _ _ x h]
    · simp only [unlinkAll_other _ _ x h1, pass_other _ _ x h]

/-- Nothing failing among the modules of the list. -/
theorem failing_false {stk : List Nat} {s : S} (h : Inv H root stk s) {m : Nat} (hf : failing H s m = false) :
    H.reqs m = (s.filled m).map some ∧ ∀ t ∈ s.filled m, s.st t ≠ .failed := by
  unfold failing at hf
  simp only [Bool.or_eq_false_iff, decide_eq_false_iff_not, List.any_eq_false, decide_eq_true_eq] at hf
  obtain ⟨rest, hr⟩ := h.pre m
  refine ⟨?_, hf.2⟩
  have : rest.length = 0 := by
    have h1 := hf.1
    rw [hr] at h1
    simp at h1
    simp [h1]
  rw [List.length_eq_zero_iff.1 this] at hr
  simpa using hr

theorem failing_true {stk : List Nat} {s : S} (h : Inv H root stk s) {m : Nat} (hm : m ∈ s.list)
    (hf : failing H s m = true) : ¬ Complete H root := by
  intro hc
  have ha := h.asked m (h.lh m hm)
  have bad : ∀ t ∈ s.filled m, s.st t ≠ .failed := by
    intro t ht e
    obtain ⟨rest, hr⟩ := h.pre m
    have : some t ∈ H.reqs m := by rw [hr]; simp [ht]
    have h1 := (hc t (.next ha this)).1
    rw [h.sfail t e] at h1
    cases h1
  rcases h.short m hm with h1 | h1 | ⟨t, ht, h1⟩
  · unfold failing at hf
    rw [h1] at hf
    simp at hf
    obtain ⟨t, ht, h2⟩ := hf
    exact bad t ht h2
  · exact (hc m ha).2 h1
  · exact bad t ht h1

/-- Distinct modules below `N`. -/
def Below (N : Nat) (s : S) : Prop := s.hash.Nodup ∧ ∀ x ∈ s.hash, x < N

theorem nodup_length_le : ∀ (N : Nat) (l : List Nat), l.Nodup → (∀ x ∈ l, x < N) → l.length ≤ N
  | 0, [], _, _ => by simp
  | 0, a :: l, _, h => absurd (h a (List.mem_cons_self ..)) (by omega)
  | N + 1, l, hd, h => by
    have h1 := nodup_length_le N (l.erase N) (hd.erase N) (fun x hx => by
      have h2 := hd.mem_erase_iff.1 hx
      have := h x h2.2
      have := h2.1
      omega)
    have h3 : l.length ≤ (l.erase N).length + 1 := by
      rw [List.length_erase]
      split <;> omega
    omega

theorem lookup_hash (H : Host) (t : Nat) (s : S) : (lookup H t s).hash = s.hash := by
  rcases lookup_cases H t s with ⟨_, e⟩ | ⟨_, e⟩ <;> rw [e]

theorem requests_ends {N n : Nat} {f : Nat → S → Option S}
    (hf : ∀ m s, m < N → Below N s → N + 1 ≤ n + s.hash.length →
      ∃ s', f m s = some s' ∧ Below N s' ∧ s.hash.length ≤ s'.hash.length) (m : Nat) :
    ∀ (rs : List (Option Nat)) (s : S), (∀ t, some t ∈ rs → t < N) → Below N s → N + 1 ≤ n + s.hash.length →
      ∃ s', requests H f m rs s = some s' ∧ Below N s' ∧ s.hash.length ≤ s'.hash.length
  | [], s, _, hb, _ => ⟨s, rfl, hb, Nat.le_refl _⟩
  | none :: _, s, _, hb, _ => ⟨s, rfl, hb, Nat.le_refl _⟩
  | some t :: rs, s, hr, hb, hn => by
    have eh := lookup_hash H t s
    have hb2 : ∀ g, Below N { lookup H t s with filled := g } := fun g => by
      unfold Below; simp only [eh]; exact hb
    rw [requests]
    split
    · exact ⟨_, rfl, hb2 _, by simp only [eh]; exact Nat.le_refl _⟩
    · obtain ⟨s3, h3, b3, l3⟩ := hf t { lookup H t s with
        filled := upd (lookup H t s).filled m ((lookup H t s).filled m ++ [t]) } (hr t (List.mem_cons_self ..))
        (hb2 _) (by simp only [eh]; exact hn)
      simp only [eh] at l3
      obtain ⟨s4, h4, b4, l4⟩ := requests_ends hf m rs s3 (fun t ht => hr t (List.mem_cons_of_mem _ ht)) b3 (by omega)
      rw [h3]
      exact ⟨s4, h4, b4, by omega⟩

theorem add_ends {N : Nat} (hN : ∀ m t, some t ∈ H.reqs m → t < N) : ∀ (n m : Nat) (s : S), m < N → Below N s →
    N + 1 ≤ n + s.hash.length → ∃ s', add H n m s = some s' ∧ Below N s' ∧ s.hash.length ≤ s'.hash.length
  | 0, m, s, _, hb, hn => by
    have := nodup_length_le N s.hash hb.1 hb.2
    omega
  | n + 1, m, s, hm, hb, hn => by
    rw [add]
    by_cases hh : m ∈ s.hash
    · simp only [hh, if_true]
      exact ⟨s, rfl, hb, Nat.le_refl _⟩
    · simp only [hh, if_false]
      have hb1 : ∀ g, Below N { s with hash := m :: s.hash, st := g } := fun g =>
        ⟨List.nodup_cons.2 ⟨hh, hb.1⟩, fun x hx => by
          rcases List.mem_cons.1 hx with rfl | hx
          · exact hm
          · exact hb.2 x hx⟩
      have run : ∃ s', (requests H (add H n) m (H.reqs m)
          { s with hash := m :: s.hash, st := upd s.st m .requested }).map
            (fun s => { s with list := s.list ++ [m] }) = some s' ∧ Below N s' ∧ s.hash.length ≤ s'.hash.length := by
        obtain ⟨s1, h1, b1, l1⟩ := requests_ends (H := H) (n := n) (fun m s => add_ends hN n m s) m (H.reqs m)
          { s with hash := m :: s.hash, st := upd s.st m .requested } (hN m) (hb1 _)
          (by simp only [List.length_cons]; omega)
        rw [h1]
        simp only [List.length_cons] at l1
        exact ⟨_, rfl, b1, by simp only; omega⟩
      have stop : ∃ s', some { s with hash := m :: s.hash } = some s' ∧ Below N s' ∧
          s.hash.length ≤ s'.hash.length := ⟨_, rfl, hb1 s.st, by simp⟩
      cases s.st m <;> first | exact run | exact stop

/-- One load from what earlier loads left. -/
theorem loadFrom_ok {n root : Nat} {s s' : S} {b : Bool} (h : Sound H s) (hr : s.st root = .loaded)
    (he : loadFrom H n root s = some (s', b)) :
    (b = true ↔ Complete H root) ∧ (b = true → ∀ m, Asked H root m → s'.st m = .unlinked) ∧
      (b = true → Sound H s') ∧ ∀ x, s.st x = .unlinked → s'.st x = .unlinked := by
  have hl := h.loaded root hr
  unfold loadFrom at he
  cases ha : add H n root { s with hash := [], list := [] } with
  | none => rw [ha] at he; simp at he
  | some s1 =>
    rw [ha] at he
    simp only [Option.map_some, Option.some.injEq, Prod.mk.injEq] at he
    obtain ⟨rfl, rfl⟩ := he
    obtain ⟨i, mo, hrt⟩ := add_ok (H := H) (root := root) n root _ s1 [] (inv_start h root) .root
      (by simp only [hr]; simp) ha
    obtain ⟨r1, r2, r3, r4⟩ := result_spec (H := H) (s1.list.length + 1) s1.list s1 (by omega)
      (fun x hx e => by rw [i.lreq x hx] at e; cases e)
    have ro := result_other (H := H) (s1.list.length + 1) s1.list s1
    generalize result H (s1.list.length + 1) s1.list s1 = q at *
    have e : ((!q.2) = true) ↔ s1.list.any (failing H s1) = false := by
      rw [r4]; simp
    -- a module of the hash that did not fail is on the list or was linked before
    have inl : ∀ x ∈ s1.hash, s1.st x ≠ .failed → x ∈ s1.list ∨ s1.st x = .unlinked := fun x hx hf => by
      rcases i.part x hx with h | h | h | h
      · exact .inl h
      · simp at h
      · exact absurd h hf
      · exact .inr h
    have ok : s1.list.any (failing H s1) = false → ∀ x, x ∈ s1.list ∨ s1.st x = .unlinked →
        H.loadable x = true ∧ H.reqs x = (s1.filled x).map some ∧
          ∀ t ∈ s1.filled x, t ∈ s1.list ∨ s1.st t = .unlinked := by
      intro hf x hx
      rw [List.any_eq_false] at hf
      rcases hx with hx | hx
      · obtain ⟨f1, f2⟩ := failing_false i (by simpa using hf x hx)
        refine ⟨i.sload x (.inr (i.lreq x hx)), f1, fun t ht => ?_⟩
        exact inl t ((i.fill x hx t ht).resolve_right (f2 t ht)) (f2 t ht)
      · obtain ⟨u1, u2, u3⟩ := i.sun x hx
        exact ⟨u1, u2, fun t ht => .inr (u3 t ht)⟩
    have all : s1.list.any (failing H s1) = false → ∀ m, Asked H root m → m ∈ s1.list ∨ s1.st m = .unlinked := by
      intro hf m hm
      induction hm with
      | root => exact inl root hrt (fun e => by rw [i.sfail root e] at hl; cases hl)
      | next _ ht ih =>
        obtain ⟨_, h2, h3⟩ := ok hf _ ih
        rw [h2] at ht
        simp only [List.mem_map, Option.some.injEq, exists_eq_right] at ht
        exact h3 _ ht
    have un : ∀ x, x ∈ s1.list ∨ s1.st x = .unlinked → q.1.st x = .unlinked := fun x hx => hx.elim (r3 x) (r2 x)
    have nu : ∀ x, q.1.st x ≠ .unlinked → q.1.st x = s1.st x := fun x hx => ro x (fun h => hx (r3 x h))
    rw [e]
    refine ⟨⟨?_, ?_⟩, fun hf m hm => un m (all hf m hm), ?_, fun x hx => r2 x (mo.unl x hx)⟩
    · intro hf m hm
      obtain ⟨h1, h2, _⟩ := ok hf m (all hf m hm)
      exact ⟨h1, by rw [h2]; simp⟩
    · intro hc
      rw [List.any_eq_false]
      intro m hm hf
      exact failing_true i hm hf hc
    · intro hf
      refine ⟨?_, ?_, ?_, ?_, ?_⟩
      · intro m hm
        have hm' : m ∈ s1.list ∨ s1.st m = .unlinked := by
          by_cases hml : m ∈ s1.list
          · exact .inl hml
          · exact .inr (by rw [← ro m hml]; exact hm)
        obtain ⟨h1, h2, h3⟩ := ok hf m hm'
        rw [r1]
        exact ⟨h1, h2, fun t ht => un t (h3 t ht)⟩
      · intro m hm
        rw [r1]
        have e1 := nu m hm
        by_cases hmh : m ∈ s1.hash
        · rcases i.part m hmh with h | h | h | h
          · exact absurd (r3 m h) hm
          · simp at h
          · exact i.ff m h
          · exact absurd (r2 m h) hm
        · exact (i.out m hmh).1 (by rw [← e1]; exact hm)
      · intro m hm
        have e1 := nu m (by rw [hm]; simp)
        exact i.sload m (.inl (by rw [← e1]; exact hm))
      · intro m hm
        have e1 := nu m (by rw [hm]; simp)
        exact i.sfail m (by rw [← e1]; exact hm)
      · intro m hm
        have e1 := nu m (by rw [hm]; simp)
        rw [hm] at e1
        have hmh : m ∈ s1.hash := Classical.byContradiction fun h => (i.out m h).2 e1.symm
        rcases inl m hmh (by rw [← e1]; simp) with h | h
        · rw [r3 m h] at hm; cases hm
        · rw [h] at e1; cases e1

theorem import_ok {n root : Nat} {s s' : S} {b : Bool} (h : Sound H s)
    (he : importOf H n root s = some (s', b)) :
    (b = true ↔ Complete H root) ∧ (b = true → ∀ m, Asked H root m → s'.st m = .unlinked) ∧
      (b = true → Sound H s') ∧ ∀ x, s.st x = .unlinked → s'.st x = .unlinked := by
  have hl := sound_lookup h root
  have keep : ∀ x, s.st x = .unlinked → (lookup H root s).st x = .unlinked := by
    intro x hx
    rcases lookup_cases H root s with ⟨_, e⟩ | ⟨ha, e⟩
    · rw [e]; exact hx
    · rw [e]
      have : x ≠ root := fun e => by rw [e, ha] at hx; cases hx
      simp only [upd_other _ _ this]; exact hx
  have na : (lookup H root s).st root ≠ .absent := by
    rcases lookup_cases H root s with ⟨ha, e⟩ | ⟨ha, e⟩
    · rw [e]; exact ha
    · rw [e]
      simp only [upd_same]
      cases H.loadable root <;> simp
  unfold importOf at he
  simp only at he
  generalize lookup H root s = s1 at *
  cases hs : s1.st root with
  | absent => exact absurd hs na
  | requested => exact absurd hs (hl.ended root)
  | failed =>
    rw [hs] at he
    simp only [Option.some.injEq, Prod.mk.injEq] at he
    obtain ⟨rfl, rfl⟩ := he
    refine ⟨⟨by simp, fun hc => ?_⟩, by simp, by simp, keep⟩
    have := (hc root .root).1
    rw [hl.failed root hs] at this
    exact this
  | loaded =>
    rw [hs] at he
    obtain ⟨h1, h2, h3, h4⟩ := loadFrom_ok hl hs he
    exact ⟨h1, h2, h3, fun x hx => h4 x (keep x hx)⟩
  | unlinked =>
    rw [hs] at he
    simp only [Option.some.injEq, Prod.mk.injEq] at he
    obtain ⟨rfl, rfl⟩ := he
    have all : ∀ m, Asked H root m → s1.st m = .unlinked := by
      intro m hm
      induction hm with
      | root => exact hs
      | next _ ht ih =>
        obtain ⟨_, u2, u3⟩ := hl.linked _ ih
        rw [u2] at ht
        simp only [List.mem_map, Option.some.injEq, exists_eq_right] at ht
        exact u3 _ ht
    refine ⟨⟨fun _ m hm => ?_, fun _ => rfl⟩, fun _ => all, fun _ => hl, keep⟩
    obtain ⟨u1, u2, _⟩ := hl.linked m (all m hm)
    exact ⟨u1, by rw [u2]; simp⟩

end Verif.ModLoad

import Verif.Lemmas.DeclsBase

/- What a part of a program requires of, and does to, the declarations of the
function it is in. -/

namespace Verif.Decls

/-- Two lists related one by one. -/
def Pair (R : Scope → Scope → Prop) : List Scope → List Scope → Prop
  | [], [] => True
  | a :: as, b :: bs => R a b ∧ Pair R as bs
  | _, _ => False

theorem Pair.imp {R S : Scope → Scope → Prop} (h : ∀ a b, R a b → S a b) :
    ∀ {l l' : List Scope}, Pair R l l' → Pair S l l'
  | [], [], _ => trivial
  | _ :: _, _ :: _, hp => ⟨h _ _ hp.1, Pair.imp h hp.2⟩
  | [], _ :: _, hp => hp.elim
  | _ :: _, [], hp => hp.elim

theorem Pair.mem_left {R : Scope → Scope → Prop} :
    ∀ {l l' : List Scope}, Pair R l l' → ∀ a ∈ l, ∃ b ∈ l', R a b
  | [], [], _, _, h => absurd h (List.not_mem_nil)
  | _ :: as, b :: bs, hp, c, h => by
    rcases List.mem_cons.1 h with h | h
    · subst h; exact ⟨b, List.mem_cons_self, hp.1⟩
    · obtain ⟨d, h1, h2⟩ := Pair.mem_left hp.2 c h
      exact ⟨d, List.mem_cons_of_mem _ h1, h2⟩
  | [], _ :: _, hp, _, _ => hp.elim
  | _ :: _, [], hp, _, _ => hp.elim

theorem Pair.mem_right {R : Scope → Scope → Prop} :
    ∀ {l l' : List Scope}, Pair R l l' → ∀ b ∈ l', ∃ a ∈ l, R a b
  | [], [], _, _, h => absurd h (List.not_mem_nil)
  | a :: as, _ :: bs, hp, c, h => by
    rcases List.mem_cons.1 h with h | h
    · subst h; exact ⟨a, List.mem_cons_self, hp.1⟩
    · obtain ⟨d, h1, h2⟩ := Pair.mem_right hp.2 c h
      exact ⟨d, List.mem_cons_of_mem _ h1, h2⟩
  | [], _ :: _, hp, _, _ => hp.elim
  | _ :: _, [], hp, _, _ => hp.elim

theorem Pair.trans {R S T : Scope → Scope → Prop} (h : ∀ a b c, R a b → S b c → T a c) :
    ∀ {l l' l'' : List Scope}, Pair R l l' → Pair S l' l'' → Pair T l l''
  | [], [], [], _, _ => trivial
  | _ :: _, _ :: _, _ :: _, h1, h2 => ⟨h _ _ _ h1.1 h2.1, Pair.trans h h1.2 h2.2⟩
  | [], _ :: _, _, h1, _ => h1.elim
  | _ :: _, [], _, h1, _ => h1.elim
  | [], [], _ :: _, _, h2 => h2.elim
  | _ :: _, _ :: _, [], _, h2 => h2.elim

theorem Pair.refl {R : Scope → Scope → Prop} : ∀ {l : List Scope}, (∀ a ∈ l, R a a) → Pair R l l
  | [], _ => trivial
  | a :: as, h => ⟨h a List.mem_cons_self, Pair.refl fun b hb => h b (List.mem_cons_of_mem _ hb)⟩

theorem Pair.map {R : Scope → Scope → Prop} {f : Scope → Scope} :
    ∀ {l : List Scope}, (∀ a ∈ l, R a (f a)) → Pair R l (l.map f)
  | [], _ => trivial
  | a :: as, h => ⟨h a List.mem_cons_self, Pair.map fun b hb => h b (List.mem_cons_of_mem _ hb)⟩

/-- The kinds of item that a part's variables and functions make. -/
def VF (t : Bool) (s : St) (x : Nat) (k : Kind) : Prop :=
  (k = .var ∧ x ∈ VN s) ∨ (k = .fn ∧ x ∈ FN t s)

/-- A name that is a variable of the part. -/
def isV (t : Bool) (s : St) (x : Nat) : Prop := x ∈ VN s ∨ x ∈ FN t s

theorem VF.isV {t : Bool} {s : St} {x : Nat} {k : Kind} (h : VF t s x k) : isV t s x := by
  rcases h with h | h
  · exact Or.inl h.2
  · exact Or.inr h.2

theorem FN_false : ∀ s : St, FN false s = [] := by
  intro s
  induction s <;> simp_all [FN]

/-- The effect on a declaration below the top one. -/
structure TE (t : Bool) (s : St) (c c' : Scope) : Prop where
  id : c'.id = c.id
  old : ∀ x k, look c x = some k → look c' x = some k
  new : ∀ x k, look c x = none → look c' x = some k → VF t s x k
  has : ∀ x, isV t s x → look c' x ≠ none

/-- The effect on the top declaration. -/
structure HE (F : Fn) (t : Bool) (s : St) (c c' : Scope) : Prop where
  id : c'.id = c.id
  old : ∀ x k, look c x = some k → look c' x = some k
  new : ∀ x k, look c x = none → look c' x = some k →
    VF t s x k ∨ (x ∈ LN t s ∧ lexK F c k = true)
  has : ∀ x, isV t s x ∨ x ∈ LN t s → look c' x ≠ none

/-- The effect on the function's declarations. -/
def Eff (F : Fn) (t : Bool) (s : St) : List Scope → List Scope → Prop
  | c :: tl, c' :: tl' => HE F t s c c' ∧ Pair (TE t s) tl tl'
  | _, _ => False

/-- What the part requires of the declarations, and of itself. -/
structure OkAt (F : Fn) (t : Bool) (s : St) (cur : List Scope) : Prop where
  nd : (LN t s).Nodup
  dj : ∀ x ∈ LN t s, ¬ isV t s x
  fresh : ∀ c ∈ cur.head?, ∀ x ∈ LN t s, look c x = none
  free : ∀ c ∈ cur, ∀ x k, isV t s x → look c x = some k → lexK F c k = false

/-- `t` says whether the top declaration is that of a function's or script's
statement list. -/
structure Top (F : Fn) (t : Bool) (cur : List Scope) : Prop where
  iff : ∀ c ∈ cur.head?, t = true ↔ (F.mod = false ∧ F.l = c.id)
  fnl : t = true → ∀ c ∈ cur, lexK F c .fn = false

/-- Below a variable there is a variable. -/
def Mono (F : Fn) : List Scope → Prop
  | [] => True
  | c :: tl => (∀ x k, look c x = some k → lexK F c k = false →
      ∀ c' ∈ tl, ∃ k', look c' x = some k' ∧ lexK F c' k' = false) ∧ Mono F tl

/-- At the top of a function, the functions noted below are noted on top. -/
def Below (t : Bool) : List Scope → Prop
  | [] => True
  | c :: tl => t = true → ∀ c' ∈ tl, ∀ x, look c' x = some .fn → look c x ≠ none

/-- The invariant of the declarations as long as no error was reported. -/
def Inv (F : Fn) (t : Bool) (cur : List Scope) : Prop := Mono F cur ∧ Below t cur

theorem lexK_id {F : Fn} {c c' : Scope} (h : c'.id = c.id) (k : Kind) : lexK F c' k = lexK F c k := by
  cases k <;> simp [lexK, h]

theorem VF.nonlex {F : Fn} {t : Bool} {s : St} {cur : List Scope} (ht : Top F t cur) {c : Scope}
    (hc : c ∈ cur) {x : Nat} {k : Kind} (h : VF t s x k) : lexK F c k = false := by
  rcases h with ⟨h, _⟩ | ⟨h, h2⟩
  · subst h; rfl
  · subst h
    cases t with
    | true => exact ht.fnl rfl c hc
    | false => rw [FN_false] at h2; exact absurd h2 (List.not_mem_nil)

theorem Eff.ids {F : Fn} {t : Bool} {s : St} : ∀ {cur cur' : List Scope}, Eff F t s cur cur' →
    cur'.map (·.id) = cur.map (·.id)
  | [], _, h => h.elim
  | _ :: _, [], h => h.elim
  | c :: tl, c' :: tl', h => by
    have : ∀ {a b : List Scope}, Pair (TE t s) a b → b.map (·.id) = a.map (·.id) := by
      intro a
      induction a with
      | nil => intro b hb; cases b with
        | nil => rfl
        | cons => exact hb.elim
      | cons a as ih => intro b hb; cases b with
        | nil => exact hb.elim
        | cons b bs => simp only [List.map_cons]; rw [hb.1.id, ih hb.2]
    simp only [List.map_cons]
    rw [h.1.id, this h.2]

theorem Top.of_ids {F : Fn} {t : Bool} {cur cur' : List Scope} (h : Top F t cur)
    (hids : cur'.map (·.id) = cur.map (·.id)) : Top F t cur' := by
  have key : ∀ c ∈ cur', ∃ c1 ∈ cur, c1.id = c.id := by
    intro c hc
    have : c.id ∈ cur.map (·.id) := hids ▸ List.mem_map.2 ⟨c, hc, rfl⟩
    obtain ⟨c1, h1, h2⟩ := List.mem_map.1 this
    exact ⟨c1, h1, h2⟩
  refine ⟨?_, ?_⟩
  · cases cur with
    | nil => simp only [List.map_nil, List.map_eq_nil_iff] at hids; subst hids; simp
    | cons c tl =>
      cases cur' with
      | nil => simp
      | cons c' tl' =>
        intro c1 h1
        simp only [List.head?_cons, Option.mem_def, Option.some.injEq] at h1
        subst h1
        simp only [List.map_cons, List.cons.injEq] at hids
        rw [hids.1]
        exact h.iff c rfl
  · intro ht c hc
    obtain ⟨c1, h1, h2⟩ := key c hc
    rw [← lexK_id h2]
    exact h.fnl ht c1 h1

/-- Everything old stays, everything new is a variable or a lexical name. -/
theorem Eff.old {F : Fn} {t : Bool} {s : St} {c c' : Scope} {tl tl' : List Scope}
    (h : Eff F t s (c :: tl) (c' :: tl')) : ∀ d ∈ c :: tl, ∃ d' ∈ c' :: tl', d'.id = d.id ∧
      (∀ x k, look d x = some k → look d' x = some k) := by
  intro d hd
  rcases List.mem_cons.1 hd with hd | hd
  · subst hd; exact ⟨c', List.mem_cons_self, h.1.id, h.1.old⟩
  · obtain ⟨d', h1, h2⟩ := h.2.mem_left d hd
    exact ⟨d', List.mem_cons_of_mem _ h1, h2.id, h2.old⟩

theorem mono_step {F : Fn} {t : Bool} {s : St} : ∀ {tl tl' : List Scope}, Pair (TE t s) tl tl' →
    (∀ c ∈ tl, t = true → lexK F c .fn = false) →
    (∀ c ∈ tl, ∀ x k, isV t s x → look c x = some k → lexK F c k = false) →
    Mono F tl → Mono F tl'
  | [], [], _, _, _, _ => trivial
  | [], _ :: _, h, _, _, _ => h.elim
  | _ :: _, [], h, _, _, _ => h.elim
  | c :: tl, c' :: tl', h, hfn, hfree, hm => by
    refine ⟨?_, mono_step h.2 (fun d hd => hfn d (List.mem_cons_of_mem _ hd))
      (fun d hd => hfree d (List.mem_cons_of_mem _ hd)) hm.2⟩
    intro x k hx hk d' hd'
    obtain ⟨d, hd, hdd⟩ := h.2.mem_right d' hd'
    have hdm : d ∈ c :: tl := List.mem_cons_of_mem _ hd
    cases hc : look c x with
    | none =>
      have hv := (h.1.new x k hc hx).isV
      cases hk' : look d' x with
      | none => exact absurd hk' (hdd.has x hv)
      | some k' =>
        refine ⟨k', rfl, ?_⟩
        rw [lexK_id hdd.id]
        cases hlo : look d x with
        | none =>
          rcases hdd.new x k' hlo hk' with ⟨h1, _⟩ | ⟨h1, h2⟩
          · subst h1; rfl
          · subst h1
            cases t with
            | true => exact hfn d hdm rfl
            | false => rw [FN_false] at h2; exact absurd h2 (List.not_mem_nil)
        | some j =>
          rw [hdd.old x j hlo] at hk'
          cases hk'
          exact hfree d hdm x _ hv hlo
    | some i =>
      rw [h.1.old x i hc] at hx
      cases hx
      obtain ⟨j, hj, hjl⟩ := hm.1 x _ hc (by rw [lexK_id h.1.id] at hk; exact hk) d hd
      exact ⟨j, hdd.old x j hj, by rw [lexK_id hdd.id]; exact hjl⟩

theorem inv_step {F : Fn} {t : Bool} {s : St} : ∀ {cur cur' : List Scope}, Eff F t s cur cur' →
    OkAt F t s cur → Top F t cur → Inv F t cur → Inv F t cur'
  | [], _, h, _, _, _ => h.elim
  | _ :: _, [], h, _, _, _ => h.elim
  | c :: tl, c' :: tl', h, hok, ht, hi => by
    refine ⟨⟨?_, mono_step h.2 (fun d hd e => ht.fnl e d (List.mem_cons_of_mem _ hd))
      (fun d hd => hok.free d (List.mem_cons_of_mem _ hd)) hi.1.2⟩, ?_⟩
    · intro x k hx hk d' hd'
      obtain ⟨d, hd, hdd⟩ := h.2.mem_right d' hd'
      have hdm : d ∈ c :: tl := List.mem_cons_of_mem _ hd
      cases hc : look c x with
      | none =>
        rcases h.1.new x k hc hx with hv | ⟨_, h1⟩
        · cases hk' : look d' x with
          | none => exact absurd hk' (hdd.has x hv.isV)
          | some k' =>
            refine ⟨k', rfl, ?_⟩
            rw [lexK_id hdd.id]
            cases hlo : look d x with
            | none => exact (hdd.new x k' hlo hk').nonlex ht hdm
            | some j =>
              rw [hdd.old x j hlo] at hk'
              cases hk'
              exact hok.free d hdm x _ hv.isV hlo
        · rw [lexK_id h.1.id, h1] at hk; exact absurd hk (by simp)
      | some i =>
        rw [h.1.old x i hc] at hx
        cases hx
        obtain ⟨j, hj, hjl⟩ := hi.1.1 x _ hc (by rw [lexK_id h.1.id] at hk; exact hk) d hd
        exact ⟨j, hdd.old x j hj, by rw [lexK_id hdd.id]; exact hjl⟩
    · intro htt d' hd' x hx
      obtain ⟨d, hd, hdd⟩ := h.2.mem_right d' hd'
      cases hlo : look d x with
      | none => exact h.1.has x (Or.inl (hdd.new x _ hlo hx).isV)
      | some j =>
        have := hdd.old x j hlo
        rw [this] at hx
        cases hx
        have h1 := hi.2 htt d hd x hlo
        cases hc : look c x with
        | none => exact absurd hc h1
        | some i => rw [h.1.old x i hc]; simp

theorem isV_cons {t : Bool} {s r : St} {x : Nat} :
    isV t (.cons s r) x ↔ isV t s x ∨ isV t r x := by
  simp only [isV, VN, FN, List.mem_append]
  constructor
  · rintro ((h | h) | (h | h)) <;> simp [h]
  · rintro ((h | h) | (h | h)) <;> simp [h]

theorem VF_left {t : Bool} {s r : St} {x : Nat} {k : Kind} (h : VF t s x k) : VF t (.cons s r) x k := by
  rcases h with ⟨h1, h2⟩ | ⟨h1, h2⟩
  · exact Or.inl ⟨h1, by simp [VN, h2]⟩
  · exact Or.inr ⟨h1, by simp [FN, h2]⟩

theorem VF_right {t : Bool} {s r : St} {x : Nat} {k : Kind} (h : VF t r x k) : VF t (.cons s r) x k := by
  rcases h with ⟨h1, h2⟩ | ⟨h1, h2⟩
  · exact Or.inl ⟨h1, by simp [VN, h2]⟩
  · exact Or.inr ⟨h1, by simp [FN, h2]⟩

theorem TE.trans {t : Bool} {s r : St} {a b c : Scope} (h1 : TE t s a b) (h2 : TE t r b c) :
    TE t (.cons s r) a c := by
  refine ⟨h2.id.trans h1.id, fun x k h => h2.old x k (h1.old x k h), ?_, ?_⟩
  · intro x k ha hc
    cases hb : look b x with
    | none => exact VF_right (h2.new x k hb hc)
    | some j =>
      have := h2.old x j hb
      rw [this] at hc; cases hc
      exact VF_left (h1.new x _ ha hb)
  · intro x hx
    rcases isV_cons.1 hx with h | h
    · cases hb : look b x with
      | none => exact absurd hb (h1.has x h)
      | some j => rw [h2.old x j hb]; simp
    · exact h2.has x h

theorem HE.trans {F : Fn} {t : Bool} {s r : St} {a b c : Scope} (h1 : HE F t s a b)
    (h2 : HE F t r b c) : HE F t (.cons s r) a c := by
  refine ⟨h2.id.trans h1.id, fun x k h => h2.old x k (h1.old x k h), ?_, ?_⟩
  · intro x k ha hc
    cases hb : look b x with
    | none =>
      rcases h2.new x k hb hc with h | ⟨h, h'⟩
      · exact Or.inl (VF_right h)
      · exact Or.inr ⟨by simp [LN, h], by rw [← lexK_id h1.id]; exact h'⟩
    | some j =>
      have := h2.old x j hb
      rw [this] at hc; cases hc
      rcases h1.new x _ ha hb with h | ⟨h, h'⟩
      · exact Or.inl (VF_left h)
      · exact Or.inr ⟨by simp [LN, h], h'⟩
  · intro x hx
    have key : (isV t s x ∨ x ∈ LN t s) ∨ (isV t r x ∨ x ∈ LN t r) := by
      rcases hx with h | h
      · rcases isV_cons.1 h with h | h <;> simp [h]
      · simp only [LN, List.mem_append] at h
        rcases h with h | h <;> simp [h]
    rcases key with h | h
    · cases hb : look b x with
      | none => exact absurd hb (h1.has x h)
      | some j => rw [h2.old x j hb]; simp
    · exact h2.has x h

theorem eff_cons {F : Fn} {t : Bool} {s r : St} : ∀ {a b c : List Scope},
    Eff F t s a b → Eff F t r b c → Eff F t (.cons s r) a c
  | [], _, _, h, _ => h.elim
  | _ :: _, [], _, h, _ => h.elim
  | _ :: _, _ :: _, [], _, h => h.elim
  | _ :: _, _ :: _, _ :: _, h1, h2 => ⟨h1.1.trans h2.1,
    Pair.trans (R := TE t s) (S := TE t r) (fun _ _ _ a b => TE.trans a b) h1.2 h2.2⟩

theorem ok_cons {F : Fn} {t : Bool} {s r : St} : ∀ {cur cur' : List Scope}, Eff F t s cur cur' →
    Top F t cur → OkAt F t s cur → OkAt F t r cur' → OkAt F t (.cons s r) cur
  | [], _, h, _, _, _ => h.elim
  | _ :: _, [], h, _, _, _ => h.elim
  | c :: tl, c' :: tl', h, ht, h1, h2 => by
    have hold : ∀ x, x ∈ LN t s → ∃ k, look c' x = some k ∧ lexK F c' k = true := by
      intro x hx
      cases hk : look c' x with
      | none => exact absurd hk (h.1.has x (Or.inr hx))
      | some k =>
        refine ⟨k, rfl, ?_⟩
        rw [lexK_id h.1.id]
        rcases h.1.new x k (h1.fresh c rfl x hx) hk with h3 | h3
        · exact absurd h3.isV (h1.dj x hx)
        · exact h3.2
    refine ⟨?_, ?_, ?_, ?_⟩
    · simp only [LN, List.nodup_append]
      refine ⟨h1.nd, h2.nd, ?_⟩
      intro x hx y hy e
      subst e
      obtain ⟨k, hk, _⟩ := hold x hx
      rw [h2.fresh c' rfl x hy] at hk
      cases hk
    · intro x hx hv
      simp only [LN, List.mem_append] at hx
      rcases hx with hx | hx
      · rcases isV_cons.1 hv with hv | hv
        · exact h1.dj x hx hv
        · obtain ⟨k, hk, hl⟩ := hold x hx
          rw [h2.free c' List.mem_cons_self x k hv hk] at hl
          cases hl
      · rcases isV_cons.1 hv with hv | hv
        · exact h.1.has x (Or.inl hv) (h2.fresh c' rfl x hx)
        · exact h2.dj x hx hv
    · intro d hd x hx
      simp only [List.head?_cons, Option.mem_def, Option.some.injEq] at hd
      subst hd
      simp only [LN, List.mem_append] at hx
      rcases hx with hx | hx
      · exact h1.fresh c rfl x hx
      · cases hk : look c x with
        | none => rfl
        | some k =>
          have := h2.fresh c' rfl x hx
          rw [h.1.old x k hk] at this
          cases this
    · intro d hd x k hv hk
      rcases isV_cons.1 hv with hv | hv
      · exact h1.free d hd x k hv hk
      · obtain ⟨d', hd', hid, hold'⟩ := h.old d hd
        have := h2.free d' hd' x k hv (hold' x k hk)
        rw [lexK_id hid] at this
        exact this

theorem ok_left {F : Fn} {t : Bool} {s r : St} {cur : List Scope} (h : OkAt F t (.cons s r) cur) :
    OkAt F t s cur := by
  refine ⟨?_, ?_, ?_, ?_⟩
  · have := h.nd; simp only [LN, List.nodup_append] at this; exact this.1
  · intro x hx hv
    exact h.dj x (by simp [LN, hx]) (isV_cons.2 (Or.inl hv))
  · intro c hc x hx
    exact h.fresh c hc x (by simp [LN, hx])
  · intro c hc x k hv hk
    exact h.free c hc x k (isV_cons.2 (Or.inl hv)) hk

theorem ok_right {F : Fn} {t : Bool} {s r : St} : ∀ {cur cur' : List Scope}, Eff F t s cur cur' →
    Top F t cur → OkAt F t (.cons s r) cur → OkAt F t r cur'
  | [], _, h, _, _ => h.elim
  | _ :: _, [], h, _, _ => h.elim
  | c :: tl, c' :: tl', h, ht, ho => by
    refine ⟨?_, ?_, ?_, ?_⟩
    · have := ho.nd; simp only [LN, List.nodup_append] at this; exact this.2.1
    · intro x hx hv
      exact ho.dj x (by simp [LN, hx]) (isV_cons.2 (Or.inr hv))
    · intro d hd x hx
      simp only [List.head?_cons, Option.mem_def, Option.some.injEq] at hd
      subst hd
      cases hk : look c' x with
      | none => rfl
      | some k =>
        have hc := ho.fresh c rfl x (by simp [LN, hx])
        rcases h.1.new x k hc hk with h1 | ⟨h1, _⟩
        · exact absurd (isV_cons.2 (Or.inl h1.isV)) (ho.dj x (by simp [LN, hx]))
        · have := ho.nd
          simp only [LN, List.nodup_append] at this
          exact absurd rfl (this.2.2 x h1 x hx)
    · intro d' hd' x k hv hk
      have hvc : isV t (.cons s r) x := isV_cons.2 (Or.inr hv)
      rcases List.mem_cons.1 hd' with e | e
      · subst e
        rw [lexK_id h.1.id]
        cases hc : look c x with
        | none =>
          rcases h.1.new x k hc hk with h1 | ⟨h1, _⟩
          · exact h1.nonlex ht List.mem_cons_self
          · exact absurd hvc (ho.dj x (by simp [LN, h1]))
        | some j =>
          rw [h.1.old x j hc] at hk
          cases hk
          exact ho.free c List.mem_cons_self x _ hvc hc
      · obtain ⟨d, hd, hdd⟩ := h.2.mem_right d' e
        have hdm : d ∈ c :: tl := List.mem_cons_of_mem _ hd
        rw [lexK_id hdd.id]
        cases hc : look d x with
        | none => exact (hdd.new x k hc hk).nonlex ht hdm
        | some j =>
          rw [hdd.old x j hc] at hk
          cases hk
          exact ho.free d hdm x _ hvc hc

/-- No function of the name of an inner `var` is noted. -/
def NoFn (t : Bool) (s : St) (cur : List Scope) : Prop :=
  ∀ x ∈ (if t then NV s else VN s), ∀ c ∈ cur, look c x ≠ some .fn

theorem nofn_left {t : Bool} {s r : St} {cur : List Scope} (h : NoFn t (.cons s r) cur) :
    NoFn t s cur := by
  intro x hx
  apply h x
  cases t <;> simp_all [NV, VN]

theorem nofn_right {F : Fn} {t : Bool} {s r : St} : ∀ {cur cur' : List Scope}, Eff F t s cur cur' →
    OkAt F t (.cons s r) cur → NoFnThenVar t (.cons s r) → NoFn t (.cons s r) cur → NoFn t r cur'
  | [], _, h, _, _, _ => h.elim
  | _ :: _, [], h, _, _, _ => h.elim
  | c :: tl, c' :: tl', h, ho, hf, hn => by
    intro x hx d' hd' hk
    have hx' : x ∈ (if t then NV (.cons s r) else VN (.cons s r)) := by
      cases t <;> simp_all [NV, VN]
    have hvr : x ∈ FN t s → False := by
      intro hm
      cases t with
      | true => exact hf.2.2 x hm (by simpa using hx)
      | false => rw [FN_false] at hm; exact absurd hm (List.not_mem_nil)
    have hvn : x ∈ VN r := by
      cases t with
      | false => simpa using hx
      | true =>
        have : ∀ s : St, ∀ x ∈ NV s, x ∈ VN s := by
          intro s
          induction s <;> simp_all [NV, VN]
          rename_i ih1 ih2
          intro x hx
          rcases hx with hx | hx
          · exact Or.inl (ih1 x hx)
          · exact Or.inr (ih2 x hx)
        exact this r x (by simpa using hx)
    rcases List.mem_cons.1 hd' with e | e
    · subst e
      cases hc : look c x with
      | none =>
        rcases h.1.new x _ hc hk with h1 | ⟨h1, h2⟩
        · rcases h1 with h1 | h1
          · exact absurd h1.1 (by simp)
          · exact hvr h1.2
        · exact ho.dj x (by simp [LN, h1]) (isV_cons.2 (Or.inr (Or.inl hvn)))
      | some j =>
        rw [h.1.old x j hc] at hk
        cases hk
        exact hn x hx' c List.mem_cons_self hc
    · obtain ⟨d, hd, hdd⟩ := h.2.mem_right d' e
      cases hc : look d x with
      | none =>
        rcases hdd.new x _ hc hk with h1 | h1
        · exact absurd h1.1 (by simp)
        · exact hvr h1.2
      | some j =>
        rw [hdd.old x j hc] at hk
        cases hk
        exact hn x hx' d (List.mem_cons_of_mem _ hd) hc

end Verif.Decls

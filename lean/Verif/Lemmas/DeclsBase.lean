import Verif.Spec.Decls

/- Items, lookups and `decl_item_add` on a well-formed stack. -/

namespace Verif.Decls

theorem look_nil (d x : Nat) : look ⟨d, []⟩ x = none := rfl

theorem look_add (c : Scope) (x y : Nat) (k : Kind) :
    look (c.add x k) y = (look c y).or (if x = y then some k else none) := by
  unfold look Scope.add
  simp only [List.find?_append, Option.map_or]
  congr 1
  by_cases h : x = y <;> simp [h]

theorem look_add_self {c : Scope} {x : Nat} (k : Kind) (h : look c x = none) :
    look (c.add x k) x = some k := by simp [look_add, h]

theorem look_add_ne (c : Scope) {x y : Nat} (k : Kind) (h : x ≠ y) :
    look (c.add x k) y = look c y := by simp [look_add, h]

theorem look_none_iff {c : Scope} {x : Nat} : look c x = none ↔ x ∉ c.items.map (·.1) := by
  unfold look
  simp only [Option.map_eq_none_iff, List.find?_eq_none, List.mem_map, not_exists, beq_iff_eq,
    not_and]

theorem look_some_mem {c : Scope} {x : Nat} {k : Kind} (h : look c x = some k) :
    (x, k) ∈ c.items := by
  unfold look at h
  obtain ⟨a, ha, hk⟩ := Option.map_eq_some_iff.1 h
  have h1 := List.mem_of_find?_eq_some ha
  have h2 := List.find?_some ha
  simp only [beq_iff_eq] at h2
  subst h2; subst hk
  exact h1

/-- Each name has one item. -/
def Scope.Uniq (c : Scope) : Prop := (c.items.map (·.1)).Nodup

theorem uniq_nil (d : Nat) : Scope.Uniq ⟨d, []⟩ := List.nodup_nil

theorem Scope.Uniq.add {c : Scope} {x : Nat} {k : Kind} (h : c.Uniq) (hx : look c x = none) :
    (c.add x k).Uniq := by
  unfold Scope.Uniq Scope.add
  rw [look_none_iff] at hx
  simp only [List.map_append, List.map_cons, List.map_nil, List.nodup_append]
  refine ⟨h, by simp, ?_⟩
  intro a ha b hb hab
  simp only [List.mem_cons, List.not_mem_nil, or_false] at hb
  exact hx (hb ▸ hab ▸ ha)

private theorem find_of_nodup : ∀ (l : List (Nat × Kind)) (x : Nat) (k : Kind),
    (l.map (·.1)).Nodup → (x, k) ∈ l → l.find? (fun p => p.1 == x) = some (x, k)
  | [], _, _, _, h => absurd h (List.not_mem_nil)
  | (y, j) :: l, x, k, hn, h => by
    simp only [List.map_cons, List.nodup_cons] at hn
    rcases List.mem_cons.1 h with h | h
    · cases h; simp
    · have hne : y ≠ x := by
        intro e; subst e
        exact hn.1 (List.mem_map.2 ⟨(y, k), h, rfl⟩)
      rw [List.find?_cons_of_neg (by simpa using hne)]
      exact find_of_nodup l x k hn.2 h

theorem look_of_mem {c : Scope} {x : Nat} {k : Kind} (hu : c.Uniq) (h : (x, k) ∈ c.items) :
    look c x = some k := by
  unfold look
  rw [find_of_nodup c.items x k hu h]
  rfl

theorem mem_names {c : Scope} (hu : c.Uniq) (p : Kind → Bool) (x : Nat) :
    x ∈ names p c ↔ ∃ k, look c x = some k ∧ p k = true := by
  unfold names
  simp only [List.mem_map, List.mem_filter]
  constructor
  · rintro ⟨⟨y, k⟩, ⟨h1, h2⟩, rfl⟩
    exact ⟨k, look_of_mem hu h1, h2⟩
  · rintro ⟨k, h1, h2⟩
    exact ⟨(x, k), ⟨look_some_mem h1, h2⟩, rfl⟩

theorem nodup_names {c : Scope} (hu : c.Uniq) (p : Kind → Bool) : (names p c).Nodup := by
  unfold names
  exact List.Nodup.sublist (List.Sublist.map _ List.filter_sublist) hu

/-- Whether an item of a kind is lexical, seen from anywhere in the function. -/
def lexK (F : Fn) (c : Scope) : Kind → Bool
  | .lex => true
  | .var => false
  | .param => false
  | .fn => F.mod || (F.l != c.id && F.v != c.id)

theorem walkOne_id (x : Nat) (k : Kind) (c : Scope) : (walkOne x k c).1.id = c.id := by
  unfold walkOne; split <;> rfl

theorem walkOne_uniq (x : Nat) (k : Kind) {c : Scope} (h : c.Uniq) : (walkOne x k c).1.Uniq := by
  unfold walkOne; split
  · exact h
  · next hn => exact h.add hn

/-- The stack of a function: `cur` are its own declarations, `rest` those below. -/
structure Good (F : Fn) (cur rest : List Scope) (n : Nat) : Prop where
  lt : ∀ c ∈ cur ++ rest, c.id < n
  nd : (cur.map (·.id)).Nodup
  last : ∃ pre, cur.map (·.id) = pre ++ [F.v]
  mem : F.l ∈ cur.map (·.id)
  uq : ∀ c ∈ cur, c.Uniq

theorem Good.of_ids {F : Fn} {cur cur' rest : List Scope} {n n' : Nat} (h : Good F cur rest n)
    (hids : cur'.map (·.id) = cur.map (·.id)) (hn : n ≤ n') (hu : ∀ c ∈ cur', c.Uniq) :
    Good F cur' rest n' := by
  refine ⟨?_, hids ▸ h.nd, hids ▸ h.last, hids ▸ h.mem, hu⟩
  intro c hc
  rcases List.mem_append.1 hc with hc | hc
  · have : c.id ∈ cur.map (·.id) := hids ▸ List.mem_map.2 ⟨c, hc, rfl⟩
    obtain ⟨c', h1, h2⟩ := List.mem_map.1 this
    have h3 := h.lt c' (List.mem_append_left _ h1)
    have h4 : c'.id = c.id := h2
    omega
  · have := h.lt c (List.mem_append_right _ hc)
    omega

theorem Good.push {F : Fn} {cur rest : List Scope} {n : Nat} (h : Good F cur rest n) :
    Good F (⟨n, []⟩ :: cur) rest (n + 1) := by
  refine ⟨?_, ?_, ?_, ?_, ?_⟩
  · intro c hc
    rcases List.mem_cons.1 hc with hc | hc
    · subst hc; exact Nat.lt_succ_self _
    · exact Nat.lt_succ_of_lt (h.lt c hc)
  · simp only [List.map_cons, List.nodup_cons]
    refine ⟨?_, h.nd⟩
    intro hm
    obtain ⟨c, h1, h2⟩ := List.mem_map.1 hm
    have := h.lt c (List.mem_append_left _ h1)
    have h3 : c.id = n := h2
    omega
  · obtain ⟨pre, hp⟩ := h.last
    exact ⟨n :: pre, by simp [hp]⟩
  · exact List.mem_cons_of_mem _ h.mem
  · intro c hc
    rcases List.mem_cons.1 hc with hc | hc
    · subst hc; exact uniq_nil _
    · exact h.uq c hc

theorem Good.ne_nil {F : Fn} {cur rest : List Scope} {n : Nat} (h : Good F cur rest n) : cur ≠ [] := by
  intro e; subst e
  obtain ⟨pre, hp⟩ := h.last
  simp at hp

/-- At the top of the stack the two ways of asking agree. -/
theorem Good.isLex_eq {F : Fn} {c : Scope} {tl rest : List Scope} {n : Nat}
    (h : Good F (c :: tl) rest n) (k : Kind) : isLex F c k = lexK F c k := by
  cases k <;> try rfl
  simp only [isLex, lexK]
  by_cases hl : F.l = c.id
  · simp [hl]
  · by_cases hv : F.v = c.id
    · exfalso
      obtain ⟨pre, hp⟩ := h.last
      have hnd := h.nd
      rw [hp] at hnd
      have hc : tl.map (·.id) = [] := by
        cases pre with
        | nil => simp at hp; simp [hp.2]
        | cons a pre =>
          simp only [List.map_cons, List.cons_append, List.cons.injEq] at hp
          simp only [List.cons_append, List.nodup_cons] at hnd
          exact absurd (by rw [← hp.1, ← hv]; simp) hnd.1
      have hm := h.mem
      rw [List.map_cons, hc] at hm
      exact hl (List.mem_singleton.1 hm)
    · have h1 : (F.l != c.id) = true := bne_iff_ne.2 hl
      have h2 : (F.v != c.id) = true := bne_iff_ne.2 hv
      rw [h1, h2]; rfl

/-- The walk goes over all of the function's declarations. -/
theorem walk_all (v x : Nat) (k : Kind) (rest : List Scope) : ∀ (tl : List Scope) (pre : List Nat),
    tl.map (·.id) = pre ++ [v] → (tl.map (·.id)).Nodup →
    walk v x k (tl ++ rest)
      = some (tl.map (fun c => (walkOne x k c).1) ++ rest, tl.any fun c => (walkOne x k c).2)
  | [], pre, h, _ => by simp at h
  | c :: tl, [], h, _ => by
    simp only [List.map_cons, List.nil_append, List.cons.injEq, List.map_eq_nil_iff] at h
    obtain ⟨h1, h2⟩ := h
    subst h2
    simp [walk, h1]
  | c :: tl, a :: pre, h, hnd => by
    simp only [List.map_cons, List.cons_append, List.cons.injEq] at h
    simp only [List.map_cons, List.nodup_cons] at hnd
    have hne : c.id ≠ v := by
      intro e
      apply hnd.1
      rw [h.2, e]; simp
    simp only [List.cons_append, walk, if_neg hne]
    rw [walk_all v x k rest tl pre h.2 hnd.2]
    simp

/-- Adding a lexical item. -/
theorem add_lex {ps : Bool} {F : Fn} {k : Kind} {x : Nat} {st : PS} {c : Scope} {r : List Scope}
    (hs : st.stack = c :: r) (hk : isLex F c k = true) :
    add ps F k x st = some (if look c x = none then { st with stack := c.add x k :: r }
      else flag true st) := by
  have hkp : k ≠ .param := by intro e; subst e; simp [isLex] at hk
  unfold add addItem
  rw [hs]
  simp only
  cases hl : look c x with
  | none => simp [refDecl, hk]
  | some k0 => simp [canDup, hkp, hk]

/-- Adding a variable or function item that belongs to the function. -/
theorem add_var {ps : Bool} {F : Fn} {k : Kind} {x : Nat} {st : PS} {c : Scope} {tl rest : List Scope}
    {n : Nat} (hs : st.stack = c :: tl ++ rest) (hg : Good F (c :: tl) rest n)
    (hk : isLex F c k = false) (hkp : k ≠ .param) :
    add ps F k x st = some (match look c x with
      | some k0 => flag (isLex F c k0) st
      | none => flag (tl.any fun c => (walkOne x k c).2)
          { st with stack := c.add x k :: tl.map (fun c => (walkOne x k c).1) ++ rest }) := by
  unfold add addItem
  rw [hs]
  simp only [List.cons_append]
  cases hl : look c x with
  | some k0 => simp [canDup, hkp, hk]
  | none =>
    simp only [refDecl, hk, hkp, Bool.false_eq_true, or_self, ↓reduceIte]
    obtain ⟨pre, hp⟩ := hg.last
    cases pre with
    | nil =>
      simp only [List.map_cons, List.nil_append, List.cons.injEq, List.map_eq_nil_iff] at hp
      obtain ⟨h1, h2⟩ := hp
      subst h2
      simp [h1, flag]
    | cons a pre =>
      have hnd := hg.nd
      simp only [List.map_cons, List.cons_append, List.cons.injEq] at hp
      simp only [List.map_cons, List.nodup_cons] at hnd
      have hne : F.v ≠ c.id := by
        intro e
        apply hnd.1
        rw [hp.2, e]; simp
      rw [if_neg hne, walk_all F.v x k rest tl pre hp.2 hnd.2]
      rfl

/-- A declaration of the function is found by its address. -/
theorem find_cur {st : PS} {cur rest : List Scope} (hs : st.stack = cur ++ rest)
    (hnd : (cur.map (·.id)).Nodup) {c : Scope} (hc : c ∈ cur) : find st c.id = c := by
  unfold find
  rw [hs, List.append_assoc, List.find?_append]
  have : cur.find? (fun d => d.id == c.id) = some c := by
    clear hs
    induction cur with
    | nil => exact absurd hc (List.not_mem_nil)
    | cons a cur ih =>
      simp only [List.map_cons, List.nodup_cons] at hnd
      rcases List.mem_cons.1 hc with h | h
      · subst h; simp
      · have hne : a.id ≠ c.id := by
          intro e
          exact hnd.1 (e ▸ List.mem_map.2 ⟨c, h, rfl⟩)
        rw [List.find?_cons_of_neg (by simpa using hne)]
        exact ih hnd.2 h
  rw [this]
  rfl

end Verif.Decls

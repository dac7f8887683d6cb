import Verif.Spec.Private

/-! Helper lemmas for C80. -/
namespace Verif.Priv
open Obj (Val)
open Spec (Name Elem)

/-! ## Tables -/

theorem lookup_append (t : Table) (k k' : Key) (n : Node) :
    find (append t k n) k' = (find t k').or (if k' = k then some n else none) := by
  unfold find append
  induction t with
  | nil =>
    simp only [List.nil_append, List.lookup_cons, List.lookup_nil]
    by_cases h : k' = k
    · subst h; simp
    · have hb : (k' == k) = false := by simpa using h
      rw [if_neg h, hb]; rfl
  | cons e t ih =>
    obtain ⟨ke, ne⟩ := e
    simp only [List.cons_append, List.lookup_cons]
    by_cases h : k' = ke
    · subst h; simp
    · have hb : (k' == ke) = false := by simpa using h
      rw [hb]
      exact ih

theorem lookup_replace (t : Table) (k k' : Key) (n : Node) :
    find (replace t k n) k' = if k' = k then (find t k').map (fun _ => n) else find t k' := by
  unfold find replace
  induction t with
  | nil => simp
  | cons e t ih =>
    obtain ⟨ke, ne⟩ := e
    simp only [List.map_cons, List.lookup_cons]
    by_cases h : ke = k
    · subst h
      rw [if_pos rfl]
      simp only [List.lookup_cons]
      by_cases h' : k' = ke
      · subst h'; simp
      · have hb : (k' == ke) = false := by simpa using h'
        rw [hb, if_neg h']
        simp only
        rw [ih, if_neg h']
    · rw [if_neg h]
      simp only [List.lookup_cons]
      by_cases h' : k' = ke
      · subst h'
        rw [if_neg h]; simp
      · have hb : (k' == ke) = false := by simpa using h'
        rw [hb]
        simp only
        exact ih

theorem lookup_remove (t : Table) (k k' : Key) :
    find (remove t k) k' = if k' = k then none else find t k' := by
  unfold find remove
  induction t with
  | nil => simp
  | cons e t ih =>
    obtain ⟨ke, ne⟩ := e
    by_cases h : ke = k
    · subst h
      rw [List.filter_cons_of_neg (by simp), ih, List.lookup_cons]
      by_cases h' : k' = ke
      · simp [h']
      · have hb : (k' == ke) = false := by simpa using h'
        rw [hb]
    · rw [List.filter_cons_of_pos (by simpa using h), List.lookup_cons, List.lookup_cons]
      by_cases h' : k' = ke
      · subst h'; simp [h]
      · have hb : (k' == ke) = false := by simpa using h'
        rw [hb]
        exact ih

theorem mem_of_find {t : Table} {k : Key} {n : Node} (h : find t k = some n) : (k, n) ∈ t := by
  unfold find at h
  induction t with
  | nil => simp at h
  | cons e t ih =>
    obtain ⟨ke, ne⟩ := e
    rw [List.lookup_cons] at h
    by_cases h' : k = ke
    · subst h'
      simp at h
      subst h
      exact List.mem_cons_self
    · have hb : (k == ke) = false := by simpa using h'
      rw [hb] at h
      exact List.mem_cons_of_mem _ (ih h)

/-! ## The ordinary part of a table -/

/-- What an entry is for the ordinary operations. -/
def pub (e : Key × Node) : Option ((Bool × Nat) × Val) :=
  match e.1 with
  | .str n => some ((false, n), e.2.value)
  | .sym n => some ((true, n), e.2.value)
  | .priv _ => none

theorem pub_append_priv (t : Table) (p : Nat) (n : Node) :
    (append t (.priv p) n).filterMap pub = t.filterMap pub := by
  unfold append
  rw [List.filterMap_append]
  simp [pub]

theorem pub_replace_priv (t : Table) (p : Nat) (n : Node) :
    (replace t (.priv p) n).filterMap pub = t.filterMap pub := by
  unfold replace
  induction t with
  | nil => rfl
  | cons e t ih =>
    rw [List.map_cons, List.filterMap_cons, List.filterMap_cons, ih]
    by_cases h : e.1 = .priv p
    · rw [if_pos h]
      have : pub e = none := by unfold pub; rw [h]
      rw [this]
      rfl
    · rw [if_neg h]

theorem pub_propKey (e : Key × Node) (sym : Bool) (n : Nat) :
    (pub e).map (·.1) = some (sym, n) ↔ e.1 = propKey sym n := by
  obtain ⟨k, x⟩ := e
  unfold pub propKey
  cases k <;> cases sym <;> simp

theorem pub_of_key (sym : Bool) (n : Nat) (x : Node) : pub (propKey sym n, x) = some ((sym, n), x.value) := by
  unfold pub propKey
  cases sym <;> rfl

theorem find_pub (t : Table) (sym : Bool) (n : Nat) :
    (find t (propKey sym n)).map (·.value) = (t.filterMap pub).lookup (sym, n) := by
  unfold find
  induction t with
  | nil => rfl
  | cons e t ih =>
    obtain ⟨k, x⟩ := e
    rw [List.lookup_cons, List.filterMap_cons]
    by_cases h : propKey sym n = k
    · subst h
      rw [pub_of_key]
      simp
    · have hb : (propKey sym n == k) = false := by simpa using h
      rw [hb]
      simp only
      rw [ih]
      have hne : ¬ (pub (k, x)).map (·.1) = some (sym, n) := by
        rw [pub_propKey]; exact fun h' => h h'.symm
      cases hp : pub (k, x) with
      | none => rfl
      | some y =>
        rw [hp] at hne
        simp only
        rw [List.lookup_cons]
        have : ((sym, n) == y.1) = false := by
          apply Bool.eq_false_iff.2
          intro h'
          have := eq_of_beq h'
          exact hne (by simp [this])
        rw [this]

theorem pub_append_prop (t : Table) (sym : Bool) (n : Nat) (x : Node) :
    (append t (propKey sym n) x).filterMap pub = t.filterMap pub ++ [((sym, n), x.value)] := by
  unfold append
  rw [List.filterMap_append]
  simp [pub_of_key]

theorem pub_replace_prop (t : Table) (sym : Bool) (n : Nat) (x : Node) :
    (replace t (propKey sym n) x).filterMap pub =
      (t.filterMap pub).map fun e => if e.1 = (sym, n) then (e.1, x.value) else e := by
  unfold replace
  induction t with
  | nil => rfl
  | cons e t ih =>
    rw [List.map_cons, List.filterMap_cons, List.filterMap_cons, ih]
    by_cases h : e.1 = propKey sym n
    · rw [if_pos h]
      have : pub e = some ((sym, n), e.2.value) := by
        have := pub_of_key sym n e.2
        rw [← h] at this
        exact this
      rw [this, pub_of_key]
      simp
    · rw [if_neg h]
      have hne := mt (pub_propKey e sym n).1 h
      cases hp : pub e with
      | none => rfl
      | some y =>
        rw [hp] at hne
        simp only [Option.map_some, Option.some.injEq] at hne
        simp [hne]

theorem pub_remove_prop (t : Table) (sym : Bool) (n : Nat) :
    (remove t (propKey sym n)).filterMap pub = (t.filterMap pub).filter fun e => e.1 ≠ (sym, n) := by
  unfold remove
  induction t with
  | nil => rfl
  | cons e t ih =>
    by_cases h : e.1 = propKey sym n
    · rw [List.filter_cons_of_neg (by simp [h]), List.filterMap_cons, ih]
      have : pub e = some ((sym, n), e.2.value) := by
        have := pub_of_key sym n e.2
        rw [← h] at this
        exact this
      rw [this]
      simp only
      rw [List.filter_cons_of_neg (by simp)]
    · rw [List.filter_cons_of_pos (by simpa using h), List.filterMap_cons, List.filterMap_cons, ih]
      have hne := mt (pub_propKey e sym n).1 h
      cases hp : pub e with
      | none => rfl
      | some y =>
        rw [hp] at hne
        simp only [Option.map_some, Option.some.injEq] at hne
        simp only
        rw [List.filter_cons_of_pos (by simpa using hne)]

theorem ownKeys_pub (t : Table) :
    ownKeys t = (((t.filterMap pub).map (·.1)).filter fun k => !k.1) ++
      (((t.filterMap pub).map (·.1)).filter fun k => k.1) := by
  unfold ownKeys
  congr 1
  · induction t with
    | nil => rfl
    | cons e t ih =>
      obtain ⟨k, x⟩ := e
      rw [List.filterMap_cons, List.filterMap_cons]
      cases k with
      | str n => simp only [pub, List.map_cons]; rw [List.filter_cons_of_pos (by rfl), ih]
      | sym n => simp only [pub, List.map_cons]; rw [List.filter_cons_of_neg (by simp), ih]
      | priv n => simp only [pub]; rw [ih]
  · induction t with
    | nil => rfl
    | cons e t ih =>
      obtain ⟨k, x⟩ := e
      rw [List.filterMap_cons, List.filterMap_cons]
      cases k with
      | sym n => simp only [pub, List.map_cons]; rw [List.filter_cons_of_pos (by rfl), ih]
      | str n => simp only [pub, List.map_cons]; rw [List.filter_cons_of_neg (by simp), ih]
      | priv n => simp only [pub]; rw [ih]

/-! ## The relation -/

/-- `undefined` for a half that is not there. -/
def half (f : Option Val) (v : Val) : Prop := match f with
  | none => v = .undef
  | some w => w = v ∧ v ≠ .undef

def NodeRel (n : Node) : Elem → Prop
  | .field v => n.accessor = false ∧ n.method = false ∧ n.value = v
  | .method v => n.accessor = false ∧ n.method = true ∧ n.value = v
  | .accessor g f => n.accessor = true ∧ n.method = false ∧ half g n.get ∧ half f n.set

def OptRel : Option Node → Option Elem → Prop
  | none, none => True
  | some n, some x => NodeRel n x
  | _, _ => False

def EnvRel (R : Nat → Name → Prop) (e : Env) (a : List (Nat × List Nat)) : Prop :=
  ∀ i, match lookup i e, Spec.resolve i a with
    | some p, some n => R p n
    | none, none => True
    | _, _ => False

structure Rel (R : Nat → Name → Prop) (s : St) (a : Spec.St) : Prop where
  bound : ∀ p n, R p n → p < s.next ∧ n.1 < a.envs.length
  fn : ∀ p n n', R p n → R p n' → n = n'
  inj : ∀ p p' n, R p n → R p' n → p = p'
  len : s.envs.length = a.envs.length
  envs : ∀ k, EnvRel R (s.envs.getD k []) (a.envs.getD k [])
  keys : ∀ o p x, (Key.priv p, x) ∈ s.objs o → p < s.next
  elems : ∀ o p n, R p n → OptRel (find (s.objs o) (.priv p)) (a.elems o n)
  old : ∀ o (n : Name), a.elems o n ≠ none → n.1 < a.envs.length
  props : ∀ o, (s.objs o).filterMap pub = a.props o

theorem init_rel : Rel (fun _ _ => False) init Spec.init where
  bound := fun _ _ h => h.elim
  fn := fun _ _ _ h => h.elim
  inj := fun _ _ _ h => h.elim
  len := rfl
  envs := by intro k i; simp [init, Spec.init, lookup, Spec.resolve]
  keys := by intro o p x h; simp [init] at h
  elems := fun _ _ _ h => h.elim
  old := by intro o n h; exact absurd rfl h
  props := fun _ => rfl

/-! ## New names -/

structure Names (lo next : Nat) (l : List (Nat × Nat)) : Prop where
  range : ∀ i p, (i, p) ∈ l → lo ≤ p ∧ p < next
  fst : ∀ i p p', (i, p) ∈ l → (i, p') ∈ l → p = p'
  snd : ∀ i i' p, (i, p) ∈ l → (i', p) ∈ l → i = i'

theorem mem_of_lookup {l : List (Nat × Nat)} {i p : Nat} (h : l.lookup i = some p) : (i, p) ∈ l := by
  induction l with
  | nil => simp at h
  | cons e l ih =>
    obtain ⟨k, v⟩ := e
    rw [List.lookup_cons] at h
    by_cases h' : i = k
    · subst h'; simp at h; subst h; exact List.mem_cons_self
    · have hb : (i == k) = false := by simpa using h'
      rw [hb] at h
      exact List.mem_cons_of_mem _ (ih h)

theorem lookup_none {l : List (Nat × Nat)} {i : Nat} : l.lookup i = none ↔ ∀ p, (i, p) ∉ l := by
  induction l with
  | nil => simp
  | cons e l ih =>
    obtain ⟨k, v⟩ := e
    rw [List.lookup_cons]
    by_cases h' : i = k
    · subst h'
      simp only [beq_self_eq_true]
      constructor
      · intro h; cases h
      · intro h; exact absurd List.mem_cons_self (h v)
    · have hb : (i == k) = false := by simpa using h'
      rw [hb]
      simp only
      rw [ih]
      simp [h']

theorem addNames_spec (lo : Nat) (ids : List Nat) : ∀ next l, lo ≤ next → Names lo next l →
    next ≤ (addNames next l ids).1 ∧ Names lo (addNames next l ids).1 (addNames next l ids).2 ∧
    ∀ i, ((∃ p, (i, p) ∈ (addNames next l ids).2) ↔ (∃ p, (i, p) ∈ l) ∨ i ∈ ids) := by
  induction ids with
  | nil => intro next l _ h; exact ⟨Nat.le_refl _, h, fun i => by simp [addNames]⟩
  | cons j ids ih =>
    intro next l hlo h
    unfold addNames
    cases hl : l.lookup j with
    | some p =>
      simp only
      obtain ⟨h1, h2, h3⟩ := ih next l hlo h
      refine ⟨h1, h2, fun i => ?_⟩
      rw [h3]
      constructor
      · rintro (h | h)
        · exact Or.inl h
        · exact Or.inr (List.mem_cons_of_mem _ h)
      · rintro (h | h)
        · exact Or.inl h
        · rcases List.mem_cons.1 h with rfl | h
          · exact Or.inl ⟨p, mem_of_lookup hl⟩
          · exact Or.inr h
    | none =>
      simp only
      have hn := lookup_none.1 hl
      have hN : Names lo (next + 1) (l ++ [(j, next)]) := by
        refine ⟨fun i p hm => ?_, fun i p p' hm hm' => ?_, fun i i' p hm hm' => ?_⟩
        · rcases List.mem_append.1 hm with hm | hm
          · have := h.range i p hm; omega
          · simp at hm; omega
        · rcases List.mem_append.1 hm with hm | hm <;> rcases List.mem_append.1 hm' with hm' | hm'
          · exact h.fst i p p' hm hm'
          · simp at hm'; rw [hm'.1] at hm; exact absurd hm (hn p)
          · simp at hm; rw [hm.1] at hm'; exact absurd hm' (hn p')
          · simp at hm hm'; omega
        · rcases List.mem_append.1 hm with hm | hm <;> rcases List.mem_append.1 hm' with hm' | hm'
          · exact h.snd i i' p hm hm'
          · simp at hm'; have := h.range i p hm; omega
          · simp at hm; have := h.range i' p hm'; omega
          · simp at hm hm'; omega
      obtain ⟨h1, h2, h3⟩ := ih (next + 1) _ (by omega) hN
      refine ⟨by omega, h2, fun i => ?_⟩
      rw [h3]
      constructor
      · rintro (⟨p, h⟩ | h)
        · rcases List.mem_append.1 h with h | h
          · exact Or.inl ⟨p, h⟩
          · simp at h; exact Or.inr (by rw [h.1]; exact List.mem_cons_self)
        · exact Or.inr (List.mem_cons_of_mem _ h)
      · rintro (⟨p, h⟩ | h)
        · exact Or.inl ⟨p, List.mem_append_left _ h⟩
        · rcases List.mem_cons.1 h with rfl | h
          · exact Or.inl ⟨next, List.mem_append_right _ List.mem_cons_self⟩
          · exact Or.inr h

theorem getD_snoc {α : Type} (l : List α) (x d : α) (k : Nat) :
    (l ++ [x]).getD k d = if k = l.length then x else l.getD k d := by
  rcases Nat.lt_trichotomy k l.length with h | h | h
  · rw [if_neg (by omega)]
    simp [List.getD_eq_getElem?_getD, List.getElem?_append_left h]
  · subst h; simp [List.getD_eq_getElem?_getD]
  · rw [if_neg (by omega)]
    simp only [List.getD_eq_getElem?_getD]
    rw [List.getElem?_eq_none (by simp; omega), List.getElem?_eq_none (by omega)]

theorem newEnv_rel {R : Nat → Name → Prop} {s : St} {a : Spec.St} (h : Rel R s a)
    (outer : Option Nat) (ids : List Nat) :
    ∃ R', Rel R' (step s (.newEnv outer ids)).1 (Spec.step a (.newEnv outer ids)).1 := by
  have hN0 : Names s.next s.next [] := ⟨by simp, by simp, by simp⟩
  obtain ⟨hle, hN, hids⟩ := addNames_spec s.next ids s.next [] (Nat.le_refl _) hN0
  unfold step Spec.step
  simp only
  generalize addNames s.next [] ids = x at hle hN hids
  obtain ⟨next, names⟩ := x
  simp only at hle hN hids
  simp only
  let R' : Nat → Name → Prop := fun p n => R p n ∨ (n.1 = a.envs.length ∧ (n.2, p) ∈ names)
  have hmono : ∀ e b, EnvRel R e b → EnvRel R' e b := by
    intro e b he i
    have := he i
    cases h1 : lookup i e <;> cases h2 : Spec.resolve i b <;> rw [h1, h2] at this <;> simp only at this ⊢
    exact Or.inl this
  refine ⟨R', ?_⟩
  refine { bound := ?_, fn := ?_, inj := ?_, len := ?_, envs := ?_, keys := ?_, elems := ?_, old := ?_, props := h.props }
  · intro p n hr
    simp only [List.length_append, List.length_singleton]
    rcases hr with hr | ⟨h1, h2⟩
    · have := h.bound p n hr; omega
    · have := hN.range _ _ h2; omega
  · intro p n n' hr hr'
    rcases hr with hr | ⟨h1, h2⟩ <;> rcases hr' with hr' | ⟨h1', h2'⟩
    · exact h.fn p n n' hr hr'
    · have := h.bound p n hr; have := hN.range _ _ h2'; omega
    · have := h.bound p n' hr'; have := hN.range _ _ h2; omega
    · have := hN.snd _ _ _ h2 h2'
      exact Prod.ext (by omega) this
  · intro p p' n hr hr'
    rcases hr with hr | ⟨h1, h2⟩ <;> rcases hr' with hr' | ⟨h1', h2'⟩
    · exact h.inj p p' n hr hr'
    · have := h.bound p n hr; omega
    · have := h.bound p' n hr'; omega
    · exact hN.fst _ _ _ h2 h2'
  · simp [h.len]
  · intro k
    rw [getD_snoc, getD_snoc, h.len]
    by_cases hk : k = a.envs.length
    · rw [if_pos hk, if_pos hk]
      have hout : EnvRel R' (match outer with | some e => s.envs.getD e [] | none => [])
          (match outer with | some e => a.envs.getD e [] | none => []) := by
        cases outer with
        | some e => exact hmono _ _ (h.envs e)
        | none => intro i; simp [lookup, Spec.resolve]
      intro i
      have hi := hids i
      simp only [List.not_mem_nil, exists_false, false_or] at hi
      unfold lookup Spec.resolve
      rw [List.find?_cons]
      cases hl : names.lookup i with
      | some p =>
        have hm := mem_of_lookup hl
        have : i ∈ ids := hi.1 ⟨p, hm⟩
        simp only [this, decide_true, Option.map_some]
        exact Or.inr ⟨rfl, hm⟩
      | none =>
        have : ¬ i ∈ ids := fun hc => by
          obtain ⟨p, hp⟩ := hi.2 hc
          exact lookup_none.1 hl p hp
        simp only [this, decide_false]
        exact hout i
    · rw [if_neg hk, if_neg hk]
      exact hmono _ _ (h.envs k)
  · intro o p x hm
    have := h.keys o p x hm
    show p < next
    omega
  · intro o p n hr
    rcases hr with hr | ⟨h1, h2⟩
    · exact h.elems o p n hr
    · have hf : find (s.objs o) (.priv p) = none := by
        cases hf : find (s.objs o) (.priv p) with
        | none => rfl
        | some x =>
          have := h.keys o p x (mem_of_find hf)
          have := hN.range _ _ h2
          omega
      have he : a.elems o n = none := by
        cases he : a.elems o n with
        | none => rfl
        | some x =>
          have := h.old o n (by rw [he]; simp)
          omega
      show OptRel (find (s.objs o) (.priv p)) (a.elems o n)
      rw [hf, he]
      trivial
  · intro o n hne
    simp only [List.length_append, List.length_singleton]
    have := h.old o n hne
    omega

/-! ## The other operations -/

/-- One private element of one object has changed. -/
theorem elem_rel {R : Nat → Name → Prop} {s : St} {a : Spec.St} (h : Rel R s a) {o p : Nat} {n : Name}
    (hr : R p n) {t : Table} {x : Node} {e : Elem}
    (hfind : ∀ k, find t k = if k = .priv p then some x else find (s.objs o) k)
    (hkeys : ∀ q y, (Key.priv q, y) ∈ t → q = p ∨ ∃ y', (Key.priv q, y') ∈ s.objs o)
    (hpub : t.filterMap pub = (s.objs o).filterMap pub) (hx : NodeRel x e) :
    Rel R { s with objs := upd s.objs o t } (Spec.setElem a o n e) where
  bound := h.bound
  fn := h.fn
  inj := h.inj
  len := h.len
  envs := h.envs
  keys := by
    intro o' q y hm
    unfold upd at hm
    simp only at hm
    split at hm
    · rcases hkeys q y hm with rfl | ⟨y', h'⟩
      · exact (h.bound _ n hr).1
      · exact h.keys o q y' h'
    · exact h.keys o' q y hm
  elems := by
    intro o' q n' hr'
    unfold Spec.setElem upd
    simp only
    by_cases ho : o' = o
    · subst ho
      rw [if_pos rfl, hfind]
      by_cases hn : n' = n
      · subst hn
        have := h.inj _ _ _ hr hr'
        subst this
        rw [if_pos rfl, if_pos ⟨rfl, rfl⟩]
        exact hx
      · have hq : q ≠ p := fun hq => hn (h.fn p n' n (hq ▸ hr') hr)
        rw [if_neg (by intro hc; cases hc; exact hq rfl), if_neg (by intro hc; exact hn hc.2)]
        exact h.elems o' q n' hr'
    · rw [if_neg ho, if_neg (by intro hc; exact ho hc.1)]
      exact h.elems o' q n' hr'
  old := by
    intro o' n' hne
    unfold Spec.setElem at hne
    simp only at hne
    split at hne
    · rename_i hc
      rw [hc.2]
      exact (h.bound p n hr).2
    · exact h.old o' n' hne
  props := by
    intro o'
    unfold upd
    simp only
    by_cases ho : o' = o
    · subst ho; rw [if_pos rfl, hpub]; exact h.props o'
    · rw [if_neg ho]; exact h.props o'

theorem append_rel {R : Nat → Name → Prop} {s : St} {a : Spec.St} (h : Rel R s a) {o p : Nat} {n : Name}
    (hr : R p n) {x : Node} {e : Elem} (hnone : find (s.objs o) (.priv p) = none) (hx : NodeRel x e) :
    Rel R { s with objs := upd s.objs o (append (s.objs o) (.priv p) x) } (Spec.setElem a o n e) := by
  refine elem_rel h hr ?_ ?_ (pub_append_priv _ _ _) hx
  · intro k
    rw [lookup_append]
    by_cases hk : k = .priv p
    · rw [if_pos hk, if_pos hk, hk, hnone]; rfl
    · rw [if_neg hk, if_neg hk]; simp
  · intro q y hm
    rcases List.mem_append.1 hm with hm | hm
    · exact Or.inr ⟨y, hm⟩
    · simp at hm; exact Or.inl hm.1

theorem replace_rel {R : Nat → Name → Prop} {s : St} {a : Spec.St} (h : Rel R s a) {o p : Nat} {n : Name}
    (hr : R p n) {x x' : Node} {e : Elem} (hsome : find (s.objs o) (.priv p) = some x') (hx : NodeRel x e) :
    Rel R { s with objs := upd s.objs o (replace (s.objs o) (.priv p) x) } (Spec.setElem a o n e) := by
  refine elem_rel h hr ?_ ?_ (pub_replace_priv _ _ _) hx
  · intro k
    rw [lookup_replace]
    by_cases hk : k = .priv p
    · rw [if_pos hk, if_pos hk, hk, hsome]; rfl
    · rw [if_neg hk, if_neg hk]
  · intro q y hm
    unfold replace at hm
    obtain ⟨e', he', heq⟩ := List.mem_map.1 hm
    split at heq
    · cases heq; exact Or.inl rfl
    · subst heq; exact Or.inr ⟨y, he'⟩

theorem same_rel {R : Nat → Name → Prop} {s : St} {a : Spec.St} (h : Rel R s a) (o : Nat) :
    Rel R { s with objs := upd s.objs o (s.objs o) } a := by
  have : upd s.objs o (s.objs o) = s.objs := by
    funext j; unfold upd; split
    · rename_i hj; rw [hj]
    · rfl
  rw [this]
  exact h

/-- The ordinary properties of one object have changed. -/
theorem props_rel {R : Nat → Name → Prop} {s : St} {a : Spec.St} (h : Rel R s a) {o : Nat} {t : Table}
    {l : List ((Bool × Nat) × Val)} (hfind : ∀ p, find t (.priv p) = find (s.objs o) (.priv p))
    (hkeys : ∀ q y, (Key.priv q, y) ∈ t → (Key.priv q, y) ∈ s.objs o) (hpub : t.filterMap pub = l) :
    Rel R { s with objs := upd s.objs o t } (Spec.setProps a o l) where
  bound := h.bound
  fn := h.fn
  inj := h.inj
  len := h.len
  envs := h.envs
  keys := by
    intro o' q y hm
    unfold upd at hm
    simp only at hm
    split at hm
    · exact h.keys o q y (hkeys q y hm)
    · exact h.keys o' q y hm
  elems := by
    intro o' q n' hr'
    unfold upd
    simp only
    split
    · rename_i ho; subst ho; rw [hfind]; exact h.elems o' q n' hr'
    · exact h.elems o' q n' hr'
  old := h.old
  props := by
    intro o'
    unfold upd Spec.setProps
    simp only
    split
    · exact hpub
    · exact h.props o'

/-- The states after an operation are related and the outputs are equal. -/
def Next (R : Nat → Name → Prop) (x : St × Out) (y : Spec.St × Out) : Prop := Rel R x.1 y.1 ∧ x.2 = y.2

theorem resolve_next {R : Nat → Name → Prop} {s : St} {a : Spec.St} (h : Rel R s a) (env i : Nat)
    {f : Nat → St × Out} {g : Name → Spec.St × Out} (hfg : ∀ p n, R p n → Next R (f p) (g n)) :
    Next R (resolve s env i f) (Spec.withName a env i g) := by
  unfold resolve Spec.withName
  have := h.envs env i
  cases h1 : lookup i (s.envs.getD env []) <;> cases h2 : Spec.resolve i (a.envs.getD env []) <;>
    rw [h1, h2] at this <;> simp only at this ⊢
  · exact ⟨h, rfl⟩
  · exact hfg _ _ this

theorem optRel_cases {x : Option Node} {y : Option Elem} (h : OptRel x y) :
    (x = none ∧ y = none) ∨ ∃ n e, x = some n ∧ y = some e ∧ NodeRel n e := by
  cases x <;> cases y
  · exact Or.inl ⟨rfl, rfl⟩
  · exact h.elim
  · exact h.elim
  · exact Or.inr ⟨_, _, rfl, rfl, h⟩

theorem propKey_ne (sym : Bool) (n p : Nat) : Key.priv p ≠ propKey sym n := by
  unfold propKey; cases sym <;> simp

theorem given_fn (v : Val) (h : v ≠ .undef) :
    given (some v) = some v := by
  cases v with
  | undef => exact absurd rfl h
  | num n => rfl
  | other n => rfl

set_option maxHeartbeats 1000000 in
theorem step_rel {R : Nat → Name → Prop} {s : St} {a : Spec.St} (h : Rel R s a) (op : Op)
    (hf : Spec.Functions op) :
    ∃ R', Next R' (step s op) (Spec.step a op) := by
  cases op with
  | newEnv outer ids =>
    obtain ⟨R', hR⟩ := newEnv_rel h outer ids
    exact ⟨R', hR, rfl⟩
  | get env o i =>
    refine ⟨R, resolve_next h env i fun p n hr => ?_⟩
    unfold privGet
    rcases optRel_cases (h.elems o p n hr) with ⟨h1, h2⟩ | ⟨x, e, h1, h2, hx⟩
    · rw [h1, h2]; exact ⟨h, rfl⟩
    · rw [h1, h2]
      cases e with
      | field v => obtain ⟨ha, hm, hv⟩ := hx; simp only [ha]; exact ⟨h, by simp [hv]⟩
      | method v => obtain ⟨ha, hm, hv⟩ := hx; simp only [ha]; exact ⟨h, by simp [hv]⟩
      | accessor g f =>
        obtain ⟨ha, hm, hg, hs⟩ := hx
        simp only [ha]
        cases g with
        | none => have hg' : x.get = .undef := hg; exact ⟨h, by simp [hg']⟩
        | some g => obtain ⟨hg1, hg2⟩ := hg; exact ⟨h, by simp [hg2, hg1]⟩
  | set env o i v =>
    refine ⟨R, resolve_next h env i fun p n hr => ?_⟩
    unfold privSet setTable
    rcases optRel_cases (h.elems o p n hr) with ⟨h1, h2⟩ | ⟨x, e, h1, h2, hx⟩
    · rw [h1, h2]; exact ⟨same_rel h o, rfl⟩
    · rw [h1, h2]
      cases e with
      | field w =>
        obtain ⟨ha, hm, hv⟩ := hx
        simp only [ha, hm]
        exact ⟨replace_rel h hr h1 ⟨rfl, rfl, rfl⟩, rfl⟩
      | method w =>
        obtain ⟨ha, hm, hv⟩ := hx
        simp only [ha, hm]
        exact ⟨same_rel h o, rfl⟩
      | accessor g f =>
        obtain ⟨ha, hm, hg, hs⟩ := hx
        simp only [ha, hm]
        cases f with
        | none =>
          have hs' : x.set = .undef := hs
          simp only [hs']
          exact ⟨same_rel h o, rfl⟩
        | some f =>
          obtain ⟨hs1, hs2⟩ := hs
          subst hs1
          simp only [Bool.true_or, Bool.not_true, Bool.false_eq_true, if_false, if_neg hs2]
          exact ⟨same_rel h o, rfl⟩
  | has env o i =>
    refine ⟨R, resolve_next h env i fun p n hr => ?_⟩
    rcases optRel_cases (h.elems o p n hr) with ⟨h1, h2⟩ | ⟨x, e, h1, h2, hx⟩
    · rw [h1, h2]; exact ⟨h, rfl⟩
    · rw [h1, h2]; exact ⟨h, rfl⟩
  | addField env o i v =>
    refine ⟨R, resolve_next h env i fun p n hr => ?_⟩
    unfold fieldAdd setTable
    rcases optRel_cases (h.elems o p n hr) with ⟨h1, h2⟩ | ⟨x, e, h1, h2, hx⟩
    · rw [h1, h2]; exact ⟨append_rel h hr h1 ⟨rfl, rfl, rfl⟩, rfl⟩
    · rw [h1, h2]; exact ⟨same_rel h o, rfl⟩
  | addMethod env o i v =>
    refine ⟨R, resolve_next h env i fun p n hr => ?_⟩
    unfold methodAdd setTable
    rcases optRel_cases (h.elems o p n hr) with ⟨h1, h2⟩ | ⟨x, e, h1, h2, hx⟩
    · rw [h1, h2]; exact ⟨append_rel h hr h1 ⟨rfl, rfl, rfl⟩, rfl⟩
    · rw [h1, h2]; exact ⟨same_rel h o, rfl⟩
  | addGetter env o i v =>
    have hv : v ≠ .undef := hf
    refine ⟨R, resolve_next h env i fun p n hr => ?_⟩
    unfold accessorAdd setTable
    simp only [given_fn v hv, show given none = none from rfl]
    rcases optRel_cases (h.elems o p n hr) with ⟨h1, h2⟩ | ⟨x, e, h1, h2, hx⟩
    · rw [h1, h2]; exact ⟨append_rel h hr h1 ⟨rfl, rfl, ⟨rfl, hv⟩, rfl⟩, rfl⟩
    · rw [h1, h2]
      cases e with
      | field w => obtain ⟨ha, hm, hw⟩ := hx; simp only [ha]; exact ⟨same_rel h o, rfl⟩
      | method w => obtain ⟨ha, hm, hw⟩ := hx; simp only [ha]; exact ⟨same_rel h o, rfl⟩
      | accessor g f =>
        obtain ⟨ha, hm, hg, hs⟩ := hx
        simp only [ha]
        cases g with
        | none =>
          have hg' : x.get = .undef := hg
          simp only [hg', Bool.not_true, Bool.false_eq_true, if_false, ne_eq, not_true_eq_false, false_and, Option.isSome_none, and_false, Option.isSome_some, and_true]
          exact ⟨replace_rel h hr h1 (e := .accessor (some v) f) ⟨rfl, hm, ⟨rfl, hv⟩, hs⟩, rfl⟩
        | some g =>
          simp only [Option.isSome_some, and_true, if_pos hg.2]
          exact ⟨same_rel h o, rfl⟩
  | addSetter env o i v =>
    have hv : v ≠ .undef := hf
    refine ⟨R, resolve_next h env i fun p n hr => ?_⟩
    unfold accessorAdd setTable
    simp only [given_fn v hv, show given none = none from rfl]
    rcases optRel_cases (h.elems o p n hr) with ⟨h1, h2⟩ | ⟨x, e, h1, h2, hx⟩
    · rw [h1, h2]; exact ⟨append_rel h hr h1 ⟨rfl, rfl, rfl, ⟨rfl, hv⟩⟩, rfl⟩
    · rw [h1, h2]
      cases e with
      | field w => obtain ⟨ha, hm, hw⟩ := hx; simp only [ha]; exact ⟨same_rel h o, rfl⟩
      | method w => obtain ⟨ha, hm, hw⟩ := hx; simp only [ha]; exact ⟨same_rel h o, rfl⟩
      | accessor g f =>
        obtain ⟨ha, hm, hg, hs⟩ := hx
        simp only [ha]
        cases f with
        | none =>
          have hs' : x.set = .undef := hs
          simp only [hs', Bool.not_true, Bool.false_eq_true, if_false, ne_eq, not_true_eq_false, false_and, Option.isSome_none, and_false, Option.isSome_some, and_true]
          exact ⟨replace_rel h hr h1 (e := .accessor g (some v)) ⟨rfl, hm, hg, ⟨rfl, hv⟩⟩, rfl⟩
        | some f =>
          simp only [Bool.not_true, Bool.false_eq_true, if_false, ne_eq, not_true_eq_false, false_and, Option.isSome_none, and_false, Option.isSome_some, and_true, if_pos hs.2]
          exact ⟨same_rel h o, rfl⟩
  | putProp o sym n v =>
    refine ⟨R, ?_⟩
    unfold step Spec.step
    simp only
    have hfp := find_pub (s.objs o) sym n
    rw [h.props o] at hfp
    cases hfd : find (s.objs o) (propKey sym n) with
    | none =>
      rw [hfd] at hfp
      simp only [Option.map_none] at hfp
      rw [← hfp]
      refine ⟨props_rel h (fun p => ?_) (fun q y hm => ?_) ?_, rfl⟩
      · rw [lookup_append, if_neg (propKey_ne sym n p)]; simp
      · rcases List.mem_append.1 hm with hm | hm
        · exact hm
        · simp only [List.mem_singleton, Prod.mk.injEq] at hm; exact absurd hm.1 (propKey_ne sym n q)
      · rw [pub_append_prop, h.props o]
    | some x =>
      rw [hfd] at hfp
      simp only [Option.map_some] at hfp
      rw [← hfp]
      refine ⟨props_rel h (fun p => ?_) (fun q y hm => ?_) ?_, rfl⟩
      · rw [lookup_replace, if_neg (propKey_ne sym n p)]
      · unfold replace at hm
        obtain ⟨e', he', heq⟩ := List.mem_map.1 hm
        split at heq
        · simp only [Prod.mk.injEq] at heq; exact absurd heq.1.symm (propKey_ne sym n q)
        · subst heq; exact he'
      · rw [pub_replace_prop, h.props o]
  | getProp o sym n =>
    refine ⟨R, ?_⟩
    unfold step Spec.step
    simp only
    have hfp := find_pub (s.objs o) sym n
    rw [h.props o] at hfp
    cases hfd : find (s.objs o) (propKey sym n) with
    | none => rw [hfd] at hfp; exact ⟨h, by rw [← hfp]; rfl⟩
    | some x => rw [hfd] at hfp; exact ⟨h, by rw [← hfp]; rfl⟩
  | deleteProp o sym n =>
    refine ⟨R, ?_⟩
    unfold step Spec.step setTable
    simp only
    refine ⟨props_rel h (fun p => ?_) (fun q y hm => ?_) ?_, rfl⟩
    · rw [lookup_remove, if_neg (propKey_ne sym n p)]
    · exact (List.mem_filter.1 hm).1
    · rw [pub_remove_prop, h.props o]
  | ownKeys o =>
    refine ⟨R, h, ?_⟩
    unfold step Spec.step
    simp only
    rw [ownKeys_pub, h.props o]

theorem run_rel (ops : List Op) : ∀ {R : Nat → Name → Prop} {s : St} {a : Spec.St}, Rel R s a →
    (∀ op, op ∈ ops → Spec.Functions op) →
    (run s ops).2 = (Spec.run a ops).2 ∧ ∃ R', Rel R' (run s ops).1 (Spec.run a ops).1 := by
  induction ops with
  | nil => intro R s a h _; exact ⟨rfl, R, h⟩
  | cons op ops ih =>
    intro R s a h hf
    obtain ⟨R', h1, h2⟩ := step_rel h op (hf op List.mem_cons_self)
    have := ih h1 fun op' hm => hf op' (List.mem_cons_of_mem _ hm)
    refine ⟨?_, this.2⟩
    show (step s op).2 :: _ = (Spec.step a op).2 :: _
    rw [h2, this.1]

end Verif.Priv

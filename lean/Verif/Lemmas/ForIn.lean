import Verif.Spec.ForIn

/-! Lemmas about `for-in`: the table of the seen names, and the two iterators side by side. -/
namespace Verif.ForIn

/-! ## Decimal texts -/

def value (l : List Nat) : Nat := l.foldl (fun a c => a * 10 + (c - 48)) 0

theorem value_decimal (n : Nat) : value (Str.decimal n) = n := by
  induction n using Nat.strongRecOn with
  | _ n ih =>
    unfold Str.decimal
    by_cases h : n < 10
    · rw [if_pos h]; simp [value]
    · rw [if_neg h]
      have := ih (n / 10) (by omega)
      unfold value at this ⊢
      rw [List.foldl_append, this]
      simp only [List.foldl_cons, List.foldl_nil]
      omega

theorem decimal_inj {n m : Nat} (h : Str.decimal n = Str.decimal m) : n = m := by
  have := congrArg value h
  rwa [value_decimal, value_decimal] at this

/-! ## The two sorts of names -/

/-- An index string. -/
def IsIdx (k : Key) : Prop := ∃ n, k = .idx n

/-- A string of the heap that could not be an index string. -/
def IsName (k : Key) : Prop := ∃ s, k = .heap s ∧ Plain s

/-- A sort of names in which the text tells the name. -/
def Telling (P : Key → Prop) : Prop := ∀ k k', P k → P k' → k.text = k'.text → k = k'

theorem telling_idx : Telling IsIdx := by
  rintro _ _ ⟨n, rfl⟩ ⟨m, rfl⟩ h
  exact congrArg _ (decimal_inj h)

theorem telling_name : Telling IsName := by
  rintro _ _ ⟨n, rfl, _⟩ ⟨m, rfl, _⟩ h
  exact congrArg _ h

/-! ## The table -/

/-- The table knows of every name of the sort whether it was seen. -/
structure Tidy (P : Key → Prop) (t : Table) (seen : List (List Nat)) : Prop where
  len : 1 ≤ t.lists.length
  empty : t.num = 0 → ∀ i k, k ∉ t.lists.getD i []
  place : ∀ i k, P k → k ∈ t.lists.getD i [] → i = t.pos k
  mem : ∀ k, P k → (k ∈ t.lists.getD (t.pos k) [] ↔ k.text ∈ seen)

theorem tidy_new (P : Key → Prop) : Tidy P {} [] := by
  have h : ∀ i (k : Key), k ∉ ([[]] : List (List Key)).getD i [] := by
    intro i k
    cases i <;> simp
  refine ⟨by simp, fun _ => h, fun i k _ hk => absurd hk (h i k), fun k _ => ?_⟩
  constructor
  · intro hk; exact absurd hk (h _ k)
  · intro hk; cases hk

theorem pos_lt (t : Table) (k : Key) (h : 1 ≤ t.lists.length) : t.pos k < t.lists.length := by
  unfold Table.pos
  split
  · omega
  · exact Nat.mod_lt _ (by omega)

theorem getD_set (l : List (List Key)) (i j : Nat) (x : List Key) (hi : i < l.length) :
    (l.set i x).getD j [] = if j = i then x else l.getD j [] := by
  rw [List.getD_eq_getElem?_getD, List.getD_eq_getElem?_getD, List.getElem?_set]
  by_cases h : i = j
  · subst h; simp [hi]
  · rw [if_neg h, if_neg (fun e => h e.symm)]

theorem getD_modify (l : List (List Key)) (i j : Nat) (f : List Key → List Key)
    (hi : i < l.length) :
    (l.modify i f).getD j [] = if j = i then f (l.getD j []) else l.getD j [] := by
  rw [List.getD_eq_getElem?_getD, List.getD_eq_getElem?_getD, List.getElem?_modify]
  by_cases h : i = j
  · subst h
    rw [List.getElem?_eq_getElem hi]; simp
  · rw [if_neg (fun e => h e.symm)]
    cases l[j]? <;> simp [h]

theorem set_getD_self (l : List (List Key)) (i : Nat) (hi : i < l.length) :
    l.set i (l.getD i []) = l := by
  apply List.ext_getElem
  · simp
  · intro j h1 h2
    rw [List.getElem_set]
    split
    · subst i; rw [List.getD_eq_getElem?_getD, List.getElem?_eq_getElem h2]; rfl
    · rfl

theorem mem_flatten_getD (l : List (List Key)) (k : Key) :
    k ∈ l.flatten ↔ ∃ i, k ∈ l.getD i [] := by
  rw [List.mem_flatten]
  constructor
  · rintro ⟨b, hb, hk⟩
    obtain ⟨i, hi, rfl⟩ := List.mem_iff_getElem.1 hb
    refine ⟨i, ?_⟩
    rw [List.getD_eq_getElem?_getD, List.getElem?_eq_getElem hi]; exact hk
  · rintro ⟨i, hk⟩
    rw [List.getD_eq_getElem?_getD] at hk
    cases h : l[i]? with
    | none => rw [h] at hk; cases hk
    | some b => rw [h] at hk; exact ⟨b, List.mem_of_getElem? h, hk⟩

/-! ### Lookup -/

theorem scan_idx (b : List Key) (n : Nat) (h : ∀ e ∈ b, IsIdx e) :
    scan b (.idx n) = (decide (Key.idx n ∈ b), b, .idx n) := by
  induction b with
  | nil => rfl
  | cons e es ih =>
    obtain ⟨m, rfl⟩ := h e (List.mem_cons_self ..)
    have ih := ih fun e he => h e (List.mem_cons_of_mem _ he)
    have he : equal (.idx m) (.idx n) = (m == n, .idx m, .idx n) := rfl
    by_cases hm : m = n
    · subst hm; simp [scan, he]
    · have h2 : ¬ n = m := fun e => hm e.symm
      simp [scan, he, ih, hm, h2]

theorem equal_heap (e : Key) (s : List Nat) :
    equal e (.heap s) = (e.text == s, e.norm, .heap s) := by
  cases e <;> rfl

theorem norm_name (e k : Key) (hk : IsName k) : k = e.norm ↔ k = e := by
  obtain ⟨s, rfl, hs⟩ := hk
  cases e with
  | heap s' => rfl
  | idx n =>
    constructor
    · intro h; exact absurd (Key.heap.inj h) (hs n)
    · intro h; cases h

theorem scan_heap (b : List Key) (s : List Nat) :
    (scan b (.heap s)).1 = decide (∃ e ∈ b, e.text = s) ∧ (scan b (.heap s)).2.2 = .heap s ∧
      (∀ k, IsName k → (k ∈ (scan b (.heap s)).2.1 ↔ k ∈ b)) ∧
      ((scan b (.heap s)).2.1 = [] ↔ b = []) := by
  induction b with
  | nil => simp [scan]
  | cons e es ih =>
    obtain ⟨i1, i2, i3, i4⟩ := ih
    unfold scan
    simp only [equal_heap]
    by_cases he : e.text = s
    · have h1 : (e.text == s) = true := by simp [he]
      rw [h1]
      refine ⟨by simp [he], by simp, ?_, by simp⟩
      intro k hk
      simp only [if_true, List.mem_cons]
      rw [norm_name e k hk]
    · have h1 : (e.text == s) = false := by simp [he]
      rw [h1]
      refine ⟨?_, by simpa using i2, ?_, by simp⟩
      · simp only [Bool.false_eq_true, if_false]
        rw [i1]; simp [he]
      · intro k hk
        simp only [Bool.false_eq_true, if_false, List.mem_cons]
        rw [norm_name e k hk, i3 k hk]

theorem lookup_idx {t : Table} {seen : List (List Nat)} (h : Tidy IsIdx t seen)
    (ha : ∀ i k, k ∈ t.lists.getD i [] → IsIdx k) (n : Nat) :
    ∃ phe, t.lookup (.idx n) = ⟨decide (Str.decimal n ∈ seen), t, .idx n, phe⟩ ∧
      (phe = none ∨ phe = some (t.pos (.idx n))) := by
  unfold Table.lookup
  have hm := h.mem (.idx n) ⟨n, rfl⟩
  by_cases h0 : t.num = 0
  · rw [if_pos h0]
    refine ⟨none, ?_, Or.inl rfl⟩
    have : ¬ Str.decimal n ∈ seen := fun hs => h.empty h0 _ _ (hm.2 hs)
    simp [this]
  · rw [if_neg h0]
    refine ⟨some (t.pos (.idx n)), ?_, Or.inr rfl⟩
    rw [scan_idx _ n (fun e he => ha _ e he)]
    simp only
    rw [set_getD_self _ _ (pos_lt t _ h.len)]
    congr 1
    exact decide_eq_decide.2 hm

theorem tidy_set {t : Table} {seen : List (List Nat)} (h : Tidy IsName t seen) (i : Nat)
    (hi : i < t.lists.length) (b : List Key)
    (hb : ∀ k, IsName k → (k ∈ b ↔ k ∈ t.lists.getD i []))
    (h0 : b = [] ↔ t.lists.getD i [] = []) :
    Tidy IsName { t with lists := t.lists.set i b } seen := by
  have hp : ∀ k, Table.pos { t with lists := t.lists.set i b } k = t.pos k := by
    intro k; unfold Table.pos; simp
  have hg : ∀ j k, IsName k → (k ∈ (t.lists.set i b).getD j [] ↔ k ∈ t.lists.getD j []) := by
    intro j k hk
    rw [getD_set _ _ _ _ hi]
    split
    · subst j; exact hb k hk
    · exact Iff.rfl
  refine ⟨by simpa using h.len, ?_, ?_, ?_⟩
  · intro hn j k hk
    have := h.empty hn
    rw [show (({ t with lists := t.lists.set i b } : Table).lists) = t.lists.set i b from rfl,
      getD_set _ _ _ _ hi] at hk
    split at hk
    · have : t.lists.getD i [] = [] := by
        cases hc : t.lists.getD i [] with
        | nil => rfl
        | cons x xs => exact absurd (by rw [hc]; exact List.mem_cons_self ..) (this i x)
      rw [h0.2 this] at hk; cases hk
    · exact this j k hk
  · intro j k hk hm
    rw [hp]
    exact h.place j k hk ((hg j k hk).1 hm)
  · intro k hk
    rw [hp]
    exact Iff.trans (hg _ k hk) (h.mem k hk)

theorem lookup_name {t : Table} {seen : List (List Nat)} (h : Tidy IsName t seen)
    (s : List Nat) (hs : Plain s) :
    ∃ t' phe, t.lookup (.heap s) = ⟨decide (s ∈ seen), t', .heap s, phe⟩ ∧
      Tidy IsName t' seen ∧ (phe = none ∨ phe = some (t'.pos (.heap s))) := by
  have hk : IsName (.heap s) := ⟨s, rfl, hs⟩
  have hm := h.mem (.heap s) hk
  unfold Table.lookup
  by_cases h0 : t.num = 0
  · rw [if_pos h0]
    refine ⟨t, none, ?_, h, Or.inl rfl⟩
    have : ¬ s ∈ seen := fun hs => h.empty h0 _ _ (hm.2 hs)
    simp [this]
  · rw [if_neg h0]
    obtain ⟨h1, h2, h3, h4⟩ := scan_heap (t.lists.getD (t.pos (.heap s)) []) s
    refine ⟨_, some (t.pos (.heap s)), ?_, tidy_set h _ (pos_lt t _ h.len) _ h3 h4, Or.inr ?_⟩
    · rw [h1, h2]
      congr 1
      apply decide_eq_decide.2
      refine Iff.trans ?_ hm
      constructor
      · rintro ⟨e, he, ht⟩
        cases e with
        | idx n => exact absurd ht.symm (hs n)
        | heap s' => rw [show s' = s from ht] at he; exact he
      · intro he; exact ⟨_, he, rfl⟩
    · congr 1
      unfold Table.pos; simp

/-! ### Insertion -/

theorem place_length (ns : Nat) (ks : List Key) (ls : List (List Key)) :
    (ks.foldl (place ns) ls).length = ls.length := by
  induction ks generalizing ls with
  | nil => rfl
  | cons k ks ih => rw [List.foldl_cons, ih]; simp [place]

theorem place_mem (ns : Nat) (hns : 0 < ns) (ks : List Key) (ls : List (List Key))
    (hl : ls.length = ns) (i : Nat) (k : Key) :
    k ∈ (ks.foldl (place ns) ls).getD i [] ↔
      k ∈ ls.getD i [] ∨ (k ∈ ks ∧ i = hash k % ns) := by
  induction ks generalizing ls with
  | nil => simp
  | cons x ks ih =>
    rw [List.foldl_cons, ih _ (by simp [place, hl])]
    unfold place
    rw [getD_modify _ _ _ _ (by rw [hl]; exact Nat.mod_lt _ hns)]
    constructor
    · rintro (h | ⟨h, he⟩)
      · split at h
        · rename_i hi
          rcases List.mem_cons.1 h with h | h
          · subst h; exact Or.inr ⟨List.mem_cons_self .., hi⟩
          · exact Or.inl h
        · exact Or.inl h
      · exact Or.inr ⟨List.mem_cons_of_mem _ h, he⟩
    · rintro (h | ⟨h, he⟩)
      · left
        split
        · exact List.mem_cons_of_mem _ h
        · exact h
      · rcases List.mem_cons.1 h with h | h
        · subst h; left; rw [if_pos he]; exact List.mem_cons_self ..
        · exact Or.inr ⟨h, he⟩

theorem expand_mem (t : Table) (i : Nat) (k : Key) :
    k ∈ t.expand.lists.getD i [] ↔
      (∃ j, k ∈ t.lists.getD j []) ∧ i = hash k % (max t.num 8) := by
  unfold Table.expand
  simp only
  rw [place_mem _ (by omega) _ _ (by simp), mem_flatten_getD]
  constructor
  · rintro (h | h)
    · exfalso
      rw [List.getD_eq_getElem?_getD, List.getElem?_replicate] at h
      split at h <;> cases h
    · exact h
  · exact Or.inr

theorem expand_length (t : Table) : t.expand.lists.length = max t.num 8 := by
  unfold Table.expand
  simp only
  rw [place_length]; simp

theorem expand_pos (t : Table) (k : Key) : t.expand.pos k = hash k % (max t.num 8) := by
  unfold Table.pos
  rw [expand_length, if_neg (by omega)]

theorem expand_tidy {P : Key → Prop} {t : Table} {seen : List (List Nat)} (h : Tidy P t seen) :
    Tidy P t.expand seen := by
  refine ⟨by rw [expand_length]; omega, ?_, ?_, ?_⟩
  · intro h0 i k hk
    obtain ⟨⟨j, hj⟩, _⟩ := (expand_mem t i k).1 hk
    exact h.empty h0 j k hj
  · intro i k _ hk
    rw [expand_pos]
    exact ((expand_mem t i k).1 hk).2
  · intro k hk
    rw [expand_mem, expand_pos, ← h.mem k hk]
    constructor
    · rintro ⟨⟨j, hj⟩, _⟩
      rwa [← h.place j k hk hj]
    · intro hm; exact ⟨⟨_, hm⟩, rfl⟩

theorem link_mem (t : Table) (hl : 1 ≤ t.lists.length) (k : Key) (phe : Option Nat)
    (hp : phe = none ∨ phe = some (t.pos k)) (i : Nat) (x : Key) :
    x ∈ (t.link k phe).lists.getD i [] ↔ x ∈ t.lists.getD i [] ∨ (x = k ∧ i = t.pos k) := by
  rcases hp with rfl | rfl
  all_goals
    unfold Table.link
    simp only
    rw [getD_modify _ _ _ _ (pos_lt t k hl)]
    split
    · rename_i hi
      simp [hi, or_comm]
    · rename_i hi
      simp [hi]

theorem link_pos (t : Table) (k : Key) (phe : Option Nat) (x : Key) :
    (t.link k phe).pos x = t.pos x := by
  unfold Table.pos Table.link
  cases phe <;> simp

theorem link_tidy {P : Key → Prop} (hP : Telling P) {t : Table} {seen : List (List Nat)}
    (h : Tidy P t seen) (k : Key) (hk : P k) (phe : Option Nat)
    (hp : phe = none ∨ phe = some (t.pos k)) : Tidy P (t.link k phe) (k.text :: seen) := by
  refine ⟨?_, ?_, ?_, ?_⟩
  · have := h.len
    unfold Table.link
    cases phe <;> simpa using this
  · intro h0
    exfalso
    unfold Table.link at h0
    cases phe <;> simp at h0
  · intro i x hx hm
    rw [link_pos]
    rcases (link_mem t h.len k phe hp i x).1 hm with hm | ⟨rfl, hi⟩
    · exact h.place i x hx hm
    · exact hi
  · intro x hx
    rw [link_pos, link_mem t h.len k phe hp, h.mem x hx, List.mem_cons]
    constructor
    · rintro (hm | ⟨rfl, _⟩)
      · exact Or.inr hm
      · exact Or.inl rfl
    · rintro (hm | hm)
      · have := hP _ _ hx hk hm
        subst this
        exact Or.inr ⟨rfl, rfl⟩
      · exact Or.inl hm

theorem insert_tidy {P : Key → Prop} (hP : Telling P) {t : Table} {seen : List (List Nat)}
    (h : Tidy P t seen) (k : Key) (hk : P k) (phe : Option Nat)
    (hp : phe = none ∨ phe = some (t.pos k)) : Tidy P (t.insert k phe) (k.text :: seen) := by
  unfold Table.insert
  split
  · exact link_tidy hP (expand_tidy h) k hk none (Or.inl rfl)
  · exact link_tidy hP h k hk phe hp

theorem insert_all {Q : Key → Prop} {t : Table} (hl : 1 ≤ t.lists.length)
    (h : ∀ i k, k ∈ t.lists.getD i [] → Q k)
    (k : Key) (hk : Q k) (phe : Option Nat) (hp : phe = none ∨ phe = some (t.pos k)) :
    ∀ i x, x ∈ (t.insert k phe).lists.getD i [] → Q x := by
  intro i x hx
  unfold Table.insert at hx
  split at hx
  · rcases (link_mem _ (by rw [expand_length]; omega) k none (Or.inl rfl) i x).1 hx with hm | ⟨rfl, _⟩
    · obtain ⟨⟨j, hj⟩, _⟩ := (expand_mem t i x).1 hm
      exact h j x hj
    · exact hk
  · rcases (link_mem t hl k phe hp i x).1 hx with hm | ⟨rfl, _⟩
    · exact h i x hm
    · exact hk

/-! ## The two iterators -/

/-- The table in the first stage: only index strings have been seen. -/
structure Stage1 (t : Table) (seen : List (List Nat)) : Prop where
  tidy : Tidy IsIdx t seen
  all : ∀ i k, k ∈ t.lists.getD i [] → IsIdx k
  texts : ∀ s ∈ seen, ∃ n, s = Str.decimal n

theorem Stage1.names {t : Table} {seen : List (List Nat)} (h : Stage1 t seen) :
    Tidy IsName t seen := by
  have hn : ∀ i k, IsName k → k ∉ t.lists.getD i [] := by
    rintro i _ ⟨s, rfl, _⟩ hm
    obtain ⟨n, hc⟩ := h.all i _ hm
    cases hc
  refine ⟨h.tidy.len, h.tidy.empty, fun i k hk hm => absurd hm (hn i k hk), ?_⟩
  intro k hk
  constructor
  · intro hm; exact absurd hm (hn _ k hk)
  · intro hs
    obtain ⟨s, rfl, hp⟩ := hk
    obtain ⟨n, hn⟩ := h.texts _ hs
    exact absurd hn (hp n)

theorem later_first {ks : List Item} (h : Later ks) : First ks := ⟨[], ks, h, rfl⟩

theorem strings_append (a b : List Item) : Spec.strings (a ++ b) = Spec.strings a ++ Spec.strings b := by
  induction a with
  | nil => rfl
  | cons x a ih => cases x <;> simp [Spec.strings, ih]

theorem strings_sym (m : Nat) : Spec.strings (List.replicate m Item.sym) = [] := by
  induction m with
  | zero => rfl
  | succ m ih => rw [List.replicate_succ]; exact ih

theorem keysLoop_sym (w : World) (o m : Nat) (t : Table) (h : List Ev) :
    keysLoop w o (List.replicate m Item.sym) t h = .over (List.replicate m Item.sym) t h := by
  cases m <;> rfl

/-- What the loop of the model gives, beside what the loop of the standard gives. -/
inductive SameKeys : Keys → Option Out × List (List Nat) × List (List Nat) × List Ev → Prop
  | name1 (n : Nat) (r : List Item) (t : Table) (h : List Ev) (seen : List (List Nat)) :
      First r → Stage1 t seen → Str.decimal n ∈ seen →
      SameKeys (.name (Str.decimal n) (.str (.idx n) :: r) t h)
        (some (.name (Str.decimal n)), Spec.strings r, seen, h)
  | name2 (s : List Nat) (r : List Item) (t : Table) (h : List Ev) (seen : List (List Nat)) :
      Later r → Plain s → Tidy IsName t seen → s ∈ seen →
      SameKeys (.name s (.str (.heap s) :: r) t h) (some (.name s), Spec.strings r, seen, h)
  | threw (r : List Item) (t : Table) (h : List Ev) (rem seen : List (List Nat)) :
      SameKeys (.threw r t h) (some .threw, rem, seen, h)
  | over (r : List Item) (t : Table) (h : List Ev) (seen : List (List Nat)) :
      Tidy IsName t seen → SameKeys (.over r t h) (none, [], seen, h)

theorem same_later (w : World) (o : Nat) (ss : List (List Nat)) (m : Nat) (hs : ∀ s ∈ ss, Plain s) :
    ∀ t seen h, Tidy IsName t seen →
      SameKeys
        (keysLoop w o (ss.map (fun s => Item.str (.heap s)) ++ List.replicate m Item.sym) t h)
        (Spec.remainingLoop w o
          (Spec.strings (ss.map (fun s => Item.str (.heap s)) ++ List.replicate m Item.sym)) seen h) := by
  induction ss with
  | nil =>
    intro t seen h ht
    rw [List.map_nil, List.nil_append, strings_sym, keysLoop_sym]
    exact .over _ _ _ _ ht
  | cons s ss ih =>
    intro t seen h ht
    have ih := ih fun s hs' => hs s (List.mem_cons_of_mem _ hs')
    have hp := hs s (List.mem_cons_self ..)
    obtain ⟨t', phe, hlk, ht', hphe⟩ := lookup_name ht s hp
    rw [List.map_cons, List.cons_append]
    simp only [Spec.strings, Key.text, keysLoop, Spec.remainingLoop, hlk]
    by_cases hseen : s ∈ seen
    · simp only [hseen, decide_true, if_true]
      exact ih t' seen h ht'
    · simp only [hseen, decide_false, Bool.false_eq_true, if_false]
      have hins := insert_tidy telling_name ht' (.heap s) ⟨s, rfl, hp⟩ phe hphe
      cases w.own h o s with
      | none => exact .threw _ _ _ _ _
      | some a =>
        cases a with
        | none => exact ih t' seen _ ht'
        | some b =>
          cases b with
          | true =>
            exact .name2 s _ _ _ _ ⟨ss, m, fun s hs' => hs s (List.mem_cons_of_mem _ hs'), rfl⟩ hp
              hins (List.mem_cons_self ..)
          | false => exact ih _ _ _ hins

theorem same_first (w : World) (o : Nat) (ns : List Nat) (ls : List Item) (hl : Later ls) :
    ∀ t seen h, Stage1 t seen →
      SameKeys (keysLoop w o (ns.map (fun n => Item.str (.idx n)) ++ ls) t h)
        (Spec.remainingLoop w o (Spec.strings (ns.map (fun n => Item.str (.idx n)) ++ ls)) seen h) := by
  induction ns with
  | nil =>
    intro t seen h ht
    obtain ⟨ss, m, hs, rfl⟩ := hl
    exact same_later w o ss m hs t seen h ht.names
  | cons n ns ih =>
    intro t seen h ht
    obtain ⟨phe, hlk, hphe⟩ := lookup_idx ht.tidy ht.all n
    rw [List.map_cons, List.cons_append]
    simp only [Spec.strings, Key.text, keysLoop, Spec.remainingLoop, hlk]
    by_cases hseen : Str.decimal n ∈ seen
    · simp only [hseen, decide_true, if_true]
      exact ih t seen h ht
    · simp only [hseen, decide_false, Bool.false_eq_true, if_false]
      have hins : Stage1 (t.insert (.idx n) phe) (Str.decimal n :: seen) :=
        ⟨insert_tidy telling_idx ht.tidy (.idx n) ⟨n, rfl⟩ phe hphe,
          insert_all ht.tidy.len ht.all (.idx n) ⟨n, rfl⟩ phe hphe,
          fun s hs => by
            rcases List.mem_cons.1 hs with rfl | hs
            · exact ⟨n, rfl⟩
            · exact ht.texts s hs⟩
      cases w.own h o (Str.decimal n) with
      | none => exact .threw _ _ _ _ _
      | some a =>
        cases a with
        | none => exact ih t seen _ ht
        | some b =>
          cases b with
          | true =>
            exact .name1 n _ _ _ _ ⟨ns, ls, hl, rfl⟩ hins (List.mem_cons_self ..)
          | false => exact ih _ _ _ hins

/-- The two iterators between two calls. -/
inductive Same : Iter → Spec.Iter → Prop
  /-- The next object: the first one, or one after it. -/
  | fresh (o : Nat) (r : List Item) (rem : List (List Nat)) (t : Table) (h : List Ev)
      (seen : List (List Nat)) :
      (o = 0 → Stage1 t seen) → Tidy IsName t seen →
      Same ⟨some o, false, r, t, h⟩ ⟨some o, false, rem, seen, h⟩
  | null (b : Bool) (r : List Item) (rem : List (List Nat)) (t : Table) (h : List Ev)
      (seen : List (List Nat)) :
      Same ⟨none, b, r, t, h⟩ ⟨none, b, rem, seen, h⟩
  | within1 (o n : Nat) (r : List Item) (t : Table) (h : List Ev) (seen : List (List Nat)) :
      First r → Stage1 t seen → Str.decimal n ∈ seen →
      Same ⟨some o, true, .str (.idx n) :: r, t, h⟩ ⟨some o, true, Spec.strings r, seen, h⟩
  | within2 (o : Nat) (s : List Nat) (r : List Item) (t : Table) (h : List Ev)
      (seen : List (List Nat)) :
      Later r → Plain s → Tidy IsName t seen → s ∈ seen →
      Same ⟨some o, true, .str (.heap s) :: r, t, h⟩ ⟨some o, true, Spec.strings r, seen, h⟩

/-- What a round, or a call, gives in the two. -/
def SameRes (a : Option Out × Iter) (b : Option Out × Spec.Iter) : Prop :=
  a.1 = b.1 ∧ a.2.hist = b.2.hist ∧ (a.1 ≠ some .threw → Same a.2 b.2) ∧
    (∀ o, a.1 = some o → o ≠ .done ∧ o ≠ .stuck) ∧ (a.1 = none → a.2.visited = false)

theorem same_after (w : World) (o : Nat) {k : Keys}
    {rem seen : List (List Nat)} {h : List Ev}
    (hk : SameKeys k (Spec.remainingLoop w o rem seen h)) :
    SameRes (afterKeys w o k) (Spec.rest w o rem seen h) := by
  unfold Spec.rest
  generalize Spec.remainingLoop w o rem seen h = x at hk
  cases hk with
  | name1 n r t h seen h1 h2 h3 =>
    exact ⟨rfl, rfl, fun _ => .within1 o n r t h seen h1 h2 h3,
      fun x hx => by cases hx; exact ⟨by simp, by simp⟩, fun hx => by cases hx⟩
  | name2 s r t h seen h1 h2 h3 h4 =>
    exact ⟨rfl, rfl, fun _ => .within2 o s r t h seen h1 h2 h3 h4,
      fun x hx => by cases hx; exact ⟨by simp, by simp⟩, fun hx => by cases hx⟩
  | threw r t h rem seen =>
    exact ⟨rfl, rfl, fun hx => absurd rfl hx,
      fun x hx => by cases hx; exact ⟨by simp, by simp⟩, fun hx => by cases hx⟩
  | over r t h seen ht =>
    unfold afterKeys
    simp only
    cases w.proto h o with
    | none =>
      exact ⟨rfl, rfl, fun hx => absurd rfl hx,
        fun x hx => by cases hx; exact ⟨by simp, by simp⟩, fun hx => by cases hx⟩
    | some b =>
      cases b with
      | true =>
        exact ⟨rfl, rfl, fun _ => .null _ _ _ _ _ _, ⟨fun x hx => (by cases hx), fun _ => rfl⟩⟩
      | false =>
        exact ⟨rfl, rfl, fun _ => .fresh _ _ _ _ _ _ (fun h0 => (by omega)) ht,
          ⟨fun x hx => (by cases hx), fun _ => rfl⟩⟩

theorem same_round (w : World) (hw : Fine w) (o : Nat) {a : Iter} {b : Spec.Iter} (h : Same a b)
    (ho : a.obj = some o) : SameRes (round w o a) (Spec.round w o b) := by
  cases h with
  | null => cases ho
  | fresh o' r rem t h seen h1 h2 =>
    cases ho
    unfold round Spec.round
    simp only [Bool.false_eq_true, if_false]
    cases hk : w.keys h o with
    | none =>
      exact ⟨rfl, rfl, fun hx => absurd rfl hx,
        fun x hx => by cases hx; exact ⟨by simp, by simp⟩, fun hx => by cases hx⟩
    | some ks =>
      simp only
      cases o with
      | zero =>
        obtain ⟨ns, ls, hl, rfl⟩ := hw.1 h ks hk
        exact same_after w _ (same_first w _ ns ls hl _ _ _ (h1 rfl))
      | succ o =>
        obtain ⟨ss, m, hs, rfl⟩ := hw.2 h o ks hk
        exact same_after w _ (same_later w _ ss m hs _ _ _ h2)
  | within1 o' n r t h seen h1 h2 h3 =>
    cases ho
    unfold round Spec.round
    simp only [if_true]
    apply same_after
    obtain ⟨phe, hlk, hphe⟩ := lookup_idx h2.tidy h2.all n
    simp only [keysLoop, hlk, h3, decide_true, if_true]
    obtain ⟨ns, ls, hl, rfl⟩ := h1
    exact same_first w _ ns ls hl _ _ _ h2
  | within2 o' s r t h seen h1 h2 h3 h4 =>
    cases ho
    unfold round Spec.round
    simp only [if_true]
    apply same_after
    obtain ⟨t', phe, hlk, ht', hphe⟩ := lookup_name h3 s h2
    simp only [keysLoop, hlk, h4, decide_true, if_true]
    obtain ⟨ss, m, hs, rfl⟩ := h1
    exact same_later w _ ss m hs _ _ _ ht'

theorem same_obj {a : Iter} {b : Spec.Iter} (h : Same a b) : a.obj = b.obj ∧ a.hist = b.hist := by
  cases h <;> exact ⟨rfl, rfl⟩

theorem same_next (w : World) (hw : Fine w) (f : Nat) : ∀ {a : Iter} {b : Spec.Iter}, Same a b →
    (next w f a).1 = (Spec.next w f b).1 ∧ (next w f a).2.hist = (Spec.next w f b).2.hist ∧
      (∀ s, (next w f a).1 = .name s → Same (next w f a).2 (Spec.next w f b).2) := by
  induction f with
  | zero => intro a b h; exact ⟨rfl, (same_obj h).2, fun s hs => by cases hs⟩
  | succ f ih =>
    intro a b h
    unfold next Spec.next
    rw [← (same_obj h).1]
    cases ho : a.obj with
    | none => exact ⟨rfl, (same_obj h).2, fun s hs => by cases hs⟩
    | some o =>
      simp only
      have hr := same_round w hw o h ho
      generalize round w o a = x at hr
      generalize Spec.round w o b = y at hr
      obtain ⟨xo, xi⟩ := x
      obtain ⟨yo, yi⟩ := y
      obtain ⟨h1, h2, h3, h4, h5⟩ := hr
      simp only at h1 h2 h3 h4 h5
      subst h1
      cases xo with
      | none => exact ih (h3 (by simp))
      | some out => exact ⟨rfl, h2, fun s hs => h3 (by rw [show out = .name s from hs]; simp)⟩

theorem same_loop (w : World) (hw : Fine w) (f n : Nat) : ∀ {a : Iter} {b : Spec.Iter}, Same a b →
    loop w f n a = Spec.loop w f n b := by
  induction n with
  | zero => intro a b h; unfold loop Spec.loop; rw [(same_obj h).2]
  | succ n ih =>
    intro a b h
    obtain ⟨h1, h2, h3⟩ := same_next w hw f h
    unfold loop Spec.loop
    generalize next w f a = x at h1 h2 h3
    generalize Spec.next w f b = y at h1 h2 h3
    obtain ⟨xo, xi⟩ := x
    obtain ⟨yo, yi⟩ := y
    simp only at h1 h2 h3
    subst h1
    cases xo with
    | name s => simp only; rw [ih (h3 s rfl)]
    | done => simp only; rw [h2]
    | threw => simp only; rw [h2]
    | stuck => simp only; rw [h2]

theorem same_start (b : Bool) : Same (start b) (Spec.start b) := by
  cases b with
  | false => exact .null _ _ _ _ _ _
  | true =>
    have h1 : Stage1 {} [] := by
      refine ⟨tidy_new _, ?_, fun s hs => by cases hs⟩
      intro i k hk
      exact absurd hk ((tidy_new (fun _ => True)).empty rfl i k)
    exact .fresh 0 _ _ _ _ _ (fun _ => h1) h1.names

end Verif.ForIn

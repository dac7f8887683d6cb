import Verif.Model.PropStore
import Verif.Lemmas.RBT
/-
Lemmas on the storage of indexed properties: it is a finite map.
-/
namespace Verif.PropStore
open RBT (Tree Whole)
open RBT.Spec (size)

variable {α : Type}

/-- The keys of a tree. -/
abbrev tkeys (t : Tree) : List Nat := RBT.Spec.keys t

theorem find_iff {i : Nat} : ∀ {t : Tree}, (tkeys t).Pairwise (· < ·) → (find i t = true ↔ i ∈ tkeys t)
  | .leaf, _ => by simp [find, tkeys, RBT.Spec.keys]
  | .node c l k r, h => by
    simp only [tkeys, RBT.Spec.keys, List.pairwise_append, List.pairwise_cons] at h
    obtain ⟨hl, ⟨hk, hr⟩, hlr⟩ := h
    unfold find
    simp only [tkeys, RBT.Spec.keys, List.mem_append, List.mem_cons]
    split
    · rename_i e; simp [e]
    · rename_i e
      split
      · rename_i hlt
        rw [find_iff hl]
        constructor
        · exact Or.inl
        · rintro (h | h | h)
          · exact h
          · exact absurd h.symm e
          · have := hk i h; omega
      · rename_i hlt
        rw [find_iff hr]
        constructor
        · exact fun h => Or.inr (Or.inr h)
        · rintro (h | h | h)
          · have := hlr i h k (by simp); omega
          · exact absurd h.symm e
          · exact h

theorem setVec_length (val : Nat → Option α) (len : Nat) : ∀ (t : Tree) (v : List (Option α)),
    (setVec val len t v).length = v.length
  | .leaf, v => rfl
  | .node _ l k r, v => by
    rw [setVec, setVec_length, setVec_length]
    split <;> simp

theorem setVec_get (val : Nat → Option α) (len i : Nat) : ∀ (t : Tree) (v : List (Option α)),
    i < v.length → (setVec val len t v)[i]? = if i ∈ tkeys t ∧ i < len then some (val i) else v[i]?
  | .leaf, v, _ => by simp [setVec, tkeys, RBT.Spec.keys]
  | .node _ l k r, v, h => by
    have h1 : i < (if k < len then v.set k (val k) else v).length := by split <;> simpa
    rw [setVec, setVec_get val len i r _ (by rw [setVec_length]; exact h1),
      setVec_get val len i l _ h1]
    simp only [tkeys, RBT.Spec.keys, List.mem_append, List.mem_cons]
    by_cases hr : i ∈ RBT.Spec.keys r ∧ i < len
    · rw [if_pos hr, if_pos ⟨Or.inr (Or.inr hr.1), hr.2⟩]
    · rw [if_neg hr]
      by_cases hl : i ∈ RBT.Spec.keys l ∧ i < len
      · rw [if_pos hl, if_pos ⟨Or.inl hl.1, hl.2⟩]
      · rw [if_neg hl]
        by_cases hk : i = k
        · subst hk
          by_cases hlen : i < len
          · rw [if_pos hlen, if_pos ⟨Or.inr (Or.inl rfl), hlen⟩]
            simp [h]
          · rw [if_neg hlen, if_neg (by omega)]
        · have : ¬ ((i ∈ RBT.Spec.keys l ∨ i = k ∨ i ∈ RBT.Spec.keys r) ∧ i < len) := by
            rintro ⟨h1 | h1 | h1, h2⟩
            · exact hl ⟨h1, h2⟩
            · exact hk h1
            · exact hr ⟨h1, h2⟩
          rw [if_neg this]
          split
          · rw [List.getElem?_set_ne (fun e => hk e.symm)]
          · rfl

/-- The tree holds exactly the properties of `m`. -/
structure TreeRep (t : Tree) (val : Nat → Option α) (m : Nat → Option α) : Prop where
  whole : Whole t
  sorted : (tkeys t).Pairwise (· < ·)
  mem : ∀ i, i ∈ tkeys t ↔ m i ≠ none
  eq : ∀ i, m i ≠ none → val i = m i

/-- The array holds exactly the properties of `m`. -/
structure VecRep (v : List (Option α)) (m : Nat → Option α) : Prop where
  cell : ∀ i, i < v.length → v[i]? = some (m i)
  out : ∀ i, v.length ≤ i → m i = none

theorem treeRep_empty : TreeRep .leaf (fun _ => none) (fun _ => (none : Option α)) :=
  ⟨⟨rfl, 0, rfl⟩, by simp [tkeys, RBT.Spec.keys], by simp [tkeys, RBT.Spec.keys], by simp⟩

theorem treeRep_insert {t : Tree} {val m : Nat → Option α} (h : TreeRep t val m) {i : Nat} {p : α}
    (hi : m i = none) :
    find i t = false ∧ ∃ t', RBT.insert t i = some t' ∧
      TreeRep t' (fun k => if k = i then some p else val k) (fun k => if k = i then some p else m k) := by
  refine ⟨?_, ?_⟩
  · rw [← Bool.not_eq_true, find_iff h.sorted, h.mem]
    simp [hi]
  · obtain ⟨t', h1, h2, h3, h4⟩ := RBT.insert_spec h.whole h.sorted i
    refine ⟨t', h1, h2, h3, fun k => ?_, fun k hk => ?_⟩
    · rw [show (k ∈ tkeys t') ↔ _ from h4 k]
      split
      · rename_i e; simp [e]
      · rename_i e; rw [← h.mem k]; simp [e]
    · split
      · rfl
      · rename_i e
        simp only [e, if_false] at hk
        exact h.eq k hk

theorem treeRep_remove {t : Tree} {val m : Nat → Option α} (h : TreeRep t val m) (i : Nat) :
    ∃ t', RBT.remove t i = some t' ∧ TreeRep t' val (fun k => if k = i then none else m k) := by
  obtain ⟨t', h1, h2, h3, h4⟩ := RBT.remove_spec h.whole h.sorted i
  refine ⟨t', h1, h2, h3, fun k => ?_, fun k hk => ?_⟩
  · rw [show (k ∈ tkeys t') ↔ _ from h4 k]
    split
    · rename_i e; simp [e]
    · rename_i e; rw [← h.mem k]; simp [e]
  · split
    · rename_i e; simp [e] at hk
    · rename_i e
      simp only [e, if_false] at hk
      exact h.eq k hk

/-- The conversion to a tree. -/
theorem vecToRbt_spec {v : List (Option α)} {m : Nat → Option α} (hv : VecRep v m) :
    ∀ (n i : Nat) (t : Tree) (val : Nat → Option α), i + n ≤ v.length →
    TreeRep t val (fun k => if k < i then m k else none) →
    ∃ t' val', vecToRbt v n i (t, val) = some (t', val') ∧
      TreeRep t' val' (fun k => if k < i + n then m k else none)
  | 0, i, t, val, h, ht => ⟨t, val, rfl, ht⟩
  | n + 1, i, t, val, h, ht => by
    have hc := hv.cell i (by omega)
    unfold vecToRbt
    rw [hc]
    have e : i + (n + 1) = i + 1 + n := by omega
    rw [e]
    cases hm : m i with
    | none =>
      simp only
      refine vecToRbt_spec hv n (i + 1) t val (by omega) ?_
      have : (fun k => if k < i + 1 then m k else none) = (fun k => if k < i then m k else none) := by
        funext k
        by_cases hk : k = i
        · subst hk; simp [hm]
        · have : k < i + 1 ↔ k < i := by omega
          simp only [this]
      rw [this]; exact ht
    | some p =>
      simp only
      obtain ⟨h1, t', h2, h3⟩ := treeRep_insert ht (i := i) (p := p) (by simp)
      rw [h1, h2]
      simp only [Bool.false_eq_true, if_false]
      refine vecToRbt_spec hv n (i + 1) t' _ (by omega) ?_
      have : (fun k => if k < i + 1 then m k else none) =
          (fun k => if k = i then some p else if k < i then m k else none) := by
        funext k
        by_cases hk : k = i
        · subst hk; simp [hm]
        · have : k < i + 1 ↔ k < i := by omega
          simp only [this, hk, if_false]
      rw [this]; exact h3

theorem treeRep_congr {t : Tree} {val m m' : Nat → Option α} (h : TreeRep t val m) (e : ∀ i, m i = m' i) :
    TreeRep t val m' := by
  rw [← show m = m' from funext e]; exact h

/-- How the store represents the map `m`. -/
inductive Rep (s : Store α) (m : Nat → Option α) : Prop
  | tree (h : s.rbt = true) (t : TreeRep s.tree s.val m)
  | null (h : s.rbt = false) (hv : s.vec = none) (hc : s.cap = 0) (hm : ∀ i, m i = none)
  | vec (h : s.rbt = false) (v : List (Option α)) (hv : s.vec = some v) (hc : v.length = s.cap)
      (hmax : s.max < s.cap) (r : VecRep v m)

theorem newCap_gt {max cap : Nat} (h : max < 2 ^ 32 - 1) : max < newCap max cap ∧ max < u32 (max + 1) := by
  have : u32 (max + 1) = max + 1 := Nat.mod_eq_of_lt (by omega)
  refine ⟨?_, by omega⟩
  unfold newCap
  rw [this]
  have h1 : max + 1 ≤ Nat.max (max + 1) (Nat.max (u32 (cap * 2)) 8) := Nat.le_max_left ..
  exact Nat.lt_of_lt_of_le (Nat.lt_succ_self max) (Nat.le_min.2 ⟨h1, by omega⟩)

/-- The situation in which the code goes wrong: a tree without nodes is made an array. -/
def Trap (s : Store α) (num max : Nat) : Prop := s.rbt = true ∧ s.tree = .leaf ∧ max < u32 (num * 3)

theorem fixup_trap {s : Store α} {num max : Nat} (h : Trap s num max) :
    ∃ s', fixup s num max = some s' ∧ s'.rbt = false ∧ s'.vec = none := by
  obtain ⟨h1, h2, h3⟩ := h
  unfold fixup
  rw [h1, if_neg (by simp), if_pos h3]
  exact ⟨_, rfl, rfl, by simp [rbtToVec, h2]⟩

theorem fixup_spec {s : Store α} {m : Nat → Option α} (hr : Rep s m)
    (hm : ∀ i, m i ≠ none → i ≤ s.max) {num max : Nat} (hmax : s.max ≤ max) (hlt : max < 2 ^ 32 - 1)
    (ht : ¬ Trap s num max) :
    ∃ s', fixup s num max = some s' ∧ Rep s' m ∧ s'.num = num ∧ s'.max = max ∧
      (s'.rbt = false → s'.vec ≠ none ∧ max < s'.cap) := by
  have hn : ∀ i, s.max < i → m i = none := by
    intro i hi
    cases e : m i with
    | none => rfl
    | some p => have := hm i (by simp [e]); omega
  cases hr with
  | tree h t =>
    unfold fixup
    rw [h, if_neg (by simp)]
    split
    · rename_i h3
      have hne : s.tree ≠ .leaf := fun e => ht ⟨h, e, h3⟩
      have hlen : u32 (max + 1) = max + 1 := Nat.mod_eq_of_lt (by omega)
      have hv : rbtToVec s.tree s.val (u32 (max + 1)) =
          some (setVec s.val (max + 1) s.tree (List.replicate (max + 1) none)) := by
        rw [hlen]
        unfold rbtToVec
        split
        · rename_i e; exact absurd e hne
        · rfl
      refine ⟨_, rfl, .vec rfl _ hv (by rw [setVec_length]; simp [hlen]) (by simp [hlen]) ⟨fun i hi => ?_, fun i hi => ?_⟩,
        rfl, rfl, fun _ => ⟨by simp [hv], by simp [hlen]⟩⟩
      · rw [setVec_length, List.length_replicate] at hi
        rw [setVec_get _ _ _ _ _ (by simpa using hi)]
        by_cases he : m i = none
        · rw [if_neg (by rw [t.mem]; simp [he]), he]
          simp [hi]
        · rw [if_pos ⟨(t.mem i).2 he, hi⟩, t.eq i he]
      · rw [setVec_length, List.length_replicate] at hi
        exact hn i (by omega)
    · exact ⟨_, rfl, .tree rfl t, rfl, rfl, fun hf => by simp at hf⟩
  | null h hv hc hm0 =>
    unfold fixup
    rw [h, if_pos (by rfl), hv]
    split
    · exact ⟨_, rfl, .tree rfl (treeRep_congr treeRep_empty fun i => (hm0 i).symm), rfl, rfl,
        fun hf => by simp at hf⟩
    · have hgt := (newCap_gt (cap := s.cap) hlt).1
      rw [if_pos (by omega)]
      simp only [hc, ne_eq, not_true, if_false]
      rw [hc] at hgt
      refine ⟨_, rfl, .vec rfl _ rfl (by simp) hgt
        ⟨fun i hi => ?_, fun i _ => hm0 i⟩, rfl, rfl, fun _ => ⟨by simp, hgt⟩⟩
      rw [hm0 i]
      simp at hi
      simp [hi]
  | vec h v hv hc hmc r =>
    unfold fixup
    rw [h, if_pos (by rfl), hv]
    split
    · obtain ⟨t, val, h1, h2⟩ := vecToRbt_spec r (s.max + 1) 0 .leaf (fun _ => none) (by omega)
        (treeRep_congr treeRep_empty fun i => by simp)
      simp only [h1]
      refine ⟨_, rfl, .tree rfl (treeRep_congr h2 fun i => ?_), rfl, rfl, fun hf => by simp at hf⟩
      split
      · rfl
      · exact (hn i (by omega)).symm
    · split
      · rename_i hge
        have hgt := (newCap_gt (cap := s.cap) hlt).1
        refine ⟨_, rfl, .vec rfl _ rfl (by simp; omega) hgt ⟨fun i hi => ?_, fun i hi => ?_⟩,
          rfl, rfl, fun _ => ⟨by simp, hgt⟩⟩
        · by_cases hi' : i < v.length
          · rw [List.getElem?_append_left hi']; exact r.cell i hi'
          · rw [List.getElem?_append_right (by omega), r.out i (by omega)]
            simp at hi
            rw [List.getElem?_replicate, if_pos (by omega)]
        · exact r.out i (by simp at hi; omega)
      · rename_i hge
        exact ⟨_, rfl, .vec rfl v rfl hc (by simp; omega) r, rfl, rfl, fun _ => ⟨by simp, by simp; omega⟩⟩

/-! ### The whole invariant -/

/-- `m` has `n` indices. -/
def Count (m : Nat → Option α) (n : Nat) : Prop :=
  ∃ ks : List Nat, ks.Nodup ∧ (∀ i, i ∈ ks ↔ m i ≠ none) ∧ n = ks.length

/-- The store represents `m`. -/
structure Inv (s : Store α) (m : Nat → Option α) : Prop where
  rep : Rep s m
  count : Count m s.num
  small : ∀ i, m i ≠ none → i < 2 ^ 32 - 1
  le : ∀ i, m i ≠ none → i ≤ s.max
  top : s.max = 0 ∨ m s.max ≠ none

theorem inv_empty : Inv (empty : Store α) (fun _ => none) :=
  ⟨.null rfl rfl rfl fun _ => rfl, ⟨[], by simp, by simp, rfl⟩, by simp, by simp, Or.inl rfl⟩

theorem inv_max {s : Store α} {m : Nat → Option α} (h : Inv s m) : s.max < 2 ^ 32 - 1 := by
  rcases h.top with e | e
  · omega
  · exact h.small _ e

theorem nodup_le : ∀ (n : Nat) (l : List Nat), l.Nodup → (∀ x ∈ l, x < n) → l.length ≤ n
  | 0, l, _, h => by
    cases l with
    | nil => simp
    | cons a l => have := h a (by simp); omega
  | n + 1, l, hn, h => by
    have h1 : (l.erase n).length ≤ n := by
      refine nodup_le n _ (hn.erase n) fun x hx => ?_
      have h2 := h x (List.mem_of_mem_erase hx)
      have h3 : x ≠ n := by
        rintro rfl
        exact (List.Nodup.not_mem_erase hn) hx
      omega
    have := List.length_erase_le (a := n) (l := l)
    by_cases hm : n ∈ l
    · rw [List.length_erase_of_mem hm] at h1
      omega
    · rw [List.erase_of_not_mem hm] at h1; omega

theorem lookup_spec {s : Store α} {m : Nat → Option α} (h : Inv s m) (i : Nat) :
    lookup s i = some (m i) := by
  have hn : s.max < i → m i = none := by
    intro hi
    cases e : m i with
    | none => rfl
    | some p => have := h.le i (by simp [e]); omega
  unfold lookup
  cases h.rep with
  | tree hr t =>
    rw [hr, if_pos rfl]
    split
    · rename_i hf
      have := (t.mem i).1 ((find_iff t.sorted).1 hf)
      rw [t.eq i this]
      cases e : m i with
      | none => exact absurd e this
      | some p => rfl
    · rename_i hf
      rw [find_iff t.sorted, t.mem] at hf
      simp at hf
      rw [hf]
  | null hr hv hc hm => rw [hr]; simp [hc, hm i]
  | vec hr v hv hc hmc r =>
    rw [hr, if_neg (by simp), if_pos (by omega)]
    split
    · rename_i hi; rw [hn hi]
    · rw [hv]; exact r.cell i (by omega)

/-- A function changed at one place. -/
def upd (m : Nat → Option α) (i : Nat) (x : Option α) : Nat → Option α := fun k => if k = i then x else m k

/-- What `prop_add` does. -/
theorem add_spec {s : Store α} {m : Nat → Option α} (h : Inv s m) {i : Nat} {p : α} (hi : m i = none)
    (hlt : i < 2 ^ 32 - 1) :
    (s.rbt = true ∧ s.tree = .leaf ∧ i < 3 → add s i p = none) ∧
    (¬ (s.rbt = true ∧ s.tree = .leaf ∧ i < 3) →
      ∃ s', add s i p = some s' ∧ Inv s' (upd m i (some p))) := by
  obtain ⟨ks, hk1, hk2, hk3⟩ := h.count
  have hik : i ∉ ks := by rw [hk2]; simp [hi]
  have hle := nodup_le (2 ^ 32 - 1) (i :: ks) (List.nodup_cons.2 ⟨hik, hk1⟩) (by
    intro x hx
    rcases List.mem_cons.1 hx with rfl | hx
    · exact hlt
    · exact h.small x ((hk2 x).1 hx))
  have hnum : u32 (s.num + 1) = s.num + 1 := Nat.mod_eq_of_lt (by simp at hle; omega)
  have hmx := inv_max h
  have hM : Nat.max i s.max < 2 ^ 32 - 1 := Nat.max_lt.2 ⟨hlt, hmx⟩
  -- the trap
  have htrap : Trap s (s.num + 1) (Nat.max i s.max) ↔ (s.rbt = true ∧ s.tree = .leaf ∧ i < 3) := by
    constructor
    · rintro ⟨h1, h2, h3⟩
      refine ⟨h1, h2, ?_⟩
      cases h.rep with
      | tree _ t =>
        have hm0 : ∀ j, m j = none := by
          intro j
          cases e : m j with
          | none => rfl
          | some p => have := (t.mem j).2 (by simp [e]); simp [h2, tkeys, RBT.Spec.keys] at this
        have : ks = [] := by
          cases ks with
          | nil => rfl
          | cons a ks => exact absurd (hm0 a) ((hk2 a).1 (by simp))
        rw [hk3, this] at h3
        have : i ≤ Nat.max i s.max := Nat.le_max_left ..
        simp [u32] at h3
        omega
      | null hr => simp [h1] at hr
      | vec hr => simp [h1] at hr
    · rintro ⟨h1, h2, h3⟩
      refine ⟨h1, h2, ?_⟩
      cases h.rep with
      | tree _ t =>
        have hm0 : ∀ j, m j = none := by
          intro j
          cases e : m j with
          | none => rfl
          | some p => have := (t.mem j).2 (by simp [e]); simp [h2, tkeys, RBT.Spec.keys] at this
        have hnil : ks = [] := by
          cases ks with
          | nil => rfl
          | cons a ks => exact absurd (hm0 a) ((hk2 a).1 (by simp))
        have hmax0 : s.max = 0 := by
          rcases h.top with e | e
          · exact e
          · exact absurd (hm0 _) e
        rw [hk3, hnil, hmax0]
        simp [u32]
        omega
      | null hr => simp [h1] at hr
      | vec hr => simp [h1] at hr
  constructor
  · intro hb
    obtain ⟨s', h1, h2, h3⟩ := fixup_trap (htrap.2 hb)
    unfold add
    rw [hnum, h1]
    simp [h2, h3]
  · intro hb
    obtain ⟨s', h1, h2, h3, h4, h5⟩ := fixup_spec h.rep h.le (num := s.num + 1) (max := Nat.max i s.max)
      (Nat.le_max_right ..) hM (fun c => hb (htrap.1 c))
    unfold add
    rw [hnum, h1]
    simp only
    have hiM : i ≤ Nat.max i s.max := Nat.le_max_left ..
    have common : ∀ s'' : Store α, Rep s'' (upd m i (some p)) → s''.num = s'.num → s''.max = s'.max →
        Inv s'' (upd m i (some p)) := by
      intro s'' hr hn hmax
      refine ⟨hr, ⟨i :: ks, List.nodup_cons.2 ⟨hik, hk1⟩, fun j => ?_, by rw [hn, h3, hk3]; rfl⟩,
        fun j hj => ?_, fun j hj => ?_, Or.inr ?_⟩
      · simp only [List.mem_cons, upd]
        split
        · rename_i e; simp [e]
        · rename_i e; rw [← hk2 j]; simp [e]
      · simp only [upd] at hj
        split at hj
        · rename_i e; omega
        · exact h.small j hj
      · rw [hmax, h4]
        simp only [upd] at hj
        split at hj
        · rename_i e; omega
        · exact Nat.le_trans (h.le j hj) (Nat.le_max_right ..)
      · rw [hmax, h4]
        simp only [upd]
        split
        · simp
        · rename_i e
          have h6 : Nat.max i s.max = s.max := by
            rcases Nat.le_total i s.max with c | c
            · exact Nat.max_eq_right c
            · exact absurd (Nat.max_eq_left c) e
          rw [h6]
          rcases h.top with e' | e'
          · exfalso; apply e; rw [h6]; have := Nat.le_max_left i s.max; omega
          · exact e'
    cases h2 with
    | tree hr t =>
      rw [hr, if_pos rfl]
      obtain ⟨f1, t', f2, f3⟩ := treeRep_insert t (p := p) hi
      rw [f1, f2]
      exact ⟨_, rfl, common _ (.tree rfl f3) rfl rfl⟩
    | null hr hv => exact absurd hv (h5 hr).1
    | vec hr v hv hc hmc r =>
      rw [hr, hv]
      simp only [Bool.false_eq_true, if_false]
      have := (h5 hr).2
      rw [if_pos (by omega)]
      refine ⟨_, rfl, common _ (.vec rfl _ rfl (by simpa using hc) hmc ⟨fun j hj => ?_, fun j hj => ?_⟩) rfl rfl⟩
      · simp only [List.length_set] at hj
        simp only [upd]
        by_cases e : j = i
        · subst e; simp [hj]
        · rw [List.getElem?_set_ne (fun c => e c.symm), if_neg e]; exact r.cell j hj
      · simp only [List.length_set] at hj
        simp only [upd]
        rw [if_neg (by omega)]
        exact r.out j hj

/-- A change of a property. -/
theorem update_spec {s : Store α} {m : Nat → Option α} (h : Inv s m) {i : Nat} {p : α} (hi : m i ≠ none) :
    ∃ s', update s i p = some s' ∧ Inv s' (upd m i (some p)) := by
  have hmem : ∀ j, upd m i (some p) j ≠ none ↔ m j ≠ none := by
    intro j
    simp only [upd]
    split
    · rename_i e; simp [e, hi]
    · rfl
  unfold update
  rw [lookup_spec h]
  obtain ⟨q, hq⟩ := Option.ne_none_iff_exists'.1 hi
  rw [hq]
  simp only
  have common : ∀ s'' : Store α, Rep s'' (upd m i (some p)) → s''.num = s.num → s''.max = s.max →
      Inv s'' (upd m i (some p)) := by
    intro s'' hr hn hmax
    obtain ⟨ks, hk1, hk2, hk3⟩ := h.count
    refine ⟨hr, ⟨ks, hk1, fun j => by rw [hmem, hk2], by rw [hn, hk3]⟩, fun j hj => h.small j ((hmem j).1 hj),
      fun j hj => ?_, ?_⟩
    · rw [hmax]; exact h.le j ((hmem j).1 hj)
    · rw [hmax]
      rcases h.top with e | e
      · exact Or.inl e
      · exact Or.inr ((hmem _).2 e)
  cases h.rep with
  | tree hr t =>
    rw [hr, if_pos rfl]
    refine ⟨_, rfl, common _ (.tree rfl ⟨t.whole, t.sorted, fun j => by rw [hmem, t.mem], fun j hj => ?_⟩) rfl rfl⟩
    simp only [upd]
    split
    · rfl
    · exact t.eq j ((hmem j).1 hj)
  | null hr hv hc hm => exact absurd (hm i) hi
  | vec hr v hv hc hmc r =>
    rw [hr, if_neg (by simp)]
    have hiv : i < v.length := by have := h.le i hi; omega
    refine ⟨_, rfl, common _ (.vec rfl (v.set i (some p)) (by simp [hv]) (by simpa using hc) hmc
      ⟨fun j hj => ?_, fun j hj => ?_⟩) rfl rfl⟩
    · simp only [List.length_set] at hj
      simp only [upd]
      by_cases e : j = i
      · subst e; simp [hj]
      · rw [List.getElem?_set_ne (fun c => e c.symm), if_neg e]; exact r.cell j hj
    · simp only [List.length_set] at hj
      simp only [upd]
      rw [if_neg (by omega)]
      exact r.out j hj

theorem lastLive_spec {v : List (Option α)} {m : Nat → Option α} (hv : VecRep v m) :
    ∀ n, n < v.length → ∃ k, lastLive v n = some k ∧ k ≤ n ∧ (∀ j, k < j → j ≤ n → m j = none) ∧
      (k = 0 ∨ m k ≠ none)
  | 0, _ => ⟨0, rfl, Nat.le_refl _, fun j h1 h2 => by omega, Or.inl rfl⟩
  | n + 1, h => by
    unfold lastLive
    rw [hv.cell (n + 1) h]
    cases e : m (n + 1) with
    | none =>
      obtain ⟨k, h1, h2, h3, h4⟩ := lastLive_spec hv n (by omega)
      refine ⟨k, h1, by omega, fun j hj1 hj2 => ?_, h4⟩
      by_cases hj : j = n + 1
      · rw [hj, e]
      · exact h3 j hj1 (by omega)
    | some p => exact ⟨n + 1, rfl, Nat.le_refl _, fun j h1 h2 => by omega, Or.inr (by simp [e])⟩

/-- `update_array_item_max`, when `max` may be too large. -/
theorem updateMax_spec {s : Store α} {m : Nat → Option α} (hr : Rep s m) (hle : ∀ i, m i ≠ none → i ≤ s.max)
    (hnull : s.vec = none → s.rbt = false → s.max = 0) :
    ∃ s', updateMax s = some s' ∧ Rep s' m ∧ s'.num = s.num ∧ s'.rbt = s.rbt ∧ s'.tree = s.tree ∧
      s'.max ≤ s.max ∧ (∀ i, m i ≠ none → i ≤ s'.max) ∧ (s'.max = 0 ∨ m s'.max ≠ none) := by
  unfold updateMax
  cases hr with
  | tree h t =>
    rw [h, if_pos rfl, RBT.last_eq]
    have hs := t.sorted
    rcases List.eq_nil_or_concat (tkeys s.tree) with e | ⟨a, y, e⟩
    · rw [show RBT.Spec.keys s.tree = [] from e]
      refine ⟨_, rfl, .tree rfl t, rfl, rfl, rfl, Nat.zero_le _, fun i hi => ?_, Or.inl rfl⟩
      have := (t.mem i).2 hi
      rw [e] at this; simp at this
    · have e' : RBT.Spec.keys s.tree = a ++ [y] := by simpa using e
      rw [e']
      simp only [List.getLast?_append, List.getLast?_singleton, Option.some_or]
      rw [e, List.concat_eq_append, List.pairwise_append] at hs
      have hy : m y ≠ none := (t.mem y).1 (by rw [e]; simp)
      refine ⟨_, rfl, .tree rfl t, rfl, rfl, rfl, hle y hy, fun i hi => ?_, Or.inr hy⟩
      have := (t.mem i).2 hi
      rw [e] at this
      simp at this
      rcases this with c | c
      · exact Nat.le_of_lt (hs.2.2 i c y (by simp))
      · exact Nat.le_of_eq c
  | null h hv hc hm0 =>
    have h0 := hnull hv h
    rw [h, hv]
    simp only [Bool.false_eq_true, if_false]
    rw [if_pos h0]
    exact ⟨s, rfl, .null h hv hc hm0, rfl, h.symm ▸ h, rfl, Nat.le_refl _, hle, Or.inl h0⟩
  | vec h v hv hc hmc r =>
    obtain ⟨k, h1, h2, h3, h4⟩ := lastLive_spec r s.max (by omega)
    rw [h, hv]
    simp only [Bool.false_eq_true, if_false, h1]
    refine ⟨_, rfl, .vec rfl v rfl hc (by simp; omega) r, rfl, rfl, rfl, h2, fun i hi => ?_, h4⟩
    rcases Nat.lt_or_ge k i with c | c
    · exact absurd (h3 i c (hle i hi)) hi
    · exact c

/-- What `prop_delete` does. -/
theorem delete_spec {s : Store α} {m : Nat → Option α} (h : Inv s m) {i : Nat} (hi : m i ≠ none) :
    ∃ s', delete s i = some s' ∧ Inv s' (upd m i none) := by
  obtain ⟨ks, hk1, hk2, hk3⟩ := h.count
  have hik : i ∈ ks := (hk2 i).2 hi
  have hpos : 0 < ks.length := List.length_pos_of_mem hik
  have hle := nodup_le (2 ^ 32 - 1) ks hk1 (fun x hx => h.small x ((hk2 x).1 hx))
  have hnum : u32 (s.num + (2 ^ 32 - 1)) = s.num - 1 := by unfold u32; omega
  have hmx := inv_max h
  have hne : ∀ j, upd m i none j ≠ none ↔ j ≠ i ∧ m j ≠ none := by
    intro j; simp only [upd]; split
    · rename_i e; simp [e]
    · rename_i e; simp [e]
  -- after the first step
  have step1 : ∃ s1 : Store α, removeAt s i = some s1 ∧
      Rep s1 (upd m i none) ∧ s1.num = s.num ∧ s1.max = s.max ∧ (s1.rbt = false → s1.vec ≠ none) := by
    unfold removeAt
    cases h.rep with
    | tree hr t =>
      rw [hr, if_pos rfl]
      have hf : find i s.tree = true := (find_iff t.sorted).2 ((t.mem i).2 hi)
      obtain ⟨t', f1, f2⟩ := treeRep_remove t i
      rw [hf, f1]
      exact ⟨_, rfl, .tree rfl f2, rfl, rfl, fun e => by simp at e⟩
    | null hr hv hc hm => exact absurd (hm i) hi
    | vec hr v hv hc hmc r =>
      have hiv : i < v.length := by have := h.le i hi; omega
      rw [hr, hv]
      simp only [Bool.false_eq_true, if_false]
      rw [if_pos hiv]
      refine ⟨_, rfl, .vec rfl _ rfl (by simpa using hc) hmc ⟨fun j hj => ?_, fun j hj => ?_⟩, rfl, rfl, fun _ => by simp⟩
      · simp only [List.length_set] at hj
        simp only [upd]
        by_cases e : j = i
        · subst e; simp [hj]
        · rw [List.getElem?_set_ne (fun c => e c.symm), if_neg e]; exact r.cell j hj
      · simp only [List.length_set] at hj
        simp only [upd]
        rw [if_neg (by omega)]
        exact r.out j hj
  obtain ⟨s1, e1, r1, n1, m1, v1⟩ := step1
  have hle1 : ∀ j, upd m i none j ≠ none → j ≤ s1.max := fun j hj => by
    rw [m1]; exact h.le j ((hne j).1 hj).2
  have step2 : ∃ s2 : Store α, (if i = s1.max then updateMax s1 else some s1) = some s2 ∧ Rep s2 (upd m i none) ∧
      s2.num = s.num ∧ s2.max ≤ s.max ∧ (∀ j, upd m i none j ≠ none → j ≤ s2.max) ∧
      (s2.max = 0 ∨ upd m i none s2.max ≠ none) := by
    by_cases c : i = s1.max
    · rw [if_pos c]
      obtain ⟨s2, f1, f2, f3, f4, f5, f6, f7, f8⟩ := updateMax_spec r1 hle1 (fun a b => absurd a (v1 b))
      exact ⟨s2, f1, f2, by rw [f3, n1], by omega, f7, f8⟩
    · rw [if_neg c]
      refine ⟨s1, rfl, r1, n1, by omega, hle1, ?_⟩
      rcases h.top with e | e
      · exact Or.inl (by omega)
      · refine Or.inr ((hne _).2 ⟨fun x => c x.symm, ?_⟩)
        rw [m1]; exact e
  obtain ⟨s2, e2, r2, n2, m2, l2, t2⟩ := step2
  have hnotrap : ¬ Trap s2 (s.num - 1) s2.max := by
    rintro ⟨c1, c2, c3⟩
    cases r2 with
    | tree _ t =>
      have : ks.erase i = [] := by
        cases hks : ks.erase i with
        | nil => rfl
        | cons a l =>
          have ha : a ∈ ks.erase i := by rw [hks]; simp
          have ha1 : a ≠ i := fun e => by subst e; exact hk1.not_mem_erase ha
          have ha2 := (hk2 a).1 (List.mem_of_mem_erase ha)
          have := (t.mem a).2 ((hne a).2 ⟨ha1, ha2⟩)
          rw [c2] at this; simp [tkeys, RBT.Spec.keys] at this
      have hlen := List.length_erase_of_mem hik
      rw [this] at hlen
      simp at hlen
      rw [show s.num - 1 = 0 by omega] at c3
      simp [u32] at c3
    | null hr => simp [c1] at hr
    | vec hr => simp [c1] at hr
  obtain ⟨s3, g1, g2, g3, g4, g5⟩ := fixup_spec r2 l2 (num := s.num - 1) (max := s2.max) (Nat.le_refl _)
    (by omega) hnotrap
  refine ⟨s3, ?_, g2, ⟨ks.erase i, hk1.erase i, fun j => ?_, ?_⟩, fun j hj => h.small j ((hne j).1 hj).2, ?_, ?_⟩
  · unfold delete
    rw [e1]
    simp only
    rw [e2]
    simp only
    rw [n2, hnum]
    exact g1
  · rw [hne, ← hk2]
    constructor
    · intro hj; exact ⟨fun e => by subst e; exact hk1.not_mem_erase hj, List.mem_of_mem_erase hj⟩
    · rintro ⟨a, b⟩; exact (List.mem_erase_of_ne a).2 b
  · rw [g3, List.length_erase_of_mem hik]; omega
  · rw [g4]; exact l2
  · rw [g4]; exact t2

/-! ### Cutting off the end -/

theorem count_upd {m : Nat → Option α} {c i : Nat} (h : Count m c) (hi : m i ≠ none) :
    0 < c ∧ Count (upd m i none) (c - 1) := by
  obtain ⟨ks, h1, h2, h3⟩ := h
  have hik : i ∈ ks := (h2 i).2 hi
  have hpos : 0 < ks.length := List.length_pos_of_mem hik
  refine ⟨by omega, ks.erase i, h1.erase i, fun j => ?_, by rw [List.length_erase_of_mem hik]; omega⟩
  simp only [upd]
  split
  · rename_i e
    subst e
    simp only [ne_eq, not_true, iff_false]
    exact h1.not_mem_erase
  · rename_i e
    rw [List.mem_erase_of_ne e, h2]

/-- The first index which is gone. -/
def bound (len : Nat) : Option Nat → Nat
  | none => len
  | some k => k + 1

/-- `m` without the indices from the bound on. -/
def cutMap (m : Nat → Option α) (len : Nat) (last : Option Nat) : Nat → Option α :=
  fun k => if k < bound len last then m k else none

theorem cutMap_self {m : Nat → Option α} {len : Nat} {last : Option Nat}
    (h : ∀ j, bound len last ≤ j → m j = none) : cutMap m len last = m := by
  funext k
  simp only [cutMap]
  split
  · rfl
  · exact (h k (by omega)).symm

/-- `last` is where the deletion from the end has to stop. -/
def CutOk (cfg : α → Bool) (m : Nat → Option α) (len : Nat) (last : Option Nat) : Prop :=
  (∀ k, last = some k → len ≤ k ∧ ∃ p, m k = some p ∧ cfg p = false) ∧
  ∀ j p, bound len last ≤ j → m j = some p → cfg p = true

/-- One more index deleted at the end. -/
theorem cut_step {cfg : α → Bool} {m : Nat → Option α} {len i : Nat} {p : α} {last : Option Nat}
    (hi : m i = some p) (hp : cfg p = true) (hlen : len ≤ i) (htop : ∀ j, m j ≠ none → j ≤ i)
    (h : CutOk cfg (upd m i none) len last) :
    CutOk cfg m len last ∧ cutMap (upd m i none) len last = cutMap m len last := by
  have hb : bound len last ≤ i := by
    cases last with
    | none => exact hlen
    | some k =>
      obtain ⟨_, q, hq, _⟩ := h.1 k rfl
      simp only [upd] at hq
      split at hq
      · cases hq
      · have := htop k (by simp [hq])
        simp only [bound]
        omega
  refine ⟨⟨fun k hk => ?_, fun j q hj hq => ?_⟩, ?_⟩
  · obtain ⟨h1, q, h2, h3⟩ := h.1 k hk
    simp only [upd] at h2
    split at h2
    · cases h2
    · exact ⟨h1, q, h2, h3⟩
  · by_cases e : j = i
    · subst e; rw [hi] at hq; cases hq; exact hp
    · exact h.2 j q hj (by simp [upd, e, hq])
  · funext k
    simp only [cutMap, upd]
    split
    · rw [if_neg (by omega)]
    · rfl

theorem cutTree_spec {cfg : α → Bool} {val : Nat → Option α} {len : Nat} :
    ∀ (f : Nat) (t : Tree) (m : Nat → Option α) (n c : Nat), TreeRep t val m → Count m c → c < f →
    ∃ t' d last, cutTree cfg val len f t n = some (t', n + d, last) ∧ TreeRep t' val (cutMap m len last) ∧
      d ≤ c ∧ Count (cutMap m len last) (c - d) ∧ CutOk cfg m len last
  | 0, _, _, _, c, _, _, hf => by omega
  | f + 1, t, m, n, c, ht, hc, hf => by
    have done : ∀ last : Option Nat, cutMap m len last = m → TreeRep t val (cutMap m len last) ∧ 0 ≤ c ∧
        Count (cutMap m len last) (c - 0) := by
      intro last e
      rw [e]; exact ⟨ht, Nat.zero_le _, hc⟩
    unfold cutTree
    rw [RBT.last_eq]
    have hs := ht.sorted
    rcases List.eq_nil_or_concat (tkeys t) with e | ⟨a, y, e⟩
    · rw [show RBT.Spec.keys t = [] from e]
      have hm : ∀ j, m j = none := by
        intro j
        cases e' : m j with
        | none => rfl
        | some p => have := (ht.mem j).2 (by simp [e']); rw [e] at this; simp at this
      have hcut : cutMap m len none = m := by
        funext k; simp [cutMap, hm]
      obtain ⟨d1, d2, d3⟩ := done none hcut
      exact ⟨t, 0, none, rfl, d1, d2, d3, by simp, fun j p _ hp => by simp [hm] at hp⟩
    · have e' : RBT.Spec.keys t = a ++ [y] := by simpa using e
      rw [e']
      simp only [List.getLast?_append, List.getLast?_singleton, Option.some_or]
      rw [e, List.concat_eq_append, List.pairwise_append] at hs
      have hy : m y ≠ none := (ht.mem y).1 (by rw [e]; simp)
      have htop : ∀ j, m j ≠ none → j ≤ y := by
        intro j hj
        have := (ht.mem j).2 hj
        rw [e] at this
        simp at this
        rcases this with c | c
        · exact Nat.le_of_lt (hs.2.2 j c y (by simp))
        · exact Nat.le_of_eq c
      have hgone : ∀ j, y < j → m j = none := by
        intro j hj
        cases e' : m j with
        | none => rfl
        | some p => have := htop j (by simp [e']); omega
      obtain ⟨p, hp⟩ := Option.ne_none_iff_exists'.1 hy
      split
      · rename_i hlt
        have hcut : cutMap m len none = m :=
            cutMap_self fun j hj => hgone j (by simp only [bound] at hj; omega)
        obtain ⟨d1, d2, d3⟩ := done none hcut
        exact ⟨t, 0, none, rfl, d1, d2, d3, by simp, fun j p hj hp => by
          rw [hgone j (by simp [bound] at hj; omega)] at hp; cases hp⟩
      · rename_i hge
        rw [ht.eq y hy, hp]
        simp only
        cases hcp : cfg p with
        | false =>
          have hcut : cutMap m len (some y) = m :=
            cutMap_self fun j hj => hgone j (by simp only [bound] at hj; omega)
          obtain ⟨d1, d2, d3⟩ := done (some y) hcut
          refine ⟨t, 0, some y, rfl, d1, d2, d3, fun k hk => ?_, fun j q hj hq => ?_⟩
          · cases hk; exact ⟨by omega, p, hp, hcp⟩
          · rw [hgone j (by simp [bound] at hj; omega)] at hq; cases hq
        | true =>
          obtain ⟨t1, r1, r2⟩ := treeRep_remove ht y
          simp only [Bool.not_true, Bool.false_eq_true, if_false, r1]
          obtain ⟨c1, c2⟩ := count_upd hc hy
          obtain ⟨t', d, last, g1, g2, g3, g4, g5⟩ := cutTree_spec (cfg := cfg) (len := len) f t1 (upd m y none)
            (n + 1) (c - 1) r2 c2 (by omega)
          obtain ⟨h1, h2⟩ := cut_step hp hcp (by omega) htop g5
          rw [h2] at g2 g4
          refine ⟨t', d + 1, last, by rw [g1, show n + 1 + d = n + (d + 1) by omega], g2, by omega, ?_, h1⟩
          rw [show c - (d + 1) = c - 1 - d by omega]; exact g4

theorem cutVec_spec {cfg : α → Bool} {len : Nat} :
    ∀ (i : Nat) (v : List (Option α)) (m : Nat → Option α) (n c : Nat), VecRep v m → i ≤ v.length →
    (∀ j, m j ≠ none → j < i) → Count m c →
    ∃ v' d last, cutVec cfg len i v n = some (v', n + d, last) ∧ v'.length = v.length ∧
      VecRep v' (cutMap m len last) ∧
      d ≤ c ∧ Count (cutMap m len last) (c - d) ∧ CutOk cfg m len last
  | 0, v, m, n, c, hv, hi, htop, hc => by
    have hm : ∀ j, m j = none := by
      intro j
      cases e' : m j with
      | none => rfl
      | some p => have := htop j (by simp [e']); omega
    have hcut : cutMap m len none = m := by
      funext k; simp [cutMap, hm]
    exact ⟨v, 0, none, rfl, rfl, by rw [hcut]; exact hv, Nat.zero_le _, by rw [hcut]; exact hc, by simp,
      fun j p _ hp => by simp [hm] at hp⟩
  | i + 1, v, m, n, c, hv, hi, htop, hc => by
    have hgone : ∀ j, i < j → m j = none := by
      intro j hj
      cases e' : m j with
      | none => rfl
      | some p => have := htop j (by simp [e']); omega
    unfold cutVec
    split
    · rename_i hge
      rw [hv.cell i (by omega)]
      cases hp : m i with
      | none =>
        simp only
        refine cutVec_spec i v m n c hv (by omega) (fun j hj => ?_) hc
        have := htop j hj
        rcases Nat.lt_or_ge j i with c | c
        · exact c
        · rw [show j = i by omega] at hj; exact absurd hp hj
      | some p =>
        simp only
        cases hcp : cfg p with
        | false =>
          have hcut : cutMap m len (some i) = m :=
            cutMap_self fun j hj => hgone j (by simp only [bound] at hj; omega)
          refine ⟨v, 0, some i, rfl, rfl, by rw [hcut]; exact hv, Nat.zero_le _, by rw [hcut]; exact hc,
            fun k hk => ?_, fun j q hj hq => ?_⟩
          · cases hk; exact ⟨hge, p, hp, hcp⟩
          · rw [hgone j (by simp [bound] at hj; omega)] at hq; cases hq
        | true =>
          simp only [Bool.not_true, Bool.false_eq_true, if_false]
          obtain ⟨c1, c2⟩ := count_upd hc (i := i) (by simp [hp])
          have hv' : VecRep (v.set i none) (upd m i none) := by
            refine ⟨fun j hj => ?_, fun j hj => ?_⟩
            · simp only [List.length_set] at hj
              simp only [upd]
              by_cases e : j = i
              · subst e; simp [hj]
              · rw [List.getElem?_set_ne (fun c => e c.symm), if_neg e]; exact hv.cell j hj
            · simp only [List.length_set] at hj
              simp only [upd]
              rw [if_neg (by omega)]
              exact hv.out j hj
          obtain ⟨v', d, last, g1, g0, g2, g3, g4, g5⟩ := cutVec_spec (cfg := cfg) (len := len) i (v.set i none)
            (upd m i none) (n + 1) (c - 1) hv' (by simp; omega) (fun j hj => by
              simp only [upd] at hj
              split at hj
              · exact absurd rfl hj
              · have := htop j hj; omega) c2
          obtain ⟨h1, h2⟩ := cut_step hp hcp (by omega) (fun j hj => by have := htop j hj; omega) g5
          rw [h2] at g2 g4
          refine ⟨v', d + 1, last, by rw [g1, show n + 1 + d = n + (d + 1) by omega], by simpa using g0, g2, by omega, ?_, h1⟩
          rw [show c - (d + 1) = c - 1 - d by omega]; exact g4
    · rename_i hge
      have hcut : cutMap m len none = m :=
            cutMap_self fun j hj => hgone j (by simp only [bound] at hj; omega)
      exact ⟨v, 0, none, rfl, rfl, by rw [hcut]; exact hv, Nat.zero_le _, by rw [hcut]; exact hc, by simp,
        fun j p hj hp => by rw [hgone j (by simp [bound] at hj; omega)] at hp; cases hp⟩

/-- What `rjs_ordinary_object_delete_from_index` does. -/
theorem deleteFrom_spec {s : Store α} {m : Nat → Option α} (h : Inv s m) (cfg : α → Bool) (len : Nat) :
    ∃ s' last, deleteFrom cfg s len = some (s', last) ∧ Inv s' (cutMap m len last) ∧ CutOk cfg m len last := by
  have hmx := inv_max h
  have hnumlt : s.num < 2 ^ 32 := by
    obtain ⟨ks, h1, h2, h3⟩ := h.count
    have := nodup_le (2 ^ 32 - 1) ks h1 (fun x hx => h.small x ((h2 x).1 hx))
    omega
  have hsub : ∀ last j, cutMap m len last j ≠ none → m j ≠ none := by
    intro last j hj
    simp only [cutMap] at hj
    split at hj
    · exact hj
    · exact absurd rfl hj
  have step1 : ∃ s1 d last, cut cfg s len = some (s1, d, last) ∧ Rep s1 (cutMap m len last) ∧
      s1.num = s.num ∧ s1.max = s.max ∧ d ≤ s.num ∧ Count (cutMap m len last) (s.num - d) ∧
      CutOk cfg m len last := by
    unfold cut
    cases h.rep with
    | tree hr t =>
      obtain ⟨t', d, last, g1, g2, g3, g4, g5⟩ := cutTree_spec (cfg := cfg) (len := len) (s.num + 1) s.tree m 0
        s.num t h.count (by omega)
      rw [hr, if_pos rfl, g1, Nat.zero_add]
      exact ⟨_, d, last, rfl, .tree rfl g2, rfl, rfl, g3, g4, g5⟩
    | null hr hv hc hm =>
      rw [hr, hv]
      have hcut : cutMap m len none = m := by
        funext k; simp [cutMap, hm]
      exact ⟨s, 0, none, rfl, by rw [hcut]; exact .null hr hv hc hm, rfl, rfl, Nat.zero_le _,
        by rw [hcut]; exact h.count, by simp, fun j p _ hp => by simp [hm] at hp⟩
    | vec hr v hv hc hmc r =>
      obtain ⟨v', d, last, g1, g0, g2, g3, g4, g5⟩ := cutVec_spec (cfg := cfg) (len := len) (s.max + 1) v m 0 s.num
        r (by omega) (fun j hj => by have := h.le j hj; omega) h.count
      rw [hr, hv]
      simp only [Bool.false_eq_true, if_false, g1, Nat.zero_add]
      exact ⟨_, d, last, rfl, .vec rfl v' rfl (by show v'.length = s.cap; omega) hmc g2, rfl, rfl, g3, g4, g5⟩
  obtain ⟨s1, d, last, e1, r1, n1, m1, d1, c1, k1⟩ := step1
  obtain ⟨s2, f1, f2, f3, f4, f5, f6, f7, f8⟩ := updateMax_spec r1
    (fun j hj => by rw [m1]; exact h.le j (hsub _ j hj)) (fun a b => by
      rw [m1]
      rcases h.top with e | e
      · exact e
      · exfalso
        revert e1
        unfold cut
        cases h.rep with
        | tree hr t =>
          rw [hr, if_pos rfl]
          split
          · simp
          · intro e1
            simp only [Option.some.injEq, Prod.mk.injEq] at e1
            rw [← e1.1] at b
            simp at b
        | null hr hv hc hm => exact absurd (hm _) e
        | vec hr v hv hc hmc r =>
          rw [hr, hv]
          simp only [Bool.false_eq_true, if_false]
          split
          · simp
          · intro e1
            simp only [Option.some.injEq, Prod.mk.injEq] at e1
            rw [← e1.1] at a
            simp at a)
  have hnum : u32 (s.num + (2 ^ 32 - d)) = s.num - d := by unfold u32; omega
  have hnotrap : ¬ Trap s2 (s.num - d) s2.max := by
    rintro ⟨c1', c2, c3⟩
    cases f2 with
    | tree _ t =>
      obtain ⟨ks, k1, k2, k3⟩ := c1
      have : ks = [] := by
        cases ks with
        | nil => rfl
        | cons a l =>
          have := (t.mem a).2 ((k2 a).1 (by simp))
          rw [c2] at this; simp [tkeys, RBT.Spec.keys] at this
      rw [this] at k3
      rw [k3] at c3
      simp [u32] at c3
    | null hr => simp [c1'] at hr
    | vec hr => simp [c1'] at hr
  obtain ⟨s3, g1, g2, g3, g4, g5⟩ := fixup_spec f2 f7 (num := s.num - d) (max := s2.max) (Nat.le_refl _)
    (by omega) hnotrap
  refine ⟨s3, last, ?_, ⟨g2, by rw [g3]; exact c1, fun j hj => h.small j (hsub _ j hj), by rw [g4]; exact f7,
    by rw [g4]; exact f8⟩, k1⟩
  unfold deleteFrom
  rw [e1]
  simp only [f1]
  rw [f3, n1, hnum, g1]

/-! ### The keys -/

theorem vecKeys_spec {v : List (Option α)} {m : Nat → Option α} (hv : VecRep v m) :
    ∀ (n i : Nat), i + n ≤ v.length → ∃ l, vecKeys v n i = some l ∧ l.Pairwise (· < ·) ∧
      ∀ j, j ∈ l ↔ i ≤ j ∧ j < i + n ∧ m j ≠ none
  | 0, i, _ => ⟨[], rfl, by simp, fun j => by simp; omega⟩
  | n + 1, i, h => by
    obtain ⟨l, h1, h2, h3⟩ := vecKeys_spec hv n (i + 1) (by omega)
    unfold vecKeys
    rw [hv.cell i (by omega)]
    simp only [h1]
    cases e : m i with
    | none =>
      refine ⟨l, rfl, h2, fun j => ?_⟩
      rw [h3]
      constructor
      · rintro ⟨a, b, c⟩; exact ⟨by omega, by omega, c⟩
      · rintro ⟨a, b, c⟩
        have : j ≠ i := fun x => by subst x; exact c e
        exact ⟨by omega, by omega, c⟩
    | some p =>
      refine ⟨i :: l, rfl, List.pairwise_cons.2 ⟨fun j hj => ?_, h2⟩, fun j => ?_⟩
      · have := (h3 j).1 hj; omega
      · rw [List.mem_cons, h3]
        constructor
        · rintro (a | ⟨a, b, c⟩)
          · subst a; exact ⟨by omega, by omega, by simp [e]⟩
          · exact ⟨by omega, by omega, c⟩
        · rintro ⟨a, b, c⟩
          by_cases x : j = i
          · exact Or.inl x
          · exact Or.inr ⟨by omega, by omega, c⟩

theorem keys_spec {s : Store α} {m : Nat → Option α} (h : Inv s m) :
    ∃ l, keys s = some l ∧ l.Pairwise (· < ·) ∧ ∀ j, j ∈ l ↔ m j ≠ none := by
  unfold keys
  cases h.rep with
  | tree hr t =>
    rw [hr, if_pos rfl]
    refine ⟨tkeys s.tree, ?_, t.sorted, t.mem⟩
    have hlen : (tkeys s.tree).length ≤ 2 ^ 32 - 1 := by
      refine nodup_le _ _ (t.sorted.imp (fun h => by omega)) fun x hx => h.small x ((t.mem x).1 hx)
    have := RBT.walk_next t.sorted (tkeys s.tree) [] (2 ^ 32 - (tkeys s.tree).length) rfl
    rw [RBT.first_eq]
    rw [show (tkeys s.tree).length + (2 ^ 32 - (tkeys s.tree).length) = 2 ^ 32 by omega] at this
    rw [this]
  | null hr hv hc hm =>
    rw [hr]
    exact ⟨[], by simp [hc], by simp, fun j => by simp [hm j]⟩
  | vec hr v hv hc hmc r =>
    obtain ⟨l, h1, h2, h3⟩ := vecKeys_spec r (s.max + 1) 0 (by omega)
    rw [hr, if_neg (by simp), if_pos (by omega), hv]
    refine ⟨l, h1, h2, fun j => ?_⟩
    rw [h3]
    constructor
    · exact fun a => a.2.2
    · intro a; have := h.le j a; exact ⟨by omega, by omega, a⟩

end Verif.PropStore

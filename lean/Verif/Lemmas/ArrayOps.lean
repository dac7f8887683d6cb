import Verif.Spec.ArrayOps
/-! Loops over objects all of whose properties can be changed. -/
namespace Verif.ArrayOps
open Spec

variable {V : Type}

/-- What is read at an index. -/
def val (o : Obj V) (i : Int) : Option V := (o.elem i).map Slot.val

/-- The part of `Plain` that loops keep. -/
structure Base (o : Obj V) : Prop where
  ext : o.ext = true
  lenWritable : o.lenWritable = true
  slots : ∀ k s, o.elem k = some s → s.writable = true ∧ s.configurable = true
  arrayEnd : o.array = true → ∀ k : Int, o.len ≤ k → k < 2 ^ 32 - 1 → o.elem k = none

theorem Spec.Plain.base {o : Obj V} (h : Plain o) : Base o := ⟨h.ext, h.lenWritable, h.slots, h.arrayEnd⟩

theorem Base.elem {o : Obj V} (h : Base o) (i : Int) :
    o.elem i = (val o i).map fun v => { val := v } := by
  unfold val
  cases he : o.elem i with
  | none => rfl
  | some s =>
    obtain ⟨h1, h2⟩ := h.slots i s he
    cases s
    simp_all

theorem val_none {o : Obj V} {i : Int} : val o i = none ↔ o.elem i = none := by
  unfold val; cases o.elem i <;> simp

theorem elem_eq {o o' : Obj V} (h : Base o) (h' : Base o') {i : Int} (hv : val o' i = val o i) :
    o'.elem i = o.elem i := by
  rw [h'.elem, h.elem, hv]

theorem has_eq (o : Obj V) (i : Int) : has o i = (val o i).isSome := by
  unfold has val; cases o.elem i <;> rfl

theorem get_eq [Inhabited V] (o : Obj V) (i : Int) : get o i = (val o i).getD default := by
  unfold get val; cases o.elem i <;> rfl

/-- `o'` comes from `o` by changes of elements below `hi`; `f` is what can be read. -/
structure Steps (o o' : Obj V) (f : Int → Option V) (hi : Int) : Prop where
  base : Base o'
  array : o'.array = o.array
  read : ∀ i, val o' i = f i
  lenGe : o.len ≤ o'.len
  lenLe : (o'.len : Int) ≤ max (o.len : Int) hi
  lenEq : o.array = false → o'.len = o.len

theorem Steps.refl {o : Obj V} (h : Base o) (hi : Int) : Steps o o (val o) hi :=
  ⟨h, rfl, fun _ => rfl, Nat.le_refl _, by omega, fun _ => rfl⟩

theorem Steps.congr {o o' : Obj V} {f g : Int → Option V} {hi hi' : Int} (h : Steps o o' f hi)
    (hfg : ∀ i, f i = g i) (hh : hi ≤ hi') : Steps o o' g hi' :=
  ⟨h.base, h.array, fun i => by rw [h.read, hfg], h.lenGe, by have := h.lenLe; omega, h.lenEq⟩

theorem Steps.trans {o o' o'' : Obj V} {f g : Int → Option V} {hi hi' : Int} (h : Steps o o' f hi)
    (h' : Steps o' o'' g hi') : Steps o o'' g (max hi hi') :=
  ⟨h'.base, h'.array.trans h.array, h'.read, Nat.le_trans h.lenGe h'.lenGe,
    by have := h.lenLe; have := h'.lenLe; omega,
    fun ha => by rw [h'.lenEq (by rw [h.array, ha]), h.lenEq ha]⟩

/-- Assignment to one element. -/
def upd (f : Int → Option V) (k : Int) (x : Option V) : Int → Option V :=
  fun i => if i = k then x else f i

theorem add_ok {o : Obj V} (h : Base o) (k : Int) (v : V) (hk : o.elem k = none) :
    ∃ o', add o k v = .ok o' ∧ Steps o o' (upd (val o) k (some v)) (k + 1) := by
  unfold add
  have hread : ∀ (o' : Obj V), (o'.elem = fun i => if i = k then some { val := v } else o.elem i) →
      ∀ i, val o' i = upd (val o) k (some v) i := by
    intro o' he i
    unfold val upd
    rw [he]
    by_cases hi : i = k
    · simp [hi]
    · simp [hi, val]
  have hslots : ∀ (o' : Obj V), (o'.elem = fun i => if i = k then some { val := v } else o.elem i) →
      ∀ i s, o'.elem i = some s → s.writable = true ∧ s.configurable = true := by
    intro o' he i s hs
    rw [he] at hs
    by_cases hi : i = k
    · simp only [hi, if_true, Option.some.injEq] at hs
      subst hs; exact ⟨rfl, rfl⟩
    · simp only [hi, if_false] at hs
      exact h.slots i s hs
  by_cases hc : (o.array && isIndex k && decide (o.len ≤ k)) = true
  · rw [if_pos hc]
    simp only [Bool.and_eq_true, decide_eq_true_eq, isIndex] at hc
    obtain ⟨⟨h1, h2, h3⟩, h4⟩ := hc
    refine ⟨_, by simp only [h.ext, h.lenWritable]; rfl, ?_⟩
    refine ⟨⟨h.ext, h.lenWritable, hslots _ rfl, ?_⟩, rfl, hread _ rfl, ?_, ?_, ?_⟩
    · intro _ i hi1 hi2
      simp only [Obj.put] at hi1 ⊢
      rw [if_neg (by omega)]
      exact h.arrayEnd h1 i (by omega) hi2
    · simp only; omega
    · simp only; omega
    · intro ha; rw [h1] at ha; cases ha
  · rw [if_neg hc]
    refine ⟨_, by simp only [h.ext]; rfl, ?_⟩
    refine ⟨⟨h.ext, h.lenWritable, hslots _ rfl, ?_⟩, rfl, hread _ rfl, Nat.le_refl _, ?_,
      fun _ => rfl⟩
    · intro ha i hi1 hi2
      simp only [Obj.put] at hi1 ha ⊢
      simp only [Bool.and_eq_true, decide_eq_true_eq, isIndex, ha, true_and] at hc
      rw [if_neg (by omega)]
      exact h.arrayEnd ha i (by omega) hi2
    · simp only [Obj.put]; omega

theorem put_steps {o : Obj V} (h : Base o) (k : Int) (x : Option V) (s : Slot V)
    (hs : o.elem k = some s) (o' : Obj V)
    (ho : o' = o.put k (x.map fun v => { val := v })) :
    Steps o o' (upd (val o) k x) (k + 1) := by
  subst ho
  refine ⟨⟨h.ext, h.lenWritable, ?_, ?_⟩, rfl, ?_, Nat.le_refl _, ?_, fun _ => rfl⟩
  · intro i t ht
    simp only [Obj.put] at ht
    by_cases hi : i = k
    · simp only [hi, if_true, Option.map_eq_some_iff] at ht
      obtain ⟨v, _, rfl⟩ := ht
      exact ⟨rfl, rfl⟩
    · simp only [hi, if_false] at ht
      exact h.slots i t ht
  · intro ha i hi1 hi2
    simp only [Obj.put] at hi1 ha ⊢
    have := h.arrayEnd ha i hi1 hi2
    by_cases hi : i = k
    · subst hi; rw [hs] at this; cases this
    · rw [if_neg hi]; exact this
  · intro i
    unfold val upd
    simp only [Obj.put]
    by_cases hi : i = k
    · simp only [hi, if_true]; cases x <;> rfl
    · simp only [hi, if_false]
  · simp only [Obj.put]; omega

theorem set_ok {o : Obj V} (h : Base o) (k : Int) (v : V) :
    ∃ o', set o k v = .ok o' ∧ Steps o o' (upd (val o) k (some v)) (k + 1) := by
  unfold set
  cases hk : o.elem k with
  | none => exact add_ok h k v hk
  | some s =>
    obtain ⟨h1, h2⟩ := h.slots k s hk
    simp only [h1, if_true]
    refine ⟨_, rfl, put_steps h k (some v) s hk _ ?_⟩
    cases s; simp_all

theorem create_ok {o : Obj V} (h : Base o) (k : Int) (v : V) :
    ∃ o', create o k v = .ok o' ∧ Steps o o' (upd (val o) k (some v)) (k + 1) := by
  unfold create
  cases hk : o.elem k with
  | none => exact add_ok h k v hk
  | some s =>
    obtain ⟨h1, h2⟩ := h.slots k s hk
    simp only [h2, if_true]
    exact ⟨_, rfl, put_steps h k (some v) s hk _ rfl⟩

theorem del_ok {o : Obj V} (h : Base o) (k : Int) :
    ∃ o', del o k = .ok o' ∧ Steps o o' (upd (val o) k none) (k + 1) := by
  unfold del
  cases hk : o.elem k with
  | none =>
    refine ⟨o, rfl, (Steps.refl h (k + 1)).congr ?_ (by omega)⟩
    intro i
    unfold upd
    by_cases hi : i = k
    · rw [if_pos hi, hi]; exact val_none.2 hk
    · rw [if_neg hi]
  | some s =>
    obtain ⟨h1, h2⟩ := h.slots k s hk
    simp only [h2, if_true]
    exact ⟨_, rfl, put_steps h k none s hk _ rfl⟩

theorem move_ok [Inhabited V] {o : Obj V} (h : Base o) (src dst : Int) :
    ∃ o', move src dst o = .ok o' ∧ Steps o o' (upd (val o) dst (val o src)) (dst + 1) := by
  unfold move
  rw [has_eq, get_eq]
  cases hv : val o src with
  | none => simpa using del_ok h dst
  | some v => simpa using set_ok h dst v

/-- Setting `length`. -/
theorem setLen_ok {o : Obj V} (h : Base o) (n : Nat) (hn : o.array = true → n < 2 ^ 32) :
    ∃ o', setLen o n = .ok o' ∧ Base o' ∧ o'.array = o.array ∧ o'.len = n ∧
      ∀ i, val o' i = if o.array = true ∧ (n : Int) ≤ i ∧ i < o.len then none else val o i := by
  unfold setLen
  rw [if_neg (by simp [h.lenWritable])]
  by_cases ha : o.array = true
  · rw [if_neg (by simp [ha]), if_neg (by have := hn ha; omega)]
    by_cases h1 : o.len ≤ n
    · rw [if_pos h1]
      refine ⟨_, rfl, ⟨h.ext, h.lenWritable, h.slots, ?_⟩, rfl, rfl, ?_⟩
      · intro _ k hk1 hk2
        exact h.arrayEnd ha k (by simp only at hk1; omega) hk2
      · intro i; rw [if_neg (by omega)]; rfl
    · rw [if_neg h1]
      have hst : stuck o n = false := by
        unfold stuck
        rw [List.any_eq_false]
        intro i _
        simp only [Bool.and_eq_true, decide_eq_true_eq, not_and]
        intro _
        cases he : o.elem i with
        | none => simp
        | some s => simp [(h.slots i s he).2]
      rw [hst]
      refine ⟨_, rfl, ⟨h.ext, h.lenWritable, ?_, ?_⟩, rfl, rfl, ?_⟩
      · intro k s hs
        simp only at hs
        split at hs
        · cases hs
        · exact h.slots k s hs
      · intro _ k hk1 hk2
        simp only at hk1 ⊢
        split
        · rfl
        · exact h.arrayEnd ha k (by omega) hk2
      · intro i
        unfold val
        simp only
        split
        · next hc => rw [if_pos ⟨ha, hc⟩]; rfl
        · next hc => rw [if_neg (fun x => hc x.2)]
  · rw [if_pos (by simp [ha])]
    refine ⟨_, rfl, ⟨h.ext, h.lenWritable, h.slots, ?_⟩, rfl, rfl, ?_⟩
    · intro hc; exact absurd hc ha
    · intro i; rw [if_neg (fun x => ha x.1)]; rfl

/-! ## Loops -/

theorem up_succ {σ : Type} (body : Int → σ → Except Err σ) (n : Nat) (k : Int) (s : σ) :
    up body (n + 1) k s = body k s >>= up body n (k + 1) := rfl

theorem down_succ {σ : Type} (body : Int → σ → Except Err σ) (n : Nat) (k : Int) (s : σ) :
    down body (n + 1) k s = body k s >>= down body n (k - 1) := rfl

theorem ok_bind {α β : Type} (a : α) (f : α → Except Err β) : (Except.ok a >>= f) = f a := rfl

/-- Moving elements towards the front, from the first to the last. -/
theorem moveUp [Inhabited V] (d e : Int) (hde : e ≤ d) (n : Nat) :
    ∀ (a : Int) (o : Obj V), Base o →
    ∃ o', up (fun k => move (k + d) (k + e)) n a o = .ok o' ∧
      Steps o o' (fun i => if a + e ≤ i ∧ i < a + e + n then val o (i - e + d) else val o i)
        (a + e + n) := by
  induction n with
  | zero =>
    intro a o h
    refine ⟨o, rfl, (Steps.refl h _).congr ?_ (Int.le_refl _)⟩
    intro i; rw [if_neg (by omega)]
  | succ n ih =>
    intro a o h
    obtain ⟨o1, h1, s1⟩ := move_ok h (a + d) (a + e)
    obtain ⟨o2, h2, s2⟩ := ih (a + 1) o1 s1.base
    refine ⟨o2, by rw [up_succ, h1, ok_bind, h2], (s1.trans s2).congr ?_ (by omega)⟩
    intro i
    simp only [s1.read, upd]
    by_cases hi : i = a + e
    · subst hi
      rw [if_neg (by omega), if_pos rfl, if_pos (by omega)]
      congr 1; omega
    · rw [if_neg (c := i = a + e) hi]
      by_cases hr : a + e ≤ i ∧ i < a + e + (n + 1 : Nat)
      · rw [if_pos (by omega), if_pos hr, if_neg (by omega)]
      · rw [if_neg (by omega), if_neg hr]

/-- Moving elements from a place that ends before the new one begins. -/
theorem moveApart [Inhabited V] (d e : Int) (n : Nat) :
    ∀ (a : Int) (o : Obj V), Base o → d + n ≤ e →
    ∃ o', up (fun k => move (k + d) (k + e)) n a o = .ok o' ∧
      Steps o o' (fun i => if a + e ≤ i ∧ i < a + e + n then val o (i - e + d) else val o i)
        (a + e + n) := by
  induction n with
  | zero =>
    intro a o h _
    refine ⟨o, rfl, (Steps.refl h _).congr ?_ (Int.le_refl _)⟩
    intro i; rw [if_neg (by omega)]
  | succ n ih =>
    intro a o h hde
    obtain ⟨o1, h1, s1⟩ := move_ok h (a + d) (a + e)
    obtain ⟨o2, h2, s2⟩ := ih (a + 1) o1 s1.base (by omega)
    refine ⟨o2, by rw [up_succ, h1, ok_bind, h2], (s1.trans s2).congr ?_ (by omega)⟩
    intro i
    simp only [s1.read, upd]
    by_cases hi : i = a + e
    · subst hi
      rw [if_neg (by omega), if_pos rfl, if_pos (by omega)]
      congr 1; omega
    · rw [if_neg (c := i = a + e) hi]
      by_cases hr : a + e ≤ i ∧ i < a + e + (n + 1 : Nat)
      · rw [if_pos (by omega), if_pos hr, if_neg (by omega)]
      · rw [if_neg (by omega), if_neg hr]

/-- Moving elements towards the end, from the last to the first. -/
theorem moveDown [Inhabited V] (d e : Int) (hde : d ≤ e) (n : Nat) :
    ∀ (a : Int) (o : Obj V), Base o →
    ∃ o', down (fun k => move (k + d) (k + e)) n a o = .ok o' ∧
      Steps o o' (fun i => if a + e - n < i ∧ i ≤ a + e then val o (i - e + d) else val o i)
        (a + e + 1) := by
  induction n with
  | zero =>
    intro a o h
    refine ⟨o, rfl, (Steps.refl h _).congr ?_ (Int.le_refl _)⟩
    intro i; rw [if_neg (by omega)]
  | succ n ih =>
    intro a o h
    obtain ⟨o1, h1, s1⟩ := move_ok h (a + d) (a + e)
    obtain ⟨o2, h2, s2⟩ := ih (a - 1) o1 s1.base
    refine ⟨o2, by rw [down_succ, h1, ok_bind, h2], (s1.trans s2).congr ?_ (by omega)⟩
    intro i
    simp only [s1.read, upd]
    by_cases hi : i = a + e
    · subst hi
      rw [if_neg (by omega), if_pos rfl, if_pos (by omega)]
      congr 1; omega
    · rw [if_neg (c := i = a + e) hi]
      by_cases hr : a + e - (n + 1 : Nat) < i ∧ i ≤ a + e
      · rw [if_pos (by omega), if_pos hr, if_neg (by omega)]
      · rw [if_neg (by omega), if_neg hr]

/-- Deleting elements. -/
theorem delDown (n : Nat) :
    ∀ (a : Int) (o : Obj V), Base o →
    ∃ o', down (fun k o => del o (k - 1)) n a o = .ok o' ∧
      Steps o o' (fun i => if a - 1 - n < i ∧ i ≤ a - 1 then none else val o i) a := by
  induction n with
  | zero =>
    intro a o h
    refine ⟨o, rfl, (Steps.refl h _).congr ?_ (Int.le_refl _)⟩
    intro i; rw [if_neg (by omega)]
  | succ n ih =>
    intro a o h
    obtain ⟨o1, h1, s1⟩ := del_ok h (a - 1)
    obtain ⟨o2, h2, s2⟩ := ih (a - 1) o1 s1.base
    refine ⟨o2, by rw [down_succ, h1, ok_bind, h2], (s1.trans s2).congr ?_ (by omega)⟩
    intro i
    simp only [s1.read, upd]
    by_cases hi : i = a - 1
    · subst hi
      rw [if_neg (by omega), if_pos rfl, if_pos (by omega)]
    · rw [if_neg (c := i = a - 1) hi]
      by_cases hr : a - 1 - (n + 1 : Nat) < i ∧ i ≤ a - 1
      · rw [if_pos (by omega), if_pos hr]
      · rw [if_neg (by omega), if_neg hr]

/-- Assigning values computed from the index. -/
theorem setUp (g : Int → V) (n : Nat) :
    ∀ (a : Int) (o : Obj V), Base o →
    ∃ o', up (fun k o => set o k (g k)) n a o = .ok o' ∧
      Steps o o' (fun i => if a ≤ i ∧ i < a + n then some (g i) else val o i) (a + n) := by
  induction n with
  | zero =>
    intro a o h
    refine ⟨o, rfl, (Steps.refl h _).congr ?_ (Int.le_refl _)⟩
    intro i; rw [if_neg (by omega)]
  | succ n ih =>
    intro a o h
    obtain ⟨o1, h1, s1⟩ := set_ok h a (g a)
    obtain ⟨o2, h2, s2⟩ := ih (a + 1) o1 s1.base
    refine ⟨o2, by rw [up_succ, h1, ok_bind, h2], (s1.trans s2).congr ?_ (by omega)⟩
    intro i
    simp only [s1.read, upd]
    by_cases hi : i = a
    · subst hi
      rw [if_neg (by omega), if_pos rfl, if_pos (by omega)]
    · rw [if_neg (c := i = a) hi]
      by_cases hr : a ≤ i ∧ i < a + (n + 1 : Nat)
      · rw [if_pos (by omega), if_pos hr]
      · rw [if_neg (by omega), if_neg hr]

/-- Making elements computed from the index; `none` makes nothing. -/
def makeAt (g : Int → Option V) (c : Int) (k : Int) (a : Obj V) : Except Err (Obj V) :=
  match g k with
  | some v => create a (c + k) v
  | none => .ok a

theorem makeUp (g : Int → Option V) (c : Int) (n : Nat) :
    ∀ (a : Int) (o : Obj V), Base o →
    ∃ o', up (makeAt g c) n a o = .ok o' ∧
      Steps o o' (fun i => if c + a ≤ i ∧ i < c + a + n then (g (i - c)).or (val o i) else val o i)
        (c + a + n) := by
  induction n with
  | zero =>
    intro a o h
    refine ⟨o, rfl, (Steps.refl h _).congr ?_ (Int.le_refl _)⟩
    intro i; rw [if_neg (by omega)]
  | succ n ih =>
    intro a o h
    have h0 : ∃ o1, makeAt g c a o = .ok o1 ∧
        Steps o o1 (upd (val o) (c + a) ((g a).or (val o (c + a)))) (c + a + 1) := by
      unfold makeAt
      cases hg : g a with
      | none =>
        refine ⟨o, rfl, (Steps.refl h (c + a + 1)).congr ?_ (by omega)⟩
        intro i; unfold upd
        by_cases hi : i = c + a
        · rw [if_pos hi, hi]; rfl
        · rw [if_neg hi]
      | some v => exact create_ok h (c + a) v
    obtain ⟨o1, h1, s1⟩ := h0
    obtain ⟨o2, h2, s2⟩ := ih (a + 1) o1 s1.base
    refine ⟨o2, by rw [up_succ, h1, ok_bind, h2], (s1.trans s2).congr ?_ (by omega)⟩
    intro i
    simp only [s1.read, upd]
    by_cases hi : i = c + a
    · subst hi
      rw [if_neg (by omega), if_pos rfl, if_pos (by omega)]
      congr 2; omega
    · rw [if_neg (c := i = c + a) hi]
      by_cases hr : c + a ≤ i ∧ i < c + a + (n + 1 : Nat)
      · rw [if_pos (by omega), if_pos hr]
      · rw [if_neg (by omega), if_neg hr]

theorem assign_ok (vs : List V) :
    ∀ (a : Int) (o : Obj V), Base o →
    ∃ o', assign vs a o = .ok o' ∧
      Steps o o' (fun i => if a ≤ i ∧ i < a + vs.length then vs[(i - a).toNat]? else val o i)
        (a + vs.length) := by
  induction vs with
  | nil =>
    intro a o h
    refine ⟨o, rfl, (Steps.refl h _).congr ?_ (Int.le_refl _)⟩
    intro i; rw [if_neg (by simp only [List.length_nil]; omega)]
  | cons v vs ih =>
    intro a o h
    obtain ⟨o1, h1, s1⟩ := set_ok h a v
    obtain ⟨o2, h2, s2⟩ := ih (a + 1) o1 s1.base
    refine ⟨o2, by unfold assign; rw [h1, ok_bind, h2], (s1.trans s2).congr ?_ (by simp; omega)⟩
    intro i
    simp only [s1.read, upd, List.length_cons]
    by_cases hi : i = a
    · subst hi
      rw [if_neg (by omega), if_pos rfl, if_pos (by omega)]
      simp
    · rw [if_neg (c := i = a) hi]
      by_cases hr : a ≤ i ∧ i < a + (vs.length + 1 : Nat)
      · rw [if_pos (by omega), if_pos hr]
        have : (i - a).toNat = (i - (a + 1)).toNat + 1 := by omega
        rw [this, List.getElem?_cons_succ]
      · rw [if_neg (by omega), if_neg hr]

theorem createAll_ok (vs : List V) :
    ∀ (a : Int) (o : Obj V), Base o →
    ∃ o', createAll vs a o = .ok o' ∧
      Steps o o' (fun i => if a ≤ i ∧ i < a + vs.length then vs[(i - a).toNat]? else val o i)
        (a + vs.length) := by
  induction vs with
  | nil =>
    intro a o h
    refine ⟨o, rfl, (Steps.refl h _).congr ?_ (Int.le_refl _)⟩
    intro i; rw [if_neg (by simp only [List.length_nil]; omega)]
  | cons v vs ih =>
    intro a o h
    obtain ⟨o1, h1, s1⟩ := create_ok h a v
    obtain ⟨o2, h2, s2⟩ := ih (a + 1) o1 s1.base
    refine ⟨o2, by unfold createAll; rw [h1, ok_bind, h2], (s1.trans s2).congr ?_ (by simp; omega)⟩
    intro i
    simp only [s1.read, upd, List.length_cons]
    by_cases hi : i = a
    · subst hi
      rw [if_neg (by omega), if_pos rfl, if_pos (by omega)]
      simp
    · rw [if_neg (c := i = a) hi]
      by_cases hr : a ≤ i ∧ i < a + (vs.length + 1 : Nat)
      · rw [if_pos (by omega), if_pos hr]
        have : (i - a).toNat = (i - (a + 1)).toNat + 1 := by omega
        rw [this, List.getElem?_cons_succ]
      · rw [if_neg (by omega), if_neg hr]

end Verif.ArrayOps

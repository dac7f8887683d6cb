import Verif.Props.ObjectDefine
/-
C30 for whole objects: nothing else goes wrong.
-/
namespace Verif.Obj

open Spec (Before Has Up)

/-- The objects an operation names exist. -/
def ValidOp (h : Heap) : Op → Prop
  | .create p => ∀ i, p = some i → i < h.length
  | .createArray _ p => ∀ i, p = some i → i < h.length
  | .define o _ _ => o < h.length
  | .set o _ _ r => o < h.length ∧ ∀ i, r = some i → i < h.length
  | .delete o _ => o < h.length
  | .preventExt o => o < h.length
  | .setProto o p => o < h.length ∧ ∀ i, p = some i → i < h.length
  | .setIntegrity _ o => o < h.length

/-- One of the indices 0, 1, 2 is stored in an object without indexed properties which keeps them
in a tree. -/
def Trapped (o : Obj) (k : Key) : Prop :=
  o.store.rbt = true ∧ ∃ i, k = .idx i ∧ i.val < 3 ∧ ∀ j, ¬ Has o (.idx j)

theorem defineOrdinary_trap {o : Obj} (h : Good o) {k : Key} {d : Desc} (he : defineOrdinary o k d = none) :
    Trapped o k := by
  cases hk : get o k with
  | none =>
    rcases defineOrdinary_none h hk d with ⟨_, e⟩ | ⟨_, _, e0, i, e1, e2, e3⟩ | ⟨_, o', e, _⟩
    · rw [he] at e; cases e
    · exact ⟨e0, i, e1, e2, fun j => by rw [has_get h, e3 j]; simp⟩
    · rw [he] at e; cases e
  | some p =>
    rcases defineOrdinary_some h hk d with ⟨_, e⟩ | ⟨_, _, e⟩ | ⟨_, _, o', e, _⟩ <;> (rw [he] at e; cases e)

theorem define_trap {oth : Nat → Option Nat} {o : Obj} (h : Good o) (ha : ArrGood o) {k : Key} {d : Desc} (hd : Wf d)
    (he : define oth o k d = none) : Trapped o k := by
  unfold define at he
  split at he
  · rename_i harr
    obtain ⟨w, n, hn⟩ := ha harr
    cases k with
    | idx i =>
      simp only [setItem, oldLength_arr h hn] at he
      split at he
      · cases he
      · split at he
        · rename_i e; exact defineOrdinary_trap h e
        · cases he
        · rename_i o1 e
          split at he
          · split at he
            · rename_i e'
              obtain ⟨a1, a2, a3, a4, a5, a6⟩ := defineOrdinary_eff h hd e
              obtain ⟨_, i', c, _⟩ := defineOrdinary_trap a1.good e'
              cases c
            · cases he
          · cases he
    | name m =>
      simp only at he
      split at he
      · obtain ⟨o', r, e, _⟩ := setLength_eff (oth := oth) h hn hd
        rw [he] at e; cases e
      · split at he
        · rename_i e; exact defineOrdinary_trap h e
        · cases he
  · split at he
    · rename_i e; exact defineOrdinary_trap h e
    · cases he

/-- **C30** for objects as a whole: whatever a program has done before, an operation on objects and
arrays which exist has a defined result, except that storing the property `0`, `1` or `2` in an object
which keeps its indexed properties in a tree and has none writes through a null pointer
(`C30_violated`). -/
theorem C30_object_partial {E : Env} {h : Heap} (hr : Reach E h) {op : Op} (hv : ValidOp h op)
    (hn : step E h op = none) :
    ∃ id o k, h[id]? = some o ∧ Trapped o k ∧
      ((∃ f, op = .define id k f) ∨ ∃ o' v, op = .set o' k v (some id)) := by
  have hi := hr.inv
  have obj : ∀ {id}, id < h.length → ∃ o, h[id]? = some o := fun hlt => ⟨_, List.getElem?_eq_getElem hlt⟩
  have pall : ∀ {p : Option Nat}, (∀ i, p = some i → i < h.length) → p.all (· < h.length) = true := by
    intro p hp
    cases p with
    | none => rfl
    | some i => simpa using hp i rfl
  cases op with
  | create p => simp only [step, pall hv, if_true] at hn; cases hn
  | createArray len p =>
    simp only [step, pall hv, if_true] at hn
    split at hn
    · cases hn
    · obtain ⟨o, e, _⟩ := newArray_spec (len := len) (by omega) p
      rw [e] at hn; cases hn
  | define id k f =>
    obtain ⟨o, ho⟩ := obj (id := id) hv
    obtain ⟨hg, ha⟩ := hi.good id o ho
    simp only [step] at hn
    split at hn
    · cases hn
    · rename_i d hd
      simp only [onObj, ho] at hn
      split at hn
      · rename_i e
        exact ⟨id, o, k, ho, define_trap hg ha (toDesc_wf hd) e, Or.inl ⟨f, rfl⟩⟩
      · cases hn
  | set v k x r =>
    obtain ⟨h1, h2⟩ := hv
    obtain ⟨rr, e⟩ := findProp_total hi k h1
    simp only [step, set, e] at hn
    have main : ∀ d, setFound E.oth h k x r d = none → ∃ id o k', h[id]? = some o ∧ Trapped o k' ∧
        ((∃ f, Op.set v k x r = .define id k' f) ∨ ∃ o' v', Op.set v k x r = .set o' k' v' (some id)) := by
      intro d hd
      unfold setFound at hd
      split at hd
      · split at hd
        · cases hd
        · split at hd
          · cases hd
          · rename_i id
            obtain ⟨o, ho⟩ := obj (h2 id rfl)
            obtain ⟨hg, ha⟩ := hi.good id o ho
            rw [ho] at hd
            simp only at hd
            rw [getOwn_get hg] at hd
            split at hd
            · rename_i e'; cases e'
            · split at hd
              · cases hd
              · split at hd
                · cases hd
                · split at hd
                  · rename_i e'
                    exact ⟨id, o, k, ho, define_trap hg ha ⟨by simp, by simp, by simp, by simp [isAcc]⟩ e', Or.inr ⟨v, x, rfl⟩⟩
                  · cases hd
            · split at hd
              · rename_i e'
                exact ⟨id, o, k, ho, define_trap hg ha ⟨by simp, by simp, by simp, by simp [isAcc]⟩ e', Or.inr ⟨v, x, rfl⟩⟩
              · cases hd
      · split at hd <;> cases hd
    cases rr with
    | none => exact main _ hn
    | some d => exact main _ hn
  | delete id k =>
    obtain ⟨o, ho⟩ := obj (id := id) hv
    obtain ⟨hg, ha⟩ := hi.good id o ho
    obtain ⟨o', b, e, _⟩ := delete_eff hg k
    simp only [step, onObj, ho, e] at hn
    cases hn
  | preventExt id =>
    obtain ⟨o, ho⟩ := obj (id := id) hv
    simp only [step, onObj, ho] at hn
    cases hn
  | setProto id p =>
    obtain ⟨o, ho⟩ := obj hv.1
    obtain ⟨h', b, e, _⟩ := setProto_spec hi ho (pall hv.2)
    simp only [step, pall hv.2, if_true, e] at hn
    cases hn
  | setIntegrity fr id =>
    obtain ⟨o, ho⟩ := obj (id := id) hv
    obtain ⟨hg, ha⟩ := hi.good id o ho
    obtain ⟨o', e, _⟩ := setIntegrity_spec (oth := E.oth) hg ha fr
    simp only [step, onObj, ho, e] at hn
    cases hn

end Verif.Obj

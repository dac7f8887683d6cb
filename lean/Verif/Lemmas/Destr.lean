import Verif.Spec.Destr

/-! Helper lemmas: the C functions and the operations of the standard. -/

namespace Verif.Destr

open Spec

variable {σ : Type} {W : World σ}

/-- A C function that was called without a pending error does what the standard says. -/
def Sim {A : Type} (r : R σ A) (c : C σ A) : Prop :=
  match c with
  | .ok s a => ∃ rt : RT σ, r = .ok rt a ∧ rt.w = s ∧ rt.flag = false
  | .thr s e => r = .err ⟨s, true, e⟩
  | .more => False

theorem lift_sim {A : Type} {o : Out σ A} (h : Clean o) {rt : RT σ} (hf : rt.flag = false) :
    Sim (lift rt o) (of o) := by
  cases o with
  | thr s e => rfl
  | ok s t a =>
    cases t with
    | same => exact ⟨_, rfl, rfl, hf⟩
    | clear => exact ⟨_, rfl, rfl, rfl⟩
    | set e => exact absurd rfl (h s e a)

theorem typeError_sim {A : Type} {rt : RT σ} : Sim (typeError (A := A) W rt) (.thr rt.w W.typeErr) := rfl

/-- Steps one after the other. -/
theorem Sim.ok {A : Type} {r : R σ A} {c : C σ A} (h : Sim r c) :
    (∃ rt a, r = .ok rt a ∧ c = .ok rt.w a ∧ rt.flag = false) ∨
      (∃ s e, r = .err ⟨s, true, e⟩ ∧ c = .thr s e) := by
  cases c with
  | ok s a =>
    obtain ⟨rt, h1, h2, h3⟩ := h
    exact .inl ⟨rt, a, h1, by rw [h2], h3⟩
  | thr s e => exact .inr ⟨s, e, h, rfl⟩
  | more => exact h.elim

theorem callE_sim (hW : Calm W) (f v : V) {rt : RT σ} (hf : rt.flag = false) :
    Sim (callE W f v rt) (Spec.call W f v rt.w) := by
  cases f with
  | obj n =>
    simp only [callE, Spec.call]
    split
    · exact lift_sim (hW.call n v rt.w) hf
    · exact typeError_sim
  | _ => exact typeError_sim

theorem getMethod_sim (hW : Calm W) (v k : V) {rt : RT σ} (hf : rt.flag = false) :
    Sim (getMethod W v k rt) (method W v k rt.w) := by
  unfold getMethod method
  rcases (lift_sim (hW.get v k rt.w) hf).ok with ⟨rt1, f, h1, h2, h3⟩ | ⟨s, e, h1, h2⟩
  · rw [h1, h2]
    simp only [C.andThen]
    cases f with
    | undef => exact ⟨rt1, by simp, rfl, h3⟩
    | null => exact ⟨rt1, by simp, rfl, h3⟩
    | obj n =>
      simp only [reduceCtorEq, if_false, World.isCallable]
      by_cases hc : W.callable n = true
      · simp only [hc, if_true]; exact ⟨rt1, rfl, rfl, h3⟩
      · simp only [hc, if_false]; exact typeError_sim
    | _ =>
      simp only [reduceCtorEq, if_false, World.isCallable, Bool.false_eq_true]
      exact typeError_sim
  · rw [h1, h2]; rfl

theorem getIterator_sim (hW : Calm W) (v : V) {rt : RT σ} (hf : rt.flag = false) :
    Sim (getIterator W v rt) (iterator W v rt.w) := by
  unfold getIterator iterator
  rcases (getMethod_sim hW v kIter hf).ok with ⟨rt1, f, h1, h2, h3⟩ | ⟨s, e, h1, h2⟩
  · rw [h1, h2]
    simp only [C.andThen]
    rcases (callE_sim hW f v h3).ok with ⟨rt2, it, g1, g2, g3⟩ | ⟨s, e, g1, g2⟩
    · rw [g1, g2]
      simp only
      cases it with
      | obj n =>
        simp only [isObj, needObject, if_true]
        rcases (lift_sim (hW.get (.obj n) kNext rt2.w) g3).ok with ⟨rt3, nx, k1, k2, k3⟩ | ⟨s, e, k1, k2⟩
        · rw [k1, k2]; exact ⟨rt3, rfl, rfl, k3⟩
        · rw [k1, k2]; rfl
      | _ =>
        simp only [isObj, needObject, Bool.false_eq_true, if_false]
        exact typeError_sim
    · rw [g1, g2]; rfl
  · rw [h1, h2]; rfl

theorem toBool_truth (v : V) : W.toBool v = truth W v := by cases v <;> rfl

theorem iterStep_sim (hW : Calm W) (it nx : V) {rt : RT σ} (hf : rt.flag = false) :
    Sim (iterStep W it nx rt) (advance W it nx rt.w) := by
  unfold iterStep advance
  rcases (callE_sim hW nx it hf).ok with ⟨rt2, res, g1, g2, g3⟩ | ⟨s, e, g1, g2⟩
  · rw [g1, g2]
    simp only [C.andThen]
    cases res with
    | obj n =>
      simp only [isObj, needObject, if_true]
      rcases (lift_sim (hW.get (.obj n) kDone rt2.w) g3).ok with ⟨rt3, d, k1, k2, k3⟩ | ⟨s, e, k1, k2⟩
      · rw [k1, k2]
        simp only [toBool_truth]
        cases truth W d
        · exact ⟨rt3, by simp, rfl, k3⟩
        · exact ⟨rt3, by simp, rfl, k3⟩
      · rw [k1, k2]; rfl
    | _ =>
      simp only [isObj, needObject, Bool.false_eq_true, if_false]
      exact typeError_sim
  · rw [g1, g2]; rfl

theorem iterClose_sim (hW : Calm W) (it : V) {rt : RT σ} (hf : rt.flag = false) :
    Sim (iterClose W it rt) (close W it (.ok rt.w ())) := by
  have h : iterClose W it rt = closeCore W it rt := by
    unfold iterClose
    cases closeCore W it rt <;> simp [hf]
  rw [h]
  unfold closeCore close
  simp only
  rcases (getMethod_sim hW it kReturn hf).ok with ⟨rt1, f, h1, h2, h3⟩ | ⟨s, e, h1, h2⟩
  · rw [h1, h2]
    simp only [C.andThen]
    by_cases hu : f = .undef
    · subst hu
      exact ⟨rt1, by simp, rfl, h3⟩
    · simp only [if_neg hu]
      have key : Sim (match callE W f it rt1 with
          | .err rt => .err rt
          | .ok rt res => if isObj res = true then .ok rt () else typeError W rt)
          ((Spec.call W f it rt1.w).andThen fun s res => needObject W res s) := by
        rcases (callE_sim hW f it h3).ok with ⟨rt2, res, g1, g2, g3⟩ | ⟨s, e, g1, g2⟩
        · rw [g1, g2]
          simp only [C.andThen]
          cases res with
          | obj n => exact ⟨rt2, by simp [isObj], rfl, g3⟩
          | _ => exact typeError_sim
        · rw [g1, g2]; rfl
      cases f with
      | undef => exact absurd rfl hu
      | _ => exact key
  · rw [h1, h2]; rfl

theorem lift_same {A : Type} {o : Out σ A} (s : σ) (e : V)
    (h : ∀ s' t a, o = .ok s' t a → t = .same) :
    (∃ s' a, lift ⟨s, true, e⟩ o = .ok ⟨s', true, e⟩ a ∧ of o = .ok s' a) ∨
      (∃ s' e', lift ⟨s, true, e⟩ o = .err ⟨s', true, e'⟩ ∧ of o = .thr s' e') := by
  cases o with
  | thr s' e' => exact .inr ⟨s', e', rfl, rfl⟩
  | ok s' t a =>
    obtain rfl := h s' t a rfl
    exact .inl ⟨s', a, rfl, rfl⟩

/-- A state whose iterator is not done is closed while an error is pending. -/
theorem close_pending (hW : Calm W) (it nx : V) (s : σ) (e : V) :
    ∃ s', close W it (.thr s e) = .thr s' e ∧
      unwind W [.arr it nx false] ⟨s, true, e⟩ = ⟨s', true, e⟩ := by
  have key : ∃ s', close W it (.thr s e) = .thr s' e ∧
      ((∃ e', closeCore W it ⟨s, true, e⟩ = .err ⟨s', true, e'⟩) ∨
        closeCore W it ⟨s, true, e⟩ = .ok ⟨s', true, e⟩ ()) := by
    unfold closeCore getMethod close method
    rcases lift_same s e (fun s' t a h => hW.ret it s s' t a h) with ⟨s1, f, h1, h2⟩ | ⟨s1, e1, h1, h2⟩
    · simp only [h1, h2, C.andThen]
      cases f with
      | undef => exact ⟨s1, rfl, .inr (by simp)⟩
      | null => exact ⟨s1, rfl, .inr (by simp)⟩
      | obj n =>
        have hg : ∃ t, W.get it kReturn s = .ok s1 t (.obj n) := by
          cases hh : W.get it kReturn s with
          | ok s' t a => rw [hh] at h2; simp [of] at h2; exact ⟨t, by rw [h2.1, h2.2]⟩
          | thr s' e' => rw [hh] at h2; simp [of] at h2
        obtain ⟨t, ht⟩ := hg
        by_cases hc : W.callable n = true
        · simp only [reduceCtorEq, if_false, World.isCallable, hc, if_true, callE, Spec.call]
          rcases lift_same s1 e (fun s' t' a h => hW.retCall it s s1 t n ht s' t' a h) with
            ⟨s2, res, g1, g2⟩ | ⟨s2, e2, g1, g2⟩
          · simp only [g1, g2]
            cases res with
            | obj k => exact ⟨s2, rfl, .inr (by simp [isObj])⟩
            | _ => exact ⟨s2, rfl, .inl ⟨W.typeErr, rfl⟩⟩
          · simp only [g1, g2]
            exact ⟨s2, rfl, .inl ⟨e2, rfl⟩⟩
        · simp only [reduceCtorEq, if_false, World.isCallable, hc]
          exact ⟨s1, rfl, .inl ⟨W.typeErr, rfl⟩⟩
      | _ => exact ⟨s1, rfl, .inl ⟨W.typeErr, rfl⟩⟩
    · simp only [h1, h2, C.andThen]
      exact ⟨s1, rfl, .inl ⟨e1, rfl⟩⟩
  obtain ⟨s', h1, h2⟩ := key
  refine ⟨s', h1, ?_⟩
  rcases h2 with ⟨e', h2⟩ | h2 <;> simp [unwind, deinit, iterClose, h2]

theorem unwind_append (S T : List St) (rt : RT σ) : unwind W (S ++ T) rt = unwind W T (unwind W S rt) := by
  induction S generalizing rt with
  | nil => rfl
  | cons a S ih =>
    simp only [List.cons_append, unwind]
    split <;> exact ih _

/-- The same for operations that change the iterator record. -/
def SimD {A : Type} (r : R σ A × Bool) (c : D σ A) : Prop :=
  match c with
  | .ok s d a => ∃ rt : RT σ, r = (.ok rt a, d) ∧ rt.w = s ∧ rt.flag = false
  | .thr s d e => r = (.err ⟨s, true, e⟩, d)
  | .more => False

theorem SimD.ok {A : Type} {r : R σ A × Bool} {c : D σ A} (h : SimD r c) :
    (∃ rt d a, r = (.ok rt a, d) ∧ c = .ok rt.w d a ∧ rt.flag = false) ∨
      (∃ s d e, r = (.err ⟨s, true, e⟩, d) ∧ c = .thr s d e) := by
  cases c with
  | ok s d a =>
    obtain ⟨rt, h1, h2, h3⟩ := h
    exact .inl ⟨rt, d, a, h1, by rw [h2], h3⟩
  | thr s d e => exact .inr ⟨s, d, e, h, rfl⟩
  | more => exact h.elim

theorem itemStep_sim (hW : Calm W) (it nx : V) (d : Bool) {rt : RT σ} (hf : rt.flag = false) :
    SimD (itemStep W true it nx d rt) (value W it nx d rt.w) := by
  unfold itemStep value
  cases d with
  | true => exact ⟨rt, by simp, rfl, hf⟩
  | false =>
    simp only [Bool.false_eq_true, if_false]
    rcases (iterStep_sim hW it nx hf).ok with ⟨rt1, o, h1, h2, h3⟩ | ⟨s, e, h1, h2⟩
    · rw [h1, h2]
      cases o with
      | none => exact ⟨rt1, rfl, rfl, h3⟩
      | some res =>
        simp only [if_true]
        have hl := lift_sim (hW.get res kValue rt1.w) h3
        cases hg : W.get res kValue rt1.w with
        | thr s e => rw [hg] at hl; simp [lift, SimD]
        | ok s t a =>
          rw [hg] at hl
          obtain ⟨rt2, k1, k2, k3⟩ := hl
          simp only [k1]
          exact ⟨rt2, rfl, k2, k3⟩
    · rw [h1, h2]; rfl

theorem itemSkip_sim (hW : Calm W) (it nx : V) (d : Bool) {rt : RT σ} (hf : rt.flag = false) :
    (∃ rt', ∃ d', itemStep W false it nx d rt = (.ok rt' .undef, d') ∧ rt'.flag = false ∧
        Spec.skip W it nx d rt.w = .ok rt'.w d' ()) ∨
      (∃ s d' e, itemStep W false it nx d rt = (.err ⟨s, true, e⟩, d') ∧
        Spec.skip W it nx d rt.w = .thr s d' e) := by
  unfold itemStep Spec.skip
  cases d with
  | true => exact .inl ⟨rt, true, by simp, hf, by simp⟩
  | false =>
    simp only [Bool.false_eq_true, if_false]
    rcases (iterStep_sim hW it nx hf).ok with ⟨rt1, o, h1, h2, h3⟩ | ⟨s, e, h1, h2⟩
    · rw [h1, h2]
      cases o with
      | none => exact .inl ⟨rt1, true, rfl, h3, rfl⟩
      | some res => exact .inl ⟨rt1, false, rfl, h3, rfl⟩
    · rw [h1, h2]; exact .inr ⟨s, true, e, rfl, rfl⟩

/-- For the loop of rest elements, which may not end. -/
def SimO {A : Type} (r : Option (R σ A × Bool)) (c : D σ A) : Prop :=
  match r with
  | none => c = .more
  | some r => SimD r c

theorem restLoop_sim (hW : Calm W) (hv : ValueSafe W) (it nx arr : V) (fuel i : Nat) {rt : RT σ}
    (hf : rt.flag = false) : SimO (restLoop W it nx arr fuel i rt) (collect W it nx arr fuel i rt.w) := by
  induction fuel generalizing i rt with
  | zero => rfl
  | succ fuel ih =>
    unfold restLoop collect value
    simp only [Bool.false_eq_true, if_false]
    rcases (iterStep_sim hW it nx hf).ok with ⟨rt1, o, h1, h2, h3⟩ | ⟨s, e, h1, h2⟩
    · rw [h1, h2]
      cases o with
      | none => exact ⟨rt1, rfl, rfl, h3⟩
      | some res =>
        simp only
        have hl := lift_sim (hW.get res kValue rt1.w) h3
        cases hg : W.get res kValue rt1.w with
        | thr s e => exact absurd hg (hv _ _ _ _)
        | ok s t a =>
          rw [hg] at hl
          obtain ⟨rt2, k1, k2, k3⟩ := hl
          simp only [k1]
          have := ih (i + 1) (rt := { rt2 with w := W.addArr arr i a rt2.w }) k3
          rw [← k2]
          exact this
    · rw [h1, h2]; rfl

theorem itemRest_sim (hW : Calm W) (hv : ValueSafe W) (fuel : Nat) (it nx : V) (d : Bool) {rt : RT σ}
    (hf : rt.flag = false) : SimO (itemRest W fuel it nx d rt) (restArray W fuel it nx d rt.w) := by
  unfold itemRest restArray
  cases d with
  | true => exact ⟨{ rt with w := (W.newArr rt.w).1 }, by simp, rfl, hf⟩
  | false =>
    simp only [Bool.false_eq_true, if_false]
    have := restLoop_sim hW hv it nx (W.newArr rt.w).2 fuel 0 (rt := { rt with w := (W.newArr rt.w).1 }) hf
    simp only at this
    cases hl : restLoop W it nx (W.newArr rt.w).2 fuel 0 { rt with w := (W.newArr rt.w).1 } with
    | none => rw [hl] at this; simp only [SimO] at this; rw [this]; rfl
    | some r =>
      rw [hl] at this
      rcases SimD.ok this with ⟨rt1, d, a, h1, h2, h3⟩ | ⟨s, d, e, h1, h2⟩
      · subst h1; rw [h2]; exact ⟨rt1, rfl, rfl, h3⟩
      · subst h1; rw [h2]; rfl

theorem copyLoop_sim (hW : Calm W) (o t : V) (names ex : List V) (hn : ∀ x, x ∈ names ↔ x ∈ ex)
    (ks : List V) {rt : RT σ} (hf : rt.flag = false) :
    Sim (copyLoop W o t names ks rt) (copy W o t ex ks rt.w) := by
  induction ks generalizing rt with
  | nil => exact ⟨rt, rfl, rfl, hf⟩
  | cons k ks ih =>
    unfold copyLoop copy
    by_cases hk : k ∈ ex
    · have : names.contains k = true := by simp [hn, hk]
      simp only [this, if_true, if_pos hk]
      exact ih hf
    · have : names.contains k = false := by simp [hn, hk]
      simp only [this, Bool.false_eq_true, if_false, if_neg hk]
      rcases (lift_sim (hW.own o k rt.w) hf).ok with ⟨rt1, p, h1, h2, h3⟩ | ⟨s, e, h1, h2⟩
      · rw [h1, h2]
        simp only [C.andThen]
        cases p with
        | none => simpa using ih h3
        | some b =>
          cases b with
          | false => simpa using ih h3
          | true =>
            simp only [if_true]
            rcases (lift_sim (hW.get o k rt1.w) h3).ok with ⟨rt2, v, g1, g2, g3⟩ | ⟨s, e, g1, g2⟩
            · rw [g1, g2]
              exact ih (rt := { rt2 with w := W.addProp t k v rt2.w }) g3
            · rw [g1, g2]; rfl
      · rw [h1, h2]; rfl

theorem propsRest_sim (hW : Calm W) (v : V) (names ex : List V) (hn : ∀ x, x ∈ names ↔ x ∈ ex)
    {rt : RT σ} (hf : rt.flag = false) : Sim (propsRest W v names rt) (restObject W v ex rt.w) := by
  unfold propsRest restObject
  simp only
  rcases (lift_sim (rt := { rt with w := (W.toObj v (W.newObj rt.w).1).1 })
    (hW.ownKeys (W.toObj v (W.newObj rt.w).1).2 (W.toObj v (W.newObj rt.w).1).1) hf).ok with
    ⟨rt1, ks, h1, h2, h3⟩ | ⟨s, e, h1, h2⟩
  · rw [h1, h2]
    simp only [C.andThen]
    rcases (copyLoop_sim hW (W.toObj v (W.newObj rt.w).1).2 (W.newObj rt.w).2 names ex hn ks h3).ok with
      ⟨rt2, a, g1, g2, g3⟩ | ⟨s, e, g1, g2⟩
    · rw [g1, g2]; exact ⟨rt2, rfl, rfl, g3⟩
    · rw [g1, g2]; rfl
  · rw [h1, h2]; rfl

theorem toKey_sim (hW : Calm W) (v : V) {rt : RT σ} (hf : rt.flag = false) :
    Sim (toKey W v rt) (key W v rt.w) := by
  cases v with
  | str n => exact ⟨rt, rfl, rfl, hf⟩
  | _ => exact lift_sim (hW.key _ rt.w) hf

end Verif.Destr

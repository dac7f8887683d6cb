import Verif.Lemmas.Heap
import Verif.Spec.Object
/-
Definitions of properties do what the specification says.
-/
namespace Verif.Obj

/-- The property of the specification. -/
def spOf (p : P) : Spec.Prp :=
  match p.body with
  | .data v => .data v p.w p.e p.c
  | .acc g s => .acc g s p.e p.c

theorem spOf_report (p : P) : (spOf p).report = fromDesc (descOf p) := by
  obtain ⟨w, e, c, body⟩ := p
  cases body <;> rfl

theorem spOf_inj {p q : P} (hp : WfP p) (hq : WfP q) (h : spOf p = spOf q) : p = q := by
  obtain ⟨w, e, c, body⟩ := p
  obtain ⟨w', e', c', body'⟩ := q
  cases body with
  | data v =>
    cases body' with
    | data v' => simp only [spOf, Spec.Prp.data.injEq] at h; simp [h]
    | acc g s => cases h
  | acc g s =>
    cases body' with
    | data v' => cases h
    | acc g' s' =>
      simp only [spOf, Spec.Prp.acc.injEq] at h
      have a : w = false := hp g s rfl
      have b : w' = false := hq g' s' rfl
      simp [h, a, b]

theorem report_inj {a b : Spec.Prp} (h : a.report = b.report) : a = b := by
  cases a <;> cases b <;> simp [Spec.Prp.report] at h <;> simp [h]

theorem report_get {o : Obj} (h : Good o) (k : Key) :
    report o k = some ((get o k).map fun p => (spOf p).report) := by
  unfold report
  rw [getOwn_get h]
  cases get o k with
  | none => rfl
  | some p => simp [spOf_report]

theorem valid_eq (callable : Val → Bool) (f : Fields) : fieldsOk callable f = Spec.valid callable f := by
  obtain ⟨e, c, v, w, g, s⟩ := f
  cases g <;> cases s <;> rfl

theorem fresh_eq {f : Fields} : spOf (newProp (ofFields f)) = Spec.fresh f := by
  obtain ⟨e, c, v, w, g, s⟩ := f
  cases g <;> cases s <;> cases v <;> rfl

theorem allowed_eq {callable : Val → Bool} {f : Fields} (hf : fieldsOk callable f = true) {p : P} (hp : WfP p) :
    (noFlags (ofFields f) || check (ofFields f) (descOf p)) = Spec.allowed f (spOf p) := by
  obtain ⟨e, c, v, w, g, s⟩ := f
  obtain ⟨pw, pe, pc, body⟩ := p
  cases pc with
  | true => cases body <;> simp [check, descOf, spOf, Spec.allowed, Spec.Prp.configurable]
  | false =>
    cases body with
    | data x =>
      rcases w with _ | (_ | _) <;> rcases c with _ | (_ | _) <;> rcases e with _ | (_ | _) <;> cases v <;> cases g <;> cases s <;>
        first
        | (simp [fieldsOk] at hf; done)
        | (cases pw <;> cases pe <;>
            simp [noFlags, ofFields, check, descOf, spOf, Spec.allowed, Spec.Prp.configurable, Spec.Prp.enumerable,
              Spec.agrees, Spec.isAccessor, isGeneric, isAcc, isData, bne] <;> rfl)
    | acc x y =>
      have : pw = false := hp x y rfl
      subst this
      rcases w with _ | (_ | _) <;> rcases c with _ | (_ | _) <;> rcases e with _ | (_ | _) <;> cases v <;> cases g <;> cases s <;>
        first
        | (simp [fieldsOk] at hf; done)
        | (cases pe <;>
            simp [noFlags, ofFields, check, descOf, spOf, Spec.allowed, Spec.Prp.configurable, Spec.Prp.enumerable,
              Spec.agrees, Spec.isData, isGeneric, isAcc, isData, bne] <;> rfl)

theorem applied_eq {callable : Val → Bool} {f : Fields} (hf : fieldsOk callable f = true) {p : P} (hp : WfP p) :
    spOf (change p (ofFields f) (descOf p)) = Spec.applied f (spOf p) := by
  obtain ⟨e, c, v, w, g, s⟩ := f
  obtain ⟨pw, pe, pc, body⟩ := p
  cases body with
  | data x =>
    cases e <;> cases c <;> cases v <;> cases w <;> cases g <;> cases s <;>
      first
      | rfl
      | (simp [fieldsOk] at hf; done)
  | acc x y =>
    have : pw = false := hp x y rfl
    subst this
    rcases w with _ | (_ | _) <;> cases e <;> cases c <;> cases v <;> cases g <;> cases s <;>
      first
      | rfl
      | (simp [fieldsOk] at hf; done)

theorem noFlags_applied {f : Fields} (h : noFlags (ofFields f) = true) (p : Spec.Prp) : Spec.applied f p = p := by
  obtain ⟨e, c, v, w, g, s⟩ := f
  cases e <;> cases c <;> cases v <;> cases w <;> cases g <;> cases s <;>
    first
    | (cases p <;> rfl)
    | (simp [noFlags, ofFields] at h; done)

end Verif.Obj

import Verif.Lemmas.RegExpSpec
/-
A program that computes the ways of the standard, for the concrete examples.
-/
namespace Verif.RegExp.Spec

/-- The first group of the list that is set. -/
def firstSet (x : St) : List Nat → Option (Nat × Nat)
  | [] => none
  | i :: is => match x.caps i with
    | some p => some p
    | none => firstSet x is

instance (I : Input) (a b len : Nat) : Decidable (Same I a b len) :=
  inferInstanceAs (Decidable (∀ i, i < len → _))

def refF (I : Input) (fwd : Bool) (ids : List Nat) (x : St) : List St :=
  match firstSet x ids with
  | none => [x]
  | some (s, e) =>
    if fwd then
      if x.pos + (e - s) ≤ I.chars.length ∧ Same I s x.pos (e - s) then
        [{ x with pos := x.pos + (e - s) }] else []
    else
      if e - s ≤ x.pos ∧ Same I s (x.pos - (e - s)) (e - s) then
        [{ x with pos := x.pos - (e - s) }] else []

theorem firstSet_none {x : St} : ∀ {ids : List Nat}, firstSet x ids = none →
    ∀ i, i ∈ ids → x.caps i = none
  | [], _, i, hi => by simp at hi
  | j :: is, h, i, hi => by
    simp only [firstSet] at h
    cases hc : x.caps j with
    | some p => rw [hc] at h; cases h
    | none =>
      rw [hc] at h
      rcases List.mem_cons.1 hi with e | hi
      · rw [e]; exact hc
      · exact firstSet_none h i hi

theorem firstSet_some {x : St} {p : Nat × Nat} : ∀ {ids : List Nat}, firstSet x ids = some p →
    ∃ pre post i, ids = pre ++ i :: post ∧ (∀ j, j ∈ pre → x.caps j = none) ∧ x.caps i = some p
  | [], h => by simp [firstSet] at h
  | j :: is, h => by
    simp only [firstSet] at h
    cases hc : x.caps j with
    | some q =>
      rw [hc] at h
      injection h with h
      subst h
      exact ⟨[], is, j, rfl, by simp, hc⟩
    | none =>
      rw [hc] at h
      obtain ⟨pre, post, i, h1, h2, h3⟩ := firstSet_some h
      refine ⟨j :: pre, post, i, by rw [h1]; rfl, ?_, h3⟩
      intro k hk
      rcases List.mem_cons.1 hk with e | hk
      · rw [e]; exact hc
      · exact h2 k hk

theorem refF_ok (I : Input) (fwd : Bool) (ids : List Nat) (x : St) :
    RefWays I fwd ids x (refF I fwd ids x) := by
  unfold refF
  cases h : firstSet x ids with
  | none => exact .unset (firstSet_none h)
  | some p =>
    obtain ⟨s, e⟩ := p
    obtain ⟨pre, post, i, h1, h2, h3⟩ := firstSet_some h
    cases fwd with
    | true =>
      simp only [if_true]
      split
      · rename_i hc; exact .forward _ _ _ _ _ h1 h2 h3 rfl hc.1 hc.2
      · rename_i hc; exact .differs _ _ _ _ _ h1 h2 h3 (fun _ => hc) (by simp)
    | false =>
      simp only [Bool.false_eq_true, if_false]
      split
      · rename_i hc; exact .backward _ _ _ _ _ h1 h2 h3 rfl hc.1 hc.2
      · rename_i hc; exact .differs _ _ _ _ _ h1 h2 h3 (by simp) (fun _ => hc)

/-- The ways from each state of a list. -/
def allF (f : St → Option (List St)) : List St → Option (List St)
  | [] => some []
  | x :: xs => (f x).bind fun ys => (allF f xs).bind fun zs => some (ys ++ zs)

/-- The ways, computed with bounded depth. -/
def waysF (I : Input) : Nat → Bool → Node → St → Option (List St)
  | 0, _, _, _ => none
  | f + 1, fwd, n, x =>
    match n with
    | .atom (.char p) => some (charWays I fwd p x)
    | .atom (.cond p) => some (condWays I p x)
    | .atom (.ref ids) => some (refF I fwd ids x)
    | .atom (.sub d) => waysF I f fwd (.alts d) x
    | .atom (.group i d) =>
      (waysF I f fwd (.alts d) x).bind fun ys => some (ys.map (St.capture i x.pos))
    | .atom (.look ahead false d) =>
      (waysF I f ahead (.alts d) x).bind fun ys => match ys with
        | [] => some []
        | y :: _ => some [{ y with pos := x.pos }]
    | .atom (.look ahead true d) =>
      (waysF I f ahead (.alts d) x).bind fun ys => match ys with
        | [] => some [x]
        | _ :: _ => some []
    | .rep _ _ (some 0) _ => some [x]
    | .rep a (min + 1) max g =>
      (waysF I f fwd (.atom a) (x.forget (groupsA a))).bind fun ys =>
        allF (waysF I f fwd (.rep a min (lessOne max) g)) ys
    | .rep a 0 max g =>
      (waysF I f fwd (.atom a) (x.forget (groupsA a))).bind fun ys =>
        (allF (waysF I f fwd (.rep a 0 (lessOne max) g)) (ys.filter (·.pos ≠ x.pos))).bind
          fun zs => some (if g then zs ++ [x] else x :: zs)
    | .seq [] => some [x]
    | .seq (t :: ts) =>
      (waysF I f fwd (.rep t.atom t.min t.max t.greedy) x).bind fun ys =>
        allF (waysF I f fwd (.seq ts)) ys
    | .alts [] => none
    | .alts [a] => waysF I f fwd (.seq (order fwd a)) x
    | .alts (a :: b :: d) =>
      (waysF I f fwd (.seq (order fwd a)) x).bind fun ys =>
        (waysF I f fwd (.alts (b :: d)) x).bind fun zs => some (ys ++ zs)

theorem allF_ok {I : Input} {fwd : Bool} {n : Node} {f : St → Option (List St)}
    (h : ∀ x ys, f x = some ys → Ways I fwd n x ys) :
    ∀ (xs zs : List St), allF f xs = some zs → AllWays I fwd n xs zs
  | [], zs, hz => by
    simp only [allF, Option.some.injEq] at hz
    subst hz
    exact .nil ..
  | x :: xs, zs, hz => by
    simp only [allF, Option.bind_eq_some_iff, Option.some.injEq] at hz
    obtain ⟨ys, h1, ws, h2, rfl⟩ := hz
    exact .cons _ _ _ _ _ _ (h x ys h1) (allF_ok h xs ws h2)

theorem waysF_ok {I : Input} : ∀ (f : Nat) (fwd : Bool) (n : Node) (x : St) (ys : List St),
    waysF I f fwd n x = some ys → Ways I fwd n x ys := by
  intro f
  induction f with
  | zero => intro fwd n x ys h; simp [waysF] at h
  | succ f ih =>
    intro fwd n x ys h
    unfold waysF at h
    split at h
    · injection h with h; subst h; exact .char ..
    · injection h with h; subst h; exact .cond ..
    · injection h with h; subst h; exact .ref _ _ _ _ (refF_ok ..)
    · exact .sub _ _ _ _ (ih _ _ _ _ h)
    · simp only [Option.bind_eq_some_iff, Option.some.injEq] at h
      obtain ⟨zs, h1, rfl⟩ := h
      exact .group _ _ _ _ _ (ih _ _ _ _ h1)
    · simp only [Option.bind_eq_some_iff] at h
      obtain ⟨zs, h1, h2⟩ := h
      cases zs with
      | nil => simp only [Option.some.injEq] at h2; subst h2; exact .lookFail _ _ _ _ (ih _ _ _ _ h1)
      | cons z zs =>
        simp only [Option.some.injEq] at h2; subst h2; exact .look _ _ _ _ _ _ (ih _ _ _ _ h1)
    · simp only [Option.bind_eq_some_iff] at h
      obtain ⟨zs, h1, h2⟩ := h
      cases zs with
      | nil => simp only [Option.some.injEq] at h2; subst h2; exact .lookNot _ _ _ _ (ih _ _ _ _ h1)
      | cons z zs =>
        simp only [Option.some.injEq] at h2; subst h2; exact .lookNotFail _ _ _ _ _ _ (ih _ _ _ _ h1)
    · injection h with h; subst h; exact .repDone ..
    · rename_i hm
      simp only [Option.bind_eq_some_iff] at h
      obtain ⟨zs, h1, h2⟩ := h
      exact .repMust _ _ _ _ _ _ _ _ hm (ih _ _ _ _ h1) (allF_ok (ih _ _) _ _ h2)
    · rename_i g hm
      simp only [Option.bind_eq_some_iff, Option.some.injEq] at h
      obtain ⟨zs, h1, ws, h2, rfl⟩ := h
      cases g with
      | true => exact .repGreedy _ _ _ _ _ _ hm (ih _ _ _ _ h1) (allF_ok (ih _ _) _ _ h2)
      | false => exact .repLazy _ _ _ _ _ _ hm (ih _ _ _ _ h1) (allF_ok (ih _ _) _ _ h2)
    · injection h with h; subst h; exact .seqNil ..
    · simp only [Option.bind_eq_some_iff] at h
      obtain ⟨zs, h1, h2⟩ := h
      exact .seqCons _ _ _ _ _ _ (ih _ _ _ _ h1) (allF_ok (ih _ _) _ _ h2)
    · cases h
    · exact .altsOne _ _ _ _ (ih _ _ _ _ h)
    · simp only [Option.bind_eq_some_iff, Option.some.injEq] at h
      obtain ⟨zs, h1, ws, h2, rfl⟩ := h
      exact .altsCons _ _ _ _ _ _ _ (ih _ _ _ _ h1) (ih _ _ _ _ h2)

theorem match_of_waysF {I : Input} {d : Alts} {pos f : Nat} {ys : List St}
    (h : waysF I f true (.alts d) (init pos) = some ys) : Match I d pos ys.head? :=
  ⟨ys, waysF_ok _ _ _ _ _ h, rfl⟩

end Verif.RegExp.Spec

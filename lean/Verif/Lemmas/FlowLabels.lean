import Verif.Spec.Flow

/-! Labels in generated code: each `stub` occurs once. -/

namespace Verif.Flow

open Spec

variable {σ V : Type}

/-- The labels placed in a piece of code. -/
def stubs : List (Cmd σ V) → List Nat
  | [] => []
  | .stub l :: r => l :: stubs r
  | .ex _ _ :: r => stubs r
  | .bind _ _ :: r => stubs r
  | .loadU _ :: r => stubs r
  | .dup _ _ :: r => stubs r
  | .seq _ _ _ :: r => stubs r
  | .pushEnv _ :: r => stubs r
  | .nextEnv :: r => stubs r
  | .pushIt _ _ :: r => stubs r
  | .forStep _ _ :: r => stubs r
  | .jmp _ :: r => stubs r
  | .jT _ _ :: r => stubs r
  | .jF _ _ :: r => stubs r
  | .pushTry _ _ :: r => stubs r
  | .catchE _ :: r => stubs r
  | .fin :: r => stubs r
  | .tryEnd :: r => stubs r
  | .pop :: r => stubs r
  | .throwR _ :: r => stubs r
  | .retR _ :: r => stubs r

theorem stubs_append (a b : List (Cmd σ V)) : stubs (a ++ b) = stubs a ++ stubs b := by
  induction a with
  | nil => rfl
  | cons c r ih => cases c <;> simp [stubs, ih]

theorem stubs_loadRv (rv : Option Nat) : stubs (loadRv rv : List (Cmd σ V)) = [] := by
  cases rv <;> rfl

theorem stubs_pushD (d : Option Nat) : stubs (pushD d : List (Cmd σ V)) = [] := by
  cases d <;> rfl

theorem stubs_popD (d : Option Nat) : stubs (popD d : List (Cmd σ V)) = [] := by
  cases d <;> rfl

theorem stubs_nextD (d : Option Nat) : stubs (nextD d : List (Cmd σ V)) = [] := by
  cases d <;> rfl

theorem stubs_exO (e : Option (Ex σ V)) (r : Nat) : stubs (exO e r) = [] := by
  cases e <;> rfl

theorem stubs_pops (n : Nat) : stubs (List.replicate n (.pop : Cmd σ V)) = [] := by
  induction n with
  | zero => rfl
  | succ n ih => simp [List.replicate_succ, stubs, ih]

theorem stubs_jump (E : Env) (j : J) : stubs (jump E j : List (Cmd σ V)) = [] := by
  unfold jump
  rw [stubs_append, stubs_append, stubs_pops]
  cases E.rv <;> cases j.rv <;> simp [stubs]
  split <;> rfl

theorem stubs_conds (rid : Nat) (s : Stmt σ V) (nr nl : Nat) :
    stubs (genConds rid s nr nl).code = [] ∧
      (genConds rid s nr nl).nl = nl + clauseCount s := by
  fun_induction genConds rid s nr nl with
  | case1 _ _ _ _ _ r ih =>
    have e : r = genConds rid _ _ _ := rfl
    exact ⟨by simp [stubs, e, ih.1], by simp only [clauseCount, e, ih.2]; omega⟩
  | case2 _ _ _ _ ih => exact ⟨ih.1, by simp only [clauseCount, ih.2]; omega⟩
  | case3 s _ _ h1 h2 =>
    refine ⟨rfl, ?_⟩
    cases s with
    | case c _ _ => cases c with
      | none => exact (h2 _ _ rfl).elim
      | some _ => exact (h1 _ _ _ rfl).elim
    | _ => rfl

/-- Labels of a piece of code: once each, between two bounds or of the clauses from `cl` on. -/
def LabOK (L : List Nat) (lo hi cl n : Nat) : Prop :=
  lo ≤ hi ∧ L.Nodup ∧ ∀ l ∈ L, (lo ≤ l ∧ l < hi) ∨ (cl ≤ l ∧ l < cl + n)

theorem count_of_parse {lb ls : List Nat} {bs cs : List PTgt} {s : Stmt σ V}
    (h : parse lb ls bs cs s = true) : clauseCount s = 0 := by
  cases s <;> first | rfl | simp [parse] at h

theorem try_labels (A K Z : List Nat) (nl a k z : Nat) (hA : LabOK A (nl + 4) a 0 0)
    (hK : LabOK K a k 0 0) (hZ : LabOK Z k z 0 0) :
    LabOK (A ++ (nl :: (K ++ ((nl + 1) :: (nl + 3) :: (Z ++ [nl + 2]))))) nl z 0 0 := by
  obtain ⟨a1, a2, a3⟩ := hA
  obtain ⟨k1, k2, k3⟩ := hK
  obtain ⟨z1, z2, z3⟩ := hZ
  refine ⟨by omega, ?_, ?_⟩
  · simp only [List.nodup_append, List.nodup_cons, List.mem_append, List.mem_cons, List.mem_nil_iff,
      List.nodup_nil, or_false, a2, k2, z2, not_or, List.not_mem_nil, not_false_eq_true, and_true,
      true_and]
    have A' : ∀ l ∈ A, nl + 4 ≤ l ∧ l < a := fun l h => by have := a3 l h; omega
    have K' : ∀ l ∈ K, a ≤ l ∧ l < k := fun l h => by have := k3 l h; omega
    have Z' : ∀ l ∈ Z, k ≤ l ∧ l < z := fun l h => by have := z3 l h; omega
    have nA : ∀ x, x < nl + 4 → x ∉ A := fun x hx h => by have := A' x h; omega
    have nK : ∀ x, x < nl + 4 → x ∉ K := fun x hx h => by have := K' x h; omega
    have nZ : ∀ x, x < nl + 4 → x ∉ Z := fun x hx h => by have := Z' x h; omega
    refine ⟨⟨?_, ?_, ?_⟩, ?_⟩
    · exact ⟨nK _ (by omega), by omega, by omega, nZ _ (by omega), by omega⟩
    · refine ⟨⟨by omega, nZ _ (by omega), by omega⟩, ⟨nZ _ (by omega), by omega⟩, ?_⟩
      intro x hx y hy e; subst e hy; exact nZ _ (by omega) hx
    · intro x hx y hy e
      subst e
      have := K' x hx
      rcases hy with h | h | h | h
      · omega
      · omega
      · have := Z' x h; omega
      · omega
    · intro x hx y hy e
      subst e
      have := A' x hx
      rcases hy with h | h | h | h | h | h
      · omega
      · have := K' x h; omega
      · omega
      · omega
      · have := Z' x h; omega
      · omega
  · intro l hl
    simp only [List.mem_append, List.mem_cons, List.not_mem_nil, or_false] at hl
    rcases hl with h | h | h | h | h | h | h
    · have := a3 l h; omega
    · omega
    · have := k3 l h; omega
    · omega
    · omega
    · have := z3 l h; omega
    · omega

set_option maxHeartbeats 1000000 in
theorem labels (s : Stmt σ V) :
    (∀ E ls nr nl lb ls' bs cs, parse lb ls' bs cs s = true →
      LabOK (stubs (gen E ls s nr nl).code) nl (gen E ls s nr nl).nl 0 0) ∧
    (∀ E ls nr nl lb bs cs, parse.clauses lb bs cs s = true → E.clab + clauseCount s ≤ nl →
      LabOK (stubs (gen E ls s nr nl).code) nl (gen E ls s nr nl).nl E.clab (clauseCount s)) := by
  induction s with
  | nil =>
    constructor
    · intro E ls nr nl lb ls' bs cs _
      exact ⟨Nat.le_refl _, List.nodup_nil, by simp [gen, stubs]⟩
    · intro E ls nr nl lb bs cs _ _
      exact ⟨Nat.le_refl _, List.nodup_nil, by simp [gen, stubs]⟩
  | case c b r ihb ihr =>
    refine ⟨by intro E ls nr nl lb ls' bs cs h; simp [parse] at h, ?_⟩
    intro E ls nr nl lb bs cs h hc
    simp only [parse.clauses, Bool.and_eq_true] at h
    have hb := ihb.1 E [] nr nl _ _ _ _ h.1.1
    simp only [clauseCount] at hc ⊢
    have hr := ihr.2 { E with clab := E.clab + 1 } [] (gen E [] b nr nl).nr (gen E [] b nr nl).nl _ _ _ h.2
      (by have := hb.1; show E.clab + 1 + _ ≤ _; omega)
    obtain ⟨b1, b2, b3⟩ := hb
    obtain ⟨r1, r2, r3⟩ := hr
    simp only [gen, stubs_append, stubs, List.nil_append, List.cons_append]
    generalize stubs (gen E [] b nr nl).code = A at *
    generalize (gen E [] b nr nl).nl = n1 at *
    generalize hR : stubs (gen { E with clab := E.clab + 1 } [] r (gen E [] b nr nl).nr n1).code = R at *
    generalize (gen { E with clab := E.clab + 1 } [] r (gen E [] b nr nl).nr n1).nl = n2 at *
    have r3' : ∀ l ∈ R, (n1 ≤ l ∧ l < n2) ∨ (E.clab + 1 ≤ l ∧ l < E.clab + 1 + clauseCount r) := r3
    refine ⟨by omega, ?_, ?_⟩ <;> grind
  | block d b ih =>
    refine ⟨?_, by intro E ls nr nl lb bs cs h; simp [parse.clauses] at h⟩
    intro E ls nr nl lb ls' bs cs h
    simp only [parse] at h
    have key : LabOK (stubs (gen { E with d := E.d + 1, bs := ⟨ls, false, ⟨nl, E.d + 1, E.rv⟩⟩ :: E.bs } [] b nr (nl + 1)).code)
      (nl + 1) (gen { E with d := E.d + 1, bs := ⟨ls, false, ⟨nl, E.d + 1, E.rv⟩⟩ :: E.bs } [] b nr (nl + 1)).nl 0 0 := ih.1 _ _ _ _ _ _ _ _ h
    by_cases hb : b = .nil
    · subst hb
      exact ⟨Nat.le_refl _, List.nodup_nil, by simp [gen, stubs]⟩
    · rw [show gen E ls (.block d b) nr nl = (let a := gen { E with d := E.d + 1, bs := ⟨ls, false, ⟨nl, E.d + 1, E.rv⟩⟩ :: E.bs } [] b nr (nl + 1); ⟨[.pushEnv d] ++ (a.code ++ [.stub nl, .pop]), a.nr, a.nl⟩) by
        cases b <;> first | rfl | exact absurd rfl hb]
      simp only [stubs_append, stubs, List.nil_append]
      obtain ⟨k1, k2, k3⟩ := key
      generalize stubs (gen _ [] b nr (nl + 1)).code = A at *
      generalize (gen _ [] b nr (nl + 1)).nl = n1 at *
      refine ⟨by omega, ?_, ?_⟩ <;> grind
  | cons s r ihs ihr =>
    refine ⟨?_, by intro E ls nr nl lb bs cs h; simp [parse.clauses] at h⟩
    intro E ls nr nl lb ls' bs cs h
    simp only [parse, Bool.and_eq_true] at h
    have k1 : ∀ E nr nl, LabOK (stubs (gen E [] s nr nl).code) nl (gen E [] s nr nl).nl 0 0 :=
      fun E nr nl => ihs.1 E [] nr nl _ _ _ _ h.1
    have k2 : ∀ E nr nl, LabOK (stubs (gen E [] r nr nl).code) nl (gen E [] r nr nl).nl 0 0 :=
      fun E nr nl => ihr.1 E [] nr nl _ _ _ _ h.2
    simp only [gen, stubs_append]
    unfold LabOK at *
    clear ihs ihr
    grind
  | ite c s t ihs iht =>
    refine ⟨?_, by intro E ls nr nl lb bs cs h; simp [parse.clauses] at h⟩
    intro E ls nr nl lb ls' bs cs h
    simp only [parse, Bool.and_eq_true] at h
    have k1 : ∀ E nr nl, LabOK (stubs (gen E [] s nr nl).code) nl (gen E [] s nr nl).nl 0 0 :=
      fun E nr nl => ihs.1 E [] nr nl _ _ _ _ h.1
    have k2 : ∀ E nr nl, LabOK (stubs (gen E [] t nr nl).code) nl (gen E [] t nr nl).nl 0 0 :=
      fun E nr nl => iht.1 E [] nr nl _ _ _ _ h.2
    simp only [gen, stubs_append, stubs, stubs_loadRv, List.nil_append, List.cons_append]
    unfold LabOK at *
    clear ihs iht
    grind
  | doWhile s c ihs =>
    refine ⟨?_, by intro E ls nr nl lb bs cs h; simp [parse.clauses] at h⟩
    intro E ls nr nl lb ls' bs cs h
    simp only [parse] at h
    have k1 : ∀ E nr nl, LabOK (stubs (gen E [] s nr nl).code) nl (gen E [] s nr nl).nl 0 0 :=
      fun E nr nl => ihs.1 E [] nr nl _ _ _ _ h
    simp only [gen, stubs_append, stubs, stubs_loadRv, List.nil_append, List.cons_append]
    unfold LabOK at *
    clear ihs
    grind
  | while_ c s ihs =>
    refine ⟨?_, by intro E ls nr nl lb bs cs h; simp [parse.clauses] at h⟩
    intro E ls nr nl lb ls' bs cs h
    simp only [parse] at h
    have k1 : ∀ E nr nl, LabOK (stubs (gen E [] s nr nl).code) nl (gen E [] s nr nl).nl 0 0 :=
      fun E nr nl => ihs.1 E [] nr nl _ _ _ _ h
    simp only [gen, stubs_append, stubs, stubs_loadRv, List.nil_append, List.cons_append]
    unfold LabOK at *
    clear ihs
    grind
  | with_ e d s ihs =>
    refine ⟨?_, by intro E ls nr nl lb bs cs h; simp [parse.clauses] at h⟩
    intro E ls nr nl lb ls' bs cs h
    simp only [parse] at h
    have k1 : ∀ E nr nl, LabOK (stubs (gen E [] s nr nl).code) nl (gen E [] s nr nl).nl 0 0 :=
      fun E nr nl => ihs.1 E [] nr nl _ _ _ _ h
    simp only [gen, stubs_append, stubs, stubs_loadRv, List.nil_append, List.cons_append]
    unfold LabOK at *
    clear ihs
    grind
  | for_ d i c t s ihs =>
    refine ⟨?_, by intro E ls nr nl lb bs cs h; simp [parse.clauses] at h⟩
    intro E ls nr nl lb ls' bs cs h
    simp only [parse] at h
    have k1 : ∀ E nr nl, LabOK (stubs (gen E [] s nr nl).code) nl (gen E [] s nr nl).nl 0 0 :=
      fun E nr nl => ihs.1 E [] nr nl _ _ _ _ h
    have hc : ∀ r l, stubs (condO c r l) = [] := by
      intro r l; cases c <;> rfl
    simp only [gen, stubs_append, stubs, stubs_loadRv, stubs_pushD, stubs_popD, stubs_nextD, stubs_exO,
      hc, List.nil_append, List.cons_append, List.append_nil]
    unfold LabOK at *
    clear ihs
    grind
  | forIn of d e f s ihs =>
    refine ⟨?_, by intro E ls nr nl lb bs cs h; simp [parse.clauses] at h⟩
    intro E ls nr nl lb ls' bs cs h
    simp only [parse] at h
    have k1 : ∀ E nr nl, LabOK (stubs (gen E [] s nr nl).code) nl (gen E [] s nr nl).nl 0 0 :=
      fun E nr nl => ihs.1 E [] nr nl _ _ _ _ h
    simp only [gen, stubs_append, stubs, stubs_loadRv, stubs_pushD, stubs_popD,
      List.nil_append, List.cons_append]
    unfold LabOK at *
    clear ihs
    grind
  | switch d e c ihc =>
    refine ⟨?_, by intro E ls nr nl lb bs cs h; simp [parse.clauses] at h⟩
    intro E ls nr nl lb ls' bs cs h
    simp only [parse] at h
    have k1 : ∀ E nr nl, E.clab + clauseCount c ≤ nl →
        LabOK (stubs (gen E [] c nr nl).code) nl (gen E [] c nr nl).nl E.clab (clauseCount c) :=
      fun E nr nl => ihc.2 E [] nr nl _ _ _ h
    have q := stubs_conds nr c (nr + 1) (nl + 1)
    simp only [gen, stubs_append, stubs, stubs_loadRv, q.1, q.2, List.nil_append, List.cons_append]
    have k2 := k1 { E with d := E.d + 1, bs := ⟨ls, true, ⟨nl, E.d + 1, E.rv⟩⟩ :: E.bs, clab := nl + 1 }
      (genConds nr c (nr + 1) (nl + 1)).nr (nl + 1 + clauseCount c) (Nat.le_refl _)
    unfold LabOK at *
    clear k1 ihc
    grind
  | try_ b hc cd c hf f ihb ihc ihf =>
    refine ⟨?_, by intro E ls nr nl lb bs cs h; simp [parse.clauses] at h⟩
    intro E ls nr nl lb ls' bs cs h
    simp only [parse, Bool.and_eq_true] at h
    have k1 : ∀ E nr nl, LabOK (stubs (gen E [] b nr nl).code) nl (gen E [] b nr nl).nl 0 0 :=
      fun E nr nl => ihb.1 E [] nr nl _ _ _ _ h.1.1.1
    have k2 : hc = true → ∀ E nr nl, LabOK (stubs (gen E [] c nr nl).code) nl (gen E [] c nr nl).nl 0 0 :=
      fun e E nr nl => ihc.1 E [] nr nl _ _ _ _ (by simpa [e] using h.1.2)
    have k3 : hf = true → ∀ E nr nl, LabOK (stubs (gen E [] f nr nl).code) nl (gen E [] f nr nl).nl 0 0 :=
      fun e E nr nl => ihf.1 E [] nr nl _ _ _ _ (by simpa [e] using h.2)
    have hcd : ∀ r, stubs (catchO cd r) = [] := by
      intro r; cases cd <;> rfl
    clear ihb ihc ihf h
    have e0 : ∀ n, LabOK [] n n 0 0 := fun n => ⟨Nat.le_refl _, List.nodup_nil, by simp⟩
    cases hc <;> cases hf <;>
      simp only [gen, stubs_append, stubs, stubs_loadRv, stubs_popD, hcd, List.nil_append,
        List.cons_append, List.append_nil]
    · exact try_labels _ _ _ _ _ _ _ (k1 _ _ _) (e0 _) (e0 _)
    · exact try_labels _ _ _ _ _ _ _ (k1 _ _ _) (e0 _) (k3 rfl _ _ _)
    · exact try_labels _ _ _ _ _ _ _ (k1 _ _ _) (k2 rfl _ _ _) (e0 _)
    · exact try_labels _ _ _ _ _ _ _ (k1 _ _ _) (k2 rfl _ _ _) (k3 rfl _ _ _)
  | labelled n s ihs =>
    refine ⟨?_, by intro E ls nr nl lb bs cs h; simp [parse.clauses] at h⟩
    intro E ls nr nl lb ls' bs cs h
    simp only [parse, Bool.and_eq_true] at h
    exact ihs.1 E (n :: ls) nr nl _ _ _ _ h.2
  | expr e =>
    refine ⟨?_, by intro E ls nr nl lb bs cs h; simp [parse.clauses] at h⟩
    intro E ls nr nl lb ls' bs cs h
    simp only [gen]
    cases E.rv <;> exact ⟨Nat.le_refl _, List.nodup_nil, by simp [stubs]⟩
  | brk l =>
    refine ⟨?_, by intro E ls nr nl lb bs cs h; simp [parse.clauses] at h⟩
    intro E ls nr nl lb ls' bs cs h
    simp only [gen]
    split
    · exact ⟨Nat.le_refl _, List.nodup_nil, by simp [stubs]⟩
    · split
      · exact ⟨Nat.le_refl _, by simp [stubs_jump], by simp [stubs_jump]⟩
      · exact ⟨Nat.le_refl _, List.nodup_nil, by simp [stubs]⟩
  | cont l =>
    refine ⟨?_, by intro E ls nr nl lb bs cs h; simp [parse.clauses] at h⟩
    intro E ls nr nl lb ls' bs cs h
    simp only [gen]
    split
    · exact ⟨Nat.le_refl _, by simp [stubs_jump], by simp [stubs_jump]⟩
    · exact ⟨Nat.le_refl _, List.nodup_nil, by simp [stubs]⟩
  | ret e =>
    refine ⟨?_, by intro E ls nr nl lb bs cs h; simp [parse.clauses] at h⟩
    intro E ls nr nl lb ls' bs cs h
    cases e <;> exact ⟨Nat.le_refl _, List.nodup_nil, by simp [gen, stubs]⟩
  | _ =>
    refine ⟨?_, by intro E ls nr nl lb bs cs h; simp [parse.clauses] at h⟩
    intro E ls nr nl lb ls' bs cs h
    exact ⟨Nat.le_refl _, List.nodup_nil, by simp [gen, stubs]⟩

/-- A label whose `stub` occurs once is found where it is. -/
theorem pos_of_nodup (code : List (Cmd σ V)) (h : (stubs code).Nodup) (p l : Nat)
    (hp : code[p]? = some (.stub l)) : pos code l = p := by
  induction code generalizing p with
  | nil => simp at hp
  | cons c r ih =>
    cases p with
    | zero =>
      simp only [List.getElem?_cons_zero, Option.some.injEq] at hp
      subst hp
      simp [pos, List.findIdx_cons]
    | succ p =>
      simp only [List.getElem?_cons_succ] at hp
      have hm : l ∈ stubs r := by
        clear ih h
        induction r generalizing p with
        | nil => simp at hp
        | cons d r ih =>
          cases p with
          | zero =>
            simp only [List.getElem?_cons_zero, Option.some.injEq] at hp
            subst hp
            simp [stubs]
          | succ p =>
            have := ih p (by simpa using hp)
            cases d <;> simp [stubs, this]
      have hr : (stubs r).Nodup := by
        cases c <;> simp only [stubs] at h <;> first | exact h | exact (List.nodup_cons.1 h).2
      have := ih hr p hp
      unfold pos at this ⊢
      rw [List.findIdx_cons]
      cases c <;> simp only [this, cond_false, Bool.cond_false]
      rename_i k
      simp only [stubs, List.nodup_cons] at h
      have : (k == l) = false := by
        simp only [beq_eq_false_iff_ne]
        rintro rfl
        exact h.1 hm
      simp [this]

/-- Each `stub` of the code is where `pos` finds it. -/
def LOK (code : List (Cmd σ V)) : Prop :=
  ∀ p l, code[p]? = some (.stub l) → pos code l = p

theorem lok_func (s : Stmt σ V) (h : parse [] [] [] [] s = true) : LOK (genFunc s) :=
  fun p l hp => pos_of_nodup _ ((labels s).1 ⟨0, none, [], [], 0⟩ [] 0 0 _ _ _ _ h).2.1 p l hp

theorem lok_eval (s : Stmt σ V) (h : parse [] [] [] [] s = true) : LOK (genEval s) :=
  fun p l hp => pos_of_nodup _ (by
    have := ((labels s).1 ⟨0, some 0, [], [], 0⟩ [] 1 0 _ _ _ _ h).2.1
    simpa [genEval, stubs_append, stubs] using this) p l hp

end Verif.Flow

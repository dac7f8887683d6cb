import Verif.Lemmas.FlowTry2

/-! Whole function bodies and `eval` texts; the parser's jumps and labels. -/

namespace Verif.Flow

open Spec

variable {σ V : Type} {W : World σ V} {code : List (Cmd σ V)}

theorem codeAt_self (c : List (Cmd σ V)) (a b : List (Cmd σ V)) : CodeAt (a ++ (c ++ b)) a.length c := by
  intro i hi
  rw [List.getElem?_append_right (by omega), Nat.add_sub_cancel_left, List.getElem?_append_left hi]

theorem run_end_eq {a : M σ V ⊕ Fin σ V} {j k : Nat} {f g : Fin σ V} (h : run W code j a = .inr f)
    (h' : run W code k a = .inr g) : f = g := by
  have e : run W code (j + k) a = .inr f := by rw [run_add, h, run_inr]
  have e' : run W code (k + j) a = .inr g := by rw [run_add, h', run_inr]
  rw [Nat.add_comm] at e
  rw [e] at e'
  exact Sum.inr.inj e'

/-- Nothing around. -/
def top (env : List Nat) (rv : Option Nat) (rvm ka : Bool) (nr : Nat) : Cx V :=
  ⟨0, [], env, rv, rvm, false, ka, false, nr, [], []⟩

theorem inv_top (env : List Nat) (rv : Option Nat) (rvm ka : Bool) (nr : Nat) (h : ∀ i, rv = some i → i < nr) :
    Inv (top env rv rvm ka nr : Cx V) ⟨0, rv, [], [], 0⟩ [] [] nr :=
  ⟨rfl, rfl, ⟨[], rfl⟩, ⟨[], rfl⟩, (by intro t ht; cases ht), (by intro t ht; cases ht),
    (by intro t ht; cases ht), Nat.le_refl _, h⟩

/-- The body of a function. -/
theorem func_post (hW : QuietWorld W) (s : Stmt σ V) (ka : Bool) (hp : parse [] [] [] [] s = true)
    (hok : Ok false false ka false s) (env : List Nat) (w : σ) (n : Nat) :
    Post W (genFunc s) (top env none false ka 0) (genFunc s).length n (start W env w)
      (eval W n [] 0 s env w) := by
  have hy : Hyp (genFunc s) (top env none false ka 0) ⟨0, none, [], [], 0⟩ [] [] 0 0 0 s (start W env w) := by
    refine ⟨inv_top env none false ka 0 (by intro i h; cases h), hp, hok, ?_, rfl, rfl, rfl, fun _ => rfl⟩
    intro i hi
    rw [Nat.zero_add]
    rfl
  have := (sim hW (lok_func s hp) s).1.use (n := n) hy
  rw [Nat.zero_add] at this
  exact this

/-- A call and the standard's completion of the body. -/
theorem func_result (hW : QuietWorld W) (s : Stmt σ V) (ka : Bool) (hp : parse [] [] [] [] s = true)
    (hok : Ok false false ka false s) (env : List Nat) (w : σ) (n : Nat) (o : σ × Comp V)
    (he : eval W n [] 0 s env w = some o) :
    ∃ k f, run W (genFunc s) k (.inl (start W env w)) = .inr f ∧ CallAgrees o f ∧
      (ka = true → callResult W o = some f) := by
  have h := func_post hW s ka hp hok env w n
  rw [he] at h
  obtain ⟨w', c⟩ := o
  cases c with
  | normal v =>
    obtain ⟨m', ⟨k, hk⟩, h2, h3, h4, h5⟩ := h
    refine ⟨k + 1, .val w' m'.retv, ?_, ⟨_, rfl⟩, ?_⟩
    · rw [run_add, hk]
      have : step W (genFunc s) m' = .inr (.val w' m'.retv) := by
        unfold step
        rw [h5, List.getElem?_eq_none (Nat.le_refl _), h3]
        simp only [top, unwind, h2.w]
      exact this
    · intro hka
      have := h2.retv (by simp [Cx.kp, top, hka])
      rw [this]
      rfl
  | brk v t =>
    obtain ⟨m', j, h1, _⟩ := h
    cases t <;> cases h1
  | cont v t =>
    obtain ⟨m', j, h1, _⟩ := h
    cases t <;> cases h1
  | ret v =>
    obtain ⟨m', ⟨k, hk⟩, h2, h3⟩ := h
    refine ⟨k, .val w' v, ?_, rfl, fun _ => rfl⟩
    rw [hk]
    simp only [top, unwind, h2.w, h2.retv]
  | thr v =>
    obtain ⟨m', ⟨k, hk⟩, h2, h3⟩ := h
    refine ⟨k, .thr w' v, ?_, rfl, fun _ => rfl⟩
    rw [hk]
    simp only [top, unwind, h2.w, caught, h2.flag, h2.err, ↓reduceIte]

theorem func_none (hW : QuietWorld W) (s : Stmt σ V) (ka : Bool) (hp : parse [] [] [] [] s = true)
    (hok : Ok false false ka false s) (env : List Nat) (w : σ) (k : Nat) (f : Fin σ V)
    (hk : run W (genFunc s) k (.inl (start W env w)) = .inr f) :
    ∃ o, eval W k [] 0 s env w = some o := by
  have h := func_post hW s ka hp hok env w k
  cases he : eval W k [] 0 s env w with
  | some o => exact ⟨o, rfl⟩
  | none =>
    rw [he] at h
    obtain ⟨m, hm⟩ := h k (Nat.le_refl _)
    rw [hk] at hm
    cases hm

/-- An `eval` text. -/
theorem eval_post (hW : QuietWorld W) (s : Stmt σ V) (hp : parse [] [] [] [] s = true)
    (hok : Ok true false false false s) (env : List Nat) (w : σ) (n : Nat) :
    Post W (genEval s) (top env (some 0) true false 1)
      (1 + (gen ⟨0, some 0, [], [], 0⟩ [] s 1 0).code.length) n
      { start W env w with ip := 1, regs := setR (start W env w).regs 0 W.undef }
      (eval W n [] 0 s env w) := by
  have hy : Hyp (genEval s) (top env (some 0) true false 1) ⟨0, some 0, [], [], 0⟩ [] [] 1 0 1 s
      { start W env w with ip := 1, regs := setR (start W env w).regs 0 W.undef } := by
    refine ⟨inv_top env (some 0) true false 1 (by intro i h; cases h; omega), hp, hok, ?_, rfl, rfl, rfl,
      fun _ => rfl⟩
    exact codeAt_self _ [.loadU 0] [.retR 0]
  exact (sim hW (lok_eval s hp) s).1.use (n := n) hy

theorem eval_first (s : Stmt σ V) (env : List Nat) (w : σ) : Reach W (genEval s) (.inl (start W env w))
    (.inl { start W env w with ip := 1, regs := setR (start W env w).regs 0 W.undef }) := ⟨1, rfl⟩

theorem eval_result (hW : QuietWorld W) (s : Stmt σ V) (hp : parse [] [] [] [] s = true)
    (hok : Ok true false false false s) (env : List Nat) (w : σ) (n : Nat) (o : σ × Comp V)
    (he : eval W n [] 0 s env w = some o) :
    ∃ k f, run W (genEval s) k (.inl (start W env w)) = .inr f ∧ evalResult W o = some f := by
  have h := eval_post hW s hp hok env w n
  have hr := eval_first (W := W) s env w
  rw [he] at h
  obtain ⟨w', c⟩ := o
  cases c with
  | normal v =>
    obtain ⟨m', h1, h2, h3, h4, h5⟩ := h
    obtain ⟨k, hk⟩ := hr.trans h1
    refine ⟨k + 1, .val w' (v.getD W.undef), ?_, rfl⟩
    rw [run_add, hk]
    have hv := h2.rv rfl 0 rfl
    have : step W (genEval s) m' = .inr (.val w' (v.getD W.undef)) := by
      unfold step
      have hc : (genEval s)[m'.ip]? = some (.retR 0) := by
        rw [h5]
        unfold genEval
        rw [← List.append_assoc, List.getElem?_append_right (by simp; omega)]
        simp [Nat.add_comm]
      rw [hc]
      simp only [exec]
      rw [h3]
      simp only [top, unwind, h2.w]
      rw [hv]
      simp [setR]
    exact this
  | brk v t =>
    obtain ⟨m', j, h1, _⟩ := h
    cases t <;> cases h1
  | cont v t =>
    obtain ⟨m', j, h1, _⟩ := h
    cases t <;> cases h1
  | ret v =>
    obtain ⟨m', h1, h2, h3⟩ := h
    obtain ⟨k, hk⟩ := hr.trans h1
    refine ⟨k, .val w' v, ?_, rfl⟩
    rw [hk]
    simp only [top, unwind, h2.w, h2.retv]
  | thr v =>
    obtain ⟨m', h1, h2, h3⟩ := h
    obtain ⟨k, hk⟩ := hr.trans h1
    refine ⟨k, .thr w' v, ?_, rfl⟩
    rw [hk]
    simp only [top, unwind, h2.w, caught, h2.flag, h2.err, ↓reduceIte]

theorem eval_none (hW : QuietWorld W) (s : Stmt σ V) (hp : parse [] [] [] [] s = true)
    (hok : Ok true false false false s) (env : List Nat) (w : σ) (k : Nat) (f : Fin σ V)
    (hk : run W (genEval s) k (.inl (start W env w)) = .inr f) :
    ∃ o, eval W k [] 0 s env w = some o := by
  have h := eval_post hW s hp hok env w k
  cases he : eval W k [] 0 s env w with
  | some o => exact ⟨o, rfl⟩
  | none =>
    rw [he] at h
    obtain ⟨m, hm⟩ := (Runs.of_reach (eval_first (W := W) s env w) h) k (Nat.le_refl _)
    rw [hk] at hm
    cases hm

/-! ## Jumps and labels -/

/-- The parser's stacks and the standard's sets. -/
structure LRel (bs cs : List PTgt) (lb ll : List Nat) (inB inL : Bool) : Prop where
  mem : ∀ n, n ∈ ll ↔ cs.any (fun t => decide (n ∈ t.1)) = true
  sub : ∀ n, n ∈ ll → n ∈ lb
  b : inB = bs.any (·.2)
  l : inL = !cs.isEmpty

theorem LRel.push {bs cs : List PTgt} {lb ll ls : List Nat} {inB inL : Bool} (h : LRel bs cs lb ll inB inL) :
    LRel ((ls, false) :: bs) cs lb ll inB inL :=
  ⟨h.mem, h.sub, by simp [h.b], h.l⟩

theorem LRel.sw {bs cs : List PTgt} {lb ll ls : List Nat} {inB inL : Bool} (h : LRel bs cs lb ll inB inL) :
    LRel ((ls, true) :: bs) cs lb ll true inL :=
  ⟨h.mem, h.sub, by simp, h.l⟩

theorem LRel.loop {bs cs : List PTgt} {lb ll ls : List Nat} {inB inL : Bool} (h : LRel bs cs lb ll inB inL)
    (hs : ∀ n ∈ ls, n ∈ lb) :
    LRel ((ls, true) :: bs) ((ls, true) :: cs) lb (ls ++ ll) true true := by
  refine ⟨?_, ?_, by simp, by simp⟩
  · intro n
    simp only [List.mem_append, List.any_cons, Bool.or_eq_true, decide_eq_true_eq, h.mem]
  · intro n hn
    rcases List.mem_append.1 hn with h1 | h1
    · exact hs n h1
    · exact h.sub n h1

theorem LRel.lab {bs cs : List PTgt} {lb ll : List Nat} {inB inL : Bool} (k : Nat) (h : LRel bs cs lb ll inB inL) :
    LRel bs cs (k :: lb) ll inB inL :=
  ⟨h.mem, fun n hn => List.mem_cons_of_mem _ (h.sub n hn), h.b, h.l⟩

theorem defLab_none (s : Stmt σ V) (nl : Nat) : (defLab s nl).isNone = true ↔ defaultClause s = none := by
  induction s generalizing nl with
  | case c b r ih1 ih2 =>
    cases c with
    | none => simp [defLab, defaultClause]
    | some e => simp only [defLab, defaultClause, Option.map_eq_none_iff]; exact ih2 _
  | _ => simp [defLab, defaultClause]

/-- What the parser accepts is valid. -/
theorem parse_valid (s : Stmt σ V) :
    (∀ lb ls bs cs ll inB inL, LRel bs cs lb ll inB inL → (∀ n ∈ ls, n ∈ lb) → parse lb ls bs cs s = true →
      valid lb ll ls inB inL s) ∧
    (∀ lb bs cs ll inL, LRel bs cs lb ll true inL → parse.clauses lb bs cs s = true →
      valid.clauses lb ll inL s) := by
  have nil : ∀ {lb : List Nat}, ∀ n ∈ ([] : List Nat), n ∈ lb := by intro lb n h; cases h
  induction s with
  | nil => exact ⟨fun _ _ _ _ _ _ _ _ _ _ => trivial, fun _ _ _ _ _ _ _ => trivial⟩
  | cons s r ih1 ih2 =>
    refine ⟨?_, fun _ _ _ _ _ _ h => by cases h⟩
    intro lb ls bs cs ll inB inL h hs hp
    simp only [parse, Bool.and_eq_true] at hp
    exact ⟨ih1.1 _ _ _ _ _ _ _ h nil hp.1, ih2.1 _ _ _ _ _ _ _ h nil hp.2⟩
  | empty => exact ⟨fun _ _ _ _ _ _ _ _ _ _ => trivial, fun _ _ _ _ _ _ h => by cases h⟩
  | expr e => exact ⟨fun _ _ _ _ _ _ _ _ _ _ => trivial, fun _ _ _ _ _ _ h => by cases h⟩
  | decl e => exact ⟨fun _ _ _ _ _ _ _ _ _ _ => trivial, fun _ _ _ _ _ _ h => by cases h⟩
  | throw_ e => exact ⟨fun _ _ _ _ _ _ _ _ _ _ => trivial, fun _ _ _ _ _ _ h => by cases h⟩
  | ret e => exact ⟨fun _ _ _ _ _ _ _ _ _ _ => trivial, fun _ _ _ _ _ _ h => by cases h⟩
  | block d b ih =>
    exact ⟨fun lb ls bs cs ll inB inL h hs hp => ih.1 _ _ _ _ _ _ _ h.push nil hp, fun _ _ _ _ _ _ h => by cases h⟩
  | ite c s t ih1 ih2 =>
    refine ⟨?_, fun _ _ _ _ _ _ h => by cases h⟩
    intro lb ls bs cs ll inB inL h hs hp
    simp only [parse, Bool.and_eq_true] at hp
    exact ⟨ih1.1 _ _ _ _ _ _ _ h.push nil hp.1, ih2.1 _ _ _ _ _ _ _ h.push nil hp.2⟩
  | doWhile s c ih =>
    exact ⟨fun lb ls bs cs ll inB inL h hs hp => ih.1 _ _ _ _ _ _ _ (h.loop hs) nil hp, fun _ _ _ _ _ _ h => by cases h⟩
  | while_ c s ih =>
    exact ⟨fun lb ls bs cs ll inB inL h hs hp => ih.1 _ _ _ _ _ _ _ (h.loop hs) nil hp, fun _ _ _ _ _ _ h => by cases h⟩
  | for_ d i c t s ih =>
    exact ⟨fun lb ls bs cs ll inB inL h hs hp => ih.1 _ _ _ _ _ _ _ (h.loop hs) nil hp, fun _ _ _ _ _ _ h => by cases h⟩
  | forIn of d e f s ih =>
    exact ⟨fun lb ls bs cs ll inB inL h hs hp => ih.1 _ _ _ _ _ _ _ (h.loop hs) nil hp, fun _ _ _ _ _ _ h => by cases h⟩
  | switch d e c ih =>
    exact ⟨fun lb ls bs cs ll inB inL h hs hp => ih.2 _ _ _ _ _ h.sw hp, fun _ _ _ _ _ _ h => by cases h⟩
  | case c b r ih1 ih2 =>
    refine ⟨fun _ _ _ _ _ _ _ _ _ h => by simp [parse] at h, ?_⟩
    intro lb bs cs ll inL h hp
    simp only [parse.clauses, Bool.and_eq_true, Bool.or_eq_true] at hp
    refine ⟨ih1.1 _ _ _ _ _ _ _ h nil hp.1.1, ?_, ih2.2 _ _ _ _ _ h hp.2⟩
    intro hc
    rcases hp.1.2 with h1 | h1
    · cases c <;> simp_all
    · exact (defLab_none r 0).1 h1
  | try_ b hc cd c hf f ih1 ih2 ih3 =>
    refine ⟨?_, fun _ _ _ _ _ _ h => by cases h⟩
    intro lb ls bs cs ll inB inL h hs hp
    simp only [parse, Bool.and_eq_true, Bool.or_eq_true, Bool.not_eq_true'] at hp
    obtain ⟨⟨⟨h1, h2⟩, h3⟩, h4⟩ := hp
    refine ⟨ih1.1 _ _ _ _ _ _ _ h.push nil h1, h2, ?_, ?_⟩
    · intro e
      rcases h3 with h3 | h3
      · rw [e] at h3; cases h3
      · exact ih2.1 _ _ _ _ _ _ _ h nil h3
    · intro e
      rcases h4 with h3 | h3
      · rw [e] at h3; cases h3
      · exact ih3.1 _ _ _ _ _ _ _ h nil h3
  | with_ e d s ih =>
    exact ⟨fun lb ls bs cs ll inB inL h hs hp => ih.1 _ _ _ _ _ _ _ h.push nil hp, fun _ _ _ _ _ _ h => by cases h⟩
  | brk l =>
    refine ⟨?_, fun _ _ _ _ _ _ h => by cases h⟩
    intro lb ls bs cs ll inB inL h hs hp
    cases l with
    | none => simp only [parse] at hp; simp only [valid]; rw [h.b]; exact hp
    | some n =>
      simp only [parse, Bool.and_eq_true, decide_eq_true_eq] at hp
      exact hp.1
  | cont l =>
    refine ⟨?_, fun _ _ _ _ _ _ h => by cases h⟩
    intro lb ls bs cs ll inB inL h hs hp
    cases l with
    | none => simp only [parse] at hp; simp only [valid]; rw [h.l]; exact hp
    | some n =>
      simp only [parse, Bool.and_eq_true, decide_eq_true_eq] at hp
      exact (h.mem n).2 hp.2
  | labelled k s ih =>
    refine ⟨?_, fun _ _ _ _ _ _ h => by cases h⟩
    intro lb ls bs cs ll inB inL h hs hp
    simp only [parse, Bool.and_eq_true, Bool.not_eq_true', decide_eq_false_iff_not] at hp
    refine ⟨hp.1, ih.1 _ _ _ _ _ _ _ (h.lab k) ?_ hp.2⟩
    intro n hn
    rcases List.mem_cons.1 hn with rfl | h1
    · exact List.mem_cons_self
    · exact List.mem_cons_of_mem _ (hs n h1)

/-- Every label around is one of the statement or of a statement on the break stack. -/
def Cov (lb ls : List Nat) (bs : List PTgt) : Prop :=
  ∀ n ∈ lb, n ∈ ls ∨ bs.any (fun t => decide (n ∈ t.1)) = true

theorem Cov.push {lb ls : List Nat} {bs : List PTgt} {b : Bool} (h : Cov lb ls bs) :
    Cov lb [] ((ls, b) :: bs) := by
  intro n hn
  refine Or.inr ?_
  simp only [List.any_cons, Bool.or_eq_true, decide_eq_true_eq]
  exact h n hn

theorem valid_parse (s : Stmt σ V) :
    (∀ lb ls bs cs ll inB inL, LRel bs cs lb ll inB inL → (∀ n ∈ ls, n ∈ lb) → Cov lb ls bs →
      (canLabel s = false → ls = []) → LabelsPlain s → valid lb ll ls inB inL s →
      parse lb ls bs cs s = true) ∧
    (∀ lb bs cs ll inL, LRel bs cs lb ll true inL → Cov lb [] bs → LabelsPlain s →
      valid.clauses lb ll inL s → parse.clauses lb bs cs s = true) := by
  have nil : ∀ {lb : List Nat}, ∀ n ∈ ([] : List Nat), n ∈ lb := by intro lb n h; cases h
  have tr : ∀ {s : Stmt σ V}, canLabel s = false → ([] : List Nat) = [] := fun _ => rfl
  induction s with
  | nil => exact ⟨fun _ _ _ _ _ _ _ _ _ _ _ _ _ => rfl, fun _ _ _ _ _ _ _ _ _ => rfl⟩
  | cons s r ih1 ih2 =>
    refine ⟨?_, fun _ _ _ _ _ _ _ _ h => by cases h⟩
    intro lb ls bs cs ll inB inL h hs hc hl hp hv
    obtain rfl := hl rfl
    simp only [parse, Bool.and_eq_true]
    exact ⟨ih1.1 _ _ _ _ _ _ _ h nil hc tr hp.1 hv.1, ih2.1 _ _ _ _ _ _ _ h nil hc tr hp.2 hv.2⟩
  | empty => exact ⟨fun _ _ _ _ _ _ _ _ _ _ _ _ _ => rfl, fun _ _ _ _ _ _ _ _ h => by cases h⟩
  | expr e => exact ⟨fun _ _ _ _ _ _ _ _ _ _ _ _ _ => rfl, fun _ _ _ _ _ _ _ _ h => by cases h⟩
  | decl e => exact ⟨fun _ _ _ _ _ _ _ _ _ _ _ _ _ => rfl, fun _ _ _ _ _ _ _ _ h => by cases h⟩
  | throw_ e => exact ⟨fun _ _ _ _ _ _ _ _ _ _ _ _ _ => rfl, fun _ _ _ _ _ _ _ _ h => by cases h⟩
  | ret e => exact ⟨fun _ _ _ _ _ _ _ _ _ _ _ _ _ => rfl, fun _ _ _ _ _ _ _ _ h => by cases h⟩
  | block d b ih =>
    exact ⟨fun lb ls bs cs ll inB inL h hs hc hl hp hv => ih.1 _ _ _ _ _ _ _ h.push nil hc.push tr hp hv,
      fun _ _ _ _ _ _ _ _ h => by cases h⟩
  | ite c s t ih1 ih2 =>
    refine ⟨?_, fun _ _ _ _ _ _ _ _ h => by cases h⟩
    intro lb ls bs cs ll inB inL h hs hc hl hp hv
    simp only [parse, Bool.and_eq_true]
    exact ⟨ih1.1 _ _ _ _ _ _ _ h.push nil hc.push tr hp.1 hv.1, ih2.1 _ _ _ _ _ _ _ h.push nil hc.push tr hp.2 hv.2⟩
  | doWhile s c ih =>
    exact ⟨fun lb ls bs cs ll inB inL h hs hc hl hp hv => ih.1 _ _ _ _ _ _ _ (h.loop hs) nil hc.push tr hp hv,
      fun _ _ _ _ _ _ _ _ h => by cases h⟩
  | while_ c s ih =>
    exact ⟨fun lb ls bs cs ll inB inL h hs hc hl hp hv => ih.1 _ _ _ _ _ _ _ (h.loop hs) nil hc.push tr hp hv,
      fun _ _ _ _ _ _ _ _ h => by cases h⟩
  | for_ d i c t s ih =>
    exact ⟨fun lb ls bs cs ll inB inL h hs hc hl hp hv => ih.1 _ _ _ _ _ _ _ (h.loop hs) nil hc.push tr hp hv,
      fun _ _ _ _ _ _ _ _ h => by cases h⟩
  | forIn of d e f s ih =>
    exact ⟨fun lb ls bs cs ll inB inL h hs hc hl hp hv => ih.1 _ _ _ _ _ _ _ (h.loop hs) nil hc.push tr hp hv,
      fun _ _ _ _ _ _ _ _ h => by cases h⟩
  | switch d e c ih =>
    exact ⟨fun lb ls bs cs ll inB inL h hs hc hl hp hv => ih.2 _ _ _ _ _ h.sw hc.push hp hv,
      fun _ _ _ _ _ _ _ _ h => by cases h⟩
  | case c b r ih1 ih2 =>
    refine ⟨fun _ _ _ _ _ _ _ _ _ _ _ _ h => by simp [valid] at h, ?_⟩
    intro lb bs cs ll inL h hc hp hv
    simp only [parse.clauses, Bool.and_eq_true, Bool.or_eq_true]
    refine ⟨⟨ih1.1 _ _ _ _ _ _ _ h nil hc tr hp.1 hv.1, ?_⟩, ih2.2 _ _ _ _ _ h hc hp.2 hv.2.2⟩
    cases hcc : c with
    | some e => exact Or.inl rfl
    | none => exact Or.inr ((defLab_none r 0).2 (hv.2.1 (by rw [hcc]; rfl)))
  | try_ b hc cd c hf f ih1 ih2 ih3 =>
    refine ⟨?_, fun _ _ _ _ _ _ _ _ h => by cases h⟩
    intro lb ls bs cs ll inB inL h hs hcv hl hp hv
    obtain rfl := hl rfl
    simp only [parse, Bool.and_eq_true, Bool.or_eq_true, Bool.not_eq_true']
    obtain ⟨v1, v2, v3, v4⟩ := hv
    refine ⟨⟨⟨ih1.1 _ _ _ _ _ _ _ h.push nil hcv.push tr hp.1 v1, v2⟩, ?_⟩, ?_⟩
    · cases hh : hc with
      | false => exact Or.inl rfl
      | true => exact Or.inr (ih2.1 _ _ _ _ _ _ _ h nil hcv tr hp.2.1 (v3 hh))
    · cases hh : hf with
      | false => exact Or.inl rfl
      | true => exact Or.inr (ih3.1 _ _ _ _ _ _ _ h nil hcv tr hp.2.2 (v4 hh))
  | with_ e d s ih =>
    exact ⟨fun lb ls bs cs ll inB inL h hs hc hl hp hv => ih.1 _ _ _ _ _ _ _ h.push nil hc.push tr hp hv,
      fun _ _ _ _ _ _ _ _ h => by cases h⟩
  | brk l =>
    refine ⟨?_, fun _ _ _ _ _ _ _ _ h => by cases h⟩
    intro lb ls bs cs ll inB inL h hs hc hl hp hv
    cases l with
    | none => simp only [valid] at hv; simp only [parse]; rw [← h.b]; exact hv
    | some n =>
      simp only [parse, Bool.and_eq_true, Bool.or_eq_true, decide_eq_true_eq]
      exact ⟨hv, hc n hv⟩
  | cont l =>
    refine ⟨?_, fun _ _ _ _ _ _ _ _ h => by cases h⟩
    intro lb ls bs cs ll inB inL h hs hc hl hp hv
    cases l with
    | none => simp only [valid] at hv; simp only [parse]; rw [← h.l]; exact hv
    | some n =>
      simp only [parse, Bool.and_eq_true, decide_eq_true_eq]
      exact ⟨h.sub n hv, (h.mem n).1 hv⟩
  | labelled k s ih =>
    refine ⟨?_, fun _ _ _ _ _ _ _ _ h => by cases h⟩
    intro lb ls bs cs ll inB inL h hs hc hl hp hv
    simp only [parse, Bool.and_eq_true, Bool.not_eq_true', decide_eq_false_iff_not]
    refine ⟨hv.1, ih.1 _ _ _ _ _ _ _ (h.lab k) ?_ ?_ ?_ hp.2 hv.2⟩
    · intro n hn
      rcases List.mem_cons.1 hn with rfl | h1
      · exact List.mem_cons_self
      · exact List.mem_cons_of_mem _ (hs n h1)
    · intro n hn
      rcases List.mem_cons.1 hn with rfl | h1
      · exact Or.inl List.mem_cons_self
      · rcases hc n h1 with h2 | h2
        · exact Or.inl (List.mem_cons_of_mem _ h2)
        · exact Or.inr h2
    · intro h2
      rw [hp.1] at h2
      cases h2

end Verif.Flow

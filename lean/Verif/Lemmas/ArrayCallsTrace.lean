import Verif.Spec.ArrayCalls
/-! What happens, in surroundings that do as they like. -/
namespace Verif.ArrayCalls
open ArrayOps Spec

variable {V R S σ : Type}

theorem exec_bind {p : Prog V R} : ∀ {f : R → Prog V S} {t : List (Ev V)} {r : Option S},
    Exec (p.bind f) t r →
    (∃ t1 t2 x, t = t1 ++ t2 ∧ Exec p t1 (some x) ∧ Exec (f x) t2 r) ∨
    (r = none ∧ Exec p t none) := by
  induction p with
  | done r => intro f t r h; exact Or.inl ⟨[], t, _, rfl, .done _, h⟩
  | fail e => intro f t r h; cases h; exact Or.inr ⟨rfl, .fail e⟩
  | has s k g ih =>
    intro f t r h
    unfold Prog.bind at h
    cases h with
    | has b h =>
      rcases ih b h with ⟨t1, t2, x, rfl, h1, h2⟩ | ⟨rfl, h1⟩
      · exact Or.inl ⟨_ :: t1, t2, x, rfl, .has b h1, h2⟩
      · exact Or.inr ⟨rfl, .has b h1⟩
    | hasThrows => exact Or.inr ⟨rfl, .hasThrows⟩
    | hasThrows' => exact Or.inr ⟨rfl, .hasThrows'⟩
  | get s k g ih =>
    intro f t r h
    unfold Prog.bind at h
    cases h with
    | get b h =>
      rcases ih b h with ⟨t1, t2, x, rfl, h1, h2⟩ | ⟨rfl, h1⟩
      · exact Or.inl ⟨_ :: t1, t2, x, rfl, .get b h1, h2⟩
      · exact Or.inr ⟨rfl, .get b h1⟩
    | getThrows => exact Or.inr ⟨rfl, .getThrows⟩
    | getThrows' => exact Or.inr ⟨rfl, .getThrows'⟩
  | call a v k g ih =>
    intro f t r h
    unfold Prog.bind at h
    cases h with
    | call b h =>
      rcases ih b h with ⟨t1, t2, x, rfl, h1, h2⟩ | ⟨rfl, h1⟩
      · exact Or.inl ⟨_ :: t1, t2, x, rfl, .call b h1, h2⟩
      · exact Or.inr ⟨rfl, .call b h1⟩
    | callThrows => exact Or.inr ⟨rfl, .callThrows⟩
  | len v g ih =>
    intro f t r h
    unfold Prog.bind at h
    cases h with
    | len b h =>
      rcases ih b h with ⟨t1, t2, x, rfl, h1, h2⟩ | ⟨rfl, h1⟩
      · exact Or.inl ⟨_ :: t1, t2, x, rfl, .len b h1, h2⟩
      · exact Or.inr ⟨rfl, .len b h1⟩
    | lenThrows => exact Or.inr ⟨rfl, .lenThrows⟩

/-- Nothing but questions about other objects. -/
def Inner : Ev V → Prop
  | .has (some _) _ _ | .get (some _) _ _ | .len _ _ | .threwElse => True
  | _ => False

def AllInner (t : List (Ev V)) : Prop := ∀ e ∈ t, Inner e

/-- What happens after the value at `k` has been read. -/
inductive After (k : Int) (v : V) : List (Ev V) → Prop
  | nothing : After k v []
  | call (acc : Option V) (x : V) {t : List (Ev V)} (h : AllInner t) :
      After k v (.call acc v k x :: t)
  | threw (acc : Option V) : After k v [.threwCall acc v k]

/-- What happens in a round at `k`. -/
inductive Round (k : Int) : List (Ev V) → Prop
  | absent : Round k [.has none k false]
  | threw : Round k [.threw k]
  | threwGet : Round k [.has none k true, .threw k]
  | there (v : V) {t : List (Ev V)} (h : After k v t) :
      Round k (.has none k true :: .get none k v :: t)

/-- The same without asking if the element is there. -/
inductive Look (k : Int) : List (Ev V) → Prop
  | threw : Look k [.threw k]
  | there (v : V) {t : List (Ev V)} (h : After k v t) : Look k (.get none k v :: t)

/-- Rounds at `k`, `k + d`, …, at most `n` of them. -/
inductive Rounds (P : Int → List (Ev V) → Prop) (d : Int) : Nat → Int → List (Ev V) → Prop
  | nil (n : Nat) (k : Int) : Rounds P d n k []
  | cons {n : Nat} {k : Int} {t1 t2 : List (Ev V)} (h1 : P k t1) (h2 : Rounds P d n (k + d) t2) :
      Rounds P d (n + 1) k (t1 ++ t2)

theorem rounds_loop {P : Int → List (Ev V) → Prop} {d : Int} {body : Int → σ → Prog V (σ ⊕ R)}
    (hb : ∀ k s t r, Exec (body k s) t r → P k t) (n : Nat) :
    ∀ k s t r, Exec (loop d body n k s) t r → Rounds P d n k t := by
  induction n with
  | zero =>
    intro k s t r h
    unfold loop at h
    cases h
    exact .nil _ _
  | succ n ih =>
    intro k s t r h
    unfold loop at h
    rcases exec_bind h with ⟨t1, t2, x, rfl, h1, h2⟩ | ⟨rfl, h1⟩
    · cases x with
      | inl s' => exact .cons (hb _ _ _ _ h1) (ih _ _ _ _ h2)
      | inr r' =>
        cases h2
        exact .cons (hb _ _ _ _ h1) (.nil _ _)
    · have := Rounds.cons (n := n) (d := d) (hb _ _ _ _ h1) (.nil _ _)
      rwa [List.append_nil] at this

theorem rounds_atEnd {P : List (Ev V) → Prop} {f : σ → R} {p : Prog V (σ ⊕ R)}
    (hp : ∀ t r, Exec p t r → P t) : ∀ t r, Exec (atEnd f p) t r → P t := by
  intro t r h
  rcases exec_bind h with ⟨t1, t2, x, rfl, h1, h2⟩ | ⟨rfl, h1⟩
  · cases x <;> cases h2 <;> rw [List.append_nil] <;> exact hp _ _ h1
  · exact hp _ _ h1

theorem round_ifThere {body : Int → V → σ → Prog V (σ ⊕ R)}
    (hb : ∀ k v s t r, Exec (body k v s) t r → After k v t) :
    ∀ k s t r, Exec (ifThere body k s) t r → Round k t := by
  intro k s t r h
  simp only [ifThere, hasP, getP, Prog.bind] at h
  cases h with
  | hasThrows => exact .threw
  | has b h =>
    cases b with
    | false => cases h; exact .absent
    | true =>
      simp only [Prog.bind] at h
      cases h with
      | getThrows => exact .threwGet
      | get v h => exact .there v (hb _ _ _ _ _ h)

theorem exec_done {x : R} {t : List (Ev V)} {r : Option R} (h : Exec (.done x) t r) :
    t = [] ∧ r = some x := by
  cases h; exact ⟨rfl, rfl⟩

/-- A call, and then nothing more than questions about other objects. -/
theorem after_call {acc : Option V} {v : V} {k : Int} {f : V → Prog V R} {t : List (Ev V)}
    {r : Option R} (hf : ∀ x t r, Exec (f x) t r → AllInner t)
    (h : Exec ((callP acc v k).bind f) t r) : After k v t := by
  simp only [callP, Prog.bind] at h
  cases h with
  | callThrows => exact .threw _
  | call x h => exact .call _ _ (hf _ _ _ h)

theorem inner_done {x : R} {t : List (Ev V)} {r : Option R} (h : Exec (.done x) t r) :
    AllInner t := by
  cases h; intro e he; cases he

theorem inner_lift {x : Except Err R} {t : List (Ev V)} {r : Option R} (h : Exec (lift x) t r) :
    AllInner t ∧ t = [] := by
  cases x <;> cases h <;> exact ⟨fun e he => (by cases he), rfl⟩

theorem inner_bind {p : Prog V R} {f : R → Prog V S} {t : List (Ev V)} {r : Option S}
    (hp : ∀ t r, Exec p t r → AllInner t) (hf : ∀ x t r, Exec (f x) t r → AllInner t)
    (h : Exec (p.bind f) t r) : AllInner t := by
  rcases exec_bind h with ⟨t1, t2, x, rfl, h1, h2⟩ | ⟨rfl, h1⟩
  · intro e he
    rcases List.mem_append.1 he with he | he
    · exact hp _ _ h1 e he
    · exact hf _ _ _ h2 e he
  · exact hp _ _ h1

/-! ## What rounds are like -/

theorem calls_append (a b : List (Ev V)) : calls (a ++ b) = calls a ++ calls b := by
  induction a with
  | nil => rfl
  | cons e t ih => cases e <;> simp [calls, ih]

theorem calls_inner {t : List (Ev V)} (h : AllInner t) : calls t = [] := by
  induction t with
  | nil => rfl
  | cons e t ih =>
    have ht := ih fun e he => h e (by simp [he])
    have he := h e (by simp)
    cases e <;> simp only [Inner] at he <;> simpa [calls] using ht

theorem after_calls {k : Int} {v : V} {t : List (Ev V)} (h : After k v t) :
    calls t = [] ∨ calls t = [(v, k)] := by
  cases h with
  | nothing => exact Or.inl rfl
  | call acc x h => exact Or.inr (by simp [calls, calls_inner h])
  | threw acc => exact Or.inr rfl

/-- A round has at most one call, at its index. -/
def OneCall (P : Int → List (Ev V) → Prop) : Prop :=
  ∀ k t, P k t → calls t = [] ∨ ∃ v, calls t = [(v, k)]

theorem round_oneCall : OneCall (V := V) Round := by
  intro k t h
  cases h with
  | absent => exact Or.inl rfl
  | threw => exact Or.inl rfl
  | threwGet => exact Or.inl rfl
  | there v h => rcases after_calls h with h | h <;> simp [calls, h]

theorem look_oneCall : OneCall (V := V) Look := by
  intro k t h
  cases h with
  | threw => exact Or.inl rfl
  | there v h => rcases after_calls h with h | h <;> simp [calls, h]

theorem rounds_up {P : Int → List (Ev V) → Prop} (hP : OneCall P) {n : Nat} {k : Int}
    {t : List (Ev V)} (h : Rounds P 1 n k t) :
    (calls t).Pairwise (fun a b => a.2 < b.2) ∧ ∀ c ∈ calls t, k ≤ c.2 ∧ c.2 < k + n := by
  induction h with
  | nil n k => exact ⟨.nil, fun c hc => by cases hc⟩
  | @cons n k t1 t2 h1 h2 ih =>
    obtain ⟨i1, i2⟩ := ih
    rw [calls_append]
    rcases hP _ _ h1 with e | ⟨v, e⟩
    · rw [e, List.nil_append]
      refine ⟨i1, fun c hc => ?_⟩
      have := i2 c hc; omega
    · rw [e, List.singleton_append]
      refine ⟨.cons (fun c hc => ?_) i1, fun c hc => ?_⟩
      · have := i2 c hc; simp only; omega
      · rcases List.mem_cons.1 hc with rfl | hc
        · simp only; omega
        · have := i2 c hc; omega

theorem rounds_down {P : Int → List (Ev V) → Prop} (hP : OneCall P) {n : Nat} {k : Int}
    {t : List (Ev V)} (h : Rounds P (-1) n k t) :
    (calls t).Pairwise (fun a b => b.2 < a.2) ∧ ∀ c ∈ calls t, k - n < c.2 ∧ c.2 ≤ k := by
  induction h with
  | nil n k => exact ⟨.nil, fun c hc => by cases hc⟩
  | @cons n k t1 t2 h1 h2 ih =>
    obtain ⟨i1, i2⟩ := ih
    rw [calls_append]
    rcases hP _ _ h1 with e | ⟨v, e⟩
    · rw [e, List.nil_append]
      refine ⟨i1, fun c hc => ?_⟩
      have := i2 c hc; omega
    · rw [e, List.singleton_append]
      refine ⟨.cons (fun c hc => ?_) i1, fun c hc => ?_⟩
      · have := i2 c hc; simp only; omega
      · rcases List.mem_cons.1 hc with rfl | hc
        · simp only; omega
        · have := i2 c hc; omega

/-! Each call after reading, each reading after asking: stated for one event after another. -/

/-- `prev` is the event before. -/
def ReadsFrom : Option (Ev V) → List (Ev V) → Prop
  | _, [] => True
  | prev, e :: t =>
    (∀ a v k x, e = .call a v k x ∨ e = .threwCall a v k → prev = some (.get none k v)) ∧
      ReadsFrom (some e) t

def ChecksFrom : Option (Ev V) → List (Ev V) → Prop
  | _, [] => True
  | prev, e :: t =>
    (∀ k v, e = .get none k v → prev = some (.has none k true)) ∧ ChecksFrom (some e) t

theorem reads_of {t : List (Ev V)} : ∀ {prev}, ReadsFrom prev t →
    ∀ t1 t2 a v k x, t = t1 ++ .call a v k x :: t2 ∨ t = t1 ++ .threwCall a v k :: t2 →
      (t1 = [] ∧ prev = some (.get none k v)) ∨ ∃ t0, t1 = t0 ++ [.get none k v] := by
  induction t with
  | nil => intro prev _ t1 t2 a v k x h; rcases h with h | h <;> simp at h
  | cons e t ih =>
    intro prev h t1 t2 a v k x ht
    cases t1 with
    | nil =>
      simp only [List.nil_append, List.cons.injEq] at ht
      exact Or.inl ⟨rfl, h.1 a v k x (ht.imp And.left And.left)⟩
    | cons e' t1 =>
      simp only [List.cons_append, List.cons.injEq] at ht
      have he : e = e' := by rcases ht with h | h <;> exact h.1
      subst he
      rcases ih h.2 t1 t2 a v k x (ht.imp And.right And.right) with ⟨rfl, hp⟩ | ⟨t0, rfl⟩
      · exact Or.inr ⟨[], by rw [Option.some.inj hp]; rfl⟩
      · exact Or.inr ⟨e :: t0, rfl⟩

theorem checks_of {t : List (Ev V)} : ∀ {prev}, ChecksFrom prev t →
    ∀ t1 t2 k v, t = t1 ++ .get none k v :: t2 →
      (t1 = [] ∧ prev = some (.has none k true)) ∨ ∃ t0, t1 = t0 ++ [.has none k true] := by
  induction t with
  | nil => intro prev _ t1 t2 k v h; simp at h
  | cons e t ih =>
    intro prev h t1 t2 k v ht
    cases t1 with
    | nil =>
      simp only [List.nil_append, List.cons.injEq] at ht
      exact Or.inl ⟨rfl, h.1 k v ht.1⟩
    | cons e' t1 =>
      simp only [List.cons_append, List.cons.injEq] at ht
      obtain ⟨he, ht⟩ := ht
      subst he
      rcases ih h.2 t1 t2 k v ht with ⟨rfl, hp⟩ | ⟨t0, rfl⟩
      · exact Or.inr ⟨[], by rw [Option.some.inj hp]; rfl⟩
      · exact Or.inr ⟨e :: t0, rfl⟩

theorem readsFrom_append {a b : List (Ev V)} : ∀ {prev}, ReadsFrom prev a →
    (∀ p, ReadsFrom p b) → ReadsFrom prev (a ++ b) := by
  induction a with
  | nil => intro prev _ hb; exact hb _
  | cons e t ih => intro prev h hb; exact ⟨h.1, ih h.2 hb⟩

theorem checksFrom_append {a b : List (Ev V)} : ∀ {prev}, ChecksFrom prev a →
    (∀ p, ChecksFrom p b) → ChecksFrom prev (a ++ b) := by
  induction a with
  | nil => intro prev _ hb; exact hb _
  | cons e t ih => intro prev h hb; exact ⟨h.1, ih h.2 hb⟩

theorem inner_reads {t : List (Ev V)} (h : AllInner t) : ∀ prev, ReadsFrom prev t := by
  induction t with
  | nil => intro _; trivial
  | cons e t ih =>
    intro prev
    have he := h e (by simp)
    refine ⟨fun a v k x hx => ?_, ih (fun e he => h e (by simp [he])) _⟩
    rcases hx with rfl | rfl <;> cases he

theorem inner_checks {t : List (Ev V)} (h : AllInner t) : ∀ prev, ChecksFrom prev t := by
  induction t with
  | nil => intro _; trivial
  | cons e t ih =>
    intro prev
    have he := h e (by simp)
    refine ⟨fun k v hx => ?_, ih (fun e he => h e (by simp [he])) _⟩
    subst hx; cases he

theorem after_reads {k : Int} {v : V} {t : List (Ev V)} (h : After k v t) :
    ReadsFrom (some (.get none k v)) t := by
  cases h with
  | nothing => trivial
  | call acc x h =>
    refine ⟨fun a v' k' x' hx => ?_, inner_reads h _⟩
    rcases hx with hx | hx <;> cases hx; rfl
  | threw acc =>
    refine ⟨fun a v' k' x' hx => ?_, trivial⟩
    rcases hx with hx | hx <;> cases hx; rfl

theorem after_checks {k : Int} {v : V} {t : List (Ev V)} (h : After k v t) (p) : ChecksFrom p t := by
  cases h with
  | nothing => trivial
  | call acc x h => exact ⟨fun k' v' hx => (by cases hx), inner_checks h _⟩
  | threw acc => exact ⟨fun k' v' hx => (by cases hx), trivial⟩

theorem round_reads {k : Int} {t : List (Ev V)} (h : Round k t) (p) : ReadsFrom p t := by
  have no1 : ∀ (s : Option V) k b (p : Option (Ev V)), ∀ a v k' x,
      (Ev.has s k b = .call a v k' x ∨ Ev.has s k b = .threwCall a v k') → p = some (.get none k' v) := by
    intro s k b p a v k' x hx; rcases hx with hx | hx <;> cases hx
  have no2 : ∀ k (p : Option (Ev V)), ∀ a v k' x,
      ((Ev.threw k : Ev V) = .call a v k' x ∨ Ev.threw k = .threwCall a v k') → p = some (.get none k' v) := by
    intro k p a v k' x hx; rcases hx with hx | hx <;> cases hx
  have no3 : ∀ (s : Option V) k w (p : Option (Ev V)), ∀ a v k' x,
      (Ev.get s k w = .call a v k' x ∨ Ev.get s k w = .threwCall a v k') → p = some (.get none k' v) := by
    intro s k b p a v k' x hx; rcases hx with hx | hx <;> cases hx
  cases h with
  | absent => exact ⟨no1 _ _ _ _, trivial⟩
  | threw => exact ⟨no2 _ _, trivial⟩
  | threwGet => exact ⟨no1 _ _ _ _, no2 _ _, trivial⟩
  | there v h => exact ⟨no1 _ _ _ _, no3 _ _ _ _, after_reads h⟩

theorem round_checks {k : Int} {t : List (Ev V)} (h : Round k t) (p) : ChecksFrom p t := by
  cases h with
  | absent => exact ⟨fun k' v' hx => (by cases hx), trivial⟩
  | threw => exact ⟨fun k' v' hx => (by cases hx), trivial⟩
  | threwGet => exact ⟨fun k' v' hx => (by cases hx), fun k' v' hx => (by cases hx), trivial⟩
  | there v h =>
    exact ⟨fun k' v' hx => (by cases hx), fun k' v' hx => (by cases hx; rfl), after_checks h _⟩

theorem look_reads {k : Int} {t : List (Ev V)} (h : Look k t) (p) : ReadsFrom p t := by
  cases h with
  | threw =>
    exact ⟨fun a v k' x hx => (by rcases hx with hx | hx <;> cases hx), trivial⟩
  | there v h =>
    exact ⟨fun a v k' x hx => (by rcases hx with hx | hx <;> cases hx), after_reads h⟩

theorem rounds_reads {P : Int → List (Ev V) → Prop} (hP : ∀ k t, P k t → ∀ p, ReadsFrom p t)
    {d : Int} {n : Nat} {k : Int} {t : List (Ev V)} (h : Rounds P d n k t) : ∀ p, ReadsFrom p t := by
  induction h with
  | nil => intro p; trivial
  | cons h1 h2 ih => intro p; exact readsFrom_append (hP _ _ h1 _) ih

theorem rounds_checks {d : Int} {n : Nat} {k : Int} {t : List (Ev V)} (h : Rounds Round d n k t) :
    ∀ p, ChecksFrom p t := by
  induction h with
  | nil => intro p; trivial
  | cons h1 h2 ih => intro p; exact checksFrom_append (round_checks h1 _) ih

theorem reads_ok {t : List (Ev V)} (h : ∀ p, ReadsFrom p t) : Reads t := by
  intro t1 t2 a v k x ht
  rcases reads_of (h none) t1 t2 a v k x ht with ⟨_, h⟩ | h
  · cases h
  · exact h

theorem checks_ok {t : List (Ev V)} (h : ∀ p, ChecksFrom p t) : Checks t := by
  intro t1 t2 k v ht
  rcases checks_of (h none) t1 t2 k v ht with ⟨_, h⟩ | h
  · cases h
  · exact h

theorem ascending_of {n : Nat} {t : List (Ev V)} (h : Rounds Round 1 n 0 t) :
    Ascending n t ∧ Checks t := by
  obtain ⟨h1, h2⟩ := rounds_up round_oneCall h
  refine ⟨⟨h1, fun c hc => ?_, reads_ok (rounds_reads (fun _ _ h p => round_reads h p) h)⟩,
    checks_ok (rounds_checks h)⟩
  have := h2 c hc; omega

theorem descending_of {n : Nat} {t : List (Ev V)} (h : Rounds Round (-1) n (n - 1) t) :
    Descending n t ∧ Checks t := by
  obtain ⟨h1, h2⟩ := rounds_down round_oneCall h
  refine ⟨⟨h1, fun c hc => ?_, reads_ok (rounds_reads (fun _ _ h p => round_reads h p) h)⟩,
    checks_ok (rounds_checks h)⟩
  have := h2 c hc; omega

theorem ascending_look {n : Nat} {t : List (Ev V)} (h : Rounds Look 1 n 0 t) : Ascending n t := by
  obtain ⟨h1, h2⟩ := rounds_up look_oneCall h
  refine ⟨h1, fun c hc => ?_, reads_ok (rounds_reads (fun _ _ h p => look_reads h p) h)⟩
  have := h2 c hc; omega

theorem descending_look {n : Nat} {t : List (Ev V)} (h : Rounds Look (-1) n (n - 1) t) :
    Descending n t := by
  obtain ⟨h1, h2⟩ := rounds_down look_oneCall h
  refine ⟨h1, fun c hc => ?_, reads_ok (rounds_reads (fun _ _ h p => look_reads h p) h)⟩
  have := h2 c hc; omega

/-! ## The methods -/

theorem forEach_rounds {n : Nat} {t : List (Ev V)} {r : Option Unit} (h : Exec (forEach n) t r) :
    Rounds Round 1 n 0 t := by
  refine rounds_atEnd (P := Rounds Round 1 n 0) (fun t r h => rounds_loop (round_ifThere ?_) _ _ _ _ _ h) _ _ h
  intro k v s t r h
  exact after_call (fun x t r h => inner_done h) h

theorem every_rounds {truthy : V → Bool} {n : Nat} {t : List (Ev V)} {r : Option Bool}
    (h : Exec (every truthy n) t r) : Rounds Round 1 n 0 t := by
  refine rounds_atEnd (P := Rounds Round 1 n 0) (fun t r h => rounds_loop (round_ifThere ?_) _ _ _ _ _ h) _ _ h
  intro k v s t r h
  exact after_call (fun x t r h => inner_done h) h

theorem some_rounds {truthy : V → Bool} {n : Nat} {t : List (Ev V)} {r : Option Bool}
    (h : Exec (some' truthy n) t r) : Rounds Round 1 n 0 t := by
  refine rounds_atEnd (P := Rounds Round 1 n 0) (fun t r h => rounds_loop (round_ifThere ?_) _ _ _ _ _ h) _ _ h
  intro k v s t r h
  exact after_call (fun x t r h => inner_done h) h

/-- Before the loop an array is made. -/
theorem rounds_lift {P : List (Ev V) → Prop} (h0 : P []) {x : Except Err R} {f : R → Prog V S}
    (hf : ∀ y t r, Exec (f y) t r → P t) : ∀ t r, Exec ((lift x).bind f) t r → P t := by
  intro t r h
  cases x with
  | ok y => exact hf y t r h
  | error e => cases h; exact h0

theorem map_rounds {n : Nat} {t : List (Ev V)} {r : Option (Obj V)}
    (h : Exec (map n) t r) : Rounds Round 1 n 0 t := by
  refine rounds_lift (P := Rounds Round 1 n 0) (.nil _ _) (fun a t r h => ?_) _ _ h
  refine rounds_atEnd (P := Rounds Round 1 n 0) (fun t r h => rounds_loop (round_ifThere ?_) _ _ _ _ _ h) _ _ h
  intro k v s t r h
  exact after_call (fun x t r h => inner_bind (fun t r h => (inner_lift h).1)
    (fun x t r h => inner_done h) h) h

theorem filter_rounds {truthy : V → Bool} {n : Nat} {t : List (Ev V)} {r : Option (Obj V)}
    (h : Exec (filter truthy n) t r) : Rounds Round 1 n 0 t := by
  refine rounds_lift (P := Rounds Round 1 n 0) (.nil _ _) (fun a t r h => ?_) _ _ h
  refine rounds_atEnd (P := Rounds Round 1 n 0) (fun t r h => rounds_loop (round_ifThere ?_) _ _ _ _ _ h) _ _ h
  intro k v s t r h
  refine after_call (fun x t r h => ?_) h
  split at h
  · exact inner_bind (fun t r h => (inner_lift h).1) (fun x t r h => inner_done h) h
  · exact inner_done h

theorem inner_append {v : V} {s : Nat × Obj V} {t : List (Ev V)} {r : Option (Nat × Obj V)}
    (h : Exec (append v s) t r) : AllInner t := by
  unfold append at h
  split at h
  · cases h; intro e he; cases he
  · exact inner_bind (fun t r h => (inner_lift h).1) (fun x t r h => inner_done h) h

theorem inner_rounds {d : Int} {n : Nat} {k : Int} {t : List (Ev V)}
    (h : Rounds (fun _ t => AllInner t) d n k t) : AllInner t := by
  induction h with
  | nil => intro e he; cases he
  | cons h1 h2 ih =>
    intro e he
    rcases List.mem_append.1 he with he | he
    · exact h1 e he
    · exact ih e he

theorem allInner_cons {e : Ev V} {t : List (Ev V)} (he : Inner e) (h : AllInner t) :
    AllInner (e :: t) := by
  intro x hx
  rcases List.mem_cons.1 hx with rfl | hx
  · exact he
  · exact h x hx

theorem allInner_one {e : Ev V} (he : Inner e) : AllInner [e] :=
  allInner_cons he (fun x hx => by cases hx)

theorem inner_flattenOne {v : V} {n : Nat} {s : Nat × Obj V} {t : List (Ev V)}
    {r : Option ((Nat × Obj V) ⊕ Empty)} (h : Exec (flattenOne v n s) t r) : AllInner t := by
  refine inner_rounds (rounds_loop (fun k s t r h => ?_) _ _ _ _ _ h)
  cases h with
  | hasThrows' => exact allInner_one trivial
  | has b h =>
    refine allInner_cons trivial ?_
    cases b with
    | false => exact inner_done h
    | true =>
      cases h with
      | getThrows' => exact allInner_one trivial
      | get x h =>
        exact allInner_cons trivial (inner_bind (fun t r h => inner_append h)
          (fun x t r h => inner_done h) h)

theorem flatMap_rounds {n : Nat} {t : List (Ev V)} {r : Option (Obj V)}
    (h : Exec (flatMap n) t r) : Rounds Round 1 n 0 t := by
  refine rounds_lift (P := Rounds Round 1 n 0) (.nil _ _) (fun a t r h => ?_) _ _ h
  refine rounds_atEnd (P := Rounds Round 1 n 0) (fun t r h => rounds_loop (round_ifThere ?_) _ _ _ _ _ h) _ _ h
  intro k v s t r h
  refine after_call (fun x t r h => ?_) h
  cases h with
  | lenThrows => exact allInner_one trivial
  | len b h =>
    refine allInner_cons trivial ?_
    cases b with
    | none =>
      exact inner_bind (fun t r h => inner_append h) (fun x t r h => inner_done h) h
    | some m =>
      refine inner_bind (fun t r h => inner_flattenOne h) (fun x t r h => ?_) h
      cases x with
      | inl s' => exact inner_done h
      | inr e => cases e

theorem findRound_look {truthy : V → Bool} : ∀ k s t r,
    Exec (findRound truthy k s) t r → Look k t := by
  intro k s t r h
  simp only [findRound, getP, Prog.bind] at h
  cases h with
  | getThrows => exact .threw
  | get v h => exact .there v (after_call (fun x t r h => inner_done h) h)

/-- What is done with the result asks no more. -/
theorem rounds_then {P : List (Ev V) → Prop} {p : Prog V R} {f : R → Prog V S}
    (hp : ∀ t r, Exec p t r → P t) (hf : ∀ x t r, Exec (f x) t r → t = []) :
    ∀ t r, Exec (p.bind f) t r → P t := by
  intro t r h
  rcases exec_bind h with ⟨t1, t2, x, rfl, h1, h2⟩ | ⟨rfl, h1⟩
  · rw [hf _ _ _ h2, List.append_nil]; exact hp _ _ h1
  · exact hp _ _ h1

theorem findUp_rounds {truthy : V → Bool} {n : Nat} : ∀ (t : List (Ev V)) r,
    Exec (findUp truthy n) t r → Rounds Look 1 n 0 t :=
  rounds_then (P := Rounds Look 1 n 0) (fun t r h => rounds_loop findRound_look _ _ _ _ _ h)
    (fun x t r h => by cases x <;> exact (exec_done h).1)

theorem findDown_rounds {truthy : V → Bool} {n : Nat} : ∀ (t : List (Ev V)) r,
    Exec (findDown truthy n) t r → Rounds Look (-1) n (n - 1) t :=
  rounds_then (P := Rounds Look (-1) n (n - 1)) (fun t r h => rounds_loop findRound_look _ _ _ _ _ h)
    (fun x t r h => by cases x <;> exact (exec_done h).1)

/-! ### `reduce` -/

theorem reduceRound_after : ∀ k v s (t : List (Ev V)) r,
    Exec (reduceRound k v s) t r → After k v t := by
  intro k v s t r h
  exact after_call (fun x t r h => inner_done h) h

theorem first_rounds {d : Int} {f : Option (V × Nat × Int) → Prog V R} (n : Nat) :
    ∀ k (t : List (Ev V)) r,
    (∀ v m k' t r, Exec (f (some (v, m, k'))) t r → Rounds Round d m k' t) →
    (∀ t r, Exec (f none) t r → t = []) →
    Exec ((firstThere d n k).bind f) t r → Rounds Round d n k t := by
  induction n with
  | zero =>
    intro k t r _ h2 h
    rw [h2 _ _ h]; exact .nil _ _
  | succ n ih =>
    intro k t r h1 h2 h
    simp only [firstThere, hasP, getP, Prog.bind] at h
    cases h with
    | hasThrows =>
      have := Rounds.cons (n := n) (d := d) (Round.threw (V := V) (k := k)) (.nil _ _)
      exact this
    | has b h =>
      cases b with
      | false => exact .cons .absent (ih _ _ _ h1 h2 h)
      | true =>
        simp only [Prog.bind] at h
        cases h with
        | getThrows =>
          have := Rounds.cons (n := n) (d := d) (Round.threwGet (V := V) (k := k)) (.nil _ _)
          exact this
        | get v h => exact .cons (.there v .nothing) (h1 _ _ _ _ _ h)

theorem reduceLoop_rounds {d : Int} {n : Nat} {k : Int} {acc : V} : ∀ (t : List (Ev V)) r,
    Exec (atEnd id (loop d (ifThere reduceRound) n k acc)) t r → Rounds Round d n k t :=
  rounds_atEnd (P := Rounds Round d n k)
    (fun t r h => rounds_loop (round_ifThere reduceRound_after) _ _ _ _ _ h)

theorem reduceFrom_rounds {d : Int} {n : Nat} {k : Int} {init : Option V} {t : List (Ev V)} {r}
    (h : Exec (reduceFrom d n k init) t r) : Rounds Round d n k t := by
  unfold reduceFrom at h
  split at h
  · cases h; exact .nil _ _
  · cases init with
    | some v => exact reduceLoop_rounds _ _ h
    | none =>
      refine first_rounds n k t r (fun v m k' t r h => ?_) (fun t r h => ?_) h
      · exact reduceLoop_rounds _ _ h
      · cases h; rfl

theorem Spec.Chained.append {a b : List (Ev V)} {x y z : V} (h1 : Chained x a y) (h2 : Chained y b z) :
    Chained x (a ++ b) z := by
  induction h1 with
  | nil => exact h2
  | call _ ih => exact .call (ih h2)
  | threw _ ih => exact .threw (ih h2)
  | other he _ ih => exact .other he (ih h2)

theorem reduceRound_chained {k : Int} {acc : V} {t : List (Ev V)} {r : Option (V ⊕ V)}
    (h : Exec (ifThere reduceRound k acc) t r) :
    ∃ out, Chained acc t out ∧ (r = none ∨ r = some (.inl out)) := by
  simp only [ifThere, hasP, getP, Prog.bind, reduceRound, callP] at h
  cases h with
  | hasThrows => exact ⟨acc, .other rfl (.nil _), Or.inl rfl⟩
  | has b h =>
    cases b with
    | false => cases h; exact ⟨acc, .other rfl (.nil _), Or.inr rfl⟩
    | true =>
      simp only [Prog.bind] at h
      cases h with
      | getThrows => exact ⟨acc, .other rfl (.other rfl (.nil _)), Or.inl rfl⟩
      | get v h =>
        cases h with
        | callThrows => exact ⟨acc, .other rfl (.other rfl (.threw (.nil _))), Or.inl rfl⟩
        | call x h =>
          cases h
          exact ⟨x, .other rfl (.other rfl (.call (.nil _))), Or.inr rfl⟩

theorem reduceLoop_chained {d : Int} (n : Nat) : ∀ {k : Int} {acc : V} {t : List (Ev V)}
    {r : Option (V ⊕ V)}, Exec (loop d (ifThere reduceRound) n k acc) t r →
    ∃ out, Chained acc t out ∧ (r = none ∨ r = some (.inl out)) := by
  induction n with
  | zero =>
    intro k acc t r h
    unfold loop at h
    obtain ⟨rfl, rfl⟩ := exec_done h
    exact ⟨acc, .nil _, Or.inr rfl⟩
  | succ n ih =>
    intro k acc t r h
    unfold loop at h
    rcases exec_bind h with ⟨t1, t2, x, rfl, h1, h2⟩ | ⟨rfl, h1⟩
    · obtain ⟨out, c, hr⟩ := reduceRound_chained h1
      rcases hr with hr | hr
      · cases hr
      · cases hr
        obtain ⟨out', c', hr'⟩ := ih h2
        exact ⟨out', c.append c', hr'⟩
    · obtain ⟨out, c, hr⟩ := reduceRound_chained h1
      exact ⟨out, c, Or.inl rfl⟩

theorem reduceEnd_chained {d : Int} {n : Nat} {k : Int} {acc : V} {t : List (Ev V)}
    {r : Option V} (h : Exec (atEnd id (loop d (ifThere reduceRound) n k acc)) t r) :
    ∃ out, Chained acc t out ∧ (r = none ∨ r = some out) := by
  rcases exec_bind h with ⟨t1, t2, x, rfl, h1, h2⟩ | ⟨rfl, h1⟩
  · obtain ⟨out, c, hr⟩ := reduceLoop_chained n h1
    rcases hr with hr | hr
    · cases hr
    · cases hr
      obtain ⟨rfl, rfl⟩ := exec_done h2
      rw [List.append_nil]
      exact ⟨out, c, Or.inr rfl⟩
  · obtain ⟨out, c, _⟩ := reduceLoop_chained n h1
    exact ⟨out, c, Or.inl rfl⟩

/-- Without a first value: the first element that is there. -/
theorem first_chained {d : Int} {f : Option (V × Nat × Int) → Prog V V} (n : Nat) :
    ∀ k (t : List (Ev V)) r,
    (∀ v m k' t r, Exec (f (some (v, m, k'))) t r → ∃ out, Chained v t out ∧ (r = none ∨ r = some out)) →
    (∀ t r, Exec (f none) t r → t = [] ∧ r = none) →
    Exec ((firstThere d n k).bind f) t r →
    (r = none ∧ calls t = []) ∨
    ∃ t1 k v t2 out, t = t1 ++ .get none k v :: t2 ∧
      (∀ e ∈ t1, ∃ k' b, e = .has none k' b) ∧ Chained v t2 out ∧ (r = none ∨ r = some out) := by
  induction n with
  | zero =>
    intro k t r _ h2 h
    obtain ⟨rfl, rfl⟩ := h2 _ _ h
    exact Or.inl ⟨rfl, rfl⟩
  | succ n ih =>
    intro k t r h1 h2 h
    simp only [firstThere, hasP, getP, Prog.bind] at h
    cases h with
    | hasThrows => exact Or.inl ⟨rfl, rfl⟩
    | has b h =>
      cases b with
      | false =>
        rcases ih _ _ _ h1 h2 h with ⟨hr, hc⟩ | ⟨t1, k', v, t2, out, rfl, h3, h4⟩
        · exact Or.inl ⟨hr, hc⟩
        · refine Or.inr ⟨.has none k false :: t1, k', v, t2, out, rfl, ?_, h4⟩
          intro e he
          rcases List.mem_cons.1 he with rfl | he
          · exact ⟨_, _, rfl⟩
          · exact h3 e he
      | true =>
        simp only [Prog.bind] at h
        cases h with
        | getThrows => exact Or.inl ⟨rfl, rfl⟩
        | get v h =>
          obtain ⟨out, h3⟩ := h1 _ _ _ _ _ h
          refine Or.inr ⟨[.has none k true], k, v, _, out, rfl, ?_, h3⟩
          intro e he
          rcases List.mem_cons.1 he with rfl | he
          · exact ⟨_, _, rfl⟩
          · cases he

end Verif.ArrayCalls

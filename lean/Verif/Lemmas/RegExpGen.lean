import Verif.Model.RegExp
/-
The job stack of the matcher, seen as a generator of ways to match.

`Eng` is the ordered list of ways as the program explores them (with its own test for empty
iterations); `gen` shows that the stack machine produces exactly these, one after the other.
-/
namespace Verif.RegExp

/-- Position and vector. -/
structure ESt where
  pos : Nat
  vec : Vec

/-- Pieces of a pattern as the program runs them. -/
inductive ENode where
  | atom (t : Term)
  | rep (t : Term) (cnt : Nat) (last : Option Nat)
  | seq (ts : List Term)
  | alts (d : Alts)

/-- The vector in which iteration `cnt` starts. -/
def ESt.fresh (x : ESt) (t : Term) (cnt : Nat) : ESt :=
  if 1 < cnt then { x with vec := x.vec.clear t.start t.stop } else x

/-- The clearing loop stays inside the vector. -/
def InVec (C : Ctx) (t : Term) : Prop := ¬ (t.start < t.stop ∧ C.n < t.stop)

/-- No iteration can be made. -/
def Zero (t : Term) : Prop := t.min = 0 ∧ t.max = some 0

mutual
inductive Eng (C : Ctx) : Bool → ENode → ESt → List ESt → Prop
  | char (rev t p x ch pos) : t.atom = .char p → readChar C rev x.pos = .ok ch pos →
      p ch = true → Eng C rev (.atom t) x [⟨pos, x.vec⟩]
  | charNo (rev t p x ch pos) : t.atom = .char p → readChar C rev x.pos = .ok ch pos →
      p ch = false → Eng C rev (.atom t) x []
  | charEnd (rev t p x) : t.atom = .char p → readChar C rev x.pos = .none →
      Eng C rev (.atom t) x []
  | cond (rev t p x) : t.atom = .cond p → p (charBefore C x.pos) (charAt C x.pos) = true →
      Eng C rev (.atom t) x [x]
  | condNo (rev t p x) : t.atom = .cond p → p (charBefore C x.pos) (charAt C x.pos) = false →
      Eng C rev (.atom t) x []
  | ref (rev t ids x pos) : t.atom = .ref ids → backRefs C rev x.vec x.pos ids = .yes pos →
      Eng C rev (.atom t) x [⟨pos, x.vec⟩]
  | refNo (rev t ids x) : t.atom = .ref ids → backRefs C rev x.vec x.pos ids = .no →
      Eng C rev (.atom t) x []
  | sub (rev t d x ys) : t.atom = .sub d → Eng C rev (.alts d) x ys → Eng C rev (.atom t) x ys
  | group (rev t i d x ys) : t.atom = .group i d → i < C.n →
      Eng C rev (.alts d) ⟨x.pos, x.vec.put (2 * i) x.pos⟩ ys →
      Eng C rev (.atom t) x (ys.map fun y => ⟨y.pos, y.vec.put (2 * i + 1) y.pos⟩)
  | look (rev t ahead d x y ys) : t.atom = .look ahead false d →
      Eng C (!ahead) (.alts d) x (y :: ys) → Eng C rev (.atom t) x [⟨x.pos, y.vec⟩]
  | lookFail (rev t ahead d x) : t.atom = .look ahead false d →
      Eng C (!ahead) (.alts d) x [] → Eng C rev (.atom t) x []
  | lookNot (rev t ahead d x) : t.atom = .look ahead true d → InVec C t →
      Eng C (!ahead) (.alts d) x [] →
      Eng C rev (.atom t) x [⟨x.pos, x.vec.clear t.start t.stop⟩]
  | lookNotFail (rev t ahead d x y ys) : t.atom = .look ahead true d →
      Eng C (!ahead) (.alts d) x (y :: ys) → Eng C rev (.atom t) x []
  | repZero (rev t cnt last x) : Zero t → Eng C rev (.rep t cnt last) x [x]
  | repOver (rev t cnt last x) : ¬ Zero t → t.min < cnt → t.over cnt = true →
      Eng C rev (.rep t cnt last) x [x]
  | repEmpty (rev t cnt last x) : ¬ Zero t → t.min < cnt → t.over cnt = false → 1 < cnt →
      last = some x.pos → Eng C rev (.rep t cnt last) x [x]
  | repMust (rev t cnt last x ys zs) : ¬ Zero t → cnt ≤ t.min → (1 < cnt → InVec C t) →
      Eng C rev (.atom t) (x.fresh t cnt) ys → EngAll C rev (.rep t (cnt + 1) (some x.pos)) ys zs →
      Eng C rev (.rep t cnt last) x zs
  | repGreedy (rev t cnt last x ys zs) : ¬ Zero t → t.min < cnt → t.over cnt = false →
      ¬ (1 < cnt ∧ last = some x.pos) → t.greedy = true → (1 < cnt → InVec C t) →
      Eng C rev (.atom t) (x.fresh t cnt) ys → EngAll C rev (.rep t (cnt + 1) (some x.pos)) ys zs →
      Eng C rev (.rep t cnt last) x (zs ++ [x])
  | repLazy (rev t cnt last x ys zs) : ¬ Zero t → t.min < cnt → t.over cnt = false →
      ¬ (1 < cnt ∧ last = some x.pos) → t.greedy = false → (1 < cnt → InVec C t) →
      Eng C rev (.atom t) (x.fresh t cnt) ys → EngAll C rev (.rep t (cnt + 1) (some x.pos)) ys zs →
      Eng C rev (.rep t cnt last) x (x :: zs)
  | seqNil (rev x) : Eng C rev (.seq []) x [x]
  | seqCons (rev t ts x ys zs) : Eng C rev (.rep t 1 none) x ys →
      EngAll C rev (.seq ts) ys zs → Eng C rev (.seq (t :: ts)) x zs
  | altsOne (rev a x ys) : Eng C rev (.seq (if rev then a.reverse else a)) x ys →
      Eng C rev (.alts [a]) x ys
  | altsCons (rev a b d x ys zs) : Eng C rev (.seq (if rev then a.reverse else a)) x ys →
      Eng C rev (.alts (b :: d)) x zs → Eng C rev (.alts (a :: b :: d)) x (ys ++ zs)
inductive EngAll (C : Ctx) : Bool → ENode → List ESt → List ESt → Prop
  | nil (rev n) : EngAll C rev n [] []
  | cons (rev n x xs ys zs) : Eng C rev n x ys → EngAll C rev n xs zs →
      EngAll C rev n (x :: xs) (ys ++ zs)
end

/-! Runs -/

inductive Star (C : Ctx) : Cfg → Cfg → Prop
  | refl (c) : Star C c c
  | head (c c1 c2) : step C c = .run c1 → Star C c1 c2 → Star C c c2

theorem Star.trans {C : Ctx} {a b c : Cfg} (h : Star C a b) (h2 : Star C b c) : Star C a c := by
  induction h with
  | refl => exact h2
  | head c c1 c2 h _ ih => exact .head _ _ _ h (ih h2)

theorem Star.one {C : Ctx} {a b : Cfg} (h : step C a = .run b) : Star C a b :=
  .head _ _ _ h (.refl _)

/-- Not the end of a lookaround. -/
def Job.plain (j : Job) : Prop := ∀ neg a b p r, j.op ≠ .lookEnd neg a b p r

def Plain (E : List Job) : Prop := ∀ j, j ∈ E → j.plain

/-- From `c` the machine produces the ways `ys` for the continuation `k`, above the stack `S`,
and then rejects with the stack `S`; all vectors meet `P`. -/
def Gen (C : Ctx) (S : List Job) (k : Nat) (rev : Bool) (P : Vec → Prop) : Cfg → List ESt → Prop
  | c, [] => ∃ pos vec nx, P vec ∧ Star C c ⟨.ret .reject, pos, vec, rev, nx, S⟩
  | c, y :: ys => P y.vec ∧ ∃ E, Plain E ∧
      Star C c ⟨.ret .next, y.pos, y.vec, rev, some k, S ++ E⟩ ∧
      ∀ pos vec nx, P vec → Gen C S k rev P ⟨.ret .reject, pos, vec, rev, nx, S ++ E⟩ ys

def GenO (C : Ctx) (S : List Job) (k : Nat) (rev : Bool) (P : Vec → Prop) (o : Option Cfg)
    (ys : List ESt) : Prop := ∃ c, o = some c ∧ Gen C S k rev P c ys

variable {C : Ctx} {S : List Job} {k : Nat} {rev : Bool} {P : Vec → Prop}

theorem Gen.star {c c' : Cfg} {ys : List ESt} (h : Star C c c') (g : Gen C S k rev P c' ys) :
    Gen C S k rev P c ys := by
  cases ys with
  | nil =>
    obtain ⟨pos, vec, nx, hp, hs⟩ := g
    exact ⟨pos, vec, nx, hp, h.trans hs⟩
  | cons y ys =>
    obtain ⟨hp, E, hE, hs, hr⟩ := g
    exact ⟨hp, E, hE, h.trans hs, hr⟩

theorem Gen.nothing {pos : Nat} {vec : Vec} {nx : Option Nat} (h : P vec) :
    Gen C S k rev P ⟨.ret .reject, pos, vec, rev, nx, S⟩ [] :=
  ⟨pos, vec, nx, h, .refl _⟩

theorem Gen.once {pos : Nat} {vec : Vec} (h : P vec) :
    Gen C S k rev P ⟨.ret .next, pos, vec, rev, some k, S⟩ [⟨pos, vec⟩] := by
  refine ⟨h, [], ?_, ?_, ?_⟩
  · intro j hj; simp at hj
  · rw [List.append_nil]; exact .refl _
  · intro pos' vec' nx h'
    rw [List.append_nil]
    exact Gen.nothing h'

/-- One round of the main loop with a rejection or an acceptance. -/
theorem step_pop {r : Res} (hr : r = .reject ∨ r = .accept) (pos : Nat) (vec : Vec)
    (nx : Option Nat) (j : Job) :
    step C ⟨.ret r, pos, vec, rev, nx, S ++ [j]⟩
      = .of (runJob C j r ⟨.ret r, pos, vec, rev, nx, S⟩) := by
  rcases hr with rfl | rfl <;> simp [step]

theorem step_next {k : Nat} {j : Job} (h : S[k]? = some j) (pos : Nat) (vec : Vec) :
    step C ⟨.ret .next, pos, vec, rev, some k, S⟩
      = .of (runJob C j .next ⟨.ret .next, pos, vec, rev, j.nextp, S⟩) := by
  have : S ≠ [] := by rintro rfl; simp at h
  simp [step, h, this]

/-- A continuation job passes a rejection on. -/
def Job.passes (j : Job) : Prop :=
  (∃ i, j.op = .groupEnd i) ∨ (∃ t n p, j.op = .term t n p) ∨ (∃ a i, j.op = .termList a i)
    ∨ j.op = .ok

theorem runJob_passes {j : Job} (h : j.passes) (c : Cfg) :
    runJob C j .reject c = some (c.back .reject) := by
  rcases h with ⟨i, h⟩ | ⟨t, n, p, h⟩ | ⟨a, i, h⟩ | h <;> simp [runJob, h]

theorem Job.passes.isPlain {j : Job} (h : j.passes) : j.plain := by
  intro neg a b p r e
  rcases h with ⟨i, h⟩ | ⟨t, n, p, h⟩ | ⟨a, i, h⟩ | h <;> simp [h] at e

theorem plain_cons {j : Job} {E : List Job} (h : j.plain) (hE : Plain E) : Plain (j :: E) := by
  intro i hi
  rcases List.mem_cons.1 hi with rfl | hi
  · exact h
  · exact hE i hi

theorem plain_append {E F : List Job} (h : Plain E) (hE : Plain F) : Plain (E ++ F) := by
  intro i hi
  rcases List.mem_append.1 hi with hi | hi
  · exact h i hi
  · exact hE i hi

/-- A continuation job at the bottom can be counted as part of the ways. -/
theorem Gen.drop {j : Job} (hj : j.passes) : ∀ {ys : List ESt} {c : Cfg},
    Gen C (S ++ [j]) k rev P c ys → Gen C S k rev P c ys
  | [], c, ⟨pos, vec, nx, hp, hs⟩ => by
    refine ⟨pos, vec, nx, hp, hs.trans (.one ?_)⟩
    rw [step_pop (.inl rfl), runJob_passes hj]
    rfl
  | y :: ys, c, ⟨hp, E, hE, hs, hr⟩ => by
    refine ⟨hp, j :: E, plain_cons hj.isPlain hE, ?_, ?_⟩
    · simpa using hs
    · intro pos vec nx h
      have := Gen.drop hj (hr pos vec nx h)
      simpa using this

/-- A choice point at the bottom is resumed after the ways above it. -/
theorem Gen.choice {j : Job} (hj : j.plain) {zs : List ESt}
    (hz : ∀ pos vec nx, P vec →
      Gen C S k rev P ⟨.ret .reject, pos, vec, rev, nx, S ++ [j]⟩ zs) :
    ∀ {ys : List ESt} {c : Cfg}, Gen C (S ++ [j]) k rev P c ys → Gen C S k rev P c (ys ++ zs)
  | [], c, ⟨pos, vec, nx, hp, hs⟩ => (hz pos vec nx hp).star hs
  | y :: ys, c, ⟨hp, E, hE, hs, hr⟩ => by
    refine ⟨hp, j :: E, plain_cons hj hE, ?_, ?_⟩
    · simpa using hs
    · intro pos vec nx h
      have := Gen.choice hj hz (hr pos vec nx h)
      simpa using this

/-- For each of the states, one after the other. -/
inductive Each (Q : ESt → List ESt → Prop) : List ESt → List ESt → Prop
  | nil : Each Q [] []
  | cons (x xs ys zs) : Q x ys → Each Q xs zs → Each Q (x :: xs) (ys ++ zs)

theorem Each.mono {Q R : ESt → List ESt → Prop} (h : ∀ x ys, Q x ys → R x ys) {xs ys : List ESt}
    (e : Each Q xs ys) : Each R xs ys := by
  induction e with
  | nil => exact .nil
  | cons x xs ys zs hq _ ih => exact .cons x xs ys zs (h _ _ hq) ih

theorem Each.single {f : ESt → ESt} : ∀ xs : List ESt,
    Each (fun x ys => ys = [f x]) xs (xs.map f)
  | [] => .nil
  | x :: xs => by
    have := Each.cons (Q := fun x ys => ys = [f x]) x xs [f x] _ rfl (Each.single xs)
    simpa using this

theorem Each.same {xs ys : List ESt} (h : Each (fun x zs => zs = [x]) xs ys) : ys = xs := by
  induction h with
  | nil => rfl
  | cons x xs ys zs hq _ ih => subst hq; subst ih; rfl

/-- First (all ways above what is there) then the rest. -/
theorem Gen.concat {E : List Job} (hE : Plain E) {zs : List ESt}
    (hz : ∀ pos vec nx, P vec →
      Gen C S k rev P ⟨.ret .reject, pos, vec, rev, nx, S ++ E⟩ zs) :
    ∀ {ys : List ESt} {c : Cfg}, Gen C (S ++ E) k rev P c ys → Gen C S k rev P c (ys ++ zs)
  | [], c, ⟨pos, vec, nx, hp, hs⟩ => (hz pos vec nx hp).star hs
  | y :: ys, c, ⟨hp, F, hF, hs, hr⟩ => by
    refine ⟨hp, E ++ F, plain_append hE hF, ?_, ?_⟩
    · simpa using hs
    · intro pos vec nx h
      have := Gen.concat hE hz (hr pos vec nx h)
      simpa using this

/-- The ways of a piece followed by those of its continuation. -/
theorem Gen.bind {k1 : Nat} {j : Job} (hk : S[k1]? = some j) (hj : j.nextp = some k) :
    ∀ {ys zs : List ESt} {c : Cfg}, Gen C S k1 rev P c ys →
    Each (fun y as => ∀ E, Plain E → P y.vec →
      GenO C (S ++ E) k rev P
        (runJob C j .next ⟨.ret .next, y.pos, y.vec, rev, some k, S ++ E⟩) as) ys zs →
    Gen C S k rev P c zs
  | [], _, c, g, .nil => g
  | y :: ys, _, c, ⟨hp, E, hE, hs, hr⟩, .cons _ _ as bs hq he => by
    obtain ⟨c', e1, g1⟩ := hq E hE hp
    refine Gen.star hs (Gen.star (.one ?_) (Gen.concat hE ?_ g1))
    · have : (S ++ E)[k1]? = some j := by
        have hlt : k1 < S.length := by
          rcases Nat.lt_or_ge k1 S.length with h | h
          · exact h
          · rw [List.getElem?_eq_none h] at hk; cases hk
        rw [List.getElem?_append_left hlt, hk]
      rw [step_next this, hj, e1]
      rfl
    · intro pos vec nx h
      exact Gen.bind hk hj (hr pos vec nx h) he

/-- Acceptance goes down through the stack. -/
theorem accept_down (pos : Nat) (vec : Vec) : ∀ (n : Nat) (E : List Job), E.length = n → Plain E →
    ∀ nx, ∃ nx', Star C ⟨.ret .accept, pos, vec, rev, nx, S ++ E⟩
      ⟨.ret .accept, pos, vec, rev, nx', S⟩ := by
  intro n
  induction n with
  | zero =>
    intro E hl _ nx
    have : E = [] := List.eq_nil_of_length_eq_zero hl
    subst this
    rw [List.append_nil]
    exact ⟨nx, .refl _⟩
  | succ n ih =>
    intro E hl hE nx
    have hne : E ≠ [] := by rintro rfl; simp at hl
    obtain ⟨F, j, rfl⟩ : ∃ F j, E = F ++ [j] :=
      ⟨E.dropLast, E.getLast hne, (List.dropLast_concat_getLast hne).symm⟩
    have hF : Plain F := fun i hi => hE i (List.mem_append_left _ hi)
    have hj : j.plain := hE j (by simp)
    have hl' : F.length = n := by simp at hl; exact hl
    have key : ∃ nx1, step C ⟨.ret .accept, pos, vec, rev, nx, (S ++ F) ++ [j]⟩
        = .run ⟨.ret .accept, pos, vec, rev, nx1, S ++ F⟩ := by
      rw [step_pop (.inr rfl)]
      rcases j with ⟨op, nextp⟩
      cases op with
      | lookEnd neg a b p r => exact absurd rfl (hj neg a b p r)
      | ok => exact ⟨nx, rfl⟩
      | success => exact ⟨nx, rfl⟩
      | groupEnd i => exact ⟨nx, rfl⟩
      | greedyNext p v => exact ⟨nextp, rfl⟩
      | term t n p => exact ⟨nx, rfl⟩
      | nonGreedy t n p v => exact ⟨nextp, rfl⟩
      | alter d p v => exact ⟨nextp, rfl⟩
      | termList a i => exact ⟨nx, rfl⟩
    obtain ⟨nx1, h1⟩ := key
    obtain ⟨nx2, h2⟩ := ih F hl' hF nx1
    rw [← List.append_assoc]
    exact ⟨nx2, .head _ _ _ h1 h2⟩

/-! What the numbering gives -/

/-- The groups of the term are numbered, inside `[a, b)`. -/
def TermOk (a b : Nat) (t : Term) : Prop :=
  a ≤ t.start ∧ t.stop ≤ b ∧ numA t.atom t.start t.stop

def NodeOk (a b : Nat) : ENode → Prop
  | .atom t => TermOk a b t
  | .rep t _ _ => TermOk a b t
  | .seq ts => ∀ t, t ∈ ts → TermOk a b t
  | .alts d => d ≠ [] ∧ ∀ ts, ts ∈ d → ∀ t, t ∈ ts → TermOk a b t

mutual
theorem numA_le : ∀ (a : Atom) (k k' : Nat), numA a k k' → k ≤ k'
  | .char _, k, k', h => by simp only [numA] at h; omega
  | .cond _, k, k', h => by simp only [numA] at h; omega
  | .ref _, k, k', h => by simp only [numA] at h; omega
  | .sub d, k, k', h => by simp only [numA] at h; exact numD_le d k k' h
  | .group i d, k, k', h => by
    simp only [numA] at h; have := numD_le d (k + 1) k' h.2; omega
  | .look _ _ d, k, k', h => by simp only [numA] at h; exact numD_le d k k' h
theorem numT_le : ∀ (t : Term) (k k' : Nat), numT t k k' → k ≤ k'
  | ⟨a, _, _, _, s, e⟩, k, k', h => by
    simp only [numT] at h; exact numA_le a k k' h.2.2
theorem numL_le : ∀ (ts : List Term) (k k' : Nat), numL ts k k' → k ≤ k'
  | [], k, k', h => by simp only [numL] at h; omega
  | t :: ts, k, k', h => by
    simp only [numL] at h
    obtain ⟨m, h1, h2⟩ := h
    have := numT_le t k m h1
    have := numL_le ts m k' h2
    omega
theorem numD_le : ∀ (d : List (List Term)) (k k' : Nat), numD d k k' → k ≤ k'
  | [], k, k', h => by simp only [numD] at h
  | [a], k, k', h => by simp only [numD] at h; exact numL_le a k k' h
  | a :: b :: d, k, k', h => by
    simp only [numD] at h
    obtain ⟨m, h1, h2⟩ := h
    have := numL_le a k m h1
    have := numD_le (b :: d) m k' h2
    omega
end

theorem TermOk.mono {a b a' b' : Nat} {t : Term} (h : TermOk a b t) (ha : a' ≤ a) (hb : b ≤ b') :
    TermOk a' b' t := ⟨Nat.le_trans ha h.1, Nat.le_trans h.2.1 hb, h.2.2⟩

theorem numT_ok : ∀ {t : Term} {k k' : Nat}, numT t k k' → TermOk k k' t
  | ⟨a, _, _, _, s, e⟩, k, k', h => by
    simp only [numT] at h
    obtain ⟨rfl, rfl, h⟩ := h
    exact ⟨Nat.le_refl _, Nat.le_refl _, h⟩

theorem numL_ok : ∀ {ts : List Term} {k k' : Nat}, numL ts k k' → ∀ t, t ∈ ts → TermOk k k' t
  | [], _, _, _, t, ht => by simp at ht
  | t0 :: ts, k, k', h, t, ht => by
    simp only [numL] at h
    obtain ⟨m, h1, h2⟩ := h
    rcases List.mem_cons.1 ht with rfl | ht
    · exact (numT_ok h1).mono (Nat.le_refl _) (numL_le _ _ _ h2)
    · exact (numL_ok h2 t ht).mono (numT_le _ _ _ h1) (Nat.le_refl _)

theorem numD_ok : ∀ {d : Alts} {k k' : Nat}, numD d k k' →
    ∀ ts, ts ∈ d → ∀ t, t ∈ ts → TermOk k k' t
  | [], _, _, _, ts, hts, _, _ => by simp at hts
  | [a], k, k', h, ts, hts, t, ht => by
    simp only [numD] at h
    simp only [List.mem_singleton] at hts
    subst hts
    exact numL_ok h t ht
  | a :: b :: d, k, k', h, ts, hts, t, ht => by
    simp only [numD] at h
    obtain ⟨m, h1, h2⟩ := h
    rcases List.mem_cons.1 hts with rfl | hts
    · exact (numL_ok h1 t ht).mono (Nat.le_refl _) (numD_le _ _ _ h2)
    · exact (numD_ok h2 ts hts t ht).mono (numL_le _ _ _ h1) (Nat.le_refl _)

theorem numD_node {d : Alts} {k k' : Nat} (h : numD d k k') : NodeOk k k' (.alts d) := by
  refine ⟨?_, numD_ok h⟩
  rintro rfl
  simp only [numD] at h

/-- Two vectors that differ at most at the groups `[a, b)`. -/
def Agree (a b : Nat) (v v' : Vec) : Prop := ∀ j, j < 2 * a ∨ 2 * b ≤ j → v' j = v j

/-- `P` does not depend on the groups `[a, b)`. -/
def Closed (a b : Nat) (P : Vec → Prop) : Prop := ∀ v v', Agree a b v v' → P v → P v'

theorem Closed.put {a b i x : Nat} {v : Vec} (h : Closed a b P) (hv : P v)
    (hi : 2 * a ≤ i ∧ i < 2 * b) : P (v.put i x) := by
  refine h v _ (fun j hj => ?_) hv
  simp only [Vec.put]
  rw [if_neg (by omega)]

theorem Closed.clear {a b s e : Nat} {v : Vec} (h : Closed a b P) (hv : P v)
    (hs : a ≤ s) (he : e ≤ b) : P (v.clear s e) := by
  refine h v _ (fun j hj => ?_) hv
  simp only [Vec.clear]
  rw [if_neg (by omega)]

theorem Closed.sub {a b a' b' : Nat} (h : Closed a b P) (ha : a ≤ a') (hb : b' ≤ b) :
    Closed a' b' P := fun v v' hv => h v v' (fun j hj => hv j (by omega))

theorem agree_closed (a b : Nat) (v : Vec) : Closed a b (Agree a b v) :=
  fun _ _ h hw j hj => (h j hj).trans (hw j hj)

theorem agree_refl (a b : Nat) (v : Vec) : Agree a b v v := fun _ _ => rfl

end Verif.RegExp

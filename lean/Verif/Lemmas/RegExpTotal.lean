import Verif.Lemmas.RegExpRun
/-
Every numbered pattern has ways from every state inside the string: the matcher ends, and reads
and writes only inside the string and the vector.
-/
namespace Verif.RegExp

/-- All positions are inside the string. -/
def Inside (C : Ctx) (x : ESt) : Prop :=
  x.pos ≤ C.str.length ∧ ∀ j p, x.vec j = some p → p ≤ C.str.length

/-- Matching only moves on. -/
def Onward (rev : Bool) (x y : ESt) : Prop := if rev then y.pos ≤ x.pos else x.pos ≤ y.pos

/-- What is left of the string. -/
def rest (C : Ctx) (rev : Bool) (x : ESt) : Nat := if rev then x.pos else C.str.length - x.pos

/-- There are ways, and they are inside the string. -/
def Total (C : Ctx) (rev : Bool) (n : ENode) (x : ESt) : Prop :=
  ∃ ys, Eng C rev n x ys ∧ ∀ y, y ∈ ys → Inside C y ∧ Onward rev x y

def TotalT (C : Ctx) (t : Term) : Prop := ∀ rev x, Inside C x → Total C rev (.atom t) x

variable {C : Ctx} {rev : Bool}

theorem onward_refl (x : ESt) : Onward rev x x := by unfold Onward; split <;> exact Nat.le_refl _

theorem onward_trans {x y z : ESt} (h : Onward rev x y) (h2 : Onward rev y z) : Onward rev x z := by
  unfold Onward at *
  split at h
  · rw [if_pos ‹_›] at *; omega
  · rw [if_neg ‹_›] at *; omega

theorem all_total {n : ENode} {R : ESt → Prop} : ∀ {xs : List ESt},
    (∀ x, x ∈ xs → ∃ ys, Eng C rev n x ys ∧ ∀ y, y ∈ ys → R y) →
    ∃ zs, EngAll C rev n xs zs ∧ ∀ z, z ∈ zs → R z
  | [], _ => ⟨[], .nil _ _, by simp⟩
  | x :: xs, h => by
    obtain ⟨ys, h1, h2⟩ := h x (by simp)
    obtain ⟨zs, h3, h4⟩ := all_total (xs := xs) (fun y hy => h y (by simp [hy]))
    refine ⟨ys ++ zs, .cons _ _ _ _ _ _ h1 h3, ?_⟩
    intro z hz
    rcases List.mem_append.1 hz with hz | hz
    · exact h2 z hz
    · exact h4 z hz

theorem then_total {n : ENode} {x : ESt} {ys : List ESt}
    (hy : ∀ y, y ∈ ys → Inside C y ∧ Onward rev x y)
    (h : ∀ y, y ∈ ys → Total C rev n y) :
    ∃ zs, EngAll C rev n ys zs ∧ ∀ z, z ∈ zs → Inside C z ∧ Onward rev x z := by
  refine all_total ?_
  intro y hym
  obtain ⟨zs, h1, h2⟩ := h y hym
  exact ⟨zs, h1, fun z hz => ⟨(h2 z hz).1, onward_trans (hy y hym).2 (h2 z hz).2⟩⟩

/-! Reading -/

theorem unitBefore_eq {pos k : Nat} (hk : 0 < k) (h : k ≤ pos) (hp : pos ≤ C.str.length) :
    unitBefore C pos k = some (C.str[pos - k]'(by omega)) := by
  unfold unitBefore
  rw [if_neg (by omega), List.getElem?_eq_getElem (by omega : pos - k < C.str.length)]

theorem readChar_total {pos : Nat} (h : pos ≤ C.str.length) :
    readChar C rev pos = .none ∨ ∃ ch pos', readChar C rev pos = .ok ch pos' ∧
      pos' ≤ C.str.length ∧ if rev then pos' < pos else pos < pos' := by
  unfold readChar
  cases rev with
  | true =>
    simp only [if_true]
    split
    · exact .inl rfl
    · rename_i h0
      right
      rw [unitBefore_eq (by omega) (by omega : 1 ≤ pos) h]
      simp only
      split
      · rename_i h1
        rw [unitBefore_eq (by omega) (by omega : 2 ≤ pos) h]
        simp only
        split
        · exact ⟨_, _, rfl, by omega, by omega⟩
        · exact ⟨_, _, rfl, by omega, by omega⟩
      · exact ⟨_, _, rfl, by omega, by omega⟩
  | false =>
    simp only [Bool.false_eq_true, if_false]
    split
    · exact .inl rfl
    · rename_i h0
      right
      rw [List.getElem?_eq_getElem (by omega : pos < C.str.length)]
      simp only
      split
      · rename_i h1
        rw [List.getElem?_eq_getElem (by omega : pos + 1 < C.str.length)]
        simp only
        split
        · exact ⟨_, _, rfl, by omega, by omega⟩
        · exact ⟨_, _, rfl, by omega, by omega⟩
      · exact ⟨_, _, rfl, by omega, by omega⟩

theorem sameChars_total : ∀ (len p1 p2 : Nat), p1 + len ≤ C.str.length → p2 + len ≤ C.str.length →
    ∃ b, sameChars C p1 p2 len = some b
  | 0, _, _, _, _ => ⟨true, rfl⟩
  | len + 1, p1, p2, h1, h2 => by
    simp only [sameChars, List.getElem?_eq_getElem (by omega : p1 < C.str.length),
      List.getElem?_eq_getElem (by omega : p2 < C.str.length)]
    split
    · exact sameChars_total len _ _ (by omega) (by omega)
    · exact ⟨false, rfl⟩

theorem backRef_total {x : ESt} (hx : Inside C x) (id : Nat) :
    backRef C rev x.vec x.pos id = .no ∨ ∃ pos, backRef C rev x.vec x.pos id = .yes pos ∧
      pos ≤ C.str.length ∧ if rev then pos ≤ x.pos else x.pos ≤ pos := by
  obtain ⟨hp, hv⟩ := hx
  unfold backRef
  split
  · right; exact ⟨_, rfl, hp, by split <;> omega⟩
  · split
    · rename_i s e hs he
      have h1 := hv _ _ hs
      have h2 := hv _ _ he
      generalize hst : (if e < s then e else s) = st
      generalize hsp : (if e < s then s else e) = sp
      have h3 : sp ≤ C.str.length := by subst hsp; split <;> omega
      have h4 : st ≤ sp := by subst hst; subst hsp; split <;> omega
      simp only
      split
      · rename_i hr
        split
        · exact .inl rfl
        · rename_i hlt
          obtain ⟨b, hb⟩ := sameChars_total (C := C) (sp - st) (x.pos - (sp - st)) st (by omega) (by omega)
          rw [hb]
          cases b with
          | false => exact .inl rfl
          | true => exact .inr ⟨_, rfl, by omega, by omega⟩
      · split
        · exact .inl rfl
        · rename_i hlt
          obtain ⟨b, hb⟩ := sameChars_total (C := C) (sp - st) x.pos st (by omega) (by omega)
          rw [hb]
          cases b with
          | false => exact .inl rfl
          | true => exact .inr ⟨_, rfl, by omega, by omega⟩
    · right; exact ⟨_, rfl, hp, by split <;> omega⟩

theorem backRefs_total {x : ESt} (hx : Inside C x) : ∀ (ids : List Nat),
    backRefs C rev x.vec x.pos ids = .no ∨ ∃ pos, backRefs C rev x.vec x.pos ids = .yes pos ∧
      pos ≤ C.str.length ∧ if rev then pos ≤ x.pos else x.pos ≤ pos
  | [] => .inr ⟨_, rfl, hx.1, by split <;> omega⟩
  | i :: is => by
    unfold backRefs
    split
    · exact backRefs_total hx is
    · split
      · exact backRef_total hx i
      · exact backRefs_total hx is

/-! Vectors -/

theorem inside_put {x : ESt} (hx : Inside C x) (i : Nat) :
    Inside C ⟨x.pos, x.vec.put i x.pos⟩ := by
  refine ⟨hx.1, ?_⟩
  intro j p h
  simp only [Vec.put] at h
  split at h
  · injection h with h; have := hx.1; omega
  · exact hx.2 j p h

theorem inside_clear {x : ESt} (hx : Inside C x) (s e : Nat) :
    Inside C ⟨x.pos, x.vec.clear s e⟩ := by
  refine ⟨hx.1, ?_⟩
  intro j p h
  simp only [Vec.clear] at h
  split at h
  · cases h
  · exact hx.2 j p h

theorem inside_fresh {x : ESt} (hx : Inside C x) (t : Term) (cnt : Nat) :
    Inside C (x.fresh t cnt) := by
  unfold ESt.fresh
  split
  · exact inside_clear hx _ _
  · exact hx

theorem fresh_pos (x : ESt) (t : Term) (cnt : Nat) : (x.fresh t cnt).pos = x.pos := by
  unfold ESt.fresh; split <;> rfl

theorem onward_fresh {x y : ESt} {t : Term} {cnt : Nat} (h : Onward rev (x.fresh t cnt) y) :
    Onward rev x y := by
  unfold Onward at *
  rw [fresh_pos] at h
  exact h

/-! Quantifiers -/

theorem total_stop {t : Term} {cnt : Nat} {last : Option Nat} {x : ESt} (hx : Inside C x)
    (h : Eng C rev (.rep t cnt last) x [x]) : Total C rev (.rep t cnt last) x :=
  ⟨[x], h, by simp only [List.mem_singleton]; rintro y rfl; exact ⟨hx, onward_refl _⟩⟩

/-- Iterations that may be made: each takes something from the string, or is the last. -/
theorem total_may {t : Term} (hv : InVec C t) (hA : TotalT C t) : ∀ (d cnt : Nat)
    (last : Option Nat) (x : ESt), Inside C x → rest C rev x = d → t.min < cnt →
    Total C rev (.rep t cnt last) x := by
  intro d
  induction d using Nat.strongRecOn with
  | _ d ih =>
    intro cnt last x hx hd hc
    by_cases h0 : Zero t
    · exact total_stop hx (.repZero _ _ _ _ _ h0)
    by_cases ho : t.over cnt = true
    · exact total_stop hx (.repOver _ _ _ _ _ h0 hc ho)
    have ho : t.over cnt = false := by simpa using ho
    by_cases hl : 1 < cnt ∧ last = some x.pos
    · exact total_stop hx (.repEmpty _ _ _ _ _ h0 hc ho hl.1 hl.2)
    obtain ⟨ys, h1, h2⟩ := hA rev (x.fresh t cnt) (inside_fresh hx t cnt)
    have h2' : ∀ y, y ∈ ys → Inside C y ∧ Onward rev x y :=
      fun y hy => ⟨(h2 y hy).1, onward_fresh (h2 y hy).2⟩
    obtain ⟨zs, h3, h4⟩ := then_total (n := .rep t (cnt + 1) (some x.pos)) h2' (by
      intro y hy
      obtain ⟨hyi, hyo⟩ := h2' y hy
      by_cases he : y.pos = x.pos
      · by_cases ho' : t.over (cnt + 1) = true
        · exact total_stop hyi (.repOver _ _ _ _ _ h0 (by omega) ho')
        · exact total_stop hyi (.repEmpty _ _ _ _ _ h0 (by omega) (by simpa using ho') (by omega)
            (by rw [he]))
      · refine ih (rest C rev y) ?_ (cnt + 1) _ y hyi rfl (by omega)
        have hp := hx.1
        have hp' := hyi.1
        subst hd
        unfold rest Onward at *
        split at hyo
        · rw [if_pos ‹_›, if_pos ‹_›]; omega
        · rw [if_neg ‹_›, if_neg ‹_›]; omega)
    cases hg : t.greedy with
    | true =>
      refine ⟨zs ++ [x], .repGreedy _ _ _ _ _ _ _ h0 hc ho hl hg (fun _ => hv) h1 h3, ?_⟩
      intro z hz
      rcases List.mem_append.1 hz with hz | hz
      · exact h4 z hz
      · simp only [List.mem_singleton] at hz; subst hz; exact ⟨hx, onward_refl _⟩
    | false =>
      refine ⟨x :: zs, .repLazy _ _ _ _ _ _ _ h0 hc ho hl hg (fun _ => hv) h1 h3, ?_⟩
      intro z hz
      rcases List.mem_cons.1 hz with rfl | hz
      · exact ⟨hx, onward_refl _⟩
      · exact h4 z hz

/-- Iterations that have to be made are counted down. -/
theorem total_must {t : Term} (hv : InVec C t) (hA : TotalT C t) : ∀ (m cnt : Nat)
    (last : Option Nat) (x : ESt), Inside C x → t.min + 1 - cnt = m →
    Total C rev (.rep t cnt last) x := by
  intro m
  induction m with
  | zero =>
    intro cnt last x hx hm
    exact total_may hv hA _ cnt last x hx rfl (by omega)
  | succ m ih =>
    intro cnt last x hx hm
    by_cases h0 : Zero t
    · exact total_stop hx (.repZero _ _ _ _ _ h0)
    obtain ⟨ys, h1, h2⟩ := hA rev (x.fresh t cnt) (inside_fresh hx t cnt)
    have h2' : ∀ y, y ∈ ys → Inside C y ∧ Onward rev x y :=
      fun y hy => ⟨(h2 y hy).1, onward_fresh (h2 y hy).2⟩
    obtain ⟨zs, h3, h4⟩ := then_total (n := .rep t (cnt + 1) (some x.pos)) h2'
      (fun y hy => ih (cnt + 1) _ y (h2' y hy).1 (by omega))
    exact ⟨zs, .repMust _ _ _ _ _ _ _ h0 (by omega) (fun _ => hv) h1 h3, h4⟩

theorem total_seq : ∀ (ts : List Term), (∀ t, t ∈ ts → InVec C t ∧ TotalT C t) →
    ∀ x, Inside C x → Total C rev (.seq ts) x
  | [], _, x, hx => ⟨[x], .seqNil _ _, by
      simp only [List.mem_singleton]; rintro y rfl; exact ⟨hx, onward_refl _⟩⟩
  | t :: ts, h, x, hx => by
    obtain ⟨hv, hA⟩ := h t (by simp)
    obtain ⟨ys, h1, h2⟩ := total_must (rev := rev) hv hA _ 1 none x hx rfl
    obtain ⟨zs, h3, h4⟩ := then_total (n := .seq ts) h2
      (fun y hy => total_seq ts (fun u hu => h u (by simp [hu])) y (h2 y hy).1)
    exact ⟨zs, .seqCons _ _ _ _ _ _ h1 h3, h4⟩

theorem total_alts : ∀ (d : Alts), d ≠ [] →
    (∀ a, a ∈ d → ∀ t, t ∈ a → InVec C t ∧ TotalT C t) → ∀ x, Inside C x → Total C rev (.alts d) x
  | [], h, _, _, _ => absurd rfl h
  | [a], _, h, x, hx => by
    obtain ⟨ys, h1, h2⟩ := total_seq (rev := rev) (if rev then a.reverse else a)
      (fun t ht => h a (by simp) t (by cases rev <;> simpa using ht)) x hx
    exact ⟨ys, .altsOne _ _ _ _ h1, h2⟩
  | a :: b :: d, _, h, x, hx => by
    obtain ⟨ys, h1, h2⟩ := total_seq (rev := rev) (if rev then a.reverse else a)
      (fun t ht => h a (by simp) t (by cases rev <;> simpa using ht)) x hx
    obtain ⟨zs, h3, h4⟩ := total_alts (b :: d) (by simp)
      (fun a' ha' => h a' (List.mem_cons_of_mem _ ha')) x hx
    refine ⟨ys ++ zs, .altsCons _ _ _ _ _ _ _ h1 h3, ?_⟩
    intro z hz
    rcases List.mem_append.1 hz with hz | hz
    · exact h2 z hz
    · exact h4 z hz

/-! Atoms -/

theorem inVec_of {t : Term} (h : t.stop ≤ C.n) : InVec C t := by
  unfold InVec; omega

mutual
theorem totalA : ∀ (a : Atom) (t : Term), t.atom = a → numA a t.start t.stop → t.stop ≤ C.n →
    TotalT C t
  | .char p, t, h, _, _ => by
    intro rev x hx
    rcases readChar_total (C := C) (rev := rev) hx.1 with h1 | ⟨ch, pos, h1, h2, h3⟩
    · exact ⟨[], .charEnd _ _ _ _ h h1, by simp⟩
    · cases hp : p ch with
      | false => exact ⟨[], .charNo _ _ _ _ _ _ h h1 hp, by simp⟩
      | true =>
        refine ⟨_, .char _ _ _ _ _ _ h h1 hp, ?_⟩
        simp only [List.mem_singleton]
        rintro y rfl
        refine ⟨⟨h2, hx.2⟩, ?_⟩
        unfold Onward
        cases rev <;> simp_all <;> omega
  | .cond p, t, h, _, _ => by
    intro rev x hx
    cases hp : p (charBefore C x.pos) (charAt C x.pos) with
    | false => exact ⟨[], .condNo _ _ _ _ h hp, by simp⟩
    | true =>
      refine ⟨[x], .cond _ _ _ _ h hp, ?_⟩
      simp only [List.mem_singleton]
      rintro y rfl
      exact ⟨hx, onward_refl _⟩
  | .ref ids, t, h, _, _ => by
    intro rev x hx
    rcases backRefs_total (rev := rev) hx ids with h1 | ⟨pos, h1, h2, h3⟩
    · exact ⟨[], .refNo _ _ _ _ h h1, by simp⟩
    · refine ⟨_, .ref _ _ _ _ _ h h1, ?_⟩
      simp only [List.mem_singleton]
      rintro y rfl
      exact ⟨⟨h2, hx.2⟩, h3⟩
  | .sub d, t, h, hn, hb => by
    intro rev x hx
    simp only [numA] at hn
    obtain ⟨ys, h1, h2⟩ := total_alts (rev := rev) d (numD_node hn).1 (totalD d _ _ hn hb) x hx
    exact ⟨ys, .sub _ _ _ _ _ h h1, h2⟩
  | .group i d, t, h, hn, hb => by
    intro rev x hx
    simp only [numA] at hn
    obtain ⟨rfl, hn⟩ := hn
    have hle := numD_le _ _ _ hn
    obtain ⟨ys, h1, h2⟩ := total_alts (rev := rev) d (numD_node hn).1 (totalD d _ _ hn hb)
      ⟨x.pos, x.vec.put (2 * t.start) x.pos⟩ (inside_put hx _)
    refine ⟨_, .group _ _ _ _ _ _ h (by omega) h1, ?_⟩
    intro z hz
    obtain ⟨y, hy, rfl⟩ := List.mem_map.1 hz
    exact ⟨inside_put (h2 y hy).1 _, (h2 y hy).2⟩
  | .look ahead neg d, t, h, hn, hb => by
    intro rev x hx
    simp only [numA] at hn
    obtain ⟨ys, h1, h2⟩ := total_alts (rev := !ahead) d (numD_node hn).1 (totalD d _ _ hn hb) x hx
    cases neg with
    | false =>
      cases ys with
      | nil => exact ⟨[], .lookFail _ _ _ _ _ h h1, by simp⟩
      | cons y ys =>
        refine ⟨_, .look _ _ _ _ _ _ _ h h1, ?_⟩
        simp only [List.mem_singleton]
        rintro z rfl
        exact ⟨⟨hx.1, (h2 y (by simp)).1.2⟩, onward_refl (rev := rev) x⟩
    | true =>
      cases ys with
      | nil =>
        refine ⟨_, .lookNot _ _ _ _ _ h (inVec_of hb) h1, ?_⟩
        simp only [List.mem_singleton]
        rintro z rfl
        exact ⟨inside_clear hx _ _, onward_refl (rev := rev) x⟩
      | cons y ys => exact ⟨[], .lookNotFail _ _ _ _ _ _ _ h h1, by simp⟩
theorem totalT : ∀ (t : Term) (k k' : Nat), numT t k k' → k' ≤ C.n → InVec C t ∧ TotalT C t
  | ⟨a, mn, mx, g, s, e⟩, k, k', hn, hb => by
    simp only [numT] at hn
    obtain ⟨rfl, rfl, hn⟩ := hn
    exact ⟨inVec_of hb, totalA a _ rfl hn hb⟩
theorem totalL : ∀ (ts : List Term) (k k' : Nat), numL ts k k' → k' ≤ C.n →
    ∀ t, t ∈ ts → InVec C t ∧ TotalT C t
  | [], _, _, _, _, t, ht => by simp at ht
  | u :: ts, k, k', hn, hb, t, ht => by
    simp only [numL] at hn
    obtain ⟨m, h1, h2⟩ := hn
    rcases List.mem_cons.1 ht with e | ht
    · rw [e]; exact totalT u _ _ h1 (Nat.le_trans (numL_le _ _ _ h2) hb)
    · exact totalL ts _ _ h2 hb t ht
theorem totalD : ∀ (d : List (List Term)) (k k' : Nat), numD d k k' → k' ≤ C.n →
    ∀ a, a ∈ d → ∀ t, t ∈ a → InVec C t ∧ TotalT C t
  | [], _, _, _, _, a, ha => by simp at ha
  | [a0], k, k', hn, hb, a, ha => by
    simp only [numD] at hn
    simp only [List.mem_singleton] at ha
    rw [ha]
    exact totalL a0 _ _ hn hb
  | a0 :: b :: d, k, k', hn, hb, a, ha => by
    simp only [numD] at hn
    obtain ⟨m, h1, h2⟩ := hn
    rcases List.mem_cons.1 ha with e | ha
    · rw [e]; exact totalL a0 _ _ h1 (Nat.le_trans (numD_le _ _ _ h2) hb)
    · exact totalD (b :: d) _ _ h2 hb a ha
end

/-! The whole run -/

theorem run_star {c c' : Cfg} (h : Star C c c') {o : Out} {f : Nat}
    (hr : run C f c' = some o) : ∃ f', run C f' c = some o := by
  induction h with
  | refl => exact ⟨f, hr⟩
  | head c c1 c2 hs _ ih =>
    obtain ⟨f', h'⟩ := ih hr
    exact ⟨f' + 1, by simp only [run, hs]; exact h'⟩

/-- The state in which `match_regexp` starts. -/
def first (pos : Nat) : ESt := ⟨pos, Vec.put (fun _ => none) 0 pos⟩

theorem inside_first {pos : Nat} (h : pos ≤ C.str.length) : Inside C (first pos) := by
  refine ⟨h, ?_⟩
  intro j p hj
  simp only [first, Vec.put] at hj
  split at hj
  · injection hj with hj; omega
  · cases hj

theorem run_ways {d : Alts} {pos : Nat} {ys : List ESt} (hn : numD d 1 C.n)
    (h : Eng C false (.alts d) (first pos) ys) :
    (ys = [] ∧ ∃ f v, run C f (start d pos) = some (.done false v)) ∨
    (∃ y zs, ys = y :: zs ∧ ∃ f, run C f (start d pos) = some (.done true (y.vec.put 1 y.pos))) := by
  have hle := numD_le _ _ _ hn
  have g := Gen.enter (gen h 1 C.n (fun _ => True) [⟨.success, none⟩] 0 (.enter d) (numD_node hn)
    (fun _ _ _ _ => trivial) trivial (by simp))
  cases ys with
  | nil =>
    left
    obtain ⟨p, v, nx, _, hs⟩ := g
    refine ⟨rfl, ?_⟩
    have h1 : step C ⟨.ret .reject, p, v, false, nx, [] ++ [⟨.success, none⟩]⟩
        = .run ⟨.ret .reject, p, v, false, nx, []⟩ := by
      rw [step_pop (.inl rfl)]
      rfl
    have h2 := hs.trans (.one h1)
    obtain ⟨f, hf⟩ := run_star h2 (o := .done false v) (f := 1) rfl
    exact ⟨f, v, hf⟩
  | cons y zs =>
    right
    obtain ⟨_, E, _, hs, _⟩ := g
    refine ⟨y, zs, rfl, ?_⟩
    have h1 : step C ⟨.ret .next, y.pos, y.vec, false, some 0, [⟨.success, none⟩] ++ E⟩
        = .run ⟨.ret .success, y.pos, y.vec.put 1 y.pos, false, none, [⟨.success, none⟩] ++ E⟩ := by
      rw [step_next (j := ⟨.success, none⟩) (by simp)]
      simp only [runJob, if_true]
      rw [if_pos (by omega)]
      rfl
    have h2 := hs.trans (.one h1)
    exact run_star h2 (o := .done true (y.vec.put 1 y.pos)) (f := 1) rfl

/-- More fuel does not change the answer. -/
theorem run_mono {o : Out} : ∀ {f : Nat} {c : Cfg}, run C f c = some o → ∀ f', f ≤ f' →
    run C f' c = some o
  | 0, _, h, _, _ => by simp [run] at h
  | f + 1, c, h, f', hf => by
    obtain ⟨g, rfl⟩ : ∃ g, f' = g + 1 := ⟨f' - 1, by omega⟩
    simp only [run] at h ⊢
    split at h
    · rename_i c' e
      exact run_mono h g (by omega)
    · exact h

theorem run_unique {o o' : Out} {f f' : Nat} {c : Cfg} (h : run C f c = some o)
    (h' : run C f' c = some o') : o = o' := by
  have h1 := run_mono h (max f f') (Nat.le_max_left ..)
  have h2 := run_mono h' (max f f') (Nat.le_max_right ..)
  rw [h1] at h2
  exact Option.some.inj h2

end Verif.RegExp

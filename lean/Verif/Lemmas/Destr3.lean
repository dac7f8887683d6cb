import Verif.Lemmas.Destr2

/-! Helper lemmas: whole patterns. -/

namespace Verif.Destr

open Spec

variable {σ : Type} {W : World σ} {fuel : Nat}

/-- `Post` for the elements of an array pattern. -/
def PostD {A : Type} (W : World σ) (fuel : Nat) (x : Res σ) (rest : List Cmd) (it nx : V) (st : List St)
    (P : M σ → A → Prop) : D σ A → Prop
  | .ok s d a => ∃ m' : M σ, x = exec W fuel rest 0 m' ∧ m'.rt.w = s ∧ m'.rt.flag = false ∧
      m'.stack = .arr it nx d :: st ∧ P m' a
  | .thr s d e => ∃ (m' : M σ) (S : List St), x = .err m' ∧ m'.stack = S ++ .arr it nx d :: st ∧
      unwind W S m'.rt = ⟨s, true, e⟩
  | .more => x = .fuel

theorem PostD.bind {A B : Type} {x : Res σ} {r1 r2 : List Cmd} {it nx : V} {st : List St}
    {P : M σ → A → Prop} {Q : M σ → B → Prop} {c : D σ A} {f : σ → Bool → A → D σ B}
    (h : PostD W fuel x r1 it nx st P c)
    (g : ∀ (m' : M σ) d a, m'.rt.flag = false → m'.stack = .arr it nx d :: st → P m' a →
      PostD W fuel (exec W fuel r1 0 m') r2 it nx st Q (f m'.rt.w d a)) :
    PostD W fuel x r2 it nx st Q (c.andThen f) := by
  cases c with
  | ok s d a =>
    obtain ⟨m', h1, h2, h3, h4, h5⟩ := h
    rw [h1]
    simp only [D.andThen, ← h2]
    exact g m' d a h3 h4 h5
  | thr s d e => exact h
  | more => exact h

theorem PostD.imp {A : Type} {x : Res σ} {r : List Cmd} {it nx : V} {st : List St}
    {P Q : M σ → A → Prop} {c : D σ A} (h : PostD W fuel x r it nx st P c)
    (g : ∀ m' a, P m' a → Q m' a) : PostD W fuel x r it nx st Q c := by
  cases c with
  | ok s d a =>
    obtain ⟨m', h1, h2, h3, h4, h5⟩ := h
    exact ⟨m', h1, h2, h3, h4, g _ _ h5⟩
  | thr s d e => exact h
  | more => exact h

theorem Post.plain {A : Type} {x : Res σ} {r : List Cmd} {it nx : V} {d : Bool} {st : List St}
    {P Q : M σ → A → Prop} {c : C σ A} (h : Post W fuel x r (.arr it nx d :: st) P c)
    (g : ∀ m' a, P m' a → m'.stack = .arr it nx d :: st ∧ Q m' a) :
    PostD W fuel x r it nx st Q (Spec.plain d c) := by
  cases c with
  | ok s a =>
    obtain ⟨m', h1, h2, h3, h4⟩ := h
    exact ⟨m', h1, h2, h3, (g _ _ h4).1, (g _ _ h4).2⟩
  | thr s e => exact h
  | more => exact h

theorem intoReg_postD {r : Nat} {m : M σ} {it nx : V} {st : List St} {x : R σ V × Bool} {c : D σ V}
    {rest : List Cmd} (h : SimD x c) :
    PostD W fuel (match intoReg { m with stack := .arr it nx x.2 :: st } r x.1 with
      | .next m k => exec W fuel rest k m
      | .err m => .err m
      | .bad => .bad
      | .fuel => .fuel) rest it nx st
      (fun m' v => m'.regs = (fun q => if q = r then v else m.regs q) ∧ m'.refs = m.refs) c := by
  rcases h.ok with ⟨rt, d, a, h1, h2, h3⟩ | ⟨s, d, e, h1, h2⟩
  · rw [h1, h2]
    exact ⟨_, rfl, rfl, h3, rfl, rfl, rfl⟩
  · rw [h1, h2]
    exact ⟨_, [], rfl, rfl, rfl⟩

theorem getItem_post (hW : Calm W) (r : Nat) (it nx : V) (d : Bool) (st : List St) (m : M σ)
    (rest : List Cmd) (hf : m.rt.flag = false) (hs : m.stack = .arr it nx d :: st) :
    PostD W fuel (exec W fuel (.getItem r :: rest) 0 m) rest it nx st
      (fun m' v => m'.regs = (fun q => if q = r then v else m.regs q) ∧ m'.refs = m.refs)
      (value W it nx d m.rt.w) := by
  rw [exec_cons]
  simp only [step, hs]
  exact intoReg_postD (itemStep_sim hW it nx d hf)

theorem restItems_post (hW : Calm W) (hv : ValueSafe W) (r : Nat) (it nx : V) (d : Bool) (st : List St)
    (m : M σ) (rest : List Cmd) (hf : m.rt.flag = false) (hs : m.stack = .arr it nx d :: st) :
    PostD W fuel (exec W fuel (.restItems r :: rest) 0 m) rest it nx st
      (fun m' v => m'.regs = (fun q => if q = r then v else m.regs q) ∧ m'.refs = m.refs)
      (restArray W fuel it nx d m.rt.w) := by
  rw [exec_cons]
  simp only [step, hs]
  have h := itemRest_sim hW hv fuel it nx d hf
  cases hr : itemRest W fuel it nx d m.rt with
  | none => rw [hr] at h; simp only [SimO] at h; rw [h]; rfl
  | some x =>
    rw [hr] at h
    exact intoReg_postD h

theorem nextItem_post (hW : Calm W) (it nx : V) (d : Bool) (st : List St)
    (m : M σ) (rest : List Cmd) (hf : m.rt.flag = false) (hs : m.stack = .arr it nx d :: st) :
    PostD W fuel (exec W fuel (.nextItem :: rest) 0 m) rest it nx st
      (fun m' _ => m'.regs = m.regs) (Spec.skip W it nx d m.rt.w) := by
  rw [exec_cons]
  simp only [step, hs]
  rcases itemSkip_sim hW it nx d hf with ⟨rt', d', h1, h2, h3⟩ | ⟨s, d', e, h1, h2⟩
  · rw [h1, h3]
    exact ⟨_, rfl, rfl, h2, rfl, rfl⟩
  · rw [h1, h2]
    exact ⟨_, [], rfl, rfl, rfl⟩

mutual
theorem emitT_le (md : Mode) : ∀ (t : Tgt) (r i n : Nat), n ≤ (emitT md t r i n).2
  | .leaf _, _, _, _ => Nat.le_refl _
  | .arr l, _, _, n => emitE_le md l n
  | .obj l, _, _, n => emitP_le md l n
theorem emitE_le (md : Mode) : ∀ (l : Elems) (n : Nat), n ≤ (emitE md l n).2
  | .nil, _ => Nat.le_refl _
  | .hole l, n => emitE_le md l n
  | .elem t _ l, n => by
    have h1 := emitT_le md t n (n + 3) (n + 5)
    have h2 := emitE_le md l (emitT md t n (n + 3) (n + 5)).2
    simp only [emitE]
    omega
  | .rest t, n => by
    have h1 := emitT_le md t n (n + 3) (n + 5)
    simp only [emitE]
    omega
theorem emitP_le (md : Mode) : ∀ (l : Props) (n : Nat), n ≤ (emitP md l n).2
  | .nil, _ => Nat.le_refl _
  | .prop _ t _ l, n => by
    have h1 := emitT_le md t n (n + 3) (n + 5)
    have h2 := emitP_le md l (emitT md t n (n + 3) (n + 5)).2
    simp only [emitP]
    omega
  | .rest t, n => by
    have h1 := emitT_le md t n (n + 3) (n + 5)
    simp only [emitP]
    omega
end

theorem putK_eq (md : Mode) : md.putK = storeKind md := by
  cases md with
  | assi => rfl
  | bind lex => cases lex <;> rfl

/-- The iterator is closed at the end of the elements. -/
theorem pop_post (hW : Calm W) (it nx : V) (d : Bool) (st : List St) (m : M σ) (rest : List Cmd)
    (hf : m.rt.flag = false) (hs : m.stack = .arr it nx d :: st) :
    Post W fuel (exec W fuel (.pop :: rest) 0 m) rest st
      (fun m' _ => m'.regs = m.regs ∧ m'.stack = st)
      (if d then .ok m.rt.w () else close W it (.ok m.rt.w ())) := by
  rw [exec_cons]
  simp only [step, hs, deinit]
  cases d with
  | true => exact ⟨_, rfl, rfl, hf, rfl, rfl⟩
  | false =>
    simp only [Bool.false_eq_true, if_false]
    rcases (iterClose_sim hW it hf).ok with ⟨rt, a, h1, h2, h3⟩ | ⟨s, e, h1, h2⟩
    · rw [h1, h2]
      exact ⟨_, rfl, rfl, h3, rfl, rfl⟩
    · rw [h1, h2]
      exact ⟨_, [], rfl, rfl, rfl⟩

mutual
theorem target_post (hW : Calm W) (md : Mode) : ∀ (t : Tgt) (r i n lref : Nat) (m : M σ) (rest : List Cmd),
    (restT t = true → ValueSafe W) → (md = .assi ∨ (compT t = true → RefFixed W)) →
    r < n → m.rt.flag = false → HasRef t i lref m →
    Post W fuel (exec W fuel ((emitT md t r i n).1 ++ rest) 0 m) rest m.stack
      (fun m' _ => Keep n m m') (assign W fuel md t lref (m.regs r) m.rt.w)
  | .leaf k, r, i, n, lref, m, rest, _, _, hr, hf, hl => by
    simp only [emitT, List.cons_append, List.nil_append, exec_cons, step, assign, hl k rfl, putK_eq]
    rcases (lift_sim (hW.put (storeKind md) lref (m.regs r) m.rt.w) hf).ok with
      ⟨rt, a, h1, h2, h3⟩ | ⟨s, e, h1, h2⟩
    · rw [h1, h2]
      exact ⟨_, rfl, rfl, h3, fun _ _ => rfl, rfl⟩
    · rw [h1, h2]
      exact ⟨_, [], rfl, rfl, rfl⟩
  | .arr l, r, i, n, lref, m, rest, hR, hC, hr, hf, _ => by
    simp only [emitT, List.cons_append, List.append_assoc, exec_cons, step, assign]
    rcases (getIterator_sim hW (m.regs r) hf).ok with ⟨rt, x, h1, h2, h3⟩ | ⟨s, e, h1, h2⟩
    · rw [h1, h2]
      simp only [C.andThen, List.nil_append]
      have h := elems_post hW md l n x.1 x.2 false m.stack
        { m with rt := rt, stack := .arr x.1 x.2 false :: m.stack } (.pop :: rest) hR hC h3 rfl
      simp only at h
      cases he : elements W fuel md l x.1 x.2 false rt.w with
      | more => rw [he] at h; exact h
      | ok s d a =>
        rw [he] at h
        obtain ⟨m', g1, g2, g3, g4, g5⟩ := h
        rw [g1]
        have hp := pop_post (fuel := fuel) hW x.1 x.2 d m.stack m' rest g3 g4
        rw [g2] at hp
        have : Post W fuel (exec W fuel (.pop :: rest) 0 m') rest m.stack (fun m' _ => Keep n m m')
            (if d then .ok s () else close W x.1 (.ok s ())) :=
          hp.imp fun m2 _ hk => ⟨fun q hq => by rw [hk.1]; exact g5 q hq, hk.2⟩
        cases d <;> exact this
      | thr s d e =>
        rw [he] at h
        obtain ⟨m', S, g1, g2, g3⟩ := h
        cases d with
        | true =>
          refine ⟨m', S ++ [.arr x.1 x.2 true], g1, by rw [g2, List.append_assoc]; rfl, ?_⟩
          rw [unwind_append, g3]
          rfl
        | false =>
          obtain ⟨s', k1, k2⟩ := close_pending hW x.1 x.2 s e
          simp only [k1]
          refine ⟨m', S ++ [.arr x.1 x.2 false], g1, by rw [g2, List.append_assoc]; rfl, ?_⟩
          rw [unwind_append, g3]
          exact k2
    · rw [h1, h2]
      exact ⟨_, [], rfl, rfl, rfl⟩
  | .obj l, r, i, n, lref, m, rest, hR, hC, hr, hf, _ => by
    simp only [emitT, List.cons_append, List.append_assoc, exec_cons, step, assign]
    by_cases hv : m.regs r = .undef ∨ m.regs r = .null
    · rcases hv with hv | hv
      · rw [hv]; exact ⟨_, [], rfl, rfl, rfl⟩
      · rw [hv]; exact ⟨_, [], rfl, rfl, rfl⟩
    · have main : Post W fuel (exec W fuel ((emitP md l n).1 ++ ([.pop] ++ rest)) 0
            { m with stack := .obj (m.regs r) [] :: m.stack }) rest m.stack (fun m' _ => Keep n m m')
          (properties W fuel md l (m.regs r) [] m.rt.w) := by
        have h := props_post hW md l n (m.regs r) [] [] m.stack
          { m with stack := .obj (m.regs r) [] :: m.stack } (.pop :: rest) hR hC (fun _ => Iff.rfl) hf rfl
        simp only at h
        cases hp : properties W fuel md l (m.regs r) [] m.rt.w with
        | more => rw [hp] at h; exact h
        | thr s e => rw [hp] at h; exact h
        | ok s a =>
          rw [hp] at h
          obtain ⟨m', g1, g2, g3, g4, ns, g5⟩ := h
          refine ⟨{ m' with stack := m.stack }, ?_, g2, g3, g4, rfl⟩
          simp only [List.cons_append, List.nil_append]
          rw [g1, exec_cons]
          simp only [step, g5, deinit]
      cases hv' : m.regs r with
      | undef => exact absurd (.inl hv') hv
      | null => exact absurd (.inr hv') hv
      | _ => rw [hv'] at main; exact main
theorem elems_post (hW : Calm W) (md : Mode) : ∀ (l : Elems) (n : Nat) (it nx : V) (d : Bool) (st : List St)
    (m : M σ) (rest : List Cmd),
    (restE l = true → ValueSafe W) → (md = .assi ∨ (compE l = true → RefFixed W)) →
    m.rt.flag = false → m.stack = .arr it nx d :: st →
    PostD W fuel (exec W fuel ((emitE md l n).1 ++ rest) 0 m) rest it nx st
      (fun m' _ => ∀ q, q < n → m'.regs q = m.regs q) (elements W fuel md l it nx d m.rt.w)
  | .nil, n, it, nx, d, st, m, rest, _, _, hf, hs => ⟨m, rfl, rfl, hf, hs, fun _ _ => rfl⟩
  | .hole l, n, it, nx, d, st, m, rest, hR, hC, hf, hs => by
    simp only [emitE, List.cons_append, elements]
    refine (nextItem_post hW it nx d st m _ hf hs).bind ?_
    intro m' d' _ h1 h2 h3
    exact (elems_post hW md l n it nx d' st m' rest hR hC h1 h2).imp
      fun m2 _ hk q hq => by rw [hk q hq, h3]
  | .elem t init l, n, it, nx, d, st, m, rest, hR, hC, hf, hs => by
    simp only [emitE, List.cons_append, List.append_assoc, elements]
    have r1 := refCode_post (W := W) (fuel := fuel) hW t (n + 3) m
      (.getItem n :: (initCode init n (n + 4) ++ ((emitT md t n (n + 3) (n + 5)).1 ++
        ((emitE md l (emitT md t n (n + 3) (n + 5)).2).1 ++ rest)))) hf
    rw [hs] at r1
    refine (r1.plain (Q := fun m' lref => m'.regs = m.regs ∧ HasRef t (n + 3) lref m' ∧
      m'.stack = .arr it nx d :: st)
      (fun m' lref h => ⟨h.2.1, h.1, h.2.2, h.2.1⟩)).bind ?_
    intro m1 d1 lref h1 h2 h3
    refine (getItem_post hW n it nx d st m1 _ h1 h3.2.2).bind ?_
    intro m2 d2 v g1 g2 g3
    have r3 := initCode_post (W := W) (fuel := fuel) hW init n (n + 4) (by omega) m2
      ((emitT md t n (n + 3) (n + 5)).1 ++ ((emitE md l (emitT md t n (n + 3) (n + 5)).2).1 ++ rest)) g1
    rw [g2] at r3
    have hv : m2.regs n = v := by rw [g3.1]; simp
    rw [hv] at r3
    refine (r3.plain (Q := fun m' v => m'.regs n = v ∧ (∀ q, q < n → m'.regs q = m.regs q) ∧
        HasRef t (n + 3) lref m') (fun m' v h => ⟨h.2.2.2, h.1, ?_, ?_⟩)).bind ?_
    · intro q hq
      rw [h.2.1 q (by omega) (by omega), g3.1]
      have : q ≠ n := by omega
      simp only [this, if_false, h3.1]
    · intro k hk; rw [h.2.2.1, g3.2]; exact h3.2.1 k hk
    intro m3 d3 v3 k1 k2 k3
    have r4 := target_post hW md t n (n + 3) (n + 5) lref m3
      ((emitE md l (emitT md t n (n + 3) (n + 5)).2).1 ++ rest)
      (fun h => hR (by simp [restE, h])) (hC.imp id fun f h => f (by simp [compE, h])) (by omega) k1 k3.2.2
    rw [k2, k3.1] at r4
    refine (r4.plain (Q := fun m' _ => ∀ q, q < n → m'.regs q = m.regs q)
      (fun m' _ h => ⟨by rw [h.2, k2], fun q hq => by rw [h.1 q (by omega), k3.2.1 q hq]⟩)).bind ?_
    intro m4 d4 _ j1 j2 j3
    refine (elems_post hW md l (emitT md t n (n + 3) (n + 5)).2 it nx d4 st m4 rest
      (fun h => hR (by simp [restE, h])) (hC.imp id fun f h => f (by simp [compE, h])) j1 j2).imp ?_
    intro m5 _ hk q hq
    have := emitT_le md t n (n + 3) (n + 5)
    rw [hk q (by omega), j3 q hq]
  | .rest t, n, it, nx, d, st, m, rest, hR, hC, hf, hs => by
    simp only [emitE, List.cons_append, List.append_assoc, elements]
    have r1 := refCode_post (W := W) (fuel := fuel) hW t (n + 3) m
      (.restItems n :: ((emitT md t n (n + 3) (n + 5)).1 ++ rest)) hf
    rw [hs] at r1
    refine (r1.plain (Q := fun m' lref => m'.regs = m.regs ∧ HasRef t (n + 3) lref m' ∧
      m'.stack = .arr it nx d :: st)
      (fun m' lref h => ⟨h.2.1, h.1, h.2.2, h.2.1⟩)).bind ?_
    intro m1 d1 lref h1 h2 h3
    refine (restItems_post hW (hR rfl) n it nx d st m1 _ h1 h3.2.2).bind ?_
    intro m2 d2 v g1 g2 g3
    have r4 := target_post hW md t n (n + 3) (n + 5) lref m2 rest
      (fun _ => hR rfl) (hC.imp id fun f h => f (by simp [compE, h])) (by omega) g1
      (fun k hk => by rw [g3.2]; exact h3.2.1 k hk)
    have hv : m2.regs n = v := by rw [g3.1]; simp
    rw [g2, hv] at r4
    refine r4.plain fun m' _ h => ⟨by rw [h.2, g2], fun q hq => ?_⟩
    rw [h.1 q (by omega), g3.1]
    have : q ≠ n := by omega
    simp only [this, if_false, h3.1]
theorem props_post (hW : Calm W) (md : Mode) : ∀ (l : Props) (n : Nat) (v : V) (names seen : List V)
    (st : List St) (m : M σ) (rest : List Cmd),
    (restP l = true → ValueSafe W) → (md = .assi ∨ (compP l = true → RefFixed W)) →
    (∀ x, x ∈ names ↔ x ∈ seen) → m.rt.flag = false → m.stack = .obj v names :: st →
    Post W fuel (exec W fuel ((emitP md l n).1 ++ rest) 0 m) rest st
      (fun m' _ => (∀ q, q < n → m'.regs q = m.regs q) ∧ ∃ ns, m'.stack = .obj v ns :: st)
      (properties W fuel md l v seen m.rt.w)
  | .nil, n, v, names, seen, st, m, rest, _, _, _, hf, hs =>
    ⟨m, rfl, rfl, hf, fun _ _ => rfl, names, hs⟩
  | .prop nm t init l, n, v, names, seen, st, m, rest, hR, hC, hn, hf, hs => by
    simp only [emitP, List.append_assoc]
    have hC1 : md = .assi ∨ (∀ e, nm = .expr e → RefFixed W) :=
      hC.imp id fun f e he => f (by subst he; rfl)
    have hCt : md = .assi ∨ (compT t = true → RefFixed W) := by
      refine hC.imp id fun f h => f ?_
      cases nm <;> simp [compP, h]
    have hCl : md = .assi ∨ (compP l = true → RefFixed W) := by
      refine hC.imp id fun f h => f ?_
      cases nm <;> simp [compP, h]
    have r1 := nameCode_post (W := W) (fuel := fuel) hW md nm t v names st n m
      (initCode init n (n + 4) ++ ((emitT md t n (n + 3) (n + 5)).1 ++
        ((emitP md l (emitT md t n (n + 3) (n + 5)).2).1 ++ rest))) hf hs hC1
    have hspec : properties W fuel md (.prop nm t init l) v seen m.rt.w =
        (propSpec W nm t v m.rt.w).andThen fun s x =>
          (Spec.default W init x.2.2 s).andThen fun s y =>
          (assign W fuel md t x.2.1 y s).andThen fun s _ =>
          properties W fuel md l v (seen ++ [x.1]) s := by
      simp only [properties, propSpec]
      cases name W nm m.rt.w with
      | ok s k =>
        simp only [C.andThen]
        cases target W t s with
        | ok s lref =>
          simp only
          cases of (W.get v k s) <;> rfl
        | _ => rfl
      | _ => rfl
    rw [hspec]
    refine r1.bind ?_
    intro m1 x h1 h2
    have r3 := initCode_post (W := W) (fuel := fuel) hW init n (n + 4) (by omega) m1
      ((emitT md t n (n + 3) (n + 5)).1 ++ ((emitP md l (emitT md t n (n + 3) (n + 5)).2).1 ++ rest)) h1
    rw [h2.2.2.2, h2.2.1] at r3
    refine r3.lower.bind ?_
    intro m2 y g1 g2
    have r4 := target_post hW md t n (n + 3) (n + 5) x.2.1 m2
      ((emitP md l (emitT md t n (n + 3) (n + 5)).2).1 ++ rest)
      (fun h => hR (by simp [restP, h])) hCt (by omega) g1
      (fun k hk => by rw [g2.2.2.1]; exact h2.2.2.1 k hk)
    rw [g2.2.2.2, g2.1] at r4
    refine r4.lower.bind ?_
    intro m3 _ k1 k2
    have hst : m3.stack = .obj v (if names.contains x.1 then names else x.1 :: names) :: st := by
      rw [k2.2, g2.2.2.2]
    refine (props_post hW md l (emitT md t n (n + 3) (n + 5)).2 v _ (seen ++ [x.1]) st m3 rest
      (fun h => hR (by simp [restP, h])) hCl ?_ k1 hst).imp ?_
    · intro z
      by_cases hx : x.1 ∈ names
      · have hx' := (hn _).1 hx
        simp only [List.contains_iff_mem, hx, if_true, List.mem_append, List.mem_singleton, hn]
        constructor
        · exact .inl
        · rintro (h | h)
          · exact h
          · rw [h]; exact hx'
      · simp only [List.contains_iff_mem, hx, if_false, List.mem_append, List.mem_cons, hn]
        simp only [List.not_mem_nil, or_false]
        exact or_comm
    · intro m5 _ hk
      have := emitT_le md t n (n + 3) (n + 5)
      refine ⟨fun q hq => ?_, hk.2⟩
      rw [hk.1 q (by omega), k2.1 q (by omega), g2.2.1 q (by omega) (by omega), h2.1 q hq]
  | .rest t, n, v, names, seen, st, m, rest, hR, hC, hn, hf, hs => by
    simp only [emitP, List.cons_append, List.append_assoc, properties]
    have r1 := refCode_post (W := W) (fuel := fuel) hW t (n + 3) m
      (.restProps n :: ((emitT md t n (n + 3) (n + 5)).1 ++ rest)) hf
    rw [hs] at r1
    refine r1.lower.bind ?_
    intro m1 lref h1 h2
    have r2 := intoReg_post (W := W) (fuel := fuel) (r := n) (m := m1)
      (rest := (emitT md t n (n + 3) (n + 5)).1 ++ rest)
      (propsRest_sim hW v names seen hn h1)
    have e1 : exec W fuel (.restProps n :: ((emitT md t n (n + 3) (n + 5)).1 ++ rest)) 0 m1 =
        (match intoReg m1 n (propsRest W v names m1.rt) with
          | .next m k => exec W fuel ((emitT md t n (n + 3) (n + 5)).1 ++ rest) k m
          | .err m => .err m
          | .bad => .bad
          | .fuel => .fuel) := by
      rw [exec_cons]
      simp only [step, h2.2.1]
      rfl
    rw [e1]
    rw [h2.2.1] at r2
    refine r2.lower.bind ?_
    intro m2 x g1 g2
    have r4 := target_post hW md t n (n + 3) (n + 5) lref m2 rest
      (fun h => hR (by simp [restP, h])) (hC.imp id fun f h => f (by simp [compP, h])) (by omega) g1
      (fun k hk => by rw [g2.2.1]; exact h2.2.2 k hk)
    have hv : m2.regs n = x := by rw [g2.1]; simp
    rw [g2.2.2, hv] at r4
    refine r4.lower.imp ?_
    intro m3 _ hk
    refine ⟨fun q hq => ?_, names, by rw [hk.2, g2.2.2]⟩
    rw [hk.1 q (by omega), g2.1]
    have : q ≠ n := by omega
    simp only [this, if_false, h2.1]
end

end Verif.Destr

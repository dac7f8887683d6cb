import Verif.Model.Generator

/-! Lemmas about generators: the invariant, and the history of a run. -/

namespace Verif.Gen

theorem bindOk {α β : Type} {m : Except Fault α} {f : α → Except Fault β} {b : β}
    (h : (m >>= f) = .ok b) : ∃ a, m = .ok a ∧ f a = .ok b := by
  cases m with
  | error e => simp [bind, Except.bind] at h
  | ok a => exact ⟨a, rfl, h⟩

/-- The contexts running are of different generators, and these are the executing ones. -/
structure Inv (s : State) : Prop where
  nodup : (s.stack.map Frame.gen).Nodup
  exec : ∀ (g : Nat) (x : Gen), s.gens[g]? = some x →
    (x.phase = .executing ↔ g ∈ s.stack.map Frame.gen)
  inside : ∀ f, f ∈ s.stack → f.gen < s.gens.length
  fresh : ∀ (g : Nat) (x : Gen), s.gens[g]? = some x → x.phase = .start → x.pos = .begin
  gone : ∀ (g : Nat) (x : Gen), s.gens[g]? = some x → x.phase = .yielded → x.pos ≠ .begin

theorem getElem?_set_some {α : Type} {l : List α} {i j : Nat} {a b : α}
    (h : (l.set i a)[j]? = some b) : (i = j ∧ a = b ∧ i < l.length) ∨ (i ≠ j ∧ l[j]? = some b) := by
  rw [List.getElem?_set] at h
  by_cases hij : i = j
  · rw [if_pos hij] at h
    split at h
    · left; simp only [Option.some.injEq] at h; exact ⟨hij, h, by assumption⟩
    · simp at h
  · rw [if_neg hij] at h
    exact Or.inr ⟨hij, h⟩

/-! ### What one operation does -/

/-- The operation is performed by the code of a generator (or by the method it delegates to). -/
def Op.actor : Op → Option Nat
  | .create => none
  | .call _ _ _ => none
  | .yield g _ => some g
  | .ret g _ => some g
  | .throw g _ => some g
  | .star g => some g
  | .result g _ => some g

/-- A classification of the steps. -/
inductive Did (s : State) : Op → State → Out → Prop where
  | create : Did s .create { s with gens := s.gens ++ [newGen] } (.created s.gens.length)
  | noGen {k : Kind} {g : Nat} {v : Val} : s.gens[g]? = none →
      Did s (.call k g v) s (.answer s.time .typeError)
  | busy {k : Kind} {g : Nat} {v : Val} {x : Gen} : s.gens[g]? = some x → x.phase = .executing →
      Did s (.call k g v) s (.answer s.time .typeError)
  | over {g : Nat} {v : Val} {x : Gen} : s.gens[g]? = some x → x.phase = .completed →
      Did s (.call .next g v) s (.answer s.time (.result ⟨undef, true⟩))
  | overRet {g : Nat} {v : Val} {x : Gen} : s.gens[g]? = some x →
      x.phase = .completed ∨ x.phase = .start →
      Did s (.call .ret g v) { s with gens := s.gens.set g { x with phase := .completed } }
        (.answer s.time (.result ⟨v, true⟩))
  | overThr {g : Nat} {v : Val} {x : Gen} : s.gens[g]? = some x →
      x.phase = .completed ∨ x.phase = .start →
      Did s (.call .thr g v) { s with gens := s.gens.set g { x with phase := .completed } }
        (.answer s.time (.threw v))
  | begin {g : Nat} {v : Val} {x : Gen} : s.gens[g]? = some x → x.phase = .start → x.pos = .begin →
      Did s (.call .next g v)
        { s with
          gens := s.gens.set g { x with phase := .executing, kind := .next, val := v }
          stack := ⟨g, s.time, .body⟩ :: s.stack } .enter
  | again {k : Kind} {g : Nat} {v : Val} {x : Gen} : s.gens[g]? = some x → x.phase = .yielded →
      x.pos = .resume → Did s (.call k g v)
        { s with
          gens := s.gens.set g { x with phase := .executing, kind := k, val := v }
          stack := ⟨g, s.time, .body⟩ :: s.stack } (.deliver k v)
  | pass {k : Kind} {g : Nat} {v : Val} {x : Gen} : s.gens[g]? = some x → x.phase = .yielded →
      x.pos = .star → Did s (.call k g v)
        { s with
          gens := s.gens.set g { x with phase := .executing, kind := k, val := v }
          stack := ⟨g, s.time, .delegate⟩ :: s.stack } (.delegate k v)
  | yield {v : Val} {x : Gen} {f : Frame} {rest : List Frame} : s.stack = f :: rest →
      f.mode = .body → s.gens[f.gen]? = some x →
      Did s (.yield f.gen v)
        { s with gens := s.gens.set f.gen { x with phase := .yielded, pos := .resume }, stack := rest }
        (.answer f.call (.result ⟨v, false⟩))
  | ret {v : Val} {x : Gen} {f : Frame} {rest : List Frame} : s.stack = f :: rest →
      f.mode = .body → s.gens[f.gen]? = some x →
      Did s (.ret f.gen v)
        { s with gens := s.gens.set f.gen { x with phase := .completed }, stack := rest }
        (.answer f.call (.result ⟨v, true⟩))
  | throw {e : Val} {x : Gen} {f : Frame} {rest : List Frame} : s.stack = f :: rest →
      f.mode = .body → s.gens[f.gen]? = some x →
      Did s (.throw f.gen e)
        { s with gens := s.gens.set f.gen { x with phase := .completed }, stack := rest }
        (.answer f.call (.threw e))
  | star {x : Gen} {f : Frame} {rest : List Frame} : s.stack = f :: rest →
      f.mode = .body → s.gens[f.gen]? = some x →
      Did s (.star f.gen)
        { s with
          gens := s.gens.set f.gen { x with kind := .next, val := undef, pos := .star }
          stack := { f with mode := .delegate } :: rest } (.delegate .next undef)
  | passed {o : Obj} {x : Gen} {f : Frame} {rest : List Frame} : s.stack = f :: rest →
      f.mode = .delegate → s.gens[f.gen]? = some x → o.done = false →
      Did s (.result f.gen (.object o))
        { s with gens := s.gens.set f.gen { x with phase := .yielded, pos := .star }, stack := rest }
        (.answer f.call (.result o))
  | left {r : Result} {x : Gen} {f : Frame} {rest : List Frame} {o : Out} : s.stack = f :: rest →
      f.mode = .delegate → s.gens[f.gen]? = some x → (∀ c a, o ≠ .answer c a) →
      (∀ ob, r = .object ob → ob.done = true) →
      Did s (.result f.gen r) { s with stack := { f with mode := .body } :: rest } o

theorem set_self {l : List Gen} {g : Nat} {x : Gen} (h : l[g]? = some x) : l.set g x = l := by
  apply List.ext_getElem?
  intro i
  rw [List.getElem?_set]
  split
  · rename_i he
    subst he
    split
    · exact h.symm
    · rename_i hlt
      exact absurd (List.getElem?_eq_some_iff.mp h).1 hlt
  · rfl

theorem top_ok {s : State} {g : Nat} {m : Mode} {f : Frame} {rest : List Frame} {x : Gen}
    (h : top s g m = .ok (f, rest, x)) :
    s.stack = f :: rest ∧ f.mode = m ∧ f.gen = g ∧ s.gens[f.gen]? = some x := by
  unfold top at h
  split at h
  · simp at h
  · rename_i f' rest' hs
    split at h
    · rename_i hc
      split at h
      · rename_i x' hx
        simp only [Except.ok.injEq, Prod.mk.injEq] at h
        obtain ⟨rfl, rfl, rfl⟩ := h
        exact ⟨hs, hc.2, hc.1, by rw [hc.1]; exact hx⟩
      · simp at h
    · simp at h

theorem enter_did {s s' : State} {g : Nat} {x : Gen} {k : Kind} {v : Val} {o : Out} (hi : Inv s)
    (hg : s.gens[g]? = some x) (hp : x.phase = .yielded ∨ (x.phase = .start ∧ k = .next))
    (h : enter s g x k v = (s', o)) : Did s (.call k g v) s' o := by
  simp only [enter] at h
  cases hpos : x.pos with
  | begin =>
    rw [hpos] at h
    simp only [Prod.mk.injEq] at h
    obtain ⟨rfl, rfl⟩ := h
    rcases hp with hp | ⟨hp, rfl⟩
    · exact absurd hpos (hi.gone g x hg hp)
    · have := Did.begin (v := v) hg hp hpos; rw [hpos] at this; exact this
  | resume =>
    rw [hpos] at h
    simp only [Prod.mk.injEq] at h
    obtain ⟨rfl, rfl⟩ := h
    rcases hp with hp | ⟨hp, rfl⟩
    · have := Did.again (k := k) (v := v) hg hp hpos; rw [hpos] at this; exact this
    · have := hi.fresh g x hg hp; rw [hpos] at this; simp at this
  | star =>
    rw [hpos] at h
    simp only [Prod.mk.injEq] at h
    obtain ⟨rfl, rfl⟩ := h
    rcases hp with hp | ⟨hp, rfl⟩
    · have := Did.pass (k := k) (v := v) hg hp hpos; rw [hpos] at this; exact this
    · have := hi.fresh g x hg hp; rw [hpos] at this; simp at this

theorem resume_did {s s' : State} {g : Nat} {v : Val} {o : Out} (hi : Inv s)
    (h : resume s g v = .ok (s', o)) : Did s (.call .next g v) s' o := by
  simp only [resume, validate] at h
  cases hg : s.gens[g]? with
  | none =>
    rw [hg] at h
    simp only [Except.ok.injEq, Prod.mk.injEq] at h
    obtain ⟨rfl, rfl⟩ := h
    exact .noGen hg
  | some x =>
    rw [hg] at h
    simp only at h
    cases hp : x.phase with
    | executing =>
      simp only [hp, if_true, Except.ok.injEq, Prod.mk.injEq] at h
      obtain ⟨rfl, rfl⟩ := h
      exact .busy hg hp
    | completed =>
      simp [hp] at h
      obtain ⟨rfl, rfl⟩ := h
      exact .over hg hp
    | start =>
      simp [hp] at h
      exact enter_did hi hg (Or.inr ⟨hp, rfl⟩) h
    | yielded =>
      simp [hp] at h
      exact enter_did hi hg (Or.inl hp) h

theorem abrupt_did {s s' : State} {g : Nat} {b : Bool} {v : Val} {o : Out} (hi : Inv s)
    (h : resumeAbrupt s g b v = .ok (s', o)) :
    Did s (.call (if b then .ret else .thr) g v) s' o := by
  simp only [resumeAbrupt, validate] at h
  cases hg : s.gens[g]? with
  | none =>
    rw [hg] at h
    simp only [Except.ok.injEq, Prod.mk.injEq] at h
    obtain ⟨rfl, rfl⟩ := h
    exact .noGen hg
  | some x =>
    rw [hg] at h
    simp only at h
    cases hp : x.phase with
    | executing =>
      simp only [hp, if_true, Except.ok.injEq, Prod.mk.injEq] at h
      obtain ⟨rfl, rfl⟩ := h
      exact .busy hg hp
    | completed =>
      simp [hp] at h
      have hx : ({ x with phase := .completed } : Gen) = x := by rw [← hp]
      cases b with
      | true =>
        simp at h
        obtain ⟨rfl, rfl⟩ := h
        have := Did.overRet (v := v) hg (Or.inl hp)
        rw [hx] at this; exact this
      | false =>
        simp at h
        obtain ⟨rfl, rfl⟩ := h
        have := Did.overThr (v := v) hg (Or.inl hp)
        rw [hx] at this; exact this
    | start =>
      simp [hp] at h
      cases b with
      | true =>
        simp at h
        obtain ⟨rfl, rfl⟩ := h
        exact Did.overRet (v := v) hg (Or.inr hp)
      | false =>
        simp at h
        obtain ⟨rfl, rfl⟩ := h
        exact Did.overThr (v := v) hg (Or.inr hp)
    | yielded =>
      simp [hp] at h
      rw [set_self hg] at h
      exact enter_did hi hg (Or.inl hp) h

theorem starResult_did {s s' : State} {f : Frame} {rest : List Frame} {x : Gen} {r : Result}
    {o : Out} (h1 : s.stack = f :: rest) (h2 : f.mode = .delegate) (h3 : s.gens[f.gen]? = some x)
    (h : starResult s f rest x r = .ok (s', o)) : Did s (.result f.gen r) s' o := by
  unfold starResult at h
  split at h
  all_goals (try split at h)
  all_goals
    simp only [Except.ok.injEq, back, leave, Prod.mk.injEq, reduceCtorEq] at h
  all_goals
    obtain ⟨rfl, rfl⟩ := h
    first
      | exact .passed h1 h2 h3 (by simp_all)
      | exact .left h1 h2 h3 (by intros; simp) (by intro ob hob; simp_all)

theorem act_did {s s' : State} {op : Op} {o : Out} (hi : Inv s) (h : act s op = .ok (s', o)) :
    Did s op s' o := by
  cases op with
  | create =>
    simp only [act, Except.ok.injEq, Prod.mk.injEq] at h
    obtain ⟨rfl, rfl⟩ := h
    exact .create
  | call k g v =>
    cases k with
    | next => exact resume_did hi h
    | ret => exact abrupt_did (b := true) hi h
    | thr => exact abrupt_did (b := false) hi h
  | yield g v =>
    simp only [act] at h
    obtain ⟨⟨f, rest, x⟩, ht, h'⟩ := bindOk h
    clear h
    have h := h'
    clear h'
    obtain ⟨h1, h2, rfl, h3⟩ := top_ok ht
    simp only [leave, Except.ok.injEq, Prod.mk.injEq] at h
    obtain ⟨rfl, rfl⟩ := h
    exact .yield h1 h2 h3
  | ret g v =>
    simp only [act] at h
    obtain ⟨⟨f, rest, x⟩, ht, h'⟩ := bindOk h
    clear h
    have h := h'
    clear h'
    obtain ⟨h1, h2, rfl, h3⟩ := top_ok ht
    simp only [leave, Except.ok.injEq, Prod.mk.injEq] at h
    obtain ⟨rfl, rfl⟩ := h
    exact .ret h1 h2 h3
  | throw g v =>
    simp only [act] at h
    obtain ⟨⟨f, rest, x⟩, ht, h'⟩ := bindOk h
    clear h
    have h := h'
    clear h'
    obtain ⟨h1, h2, rfl, h3⟩ := top_ok ht
    simp only [leave, Except.ok.injEq, Prod.mk.injEq] at h
    obtain ⟨rfl, rfl⟩ := h
    exact .throw h1 h2 h3
  | star g =>
    simp only [act] at h
    obtain ⟨⟨f, rest, x⟩, ht, h'⟩ := bindOk h
    clear h
    have h := h'
    clear h'
    obtain ⟨h1, h2, rfl, h3⟩ := top_ok ht
    simp only [Except.ok.injEq, Prod.mk.injEq] at h
    obtain ⟨rfl, rfl⟩ := h
    exact .star h1 h2 h3
  | result g r =>
    simp only [act] at h
    obtain ⟨⟨f, rest, x⟩, ht, h'⟩ := bindOk h
    clear h
    have h := h'
    clear h'
    obtain ⟨h1, h2, rfl, h3⟩ := top_ok ht
    exact starResult_did h1 h2 h3 h

/-! ### The invariant -/

theorem inv_init : Inv init :=
  ⟨by simp [init], by simp [init], by simp [init], by simp [init], by simp [init]⟩

theorem Inv.push {s : State} (hi : Inv s) {g : Nat} {x y : Gen} {m : Mode} {t : Nat}
    (hg : s.gens[g]? = some x) (hx : x.phase ≠ .executing) (hy : y.phase = .executing) :
    Inv { s with gens := s.gens.set g y, stack := ⟨g, t, m⟩ :: s.stack } := by
  have hlt : g < s.gens.length := (List.getElem?_eq_some_iff.mp hg).1
  have hnot : g ∉ s.stack.map Frame.gen := fun h => hx ((hi.exec g x hg).mpr h)
  refine ⟨?_, ?_, ?_, ?_, ?_⟩
  · simp only [List.map_cons, List.nodup_cons]
    exact ⟨hnot, hi.nodup⟩
  · intro j z hz
    simp only [List.map_cons, List.mem_cons]
    rcases getElem?_set_some hz with ⟨rfl, rfl, _⟩ | ⟨hne, hz⟩
    · simp [hy]
    · rw [hi.exec j z hz]
      constructor
      · intro h; exact Or.inr h
      · intro h
        rcases h with h | h
        · exact absurd h.symm hne
        · exact h
  · intro f hf
    simp only [List.mem_cons] at hf
    simp only [List.length_set]
    rcases hf with rfl | hf
    · exact hlt
    · exact hi.inside f hf
  · intro j z hz hs
    rcases getElem?_set_some hz with ⟨rfl, rfl, _⟩ | ⟨hne, hz⟩
    · rw [hy] at hs; simp at hs
    · exact hi.fresh j z hz hs
  · intro j z hz hs
    rcases getElem?_set_some hz with ⟨rfl, rfl, _⟩ | ⟨hne, hz⟩
    · rw [hy] at hs; simp at hs
    · exact hi.gone j z hz hs

theorem Inv.pop {s : State} (hi : Inv s) {f : Frame} {rest : List Frame} {y : Gen}
    (hs : s.stack = f :: rest) (hy : y.phase ≠ .executing) (hst : y.phase ≠ .start)
    (hyp : y.phase = .yielded → y.pos ≠ .begin) :
    Inv { s with gens := s.gens.set f.gen y, stack := rest } := by
  have hnd := hi.nodup
  rw [hs] at hnd
  simp only [List.map_cons, List.nodup_cons] at hnd
  refine ⟨hnd.2, ?_, ?_, ?_, ?_⟩
  · intro j z hz
    rcases getElem?_set_some hz with ⟨rfl, rfl, _⟩ | ⟨hne, hz⟩
    · constructor
      · intro h; exact absurd h hy
      · intro h; exact absurd h hnd.1
    · rw [hi.exec j z hz, hs]
      simp only [List.map_cons, List.mem_cons]
      constructor
      · intro h
        rcases h with h | h
        · exact absurd h.symm hne
        · exact h
      · intro h; exact Or.inr h
  · intro f' hf
    simp only [List.length_set]
    exact hi.inside f' (by rw [hs]; exact List.mem_cons_of_mem _ hf)
  · intro j z hz hs'
    rcases getElem?_set_some hz with ⟨rfl, rfl, _⟩ | ⟨hne, hz⟩
    · exact absurd hs' hst
    · exact hi.fresh j z hz hs'
  · intro j z hz hs'
    rcases getElem?_set_some hz with ⟨rfl, rfl, _⟩ | ⟨hne, hz⟩
    · exact hyp hs'
    · exact hi.gone j z hz hs'

/-- The top context changes its mode. -/
theorem Inv.mode {s : State} (hi : Inv s) {f : Frame} {rest : List Frame} {m : Mode}
    (hs : s.stack = f :: rest) : Inv { s with stack := { f with mode := m } :: rest } := by
  have hm : (({ f with mode := m } : Frame) :: rest).map Frame.gen = s.stack.map Frame.gen := by
    rw [hs]; rfl
  refine ⟨?_, ?_, ?_, hi.fresh, hi.gone⟩
  · simp only [hm]; exact hi.nodup
  · intro j z hz; simp only [hm]; exact hi.exec j z hz
  · intro f' hf
    simp only [List.mem_cons] at hf
    rcases hf with rfl | hf
    · exact hi.inside f (by rw [hs]; simp)
    · exact hi.inside f' (by rw [hs]; exact List.mem_cons_of_mem _ hf)

/-- A generator that stays in its phase. -/
theorem Inv.same {s : State} (hi : Inv s) {g : Nat} {x y : Gen} (hg : s.gens[g]? = some x)
    (hp : y.phase = x.phase) (hst : x.phase = .executing) :
    Inv { s with gens := s.gens.set g y } := by
  refine ⟨hi.nodup, ?_, ?_, ?_, ?_⟩
  · intro j z hz
    rcases getElem?_set_some hz with ⟨rfl, rfl, _⟩ | ⟨hne, hz⟩
    · rw [hp]; exact hi.exec g x hg
    · exact hi.exec j z hz
  · intro f hf; simp only [List.length_set]; exact hi.inside f hf
  all_goals
    intro j z hz hs'
    rcases getElem?_set_some hz with ⟨rfl, rfl, _⟩ | ⟨hne, hz⟩
    · rw [hp, hst] at hs'; simp at hs'
    · first | exact hi.fresh j z hz hs' | exact hi.gone j z hz hs'

/-- A generator that is not running is finished. -/
theorem Inv.finish {s : State} (hi : Inv s) {g : Nat} {x : Gen} (hg : s.gens[g]? = some x)
    (hx : x.phase ≠ .executing) :
    Inv { s with gens := s.gens.set g { x with phase := .completed } } := by
  refine ⟨hi.nodup, ?_, ?_, ?_, ?_⟩
  · intro j z hz
    rcases getElem?_set_some hz with ⟨rfl, rfl, _⟩ | ⟨hne, hz⟩
    · have := hi.exec g x hg
      constructor
      · intro h; simp at h
      · intro h; exact absurd (this.mpr h) hx
    · exact hi.exec j z hz
  · intro f hf; simp only [List.length_set]; exact hi.inside f hf
  all_goals
    intro j z hz hs'
    rcases getElem?_set_some hz with ⟨rfl, rfl, _⟩ | ⟨hne, hz⟩
    · simp at hs'
    · first | exact hi.fresh j z hz hs' | exact hi.gone j z hz hs'

theorem Inv.executing {s : State} (hi : Inv s) {f : Frame} (hf : f ∈ s.stack) {x : Gen}
    (hx : s.gens[f.gen]? = some x) : x.phase = .executing :=
  (hi.exec f.gen x hx).mpr (List.mem_map_of_mem hf)

theorem did_inv {s s' : State} {op : Op} {o : Out} (hi : Inv s) (h : Did s op s' o) : Inv s' := by
  cases h with
  | create =>
    refine ⟨hi.nodup, ?_, ?_, ?_, ?_⟩
    · intro g x hx
      rw [List.getElem?_append] at hx
      split at hx
      · exact hi.exec g x hx
      · rename_i hge
        constructor
        · intro h
          rw [List.getElem?_singleton] at hx
          split at hx
          · simp only [Option.some.injEq] at hx; subst hx; simp [newGen] at h
          · simp at hx
        · intro h
          obtain ⟨f, hf, rfl⟩ := List.mem_map.mp h
          exact absurd (hi.inside f hf) hge
    · intro f hf
      have := hi.inside f hf
      simp only [List.length_append, List.length_singleton]; omega
    all_goals
      intro g x hx hs
      rw [List.getElem?_append] at hx
      split at hx
      · first | exact hi.fresh g x hx hs | exact hi.gone g x hx hs
      · rw [List.getElem?_singleton] at hx
        split at hx
        · simp only [Option.some.injEq] at hx; subst hx; first | rfl | simp [newGen] at hs
        · simp at hx
  | noGen _ => exact hi
  | busy _ _ => exact hi
  | over _ _ => exact hi
  | overRet hg hp => exact hi.finish hg (by rcases hp with hp | hp <;> rw [hp] <;> simp)
  | overThr hg hp => exact hi.finish hg (by rcases hp with hp | hp <;> rw [hp] <;> simp)
  | begin hg hp _ => exact hi.push hg (by rw [hp]; simp) rfl
  | again hg hp _ => exact hi.push hg (by rw [hp]; simp) rfl
  | pass hg hp _ => exact hi.push hg (by rw [hp]; simp) rfl
  | yield h1 h2 h3 => exact hi.pop h1 (by simp) (by simp) (by simp)
  | ret h1 h2 h3 => exact hi.pop h1 (by simp) (by simp) (by simp)
  | throw h1 h2 h3 => exact hi.pop h1 (by simp) (by simp) (by simp)
  | star h1 h2 h3 =>
    rename_i x f rest
    have he := hi.executing (f := f) (by rw [h1]; simp) h3
    exact (hi.same (y := { x with kind := .next, val := undef, pos := .star }) h3 rfl he).mode
      (m := .delegate) h1
  | passed h1 h2 h3 _ => exact hi.pop h1 (by simp) (by simp) (by simp)
  | left h1 h2 h3 _ _ => exact hi.mode h1

end Verif.Gen

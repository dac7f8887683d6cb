import Verif.Spec.PromiseAll
import Mathlib.Data.List.Basic
/-
Helper lemmas for `Promise.all` and its relatives.
-/
namespace Verif.PromiseAll
open Spec

def empties (l : List (Option Entry)) : Nat := l.countP Option.isNone

theorem empties_zero (l : List (Option Entry)) : empties l = 0 ↔ l.all Option.isSome = true := by
  simp only [empties, List.countP_eq_zero, List.all_eq_true]
  constructor
  · intro h x hx
    have := h x hx
    cases x <;> simp_all
  · intro h x hx
    have := h x hx
    cases x with
    | none => simp at this
    | some y => simp

theorem fill_get (l : List (Option Entry)) (i : Nat) (e : Entry) (j : Nat) :
    (fill l i e)[j]? = if i = j then l[j]?.map (fun o => some (o.getD e)) else l[j]? := by
  simp only [fill, List.getElem?_modify]
  by_cases h : i = j
  · simp [h]
  · simp [h]

theorem fill_filled {l : List (Option Entry)} {i : Nat} {o : Entry} (h : l[i]? = some (some o))
    (e : Entry) : fill l i e = l := by
  apply List.ext_getElem?
  intro j
  rw [fill_get]
  by_cases hij : i = j
  · subst hij; simp [h]
  · simp [hij]

theorem fill_out {l : List (Option Entry)} {i : Nat} (h : l[i]? = none) (e : Entry) :
    fill l i e = l := by
  apply List.ext_getElem?
  intro j
  rw [fill_get]
  by_cases hij : i = j
  · subst hij; simp [h]
  · simp [hij]

theorem fill_empty {l : List (Option Entry)} {i : Nat} (h : l[i]? = some none) (e : Entry) :
    fill l i e = l.set i (some e) := by
  apply List.ext_getElem?
  intro j
  rw [fill_get, List.getElem?_set]
  by_cases hij : i = j
  · subst hij
    obtain ⟨hlt, hg⟩ := List.getElem?_eq_some_iff.1 h
    rw [if_pos rfl, if_pos rfl, if_pos hlt, h]; rfl
  · simp [hij]

theorem empties_set {l : List (Option Entry)} {i : Nat} (h : l[i]? = some none) (e : Entry) :
    empties (l.set i (some e)) + 1 = empties l := by
  induction l generalizing i with
  | nil => simp at h
  | cons a l ih =>
    cases i with
    | zero =>
      obtain rfl : a = none := by simpa using h
      simp [empties]
    | succ i =>
      have := ih (i := i) (by simpa using h)
      simp only [empties, List.set_cons_succ, List.countP_cons] at this ⊢
      omega

/-- The code's state `s` agrees with the abstract state `t` after the events `past`. -/
structure Sim (k : Kind) (s : St) (t : S) (past : List Event) : Prop where
  phase : match s.phase with
    | .idle => t.begun = false ∧ t.finished = false ∧ t.failed = false
    | .pushed => t.begun = true ∧ t.finished = false ∧ t.failed = false
    | .finished => t.begun = false ∧ t.finished = true ∧ t.failed = false
    | .failed => t.finished = false ∧ t.failed = true
  called : t.slots.map Option.isSome = s.called.map fun c => c.1 || c.2
  values : ∃ extra, s.values = (t.slots.map fun o => o.getD .undef) ++ extra ∧
    (s.phase = .idle ∨ s.phase = .finished → extra = []) ∧ (s.phase = .pushed → extra = [.undef])
  left : s.left = (if t.finished then 0 else 1) + empties t.slots
  wrapped : s.wrapped = false
  out : s.out = delivered t
  flags : ∀ i b c, s.called[i]? = some c → flag b c = true →
    k.has b = true ∧ ∃ x, Event.call i b x ∈ past

theorem Sim.mono {k s t past} (h : Sim k s t past) (e : Event) : Sim k s t (past ++ [e]) :=
  ⟨h.phase, h.called, h.values, h.left, h.wrapped, h.out, fun i b c hc hf => by
    obtain ⟨a, x, hx⟩ := h.flags i b c hc hf
    exact ⟨a, x, List.mem_append_left _ hx⟩⟩

theorem entry_has (k : Kind) (b : Bool) (x : Nat) :
    entry k b x = if k.has b then some (k.entry b x) else none := by
  cases k <;> cases b <;> rfl

theorem slot_called {k s t past} (h : Sim k s t past) (i : Nat) :
    t.slots[i]?.map Option.isSome = s.called[i]?.map fun c => c.1 || c.2 := by
  rw [← List.getElem?_map, ← List.getElem?_map, h.called]

theorem delivered_left {t : S} (hf : t.finished = true) :
    delivered t = if empties t.slots = 0 then [t.slots.map fun o => o.getD .undef] else [] := by
  unfold delivered
  rw [if_pos hf]
  by_cases h : empties t.slots = 0
  · rw [if_pos h, if_pos ((empties_zero _).1 h)]
  · rw [if_neg h, if_neg fun h' => h ((empties_zero _).2 h')]

theorem call_sim {k s t past} (h : Sim k s t past) (i : Nat) (b : Bool) (x : Nat)
    (hok : k = .allSettled → NoBoth (past ++ [.call i b x])) :
    Sim k (callElem k s i b x) (Spec.step k t (.call i b x)) (past ++ [.call i b x]) := by
  have hslot := slot_called h i
  unfold callElem
  simp only [Spec.step, entry_has]
  cases hc : s.called[i]? with
  | none =>
    have hn : t.slots[i]? = none := by rw [hc] at hslot; simpa using hslot
    by_cases hk : k.has b = true
    · simp only [hk, if_true]
      rw [fill_out hn]; exact h.mono _
    · simp only [hk]; exact h.mono _
  | some c =>
    by_cases hk : k.has b = true
    · simp only [hk, if_true, Bool.not_true, Bool.false_eq_true, if_false]
      rw [hc] at hslot
      simp only [Option.map_some] at hslot
      by_cases hf : flag b c = true
      · rw [if_pos hf]
        have hor : (c.1 || c.2) = true := by
          unfold flag at hf; split at hf <;> simp [hf]
        rw [hor] at hslot
        cases ht : t.slots[i]? with
        | none => rw [ht] at hslot; simp at hslot
        | some o =>
          rw [ht] at hslot
          cases o with
          | none => simp at hslot
          | some o =>
            rw [fill_filled ht]; exact h.mono _
      · rw [if_neg hf]
        -- the other function has not been called either
        have hf' : flag (!b) c = false := by
          by_contra hcon
          obtain ⟨hk', y, hy⟩ := h.flags i (!b) c hc (by simpa using hcon)
          cases k with
          | all => cases b <;> simp_all [Kind.has]
          | any => cases b <;> simp_all [Kind.has]
          | allSettled =>
            have hno := hok rfl
            cases b with
            | true => exact hno i x y ⟨by simp, List.mem_append_left _ hy⟩
            | false => exact hno i y x ⟨List.mem_append_left _ hy, by simp⟩
        have hor : (c.1 || c.2) = false := by
          cases b <;> simp_all [flag]
        rw [hor] at hslot
        have ht : t.slots[i]? = some none := by
          cases ht : t.slots[i]? with
          | none => rw [ht] at hslot; simp at hslot
          | some o =>
            rw [ht] at hslot
            cases o with
            | none => rfl
            | some o => simp at hslot
        rw [fill_empty ht]
        obtain ⟨hlt, hget⟩ := List.getElem?_eq_some_iff.1 ht
        have hemp := empties_set ht (k.entry b x)
        have hleft := h.left
        obtain ⟨extra, hv, he, he2⟩ := h.values
        have hv' : s.values.set i (k.entry b x) =
            ((t.slots.set i (some (k.entry b x))).map fun o => o.getD .undef) ++ extra := by
          rw [hv, List.set_append_left _ _ (by simpa using hlt), List.map_set]
          rfl
        have hcall : (t.slots.set i (some (k.entry b x))).map Option.isSome =
            (s.called.set i (setFlag b c)).map fun c => c.1 || c.2 := by
          rw [List.map_set, List.map_set, h.called]
          congr 1
          cases b <;> simp [setFlag]
        have hflags : ∀ j b' c', (s.called.set i (setFlag b c))[j]? = some c' → flag b' c' = true →
            k.has b' = true ∧ ∃ y, Event.call j b' y ∈ past ++ [.call i b x] := by
          intro j b' c' hj hfl
          rw [List.getElem?_set] at hj
          by_cases hij : i = j
          · subst hij
            obtain ⟨hlt', _⟩ := List.getElem?_eq_some_iff.1 hc
            rw [if_pos rfl, if_pos hlt'] at hj
            obtain rfl := Option.some.inj hj
            by_cases hb : b' = b
            · subst hb; exact ⟨hk, x, by simp⟩
            · have : flag b' c = true := by
                cases b <;> cases b' <;> simp_all [flag, setFlag]
              obtain ⟨a, y, hy⟩ := h.flags i b' c hc this
              exact ⟨a, y, List.mem_append_left _ hy⟩
          · rw [if_neg hij] at hj
            obtain ⟨a, y, hy⟩ := h.flags j b' c' hj hfl
            exact ⟨a, y, List.mem_append_left _ hy⟩
        have hpos : s.left ≠ 0 := by omega
        have hfin : t.finished = true → delivered t = [] := by
          intro hf
          rw [delivered_left hf, if_neg (by omega)]
        unfold decr
        simp only [hpos, if_false]
        by_cases hz : s.left - 1 = 0
        · have hf : t.finished = true := by
            by_contra hcon
            rw [if_neg hcon] at hleft; omega
          have hph : s.phase = .finished := by
            have := h.phase
            cases hp : s.phase <;> simp_all
          have hex := he (Or.inr hph)
          subst hex
          rw [List.append_nil] at hv'
          rw [if_pos hf] at hleft
          simp only [hz, if_true]
          refine ⟨h.phase, hcall, ⟨[], by simpa using hv', fun _ => rfl, by simp [hph]⟩, ?_, h.wrapped, ?_, hflags⟩
          · simp only [hf, if_true]; omega
          · simp only
            rw [h.out, hfin hf, delivered_left (by exact hf), if_pos (by simp only; omega), hv']
            rfl
        · simp only [hz, if_false]
          refine ⟨h.phase, hcall, ⟨extra, hv', he, he2⟩, ?_, h.wrapped, ?_, hflags⟩
          · simp only; omega
          · simp only
            rw [h.out]
            by_cases hf : t.finished = true
            · rw [if_pos hf] at hleft
              rw [hfin hf, delivered_left (by exact hf), if_neg (by simp only; omega)]
            · unfold delivered; simp [hf]
    · have hkf : k.has b = false := by simpa using hk
      simp only [hkf, Bool.not_false, if_true, Bool.false_eq_true, if_false]
      exact h.mono _

theorem step_sim {k s t past} (h : Sim k s t past) (e : Event)
    (hok : k = .allSettled → NoBoth (past ++ [e])) :
    Sim k (step k s e) (Spec.step k t e) (past ++ [e]) := by
  cases e with
  | call i b x => exact call_sim h i b x hok
  | push =>
    have hp := h.phase
    simp only [step, Spec.step, Spec.over]
    cases hs : s.phase with
    | idle =>
      rw [hs] at hp
      obtain ⟨h1, h2, h3⟩ := hp
      simp only [h1, h2, h3, Bool.or_self, Bool.false_eq_true, if_false, if_true]
      have := h.mono .push
      obtain ⟨extra, hv, he, he2⟩ := h.values
      have := he (Or.inl hs); subst this
      exact ⟨⟨rfl, rfl, rfl⟩, h.called, ⟨[.undef], by simp [hv], by simp, by simp⟩, by simpa [h2] using h.left,
        h.wrapped, by simp [h.out, delivered, h2], (h.mono .push).flags⟩
    | pushed =>
      rw [hs] at hp
      simp only [hp.1, Bool.or_true, if_true]
      exact h.mono _
    | finished =>
      rw [hs] at hp
      simp only [hp.2.1, Bool.true_or, if_true]
      exact h.mono _
    | failed =>
      rw [hs] at hp
      simp only [hp.2, Bool.true_or, Bool.or_true, if_true]
      exact h.mono _
  | elem =>
    have hp := h.phase
    simp only [step, Spec.step, Spec.over]
    cases hs : s.phase with
    | idle =>
      rw [hs] at hp
      simp only [hp.1, Bool.and_false, Bool.false_eq_true, if_false]
      exact h.mono _
    | pushed =>
      rw [hs] at hp
      obtain ⟨h1, h2, h3⟩ := hp
      simp only [h1, h2, h3, Bool.or_self, Bool.not_false, Bool.and_self, if_true]
      obtain ⟨extra, hv, he, he2⟩ := h.values
      have := he2 hs; subst this
      refine ⟨⟨rfl, rfl, rfl⟩, ?_, ⟨[], by simp [hv], fun _ => rfl, by simp⟩, ?_, h.wrapped, ?_, ?_⟩
      · simp [h.called]
      · have := h.left
        rw [h2] at this
        simp only [Bool.false_eq_true, if_false, empties, List.countP_append] at this ⊢
        rw [this]
        simp
        omega
      · simp [h.out, delivered, h2]
      · intro i b c hc hf
        simp only at hc
        rw [List.getElem?_append] at hc
        split at hc
        · exact (h.mono .elem).flags i b c hc hf
        · exfalso
          rw [List.getElem?_singleton] at hc
          split at hc
          · obtain rfl := Option.some.inj hc
            unfold flag at hf
            split at hf <;> simp at hf
          · simp at hc
    | finished =>
      rw [hs] at hp
      simp only [hp.1, Bool.and_false, Bool.false_eq_true, if_false]
      exact h.mono _
    | failed =>
      rw [hs] at hp
      simp only [hp.2, Bool.or_true, Bool.not_true, Bool.false_and, Bool.false_eq_true, if_false]
      exact h.mono _
  | fail =>
    have hp := h.phase
    simp only [step, Spec.step, Spec.over]
    cases hs : s.phase with
    | idle =>
      rw [hs] at hp
      obtain ⟨h1, h2, h3⟩ := hp
      simp only [h2, h3, Bool.or_self, Bool.false_eq_true, if_false, true_or, if_true]
      obtain ⟨extra, hv, he, he2⟩ := h.values
      exact ⟨⟨rfl, rfl⟩, h.called, ⟨extra, hv, by simp, by simp⟩, by simpa [h2] using h.left, h.wrapped,
        by simp [h.out, delivered, h2], (h.mono .fail).flags⟩
    | pushed =>
      rw [hs] at hp
      obtain ⟨h1, h2, h3⟩ := hp
      simp only [h2, h3, Bool.or_self, Bool.false_eq_true, if_false, or_true, if_true]
      obtain ⟨extra, hv, he, he2⟩ := h.values
      exact ⟨⟨rfl, rfl⟩, h.called, ⟨extra, hv, by simp, by simp⟩, by simpa [h2] using h.left, h.wrapped,
        by simp [h.out, delivered, h2], (h.mono .fail).flags⟩
    | finished =>
      rw [hs] at hp
      simp only [hp.2.1, Bool.true_or, if_true]
      exact h.mono _
    | failed =>
      rw [hs] at hp
      simp only [hp.2, Bool.or_true, if_true]
      exact h.mono _
  | finish =>
    have hp := h.phase
    simp only [step, Spec.step, Spec.over]
    cases hs : s.phase with
    | idle =>
      rw [hs] at hp
      obtain ⟨h1, h2, h3⟩ := hp
      simp only [h1, h2, h3, Bool.or_self, Bool.false_eq_true, if_false, if_true]
      obtain ⟨extra, hv, he, he2⟩ := h.values
      have := he (Or.inl hs); subst this
      rw [List.append_nil] at hv
      have hleft := h.left
      rw [h2] at hleft
      simp only [Bool.false_eq_true, if_false] at hleft
      have hpos : s.left ≠ 0 := by omega
      have hout : s.out = [] := by rw [h.out]; simp [delivered, h2]
      unfold decr
      simp only [hpos, if_false]
      by_cases hz : s.left - 1 = 0
      · simp only [hz, if_true]
        refine ⟨⟨rfl, rfl, rfl⟩, h.called, ⟨[], by simp [hv], fun _ => rfl, by simp⟩, ?_, h.wrapped, ?_,
          (h.mono .finish).flags⟩
        · simp only [if_true]; omega
        · rw [delivered_left rfl, if_pos (by simp only; omega)]
          simp [hout, hv]
      · simp only [hz, if_false]
        refine ⟨⟨rfl, rfl, rfl⟩, h.called, ⟨[], by simp [hv], fun _ => rfl, by simp⟩, ?_, h.wrapped, ?_,
          (h.mono .finish).flags⟩
        · simp only [if_true]; omega
        · rw [delivered_left rfl, if_neg (by simp only; omega)]
          exact hout
    | pushed =>
      rw [hs] at hp
      simp only [hp.1, Bool.or_true, if_true]
      exact h.mono _
    | finished =>
      rw [hs] at hp
      simp only [hp.2.1, Bool.true_or, if_true]
      exact h.mono _
    | failed =>
      rw [hs] at hp
      simp only [hp.2, Bool.true_or, Bool.or_true, if_true]
      exact h.mono _

theorem run_sim {k : Kind} : ∀ (es : List Event) (s : St) (t : S) (past : List Event),
    Sim k s t past → (k = .allSettled → NoBoth (past ++ es)) →
    Sim k (run k s es) (Spec.run k t es) (past ++ es)
  | [], s, t, past, h, _ => by simpa [run, Spec.run] using h
  | e :: es, s, t, past, h, hok => by
    have h1 := step_sim h e fun hk i x y => by
      have := hok hk i x y
      intro hc
      apply this
      simp only [List.mem_append, List.mem_cons, List.mem_singleton, List.not_mem_nil,
        or_false] at hc ⊢
      tauto
    have := run_sim es _ _ _ h1 fun hk => by simpa using hok hk
    simpa [run, Spec.run] using this

theorem sim_init (k : Kind) : Sim k init Spec.init [] :=
  ⟨⟨rfl, rfl, rfl⟩, rfl, ⟨[], rfl, fun _ => rfl, by simp [init]⟩, rfl, rfl, rfl,
    fun i b c h => by simp [init] at h⟩

end Verif.PromiseAll

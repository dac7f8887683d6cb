import Verif.Lemmas.ModLoad

/-! # C99: the promise of a load tells whether everything asked for was loaded -/

namespace Verif.ModLoad

open Spec

/-- Whatever modules ask for whichever others, cycles too: the promise is resolved if and only if all modules
asked for, directly or not, were found and loaded; then each of them can be linked: it waits for that, and
its requests have the modules asked for.

Partial: a host that loads before it answers; and after a rejected load the modules can be linked too
(`C99_failed_violated`, `C99_second_violated`). -/
theorem C99_partial (H : Host) (n root : Nat) (s : S) (b : Bool) (hl : H.loadable root = true)
    (h : load H n root = some (s, b)) :
    (b = true ↔ Complete H root) ∧ (b = true → ∀ m, Asked H root m → Ready H s m) := by
  obtain ⟨h1, h2, h3, _⟩ := loadFrom_ok (sound_init H root hl) (by simp [init, upd_same]) h
  exact ⟨h1, fun hb m hm => ⟨h2 hb m hm, ((h3 hb).linked m (h2 hb m hm)).2.1⟩⟩

/-- Any number of imports, one after the other, of modules that may have been loaded for others before: all are
resolved if and only if everything that any of them asks for was found and loaded; then all of it can be
linked.

Partial: as `C99_partial`; what follows a rejected import is left out (`C99_second_violated`). -/
theorem C99_imports_partial (H : Host) (n : Nat) (roots : List Nat) (s : S) (b : Bool)
    (h : imports H n roots empty = some (s, b)) :
    (b = true ↔ ∀ r ∈ roots, Complete H r) ∧
      (b = true → ∀ r ∈ roots, ∀ m, Asked H r m → Ready H s m) := by
  have gen : ∀ (roots : List Nat) (s0 : S), Sound H s0 → imports H n roots s0 = some (s, b) →
      (b = true ↔ ∀ r ∈ roots, Complete H r) ∧ (b = true → Sound H s) ∧
      (b = true → ∀ x, s0.st x = .unlinked → s.st x = .unlinked) ∧
      (b = true → ∀ r ∈ roots, ∀ m, Asked H r m → s.st m = .unlinked) := by
    intro roots
    induction roots with
    | nil =>
      intro s0 h0 he
      simp only [imports, Option.some.injEq, Prod.mk.injEq] at he
      obtain ⟨rfl, rfl⟩ := he
      exact ⟨by simp, fun _ => h0, fun _ _ h => h, by simp⟩
    | cons r rs ih =>
      intro s0 h0 he
      unfold imports at he
      cases hi : importOf H n r s0 with
      | none => rw [hi] at he; simp at he
      | some p =>
        obtain ⟨s1, b1⟩ := p
        obtain ⟨i1, i2, i3, i4⟩ := import_ok h0 hi
        rw [hi] at he
        cases b1 with
        | false =>
          simp only [Option.some.injEq, Prod.mk.injEq] at he
          obtain ⟨_, rfl⟩ := he
          refine ⟨⟨by simp, fun hc => ?_⟩, by simp, by simp, by simp⟩
          exact i1.2 (hc r (List.mem_cons_self ..))
        | true =>
          simp only at he
          obtain ⟨j1, j2, j3, j4⟩ := ih s1 (i3 rfl) he
          refine ⟨?_, j2, fun hb x hx => j3 hb x (i4 x hx), ?_⟩
          · rw [j1, List.forall_mem_cons]
            exact ⟨fun h => ⟨i1.1 rfl, h⟩, fun h => h.2⟩
          · intro hb x hx m hm
            rcases List.mem_cons.1 hx with rfl | hx
            · exact j3 hb m (i2 rfl m hm)
            · exact j4 hb x hx m hm
  obtain ⟨g1, g2, _, g4⟩ := gen roots empty
    ⟨by simp [empty], fun _ _ => rfl, by simp [empty], by simp [empty], by simp [empty]⟩ h
  exact ⟨g1, fun hb r hr m hm => ⟨g4 hb r hr m hm, ((g2 hb).linked m (g4 hb r hr m hm)).2.1⟩⟩

/-- Loading ends: if only modules below `N` are asked for, `N + 1` nested calls are enough. -/
theorem C99_ends (H : Host) (N root : Nat) (hr : root < N) (hN : ∀ m t, some t ∈ H.reqs m → t < N) :
    ∃ s b, load H (N + 1) root = some (s, b) := by
  obtain ⟨s, hs, _⟩ := add_ends hN (N + 1) root (init root) hr ⟨by simp [init], by simp [init]⟩ (by simp [init])
  exact ⟨_, _, by unfold load loadFrom; simp only [init] at hs ⊢; rw [hs]; rfl⟩

/-- Modules 0 and 1 ask for each other, 1 asks for 2 too; `ok`: 2 can be loaded. -/
def three (ok : Bool) : Host :=
  { reqs := fun m => match m with
      | 0 => [some 1]
      | 1 => [some 0, some 2]
      | _ => []
    loadable := fun m => m < 2 || ok
    errs := fun _ => true }

example : (load (three true) 4 0).map (fun r => (r.2, r.1.filled 1, r.1.st 2)) = some (true, [0, 2], .unlinked) := by
  decide
example : (load (three false) 4 0).map (·.2) = some false := by decide
example : ∃ s b, load (three true) (3 + 1) 0 = some (s, b) :=
  C99_ends _ 3 0 (by omega) (by
    intro m t h
    match m with
    | 0 => simp [three] at h; omega
    | 1 => simp [three] at h; omega
    | m + 2 => simp [three] at h)

/-- Module 0 asks for a name that is not found. -/
def lost : Host := { reqs := fun m => if m = 0 then [none] else [], loadable := fun _ => true, errs := fun _ => true }

/-- The load of module 0 is rejected, yet it is left as one to be linked, with a request that has no module:
its next `import()` goes to linking at once (rjs_module_opt.c:2218-2221) and meets the assertion of
`inner_module_link` (760). -/
theorem C99_failed_violated : ∃ (H : Host) (s : S), load H 2 0 = some (s, false) ∧ H.loadable 0 = true ∧
    s.st 0 = .unlinked ∧ ¬ Ready H s 0 := by
  refine ⟨lost, _, rfl, rfl, by decide, ?_⟩
  intro h
  exact absurd h.2 (by decide)

/-- Module 0 asks for a name that is not found, module 1 for module 0. -/
def lostBelow : Host :=
  { reqs := fun m => match m with
      | 0 => [none]
      | 1 => [some 0]
      | _ => []
    loadable := fun _ => true
    errs := fun _ => true }

/-- After the rejected import of module 0 the import of module 1 is resolved, though what it asks for is not
complete; linking meets the assertion at 760.  In a new realm the import of module 1 is rejected. -/
theorem C99_second_violated : ∃ (H : Host) (s1 s2 : S), importOf H 3 0 empty = some (s1, false) ∧
    importOf H 3 1 s1 = some (s2, true) ∧ ¬ Complete H 1 ∧ (∃ s3, importOf H 3 1 empty = some (s3, false)) ∧
    Asked H 1 0 ∧ s2.st 0 = .unlinked ∧ ¬ Ready H s2 0 := by
  refine ⟨lostBelow, _, _, rfl, rfl, fun h => ?_, ⟨_, rfl⟩, .next .root (by decide), by decide, fun h => ?_⟩
  · exact (h 0 (.next .root (by decide))).2 (by decide)
  · exact absurd h.2 (by decide)

/-- Module 2 first, then 0, which asks for 1, which asks for 0 and 2. -/
example : (imports (three true) 4 [2, 0, 1] empty).map (fun r => (r.2, r.1.filled 1, r.1.st 2)) =
    some (true, [0, 2], .unlinked) := by decide
example : (imports (three false) 4 [0, 1] empty).map (·.2) = some false := by decide

end Verif.ModLoad

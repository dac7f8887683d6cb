import Verif.Spec.Destr
import Verif.Lemmas.Destr4

/-!
# C93: destructuring patterns

Full statement: for every program, every array or object pattern (nested ones, elisions, initialisers,
computed names, rest elements) in an assignment, a declaration or a parameter list does the observable
steps of the standard in the order of the standard, with the same end, and the iterator is closed
exactly when the standard closes it.  Missing: programs that override an error by `finally` or catch
one while an iterator is closed, rest elements whose `value` getter throws, and computed names in
declarations whose targets have effects (`C93_*_violated`).
-/

namespace Verif.Destr

open Spec

/-- The byte code of the pattern does what the standard says. -/
theorem C93_partial {σ : Type} (W : World σ) (fuel : Nat) (md : Mode) (t : Tgt) (v : V) (rt : RT σ)
    (hW : Calm W) (hf : rt.flag = false) (hR : restT t = true → ValueSafe W)
    (hC : md = .assi ∨ (compT t = true → RefFixed W)) :
    run W fuel md t v rt = seen (pattern W fuel md t v rt.w) v := by
  have h := target_post (fuel := fuel) hW md t 0 0 1 0
    ⟨rt, fun q => if q = 0 then v else .undef, fun _ => 0, []⟩ [] hR hC (by omega) hf
    (fun _ _ => rfl)
  rw [List.append_nil] at h
  simp only [if_true] at h
  unfold run pattern
  cases hp : assign W fuel md t 0 v rt.w with
  | more => rw [hp] at h; rw [h]; rfl
  | ok s a =>
    rw [hp] at h
    obtain ⟨m', h1, h2, h3, h4⟩ := h
    rw [h1]
    have h0 : m'.regs 0 = v := by rw [h4.1 0 (by omega)]; rfl
    simp only [exec, seen, h2, h0]
  | thr s e =>
    rw [hp] at h
    obtain ⟨m', S, h1, h2, h3⟩ := h
    rw [h1]
    rw [List.append_nil] at h2
    simp only [h2, h3, caught, if_true, seen]

/-- Whatever the program does: no assertion of the engine fails, and the stack of states is what it was
before. -/
theorem C93_balanced {σ : Type} (W : World σ) (fuel : Nat) (md : Mode) (t : Tgt) (r i n : Nat) (m : M σ) :
    exec W fuel (emitT md t r i n).1 0 m ≠ .bad ∧
    ∀ m', exec W fuel (emitT md t r i n).1 0 m = .fin m' → m'.stack = m.stack := by
  have h := bal_T (W := W) (fuel := fuel) md t r i n m [] (fun l => l = m.stack) rfl
  rw [List.append_nil] at h
  rcases h with h | ⟨x, h⟩ | ⟨x, h, hs⟩
  · rw [h]; exact ⟨nofun, nofun⟩
  · rw [h]; exact ⟨nofun, nofun⟩
  · rw [h]
    refine ⟨nofun, ?_⟩
    intro m' he
    simp only [exec, Res.fin.injEq] at he
    rw [← he]; exact hs

/-- Patterns without rest elements of arrays always end. -/
theorem C93_ends_partial {σ : Type} (W : World σ) (fuel : Nat) (md : Mode) (t : Tgt) (v : V) (rt : RT σ)
    (hW : Calm W) (hf : rt.flag = false) (hR : restT t = false)
    (hC : md = .assi ∨ (compT t = true → RefFixed W)) :
    (∃ s, run W fuel md t v rt = .norm s v) ∨ ∃ s e, run W fuel md t v rt = .thr s e := by
  rw [C93_partial W fuel md t v rt hW hf (fun h => nomatch hR.symm.trans h) hC]
  have := assign_more (W := W) (fuel := fuel) md t 0 v rt.w hR
  unfold pattern
  cases hp : assign W fuel md t 0 v rt.w with
  | more => exact absurd hp this
  | ok s a => exact .inl ⟨s, rfl⟩
  | thr s e => exact .inr ⟨s, e, rfl⟩

/-! ## Programs for the examples -/

/-- What can be observed. -/
inductive Event where
  | next
  | ret
  | ref (t : Nat)
  | key
  | init (e : Nat)
  | put (p : Put) (i : Nat) (v : V)
  deriving DecidableEq

/-- An iterable object 0 with `len` values; the results of `next` are the objects from 10 on, `return`
is object 4, the array of a rest element is object 5. -/
def lineWorld (len : Nat) : World (List Event) where
  get v k s :=
    match v with
    | .obj 0 => .ok s .same (if k = kIter then .obj 1 else .undef)
    | .obj 2 => .ok s .same (if k = kNext then .obj 3 else if k = kReturn then .obj 4 else .undef)
    | .obj (n + 10) =>
      .ok s .same (if k = kDone then .bool (len ≤ n) else if k = kValue then .num n else .undef)
    | _ => .ok s .same .undef
  call f _ s :=
    match f with
    | 1 => .ok s .same (.obj 2)
    | 3 => .ok (s ++ [.next]) .same (.obj (10 + s.count .next))
    | _ => .ok (s ++ [.ret]) .same (.obj 9)
  callable _ := true
  truthy _ := true
  typeErr := .num 99
  eval e s := .ok (s ++ [.init e]) .same (.num (100 + e))
  key _ s := .ok (s ++ [.key]) .same (.str 50)
  ref t s := .ok s .same t
  put p i v s := if v = .num 7 then .thr s (.num 77) else .ok (s ++ [.put p i v]) .same ()
  newArr s := (s, .obj 5)
  addArr _ i v s := s ++ [.put .assign (1000 + i) v]
  newObj s := (s, .obj 6)
  addProp _ _ _ s := s
  toObj v s := (s, v)
  ownKeys _ s := .ok s .same []
  own _ _ s := .ok s .same none

theorem lineWorld_calm (len : Nat) : Calm (lineWorld len) where
  get v k s s' e a h := by
    simp only [lineWorld] at h
    split at h <;> cases h
  call f v s s' e a h := by
    simp only [lineWorld] at h
    split at h <;> cases h
  eval e s s' e' a h := by cases h
  key v s s' e' a h := by cases h
  ref t s s' e' a h := by cases h
  put p i v s s' e' a h := by
    simp only [lineWorld] at h
    split at h <;> cases h
  ownKeys v s s' e' a h := by cases h
  own v k s s' e' a h := by cases h
  ret it s s' t f h := by
    simp only [lineWorld] at h
    split at h <;> cases h <;> rfl
  retCall it s s' t n _ s₂ t₂ a h := by
    simp only [lineWorld] at h
    split at h <;> cases h <;> rfl

theorem lineWorld_value (len : Nat) : ValueSafe (lineWorld len) := by
  intro v s s' e h
  simp only [lineWorld] at h
  split at h <;> cases h

theorem lineWorld_ref (len : Nat) : RefFixed (lineWorld len) := fun t => ⟨t, fun _ => rfl⟩

/-- `[a, , b = e] = o` with three values: the iterator is not at its end and is closed. -/
example : run (lineWorld 3) 9 .assi (.arr (.elem (.leaf 1) none (.hole (.elem (.leaf 2) (some 0) .nil))))
    (.obj 0) ⟨[], false, .undef⟩ =
    .norm [.next, .put .assign 1 (.num 0), .next, .next, .put .assign 2 (.num 2), .ret] (.obj 0) := by
  rw [C93_partial _ _ _ _ _ _ (lineWorld_calm 3) rfl (fun _ => lineWorld_value 3) (.inl rfl)]
  rfl

/-- With one value only `b` gets its initialiser, and the iterator is not closed. -/
example : run (lineWorld 1) 9 .assi (.arr (.elem (.leaf 1) none (.hole (.elem (.leaf 2) (some 0) .nil))))
    (.obj 0) ⟨[], false, .undef⟩ =
    .norm [.next, .put .assign 1 (.num 0), .next, .init 0, .put .assign 2 (.num 100)] (.obj 0) := by
  rw [C93_partial _ _ _ _ _ _ (lineWorld_calm 1) rfl (fun _ => lineWorld_value 1) (.inl rfl)]
  rfl

/-- `let [a, ...b] = o`. -/
example : run (lineWorld 2) 9 (.bind true) (.arr (.elem (.leaf 1) none (.rest (.leaf 2)))) (.obj 0)
    ⟨[], false, .undef⟩ =
    .norm [.next, .put .initial 1 (.num 0), .next, .put .assign 1000 (.num 1), .next,
      .put .initial 2 (.obj 5)] (.obj 0) := by
  rw [C93_partial _ _ _ _ _ _ (lineWorld_calm 2) rfl (fun _ => lineWorld_value 2) (.inr fun _ => lineWorld_ref 2)]
  rfl

/-- `var {[e]: a} = o` with a target without effects. -/
example : run (lineWorld 2) 9 (.bind false) (.obj (.prop (.expr 3) (.leaf 1) none .nil)) (.obj 0)
    ⟨[], false, .undef⟩ = .norm [.init 3, .key, .put .assign 1 .undef] (.obj 0) := by
  rw [C93_partial _ _ _ _ _ _ (lineWorld_calm 2) rfl (fun _ => lineWorld_value 2) (.inr fun _ => lineWorld_ref 2)]
  rfl

/-- `null` has no properties. -/
example : run (lineWorld 2) 9 .assi (.obj .nil) .null ⟨[], false, .undef⟩ = .thr [] (.num 99) := by
  rw [C93_partial _ _ _ _ _ _ (lineWorld_calm 2) rfl (fun _ => lineWorld_value 2) (.inl rfl)]
  rfl

example : ∃ s, run (lineWorld 3) 9 .assi (.arr (.hole .nil)) (.obj 0) ⟨[], false, .undef⟩ = .norm s (.obj 0) := by
  rcases C93_ends_partial (lineWorld 3) 9 .assi (.arr (.hole .nil)) (.obj 0) ⟨[], false, .undef⟩
    (lineWorld_calm 3) rfl rfl (.inl rfl) with h | ⟨s, e, h⟩
  · exact h
  · exact ⟨_, rfl⟩

/-! ## Where the engine differs -/

/-- The results of `next` throw when their `value` is read. -/
def trapWorld : World (List Event) :=
  { lineWorld 3 with
    get := fun v k s =>
      match v with
      | .obj (n + 10) =>
        if k = kValue then .thr s (.num 88) else .ok s .same (.bool (3 ≤ n))
      | v => (lineWorld 3).get v k s }

/-- `[...a] = o` where reading `value` throws: the engine calls `return` of an iterator that failed
(rjs_native_stack.c:466-467 leaves `done` alone), the standard does not. -/
theorem C93_rest_violated :
    run trapWorld 9 .assi (.arr (.rest (.leaf 1))) (.obj 0) ⟨[], false, .undef⟩ =
      .thr [.next, .ret] (.num 88) ∧
    seen (pattern trapWorld 9 .assi (.arr (.rest (.leaf 1))) (.obj 0) []) (.obj 0) =
      .thr [.next] (.num 88) := ⟨rfl, rfl⟩

/-- An element that is not a rest element is right there. -/
example : run trapWorld 9 .assi (.arr (.elem (.leaf 1) none .nil)) (.obj 0) ⟨[], false, .undef⟩ =
    .thr [.next] (.num 88) := rfl

/-- Targets whose evaluation is observed (a `with` statement over a proxy). -/
def withWorld : World (List Event) :=
  { lineWorld 3 with ref := fun t s => .ok (s ++ [.ref t]) .same t }

/-- `var {[e]: a} = o`: the engine looks the target up before the computed name is made a key
(rjs_bc_gen.c:2843-2852), the standard afterwards; the assignment `({[e]: a} = o)` is right. -/
theorem C93_key_order_violated :
    run withWorld 9 (.bind false) (.obj (.prop (.expr 3) (.leaf 1) none .nil)) (.obj 0) ⟨[], false, .undef⟩ =
      .norm [.init 3, .ref 1, .key, .put .assign 1 .undef] (.obj 0) ∧
    seen (pattern withWorld 9 (.bind false) (.obj (.prop (.expr 3) (.leaf 1) none .nil)) (.obj 0) [])
      (.obj 0) = .norm [.init 3, .key, .ref 1, .put .assign 1 .undef] (.obj 0) ∧
    run withWorld 9 .assi (.obj (.prop (.expr 3) (.leaf 1) none .nil)) (.obj 0) ⟨[], false, .undef⟩ =
      .norm [.init 3, .key, .ref 1, .put .assign 1 .undef] (.obj 0) := ⟨rfl, rfl, rfl⟩

/-- `return` catches an exception of its own. -/
def catchWorld : World (List Event) :=
  { lineWorld 20 with
    call := fun f v s =>
      match f with
      | 4 => .ok (s ++ [.ret]) .clear (.obj 9)
      | f => (lineWorld 20).call f v s
    put := fun _ _ _ s => .thr s (.num 77) }

/-- `[a] = o` where the assignment to `a` throws and `return` catches something: a `catch` clause gets
`undefined` in place of the exception (rjs_iterator.c:297-298 puts the value back, not the flag). -/
theorem C93_catch_violated :
    run catchWorld 9 .assi (.arr (.elem (.leaf 1) none .nil)) (.obj 0) ⟨[], false, .undef⟩ =
      .thr [.next, .ret] .undef ∧
    seen (pattern catchWorld 9 .assi (.arr (.elem (.leaf 1) none .nil)) (.obj 0) []) (.obj 0) =
      .thr [.next, .ret] (.num 77) := ⟨rfl, rfl⟩

/-- The initialiser leaves an error behind that a `finally` block has overridden, and `return` throws. -/
def staleWorld : World (List Event) :=
  { lineWorld 20 with
    get := fun v k s => if k = kValue then .ok s .same .undef else (lineWorld 20).get v k s
    eval := fun _ s => .ok s (.set (.num 66)) .null
    call := fun f v s =>
      match f with
      | 4 => .thr (s ++ [.ret]) (.num 55)
      | f => (lineWorld 20).call f v s }

/-- `[a = e] = o` where `e` has overridden the exception 66 by `return` in a `finally` block and the
`return` method of the iterator throws 55: a `catch` clause gets the old 66. -/
theorem C93_stale_violated :
    run staleWorld 9 .assi (.arr (.elem (.leaf 1) (some 0) .nil)) (.obj 0) ⟨[], false, .undef⟩ =
      .thr [.next, .put .assign 1 .null, .ret] (.num 66) ∧
    seen (pattern staleWorld 9 .assi (.arr (.elem (.leaf 1) (some 0) .nil)) (.obj 0) []) (.obj 0) =
      .thr [.next, .put .assign 1 .null, .ret] (.num 55) := ⟨rfl, rfl⟩

end Verif.Destr

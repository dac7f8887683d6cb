import Verif.Lemmas.ForIn
import Verif.Lemmas.ForInSpec

/-!
C78: `for (x in o)` gives the names of the enumerable properties of `o` and of the objects of its
prototype chain as the standard prescribes: each name once, none that is hidden by a property of an
object before, none that is gone when its turn comes.
-/
namespace Verif.ForIn

/-! ## Where the program differs -/

/-- An object with the properties `a`, `b`, `c`, `d`, whose prototype has the property `10`. -/
def twice : List (List (Item × Bool)) :=
  [[(.str (.heap [97]), true), (.str (.heap [98]), true), (.str (.heap [99]), true),
    (.str (.heap [100]), true)], [(.str (.idx 10), true)]]

/-- `var o = Object.create({10: 1}); o.a = o.b = o.c = o.d = 1;`: the loop `for (x in o)` gives `10`
twice.  The table has eight lists; `10` is looked for in list 2, where it is compared with `b` and
becomes a string of the heap, and is put into that list; the next call looks for it in list 0. -/
theorem C78_twice_violated :
    (loop (Spec.chainWorld twice) 9 9 (start true)).1 =
      [.name [97], .name [98], .name [99], .name [100], .name [49, 48], .name [49, 48], .done] ∧
    (Spec.loop (Spec.chainWorld twice) 9 9 (Spec.start true)).1 =
      [.name [97], .name [98], .name [99], .name [100], .name [49, 48], .done] := by
  constructor <;> decide +kernel

/-- An object with the properties `10`, `a`, `b`, `c`, whose prototype has the property `10` too. -/
def hidden : List (List (Item × Bool)) :=
  [[(.str (.idx 10), true), (.str (.heap [97]), true), (.str (.heap [98]), true),
    (.str (.heap [99]), true)], [(.str (.idx 10), true)]]

/-- A property hidden by a property of the same name is given as well. -/
theorem C78_hidden_violated :
    (loop (Spec.chainWorld hidden) 9 9 (start true)).1 =
      [.name [49, 48], .name [97], .name [98], .name [99], .name [49, 48], .done] ∧
    (Spec.loop (Spec.chainWorld hidden) 9 9 (Spec.start true)).1 =
      [.name [49, 48], .name [97], .name [98], .name [99], .done] := by
  constructor <;> decide +kernel

/-- A proxy whose trap `ownKeys` gives a symbol before a string. -/
def symbolFirst : List (List (Item × Bool)) := [[(.sym, true), (.str (.heap [97]), true)]]

/-- Names after a symbol are lost. -/
theorem C78_symbol_violated :
    (loop (Spec.chainWorld symbolFirst) 9 9 (start true)).1 = [.done] ∧
    (Spec.loop (Spec.chainWorld symbolFirst) 9 9 (Spec.start true)).1 = [.name [97], .done] := by
  constructor <;> decide +kernel

/-! ## Where it is right -/

/-- C78, in part: when index strings are keys of the first object only and come first there, and
symbols come last (`Fine`), every loop gives what the standard's gives, and the objects are asked the
same questions in the same order.  Missing: index strings as keys of prototypes, keys listed by
proxies in another order. -/
theorem C78_agree_partial (w : World) (hw : Fine w) (isObj : Bool) (f n : Nat) :
    loop w f n (start isObj) = Spec.loop w f n (Spec.start isObj) :=
  same_loop w hw f n (same_start isObj)

/-- C78, in part: no name is given twice. -/
theorem C78_once_partial (w : World) (hw : Fine w) (isObj : Bool) (f n : Nat) :
    (Spec.given (loop w f n (start isObj)).1).Nodup := by
  rw [C78_agree_partial w hw]
  exact (Spec.loop_once w f n _).1

theorem fine_chain (obj : List (Item × Bool)) (c : List (List (Item × Bool)))
    (h1 : First (obj.map (·.1))) (h2 : ∀ x ∈ c, Later (x.map (·.1))) :
    Fine (Spec.chainWorld (obj :: c)) := by
  constructor
  · intro h ks hk
    cases hk
    exact h1
  · intro h o ks hk
    have hk : some (((obj :: c).getD (o + 1) []).map (·.1)) = some ks := hk
    rw [List.getD_cons_succ, List.getD_eq_getElem?_getD] at hk
    cases hc : c[o]? with
    | none => rw [hc] at hk; cases hk; exact ⟨[], 0, (fun s hs => by cases hs), rfl⟩
    | some x => rw [hc] at hk; cases hk; exact h2 x (List.mem_of_getElem? hc)

/-- C78, in part: for objects that do not change, the loop gives, object after object, the strings
which are enumerable there and which no object before has, and then ends. -/
theorem C78_names_partial (obj : List (Item × Bool)) (c : List (List (Item × Bool)))
    (h1 : First (obj.map (·.1))) (h2 : ∀ x ∈ c, Later (x.map (·.1)))
    (hd : Spec.Distinct (obj :: c)) (f n : Nat) (hf : c.length + 2 ≤ f)
    (hn : (Spec.names (obj :: c) []).length < n) :
    (loop (Spec.chainWorld (obj :: c)) f n (start true)).1 =
      (Spec.names (obj :: c) []).map .name ++ [.done] := by
  rw [C78_agree_partial _ (fine_chain obj c h1 h2)]
  exact Spec.loop_chain (obj :: c) hd f (by simpa using hf) n
    (.fresh 0 [] [] [] (by simp)) hn

/-- C78: whatever the keys, a name is given only after its property was asked for and found
enumerable: it is the last thing asked. -/
theorem C78_sound (w : World) (f : Nat) (it : Iter) (s : List Nat)
    (h : (next w f it).1 = .name s) :
    ∃ o, (next w f it).2.obj = some o ∧
      (next w f it).2.hist.head? = some (.own o s (some (some true))) := by
  have hk : ∀ o items t hi, match keysLoop w o items t hi with
      | .name s _ _ h => h.head? = some (.own o s (some (some true)))
      | _ => True := by
    intro o items
    induction items with
    | nil => intros; trivial
    | cons x r ih =>
      intro t hi
      cases x with
      | sym => trivial
      | str k =>
        unfold keysLoop
        by_cases hf : (t.lookup k).found = true
        · rw [if_pos hf]; exact ih _ _
        · rw [if_neg hf]
          cases w.own hi o k.text with
          | none => trivial
          | some a =>
            cases a with
            | none => exact ih _ _
            | some b =>
              cases b with
              | true => rfl
              | false => exact ih _ _
  have ha : ∀ o k, (match k with
        | .name s _ _ h => h.head? = some (.own o s (some (some true)))
        | _ => True) → ∀ s, (afterKeys w o k).1 = some (.name s) →
        (afterKeys w o k).2.obj = some o ∧
          (afterKeys w o k).2.hist.head? = some (.own o s (some (some true))) := by
    intro o k hk s hs
    cases k with
    | name s' r t h => cases hs; exact ⟨rfl, hk⟩
    | threw => cases hs
    | over r t h =>
      unfold afterKeys at hs
      simp only at hs
      split at hs <;> cases hs
  have hr : ∀ o it s, (round w o it).1 = some (.name s) →
      (round w o it).2.obj = some o ∧
        (round w o it).2.hist.head? = some (.own o s (some (some true))) := by
    intro o it s hs
    unfold round at hs ⊢
    split at hs
    · rename_i hv
      rw [if_pos hv]
      exact ha o _ (hk ..) s hs
    · rename_i hv
      rw [if_neg hv]
      split at hs
      · cases hs
      · rename_i ks hks
        exact ha o _ (hk ..) s hs
  induction f generalizing it with
  | zero => cases h
  | succ f ih =>
    unfold next at h ⊢
    cases ho : it.obj with
    | none => rw [ho] at h; cases h
    | some o =>
      rw [ho] at h
      simp only at h ⊢
      have hr := hr o it
      generalize round w o it = x at h hr
      obtain ⟨x1, x2⟩ := x
      cases x1 with
      | none => exact ih x2 h
      | some out =>
        simp only at h
        subst h
        exact ⟨o, hr s rfl⟩

/-! ## Examples -/

/-- An array of twelve elements with the property `x`, and a prototype with the properties `x` and
`y`, the first not enumerable there. -/
def arrayLike : List (List (Item × Bool)) :=
  [(List.range 12).map (fun n => (Item.str (.idx n), true)) ++
      [(.str (.heap [108, 101, 110]), false), (.str (.heap [120]), true)],
    [(.str (.heap [120]), false), (.str (.heap [121]), true), (.sym, true)]]

theorem plain_of_head {c : Nat} {s : List Nat} (h : 57 < c) : Plain (c :: s) := by
  intro n hn
  have hd : ∀ n, ∀ x ∈ Str.decimal n, x ≤ 57 := by
    intro n
    induction n using Nat.strongRecOn with
    | _ n ih =>
      unfold Str.decimal
      intro x hx
      by_cases h : n < 10
      · rw [if_pos h] at hx; simp at hx; omega
      · rw [if_neg h] at hx
        rcases List.mem_append.1 hx with hx | hx
        · exact ih (n / 10) (by omega) x hx
        · simp at hx; omega
  have := hd n c (by rw [← hn]; exact List.mem_cons_self ..)
  omega

example : First ((arrayLike.headD []).map (·.1)) ∧ (∀ x ∈ arrayLike.tail, Later (x.map (·.1))) := by
  refine ⟨⟨List.range 12, [.str (.heap [108, 101, 110]), .str (.heap [120])],
    ⟨[[108, 101, 110], [120]], 0, ?_, rfl⟩, by decide⟩, ?_⟩
  · intro s hs
    simp only [List.mem_cons, List.not_mem_nil, or_false] at hs
    rcases hs with rfl | rfl <;> exact plain_of_head (by omega)
  · intro x hx
    simp only [arrayLike, List.tail_cons, List.mem_singleton] at hx
    subst hx
    refine ⟨[[120], [121]], 1, ?_, rfl⟩
    intro s hs
    simp only [List.mem_cons, List.not_mem_nil, or_false] at hs
    rcases hs with rfl | rfl <;> exact plain_of_head (by omega)

example : Spec.Distinct arrayLike := by
  intro x hx
  revert x
  decide +kernel

example : (Spec.names arrayLike []).length = 14 ∧ (Spec.names arrayLike []).getLast? = some [121] := by
  decide +kernel

end Verif.ForIn

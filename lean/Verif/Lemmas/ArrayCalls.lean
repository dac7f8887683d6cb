import Verif.Spec.ArrayCalls
import Verif.Lemmas.ArrayOpsSplice
/-! The loops, in surroundings that leave the array alone. -/
namespace Verif.ArrayCalls
open ArrayOps Spec

variable {V R S σ : Type} {m : Type → Type} [Monad m] [LawfulMonad m]

theorem run_bind (w : World m V) (p : Prog V R) (f : R → Prog V S) :
    run w (p.bind f) = run w p >>= fun r => run w (f r) := by
  induction p with
  | done r => simp [Prog.bind, run]
  | fail e => simp [Prog.bind, run, w.fail_bind]
  | has s k g ih => simp [Prog.bind, run, ih]
  | get s k g ih => simp [Prog.bind, run, ih]
  | call a v k g ih => simp [Prog.bind, run, ih]
  | len v g ih => simp [Prog.bind, run, ih]

/-- A loop over a list that may end early. -/
def foldE (f : σ → Nat × V → m (σ ⊕ R)) : List (Nat × V) → σ → m (σ ⊕ R)
  | [], s => pure (.inl s)
  | e :: t, s => do
    match ← f s e with
    | .inl s' => foldE f t s'
    | .inr r => pure (.inr r)

theorem foldE_append (f : σ → Nat × V → m (σ ⊕ R)) (a b : List (Nat × V)) :
    ∀ s, foldE f (a ++ b) s = (do
      match ← foldE f a s with
      | .inl s' => foldE f b s'
      | .inr r => pure (.inr r)) := by
  induction a with
  | nil => intro s; simp [foldE]
  | cons e t ih =>
    intro s
    simp only [List.cons_append, foldE, bind_assoc]
    congr 1; funext x
    cases x with
    | inl s' => exact ih s'
    | inr r => simp

theorem entries_append (a b : List (Option V)) :
    ∀ k, entries k (a ++ b) = entries k a ++ entries (k + a.length) b := by
  induction a with
  | nil => intro k; rfl
  | cons x t ih =>
    intro k
    have : k + (x :: t).length = k + 1 + t.length := by simp only [List.length_cons]; omega
    cases x with
    | none => rw [this]; exact ih (k + 1)
    | some v =>
      rw [this]
      simp only [List.cons_append, entries, ih (k + 1)]

section
variable [Inhabited V]

theorem run_ifThere {w : World m V} {l : List (Option V)} (hs : Still w l)
    (body : Int → V → σ → Prog V (σ ⊕ R)) (i : Nat) (h : i < l.length) (s : σ) :
    run w (ifThere body (i : Nat) s) =
      match l[i] with
      | none => pure (.inl s)
      | some v => run w (body (i : Nat) v s) := by
  unfold ifThere
  rw [run_bind]
  simp only [hasP, run, hs.has i h, pure_bind]
  cases hl : l[i] with
  | none => simp [run]
  | some v => simp [run_bind, getP, run, hs.get i h, hl]

theorem run_up {w : World m V} {l : List (Option V)} (hs : Still w l)
    (body : Int → V → σ → Prog V (σ ⊕ R)) (suf : List (Option V)) :
    ∀ (pre : List (Option V)) (s : σ), l = pre ++ suf →
    run w (loop 1 (ifThere body) suf.length (pre.length : Nat) s) =
      foldE (fun s e => run w (body (e.1 : Nat) e.2 s)) (entries pre.length suf) s := by
  induction suf with
  | nil => intro pre s _; rfl
  | cons x t ih =>
    intro pre s hl
    have hi : pre.length < l.length := by rw [hl]; simp
    have hx : l[pre.length] = x := by simp [hl]
    have ih' := fun s => ih (pre ++ [x]) s (by simp [hl])
    simp only [List.length_append, List.length_cons, List.length_nil, Nat.zero_add] at ih'
    simp only [List.length_cons, loop, run_bind, run_ifThere hs body pre.length hi, hx]
    have hk : ((pre.length : Nat) : Int) + 1 = ((pre.length + 1 : Nat) : Int) := by omega
    cases x with
    | none =>
      simp only [pure_bind, entries, hk]
      exact ih' s
    | some v =>
      simp only [entries, foldE]
      congr 1; funext y
      cases y with
      | inl s' => simp only [hk]; exact ih' s'
      | inr r => rfl

theorem run_down {w : World m V} {l : List (Option V)} (hs : Still w l)
    (body : Int → V → σ → Prog V (σ ⊕ R)) (n : Nat) :
    ∀ (s : σ), n ≤ l.length →
    run w (loop (-1) (ifThere body) n ((n : Int) - 1) s) =
      foldE (fun s e => run w (body (e.1 : Nat) e.2 s)) (entries 0 (l.take n)).reverse s := by
  induction n with
  | zero => intro s _; rfl
  | succ n ih =>
    intro s hn
    have hk : ((n + 1 : Nat) : Int) - 1 = (n : Nat) := by omega
    have hk' : ((n : Nat) : Int) + -1 = (n : Int) - 1 := by omega
    have htake : l.take (n + 1) = l.take n ++ [l[n]] := by
      rw [List.take_add_one, List.getElem?_eq_getElem (by omega)]; rfl
    rw [htake, entries_append, List.reverse_append]
    simp only [loop, run_bind, hk, hk', run_ifThere hs body n (by omega), List.length_take,
      Nat.zero_add, Nat.min_eq_left (show n ≤ l.length by omega)]
    cases hx : l[n] with
    | none =>
      simp only [pure_bind, entries, List.reverse_nil, List.nil_append]
      exact ih s (by omega)
    | some v =>
      simp only [entries, List.reverse_singleton, List.singleton_append, foldE]
      congr 1; funext y
      cases y with
      | inl s' => exact ih s' (by omega)
      | inr r => rfl

theorem run_findRound {w : World m V} {l : List (Option V)} (hs : Still w l) (truthy : V → Bool)
    (i : Nat) (h : i < l.length) (s : Unit) :
    run w (findRound truthy (i : Nat) s) = (do
      let r ← w.call none (l[i].getD default) (i : Nat)
      pure (if truthy r then .inr (l[i].getD default, (i : Int)) else .inl ())) := by
  unfold findRound
  simp [run_bind, getP, callP, run, hs.get i h]

/-- A round of the search, for an entry. -/
def findStep (w : World m V) (truthy : V → Bool) (_ : Unit) (e : Nat × V) :
    m (Unit ⊕ V × Int) := do
  let r ← w.call none e.2 (e.1 : Nat)
  pure (if truthy r then .inr (e.2, (e.1 : Int)) else .inl ())

omit [LawfulMonad m] [Monad m] in
theorem allOf_get (l : List (Option V)) (i : Nat) (h : i < l.length) :
    (allOf l)[i]? = some (i, l[i].getD default) := by
  unfold allOf
  rw [List.getElem?_map, List.getElem?_zipIdx, List.getElem?_eq_getElem h]
  simp

omit [LawfulMonad m] [Monad m] in
theorem allOf_length (l : List (Option V)) : (allOf l).length = l.length := by simp [allOf]

theorem run_findUp {w : World m V} {l : List (Option V)} (hs : Still w l) (truthy : V → Bool)
    (n : Nat) : ∀ (k : Nat), k + n = l.length →
    run w (loop 1 (findRound truthy) n (k : Nat) ()) =
      foldE (findStep w truthy) ((allOf l).drop k) () := by
  induction n with
  | zero =>
    intro k hk
    rw [List.drop_eq_nil_of_le (by rw [allOf_length]; omega)]
    rfl
  | succ n ih =>
    intro k hk
    have hd : (allOf l).drop k = (k, l[k].getD default) :: (allOf l).drop (k + 1) := by
      have hlt : k < (allOf l).length := by rw [allOf_length]; omega
      rw [List.drop_eq_getElem_cons hlt]
      have := allOf_get l k (by omega)
      rw [List.getElem?_eq_getElem hlt] at this
      rw [Option.some.inj this]
    rw [hd]
    simp only [loop, run_bind, run_findRound hs truthy k (by omega), foldE, findStep]
    congr 1; funext y
    cases y with
    | inl s' =>
      have hk' : ((k : Nat) : Int) + 1 = ((k + 1 : Nat) : Int) := by omega
      rw [hk']; exact ih (k + 1) (by omega)
    | inr r => rfl

theorem run_findDown {w : World m V} {l : List (Option V)} (hs : Still w l) (truthy : V → Bool)
    (n : Nat) : n ≤ l.length →
    run w (loop (-1) (findRound truthy) n ((n : Int) - 1) ()) =
      foldE (findStep w truthy) ((allOf l).take n).reverse () := by
  induction n with
  | zero => intro _; rfl
  | succ n ih =>
    intro hn
    have hk : ((n + 1 : Nat) : Int) - 1 = (n : Nat) := by omega
    have hk' : ((n : Nat) : Int) + -1 = (n : Int) - 1 := by omega
    have hd : (allOf l).take (n + 1) = (allOf l).take n ++ [(n, l[n].getD default)] := by
      rw [List.take_add_one, allOf_get l n (by omega)]; rfl
    rw [hd, List.reverse_append]
    simp only [loop, run_bind, hk, hk', run_findRound hs truthy n (by omega), foldE, findStep,
      List.reverse_singleton, List.singleton_append]
    congr 1; funext y
    cases y with
    | inl s' => exact ih (by omega)
    | inr r => rfl

end

/-! ## The new arrays -/

theorem newArray_arrayOf (n : Nat) (h : n < 2 ^ 32) :
    newArray n = .ok (arrayOf (List.replicate n (none : Option V))) := by
  unfold newArray arrayOf
  rw [if_neg (by omega)]
  congr 2
  · funext k
    split
    · by_cases hk : k.toNat < n
      · simp [hk]
      · simp [hk]
    · rfl
  · simp

theorem obj_ext {a b : Obj V} (h1 : ∀ k, a.elem k = b.elem k) (h2 : a.len = b.len)
    (h3 : a.lenWritable = b.lenWritable) (h4 : a.ext = b.ext) (h5 : a.array = b.array) : a = b := by
  cases a; cases b
  simp only at h1 h2 h3 h4 h5
  rw [show _ = _ from funext h1, h2, h3, h4, h5]

theorem create_set (l : List (Option V)) (k : Nat) (v : V) (hk : k < l.length) :
    create (arrayOf l) (k : Nat) v = .ok (arrayOf (l.set k (some v))) := by
  have hput : (arrayOf l).put (k : Nat) (some { val := v }) = arrayOf (l.set k (some v)) := by
    apply obj_ext
    · intro i
      simp only [Obj.put, arrayOf]
      by_cases hi : i = (k : Nat)
      · subst hi
        rw [if_pos rfl, if_pos (by omega), Int.toNat_natCast, List.getElem?_set_self hk]
        rfl
      · rw [if_neg hi]
        by_cases h0 : 0 ≤ i
        · rw [if_pos h0, if_pos h0, List.getElem?_set_ne (by omega)]
        · rw [if_neg h0, if_neg h0]
    · simp [Obj.put, arrayOf]
    · rfl
    · rfl
    · rfl
  unfold create add
  cases he : (arrayOf l).elem (k : Nat) with
  | some s =>
    have : s.configurable = true := by
      simp only [arrayOf] at he
      split at he
      · cases hj : (l[(k : Int).toNat]?).join with
        | none => rw [hj] at he; cases he
        | some x => rw [hj] at he; cases he; rfl
      · cases he
    simp only [this, if_true, hput]
  | none =>
    have h1 : ¬ ((arrayOf l).array && isIndex (k : Nat) && decide ((arrayOf l).len ≤ ((k : Nat) : Int))) = true := by
      simp [arrayOf]; omega
    simp only
    rw [if_neg (by simpa using h1), hput]
    rfl

theorem create_end (l : List (Option V)) (v : V) (hk : l.length < 2 ^ 32 - 1) :
    create (arrayOf l) (l.length : Nat) v = .ok (arrayOf (l ++ [some v])) := by
  unfold create add
  have he : (arrayOf l).elem (l.length : Nat) = none := by
    simp [arrayOf]
  rw [he]
  have h1 : ((arrayOf l).array && isIndex (l.length : Nat) && decide ((arrayOf l).len ≤ ((l.length : Nat) : Int))) = true := by
    simp [arrayOf, isIndex]; omega
  simp only
  rw [if_pos (by simpa using h1)]
  have hput : { (arrayOf l).put (l.length : Nat) (some { val := v }) with
      len := ((l.length : Nat) : Int).toNat + 1 } = arrayOf (l ++ [some v]) := by
    apply obj_ext
    · intro i
      simp only [Obj.put, arrayOf]
      by_cases hi : i = (l.length : Nat)
      · subst hi
        rw [if_pos rfl, if_pos (by omega), Int.toNat_natCast]
        simp
      · rw [if_neg hi]
        by_cases h0 : 0 ≤ i
        · rw [if_pos h0, if_pos h0]
          by_cases h2 : i.toNat < l.length
          · rw [List.getElem?_append_left h2]
          · rw [List.getElem?_eq_none (by omega), List.getElem?_eq_none (by simp; omega)]
        · rw [if_neg h0, if_neg h0]
    · simp [arrayOf]
    · rfl
    · rfl
    · rfl
  rw [← hput]
  rfl

/-! ## The methods -/

section
variable [Inhabited V] {w : World m V} {l : List (Option V)}

/-- What is left of the end of a loop. -/
def ending (f : σ → R) : σ ⊕ R → R
  | .inl s => f s
  | .inr r => r

theorem run_atEnd (w : World m V) (f : σ → R) (p : Prog V (σ ⊕ R)) :
    run w (atEnd f p) = ending f <$> run w p := by
  unfold atEnd
  rw [run_bind, map_eq_pure_bind]
  congr 1; funext x
  cases x <;> rfl

theorem run_lift_ok (w : World m V) (r : R) : run w (lift (.ok r) : Prog V R) = pure r := rfl

theorem up0 (hs : Still w l) (body : Int → V → σ → Prog V (σ ⊕ R)) (s : σ) :
    run w (loop 1 (ifThere body) l.length 0 s) =
      foldE (fun s e => run w (body (e.1 : Nat) e.2 s)) (entries 0 l) s :=
  run_up hs body l [] s rfl

theorem forEach_ok (hs : Still w l) :
    run w (forEach l.length) = (entries 0 l).forM fun e =>
      w.call none e.2 (e.1 : Nat) >>= fun _ => pure () := by
  unfold forEach
  rw [run_atEnd, up0 hs]
  generalize entries 0 l = es
  induction es with
  | nil => simp [foldE]
  | cons e t ih =>
    simp only [foldE, List.forM, ← ih]
    simp only [run_bind, callP, run, ending, pure_bind, bind_assoc, map_eq_pure_bind]

theorem every_ok (hs : Still w l) (truthy : V → Bool) :
    run w (every truthy l.length) =
      (entries 0 l).allM fun e => truthy <$> w.call none e.2 (e.1 : Nat) := by
  unfold every
  rw [run_atEnd, up0 hs]
  generalize entries 0 l = es
  induction es with
  | nil => simp [foldE, ending]
  | cons e t ih =>
    simp only [foldE, List.allM, ← ih]
    simp only [run_bind, callP, run, ending, pure_bind, bind_assoc, map_eq_pure_bind]
    congr 1; funext r
    cases truthy r <;> simp [ending]

theorem some_ok (hs : Still w l) (truthy : V → Bool) :
    run w (some' truthy l.length) =
      (entries 0 l).anyM fun e => truthy <$> w.call none e.2 (e.1 : Nat) := by
  unfold some'
  rw [run_atEnd, up0 hs]
  generalize entries 0 l = es
  induction es with
  | nil => simp [foldE, ending]
  | cons e t ih =>
    simp only [foldE, List.anyM, ← ih]
    simp only [run_bind, callP, run, ending, pure_bind, bind_assoc, map_eq_pure_bind]
    congr 1; funext r
    cases truthy r <;> simp [ending]

theorem findStep_ok (w : World m V) (truthy : V → Bool) (es : List (Nat × V)) :
    foldE (findStep w truthy) es () =
      (fun | none => .inl () | some e => .inr (e.2, (e.1 : Int))) <$>
        es.findM? fun e => truthy <$> w.call none e.2 (e.1 : Nat) := by
  induction es with
  | nil => simp [foldE]
  | cons e t ih =>
    simp only [foldE, List.findM?, findStep, bind_assoc, map_eq_pure_bind, pure_bind]
    congr 1; funext r
    cases truthy r
    · simp only [Bool.false_eq_true, if_false, ih, map_eq_pure_bind]
    · simp

theorem find_up (hs : Still w l) (truthy : V → Bool) :
    run w (findUp truthy l.length) =
      (Option.map fun e => (e.2, (e.1 : Int))) <$>
        (allOf l).findM? fun e => truthy <$> w.call none e.2 (e.1 : Nat) := by
  unfold findUp
  have h := run_findUp hs truthy l.length 0 (by omega)
  rw [show ((0 : Nat) : Int) = 0 from rfl, List.drop_zero, findStep_ok] at h
  rw [run_bind, h]
  simp only [map_eq_pure_bind, bind_assoc, pure_bind]
  congr 1; funext r
  cases r <;> rfl

theorem find_down (hs : Still w l) (truthy : V → Bool) :
    run w (findDown truthy l.length) =
      (Option.map fun e => (e.2, (e.1 : Int))) <$>
        (allOf l).reverse.findM? fun e => truthy <$> w.call none e.2 (e.1 : Nat) := by
  unfold findDown
  have h := run_findDown hs truthy l.length (Nat.le_refl _)
  rw [List.take_of_length_le (by rw [allOf_length]; omega), findStep_ok] at h
  rw [run_bind, h]
  simp only [map_eq_pure_bind, bind_assoc, pure_bind]
  congr 1; funext r
  cases r <;> rfl

/-! ### `reduce` -/

theorem run_reduceRound (w : World m V) (k : Int) (v acc : V) :
    run w (reduceRound k v acc) = Sum.inl <$> w.call (some acc) v k := by
  simp [reduceRound, run_bind, callP, run]

theorem foldE_reduce (w : World m V) (es : List (Nat × V)) : ∀ acc : V,
    ending id <$>
      foldE (R := V) (fun s e => run w (reduceRound (e.1 : Nat) e.2 s)) es acc =
      es.foldlM (fun acc e => w.call (some acc) e.2 (e.1 : Nat)) acc := by
  induction es with
  | nil => intro acc; simp [foldE, ending]
  | cons e t ih =>
    intro acc
    simp only [foldE, List.foldlM_cons, ← ih, run_reduceRound]
    simp only [map_eq_pure_bind, bind_assoc, pure_bind]

theorem first_up (hs : Still w l) (suf : List (Option V)) :
    ∀ (pre : List (Option V)), l = pre ++ suf →
    (entries pre.length suf = [] →
      run w (firstThere 1 suf.length (pre.length : Nat)) = pure none) ∧
    (∀ e t, entries pre.length suf = e :: t → ∃ pre' suf', l = pre' ++ suf' ∧
      entries pre'.length suf' = t ∧
      run w (firstThere 1 suf.length (pre.length : Nat)) =
        pure (some (e.2, suf'.length, (pre'.length : Int)))) := by
  induction suf with
  | nil =>
    intro pre _
    exact ⟨fun _ => rfl, fun e t h => by cases h⟩
  | cons x t ih =>
    intro pre hl
    have hi : pre.length < l.length := by rw [hl]; simp
    have hx : l[pre.length] = x := by simp [hl]
    have hk : ((pre.length : Nat) : Int) + 1 = ((pre.length + 1 : Nat) : Int) := by omega
    have ih' := ih (pre ++ [x]) (by simp [hl])
    simp only [List.length_append, List.length_cons, List.length_nil, Nat.zero_add] at ih'
    have hrun : run w (firstThere 1 (x :: t).length (pre.length : Nat)) =
        match x with
        | none => run w (firstThere 1 t.length ((pre.length + 1 : Nat) : Int))
        | some v => pure (some (v, t.length, ((pre.length + 1 : Nat) : Int))) := by
      simp only [List.length_cons, firstThere, run_bind, hasP, run, hs.has _ hi, pure_bind, hx, hk]
      cases x with
      | none => simp
      | some v => simp [run_bind, getP, run, hs.get _ hi, hx]
    rw [hrun]
    cases x with
    | none => exact ih'
    | some v =>
      refine ⟨fun h => by simp [entries] at h, fun e t' h => ?_⟩
      simp only [entries, List.cons.injEq] at h
      obtain ⟨rfl, rfl⟩ := h
      exact ⟨pre ++ [some v], t, by simp [hl], by simp, by simp⟩

theorem first_down (hs : Still w l) (n : Nat) : n ≤ l.length →
    ((entries 0 (l.take n)).reverse = [] →
      run w (firstThere (-1) n ((n : Int) - 1)) = pure none) ∧
    (∀ e t, (entries 0 (l.take n)).reverse = e :: t → ∃ n', n' ≤ l.length ∧
      (entries 0 (l.take n')).reverse = t ∧
      run w (firstThere (-1) n ((n : Int) - 1)) = pure (some (e.2, n', (n' : Int) - 1))) := by
  induction n with
  | zero =>
    intro _
    exact ⟨fun _ => rfl, fun e t h => by simp [entries] at h⟩
  | succ n ih =>
    intro hn
    have hk : ((n + 1 : Nat) : Int) - 1 = (n : Nat) := by omega
    have hk' : ((n : Nat) : Int) + -1 = (n : Int) - 1 := by omega
    have htake : l.take (n + 1) = l.take n ++ [l[n]] := by
      rw [List.take_add_one, List.getElem?_eq_getElem (by omega)]; rfl
    have hrun : run w (firstThere (-1) (n + 1) (n : Nat)) =
        match l[n] with
        | none => run w (firstThere (-1) n ((n : Int) - 1))
        | some v => pure (some (v, n, ((n : Int) - 1))) := by
      simp only [firstThere, run_bind, hasP, run, hs.has n (by omega), pure_bind, hk']
      cases hx : l[n] with
      | none => simp
      | some v => simp [run_bind, getP, run, hs.get n (by omega), hx]
    rw [htake, entries_append, List.reverse_append, hk, hrun]
    cases hx : l[n] with
    | none =>
      simp only [entries, List.reverse_nil, List.nil_append]
      exact ih (by omega)
    | some v =>
      refine ⟨fun h => by simp [entries] at h, fun e t' h => ?_⟩
      simp only [entries, List.reverse_singleton, List.singleton_append, List.cons.injEq,
        List.length_take, Nat.zero_add] at h
      obtain ⟨rfl, rfl⟩ := h
      exact ⟨n, by omega, rfl, rfl⟩

theorem reduce_init (hs : Still w l) (init : V) :
    run w (reduce l.length (some init)) =
      (entries 0 l).foldlM (fun acc e => w.call (some acc) e.2 (e.1 : Nat)) init := by
  unfold reduce reduceFrom
  rw [if_neg (by simp)]
  simp only
  rw [run_atEnd, up0 hs, ← foldE_reduce]

theorem reduce_first (hs : Still w l) :
    run w (reduce l.length none) =
      match entries 0 l with
      | [] => w.fail .type
      | e :: t => t.foldlM (fun acc e => w.call (some acc) e.2 (e.1 : Nat)) e.2 := by
  unfold reduce reduceFrom
  by_cases hn : l.length = 0
  · rw [if_pos ⟨hn, rfl⟩]
    rw [List.length_eq_zero_iff.1 hn]
    rfl
  · rw [if_neg (by simp [hn])]
    simp only
    rw [run_bind]
    obtain ⟨h1, h2⟩ := first_up hs l [] rfl
    simp only [List.length_nil] at h1 h2
    cases he : entries 0 l with
    | nil =>
      have := h1 he
      rw [show ((0 : Nat) : Int) = 0 from rfl] at this
      rw [this, pure_bind]
      rfl
    | cons e t =>
      obtain ⟨pre', suf', hl, ht, hr⟩ := h2 e t he
      rw [show ((0 : Nat) : Int) = 0 from rfl] at hr
      rw [hr, pure_bind]
      simp only
      rw [run_atEnd, run_up hs _ suf' pre' _ hl, ht, ← foldE_reduce]

theorem reduceRight_init (hs : Still w l) (init : V) :
    run w (reduceRight l.length (some init)) =
      (entries 0 l).reverse.foldlM (fun acc e => w.call (some acc) e.2 (e.1 : Nat)) init := by
  unfold reduceRight reduceFrom
  rw [if_neg (by simp)]
  simp only
  rw [run_atEnd, run_down hs _ l.length _ (Nat.le_refl _), ← foldE_reduce,
    List.take_of_length_le (Nat.le_refl _)]

theorem reduceRight_first (hs : Still w l) :
    run w (reduceRight l.length none) =
      match (entries 0 l).reverse with
      | [] => w.fail .type
      | e :: t => t.foldlM (fun acc e => w.call (some acc) e.2 (e.1 : Nat)) e.2 := by
  unfold reduceRight reduceFrom
  by_cases hn : l.length = 0
  · rw [if_pos ⟨hn, rfl⟩]
    rw [List.length_eq_zero_iff.1 hn]
    rfl
  · rw [if_neg (by simp [hn])]
    simp only
    rw [run_bind]
    obtain ⟨h1, h2⟩ := first_down hs l.length (Nat.le_refl _)
    rw [List.take_of_length_le (Nat.le_refl _)] at h1 h2
    cases he : (entries 0 l).reverse with
    | nil =>
      rw [h1 he, pure_bind]
      rfl
    | cons e t =>
      obtain ⟨n', hl, ht, hr⟩ := h2 e t he
      rw [hr, pure_bind]
      simp only
      rw [run_atEnd, run_down hs _ n' _ hl, ht, ← foldE_reduce]

/-! ### `map`, `filter`, `flatMap` -/

def mapStep (w : World m V) (a : Obj V) (e : Nat × V) : m (Obj V ⊕ Obj V) :=
  run w ((callP none e.2 ((e.1 : Nat) : Int)).bind fun r =>
    (lift (create a ((e.1 : Nat) : Int) r)).bind fun a' => .done (.inl a'))

theorem mapStep_eq (w : World m V) (pre t : List (Option V)) (x : Option V) (v : V) :
    mapStep w (arrayOf (pre ++ x :: t)) (pre.length, v) =
      w.call none v (pre.length : Nat) >>= fun r => pure (.inl (arrayOf (pre ++ some r :: t))) := by
  unfold mapStep
  simp only [run_bind, callP, run, bind_assoc, pure_bind]
  congr 1; funext r
  rw [create_set _ _ _ (by simp)]
  have hset : (pre ++ x :: t).set pre.length (some r) = pre ++ some r :: t := by simp
  rw [hset, run_lift_ok, pure_bind]

/-- What becomes of an element. -/
def mapCall (w : World m V) (p : Option V × Nat) : m (Option V) :=
  match p.1 with
  | none => pure none
  | some v => some <$> w.call none v (p.2 : Nat)

theorem map_loop (w : World m V) (suf : List (Option V)) : ∀ (pre : List (Option V)),
    foldE (mapStep w) (entries pre.length suf) (arrayOf (pre ++ List.replicate suf.length none)) =
    (fun rs => .inl (arrayOf (pre ++ rs))) <$> (suf.zipIdx pre.length).mapM (mapCall w) := by
  induction suf with
  | nil => intro pre; simp [foldE, entries]
  | cons x t ih =>
    intro pre
    have ih' := fun y => ih (pre ++ [y])
    simp only [List.length_append, List.length_cons, List.length_nil, Nat.zero_add,
      List.append_assoc, List.singleton_append, map_eq_pure_bind] at ih'
    simp only [List.zipIdx_cons, List.mapM_cons, List.length_cons, List.replicate_succ]
    cases x with
    | none =>
      simp only [entries, ih', map_eq_pure_bind, bind_assoc, pure_bind, mapCall]
    | some v =>
      simp only [entries, foldE, mapStep_eq, bind_assoc, pure_bind, map_eq_pure_bind, mapCall, ih']

theorem map_ok (hs : Still w l) (hn : l.length < 2 ^ 32) :
    run w (map l.length) = arrayOf <$> l.zipIdx.mapM (mapCall w) := by
  unfold map
  rw [newArray_arrayOf _ hn, run_bind, run_lift_ok, pure_bind, run_atEnd, up0 hs]
  have := map_loop w l []
  simp only [List.length_nil, List.nil_append] at this
  refine Eq.trans (congrArg _ this) ?_
  simp only [map_eq_pure_bind, bind_assoc, pure_bind, id, ending]

def filterStep (w : World m V) (truthy : V → Bool) (s : Nat × Obj V) (e : Nat × V) :
    m ((Nat × Obj V) ⊕ Obj V) :=
  run w ((callP none e.2 ((e.1 : Nat) : Int)).bind fun r =>
    if truthy r then (lift (create s.2 s.1 e.2)).bind fun a' => .done (.inl (s.1 + 1, a'))
    else .done (.inl s))

/-- What has been found so far, last first. -/
def found (acc : List (Nat × V)) : Nat × Obj V :=
  (acc.length, arrayOf (acc.reverse.map fun e => some e.2))

theorem filterStep_eq (w : World m V) (truthy : V → Bool) (acc : List (Nat × V)) (e : Nat × V)
    (hn : acc.length < 2 ^ 32 - 1) :
    filterStep w truthy (found acc) e = w.call none e.2 (e.1 : Nat) >>= fun r =>
      pure (.inl (found (if truthy r then e :: acc else acc))) := by
  unfold filterStep found
  simp only [run_bind, callP, run, pure_bind, bind_assoc]
  congr 1; funext r
  have hc := create_end (acc.reverse.map fun e => some e.2) e.2
    (by simp only [List.length_map, List.length_reverse]; omega)
  simp only [List.length_map, List.length_reverse] at hc
  cases ht : truthy r with
  | false => simp [run]
  | true =>
    rw [if_pos rfl, if_pos rfl, run_bind, hc, run_lift_ok, pure_bind]
    simp [run]

def sel (w : World m V) (truthy : V → Bool) (e : Nat × V) : m Bool :=
  truthy <$> w.call none e.2 (e.1 : Nat)

theorem filter_loop (w : World m V) (truthy : V → Bool) (es : List (Nat × V)) :
    ∀ (acc : List (Nat × V)), acc.length + es.length < 2 ^ 32 →
    foldE (filterStep w truthy) es (found acc) =
    (fun rs => .inl (found rs)) <$> es.filterAuxM (sel w truthy) acc := by
  induction es with
  | nil => intro acc _; simp [foldE, List.filterAuxM]
  | cons e t ih =>
    intro acc hn
    simp only [List.length_cons] at hn
    simp only [foldE, List.filterAuxM, filterStep_eq w truthy acc e (by omega), pure_bind,
      bind_assoc, map_eq_pure_bind, sel]
    congr 1; funext r
    have hl : (if truthy r then e :: acc else acc).length + t.length < 2 ^ 32 := by
      cases truthy r
      · rw [if_neg (by simp)]; omega
      · rw [if_pos rfl, List.length_cons]; omega
    rw [ih _ hl, map_eq_pure_bind]
    cases truthy r <;> rfl

omit [Inhabited V] [Monad m] [LawfulMonad m] in
theorem entries_length (l : List (Option V)) : ∀ k, (entries k l).length ≤ l.length := by
  induction l with
  | nil => intro k; exact Nat.le_refl _
  | cons x t ih =>
    intro k
    have := ih (k + 1)
    cases x with
    | none => simp only [entries, List.length_cons]; omega
    | some v => simp only [entries, List.length_cons]; omega

theorem filter_ok (hs : Still w l) (truthy : V → Bool) (hn : l.length < 2 ^ 32) :
    run w (filter truthy l.length) = (fun es => arrayOf (es.map fun e => some e.2)) <$>
      (entries 0 l).filterM (sel w truthy) := by
  unfold filter
  rw [newArray_arrayOf _ (by omega), run_bind, run_lift_ok, pure_bind, run_atEnd, up0 hs]
  have := filter_loop w truthy (entries 0 l) [] (by
    have := entries_length l 0
    simp only [List.length_nil]; omega)
  refine Eq.trans (congrArg _ this) ?_
  simp only [List.filterM, map_eq_pure_bind, bind_assoc, pure_bind, ending, found]

/-! `flatMap` -/

/-- What is in the new array. -/
def into (out : List V) : Nat × Obj V := (out.length, arrayOf (out.map some))

theorem append_ok (w : World m V) (v : V) (out : List V) (hn : out.length < 2 ^ 32 - 1) :
    run w (append v (into out)) = pure (into (out ++ [v])) := by
  have hc := create_end (out.map some) v (by simpa using hn)
  simp only [List.length_map] at hc
  unfold append into
  rw [if_neg (by unfold maxInt; simp only; omega), run_bind]
  simp only [hc, run_lift_ok, run, pure_bind]
  simp

/-- A round of `flattenOne`. -/
def oneRound (r : V) (k : Int) (s : Nat × Obj V) : Prog V ((Nat × Obj V) ⊕ Empty) :=
  Prog.has (some r) k fun
    | true => .get (some r) k fun v => (append v s).bind fun s' => .done (.inl s')
    | false => .done (.inl s)

theorem flattenOne_ok {arr : V → Option (List (Option V))} (hk : Known w arr) (r : V)
    (l' : List (Option V)) (hr : arr r = some l') (suf : List (Option V)) :
    ∀ (pre : List (Option V)) (out : List V), l' = pre ++ suf → out.length + suf.length < 2 ^ 32 →
    run w (loop 1 (oneRound r) suf.length (pre.length : Nat) (into out)) =
    pure (.inl (into (out ++ suf.filterMap id))) := by
  induction suf with
  | nil => intro pre out _ _; simp [loop, run]
  | cons x t ih =>
    intro pre out hl hn
    simp only [List.length_cons] at hn
    have hi : pre.length < l'.length := by rw [hl]; simp
    have hx : l'[pre.length] = x := by simp [hl]
    have hk' : ((pre.length : Nat) : Int) + 1 = ((pre ++ [x]).length : Nat) := by simp
    have hround : run w (oneRound r (pre.length : Nat) (into out)) =
        pure (.inl (into (out ++ x.toList))) := by
      unfold oneRound
      simp only [run, hk.has r l' hr _ hi, hx, pure_bind]
      cases x with
      | none => simp [run]
      | some v =>
        simp only [Option.isSome_some, run, hk.get r l' hr _ hi, hx, Option.getD_some, pure_bind,
          run_bind, append_ok w v out (by omega), Option.toList]
    simp only [List.length_cons, loop, run_bind, hround, pure_bind, hk']
    rw [ih (pre ++ [x]) (out ++ x.toList) (by simp [hl]) (by
      cases x <;> simp only [Option.toList, List.length_append, List.length_cons, List.length_nil] <;> omega)]
    cases x <;> simp

/-- What a returned value contributes. -/
def part (arr : V → Option (List (Option V))) (r : V) : List V :=
  match arr r with
  | none => [r]
  | some l' => l'.filterMap id

def flatStep (w : World m V) (s : Nat × Obj V) (e : Nat × V) : m ((Nat × Obj V) ⊕ Obj V) :=
  run w ((callP none e.2 ((e.1 : Nat) : Int)).bind fun r =>
    .len r fun
      | none => (append r s).bind fun s' => .done (.inl s')
      | some m => (flattenOne r m s).bind fun
        | .inl s' => .done (.inl s')
        | .inr e => nomatch e)

theorem flatStep_eq {arr : V → Option (List (Option V))} (hk : Known w arr) (B : Nat)
    (hB : 1 ≤ B) (hb : ∀ r l', arr r = some l' → l'.length ≤ B) (out : List V) (e : Nat × V)
    (hn : out.length + B < 2 ^ 32) :
    flatStep w (into out) e = w.call none e.2 (e.1 : Nat) >>= fun r =>
      pure (.inl (into (out ++ part arr r))) := by
  unfold flatStep
  simp only [run_bind, callP, run, pure_bind, bind_assoc, hk.len]
  congr 1; funext r
  unfold part
  cases ha : arr r with
  | none =>
    simp only [Option.map_none, run_bind, append_ok w r out (by omega), pure_bind, run]
  | some l' =>
    have hf : run w (flattenOne r l'.length (into out)) =
        pure (.inl (into (out ++ l'.filterMap id))) :=
      flattenOne_ok hk r l' ha l' [] out rfl (by have := hb r l' ha; omega)
    simp only [Option.map_some, run_bind, hf, pure_bind, run]

def flatCall (w : World m V) (arr : V → Option (List (Option V))) (e : Nat × V) : m (List V) :=
  part arr <$> w.call none e.2 (e.1 : Nat)

theorem flatMap_loop {arr : V → Option (List (Option V))} (hk : Known w arr) (B : Nat)
    (hB : 1 ≤ B) (hb : ∀ r l', arr r = some l' → l'.length ≤ B) (es : List (Nat × V)) :
    ∀ (out : List V), out.length + es.length * B < 2 ^ 32 →
    foldE (flatStep w) es (into out) =
    (fun rs => .inl (into (out ++ rs.flatten))) <$> es.mapM (flatCall w arr) := by
  induction es with
  | nil => intro out _; simp [foldE]
  | cons e t ih =>
    intro out hn
    simp only [List.length_cons, Nat.add_mul, Nat.one_mul] at hn
    simp only [foldE, List.mapM_cons, flatStep_eq hk B hB hb out e (by omega), pure_bind,
      bind_assoc, map_eq_pure_bind, flatCall]
    congr 1; funext r
    have hpl : (part arr r).length ≤ B := by
      unfold part
      cases ha : arr r with
      | none => simpa using hB
      | some l' =>
        exact Nat.le_trans (List.length_filterMap_le _ _) (hb r l' ha)
    rw [ih (out ++ part arr r) (by simp only [List.length_append]; omega), map_eq_pure_bind]
    simp

theorem flatMap_ok (hs : Still w l) {arr : V → Option (List (Option V))} (hk : Known w arr) (B : Nat)
    (hB : 1 ≤ B) (hb : ∀ r l', arr r = some l' → l'.length ≤ B) (hn : l.length * B < 2 ^ 32) :
    run w (flatMap l.length) = (fun rs => arrayOf (rs.flatten.map some)) <$>
      (entries 0 l).mapM (flatCall w arr) := by
  unfold flatMap
  rw [newArray_arrayOf _ (by omega), run_bind, run_lift_ok, pure_bind, run_atEnd, up0 hs]
  have := flatMap_loop hk B hB hb (entries 0 l) [] (by
    have := Nat.mul_le_mul_right B (entries_length l 0)
    simp only [List.length_nil]; omega)
  refine Eq.trans (congrArg _ this) ?_
  simp only [map_eq_pure_bind, bind_assoc, pure_bind, ending, into, List.nil_append]

end

end Verif.ArrayCalls

import Verif.Lemmas.RegMethods

/-!
# C96: the methods of `RegExp.prototype` on arbitrary objects
-/

namespace Verif.RegMethods

open Spec

variable {σ V E : Type}

/-- Values for the examples. -/
inductive Val where
  | undef | null
  | num (n : Nat)
  | str (s : Str)
  | obj (k : Nat)
  deriving DecidableEq

/-- A search for the unit 97 from `s` on, `i`: where we are. -/
def findA : Str → Nat → Nat → Option Nat
  | [], _, _ => none
  | c :: l, i, from_ => if from_ ≤ i ∧ c = 97 then some i else findA l (i + 1) from_

/-- A world for the examples; the state is `lastIndex`.  Object 0 is `/a/g`, 1 is `/(?:)/g`, 2 is a regular
expression that matches `b` at 0 with an undefined capture, 3 is `/(?:)/gu` (with its `exec`, 6), 4 one whose
search throws, 5 an object without properties; 7, 8 and 9 are functions: 7 answers `x`, 8 tells whether its second
argument is undefined, 9 sets `lastIndex` to 0 and answers `x`.  100 + i and 200 + i are the matches of the first
two at i, 300 the one of the third. -/
def demo : World Nat Val String where
  isObj v := match v with | .obj _ => true | _ => false
  isNull v := v == .null
  isUndef v := v == .undef
  callable v := v == .obj 6 || v == .obj 7 || v == .obj 8 || v == .obj 9
  isRegExp v := v == .obj 0 || v == .obj 1 || v == .obj 2 || v == .obj 3 || v == .obj 4
  same a b := a == b
  asStr v := match v with | .str s => some s | _ => none
  ofStr := .str
  ofNum := .num
  undef := .undef
  typeErr := "TypeError"
  toStr v s := .ok s (match v with | .str x => x | .num n => [48 + n] | .undef => [117] | .null => [110] | .obj _ => [111])
  toLen v s := .ok s (match v with | .num n => n | _ => 0)
  toInt v s := .ok s (match v with | .num n => Int.ofNat n | _ => 0)
  toU32 v s := .ok s (match v with | .num n => n | _ => 0)
  get o f s := .ok s (match f with
    | .exec => if o = .obj 3 then .obj 6 else .undef
    | .flags => if o = .obj 0 ∨ o = .obj 1 then .str [103] else if o = .obj 3 then .str [103, 117]
      else if o = .obj 5 then .undef else .str []
    | .lastIndex => .num s
    | .source => if o = .obj 5 then .undef else .str [97]
    | .groups => .undef
    | .length => if o = .obj 300 then .num 2 else .num 1
    | .index => match o with | .obj k => .num (k % 100) | _ => .undef
    | .item i => if o = .obj 300 then (if i = 0 then .str [98] else .undef)
      else match o with | .obj k => if k < 200 then .str [97] else .str [] | _ => .undef)
  setLast _ v _ := .ok (match v with | .num n => n | _ => 0) ()
  call f _ args s :=
    if f = .obj 6 then .ok s (.obj (200 + s))
    else if f = .obj 8 then .ok s (.str (if args[1]? = some .undef then [117] else [115]))
    else if f = .obj 9 then .ok 0 (.str [120])
    else .ok s (.str [120])
  species _ s := .ok s (.obj 50)
  construct _ args s := .ok s (args.headD .undef)
  builtin r x s :=
    if r = .obj 0 then (match findA x 0 s with | some i => .ok (i + 1) (.obj (100 + i)) | none => .ok 0 .null)
    else if r = .obj 1 then (if s ≤ x.length then .ok s (.obj (200 + s)) else .ok 0 .null)
    else if r = .obj 4 then .thr s "search"
    else .ok s (.obj 300)
  subst _ _ _ t s := .ok s t

theorem demo_lawful : Lawful demo where
  str _ := rfl
  conv v s t h := by
    cases v <;> simp [demo] at h ⊢
    exact h
  only v s h := by
    cases v <;> simp [demo] at h ⊢
    exact h

/-- C96: `@@match` does the steps of the standard, whatever the objects do. -/
theorem C96_match (W : World σ V E) (h : Lawful W) (n : Nat) (r str : V) (s : σ) :
    matchFn W n r str s = match_ W n r str s := by
  have : matchFn W n r str = match_ W n r str := by
    unfold matchFn match_
    cases W.isObj r with
    | false => rfl
    | true =>
      simp only [Bool.not_true, Bool.false_eq_true, if_false, if_true, getStr, andThen_assoc, exec_eq h,
        contains_eq, matchLoop_eq h]
      refine then_congr _ _ _ fun s => then_congr _ _ _ fun fv => then_congr _ _ _ fun flags => ?_
      by_cases hg : 103 ∈ flags
      · simp [hg, done_then]
      · simp [hg]
  rw [this]

example : matchFn demo 9 (.obj 0) (.str [97, 98, 97]) 5 = .ok 0 (.all (some [[97], [97]])) := by decide
example : matchFn demo 9 (.obj 1) (.str [98]) 5 = .ok 0 (.all (some [[], []])) := by decide
example : matchFn demo 9 (.obj 0) (.str [98]) 5 = .ok 0 (.all none) := by decide

/-- C96: `@@search` and `test` do the steps of the standard, whatever the objects do. -/
theorem C96_search (W : World σ V E) (h : Lawful W) (minusOne r str : V) (s : σ) :
    searchFn W minusOne r str s = search W minusOne r str s ∧ testFn W r str s = test W r str s := by
  have h1 : searchFn W minusOne r str = search W minusOne r str := by
    unfold searchFn search
    cases W.isObj r with
    | false => rfl
    | true =>
      simp only [Bool.not_true, Bool.false_eq_true, if_false, if_true, exec_eq h]
      refine then_congr _ _ _ fun s => then_congr _ _ _ fun p => ?_
      have hi : ∀ (b : Bool) (x y : Act σ E Unit), (if (!b) = true then x else y) = if b = true then y else x := by
        intro b x y; cases b <;> rfl
      simp only [hi]
  have h2 : testFn W r str = test W r str := by
    unfold testFn test
    cases W.isObj r with
    | false => rfl
    | true => simp only [Bool.not_true, Bool.false_eq_true, if_false, if_true, exec_eq h]
  rw [h1, h2]
  exact ⟨rfl, rfl⟩

example : searchFn demo .null (.obj 0) (.str [98, 97]) 5 = .ok 5 (.num 1) ∧
    testFn demo (.obj 0) (.str [98]) 0 = .ok 0 false := by decide

/-- C96: `@@split` does the steps of the standard, whatever the objects do. -/
theorem C96_split (W : World σ V E) (h : Lawful W) (n : Nat) (r str limit : V) (s : σ) :
    splitFn W n r str limit s = split W n r str limit s := by
  have : splitFn W n r str limit = split W n r str limit := by
    unfold splitFn split
    cases W.isObj r with
    | false => rfl
    | true =>
      simp only [Bool.not_true, Bool.false_eq_true, if_false, if_true, getStr, andThen_assoc, exec_eq h,
        contains_eq, len_zero, decide_eq_true_eq]
      refine then_congr _ _ _ fun s => then_congr _ _ _ fun c => then_congr _ _ _ fun fv =>
        then_congr _ _ _ fun flags => then_congr _ _ _ fun sp => then_congr _ _ _ fun lim => ?_
      by_cases hl : lim = 0
      · simp only [hl, if_true]
      simp only [hl, if_false]
      by_cases hs : s = []
      · simp only [hs, if_true]
        refine then_congr _ _ _ fun z => ?_
        cases W.isNull z <;> rfl
      simp only [hs, if_false]
      rw [splitLoop_eq h sp s _ lim n 0 0 [] lim (by simp) (by omega)]
      simp only [List.nil_append, then_done]
  rw [this]

example : splitFn demo 9 (.obj 0) (.str [97, 99]) .undef 0 = .ok 0 [.str [], .str [99]] := by decide
example : splitFn demo 9 (.obj 2) (.str [98]) (.num 7) 1 = .ok 0 [.str [98]] := by decide

/-- C96: `@@replace` does what the standard says if its searches end with matches that can be read (and replaced)
without effects, have no undefined captures, lie in the string and follow one another.  Missing: the other
matches; see `C96_capture_violated` and `C96_endless_violated`. -/
theorem C96_replace_partial (W : World σ V E) (h : Lawful W) (n : Nat) (r str repv : V) (t t1 t2 : σ)
    (s : Str) (rep : V ⊕ Str) (g u : Bool) (ms : List V) (d : V → Data V)
    (h1 : replaceBegin W r str repv t = .ok t1 (s, rep, g, u))
    (h2 : results W (n + 1) r s g u t1 = .ok t2 ms)
    (h3 : ∀ m ∈ ms, Calm W s rep m (d m)) (h4 : Ordered d 0 ms) :
    replaceFn W (n + 1) r str repv t = replace W (n + 1) r str repv t := by
  have hb : replaceStart W r str repv = replaceBegin W r str repv := by
    unfold replaceStart replaceBegin
    cases W.isObj r with
    | false => rfl
    | true =>
      simp only [Bool.not_true, Bool.false_eq_true, if_false, if_true, getStr, andThen_assoc, contains_eq,
        decide_eq_true_eq]
  have hg : g = false → u = false := by
    intro hg
    unfold replaceBegin at h1
    cases ho : W.isObj r with
    | false => simp [ho, throw] at h1
    | true =>
      simp only [ho, if_true, andThen] at h1
      repeat' split at h1
      all_goals simp_all [done, andThen]
      all_goals (split at h1 <;> simp_all)
  unfold replaceFn replace
  rw [hb, run_ok h1, run_ok h1, run_ok h2, run_ok (replacements_calm d ms t2 h3)]
  cases g with
  | false =>
    obtain rfl := hg rfl
    exact replaceLoop_single h r s rep d n t1 t2 ms h2 h3
  | true =>
    unfold results at h2
    simp only [if_true] at h2
    cases hf : findAll W r s u (n + 1) t1 with
    | thr s e => simp [andThen, hf] at h2
    | ub => simp [andThen, hf] at h2
    | more => simp [andThen, hf] at h2
    | ok t3 l =>
      rw [run_ok hf] at h2
      simp only [done, Out.ok.injEq] at h2
      obtain ⟨rfl, rfl⟩ := h2
      simp only [replaceLoop_global h r s rep u d (n + 1) 0 [] t1 t3 l hf h3 h4, List.nil_append, List.map_map]
      rfl

/-- The matches of `/a/g`, replaced by function 7. -/
def demoData (v : Val) : Data Val :=
  { len := 1, val := fun _ => .str [97], txt := fun _ => [97],
    iv := match v with | .obj k => .num (k % 100) | _ => .undef,
    pos := match v with | .obj k => k % 100 | _ => 0, groups := .undef, out := [120] }

example : replaceBegin demo (.obj 0) (.str [97, 98, 97]) (.obj 7) 4 = .ok 0 ([97, 98, 97], .inl (.obj 7), true, false) ∧
    results demo 9 (.obj 0) [97, 98, 97] true false 0 = .ok 0 [.obj 100, .obj 102] ∧
    (∀ m ∈ [Val.obj 100, Val.obj 102], Calm demo [97, 98, 97] (.inl (.obj 7)) m (demoData m)) ∧
    Ordered demoData 0 [.obj 100, .obj 102] ∧
    replaceFn demo 9 (.obj 0) (.str [97, 98, 97]) (.obj 7) 4 = .ok 0 [120, 98, 120] := by
  refine ⟨by decide, by decide, fun m hm => ?_, ⟨by decide, by decide, trivial⟩, by decide⟩
  simp only [List.mem_cons, List.not_mem_nil, or_false] at hm
  rcases hm with rfl | rfl <;>
    exact ⟨fun _ => rfl, fun _ _ => rfl, fun _ _ => rfl, fun _ _ => rfl, fun _ => rfl, fun _ => rfl, fun _ => rfl,
      by decide, fun _ => rfl, fun _ => rfl⟩

/-- C96 violated: a replacement function gets the string `undefined` for a group that did not take part. -/
theorem C96_capture_violated :
    ∃ r f str, replace demo 9 r str f 0 = .ok 0 [117] ∧ replaceFn demo 9 r str f 0 = .ok 0 [115] :=
  ⟨.obj 2, .obj 8, .str [98], by decide, by decide⟩

/-- C96 violated: a replacement function is called between the searches; if it sets `lastIndex` to 0 the search
with `/(?:)/g` never ends (and the text grows in each round).  In the standard there are two replacements. -/
theorem C96_endless_violated :
    ∃ r f str, replace demo 9 r str f 0 = .ok 0 [120, 98, 120] ∧ ∀ n, replaceFn demo n r str f 0 = .more := by
  refine ⟨.obj 1, .obj 9, .str [98], by decide, fun n => ?_⟩
  have loop : ∀ n buf, replaceLoop demo (.obj 1) [98] (.inl (.obj 9)) true false n 1 buf 1 = .more := by
    intro n
    induction n with
    | zero => intro buf; rfl
    | succ n ih => intro buf; exact ih _
  cases n with
  | zero => rfl
  | succ n =>
    cases n with
    | zero => rfl
    | succ n => exact loop n _

/-- C96: `toString` does what the standard says if source and flags are strings.  Missing: other values; see
`C96_toString_violated`. -/
theorem C96_toString_partial (W : World σ V E) (h : Lawful W) (r : V) (s s1 s2 : σ) (p f : V) (ps fs : Str)
    (h1 : W.get r .source s = .ok s1 p) (h2 : W.get r .flags s1 = .ok s2 f) (h3 : W.asStr p = some ps)
    (h4 : W.asStr f = some fs) : toStringFn W r s = toString_ W r s := by
  unfold toStringFn toString_
  cases W.isObj r with
  | false => rfl
  | true =>
    simp only [Bool.not_true, Bool.false_eq_true, if_false, if_true, getStr, andThen_assoc]
    rw [run_ok h1, run_ok h1, run_ok h2, run_ok (h.conv p ps s1 h3), run_ok h2, run_ok (h.conv f fs s2 h4)]
    simp [readStr, h3, h4, done_then, done]

example : toStringFn demo (.obj 0) 0 = .ok 0 [47, 97, 47, 103] := by decide

/-- C96 violated: `RegExp.prototype.toString.call({})` reads undefined as a string. -/
theorem C96_toString_violated :
    ∃ r, toString_ demo r 0 = .ok 0 [47, 117, 47, 117] ∧ toStringFn demo r 0 = .ub :=
  ⟨.obj 5, by decide, by decide⟩

/-- C96: `@@matchAll` makes the iterator of the standard if its argument is a string.  Missing: other arguments;
see `C96_matchAll_violated`. -/
theorem C96_matchAll_partial (W : World σ V E) (h : Lawful W) (r : V) (str : Str) (s : σ) :
    matchAllFn W r (W.ofStr str) s = matchAll W r (W.ofStr str) s := by
  unfold matchAllFn matchAll
  cases W.isObj r with
  | false => rfl
  | true =>
    simp only [Bool.not_true, Bool.false_eq_true, if_false, if_true]
    rw [run_ok (h.conv _ str s (h.str str)), run_ok (h.conv _ str s (h.str str))]
    simp only [getStr, getLen, andThen_assoc, contains_eq]

/-- C96: the iterator of `matchAll` gives what the standard's gives, with the same effects, and is finished when
the standard's is, unless it throws.  Missing: after an exception; see `C96_next_violated`. -/
theorem C96_next_partial (W : World σ V E) (h : Lawful W) (it : Iter V) (str : Str) (hs : it.str = W.ofStr str)
    (s : σ) : (nextFn W it s).1 = (next W it str s).1 ∧
      ((∃ s' v, (next W it str s).1 = .ok s' v) → (nextFn W it s).2 = (next W it str s).2) := by
  unfold nextFn next
  cases hf : it.fin with
  | true => exact ⟨rfl, fun _ => rfl⟩
  | false =>
    simp only [Bool.false_eq_true, if_false, hs, exec_eq h, nextMatch]
    cases hx : regExpExec W it.re str s with
    | thr s e => simp [andThen, hx]
    | ub => simp [andThen, hx]
    | more => simp [andThen, hx]
    | ok s m =>
      rw [run_ok hx]
      by_cases hn : W.isNull m = true
      · simp [hn, done]
      · cases hg : it.global with
        | false => simp [hn, done]
        | true =>
          simp only [hn, Bool.not_true, Bool.false_eq_true, if_false, if_true]
          rw [stepOver_eq h it str hs]
          have : (andThen (getStr W m (.item 0)) fun x =>
              andThen (if x = [] then skip W it.re str it.unicode else done ()) fun _ => done (some m)) =
              andThen (andThen (getStr W m (.item 0)) fun x =>
                if x = [] then skip W it.re str it.unicode else done ()) fun _ => done (some m) := by
            rw [andThen_assoc]
          rw [this]
          generalize (andThen (getStr W m (.item 0)) fun x =>
            if x = [] then skip W it.re str it.unicode else done ()) = y
          simp only [andThen]
          cases y s with
          | thr s e => simp
          | ub => simp
          | more => simp
          | ok s a =>
            refine ⟨rfl, fun _ => ?_⟩
            change it = { re := it.re, str := W.ofStr str, global := true, unicode := it.unicode, fin := false }
            cases it
            simp_all

example : (nextFn demo ⟨.obj 3, .str [98], true, true, false⟩ 0).1 = .ok 1 (some (.obj 200)) := by decide

/-- C96 violated: `/(?:)/gu[Symbol.matchAll](1)` hands the number to the iterator, which reads it as a string. -/
theorem C96_matchAll_violated :
    ∃ r arg it it', matchAll demo r arg 0 = .ok 0 it ∧ (next demo it [49] 0).1 = .ok 1 (some (.obj 200)) ∧
      matchAllFn demo r arg 0 = .ok 0 it' ∧ (nextFn demo it' 0).1 = .ub :=
  ⟨.obj 3, .num 1, ⟨.obj 3, .str [49], true, true, false⟩, ⟨.obj 3, .num 1, true, true, false⟩, by decide, by decide,
    by decide, by decide⟩

/-- C96 violated: after an exception of the search the iterator is not finished; it searches again. -/
theorem C96_next_violated :
    ∃ it : Iter Val, it.str = demo.ofStr [98] ∧
      (next demo (next demo it [98] 0).2 [98] 0).1 = .ok 0 none ∧
      (nextFn demo (nextFn demo it 0).2 0).1 = .thr 0 "search" :=
  ⟨⟨.obj 4, .str [98], true, false, false⟩, by decide, by decide, by decide⟩

end Verif.RegMethods

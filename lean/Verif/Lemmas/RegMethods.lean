import Verif.Spec.RegMethods

/-! Helper lemmas for C96. -/

namespace Verif.RegMethods

open Spec

variable {σ V E : Type}

theorem andThen_assoc {α β γ : Type} (x : Act σ E α) (f : α → Act σ E β) (g : β → Act σ E γ) :
    andThen (andThen x f) g = andThen x fun a => andThen (f a) g := by
  funext s
  simp only [andThen]
  cases x s <;> rfl

theorem done_then {α β : Type} (a : α) (f : α → Act σ E β) : andThen (done a) f = f a := rfl

theorem throw_then {α β : Type} (e : E) (f : α → Act σ E β) :
    andThen (throw e : Act σ E α) f = throw e := rfl

theorem then_done {α : Type} (x : Act σ E α) : andThen x (fun a => done a) = x := by
  funext s
  simp only [andThen]
  cases x s <;> rfl

theorem then_congr {α β : Type} (x : Act σ E α) (f g : α → Act σ E β) (h : ∀ a, f a = g a) :
    andThen x f = andThen x g := by
  have : f = g := funext h
  rw [this]

theorem ite_then {α β : Type} (c : Prop) [Decidable c] (x y : Act σ E α) (f : α → Act σ E β) :
    andThen (if c then x else y) f = if c then andThen x f else andThen y f := by
  by_cases h : c <;> simp only [h, if_true, if_false]

theorem run_ok {α β : Type} {x : Act σ E α} {s s' : σ} {a : α} (h : x s = .ok s' a) (f : α → Act σ E β) :
    andThen x f s = f a s' := by
  simp only [andThen, h]

/-- Strings are strings. -/
structure Lawful (W : World σ V E) : Prop where
  str : ∀ s, W.asStr (W.ofStr s) = some s
  conv : ∀ v s t, W.asStr v = some s → W.toStr v t = .ok t s
  only : ∀ v s, W.asStr v = some s → v = W.ofStr s

theorem exec_eq {W : World σ V E} (h : Lawful W) (r : V) (s : Str) :
    exec W r (W.ofStr s) = regExpExec W r s := by
  unfold exec regExpExec
  refine then_congr _ _ _ fun f => ?_
  simp only [h.str]
  cases W.callable f with
  | true =>
    simp only [if_true]
    refine then_congr _ _ _ fun v => ?_
    by_cases h1 : W.isObj v = true <;> by_cases h2 : W.isNull v = true <;> simp [h1, h2]
  | false => cases W.isRegExp r <;> rfl

theorem adv_eq (s : Str) (i : Nat) (u : Bool) : adv s i u = advance s i u := by
  unfold adv advance lead trail
  cases u with
  | false => simp
  | true =>
    simp only [Bool.not_true, Bool.false_eq_true, if_false, Bool.true_and]
    by_cases h : i + 1 ≥ s.length
    · have : s[i + 1]? = none := by simp [h]
      simp [h]
    · have h1 : i + 1 < s.length := by omega
      have h0 : i < s.length := by omega
      simp only [h, if_false, List.getD_eq_getElem?_getD, List.getElem?_eq_getElem h1,
        List.getElem?_eq_getElem h0, Option.getD, Option.any]
      by_cases a : 0xD800 ≤ s[i] <;> by_cases b : s[i] ≤ 0xDBFF <;>
        by_cases c : 0xDC00 ≤ s[i + 1] <;> by_cases d : s[i + 1] ≤ 0xDFFF <;>
        simp [a, b, c, d] <;> omega

theorem bump_eq (W : World σ V E) (r : V) (s : Str) (u : Bool) : bump W r s u = skip W r s u := by
  simp only [bump, skip, getLen, andThen_assoc, adv_eq]

theorem sub_eq (s : Str) (a b : Nat) : sub s a b = part s a b := by
  unfold sub part
  rw [List.drop_take]

theorem len_zero {α : Type} (x : List α) : (x.length = 0) = (x = []) := by
  simp [List.length_eq_zero_iff]

theorem matchLoop_eq {W : World σ V E} (h : Lawful W) (r : V) (s : Str) (u : Bool) :
    ∀ (n : Nat) (acc : List Str), matchLoop W r s u n acc =
      andThen (findAll W r s u n) fun l =>
        done (if acc = [] ∧ l = [] then none else some (acc ++ l.map Prod.snd))
  | 0, acc => rfl
  | n + 1, acc => by
    rw [matchLoop, findAll, andThen_assoc, exec_eq h]
    refine then_congr _ _ _ fun m => ?_
    cases W.isNull m with
    | true =>
      simp only [if_true, done_then]
      cases acc with
      | nil => rfl
      | cons a acc => simp
    | false =>
      simp only [Bool.false_eq_true, if_false, getStr, andThen_assoc, done_then]
      refine then_congr _ _ _ fun v => then_congr _ _ _ fun x => ?_
      rw [matchLoop_eq h r s u n (acc ++ [x]), bump_eq, ite_then]
      simp only [len_zero, done_then]
      have : (fun l : List (V × Str) => (done (if acc ++ [x] = [] ∧ l = [] then none
            else some (acc ++ [x] ++ l.map Prod.snd)) : Act σ E _)) =
          fun l => done (if acc = [] ∧ (m, x) :: l = [] then none
            else some (acc ++ ((m, x) :: l).map Prod.snd)) := by
        funext l
        simp
      rw [this]

theorem contains_eq (l : List Nat) (a : Nat) : l.contains a = decide (a ∈ l) := by
  simp [List.contains_eq_mem]

/-! ## split -/

theorem capLoop_eq (W : World σ V E) (z : V) (lim : Nat) : ∀ (c i : Nat) (acc : List V) (room : Nat),
    acc.length + room = lim → 0 < room →
    capLoop W z lim i c acc =
      andThen (captures W z (List.range' i c) room) fun x => done (decide (x.2 = 0), acc ++ x.1)
  | 0, i, acc, room, h, hr => by
    have : ¬ room = 0 := by omega
    simp [capLoop, captures, done_then, this]
  | c + 1, i, acc, room, h, hr => by
    rw [capLoop, List.range'_succ, captures, andThen_assoc]
    refine then_congr _ _ _ fun v => ?_
    by_cases h1 : room = 1
    · have : (acc ++ [v]).length = lim := by simp; omega
      simp [this, h1, done_then]
    · have : ¬ (acc ++ [v]).length = lim := by simp; omega
      rw [if_neg this, if_neg h1, capLoop_eq W z lim c (i + 1) (acc ++ [v]) (room - 1) (by simp; omega) (by omega),
        andThen_assoc]
      refine then_congr _ _ _ fun x => ?_
      simp [done_then]

/-- What `captures` gives fits. -/
theorem captures_room (W : World σ V E) (z : V) : ∀ (is : List Nat) (room : Nat) (s s' : σ) (x : List V × Nat),
    0 < room → captures W z is room s = .ok s' x → x.1.length + x.2 = room
  | [], room, s, s', x, _, h => by
    simp only [captures, done, Out.ok.injEq] at h
    rw [← h.2]; simp
  | i :: is, room, s, s', x, hr, h => by
    simp only [captures, andThen] at h
    cases hg : W.get z (.item i) s with
    | thr s e => simp [hg] at h
    | ub => simp [hg] at h
    | more => simp [hg] at h
    | ok s1 v =>
      simp only [hg] at h
      by_cases h1 : room = 1
      · simp only [h1, if_true, done, Out.ok.injEq] at h
        rw [← h.2, h1]; rfl
      · simp only [h1, if_false, andThen] at h
        cases hc : captures W z is (room - 1) s1 with
        | thr s e => simp [hc] at h
        | ub => simp [hc] at h
        | more => simp [hc] at h
        | ok s2 y =>
          simp only [hc, done, Out.ok.injEq] at h
          have := captures_room W z is (room - 1) s1 s2 y (by omega) hc
          rw [← h.2]
          simp only [List.length_cons]
          omega

theorem then_congr_ok {α β : Type} (x : Act σ E α) (f g : α → Act σ E β)
    (h : ∀ s s' a, x s = .ok s' a → f a = g a) : andThen x f = andThen x g := by
  funext s
  simp only [andThen]
  cases hx : x s with
  | thr s e => rfl
  | ub => rfl
  | more => rfl
  | ok s' a => simp only [h s s' a hx]

theorem splitLoop_eq {W : World σ V E} (h : Lawful W) (sp : V) (s : Str) (u : Bool) (lim : Nat) :
    ∀ (n p q : Nat) (acc : List V) (room : Nat), acc.length + room = lim → 0 < room →
    splitLoop W sp s u lim n p q acc =
      andThen (pieces W sp s u n p q room) fun l => done (acc ++ l)
  | 0, p, q, acc, room, _, _ => rfl
  | n + 1, p, q, acc, room, hl, hr => by
    rw [splitLoop, pieces]
    by_cases hq : q < s.length
    case neg =>
      have : s.length ≤ q := by omega
      simp only [hq, if_false, this, if_true, done_then, sub_eq]
    have hq' : ¬ s.length ≤ q := by omega
    simp only [hq, if_true, hq', if_false, andThen_assoc, exec_eq h]
    refine then_congr _ _ _ fun _ => then_congr _ _ _ fun z => ?_
    cases W.isNull z with
    | true =>
      simp only [if_true, adv_eq]
      exact splitLoop_eq h sp s u lim n p _ acc room hl hr
    | false =>
      simp only [Bool.false_eq_true, if_false, getLen, andThen_assoc]
      refine then_congr _ _ _ fun v => then_congr _ _ _ fun li => ?_
      by_cases he : min li s.length = p
      · simp only [he, if_true, adv_eq]
        exact splitLoop_eq h sp s u lim n p _ acc room hl hr
      simp only [he, if_false, sub_eq]
      by_cases h1 : room = 1
      · have : (acc ++ [W.ofStr (part s p q)]).length = lim := by simp; omega
        simp only [this, if_true, h1, done_then]
      have h2 : ¬ (acc ++ [W.ofStr (part s p q)]).length = lim := by simp; omega
      simp only [h2, if_false, h1, andThen_assoc]
      refine then_congr _ _ _ fun lv => then_congr _ _ _ fun nc => ?_
      rw [capLoop_eq W z lim (nc - 1) 1 _ (room - 1) (by simp; omega) (by omega), andThen_assoc]
      refine then_congr_ok _ _ _ fun t t' x hx => ?_
      have hx' := captures_room W z _ (room - 1) t t' x (by omega) hx
      simp only [done_then]
      by_cases h3 : x.2 = 0
      · simp [h3, done_then]
      · simp only [h3, decide_false, Bool.false_eq_true, if_false]
        rw [splitLoop_eq h sp s u lim n _ _ _ x.2 (by simp; omega) (by omega)]
        refine then_congr _ _ _ fun l => ?_
        simp

/-! ## replace -/

/-- A match that can be read without effects: `d` gives length, texts, position and groups. -/
structure Data (V : Type) where
  len : Nat
  val : Nat → V
  txt : Nat → Str
  iv : V
  pos : Nat
  groups : V
  out : Str

/-- What the function answers, or what the template gives. -/
def reply (W : World σ V E) (s : Str) (m : V) (d : Data V) : V ⊕ Str → Act σ E Str
  | .inl f => andThen (W.call f W.undef (W.ofStr (d.txt 0) ::
      (List.range' 1 (d.len - 1)).map (fun i => W.ofStr (d.txt i)) ++ [W.ofNum d.pos, W.ofStr s] ++
      if W.isUndef d.groups then [] else [d.groups])) W.toStr
  | .inr x => W.subst s d.pos m x

/-- Reading the match and making the replacement has no effect and does not throw; the captures are not
undefined; the index is the same read as a length. -/
structure Calm (W : World σ V E) (s : Str) (rep : V ⊕ Str) (m : V) (d : Data V) : Prop where
  len : ∀ t, getLen W m .length t = .ok t d.len
  item : ∀ i t, W.get m (.item i) t = .ok t (d.val i)
  cap : ∀ i, 0 < i → W.isUndef (d.val i) = false
  txt : ∀ i t, W.toStr (d.val i) t = .ok t (d.txt i)
  index : ∀ t, W.get m .index t = .ok t d.iv
  int : ∀ t, W.toInt d.iv t = .ok t (Int.ofNat d.pos)
  toLen : ∀ t, W.toLen d.iv t = .ok t d.pos
  inside : d.pos ≤ s.length
  groups : ∀ t, W.get m .groups t = .ok t d.groups
  out : ∀ t, reply W s m d rep t = .ok t d.out

theorem capArgs_calm {W : World σ V E} {s : Str} {rep : V ⊕ Str} {m : V} {d : Data V} (h : Calm W s rep m d) : ∀ (c i : Nat) (t : σ),
    capArgs W m i c t = .ok t ((List.range' i c).map fun i => W.ofStr (d.txt i))
  | 0, i, t => rfl
  | c + 1, i, t => by
    rw [capArgs, run_ok (h.item i t), run_ok (h.txt i t), run_ok (capArgs_calm h c (i + 1) t), List.range'_succ]
    rfl

theorem captureList_calm {W : World σ V E} {s : Str} {rep : V ⊕ Str} {m : V} {d : Data V} (h : Calm W s rep m d) : ∀ (c i : Nat) (t : σ), 0 < i →
    captureList W m (List.range' i c) t = .ok t ((List.range' i c).map fun i => W.ofStr (d.txt i))
  | 0, i, t, _ => rfl
  | c + 1, i, t, hi => by
    rw [List.range'_succ]
    change andThen (capture W m i) (fun v => andThen (captureList W m (List.range' (i + 1) c)) fun l =>
      done (v :: l)) t = _
    have : capture W m i t = .ok t (W.ofStr (d.txt i)) := by
      unfold capture
      rw [run_ok (h.item i t), h.cap i hi]
      simp only [Bool.false_eq_true, if_false]
      rw [run_ok (h.txt i t)]
      rfl
    rw [run_ok this, run_ok (captureList_calm h c (i + 1) t (by omega))]
    rfl

theorem replacement_calm {W : World σ V E} {s : Str} {rep : V ⊕ Str} {m : V} {d : Data V} (h : Calm W s rep m d) (t : σ) :
    replacement W s rep m t = .ok t (d.pos, (d.txt 0).length, d.out) := by
  unfold replacement
  rw [run_ok (h.len t)]
  have h0 : getStr W m (.item 0) t = .ok t (d.txt 0) := by
    unfold getStr
    rw [run_ok (h.item 0 t), h.txt 0 t]
  have h1 : andThen (W.get m .index) W.toInt t = .ok t (Int.ofNat d.pos) := by
    rw [run_ok (h.index t), h.int t]
  rw [run_ok h0, run_ok h1]
  have h2 : min (Int.ofNat d.pos).toNat s.length = d.pos := by
    have := h.inside
    simp; omega
  have ho := h.out t
  cases rep with
  | inl f =>
    simp only [h2]
    rw [run_ok (captureList_calm h _ 1 t (by omega)), run_ok (h.groups t)]
    exact run_ok ho _
  | inr x =>
    simp only [h2]
    exact run_ok ho _

theorem replaceFunc_calm {W : World σ V E} {s : Str} {f : V} {m : V} {d : Data V} (h : Calm W s (.inl f) m d) (t : σ) :
    replaceFunc W s f (d.txt 0) d.pos m t = .ok t d.out := by
  unfold replaceFunc
  have hl := h.len
  unfold getLen at hl
  have : andThen (W.get m .length) (fun lv => andThen (W.toLen lv) fun len =>
      andThen (W.get m .groups) fun g =>
      andThen (capArgs W m 1 (len - 1)) fun caps =>
      andThen (W.call f W.undef
        ([W.ofStr (d.txt 0)] ++ caps ++ [W.ofNum d.pos, W.ofStr s] ++ (if !W.isUndef g then [g] else []))) fun v =>
      W.toStr v) = andThen (andThen (W.get m .length) W.toLen) (fun len =>
      andThen (W.get m .groups) fun g =>
      andThen (capArgs W m 1 (len - 1)) fun caps =>
      andThen (W.call f W.undef
        ([W.ofStr (d.txt 0)] ++ caps ++ [W.ofNum d.pos, W.ofStr s] ++ (if !W.isUndef g then [g] else []))) fun v =>
      W.toStr v) := by rw [andThen_assoc]
  rw [this, run_ok (hl t), run_ok (h.groups t), run_ok (capArgs_calm h _ 1 t)]
  have ho := h.out t
  rw [← ho]
  unfold reply
  cases W.isUndef d.groups <;> rfl

/-- The matches follow one another. -/
def Ordered (d : V → Data V) : Nat → List V → Prop
  | _, [] => True
  | next, m :: ms => next ≤ (d m).pos ∧ Ordered d ((d m).pos + ((d m).txt 0).length) ms

theorem replacements_calm {W : World σ V E} {s : Str} {rep : V ⊕ Str} (d : V → Data V) :
    ∀ (ms : List V) (t : σ), (∀ m ∈ ms, Calm W s rep m (d m)) →
    replacements W s rep ms t = .ok t (ms.map fun m => ((d m).pos, ((d m).txt 0).length, (d m).out))
  | [], t, _ => rfl
  | m :: ms, t, h => by
    change andThen (replacement W s rep m) (fun x => andThen (replacements W s rep ms) fun l => done (x :: l)) t = _
    rw [run_ok (replacement_calm (h m (List.mem_cons_self ..)) t),
      run_ok (replacements_calm d ms t fun m hm => h m (List.mem_cons_of_mem _ hm))]
    rfl

theorem tail_eq (s buf : Str) (start : Nat) :
    (if start < s.length then buf ++ sub s start s.length else buf) = buf ++ part s start s.length := by
  rw [sub_eq]
  by_cases h : start < s.length
  · simp only [h, if_true]
  · have : part s start s.length = [] := by
      unfold part
      simp; omega
    simp only [h, if_false, this, List.append_nil]

/-- One calm match in the engine's loop. -/
theorem step_calm {W : World σ V E} {s : Str} {rep : V ⊕ Str} {m : V} {d : Data V} (h : Calm W s rep m d)
    {start : Nat} (hs : start ≤ d.pos) (k : Nat → Str → Str → Str → Act σ E Str) (z : Act σ E Str) (t : σ) :
    andThen (W.get m .index) (fun iv =>
      andThen (W.toInt iv) fun posn =>
      if clamp posn s.length ≥ start then
        andThen (W.get m (.item 0)) fun v =>
        andThen (W.toStr v) fun x =>
        andThen (match rep with
          | .inl f => replaceFunc W s f x (clamp posn s.length) m
          | .inr t => W.subst s (clamp posn s.length) m t) fun y =>
        andThen (W.get m .index) fun iv =>
        andThen (W.toLen iv) fun idx => k (idx + x.length) x (sub s start (clamp posn s.length)) y
      else z) t = k (d.pos + (d.txt 0).length) (d.txt 0) (part s start d.pos) d.out t := by
  have hc : clamp (Int.ofNat d.pos) s.length = d.pos := by
    have := h.inside
    unfold clamp
    simp; omega
  rw [run_ok (h.index t), run_ok (h.int t)]
  simp only [hc, ge_iff_le, hs, if_true]
  rw [run_ok (h.item 0 t), run_ok (h.txt 0 t)]
  have ho : (match rep with
      | .inl f => replaceFunc W s f (d.txt 0) d.pos m
      | .inr t => W.subst s d.pos m t) t = .ok t d.out := by
    cases rep with
    | inl f => exact replaceFunc_calm h t
    | inr x => exact h.out t
  rw [run_ok ho, run_ok (h.index t), run_ok (h.toLen t), sub_eq]

theorem replaceLoop_global {W : World σ V E} (hW : Lawful W) (r : V) (s : Str) (rep : V ⊕ Str) (u : Bool)
    (d : V → Data V) : ∀ (n start : Nat) (buf : Str) (t t' : σ) (l : List (V × Str)),
    findAll W r s u n t = .ok t' l → (∀ m ∈ l.map Prod.fst, Calm W s rep m (d m)) →
    Ordered d start (l.map Prod.fst) →
    replaceLoop W r s rep true u n start buf t = .ok t' (buf ++ fill s start
      (l.map fun m => ((d m.1).pos, ((d m.1).txt 0).length, (d m.1).out)))
  | 0, start, buf, t, t', l, h, _, _ => by simp [findAll] at h
  | n + 1, start, buf, t, t', l, h, hc, ho => by
    rw [replaceLoop, exec_eq hW]
    rw [findAll] at h
    cases hx : regExpExec W r s t with
    | thr s e => simp [andThen, hx] at h
    | ub => simp [andThen, hx] at h
    | more => simp [andThen, hx] at h
    | ok t1 m =>
      rw [run_ok hx] at h ⊢
      by_cases hn : W.isNull m = true
      · simp only [hn, if_true, done, Out.ok.injEq] at h ⊢
        obtain ⟨rfl, rfl⟩ := h
        refine ⟨rfl, ?_⟩
        rw [tail_eq]
        rfl
      · rw [if_neg hn] at h ⊢
        cases hg : getStr W m (.item 0) t1 with
        | thr s e => simp [andThen, hg] at h
        | ub => simp [andThen, hg] at h
        | more => simp [andThen, hg] at h
        | ok t2 x =>
        rw [run_ok hg] at h
        cases hk : (if x = [] then skip W r s u else done ()) t2 with
        | thr s e => simp [andThen, hk] at h
        | ub => simp [andThen, hk] at h
        | more => simp [andThen, hk] at h
        | ok t3 a =>
        rw [run_ok hk] at h
        cases hf : findAll W r s u n t3 with
        | thr s e => simp [andThen, hf] at h
        | ub => simp [andThen, hf] at h
        | more => simp [andThen, hf] at h
        | ok t4 l' =>
        rw [run_ok hf] at h
        simp only [done, Out.ok.injEq] at h
        obtain ⟨rfl, rfl⟩ := h
        have hcm : Calm W s rep m (d m) := hc m (by simp)
        obtain ⟨ho1, ho2⟩ := ho
        have hx0 : t2 = t1 ∧ x = (d m).txt 0 := by
          unfold getStr at hg
          rw [run_ok (hcm.item 0 t1), hcm.txt 0 t1] at hg
          simp only [Out.ok.injEq] at hg
          exact ⟨hg.1.symm, hg.2.symm⟩
        obtain ⟨rfl, rfl⟩ := hx0
        refine Eq.trans (step_calm hcm ho1 (fun st x a y =>
          if !true then done (if st < s.length then buf ++ a ++ y ++ sub s st s.length else buf ++ a ++ y)
          else if x.length = 0 then
            andThen (bump W r s u) fun _ => replaceLoop W r s rep true u n st (buf ++ a ++ y)
          else replaceLoop W r s rep true u n st (buf ++ a ++ y)) _ t2) ?_
        have ih := replaceLoop_global hW r s rep u d n ((d m).pos + ((d m).txt 0).length)
          (buf ++ part s start (d m).pos ++ (d m).out) t3 t4 l' hf
          (fun m' hm' => hc m' (List.mem_cons_of_mem _ hm')) ho2
        have hfill : buf ++ part s start (d m).pos ++ (d m).out ++ fill s ((d m).pos + ((d m).txt 0).length)
            (l'.map fun m => ((d m.1).pos, ((d m.1).txt 0).length, (d m.1).out)) =
            buf ++ fill s start (((m, (d m).txt 0) :: l').map
              fun m => ((d m.1).pos, ((d m.1).txt 0).length, (d m.1).out)) := by
          simp only [List.map_cons, fill, ho1, if_true, List.append_assoc]
        rw [hfill] at ih
        rw [← ih]
        by_cases he : (d m).txt 0 = []
        · simp only [he, if_true] at hk
          simp only [Bool.not_true, Bool.false_eq_true, if_false, he, List.length_nil, if_true, bump_eq]
          exact run_ok hk _
        · simp only [he, if_false, done, Out.ok.injEq] at hk
          simp only [Bool.not_true, Bool.false_eq_true, if_false, len_zero, he, hk.1]

theorem replaceLoop_single {W : World σ V E} (hW : Lawful W) (r : V) (s : Str) (rep : V ⊕ Str)
    (d : V → Data V) (n : Nat) (t t' : σ) (ms : List V)
    (h : results W (n + 1) r s false false t = .ok t' ms) (hc : ∀ m ∈ ms, Calm W s rep m (d m)) :
    replaceLoop W r s rep false false (n + 1) 0 [] t = .ok t' (fill s 0
      (ms.map fun m => ((d m).pos, ((d m).txt 0).length, (d m).out))) := by
  rw [replaceLoop, exec_eq hW]
  unfold results at h
  simp only [Bool.false_eq_true, if_false] at h
  cases hx : regExpExec W r s t with
  | thr s e => simp [andThen, hx] at h
  | ub => simp [andThen, hx] at h
  | more => simp [andThen, hx] at h
  | ok t1 m =>
    rw [run_ok hx] at h ⊢
    simp only [done, Out.ok.injEq] at h
    by_cases hn : W.isNull m = true
    · simp only [hn, if_true] at h ⊢
      obtain ⟨rfl, rfl⟩ := h
      rw [tail_eq]
      rfl
    · simp only [hn] at h
      rw [if_neg hn]
      obtain ⟨rfl, rfl⟩ := h
      have hcm : Calm W s rep m (d m) := hc m (by simp)
      refine Eq.trans (step_calm hcm (Nat.zero_le _) (fun st x a y =>
        if !false then done (if st < s.length then [] ++ a ++ y ++ sub s st s.length else [] ++ a ++ y)
        else if x.length = 0 then
          andThen (bump W r s false) fun _ => replaceLoop W r s rep false false n st ([] ++ a ++ y)
        else replaceLoop W r s rep false false n st ([] ++ a ++ y)) _ t1) ?_
      simp only [Bool.not_false, if_true, tail_eq, done, List.nil_append]
      simp [fill]

theorem stepOver_eq {W : World σ V E} (h : Lawful W) (it : Iter V) (str : Str) (hs : it.str = W.ofStr str) (m : V) :
    stepOver W it m = andThen (getStr W m (.item 0)) fun x =>
      if x = [] then skip W it.re str it.unicode else done () := by
  unfold stepOver getStr skip getLen
  simp only [andThen_assoc, len_zero]
  refine then_congr _ _ _ fun v => then_congr _ _ _ fun x => ?_
  by_cases hx : x = []
  · simp only [hx, if_true]
    refine then_congr _ _ _ fun v => then_congr _ _ _ fun i => ?_
    cases hu : it.unicode with
    | true => simp only [if_true, readStr, hs, h.str, done_then, adv_eq]
    | false => simp [done_then, adv, advance]
  · simp only [hx, if_false]

end Verif.RegMethods

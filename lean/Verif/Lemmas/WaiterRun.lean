import Verif.Lemmas.Waiter
/-
Lemmas about waiting and waking: all steps keep the lists right.
-/
namespace Verif.Waiter
open LinkedList

theorem rouse_node (p : Pc) (late : Bool) : (p.rouse late).node = p.node := by cases p <;> rfl
theorem rouse_sleeps (p : Pc) (late : Bool) : (p.rouse late).sleeps = false := by cases p <;> rfl
theorem rouse_head (p : Pc) (late : Bool) : (p.rouse late).head = p.head := by cases p <;> rfl
theorem rouse_crit (p : Pc) (late : Bool) : (p.rouse late).crit = p.crit := by cases p <;> rfl
theorem rouse_id {p : Pc} (late : Bool) (h : p.sleeps = false) : p.rouse late = p := by
  cases p <;> first | rfl | cases h

namespace Core
variable {s : Sys} {m : Spec.World}

theorem signal_pc (c : Core s m) {pos w : Nat} (h : Heap)
    (hn : (s.pc (s.owner w)).node = some (pos, w)) (b : Nat) :
    (signal { s with heap := h } w).pc b =
      if b = s.owner w then (s.pc b).rouse false else s.pc b := by
  obtain ⟨_, _, h3, _⟩ := c.node _ _ _ hn
  unfold signal
  cases hs : (s.pc (s.owner w)).sleeps with
  | true =>
    rw [hs] at h3
    simp only [h3, if_true, setPc]
    split
    · next e => rw [e]
    · rfl
  | false =>
    rw [hs] at h3
    have h3 : s.cond w = none := h3
    simp only [h3]
    split
    · next e => rw [e, rouse_id false hs]
    · rfl

theorem signal_cond (c : Core s m) {pos w : Nat} (h : Heap)
    (hn : (s.pc (s.owner w)).node = some (pos, w)) (x : Nat) :
    (signal { s with heap := h } w).cond x = if x = w then none else s.cond x := by
  obtain ⟨_, _, h3, _⟩ := c.node _ _ _ hn
  unfold signal
  cases hs : (s.pc (s.owner w)).sleeps with
  | true => rw [hs] at h3; simp only [h3, if_true, setPc]
  | false =>
    rw [hs] at h3
    have h3 : s.cond w = none := h3
    simp only [h3]
    split
    · next e => rw [e, h3]
    · rfl

theorem signal_rest (s : Sys) (w : Nat) :
    (signal s w).heap = s.heap ∧ (signal s w).live = s.live ∧ (signal s w).lists = s.lists ∧
      (signal s w).owner = s.owner ∧ (signal s w).lock = s.lock ∧ (signal s w).trace = s.trace := by
  unfold signal; split <;> exact ⟨rfl, rfl, rfl, rfl, rfl, rfl⟩

theorem taken_pc (c : Core s m) {a pos h n w : Nat} {cc : Option Nat}
    (hn : (s.pc (s.owner w)).node = some (pos, w)) (b : Nat) :
    (taken s a pos h n cc w).pc b = if b = a then .noteLoop pos h (n + 1) cc
      else if b = s.owner w then (s.pc b).rouse false else s.pc b := by
  show (if b = a then _ else (signal _ w).pc b) = _
  rw [c.signal_pc _ hn]

theorem taken_lock (s : Sys) (a pos h n w : Nat) (cc : Option Nat) :
    (taken s a pos h n cc w).lock = s.lock := (signal_rest _ w).2.2.2.2.1

theorem taken_trace (s : Sys) (a pos h n w : Nat) (cc : Option Nat) :
    (taken s a pos h n cc w).trace = s.trace ++ [.wakes a pos (s.owner w)] := by
  show (signal _ w).trace ++ _ = _
  rw [(signal_rest _ w).2.2.2.2.2]

theorem take (c : Core s m) {a pos h n w : Nat} {ns : List Nat} {cc : Option Nat}
    (hp : (s.pc a).node = none) (hl : (pos, h) ∈ s.lists) (hm : m h = some (w :: ns)) :
    ∃ m', Core (taken s a pos h n cc w) m' := by
  obtain ⟨hq, hnn⟩ := c.listed hl hm
  have hwn := hnn w (by simp)
  obtain ⟨hlw, _, hcw, _⟩ := c.node _ _ _ hwn
  have hnd := c.rel.nodup h _ hm
  simp only [List.nodup_cons, List.mem_cons, not_or] at hnd
  obtain ⟨⟨hhw, hhn⟩, hwns, hnsd⟩ := hnd
  have hout : ∀ k ks, m k = some ks → k ≠ h → w ∉ k :: ks := by
    intro k ks hk hkh
    exact fun hc => (c.rel.disj h _ k ks hm hk (fun e => hkh e.symm) w (by simp)) hc
  have hwk : ∀ k ks, m k = some ks → k ≠ w := by
    rintro k ks hk rfl
    by_cases e : k = h
    · exact hhw e.symm
    · exact hout k ks hk e (by simp)
  have r1 : Rel (remove s.heap w) (Spec.step m (.remove w)) :=
    step_rel c.rel (.remove w) ⟨h, _, hm, by simp⟩
  have hfil : ∀ ks : List Nat, w ∉ ks → ks.filter (· ≠ w) = ks := by
    intro ks hk
    rw [List.filter_eq_self]
    intro y hy; simp; rintro rfl; exact hk hy
  have e1 : Spec.step m (.remove w) h = some ns := by
    simp only [Spec.step, hm, Option.map_some]
    rw [List.filter_cons_of_neg (by simp), hfil ns hwns]
  have e2 : ∀ k, k ≠ h → Spec.step m (.remove w) k = m k := by
    intro k hk
    simp only [Spec.step]
    cases hmk : m k with
    | none => rfl
    | some ks =>
      have := hout k ks hmk hk
      simp only [List.mem_cons, not_or] at this
      simp only [Option.map_some, hfil ks this.2]
  have hnu : ¬ Spec.Used (Spec.step m (.remove w)) w := by
    rintro ⟨k, ks, hk, hwk'⟩
    by_cases e : k = h
    · subst e
      rw [e1] at hk; cases hk
      simp only [List.mem_cons] at hwk'
      rcases hwk' with k1 | k1
      · exact hhw k1.symm
      · exact hwns k1
    · rw [e2 k e] at hk
      exact hout k ks hk e hwk'
  have r2 := step_rel r1 (.init w) hnu
  generalize hM : Spec.step (Spec.step m (.remove w)) (.init w) = M at r2
  have m1 : M w = some [] := by rw [← hM]; simp [Spec.step]
  have m2 : M h = some ns := by
    rw [← hM]; show (if h = w then _ else Spec.step m (.remove w) h) = _
    rw [if_neg hhw, e1]
  have m3 : ∀ k, k ≠ h → k ≠ w → M k = m k := by
    intro k h1 h2
    rw [← hM]; show (if k = w then _ else Spec.step m (.remove w) k) = _
    rw [if_neg h2, e2 k h1]
  have hwl : ∀ q, (q, w) ∉ s.lists := by
    intro q hq'
    obtain ⟨ks, k1, _⟩ := c.heads q w hq'
    exact hwk w ks k1 rfl
  have pcn : ∀ b, b ≠ a → ((taken s a pos h n cc w).pc b).node = (s.pc b).node := by
    intro b hb
    rw [c.taken_pc hwn, if_neg hb]
    split
    · rw [rouse_node]
    · rfl
  have oa : ∀ b q x, (s.pc b).node = some (q, x) → b ≠ a := by
    rintro b q x hb rfl; rw [hp] at hb; cases hb
  have own : ∀ b q x, (s.pc b).node = some (q, x) → x ≠ w → b ≠ s.owner w := by
    rintro b q x hb hx rfl; rw [hwn] at hb; cases hb; exact hx rfl
  refine ⟨M, ?_⟩
  have hheap : (taken s a pos h n cc w).heap = init (remove s.heap w) w := (signal_rest _ w).1
  have hlive : (taken s a pos h n cc w).live = s.live := (signal_rest _ w).2.1
  have hlists : (taken s a pos h n cc w).lists = s.lists := (signal_rest _ w).2.2.1
  have howner : (taken s a pos h n cc w).owner = s.owner := (signal_rest _ w).2.2.2.1
  have hcond : ∀ x, (taken s a pos h n cc w).cond x = if x = w then none else s.cond x :=
    fun x => c.signal_cond _ hwn x
  have htr := taken_trace s a pos h n w cc
  refine ⟨by rw [hheap]; exact r2, ?_, by rw [hlists]; exact c.keys, by rw [hlists]; exact c.addr,
    ?_, ?_, by rw [hlists, hlive]; exact c.live, ?_, ?_⟩
  · intro p k hk
    rw [hlists] at hk
    rw [howner, htr, queue_snoc]
    simp only [queueStep]
    by_cases e : k = h
    · subst e
      have := c.addr _ _ _ hk hl; subst this
      refine ⟨ns, m2, ?_, ?_⟩
      · rw [if_pos rfl, ← hq]; simp
      · intro x hx
        have hxn := hnn x (by simp [hx])
        rw [pcn _ (oa _ _ _ hxn)]; exact hxn
    · obtain ⟨ks, k1, k2, k3⟩ := c.heads p k hk
      have hpp : pos ≠ p := by rintro rfl; exact e (c.keys _ _ _ hk hl)
      refine ⟨ks, (m3 k e (hwk k ks k1)).trans k1, ?_, ?_⟩
      · rw [if_neg hpp]; exact k2
      · intro x hx
        rw [pcn _ (oa _ _ _ (k3 x hx))]; exact k3 x hx
  · intro p hp'
    rw [hlists] at hp'
    rw [htr, queue_snoc]
    have : pos ≠ p := by rintro rfl; exact hp' h hl
    simp only [queueStep, if_neg this]
    exact c.empty p hp'
  · intro b p x hb
    have hba : b ≠ a := by
      rintro rfl; rw [c.taken_pc hwn, if_pos rfl] at hb; simp [Pc.node] at hb
    rw [pcn b hba] at hb
    obtain ⟨h1, h2, h3, h4⟩ := c.node b p x hb
    rw [hlive, howner, hcond, hlists]
    by_cases e : x = w
    · subst e
      have hbo : b = s.owner x := h2.symm
      have hsl : ((taken s a pos h n cc x).pc b).sleeps = false := by
        rw [c.taken_pc hwn, if_neg hba, if_pos hbo, rouse_sleeps]
      refine ⟨h1, h2, by rw [hsl]; simp, Or.inr ⟨hsl, m1, hwl⟩⟩
    · have hpb : (taken s a pos h n cc w).pc b = s.pc b := by
        rw [c.taken_pc hwn, if_neg hba, if_neg (own b p x hb e)]
      refine ⟨h1, h2, by rw [if_neg e, hpb]; exact h3, ?_⟩
      rw [hpb]
      rcases h4 with ⟨k, ks, k1, k2, k3⟩ | ⟨k1, k2, k3⟩
      · refine Or.inl ?_
        by_cases e' : k = h
        · subst e'
          rw [hm] at k2; cases k2
          exact ⟨k, ns, k1, m2, by simpa [e] using k3⟩
        · exact ⟨k, ks, k1, (m3 k e' (hwk k ks k2)).trans k2, k3⟩
      · refine Or.inr ⟨k1, (m3 x ?_ e).trans k2, k3⟩
        rintro rfl; exact k3 pos hl
  · intro k ks hk
    rw [hlists]
    by_cases e : k = w
    · subst e
      rw [m1] at hk; cases hk
      exact Or.inr ⟨rfl, s.owner k, pos, by rw [pcn _ (oa _ _ _ hwn)]; exact hwn⟩
    · by_cases e' : k = h
      · subst e'; exact Or.inl ⟨pos, hl⟩
      · rw [m3 k e' e] at hk
        rcases c.dom k ks hk with k3 | ⟨k3, b, q, k4⟩
        · exact Or.inl k3
        · exact Or.inr ⟨k3, b, q, by rw [pcn b (oa _ _ _ k4)]; exact k4⟩
  · intro b p k hk
    rw [hlists]
    rw [c.taken_pc hwn] at hk
    split at hk
    · simp only [Pc.head, Option.some.injEq, Prod.mk.injEq] at hk
      obtain ⟨rfl, rfl⟩ := hk; exact hl
    · split at hk
      · rw [rouse_head] at hk; exact c.head b p k hk
      · exact c.head b p k hk

/-- An agent stops sleeping without a signal. -/
theorem rouse (c : Core s m) {a pos w : Nat} {t : Option Nat} (late : Bool)
    (hp : s.pc a = .asleep pos w t) :
    Core (setPc { s with cond := fun x => if x = w then none else s.cond x } a
      (.roused pos w late)) m := by
  have hna : (s.pc a).node = some (pos, w) := by rw [hp]; rfl
  obtain ⟨hlw, how, hcw, hin⟩ := c.node a pos w hna
  have hin' : ∃ h ns, (pos, h) ∈ s.lists ∧ m h = some ns ∧ w ∈ ns := by
    rcases hin with k | ⟨k, _⟩
    · exact k
    · rw [hp] at k; cases k
  have e1 : ∀ b, ((setPc { s with cond := fun x => if x = w then none else s.cond x } a
      (.roused pos w late)).pc b).node = (s.pc b).node := by
    intro b
    rw [setPc_pc]; split
    · next k => rw [k, hna]; rfl
    · rfl
  refine ⟨c.rel, ?_, c.keys, c.addr, c.empty, ?_, c.live, ?_, ?_⟩
  · intro q h hl
    obtain ⟨ns, h1, h2, h3⟩ := c.heads q h hl
    exact ⟨ns, h1, h2, fun w hw => (e1 _).trans (h3 w hw)⟩
  · intro b q x hb
    rw [e1] at hb
    obtain ⟨h1, h2, h3, h4⟩ := c.node b q x hb
    by_cases e : b = a
    · subst e
      rw [hna] at hb; cases hb
      refine ⟨h1, h2, ?_, Or.inl hin'⟩
      simp [setPc, Pc.sleeps]
    · have hxw : x ≠ w := by rintro rfl; exact e (h2.symm.trans how)
      simp only [setPc, if_neg e, if_neg hxw]
      exact ⟨h1, h2, h3, h4⟩
  · intro h ns hm
    rcases c.dom h ns hm with k | ⟨k, b, q, k2⟩
    · exact Or.inl k
    · exact Or.inr ⟨k, b, q, (e1 b).trans k2⟩
  · intro b q h hb
    rw [setPc_pc] at hb
    split at hb
    · simp [Pc.head] at hb
    · exact c.head b q h hb

end Core

/-! ## The mutex, and what `notify` has done so far -/

/-- A finished `notify` has woken the longest waiting agents, at once. -/
def Finished (t : List Event) : Prop :=
  ∀ t1 a pos n t2, t = t1 ++ .returns a pos n :: t2 → ∃ t0 c,
    t1 = t0 ++ .begins a pos c :: ((queue pos t0).take n).map (.wakes a pos ·) ∧
    n = limit c (queue pos t0).length

/-- What a running `notify` has done. -/
def Open (t : List Event) (a : Nat) : Pc → Prop
  | .noteFind pos c => ∃ t0, t = t0 ++ [.begins a pos c]
  | .noteLoop pos _ n c => ∃ t0,
    t = t0 ++ .begins a pos c :: ((queue pos t0).take n).map (.wakes a pos ·) ∧
    n ≤ limit c (queue pos t0).length ∧ queue pos t = (queue pos t0).drop n
  | _ => True

def Pc.small : Pc → Prop
  | .waitLock _ _ t => castOk t = true
  | .waitRead _ _ t => castOk t = true
  | .waitFind _ t => castOk t = true
  | .waitAdd _ _ t => castOk t = true
  | _ => True

theorem rouse_small (p : Pc) (late : Bool) (h : p.small) : (p.rouse late).small := by
  cases p <;> first | exact h | trivial

structure Ctl (s : Sys) : Prop where
  owned : ∀ a, (s.pc a).crit = true ↔ s.lock = some a
  opened : ∀ a, Open s.trace a (s.pc a)
  finished : Finished s.trace
  small : ∀ a, (s.pc a).small

theorem open_of {t : List Event} {a : Nat} {p : Pc} (h : p.crit = false) : Open t a p := by
  cases p <;> first | trivial | cases h

theorem finished_snoc {t : List Event} {e : Event} (h : Finished t)
    (he : ∀ a pos n, e = .returns a pos n → ∃ t0 c,
      t = t0 ++ .begins a pos c :: ((queue pos t0).take n).map (.wakes a pos ·) ∧
      n = limit c (queue pos t0).length) : Finished (t ++ [e]) := by
  intro t1 a pos n t2 ht
  rcases List.eq_nil_or_concat t2 with rfl | ⟨t2', e', rfl⟩
  · obtain ⟨h1, h2⟩ := List.append_inj' ht rfl
    rw [List.singleton_inj] at h2
    subst h1
    exact he a pos n h2
  · rw [List.concat_eq_append, ← List.cons_append, ← List.append_assoc] at ht
    obtain ⟨h1, _⟩ := List.append_inj' ht rfl
    exact h t1 a pos n t2' h1

namespace Ctl
variable {s : Sys}

theorem others (c : Ctl s) {a b : Nat} (ha : (s.pc a).crit = true) (hb : b ≠ a) :
    (s.pc b).crit = false := by
  cases k : (s.pc b).crit with
  | false => rfl
  | true =>
    have h1 := (c.owned a).1 ha
    have h2 := (c.owned b).1 k
    rw [h1] at h2; cases h2; exact absurd rfl hb

/-- A step of an agent that has the mutex. -/
theorem inside (c : Ctl s) {s' : Sys} {a : Nat} (ha : (s.pc a).crit = true)
    (hpc : ∀ b, b ≠ a → (s'.pc b).crit = (s.pc b).crit ∧ ((s.pc b).small → (s'.pc b).small))
    (hl : s'.lock = if (s'.pc a).crit then some a else none)
    (ho : Open s'.trace a (s'.pc a)) (hf : Finished s'.trace) (hs : (s'.pc a).small) : Ctl s' := by
  refine ⟨fun b => ?_, fun b => ?_, hf, fun b => ?_⟩
  · by_cases e : b = a
    · subst e; rw [hl]; split
      · next k => simp [k]
      · next k => simp [k]
    · rw [(hpc b e).1, c.others ha e, hl]
      split
      · simp; exact fun k => e k.symm
      · simp
  · by_cases e : b = a
    · subst e; exact ho
    · exact open_of (by rw [(hpc b e).1]; exact c.others ha e)
  · by_cases e : b = a
    · subst e; exact hs
    · exact (hpc b e).2 (c.small b)

/-- A step of an agent without the mutex, that does not take it. -/
theorem outside (c : Ctl s) {s' : Sys} {a : Nat} (ha : (s.pc a).crit = false)
    (ha' : (s'.pc a).crit = false) (hpc : ∀ b, b ≠ a → s'.pc b = s.pc b) (hl : s'.lock = s.lock)
    (ht : s'.trace = s.trace) (hs : (s'.pc a).small) : Ctl s' := by
  refine ⟨fun b => ?_, fun b => ?_, by rw [ht]; exact c.finished, fun b => ?_⟩
  · rw [hl]
    by_cases e : b = a
    · subst e; rw [ha', ← ha]; exact c.owned b
    · rw [hpc b e]; exact c.owned b
  · rw [ht]
    by_cases e : b = a
    · subst e; exact open_of ha'
    · rw [hpc b e]; exact c.opened b
  · by_cases e : b = a
    · subst e; exact hs
    · rw [hpc b e]; exact c.small b

/-- An agent takes the mutex. -/
theorem takes (c : Ctl s) {s' : Sys} {a : Nat} (hn : s.lock = none)
    (ha' : (s'.pc a).crit = true) (hpc : ∀ b, b ≠ a → s'.pc b = s.pc b) (hl : s'.lock = some a)
    (ho : Open s'.trace a (s'.pc a)) (hf : Finished s'.trace) (hs : (s'.pc a).small) : Ctl s' := by
  have hc : ∀ b, (s.pc b).crit = false := by
    intro b
    cases k : (s.pc b).crit with
    | false => rfl
    | true => rw [(c.owned b).1 k] at hn; cases hn
  refine ⟨fun b => ?_, fun b => ?_, hf, fun b => ?_⟩
  · rw [hl]
    by_cases e : b = a
    · subst e; simp [ha']
    · rw [hpc b e, hc b]; simp; exact fun k => e k.symm
  · by_cases e : b = a
    · subst e; exact ho
    · rw [hpc b e]; exact open_of (hc b)
  · by_cases e : b = a
    · subst e; exact hs
    · rw [hpc b e]; exact c.small b

end Ctl

theorem ctl_start (h : Heap) (mem : Nat → Int) : Ctl (start h mem) where
  owned := by intro a; simp [start, Pc.crit]
  opened := fun _ => trivial
  finished := by intro t1 a pos n t2 ht; simp [start] at ht
  small := fun _ => trivial

/-- The invariant. -/
def Inv (s : Sys) : Prop := Ctl s ∧ ∃ m, Core s m

theorem setPc_same (s : Sys) (a : Nat) (p : Pc) : (setPc s a p).pc a = p := by simp [setPc]
theorem setPc_other (s : Sys) {a b : Nat} (p : Pc) (h : b ≠ a) : (setPc s a p).pc b = s.pc b := by
  simp [setPc, h]

theorem more_limit {n k : Nat} {c : Option Nat} (h : n ≤ limit c k) (hk : more n c = true)
    (hlt : n < k) : n + 1 ≤ limit c k := by
  cases c with
  | none => simp only [limit]; omega
  | some c => simp only [limit, more, decide_eq_true_eq] at *; omega

theorem limit_done {n k : Nat} {c : Option Nat} (h : n ≤ limit c k)
    (hk : more n c = false ∨ n = k) : n = limit c k := by
  cases c with
  | none => simp only [limit, more, Bool.true_eq_false, false_or] at *; omega
  | some c => simp only [limit, more, decide_eq_false_iff_not] at *; omega

theorem limit_le (c : Option Nat) (k : Nat) : limit c k ≤ k := by
  cases c with
  | none => exact Nat.le_refl _
  | some c => simp only [limit]; omega

/-- One step keeps the invariant, and nothing undefined happens. -/
theorem run_inv {s : Sys} (hi : Inv s) (a x : Nat) :
    run s a x = .stuck ∨ ∃ s', run s a x = .next s' ∧ Inv s' := by
  obtain ⟨ct, m, co⟩ := hi
  unfold run
  cases hp : s.pc a with
  | idle => exact Or.inl rfl
  | asleep => exact Or.inl rfl
  | waitLock pos v t =>
    simp only [acquire]
    cases hl : s.lock with
    | some b => exact Or.inl rfl
    | none =>
      refine Or.inr ⟨_, rfl, ?_, m, (co.setLock _).pcChange (by simp [hp, Pc.node])
        (by simp [hp, Pc.sleeps]) (Or.inr rfl)⟩
      refine ct.takes hl (a := a) ?_ ?_ rfl ?_ ct.finished ?_
      · rw [setPc_same]; rfl
      · intro b hb; exact setPc_other _ _ hb
      · rw [setPc_same]; trivial
      · rw [setPc_same]; have := ct.small a; rw [hp] at this; exact this
  | waitRead pos v t =>
    have hc : (s.pc a).crit = true := by rw [hp]; rfl
    have hlk := (ct.owned a).1 hc
    simp only
    split
    · refine Or.inr ⟨_, rfl, ?_, m, co.pcChange (by simp [hp, Pc.node]) (by simp [hp, Pc.sleeps])
        (Or.inr rfl)⟩
      refine ct.inside hc ?_ ?_ ?_ ct.finished ?_
      · intro b hb; rw [setPc_other _ _ hb]; exact ⟨rfl, id⟩
      · rw [setPc_same]; exact hlk
      · rw [setPc_same]; trivial
      · rw [setPc_same]; have := ct.small a; rw [hp] at this; exact this
    · refine Or.inr ⟨_, rfl, ?_, m, ((co.setLock _).pcChange (by simp [hp, Pc.node])
        (by simp [hp, Pc.sleeps]) (Or.inr rfl)).emitOther (fun _ _ => rfl)⟩
      refine ct.inside hc ?_ ?_ ?_ (finished_snoc ct.finished (by simp)) ?_
      · intro b hb
        show ((setPc _ a _).pc b).crit = _ ∧ (_ → ((setPc _ a _).pc b).small)
        rw [setPc_other _ _ hb]; exact ⟨rfl, id⟩
      · show _ = if ((setPc _ a _).pc a).crit then _ else _
        rw [setPc_same]; rfl
      · show Open _ a ((setPc _ a _).pc a)
        rw [setPc_same]; trivial
      · show ((setPc _ a _).pc a).small
        rw [setPc_same]; trivial
  | waitFind pos t =>
    have hc : (s.pc a).crit = true := by rw [hp]; rfl
    have hlk := (ct.owned a).1 hc
    simp only
    cases hf : find s pos x with
    | none => exact Or.inl rfl
    | some r =>
      obtain ⟨s1, h⟩ := r
      obtain ⟨h1, h2, h3, h4, m', co'⟩ := co.find hf
      refine Or.inr ⟨_, rfl, ?_, m', co'.pcHead (by simp [h2, hp, Pc.node])
        (by simp [h2, hp, Pc.sleeps]) rfl h1⟩
      refine ct.inside hc ?_ ?_ ?_ (by show Finished s1.trace; rw [h4]; exact ct.finished) ?_
      · intro b hb; rw [setPc_other _ _ hb, h2]; exact ⟨rfl, id⟩
      · rw [setPc_same]; show s1.lock = _; rw [h3]; exact hlk
      · rw [setPc_same]; trivial
      · rw [setPc_same]; have := ct.small a; rw [hp] at this; exact this
  | waitAdd pos h t =>
    have hc : (s.pc a).crit = true := by rw [hp]; rfl
    simp only
    have hsm : castOk t = true := by have := ct.small a; rw [hp] at this; exact this
    have hh : (pos, h) ∈ s.lists := co.head a pos h (by rw [hp]; rfl)
    cases hx : s.live x with
    | true => left; unfold add; rw [if_pos hx]
    | false =>
      obtain ⟨s', h1, h2, h3, h4, hm'⟩ := co.add (a := a) (by rw [hp]; rfl) hh hx hsm
      refine Or.inr ⟨s', h1, ?_, hm'⟩
      refine ct.inside hc ?_ ?_ ?_ (by rw [h4]; exact finished_snoc ct.finished (by simp)) ?_
      · intro b hb; rw [h2, setPc_other _ _ hb]; exact ⟨rfl, id⟩
      · rw [h2, h3, setPc_same]; rfl
      · rw [h2, setPc_same]; trivial
      · rw [h2, setPc_same]; trivial
  | roused pos w late =>
    simp only [acquire]
    cases hl : s.lock with
    | some b => exact Or.inl rfl
    | none =>
      refine Or.inr ⟨_, rfl, ?_, m, (co.setLock _).pcChange (by simp [hp, Pc.node])
        (by simp [hp, Pc.sleeps]) (Or.inr rfl)⟩
      refine ct.takes hl (a := a) ?_ ?_ rfl ?_ ct.finished ?_
      · rw [setPc_same]; rfl
      · intro b hb; exact setPc_other _ _ hb
      · rw [setPc_same]; trivial
      · rw [setPc_same]; trivial
  | leaving pos w late =>
    have hc : (s.pc a).crit = true := by rw [hp]; rfl
    obtain ⟨s', h1, h2, h3, h4, hm'⟩ := co.leave hp
    refine Or.inr ⟨s', h1, ?_, hm'⟩
    refine ct.inside hc ?_ ?_ ?_ (by rw [h4]; exact finished_snoc ct.finished (by simp)) ?_
    · intro b hb; rw [h2, setPc_other _ _ hb]; exact ⟨rfl, id⟩
    · rw [h2, h3, setPc_same]; rfl
    · rw [h2, setPc_same]; trivial
    · rw [h2, setPc_same]; trivial
  | noteLock pos c =>
    simp only [acquire]
    cases hl : s.lock with
    | some b => exact Or.inl rfl
    | none =>
      refine Or.inr ⟨_, rfl, ?_, m, ((co.setLock _).pcChange (by simp [hp, Pc.node])
        (by simp [hp, Pc.sleeps]) (Or.inr rfl)).emitOther (fun _ _ => rfl)⟩
      refine ct.takes hl (a := a) ?_ ?_ rfl ?_ (finished_snoc ct.finished (by simp)) ?_
      · show ((setPc _ a _).pc a).crit = _; rw [setPc_same]; rfl
      · intro b hb; exact setPc_other _ _ hb
      · show Open _ a ((setPc _ a _).pc a); rw [setPc_same]; exact ⟨s.trace, rfl⟩
      · show ((setPc _ a _).pc a).small; rw [setPc_same]; trivial
  | noteFind pos c =>
    have hc : (s.pc a).crit = true := by rw [hp]; rfl
    have hlk := (ct.owned a).1 hc
    simp only
    cases hf : find s pos x with
    | none => exact Or.inl rfl
    | some r =>
      obtain ⟨s1, h⟩ := r
      obtain ⟨h1, h2, h3, h4, m', co'⟩ := co.find hf
      refine Or.inr ⟨_, rfl, ?_, m', co'.pcHead (by simp [h2, hp, Pc.node])
        (by simp [h2, hp, Pc.sleeps]) rfl h1⟩
      refine ct.inside hc ?_ ?_ ?_ (by show Finished s1.trace; rw [h4]; exact ct.finished) ?_
      · intro b hb; rw [setPc_other _ _ hb, h2]; exact ⟨rfl, id⟩
      · rw [setPc_same]; show s1.lock = _; rw [h3]; exact hlk
      · rw [setPc_same]
        have ho := ct.opened a
        rw [hp] at ho
        obtain ⟨t0, ht⟩ := ho
        show Open s1.trace a _
        rw [h4]
        refine ⟨t0, by simp [ht], Nat.zero_le _, ?_⟩
        rw [ht, queue_snoc]; rfl
      · rw [setPc_same]; trivial
  | noteLoop pos h n c =>
    have hc : (s.pc a).crit = true := by rw [hp]; rfl
    have hlk := (ct.owned a).1 hc
    have hh : (pos, h) ∈ s.lists := co.head a pos h (by rw [hp]; rfl)
    obtain ⟨ns, hm, hq, hn⟩ := co.heads pos h hh
    have hlv := co.live pos h hh
    have hs := co.rel.seg h ns hm
    have ho := ct.opened a
    rw [hp] at ho
    obtain ⟨t0, ht, hle, hdr⟩ := ho
    have hemp := isEmpty_iff hs (co.rel.nodup h ns hm)
    simp only [loop]
    rw [if_neg (by simp [hlv])]
    split
    · next hmo =>
      cases ns with
      | nil => exact absurd (hemp.2 rfl) hmo.2
      | cons w ns =>
        have hnx : s.heap.next h = w := hs.1
        have hnb := (co.neighbours hm).2.2 w (by simp)
        have hlw := co.used_live ⟨h, _, hm, by simp⟩ (x := w)
        rw [hnx, if_neg (by simp [canRemove, hnb, hlw])]
        have hwn := hn w (by simp)
        have hne : s.owner w ≠ a := by
          intro e; rw [e, hp] at hwn; simp [Pc.node] at hwn
        refine Or.inr ⟨_, rfl, ?_, co.take (by rw [hp]; rfl) hh hm⟩
        have hqd : (queue pos t0).drop n = s.owner w :: ns.map s.owner := by rw [← hdr, ← hq]; rfl
        have hlt : n < (queue pos t0).length := by
          have := congrArg List.length hqd
          simp at this; omega
        have htk : (queue pos t0).take (n + 1) = (queue pos t0).take n ++ [s.owner w] := by
          have hg : (queue pos t0)[n]? = some (s.owner w) := by
            rw [← List.head?_drop, hqd]; rfl
          rw [List.take_add_one, hg]; rfl
        refine ct.inside hc ?_ ?_ ?_ ?_ ?_
        · intro b hb
          rw [co.taken_pc hwn, if_neg hb]
          split
          · rw [rouse_crit]
            exact ⟨rfl, rouse_small _ _⟩
          · exact ⟨rfl, id⟩
        · rw [Core.taken_lock, co.taken_pc hwn, if_pos rfl]; exact hlk
        · rw [co.taken_pc hwn, if_pos rfl, Core.taken_trace]
          refine ⟨t0, ?_, more_limit hle hmo.1 hlt, ?_⟩
          · rw [ht, htk]; simp
          · rw [queue_snoc]
            simp only [queueStep, if_pos]
            rw [hdr, hqd]
            simp only [List.erase_cons_head]
            have := congrArg List.tail hqd
            simpa using this.symm
        · rw [Core.taken_trace]
          exact finished_snoc ct.finished (by simp)
        · rw [co.taken_pc hwn, if_pos rfl]; trivial
    · next hmo =>
      refine Or.inr ⟨_, rfl, ?_, m, ((co.setLock _).pcChange (by simp [hp, Pc.node])
        (by simp [hp, Pc.sleeps]) (Or.inr rfl)).emitOther (fun _ _ => rfl)⟩
      have hfin : n = limit c (queue pos t0).length := by
        apply limit_done hle
        cases hmo' : more n c with
        | false => exact Or.inl rfl
        | true =>
          right
          have he : isEmpty s.heap h = true := by
            rw [hmo'] at hmo
            simpa using hmo
          rw [hemp.1 he] at hq
          have hz : (queue pos t0).drop n = [] := by rw [← hdr, ← hq]; rfl
          have h1 := limit_le c (queue pos t0).length
          have h2 := List.drop_eq_nil_iff.1 hz
          omega
      refine ct.inside hc ?_ ?_ ?_ (finished_snoc ct.finished ?_) ?_
      · intro b hb
        show ((setPc _ a _).pc b).crit = _ ∧ (_ → ((setPc _ a _).pc b).small)
        rw [setPc_other _ _ hb]; exact ⟨rfl, id⟩
      · show _ = if ((setPc _ a _).pc a).crit then _ else _
        rw [setPc_same]; rfl
      · show Open _ a ((setPc _ a _).pc a)
        rw [setPc_same]; trivial
      · intro a' pos' n' he
        simp only [Event.returns.injEq] at he
        obtain ⟨rfl, rfl, rfl⟩ := he
        exact ⟨t0, c, ht, hfin⟩
      · show ((setPc _ a _).pc a).small
        rw [setPc_same]; trivial

theorem rouse_inv {s : Sys} (hi : Inv s) (a : Nat) (late : Bool) :
    rouse s a late = .stuck ∨ ∃ s', rouse s a late = .next s' ∧ Inv s' := by
  obtain ⟨ct, m, co⟩ := hi
  unfold rouse
  split
  · next pos w t hp =>
    split
    · exact Or.inl rfl
    · refine Or.inr ⟨_, rfl, ?_, m, co.rouse late hp⟩
      refine ct.outside (a := a) (by rw [hp]; rfl) ?_ ?_ rfl rfl ?_
      · rw [setPc_same]; rfl
      · intro b hb; exact setPc_other _ _ hb
      · rw [setPc_same]; trivial
  · exact Or.inl rfl

theorem step_inv {s : Sys} (hi : Inv s) (o : Op) (hs : Small o) :
    step s o = .stuck ∨ ∃ s', step s o = .next s' ∧ Inv s' := by
  cases o with
  | run a x => exact run_inv hi a x
  | timer a => exact rouse_inv hi a true
  | spurious a => exact rouse_inv hi a false
  | store pos v =>
    obtain ⟨ct, m, co⟩ := hi
    exact Or.inr ⟨_, rfl, ⟨ct.owned, ct.opened, ct.finished, ct.small⟩, m, co.setMem _⟩
  | wait a pos v t =>
    obtain ⟨ct, m, co⟩ := hi
    simp only [step]
    split
    · next hp =>
      refine Or.inr ⟨_, rfl, ?_, m, co.pcChange (by simp [hp, Pc.node]) (by simp [hp, Pc.sleeps])
        (Or.inr rfl)⟩
      refine ct.outside (a := a) (by rw [hp]; rfl) ?_ ?_ rfl rfl ?_
      · rw [setPc_same]; rfl
      · intro b hb; exact setPc_other _ _ hb
      · rw [setPc_same]
        cases t with
        | none => rfl
        | some t =>
          have hs : t < 2 ^ 64 := hs
          simpa [Pc.small, castOk] using hs
    · exact Or.inl rfl
  | notify a pos c =>
    obtain ⟨ct, m, co⟩ := hi
    simp only [step]
    split
    · next hp =>
      refine Or.inr ⟨_, rfl, ?_, m, co.pcChange (by simp [hp, Pc.node]) (by simp [hp, Pc.sleeps])
        (Or.inr rfl)⟩
      refine ct.outside (a := a) (by rw [hp]; rfl) ?_ ?_ rfl rfl ?_
      · rw [setPc_same]; rfl
      · intro b hb; exact setPc_other _ _ hb
      · rw [setPc_same]; trivial
    · exact Or.inl rfl

theorem Run.inv {P : Sys → Op → Prop} (hP : ∀ s o, P s o → Small o) {s : Sys} (h : Run P s) :
    Inv s := by
  induction h with
  | start h mem => exact ⟨ctl_start h mem, _, core_start h mem⟩
  | @step s s' o _ hp he ih =>
    rcases step_inv ih o (hP s o hp) with k | ⟨s1, k, hi⟩
    · rw [k] at he; cases he
    · rw [k] at he; cases he; exact hi

end Verif.Waiter

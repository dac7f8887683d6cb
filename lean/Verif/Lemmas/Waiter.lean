import Verif.Spec.Waiter
import Verif.Lemmas.LinkedList
/-
Lemmas about the lists of waiters.
-/
namespace Verif.Waiter
open LinkedList

/-- The position and the waiter of an agent in `rjs_add_waiter`. -/
def Pc.node : Pc → Option (Nat × Nat)
  | .asleep p w _ => some (p, w)
  | .roused p w _ => some (p, w)
  | .leaving p w _ => some (p, w)
  | _ => none

def Pc.sleeps : Pc → Bool
  | .asleep _ _ _ => true
  | _ => false

/-- The agent has the mutex. -/
def Pc.crit : Pc → Bool
  | .waitRead _ _ _ => true
  | .waitFind _ _ => true
  | .waitAdd _ _ _ => true
  | .leaving _ _ _ => true
  | .noteFind _ _ => true
  | .noteLoop _ _ _ _ => true
  | _ => false

/-- The head used by the agent. -/
def Pc.head : Pc → Option (Nat × Nat)
  | .waitAdd p h _ => some (p, h)
  | .noteLoop p h _ _ => some (p, h)
  | _ => none

theorem queue_snoc (pos : Nat) (t : List Event) (e : Event) :
    queue pos (t ++ [e]) = queueStep pos (queue pos t) e := by
  simp [queue, List.foldl_append]

theorem setPc_pc (s : Sys) (a b : Nat) (p : Pc) :
    (setPc s a p).pc b = if b = a then p else s.pc b := rfl

/-- The lists, the waiters and the agents fit together. -/
structure Core (s : Sys) (m : Spec.World) : Prop where
  rel : Rel s.heap m
  heads : ∀ p h, (p, h) ∈ s.lists → ∃ ns, m h = some ns ∧ ns.map s.owner = queue p s.trace ∧
    ∀ w ∈ ns, (s.pc (s.owner w)).node = some (p, w)
  keys : ∀ p h h', (p, h) ∈ s.lists → (p, h') ∈ s.lists → h = h'
  addr : ∀ p p' h, (p, h) ∈ s.lists → (p', h) ∈ s.lists → p = p'
  empty : ∀ p, (∀ h, (p, h) ∉ s.lists) → queue p s.trace = []
  node : ∀ a p w, (s.pc a).node = some (p, w) → s.live w = true ∧ s.owner w = a ∧
    s.cond w = (if (s.pc a).sleeps then some a else none) ∧
    ((∃ h ns, (p, h) ∈ s.lists ∧ m h = some ns ∧ w ∈ ns) ∨
      ((s.pc a).sleeps = false ∧ m w = some [] ∧ ∀ q, (q, w) ∉ s.lists))
  live : ∀ p h, (p, h) ∈ s.lists → s.live h = true
  dom : ∀ h ns, m h = some ns → (∃ p, (p, h) ∈ s.lists) ∨
    (ns = [] ∧ ∃ a p, (s.pc a).node = some (p, h))
  head : ∀ a p h, (s.pc a).head = some (p, h) → (p, h) ∈ s.lists

theorem core_start (h : Heap) (mem : Nat → Int) : Core (start h mem) (fun _ => none) where
  rel := rel_empty h
  heads := by intro p h hm; simp [start] at hm
  keys := by intro p h _ hm; simp [start] at hm
  addr := by intro p h _ hm; simp [start] at hm
  empty := fun _ _ => rfl
  node := by intro a p w hn; simp [start, Pc.node] at hn
  live := by intro p h hm; simp [start] at hm
  dom := by intro h ns hm; simp at hm
  head := by intro a p h hm; simp [start, Pc.head] at hm

namespace Core
variable {s : Sys} {m : Spec.World}

theorem listed (c : Core s m) {p h : Nat} {ns : List Nat} (hl : (p, h) ∈ s.lists)
    (hm : m h = some ns) : ns.map s.owner = queue p s.trace ∧
      ∀ w ∈ ns, (s.pc (s.owner w)).node = some (p, w) := by
  obtain ⟨ns', h1, h2, h3⟩ := c.heads p h hl
  rw [hm] at h1; cases h1
  exact ⟨h2, h3⟩

theorem memHead (c : Core s m) {h w : Nat} {ns : List Nat} (hm : m h = some ns) (hw : w ∈ ns) :
    ∃ p, (p, h) ∈ s.lists := by
  rcases c.dom h ns hm with k | ⟨k, _⟩
  · exact k
  · subst k; cases hw

theorem used_live (c : Core s m) {x : Nat} (hu : Spec.Used m x) : s.live x = true := by
  obtain ⟨l, xs, hm, hx⟩ := hu
  rcases List.mem_cons.1 hx with rfl | hx
  · rcases c.dom x xs hm with ⟨p, k⟩ | ⟨_, a, p, k⟩
    · exact c.live p x k
    · exact (c.node a p x k).1
  · obtain ⟨p, k⟩ := c.memHead hm hx
    obtain ⟨_, k2⟩ := c.listed k hm
    exact (c.node _ _ _ (k2 x hx)).1

theorem notUsed (c : Core s m) {x : Nat} (hx : s.live x = false) : ¬ Spec.Used m x := by
  intro hu; rw [c.used_live hu] at hx; cases hx

/-- A change of the control of one agent that does not concern its waiter. -/
theorem pcChange (c : Core s m) {a : Nat} {p : Pc} (hn : p.node = (s.pc a).node)
    (hs : p.sleeps = (s.pc a).sleeps) (hh : p.head = (s.pc a).head ∨ p.head = none) :
    Core (setPc s a p) m := by
  have e1 : ∀ b, ((setPc s a p).pc b).node = (s.pc b).node := by
    intro b; rw [setPc_pc]; split
    · next k => rw [k, hn]
    · rfl
  have e2 : ∀ b, ((setPc s a p).pc b).sleeps = (s.pc b).sleeps := by
    intro b; rw [setPc_pc]; split
    · next k => rw [k, hs]
    · rfl
  refine ⟨c.rel, ?_, c.keys, c.addr, c.empty, ?_, c.live, ?_, ?_⟩
  · intro q h hl
    obtain ⟨ns, h1, h2, h3⟩ := c.heads q h hl
    exact ⟨ns, h1, h2, fun w hw => (e1 _).trans (h3 w hw)⟩
  · intro b q w hb
    rw [e2]
    exact c.node b q w ((e1 b).symm.trans hb)
  · intro h ns hm
    rcases c.dom h ns hm with k | ⟨k, b, q, k2⟩
    · exact Or.inl k
    · exact Or.inr ⟨k, b, q, (e1 b).trans k2⟩
  · intro b q h hb
    rw [setPc_pc] at hb
    split at hb
    · next k =>
      rcases hh with hh | hh
      · rw [hh] at hb; exact c.head a q h hb
      · rw [hh] at hb; cases hb
    · exact c.head b q h hb

/-- The head of a list is given to an agent. -/
theorem pcHead (c : Core s m) {a q h : Nat} {p : Pc} (hn : p.node = (s.pc a).node)
    (hs : p.sleeps = (s.pc a).sleeps) (hh : p.head = some (q, h)) (hl : (q, h) ∈ s.lists) :
    Core (setPc s a p) m := by
  have e1 : ∀ b, ((setPc s a p).pc b).node = (s.pc b).node := by
    intro b; rw [setPc_pc]; split
    · next k => rw [k, hn]
    · rfl
  have e2 : ∀ b, ((setPc s a p).pc b).sleeps = (s.pc b).sleeps := by
    intro b; rw [setPc_pc]; split
    · next k => rw [k, hs]
    · rfl
  refine ⟨c.rel, ?_, c.keys, c.addr, c.empty, ?_, c.live, ?_, ?_⟩
  · intro q h hl
    obtain ⟨ns, h1, h2, h3⟩ := c.heads q h hl
    exact ⟨ns, h1, h2, fun w hw => (e1 _).trans (h3 w hw)⟩
  · intro b q w hb
    rw [e2]
    exact c.node b q w ((e1 b).symm.trans hb)
  · intro h ns hm
    rcases c.dom h ns hm with k | ⟨k, b, q, k2⟩
    · exact Or.inl k
    · exact Or.inr ⟨k, b, q, (e1 b).trans k2⟩
  · intro b q' h' hb
    rw [setPc_pc] at hb
    split at hb
    · rw [hh] at hb; cases hb; exact hl
    · exact c.head b q' h' hb

theorem setLock (c : Core s m) (l : Option Nat) : Core { s with lock := l } m :=
  ⟨c.rel, c.heads, c.keys, c.addr, c.empty, c.node, c.live, c.dom, c.head⟩

theorem setMem (c : Core s m) (l : Nat → Int) : Core { s with mem := l } m :=
  ⟨c.rel, c.heads, c.keys, c.addr, c.empty, c.node, c.live, c.dom, c.head⟩

/-- Events that say nothing about waiting agents. -/
theorem emitOther (c : Core s m) {e : Event} (he : ∀ p q, queueStep p q e = q) :
    Core (emit s e) m := by
  have e1 : ∀ p, queue p (emit s e).trace = queue p s.trace := by
    intro p; show queue p (s.trace ++ [e]) = _; rw [queue_snoc, he]
  refine ⟨c.rel, ?_, c.keys, c.addr, ?_, c.node, c.live, c.dom, c.head⟩
  · intro p h hl
    obtain ⟨ns, h1, h2, h3⟩ := c.heads p h hl
    exact ⟨ns, h1, h2.trans (e1 p).symm, h3⟩
  · intro p hp; rw [e1]; exact c.empty p hp

theorem lookup_mem {l : List (Nat × Nat)} {p h : Nat} (hl : l.lookup p = some h) : (p, h) ∈ l := by
  induction l with
  | nil => cases hl
  | cons x l ih =>
    obtain ⟨q, k⟩ := x
    simp only [List.lookup] at hl
    split at hl
    · next e => cases hl; simp at e; simp [e]
    · exact List.mem_cons_of_mem _ (ih hl)

theorem lookup_none {l : List (Nat × Nat)} {p : Nat} (hl : l.lookup p = none) (h : Nat) :
    (p, h) ∉ l := by
  induction l with
  | nil => simp
  | cons x l ih =>
    obtain ⟨q, k⟩ := x
    simp only [List.lookup] at hl
    split at hl
    · cases hl
    · next e =>
      simp at e
      simp only [List.mem_cons, Prod.mk.injEq, not_or]
      exact ⟨fun k => e k.1, ih hl⟩

theorem find {pos x h : Nat} {s' : Sys} (c : Core s m) (hf : find s pos x = some (s', h)) :
    (pos, h) ∈ s'.lists ∧ s'.pc = s.pc ∧ s'.lock = s.lock ∧ s'.trace = s.trace ∧
      ∃ m', Core s' m' := by
  unfold Waiter.find at hf
  split at hf
  · next k hk => cases hf; exact ⟨lookup_mem hk, rfl, rfl, rfl, m, c⟩
  · next hk =>
    split at hf
    · cases hf
    · next hx =>
      have hx : s.live x = false := by simpa using hx
      cases hf
      have hnl : ∀ p, (p, x) ∉ s.lists := by
        intro p hp; rw [c.live p x hp] at hx; cases hx
      have hnu := c.notUsed hx
      have e1 : ∀ h, h ≠ x → Spec.step m (.init x) h = m h := by
        intro h hh; simp [Spec.step, hh]
      refine ⟨by simp, rfl, rfl, rfl, Spec.step m (.init x), ?_⟩
      refine ⟨step_rel c.rel (.init x) hnu, ?_, ?_, ?_, ?_, ?_, ?_, ?_, ?_⟩
      · intro p h hl
        simp only [List.mem_append, List.mem_singleton, Prod.mk.injEq] at hl
        rcases hl with hl | ⟨rfl, rfl⟩
        · rw [e1 h (by rintro rfl; exact hnl p hl)]
          exact c.heads p h hl
        · refine ⟨[], by simp [Spec.step], ?_, by simp⟩
          exact (c.empty p (lookup_none hk)).symm
      · intro p h h' hl hl'
        simp only [List.mem_append, List.mem_singleton, Prod.mk.injEq] at hl hl'
        rcases hl with hl | ⟨rfl, rfl⟩ <;> rcases hl' with hl' | ⟨h1, rfl⟩
        · exact c.keys p h h' hl hl'
        · subst h1; exact absurd hl (lookup_none hk _)
        · exact absurd hl' (lookup_none hk _)
        · rfl
      · intro p p' h hl hl'
        simp only [List.mem_append, List.mem_singleton, Prod.mk.injEq] at hl hl'
        rcases hl with hl | ⟨rfl, rfl⟩ <;> rcases hl' with hl' | ⟨h1, h2⟩
        · exact c.addr p p' h hl hl'
        · subst h2; exact absurd hl (hnl p)
        · exact absurd hl' (hnl p')
        · exact h1.symm
      · intro p hp
        exact c.empty p (fun h hh => hp h (by simp [hh]))
      · intro a p w hn
        obtain ⟨h1, h2, h3, h4⟩ := c.node a p w hn
        refine ⟨by simp [h1], h2, h3, ?_⟩
        have hwx : w ≠ x := by rintro rfl; rw [h1] at hx; cases hx
        rcases h4 with ⟨h, ns, k1, k2, k3⟩ | ⟨k1, k2, k3⟩
        · exact Or.inl ⟨h, ns, by simp [k1], by rw [e1 h (by rintro rfl; exact hnl p k1)]; exact k2, k3⟩
        · refine Or.inr ⟨k1, by rw [e1 w hwx]; exact k2, ?_⟩
          intro q; simp [k3 q, hwx]
      · intro p h hl
        simp only [List.mem_append, List.mem_singleton, Prod.mk.injEq] at hl
        rcases hl with hl | ⟨rfl, rfl⟩
        · simp [c.live p h hl]
        · simp
      · intro h ns hm
        by_cases hh : h = x
        · subst hh; exact Or.inl ⟨pos, by simp⟩
        · rw [e1 h hh] at hm
          rcases c.dom h ns hm with ⟨p, k⟩ | k
          · exact Or.inl ⟨p, by simp [k]⟩
          · exact Or.inr k
      · intro a p h hh
        simp [c.head a p h hh]

/-- The neighbours of nodes and heads are alive. -/
theorem neighbours (c : Core s m) {h : Nat} {ns : List Nat} (hm : m h = some ns) :
    s.live (s.heap.prev h) = true ∧ s.live (s.heap.next h) = true ∧
      ∀ w ∈ ns, s.live (s.heap.prev w) = true ∧ s.live (s.heap.next w) = true := by
  have hs := c.rel.seg h ns hm
  have hl : ∀ x, x ∈ h :: ns → s.live x = true := fun x hx => c.used_live ⟨h, ns, hm, hx⟩
  refine ⟨hl _ ?_, hl _ ?_, fun w hw => ?_⟩
  · rw [(seg_ends hs).2]; exact List.getLast_mem _
  · rw [(seg_ends hs).1]
    have := List.head_mem (l := ns ++ [h]) (by simp)
    simp only [List.mem_append, List.mem_singleton] at this
    simp only [List.mem_cons]
    rcases this with k | k
    · exact Or.inr k
    · exact Or.inl k
  · obtain ⟨h1, h2⟩ := neighbours_mem hs hw
    exact ⟨hl _ h1, hl _ h2⟩

theorem add (c : Core s m) {a pos h x : Nat} {t : Option Nat} (hp : (s.pc a).node = none)
    (hl : (pos, h) ∈ s.lists) (hx : s.live x = false) (ht : castOk t = true) :
    ∃ s', add s a pos h t x = .next s' ∧ s'.pc = (setPc s a (.asleep pos x t)).pc ∧
      s'.lock = none ∧ s'.trace = s.trace ++ [.enter pos a] ∧ ∃ m', Core s' m' := by
  obtain ⟨ns, hm, hq, hn⟩ := c.heads pos h hl
  have hlv := c.live pos h hl
  refine ⟨added s a pos h t x, by unfold Waiter.add; rw [if_neg (by simp [hx]), if_neg (by simp [hlv, (c.neighbours hm).1]), if_neg (by simp [ht])], rfl, rfl, rfl, Spec.step m (.append h x), ?_⟩
  have hnu := c.notUsed hx
  have e1 : Spec.step m (.append h x) h = some (ns ++ [x]) := by simp [Spec.step, hm]
  have e2 : ∀ k, k ≠ h → Spec.step m (.append h x) k = m k := by
    intro k hk; simp [Spec.step, hk]
  have ow : ∀ b q w, (s.pc b).node = some (q, w) → w ≠ x := by
    rintro b q w hb rfl; rw [(c.node b q w hb).1] at hx; cases hx
  have oa : ∀ b q w, (s.pc b).node = some (q, w) → b ≠ a := by
    rintro b q w hb rfl; rw [hp] at hb; cases hb
  have hnsx : ∀ k ks, m k = some ks → ∀ w ∈ ks, w ≠ x := by
    rintro k ks hk w hw rfl
    exact hnu ⟨k, ks, hk, by simp [hw]⟩
  have hmap : ∀ k ks, m k = some ks →
      ks.map (fun y => if y = x then a else s.owner y) = ks.map s.owner := by
    intro k ks hk
    apply List.map_congr_left
    intro w hw; rw [if_neg (hnsx k ks hk w hw)]
  refine ⟨step_rel c.rel (.append h x) ⟨by simp [hm], hnu⟩, ?_, c.keys, c.addr, ?_, ?_, ?_, ?_, ?_⟩
  · intro p k hk
    show ∃ ns, _ ∧ List.map (fun y => if y = x then a else s.owner y) ns = queue p (s.trace ++ [_]) ∧ _
    rw [queue_snoc]
    simp only [queueStep]
    by_cases e : k = h
    · subst e
      have := c.addr _ _ _ hk hl; subst this
      refine ⟨_, e1, ?_, ?_⟩
      · rw [if_pos rfl, List.map_append, hmap k ns hm, hq]; simp
      · intro w hw
        simp only [List.mem_append, List.mem_singleton] at hw
        rcases hw with hw | rfl
        · simp only [added, left, emit, setPc, if_neg (hnsx k ns hm w hw)]
          rw [if_neg (oa _ _ _ (hn w hw))]; exact hn w hw
        · simp [added, left, emit, setPc, Pc.node]
    · obtain ⟨ks, k1, k2, k3⟩ := c.heads p k hk
      have : pos ≠ p := by rintro rfl; exact e (c.keys _ _ _ hk hl)
      refine ⟨ks, (e2 k e).trans k1, ?_, ?_⟩
      · rw [if_neg this, hmap k ks k1, k2]
      · intro w hw
        simp only [added, left, emit, setPc, if_neg (hnsx k ks k1 w hw)]
        rw [if_neg (oa _ _ _ (k3 w hw))]; exact k3 w hw
  · intro p hp'
    show queue p (s.trace ++ [_]) = []
    rw [queue_snoc]
    have : pos ≠ p := by rintro rfl; exact hp' h hl
    simp only [queueStep, if_neg this]
    exact c.empty p hp'
  · intro b p w hb
    simp only [added, left, emit, setPc] at hb ⊢
    by_cases e : b = a
    · subst e
      rw [if_pos rfl] at hb ⊢
      simp only [Pc.node, Option.some.injEq, Prod.mk.injEq] at hb
      obtain ⟨rfl, rfl⟩ := hb
      refine ⟨by simp, by simp, by simp [Pc.sleeps], Or.inl ⟨h, _, hl, e1, by simp⟩⟩
    · rw [if_neg e] at hb ⊢
      obtain ⟨h1, h2, h3, h4⟩ := c.node b p w hb
      have hwx := ow b p w hb
      refine ⟨by simp [h1], by simp [hwx, h2], by simp [hwx, h3], ?_⟩
      rcases h4 with ⟨k, ks, k1, k2, k3⟩ | ⟨k1, k2, k3⟩
      · refine Or.inl ?_
        by_cases e' : k = h
        · subst e'; exact ⟨k, _, k1, e1, by rw [hm] at k2; cases k2; simp [k3]⟩
        · exact ⟨k, ks, k1, (e2 k e').trans k2, k3⟩
      · refine Or.inr ⟨k1, (e2 w ?_).trans k2, k3⟩
        rintro rfl; exact k3 pos hl
  · intro p k hk
    simp [added, left, emit, setPc, c.live p k hk]
  · intro k ks hk
    by_cases e : k = h
    · subst e; exact Or.inl ⟨pos, hl⟩
    · rw [e2 k e] at hk
      rcases c.dom k ks hk with k1 | ⟨k1, b, q, k2⟩
      · exact Or.inl k1
      · refine Or.inr ⟨k1, b, q, ?_⟩
        simp only [added, left, emit, setPc]; rw [if_neg (oa b q k k2)]; exact k2
  · intro b p k hk
    simp only [added, left, emit, setPc] at hk
    split at hk
    · simp [Pc.head] at hk
    · exact c.head b p k hk

/-- `rjs_list_remove` on a node that is alone does nothing. -/
theorem remove_alone {h : Heap} {w : Nat} (hn : h.next w = w) (hp : h.prev w = w) :
    remove h w = h := by
  have h1 : h.setNext w w = h := by
    unfold Heap.setNext
    have : (fun a => if a = w then w else h.next a) = h.next := by
      funext a; split
      · next e => rw [e, hn]
      · rfl
    rw [this]
  have h2 : h.setPrev w w = h := by
    unfold Heap.setPrev
    have : (fun a => if a = w then w else h.prev a) = h.prev := by
      funext a; split
      · next e => rw [e, hp]
      · rfl
    rw [this]
  simp only [remove, hn, hp, h1, h2]

/-- The world without a head. -/
def drop (m : Spec.World) (w : Nat) : Spec.World := fun a => if a = w then none else m a

theorem rel_drop {h : Heap} (r : Rel h m) (w : Nat) : Rel h (drop m w) := by
  have e : ∀ l xs, drop m w l = some xs → m l = some xs := by
    intro l xs hl; unfold drop at hl; split at hl
    · cases hl
    · exact hl
  exact ⟨fun l xs hl => r.seg l xs (e l xs hl), fun l xs hl => r.nodup l xs (e l xs hl),
    fun l xs l' xs' hl hl' => r.disj l xs l' xs' (e l xs hl) (e l' xs' hl')⟩

theorem erase_map {f : Nat → Nat} {ns : List Nat} {w : Nat} (hw : w ∈ ns) (hnd : ns.Nodup)
    (hi : ∀ x ∈ ns, f x = f w → x = w) : (ns.map f).erase (f w) = (ns.filter (· ≠ w)).map f := by
  induction ns with
  | nil => cases hw
  | cons x xs ih =>
    rw [List.nodup_cons] at hnd
    by_cases e : x = w
    · subst e
      have : xs.filter (· ≠ x) = xs := by
        rw [List.filter_eq_self]
        intro y hy; simp; rintro rfl; exact hnd.1 hy
      simp only [List.map_cons, List.erase_cons_head]
      rw [List.filter_cons_of_neg (by simp), this]
    · have hf : f x ≠ f w := fun k => e (hi x (by simp) k)
      rw [List.map_cons, List.erase_cons_tail (by simpa using hf), List.filter_cons_of_pos (by simpa using e),
        List.map_cons, ih (by rcases List.mem_cons.1 hw with k | k; exact absurd k.symm e; exact k) hnd.2
          (fun y hy => hi y (by simp [hy]))]

theorem leave (c : Core s m) {a pos w : Nat} {late : Bool} (hp : s.pc a = .leaving pos w late) :
    ∃ s', leave s a pos w late = .next s' ∧ s'.pc = (setPc s a .idle).pc ∧
      s'.lock = none ∧ s'.trace = s.trace ++ [.leave pos a late] ∧ ∃ m', Core s' m' := by
  have hna : (s.pc a).node = some (pos, w) := by rw [hp]; rfl
  obtain ⟨hlw, how, hcw, hw⟩ := c.node a pos w hna
  have hcw : s.cond w = none := by rw [hcw, hp]; rfl
  have oa : ∀ b q x, (s.pc b).node = some (q, x) → x ≠ w → b ≠ a := by
    rintro b q x hb hx rfl; rw [hna] at hb; cases hb; exact hx rfl
  have ow : ∀ b q x, (s.pc b).node = some (q, x) → b ≠ a → x ≠ w := by
    rintro b q x hb hb' rfl
    exact hb' ((c.node b q x hb).2.1.symm.trans how)
  have own : ∀ x q, (s.pc (s.owner x)).node = some (q, x) → s.owner x = a → x = w := by
    intro x q h1 h2; rw [h2, hna] at h1; cases h1; rfl
  have hcr : canRemove s w = true := by
    rcases hw with ⟨h, ns, h1, h2, h3⟩ | ⟨_, h2, _⟩
    · have := (c.neighbours h2).2.2 w h3
      simp [canRemove, hlw, this.1, this.2]
    · have := c.neighbours h2
      simp [canRemove, hlw, this.1, this.2.1]
  refine ⟨left s a pos w late, by unfold Waiter.leave; rw [if_neg (by simp [hcr]), if_neg (by simp [hcw])], rfl, rfl, rfl, ?_⟩
  rcases hw with ⟨h, ns, hl, hm, hwn⟩ | ⟨_, hm, hnl⟩
  · -- still in the list
    have e1 : Spec.step m (.remove w) h = some (ns.filter (· ≠ w)) := by
      simp only [Spec.step, hm, Option.map_some]
    have hout : ∀ k ks, m k = some ks → k ≠ h → w ∉ k :: ks := by
      intro k ks hk hkh
      exact fun hc => (c.rel.disj h ns k ks hm hk (fun e => hkh e.symm) w (by simp [hwn])) hc
    have e2 : ∀ k ks, m k = some ks → k ≠ h → Spec.step m (.remove w) k = some ks := by
      intro k ks hk hkh
      simp only [Spec.step, hk, Option.map_some, Option.some.injEq]
      rw [List.filter_eq_self]
      intro y hy; simp; rintro rfl; exact hout k ks hk hkh (by simp [hy])
    have e3 : ∀ k ks, Spec.step m (.remove w) k = some ks → ∃ js, m k = some js ∧
        ks = js.filter (· ≠ w) := by
      intro k ks hk
      simp only [Spec.step, Option.map_eq_some_iff] at hk
      obtain ⟨js, h1, h2⟩ := hk
      exact ⟨js, h1, h2.symm⟩
    have hwh : ∀ q, (q, w) ∉ s.lists := by
      intro q hq
      obtain ⟨ks, k1, _⟩ := c.heads q w hq
      by_cases e : w = h
      · subst e
        have := (c.rel.nodup w ns hm)
        rw [List.nodup_cons] at this
        exact this.1 hwn
      · exact hout w ks k1 e (by simp)
    obtain ⟨hq, hn⟩ := c.listed hl hm
    have hnd : ns.Nodup := (List.nodup_cons.1 (c.rel.nodup h ns hm)).2
    refine ⟨Spec.step m (.remove w), ?_⟩
    refine ⟨step_rel c.rel (.remove w) ⟨h, ns, hm, hwn⟩, ?_, c.keys, c.addr, ?_, ?_, ?_, ?_, ?_⟩
    · intro p k hk
      show ∃ ns, _ ∧ List.map s.owner ns = queue p (s.trace ++ [_]) ∧ _
      rw [queue_snoc]
      simp only [queueStep]
      by_cases e : k = h
      · subst e
        have := c.addr _ _ _ hk hl; subst this
        refine ⟨_, e1, ?_, ?_⟩
        · rw [if_pos rfl, ← hq, ← erase_map hwn hnd, how]
          intro x hx hxw
          exact own x p (hn x hx) (hxw.trans how)
        · intro x hx
          simp only [List.mem_filter, ne_eq, decide_eq_true_eq] at hx
          simp only [added, left, emit, setPc]
          rw [if_neg (oa _ _ _ (hn x hx.1) hx.2)]
          exact hn x hx.1
      · obtain ⟨ks, k1, k2, k3⟩ := c.heads p k hk
        have hpp : pos ≠ p := by rintro rfl; exact e (c.keys _ _ _ hk hl)
        refine ⟨ks, e2 k ks k1 e, ?_, ?_⟩
        · rw [if_neg hpp, k2]
        · intro x hx
          simp only [added, left, emit, setPc]
          have hxw : x ≠ w := by rintro rfl; exact hout k ks k1 e (by simp [hx])
          rw [if_neg (oa _ _ _ (k3 x hx) hxw)]
          exact k3 x hx
    · intro p hp'
      show queue p (s.trace ++ [_]) = []
      rw [queue_snoc]
      have : pos ≠ p := by rintro rfl; exact hp' h hl
      simp only [queueStep, if_neg this]
      exact c.empty p hp'
    · intro b p x hb
      simp only [added, left, emit, setPc] at hb ⊢
      by_cases e : b = a
      · rw [if_pos e] at hb; simp [Pc.node] at hb
      · rw [if_neg e] at hb ⊢
        obtain ⟨h1, h2, h3, h4⟩ := c.node b p x hb
        have hxw := ow b p x hb e
        refine ⟨by simp [hxw, h1], h2, h3, ?_⟩
        rcases h4 with ⟨k, ks, k1, k2, k3⟩ | ⟨k1, k2, k3⟩
        · refine Or.inl ⟨k, ks.filter (· ≠ w), k1, by simp only [Spec.step, k2, Option.map_some], ?_⟩
          simp [k3, hxw]
        · refine Or.inr ⟨k1, ?_, k3⟩
          simp [Spec.step, k2]
    · intro p k hk
      have : k ≠ w := by rintro rfl; exact hwh p hk
      simp [added, left, emit, setPc, this, c.live p k hk]
    · intro k ks hk
      obtain ⟨js, k1, k2⟩ := e3 k ks hk
      rcases c.dom k js k1 with k3 | ⟨k3, b, q, k4⟩
      · exact Or.inl k3
      · refine Or.inr ⟨by rw [k2, k3]; rfl, b, q, ?_⟩
        simp only [added, left, emit, setPc]
        have : k ≠ w := by
          rintro rfl
          by_cases e : k = h
          · subst e; exact hwh pos hl
          · exact hout k js k1 e (by simp)
        rw [if_neg (oa b q k k4 this)]; exact k4
    · intro b p k hk
      simp only [added, left, emit, setPc] at hk
      split at hk
      · simp [Pc.head] at hk
      · exact c.head b p k hk
  · -- taken out by `notify`
    have hs := c.rel.seg w [] hm
    have hrem : remove s.heap w = s.heap := remove_alone hs.1 hs.2
    have hout : ∀ k ks, m k = some ks → k ≠ w → w ∉ k :: ks := by
      intro k ks hk hkh hc
      exact (c.rel.disj k ks w [] hk hm hkh w hc) (by simp)
    have e2 : ∀ k, k ≠ w → drop m w k = m k := by intro k hk; simp [drop, hk]
    refine ⟨drop m w, ?_⟩
    refine ⟨?_, ?_, c.keys, c.addr, ?_, ?_, ?_, ?_, ?_⟩
    · show Rel (remove s.heap w) _
      rw [hrem]; exact rel_drop c.rel w
    · intro p k hk
      show ∃ ns, _ ∧ List.map s.owner ns = queue p (s.trace ++ [_]) ∧ _
      rw [queue_snoc]
      simp only [queueStep]
      have hkw : k ≠ w := by rintro rfl; exact hnl p hk
      obtain ⟨ks, k1, k2, k3⟩ := c.heads p k hk
      have hxw : ∀ x ∈ ks, x ≠ w := by
        rintro x hx rfl; exact hout k ks k1 hkw (by simp [hx])
      refine ⟨ks, (e2 k hkw).trans k1, ?_, ?_⟩
      · split
        · next e =>
          rw [← k2, List.erase_of_not_mem]
          intro hc
          obtain ⟨x, hx, hxa⟩ := List.mem_map.1 hc
          exact hxw x hx (own x p (k3 x hx) hxa)
        · exact k2
      · intro x hx
        simp only [added, left, emit, setPc]
        rw [if_neg (oa _ _ _ (k3 x hx) (hxw x hx))]
        exact k3 x hx
    · intro p hp'
      show queue p (s.trace ++ [_]) = []
      rw [queue_snoc]
      simp only [queueStep, c.empty p hp']
      split <;> rfl
    · intro b p x hb
      simp only [added, left, emit, setPc] at hb ⊢
      by_cases e : b = a
      · rw [if_pos e] at hb; simp [Pc.node] at hb
      · rw [if_neg e] at hb ⊢
        obtain ⟨h1, h2, h3, h4⟩ := c.node b p x hb
        have hxw := ow b p x hb e
        refine ⟨by simp [hxw, h1], h2, h3, ?_⟩
        rcases h4 with ⟨k, ks, k1, k2, k3⟩ | ⟨k1, k2, k3⟩
        · have hkw : k ≠ w := by rintro rfl; exact hnl p k1
          exact Or.inl ⟨k, ks, k1, (e2 k hkw).trans k2, k3⟩
        · exact Or.inr ⟨k1, (e2 x hxw).trans k2, k3⟩
    · intro p k hk
      have : k ≠ w := by rintro rfl; exact hnl p hk
      simp [added, left, emit, setPc, this, c.live p k hk]
    · intro k ks hk
      have hkw : k ≠ w := by rintro rfl; simp [drop] at hk
      rw [e2 k hkw] at hk
      rcases c.dom k ks hk with k3 | ⟨k3, b, q, k4⟩
      · exact Or.inl k3
      · refine Or.inr ⟨k3, b, q, ?_⟩
        simp only [added, left, emit, setPc]
        rw [if_neg (oa b q k k4 hkw)]; exact k4
    · intro b p k hk
      simp only [added, left, emit, setPc] at hk
      split at hk
      · simp [Pc.head] at hk
      · exact c.head b p k hk

end Core
end Verif.Waiter

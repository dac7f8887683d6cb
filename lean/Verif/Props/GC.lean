import Verif.Lemmas.GCSteps
/-
C07, C08, C09 and C57: the garbage collector and the weak references.
-/
namespace Verif.GC
open Spec

/-- **C07** (one collection).  On every heap graph, with every capacity of the mark stack
(so with every number of overflows), a collection terminates, touches no freed thing, and
keeps every reachable thing with its contents. -/
theorem C07_collect (n cap fuel : Nat) (refs : Nat → List Nat) (roots : List Nat)
    (hr : ∀ t < n, ∀ u ∈ refs t, u < n) (hroots : ∀ t ∈ roots, t < n) (hf : 2 * n + 2 ≤ fuel) :
    ∃ h', gcRun cap fuel (ofGraph n refs roots) = some h' ∧
      ∀ t, Reach refs roots t → t ∈ h'.list ∧ t ∉ h'.freed ∧ (h'.body t).refs = refs t := by
  obtain ⟨h', h1, h2, h3⟩ := gcRun_spec (cap := cap) (fuel := fuel) (inv_ofGraph hr hroots)
    (by simpa [ofGraph] using hf)
  refine ⟨h', h1, fun t ht => ?_⟩
  have hl : t ∈ h'.list := (h3.list t).2 ht
  exact ⟨hl, fun hc => h2.freedDead t hc hl, h3.refs t⟩

/-- A cyclic graph whose mark stack (capacity 1) overflows: 0 refers to 1, 2, 3; 3 to 0;
4 and 5 form an unreachable cycle. -/
example : (gcRun 1 20 (ofGraph 6 (fun t => [[1, 2, 3], [], [], [0], [5], [4]].getD t []) [0])).map
    (fun h => (h.list, h.freed)) = some ([0, 1, 2, 3], [4, 5]) := by decide +kernel

/-- **C07** (histories).  Whatever the engine does with the things it can reach, and
whenever collections happen, no freed thing is ever touched, and the heap agrees with an
ideal heap on which collections do nothing: every thing reachable there is present, has
not been freed and has the same references. -/
theorem C07_history (cap fuel : Nat) (ops : List Op) (hf : 2 * ops.length + 4 ≤ fuel)
    (hl : LegalRun Ideal.init ops) :
    ∃ h' i', run cap fuel init ops = some h' ∧ Spec.Run Ideal.init ops i' ∧
      h'.roots = i'.roots ∧
      ∀ t, i'.Live t → t ∈ h'.list ∧ t ∉ h'.freed ∧ (h'.body t).refs = i'.refs t := by
  obtain ⟨h', i', h1, h2, h3, h4, _⟩ := run_sim (cap := cap) (fuel := fuel) ops init Ideal.init inv_init
    sim_init (by simpa [init] using hf) hl
  refine ⟨h', i', h1, h2, h4.roots, fun t ht => ?_⟩
  have hm := h4.mem h3 ht
  exact ⟨hm, fun hc => h3.freedDead t hc hm, h4.refs t hm⟩

/-- **C08** (one collection).  What is left is exactly what is reachable, in the old order;
everything else has been freed exactly once; no flag is left set. -/
theorem C08_collect (n cap fuel : Nat) (refs : Nat → List Nat) (roots : List Nat)
    (hr : ∀ t < n, ∀ u ∈ refs t, u < n) (hroots : ∀ t ∈ roots, t < n) (hf : 2 * n + 2 ≤ fuel) :
    ∃ h', gcRun cap fuel (ofGraph n refs roots) = some h' ∧
      (∀ t, t ∈ h'.list ↔ Reach refs roots t) ∧ h'.list.Sublist (List.range n) ∧
      (∀ t, h'.freed.count t = if t ∈ h'.list ∨ n ≤ t then 0 else 1) ∧
      ∀ t, h'.marked t = false ∧ h'.scanned t = false := by
  obtain ⟨h', h1, h2, h3⟩ := gcRun_spec (cap := cap) (fuel := fuel) (inv_ofGraph hr hroots)
    (by simpa [ofGraph] using hf)
  refine ⟨h', h1, h3.list, h3.sub, fun t => ?_, h2.clean⟩
  have hfr := h2.fresh t
  rw [h3.fresh] at hfr
  split
  · rename_i hc
    rw [List.count_eq_zero]
    intro hm
    rcases hc with hc | hc
    · exact h2.freedDead t hm hc
    · have : t < n := hfr.1 (.inr hm)
      omega
  · rename_i hc
    refine List.count_eq_one_of_mem h2.freedNodup ?_
    have hc' : t ∉ h'.list ∧ t < n := by
      constructor
      · exact fun h => hc (.inl h)
      · by_contra h; exact hc (.inr (by omega))
    rcases hfr.2 hc'.2 with h | h
    · exact absurd h hc'.1
    · exact h

/-- **C08** (histories).  After any history which ends with a collection the things in
memory are exactly the reachable ones, every other thing ever allocated has been freed
exactly once, and no flag is left set. -/
theorem C08_history (cap fuel : Nat) (ops : List Op) (hf : 2 * ops.length + 6 ≤ fuel)
    (hl : LegalRun Ideal.init ops) :
    ∃ h h' i', run cap fuel init ops = some h ∧ step cap fuel h .collect = some h' ∧
      Spec.Run Ideal.init ops i' ∧
      (∀ t, t ∈ h'.list ↔ i'.Live t) ∧ h'.list.Nodup ∧
      (∀ t, i'.Live t → h'.freed.count t = 0) ∧
      (∀ t < i'.fresh, ¬ i'.Live t → h'.freed.count t = 1) ∧
      ∀ t, h'.marked t = false ∧ h'.scanned t = false := by
  obtain ⟨h, i', h1, h2, h3, h4, h5⟩ := run_sim (cap := cap) (fuel := fuel) ops init Ideal.init
    inv_init sim_init (by simp only [init]; omega) hl
  obtain ⟨h', g1, g2, g3, g4⟩ := gc_sim (cap := cap) (fuel := fuel) h3 h4
    (by simp only [init] at h5; omega)
  have hlist : ∀ t, t ∈ h'.list ↔ i'.Live t := fun t => by rw [g4.list, h4.live h3]
  refine ⟨h, h', i', h1, g1, h2, hlist, g2.nodup, fun t ht => ?_, fun t ht hn => ?_, g2.clean⟩
  · rw [List.count_eq_zero]
    exact fun hc => g2.freedDead t hc ((hlist t).2 ht)
  · refine List.count_eq_one_of_mem g2.freedNodup ?_
    rcases (g2.fresh t).2 (by rw [g3.fresh]; exact ht) with h | h
    · exact absurd ((hlist t).1 h) hn
    · exact h

/-- A history with a cycle which becomes unreachable: 0 and 1 refer to each other, 2 is
held by a root; the collection in the last allocation frees 0 and 1. -/
def demo : List Op :=
  [.alloc [] none false, .alloc [0] (some 0) false, .alloc [] none true, .setRoots [2],
   .alloc [2] (some 2) true]

theorem demo_legal : LegalRun Ideal.init demo := by
  refine ⟨⟨by simp, by simp⟩, ?_⟩
  intro i1 s1; cases s1
  refine ⟨⟨?_, ?_⟩, ?_⟩
  · intro t ht; exact .root (by simpa [Ideal.init] using ht)
  · intro o ho; exact .root (by simpa [Ideal.init] using ho.symm)
  intro i2 s2; cases s2
  refine ⟨⟨by simp, by simp⟩, ?_⟩
  intro i3 s3; cases s3
  refine ⟨?_, ?_⟩
  · intro t ht
    have : t = 2 := by simpa using ht
    subst this
    exact .root (by simp [Ideal.init])
  intro i4 s4; cases s4
  refine ⟨⟨?_, ?_⟩, ?_⟩
  · intro t ht; exact .root (by simpa [Ideal.init] using ht)
  · intro o ho; exact .root (by simpa [Ideal.init] using ho.symm)
  intro i5 _
  trivial

example : LegalRun Ideal.init demo ∧ (run 4 30 init demo).map (fun h => (h.list, h.freed)) =
    some ([3, 2], [1, 0]) := ⟨demo_legal, by decide +kernel⟩

/-- The history of the C09 counterexample: thing 0 is a WeakMap, 1 a key, 2 a value;
`wm.set(key, value)`; then only the map and the key stay referenced; a collection. -/
def weakDemo : List Op :=
  [.alloc [] none false, .alloc [] none false, .alloc [] none false, .weakSet 0 1 2,
   .setRoots [0, 1], .collect]

theorem weakDemo_legal : LegalRun Ideal.init weakDemo := by
  refine ⟨⟨by simp, by simp⟩, ?_⟩
  intro i1 s1; cases s1
  refine ⟨⟨by simp, by simp⟩, ?_⟩
  intro i2 s2; cases s2
  refine ⟨⟨by simp, by simp⟩, ?_⟩
  intro i3 s3; cases s3
  refine ⟨⟨?_, ?_, ?_⟩, ?_⟩
  · exact .root (by simp [Ideal.init])
  · exact .root (by simp [Ideal.init])
  · exact .root (by simp [Ideal.init])
  intro i4 s4; cases s4
  refine ⟨?_, ?_⟩
  · intro t ht
    have : t = 0 ∨ t = 1 := by simpa using ht
    rcases this with rfl | rfl <;> exact .root (by simp [Ideal.init])
  intro i5 s5; cases s5
  exact ⟨trivial, fun _ _ => trivial⟩

/-- **C09 is violated.**  After this history the map and the key are reachable and the last
value stored under the key is thing 2, but thing 2 has been freed: `wm.get(key)` returns a
pointer to freed memory, and the next collection after it follows that pointer. -/
theorem C09_violated :
    LegalRun Ideal.init weakDemo ∧ ∃ h i, run 256 30 init weakDemo = some h ∧
      Spec.Run Ideal.init weakDemo i ∧ i.Live 0 ∧ i.Live 1 ∧ i.val 0 1 = some 2 ∧
      lookupEnt h 0 1 = some 2 ∧ 2 ∈ h.freed ∧
      run 256 30 h [.weakGet 0 1, .collect] = none := by
  refine ⟨weakDemo_legal, ?_⟩
  have hrun : ∃ h, run 256 30 init weakDemo = some h ∧ lookupEnt h 0 1 = some 2 ∧ 2 ∈ h.freed ∧
      run 256 30 h [.weakGet 0 1, .collect] = none := by
    have : (run 256 30 init weakDemo).any (fun h => decide (lookupEnt h 0 1 = some 2 ∧ 2 ∈ h.freed ∧
      (run 256 30 h [.weakGet 0 1, .collect]).isNone)) = true := by decide +kernel
    cases hr : run 256 30 init weakDemo with
    | none => rw [hr] at this; simp at this
    | some h =>
      rw [hr] at this
      simp only [Option.any_some, decide_eq_true_eq] at this
      exact ⟨h, rfl, this.1, this.2.1, by simpa using this.2.2⟩
  obtain ⟨h, a1, a2, a3, a4⟩ := hrun
  refine ⟨h, _, a1, .cons .allocRoot (.cons .allocRoot (.cons .allocRoot (.cons .weakSet
    (.cons .setRoots (.cons .collect .nil))))), ?_, ?_, ?_, a2, a3, a4⟩
  · exact .root (by simp)
  · exact .root (by simp)
  · simp [upd]

/-- **C09**, the part which holds: as long as map and key are reachable, the entry is kept
whatever collections happen, it is the one last stored, and its value is intact provided
it is also reachable in another way than through the weak map.

Missing for the full property: the last condition; values reachable only through a weak map
are freed (`C09_violated`). -/
theorem C09_partial (cap fuel : Nat) (ops : List Op) (hf : 2 * ops.length + 4 ≤ fuel)
    (hl : LegalRun Ideal.init ops) :
    ∃ h' i', run cap fuel init ops = some h' ∧ Spec.Run Ideal.init ops i' ∧
      ∀ m k, i'.Live m → i'.Live k → lookupEnt h' m k = i'.val m k ∧
        ∀ v, i'.val m k = some v → i'.Live v → v ∈ h'.list ∧ v ∉ h'.freed := by
  obtain ⟨h', i', h1, h2, h3, h4, _⟩ := run_sim (cap := cap) (fuel := fuel) ops init Ideal.init
    inv_init sim_init (by simpa [init] using hf) hl
  refine ⟨h', i', h1, h2, fun m k hm hk => ⟨h4.val m (h4.mem h3 hm) k (h4.mem h3 hk), ?_⟩⟩
  intro v _ hv
  have := h4.mem h3 hv
  exact ⟨this, fun hc => h3.freedDead v hc this⟩

example : LegalRun Ideal.init weakDemo := weakDemo_legal

/-- **C57.**  A WeakRef (or WeakSet) entry never names a freed thing: if reading it gives
the target, the target is intact; and it gives the target as long as the target is
reachable. -/
theorem C57_weakref (cap fuel : Nat) (ops : List Op) (hf : 2 * ops.length + 4 ≤ fuel)
    (hl : LegalRun Ideal.init ops) :
    ∃ h' i', run cap fuel init ops = some h' ∧ Spec.Run Ideal.init ops i' ∧
      ∀ m k, i'.Live m →
        (∀ v, lookupEnt h' m k = some v →
          i'.val m k = some v ∧ k ∈ h'.list ∧ k ∉ h'.freed ∧ (h'.body k).refs = i'.refs k) ∧
        (i'.Live k → lookupEnt h' m k = i'.val m k) := by
  obtain ⟨h', i', h1, h2, h3, h4, _⟩ := run_sim (cap := cap) (fuel := fuel) ops init Ideal.init
    inv_init sim_init (by simpa [init] using hf) hl
  refine ⟨h', i', h1, h2, fun m k hm => ⟨fun v hv => ?_, fun hk =>
    h4.val m (h4.mem h3 hm) k (h4.mem h3 hk)⟩⟩
  have hm' := h4.mem h3 hm
  have hk : k ∈ h'.list :=
    (h3.weak _ (h3.ents m hm' k (List.mem_map_of_mem (lookup_mem hv)))).2.1
  exact ⟨by rw [← h4.val m hm' k hk, hv], hk, fun hc => h3.freedDead k hc hk, h4.refs k hk⟩

/-- A WeakRef (thing 0) to thing 1, which is read after its target became unreachable but
before a collection, and again afterwards. -/
example : (run 4 40 init [.alloc [] none false, .alloc [] none false, .weakSet 0 1 1, .setRoots [0],
    .weakGet 0 1, .collect, .setRoots [0], .collect, .weakGet 0 1]).map
    (fun h => (h.list, h.freed, h.roots)) = some ([0], [1], [0]) := by decide +kernel

end Verif.GC

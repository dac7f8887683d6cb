import Verif.Lemmas.GCRun
/-
The steps of the engine against the ideal heap: helper lemmas.
-/
namespace Verif.GC
open Spec

/-- The heap agrees with the ideal heap on everything which has not been freed. -/
structure Sim (h : Heap) (i : Ideal) : Prop where
  roots : h.roots = i.roots
  fresh : h.fresh = i.fresh
  refs : ∀ t ∈ h.list, (h.body t).refs = i.refs t
  val : ∀ m ∈ h.list, ∀ k ∈ h.list, lookupEnt h m k = i.val m k
  bound : ∀ m k v, i.val m k = some v → m < i.fresh ∧ k < i.fresh

theorem Sim.live {h : Heap} {i : Ideal} (hi : Inv h) (hs : Sim h i) (t : Nat) :
    Live h t ↔ i.Live t := by
  constructor
  · intro hl
    induction hl with
    | root ht => exact .root (hs.roots ▸ ht)
    | step ht hu ih => exact .step ih (hs.refs _ (hi.live ht) ▸ hu)
  · intro hl
    induction hl with
    | root ht => exact .root (hs.roots ▸ ht)
    | step _ hu ih => exact .step ih (by simpa only [hs.refs _ (hi.live ih)] using hu)

theorem Sim.mem {h : Heap} {i : Ideal} (hi : Inv h) (hs : Sim h i) {t : Nat} (hl : i.Live t) :
    t ∈ h.list := hi.live ((hs.live hi t).2 hl)

theorem gc_sim {h : Heap} {i : Ideal} {cap fuel : Nat} (hi : Inv h) (hs : Sim h i)
    (hf : 2 * h.fresh + 2 ≤ fuel) :
    ∃ h', gcRun cap fuel h = some h' ∧ Inv h' ∧ Sim h' i ∧ Collected h h' := by
  have := hi.len
  obtain ⟨h', h1, h2, h3⟩ := gcRun_spec (cap := cap) (fuel := fuel) hi (by omega)
  refine ⟨h', h1, h2, ⟨h3.roots.trans hs.roots, h3.fresh.trans hs.fresh, ?_, ?_, hs.bound⟩, h3⟩
  · intro t ht
    rw [h3.refs]; exact hs.refs t (hi.live ((h3.list t).1 ht))
  · intro m hm k hk
    rw [h3.find m hm k ((h3.list k).1 hk)]
    exact hs.val m (hi.live ((h3.list m).1 hm)) k (hi.live ((h3.list k).1 hk))

theorem lookup_none {h : Heap} {m k : Nat} (hk : k ∉ keys (h.body m)) : lookupEnt h m k = none := by
  unfold lookupEnt
  rw [Option.map_eq_none_iff, List.find?_eq_none]
  intro e he hek
  exact hk (List.mem_map.2 ⟨e, he, by simpa using hek⟩)

theorem lookup_mem {h : Heap} {m k v : Nat} (hl : lookupEnt h m k = some v) :
    (k, v) ∈ (h.body m).ents := by
  unfold lookupEnt at hl
  obtain ⟨e, he, rfl⟩ := Option.map_eq_some_iff.1 hl
  have h1 := List.find?_some he
  have h2 := List.mem_of_find?_eq_some he
  have : e.1 = k := by simpa using h1
  rw [← this]; exact h2

/-- Allocation without the collection. -/
theorem alloc_sim {h : Heap} {i : Ideal} (hi : Inv h) (hs : Sim h i) {refs : List Nat}
    (hr : ∀ t ∈ refs, i.Live t) :
    let t := h.fresh
    let h1 : Heap := { h with
      fresh := t + 1, list := t :: h.list, body := setBody h.body t ⟨refs, []⟩,
      marked := (fun x => if x = t then false else h.marked x),
      scanned := (fun x => if x = t then false else h.scanned x) }
    let i1 : Ideal := { i with refs := upd i.refs i.fresh refs, fresh := i.fresh + 1 }
    Inv h1 ∧ Sim h1 i1 := by
  have hlt : ∀ t ∈ h.list, t < h.fresh := fun t ht => (hi.fresh t).1 (.inl ht)
  have hnot : h.fresh ∉ h.list := fun hc => absurd (hlt _ hc) (by omega)
  have hb : ∀ t ∈ h.list, setBody h.body h.fresh ⟨refs, []⟩ t = h.body t := by
    intro t ht
    have := hlt t ht
    simp only [setBody]; rw [if_neg (by omega)]
  have hbf : setBody h.body h.fresh ⟨refs, []⟩ h.fresh = ⟨refs, []⟩ := by simp [setBody]
  have hkeys : ∀ t ∈ h.list, h.fresh ∉ keys (h.body t) := by
    intro t ht hk
    exact hnot (hi.weak _ (hi.ents t ht _ hk)).2.1
  refine ⟨⟨?_, ?_, ?_, ?_, ?_, hi.weakNodup, ?_, ?_, hi.freedNodup, ?_, ?_, ?_⟩,
    ⟨hs.roots, by simp [hs.fresh], ?_, ?_, ?_⟩⟩
  · exact List.nodup_cons.2 ⟨hnot, hi.nodup⟩
  · intro t ht u hu
    simp only at hu ⊢
    rcases List.mem_cons.1 ht with rfl | ht
    · rw [hbf] at hu
      exact List.mem_cons_of_mem _ (hs.mem hi (hr u hu))
    · rw [hb t ht] at hu
      exact List.mem_cons_of_mem _ (hi.refs t ht u hu)
  · intro t ht; exact List.mem_cons_of_mem _ (hi.roots t ht)
  · intro t
    refine ⟨?_, ?_⟩
    · simp only; split
      · rfl
      · exact (hi.clean t).1
    · simp only; split
      · rfl
      · exact (hi.clean t).2
  · intro e he
    obtain ⟨a, b, c⟩ := hi.weak e he
    refine ⟨List.mem_cons_of_mem _ a, List.mem_cons_of_mem _ b, ?_⟩
    simp only [hb _ a]; exact c
  · intro t ht k hk
    simp only at hk ⊢
    rcases List.mem_cons.1 ht with rfl | ht
    · rw [hbf] at hk; simp [keys] at hk
    · rw [hb t ht] at hk; exact hi.ents t ht k hk
  · intro t ht
    simp only
    rcases List.mem_cons.1 ht with rfl | ht
    · rw [hbf]; simp [keys]
    · rw [hb t ht]; exact hi.keysNodup t ht
  · intro t ht hc
    rcases List.mem_cons.1 hc with rfl | hc
    · exact absurd ((hi.fresh _).1 (.inr ht)) (by omega)
    · exact hi.freedDead t ht hc
  · intro t
    simp only [List.mem_cons]
    have := hi.fresh t
    constructor
    · rintro ((rfl | h) | h)
      · omega
      · have := this.1 (.inl h); omega
      · have := this.1 (.inr h); omega
    · intro hlt
      by_cases ht : t = h.fresh
      · exact .inl (.inl ht)
      · rcases this.2 (by omega) with h | h
        · exact .inl (.inr h)
        · exact .inr h
  · have := hi.len; simp only [List.length_cons]; omega
  · intro t ht
    simp only [upd]
    rcases List.mem_cons.1 ht with rfl | ht
    · rw [hbf, ← hs.fresh, if_pos rfl]
    · rw [hb t ht, ← hs.fresh, if_neg (by have := hlt t ht; omega)]; exact hs.refs t ht
  · intro m hm k hk
    have hz : ∀ v, i.val h.fresh k ≠ some v := fun v hv => by
      have := hs.bound _ _ _ hv; rw [← hs.fresh] at this; omega
    have hz' : ∀ m v, i.val m h.fresh ≠ some v := fun m v hv => by
      have := hs.bound _ _ _ hv; rw [← hs.fresh] at this; omega
    rcases List.mem_cons.1 hm with rfl | hm
    · rw [lookup_none (by simp only [hbf]; simp [keys])]
      cases hv : i.val h.fresh k with
      | none => rfl
      | some v => exact absurd hv (hz v)
    · rcases List.mem_cons.1 hk with rfl | hk
      · rw [lookup_none (by simp only [hb _ hm]; exact hkeys _ hm)]
        cases hv : i.val m h.fresh with
        | none => rfl
        | some v => exact absurd hv (hz' m v)
      · have := hs.val m hm k hk
        simp only [lookupEnt, hb m hm]
        exact this
  · intro m k v hv
    have := hs.bound m k v hv
    simp only; omega

/-- Storing references. -/
theorem setRefs_sim {h : Heap} {i : Ideal} (hi : Inv h) (hs : Sim h i) {t : Nat} {refs : List Nat}
    (hr : ∀ u ∈ refs, u ∈ h.list) :
    Inv { h with body := setBody h.body t ⟨refs, (h.body t).ents⟩ } ∧
    Sim { h with body := setBody h.body t ⟨refs, (h.body t).ents⟩ }
      { i with refs := upd i.refs t refs } := by
  have he : ∀ x, (setBody h.body t ⟨refs, (h.body t).ents⟩ x).ents = (h.body x).ents := by
    intro x; simp only [setBody]; split
    · rename_i hx; rw [hx]
    · rfl
  have hk : ∀ x, keys (setBody h.body t ⟨refs, (h.body t).ents⟩ x) = keys (h.body x) := by
    intro x; simp only [keys, he]
  refine ⟨⟨hi.nodup, ?_, hi.roots, hi.clean, ?_, hi.weakNodup, ?_, ?_, hi.freedNodup, hi.freedDead,
    hi.fresh, hi.len⟩, ⟨hs.roots, hs.fresh, ?_, ?_, hs.bound⟩⟩
  · intro x hx u hu
    simp only [setBody] at hu
    split at hu
    · exact hr u hu
    · exact hi.refs x hx u hu
  · intro e hew; simp only [hk]; exact hi.weak e hew
  · intro x hx k; simp only [hk]; exact hi.ents x hx k
  · intro x hx; simp only [hk]; exact hi.keysNodup x hx
  · intro x hx
    simp only [setBody, upd]
    split
    · rfl
    · exact hs.refs x hx
  · intro m hm k hk
    have := hs.val m hm k hk
    simp only [lookupEnt, he]
    exact this

theorem setRoots_sim {h : Heap} {i : Ideal} (hi : Inv h) (hs : Sim h i) {roots : List Nat}
    (hr : ∀ u ∈ roots, u ∈ h.list) :
    Inv { h with roots := roots } ∧ Sim { h with roots := roots } { i with roots := roots } :=
  ⟨⟨hi.nodup, hi.refs, hr, hi.clean, hi.weak, hi.weakNodup, hi.ents, hi.keysNodup, hi.freedNodup,
    hi.freedDead, hi.fresh, hi.len⟩, ⟨rfl, hs.fresh, hs.refs, hs.val, hs.bound⟩⟩

/-- Writing the entries of one weak map. -/
theorem ents_sim {h : Heap} {i : Ideal} (hi : Inv h) (hs : Sim h i) {m k : Nat} (hm : m ∈ h.list)
    (hk : k ∈ h.list) (ents : List (Nat × Nat)) (w : List (Nat × Nat)) (o : Option Nat)
    (h1 : (ents.map Prod.fst).Nodup) (h2 : w.Nodup)
    (h3 : ∀ a b, (a, b) ∈ w ↔ if a = m ∧ b = k then o.isSome = true else (a, b) ∈ h.weak)
    (h4 : ∀ x, x ∈ ents.map Prod.fst ↔ if x = k then o.isSome = true else x ∈ keys (h.body m))
    (h5 : ∀ x, (ents.find? fun e => e.1 = x).map Prod.snd = if x = k then o else lookupEnt h m x) :
    Inv { h with body := setBody h.body m ⟨(h.body m).refs, ents⟩, weak := w } ∧
    Sim { h with body := setBody h.body m ⟨(h.body m).refs, ents⟩, weak := w }
      { i with val := upd i.val m (upd (i.val m) k o) } := by
  have hr : ∀ x, (setBody h.body m ⟨(h.body m).refs, ents⟩ x).refs = (h.body x).refs := by
    intro x; simp only [setBody]; split
    · rename_i hx; rw [hx]
    · rfl
  have hb : ∀ x, x ≠ m → setBody h.body m ⟨(h.body m).refs, ents⟩ x = h.body x := by
    intro x hx; simp [setBody, hx]
  have hbm : setBody h.body m ⟨(h.body m).refs, ents⟩ m = ⟨(h.body m).refs, ents⟩ := by
    simp [setBody]
  refine ⟨⟨hi.nodup, ?_, hi.roots, hi.clean, ?_, h2, ?_, ?_, hi.freedNodup, hi.freedDead,
    hi.fresh, hi.len⟩, ⟨hs.roots, hs.fresh, ?_, ?_, ?_⟩⟩
  · intro x hx u hu; simp only [hr] at hu; exact hi.refs x hx u hu
  · rintro ⟨a, b⟩ he
    simp only
    have he := (h3 a b).1 he
    by_cases ham : a = m
    · subst ham
      rw [hbm]
      by_cases hbk : b = k
      · subst hbk
        rw [if_pos ⟨rfl, rfl⟩] at he
        exact ⟨hm, hk, (h4 b).2 (by rw [if_pos rfl]; exact he)⟩
      · rw [if_neg (by simp [hbk])] at he
        obtain ⟨x, y, z⟩ := hi.weak _ he
        exact ⟨x, y, (h4 b).2 (by rw [if_neg hbk]; exact z)⟩
    · rw [if_neg (by simp [ham])] at he
      rw [hb a ham]; exact hi.weak _ he
  · intro x hx y hy
    simp only at hy ⊢
    rw [h3]
    by_cases hxm : x = m
    · subst hxm
      rw [hbm] at hy
      have hy := (h4 y).1 hy
      by_cases hyk : y = k
      · rw [if_pos hyk] at hy; rw [if_pos ⟨rfl, hyk⟩]; exact hy
      · rw [if_neg hyk] at hy; rw [if_neg (by simp [hyk])]; exact hi.ents x hx y hy
    · rw [hb x hxm] at hy
      rw [if_neg (by simp [hxm])]; exact hi.ents x hx y hy
  · intro x hx
    simp only
    by_cases hxm : x = m
    · subst hxm; rw [hbm]; exact h1
    · rw [hb x hxm]; exact hi.keysNodup x hx
  · intro x hx; simp only [hr]; exact hs.refs x hx
  · intro x hx y hy
    unfold lookupEnt
    simp only
    by_cases hxm : x = m
    · subst hxm
      rw [hbm, h5]
      simp only [upd, if_true]
      split
      · rfl
      · exact hs.val x hx y hy
    · rw [hb x hxm]
      simp only [upd, hxm, if_false]
      exact hs.val x hx y hy
  · intro x y v hv
    simp only [upd] at hv
    have hlt : ∀ t ∈ h.list, t < i.fresh := fun t ht => hs.fresh ▸ (hi.fresh t).1 (.inl ht)
    split at hv
    · rename_i hx; subst hx
      simp only [upd] at hv
      split at hv
      · rename_i hy; subst hy; exact ⟨hlt _ hm, hlt _ hk⟩
      · exact hs.bound _ _ _ hv
    · exact hs.bound _ _ _ hv

theorem find_map_ne {k v x : Nat} (hx : x ≠ k) (l : List (Nat × Nat)) :
    ((l.map fun e => if e.1 = k then (k, v) else e).find? fun e => e.1 = x) =
      l.find? fun e => e.1 = x := by
  induction l with
  | nil => rfl
  | cons e l ih =>
    by_cases hek : e.1 = k
    · have hkx : k ≠ x := fun h => hx h.symm
      have hex : e.1 ≠ x := by rw [hek]; exact hkx
      simp only [List.map_cons, if_pos hek, List.find?_cons, hkx, decide_false, hex]
      exact ih
    · simp only [List.map_cons, if_neg hek, List.find?_cons]
      split
      · rfl
      · exact ih

theorem find_map_eq {k v : Nat} (l : List (Nat × Nat)) (hk : k ∈ l.map Prod.fst) :
    ((l.map fun e => if e.1 = k then (k, v) else e).find? fun e => e.1 = k) = some (k, v) := by
  induction l with
  | nil => simp at hk
  | cons e l ih =>
    by_cases hek : e.1 = k
    · simp [hek]
    · have hkl : k ∈ l.map Prod.fst := by
        rcases List.mem_cons.1 hk with h | h
        · exact absurd h.symm hek
        · exact h
      rw [List.map_cons, if_neg hek, List.find?_cons_of_neg (by simpa using hek)]
      exact ih hkl

theorem map_fst_replace {k v : Nat} (l : List (Nat × Nat)) :
    (l.map fun e => if e.1 = k then (k, v) else e).map Prod.fst = l.map Prod.fst := by
  rw [List.map_map]
  apply List.map_congr_left
  intro e _
  simp only [Function.comp]
  split
  · rename_i h; exact h.symm
  · rfl

theorem weakSet_sim {h : Heap} {i : Ideal} (hi : Inv h) (hs : Sim h i) {m k v : Nat}
    (hm : m ∈ h.list) (hk : k ∈ h.list) (ents : List (Nat × Nat))
    (hents : ents = if k ∈ (h.body m).ents.map Prod.fst then
            (h.body m).ents.map fun e => if e.1 = k then (k, v) else e
          else (h.body m).ents ++ [(k, v)]) (w : List (Nat × Nat))
    (hw : w = h.weak.filter (fun e => e ≠ (m, k)) ++ [(m, k)]) :
    Inv { h with body := setBody h.body m ⟨(h.body m).refs, ents⟩, weak := w } ∧
    Sim { h with body := setBody h.body m ⟨(h.body m).refs, ents⟩, weak := w }
      { i with val := upd i.val m (upd (i.val m) k (some v)) } := by
  have hn := hi.keysNodup m hm
  apply ents_sim hi hs hm hk
  · rw [hents]; split
    · rw [map_fst_replace]; exact hn
    · rename_i hc
      rw [List.map_append]
      refine List.Nodup.append hn (by simp) ?_
      intro x hx hx2
      have : x = k := by simpa using hx2
      exact hc (this ▸ hx)
  · rw [hw]
    refine List.Nodup.append (hi.weakNodup.filter _) (by simp) ?_
    intro x hx hx2
    have h1 : x = (m, k) := by simpa using hx2
    have h2 := (List.mem_filter.1 hx).2
    simp [h1] at h2
  · intro a b
    rw [hw]
    simp only [List.mem_append, List.mem_filter, List.mem_singleton]
    by_cases hab : a = m ∧ b = k
    · simp [hab]
    · rw [if_neg hab]
      have : (a, b) ≠ (m, k) := fun hc => hab (Prod.mk.inj hc)
      simp [this]
  · intro x
    rw [hents]
    by_cases hx : x = k
    · subst hx
      split
      · rename_i hc; rw [map_fst_replace]; simpa [keys] using hc
      · simp
    · rw [if_neg hx]
      split
      · rw [map_fst_replace]; rfl
      · simp [keys, hx]
  · intro x
    rw [hents]
    by_cases hx : x = k
    · subst hx
      rw [if_pos rfl]
      split
      · rename_i hc; rw [find_map_eq _ hc]; rfl
      · rename_i hc
        rw [List.find?_append]
        have : (h.body m).ents.find? (fun e => e.1 = x) = none := by
          rw [List.find?_eq_none]
          intro e he hex
          exact hc (List.mem_map.2 ⟨e, he, by simpa using hex⟩)
        rw [this]; simp
    · rw [if_neg hx]
      split
      · rw [find_map_ne hx]; rfl
      · have hkx : ¬ k = x := fun h => hx h.symm
        simp [List.find?_append, hkx, lookupEnt]

theorem weakDelete_sim {h : Heap} {i : Ideal} (hi : Inv h) (hs : Sim h i) {m k : Nat}
    (hm : m ∈ h.list) (hk : k ∈ h.list) (ents : List (Nat × Nat))
    (hents : ents = (h.body m).ents.filter fun e => e.1 ≠ k) (w : List (Nat × Nat))
    (hw : w = h.weak.filter fun e => e ≠ (m, k)) :
    Inv { h with body := setBody h.body m ⟨(h.body m).refs, ents⟩, weak := w } ∧
    Sim { h with body := setBody h.body m ⟨(h.body m).refs, ents⟩, weak := w }
      { i with val := upd i.val m (upd (i.val m) k none) } := by
  have hn := hi.keysNodup m hm
  apply ents_sim hi hs hm hk
  · rw [hents]; exact hn.sublist (List.filter_sublist.map _)
  · rw [hw]; exact hi.weakNodup.filter _
  · intro a b
    rw [hw]
    simp only [List.mem_filter]
    by_cases hab : a = m ∧ b = k
    · simp [hab]
    · rw [if_neg hab]
      have : (a, b) ≠ (m, k) := fun hc => hab (Prod.mk.inj hc)
      simp [this]
  · intro x
    rw [hents]
    by_cases hx : x = k
    · subst hx; simp
    · rw [if_neg hx]
      simp only [List.mem_map, List.mem_filter, keys]
      constructor
      · rintro ⟨e, ⟨he, _⟩, rfl⟩; exact ⟨e, he, rfl⟩
      · rintro ⟨e, he, rfl⟩; exact ⟨e, ⟨he, by simpa using hx⟩, rfl⟩
  · intro x
    rw [hents]
    by_cases hx : x = k
    · subst hx
      rw [if_pos rfl, Option.map_eq_none_iff, List.find?_eq_none]
      intro e he
      simpa using (List.mem_filter.1 he).2
    · rw [if_neg hx, find_filter]
      · rfl
      · intro e _ he
        have : e.1 = x := by simpa using he
        simpa [this] using hx

theorem step_sim {h : Heap} {i : Ideal} {cap fuel : Nat} {op : Op} (hi : Inv h) (hs : Sim h i)
    (hf : 2 * h.fresh + 4 ≤ fuel) (hl : Legal i op) :
    ∃ h' i', step cap fuel h op = some h' ∧ Step i op i' ∧ Inv h' ∧ Sim h' i' ∧
      h'.fresh ≤ h.fresh + 1 := by
  cases op with
  | alloc refs holder gc =>
    obtain ⟨hl1, hl2⟩ := hl
    obtain ⟨a1, a2⟩ := alloc_sim hi hs hl1
    cases holder with
    | none =>
      obtain ⟨b1, b2⟩ := setRoots_sim a1 a2 (roots := h.roots ++ [h.fresh]) (by
        intro u hu
        rcases List.mem_append.1 hu with hu | hu
        · exact a1.roots u hu
        · exact List.mem_cons.2 (.inl (by simpa using hu)))
      have b2' := b2
      rw [hs.roots, hs.fresh] at b2'
      cases gc with
      | false => exact ⟨_, _, rfl, .allocRoot, b1, by simpa [hs.roots, hs.fresh] using b2', by simp⟩
      | true =>
        obtain ⟨h', c1, c2, c3, c4⟩ := gc_sim (cap := cap) (fuel := fuel) b1 b2 (by simp only; omega)
        refine ⟨h', _, c1, .allocRoot, c2, ?_, ?_⟩
        · simpa [hs.roots, hs.fresh] using c3
        · rw [c4.fresh]; exact Nat.le_refl _
    | some o =>
      have ho := hs.mem hi (hl2 o rfl)
      have hof : o ≠ h.fresh := by
        have := (hi.fresh o).1 (.inl ho); omega
      obtain ⟨b1, b2⟩ := setRefs_sim a1 a2 (t := o)
        (refs := (setBody h.body h.fresh ⟨refs, []⟩ o).refs ++ [h.fresh]) (by
        intro u hu
        rcases List.mem_append.1 hu with hu | hu
        · exact a1.refs o (List.mem_cons_of_mem _ ho) u hu
        · exact List.mem_cons.2 (.inl (by simpa using hu)))
      have hrefs : (setBody h.body h.fresh ⟨refs, []⟩ o).refs = upd i.refs i.fresh refs o :=
        a2.refs o (List.mem_cons_of_mem _ ho)
      have b3 := b2
      rw [hrefs] at b3
      have e : upd (upd i.refs i.fresh refs) o (upd i.refs i.fresh refs o ++ [h.fresh]) =
          upd (upd i.refs i.fresh refs) o (upd i.refs i.fresh refs o ++ [i.fresh]) := by
        rw [hs.fresh]
      cases gc with
      | false =>
        refine ⟨_, _, by simp only [step, if_pos ho]; rfl, .allocIn, b1, ?_, by simp⟩
        rw [← e, ← hrefs]; exact b2
      | true =>
        obtain ⟨h', c1, c2, c3, c4⟩ := gc_sim (cap := cap) (fuel := fuel) b1 b2 (by simp only; omega)
        refine ⟨h', _, by simp only [step, if_pos ho]; exact c1, .allocIn, c2, ?_, ?_⟩
        · rw [← e, ← hrefs]; exact c3
        · exact Nat.le_of_eq c4.fresh
  | setRefs t refs =>
    obtain ⟨b1, b2⟩ := setRefs_sim hi hs (t := t) (refs := refs) fun u hu => hs.mem hi (hl.2 u hu)
    exact ⟨_, _, by simp only [step, if_pos (hs.mem hi hl.1)], .setRefs, b1, b2, Nat.le_succ _⟩
  | setRoots roots =>
    obtain ⟨b1, b2⟩ := setRoots_sim hi hs (roots := roots) fun u hu => hs.mem hi (hl u hu)
    exact ⟨_, _, rfl, .setRoots, b1, b2, Nat.le_succ _⟩
  | weakSet m k v =>
    obtain ⟨b1, b2⟩ := weakSet_sim hi hs (hs.mem hi hl.1) (hs.mem hi hl.2.1) _ rfl _ rfl
    exact ⟨_, _, by simp only [step, if_pos (And.intro (hs.mem hi hl.1) (hs.mem hi hl.2.1))],
      .weakSet, b1, b2, Nat.le_succ _⟩
  | weakDelete m k =>
    obtain ⟨b1, b2⟩ := weakDelete_sim hi hs (hs.mem hi hl.1) (hs.mem hi hl.2) _ rfl _ rfl
    exact ⟨_, _, by simp only [step, if_pos (hs.mem hi hl.1)], .weakDelete, b1, b2, Nat.le_succ _⟩
  | weakGet m k =>
    have hm := hs.mem hi hl.1
    cases hv : lookupEnt h m k with
    | none =>
      refine ⟨h, _, by simp only [step, if_pos hm, hv], .weakGet (got := none) ?_, hi, ?_,
        Nat.le_succ _⟩
      · by_cases hk : k ∈ h.list
        · left; rw [← hs.val m hm k hk, hv]
        · right; exact ⟨rfl, fun hc => hk (hs.mem hi hc)⟩
      · simpa using hs
    | some v =>
      have hke : k ∈ h.list :=
        (hi.weak _ (hi.ents m hm k (List.mem_map_of_mem (lookup_mem hv)))).2.1
      have hval : i.val m k = some v := by rw [← hs.val m hm k hke, hv]
      have hvl : v ∈ h.list := by
        rcases hl.2 v hval with h | rfl
        · exact hs.mem hi h
        · exact hke
      obtain ⟨b1, b2⟩ := setRoots_sim hi hs (roots := h.roots ++ [v]) (by
        intro u hu
        rcases List.mem_append.1 hu with hu | hu
        · exact hi.roots u hu
        · have : u = v := by simpa using hu
          exact this ▸ hvl)
      rw [show ({ i with roots := h.roots ++ [v] } : Ideal) =
        { i with roots := i.roots ++ (some v).toList } by rw [hs.roots]; rfl] at b2
      exact ⟨_, _, by simp only [step, if_pos hm, hv], .weakGet (.inl hval.symm), b1, b2,
        Nat.le_succ _⟩
  | collect =>
    obtain ⟨h', c1, c2, c3, c4⟩ := gc_sim (cap := cap) (fuel := fuel) hi hs (by omega)
    exact ⟨h', i, c1, .collect, c2, c3, by rw [c4.fresh]; omega⟩

theorem inv_ofGraph {n : Nat} {refs : Nat → List Nat} {roots : List Nat}
    (hr : ∀ t < n, ∀ u ∈ refs t, u < n) (hroots : ∀ t ∈ roots, t < n) :
    Inv (ofGraph n refs roots) := by
  refine ⟨List.nodup_range, ?_, ?_, ?_, ?_, List.nodup_nil, ?_, ?_, List.nodup_nil, ?_, ?_, ?_⟩
  · intro t ht u hu
    exact List.mem_range.2 (hr t (List.mem_range.1 ht) u hu)
  · intro t ht; exact List.mem_range.2 (hroots t ht)
  all_goals simp [ofGraph, keys]

theorem inv_init : Inv init := by
  refine ⟨by simp [init], ?_, ?_, ?_, ?_, by simp [init], ?_, ?_, by simp [init], ?_, ?_, by simp [init]⟩
    <;> simp [init]

theorem sim_init : Sim init Ideal.init := by
  refine ⟨rfl, rfl, ?_, ?_, ?_⟩ <;> simp [init, Ideal.init]

theorem run_sim {cap fuel : Nat} : ∀ (ops : List Op) (h : Heap) (i : Ideal), Inv h → Sim h i →
    2 * (h.fresh + ops.length) + 4 ≤ fuel → LegalRun i ops →
    ∃ h' i', run cap fuel h ops = some h' ∧ Spec.Run i ops i' ∧ Inv h' ∧ Sim h' i' ∧
      h'.fresh ≤ h.fresh + ops.length
  | [], h, i, hi, hs, _, _ => ⟨h, i, rfl, .nil, hi, hs, Nat.le_refl _⟩
  | op :: ops, h, i, hi, hs, hf, hl => by
    simp only [List.length_cons] at hf
    obtain ⟨h1, i1, a1, a2, a3, a4, a5⟩ := step_sim (cap := cap) (fuel := fuel) hi hs (by omega) hl.1
    obtain ⟨h2, i2, b1, b2, b3, b4, b5⟩ := run_sim (cap := cap) (fuel := fuel) ops h1 i1 a3 a4
      (by omega) (hl.2 i1 a2)
    exact ⟨h2, i2, by simp [run, a1, b1], .cons a2 b2, b3, b4,
      by simp only [List.length_cons]; omega⟩

end Verif.GC

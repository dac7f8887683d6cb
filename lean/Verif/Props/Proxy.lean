import Verif.Lemmas.Proxy
import Verif.Props.ObjectDefine
/-
C46: proxies keep the invariants of their targets.

`c` is a call of a trap: it does anything to the objects and returns anything.  `c.heap` are the
objects after the call and `o` is the target then.  The hypothesis `c.cell = t` of the theorems
marked partial says that the trap does not write to its argument `target`; it holds for all
functions written in the language.  `C46_violated` shows what happens without it.
-/
namespace Verif.Proxy
open Obj (Heap Key Desc Fields Val Env Reach Op run)
open Spec (Own)
open Obj.Spec (Prp)

/-- A trap which returns. -/
theorem viaTrap_ret {α β : Type} {h : Heap} {t : Nat} {c : Call α} {a : α}
    {fwd : Heap → Nat → Option (Heap × Out β)} {chk : Heap → Nat → α → Option (Heap × Out β)}
    (hc : c.cell = t) (hv : c.res = some a) :
    viaTrap (some t) h (.trap c) fwd chk = chk c.heap t a := by
  simp only [viaTrap, hv, hc]

/-! ### With a trap -/

/-- **C46**, getPrototypeOf: the prototype the trap returns is reported if it is an object or null,
and, if the target is not extensible, its prototype; otherwise a TypeError is thrown. -/
theorem C46_getPrototypeOf_partial {h : Heap} {t : Nat} {c : Call PVal} {o : Obj.Obj} {v : PVal}
    (hc : c.cell = t) (ho : c.heap[t]? = some o) (hv : c.res = some v) :
    (v = .prim → getProto (some t) h (.trap c) = some (c.heap, .typeError)) ∧
    ∀ p : Option Nat, v = (match p with | some n => .obj n | none => .null) →
      (Spec.MayProto o p → getProto (some t) h (.trap c) = some (c.heap, .ret p)) ∧
      (¬ Spec.MayProto o p → getProto (some t) h (.trap c) = some (c.heap, .typeError)) := by
  rw [getProto, viaTrap_ret hc hv, chkGetProto, ho]
  refine ⟨fun e => by subst e; rfl, fun p e => ?_⟩
  unfold Spec.MayProto
  cases p with
  | none => subst e; cases hx : o.ext <;> by_cases hp : none = o.proto <;> simp [hx, hp]
  | some n => subst e; cases hx : o.ext <;> by_cases hp : some n = o.proto <;> simp [hx, hp]

/-- **C46**, setPrototypeOf: success is reported only if the target is extensible or the prototype
requested is the one it has. -/
theorem C46_setPrototypeOf_partial {h : Heap} {t : Nat} {c : Call Bool} {o : Obj.Obj} {b : Bool} (p : Option Nat)
    (hc : c.cell = t) (ho : c.heap[t]? = some o) (hv : c.res = some b) :
    (b = false ∨ Spec.MayProto o p → setProto (some t) h p (.trap c) = some (c.heap, .ret b)) ∧
    (¬ (b = false ∨ Spec.MayProto o p) → setProto (some t) h p (.trap c) = some (c.heap, .typeError)) := by
  rw [setProto, viaTrap_ret hc hv, chkSetProto, ho]
  unfold Spec.MayProto
  cases b <;> cases hx : o.ext <;> by_cases hp : p = o.proto <;> simp [hx, hp]

/-- **C46**, isExtensible: the answer is that of the target. -/
theorem C46_isExtensible_partial {h : Heap} {t : Nat} {c : Call Bool} {o : Obj.Obj} {b : Bool}
    (hc : c.cell = t) (ho : c.heap[t]? = some o) (hv : c.res = some b) :
    (b = o.ext → isExt (some t) h (.trap c) = some (c.heap, .ret b)) ∧
    (b ≠ o.ext → isExt (some t) h (.trap c) = some (c.heap, .typeError)) := by
  rw [isExt, viaTrap_ret hc hv, chkIsExt, ho]
  simp only
  exact ⟨fun e => by simp [e], fun e => by simp [e]⟩

/-- **C46**, preventExtensions: success is reported only if the target is not extensible. -/
theorem C46_preventExtensions_partial {h : Heap} {t : Nat} {c : Call Bool} {o : Obj.Obj} {b : Bool}
    (hc : c.cell = t) (ho : c.heap[t]? = some o) (hv : c.res = some b) :
    (b = false ∨ o.ext = false → preventExt (some t) h (.trap c) = some (c.heap, .ret b)) ∧
    (¬ (b = false ∨ o.ext = false) → preventExt (some t) h (.trap c) = some (c.heap, .typeError)) := by
  rw [preventExt, viaTrap_ret hc hv, chkPreventExt, ho]
  cases b <;> cases hx : o.ext <;> simp [hx]

/-- **C46**, getOwnPropertyDescriptor, if the trap returns undefined: that is reported only if the
target has no such property, or is extensible and the property is configurable. -/
theorem C46_getOwn_absent_partial {E : Env} {h : Heap} {t : Nat} {c : Call DVal} {o : Obj.Obj} (k : Key)
    (hr : Reach E c.heap) (hc : c.cell = t) (ho : c.heap[t]? = some o) (hv : c.res = some .undef) :
    (Spec.MayAbsent o k → getOwn E.callable (some t) h k (.trap c) = some (c.heap, .ret none)) ∧
    (¬ Spec.MayAbsent o k → getOwn E.callable (some t) h k (.trap c) = some (c.heap, .typeError)) := by
  obtain ⟨hg, _⟩ := hr.inv.good t o ho
  rw [getOwn, viaTrap_ret hc hv, chkGetOwn, absent_spec hg]
  simp only [ho, Obj.getOwn_get hg]
  cases e : Obj.get o k with
  | none => simp
  | some q =>
    have hdc : (Obj.descOf q).c = q.c := by unfold Obj.descOf; split <;> rfl
    cases hq : q.c <;> cases hx : o.ext <;> simp [hdc, hq]

/-- **C46**, getOwnPropertyDescriptor, if the trap returns an object: the property it describes
(absent fields having their defaults) is reported if that is compatible with the target, as it is
before the fields of the object are read; and otherwise a TypeError is thrown. -/
theorem C46_getOwn_partial {E : Env} {h h' : Heap} {t : Nat} {c : Call DVal} {o : Obj.Obj} (k : Key) {f : Fields}
    (hr : Reach E c.heap) (hc : c.cell = t) (ho : c.heap[t]? = some o) (hv : c.res = some (.obj (some f) h')) :
    (Spec.MayReport o k (Obj.Spec.fresh f) → Obj.Spec.valid E.callable f = true → 
      ∃ d, getOwn E.callable (some t) h k (.trap c) = some (h', .ret (some d)) ∧
        Obj.fromDesc d = (Obj.Spec.fresh f).report) ∧
    (¬ Spec.MayReport o k (Obj.Spec.fresh f) → Obj.Spec.valid E.callable f = true → 
      getOwn E.callable (some t) h k (.trap c) = some (h', .typeError)) ∧
    (Obj.Spec.valid E.callable f = false → getOwn E.callable (some t) h k (.trap c) = some (h', .thrown)) := by
  obtain ⟨hg, _⟩ := hr.inv.good t o ho
  rw [getOwn, viaTrap_ret hc hv, chkGetOwn]
  simp only [ho, Obj.getOwn_get hg]
  have hcomp := Obj.C55_complete E.callable f
  cases hd : Obj.toDesc E.callable f with
  | none =>
    have hnv : Obj.Spec.valid E.callable f = false := by
      rw [Obj.toDesc_eq, Obj.valid_eq] at hd
      split at hd
      · cases hd
      · rename_i hh; exact Bool.eq_false_iff.2 hh
    rw [hnv]
    simp
  | some d =>
    have hyv : Obj.Spec.valid E.callable f = true := by
      rw [Obj.toDesc_eq, Obj.valid_eq] at hd
      split at hd
      · assumption
      · cases hd
    rw [hd] at hcomp
    simp only [Option.map_some, Option.some.injEq] at hcomp
    obtain ⟨h1, h2⟩ := compareOwn_spec hg k hd
    simp only [hyv]
    exact ⟨fun m _ => ⟨_, by rw [h1 m], hcomp hyv⟩, fun m _ => by rw [h2 m], by simp⟩

/-- **C46**, defineProperty: success is reported only if the definition could have succeeded on the
target as it is now. -/
theorem C46_define_partial {E : Env} {h : Heap} {t : Nat} {c : Call Bool} {o : Obj.Obj} {b : Bool} (k : Key)
    {f : Fields} {d : Desc} (hd : Obj.toDesc E.callable f = some d)
    (hr : Reach E c.heap) (hc : c.cell = t) (ho : c.heap[t]? = some o) (hv : c.res = some b) :
    (b = false ∨ Spec.MayDefine o k f → define E.oth (some t) h k d (.trap c) = some (c.heap, .ret b)) ∧
    (¬ (b = false ∨ Spec.MayDefine o k f) → define E.oth (some t) h k d (.trap c) = some (c.heap, .typeError)) := by
  obtain ⟨hg, _⟩ := hr.inv.good t o ho
  rw [define, viaTrap_ret hc hv, chkDefine]
  simp only [ho, Obj.getOwn_get hg]
  obtain ⟨h1, h2⟩ := compareDefine_spec hg k hd
  cases b with
  | false => simp
  | true => exact ⟨fun m => by simp [h1 (m.resolve_left (by simp))], fun m => by simp [h2 fun c => m (Or.inr c)]⟩

/-- **C46**, has: a property of the target can be denied only if it is configurable and the target is
extensible. -/
theorem C46_has_partial {E : Env} {h : Heap} {t : Nat} {c : Call Bool} {o : Obj.Obj} {b : Bool} (k : Key)
    (hr : Reach E c.heap) (hc : c.cell = t) (ho : c.heap[t]? = some o) (hv : c.res = some b) :
    (b = true ∨ Spec.MayAbsent o k → has (some t) h k (.trap c) = some (c.heap, .ret b)) ∧
    (¬ (b = true ∨ Spec.MayAbsent o k) → has (some t) h k (.trap c) = some (c.heap, .typeError)) := by
  obtain ⟨hg, _⟩ := hr.inv.good t o ho
  rw [has, viaTrap_ret hc hv, chkHas, absent_spec hg]
  simp only [ho, Obj.getOwn_get hg]
  cases e : Obj.get o k with
  | none => cases b <;> simp
  | some q =>
    have hdc : (Obj.descOf q).c = q.c := by unfold Obj.descOf; split <;> rfl
    cases b <;> cases hq : q.c <;> cases hx : o.ext <;> simp [hdc, hq]

/-- **C46**, get: the value the trap returns is the result, unless the property of the target is not
configurable and constant with another value, or without a getter. -/
theorem C46_get_partial {E : Env} {h : Heap} {t : Nat} {c : Call Val} {o : Obj.Obj} {v : Val} (k : Key)
    (hr : Reach E c.heap) (hc : c.cell = t) (ho : c.heap[t]? = some o) (hv : c.res = some v) :
    (Spec.MayGet o k v → get (some t) h k (.trap c) = some (c.heap, .ret v)) ∧
    (¬ Spec.MayGet o k v → get (some t) h k (.trap c) = some (c.heap, .typeError)) := by
  obtain ⟨hg, _⟩ := hr.inv.good t o ho
  rw [get, viaTrap_ret hc hv, chkGet]
  simp only [ho, Obj.getOwn_get hg]
  obtain ⟨h1, h2⟩ := compareGet_spec hg k v
  exact ⟨fun m => by rw [h1 m], fun m => by rw [h2 m]⟩

/-- **C46**, set: success is reported only if the property of the target can have that value. -/
theorem C46_set_partial {E : Env} {h : Heap} {t : Nat} {c : Call Bool} {o : Obj.Obj} {b : Bool} (k : Key) (v : Val)
    (recv : Option Nat) (hr : Reach E c.heap) (hc : c.cell = t) (ho : c.heap[t]? = some o) (hv : c.res = some b) :
    (b = false ∨ Spec.MaySet o k v → set E.oth (some t) h k v recv (.trap c) = some (c.heap, .ret b)) ∧
    (¬ (b = false ∨ Spec.MaySet o k v) → set E.oth (some t) h k v recv (.trap c) = some (c.heap, .typeError)) := by
  obtain ⟨hg, _⟩ := hr.inv.good t o ho
  rw [set, viaTrap_ret hc hv, chkSet]
  simp only [ho, Obj.getOwn_get hg]
  obtain ⟨h1, h2⟩ := compareSet_spec hg k v
  cases b with
  | false => simp
  | true => exact ⟨fun m => by simp [h1 (m.resolve_left (by simp))], fun m => by simp [h2 fun c => m (Or.inr c)]⟩

/-- **C46**, deleteProperty: success is reported only if the target has no such property, or is
extensible and the property is configurable. -/
theorem C46_delete_partial {E : Env} {h : Heap} {t : Nat} {c : Call Bool} {o : Obj.Obj} {b : Bool} (k : Key)
    (hr : Reach E c.heap) (hc : c.cell = t) (ho : c.heap[t]? = some o) (hv : c.res = some b) :
    (b = false ∨ Spec.MayAbsent o k → delete (some t) h k (.trap c) = some (c.heap, .ret b)) ∧
    (¬ (b = false ∨ Spec.MayAbsent o k) → delete (some t) h k (.trap c) = some (c.heap, .typeError)) := by
  obtain ⟨hg, _⟩ := hr.inv.good t o ho
  rw [delete, viaTrap_ret hc hv, chkDelete, absent_spec hg]
  simp only [ho, Obj.getOwn_get hg]
  cases e : Obj.get o k with
  | none => cases b <;> simp
  | some q =>
    have hdc : (Obj.descOf q).c = q.c := by unfold Obj.descOf; split <;> rfl
    cases b <;> cases hq : q.c <;> cases hx : o.ext <;> simp [hdc, hq]

/-- The keys of the properties of an object: each once. -/
theorem keys_nodup {E : Env} {h : Heap} (hr : Reach E h) {id : Nat} {o : Obj.Obj} (ho : h[id]? = some o) :
    ∃ ks, Obj.ownKeys o = some ks ∧ ks.Nodup ∧ ∀ k, k ∈ ks ↔ ∃ p, Own o k p := by
  obtain ⟨hg, _⟩ := hr.inv.good id o ho
  obtain ⟨is, ss, ys, ks, h1, h2, h3, h4, h5, h6⟩ := Obj.C31_keys hr ho
  refine ⟨ks, h1, ?_, fun k => ?_⟩
  · rw [h2, List.nodup_append, List.nodup_append]
    refine ⟨?_, ⟨?_, ?_, ?_⟩, ?_⟩
    · unfold List.Nodup
      rw [List.pairwise_map]
      exact h3.imp fun h c => by cases c; exact absurd h (Nat.lt_irrefl _)
    · unfold List.Nodup
      rw [List.pairwise_map]
      exact h4.imp fun h c => by cases c; exact absurd rfl h
    · unfold List.Nodup
      rw [List.pairwise_map]
      exact h5.imp fun h c => by cases c; exact absurd rfl h
    · intro a ha b hb c
      subst c
      obtain ⟨x, _, rfl⟩ := List.mem_map.1 ha
      obtain ⟨y, _, c⟩ := List.mem_map.1 hb
      cases c
    · intro a ha b hb c
      subst c
      obtain ⟨x, _, rfl⟩ := List.mem_map.1 ha
      rcases List.mem_append.1 hb with hb | hb <;> obtain ⟨y, _, c⟩ := List.mem_map.1 hb <;> cases c
  · rw [h6]
    unfold Obj.Spec.Has Own
    constructor
    · rintro ⟨f, hf⟩
      rcases Obj.C55_cases hr ho k with c | ⟨p, c⟩
      · rw [c] at hf; cases hf
      · exact ⟨p, c⟩
    · rintro ⟨p, hp⟩; exact ⟨_, hp⟩

/-- **C46**, ownKeys: the list the trap returns is reported if it consists of strings and symbols, has
none twice, has all keys of the target which are not configurable, and, if the target is not
extensible, is made of exactly the keys of the target. -/
theorem C46_ownKeys_partial {E : Env} {h : Heap} {t : Nat} {c : Call KVal} {o : Obj.Obj} {ks : List Key}
    (hr : Reach E c.heap) (hc : c.cell = t) (ho : c.heap[t]? = some o)
    (hv : c.res = some (.obj (some (ks.map fun k => some (.key k))))) :
    (Spec.MayKeys o ks → ownKeys (some t) h (.trap c) = some (c.heap, .ret ks)) ∧
    (¬ Spec.MayKeys o ks → ownKeys (some t) h (.trap c) = some (c.heap, .typeError)) := by
  obtain ⟨hg, _⟩ := hr.inv.good t o ho
  obtain ⟨tks, t1, t2, t3⟩ := keys_nodup hr ho
  rw [ownKeys, viaTrap_ret hc hv, chkKeys]
  by_cases hn : ks.Nodup
  · rw [readKeys_keys ks [] (by simpa using hn)]
    simp only [ho, t1, List.nil_append]
    have hex : ∀ k ∈ tks, Obj.get o k ≠ none := by
      intro k hk c
      obtain ⟨p, hp⟩ := (t3 k).1 hk
      exact own_none hg c p hp
    obtain ⟨a, b, s1, s2, s3, s4⟩ := splitKeys_spec hg tks hex
    rw [s1]
    simp only
    have hcf : ∀ (k : Key) q, Obj.get o k = some q → ∀ p, Own o k p → p.configurable = q.c := by
      intro k q hq p hp
      rw [own_some hg hq] at hp
      subst hp
      obtain ⟨w, e, c, body⟩ := q
      cases body <;> rfl
    have hm : Spec.MayKeys o ks ↔
        ((∀ k ∈ a, k ∈ ks) ∧ (o.ext = false → ∀ k, k ∈ ks ↔ k ∈ a ∨ k ∈ b)) := by
      have hab : ∀ k, (k ∈ a ∨ k ∈ b) ↔ ∃ p, Own o k p := by
        intro k
        rw [s2, s3, ← t3]
        constructor
        · rintro (c | c) <;> exact c.1
        · intro hk
          cases hq : Obj.get o k with
          | none => exact absurd hq (hex k hk)
          | some q =>
            cases hqc : q.c with
            | false => exact Or.inl ⟨hk, q, rfl, hqc⟩
            | true => exact Or.inr ⟨hk, q, rfl, hqc⟩
      have ha : (∀ k ∈ a, k ∈ ks) ↔ ∀ k p, Own o k p → p.configurable = false → k ∈ ks := by
        constructor
        · intro hh k p hp hpc
          obtain ⟨q, hq, _⟩ := (own_iff hg k p).1 hp
          refine hh k ((s2 k).2 ⟨(t3 k).2 ⟨p, hp⟩, q, hq, ?_⟩)
          rw [← hcf k q hq p hp, hpc]
        · intro hh k hk
          obtain ⟨c1, q, hq, hqc⟩ := (s2 k).1 hk
          obtain ⟨p, hp⟩ := (t3 k).1 c1
          exact hh k p hp (by rw [hcf k q hq p hp, hqc])
      unfold Spec.MayKeys
      rw [ha]
      constructor
      · rintro ⟨_, c1, c2⟩
        exact ⟨c1, fun he k => by rw [c2 he k, hab]⟩
      · rintro ⟨c1, c2⟩
        exact ⟨hn, c1, fun he k => by rw [c2 he k, hab]⟩
    obtain ⟨n1, n2⟩ := s4 t2
    obtain ⟨h1, h2⟩ := compareKeys_spec (ext := o.ext) n1 n2 hn (by
      intro k ha hb
      obtain ⟨_, q, hq, c1⟩ := (s2 k).1 ha
      obtain ⟨_, q', hq', c2⟩ := (s3 k).1 hb
      rw [hq] at hq'; cases hq'
      rw [c1] at c2; cases c2)
    exact ⟨fun m => by rw [h1 (hm.1 m)], fun m => by rw [h2 fun c => m (hm.2 c)]⟩
  · refine ⟨fun m => absurd m.1 hn, fun _ => ?_⟩
    cases e : readKeys (ks.map fun k => some (.key k)) [] with
    | ret r =>
      obtain ⟨m, e1, e2, e3⟩ := readKeys_ret _ _ _ e (by simp)
      exfalso
      simp only [List.nil_append] at e1
      subst e1
      have : ks = r := by
        have hinj : ∀ (a b : List Key), a.map (fun k => some (Elem.key k)) = b.map (fun k => some (Elem.key k)) → a = b := by
          intro a
          induction a with
          | nil => intro b e; cases b with
            | nil => rfl
            | cons => cases e
          | cons x a ih => intro b e; cases b with
            | nil => cases e
            | cons y b =>
              simp only [List.map_cons, List.cons.injEq, Option.some.injEq, Elem.key.injEq] at e
              rw [e.1, ih b e.2]
        exact hinj _ _ e3
      exact hn (this ▸ e2)
    | typeError => rfl
    | thrown =>
      exfalso
      have : ∀ (l : List Key) (acc : List Key), readKeys (l.map fun k => some (Elem.key k)) acc ≠ .thrown := by
        intro l
        induction l with
        | nil => intro acc; simp [readKeys]
        | cons x l ih =>
          intro acc
          simp only [List.map_cons, readKeys]
          split
          · simp
          · exact ih _
      exact this _ _ e
    | call f => exact absurd e (readKeys_cases _ _ f)

/-- **C46**, ownKeys: what is reported is a list of strings and symbols which the specification
allows, whatever the trap returned. -/
theorem C46_ownKeys_only_partial {E : Env} {h h' : Heap} {t : Nat} {c : Call KVal} {o : Obj.Obj} {ks : List Key}
    (hr : Reach E c.heap) (hc : c.cell = t) (ho : c.heap[t]? = some o)
    (he : ownKeys (some t) h (.trap c) = some (h', .ret ks)) :
    c.res = some (.obj (some (ks.map fun k => some (.key k)))) ∧ Spec.MayKeys o ks := by
  have key : c.res = some (.obj (some (ks.map fun k => some (.key k)))) := by
    cases hv : c.res with
    | none => simp [ownKeys, viaTrap, hv] at he
    | some v =>
      rw [ownKeys, viaTrap_ret hc hv, chkKeys.eq_def] at he
      cases v with
      | prim => simp at he
      | obj l =>
        cases l with
        | none => simp at he
        | some l =>
          simp only at he
          cases e : readKeys l [] with
          | ret r =>
            rw [e] at he
            obtain ⟨m, e1, _, e3⟩ := readKeys_ret _ _ _ e (by simp)
            simp only [List.nil_append] at e1
            subst e1
            simp only [ho] at he
            split at he
            · cases he
            · split at he
              · cases he
              · simp only [Option.some.injEq, Prod.mk.injEq] at he
                have : r = ks := by
                  have h2 := he.2
                  unfold compareKeys at h2
                  split at h2
                  · cases h2; rfl
                  · split at h2
                    · cases h2
                    · split at h2
                      · cases h2; rfl
                      · split at h2
                        · cases h2
                        · split at h2
                          · cases h2
                          · cases h2; rfl
                rw [e3, this]
          | typeError => rw [e] at he; simp at he
          | thrown => rw [e] at he; simp at he
          | call f => exact absurd e (readKeys_cases _ _ f)
  refine ⟨key, Classical.byContradiction fun hm => ?_⟩
  rw [(C46_ownKeys_partial hr hc ho key).2 hm] at he
  simp at he

/-! ### Without a trap, and other ends -/

/-- **C46**: if the handler has no such method, the operation is that of the target. -/
theorem C46_forward (callable : Val → Bool) (oth : Nat → Option Nat) (h h' : Heap) (t : Nat) (k : Key) (d : Desc) (v : Val)
    (p recv : Option Nat) {o : Obj.Obj} (ho : h'[t]? = some o) :
    getProto (some t) h (.missing h') = some (h', .ret o.proto) ∧
    setProto (some t) h p (.missing h') = ofRet (Obj.setProto h' t p) ∧
    isExt (some t) h (.missing h') = some (h', .ret o.ext) ∧
    preventExt (some t) h (.missing h') = some (h'.set t { o with ext := false }, .ret true) ∧
    getOwn callable (some t) h k (.missing h') = (Obj.getOwn o k).map (fun x => (h', .ret x)) ∧
    define oth (some t) h k d (.missing h') = ofRet (Obj.onObj h' t fun o => Obj.define oth o k d) ∧
    has (some t) h k (.missing h') = (Obj.findProp h' k (h'.length + 1) t).map (fun x => (h', .ret x.isSome)) ∧
    set oth (some t) h k v recv (.missing h') = ofRet (Obj.set oth h' t k v recv) ∧
    delete (some t) h k (.missing h') = (Obj.delete o k).map (fun x => (h'.set t x.1, .ret x.2)) ∧
    ownKeys (some t) h (.missing h') = (Obj.ownKeys o).map (fun x => (h', .ret x)) := by
  refine ⟨?_, rfl, ?_, ?_, ?_, rfl, ?_, rfl, ?_, ?_⟩
  · simp [getProto, viaTrap, fwdGetProto, ho]
  · simp [isExt, viaTrap, fwdIsExt, ho]
  · simp [preventExt, viaTrap, fwdPreventExt, Obj.onObj, ofRet, ho]
  · simp only [getOwn, viaTrap, fwdGetOwn, ho]
    cases Obj.getOwn o k <;> rfl
  · simp only [has, viaTrap, fwdHas]
    cases Obj.findProp h' k (h'.length + 1) t <;> rfl
  · simp only [delete, viaTrap, fwdDelete, Obj.onObj, ho]
    cases Obj.delete o k <;> rfl
  · simp only [ownKeys, viaTrap, fwdKeys, ho]
    cases Obj.ownKeys o <;> rfl

/-- **C46**, get without a trap: the value is one the target allows. -/
theorem C46_forward_get {E : Env} {h h' h'' : Heap} {t : Nat} {o : Obj.Obj} {k : Key} {v : Val}
    (hr : Reach E h') (ho : h'[t]? = some o) (he : get (some t) h k (.missing h') = some (h'', .ret v)) :
    h'' = h' ∧ Spec.MayGet o k v := by
  obtain ⟨hg, _⟩ := hr.inv.good t o ho
  cases e : Obj.get o k with
  | none =>
    refine ⟨?_, fun _ _ c => absurd c (own_none hg e _), fun _ _ c => absurd c (own_none hg e _)⟩
    simp only [get, viaTrap, fwdGet] at he
    split at he
    · cases he
    · cases he; rfl
    · split at he
      · cases he; rfl
      · split at he
        · cases he; rfl
        · cases he
  | some q =>
    have hf : Obj.findProp h' k (h'.length + 1) t = some (some (Obj.descOf q)) := by
      simp only [Obj.findProp, ho, Obj.getOwn_get hg, e, Option.map_some]
    simp only [get, viaTrap, fwdGet, hf] at he
    unfold Spec.MayGet
    simp only [own_some hg e]
    obtain ⟨w, en, c, body⟩ := q
    cases body with
    | data x =>
      simp only [Obj.descOf, Obj.isData, Bool.or_true, if_true, Option.some.injEq, Prod.mk.injEq, Out.ret.injEq] at he
      refine ⟨he.1.symm, fun x' e' c => ?_, fun s e' c => (by cases c)⟩
      simp only [Obj.spOf, Prp.data.injEq] at c
      rw [← he.2, c.1]
    | acc g s =>
      rw [if_neg (by simp [Obj.descOf, Obj.isData])] at he
      split at he
      · simp only [Option.some.injEq, Prod.mk.injEq, Out.ret.injEq] at he
        exact ⟨he.1.symm, fun x' e' c => (by cases c), fun _ _ _ => he.2.symm⟩
      · simp at he

/-- **C46**: a revoked proxy answers with a TypeError; and exceptions of a trap, or of looking it up,
are passed on. -/
theorem C46_other {α β : Type} (h h' : Heap) (t : Nat) (f : Found α) (c : Call α) (hc : c.res = none)
    (fwd : Heap → Nat → Option (Heap × Out β)) (chk : Heap → Nat → α → Option (Heap × Out β)) :
    viaTrap none h f fwd chk = some (h, .typeError) ∧
    viaTrap (some t) h (.thrown h') fwd chk = some (h', .thrown) ∧
    viaTrap (some t) h (.trap c) fwd chk = some (c.heap, .thrown) := by
  refine ⟨rfl, rfl, ?_⟩
  simp [viaTrap, hc]

/-- **C46**, over time: let a property of the target be constant with the value `x` at some time.
Whatever the program does then (including the trap), reading the property through the proxy
either gives `x` or throws; and it is never reported to be absent. -/
theorem C46_constant_partial {E : Env} {h h0 : Heap} {t : Nat} {o : Obj.Obj} {k : Key} {x : Val} {e : Bool}
    (hr : Reach E h) (ho : h[t]? = some o) (hx : Own o k (.data x false e false)) {ops : List Op} :
    (∀ (c : Call Val) h' v, run E h ops = some c.heap → c.cell = t →
      get (some t) h0 k (.trap c) = some (h', .ret v) → v = x) ∧
    (∀ (c : Call Bool) h' b, run E h ops = some c.heap → c.cell = t →
      has (some t) h0 k (.trap c) = some (h', .ret b) → b = true) ∧
    (∀ (c : Call DVal) h' d, run E h ops = some c.heap → c.cell = t →
      getOwn E.callable (some t) h0 k (.trap c) = some (h', .ret d) →
      d.map Obj.fromDesc = some (Prp.data x false e false).report) := by
  have stays : ∀ h', run E h ops = some h' → Reach E h' ∧ ∃ o', h'[t]? = some o' ∧ Own o' k (.data x false e false) := by
    intro h' hrun
    obtain ⟨o', f', e1, e2, e3, e4, e5, e6⟩ := Obj.C32 hr hrun ho hx rfl
    refine ⟨?_, o', e1, ?_⟩
    · obtain ⟨ops0, h1⟩ := hr
      refine ⟨ops0 ++ ops, ?_⟩
      have : ∀ (l : List Op) (a : Heap), run E a l = some h → run E a (l ++ ops) = some h' := by
        intro l
        induction l with
        | nil => intro a e; cases e; exact hrun
        | cons y l ih =>
          intro a e
          simp only [Obj.run, List.cons_append] at e ⊢
          cases hs : Obj.step E a y with
          | none => rw [hs] at e; cases e
          | some z => rw [hs] at e; exact ih _ e
      exact this ops0 [] h1
    · rw [Own, e2, (e6 (by simp [Prp.report])).2 rfl]
  refine ⟨fun c h' v hrun hc he => ?_, fun c h' b hrun hc he => ?_, fun c h' d hrun hc he => ?_⟩
  · obtain ⟨hr', o', ho', hx'⟩ := stays _ hrun
    cases hv : c.res with
    | none => rw [get, (C46_other h0 h0 t (.trap c) c hv _ _).2.2] at he; simp at he
    | some a =>
      obtain ⟨h1, h2⟩ := C46_get_partial (h := h0) (v := a) k hr' hc ho' hv
      by_cases hm : Spec.MayGet o' k a
      · rw [h1 hm] at he
        simp only [Option.some.injEq, Prod.mk.injEq, Out.ret.injEq] at he
        rw [← he.2]
        exact hm.1 x e hx'
      · rw [h2 hm] at he; simp at he
  · obtain ⟨hr', o', ho', hx'⟩ := stays _ hrun
    cases hv : c.res with
    | none => rw [has, (C46_other h0 h0 t (.trap c) c hv _ _).2.2] at he; simp at he
    | some a =>
      obtain ⟨h1, h2⟩ := C46_has_partial (h := h0) (b := a) k hr' hc ho' hv
      by_cases hm : a = true ∨ Spec.MayAbsent o' k
      · rw [h1 hm] at he
        simp only [Option.some.injEq, Prod.mk.injEq, Out.ret.injEq] at he
        rcases hm with hm | hm
        · rw [← he.2, hm]
        · have := (hm _ hx').1
          cases this
      · rw [h2 hm] at he; simp at he
  · obtain ⟨hr', o', ho', hx'⟩ := stays _ hrun
    cases hv : c.res with
    | none => rw [getOwn, (C46_other h0 h0 t (.trap c) c hv _ _).2.2] at he; simp at he
    | some a =>
      cases a with
      | undef =>
        obtain ⟨_, h2⟩ := C46_getOwn_absent_partial (h := h0) k hr' hc ho' hv
        rw [h2 fun hm => by have := (hm _ hx').1; cases this] at he
        simp at he
      | prim => rw [getOwn, viaTrap_ret hc hv, chkGetOwn] at he; simp at he
      | obj f h2 =>
        cases f with
        | none =>
          rw [getOwn, viaTrap_ret hc hv, chkGetOwn.eq_def] at he
          simp only [ho', Obj.getOwn_get (hr'.inv.good t o' ho').1] at he
          simp at he
        | some f =>
          obtain ⟨a1, a2, a3⟩ := C46_getOwn_partial (h := h0) k hr' hc ho' hv
          cases hval : Obj.Spec.valid E.callable f with
          | false => rw [a3 hval] at he; simp at he
          | true =>
            by_cases hm : Spec.MayReport o' k (Obj.Spec.fresh f)
            · obtain ⟨d', c1, c2⟩ := a1 hm hval
              rw [c1] at he
              simp only [Option.some.injEq, Prod.mk.injEq, Out.ret.injEq] at he
              rw [← he.2, Option.map_some, c2]
              obtain ⟨b1, b2, b3⟩ := hm.2.1 _ hx' rfl
              cases hfr : Obj.Spec.fresh f with
              | acc g s e' c' => rw [hfr] at b3; exact b3.elim
              | data v w e' c' =>
                rw [hfr] at b1 b2 b3
                simp only [Prp.configurable, Prp.enumerable] at b1 b2
                obtain ⟨b4, b5⟩ := b3 rfl
                rw [b1, b2, b4, b5]
            · rw [a2 hm hval] at he; simp at he

/-! ### Examples -/

/-- The objects of the examples: 0, the prototype of the others; 1, with a constant property (key
`x`) and one which can be changed (key `y`), not extensible; 2, the prototype of instances of a
function; 3, whose prototype is 2; 4, whose prototype is 3, with a constant property. -/
def exEnv : Env := ⟨fun _ => none, fun _ => true⟩
def kx : Key := .name (.str 5)
def ky : Key := .name (.str 6)
def exOps : List Op := [.create none, .create (some 0), .create (some 0), .create (some 2), .create (some 3),
  .define 1 kx { value := some (.num 1) }, .define 1 ky { value := some (.num 2), configurable := some true },
  .preventExt 1, .define 4 kx { value := some (.num 1) }]
def exHeap : Heap := (run exEnv [] exOps).getD []

theorem exReach : Reach exEnv exHeap := ⟨exOps, by rfl⟩

/-- A trap which returns an allowed or a wrong answer: `x` may only be read as 1; `y` must be there;
the keys must be `x` and `y`, in any order. -/
example :
    ((get (some 1) exHeap kx (.trap ⟨exHeap, 1, some (.num 1)⟩)).map (·.2) = some (.ret (.num 1))) ∧
    ((get (some 1) exHeap kx (.trap ⟨exHeap, 1, some (.num 2)⟩)).map (·.2) = some .typeError) ∧
    ((get (some 1) exHeap ky (.trap ⟨exHeap, 1, some (.num 7)⟩)).map (·.2) = some (.ret (.num 7))) ∧
    ((has (some 1) exHeap ky (.trap ⟨exHeap, 1, some false⟩)).map (·.2) = some .typeError) ∧
    ((has (some 2) exHeap ky (.trap ⟨exHeap, 2, some true⟩)).map (·.2) = some (.ret true)) ∧
    ((ownKeys (some 1) exHeap (.trap ⟨exHeap, 1, some (.obj (some [some (.key ky), some (.key kx)]))⟩)).map (·.2) =
      some (.ret [ky, kx])) ∧
    ((ownKeys (some 1) exHeap (.trap ⟨exHeap, 1, some (.obj (some [some (.key kx)]))⟩)).map (·.2) = some .typeError) := by
  decide +kernel

/-! ### A trap which writes to its argument -/

/-- The boolean as a value. -/
def boolVal (b : Bool) : Val := .other (if b then 1 else 0)

/-- **C46** fails: with `Function.prototype[Symbol.hasInstance]` as trap `get` of a handler which is a
function, the checks are made for another object than the target: a constant property of the
target with the value 1 is read as `false`. -/
theorem C46_violated : ∃ (E : Env) (h : Heap) (o : Obj.Obj) (k : Key) (c : Call Val), Reach E h ∧ h[1]? = some o ∧
    Own o k (.data (.num 1) false false false) ∧
    hasInstanceTrap boolVal h 2 1 = some c ∧ c.heap[1]? = some o ∧
    get (some 1) h k (.trap c) = some (h, .ret (boolVal false)) ∧ ¬ Spec.MayGet o k (boolVal false) := by
  have hl : exHeap[1]? = some exHeap[1] := rfl
  have hown : Own exHeap[1] kx (.data (.num 1) false false false) := by
    unfold Own; decide +kernel
  refine ⟨exEnv, exHeap, exHeap[1], kx, ⟨exHeap, 0, some (boolVal false)⟩, exReach, hl, hown, rfl, hl, rfl, fun hm => ?_⟩
  have := hm.1 _ _ hown
  cases this

/-- **C46** fails for `has` in the same way: a property which is not configurable is reported to be
absent. -/
theorem C46_violated_has : ∃ (E : Env) (h : Heap) (o : Obj.Obj) (k : Key) (c : Call Bool), Reach E h ∧ h[1]? = some o ∧
    hasInstanceTrap id h 2 1 = some c ∧ c.heap[1]? = some o ∧
    has (some 1) h k (.trap c) = some (h, .ret false) ∧ ¬ Spec.MayAbsent o k := by
  have hl : exHeap[1]? = some exHeap[1] := rfl
  have hown : Own exHeap[1] kx (.data (.num 1) false false false) := by
    unfold Own; decide +kernel
  refine ⟨exEnv, exHeap, exHeap[1], kx, ⟨exHeap, 0, some false⟩, exReach, hl, rfl, hl, rfl, fun hm => ?_⟩
  have := (hm _ hown).1
  cases this

/-- **C46** fails for `deleteProperty`: a property which is not configurable is reported to be
deleted. -/
theorem C46_violated_delete : ∃ (E : Env) (h : Heap) (o : Obj.Obj) (k : Key) (c : Call Bool), Reach E h ∧ h[4]? = some o ∧
    hasInstanceTrap id h 2 4 = some c ∧ c.heap[4]? = some o ∧
    delete (some 4) h k (.trap c) = some (h, .ret true) ∧ ¬ Spec.MayAbsent o k := by
  have hl : exHeap[4]? = some exHeap[4] := rfl
  have hown : Own exHeap[4] kx (.data (.num 1) false false false) := by
    unfold Own; decide +kernel
  refine ⟨exEnv, exHeap, exHeap[4], kx, ⟨exHeap, 3, some true⟩, exReach, hl, rfl, hl, rfl, fun hm => ?_⟩
  have := (hm _ hown).1
  cases this

end Verif.Proxy

import Verif.Model.Proxy
import Verif.Spec.Proxy
import Verif.Lemmas.Descriptor
import Verif.Props.Object
/-
The checks of the operations of proxies decide what the specification says.
-/
namespace Verif.Proxy
open Obj (Heap Key Desc Fields Val Ret P spOf Good WfP descOf)
open Spec (Own)
open Obj.Spec (Prp)

/-- The outcome is `a` if `ok` holds, and a TypeError otherwise. -/
def Decides {α : Type} (x : Out α) (ok : Prop) (a : α) : Prop := (ok → x = .ret a) ∧ (¬ ok → x = .typeError)

theorem decides_yes {α : Type} {x : Out α} {ok : Prop} {a : α} (h : x = .ret a) (k : ok) : Decides x ok a :=
  ⟨fun _ => h, fun n => absurd k n⟩

theorem decides_no {α : Type} {x : Out α} {ok : Prop} {a : α} (h : x = .typeError) (k : ¬ ok) : Decides x ok a :=
  ⟨fun n => absurd n k, fun _ => h⟩

theorem own_iff {o : Obj.Obj} (h : Good o) (k : Key) (p : Prp) :
    Own o k p ↔ ∃ q, Obj.get o k = some q ∧ spOf q = p := by
  unfold Own
  rw [Obj.report_get h]
  cases Obj.get o k with
  | none => simp
  | some q =>
    simp only [Option.map_some, Option.some.injEq]
    constructor
    · intro e; exact ⟨q, rfl, Obj.report_inj e⟩
    · rintro ⟨_, rfl, rfl⟩; rfl

theorem own_none {o : Obj.Obj} (h : Good o) {k : Key} (e : Obj.get o k = none) (p : Prp) : ¬ Own o k p := by
  rw [own_iff h, e]; simp

theorem own_some {o : Obj.Obj} (h : Good o) {k : Key} {q : P} (e : Obj.get o k = some q) (p : Prp) :
    Own o k p ↔ p = spOf q := by
  rw [own_iff h, e]
  simp [eq_comm]

theorem compareGet_spec {o : Obj.Obj} (h : Good o) (k : Key) (v : Val) :
    Decides (compareGet ((Obj.get o k).map descOf) v) (Spec.MayGet o k v) v := by
  cases e : Obj.get o k with
  | none => exact decides_yes rfl ⟨fun _ _ c => absurd c (own_none h e _), fun _ _ c => absurd c (own_none h e _)⟩
  | some q =>
    unfold Spec.MayGet
    simp only [own_some h e]
    obtain ⟨w, en, c, body⟩ := q
    cases body with
    | data x =>
      cases c <;> cases w <;> simp [compareGet, descOf, Obj.isData, Obj.isAcc, Decides, spOf]
    | acc g s =>
      by_cases hc : c = false ∧ g = .undef ∧ v ≠ .undef
      · obtain ⟨rfl, rfl, hv⟩ := hc
        refine decides_no (by simp [compareGet, descOf, Obj.isData, Obj.isAcc, hv]) fun hh => hv (hh.2 s en rfl)
      · refine decides_yes ?_ ⟨fun _ _ c => (by cases c), fun s' e' c => ?_⟩
        · simp only [compareGet, descOf, Obj.isData, Obj.isAcc, Option.map_some]
          cases c
          · by_cases hg : g = .undef <;> by_cases hv : v = .undef <;> simp_all
          · simp
        · cases c
          exact Decidable.byContradiction fun c => hc ⟨rfl, rfl, c⟩

theorem compareSet_spec {o : Obj.Obj} (h : Good o) (k : Key) (v : Val) :
    Decides (compareSet ((Obj.get o k).map descOf) v) (Spec.MaySet o k v) true := by
  cases e : Obj.get o k with
  | none => exact decides_yes rfl ⟨fun _ _ c => absurd c (own_none h e _), fun _ _ c => absurd c (own_none h e _)⟩
  | some q =>
    unfold Spec.MaySet
    simp only [own_some h e]
    obtain ⟨w, en, c, body⟩ := q
    cases body with
    | data x =>
      cases c <;> cases w <;> simp [compareSet, descOf, Obj.isData, Obj.isAcc, Decides, spOf]
    | acc g s =>
      by_cases hc : c = false ∧ s = .undef
      · obtain ⟨rfl, rfl⟩ := hc
        refine decides_no (by simp [compareSet, descOf, Obj.isData, Obj.isAcc]) fun hh => hh.2 g en rfl
      · refine decides_yes ?_ ⟨fun _ _ c => (by cases c), fun s' e' c => ?_⟩
        · simp only [compareSet, descOf, Obj.isData, Obj.isAcc, Option.map_some]
          cases c
          · by_cases hg : s = .undef <;> simp_all
          · simp
        · cases c
          exact hc ⟨rfl, rfl⟩

theorem absent_spec {o : Obj.Obj} (h : Good o) (k : Key) :
    Spec.MayAbsent o k ↔ ∀ q, Obj.get o k = some q → q.c = true ∧ o.ext = true := by
  unfold Spec.MayAbsent
  cases e : Obj.get o k with
  | none => simp [own_none h e]
  | some q =>
    simp only [own_some h e]
    obtain ⟨w, en, c, body⟩ := q
    cases body <;> simp [spOf, Prp.configurable]

theorem compareDefine_spec {callable : Val → Bool} {o : Obj.Obj} (h : Good o) (k : Key) {f : Fields} {d : Desc}
    (hd : Obj.toDesc callable f = some d) :
    Decides (compareDefine o.ext ((Obj.get o k).map descOf) d) (Spec.MayDefine o k f) true := by
  rw [Obj.toDesc_eq] at hd
  split at hd
  · rename_i hf
    cases hd
    cases e : Obj.get o k with
    | none =>
      unfold Spec.MayDefine
      have hc : ((Obj.ofFields f).hasC && !(Obj.ofFields f).c) = decide (f.configurable = some false) := by
        obtain ⟨e, c, v, w, g, s⟩ := f
        rcases c with _ | (_ | _) <;> rfl
      simp only [own_none h e, Option.map_none, compareDefine, hc, false_and]
      cases o.ext <;> by_cases c : f.configurable = some false <;> simp [c, Decides]
    | some q =>
      have ha := Obj.allowed_eq hf (h.wf k q e)
      unfold Spec.MayDefine
      simp only [own_some h e, Option.map_some, compareDefine, exists_eq, exists_eq_left, forall_eq]
      rw [← ha]
      generalize hx : (Obj.noFlags (Obj.ofFields f) || Obj.check (Obj.ofFields f) (descOf q)) = x
      have hx' : Obj.isCompatible o.ext (Obj.ofFields f) (some (descOf q)) = x := by
        rw [← hx, Obj.isCompatible]; cases Obj.noFlags (Obj.ofFields f) <;> rfl
      rw [hx']
      clear hx hx' ha
      obtain ⟨fe, fc, fv, fw, fg, fs⟩ := f
      obtain ⟨w, en, c, body⟩ := q
      cases x <;> rcases fc with _ | (_ | _) <;> rcases fw with _ | (_ | _) <;> cases c <;> cases w <;> cases body <;>
        simp [Obj.ofFields, spOf, descOf, Obj.isData, Prp.configurable, Decides]
  · cases hd

/-- A completed descriptor is that of a new property. -/
theorem complete_new {callable : Val → Bool} {f : Fields} (hf : Obj.fieldsOk callable f = true) :
    Obj.complete (Obj.ofFields f) = descOf (Obj.newProp (Obj.ofFields f)) := by
  obtain ⟨fe, fc, fv, fw, fg, fs⟩ := f
  rcases fe with _ | (_ | _) <;> rcases fc with _ | (_ | _) <;> cases fv <;> rcases fw with _ | (_ | _) <;> cases fg <;> cases fs <;>
    first
    | rfl
    | (simp [Obj.fieldsOk] at hf; done)

set_option maxHeartbeats 1000000 in
theorem compareOwn_spec {callable : Val → Bool} {o : Obj.Obj} (h : Good o) (k : Key) {f : Fields} {d : Desc}
    (hd : Obj.toDesc callable f = some d) :
    Decides (compareOwn o.ext ((Obj.get o k).map descOf) d) (Spec.MayReport o k (Obj.Spec.fresh f))
      (some (Obj.complete d)) := by
  rw [Obj.toDesc_eq] at hd
  split at hd
  · rename_i hf
    cases hd
    rw [← Obj.fresh_eq]
    have hw := Obj.newProp_wf (Obj.ofFields f)
    unfold compareOwn
    rw [complete_new hf]
    simp only
    generalize Obj.newProp (Obj.ofFields f) = q at *
    cases e : Obj.get o k with
    | none =>
      unfold Spec.MayReport
      simp only [own_none h e, Option.map_none, Obj.isCompatible]
      obtain ⟨w, en, c, body⟩ := q
      cases o.ext <;> cases c <;> cases w <;> cases body <;> simp [Decides, descOf, spOf, Prp.configurable]
    | some p =>
      unfold Spec.MayReport Spec.Faithful
      simp only [own_some h e, Option.map_some, Obj.isCompatible]
      have hp := h.wf k p e
      clear e
      obtain ⟨w, en, c, body⟩ := q
      obtain ⟨w', en', c', body'⟩ := p
      cases body with
      | data v =>
        cases body' with
        | data v' =>
          by_cases hv : v = v' <;> cases c <;> cases c' <;> cases w <;> cases w' <;> cases en <;> cases en' <;>
            simp [Decides, descOf, spOf, Prp.configurable, Prp.enumerable, Obj.noFlags, Obj.check, Obj.isGeneric, Obj.isAcc,
              Obj.isData, hv]
        | acc g' s' =>
          have hw' : w' = false := hp g' s' rfl
          subst hw'
          cases c <;> cases c' <;> cases w <;> cases en <;> cases en' <;>
            simp [Decides, descOf, spOf, Prp.configurable, Prp.enumerable, Obj.noFlags, Obj.check, Obj.isGeneric, Obj.isAcc,
              Obj.isData]
      | acc g s =>
        have hw : w = false := hw g s rfl
        subst hw
        cases body' with
        | data v' =>
          cases c <;> cases c' <;> cases w' <;> cases en <;> cases en' <;>
            simp [Decides, descOf, spOf, Prp.configurable, Prp.enumerable, Obj.noFlags, Obj.check, Obj.isGeneric, Obj.isAcc,
              Obj.isData]
        | acc g' s' =>
          have hw' : w' = false := hp g' s' rfl
          subst hw'
          by_cases hg : g = g' <;> by_cases hs : s = s' <;> cases c <;> cases c' <;> cases en <;> cases en' <;>
            simp [Decides, descOf, spOf, Prp.configurable, Prp.enumerable, Obj.noFlags, Obj.check, Obj.isGeneric, Obj.isAcc,
              Obj.isData, hg, hs]
  · cases hd

/-! ### Keys -/

theorem readKeys_ret : ∀ (l : List (Option Elem)) (ks r : List Key), readKeys l ks = .ret r → ks.Nodup →
    ∃ m, r = ks ++ m ∧ r.Nodup ∧ l = m.map fun k => some (.key k)
  | [], ks, r, e, hn => by cases e; exact ⟨[], by simp, hn, rfl⟩
  | none :: _, _, _, e, _ => by cases e
  | some .other :: _, _, _, e, _ => by cases e
  | some (.key k) :: l, ks, r, e, hn => by
    simp only [readKeys] at e
    split at e
    · cases e
    · rename_i hk
      obtain ⟨m, h1, h2, h3⟩ := readKeys_ret l (ks ++ [k]) r e (by
        rw [List.nodup_append]
        refine ⟨hn, by simp, ?_⟩
        intro a ha b hb
        rw [List.mem_singleton] at hb
        subst hb
        exact fun c => hk (c ▸ ha))
      exact ⟨k :: m, by rw [h1]; simp, h2, by rw [h3]; rfl⟩

theorem readKeys_keys : ∀ (m ks : List Key), (ks ++ m).Nodup →
    readKeys (m.map fun k => some (.key k)) ks = .ret (ks ++ m)
  | [], ks, _ => by simp [readKeys]
  | k :: m, ks, hn => by
    simp only [List.map_cons, readKeys]
    rw [if_neg]
    · rw [readKeys_keys m (ks ++ [k]) (by simpa using hn)]; simp
    · intro c
      rw [List.nodup_append] at hn
      exact hn.2.2 k c k (by simp) rfl

theorem readKeys_cases : ∀ (l : List (Option Elem)) (ks : List Key), ∀ f, readKeys l ks ≠ .call f
  | [], _, _ => by simp [readKeys]
  | none :: _, _, _ => by simp [readKeys]
  | some .other :: _, _, _ => by simp [readKeys]
  | some (.key k) :: l, ks, f => by
    simp only [readKeys]
    split
    · simp
    · exact readKeys_cases l _ f

theorem splitKeys_spec {o : Obj.Obj} (h : Good o) : ∀ (l : List Key), (∀ k ∈ l, Obj.get o k ≠ none) →
    ∃ a b, splitKeys o l = some (a, b) ∧
      (∀ k, k ∈ a ↔ k ∈ l ∧ ∃ q, Obj.get o k = some q ∧ q.c = false) ∧
      (∀ k, k ∈ b ↔ k ∈ l ∧ ∃ q, Obj.get o k = some q ∧ q.c = true) ∧
      (l.Nodup → a.Nodup ∧ b.Nodup)
  | [], _ => ⟨[], [], rfl, by simp, by simp, by simp⟩
  | k :: l, hl => by
    obtain ⟨a, b, h1, h2, h3, h4⟩ := splitKeys_spec h l (fun k hk => hl k (List.mem_cons_of_mem _ hk))
    cases e : Obj.get o k with
    | none => exact absurd e (hl k (by simp))
    | some q =>
      have hdc : (descOf q).c = q.c := by unfold descOf; split <;> rfl
      simp only [splitKeys, Obj.getOwn_get h, e, Option.map_some, h1, hdc]
      cases hc : q.c with
      | false =>
        refine ⟨k :: a, b, by simp, fun x => ?_, fun x => ?_, fun hn => ?_⟩
        · rw [List.mem_cons, List.mem_cons, h2]
          constructor
          · rintro (rfl | ⟨c1, c2⟩)
            · exact ⟨Or.inl rfl, q, e, hc⟩
            · exact ⟨Or.inr c1, c2⟩
          · rintro ⟨rfl | c1, c2⟩
            · exact Or.inl rfl
            · exact Or.inr ⟨c1, c2⟩
        · rw [List.mem_cons, h3]
          constructor
          · rintro ⟨c1, c2⟩; exact ⟨Or.inr c1, c2⟩
          · rintro ⟨rfl | c1, q', c2, c3⟩
            · rw [e] at c2; cases c2; rw [hc] at c3; cases c3
            · exact ⟨c1, q', c2, c3⟩
        · rw [List.nodup_cons] at hn
          have := h4 hn.2
          refine ⟨List.nodup_cons.2 ⟨fun c => hn.1 ((h2 k).1 c).1, this.1⟩, this.2⟩
      | true =>
        refine ⟨a, k :: b, by simp, fun x => ?_, fun x => ?_, fun hn => ?_⟩
        · rw [List.mem_cons, h2]
          constructor
          · rintro ⟨c1, c2⟩; exact ⟨Or.inr c1, c2⟩
          · rintro ⟨rfl | c1, q', c2, c3⟩
            · rw [e] at c2; cases c2; rw [hc] at c3; cases c3
            · exact ⟨c1, q', c2, c3⟩
        · rw [List.mem_cons, List.mem_cons, h3]
          constructor
          · rintro (rfl | ⟨c1, c2⟩)
            · exact ⟨Or.inl rfl, q, e, hc⟩
            · exact ⟨Or.inr c1, c2⟩
          · rintro ⟨rfl | c1, c2⟩
            · exact Or.inl rfl
            · exact Or.inr ⟨c1, c2⟩
        · rw [List.nodup_cons] at hn
          have := h4 hn.2
          refine ⟨this.1, List.nodup_cons.2 ⟨fun c => hn.1 ((h3 k).1 c).1, this.2⟩⟩

theorem removeKeys_spec : ∀ (l hash : List Key), l.Nodup → hash.Nodup →
    ((∀ k ∈ l, k ∈ hash) → ∃ r, removeKeys l hash = some r ∧ r.Nodup ∧ ∀ k, k ∈ r ↔ k ∈ hash ∧ k ∉ l) ∧
    ((∃ k ∈ l, k ∉ hash) → removeKeys l hash = none)
  | [], hash, _, hn => ⟨fun _ => ⟨hash, rfl, hn, by simp⟩, by simp⟩
  | k :: l, hash, hl, hn => by
    rw [List.nodup_cons] at hl
    obtain ⟨h1, h2⟩ := removeKeys_spec l (hash.erase k) hl.2 (hn.erase k)
    have hm : ∀ x, x ∈ hash.erase k ↔ x ≠ k ∧ x ∈ hash := fun x => hn.mem_erase_iff
    constructor
    · intro hall
      have hk := hall k (by simp)
      obtain ⟨r, r1, r2, r3⟩ := h1 (fun x hx => (hm x).2 ⟨fun c => hl.1 (c ▸ hx), hall x (by simp [hx])⟩)
      refine ⟨r, by simp only [removeKeys]; rw [if_pos hk]; exact r1, r2, fun x => ?_⟩
      rw [r3, hm, List.mem_cons, not_or]
      exact ⟨fun ⟨⟨a, b⟩, c⟩ => ⟨b, a, c⟩, fun ⟨b, a, c⟩ => ⟨⟨a, b⟩, c⟩⟩
    · rintro ⟨x, hx, hx'⟩
      simp only [removeKeys]
      by_cases hk : k ∈ hash
      · rw [if_pos hk]
        rw [List.mem_cons] at hx
        rcases hx with rfl | hx
        · exact absurd hk hx'
        · exact h2 ⟨x, hx, fun c => hx' ((hm x).1 c).2⟩
      · rw [if_neg hk]

theorem compareKeys_spec {ext : Bool} {ncfg cfg ks : List Key} (h1 : ncfg.Nodup) (h2 : cfg.Nodup) (h3 : ks.Nodup)
    (h4 : ∀ k ∈ ncfg, k ∉ cfg) :
    Decides (compareKeys ext ncfg cfg ks)
      ((∀ k ∈ ncfg, k ∈ ks) ∧ (ext = false → ∀ k, k ∈ ks ↔ k ∈ ncfg ∨ k ∈ cfg)) ks := by
  unfold compareKeys
  split
  · rename_i hc
    rw [Bool.and_eq_true, List.isEmpty_iff] at hc
    exact decides_yes rfl ⟨by simp [hc.2], by simp [hc.1]⟩
  · obtain ⟨a1, a2⟩ := removeKeys_spec ncfg ks h1 h3
    by_cases hall : ∀ k ∈ ncfg, k ∈ ks
    · obtain ⟨r, r1, r2, r3⟩ := a1 hall
      rw [r1]
      simp only
      cases ext with
      | true => exact decides_yes rfl ⟨hall, by simp⟩
      | false =>
        simp only [Bool.false_eq_true, if_false]
        obtain ⟨b1, b2⟩ := removeKeys_spec cfg r h2 r2
        by_cases hall2 : ∀ k ∈ cfg, k ∈ r
        · obtain ⟨s, s1, s2, s3⟩ := b1 hall2
          rw [s1]
          simp only
          cases s with
          | nil =>
            refine decides_yes rfl ⟨hall, fun _ k => ⟨fun hk => ?_, fun hk => ?_⟩⟩
            · by_cases c1 : k ∈ ncfg
              · exact Or.inl c1
              · by_cases c2 : k ∈ cfg
                · exact Or.inr c2
                · have := (s3 k).2 ⟨(r3 k).2 ⟨hk, c1⟩, c2⟩
                  simp at this
            · rcases hk with hk | hk
              · exact hall k hk
              · exact ((r3 k).1 (hall2 k hk)).1
          | cons x s =>
            refine decides_no rfl fun hh => ?_
            obtain ⟨c1, c2⟩ := (s3 x).1 (by simp)
            obtain ⟨c3, c4⟩ := (r3 x).1 c1
            rcases (hh.2 trivial x).1 c3 with c | c
            · exact c4 c
            · exact c2 c
        · have hex : ∃ k ∈ cfg, k ∉ r := by
            refine Classical.byContradiction fun c => hall2 fun k hk => ?_
            exact Classical.byContradiction fun c' => c ⟨k, hk, c'⟩
          rw [b2 hex]
          obtain ⟨k, hk, hk'⟩ := hex
          refine decides_no rfl fun hh => hk' ((r3 k).2 ⟨(hh.2 trivial k).2 (Or.inr hk), fun c => h4 k c hk⟩)
    · have hex : ∃ k ∈ ncfg, k ∉ ks := by
        refine Classical.byContradiction fun c => hall fun k hk => ?_
        exact Classical.byContradiction fun c' => c ⟨k, hk, c'⟩
      rw [a2 hex]
      exact decides_no rfl fun hh => hall hh.1

end Verif.Proxy

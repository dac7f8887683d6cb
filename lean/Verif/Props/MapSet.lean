import Verif.Lemmas.MapSet
import Verif.Model.MapKey
/-
Properties C03 (Map and Set are insertion ordered maps) and C04 (iteration survives any
mutation).
-/
namespace Verif.MapSet

open Verif

/-! ### C03 -/

/-- ECMA-262 24.1.3.9 step 6: a new key -0 is stored as +0. -/
def normKey : Key → Key
  | .num (.zero _) => .num (.zero false)
  | k => k

theorem sameValue0_refl (a : Key) : sameValue0 a a = true := by
  cases a with
  | num n => cases n <;> simp [sameValue0]
  | _ => simp [sameValue0]

theorem sameValue0_iff (a b : Key) : sameValue0 a b = true ↔
    a = b ∨ (∃ x y, a = .num (.zero x) ∧ b = .num (.zero y)) ∨
      (∃ x y v, a = .bigint x v ∧ b = .bigint y v) := by
  constructor
  · intro h
    unfold sameValue0 at h
    split at h <;> simp_all
  · rintro (rfl | ⟨x, y, rfl, rfl⟩ | ⟨x, y, v, rfl, rfl⟩)
    · exact sameValue0_refl a
    · rfl
    · simp [sameValue0]

theorem sameValue0_symm (a b : Key) (h : sameValue0 a b = true) : sameValue0 b a = true := by
  rw [sameValue0_iff] at h ⊢
  rcases h with rfl | ⟨x, y, rfl, rfl⟩ | ⟨x, y, v, rfl, rfl⟩
  · exact Or.inl rfl
  · exact Or.inr (Or.inl ⟨y, x, rfl, rfl⟩)
  · exact Or.inr (Or.inr ⟨y, x, v, rfl, rfl⟩)

theorem sameValue0_trans (a b c : Key) (h1 : sameValue0 a b = true) (h2 : sameValue0 b c = true) :
    sameValue0 a c = true := by
  rw [sameValue0_iff] at h1 h2 ⊢
  rcases h1 with rfl | ⟨x, y, rfl, rfl⟩ | ⟨x, y, v, rfl, rfl⟩
  · exact h2
  · rcases h2 with rfl | ⟨x', y', h, rfl⟩ | ⟨x', y', v', h, rfl⟩
    · exact Or.inr (Or.inl ⟨x, y, rfl, rfl⟩)
    · exact Or.inr (Or.inl ⟨x, y', rfl, rfl⟩)
    · cases h
  · rcases h2 with rfl | ⟨x', y', h, rfl⟩ | ⟨x', y', v', h, rfl⟩
    · exact Or.inr (Or.inr ⟨x, y, v, rfl, rfl⟩)
    · cases h
    · cases h; exact Or.inr (Or.inr ⟨x, y', v, rfl, rfl⟩)

/-- No two BigInts among the keys have the same value at different addresses. -/
def BigIntsShared (S : Key → Prop) : Prop :=
  ∀ x y v, S (.bigint x v) → S (.bigint y v) → x = y

theorem keyOps (cast : Nat → Nat) (nanCast : Nat) (S : Key → Prop) (hS : BigIntsShared S) :
    Hash.Spec.KeyOps S (keyHash cast nanCast) sameValue0 where
  refl := sameValue0_refl
  symm := sameValue0_symm
  trans := sameValue0_trans
  hash := by
    intro a b ha hb h
    rw [sameValue0_iff] at h
    rcases h with rfl | ⟨x, y, rfl, rfl⟩ | ⟨x, y, v, rfl, rfl⟩
    · rfl
    · rfl
    · rw [hS x y v ha hb]

/-- The keys of a history. -/
def Keys {V : Type} (ps : List (Op Key V)) (k : Key) : Prop := ∃ p ∈ ps, Spec.opKey p = some k

/-- C03 (partial: what is missing is BigInt keys that are equal but different objects,
and the key -0, see `C03_violated_bigint` and `C03_violated_negzero`).  Every history
answers every call as the specification of ECMA-262 does: the answers of get, has,
delete, size, and the order and contents of the iterations. -/
theorem C03_partial {V : Type} (cast : Nat → Nat) (nanCast : Nat) (ps : List (Op Key V))
    (hb : BigIntsShared (Keys ps)) (hz : ¬ Keys ps (.num (.zero true))) :
    ∃ o, run (keyHash cast nanCast) sameValue0 init ps =
      some ((Spec.run normKey sameValue0 Spec.init ps).1, o) := by
  have hn : ∀ k, Keys ps k → normKey k = k := by
    intro k hk
    unfold normKey
    split
    · rename_i b
      cases b with
      | true => exact absurd hk hz
      | false => rfl
    · rfl
  obtain ⟨o, h, _⟩ := run_sim (keyOps cast nanCast (Keys ps) hb) hn ps init Spec.init rel_init
    (fun p hp k hk => ⟨p, hp, hk⟩)
  exact ⟨o, h⟩

/-- C03 with any hash function and any comparison of keys under which equal keys have
equal hash values: the Map is an insertion ordered association list. -/
theorem C03_generic {K V : Type} (hash : K → Nat) (eqv : K → K → Bool)
    (hk : Hash.Spec.KeyOps (fun _ => True) hash eqv) (ps : List (Op K V)) :
    ∃ o, run hash eqv init ps = some ((Spec.run (fun k => k) eqv Spec.init ps).1, o) := by
  obtain ⟨o, h, _⟩ := run_sim (norm := fun k => k) hk (fun _ _ => rfl) ps init Spec.init rel_init
    (fun _ _ _ _ => trivial)
  exact ⟨o, h⟩

/-- The history of `C03_violated_bigint`: `m.set(1n, 0)` and three more keys, then a
look for `1n` made anew. -/
def bigintWitness : List (Op Key Nat) :=
  [.set (.bigint 1000 1) 0, .set (.str [97]) 1, .set (.str [98]) 2, .set (.str [99]) 3,
   .has (.bigint 2001 1)]

/-- C03 is violated: a BigInt key is not found again by an equal BigInt, because BigInts
are hashed by address.  (`hash_op_value_key`, rjs_hash.c:294-296.) -/
theorem C03_violated_bigint :
    (run (keyHash (fun _ => 0) 0) sameValue0 init bigintWitness).map (·.1) ≠
      some (Spec.run normKey sameValue0 Spec.init bigintWitness).1 := by decide +kernel

/-- What the two sides of `C03_violated_bigint` answer to the last call. -/
example :
    (run (keyHash (fun _ => 0) 0) sameValue0 init bigintWitness).map (·.1.getLast?) =
      some (some (.bool false)) ∧
    (Spec.run normKey sameValue0 Spec.init bigintWitness).1.getLast? = some (.bool true) := by
  decide +kernel

/-- C03 is violated: `new Set([-0])` holds -0, not +0 (`hash_add` copies the key as it
is, rjs_hash_object_inc.c:326). -/
theorem C03_violated_negzero :
    let ps : List (Op Key Nat) := [.set (.num (.zero true)) 0, .iterator, .next 0]
    (run (keyHash (fun _ => 0) 0) sameValue0 init ps).map (·.1) ≠
      some (Spec.run normKey sameValue0 Spec.init ps).1 := by decide +kernel

/-- A history that meets the hypotheses of `C03_partial`: mixed keys, an overwritten key
keeps its place, a deleted and re-added one moves to the end. -/
def demo : List (Op Key Nat) :=
  [.set (.num .nan) 1, .set (.num (.zero false)) 2, .set (.str [97]) 3, .set (.bigint 1000 5) 4,
   .set (.num .nan) 10, .delete (.num (.zero false)), .set (.num (.zero false)) 7,
   .iterator, .next 0, .next 0, .next 0, .next 0, .next 0, .size]

example : BigIntsShared (Keys demo) ∧ ¬ Keys demo (.num (.zero true)) := by
  constructor
  · rintro x y v ⟨p, hp, h1⟩ ⟨q, hq, h2⟩
    simp [demo] at hp hq
    rcases hp with rfl | rfl | rfl | rfl | rfl | rfl | rfl | rfl | rfl | rfl <;>
      simp [Spec.opKey] at h1 <;>
    rcases hq with rfl | rfl | rfl | rfl | rfl | rfl | rfl | rfl | rfl | rfl <;>
      simp [Spec.opKey] at h2
    omega
  · rintro ⟨p, hp, h1⟩
    simp [demo] at hp
    rcases hp with rfl | rfl | rfl | rfl | rfl | rfl | rfl | rfl | rfl | rfl <;>
      simp [Spec.opKey] at h1

example : ((Spec.run normKey sameValue0 Spec.init demo).1.drop 8) =
    [.item (some (.num .nan, 10)), .item (some (.str [97], 3)), .item (some (.bigint 1000 5, 4)),
     .item (some (.num (.zero false), 7)), .item none, .nat 4] := by decide +kernel

end Verif.MapSet

import Verif.Model.Subst
import Verif.Spec.Subst
import Verif.Lemmas.Str
/-
Lemmas about replacement templates.
-/
namespace Verif.Str
open Spec

/-- The result of the loop, given what the specification makes of the rest. -/
def outcome (acc : List Nat) : Option (List Nat) → Res
  | none => .throw
  | some r => .ok (acc ++ r)

theorem outcome_map (acc r : List Nat) (o : Option (List Nat)) :
    outcome acc (o.map (r ++ ·)) = outcome (acc ++ r) o := by
  cases o <;> simp [outcome]

theorem isDec_eq (c : Nat) : isDec (some c) = isDigit c := rfl

theorem isDec_none : isDec none = false := rfl

theorem substr_pre {s : List Nat} {p : Nat} (h : p ≤ s.length) :
    substr s 0 p = some (s.take p) := by
  unfold substr
  rw [if_pos ⟨h, by omega⟩]; rfl

theorem substr_post {s : List Nat} {p : Nat} (h : p ≤ s.length) :
    substr s p s.length = some (s.drop p) := by
  unfold substr
  rw [if_pos ⟨by omega, h⟩, List.take_length]

theorem notGt_of {c : Nat} (h : ¬ c = 62) : notGt c = true := by simp [notGt, h]

theorem findIdx_drop : ∀ (t : List Nat), (∀ x rest, t.dropWhile notGt = x :: rest →
    t.findIdx? (· == 62) = some (t.takeWhile notGt).length ∧
      t.take (t.takeWhile notGt).length = t.takeWhile notGt ∧
      t.drop ((t.takeWhile notGt).length + 1) = rest) ∧
    (t.dropWhile notGt = [] → t.findIdx? (· == 62) = none)
  | [] => by simp
  | c :: t => by
    obtain ⟨h1, h2⟩ := findIdx_drop t
    by_cases hc : c = 62
    · subst hc
      have : notGt 62 = false := rfl
      simp [List.findIdx?_cons, this]
    · have hd : (c :: t).dropWhile notGt = t.dropWhile notGt := by simp [notGt_of hc]
      have ht : (c :: t).takeWhile notGt = c :: t.takeWhile notGt := by simp [notGt_of hc]
      rw [hd, ht]
      refine ⟨fun x rest h => ?_, fun h => ?_⟩
      · obtain ⟨a, b, d⟩ := h1 x rest h
        refine ⟨?_, ?_, ?_⟩
        · rw [List.findIdx?_cons]; simp only [beq_iff_eq, hc, if_false, a]; simp
        · simp only [List.length_cons, List.take_succ_cons, b]
        · simpa using d
      · rw [List.findIdx?_cons]; simp [hc, h2 h]

/-- The specification on `$` and digits. -/
theorem substStep_digit (str : List Nat) (pos : Nat) (matched : List Nat)
    (caps : List (Option (List Nat))) (groups : Option (List Nat → Option (Option (List Nat))))
    (d : Nat) (t : List Nat) (hd : isDigit d = true) :
    substStep str pos matched caps groups (36 :: d :: t) =
      match capNumber (caps.length + 1) d t with
      | (n, lit, _) =>
        (lit.length, some (if n = 0 ∨ n ≥ caps.length + 1 then lit
          else (caps[n - 1]?.getD none).getD [])) := by
  have hr := (isDigit_iff d).1 hd
  have h36 : d ≠ 36 := by omega
  have h96 : d ≠ 96 := by omega
  have h38 : d ≠ 38 := by omega
  have h39 : d ≠ 39 := by omega
  cases t with
  | nil =>
    simp only [capNumber, substStep]
    simp [h36, h96, h38, h39, isDec_eq, isDec_none, hd, decValue]
    split <;> split <;> first | rfl | (exfalso; omega)
  | cons e t =>
    cases he : isDigit e with
    | false =>
      simp only [capNumber, substStep, he, Bool.false_and, Bool.false_eq_true, if_false]
      simp [h36, h96, h38, h39, isDec_eq, hd, decValue, he]
      split <;> split <;> first | rfl | (exfalso; omega)
    | true =>
      by_cases hn : (d - 48) * 10 + (e - 48) < caps.length + 1
      · have hgt : ¬ (caps.length < (d - 48) * 10 + (e - 48)) := by omega
        simp only [capNumber, substStep, he, hn, decide_true, Bool.and_self, if_true]
        simp [h36, h96, h38, h39, isDec_eq, hd, decValue, he, hgt]
        by_cases h : 1 ≤ (d - 48) * 10 + (e - 48) ∧ (d - 48) * 10 + (e - 48) ≤ caps.length
        · rw [if_pos h, if_neg (by omega)]
        · rw [if_neg h, if_pos (by omega)]
      · have hgt : caps.length < (d - 48) * 10 + (e - 48) := by omega
        simp only [capNumber, substStep, he, hn, decide_false, Bool.and_false, Bool.false_eq_true,
          if_false]
        simp [h36, h96, h38, h39, isDec_eq, hd, decValue, he, hgt]
        split <;> split <;> first | rfl | (exfalso; omega)

theorem capNumber_lit (cn d : Nat) (t : List Nat) :
    2 ≤ (capNumber cn d t).2.1.length ∧
    (36 :: d :: t).drop (capNumber cn d t).2.1.length = (capNumber cn d t).2.2 := by
  cases t with
  | nil => simp [capNumber]
  | cons e t =>
    simp only [capNumber]
    split <;> simp

theorem substLoop_spec (m : Match) (h1 : m.pos + m.matched.length ≤ m.str.length) :
    ∀ (f : Nat) (t acc : List Nat), t.length < f →
      ∃ o, Subst m.str m.pos m.matched m.caps m.groups t o ∧ substLoop m f t acc = outcome acc o
  | 0, t, acc, hf => by omega
  | f + 1, [], acc, hf => ⟨_, .nil, by simp [substLoop, outcome]⟩
  | f + 1, c :: t, acc, hf => by
    have hf' : t.length < f := by simpa using hf
    -- a step with a replacement
    have key : ∀ (n : Nat) (r : List Nat), 1 ≤ n →
        substStep m.str m.pos m.matched m.caps m.groups (c :: t) = (n, some r) →
        substLoop m (f + 1) (c :: t) acc = substLoop m f ((c :: t).drop n) (acc ++ r) →
        ∃ o, Subst m.str m.pos m.matched m.caps m.groups (c :: t) o ∧
          substLoop m (f + 1) (c :: t) acc = outcome acc o := by
      intro n r hn hs he
      obtain ⟨o, h2, h3⟩ := substLoop_spec m h1 f ((c :: t).drop n) (acc ++ r)
        (by simp; omega)
      exact ⟨_, .step _ n r o (by simp) hs h2, by rw [he, h3, outcome_map]⟩
    by_cases hc : c = 36
    · subst hc
      cases t with
      | nil => exact key 1 [36] (by omega) (by simp [substStep, isDec]) (by simp [substLoop])
      | cons d t' =>
        by_cases h36 : d = 36
        · subst h36
          exact key 2 [36] (by omega) (by simp [substStep]) (by simp [substLoop])
        by_cases h96 : d = 96
        · subst h96
          exact key 2 _ (by omega) (by simp [substStep]; rfl)
            (by simp [substLoop, substr_pre (show m.pos ≤ m.str.length by omega)])
        by_cases h38 : d = 38
        · subst h38
          exact key 2 m.matched (by omega) (by simp [substStep]) (by simp [substLoop])
        by_cases h39 : d = 39
        · subst h39
          exact key 2 (m.str.drop (m.pos + m.matched.length)) (by omega)
            (by simp [substStep, Nat.min_eq_left h1]) (by simp [substLoop, substr_post h1])
        by_cases h60 : d = 60
        · subst h60
          obtain ⟨g1, g2⟩ := findIdx_drop t'
          cases hd : t'.dropWhile notGt with
          | nil =>
            have hfi : (36 :: 60 :: t').findIdx? (· == 62) = none := by
              simp [List.findIdx?_cons, g2 hd]
            exact key 2 [36, 60] (by omega) (by simp [substStep, isDec, hfi])
              (by simp [substLoop, hd])
          | cons x rest =>
            obtain ⟨a, b, e⟩ := g1 x rest hd
            have hfi : (36 :: 60 :: t').findIdx? (· == 62) =
                some ((t'.takeWhile notGt).length + 2) := by
              simp only [List.findIdx?_cons, a]
              simp
            obtain hg | ⟨g, hg⟩ : m.groups = none ∨ ∃ g, m.groups = some g := by
              cases m.groups <;> simp
            · exact key 2 [36, 60] (by omega) (by simp [substStep, isDec, hg])
                (by simp [substLoop, hd, hg])
            · have hname : ((36 :: 60 :: t').take ((t'.takeWhile notGt).length + 2)).drop 2 =
                  t'.takeWhile notGt := by
                simpa using b
              have hst : substStep m.str m.pos m.matched m.caps m.groups (36 :: 60 :: t') =
                  ((t'.takeWhile notGt).length + 2 + 1,
                    (g (t'.takeWhile notGt)).map (·.getD [])) := by
                unfold substStep
                rw [hfi, hg]
                simp only [hname]
                simp [isDec]
              have hdrop : (36 :: 60 :: t').drop ((t'.takeWhile notGt).length + 2 + 1) = rest := by
                simpa using e
              cases hv : g (t'.takeWhile notGt) with
              | none =>
                rw [hv] at hst
                exact ⟨none, .throw _ _ (by simp) hst, by simp [substLoop, hd, hg, hv, outcome]⟩
              | some o =>
                rw [hv] at hst
                refine key _ _ (by omega) hst ?_
                rw [hdrop]
                cases o with
                | none => simp [substLoop, hd, hg, hv]
                | some v => simp [substLoop, hd, hg, hv]
        by_cases hdig : isDigit d = true
        · have hst := substStep_digit m.str m.pos m.matched m.caps m.groups d t' hdig
          obtain ⟨hl1, hl2⟩ := capNumber_lit (m.caps.length + 1) d t'
          generalize hcn : capNumber (m.caps.length + 1) d t' = cn at hst hl1 hl2
          obtain ⟨n, lit, rest⟩ := cn
          simp only at hst hl1 hl2
          refine key _ _ (by omega) hst ?_
          rw [hl2]
          simp only [substLoop, ne_eq, not_true_eq_false, if_false, h36, h96, h38, h39, h60, hdig,
            if_true, hcn]
          by_cases hn : n = 0 ∨ n ≥ m.caps.length + 1
          · simp only [hn, if_true]
          · simp only [hn, if_false]
            have hlt : n - 1 < m.caps.length := by omega
            simp only [List.getElem?_eq_getElem hlt, Option.getD_some]
            cases m.caps[n - 1] <;> simp
        · exact key 1 [36] (by omega)
            (by simp [substStep, isDec_eq, hdig, h36, h96, h38, h39, h60])
            (by simp [substLoop, h36, h96, h38, h39, h60, hdig])
    · exact key 1 [c] (by omega) (by simp [substStep, hc]) (by simp [substLoop, hc])

theorem getSubstitution_spec (m : Match) (h1 : m.pos + m.matched.length ≤ m.str.length)
    (templ : List Nat) : ∃ o, Subst m.str m.pos m.matched m.caps m.groups templ o ∧
      getSubstitution m templ = outcome [] o :=
  substLoop_spec m h1 (templ.length + 1) templ [] (by omega)

end Verif.Str

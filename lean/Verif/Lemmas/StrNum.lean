import Verif.Model.StrNum
import Verif.Spec.StrNum
import Verif.Lemmas.JsonTotal

/-! Helper lemmas for C82. -/
namespace Verif.StrNum
open Json (Uni Out isDigit isOctal isBinary isHex skip lexIdent)
open Spec (White)

/-! ## Lists -/

theorem span_loop (p : Nat → Bool) : ∀ l acc : List Nat,
    List.span.loop p l acc = (acc.reverse ++ l.takeWhile p, l.dropWhile p)
  | [], acc => by simp [List.span.loop]
  | a :: l, acc => by
    cases hp : p a <;> simp [hp, List.span.loop, span_loop p l, List.takeWhile, List.dropWhile]

theorem span_while (p : Nat → Bool) (l : List Nat) : l.span p = (l.takeWhile p, l.dropWhile p) := by
  rw [List.span, span_loop]; rfl

theorem span_eq {p : Nat → Bool} {ds r : List Nat} (hd : ∀ c, c ∈ ds → p c = true)
    (hr : ∀ c, r.head? = some c → p c = false) : (ds ++ r).span p = (ds, r) := by
  rw [span_while]
  induction ds with
  | nil =>
    cases r with
    | nil => rfl
    | cons c r =>
      have := hr c rfl
      simp [List.takeWhile, List.dropWhile, this]
  | cons d ds ih =>
    have h1 := hd d List.mem_cons_self
    have := ih (fun c hc => hd c (List.mem_cons_of_mem _ hc))
    simp only [Prod.mk.injEq] at this
    simp [h1, this]

theorem span_sound {p : Nat → Bool} {cs ds r : List Nat} (h : cs.span p = (ds, r)) :
    cs = ds ++ r ∧ (∀ c, c ∈ ds → p c = true) ∧ ∀ c, r.head? = some c → p c = false := by
  rw [span_while] at h
  cases h
  refine ⟨(List.takeWhile_append_dropWhile).symm, fun c hc => ?_, fun c hc => ?_⟩
  · exact List.all_eq_true.1 List.all_takeWhile c hc
  · have := List.head?_dropWhile_not p cs
    rw [hc] at this
    simpa using this

/-! ## Code points -/

theorem points_id : ∀ s : List Nat, (∀ c, c ∈ s → Json.isLead c = false) → points s = s
  | [], _ => rfl
  | [c], _ => rfl
  | c :: d :: cs, h => by
    rw [points, if_neg]
    · rw [points_id (d :: cs) (fun x hx => h x (List.mem_cons_of_mem _ hx))]
    · rw [h c List.mem_cons_self]; simp

theorem points_head {c : Nat} {cs : List Nat} {x : Nat} {r : List Nat} (h : points (c :: cs) = x :: r)
    (hx : x < 0x10000) : c = x ∧ points cs = r := by
  cases cs with
  | nil => simp only [points, List.cons.injEq] at h; exact ⟨h.1, by rw [← h.2]; rfl⟩
  | cons d cs =>
    rw [points] at h
    split at h
    · simp only [List.cons.injEq] at h
      have := h.1
      unfold Json.join at this
      omega
    · simp only [List.cons.injEq] at h; exact h

theorem points_split : ∀ (s a r : List Nat), points s = a ++ r → ∃ a' r', s = a' ++ r' ∧ points r' = r
  | s, [], r, h => ⟨[], s, rfl, h⟩
  | [], x :: a, r, h => by simp [points] at h
  | [c], x :: a, r, h => by
    simp only [points, List.cons_append, List.cons.injEq] at h
    have := h.2.symm
    rw [List.append_eq_nil_iff] at this
    exact ⟨[c], [], rfl, by rw [this.2]; rfl⟩
  | c :: d :: cs, x :: a, r, h => by
    rw [points] at h
    split at h
    · simp only [List.cons_append, List.cons.injEq] at h
      obtain ⟨a', r', h1, h2⟩ := points_split cs a r h.2
      exact ⟨c :: d :: a', r', by rw [h1]; rfl, h2⟩
    · simp only [List.cons_append, List.cons.injEq] at h
      obtain ⟨a', r', h1, h2⟩ := points_split (d :: cs) a r h.2
      exact ⟨c :: a', r', by rw [h1]; rfl, h2⟩

theorem points_nil {s : List Nat} (h : points s = []) : s = [] := by
  match s, h with
  | [], _ => rfl
  | [c], h => cases h
  | c :: d :: cs, h => rw [points] at h; split at h <;> cases h

theorem points_ne_nil {x : Nat} {s r : List Nat} (h : points s = x :: r) : ∃ c cs, s = c :: cs := by
  match s, h with
  | [], h => cases h
  | c :: cs, _ => exact ⟨c, cs, rfl⟩

theorem points_back : ∀ (s cs : List Nat), points s = cs → (∀ c, c ∈ cs → c < 0x10000) → s = cs
  | s, [], h, _ => points_nil h
  | s, x :: cs, h, hb => by
    obtain ⟨c, t, rfl⟩ := points_ne_nil h
    obtain ⟨h1, h2⟩ := points_head h (hb x List.mem_cons_self)
    rw [h1, points_back t cs h2 (fun y hy => hb y (List.mem_cons_of_mem _ hy))]

/-- Two neighbours in the code points are neighbours in the string. -/
theorem points_pair {s a b : List Nat} {x y : Nat} (h : points s = a ++ x :: y :: b) (hx : x < 0x10000)
    (hy : y < 0x10000) : ∃ a' b', s = a' ++ x :: y :: b' := by
  obtain ⟨a', r', h1, h2⟩ := points_split s a _ h
  obtain ⟨c, t, rfl⟩ := points_ne_nil h2
  obtain ⟨rfl, h3⟩ := points_head h2 hx
  obtain ⟨c', t', rfl⟩ := points_ne_nil h3
  obtain ⟨rfl, _⟩ := points_head h3 hy
  exact ⟨a', t', h1⟩

theorem points_mem {s : List Nat} {x : Nat} (h : x ∈ points s) (hx : x < 0x10000) : x ∈ s := by
  obtain ⟨a, b, hab⟩ := List.append_of_mem h
  obtain ⟨a', r', h1, h2⟩ := points_split s a _ hab
  obtain ⟨c, t, rfl⟩ := points_ne_nil h2
  obtain ⟨rfl, _⟩ := points_head h2 hx
  rw [h1]; simp

/-! ## Rounding -/

theorem rnd_repr {n : Nat} (h : Spec.Repr n) : rnd n = n := by
  obtain ⟨q, k, hq, rfl⟩ := h
  unfold rnd
  split
  · rfl
  · rename_i hn
    have hq0 : q ≠ 0 := by rintro rfl; simp at hn
    have hlog : (q * 2 ^ k).log2 ≤ 52 + k := by
      have h1 : q * 2 ^ k < 2 ^ (53 + k) := by
        rw [Nat.pow_add]
        exact Nat.mul_lt_mul_of_pos_right hq (Nat.two_pow_pos k)
      have h2 : q * 2 ^ k ≠ 0 := by
        have := Nat.two_pow_pos k
        exact Nat.mul_ne_zero hq0 (by omega)
      have := (Nat.log2_lt h2).2 h1
      omega
    have hdvd : 2 ^ ((q * 2 ^ k).log2 - 52) ∣ q * 2 ^ k := by
      apply Nat.dvd_trans (Nat.pow_dvd_pow 2 (by omega : (q * 2 ^ k).log2 - 52 ≤ k))
      exact Nat.dvd_mul_left _ _
    have hmod : (q * 2 ^ k) % 2 ^ ((q * 2 ^ k).log2 - 52) = 0 := Nat.mod_eq_zero_of_dvd hdvd
    have hpos := Nat.two_pow_pos ((q * 2 ^ k).log2 - 52)
    simp only [hmod]
    rw [if_neg]
    · exact Nat.div_mul_cancel hdvd
    · rintro (h | h)
      · omega
      · omega

/-- What remains of a double when low bits are cut off. -/
theorem repr_div {n : Nat} (h : Spec.Repr n) (j : Nat) : Spec.Repr (n / 2 ^ j) := by
  obtain ⟨q, k, hq, rfl⟩ := h
  by_cases hj : j ≤ k
  · refine ⟨q, k - j, hq, ?_⟩
    have : 2 ^ k = 2 ^ (k - j) * 2 ^ j := by rw [← Nat.pow_add]; congr 1; omega
    rw [this, ← Nat.mul_assoc, Nat.mul_div_cancel _ (Nat.two_pow_pos j)]
  · refine ⟨q / 2 ^ (j - k), 0, ?_, ?_⟩
    · exact Nat.lt_of_le_of_lt (Nat.div_le_self _ _) hq
    · have : 2 ^ j = 2 ^ k * 2 ^ (j - k) := by rw [← Nat.pow_add]; congr 1; omega
      rw [this, Nat.pow_zero, Nat.mul_one, Nat.mul_comm q, Nat.mul_div_mul_left _ _ (Nat.two_pow_pos k)]

theorem repr_shift {n : Nat} (h : Spec.Repr n) (j : Nat) : Spec.Repr (n * 2 ^ j) := by
  obtain ⟨q, k, hq, rfl⟩ := h
  exact ⟨q, k + j, hq, by rw [Nat.pow_add, Nat.mul_assoc]⟩

theorem digitVal_dig {base c : Nat} (h : Spec.IsDig base c) : digitVal c = Spec.dig c := by
  obtain ⟨h, _⟩ := h
  unfold digitVal Spec.dig
  rcases h with h | h | h
  · rw [if_neg (by omega), if_neg (by omega), if_pos (by omega)]
  · rw [if_neg (by omega), if_pos (by omega), if_neg (by omega), if_pos (by omega)]; omega
  · rw [if_pos (by omega), if_neg (by omega), if_neg (by omega)]; omega

theorem value_snoc (base : Nat) (ds : List Nat) (c : Nat) :
    Spec.value base (ds ++ [c]) = Spec.value base ds * base + Spec.dig c := by
  simp [Spec.value, List.foldl_append]

/-- The loop of `rjs_strtoi` is exact if the integer is a double and the base a power of two. -/
theorem acc_repr (j : Nat) (ds : List Nat) (hd : Spec.Digits (2 ^ j) ds) (hr : Spec.Repr (Spec.value (2 ^ j) ds)) :
    acc (2 ^ j) ds = Spec.value (2 ^ j) ds := by
  induction h : ds.length generalizing ds with
  | zero =>
    have : ds = [] := List.length_eq_zero_iff.1 h
    subst this; rfl
  | succ n ih =>
    obtain ⟨ds', c, rfl⟩ : ∃ ds' c, ds = ds' ++ [c] := by
      rcases List.eq_nil_or_concat ds with rfl | ⟨l, a, rfl⟩
      · cases h
      · exact ⟨l, a, by simp⟩
    have hc : Spec.IsDig (2 ^ j) c := hd c (by simp)
    have hlt : Spec.dig c < 2 ^ j := hc.2
    rw [value_snoc] at hr
    have hr' : Spec.Repr (Spec.value (2 ^ j) ds') := by
      have := repr_div hr j
      rw [Nat.mul_comm, Nat.mul_add_div (Nat.two_pow_pos j), Nat.div_eq_of_lt hlt, Nat.add_zero] at this
      exact this
    have := ih ds' (fun x hx => hd x (by simp [hx])) hr' (by simpa using h)
    rw [value_snoc]
    unfold acc at this ⊢
    rw [List.foldl_append, this]
    simp only [List.foldl_cons, List.foldl_nil, accStep]
    rw [rnd_repr (repr_shift hr' j), digitVal_dig hc, rnd_repr hr]

theorem digitsVal_eq {base : Nat} {ds : List Nat} (h : Spec.Digits base ds) : digitsVal base ds = Spec.value base ds := by
  unfold digitsVal Spec.value
  suffices ∀ n, ds.foldl (fun d c => d * base + digitVal c) n = ds.foldl (fun n c => n * base + Spec.dig c) n from this 0
  induction ds with
  | nil => intro n; rfl
  | cons c ds ih =>
    intro n
    rw [List.foldl_cons, List.foldl_cons, digitVal_dig (h c List.mem_cons_self),
      ih (fun x hx => h x (List.mem_cons_of_mem _ hx))]

/-! ## Characters -/

/-- The tables of the model. -/
abbrev Known (U : Uni) : Prop := Spec.Tables U.white U.idStart U.idCont

theorem white_of {U : Uni} (T : Known U) {c : Nat} (h : White c) : U.isWhite c = true := by
  unfold Uni.isWhite
  split
  · unfold White at h; simp; omega
  · by_cases hc : c = 0xfeff
    · simp [hc]
    · simp [(T.white c (by omega)).2 (.inl ⟨h, hc⟩)]

theorem of_white {U : Uni} (T : Known U) {c : Nat} (h : U.isWhite c = true) (hc : c ≠ 0x85) : White c := by
  unfold Uni.isWhite at h
  split at h
  · simp at h; unfold White; omega
  · simp only [Bool.or_eq_true, beq_iff_eq] at h
    rcases h with rfl | h
    · simp [White]
    · rcases (T.white c (by omega)).1 h with h | h
      · exact h.1
      · exact absurd h hc

theorem not_start {U : Uni} (T : Known U) {c : Nat} (h : White c) : U.isStart c = false := by
  unfold Uni.isStart
  split
  · unfold White at h; simp [Json.isAlpha]; omega
  · exact T.start c (by omega) h

theorem not_cont {U : Uni} (T : Known U) {c : Nat} (h : White c) : U.isCont c = false := by
  unfold Uni.isCont
  split
  · unfold White at h; simp [Json.isAlpha, isDigit]; omega
  · have := h
    unfold White at this
    simp [T.start c (by omega) h, T.cont c (by omega) h]; omega

/-- What follows is the end or white space. -/
def Stop (r : List Nat) : Prop := ∀ c, r.head? = some c → White c

theorem Stop.of_all {w : List Nat} (h : ∀ c, c ∈ w → White c) : Stop w := by
  intro c hc
  cases w with
  | nil => cases hc
  | cons d w => cases hc; exact h _ List.mem_cons_self

theorem Stop.ends {U : Uni} (T : Known U) {r : List Nat} (h : Stop r) : Json.ends U r = true := by
  cases r with
  | nil => rfl
  | cons c r =>
    have hw := h c rfl
    have := not_start T hw
    unfold White at hw
    simp only [Json.ends, this, isDigit]
    simp; omega

theorem isDig10 {c : Nat} : Spec.IsDig 10 c ↔ isDigit c = true := by
  simp only [Spec.IsDig, Spec.dig, isDigit, Bool.and_eq_true, decide_eq_true_eq]
  constructor
  · rintro ⟨h, h'⟩; split at h' <;> (try split at h') <;> omega
  · intro h; rw [if_pos (by omega)]; omega

theorem isDig2 {c : Nat} : Spec.IsDig 2 c ↔ isBinary c = true := by
  simp only [Spec.IsDig, Spec.dig, isBinary, Bool.or_eq_true, beq_iff_eq]
  constructor
  · rintro ⟨h, h'⟩; split at h' <;> (try split at h') <;> omega
  · intro h; rw [if_pos (by omega)]; omega

theorem isDig8 {c : Nat} : Spec.IsDig 8 c ↔ isOctal c = true := by
  simp only [Spec.IsDig, Spec.dig, isOctal, Bool.and_eq_true, decide_eq_true_eq]
  constructor
  · rintro ⟨h, h'⟩; split at h' <;> (try split at h') <;> omega
  · intro h; rw [if_pos (by omega)]; omega

theorem isDig16 {c : Nat} : Spec.IsDig 16 c ↔ isHex c = true := by
  simp only [Spec.IsDig, Spec.dig, isHex, isDigit, Bool.or_eq_true, Bool.and_eq_true, decide_eq_true_eq]
  constructor
  · rintro ⟨h, h'⟩; split at h' <;> (try split at h') <;> omega
  · intro h; split <;> (try split) <;> omega

/-! ## White space -/

theorem skip_cons {U : Uni} {c : Nat} (cs : List Nat) (h : c ≠ 47) :
    skip U .space (c :: cs) = if U.isWhite c then skip U .space cs else some (c :: cs) := by
  rw [skip.eq_def]
  split <;> first | (rename_i h1 h2; cases h2; exact absurd rfl h) | (rename_i h1 h2; cases h2; rfl) | (rename_i h1; cases h1; done) | skip
  all_goals first | simp_all | skip

theorem skip_white {U : Uni} (T : Known U) {w : List Nat} (hw : ∀ c, c ∈ w → White c) (r : List Nat) :
    skip U .space (w ++ r) = skip U .space r := by
  induction w with
  | nil => rfl
  | cons c w ih =>
    have hc := hw c List.mem_cons_self
    have := white_of T hc
    rw [List.cons_append, skip_cons _ (by unfold White at hc; omega), if_pos this]
    exact ih (fun x hx => hw x (List.mem_cons_of_mem _ hx))

theorem token_white {U : Uni} (T : Known U) (big : Bool) {w : List Nat} (hw : ∀ c, c ∈ w → White c) (r : List Nat) :
    token U big (w ++ r) = token U big r := by
  unfold token; rw [skip_white T hw]

theorem token_cons {U : Uni} (big : Bool) {c : Nat} (cs : List Nat) (h : c ≠ 47) (hw : U.isWhite c = false) :
    token U big (c :: cs) = tokenAt U big (c :: cs) := by
  unfold token; rw [skip_cons cs h, hw]; rfl

theorem finish_white {α : Type} {U : Uni} (T : Known U) (big : Bool) (x : α) {w : List Nat} (hw : ∀ c, c ∈ w → White c) :
    finish U big x w = .val x := by
  have := token_white T big hw []
  rw [List.append_nil] at this
  unfold finish; rw [this]; rfl

/-! ## Numbers: from the grammar to the analyser -/

theorem intDigits_eq {base : Nat} {p : Nat → Bool} {ds r : List Nat} (hn : ds ≠ []) (hd : ∀ c, c ∈ ds → p c = true)
    (hr : ∀ c, r.head? = some c → p c = false) : intDigits base p (ds ++ r) = some (base, ds, r) := by
  unfold intDigits
  rw [span_eq hd hr]
  cases ds with
  | nil => exact absurd rfl hn
  | cons d ds => rfl

/-- What can follow the digits of a decimal number. -/
def After (r : List Nat) : Prop := ∀ c, r.head? = some c → White c ∨ c = 46 ∨ c = 101 ∨ c = 69

theorem After.not_digit {r : List Nat} (h : After r) : ∀ c, r.head? = some c → isDigit c = false := by
  intro c hc
  have := h c hc
  unfold White at this
  simp [isDigit]; omega

theorem intPart_digits {ds r : List Nat} (hn : ds ≠ []) (hd : ∀ c, c ∈ ds → isDigit c = true) (hr : After r) :
    intPart (ds ++ r) = some (10, ds, r) := by
  have key := intDigits_eq (base := 10) hn hd hr.not_digit
  cases ds with
  | nil => exact absurd rfl hn
  | cons d ds =>
    have h1 : 48 ≤ d ∧ d ≤ 57 := by have := hd d List.mem_cons_self; simpa [isDigit] using this
    rw [List.cons_append] at key ⊢
    unfold intPart
    split
    · rename_i heq; cases heq; omega
    · rename_i c cs heq
      simp only [List.cons.injEq] at heq
      obtain ⟨rfl, heq⟩ := heq
      have hc : c ≠ 98 ∧ c ≠ 66 ∧ c ≠ 111 ∧ c ≠ 79 ∧ c ≠ 120 ∧ c ≠ 88 ∧ c ≠ 95 := by
        cases ds with
        | nil =>
          rw [List.nil_append] at heq
          have := hr c (by rw [heq]; rfl)
          unfold White at this
          omega
        | cons d ds =>
          rw [List.cons_append] at heq
          cases heq
          have := hd c (by simp)
          simp [isDigit] at this
          omega
      rw [if_neg (by omega), if_neg (by omega), if_neg (by omega), if_neg (by omega), ← heq]
      exact key
    · exact key

theorem expSign_none {c : Nat} (cs : List Nat) (h : c ≠ 43 ∧ c ≠ 45) : expSign (c :: cs) = ([], c :: cs) := by
  simp only [expSign]; rw [if_neg (by omega)]

theorem digits10 {ds : List Nat} (h : Spec.Digits 10 ds) : ∀ c, c ∈ ds → isDigit c = true :=
  fun c hc => isDig10.1 (h c hc)

theorem Stop.not_digit {r : List Nat} (h : Stop r) : ∀ c, r.head? = some c → isDigit c = false :=
  After.not_digit (fun c hc => .inl (h c hc))

theorem expPart_complete {es r : List Nat} {e : Int} (h : Spec.Exp es e) (hr : Stop r) : expPart (es ++ r) = some (es, r) := by
  cases h with
  | none =>
    cases r with
    | nil => rfl
    | cons c r =>
      have := hr c rfl
      unfold White at this
      rw [List.nil_append, expPart, if_neg (by omega)]
  | @plain c ds hc hn hd =>
    cases ds with
    | nil => exact absurd rfl hn
    | cons d ds =>
      have h1 : 48 ≤ d ∧ d ≤ 57 := by have := digits10 hd d List.mem_cons_self; simpa [isDigit] using this
      rw [List.cons_append, expPart, if_pos hc, List.cons_append, expSign_none _ (by omega)]
      have := span_eq (digits10 hd) hr.not_digit
      rw [List.cons_append] at this
      simp only [this]
      rfl
  | @plus c ds hc hn hd =>
    rw [List.cons_append, expPart, if_pos hc]
    have : expSign (43 :: ds ++ r) = ([43], ds ++ r) := rfl
    rw [this]
    simp only [span_eq (digits10 hd) hr.not_digit]
    cases ds with
    | nil => exact absurd rfl hn
    | cons d ds => rfl
  | @minus c ds hc hn hd =>
    rw [List.cons_append, expPart, if_pos hc]
    have : expSign (45 :: ds ++ r) = ([45], ds ++ r) := rfl
    rw [this]
    simp only [span_eq (digits10 hd) hr.not_digit]
    cases ds with
    | nil => exact absurd rfl hn
    | cons d ds => rfl

theorem exp_after {es r : List Nat} {e : Int} (h : Spec.Exp es e) (hr : Stop r) :
    ∀ c, (es ++ r).head? = some c → White c ∨ c = 101 ∨ c = 69 := by
  intro c hc
  cases h with
  | none => exact .inl (hr c hc)
  | plain h => cases hc; exact .inr h
  | plus h => cases hc; exact .inr h
  | minus h => cases hc; exact .inr h

theorem fracPart_none {r : List Nat} (h : ∀ c, r.head? = some c → c ≠ 46) : fracPart r = ([], r) := by
  unfold fracPart
  split
  · exact absurd rfl (h 46 rfl)
  · rfl

theorem scanNumber_end {cs : List Nat} {base : Nat} {ds r1 t w : List Nat} (big : Bool)
    (h1 : intPart cs = some (base, ds, r1)) (h2 : tail big base r1 = some (t, w)) (hw : Stop w) :
    scanNumber big cs = some (⟨base, ds ++ t, big⟩, w) := by
  unfold scanNumber
  rw [h1]
  simp only
  rw [h2]
  simp only
  rw [if_neg]
  rintro ⟨h, -⟩
  have := hw _ h
  unfold White at this
  omega

theorem lexNumber_of {U : Uni} (T : Known U) {big : Bool} {cs w : List Nat} {t : NumTok}
    (h : scanNumber big cs = some (t, w)) (hw : Stop w) : lexNumber U big cs = some (t, w) := by
  unfold lexNumber; rw [h]; simp only; rw [if_pos (hw.ends T)]

theorem scanNumber_dec {t w : List Nat} {m n : Nat} {x : Int} (h : Spec.Dec t m x n) (hw : Stop w) :
    scanNumber false (t ++ w) = some (⟨10, t, false⟩, w) := by
  cases h with
  | @int ds es e hn hd he =>
    rw [List.append_assoc]
    have ha : After (es ++ w) := fun c hc => by rcases exp_after he hw c hc with h | h <;> simp [h]
    refine scanNumber_end false (intPart_digits hn (digits10 hd) ha) ?_ hw
    unfold tail
    rw [if_pos ⟨rfl, rfl⟩, fracPart_none, expPart_complete he hw]
    · rfl
    · intro c hc; have := exp_after he hw c hc; unfold White at this; show c ≠ 46; omega
  | @point ds fs es e hn hd hf he =>
    have e1 : ds ++ 46 :: (fs ++ es) ++ w = ds ++ (46 :: (fs ++ (es ++ w))) := by simp
    rw [e1]
    have ha : After (46 :: (fs ++ (es ++ w))) := fun c hc => by cases hc; exact .inr (.inl rfl)
    have hs : (fs ++ (es ++ w)).span isDigit = (fs, es ++ w) := span_eq (digits10 hf) (fun c hc => by
      have := exp_after he hw c hc; unfold White at this; simp [isDigit]; omega)
    refine scanNumber_end false (intPart_digits hn (digits10 hd) ha) ?_ hw
    unfold tail fracPart
    rw [if_pos ⟨rfl, rfl⟩]
    simp only [hs]
    rw [expPart_complete he hw]
    rfl
  | @lead fs es e hn hf he =>
    have e1 : 46 :: (fs ++ es) ++ w = 46 :: (fs ++ (es ++ w)) := by simp
    rw [e1]
    have hs : (fs ++ (es ++ w)).span isDigit = (fs, es ++ w) := span_eq (digits10 hf) (fun c hc => by
      have := exp_after he hw c hc; unfold White at this; simp [isDigit]; omega)
    have : intPart (46 :: (fs ++ (es ++ w))) = some (10, [], 46 :: (fs ++ (es ++ w))) := rfl
    have key := scanNumber_end (t := 46 :: (fs ++ es)) false this (by
      unfold tail fracPart
      rw [if_pos ⟨rfl, rfl⟩]
      simp only [hs]
      rw [expPart_complete he hw]
      rfl) hw
    exact key

theorem scanNumber_int {ds w : List Nat} (hn : ds ≠ []) (hd : Spec.Digits 10 ds) (hw : Stop w) :
    scanNumber true (ds ++ w) = some (⟨10, ds, true⟩, w) := by
  have ha : After w := fun c hc => .inl (hw c hc)
  have := scanNumber_end (t := []) true (intPart_digits hn (digits10 hd) ha) (by simp [tail]) hw
  rw [List.append_nil] at this
  exact this

theorem scanNumber_other (big : Bool) {p ds w : List Nat} {base : Nat} (hp : Spec.Prefix p base)
    (hn : ds ≠ []) (hd : Spec.Digits base ds) (hw : Stop w) :
    scanNumber big (p ++ (ds ++ w)) = some (⟨base, ds, big⟩, w) := by
  have hb : base ≠ 10 := by cases hp <;> decide
  have h1 : intPart (p ++ (ds ++ w)) = some (base, ds, w) := by
    cases hp with
    | @bin c h =>
      have : [48, c] ++ (ds ++ w) = 48 :: c :: (ds ++ w) := rfl
      rw [this, intPart, if_pos h]
      exact intDigits_eq hn (fun x hx => isDig2.1 (hd x hx)) (fun x hx => by
        have := hw x hx; unfold White at this; simp [isBinary]; omega)
    | @oct c h =>
      have : [48, c] ++ (ds ++ w) = 48 :: c :: (ds ++ w) := rfl
      rw [this, intPart, if_neg (by omega), if_pos h]
      exact intDigits_eq hn (fun x hx => isDig8.1 (hd x hx)) (fun x hx => by
        have := hw x hx; unfold White at this; simp [isOctal]; omega)
    | @hex c h =>
      have : [48, c] ++ (ds ++ w) = 48 :: c :: (ds ++ w) := rfl
      rw [this, intPart, if_neg (by omega), if_neg (by omega), if_pos h]
      exact intDigits_eq hn (fun x hx => isDig16.1 (hd x hx)) (fun x hx => by
        have := hw x hx; unfold White at this; simp [isHex, isDigit]; omega)
  have := scanNumber_end (t := []) big h1 (by unfold tail; rw [if_neg (by omega)]) hw
  rw [List.append_nil] at this
  exact this

end Verif.StrNum

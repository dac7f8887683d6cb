import Verif.Lemmas.JsonTotal
/-
Lemmas for C47 and C48: every JSON text is accepted, with the value it denotes.
-/
namespace Verif.Json

open Spec

variable {F : Type}

/-- What may follow a value. -/
def Sep (r : List Nat) : Prop :=
  ∀ c ∈ r.head?, IsSpace c ∨ c = 44 ∨ c = 93 ∨ c = 125 ∨ c = 58

theorem Sep.nil : Sep [] := by simp [Sep]

theorem Sep.cons {c : Nat} (r : List Nat) (h : IsSpace c ∨ c = 44 ∨ c = 93 ∨ c = 125 ∨ c = 58) : Sep (c :: r) := by
  simpa [Sep] using h

theorem Sep.head {c : Nat} {r : List Nat} (h : Sep (c :: r)) : IsSpace c ∨ c = 44 ∨ c = 93 ∨ c = 125 ∨ c = 58 :=
  h c (by simp)

theorem Sep.space {S : Sem F} {w r : List Nat} (hw : Space strict S w) (h : Sep r) : Sep (w ++ r) := by
  cases hw with
  | nil => exact h
  | char hc _ => exact .cons _ (Or.inl hc)
  | other h => exact h.elim
  | line h => exact h.elim
  | block h => exact h.elim

/-! ### White space -/

theorem skip_complete (U : Uni) {S : Sem F} {w r : List Nat} (hw : Space strict S w)
    (hr : ∀ c ∈ r.head?, U.isWhite c = false ∧ c ≠ 47) : skip U .space (w ++ r) = some r := by
  induction hw with
  | nil =>
    cases r with
    | nil => rfl
    | cons c r =>
      have := hr c (by simp)
      rw [List.nil_append, skip]
      · simp [this]
      · intro cs h; exact absurd h this.2
      · intro cs h; exact absurd h this.2
  | @char c t hc _ ih =>
    unfold IsSpace at hc
    rw [List.cons_append, skip]
    · rw [if_pos, ih]
      rcases hc with rfl | rfl | rfl | rfl <;> rfl
    · intro cs h; omega
    · intro cs h; omega
  | other h => exact h.elim
  | line h => exact h.elim
  | block h => exact h.elim

theorem token_space (U : Uni) (L : Lib F) {S : Sem F} {w : List Nat} (hw : Space strict S w) {c : Nat} (r : List Nat)
    (hc : U.isWhite c = false ∧ c ≠ 47) : token U L (w ++ c :: r) = tokenAt U L (c :: r) := by
  rw [token, skip_complete U hw (by simpa using hc)]

theorem token_punct (U : Uni) (L : Lib F) {S : Sem F} {w : List Nat} (hw : Space strict S w) {c : Nat} (r : List Nat)
    (hc : isPunct c = true) : token U L (w ++ c :: r) = .ok (.punct c) r := by
  have h := hc
  simp only [isPunct, Bool.or_eq_true, beq_iff_eq] at h
  have h1 : c < 128 := by omega
  rw [token_space U L hw r ⟨by simp [Uni.isWhite, h1]; omega, by omega⟩, tokenAt, if_neg (by simp; omega),
    if_neg (by omega), if_neg (by omega), if_pos hc]

/-! ### Strings -/

theorem escape_esc {e v : Nat} (h : Escape e v) (cs : List Nat) : escape e cs = .done false [v] cs := by
  unfold Escape at h
  rcases h with ⟨rfl, rfl⟩ | ⟨rfl, rfl⟩ | ⟨rfl, rfl⟩ | ⟨rfl, rfl⟩ | ⟨rfl, rfl⟩ | ⟨rfl, rfl⟩ | ⟨rfl, rfl⟩ | ⟨rfl, rfl⟩ <;> rfl

theorem escape_hex {a b c d w x y z : Nat} (ha : IsHex a w) (hb : IsHex b x) (hc : IsHex c y) (hd : IsHex d z)
    (cs : List Nat) :
    escape 117 (a :: b :: c :: d :: cs) = .done false [((w * 16 + x) * 16 + y) * 16 + z] cs := by
  have h1 : unicode (a :: b :: c :: d :: cs) = hexes 4 0 (a :: b :: c :: d :: cs) := by
    unfold unicode
    split
    · rename_i h; cases h; unfold IsHex at ha; omega
    · rfl
  have : escape 117 (a :: b :: c :: d :: cs) = (unicode (a :: b :: c :: d :: cs)).piece := rfl
  rw [this, h1]
  simp only [hexes, (hexNum_of ha).1, (hexNum_of hb).1, (hexNum_of hc).1, (hexNum_of hd).1, if_true,
    (hexNum_of ha).2, (hexNum_of hb).2, (hexNum_of hc).2, (hexNum_of hd).2, Esc.piece]
  rw [units_eq, utf16, if_pos (by unfold IsHex at ha hb hc hd; omega)]
  simp

theorem lexString_complete {b s : List Nat} (h : Chars strict 34 b s) (r : List Nat) :
    ∀ f acc, b.length < f → lexString 34 f false acc (b ++ 34 :: r) = .ok (acc ++ s) r := by
  induction h with
  | nil =>
    intro f acc hf
    cases f with
    | zero => simp at hf
    | succ f => simp [lexString]
  | @raw c t s h1 h2 h3 _ ih =>
    intro f acc hf
    cases f with
    | zero => simp at hf
    | succ f =>
      have h3 : 32 ≤ c := h3.elim id False.elim
      rw [List.cons_append, lexString.eq_def]
      simp only
      rw [if_neg h1, if_neg (by simp; omega), if_neg h2, ih f _ (by simpa using hf), units_eq]
      simp
  | @esc e v t s h1 _ ih =>
    intro f acc hf
    cases f with
    | zero => simp at hf
    | succ f =>
      rw [List.cons_append, lexString.eq_def]
      simp only
      rw [if_neg (by omega), if_neg (by simp), if_pos trivial]
      simp only [List.cons_append, escape_esc h1, Bool.or_false]
      rw [ih f _ (by simp at hf; omega)]
      simp
  | @hex a b c d w x y z t s ha hb hc hd _ ih =>
    intro f acc hf
    cases f with
    | zero => simp at hf
    | succ f =>
      rw [List.cons_append, lexString.eq_def]
      simp only
      rw [if_neg (by omega), if_neg (by simp), if_pos trivial]
      simp only [List.cons_append, escape_hex ha hb hc hd, Bool.or_false]
      rw [ih f _ (by simp at hf; omega)]
      simp
  | odd h => exact h.elim

theorem token_str (U : Uni) (L : Lib F) {S : Sem F} {w t s : List Nat} (hw : Space strict S w) (h : Str strict t s)
    (r : List Nat) : token U L (w ++ (t ++ r)) = .ok (.str s) r := by
  obtain ⟨q, b, rfl, rfl | ⟨h, -⟩, hb⟩ := h
  · rw [List.cons_append, token_space U L hw _ ⟨rfl, by decide⟩, tokenAt, if_pos (by simp)]
    rw [List.append_assoc, List.singleton_append, lexString_complete hb r _ _ (by simp; omega)]
    rfl
  · exact h.elim

/-! ### Numerals -/

theorem digits_complete {need any : Bool} {ds r : List Nat} (hd : ∀ c ∈ ds, IsDigit c)
    (hr : ∀ c ∈ r.head?, ¬ IsDigit c ∧ c ≠ 95) (hn : need = true → any = true ∨ ds ≠ []) :
    digits isDigit false need any any (ds ++ r) = some (ds, r) := by
  induction ds generalizing any with
  | nil =>
    have hn' : (need && !any) = false := by
      cases need
      · rfl
      · simpa using hn rfl
    cases r with
    | nil => simp [digits, hn']
    | cons c r =>
      obtain ⟨h1, h2⟩ := hr c (by simp)
      have h3 : ¬ isDigit c = true := fun h => h1 ((isDigit_iff c).1 h)
      simp [digits, hn', h2, h3]
  | cons c ds ih =>
    have h1 := hd c (by simp)
    have h2 : isDigit c = true := (isDigit_iff c).2 h1
    have h3 : c ≠ 95 := by unfold IsDigit at h1; omega
    have := ih (any := true) (fun x hx => hd x (by simp [hx])) (fun _ => Or.inl rfl)
    simp [digits, h2, h3, this]

/-- What may follow the digits of an integer, and a fraction. -/
def NumSep (r : List Nat) : Prop := Sep r ∨ ∃ c t, r = c :: t ∧ (c = 46 ∨ c = 101 ∨ c = 69)

theorem NumSep.not_digit {r : List Nat} (h : NumSep r) : ∀ c ∈ r.head?, ¬ IsDigit c ∧ c ≠ 95 := by
  intro c hc
  rcases h with h | ⟨d, t, rfl, h⟩
  · have := h c hc
    unfold IsSpace at this
    unfold IsDigit; omega
  · simp only [List.head?_cons, Option.mem_some_iff] at hc
    unfold IsDigit; omega

theorem integer_complete {i r : List Nat} (hi : IsInt i) (hr : NumSep r) :
    integer (i ++ r) = some ⟨10, false, false, i, r⟩ := by
  have hd : ∀ i : List Nat, i ≠ [] → (∀ c ∈ i, IsDigit c) →
      intPart 10 isDigit false false (i ++ r) = some ⟨10, false, false, i, r⟩ := by
    intro i h1 h2
    unfold intPart
    rw [digits_complete h2 hr.not_digit (fun _ => Or.inr h1)]
  rcases hi with rfl | ⟨d, ds, rfl, h1, h2, h3⟩
  · have := hd [48] (by simp) (by simp [IsDigit])
    cases r with
    | nil => rfl
    | cons c r =>
      have hc : c = 46 ∨ c = 101 ∨ c = 69 ∨ IsSpace c ∨ c = 44 ∨ c = 93 ∨ c = 125 ∨ c = 58 := by
        rcases hr with h | ⟨_, _, h, h'⟩
        · have := h.head
          unfold IsSpace at this ⊢; omega
        · cases h; omega
      unfold IsSpace at hc
      rw [List.singleton_append, integer, if_neg (by simp; omega), if_neg (by simp; omega), if_neg (by simp; omega),
        if_neg (by simp [isOctal]; omega), if_neg (by omega), if_neg (by simp; omega)]
      exact this
  · have := hd (d :: ds) (by simp) (by
      intro c hc
      rcases List.mem_cons.1 hc with rfl | hc
      · unfold IsDigit; omega
      · exact h3 c hc)
    unfold integer
    split
    · rename_i h; rw [List.cons_append] at h; injection h; omega
    · rename_i h; rw [List.cons_append] at h; injection h; omega
    · exact this

theorem fraction_complete {f r : List Nat} (hf : IsFrac f) (hr : NumSep r) (hp : ∀ c ∈ r.head?, c ≠ 46) :
    ∃ b, fractionPart false (f ++ r) = some (b, f, r) := by
  rcases hf with rfl | ⟨ds, rfl, -, h2⟩
  · refine ⟨false, ?_⟩
    unfold fractionPart
    split
    · rename_i h
      rw [List.nil_append] at h
      subst h
      exact absurd rfl (hp 46 (by simp))
    · rfl
  · refine ⟨true, ?_⟩
    rw [List.cons_append, fractionPart, digits_complete h2 hr.not_digit (by simp)]

theorem exponent_complete {e r : List Nat} (he : IsExp e) (hr : Sep r) :
    ∃ b, exponentPart false (e ++ r) = some (b, e, r) := by
  rcases he with rfl | ⟨c, sg, ds, rfl, h1, h2, h3, h4⟩
  · refine ⟨false, ?_⟩
    cases r with
    | nil => rfl
    | cons c r =>
      have := hr.head
      unfold IsSpace at this
      rw [List.nil_append, exponentPart, if_neg (by simp; omega)]
  · refine ⟨true, ?_⟩
    rcases ds with _ | ⟨d, ds⟩
    · exact absurd rfl h3
    have hd := h4 d (by simp)
    unfold IsDigit at hd
    have hs : signPart (sg ++ (d :: ds) ++ r) = (sg, d :: ds ++ r) := by
      rcases h2 with rfl | rfl | rfl
      · rw [List.nil_append, List.cons_append, signPart, if_neg (by simp; omega)]
      · simp [signPart]
      · simp [signPart]
    have hdd := digits_complete (need := true) (any := false) h4 (NumSep.not_digit (Or.inl hr)) (fun _ => Or.inr h3)
    rw [List.cons_append, exponentPart, if_pos (by simpa using h1), hs]
    simp only [hdd]

theorem numeral_complete {t r : List Nat} (ht : IsNumber t) (hr : Sep r) :
    ∃ b, numeral (t ++ r) = some ⟨10, false, b, t, r⟩ := by
  obtain ⟨i, f, e, rfl, hi, hf, he⟩ := ht
  have s1 : NumSep (e ++ r) := by
    rcases he with rfl | ⟨c, sg, ds, rfl, h1, -⟩
    · exact Or.inl hr
    · exact Or.inr ⟨c, _, rfl, by omega⟩
  have p1 : ∀ c ∈ (e ++ r).head?, c ≠ 46 := by
    rcases he with rfl | ⟨c, sg, ds, rfl, h1, -⟩
    · intro c hc
      have := hr c hc
      unfold IsSpace at this; omega
    · intro x hx
      simp at hx; omega
  have s2 : NumSep (f ++ (e ++ r)) := by
    rcases hf with rfl | ⟨ds, rfl, -⟩
    · exact s1
    · exact Or.inr ⟨46, _, rfl, Or.inl rfl⟩
  obtain ⟨b1, h1⟩ := fraction_complete hf s1 p1
  obtain ⟨b2, h2⟩ := exponent_complete he hr
  refine ⟨b1 || b2, ?_⟩
  rw [numeral, List.append_assoc, List.append_assoc, integer_complete hi s2]
  simp only [if_true, h1, h2]

theorem ends_sep (U : Uni) {r : List Nat} (h : Sep r) : ends U r = true := by
  cases r with
  | nil => rfl
  | cons c r =>
    have := h.head
    unfold IsSpace at this
    have h1 : c < 128 := by omega
    simp [ends, isDigit, Uni.isStart, h1, isAlpha]
    omega

theorem lexNumber_complete (U : Uni) (L : Lib F) {t r : List Nat} (ht : IsNumber t) (hr : Sep r) :
    lexNumber U L (t ++ r) = .ok (.num (L.strtod t)) r := by
  obtain ⟨b, h⟩ := numeral_complete ht hr
  rw [lexNumber, h]
  simp only
  split
  · have := hr.head
    unfold IsSpace at this; omega
  · rw [if_pos (ends_sep U hr)]
    simp

theorem token_number (U : Uni) (L : Lib F) {S : Sem F} {w t r : List Nat} (hw : Space strict S w) (ht : IsNumber t)
    (hr : Sep r) : token U L (w ++ (t ++ r)) = .ok (.num (.num (L.strtod t))) r := by
  have h := lexNumber_complete U L ht hr
  obtain ⟨c, t', rfl, hc⟩ := isNumber_ne_nil ht
  have hd := (isDigit_iff c).2 hc
  unfold IsDigit at hc
  have h1 : c < 128 := by omega
  rw [List.cons_append] at h ⊢
  rw [token_space U L hw _ ⟨by simp [Uni.isWhite, h1]; omega, by omega⟩, tokenAt, if_neg (by simp; omega),
    if_neg (by omega), if_neg (by omega), if_neg (by simp [isPunct]; omega), if_neg (by omega), if_pos hd, h]
  rfl

/-! ### Words -/

theorem identLoop_complete (U : Uni) {t r : List Nat} (ht : ∀ c ∈ t, isAlpha c = true) (hr : Sep r) :
    ∀ f acc, t.length < f → identLoop U f false acc (t ++ r) = .ok (acc ++ t) r := by
  induction t with
  | nil =>
    intro f acc hf
    cases f with
    | zero => simp at hf
    | succ f =>
      cases r with
      | nil => simp [identLoop]
      | cons c r =>
        have := hr.head
        unfold IsSpace at this
        have h1 : c < 128 := by omega
        rw [List.nil_append, identLoop.eq_def]
        simp only
        rw [if_neg (by omega), if_neg (by simp [Uni.isCont, h1, isAlpha, isDigit]; omega)]
        simp
  | cons c t ih =>
    intro f acc hf
    cases f with
    | zero => simp at hf
    | succ f =>
      have hc := ht c (by simp)
      have hc' := hc
      simp only [isAlpha, Bool.or_eq_true, Bool.and_eq_true, decide_eq_true_eq] at hc'
      have h1 : c < 128 := by omega
      rw [List.cons_append, identLoop.eq_def]
      simp only
      rw [if_neg (by omega), if_pos (by simp [Uni.isCont, h1, hc]), ih (fun x hx => ht x (by simp [hx])) f _ (by simpa using hf),
        units_eq, utf16, if_pos (by omega)]
      simp

theorem token_word (U : Uni) (L : Lib F) {S : Sem F} {w t r : List Nat} (hw : Space strict S w) (hn : t ≠ [])
    (ht : ∀ c ∈ t, isAlpha c = true) (hr : Sep r) : token U L (w ++ (t ++ r)) = .ok (.ident t) r := by
  rcases t with _ | ⟨c, t⟩
  · exact absurd rfl hn
  have hc := ht c (by simp)
  have hc' := hc
  simp only [isAlpha, Bool.or_eq_true, Bool.and_eq_true, decide_eq_true_eq] at hc'
  have h1 : c < 128 := by omega
  have h2 : U.isStart c = true := by simp [Uni.isStart, h1, hc]
  rw [List.cons_append, token_space U L hw _ ⟨by simp [Uni.isWhite, h1]; omega, by omega⟩, tokenAt,
    if_neg (by simp; omega), if_neg (by omega), if_neg (by omega), if_neg (by simp [isPunct]; omega), if_neg (by omega),
    if_neg (by simp [isDigit]; omega), if_pos h2, lexIdent.eq_def]
  simp only
  rw [if_neg (by omega), if_pos h2, identLoop_complete U (fun x hx => ht x (by simp [hx])) hr _ _ (by simp; omega), units_eq, utf16, if_pos (by omega)]
  rfl

theorem literal_alpha {t : List Nat} {v : Val F} (h : Literal t v) : t ≠ [] ∧ ∀ c ∈ t, isAlpha c = true := by
  rcases h with ⟨rfl, -⟩ | ⟨rfl, -⟩ | ⟨rfl, -⟩ <;> exact ⟨by simp, by decide⟩

theorem literal_word (L : Lib F) {t : List Nat} {v : Val F} (h : Literal t v) : word L t = some v := by
  rcases h with ⟨rfl, rfl⟩ | ⟨rfl, rfl⟩ | ⟨rfl, rfl⟩ <;> rfl

/-! ### Values -/

/-- What completeness says for each kind of text. -/
def Accepts (U : Uni) (L : Lib F) (t : List Nat) (v : Val F) : Kind F → Prop
  | .value => ∀ r, Sep r → (∀ f, 2 * t.length ≤ f → value U L f (t ++ r) = .ok v r) ∧
      ∃ tok r', token U L (t ++ r) = .ok tok r' ∧ tok ≠ .punct 93
  | .items _ acc => ∀ r f, 2 * t.length + 1 ≤ f → array U L f acc (t ++ r) = .ok v r
  | .members _ acc => ∀ r f, 2 * t.length + 1 ≤ f → object U L f acc (t ++ r) = .ok v r

/-- What `value` does after its first token. -/
def dispatch (U : Uni) (L : Lib F) (g : Nat) (r : List Nat) : Tok F → Out (Val F)
  | .punct c =>
    if c = 91 then array U L g [] r
    else if c = 123 then object U L g [] r
    else if c = 43 then signed U L r
    else if c = 45 then negate L (signed U L r)
    else .err
  | .str s => .ok (.str s) r
  | .num v => .ok v r
  | .ident s =>
    match word L s with
    | some v => .ok v r
    | none => .err
  | .eof => .err

theorem value_of_token {U : Uni} {L : Lib F} {cs : List Nat} {tok : Tok F} {r : List Nat} {f : Nat} (hf : 1 ≤ f)
    (h : token U L cs = .ok tok r) : ∃ g, f = g + 1 ∧ value U L f cs = dispatch U L g r tok := by
  obtain ⟨g, rfl⟩ : ∃ g, f = g + 1 := ⟨f - 1, by omega⟩
  refine ⟨g, rfl, ?_⟩
  rw [value, h]
  cases tok <;> rfl

theorem array_of_value {U : Uni} {L : Lib F} {cs r : List Nat} {v : Val F} {acc : List (Val F)} {g : Nat}
    (hv : value U L g cs = .ok v r) (ht : ∃ tok r', token U L cs = .ok tok r' ∧ tok ≠ .punct 93) :
    array U L (g + 1) acc cs =
      match token U L r with
      | .ok (.punct 93) rest => .ok (.arr (acc ++ [v])) rest
      | .ok (.punct 44) rest => array U L g (acc ++ [v]) rest
      | .ok _ _ => .err
      | .err => .err
      | .undef => .undef
      | .fuel => .fuel := by
  obtain ⟨tok, r', h1, h2⟩ := ht
  rw [array, h1]
  simp only [hv]
  rfl

theorem object_of_value {U : Uni} {L : Lib F} {cs r1 r2 r3 k : List Nat} {v : Val F} {acc : List (List Nat × Val F)}
    {g : Nat} (ht : token U L cs = .ok (.str k) r1) (ht' : token U L r1 = .ok (.punct 58) r2)
    (hv : value U L g r2 = .ok v r3) :
    object U L (g + 1) acc cs =
      match token U L r3 with
      | .ok (.punct 125) rest => .ok (.obj (create acc k v)) rest
      | .ok (.punct 44) rest => object U L g (create acc k v) rest
      | .ok _ _ => .err
      | .err => .err
      | .undef => .undef
      | .fuel => .fuel := by
  rw [object, ht]
  simp only [keyTok, ht', hv]
  rfl

theorem complete (U : Uni) (L : Lib F) {k : Kind F} {t : List Nat} {v : Val F}
    (h : G strict (sem U L) k t v) : Accepts U L t v k := by
  induction h with
  | @literal w t v hw ht =>
    intro r hr
    have h1 := token_word U L hw (literal_alpha ht).1 (literal_alpha ht).2 hr
    have hl := List.length_pos_iff.2 (literal_alpha ht).1
    rw [List.append_assoc]
    refine ⟨fun f hf => ?_, _, _, h1, by simp⟩
    rw [List.length_append] at hf
    obtain ⟨g, -, h2⟩ := value_of_token (f := f) (by omega) h1
    rw [h2]
    simp only [dispatch, literal_word L ht]
  | spelled h => exact h.elim
  | word h => exact h.elim
  | @str w t s hw ht =>
    intro r hr
    have h1 := token_str U L hw ht r
    have hl := List.length_pos_iff.2 (Str.ne_nil ht)
    rw [List.append_assoc]
    refine ⟨fun f hf => ?_, _, _, h1, by simp⟩
    rw [List.length_append] at hf
    obtain ⟨g, -, h2⟩ := value_of_token (f := f) (by omega) h1
    rw [h2]
    simp only [dispatch]
  | @num w t v hw ht =>
    intro r hr
    have hl := List.length_pos_iff.2 (Number.ne_nil ht)
    obtain ⟨ht, rfl⟩ | ⟨h, -⟩ := ht
    · have h1 := token_number U L hw ht hr
      rw [List.append_assoc]
      refine ⟨fun f hf => ?_, _, _, h1, by simp⟩
      rw [List.length_append] at hf
      obtain ⟨g, -, h2⟩ := value_of_token (f := f) (by omega) h1
      rw [h2]
      rfl
    · exact h.elim
  | @neg w t hw ht =>
    intro r hr
    have h1 := token_punct U L hw (c := 45) (t ++ r) rfl
    rw [List.append_assoc, List.cons_append]
    refine ⟨fun f hf => ?_, _, _, h1, by simp⟩
    simp only [List.length_append, List.length_cons] at hf
    obtain ⟨g, -, h2⟩ := value_of_token (f := f) (by omega) h1
    rw [h2]
    simp only [dispatch]
    have h3 := token_number U L (Space.nil (D := strict) (S := sem U L)) ht hr
    rw [List.nil_append] at h3
    simp only [signed, h3, negate, if_true, Nat.reduceEqDiff, if_false]
    rfl
  | sign h => exact h.elim
  | @arr w t v hw _ ih =>
    intro r hr
    have h1 := token_punct U L hw (c := 91) (t ++ r) rfl
    rw [List.append_assoc, List.cons_append]
    refine ⟨fun f hf => ?_, _, _, h1, by simp⟩
    simp only [List.length_append, List.length_cons] at hf
    obtain ⟨g, hg, h2⟩ := value_of_token (f := f) (by omega) h1
    rw [h2]
    simp only [dispatch]
    simp only [if_true]
    exact ih r g (by omega)
  | @obj w t v hw _ ih =>
    intro r hr
    have h1 := token_punct U L hw (c := 123) (t ++ r) rfl
    rw [List.append_assoc, List.cons_append]
    refine ⟨fun f hf => ?_, _, _, h1, by simp⟩
    simp only [List.length_append, List.length_cons] at hf
    obtain ⟨g, hg, h2⟩ := value_of_token (f := f) (by omega) h1
    rw [h2]
    simp only [dispatch]
    simp only [if_true, Nat.reduceEqDiff, if_false]
    exact ih r g (by omega)
  | @itemsClose first acc w _ hw =>
    intro r f hf
    obtain ⟨g, rfl⟩ : ∃ g, f = g + 1 := ⟨f - 1, by omega⟩
    rw [List.append_assoc, List.singleton_append, array, token_punct U L hw r rfl]
    rfl
  | @itemsLast first acc a v w _ hw ih =>
    intro r f hf
    obtain ⟨g, rfl⟩ : ∃ g, f = g + 1 := ⟨f - 1, by omega⟩
    simp only [List.length_append, List.length_cons] at hf
    obtain ⟨h1, h2⟩ := ih (w ++ 93 :: r) (Sep.space hw (.cons r (by simp)))
    have e : a ++ (w ++ [93]) ++ r = a ++ (w ++ 93 :: r) := by simp
    rw [e, array_of_value (h1 g (by omega)) h2, token_punct U L hw r rfl]
    rfl
  | @itemsCons first acc a v w b u _ hw _ ih ihb =>
    intro r f hf
    obtain ⟨g, rfl⟩ : ∃ g, f = g + 1 := ⟨f - 1, by omega⟩
    simp only [List.length_append, List.length_cons] at hf
    obtain ⟨h1, h2⟩ := ih (w ++ 44 :: (b ++ r)) (Sep.space hw (.cons _ (by simp)))
    have e : a ++ (w ++ 44 :: b) ++ r = a ++ (w ++ 44 :: (b ++ r)) := by simp
    rw [e, array_of_value (h1 g (by omega)) h2, token_punct U L hw _ rfl]
    exact ihb r g (by omega)
  | @membersClose first acc w _ hw =>
    intro r f hf
    obtain ⟨g, rfl⟩ : ∃ g, f = g + 1 := ⟨f - 1, by omega⟩
    rw [List.append_assoc, List.singleton_append, object, token_punct U L hw r rfl]
    rfl
  | @membersLast first acc w k s w' a v w'' hw hk hw' _ hw'' ih =>
    intro r f hf
    obtain ⟨g, rfl⟩ : ∃ g, f = g + 1 := ⟨f - 1, by omega⟩
    simp only [List.length_append, List.length_cons] at hf
    have hk : Str strict k s := hk.elim id (fun h => h.1.elim)
    obtain ⟨h1, -⟩ := ih (w'' ++ 125 :: r) (Sep.space hw'' (.cons r (by simp)))
    have e : w ++ (k ++ (w' ++ 58 :: (a ++ (w'' ++ [125])))) ++ r =
      w ++ (k ++ (w' ++ 58 :: (a ++ (w'' ++ 125 :: r)))) := by simp
    rw [e, object_of_value (token_str U L hw hk _) (token_punct U L hw' _ rfl) (h1 g (by omega)),
      token_punct U L hw'' r rfl]
    rfl
  | @membersCons first acc w k s w' a v w'' b u hw hk hw' _ hw'' _ ih ihb =>
    intro r f hf
    obtain ⟨g, rfl⟩ : ∃ g, f = g + 1 := ⟨f - 1, by omega⟩
    simp only [List.length_append, List.length_cons] at hf
    have hk : Str strict k s := hk.elim id (fun h => h.1.elim)
    obtain ⟨h1, -⟩ := ih (w'' ++ 44 :: (b ++ r)) (Sep.space hw'' (.cons _ (by simp)))
    have e : w ++ (k ++ (w' ++ 58 :: (a ++ (w'' ++ 44 :: b)))) ++ r =
      w ++ (k ++ (w' ++ 58 :: (a ++ (w'' ++ 44 :: (b ++ r))))) := by simp
    rw [e, object_of_value (token_str U L hw hk _) (token_punct U L hw' _ rfl) (h1 g (by omega)),
      token_punct U L hw'' _ rfl]
    exact ihb r g (by omega)

end Verif.Json

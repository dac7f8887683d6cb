import Verif.Spec.ForIn

/-! Lemmas about the standard's iterator: no name twice, and the names of objects that do not
change. -/
namespace Verif.ForIn.Spec

/-! ## No name twice -/

theorem remainingLoop_seen (w : World) (o : Nat) (rem : List (List Nat)) :
    ∀ seen h, (∀ s ∈ seen, s ∈ (remainingLoop w o rem seen h).2.2.1) ∧
      (∀ s, (remainingLoop w o rem seen h).1 = some (.name s) →
        s ∉ seen ∧ s ∈ (remainingLoop w o rem seen h).2.2.1) := by
  induction rem with
  | nil => intro seen h; exact ⟨fun s hs => hs, fun s hs => by cases hs⟩
  | cons x rem ih =>
    intro seen h
    unfold remainingLoop
    by_cases hx : x ∈ seen
    · rw [if_pos hx]; exact ih seen h
    · rw [if_neg hx]
      cases w.own h o x with
      | none => exact ⟨fun s hs => hs, fun s hs => by cases hs⟩
      | some a =>
        cases a with
        | none => exact ih seen _
        | some b =>
          cases b with
          | true =>
            refine ⟨fun s hs => List.mem_cons_of_mem _ hs, fun s hs => ?_⟩
            cases hs
            exact ⟨hx, List.mem_cons_self ..⟩
          | false =>
            obtain ⟨h1, h2⟩ := ih (x :: seen) (.own o x (some (some false)) :: h)
            refine ⟨fun s hs => h1 s (List.mem_cons_of_mem _ hs), fun s hs => ?_⟩
            obtain ⟨h3, h4⟩ := h2 s hs
            exact ⟨fun hm => h3 (List.mem_cons_of_mem _ hm), h4⟩

theorem rest_seen (w : World) (o : Nat) (rem seen : List (List Nat)) (h : List Ev) :
    (∀ s ∈ seen, s ∈ (rest w o rem seen h).2.seen) ∧
      (∀ s, (rest w o rem seen h).1 = some (.name s) →
        s ∉ seen ∧ s ∈ (rest w o rem seen h).2.seen) := by
  have hr := remainingLoop_seen w o rem seen h
  unfold rest
  generalize remainingLoop w o rem seen h = x at hr
  obtain ⟨x1, x2, x3, x4⟩ := x
  cases x1 with
  | some out => exact hr
  | none =>
    simp only
    cases w.proto x4 o with
    | none => exact ⟨hr.1, fun s hs => by cases hs⟩
    | some b => cases b <;> exact ⟨hr.1, fun s hs => by cases hs⟩

theorem round_seen (w : World) (o : Nat) (it : Iter) :
    (∀ s ∈ it.seen, s ∈ (round w o it).2.seen) ∧
      (∀ s, (round w o it).1 = some (.name s) →
        s ∉ it.seen ∧ s ∈ (round w o it).2.seen) := by
  unfold round
  split
  · exact rest_seen ..
  · split
    · exact ⟨fun s hs => hs, fun s hs => by cases hs⟩
    · exact rest_seen ..

theorem next_seen (w : World) (f : Nat) : ∀ it : Iter,
    (∀ s ∈ it.seen, s ∈ (next w f it).2.seen) ∧
      (∀ s, (next w f it).1 = .name s → s ∉ it.seen ∧ s ∈ (next w f it).2.seen) := by
  induction f with
  | zero => intro it; exact ⟨fun s hs => hs, fun s hs => by cases hs⟩
  | succ f ih =>
    intro it
    unfold next
    cases it.obj with
    | none => exact ⟨fun s hs => hs, fun s hs => by cases hs⟩
    | some o =>
      simp only
      have hr := round_seen w o it
      generalize round w o it = x at hr
      obtain ⟨x1, x2⟩ := x
      cases x1 with
      | some out => exact ⟨hr.1, fun s hs => hr.2 s (congrArg some hs)⟩
      | none =>
        obtain ⟨h1, h2⟩ := ih x2
        exact ⟨fun s hs => h1 s (hr.1 s hs), fun s hs =>
          ⟨fun hm => (h2 s hs).1 (hr.1 s hm), (h2 s hs).2⟩⟩

theorem loop_once (w : World) (f n : Nat) : ∀ it : Iter,
    (given (loop w f n it).1).Nodup ∧ ∀ s ∈ given (loop w f n it).1, s ∉ it.seen := by
  induction n with
  | zero => intro it; exact ⟨List.nodup_nil, fun s hs => by cases hs⟩
  | succ n ih =>
    intro it
    have hn := next_seen w f it
    unfold loop
    generalize next w f it = x at hn
    obtain ⟨out, it'⟩ := x
    cases out with
    | name s =>
      obtain ⟨h1, h2⟩ := ih it'
      simp only [given]
      refine ⟨List.nodup_cons.2 ⟨fun hm => h2 s hm (hn.2 s rfl).2, h1⟩, ?_⟩
      intro x hx
      rcases List.mem_cons.1 hx with rfl | hx
      · exact (hn.2 _ rfl).1
      · exact fun hm => h2 x hx (hn.1 x hm)
    | done => exact ⟨List.nodup_nil, fun s hs => by cases hs⟩
    | threw => exact ⟨List.nodup_nil, fun s hs => by cases hs⟩
    | stuck => exact ⟨List.nodup_nil, fun s hs => by cases hs⟩

/-! ## Objects that do not change -/

/-- The enumerable ones of the strings of an object, without those seen. -/
def fresh (obj : List (Item × Bool)) (seen : List (List Nat)) : List (List Nat) :=
  obj.filterMap fun p =>
    match p.1 with
    | .str k => if k.text ∉ seen ∧ p.2 = true then some k.text else none
    | .sym => none

theorem names_cons (obj : List (Item × Bool)) (c : List (List (Item × Bool)))
    (before : List (List Nat)) :
    names (obj :: c) before = fresh obj before ++ names c (before ++ strings (obj.map (·.1))) := rfl

theorem fresh_congr (obj : List (Item × Bool)) {a b : List (List Nat)} (h : ∀ s, s ∈ a ↔ s ∈ b) :
    fresh obj a = fresh obj b := by
  unfold fresh
  congr 1
  funext p
  cases p.1 with
  | sym => rfl
  | str k => simp only [h]

theorem names_congr (c : List (List (Item × Bool))) : ∀ {a b : List (List Nat)},
    (∀ s, s ∈ a ↔ s ∈ b) → names c a = names c b := by
  induction c with
  | nil => intros; rfl
  | cons obj c ih =>
    intro a b h
    rw [names_cons, names_cons, fresh_congr obj h]
    congr 1
    exact ih fun s => by rw [List.mem_append, List.mem_append, h]

theorem mem_strings {s : List Nat} {l : List Item} :
    s ∈ strings l ↔ ∃ k : Key, Item.str k ∈ l ∧ k.text = s := by
  induction l with
  | nil => simp [strings]
  | cons x l ih =>
    cases x with
    | sym => simp [strings, ih]
    | str k =>
      simp only [strings, List.mem_cons, ih]
      constructor
      · rintro (rfl | ⟨k', h1, h2⟩)
        · exact ⟨k, Or.inl rfl, rfl⟩
        · exact ⟨k', Or.inr h1, h2⟩
      · rintro ⟨k', h1 | h1, h2⟩
        · cases h1; exact Or.inl h2.symm
        · exact Or.inr ⟨k', h1, h2⟩

/-- What an object with distinct names answers about them. -/
theorem own_part (pre post : List (Item × Bool)) (k : Key) (b : Bool)
    (h : k.text ∉ strings (pre.map (·.1))) :
    (((pre ++ (.str k, b) :: post).find? fun p => strings [p.1] = [k.text]).map (·.2)) = some b := by
  induction pre with
  | nil => simp [strings]
  | cons p pre ih =>
    obtain ⟨i, c⟩ := p
    cases i with
    | sym =>
      simp only [List.map_cons, strings] at h
      rw [List.cons_append, List.find?_cons_of_neg (by simp [strings])]
      exact ih h
    | str k' =>
      simp only [List.map_cons, strings, List.mem_cons, not_or] at h
      rw [List.cons_append, List.find?_cons_of_neg (by simp [strings]; exact fun e => h.1 e.symm)]
      exact ih h.2

theorem fresh_cons_seen (p : Item × Bool) (l : List (Item × Bool)) (seen : List (List Nat)) (k : Key)
    (hp : p.1 = .str k) (h : k.text ∈ seen ∨ p.2 = false) : fresh (p :: l) seen = fresh l seen := by
  unfold fresh
  rw [List.filterMap_cons]
  have : ¬ (k.text ∉ seen ∧ p.2 = true) := by
    rintro ⟨h1, h2⟩
    rcases h with h | h
    · exact h1 h
    · rw [h] at h2; cases h2
  simp only [hp]
  rw [if_neg this]

theorem fresh_add (l : List (Item × Bool)) (seen : List (List Nat)) (s : List Nat)
    (h : s ∉ strings (l.map (·.1))) : fresh l (s :: seen) = fresh l seen := by
  induction l with
  | nil => rfl
  | cons p l ih =>
    obtain ⟨i, b⟩ := p
    cases i with
    | sym => simp only [List.map_cons, strings] at h; exact ih h
    | str k =>
      simp only [List.map_cons, strings, List.mem_cons, not_or] at h
      have ih := ih h.2
      unfold fresh at ih ⊢
      rw [List.filterMap_cons, List.filterMap_cons]
      have : (k.text ∉ s :: seen ∧ b = true) ↔ (k.text ∉ seen ∧ b = true) := by
        rw [List.mem_cons, not_or]
        constructor
        · rintro ⟨⟨_, h⟩, h'⟩; exact ⟨h, h'⟩
        · rintro ⟨h', h''⟩; exact ⟨⟨fun e => h.1 e.symm, h'⟩, h''⟩
      by_cases hc : k.text ∉ seen ∧ b = true
      · simp only
        rw [if_pos hc, if_pos (this.2 hc), ih]
      · simp only
        rw [if_neg hc, if_neg (fun e => hc (this.1 e)), ih]

variable (c : List (List (Item × Bool)))

theorem distinct_getD (hc : Distinct c) (o : Nat) :
    (strings ((c.getD o []).map (·.1))).Nodup := by
  rw [List.getD_eq_getElem?_getD]
  cases h : c[o]? with
  | none => exact List.nodup_nil
  | some obj => exact hc obj (List.mem_of_getElem? h)

/-- The loop over what remains of an object: nothing is to be given, or the first of what is to be
given is. -/
theorem remainingLoop_chain (hc : Distinct c) (o : Nat) (post : List (Item × Bool)) :
    ∀ pre, pre ++ post = c.getD o [] → ∀ seen h,
    (∃ seen' h', remainingLoop (chainWorld c) o (strings (post.map (·.1))) seen h =
        (none, [], seen', h') ∧ fresh post seen = [] ∧
        ∀ s, s ∈ seen' ↔ s ∈ seen ∨ s ∈ strings (post.map (·.1))) ∨
    (∃ s pre' post' seen' h', remainingLoop (chainWorld c) o (strings (post.map (·.1))) seen h =
        (some (.name s), strings (post'.map (·.1)), seen', h') ∧
        pre' ++ post' = c.getD o [] ∧ fresh post seen = s :: fresh post' seen' ∧
        ∀ x, (x ∈ seen' ∨ x ∈ strings (post'.map (·.1))) ↔
          (x ∈ seen ∨ x ∈ strings (post.map (·.1)))) := by
  induction post with
  | nil =>
    intro pre hp seen h
    exact Or.inl ⟨seen, h, rfl, rfl, fun s => by simp [strings]⟩
  | cons p post ih =>
    intro pre hp seen h
    obtain ⟨i, b⟩ := p
    have hp' : (pre ++ [(i, b)]) ++ post = c.getD o [] := by rw [← hp]; simp
    have ih := ih _ hp'
    cases i with
    | sym => exact ih seen h
    | str k =>
      have hnd := distinct_getD c hc o
      rw [← hp] at hnd
      have hpre : k.text ∉ strings (pre.map (·.1)) ∧ k.text ∉ strings (post.map (·.1)) := by
        rw [List.map_append, List.map_cons] at hnd
        have hsa : ∀ a b : List Item, strings (a ++ b) = strings a ++ strings b := by
          intro a b
          induction a with
          | nil => rfl
          | cons x a ih => cases x <;> simp [strings, ih]
        rw [hsa] at hnd
        simp only [strings] at hnd
        rw [List.nodup_append] at hnd
        refine ⟨fun hm => ?_, (List.nodup_cons.1 hnd.2.1).1⟩
        exact hnd.2.2 _ hm _ (List.mem_cons_self ..) rfl
      have hown : ∀ h, (chainWorld c).own h o k.text = some (some b) := by
        intro h
        show some _ = _
        rw [← hp, own_part pre post k b hpre.1]
      simp only [List.map_cons, strings]
      unfold remainingLoop
      by_cases hs : k.text ∈ seen
      · rw [if_pos hs]
        rcases ih seen h with ⟨seen', h', e1, e2, e3⟩ | ⟨s, pre', post', seen', h', e1, e2, e3, e4⟩
        · refine Or.inl ⟨seen', h', e1, ?_, ?_⟩
          · rw [fresh_cons_seen _ _ _ k rfl (Or.inl hs)]; exact e2
          · intro s
            rw [e3, List.mem_cons]
            constructor
            · rintro (h | h)
              · exact Or.inl h
              · exact Or.inr (Or.inr h)
            · rintro (h | rfl | h)
              · exact Or.inl h
              · exact Or.inl hs
              · exact Or.inr h
        · refine Or.inr ⟨s, pre', post', seen', h', e1, e2, ?_, ?_⟩
          · rw [fresh_cons_seen _ _ _ k rfl (Or.inl hs)]; exact e3
          · intro x
            rw [e4, List.mem_cons]
            constructor
            · rintro (h | h)
              · exact Or.inl h
              · exact Or.inr (Or.inr h)
            · rintro (h | rfl | h)
              · exact Or.inl h
              · exact Or.inl hs
              · exact Or.inr h
      · rw [if_neg hs, hown]
        cases b with
        | true =>
          refine Or.inr ⟨k.text, pre ++ [(.str k, true)], post, k.text :: seen, _, rfl, hp', ?_, ?_⟩
          · rw [fresh_add _ _ _ hpre.2]
            unfold fresh
            rw [List.filterMap_cons]
            simp [hs]
          · intro x
            rw [List.mem_cons, List.mem_cons]
            constructor
            · rintro ((h | h) | h)
              · exact Or.inr (Or.inl h)
              · exact Or.inl h
              · exact Or.inr (Or.inr h)
            · rintro (h | h | h)
              · exact Or.inl (Or.inr h)
              · exact Or.inl (Or.inl h)
              · exact Or.inr h
        | false =>
          simp only
          rcases ih (k.text :: seen) (.own o k.text (some (some false)) :: h) with
            ⟨seen', h', e1, e2, e3⟩ | ⟨s, pre', post', seen', h', e1, e2, e3, e4⟩
          · refine Or.inl ⟨seen', h', e1, ?_, ?_⟩
            · rw [fresh_cons_seen _ _ _ k rfl (Or.inr rfl)]
              rwa [fresh_add _ _ _ hpre.2] at e2
            · intro s
              rw [e3, List.mem_cons, List.mem_cons]
              constructor
              · rintro ((h | h) | h)
                · exact Or.inr (Or.inl h)
                · exact Or.inl h
                · exact Or.inr (Or.inr h)
              · rintro (h | h | h)
                · exact Or.inl (Or.inr h)
                · exact Or.inl (Or.inl h)
                · exact Or.inr h
          · refine Or.inr ⟨s, pre', post', seen', h', e1, e2, ?_, ?_⟩
            · rw [fresh_cons_seen _ _ _ k rfl (Or.inr rfl)]
              rwa [fresh_add _ _ _ hpre.2] at e3
            · intro x
              rw [e4, List.mem_cons, List.mem_cons]
              constructor
              · rintro ((h | h) | h)
                · exact Or.inr (Or.inl h)
                · exact Or.inl h
                · exact Or.inr (Or.inr h)
              · rintro (h | h | h)
                · exact Or.inl (Or.inr h)
                · exact Or.inl (Or.inl h)
                · exact Or.inr h

/-- What is still to be given. -/
inductive Future : Iter → List (List Nat) → Prop
  | null (v : Bool) (rem seen : List (List Nat)) (h : List Ev) : Future ⟨none, v, rem, seen, h⟩ []
  | fresh (o : Nat) (rem seen : List (List Nat)) (h : List Ev) : o < c.length →
      Future ⟨some o, false, rem, seen, h⟩ (names (c.drop o) seen)
  | within (o : Nat) (pre post : List (Item × Bool)) (seen : List (List Nat)) (h : List Ev) :
      o < c.length → pre ++ post = c.getD o [] →
      Future ⟨some o, true, strings (post.map (·.1)), seen, h⟩
        (Spec.fresh post seen ++ names (c.drop (o + 1)) (seen ++ strings (post.map (·.1))))

/-- The number of rounds a call may need. -/
def need (it : Iter) : Nat :=
  match it.obj with
  | none => 1
  | some o => c.length - o + 1

theorem rest_chain (hc : Distinct c) (o : Nat) (ho : o < c.length) (pre post : List (Item × Bool))
    (hp : pre ++ post = c.getD o []) (seen : List (List Nat)) (h : List Ev) :
    (∃ it, rest (chainWorld c) o (strings (post.map (·.1))) seen h = (none, it) ∧
      Future c it (Spec.fresh post seen ++ names (c.drop (o + 1)) (seen ++ strings (post.map (·.1)))) ∧
      need c it ≤ c.length - o) ∨
    (∃ s it l, rest (chainWorld c) o (strings (post.map (·.1))) seen h = (some (.name s), it) ∧
      Spec.fresh post seen ++ names (c.drop (o + 1)) (seen ++ strings (post.map (·.1))) = s :: l ∧
      Future c it l) := by
  unfold rest
  rcases remainingLoop_chain c hc o post pre hp seen h with
    ⟨seen', h', e1, e2, e3⟩ | ⟨s, pre', post', seen', h', e1, e2, e3, e4⟩
  · left
    rw [e1, e2]
    have hpr : (chainWorld c).proto h' o = some (decide (c.length ≤ o + 1)) := rfl
    simp only [hpr, List.nil_append]
    by_cases hl : c.length ≤ o + 1
    · simp only [hl, decide_true]
      refine ⟨_, rfl, ?_, by simp only [need]; omega⟩
      rw [List.drop_eq_nil_of_le hl]
      exact .null _ _ _ _
    · simp only [hl, decide_false]
      refine ⟨_, rfl, ?_, by simp only [need]; omega⟩
      have : names (c.drop (o + 1)) (seen ++ strings (post.map (·.1))) = names (c.drop (o + 1)) seen' :=
        names_congr _ fun s => by rw [List.mem_append, e3]
      rw [this]
      exact .fresh _ _ _ _ (by omega)
  · right
    rw [e1]
    refine ⟨s, _, _, rfl, ?_, .within o pre' post' seen' h' ho e2⟩
    rw [e3, List.cons_append]
    congr 2
    exact names_congr _ fun x => by rw [List.mem_append, List.mem_append, e4]

theorem round_chain (hc : Distinct c) (o : Nat) {it : Iter} {l : List (List Nat)}
    (h : Future c it l) (ho : it.obj = some o) :
    (∃ it', round (chainWorld c) o it = (none, it') ∧ Future c it' l ∧ need c it' < need c it) ∨
    (∃ s it' l', round (chainWorld c) o it = (some (.name s), it') ∧ l = s :: l' ∧ Future c it' l') := by
  cases h with
  | null => cases ho
  | fresh o' rem seen h hlt =>
    cases ho
    have hd : c.drop o = c.getD o [] :: c.drop (o + 1) := by
      rw [List.getD_eq_getElem?_getD, List.getElem?_eq_getElem hlt]
      exact List.drop_eq_getElem_cons hlt
    unfold round
    simp only [Bool.false_eq_true, if_false]
    have hk : (chainWorld c).keys h o = some ((c.getD o []).map (·.1)) := rfl
    rw [hk]
    simp only
    rw [hd, names_cons]
    rcases rest_chain c hc o hlt [] (c.getD o []) rfl seen
      (.keys o (some ((c.getD o []).map (·.1))) :: h) with ⟨it, e1, e2, e3⟩ | ⟨s, it, l, e1, e2, e3⟩
    · exact Or.inl ⟨it, e1, e2, by simp only [need] at e3 ⊢; omega⟩
    · exact Or.inr ⟨s, it, l, e1, e2, e3⟩
  | within o' pre post seen h hlt hp =>
    cases ho
    unfold round
    simp only [if_true]
    rcases rest_chain c hc o hlt pre post hp seen h with ⟨it, e1, e2, e3⟩ | ⟨s, it, l, e1, e2, e3⟩
    · exact Or.inl ⟨it, e1, e2, by simp only [need] at e3 ⊢; omega⟩
    · exact Or.inr ⟨s, it, l, e1, e2, e3⟩

theorem next_chain (hc : Distinct c) (f : Nat) : ∀ {it : Iter} {l : List (List Nat)},
    Future c it l → need c it ≤ f →
    (l = [] ∧ (next (chainWorld c) f it).1 = .done) ∨
    (∃ s l', l = s :: l' ∧ (next (chainWorld c) f it).1 = .name s ∧
      Future c (next (chainWorld c) f it).2 l') := by
  induction f with
  | zero =>
    intro it l h hn
    unfold need at hn
    split at hn <;> omega
  | succ f ih =>
    intro it l h hn
    unfold next
    cases ho : it.obj with
    | none =>
      left
      cases h with
      | null => exact ⟨rfl, rfl⟩
      | fresh => cases ho
      | within => cases ho
    | some o =>
      simp only
      rcases round_chain c hc o h ho with ⟨it', e1, e2, e3⟩ | ⟨s, it', l', e1, e2, e3⟩
      · rw [e1]
        exact ih e2 (by omega)
      · rw [e1]
        exact Or.inr ⟨s, l', e2, rfl, e3⟩

theorem future_need {it : Iter} {l : List (List Nat)} (h : Future c it l) :
    need c it ≤ c.length + 1 := by
  cases h <;> (simp only [need]; omega)

theorem loop_chain (hc : Distinct c) (f : Nat) (hf : c.length + 1 ≤ f) (n : Nat) :
    ∀ {it : Iter} {l : List (List Nat)}, Future c it l → l.length < n →
    (loop (chainWorld c) f n it).1 = l.map .name ++ [.done] := by
  induction n with
  | zero => intro it l _ h; omega
  | succ n ih =>
    intro it l h hl
    unfold loop
    rcases next_chain c hc f h (Nat.le_trans (future_need c h) hf) with ⟨rfl, e⟩ | ⟨s, l', rfl, e1, e2⟩
    · generalize next (chainWorld c) f it = x at e
      obtain ⟨x1, x2⟩ := x
      simp only at e
      subst e
      rfl
    · generalize next (chainWorld c) f it = x at e1 e2
      obtain ⟨x1, x2⟩ := x
      simp only at e1 e2
      subst e1
      simp only
      rw [ih e2 (by simp only [List.length_cons] at hl; omega)]
      rfl

end Verif.ForIn.Spec

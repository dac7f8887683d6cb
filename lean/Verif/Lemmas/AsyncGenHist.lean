import Verif.Lemmas.AsyncGen

/-! What holds after every run of an async generator. -/

namespace Verif.AsyncGen

theorem Along.tail {P : State → Op → Prop} {s s' : State} {op : Op} {ops : List Op} {o : Out}
    (h : Along P s (op :: ops)) (hs : step s op = .ok (s', o)) : Along P s' ops := by
  have := h.2
  rw [hs] at this
  exact this

/-- The answers given so far: first values, then a final answer, then those of a finished
generator. -/
structure LogShape (cs : List (Kind × Val)) (s : State) : Prop where
  split : ∃ A B, s.log = A ++ B ∧ (∀ e, e ∈ A → ¬ Final e.2) ∧ (s.phase = .completed → B ≠ []) ∧
    (B = [] ∨ s.phase.over ∧ ∃ f L, B = f :: L ∧ Final f.2 ∧
      ∀ e, e ∈ L → ∃ c, cs[e.1]? = some c ∧ Late c e.2)

/-- What holds after the calls `cs`. -/
structure Hist (cs : List (Kind × Val)) (s : State) : Prop where
  shape : Shape s
  count : s.count = cs.length
  perm : (s.log.map Prod.fst ++ s.pending.map Req.id).Perm (List.range s.count)
  calls : ∀ r, r ∈ s.pending → cs[r.id]? = some (r.kind, r.val)
  log : LogShape cs s

theorem perm_nodup {s : State} (h : (s.log.map Prod.fst ++ s.pending.map Req.id).Perm (List.range s.count)) :
    (s.log.map Prod.fst ++ s.pending.map Req.id).Nodup :=
  h.nodup_iff.mpr List.nodup_range

theorem Hist.nodup {cs : List (Kind × Val)} {s : State} (h : Hist cs s) :
    (s.queue.map Req.id).Nodup := by
  have hn := perm_nodup h.perm
  have hs := h.shape
  rw [List.nodup_append] at hn
  obtain ⟨_, hn, hd⟩ := hn
  cases hs with
  | completing hc hl =>
    simp only [List.map_cons, List.nodup_cons]
    exact ⟨fun hm => hd _ hl _ hm rfl, hn⟩
  | finishing hc hl =>
    simp only [List.map_cons, List.nodup_cons]
    exact ⟨fun hm => hd _ hl _ hm rfl, hn⟩
  | _ => exact hn

theorem hist_init : Hist [] init :=
  ⟨.start, rfl, List.Perm.refl _, by simp [init, State.pending],
    ⟨[], [], rfl, by simp, by simp [init], Or.inl rfl⟩⟩

theorem get_snoc_old {α : Type} {l : List α} {x : α} {i : Nat} {y : α} (h : l[i]? = some y) :
    (l ++ [x])[i]? = some y := by
  rw [List.getElem?_append_left]
  · exact h
  · exact (List.getElem?_eq_some_iff.mp h).1

theorem answers_ids {p p' : Phase} {l : List Req} {a : List (Nat × Answer)} (h : Answers p p' l a) :
    a.map Prod.fst = l.map Req.id := by
  cases h <;> simp [Function.comp_def]

theorem late_drained {r : Req} (h : r.kind ≠ .ret) : Late (r.kind, r.val) (drained r) := by
  cases hk : r.kind <;> simp_all [Late, drained]

theorem drained_final (r : Req) : Final (drained r) := by
  unfold drained; split <;> simp [Final]

theorem LogShape.push {cs : List (Kind × Val)} {s s' : State} (c : Kind × Val) (h : LogShape cs s)
    (hl : s'.log = s.log) (ho : s.phase.over → s'.phase.over)
    (hc : s'.phase = .completed → s.phase = .completed) : LogShape (cs ++ [c]) s' := by
  obtain ⟨A, B, h1, h2, h3, h4⟩ := h.split
  refine ⟨A, B, by rw [hl, h1], h2, fun hp => h3 (hc hp), ?_⟩
  rcases h4 with h4 | ⟨h4, f, L, h5, h6, h7⟩
  · exact Or.inl h4
  · refine Or.inr ⟨ho h4, f, L, h5, h6, ?_⟩
    intro e he
    obtain ⟨c, hc, hl⟩ := h7 e he
    exact ⟨c, get_snoc_old hc, hl⟩

theorem LogShape.now {cs : List (Kind × Val)} {s s' : State} {c : Kind × Val} {a : Answer}
    (h : LogShape cs s) (hcount : s.count = cs.length)
    (hp : s.phase = .completed ∨ s.phase = .start) (hp' : s'.phase = .completed) (hf : Final a)
    (hl : Late c a) (hlog : s'.log = s.log ++ [(s.count, a)]) : LogShape (cs ++ [c]) s' := by
  obtain ⟨A, B, h1, h2, h3, h4⟩ := h.split
  rcases h4 with h4 | ⟨h4, f, L, h5, h6, h7⟩
  · refine ⟨A, [(s.count, a)], by rw [hlog, h1, h4]; simp, h2, fun _ => by simp, Or.inr ⟨?_, ?_⟩⟩
    · rw [hp']; trivial
    · exact ⟨_, [], rfl, hf, by simp⟩
  · refine ⟨A, B ++ [(s.count, a)], by rw [hlog, h1]; simp, h2, fun _ => by simp, Or.inr ⟨?_, ?_⟩⟩
    · rw [hp']; trivial
    · refine ⟨f, L ++ [(s.count, a)], by rw [h5]; rfl, h6, ?_⟩
      intro e he
      rcases List.mem_append.mp he with he | he
      · obtain ⟨c, hc, hl⟩ := h7 e he
        exact ⟨c, get_snoc_old hc, hl⟩
      · simp only [List.mem_singleton] at he
        subst he
        exact ⟨c, by simp [hcount], hl⟩

theorem LogShape.answers {cs : List (Kind × Val)} {s s' : State} {l : List Req}
    {a : List (Nat × Answer)} (h : LogShape cs s) (hc : ∀ r, r ∈ l → cs[r.id]? = some (r.kind, r.val))
    (hlog : s'.log = s.log ++ a) (ha : Answers s.phase s'.phase l a) : LogShape cs s' := by
  obtain ⟨A, B, h1, h2, h3, h4⟩ := h.split
  generalize hp : s.phase = p at ha h3 h4
  generalize hp' : s'.phase = p' at ha
  cases ha with
  | none ho hcm =>
    refine ⟨A, B, by rw [hlog, h1]; simp, h2, fun h => h3 (hcm (hp'.symm.trans h)), ?_⟩
    rcases h4 with h4 | ⟨h4, h5⟩
    · exact Or.inl h4
    · exact Or.inr ⟨by rw [hp']; exact ho.mp h4, h5⟩
  | value he he' =>
    rcases h4 with h4 | ⟨h4, h5⟩
    · refine ⟨A ++ _, [], by rw [hlog, h1, h4]; simp; rfl, ?_, ?_, Or.inl rfl⟩
      · intro e hm
        rcases List.mem_append.mp hm with hm | hm
        · exact h2 e hm
        · simp only [List.mem_singleton] at hm
          subst hm; simp [Final]
      · rw [hp', he']; simp
    · rw [he] at h4; exact absurd h4 (by simp [Phase.over])
  | final hf ho hr hd hn =>
    rename_i r a l
    have hdr : ∀ e, e ∈ l.map (fun x => (x.id, drained x)) → ∃ c, cs[e.1]? = some c ∧ Late c e.2 := by
      intro e he
      obtain ⟨x, hx, rfl⟩ := List.mem_map.mp he
      exact ⟨_, hc x (List.mem_cons_of_mem _ hx), late_drained (hd x hx)⟩
    rcases h4 with h4 | ⟨h4, f, L, h5, h6, h7⟩
    · refine ⟨A, _, by rw [hlog, h1, h4, List.append_assoc], h2, fun _ => by simp, Or.inr ⟨?_, ?_⟩⟩
      · rw [hp']; exact ho
      · exact ⟨_, _, rfl, hf, hdr⟩
    · refine ⟨A, B ++ _, by rw [hlog, h1, List.append_assoc], h2, fun _ => by simp, Or.inr ⟨?_, ?_⟩⟩
      · rw [hp']; exact ho
      · refine ⟨f, L ++ _, by rw [h5]; rfl, h6, ?_⟩
        intro e he
        rcases List.mem_append.mp he with he | he
        · exact h7 e he
        · rcases List.mem_cons.mp he with rfl | he
          · refine ⟨_, hc r List.mem_cons_self, ?_⟩
            have : p = .awaitReturn := by
              cases p <;> simp_all [Phase.over]
            simp [Late, hr this, hf]
          · exact hdr e he
  | drained he ho hd =>
    have hB := h3 he
    rcases h4 with h4 | ⟨h4, f, L, h5, h6, h7⟩
    · exact absurd h4 hB
    · refine ⟨A, B ++ _, by rw [hlog, h1, List.append_assoc], h2, fun _ => by simp [h5], Or.inr ⟨?_, ?_⟩⟩
      · rw [hp']; exact ho
      · refine ⟨f, L ++ _, by rw [h5]; rfl, h6, ?_⟩
        intro e he
        rcases List.mem_append.mp he with he | he
        · exact h7 e he
        · obtain ⟨x, hx, rfl⟩ := List.mem_map.mp he
          exact ⟨_, hc x hx, late_drained (hd x hx)⟩

theorem hist_effect {cs : List (Kind × Val)} {s s' : State} {op : Op} (h : Hist cs s)
    (hs : Shape s') (he : Effect s s' op) : Hist (cs ++ op.call?.toList) s' := by
  have hcount := h.count
  cases he with
  | push h1 h2 h3 h4 h5 h6 =>
    refine ⟨hs, by simp [h1, hcount, Op.call?], ?_, ?_, h.log.push _ h2 h4 h6⟩
    · rw [h2, h3, h1, List.map_append, ← List.append_assoc, List.range_succ]
      exact h.perm.append_right _
    · intro r hr
      rw [h3] at hr
      rcases List.mem_append.mp hr with hr | hr
      · exact get_snoc_old (h.calls r hr)
      · simp only [List.mem_singleton] at hr
        subst hr
        simp [hcount, Op.call?]
  | next hp hp' h1 h2 h3 =>
    refine ⟨hs, by simp [h1, hcount, Op.call?], ?_, ?_, ?_⟩
    · rw [h2, h3, h1, List.range_succ, List.map_append, List.append_assoc]
      refine List.Perm.trans (List.Perm.append_left _ List.perm_append_comm) ?_
      rw [← List.append_assoc]
      exact h.perm.append_right _
    · intro r hr
      rw [h3] at hr
      exact get_snoc_old (h.calls r hr)
    · exact h.log.now hcount (Or.inl hp) hp' (by simp [Final]) (by simp [Late]) h2
  | thr hp hp' h1 h2 h3 =>
    refine ⟨hs, by simp [h1, hcount, Op.call?], ?_, ?_, ?_⟩
    · rw [h2, h3, h1, List.range_succ, List.map_append, List.append_assoc]
      refine List.Perm.trans (List.Perm.append_left _ List.perm_append_comm) ?_
      rw [← List.append_assoc]
      exact h.perm.append_right _
    · intro r hr
      rw [h3] at hr
      exact get_snoc_old (h.calls r hr)
    · exact h.log.now hcount hp hp' (by simp [Final]) (by simp [Late]) h2
  | other hop h1 h2 h3 h4 =>
    have hnone : op.call? = none := by
      cases op <;> simp [Op.call?]
      exact absurd rfl (hop _ _ _)
    rw [hnone]
    simp only [Option.toList_none, List.append_nil]
    refine ⟨hs, by rw [h1, hcount], ?_, ?_, ?_⟩
    · rw [h3, h1, List.map_append, answers_ids h4, List.append_assoc, ← List.map_append, ← h2]
      exact h.perm
    · intro r hr
      exact h.calls r (by rw [h2]; exact List.mem_append_right _ hr)
    · exact h.log.answers (fun r hr => h.calls r (by rw [h2]; exact List.mem_append_left _ hr)) h3 h4

theorem hist_step {cs : List (Kind × Val)} {s : State} {op : Op} (h : Hist cs s) (ht : Tame s op) :
    step s op = .error .stuck ∨
      ∃ s' o, step s op = .ok (s', o) ∧ Effect s s' op ∧ Hist (cs ++ op.call?.toList) s' := by
  rcases step_good h.shape h.nodup op ht with h1 | ⟨s', o, h1, h2, h3⟩
  · exact Or.inl h1
  · exact Or.inr ⟨s', o, h1, h3, hist_effect h h2 h3⟩

theorem hist_exec (ops : List Op) : ∀ (cs : List (Kind × Val)) (s : State), Hist cs s →
    Along Tame s ops → exec s ops = .error .stuck ∨
      ∃ s' outs, exec s ops = .ok (s', outs) ∧ Hist (cs ++ ops.filterMap Op.call?) s' := by
  induction ops with
  | nil => intro cs s h _; exact Or.inr ⟨s, [], rfl, by simpa using h⟩
  | cons op ops ih =>
    intro cs s h ha
    rcases hist_step h ha.1 with h1 | ⟨s1, o, h1, _, h2⟩
    · exact Or.inl (by simp [exec, h1, bind, Except.bind])
    · rcases ih _ s1 h2 (ha.tail h1) with h3 | ⟨s', outs, h3, h4⟩
      · exact Or.inl (by simp [exec, h1, h3, bind, Except.bind])
      · refine Or.inr ⟨s', o :: outs, by simp [exec, h1, h3, bind, Except.bind], ?_⟩
        have : (op :: ops).filterMap Op.call? = op.call?.toList ++ ops.filterMap Op.call? := by
          cases hc : op.call? <;> simp [hc]
        rw [this, ← List.append_assoc]
        exact h4

/-- The numbers of the calls answered, then those not, in order. -/
def InOrder (s : State) : Prop :=
  s.log.map Prod.fst ++ s.pending.map Req.id = List.range s.count

theorem pending_nil_of_over {s : State} (hs : Shape s) (hc : s.phase = .completed)
    (hf : ¬ s.finishing) : s.pending = [] := by
  cases hs <;> first
    | rfl
    | (exfalso; simp at hc; done)
    | skip
  rename_i hc' _
  exact absurd ⟨_, List.mem_singleton.mpr rfl, by rcases hc' with rfl | rfl <;> trivial⟩ hf

theorem pending_start {s : State} (hs : Shape s) (hc : s.phase = .start) : s.pending = [] := by
  cases hs <;> first
    | rfl
    | (exfalso; simp at hc; done)

theorem inOrder_effect {s s' : State} {op : Op} (hs : Shape s) (h : InOrder s) (hc : Calm s op)
    (he : Effect s s' op) : InOrder s' := by
  unfold InOrder at h ⊢
  cases he with
  | push h1 h2 h3 => rw [h1, h2, h3, List.map_append, ← List.append_assoc, h, List.range_succ]; rfl
  | next hp hp' h1 h2 h3 =>
    have hn := pending_nil_of_over hs hp hc
    rw [h1, h2, h3, List.range_succ, ← h, hn]; simp
  | thr hp hp' h1 h2 h3 =>
    have hn : s.pending = [] := by
      rcases hp with hp | hp
      · exact pending_nil_of_over hs hp hc
      · exact pending_start hs hp
    rw [h1, h2, h3, List.range_succ, ← h, hn]; simp
  | other hop h1 h2 h3 h4 =>
    rw [h3, h1, List.map_append, answers_ids h4, List.append_assoc, ← List.map_append, ← h2]
    exact h

theorem inOrder_exec (ops : List Op) : ∀ (cs : List (Kind × Val)) (s : State), Hist cs s → InOrder s →
    Along Calm s ops → ∀ s' outs, exec s ops = .ok (s', outs) → InOrder s' := by
  induction ops with
  | nil =>
    intro cs s _ h _ s' outs he
    simp only [exec, Except.ok.injEq, Prod.mk.injEq] at he
    rw [← he.1]; exact h
  | cons op ops ih =>
    intro cs s h ho ha s' outs he
    rcases hist_step h ha.1.tame with h1 | ⟨s1, o, h1, h2, h3⟩
    · simp [exec, h1, bind, Except.bind] at he
    · simp only [exec] at he
      obtain ⟨⟨s2, o2⟩, h4, he⟩ := bindOk he
      rw [h1] at h4
      simp only [Except.ok.injEq, Prod.mk.injEq] at h4
      obtain ⟨rfl, rfl⟩ := h4
      obtain ⟨⟨s3, l⟩, h5, he⟩ := bindOk he
      simp only [Except.ok.injEq, Prod.mk.injEq] at he
      obtain ⟨rfl, _⟩ := he
      exact ih _ s1 h3 (inOrder_effect h.shape ho ha.1 h2) (ha.tail h1) s3 l h5

end Verif.AsyncGen

import Verif.Lemmas.GenRun

/-!
# C38: generators

`Verif.Gen.run init ops` is any run of any number of generators: the operations are the calls of
`next`, `return` and `throw` and everything the code of the generators (and of the iterators of
their `yield*`) does, in any order, with calls made from inside generators.  Call number `i` is the
operation number `i`; the output number `j` says what the engine did at operation number `j`, in
particular which call it answered.
-/

namespace Verif.Gen

/-- **C38, answers.** Every answer is given to a call, which gets no other one.  It is given at
once, or later by an operation of the generator's own code: the value of a `yield` with
`done: false`, a value returned with `done: true`, an error thrown, or the result of the iterator of
a `yield*`.  Every such operation answers a call of this generator, and two of them, one after the
other, answer calls made one after the other: the call answered by the second was made only after
the first. So each value yielded is delivered exactly once, and in order. -/
theorem C38_answers {ops : List Op} {outs : List Out} {s : State}
    (h : run init ops = .ok (s, outs)) :
    (∀ (j i : Nat) a, outs[j]? = some (.answer i a) → ∃ k g v, ops[i]? = some (.call k g v) ∧
      (j = i ∨ (i < j ∧ ∃ op, ops[j]? = some op ∧
        (op = .result g (.object ⟨match a with | .result o => o.value | _ => 0, false⟩) ∧
            a = .result ⟨match a with | .result o => o.value | _ => 0, false⟩ ∨
         (∃ w, op = .yield g w ∧ a = .result ⟨w, false⟩) ∨
         (∃ w, op = .ret g w ∧ a = .result ⟨w, true⟩) ∨
         ∃ e, op = .throw g e ∧ a = .threw e)))) ∧
    (∀ (j j' i : Nat) a a', outs[j]? = some (.answer i a) → outs[j']? = some (.answer i a') →
      j = j') ∧
    (∀ (j : Nat) g v, ops[j]? = some (.yield g v) →
      ∃ i, outs[j]? = some (.answer i (.result ⟨v, false⟩)) ∧ ∃ k w, ops[i]? = some (.call k g w)) ∧
    (∀ (j : Nat) g v, ops[j]? = some (.ret g v) →
      ∃ i, outs[j]? = some (.answer i (.result ⟨v, true⟩)) ∧ ∃ k w, ops[i]? = some (.call k g w)) ∧
    (∀ (j : Nat) g e, ops[j]? = some (.throw g e) →
      ∃ i, outs[j]? = some (.answer i (.threw e)) ∧ ∃ k w, ops[i]? = some (.call k g w)) ∧
    (∀ (j1 j2 : Nat) op1 op2 i1 i2 a1 a2 g, j1 < j2 → ops[j1]? = some op1 → ops[j2]? = some op2 →
      op1.actor = some g → op2.actor = some g → outs[j1]? = some (.answer i1 a1) →
      outs[j2]? = some (.answer i2 a2) → i1 < j1 ∧ j1 < i2 ∧ i2 < j2) := by
  have ht := run_trace h
  have H := trace_hist ht
  have self : ∀ (j : Nat) op (a : Answer) g, ops[j]? = some op → op.actor = some g → Made op a →
      (∀ t t' o, Did t op t' o → ∃ i, o = .answer i a) →
      ∃ i, outs[j]? = some (.answer i a) ∧ ∃ k w, ops[i]? = some (.call k g w) := by
    intro j op a g hj hact _ hd
    obtain ⟨t, t', o, h1, h2, h3, _⟩ := trace_at ht j op hj
    obtain ⟨s1, ha, _⟩ := step_act h2
    obtain ⟨i, rfl⟩ := hd _ _ _ (act_did (trace_hist h1).inv ha)
    obtain ⟨k, g', w, h4, h5⟩ := H.source j i a h3
    refine ⟨i, h3, k, w, ?_⟩
    rcases h5 with h5 | ⟨_, op', h6, h7, _⟩
    · rw [← h5, hj] at h4
      simp only [Option.some.injEq] at h4
      subst h4; simp [Op.actor] at hact
    · rw [hj] at h6
      simp only [Option.some.injEq] at h6
      subst h6
      rw [hact] at h7
      simp only [Option.some.injEq] at h7
      rw [h7]; exact h4
  refine ⟨?_, fun j j' i a a' => H.once j j' i a a', ?_, ?_, ?_, ?_⟩
  · intro j i a ha
    obtain ⟨k, g, v, h1, h2⟩ := H.source j i a ha
    refine ⟨k, g, v, h1, ?_⟩
    rcases h2 with h2 | ⟨h2, op, h3, h4, h5⟩
    · exact Or.inl h2
    · refine Or.inr ⟨h2, op, h3, ?_⟩
      cases op with
      | create => simp [Op.actor] at h4
      | call => simp [Op.actor] at h4
      | star => simp [Made] at h5
      | yield g' w =>
        simp only [Op.actor, Option.some.injEq] at h4; subst h4
        exact Or.inr (Or.inl ⟨w, rfl, h5⟩)
      | ret g' w =>
        simp only [Op.actor, Option.some.injEq] at h4; subst h4
        exact Or.inr (Or.inr (Or.inl ⟨w, rfl, h5⟩))
      | throw g' w =>
        simp only [Op.actor, Option.some.injEq] at h4; subst h4
        exact Or.inr (Or.inr (Or.inr ⟨w, rfl, h5⟩))
      | result g' r =>
        simp only [Op.actor, Option.some.injEq] at h4; subst h4
        cases r with
        | object o =>
          simp only [Made] at h5
          obtain ⟨rfl, h5⟩ := h5
          refine Or.inl ?_
          obtain ⟨w, d⟩ := o
          simp only at h5
          subst h5
          exact ⟨rfl, rfl⟩
        | threw => simp [Made] at h5
        | notObject => simp [Made] at h5
        | noMethod => simp [Made] at h5
  · intro j g v hj
    refine self j _ _ g hj rfl rfl ?_
    intro t t' o hd
    cases hd; exact ⟨_, rfl⟩
  · intro j g v hj
    refine self j _ _ g hj rfl rfl ?_
    intro t t' o hd
    cases hd; exact ⟨_, rfl⟩
  · intro j g v hj
    refine self j _ _ g hj rfl rfl ?_
    intro t t' o hd
    cases hd; exact ⟨_, rfl⟩
  · intro j1 j2 op1 op2 i1 i2 a1 a2 g hlt h1 h2 h3 h4 h5 h6
    have later : ∀ (j i : Nat) op a, ops[j]? = some op → op.actor = some g →
        outs[j]? = some (.answer i a) → i < j := by
      intro j i op a g1 g2 g3
      obtain ⟨k, g', v, g4, g5⟩ := H.source j i a g3
      rcases g5 with g5 | ⟨g5, _⟩
      · rw [← g5, g1] at g4
        simp only [Option.some.injEq] at g4
        subst g4; simp [Op.actor] at g2
      · exact g5
    exact ⟨later _ _ _ _ h1 h3 h5, H.disjoint j1 j2 op1 op2 i1 i2 a1 a2 g hlt h1 h2 h3 h4 h5 h6,
      later _ _ _ _ h2 h4 h6⟩

/-- A generator that yields twice and returns; while it runs, another one is used. -/
example : run init [.create, .create, .call .next 0 5, .call .next 1 6, .yield 1 7, .yield 0 8,
      .call .next 0 9, .yield 0 10, .call .ret 0 11, .ret 0 12] =
    .ok ({ gens := [⟨.completed, .ret, 11, .resume⟩, ⟨.yielded, .next, 6, .resume⟩], stack := [],
           time := 10 },
      [.created 0, .created 1, .enter, .enter, .answer 3 (.result ⟨7, false⟩),
       .answer 2 (.result ⟨8, false⟩), .deliver .next 9, .answer 6 (.result ⟨10, false⟩),
       .deliver .ret 11, .answer 8 (.result ⟨12, true⟩)]) := rfl

/-- **C38, running.** A call of a generator that is running, because an earlier call of it is not
answered yet, is answered at once with a TypeError and changes nothing. -/
theorem C38_running {ops : List Op} {outs : List Out} {s : State}
    (h : run init ops = .ok (s, outs)) {i j : Nat} {k k' : Kind} {g : Nat} {v v' : Val}
    (hi : ops[i]? = some (.call k g v)) (hj : ops[j]? = some (.call k' g v')) (hij : i < j)
    (hn : ∀ (l : Nat) a, l < j → outs[l]? ≠ some (.answer i a)) :
    outs[j]? = some (.answer j .typeError) ∧
    ∃ t t', Trace (ops.take j) (outs.take j) t ∧ Trace (ops.take (j + 1)) (outs.take (j + 1)) t' ∧
      t'.gens = t.gens ∧ t'.stack = t.stack := by
  have ht := run_trace h
  obtain ⟨t, t', o, h1, h2, h3, h4⟩ := trace_at ht j _ hj
  have H := trace_hist h1
  have hop : (g, i) ∈ t.open := by
    rcases H.pending i k g v (some_take hi hij) with ⟨l, a, hl⟩ | hop
    · exact absurd (take_some hl).1 (hn l a (take_some hl).2)
    · exact hop
  obtain ⟨x, hx, hp⟩ := H.inv.of_open hop
  obtain ⟨s1, ha, rfl⟩ := step_act h2
  have hd := act_did H.inv ha
  have htime : t.time = j := by
    rw [H.time, List.length_take]
    have := lt_of_some hj; omega
  have key : o = .answer t.time .typeError ∧ s1 = t := by
    cases hd with
    | noGen hg => exact ⟨rfl, rfl⟩
    | busy _ _ => exact ⟨rfl, rfl⟩
    | over hg h => rw [hx] at hg; simp at hg; subst hg; rw [hp] at h; simp at h
    | overRet hg h => rw [hx] at hg; simp at hg; subst hg; rw [hp] at h; simp at h
    | overThr hg h => rw [hx] at hg; simp at hg; subst hg; rw [hp] at h; simp at h
    | begin hg h => rw [hx] at hg; simp at hg; subst hg; rw [hp] at h; simp at h
    | again hg h => rw [hx] at hg; simp at hg; subst hg; rw [hp] at h; simp at h
    | pass hg h => rw [hx] at hg; simp at hg; subst hg; rw [hp] at h; simp at h
  obtain ⟨rfl, rfl⟩ := key
  rw [htime] at h3
  exact ⟨h3, s1, _, h1, h4, rfl, rfl⟩

/-- A generator whose code calls its own `next`, directly and through another generator. -/
example : run init [.create, .create, .call .next 0 5, .call .next 0 6, .call .next 1 0,
      .call .thr 0 7, .yield 1 1, .yield 0 2] =
    .ok ({ gens := [⟨.yielded, .next, 5, .resume⟩, ⟨.yielded, .next, 0, .resume⟩], stack := [],
           time := 8 },
      [.created 0, .created 1, .enter, .answer 3 .typeError, .enter, .answer 5 .typeError,
       .answer 4 (.result ⟨1, false⟩), .answer 2 (.result ⟨2, false⟩)]) := rfl

/-- **C38, safety.** No assertion of the engine fails, whatever is called when. -/
theorem C38_assert (ops : List Op) : run init ops ≠ .error .assert := by
  intro h
  have := run_stuck h
  simp at this

/-- **C38, calls.** A call is always possible. -/
theorem C38_callable {ops : List Op} {outs : List Out} {s : State}
    (h : run init ops = .ok (s, outs)) (k : Kind) (g : Nat) (v : Val) :
    ∃ s' o, run init (ops ++ [.call k g v]) = .ok (s', outs ++ [o]) := by
  cases hs : step s (.call k g v) with
  | ok r =>
    obtain ⟨s', o⟩ := r
    refine ⟨s', o, run_append h ?_⟩
    simp only [run, hs, bind, Except.bind]
  | error e =>
    exfalso
    unfold step at hs
    rcases bindErr hs with hs | ⟨a, _, hs⟩
    · have := act_stuck hs
      subst this
      cases k <;> simp only [act, resume, resumeAbrupt] at hs
      all_goals
        split at hs
        · simp at hs
        · rename_i x hx
          cases hp : x.phase <;> simp [hp] at hs
    · simp at hs

/-- **C38, finished.** Once a call of a generator was answered with `done: true` or an error, it is
finished for ever: every later call is answered at once, `next` with `{undefined, true}`,
`return(v)` with `{v, true}`, and `throw(e)` throws `e`. -/
theorem C38_finished {ops : List Op} {outs : List Out} {s : State}
    (h : run init ops = .ok (s, outs)) {i j l : Nat} {k k' : Kind} {g : Nat} {v v' : Val}
    {a : Answer} (hi : ops[i]? = some (.call k g v)) (hl : outs[l]? = some (.answer i a))
    (ha : (∃ w, a = .result ⟨w, true⟩) ∨ ∃ e, a = .threw e)
    (hj : ops[j]? = some (.call k' g v')) (hlj : l < j) :
    outs[j]? = some (.answer j (match k' with
      | .next => .result ⟨undef, true⟩
      | .ret => .result ⟨v', true⟩
      | .thr => .threw v')) := by
  have ht := run_trace h
  obtain ⟨t, t', o, h1, h2, h3, h4⟩ := trace_at ht j _ hj
  have H := trace_hist h1
  have hf : Final a := by
    rcases ha with ⟨w, rfl⟩ | ⟨e, rfl⟩
    · rfl
    · trivial
  have hil : i < j := by
    obtain ⟨_, _, _, _, h5⟩ := (trace_hist ht).source l i a hl
    rcases h5 with h5 | ⟨h5, _⟩ <;> omega
  obtain ⟨x, hx, hp⟩ := H.over l i a k g v (some_take hl hlj) (some_take hi hil) hf
  obtain ⟨s1, hact, rfl⟩ := step_act h2
  have hd := act_did H.inv hact
  have htime : t.time = j := by
    rw [H.time, List.length_take]
    have := lt_of_some hj; omega
  rw [h3]
  cases hd with
  | noGen hg => rw [hx] at hg; simp at hg
  | busy hg h => rw [hx] at hg; simp at hg; subst hg; rw [hp] at h; simp at h
  | over hg h => rw [htime]
  | overRet hg h => rw [htime]
  | overThr hg h => rw [htime]
  | begin hg h => rw [hx] at hg; simp at hg; subst hg; rw [hp] at h; simp at h
  | again hg h => rw [hx] at hg; simp at hg; subst hg; rw [hp] at h; simp at h
  | pass hg h => rw [hx] at hg; simp at hg; subst hg; rw [hp] at h; simp at h

/-- A generator that throws, and is used afterwards. -/
example : run init [.create, .call .next 0 5, .throw 0 6, .call .next 0 7, .call .ret 0 8,
      .call .thr 0 9, .call .next 0 10] =
    .ok ({ gens := [⟨.completed, .next, 5, .begin⟩], stack := [], time := 7 },
      [.created 0, .enter, .answer 1 (.threw 6), .answer 3 (.result ⟨undef, true⟩),
       .answer 4 (.result ⟨8, true⟩), .answer 5 (.threw 9), .answer 6 (.result ⟨undef, true⟩)]) := rfl

/-- **C38, requests.** A call that is not answered at once lets the code of the generator go on
with exactly this request: at the `yield` that answered the latest call of it, or by a call of the
method of the iterator at the `yield*` whose result was the latest answer. Only a first `next` is
not seen by the code, which starts at its beginning; a first `return` or `throw` never starts it. -/
theorem C38_received {ops : List Op} {outs : List Out} {s : State}
    (h : run init ops = .ok (s, outs)) {j : Nat} {k : Kind} {g : Nat} {v : Val} {o : Out}
    (hj : ops[j]? = some (.call k g v)) (ho : outs[j]? = some o) (hn : ∀ a, o ≠ .answer j a) :
    (o = .enter ∧ k = .next ∧ ∀ (l : Nat) op, l < j → ops[l]? = some op → op.actor ≠ some g) ∨
    ∃ (l : Nat) (i : Nat) (a : Answer) (op : Op), l < j ∧ ops[l]? = some op ∧
      outs[l]? = some (.answer i a) ∧
      (∀ (l' : Nat) op' i' a', l < l' → l' < j → ops[l']? = some op' → op'.actor = some g →
        outs[l']? ≠ some (.answer i' a')) ∧
      ((o = .deliver k v ∧ ∃ w, op = .yield g w) ∨ (o = .delegate k v ∧ ∃ r, op = .result g r)) := by
  have ht := run_trace h
  obtain ⟨t, t', o', h1, h2, h3, h4⟩ := trace_at ht j _ hj
  rw [ho] at h3
  simp only [Option.some.injEq] at h3
  subst h3
  have H := trace_hist h1
  obtain ⟨s1, hact, rfl⟩ := step_act h2
  have hd := act_did H.inv hact
  have htime : t.time = j := by
    rw [H.time, List.length_take]
    have := lt_of_some hj; omega
  have back : ∀ x : Gen, t.gens[g]? = some x → x.phase = .yielded →
      ((x.pos = .resume ∧ o = .deliver k v) ∨ (x.pos = .star ∧ o = .delegate k v)) →
      ∃ (l : Nat) (i : Nat) (a : Answer) (op : Op), l < j ∧ ops[l]? = some op ∧
      outs[l]? = some (.answer i a) ∧
      (∀ (l' : Nat) op' i' a', l < l' → l' < j → ops[l']? = some op' → op'.actor = some g →
        outs[l']? ≠ some (.answer i' a')) ∧
      ((o = .deliver k v ∧ ∃ w, op = .yield g w) ∨ (o = .delegate k v ∧ ∃ r, op = .result g r)) := by
    intro x hx hp hpos
    obtain ⟨l, op, i, a, g1, g2, g3, g4, g5⟩ := H.last g x hx hp
    refine ⟨l, i, a, op, (take_some g1).2, (take_some g1).1, (take_some g3).1, ?_, ?_⟩
    · intro l' op' i' a' hl hl' e1 e2 e3
      have := g4 l' op' i' a' (some_take e1 hl') e2 (some_take e3 hl')
      omega
    · rcases g5 with ⟨g5, g6⟩ | ⟨g5, g6⟩ <;> rcases hpos with ⟨hpos, ho'⟩ | ⟨hpos, ho'⟩
      · exact Or.inl ⟨ho', g6⟩
      · rw [hpos] at g5; simp at g5
      · rw [hpos] at g5; simp at g5
      · exact Or.inr ⟨ho', g6⟩
  cases hd with
  | noGen hg => exact absurd (by rw [htime]) (hn .typeError)
  | busy hg h => exact absurd (by rw [htime]) (hn .typeError)
  | over hg h => exact absurd (by rw [htime]) (hn (.result ⟨undef, true⟩))
  | overRet hg h => exact absurd (by rw [htime]) (hn (.result ⟨v, true⟩))
  | overThr hg h => exact absurd (by rw [htime]) (hn (.threw v))
  | begin hg hp _ =>
    refine Or.inl ⟨rfl, rfl, ?_⟩
    intro l op hl hop
    exact H.first g _ hg hp l op (some_take hop hl)
  | again hg hp hpos => exact Or.inr (back _ hg hp (Or.inl ⟨hpos, rfl⟩))
  | pass hg hp hpos => exact Or.inr (back _ hg hp (Or.inr ⟨hpos, rfl⟩))

/-- **C38, `yield*`.** When the method of the iterator has ended, the `yield*` does what the
standard says (`Spec.star`) for the request passed on last, and if the result is passed on, it is
the answer to a call of this generator not answered before. -/
theorem C38_star {ops : List Op} {outs : List Out} {s : State}
    (h : run init ops = .ok (s, outs)) {j : Nat} {g : Nat} {r : Result} {o : Out}
    (hj : ops[j]? = some (.result g r)) (ho : outs[j]? = some o) :
    ∃ (c i : Nat) (k : Kind) (v : Val) (op : Op), i < j ∧ ops[i]? = some op ∧
      (op = .star g ∨ ∃ k' v', op = .call k' g v') ∧ outs[i]? = some (.delegate k v) ∧
      (∀ (i' : Nat) op' k' v', i < i' → i' < j → ops[i']? = some op' →
        (op' = .star g ∨ ∃ k' v', op' = .call k' g v') → outs[i']? ≠ some (.delegate k' v')) ∧
      Spec.star c k v r = some o ∧ (∃ k' v', ops[c]? = some (.call k' g v')) ∧ c < j ∧
      ∀ (l : Nat) a, l < j → outs[l]? ≠ some (.answer c a) := by
  have ht := run_trace h
  obtain ⟨t, t', o', h1, h2, h3, h4⟩ := trace_at ht j _ hj
  rw [ho] at h3
  simp only [Option.some.injEq] at h3
  subst h3
  have H := trace_hist h1
  obtain ⟨s1, hact, rfl⟩ := step_act h2
  obtain ⟨f, rest, x, g1, g2, g3, g4, g5⟩ := result_star hact
  subst g2
  have hf : f ∈ t.stack := by rw [g1]; simp
  obtain ⟨x', hx', i, op, e1, e2, e3, e4⟩ := trace_passed h1 f hf g3
  rw [g4] at hx'
  simp only [Option.some.injEq] at hx'
  subst hx'
  have htgt : ∀ op' : Op, op'.target = some f.gen ↔
      (op' = .star f.gen ∨ ∃ k' v', op' = .call k' f.gen v') := by
    intro op'
    cases op' <;> simp [Op.target]
  have hopen : (f.gen, f.call) ∈ t.open := List.mem_map.mpr ⟨f, hf, rfl⟩
  obtain ⟨k', v', hc⟩ := H.calls f.gen f.call hopen
  refine ⟨f.call, i, x.kind, x.val, op, (take_some e1).2, (take_some e1).1, (htgt op).mp e2,
    (take_some e3).1, ?_, g5, ⟨k', v', (take_some hc).1⟩, (take_some hc).2, ?_⟩
  · intro i' op' k2 v2 hlt hlt' b1 b2 b3
    exact e4 i' op' k2 v2 hlt (some_take b1 hlt') ((htgt op').mpr b2) (some_take b3 hlt')
  · intro l a hl b
    exact H.unanswered f.gen f.call hopen l a (some_take b hl)

/-- A `yield*`: the first call of the iterator, one request passed on, a `throw` ended by a thrown
error, a `return` without a `return` method. -/
example : run init [.create, .call .next 0 5, .star 0, .result 0 (.object ⟨6, false⟩),
      .call .thr 0 7, .result 0 (.object ⟨8, true⟩), .star 0, .result 0 (.object ⟨9, false⟩),
      .call .ret 0 10, .result 0 (.noMethod none), .ret 0 10] =
    .ok ({ gens := [⟨.completed, .ret, 10, .star⟩], stack := [], time := 11 },
      [.created 0, .enter, .delegate .next undef, .answer 1 (.result ⟨6, false⟩), .delegate .thr 7,
       .starValue 8, .delegate .next undef, .answer 4 (.result ⟨9, false⟩), .delegate .ret 10,
       .starReturn 10, .answer 8 (.result ⟨10, true⟩)]) := rfl

/-! ### Sessions -/

/-- The operation of the code. -/
def actOp (g : Nat) : Spec.Act → Op
  | .yield v => .yield g v
  | .ret v => .ret g v
  | .throw e => .throw g e

/-- The code of `g` does something that answers the call. -/
def doAct (s : State) (op : Op) : Except Fault (State × Answer) := do
  let (s, o) ← step s op
  match o with
  | .answer _ a => .ok (s, a)
  | _ => .error .stuck

/-- A call of the generator `g`, whose code is `b` and has received `h`. -/
def useCall (b : Spec.Body) (g : Nat) (s : State) (h : List (Kind × Val)) (c : Kind × Val) :
    Except Fault (State × List (Kind × Val) × Answer) := do
  let (s, o) ← step s (.call c.1 g c.2)
  match o with
  | .answer _ a => .ok (s, h, a)
  | .enter => do
    let (s, a) ← doAct s (actOp g (b []))
    .ok (s, [], a)
  | .deliver k v => do
    let (s, a) ← doAct s (actOp g (b (h ++ [(k, v)])))
    .ok (s, h ++ [(k, v)], a)
  | _ => .error .stuck

/-- A list of calls, and the answers. -/
def useCalls (b : Spec.Body) (g : Nat) (s : State) (h : List (Kind × Val)) :
    List (Kind × Val) → Except Fault (State × List Answer)
  | [] => .ok (s, [])
  | c :: cs => do
    let (s, h, a) ← useCall b g s h c
    let (s, l) ← useCalls b g s h cs
    .ok (s, a :: l)

/-- The generator in the engine stands for the session. -/
def Rep (s : State) (g : Nat) (h : List (Kind × Val)) : Spec.Session → Prop
  | .fresh => ∃ x, s.gens[g]? = some x ∧ x.phase = .start ∧ x.pos = .begin
  | .active h' => h' = h ∧ ∃ x, s.gens[g]? = some x ∧ x.phase = .yielded ∧ x.pos = .resume
  | .finished => ∃ x, s.gens[g]? = some x ∧ x.phase = .completed

theorem set_get {l : List Gen} {g : Nat} {x y : Gen} (h : l[g]? = some x) :
    (l.set g y)[g]? = some y := by
  rw [List.getElem?_set, if_pos rfl, if_pos (List.getElem?_eq_some_iff.mp h).1]

theorem doAct_ok (b : Spec.Body) {s : State} {g c : Nat} {rest : List Frame} {x : Gen}
    (hist : List (Kind × Val)) (hst : s.stack = ⟨g, c, .body⟩ :: rest) (hx : s.gens[g]? = some x) :
    ∃ s', doAct s (actOp g (b hist)) = .ok (s', (Spec.go b hist).2) ∧
      Rep s' g hist (Spec.go b hist).1 ∧ s'.stack = rest ∧
      ∀ j : Nat, j ≠ g → s'.gens[j]? = s.gens[j]? := by
  have hne : ∀ (y : Gen) (j : Nat), j ≠ g → (s.gens.set g y)[j]? = s.gens[j]? := by
    intro y j hj
    rw [List.getElem?_set, if_neg (fun h => hj h.symm)]
  have htop : top s g .body = .ok (⟨g, c, .body⟩, rest, x) := by
    unfold top; rw [hst]; simp [hx]
  unfold Spec.go
  cases b hist with
  | yield v =>
    refine ⟨{ gens := s.gens.set g { x with phase := .yielded, pos := .resume }, stack := rest,
              time := s.time + 1 }, ?_, ?_, ?_, ?_⟩
    · simp [doAct, actOp, step, act, htop, leave, bind, Except.bind]
    · exact ⟨rfl, _, set_get hx, rfl, rfl⟩
    · rfl
    · exact hne _
  | ret v =>
    refine ⟨{ gens := s.gens.set g { x with phase := .completed }, stack := rest,
              time := s.time + 1 }, ?_, ?_, ?_, ?_⟩
    · simp [doAct, actOp, step, act, htop, leave, bind, Except.bind]
    · exact ⟨_, set_get hx, rfl⟩
    · rfl
    · exact hne _
  | throw v =>
    refine ⟨{ gens := s.gens.set g { x with phase := .completed }, stack := rest,
              time := s.time + 1 }, ?_, ?_, ?_, ?_⟩
    · simp [doAct, actOp, step, act, htop, leave, bind, Except.bind]
    · exact ⟨_, set_get hx, rfl⟩
    · rfl
    · exact hne _

theorem useCall_ok (b : Spec.Body) {s : State} {g : Nat} {h : List (Kind × Val)}
    {x : Spec.Session} (c : Kind × Val) (hr : Rep s g h x) :
    ∃ s' h', useCall b g s h c = .ok (s', h', (Spec.call b x c).2) ∧
      Rep s' g h' (Spec.call b x c).1 ∧ s'.stack = s.stack ∧
      ∀ j : Nat, j ≠ g → s'.gens[j]? = s.gens[j]? := by
  have hne : ∀ (y : Gen) (j : Nat), j ≠ g → (s.gens.set g y)[j]? = s.gens[j]? := by
    intro y j hj
    rw [List.getElem?_set, if_neg (fun h => hj h.symm)]
  obtain ⟨k, v⟩ := c
  cases x with
  | fresh =>
    obtain ⟨y, hy, hp, hpos⟩ := hr
    have hv : validate s g = some y := by unfold validate; rw [hy]; simp [hp]
    cases k with
    | next =>
      obtain ⟨s', h1, h2, h3, h4⟩ := doAct_ok b (s :=
        { gens := s.gens.set g { y with phase := .executing, kind := .next, val := v },
          stack := ⟨g, s.time, .body⟩ :: s.stack, time := s.time + 1 }) (g := g) [] rfl (set_get hy)
      refine ⟨s', [], ?_, h2, h3, ?_⟩
      · simp [useCall, step, act, resume, hv, hp, enter, hpos, bind, Except.bind, Spec.call]
        simp only [hpos] at h1
        rw [h1]
      · intro j hj; rw [h4 j hj]; exact hne _ j hj
    | ret =>
      refine ⟨{ s with gens := s.gens.set g { y with phase := .completed }, time := s.time + 1 }, h,
        ?_, ⟨_, set_get hy, rfl⟩, rfl, hne _⟩
      simp [useCall, step, act, resumeAbrupt, hv, hp, bind, Except.bind, Spec.call, Spec.finished]
    | thr =>
      refine ⟨{ s with gens := s.gens.set g { y with phase := .completed }, time := s.time + 1 }, h,
        ?_, ⟨_, set_get hy, rfl⟩, rfl, hne _⟩
      simp [useCall, step, act, resumeAbrupt, hv, hp, bind, Except.bind, Spec.call, Spec.finished]
  | active h' =>
    obtain ⟨rfl, y, hy, hp, hpos⟩ := hr
    have hv : validate s g = some y := by unfold validate; rw [hy]; simp [hp]
    obtain ⟨s', h1, h2, h3, h4⟩ := doAct_ok b (s :=
      { gens := s.gens.set g { y with phase := .executing, kind := k, val := v },
        stack := ⟨g, s.time, .body⟩ :: s.stack, time := s.time + 1 }) (g := g) (h' ++ [(k, v)]) rfl
        (set_get hy)
    refine ⟨s', h' ++ [(k, v)], ?_, h2, h3, ?_⟩
    · simp only [hpos] at h1
      cases k
      · simp [useCall, step, act, resume, hv, hp, enter, hpos, bind, Except.bind, Spec.call]
        rw [h1]
      · simp [useCall, step, act, resumeAbrupt, hv, hp, enter, hpos, bind, Except.bind, Spec.call,
          set_self hy]
        rw [h1]
      · simp [useCall, step, act, resumeAbrupt, hv, hp, enter, hpos, bind, Except.bind, Spec.call,
          set_self hy]
        rw [h1]
    · intro j hj; rw [h4 j hj]; exact hne _ j hj
  | finished =>
    obtain ⟨y, hy, hp⟩ := hr
    have hv : validate s g = some y := by unfold validate; rw [hy]; simp [hp]
    refine ⟨{ s with time := s.time + 1 }, h, ?_, ⟨y, hy, hp⟩, rfl, fun _ _ => rfl⟩
    cases k <;>
      simp [useCall, step, act, resume, resumeAbrupt, hv, hp, bind, Except.bind, Spec.call,
        Spec.finished, set_self hy]

/-- **C38, sessions.** For every code of a generator function and every sequence of calls of a new
generator, the answers of the engine are those of the session: it is the code that answers until it
returns or throws, each time knowing exactly the requests received; before it began, `return` and
`throw` finish it without running it. -/
theorem C38_session (b : Spec.Body) (cs : List (Kind × Val)) (s : State) :
    ∃ t g s' , step s .create = .ok (t, .created g) ∧
      useCalls b g t [] cs = .ok (s', Spec.session b .fresh cs) := by
  have go : ∀ (cs : List (Kind × Val)) (s : State) (g : Nat) (h : List (Kind × Val)) x,
      Rep s g h x → ∃ s', useCalls b g s h cs = .ok (s', Spec.session b x cs) := by
    intro cs
    induction cs with
    | nil => intro s g h x _; exact ⟨s, rfl⟩
    | cons c cs ih =>
      intro s g h x hr
      obtain ⟨s1, h1, e1, e2, _⟩ := useCall_ok b c hr
      obtain ⟨s2, e3⟩ := ih s1 g h1 _ e2
      refine ⟨s2, ?_⟩
      simp only [useCalls, e1, e3, bind, Except.bind, Spec.session]
  obtain ⟨s', hs'⟩ := go cs { s with gens := s.gens ++ [newGen], time := s.time + 1 } s.gens.length []
    .fresh ⟨newGen, snoc_new, rfl, rfl⟩
  exact ⟨_, _, s', rfl, hs'⟩

/-- The code `try { let x = yield 1; throw x } finally { yield 2 }`: a session with it. -/
example : Spec.session
    (fun h => match h with
      | [] => .yield 1
      | [_] => .yield 2
      | (.next, v) :: _ => .throw v
      | (.ret, v) :: _ => .ret v
      | (.thr, v) :: _ => .throw v) .fresh
    [(.next, 5), (.ret, 6), (.next, 7), (.next, 8), (.thr, 9)] =
    [.result ⟨1, false⟩, .result ⟨2, false⟩, .result ⟨6, true⟩, .result ⟨undef, true⟩, .threw 9] := rfl

/-! ### Delegation -/

/-- The `yield*` of `g` passes the request on to the generator `g'` with code `b`; what the
`yield*` gives is returned. -/
def passCall (b : Spec.Body) (g g' : Nat) (s : State) (h : List (Kind × Val)) (c : Kind × Val) :
    Except Fault (State × List (Kind × Val) × Answer) := do
  let (s, h, a) ← useCall b g' s h c
  let r ← match a with
    | .result o => .ok (.object o)
    | .threw e => .ok (.threw e)
    | .typeError => .error .stuck
  let (s, o) ← step s (.result g r)
  match o with
  | .answer _ a => .ok (s, h, a)
  | .starValue v => do let (s, a) ← doAct s (.ret g v); .ok (s, h, a)
  | .starReturn v => do let (s, a) ← doAct s (.ret g v); .ok (s, h, a)
  | .starThrow (some e) => do let (s, a) ← doAct s (.throw g e); .ok (s, h, a)
  | _ => .error .stuck

/-- A call of the generator `g`, whose code is `return (yield* g')`. -/
def starCall (b : Spec.Body) (g g' : Nat) (s : State) (h : List (Kind × Val)) (c : Kind × Val) :
    Except Fault (State × List (Kind × Val) × Answer) := do
  let (s, o) ← step s (.call c.1 g c.2)
  match o with
  | .answer _ a => .ok (s, h, a)
  | .enter => do
    let (s, o) ← step s (.star g)
    match o with
    | .delegate k v => passCall b g g' s h (k, v)
    | _ => .error .stuck
  | .delegate k v => passCall b g g' s h (k, v)
  | _ => .error .stuck

/-- A list of calls of it, and the answers. -/
def starCalls (b : Spec.Body) (g g' : Nat) (s : State) (h : List (Kind × Val)) :
    List (Kind × Val) → Except Fault (State × List Answer)
  | [] => .ok (s, [])
  | c :: cs => do
    let (s, h, a) ← starCall b g g' s h c
    let (s, l) ← starCalls b g g' s h cs
    .ok (s, a :: l)

/-- Both generators stand for the session. -/
def StarRep (s : State) (g g' : Nat) (h : List (Kind × Val)) : Spec.Session → Prop
  | .fresh => (∃ x, s.gens[g]? = some x ∧ x.phase = .start ∧ x.pos = .begin) ∧ Rep s g' h .fresh
  | .active h' => (∃ x, s.gens[g]? = some x ∧ x.phase = .yielded ∧ x.pos = .star) ∧
      Rep s g' h (.active h')
  | .finished => ∃ x, s.gens[g]? = some x ∧ x.phase = .completed

/-- The answer and the session after it agree. -/
theorem call_shape (b : Spec.Body) (x : Spec.Session) (c : Kind × Val) :
    ((∃ h' v, (Spec.call b x c) = (.active h', .result ⟨v, false⟩)) ∨
     (∃ v, (Spec.call b x c) = (.finished, .result ⟨v, true⟩)) ∨
     ∃ e, (Spec.call b x c) = (.finished, .threw e)) := by
  have hgo : ∀ h, ((∃ h' v, (Spec.go b h) = (.active h', .result ⟨v, false⟩)) ∨
     (∃ v, (Spec.go b h) = (.finished, .result ⟨v, true⟩)) ∨
     ∃ e, (Spec.go b h) = (.finished, .threw e)) := by
    intro h
    unfold Spec.go
    cases b h with
    | yield v => exact Or.inl ⟨_, _, rfl⟩
    | ret v => exact Or.inr (Or.inl ⟨_, rfl⟩)
    | throw v => exact Or.inr (Or.inr ⟨_, rfl⟩)
  have hf : ((∃ h' v, ((.finished, Spec.finished c) : Spec.Session × Answer) =
      (.active h', .result ⟨v, false⟩)) ∨
     (∃ v, ((.finished, Spec.finished c) : Spec.Session × Answer) = (.finished, .result ⟨v, true⟩)) ∨
     ∃ e, ((.finished, Spec.finished c) : Spec.Session × Answer) = (.finished, .threw e)) := by
    obtain ⟨k, v⟩ := c
    cases k with
    | next => exact Or.inr (Or.inl ⟨_, rfl⟩)
    | ret => exact Or.inr (Or.inl ⟨_, rfl⟩)
    | thr => exact Or.inr (Or.inr ⟨_, rfl⟩)
  obtain ⟨k, v⟩ := c
  cases x with
  | fresh => cases k with
    | next => exact hgo []
    | ret => exact hf
    | thr => exact hf
  | active h => exact hgo _
  | finished => exact hf

theorem passCall_ok (b : Spec.Body) {s : State} {g g' n : Nat} {rest : List Frame} {y : Gen}
    {h : List (Kind × Val)} {x : Spec.Session} (c : Kind × Val) (hne : g ≠ g')
    (hst : s.stack = ⟨g, n, .delegate⟩ :: rest) (hy : s.gens[g]? = some y) (hr : Rep s g' h x) :
    ∃ s' h', passCall b g g' s h c = .ok (s', h', (Spec.call b x c).2) ∧
      StarRep s' g g' h' (Spec.call b x c).1 := by
  obtain ⟨s1, h1, e1, e2, e3, e4⟩ := useCall_ok b c hr
  have hy1 : s1.gens[g]? = some y := by rw [e4 g hne]; exact hy
  rw [hst] at e3
  have htop : top s1 g .delegate = .ok (⟨g, n, .delegate⟩, rest, y) := by
    unfold top; rw [e3]; simp [hy1]
  have htop2 : ∀ t : Nat, top { s1 with stack := ⟨g, n, .body⟩ :: rest, time := t } g .body =
      .ok (⟨g, n, .body⟩, rest, y) := by
    intro t; unfold top; simp [hy1]
  rcases call_shape b x c with ⟨h', v, hc⟩ | ⟨v, hc⟩ | ⟨e, hc⟩
  · rw [hc] at e1 e2 ⊢
    refine ⟨{ gens := s1.gens.set g { y with phase := .yielded, pos := .star }, stack := rest,
              time := s1.time + 1 }, h1, ?_, ⟨_, set_get hy1, rfl, rfl⟩, ?_⟩
    · simp only [passCall, e1, bind, Except.bind, step, act, htop, starResult]
      cases y.kind <;> simp [leave]
    · obtain ⟨rfl, z, hz, hz1, hz2⟩ := e2
      refine ⟨rfl, z, ?_, hz1, hz2⟩
      simp only []
      rw [List.getElem?_set, if_neg hne]; exact hz
  · rw [hc] at e1 e2 ⊢
    refine ⟨{ gens := s1.gens.set g { y with phase := .completed }, stack := rest,
              time := s1.time + 1 + 1 }, h1, ?_, ⟨_, set_get hy1, rfl⟩⟩
    simp only [passCall, e1, bind, Except.bind, step, act, htop, starResult]
    cases hk : y.kind <;> simp [back, doAct, step, act, htop2, leave, bind, Except.bind, hk]
  · rw [hc] at e1 e2 ⊢
    refine ⟨{ gens := s1.gens.set g { y with phase := .completed }, stack := rest,
              time := s1.time + 1 + 1 }, h1, ?_, ⟨_, set_get hy1, rfl⟩⟩
    simp only [passCall, e1, bind, Except.bind, step, act, htop, starResult]
    cases hk : y.kind <;> simp [back, doAct, step, act, htop2, leave, bind, Except.bind, hk]

theorem starCall_ok (b : Spec.Body) {s : State} {g g' : Nat} {h : List (Kind × Val)}
    {x : Spec.Session} (c : Kind × Val) (hne : g ≠ g') (hr : StarRep s g g' h x) :
    ∃ s' h', starCall b g g' s h c = .ok (s', h', (Spec.call b x c).2) ∧
      StarRep s' g g' h' (Spec.call b x c).1 := by
  obtain ⟨k, v⟩ := c
  cases x with
  | fresh =>
    obtain ⟨⟨y, hy, hp, hpos⟩, hr⟩ := hr
    have hv : validate s g = some y := by unfold validate; rw [hy]; simp [hp]
    cases k with
    | next =>
      have hr' : Rep { gens := s.gens.set g { y with phase := .executing, kind := .next, val := undef,
                                                     pos := .star },
                       stack := ⟨g, s.time, .delegate⟩ :: s.stack, time := s.time + 1 + 1 } g' h
          .fresh := by
        obtain ⟨z, hz, hz1, hz2⟩ := hr
        refine ⟨z, ?_, hz1, hz2⟩
        simp only []
        rw [List.getElem?_set, if_neg hne]; exact hz
      obtain ⟨s', h', e1, e2⟩ := passCall_ok b (.next, undef) hne rfl (set_get hy) hr'
      refine ⟨s', h', ?_, e2⟩
      have htop : ∀ t : Nat, top { gens := (s.gens.set g { y with phase := .executing, kind := .next, val := v }),
                                      stack := ⟨g, s.time, .body⟩ :: s.stack,
                                      time := t } g .body =
          .ok (⟨g, s.time, .body⟩, s.stack, { y with phase := .executing, kind := .next, val := v }) := by
        intro t; unfold top; simp [set_get hy]
      simp only [hpos] at htop
      simp [starCall, step, act, resume, hv, hp, enter, hpos, bind, Except.bind, htop, List.set_set]
      rw [e1]; rfl
    | ret =>
      refine ⟨{ s with gens := s.gens.set g { y with phase := .completed }, time := s.time + 1 }, h,
        ?_, ⟨_, set_get hy, rfl⟩⟩
      simp [starCall, step, act, resumeAbrupt, hv, hp, bind, Except.bind, Spec.call, Spec.finished]
    | thr =>
      refine ⟨{ s with gens := s.gens.set g { y with phase := .completed }, time := s.time + 1 }, h,
        ?_, ⟨_, set_get hy, rfl⟩⟩
      simp [starCall, step, act, resumeAbrupt, hv, hp, bind, Except.bind, Spec.call, Spec.finished]
  | active h0 =>
    obtain ⟨⟨y, hy, hp, hpos⟩, hr⟩ := hr
    have hv : validate s g = some y := by unfold validate; rw [hy]; simp [hp]
    have hr' : Rep { gens := s.gens.set g { y with phase := .executing, kind := k, val := v },
                     stack := ⟨g, s.time, .delegate⟩ :: s.stack, time := s.time + 1 } g' h
        (.active h0) := by
      obtain ⟨rfl, z, hz, hz1, hz2⟩ := hr
      refine ⟨rfl, z, ?_, hz1, hz2⟩
      simp only []
      rw [List.getElem?_set, if_neg hne]; exact hz
    obtain ⟨s', h', e1, e2⟩ := passCall_ok b (k, v) hne rfl (set_get hy) hr'
    refine ⟨s', h', ?_, e2⟩
    simp only [hpos] at e1
    cases k
    · simp [starCall, step, act, resume, hv, hp, enter, hpos, bind, Except.bind]
      rw [e1]
    · simp [starCall, step, act, resumeAbrupt, hv, hp, enter, hpos, bind, Except.bind, set_self hy]
      rw [e1]
    · simp [starCall, step, act, resumeAbrupt, hv, hp, enter, hpos, bind, Except.bind, set_self hy]
      rw [e1]
  | finished =>
    obtain ⟨y, hy, hp⟩ := hr
    have hv : validate s g = some y := by unfold validate; rw [hy]; simp [hp]
    refine ⟨{ s with time := s.time + 1 }, h, ?_, ⟨y, hy, hp⟩⟩
    cases k <;>
      simp [starCall, step, act, resume, resumeAbrupt, hv, hp, bind, Except.bind, Spec.call,
        Spec.finished, set_self hy]

/-- **C38, delegation.** A new generator whose code is `return (yield* inner)`, where `inner` is a
new generator, cannot be told from `inner` itself: for every code of it and every sequence of calls
the answers are the same. -/
theorem C38_delegate (b : Spec.Body) (cs : List (Kind × Val)) (s : State) :
    ∃ t g g' s' , run s [.create, .create] = .ok (t, [.created g, .created g']) ∧
      starCalls b g g' t [] cs = .ok (s', Spec.session b .fresh cs) := by
  have go : ∀ (cs : List (Kind × Val)) (s : State) (g g' : Nat) (h : List (Kind × Val)) x, g ≠ g' →
      StarRep s g g' h x → ∃ s', starCalls b g g' s h cs = .ok (s', Spec.session b x cs) := by
    intro cs
    induction cs with
    | nil => intro s g g' h x _ _; exact ⟨s, rfl⟩
    | cons c cs ih =>
      intro s g g' h x hne hr
      obtain ⟨s1, h1, e1, e2⟩ := starCall_ok b c hne hr
      obtain ⟨s2, e3⟩ := ih s1 g g' h1 _ hne e2
      refine ⟨s2, ?_⟩
      simp only [starCalls, e1, e3, bind, Except.bind, Spec.session]
  obtain ⟨s', hs'⟩ := go cs { s with gens := s.gens ++ [newGen] ++ [newGen], time := s.time + 1 + 1 }
    s.gens.length (s.gens ++ [newGen]).length [] .fresh (by simp)
    ⟨⟨newGen, snoc_old snoc_new, rfl, rfl⟩, ⟨newGen, snoc_new, rfl, rfl⟩⟩
  exact ⟨_, _, _, s', rfl, hs'⟩

end Verif.Gen

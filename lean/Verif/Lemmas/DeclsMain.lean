import Verif.Lemmas.DeclsFunc

/- The parser over any part of a program. -/

namespace Verif.Decls

theorem run_func {ps : Bool} {b : St} (m : Bool) (h : Hdr) (hb : Run false (ps || h.useStrict) b) :
    Run m ps (.func h b) := by
  intro F t cur rest st hg ht hs hgr hnb
  obtain ⟨st', e1, r1⟩ := func_run hb st (by rw [hs]; exact hg.lt) hgr hnb
  refine ⟨st', cur, by simp only [parse]; exact e1, ?_⟩
  exact
    { stack := r1.stack.trans hs, ids := rfl, next := r1.next, uq := hg.uq, mono := r1.mono
      acc := fun _ he => by
        obtain ⟨a1, a2, a3, a4⟩ := r1.acc he
        exact ⟨r1.mono he, ok_empty rfl rfl rfl _, eff_refl rfl rfl rfl hg.ne_nil, ⟨a2, a3⟩,
          by rw [a1]; simp [IN], by simp [IN], a4⟩
      comp := fun _ he _ hea hfc hfv _ hin =>
        r1.comp he (by simpa [IN] using hin) hea.1 hea.2 hfc hfv
      blk := fun b e => by cases e }

theorem run_fnDecl {ps : Bool} {b : St} (m : Bool) (x : Nat) (h : Hdr)
    (hb : Run false (ps || h.useStrict) b) : Run m ps (.fnDecl x h b) := by
  intro F t cur rest st hg ht hs hgr hnb
  obtain ⟨s1, e1, r1⟩ := func_run hb st (by rw [hs]; exact hg.lt) hgr hnb
  have hg1 : Good F cur rest s1.next := hg.of_ids rfl r1.next hg.uq
  have hs1 : s1.stack = cur ++ rest := r1.stack.trans hs
  cases cur with
  | nil => exact absurd rfl hg.ne_nil
  | cons c tl =>
    have key : ∃ st' cur', add ps F .fn x s1 = some st' ∧
        ResN F t (.fnDecl x h b) (c :: tl) rest s1 st' cur' := by
      cases t with
      | true =>
        have hc := (ht.iff c rfl).1 rfl
        refine resN_var (k := .fn) (x := x) hg1 ht hs1 (by simp [isLex, hc.1, hc.2]) (by simp) ?_
          (fun e => by cases e) rfl
        intro y j
        simp only [VF, VN, FN, List.mem_singleton, List.not_mem_nil, and_false, false_or, if_true]
        exact and_comm
      | false =>
        refine resN_lex (k := .fn) (x := x) hg1 hs1 ?_ rfl rfl rfl
        have hc := ht.iff c rfl
        simp only [Bool.false_eq_true, false_iff, not_and] at hc
        simp only [isLex, Bool.or_eq_true, bne_iff_ne, ne_eq]
        cases hm : F.mod with
        | true => exact Or.inl rfl
        | false => exact Or.inr (hc hm)
    obtain ⟨st', cur', e2, r2⟩ := key
    refine ⟨st', cur', by simp only [parse, e1, Option.bind_some, e2], ?_⟩
    exact
      { stack := r2.stack, ids := r2.ids, next := by rw [r2.next]; exact r1.next, uq := r2.uq
        mono := fun he => r1.mono (r2.mono he)
        acc := fun hinv he => by
          obtain ⟨a1, a2, a3, T, a4, a5⟩ := r1.acc (r2.mono he)
          obtain ⟨b1, b2⟩ := r2.acc hinv he
          exact ⟨r1.mono (r2.mono he), b1, b2, ⟨a2, a3⟩, by rw [r2.imps, a1]; simp [IN],
            by simp [IN], T, by rw [r2.tabs, a4], a5⟩
        comp := fun hinv he ho hea hfc hfv hnf hin =>
          r2.comp hinv (r1.comp he (by simpa [IN] using hin) hea.1 hea.2 hfc hfv) ho hnf
        blk := fun b e => by cases e }

theorem run_fnExpr {ps : Bool} {b : St} (m : Bool) (x : Option Nat) (h : Hdr)
    (hb : Run false (ps || h.useStrict) b) : Run m ps (.fnExpr x h b) := by
  intro F t cur rest st hg ht hs hgr hnb
  obtain ⟨s1, e1, r1⟩ := func_run hb (push st) (by
    intro c hc
    have := hg.push.lt c (by simpa [push, hs] using hc)
    exact this) hgr hnb
  have hs1 : s1.stack = ⟨st.next, []⟩ :: (cur ++ rest) := by rw [r1.stack]; simp [push, hs]
  obtain ⟨s2, c', h1, h2, h3, h4, h5, h6, h7, h8, h9, h10⟩ :=
    addAll_lex (ps := ps) (F := F) x.toList [] s1 ⟨st.next, []⟩ (cur ++ rest) hs1 (uniq_nil _)
  have hf : find s2 st.next = c' := find_at (pre := []) h2 h3 (by simp)
  have e2 := leave_of h2 hf
  have hxn : x.toList.Nodup := by cases x <;> simp
  refine ⟨leave st.next s2, cur, by
    simp only [parse, e1, Option.bind_some, h1, Option.map_some], ?_⟩
  rw [e2]
  exact
    { stack := rfl, ids := rfl
      next := by show st.next ≤ s2.next; rw [h5]; have := r1.next; simp only [push] at this; omega
      uq := hg.uq, mono := fun he => r1.mono (h8 he)
      acc := fun _ he => by
        have he' : s2.err = false := he
        obtain ⟨a1, a2, a3, T, a4, a5⟩ := r1.acc (h8 he')
        obtain ⟨g1, _, _⟩ := h9 (lexOnly_nil _) he'
        have g1 : LexOnly x.toList c' := by simpa using g1
        refine ⟨r1.mono (h8 he'), ok_empty rfl rfl rfl _, eff_refl rfl rfl rfl hg.ne_nil, ⟨a2, a3⟩,
          ?_, by simp [IN], T ++ [scopeTab c'], ?_, ?_⟩
        · show s2.imps = _
          rw [h7, a1]; simp [IN, push]
        · show s2.tabs ++ _ = _
          rw [h6, a4]; simp [push]
        · have := a5.append (c := [scopeTab c']) (d := [.scope x.toList]) ⟨?_, trivial⟩
          · simpa [Tabs] using this
          · refine ⟨nodup_names h4 _, fun y => ?_⟩
            rw [mem_names h4]
            constructor
            · rintro ⟨k, hk, _⟩; exact ((g1 y k).1 hk).1
            · intro hy; exact ⟨.lex, (g1 y .lex).2 ⟨hy, rfl⟩, rfl⟩
      comp := fun _ he _ hea hfc hfv _ hin =>
        h10 (lexOnly_nil _) (r1.comp he (by simpa [IN, push] using hin) hea.1 hea.2 hfc hfv) hxn (by simp)
      blk := fun b e => by cases e }

theorem run_clsDecl {b : St} (m ps : Bool) (x : Option Nat) (hb : Run false true b) :
    Run m ps (.cls x true b) := by
  intro F t cur rest st hg ht hs hgr hnb
  cases x with
  | none =>
    obtain ⟨st', cur', e, r⟩ := run_cls m ps none hb F t cur rest st hg ht hs hgr hnb
    refine ⟨st', cur', ?_, r.congr rfl rfl rfl rfl rfl rfl Iff.rfl id id (by simp)⟩
    simp only [parse, Option.toList] at e ⊢
    simp only [Bool.false_eq_true, ↓reduceIte] at e
    rw [← e]
    simp [addAll]
  | some y =>
    obtain ⟨st', cur', e, r⟩ := run_cons (run_cls m ps (some y) hb) (run_lex m ps y) F t cur rest st
      hg ht hs ⟨hgr, trivial⟩ ⟨hnb, trivial⟩
    refine ⟨st', cur', ?_, r.congr ?_ ?_ ?_ ?_ ?_ ?_ ?_ ?_ ?_ (by simp)⟩
    · simp only [parse, Option.toList, ↓reduceIte, Bool.false_eq_true] at e ⊢
      rw [← e]
      simp [addAll, Option.bind_assoc]
    · simp [LN]
    · simp [VN]
    · simp [FN]
    · simp [IN]
    · simp [Tabs]
    · simp [NV]
    · exact ⟨fun h => ⟨h, trivial⟩, fun h => h.1⟩
    · exact fun h => ⟨h, trivial⟩
    · exact fun h => ⟨h, trivial, by simp [FN]⟩

/-- The parser over any part of a program gives a result. -/
theorem run_all : ∀ (s : St) (m ps : Bool), Run m ps s := by
  intro s
  induction s with
  | nil => exact run_nil
  | cons s r ih1 ih2 => exact fun m ps => run_cons (ih1 m ps) (ih2 m ps)
  | var x => exact fun m ps => run_var m ps x
  | lex x => exact fun m ps => run_lex m ps x
  | imp x => exact fun m ps => run_imp m ps x
  | block b ih => exact fun m ps => run_block m (ih false ps)
  | forLex xs b ih => exact fun m ps => run_for m xs (ih false ps)
  | withSt b ih => exact fun m ps => run_with m (ih false ps)
  | tryCatch o b ih =>
    intro m ps
    cases o with
    | none => intro F t cur rest st _ _ _ _ hnb; exact hnb.elim
    | some xs => exact run_catch m xs (ih false ps)
  | func h b ih => exact fun m ps => run_func m h (ih false _)
  | fnDecl x h b ih => exact fun m ps => run_fnDecl m x h (ih false _)
  | fnExpr x h b ih => exact fun m ps => run_fnExpr m x h (ih false _)
  | cls x d b ih =>
    intro m ps
    cases d with
    | false => exact run_cls m ps x (ih false true)
    | true => exact run_clsDecl m ps x (ih false true)

end Verif.Decls

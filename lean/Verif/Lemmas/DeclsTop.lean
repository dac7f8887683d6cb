import Verif.Lemmas.DeclsMain

/- Scripts and modules as a whole. -/

namespace Verif.Decls

theorem good_start (mo : Bool) : Good ⟨mo, 0, 0⟩ [⟨0, []⟩] [] (push start).next :=
  ⟨by simp [push, start], by simp, ⟨[], by simp⟩, by simp, by simp [uniq_nil]⟩

theorem top_script : Top ⟨false, 0, 0⟩ true [⟨0, []⟩] := ⟨by simp, by simp [lexK]⟩

theorem top_module : Top ⟨true, 0, 0⟩ false [⟨0, []⟩] := ⟨by simp, by simp⟩

theorem inv_start (F : Fn) (t : Bool) : Inv F t [⟨0, []⟩] := by
  refine ⟨⟨?_, trivial⟩, ?_⟩
  · intro x k hk; simp [look_nil] at hk
  · intro _ c hc; cases hc

theorem run_top {m mo t ps : Bool} {s : St} (ht : Top ⟨mo, 0, 0⟩ t [⟨0, []⟩]) (hgr : Grammar m s)
    (hnb : NoBareCatch s) :
    ∃ st c, parse ps ⟨mo, 0, 0⟩ s (push start) = some st ∧ c.id = 0 ∧ find st 0 = c ∧
      st.stack = [c] ∧ Res ps ⟨mo, 0, 0⟩ t s [⟨0, []⟩] [] (push start) st [c] := by
  obtain ⟨st, cur, e, r⟩ := run_all s m ps ⟨mo, 0, 0⟩ t [⟨0, []⟩] [] (push start) (good_start mo) ht
    rfl hgr hnb
  have hids := r.ids
  match cur, hids with
  | [], hids => simp at hids
  | _ :: _ :: _, hids => simp at hids
  | [c], hids =>
    have hc : c.id = 0 := by simpa using hids
    exact ⟨st, c, e, hc, find_at (pre := []) r.stack hc (by simp), r.stack, r⟩

theorem popFunc_top {st : PS} {c : Scope} (hc : c.id = 0) (hs : st.stack = [c]) :
    (popFunc 0 0 0 st).stack = [] ∧ (popFunc 0 0 0 st).next = st.next ∧
      (popFunc 0 0 0 st).imps = st.imps ∧ (popFunc 0 0 0 st).err = st.err ∧
      (popFunc 0 0 0 st).tabs = st.tabs :=
  popFunc_one (base := []) hc (by simp) hs

theorem ok_start {F : Fn} {t : Bool} {s : St} (h : ListOk t s) : OkAt F t s [⟨0, []⟩] := by
  refine ⟨h.1, ?_, ?_, ?_⟩
  · rintro x hx (hv | hv)
    · exact (h.2 x hx).1 hv
    · exact (h.2 x hx).2 hv
  · intro c hc x _
    simp only [List.head?_cons, Option.mem_def, Option.some.injEq] at hc
    subst hc; exact look_nil _ _
  · intro c hc x k _ hk
    rw [List.mem_singleton.1 hc, look_nil] at hk; cases hk

theorem nofn_start {t : Bool} {s : St} : NoFn t s [⟨0, []⟩] := by
  intro x _ c hc hk
  rw [List.mem_singleton.1 hc, look_nil] at hk; cases hk

theorem script_res {ps : Bool} {s : St} (hgr : Grammar false s) (hnb : NoBareCatch s) :
    ∃ st, script ps s = some st ∧ st.stack = [] ∧
      (st.err = false → ScriptOk ps s ∧ SameTabs st.tabs (ScriptTabs s)) ∧
      (ScriptOk ps s → NoForClash s → NoFnThenVar true s → st.err = false) := by
  obtain ⟨st, c, e, hc, hf, hs, r⟩ := run_top (ps := ps) top_script hgr hnb
  obtain ⟨p1, _, _, p4, p5⟩ := popFunc_top (st := { st with tabs := st.tabs ++
    [funcTab (find st 0) (find st 0) (find st 0)] }) hc hs
  refine ⟨_, by simp only [script, e, Option.map_some], p1, ?_, ?_⟩
  · intro he
    rw [p4] at he
    have a := r.acc (inv_start _ _) he
    obtain ⟨T, t1, t2⟩ := a.tabs
    refine ⟨⟨listOk_of_ok a.ok, a.early⟩, ?_⟩
    rw [p5]
    show SameTabs (st.tabs ++ _) _
    rw [t1, hf]
    have hn : NE s [] ⟨0, []⟩ c := he_ne (by simp [lexK]) a.eff.1 (parOnly_nil _)
      (r.uq c List.mem_cons_self)
    have hx := hn.lexs a.ok.dj (fun x _ => look_nil _ _) (fun x hx => a.eff.1.has x (Or.inr hx))
    have : SameTabs (T ++ [funcTab c c c]) (ScriptTabs s) := by
      refine t2.append ⟨⟨hn.params, hn.vars a.ok.dj _ ?_, hx.1⟩, trivial⟩
      intro x; simp [isV]
    simpa [push, start] using this
  · intro hok hfc hfv
    rw [p4]
    exact r.comp (inv_start _ _) rfl (ok_start hok.1) hok.2 hfc hfv nofn_start
      (by rw [IN_grammar hgr]; simp [push, start])

theorem module_res {s : St} (hgr : Grammar true s) (hnb : NoBareCatch s) :
    ∃ st, moduleP s = some st ∧ st.stack = [] ∧
      (st.err = false → (IN s).Nodup ∧ ListOk false s ∧ Early true s ∧
        SameTabs st.tabs (ModuleTabs s) ∧ st.imps = IN s) ∧
      ((IN s).Nodup → ListOk false s → Early true s → NoForClash s → NoFnThenVar false s →
        st.err = false) := by
  obtain ⟨st, c, e, hc, hf, hs, r⟩ := run_top (ps := true) top_module hgr hnb
  obtain ⟨p1, _, p3, p4, p5⟩ := popFunc_top (st := { st with tabs := st.tabs ++
    [modTab (find st 0) (find st 0)] }) hc hs
  refine ⟨_, by simp only [moduleP, e, Option.map_some], p1, ?_, ?_⟩
  · intro he
    rw [p4] at he
    have a := r.acc (inv_start _ _) he
    obtain ⟨T, t1, t2⟩ := a.tabs
    have hu := r.uq c List.mem_cons_self
    refine ⟨by simpa [push, start] using a.impsNd, listOk_of_ok a.ok, a.early, ?_, ?_⟩
    · rw [p5]
      show SameTabs (st.tabs ++ _) _
      rw [t1, hf]
      have hl := scopeTab_ok (L := LN false s) (lexOnly_nil 0) hu a.eff.1 a.ok (by simp)
      have : SameTabs (T ++ [modTab c c]) (ModuleTabs s) := by
        refine t2.append ⟨⟨⟨List.nodup_nil, fun _ => Iff.rfl⟩, ⟨nodup_names hu _, ?_⟩, hl⟩, trivial⟩
        intro x
        rw [mem_names hu]
        constructor
        · rintro ⟨k, hk, hp⟩
          have hkv : k = .var := by simpa using hp
          subst hkv
          rcases a.eff.1.new x _ (look_nil _ _) hk with (⟨_, h⟩ | ⟨h, _⟩) | ⟨_, h⟩
          · exact h
          · cases h
          · cases h
        · intro hx
          cases hk : look c x with
          | none => exact absurd hk (a.eff.1.has x (Or.inl (Or.inl hx)))
          | some k =>
            refine ⟨k, rfl, ?_⟩
            rcases a.eff.1.new x _ (look_nil _ _) hk with (⟨h, _⟩ | ⟨_, h⟩) | ⟨h, _⟩
            · simp [h]
            · rw [FN_false] at h; cases h
            · exact absurd (Or.inl hx) (a.ok.dj x h)
      simpa [push, start] using this
    · rw [p3]
      show st.imps = _
      rw [a.imps]; simp [push, start]
  · intro h1 h2 h3 h4 h5
    rw [p4]
    exact r.comp (inv_start _ _) rfl (ok_start h2) h3 h4 h5 nofn_start
      (by simpa [push, start] using h1)

end Verif.Decls

import Verif.Spec.RBT
import Mathlib.Data.List.Basic
import Mathlib.Tactic.Linarith
/-
Helper lemmas for the red black tree.
-/
namespace Verif.RBT
open Spec

/-- Keys before and after the hole of a path. -/
def pre : List Frame → List Nat
  | [] => []
  | f :: fs => match f.side with
    | .left => pre fs
    | .right => pre fs ++ keys f.sib ++ [f.key]

def post : List Frame → List Nat
  | [] => []
  | f :: fs => match f.side with
    | .left => f.key :: keys f.sib ++ post fs
    | .right => post fs

theorem keys_plug (t : Tree) (fs : List Frame) : keys (plug t fs) = pre fs ++ keys t ++ post fs := by
  induction fs generalizing t with
  | nil => simp [plug, pre, post]
  | cons f fs ih =>
    rw [plug, ih]
    obtain ⟨s, c, k, sib⟩ := f
    cases s <;> simp [Frame.plug, pre, post, keys]

@[simp] theorem keys_setColor (c : Color) (t : Tree) : keys (setColor c t) = keys t := by
  cases t <;> rfl

@[simp] theorem isBlack_leaf : isBlack .leaf = true := rfl
@[simp] theorem isBlack_black (l k r) : isBlack (.node .black l k r) = true := rfl
@[simp] theorem isBlack_red (l k r) : isBlack (.node .red l k r) = false := rfl

theorem insFix_keys (n : Tree) (fs : List Frame) (t : Tree) (h : insFix n fs = some t) :
    keys t = pre fs ++ keys n ++ post fs := by
  fun_induction insFix n fs
  case case1 => obtain rfl := Option.some.inj h; simp [pre, post]
  case case2 => obtain rfl := Option.some.inj h; rw [keys_plug]
  case case3 => simp at h
  case case4 n p hp gp fs' hu ih =>
    rw [ih h]
    obtain ⟨s, c, k, sib⟩ := p
    obtain ⟨s', c', k', sib'⟩ := gp
    cases s <;> cases s' <;> simp [Frame.plug, pre, post, keys]
  all_goals (first
    | (simp at h; done)
    | (obtain rfl := Option.some.inj h
       simp_all [keys_plug, pre, post, keys]))

/-- Red black tree with black height `h`; the root may be red. -/
def RB : Tree → Nat → Prop
  | .leaf, h => h = 0
  | .node .red l _ r, h => RB l h ∧ RB r h ∧ isBlack l = true ∧ isBlack r = true
  | .node .black _ _ _, 0 => False
  | .node .black l _ r, h + 1 => RB l h ∧ RB r h

/-- The ancestors are in order if the hole has black height `h`. -/
def Ctx : List Frame → Nat → Prop
  | [], _ => True
  | f :: fs, h => RB f.sib h ∧
    match f.color with
    | .red => isBlack f.sib = true ∧ (∃ g gs, fs = g :: gs ∧ g.color = .black) ∧ Ctx fs h
    | .black => Ctx fs (h + 1)

/-- A whole tree in order. -/
def Whole (t : Tree) : Prop := isBlack t = true ∧ ∃ h, RB t h

theorem plug_whole : ∀ (fs : List Frame) (t : Tree) (h : Nat), RB t h → Ctx fs h →
    (isBlack t = true ∨ ∃ g gs, fs = g :: gs ∧ g.color = .black) → Whole (plug t fs)
  | [], t, h, ht, _, hb => ⟨by
      rcases hb with hb | ⟨_, _, he, _⟩
      · exact hb
      · simp at he, h, ht⟩
  | f :: fs, t, h, ht, hc, hb => by
    obtain ⟨s, c, k, sib⟩ := f
    rw [plug]
    cases c with
    | black =>
      refine plug_whole fs _ (h + 1) ?_ hc.2 (Or.inl ?_)
      · cases s
        · exact ⟨ht, hc.1⟩
        · exact ⟨hc.1, ht⟩
      · cases s <;> rfl
    | red =>
      have hbt : isBlack t = true := by
        rcases hb with hb | ⟨g, gs, he, hg⟩
        · exact hb
        · obtain ⟨rfl, rfl⟩ := List.cons.inj he; simp at hg
      obtain ⟨h1, h2, h3, h4⟩ := hc
      refine plug_whole fs _ h ?_ h4 (Or.inr h3)
      cases s
      · exact ⟨ht, h1, hbt, h2⟩
      · exact ⟨h1, ht, h2, hbt⟩

theorem rb_setBlack {t : Tree} {h : Nat} (ht : RB t h) (hb : isBlack t = true) :
    setColor .black t = t := by
  cases t with
  | leaf => rfl
  | node c l k r => cases c with
    | red => simp [isBlack] at hb
    | black => rfl

theorem rb_red_black {t : Tree} {h : Nat} (ht : RB t h) (hb : isBlack t = false) :
    RB (setColor .black t) (h + 1) ∧ isBlack (setColor .black t) = true := by
  cases t with
  | leaf => simp [isBlack] at hb
  | node c l k r => cases c with
    | red => exact ⟨⟨ht.1, ht.2.1⟩, rfl⟩
    | black => simp [isBlack] at hb

theorem insFix_whole : ∀ (fs : List Frame) (a : Tree) (k : Nat) (b : Tree) (h : Nat),
    RB a h → RB b h → isBlack a = true → isBlack b = true → Ctx fs h →
    ∃ t, insFix (.node .red a k b) fs = some t ∧ Whole t
  | [], a, k, b, h, ha, hb, _, _, _ => ⟨_, rfl, rfl, h + 1, ha, hb⟩
  | p :: fs, a, k, b, h, ha, hb, ha', hb', hc => by
    obtain ⟨ps, pc, pk, psib⟩ := p
    have hn : RB (.node .red a k b) h := ⟨ha, hb, ha', hb'⟩
    rw [insFix.eq_def]
    simp only
    cases pc with
    | black => exact ⟨_, if_pos rfl, plug_whole _ _ h hn hc (Or.inr ⟨_, _, rfl, rfl⟩)⟩
    | red =>
      obtain ⟨h1, h2, ⟨gp, fs', rfl, hg⟩, h4⟩ := hc
      obtain ⟨gs, gc, gk, gsib⟩ := gp
      simp only at hg h1 h2
      subst hg
      have h4' : RB gsib h ∧ Ctx fs' (h + 1) := h4
      obtain ⟨h5, h6⟩ := h4'
      simp only [reduceCtorEq, if_false]
      cases hu : isBlack gsib with
      | false =>
        simp only [Bool.not_false, if_true]
        obtain ⟨h7, h8⟩ := rb_red_black h5 hu
        cases ps <;> cases gs
        · exact insFix_whole fs' _ _ _ (h + 1) (by exact ⟨hn, h1⟩) h7 rfl h8 h6
        · exact insFix_whole fs' _ _ _ (h + 1) h7 (by exact ⟨hn, h1⟩) h8 rfl h6
        · exact insFix_whole fs' _ _ _ (h + 1) (by exact ⟨h1, hn⟩) h7 rfl h8 h6
        · exact insFix_whole fs' _ _ _ (h + 1) h7 (by exact ⟨h1, hn⟩) h8 rfl h6
      | true =>
        simp only [Bool.not_true, Bool.false_eq_true, if_false]
        cases gs <;> cases ps
        all_goals
          refine ⟨_, rfl, plug_whole _ _ (h + 1) ?_ h6 (Or.inl rfl)⟩
          simp only [rb_setBlack h1 h2, rb_setBlack ha ha', rb_setBlack hb hb']
          simp_all [RB]

/-- What a round of the fix-up gives for a parent of colour `c` above a hole of black height
`h` which lacks one. -/
def RoundOK (c : Color) (h : Nat) (ks : List Nat) : Option Round → Prop
  | none => False
  | some (.done t) => keys t = ks ∧
    ((c = .red ∧ RB t (h + 1)) ∨ (c = .black ∧ RB t (h + 2) ∧ isBlack t = true))
  | some (.up t) => keys t = ks ∧ c = .black ∧ RB t (h + 1) ∧ isBlack t = true

theorem fixLeft_ok {n : Tree} {h : Nat} (hn : RB n h) (hb : isBlack n = true) (c : Color) (k : Nat)
    {sl : Tree} {ks : Nat} {sr : Tree} (hl : RB sl h) (hr : RB sr h) :
    RoundOK c h (keys n ++ k :: keys (.node .black sl ks sr))
      (fixLeft n c k (.node .black sl ks sr)) := by
  simp only [fixLeft]
  cases hbr : isBlack sr with
  | true =>
    simp only [if_true]
    cases hbl : isBlack sl with
    | true =>
      simp only [if_true]
      cases c with
      | red => exact ⟨rfl, Or.inl ⟨rfl, hn, hl, hr, hbl, hbr⟩⟩
      | black => exact ⟨rfl, rfl, ⟨hn, hl, hr, hbl, hbr⟩, rfl⟩
    | false =>
      cases sl with
      | leaf => simp [isBlack] at hbl
      | node c' a k2 b =>
        cases c' with
        | black => simp [isBlack] at hbl
        | red =>
          obtain ⟨h1, h2, h3, h4⟩ := hl
          simp only [Bool.false_eq_true, if_false, rb_setBlack h2 h4]
          refine ⟨by simp [keys], ?_⟩
          cases c with
          | red => exact Or.inl ⟨rfl, ⟨hn, h1⟩, ⟨h2, hr⟩, rfl, rfl⟩
          | black => exact Or.inr ⟨rfl, ⟨⟨hn, h1⟩, h2, hr⟩, rfl⟩
  | false =>
    obtain ⟨h1, h2⟩ := rb_red_black hr hbr
    simp only [Bool.false_eq_true, if_false]
    refine ⟨by simp [keys], ?_⟩
    cases c with
    | red => exact Or.inl ⟨rfl, ⟨hn, hl⟩, h1, rfl, h2⟩
    | black => exact Or.inr ⟨rfl, ⟨⟨hn, hl⟩, h1⟩, rfl⟩

theorem fixRight_ok {n : Tree} {h : Nat} (hn : RB n h) (hb : isBlack n = true) (c : Color) (k : Nat)
    {sl : Tree} {ks : Nat} {sr : Tree} (hl : RB sl h) (hr : RB sr h) :
    RoundOK c h (keys (.node .black sl ks sr) ++ k :: keys n)
      (fixRight n c k (.node .black sl ks sr)) := by
  simp only [fixRight]
  cases hbl : isBlack sl with
  | true =>
    simp only [if_true]
    cases hbr : isBlack sr with
    | true =>
      simp only [if_true]
      cases c with
      | red => exact ⟨rfl, Or.inl ⟨rfl, ⟨hl, hr, hbl, hbr⟩, hn⟩⟩
      | black => exact ⟨rfl, rfl, ⟨⟨hl, hr, hbl, hbr⟩, hn⟩, rfl⟩
    | false =>
      cases sr with
      | leaf => simp [isBlack] at hbr
      | node c' a k2 b =>
        cases c' with
        | black => simp [isBlack] at hbr
        | red =>
          obtain ⟨h1, h2, h3, h4⟩ := hr
          simp only [Bool.false_eq_true, if_false, rb_setBlack h1 h3]
          refine ⟨by simp [keys], ?_⟩
          cases c with
          | red => exact Or.inl ⟨rfl, ⟨hl, h1⟩, ⟨h2, hn⟩, rfl, rfl⟩
          | black => exact Or.inr ⟨rfl, ⟨⟨hl, h1⟩, h2, hn⟩, rfl⟩
  | false =>
    obtain ⟨h1, h2⟩ := rb_red_black hl hbl
    simp only [Bool.false_eq_true, if_false]
    refine ⟨by simp [keys], ?_⟩
    cases c with
    | red => exact Or.inl ⟨rfl, h1, ⟨hr, hn⟩, h2, rfl⟩
    | black => exact Or.inr ⟨rfl, ⟨h1, hr, hn⟩, rfl⟩

theorem fix_whole : ∀ (fs : List Frame) (n : Tree) (h : Nat), RB n h → isBlack n = true →
    Ctx fs (h + 1) → ∃ t, fixup n fs = some t ∧ Whole t ∧ keys t = pre fs ++ keys n ++ post fs
  | [], n, h, hn, hb, _ => ⟨n, rfl, ⟨hb, h, hn⟩, by simp [pre, post]⟩
  | p :: fs, n, h, hn, hb, hc => by
    obtain ⟨ps, pc, pk, psib⟩ := p
    have hsib : RB psib (h + 1) := hc.1
    -- a round which ends in the tree `t` at the place of the parent
    have key : ∀ (o : Option Round) (l : List Nat), RoundOK pc h l o →
        (pre fs ++ l ++ post fs = pre (⟨ps, pc, pk, psib⟩ :: fs) ++ keys n ++
          post (⟨ps, pc, pk, psib⟩ :: fs)) →
        ∀ res : Option Tree, (match o with
            | some (.done t) => some (plug t fs)
            | some (.up t) => fixup t fs
            | none => none) = res → ∃ t, res = some t ∧ Whole t ∧
          keys t = pre (⟨ps, pc, pk, psib⟩ :: fs) ++ keys n ++ post (⟨ps, pc, pk, psib⟩ :: fs) := by
      intro o l ho hl res hres
      subst hres
      match o, ho with
      | some (.done t), ⟨hk, ho⟩ =>
        show ∃ t', some (plug t fs) = some t' ∧ _
        refine ⟨_, rfl, ?_, by rw [keys_plug, hk, hl]⟩
        rcases ho with ⟨rfl, h1⟩ | ⟨rfl, h1, h2⟩
        · exact plug_whole fs t (h + 1) h1 hc.2.2.2 (Or.inr hc.2.2.1)
        · exact plug_whole fs t (h + 2) h1 hc.2 (Or.inl h2)
      | some (.up t), ⟨hk, hpc, h1, h2⟩ =>
        subst hpc
        obtain ⟨t', h3, h4, h5⟩ := fix_whole fs t (h + 1) h1 h2 hc.2
        exact ⟨t', h3, h4, by rw [h5, hk, hl]⟩
    cases psib with
    | leaf => simp [RB] at hsib
    | node cs sl ks sr =>
      cases cs with
      | black =>
        cases ps with
        | left =>
          refine key _ _ (fixLeft_ok hn hb pc pk (ks := ks) hsib.1 hsib.2) (by simp [pre, post]) _ ?_
          simp only [fixup]
          cases fixLeft n pc pk (.node .black sl ks sr) with
          | none => rfl
          | some r => cases r <;> rfl
        | right =>
          refine key _ _ (fixRight_ok hn hb pc pk (ks := ks) hsib.1 hsib.2) (by simp [pre, post]) _ ?_
          simp only [fixup]
          cases fixRight n pc pk (.node .black sl ks sr) with
          | none => rfl
          | some r => cases r <;> rfl
      | red =>
        obtain ⟨h1, h2, h3, h4⟩ := hsib
        have hpc : pc = .black := by
          cases pc with
          | black => rfl
          | red => have := hc.2.1; simp [isBlack] at this
        subst hpc
        have hctx : Ctx fs (h + 2) := hc.2
        cases ps with
        | left =>
          cases sl with
          | leaf => simp [RB] at h1
          | node c' a k' b =>
            cases c' with
            | red => simp [isBlack] at h3
            | black =>
              have := fixLeft_ok hn hb .red pk (ks := k') h1.1 h1.2
              simp only [fixup, setColor]
              match ho : fixLeft n .red pk (.node .black a k' b), this with
              | some (.done t), ⟨hk, Or.inl ⟨_, h5⟩⟩ =>
                refine ⟨_, rfl, ?_, by rw [keys_plug]; simp [keys, hk, pre, post]⟩
                exact plug_whole fs _ (h + 2) ⟨h5, h2⟩ hctx (Or.inl rfl)
        | right =>
          cases sr with
          | leaf => simp [RB] at h2
          | node c' a k' b =>
            cases c' with
            | red => simp [isBlack] at h4
            | black =>
              have := fixRight_ok hn hb .red pk (ks := k') h2.1 h2.2
              simp only [fixup, setColor]
              match ho : fixRight n .red pk (.node .black a k' b), this with
              | some (.done t), ⟨hk, Or.inl ⟨_, h5⟩⟩ =>
                refine ⟨_, rfl, ?_, by rw [keys_plug]; simp [keys, hk, pre, post]⟩
                exact plug_whole fs _ (h + 2) ⟨h1, h5⟩ hctx (Or.inl rfl)

/-- Splitting a whole tree at a node. -/
theorem unplug : ∀ (fs : List Frame) (t : Tree) (h : Nat), RB (plug t fs) h →
    isBlack (plug t fs) = true → ∃ h', RB t h' ∧ Ctx fs h' ∧
      (isBlack t = true ∨ ∃ g gs, fs = g :: gs ∧ g.color = .black)
  | [], t, h, ht, hb => ⟨h, ht, trivial, Or.inl hb⟩
  | f :: fs, t, h, ht, hb => by
    obtain ⟨h', h1, h2, h3⟩ := unplug fs (f.plug t) h ht hb
    obtain ⟨s, c, k, sib⟩ := f
    cases c with
    | red =>
      have h4 : ∃ g gs, fs = g :: gs ∧ g.color = .black := by
        rcases h3 with h3 | h3
        · cases s <;> simp [Frame.plug, isBlack] at h3
        · exact h3
      cases s with
      | left =>
        obtain ⟨a, b, c, d⟩ := h1
        exact ⟨h', a, ⟨b, d, h4, h2⟩, Or.inl c⟩
      | right =>
        obtain ⟨a, b, c, d⟩ := h1
        exact ⟨h', b, ⟨a, c, h4, h2⟩, Or.inl d⟩
    | black =>
      cases h' with
      | zero => cases s <;> simp [Frame.plug, RB] at h1
      | succ h' =>
        cases s with
        | left => exact ⟨h', h1.1, ⟨h1.2, h2⟩, Or.inr ⟨_, _, rfl, rfl⟩⟩
        | right => exact ⟨h', h1.2, ⟨h1.1, h2⟩, Or.inr ⟨_, _, rfl, rfl⟩⟩

theorem descend_plug (k : Nat) : ∀ (t : Tree) (fs : List Frame),
    plug (descend k t fs).1 (descend k t fs).2 = plug t fs
  | .leaf, fs => rfl
  | .node c l k' r, fs => by
    unfold descend
    split
    · rw [descend_plug k l]; rfl
    · split
      · rw [descend_plug k r]; rfl
      · rfl

/-- The keys around the place found. -/
theorem descend_order (k : Nat) : ∀ (t : Tree) (fs : List Frame),
    (keys t).Pairwise (· < ·) → (∀ x ∈ pre fs, x < k) → (∀ x ∈ post fs, k < x) →
    (∀ x ∈ pre (descend k t fs).2, x < k) ∧ (∀ x ∈ post (descend k t fs).2, k < x) ∧
    ∀ c l k' r, (descend k t fs).1 = .node c l k' r → k' = k
  | .leaf, fs, _, h1, h2 => ⟨h1, h2, fun _ _ _ _ h => by simp [descend] at h⟩
  | .node c l k' r, fs, hs, h1, h2 => by
    simp only [keys] at hs
    rw [List.pairwise_append, List.pairwise_cons] at hs
    obtain ⟨hl, ⟨hr1, hr⟩, hlr⟩ := hs
    unfold descend
    split
    · rename_i hlt
      apply descend_order k l _ hl (by simpa [pre] using h1)
      intro x hx
      simp only [post, List.cons_append, List.mem_cons, List.mem_append] at hx
      rcases hx with rfl | hx | hx
      · exact hlt
      · exact Nat.lt_trans hlt (hr1 x hx)
      · exact h2 x hx
    · split
      · rename_i _ hgt
        apply descend_order k r _ hr _ (by simpa [post] using h2)
        intro x hx
        simp only [pre, List.mem_append, List.mem_singleton] at hx
        rcases hx with (hx | hx) | rfl
        · exact h1 x hx
        · exact Nat.lt_trans (hlr x hx k' (List.mem_cons_self ..)) hgt
        · exact hgt
      · refine ⟨h1, h2, fun c l k'' r h => ?_⟩
        injection h with _ _ h _
        omega

theorem leftmost_plug : ∀ (c : Color) (l : Tree) (k : Nat) (r : Tree) (fs : List Frame),
    ∃ inner, (leftmost c l k r fs).2 = inner ++ fs ∧
      plug (.node (leftmost c l k r fs).1.1 .leaf (leftmost c l k r fs).1.2.1
        (leftmost c l k r fs).1.2.2) inner = .node c l k r ∧
      ∀ f ∈ inner, f.side = .left
  | c, .leaf, k, r, fs => ⟨[], rfl, rfl, by simp⟩
  | c, .node c' l' k' r', k, r, fs => by
    obtain ⟨inner, h1, h2, h3⟩ := leftmost_plug c' l' k' r' (⟨.left, c, k, r⟩ :: fs)
    refine ⟨inner ++ [⟨.left, c, k, r⟩], ?_, ?_, ?_⟩
    · rw [leftmost, h1]; simp
    · rw [leftmost]
      have : ∀ (a : List Frame) (b : List Frame) (t : Tree), plug t (a ++ b) = plug (plug t a) b := by
        intro a
        induction a with
        | nil => intro b t; rfl
        | cons x a ih => intro b t; exact ih _ _
      rw [this, h2]; rfl
    · intro f hf
      rcases List.mem_append.1 hf with hf | hf
      · exact h3 f hf
      · simp at hf; rw [hf]

theorem plug_append (a b : List Frame) (t : Tree) : plug t (a ++ b) = plug (plug t a) b := by
  induction a generalizing t with
  | nil => rfl
  | cons x a ih => exact ih _

theorem pre_left : ∀ (a b : List Frame), (∀ f ∈ a, f.side = .left) → pre (a ++ b) = pre b
  | [], b, _ => rfl
  | f :: a, b, h => by
    have := h f (List.mem_cons_self ..)
    simp only [List.cons_append, pre, this]
    exact pre_left a b fun g hg => h g (List.mem_cons_of_mem _ hg)

theorem post_append : ∀ (a b : List Frame), post (a ++ b) = post a ++ post b
  | [], b => rfl
  | f :: a, b => by
    have := post_append a b
    simp only [List.cons_append, post]
    cases f.side <;> simp [this]

theorem ctx_key : ∀ (a b : List Frame) (s : Side) (c : Color) (k k2 : Nat) (l : Tree) (h : Nat),
    Ctx (a ++ ⟨s, c, k, l⟩ :: b) h → Ctx (a ++ ⟨s, c, k2, l⟩ :: b) h
  | [], b, s, c, k, k2, l, h, hc => hc
  | f :: a, b, s, c, k, k2, l, h, hc => by
    obtain ⟨fs, fc, fk, fsib⟩ := f
    cases fc with
    | black => exact ⟨hc.1, ctx_key a b s c k k2 l (h + 1) hc.2⟩
    | red =>
      obtain ⟨h1, h2, ⟨g, gs, he, hg⟩, h4⟩ := hc
      refine ⟨h1, h2, ?_, ctx_key a b s c k k2 l h h4⟩
      cases a with
      | nil =>
        obtain ⟨rfl, rfl⟩ := List.cons.inj he
        exact ⟨_, _, rfl, hg⟩
      | cons x a =>
        obtain ⟨rfl, rfl⟩ := List.cons.inj he
        exact ⟨_, _, rfl, hg⟩

theorem removeAt_spec {c : Color} {l : Tree} {k : Nat} {r : Tree} {fs : List Frame}
    (hw : Whole (plug (.node c l k r) fs)) :
    ∃ t, removeAt c l r fs = some t ∧ Whole t ∧ keys t = pre fs ++ keys l ++ keys r ++ post fs := by
  obtain ⟨hb, H, hH⟩ := hw
  cases l with
  | leaf =>
    obtain ⟨h, h1, h2, h3⟩ := unplug fs _ H hH hb
    cases r with
    | leaf =>
      cases c with
      | black =>
        cases h with
        | zero => simp [RB] at h1
        | succ h =>
          have hh : h = 0 := h1.1
          subst hh
          obtain ⟨t, h4, h5, h6⟩ := fix_whole fs .leaf 0 rfl rfl h2
          exact ⟨t, by simpa [removeAt] using h4, h5, by simpa [keys] using h6⟩
      | red =>
        have hh : h = 0 := h1.1
        subst hh
        exact ⟨_, rfl, plug_whole fs .leaf 0 rfl h2 (Or.inl rfl), by rw [keys_plug]; simp [keys]⟩
    | node c' a k' b =>
      -- the only child is red, the node black
      cases c with
      | red =>
        obtain ⟨h4, h5, h6, h7⟩ := h1
        simp only [RB] at h4
        subst h4
        cases c' with
        | red => simp at h7
        | black => simp [RB] at h5
      | black =>
        cases h with
        | zero => simp [RB] at h1
        | succ h =>
          obtain ⟨h4, h5⟩ := h1
          simp only [RB] at h4
          subst h4
          cases c' with
          | black => simp [RB] at h5
          | red =>
            refine ⟨_, rfl, plug_whole fs _ 1 ⟨h5.1, h5.2.1⟩ h2 (Or.inl rfl), ?_⟩
            rw [keys_plug]; simp [keys]
  | node cl ll kl rl =>
    cases r with
    | leaf =>
      obtain ⟨h, h1, h2, h3⟩ := unplug fs _ H hH hb
      cases c with
      | red =>
        obtain ⟨h4, h5, h6, h7⟩ := h1
        simp only [RB] at h5
        subst h5
        cases cl with
        | red => simp at h6
        | black => simp [RB] at h4
      | black =>
        cases h with
        | zero => simp [RB] at h1
        | succ h =>
          obtain ⟨h5, h4⟩ := h1
          simp only [RB] at h4
          subst h4
          cases cl with
          | black => simp [RB] at h5
          | red =>
            refine ⟨_, rfl, plug_whole fs _ 1 ⟨h5.1, h5.2.1⟩ h2 (Or.inl rfl), ?_⟩
            rw [keys_plug]; simp [keys]
    | node cr lr kr rr =>
      obtain ⟨inner, hi1, hi2, hi3⟩ := leftmost_plug cr lr kr rr []
      simp only [List.append_nil] at hi1
      generalize hlm : leftmost cr lr kr rr [] = lm at hi1 hi2
      obtain ⟨⟨cs, ks, c2⟩, inner'⟩ := lm
      simp only at hi1 hi2
      subst hi1
      have hwhole : plug (.node c (.node cl ll kl rl) k (.node cr lr kr rr)) fs =
          plug (.node cs .leaf ks c2) (inner' ++ ⟨.right, c, k, .node cl ll kl rl⟩ :: fs) := by
        rw [plug_append, hi2]; rfl
      rw [hwhole] at hH hb
      obtain ⟨h, h1, h2, h3⟩ := unplug _ _ H hH hb
      have h2' := ctx_key _ _ _ _ _ ks _ _ h2
      have hkeys : keys (.node cr lr kr rr) = ks :: keys c2 ++ post inner' := by
        rw [← hi2, keys_plug]
        have : pre inner' = [] := by
          have := pre_left inner' [] hi3
          simpa [pre] using this
        rw [this]; simp [keys]
      have hgoal : pre (inner' ++ ⟨.right, c, ks, .node cl ll kl rl⟩ :: fs) ++ keys c2 ++
          post (inner' ++ ⟨.right, c, ks, .node cl ll kl rl⟩ :: fs) =
          pre fs ++ keys (.node cl ll kl rl) ++ keys (.node cr lr kr rr) ++ post fs := by
        rw [pre_left _ _ hi3, post_append, hkeys]
        simp [pre, post]
      rw [← hgoal]
      simp only [removeAt, hlm]
      cases c2 with
      | leaf =>
        cases cs with
        | black =>
          cases h with
          | zero => simp [RB] at h1
          | succ h =>
            have hh : h = 0 := h1.1
            subst hh
            exact fix_whole _ .leaf 0 rfl rfl h2'
        | red =>
          have hh : h = 0 := h1.1
          subst hh
          exact ⟨_, rfl, plug_whole _ .leaf 0 rfl h2' (Or.inl rfl), keys_plug _ _⟩
      | node c' a k2 b =>
        cases cs with
        | red =>
          obtain ⟨h4, h5, h6, h7⟩ := h1
          simp only [RB] at h4
          subst h4
          cases c' with
          | red => simp at h7
          | black => simp [RB] at h5
        | black =>
          cases h with
          | zero => simp [RB] at h1
          | succ h =>
            obtain ⟨h4, h5⟩ := h1
            simp only [RB] at h4
            subst h4
            cases c' with
            | black => simp [RB] at h5
            | red =>
              refine ⟨_, rfl, plug_whole _ _ 1 ⟨h5.1, h5.2.1⟩ h2' (Or.inl rfl), ?_⟩
              rw [keys_plug]; rfl

theorem descend_keys {t : Tree} (hs : (keys t).Pairwise (· < ·)) (k : Nat) :
    keys t = pre (descend k t []).2 ++ keys (descend k t []).1 ++ post (descend k t []).2 ∧
    (∀ x ∈ pre (descend k t []).2, x < k) ∧ (∀ x ∈ post (descend k t []).2, k < x) ∧
    ∀ c l k' r, (descend k t []).1 = .node c l k' r → k' = k := by
  refine ⟨?_, descend_order k t [] hs (by simp [pre]) (by simp [post])⟩
  rw [← keys_plug, descend_plug]; rfl

theorem insert_spec {t : Tree} (hw : Whole t) (hs : (keys t).Pairwise (· < ·)) (k : Nat) :
    ∃ t', insert t k = some t' ∧ Whole t' ∧ (keys t').Pairwise (· < ·) ∧
      ∀ x, x ∈ keys t' ↔ x = k ∨ x ∈ keys t := by
  obtain ⟨h1, h2, h3, h4⟩ := descend_keys hs k
  have hp : plug (descend k t []).1 (descend k t []).2 = t := descend_plug k t []
  unfold insert
  generalize hd : descend k t [] = d at h1 h2 h3 h4 hp
  obtain ⟨sub, fs⟩ := d
  simp only at h1 h2 h3 h4 hp
  cases sub with
  | node c l k' r =>
    obtain rfl := h4 c l k' r rfl
    refine ⟨t, rfl, hw, hs, fun x => ⟨Or.inr, ?_⟩⟩
    rintro (rfl | h)
    · rw [h1]; simp [keys]
    · exact h
  | leaf =>
    obtain ⟨hb, H, hH⟩ := hw
    rw [← hp] at hH hb
    obtain ⟨h, h5, h6, _⟩ := unplug fs .leaf H hH hb
    obtain ⟨t', h7, h8⟩ := insFix_whole fs .leaf k .leaf h h5 h5 rfl rfl h6
    have hk := insFix_keys _ _ _ h7
    simp only [keys, List.nil_append] at hk
    refine ⟨t', h7, h8, ?_, fun x => ?_⟩
    · rw [hk]
      rw [h1] at hs
      simp only [keys, List.append_nil] at hs
      rw [List.pairwise_append] at hs
      obtain ⟨p1, p2, p3⟩ := hs
      rw [List.append_assoc, List.pairwise_append]
      refine ⟨p1, List.pairwise_cons.2 ⟨h3, p2⟩, fun x hx y hy => ?_⟩
      rcases List.mem_cons.1 hy with rfl | hy
      · exact h2 x hx
      · exact p3 x hx y hy
    · rw [hk, h1]; simp [keys]; tauto

theorem remove_spec {t : Tree} (hw : Whole t) (hs : (keys t).Pairwise (· < ·)) (k : Nat) :
    ∃ t', remove t k = some t' ∧ Whole t' ∧ (keys t').Pairwise (· < ·) ∧
      ∀ x, x ∈ keys t' ↔ x ≠ k ∧ x ∈ keys t := by
  obtain ⟨h1, h2, h3, h4⟩ := descend_keys hs k
  have hp : plug (descend k t []).1 (descend k t []).2 = t := descend_plug k t []
  unfold remove
  generalize hd : descend k t [] = d at h1 h2 h3 h4 hp
  obtain ⟨sub, fs⟩ := d
  simp only at h1 h2 h3 h4 hp
  cases sub with
  | leaf =>
    refine ⟨t, rfl, hw, hs, fun x => ⟨fun hx => ⟨?_, hx⟩, And.right⟩⟩
    rintro rfl
    rw [h1] at hx
    simp only [keys, List.append_nil, List.mem_append] at hx
    rcases hx with hx | hx
    · exact absurd (h2 _ hx) (Nat.lt_irrefl _)
    · exact absurd (h3 _ hx) (Nat.lt_irrefl _)
  | node c l k' r =>
    obtain rfl := h4 c l k' r rfl
    rw [← hp] at hw
    obtain ⟨t', h5, h6, h7⟩ := removeAt_spec hw
    rw [h1] at hs
    simp only [keys] at hs
    have hsub : (keys t').Sublist (pre fs ++ (keys l ++ k' :: keys r) ++ post fs) := by
      rw [h7]
      have e1 : pre fs ++ keys l ++ keys r ++ post fs = pre fs ++ (keys l ++ keys r) ++ post fs := by simp
      rw [e1]
      exact ((List.Sublist.refl _).append ((List.Sublist.refl _).append
        (List.sublist_cons_self _ _))).append (List.Sublist.refl _)
    refine ⟨t', h5, h6, hs.sublist hsub, fun x => ?_⟩
    rw [h7, h1]
    simp only [keys, List.mem_append, List.mem_cons]
    have hl : x ∈ keys l → x < k' := fun hx => by
      rw [List.append_assoc, List.pairwise_append] at hs
      have := hs.2.1
      rw [List.append_assoc, List.pairwise_append] at this
      exact this.2.2 x hx k' (by simp)
    have hr : x ∈ keys r → k' < x := fun hx => by
      rw [List.append_assoc, List.pairwise_append] at hs
      have := hs.2.1
      rw [List.append_assoc, List.pairwise_append, List.cons_append, List.pairwise_cons] at this
      exact this.2.1.1 x (by simp [hx])
    constructor
    · rintro (((hx | hx) | hx) | hx)
      · exact ⟨Nat.ne_of_lt (h2 x hx), Or.inl (Or.inl hx)⟩
      · exact ⟨Nat.ne_of_lt (hl hx), Or.inl (Or.inr (Or.inl hx))⟩
      · exact ⟨(Nat.ne_of_lt (hr hx)).symm, Or.inl (Or.inr (Or.inr (Or.inr hx)))⟩
      · exact ⟨(Nat.ne_of_lt (h3 x hx)).symm, Or.inr hx⟩
    · rintro ⟨hne, (hx | hx | hx | hx) | hx⟩
      · exact Or.inl (Or.inl (Or.inl hx))
      · exact Or.inl (Or.inl (Or.inr hx))
      · exact absurd hx hne
      · exact Or.inl (Or.inr hx)
      · exact Or.inr hx

theorem rb_split : ∀ (t : Tree) (h : Nat), RB t h → NoRedRed t ∧ BlackHeight t h
  | .leaf, h, ht => ⟨trivial, ht⟩
  | .node .red l k r, h, ht => by
    obtain ⟨h1, h2, h3, h4⟩ := ht
    exact ⟨⟨(rb_split l h h1).1, (rb_split r h h2).1, fun _ => ⟨h3, h4⟩⟩,
      (rb_split l h h1).2, (rb_split r h h2).2⟩
  | .node .black l k r, 0, ht => absurd ht id
  | .node .black l k r, h + 1, ht =>
    ⟨⟨(rb_split l h ht.1).1, (rb_split r h ht.2).1, fun h => by simp at h⟩,
      h, rfl, (rb_split l h ht.1).2, (rb_split r h ht.2).2⟩

theorem whole_ok {t : Tree} (hw : Whole t) (hs : (keys t).Pairwise (· < ·)) : OK t := by
  obtain ⟨hb, h, hh⟩ := hw
  exact ⟨hs, (rb_split t h hh).1, ⟨h, (rb_split t h hh).2⟩, hb⟩

theorem run_spec : ∀ (ops : List Op) (t : Tree) (s : Nat → Prop), Whole t →
    (keys t).Pairwise (· < ·) → (∀ x, x ∈ keys t ↔ s x) →
    ∃ t', run t ops = some t' ∧ Whole t' ∧ (keys t').Pairwise (· < ·) ∧
      ∀ x, x ∈ keys t' ↔ after ops s x
  | [], t, s, hw, hs, hk => ⟨t, rfl, hw, hs, hk⟩
  | .insert k :: ops, t, s, hw, hs, hk => by
    obtain ⟨t1, h1, h2, h3, h4⟩ := insert_spec hw hs k
    obtain ⟨t2, h5, h6⟩ := run_spec ops t1 (fun x => x = k ∨ s x) h2 h3 (fun x => by rw [h4, hk])
    exact ⟨t2, by simp [run, step, h1, h5], h6⟩
  | .remove k :: ops, t, s, hw, hs, hk => by
    obtain ⟨t1, h1, h2, h3, h4⟩ := remove_spec hw hs k
    obtain ⟨t2, h5, h6⟩ := run_spec ops t1 (fun x => x ≠ k ∧ s x) h2 h3 (fun x => by rw [h4, hk])
    exact ⟨t2, by simp [run, step, h1, h5], h6⟩

/-- Heights. -/
theorem size_ge : ∀ (t : Tree) (h : Nat), BlackHeight t h → 2 ^ h ≤ size t + 1
  | .leaf, h, hh => by simp only [BlackHeight] at hh; subst hh; simp [size]
  | .node .red l k r, h, hh => by
    have := size_ge l h hh.1
    simp only [size]; omega
  | .node .black l k r, h, hh => by
    obtain ⟨h', rfl, h1, h2⟩ := hh
    have := size_ge l h' h1
    have := size_ge r h' h2
    simp only [size]; rw [pow_succ]; omega

theorem height_le : ∀ (t : Tree) (h : Nat), BlackHeight t h → NoRedRed t →
    height t ≤ 2 * h + (if isBlack t then 0 else 1)
  | .leaf, h, _, _ => by simp [height]
  | .node .red l k r, h, hh, hn => by
    have h1 := height_le l h hh.1 hn.1
    have h2 := height_le r h hh.2 hn.2.1
    obtain ⟨h3, h4⟩ := hn.2.2 rfl
    simp only [h3, h4, if_true] at h1 h2
    simp [height]; omega
  | .node .black l k r, h, hh, hn => by
    obtain ⟨h', rfl, h1, h2⟩ := hh
    have h3 := height_le l h' h1 hn.1
    have h4 := height_le r h' h2 hn.2.1
    have a : (if isBlack l = true then 0 else 1) ≤ 1 := by split <;> omega
    have b : (if isBlack r = true then 0 else 1) ≤ 1 := by split <;> omega
    simp [height]; omega

theorem first_eq : ∀ t : Tree, first t = (keys t).head?
  | .leaf => rfl
  | .node _ .leaf k r => rfl
  | .node _ (.node c l k' r') k r => by
    rw [first, first_eq (.node c l k' r')]
    · simp [keys]
    · intro h; cases h

theorem last_eq : ∀ t : Tree, last t = (keys t).getLast?
  | .leaf => rfl
  | .node _ l k .leaf => by simp [last, keys]
  | .node _ l k (.node c l' k' r') => by
    rw [last, last_eq (.node c l' k' r')]
    · simp [keys, List.getLast?_append, List.getLast?_cons]
    · intro h; cases h

theorem climbNext_eq : ∀ fs : List Frame, climbNext fs = (post fs).head?
  | [] => rfl
  | ⟨.left, c, k, t⟩ :: fs => by simp [climbNext, post]
  | ⟨.right, c, k, t⟩ :: fs => by simp [climbNext, post, climbNext_eq fs]

theorem climbPrev_eq : ∀ fs : List Frame, climbPrev fs = (pre fs).getLast?
  | [] => rfl
  | ⟨.left, c, k, t⟩ :: fs => by simp [climbPrev, pre, climbPrev_eq fs]
  | ⟨.right, c, k, t⟩ :: fs => by simp [climbPrev, pre]

theorem next_split {t : Tree} (hs : (keys t).Pairwise (· < ·)) {k : Nat} (hk : k ∈ keys t) :
    ∃ a b, keys t = a ++ k :: b ∧ next t k = b.head? ∧ prev t k = a.getLast? := by
  obtain ⟨h1, h2, h3, h4⟩ := descend_keys hs k
  unfold next prev
  generalize hd : descend k t [] = d at h1 h2 h3 h4
  obtain ⟨sub, fs⟩ := d
  simp only at h1 h2 h3 h4
  cases sub with
  | leaf =>
    rw [h1] at hk
    simp only [keys, List.append_nil, List.mem_append] at hk
    rcases hk with hx | hx
    · exact absurd (h2 _ hx) (Nat.lt_irrefl _)
    · exact absurd (h3 _ hx) (Nat.lt_irrefl _)
  | node c l k' r =>
    obtain rfl := h4 c l k' r rfl
    refine ⟨pre fs ++ keys l, keys r ++ post fs, by rw [h1]; simp [keys], ?_, ?_⟩
    · cases r with
      | leaf => simpa [keys] using climbNext_eq fs
      | node c1 l1 k1 r1 =>
        simp only [first_eq, keys]
        cases keys l1 <;> rfl
    · cases l with
      | leaf => simpa [keys] using climbPrev_eq fs
      | node c1 l1 k1 r1 =>
        simp [last_eq, keys, List.getLast?_append, List.getLast?_cons]

theorem walk_next {t : Tree} (hs : (keys t).Pairwise (· < ·)) :
    ∀ (b a : List Nat) (m : Nat), keys t = a ++ b → walk (next t) (b.length + m) b.head? = b
  | [], a, m, h => by cases m <;> simp [walk]
  | k :: b, a, m, h => by
    have hk : k ∈ keys t := by rw [h]; simp
    obtain ⟨a', b', h1, h2, _⟩ := next_split hs hk
    have hab : a ++ k :: b = a' ++ k :: b' := by rw [← h, ← h1]
    have hb : b' = b := by
      have hs1 := hs
      rw [h] at hs
      rw [h1] at hs1
      rw [List.pairwise_append, List.pairwise_cons] at hs hs1
      rcases List.append_eq_append_iff.1 hab with ⟨c, e1, e2⟩ | ⟨c, e1, e2⟩
      · cases c with
        | nil => simpa using e2.symm
        | cons x c =>
          simp only [List.cons_append, List.cons.injEq] at e2
          exact absurd (hs1.2.2 k (by rw [e1, e2.1]; simp) k (by simp)) (Nat.lt_irrefl _)
      · cases c with
        | nil => simpa using e2
        | cons x c =>
          simp only [List.cons_append, List.cons.injEq] at e2
          exact absurd (hs.2.2 k (by rw [e1, e2.1]; simp) k (by simp)) (Nat.lt_irrefl _)
    subst hb
    have e : (k :: b').length + m = (b'.length + m) + 1 := by simp; omega
    rw [e]
    simp only [List.head?_cons, walk]
    rw [h2, walk_next hs b' (a ++ [k]) m (by rw [h]; simp)]

theorem walk_prev {t : Tree} (hs : (keys t).Pairwise (· < ·)) :
    ∀ (n : Nat) (a b : List Nat) (m : Nat), a.length = n → keys t = a ++ b →
      walk (prev t) (n + m) a.getLast? = a.reverse
  | 0, a, b, m, hn, h => by
    rw [List.length_eq_zero_iff.1 hn]; cases m <;> simp [walk]
  | n + 1, a, b, m, hn, h => by
    rcases List.eq_nil_or_concat a with rfl | ⟨a, k, rfl⟩
    · simp at hn
    have hk : k ∈ keys t := by rw [h]; simp
    obtain ⟨a', b', h1, _, h2⟩ := next_split hs hk
    have hab : a ++ k :: b = a' ++ k :: b' := by rw [← h1, h]; simp
    have hb : a' = a := by
      have hs1 := hs
      rw [h1, hab.symm] at hs
      rw [h1] at hs1
      rw [List.pairwise_append, List.pairwise_cons] at hs hs1
      rcases List.append_eq_append_iff.1 hab with ⟨c, e1, e2⟩ | ⟨c, e1, e2⟩
      · cases c with
        | nil => simpa using e1
        | cons x c =>
          simp only [List.cons_append, List.cons.injEq] at e2
          exact absurd (hs1.2.2 k (by rw [e1, e2.1]; simp) k (by simp)) (Nat.lt_irrefl _)
      · cases c with
        | nil => simpa using e1.symm
        | cons x c =>
          simp only [List.cons_append, List.cons.injEq] at e2
          exact absurd (hs.2.2 k (by rw [e1, e2.1]; simp) k (by simp)) (Nat.lt_irrefl _)
    subst hb
    have e : n + 1 + m = (n + m) + 1 := by omega
    rw [e]
    simp only [List.concat_eq_append, List.getLast?_append, List.getLast?_singleton,
      Option.some_or, walk, List.reverse_append, List.reverse_cons, List.reverse_nil,
      List.nil_append, List.cons_append]
    rw [h2, walk_prev hs n a' ([k] ++ b) m (by simpa using hn) (by rw [h]; simp)]

theorem size_keys : ∀ t : Tree, size t = (keys t).length
  | .leaf => rfl
  | .node _ l k r => by simp [size, keys, size_keys l, size_keys r]; omega

end Verif.RBT

/-
Model of the red black tree (`/repo/src/lib/rjs_rbt.c`,
`/repo/src/lib/include/rjs_rbt.h`), at the level of trees.

A node with its parent pointer is modelled by a zipper: the subtree below it and the path
of its ancestors.  Nodes are named by their keys (the index of an array element,
`/repo/src/lib/rjs_object.c`: `RJS_PropertyNode`), which are different.  `none` stands for
the use of a null pointer.
-/
namespace Verif.RBT

inductive Color where
  | red
  | black
deriving DecidableEq

inductive Tree where
  | leaf
  | node (c : Color) (l : Tree) (k : Nat) (r : Tree)
deriving DecidableEq

inductive Side where
  | left
  | right
deriving DecidableEq

/-- An ancestor: which child the path came from, its colour and key, its other child. -/
structure Frame where
  side : Side
  color : Color
  key : Nat
  sib : Tree
deriving DecidableEq

/-- `rbt_set_parent_color` with a colour, on a node which may be missing (`if (t)`). -/
def setColor (c : Color) : Tree → Tree
  | .leaf => .leaf
  | .node _ l k r => .node c l k r

/-- `!t || rbt_is_black(t)`. -/
def isBlack : Tree → Bool
  | .node .red _ _ _ => false
  | _ => true

def Frame.plug (f : Frame) (t : Tree) : Tree :=
  match f.side with
  | .left => .node f.color t f.key f.sib
  | .right => .node f.color f.sib f.key t

/-- The whole tree. -/
def plug (t : Tree) : List Frame → Tree
  | [] => t
  | f :: fs => plug (f.plug t) fs

/-- `rjs_rbt_insert` (lines 231-320): `n` is the node whose parent may be red, the frames are
its ancestors. -/
def insFix (n : Tree) : List Frame → Option Tree
  | [] => some (setColor .black n)
  | p :: fs =>
    if p.color = .black then some (plug n (p :: fs))
    else
      match fs with
      | [] => none
      | gp :: fs' =>
        if !isBlack gp.sib then
          -- the uncle is red (lines 251-259, 286-294)
          insFix ({ gp with color := .red, sib := setColor .black gp.sib }.plug
            ({ p with color := .black }.plug n)) fs'
        else
          match gp.side with
          | .left =>
            match p.side with
            | .right =>
              -- lines 261-281 with n == p->right
              match n with
              | .leaf => none
              | .node _ a k b =>
                some (plug (.node gp.color (.node .red p.sib p.key (setColor .black a)) k
                  (.node .red (setColor .black b) gp.key gp.sib)) fs')
            | .left =>
              -- lines 276-281
              some (plug (.node gp.color n p.key
                (.node .red (setColor .black p.sib) gp.key gp.sib)) fs')
          | .right =>
            match p.side with
            | .left =>
              -- lines 296-316 with n == p->left
              match n with
              | .leaf => none
              | .node _ a k b =>
                some (plug (.node gp.color (.node .red gp.sib gp.key (setColor .black a)) k
                  (.node .red (setColor .black b) p.key p.sib)) fs')
            | .right =>
              -- lines 311-316
              some (plug (.node gp.color
                (.node .red gp.sib gp.key (setColor .black p.sib)) p.key n) fs')

/-- Outcome of one round of `rbt_fixup`: the subtree at the place of `p` is in order, or it
lacks a black node and the loop goes on above it. -/
inductive Round where
  | done (t : Tree)
  | up (t : Tree)

/-- The part of a round of `rbt_fixup` after the sibling has been made black: lines 339-371
(`p` has colour `c` and key `k`, its left child is `n`, its right child is the sibling). -/
def fixLeft (n : Tree) (c : Color) (k : Nat) : Tree → Option Round
  | .leaf => none
  | .node cs sl ks sr =>
    if isBlack sr then
      if isBlack sl then
        let s : Tree := .node .red sl ks sr
        if c = .red then some (.done (.node .black n k s)) else some (.up (.node c n k s))
      else
        match sl with
        | .leaf => none
        | .node _ a k2 b =>
          some (.done (.node c (.node .black n k a) k2 (.node .black (setColor .black b) ks sr)))
    else
      some (.done (.node c (.node .black n k sl) ks (setColor .black sr)))

/-- Lines 382-413. -/
def fixRight (n : Tree) (c : Color) (k : Nat) : Tree → Option Round
  | .leaf => none
  | .node cs sl ks sr =>
    if isBlack sl then
      if isBlack sr then
        let s : Tree := .node .red sl ks sr
        if c = .red then some (.done (.node .black s k n)) else some (.up (.node c s k n))
      else
        match sr with
        | .leaf => none
        | .node _ a k2 b =>
          some (.done (.node c (.node .black sl ks (setColor .black a)) k2 (.node .black b k n)))
    else
      some (.done (.node c (setColor .black sl) ks (.node .black sr k n)))

/-- `rbt_fixup` (lines 322-416): the subtree `n` lacks a black node.  With a red sibling
(lines 331-338, 374-381) the parent `p` becomes red, so that the loop ends in this
round. -/
def fixup (n : Tree) : List Frame → Option Tree
  | [] => some n
  | p :: fs =>
    match p.side with
    | .left =>
      match p.sib with
      | .leaf => none
      | .node .red t1 ks sr =>
        match fixLeft n .red p.key (setColor .black t1) with
        | some (.done t) => some (plug (.node p.color t ks sr) fs)
        | _ => none
      | .node .black sl ks sr =>
        match fixLeft n p.color p.key (.node .black sl ks sr) with
        | some (.done t) => some (plug t fs)
        | some (.up t) => fixup t fs
        | none => none
    | .right =>
      match p.sib with
      | .leaf => none
      | .node .red sl ks t1 =>
        match fixRight n .red p.key (setColor .black t1) with
        | some (.done t) => some (plug (.node p.color sl ks t) fs)
        | _ => none
      | .node .black sl ks sr =>
        match fixRight n p.color p.key (.node .black sl ks sr) with
        | some (.done t) => some (plug t fs)
        | some (.up t) => fixup t fs
        | none => none

/-- The search of `prop_add` and `prop_lookup` (rjs_object.c:366-392, 251-276): the subtree
with key `k` (or the empty place for it) and its ancestors. -/
def descend (k : Nat) : Tree → List Frame → Tree × List Frame
  | .leaf, fs => (.leaf, fs)
  | .node c l k' r, fs =>
    if k < k' then descend k l (⟨.left, c, k', r⟩ :: fs)
    else if k > k' then descend k r (⟨.right, c, k', l⟩ :: fs)
    else (.node c l k' r, fs)

/-- `prop_add` on a tree (rjs_object.c:366-395): search, `rjs_rbt_link`
(rjs_rbt.h:75-82), `rjs_rbt_insert`.  A key which exists is left alone. -/
def insert (t : Tree) (k : Nat) : Option Tree :=
  match descend k t [] with
  | (.leaf, fs) => insFix (.node .red .leaf k .leaf) fs
  | (.node _ _ _ _, _) => some t

/-- The leftmost node of a subtree with its ancestors (lines 449-462). -/
def leftmost : Color → Tree → Nat → Tree → List Frame → (Color × Nat × Tree) × List Frame
  | c, .leaf, k, r, fs => ((c, k, r), fs)
  | c, .node c' l' k' r', k, r, fs => leftmost c' l' k' r' (⟨.left, c, k, r⟩ :: fs)

/-- `rjs_rbt_remove` (lines 423-491) of the node `node c l k r` with ancestors `fs`. -/
def removeAt (c : Color) (l : Tree) (r : Tree) (fs : List Frame) : Option Tree :=
  match l, r with
  | .leaf, .leaf => if c = .black then fixup .leaf fs else some (plug .leaf fs)
  | .leaf, .node _ l' k' r' => some (plug (.node c l' k' r') fs)
  | .node _ l' k' r', .leaf => some (plug (.node c l' k' r') fs)
  | .node cl ll kl rl, .node cr lr kr rr =>
    match leftmost cr lr kr rr [] with
    | ((cs, ks, c2), inner) =>
      let path := inner ++ ⟨.right, c, ks, .node cl ll kl rl⟩ :: fs
      match c2 with
      | .leaf => if cs = .black then fixup .leaf path else some (plug .leaf path)
      | .node _ a k2 b => some (plug (.node .black a k2 b) path)

/-- `prop_delete` on a tree (rjs_object.c:436-445). -/
def remove (t : Tree) (k : Nat) : Option Tree :=
  match descend k t [] with
  | (.leaf, _) => some t
  | (.node c l _ r, fs) => removeAt c l r fs

/-- `rjs_rbt_first` (lines 137-149). -/
def first : Tree → Option Nat
  | .leaf => none
  | .node _ .leaf k _ => some k
  | .node _ l _ _ => first l

/-- `rjs_rbt_last` (lines 156-168). -/
def last : Tree → Option Nat
  | .leaf => none
  | .node _ _ k .leaf => some k
  | .node _ _ _ r => last r

/-- The climb of `rjs_rbt_next` (lines 220-223). -/
def climbNext : List Frame → Option Nat
  | [] => none
  | f :: fs => if f.side = .right then climbNext fs else some f.key

/-- The climb of `rjs_rbt_prev` (lines 192-195). -/
def climbPrev : List Frame → Option Nat
  | [] => none
  | f :: fs => if f.side = .left then climbPrev fs else some f.key

/-- `rjs_rbt_next` (lines 203-224) of the node with key `k`. -/
def next (t : Tree) (k : Nat) : Option Nat :=
  match descend k t [] with
  | (.leaf, _) => none
  | (.node _ _ _ .leaf, fs) => climbNext fs
  | (.node _ _ _ r, _) => first r

/-- `rjs_rbt_prev` (lines 175-196) of the node with key `k`. -/
def prev (t : Tree) (k : Nat) : Option Nat :=
  match descend k t [] with
  | (.leaf, _) => none
  | (.node _ .leaf _ _, fs) => climbPrev fs
  | (.node _ l _ _, _) => last l

/-- A loop as in rjs_object.c:1184-1193: start at a node, go on with `step` until there is
no node, at most `n` rounds. -/
def walk (step : Nat → Option Nat) : Nat → Option Nat → List Nat
  | 0, _ => []
  | _ + 1, none => []
  | n + 1, some k => k :: walk step n (step k)

inductive Op where
  | insert (k : Nat)
  | remove (k : Nat)

def step (t : Tree) : Op → Option Tree
  | .insert k => insert t k
  | .remove k => remove t k

def run : Tree → List Op → Option Tree
  | t, [] => some t
  | t, op :: ops =>
    match step t op with
    | none => none
    | some t => run t ops

end Verif.RBT

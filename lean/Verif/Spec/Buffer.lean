import Verif.Model.Buffer
import Verif.Spec.NumConv
/-
Which bytes an operation on buffers, data views and typed arrays may touch, and what the arguments
mean, without the functions of the model (only its data types are used).
-/
namespace Verif.Buffer.Spec
open NumConv
open NumConv.Spec (IsTrunc)
open Raw (Byte Ty Val)

/-- A set of bytes: the data block, and the place in it. -/
abbrev Region := Nat → Nat → Prop

def nothing : Region := fun _ _ => False
def join (P Q : Region) : Region := fun k i => P k i ∨ Q k i
/-- `n` bytes of the data block `k0` from `lo` on. -/
def part (k0 lo n : Nat) : Region := fun k i => k = k0 ∧ lo ≤ i ∧ i < lo + n
/-- `n` bytes of the buffer from `lo` on; none if it is detached. -/
def ofBuf (s : State) (b lo n : Nat) : Region := fun k i =>
  (∃ L, s.bufs[b]? = some ⟨some k, L⟩) ∧ lo ≤ i ∧ i < lo + n
/-- The part of the buffer which is seen through the view. -/
def ofView (s : State) (v : Nat) : Region := fun k i =>
  ∃ V, s.views[v]? = some V ∧ ofBuf s V.buf V.off V.blen k i
/-- Memory which does not exist yet. -/
def fresh (s : State) : Region := fun k _ => s.blocks.length ≤ k

/-- What a suspended operation may look at when the program returns to it. -/
def readable (s : State) : Frame → Ret → Region
  | .dvGet v _ _, _ => ofView s v
  | .taTyped _ src, _ => ofView s src
  | .cwFrom v _ _, _ => ofView s v
  | .cwEnd v _ _, _ => ofView s v
  | .setOff _ src, _ => ofView s src
  | .slSpecies v _ _, _ => ofView s v
  | .sort k off n es, _ => part k off (n * es)
  | .abSpecies b first n, _ => ofBuf s b first n
  | .atLoad v, _ => ofView s v
  | .atVal ty _ k pos, _ => part k pos ty.size
  | _, _ => nothing

/-- What it may change. -/
def writable (s : State) : Frame → Ret → Region
  | .dvSetVal v _ _ _, _ => ofView s v
  | .elemSet v _, _ => ofView s v
  | .cwFrom v _ _, _ => ofView s v
  | .cwEnd v _ _, _ => ofView s v
  | .fillStart v _ _, _ => ofView s v
  | .fillEnd v _ _, _ => ofView s v
  | .setOff t _, _ => ofView s t
  | .slSpecies _ _ _, .view t => ofView s t
  | .sort k off n es, _ => part k off (n * es)
  | .abSpecies _ _ n, .buf nb => ofBuf s nb 0 n
  | .atStoreVal v _, _ => ofView s v
  | .atVal ty _ k pos, _ => part k pos ty.size
  | _, _ => nothing

/-- The same for an event. -/
def mayRead (s : State) : Ev → Region
  | .call (.elemGet v _) => ofView s v
  | .ret r =>
    match s.frames with
    | f :: _ => readable s f r
    | [] => nothing
  | _ => nothing
def mayWrite (s : State) : Ev → Region
  | .ret r =>
    match s.frames with
    | f :: _ => writable s f r
    | [] => nothing
  | _ => nothing

/-- All accesses which led to `s'` are inside of `R`. -/
def Within (R : Region) (s' : State) : Prop :=
  ∀ a ∈ s'.log, ∀ i, a.lo ≤ i → i < a.lo + a.n → R a.blk i

/-- No memory has changed outside of `W`. -/
def Kept (W : Region) (s s' : State) : Prop :=
  ∀ (k : Nat) (B B' : Block) (m m' : List Byte), s.blocks[k]? = some B → s'.blocks[k]? = some B' →
    B.mem = some m → B'.mem = some m' → m'.length = m.length ∧ ∀ i, ¬ W k i → m'[i]? = m[i]?

/-- The buffer has been detached. -/
def Gone (s : State) (b : Nat) : Prop := ∀ k L, s.bufs[b]? ≠ some ⟨some k, L⟩

/-- The bytes of the buffer, which is not detached. -/
def Bytes (s : State) (b : Nat) (m : List Byte) : Prop :=
  ∃ k L B, s.bufs[b]? = some ⟨some k, L⟩ ∧ s.blocks[k]? = some B ∧ B.mem = some m

/-- The buffer has shared memory. -/
def Shared (s : State) (b : Nat) : Prop :=
  ∃ k L B, s.bufs[b]? = some ⟨some k, L⟩ ∧ s.blocks[k]? = some B ∧ B.shared = true

/-- The two buffers have the same memory. -/
def SameMemory (s : State) (b b' : Nat) : Prop :=
  ∃ k L L', s.bufs[b]? = some ⟨some k, L⟩ ∧ s.bufs[b']? = some ⟨some k, L'⟩

/-- Nothing has changed but the suspended operations. -/
structure Unchanged (s s' : State) : Prop where
  blocks : s'.blocks = s.blocks
  bufs : s'.bufs = s.bufs
  views : s'.views = s.views
  log : s'.log = []

/-- The undefined behaviour which there is. -/
def knownFault (s : State) (e : Ev) : Fault → Prop
  -- conversions (`C40_violated`)
  | .cast => True
  -- `slice` onto its own buffer
  | .overlap | .deadlock => ∃ r v k final fs, e = .ret r ∧ s.frames = .slSpecies v k final :: fs
  -- `Atomics.add` and so on, if the buffer has been detached during the conversion of the index,
  | .null => ∃ r v op fs V, e = .ret r ∧ s.frames = .atIdx v op :: fs ∧ s.views[v]? = some V ∧ Gone s V.buf
  -- or has been freed during the conversion of the value
  | .freed => ∃ r ty op k pos fs, e = .ret r ∧ s.frames = .atVal ty op k pos :: fs ∧
      ∀ B, s.blocks[k]? = some B → B.mem = none
  | .bounds => False

/-! ### Arguments -/

/-- `i` is the integer or infinity of an argument (ECMA-262 7.1.5); `none` with the sign for an
infinity. -/
inductive Integer : Num → Option Int → Bool → Prop
  | nan : Integer .nan (some 0) false
  | inf (neg : Bool) : Integer (.inf neg) none neg
  | fin (neg : Bool) (m : Nat) (e : Int) (i : Int) : IsTrunc (.fin neg m e) i → Integer (.fin neg m e) (some i) neg

/-- An index (ECMA-262 7.1.22): an integer from 0 to `2 ^ 53 - 1`. -/
def Index (x : Num) (i : Nat) : Prop := ∃ neg, Integer x (some (i : Int)) neg ∧ i < 2 ^ 53
def NoIndex (x : Num) : Prop := ∀ i, ¬ Index x i

/-- A relative index: from the end if negative, and not outside of 0 to `len`. -/
def Clamp (len : Nat) (x : Num) (k : Nat) : Prop :=
  ∃ i neg, Integer x i neg ∧
    match i with
    | none => k = if neg then 0 else len
    | some i => if i < 0 then ((k : Int) = len + i ∨ (len + i < 0 ∧ k = 0)) else ((k : Int) = i ∧ i ≤ len ∨ len < i ∧ k = len)

/-- What `Atomics.add` and so on leave in an element of `w` bits. -/
def Combined (op : Rmw) (w old z new : Nat) : Prop :=
  new < 2 ^ w ∧
  match op with
  | .add => ∃ q : Int, (new : Int) = old + z + q * 2 ^ w
  | .sub => ∃ q : Int, (new : Int) = old - z + q * 2 ^ w
  | .and => ∀ i, new.testBit i = (old.testBit i && z.testBit i)
  | .or => ∀ i, new.testBit i = (old.testBit i || z.testBit i)
  | .xor => ∀ i, new.testBit i = (old.testBit i ^^ z.testBit i)
  | .xchg => new = z

end Verif.Buffer.Spec

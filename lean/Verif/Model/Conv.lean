import Verif.Model.Uri
/-
Model of the internal character encoding converter, `/repo/src/lib/rjs_conv_internal_opt.c`
(build option `ENC_CONV=internal`), and of `rjs_conv_to_buffer`, `/repo/src/lib/rjs_conv.c`.

Buffers are lists of bytes.
-/
namespace Verif.Conv
open Uri (isLead isTrail pairToUc)

/-- The table `encodings` (lines 265-294). -/
inductive Enc where
  | utf8
  | u2le
  | u2be
  | u4le
  | u4be
deriving DecidableEq

/-- The result of a function `to_uc`. -/
inductive TRes where
  /-- Shift of a byte above 127 by 24 in the type `int`. -/
  | ub
  | err
  /-- 0: more bytes are needed. -/
  | more
  /-- Number of bytes and character. -/
  | ok (n uc : Nat)
deriving DecidableEq

/-- `utf8_to_uc` (lines 28-63). -/
def utf8ToUc : List Nat → TRes
  | [] => .more
  | a :: t =>
    if a < 0x80 then .ok 1 a
    else if a &&& 0xe0 = 0xc0 then
      match t with
      | b :: _ => .ok 2 (((a &&& 0x1f) <<< 6) ||| (b &&& 0x3f))
      | _ => .more
    else if a &&& 0xf0 = 0xe0 then
      match t with
      | b :: c :: _ => .ok 3 ((((a &&& 0x0f) <<< 12) ||| ((b &&& 0x3f) <<< 6)) ||| (c &&& 0x3f))
      | _ => .more
    else if a &&& 0xf8 = 0xf0 then
      match t with
      | b :: c :: d :: _ =>
        .ok 4 (((((a &&& 0x07) <<< 18) ||| ((b &&& 0x3f) <<< 12)) ||| ((c &&& 0x3f) <<< 6)) |||
          (d &&& 0x3f))
      | _ => .more
    else .err

/-- `ucs_2le_to_uc`, `ucs_2be_to_uc` (lines 93-122, 151-180) after the bytes have been put
together by `w`. -/
def ucs2ToUc (w : Nat → Nat → Nat) : List Nat → TRes
  | a :: b :: t =>
    if !isLead (w a b) then .ok 2 (w a b)
    else
      match t with
      | c :: d :: _ =>
        if !isTrail (w c d) then .ok 2 (w a b) else .ok 4 (pairToUc (w a b) (w c d))
      | _ => .more
  | _ => .more

/-- `ucs_4le_to_uc`, `ucs_4be_to_uc` (lines 209-221, 237-249); `d` is the byte with weight
2^24. -/
def ucs4ToUc (a b c d : Nat) : TRes :=
  if d ≥ 128 then .ub else .ok 4 ((((d <<< 24) ||| (c <<< 16)) ||| (b <<< 8)) ||| a)

/-- `enc->to_uc`. -/
def toUc : Enc → List Nat → TRes
  | .utf8, s => utf8ToUc s
  | .u2le, s => ucs2ToUc (fun a b => a ||| (b <<< 8)) s
  | .u2be, s => ucs2ToUc (fun a b => b ||| (a <<< 8)) s
  | .u4le, a :: b :: c :: d :: _ => ucs4ToUc a b c d
  | .u4le, _ => .more
  | .u4be, a :: b :: c :: d :: _ => ucs4ToUc d c b a
  | .u4be, _ => .more

/-- The result of a function `from_uc`. -/
inductive FRes where
  /-- A write past the end of the buffer. -/
  | ub
  | err
  /-- 0: the buffer is too small. -/
  | full
  /-- The bytes written. -/
  | ok (bs : List Nat)
deriving DecidableEq

/-- Write the bytes into a buffer of `len` bytes without a check. -/
def write (len : Nat) (bs : List Nat) : FRes := if bs.length ≤ len then .ok bs else .ub

/-- `utf8_from_uc` (lines 65-91); `len` is not looked at. -/
def utf8FromUc (uc len : Nat) : FRes :=
  if uc < 0x80 then write len [uc]
  else if uc < 0x800 then write len [(uc >>> 6) ||| 0xc0, (uc &&& 0x3f) ||| 0x80]
  else if uc < 0x10000 then
    write len [(uc >>> 12) ||| 0xe0, ((uc >>> 6) &&& 0x3f) ||| 0x80, (uc &&& 0x3f) ||| 0x80]
  else if uc < 0x200000 then
    write len [(uc >>> 18) ||| 0xf0, ((uc >>> 12) &&& 0x3f) ||| 0x80,
      ((uc >>> 6) &&& 0x3f) ||| 0x80, (uc &&& 0x3f) ||| 0x80]
  else .err

/-- `ucs_2le_from_uc`, `ucs_2be_from_uc` (lines 124-149, 182-207); `w` gives the two bytes of a
code unit.  The halves of the pair are `uint16_t`. -/
def ucs2FromUc (w : Nat → List Nat) (uc len : Nat) : FRes :=
  if uc > 0xffff then
    if len < 4 then .full
    else write len (w ((((uc - 0x10000) >>> 10) + 0xd800) % 65536) ++
      w ((((uc - 0x10000) &&& 0x3ff) + 0xdc00) % 65536))
  else if len < 2 then .full
  else write len (w uc)

/-- The bytes of a code unit in either order. -/
def le2 (c : Nat) : List Nat := [c % 256, (c >>> 8) % 256]
def be2 (c : Nat) : List Nat := [(c >>> 8) % 256, c % 256]

/-- `enc->from_uc` (with lines 223-235, 251-263). -/
def fromUc : Enc → Nat → Nat → FRes
  | .utf8, uc, len => utf8FromUc uc len
  | .u2le, uc, len => ucs2FromUc le2 uc len
  | .u2be, uc, len => ucs2FromUc be2 uc len
  | .u4le, uc, len =>
    if len < 4 then .full
    else write len [uc % 256, (uc >>> 8) &&& 0xff, (uc >>> 16) &&& 0xff, (uc >>> 24) % 256]
  | .u4be, uc, len =>
    if len < 4 then .full
    else write len [(uc >>> 24) % 256, (uc >>> 16) &&& 0xff, (uc >>> 8) &&& 0xff, uc % 256]

/-- The result of `rjs_conv_run`. -/
inductive Code where
  | err
  | false
  | ok
deriving DecidableEq

inductive Run where
  | ub
  /-- Not ended within the given number of rounds (shown not to happen). -/
  | fuel
  /-- Result, bytes of the input left, bytes written. -/
  | done (r : Code) (rest out : List Nat)
deriving DecidableEq

/-- The loop of `rjs_conv_run` (lines 355-383): input, room in the output, bytes written. -/
def runLoop (ein eout : Enc) : Nat → List Nat → Nat → List Nat → Run
  | 0, _, _, _ => .fuel
  | f + 1, s, ol, out =>
    if s.length ≠ 0 ∧ ol ≠ 0 then
      match toUc ein s with
      | .ub => .ub
      | .err => .done .err s out
      | .more => .done .ok s out
      | .ok n uc =>
        match fromUc eout uc ol with
        | .ub => .ub
        | .err => .done .err s out
        | .full => .done .false s out
        | .ok bs => runLoop ein eout f (s.drop n) (ol - bs.length) (out ++ bs)
    else .done .ok s out

/-- `rjs_conv_run` (lines 345-391). -/
def run (ein eout : Enc) (s : List Nat) (ol : Nat) : Run := runLoop ein eout (s.length + 1) s ol []

inductive BufRes where
  | ub
  | fuel
  | err
  | ok (out : List Nat)
deriving DecidableEq

/-- The loop of `rjs_conv_to_buffer` (rjs_conv.c:47-79): `cap` is `item_cap`, `buf` the items.
The allocation is taken to succeed and to give exactly the capacity asked for
(`rjs_vector_set_capacity`). -/
def bufLoop (ein eout : Enc) : Nat → List Nat → Nat → List Nat → Bool → BufRes
  | 0, _, _, _, _ => .fuel
  | f + 1, s, cap, buf, overflow =>
    if s.length ≠ 0 ∨ overflow then
      let cap := if cap - buf.length < s.length ∨ overflow then
          max 32 (max (s.length + buf.length) (cap * 2)) else cap
      match run ein eout s (cap - buf.length) with
      | .ub => .ub
      | .fuel => .fuel
      | .done .err _ _ => .err
      | .done .false rest out => bufLoop ein eout f rest cap (buf ++ out) true
      | .done .ok rest out =>
        if out.length = 0 then .err else bufLoop ein eout f rest cap (buf ++ out) false
    else .ok buf

/-- `rjs_conv_to_buffer` (rjs_conv.c:38-82) on a buffer with capacity `cap` and the items
`buf`.  Two rounds for each byte of the input are enough. -/
def toBuffer (ein eout : Enc) (s : List Nat) (cap : Nat) (buf : List Nat) : BufRes :=
  bufLoop ein eout (2 * s.length + 1) s cap buf false

end Verif.Conv

/-
Model of `/repo/src/lib/rjs_uri_functions_inc.c`: the functions behind `encodeURI`,
`encodeURIComponent`, `decodeURI` and `decodeURIComponent`.

A string is the list of its UTF-16 code units.
-/
namespace Verif.Uri

inductive Res where
  /-- A read outside of the string, or a failed assertion. -/
  | ub
  /-- The loop has not ended within the given number of rounds (shown not to happen). -/
  | fuel
  /-- `throw_uri_error` (lines 29-47). -/
  | throw
  | ok (s : List Nat)
deriving DecidableEq

/-- `rjs_uchar_is_alnum` (`/repo/src/lib/include/rjs_uchar.h`:82-99). -/
def isAlnum (c : Nat) : Bool :=
  (97 ≤ c && c ≤ 122) || (65 ≤ c && c ≤ 90) || (48 ≤ c && c ≤ 57)

/-- `rjs_uchar_is_xdigit` (rjs_uchar.h:68-74). -/
def isXdigit (c : Nat) : Bool :=
  (48 ≤ c && c ≤ 57) || (97 ≤ c && c ≤ 102) || (65 ≤ c && c ≤ 70)

/-- `rjs_hex_char_to_number` (rjs_uchar.h:106-117). -/
def hexVal (c : Nat) : Nat :=
  if 97 ≤ c ∧ c ≤ 102 then c - 97 + 10 else if 65 ≤ c ∧ c ≤ 70 then c - 65 + 10 else c - 48

/-- `rjs_number_to_hex_char_u` (rjs_uchar.h:140-149).  `none`: the assertion fails. -/
def hexChar (n : Nat) : Option Nat :=
  if n ≤ 15 then if n ≤ 9 then some (n + 48) else some (n - 10 + 65) else none

/-- The characters of the inner `switch` (lines 85-95, 201-211): `;/?:@&=+$,#`. -/
def reserved (c : Nat) : Bool :=
  c == 59 || c == 47 || c == 63 || c == 58 || c == 64 || c == 38 || c == 61 || c == 43 ||
  c == 36 || c == 44 || c == 35

/-- The characters of the outer `switch` (lines 185-193): `-_.!~*'()`. -/
def mark (c : Nat) : Bool :=
  c == 45 || c == 95 || c == 46 || c == 33 || c == 126 || c == 42 || c == 39 || c == 40 || c == 41

/-- The decision of lines 182-218. -/
def escape (comp : Bool) (c : Nat) : Bool :=
  if mark c then false
  else if isAlnum c then false
  else if !comp then !reserved c
  else true

/-- `rjs_uchar_is_leading_surrogate`, `rjs_uchar_is_trailing_surrogate` (rjs_uchar.h:313-329). -/
def isLead (c : Nat) : Bool := 0xd800 ≤ c && c ≤ 0xdbff
def isTrail (c : Nat) : Bool := 0xdc00 ≤ c && c ≤ 0xdfff

/-- `rjs_surrogate_pair_to_uc` (rjs_uchar.h:337-341). -/
def pairToUc (l t : Nat) : Nat := (((l - 0xd800) <<< 10) ||| (t - 0xdc00)) + 0x10000

/-- `rjs_uchar_buffer_append_uc` (`/repo/src/lib/rjs_uchar_buffer.c`:58-80) with
`rjs_uc_to_surrogate_pair` (rjs_uchar.h:349-356); the casts to `RJS_UChar` cut to 16 bits. -/
def appendUc (uc : Nat) : List Nat :=
  if uc > 0xffff then
    [(((uc - 0x10000) >>> 10) + 0xd800) % 65536, (((uc - 0x10000) &&& 0x3ff) + 0xdc00) % 65536]
  else [uc]

/-- `%` and two hexadecimal digits. -/
def esc (hi lo : Nat) : Option (List Nat) :=
  match hexChar hi, hexChar lo with
  | some a, some b => some [37, a, b]
  | _, _ => none

/-- Several escapes after one another (the array `buf`). -/
def escs : List (Nat × Nat) → Option (List Nat)
  | [] => some []
  | (hi, lo) :: r =>
    match esc hi lo, escs r with
    | some a, some b => some (a ++ b)
    | _, _ => none

/-- The escapes of a character (lines 245-293). -/
def encUc (uc : Nat) : Option (List Nat) :=
  if uc ≤ 0x7f then escs [(uc >>> 4, uc &&& 0xf)]
  else if uc ≤ 0x7ff then
    escs [((uc >>> 10) ||| 0xc, (uc >>> 6) &&& 0xf),
      (((uc >>> 4) &&& 0x3) ||| 0x8, uc &&& 0xf)]
  else if uc ≤ 0xffff then
    escs [(0xe, uc >>> 12),
      (((uc >>> 10) &&& 0x3) ||| 0x8, (uc >>> 6) &&& 0xf),
      (((uc >>> 4) &&& 0x3) ||| 0x8, uc &&& 0xf)]
  else
    escs [(0xf, uc >>> 18),
      (((uc >>> 16) &&& 0x3) ||| 0x8, (uc >>> 12) &&& 0xf),
      (((uc >>> 10) &&& 0x3) ||| 0x8, (uc >>> 6) &&& 0xf),
      (((uc >>> 4) &&& 0x3) ||| 0x8, uc &&& 0xf)]

/-- One round of a loop. -/
inductive Step where
  | ub
  | throw
  | ok (out rest : List Nat)

/-- One round of `uri_encode` (lines 182-294) at the character `c`. -/
def encStep (comp : Bool) (c : Nat) (rest : List Nat) : Step :=
  if !escape comp c then .ok [c] rest
  else if isTrail c then .throw
  else if isLead c then
    -- `(e - c < 2) || !is_trailing(c[1])`
    match rest with
    | [] => .throw
    | t :: rest =>
      if !isTrail t then .throw
      else
        match encUc (pairToUc c t) with
        | none => .ub
        | some o => .ok o rest
  else
    match encUc c with
    | none => .ub
    | some o => .ok o rest

/-- The loop of `uri_encode` (lines 181-295). -/
def encLoop (comp : Bool) : Nat → List Nat → List Nat → Res
  | 0, _, _ => .fuel
  | _ + 1, [], acc => .ok acc
  | f + 1, c :: rest, acc =>
    match encStep comp c rest with
    | .ub => .ub
    | .throw => .throw
    | .ok o rest => encLoop comp f rest (acc ++ o)

/-- `uri_encode` (lines 166-302). -/
def encode (comp : Bool) (s : List Nat) : Res := encLoop comp (s.length + 1) s []

/-- The loop over the continuation bytes (lines 129-153); `n * 3` characters are there. -/
def contLoop : Nat → Nat → List Nat → Step
  | 0, uc, s => .ok [uc] s
  | n + 1, uc, s =>
    match s with
    | p :: a :: b :: s =>
      if p ≠ 37 then .throw
      else if !isXdigit a || !isXdigit b then .throw
      else
        let v := (hexVal a <<< 4) ||| hexVal b
        if v &&& 0xc0 ≠ 0x80 then .throw
        else contLoop n ((uc <<< 6) ||| (v &&& 0x3f)) s
    | _ => .ub

/-- The class of the first byte (lines 108-122): the number of continuation bytes and the bits. -/
def leadByte (uc : Nat) : Option (Nat × Nat) :=
  if uc &&& 0x80 = 0 then some (0, uc)
  else if uc &&& 0xe0 = 0xc0 then some (1, uc &&& 0x1f)
  else if uc &&& 0xf0 = 0xe0 then some (2, uc &&& 0x0f)
  else if uc &&& 0xf8 = 0xf0 then some (3, uc &&& 0x07)
  else none

/-- One round of `uri_decode` (lines 65-156) at the character `c`. -/
def decStep (comp : Bool) (c : Nat) (rest : List Nat) : Step :=
  if c ≠ 37 then .ok [c] rest
  else
    match rest with
    -- `e - c < 2`
    | [] => .throw
    | a :: rest =>
      if !isXdigit a then .throw
      else
        match rest with
        -- `c[2]`
        | [] => .ub
        | b :: rest =>
          if !isXdigit b then .throw
          else
            let uc := (hexVal a <<< 4) ||| hexVal b
            if !comp && reserved uc then .ok [37, a, b] rest
            else
              match leadByte uc with
              | none => .throw
              | some (n, bits) =>
                if rest.length < n * 3 then .throw
                else
                  match contLoop n bits rest with
                  | .ok [uc] rest => .ok (appendUc uc) rest
                  | .ok _ _ => .ub
                  | .ub => .ub
                  | .throw => .throw

/-- The loop of `uri_decode` (lines 64-157). -/
def decLoop (comp : Bool) : Nat → List Nat → List Nat → Res
  | 0, _, _ => .fuel
  | _ + 1, [], acc => .ok acc
  | f + 1, c :: rest, acc =>
    match decStep comp c rest with
    | .ub => .ub
    | .throw => .throw
    | .ok o rest => decLoop comp f rest (acc ++ o)

/-- `uri_decode` (lines 49-164). -/
def decode (comp : Bool) (s : List Nat) : Res := decLoop comp (s.length + 1) s []

end Verif.Uri

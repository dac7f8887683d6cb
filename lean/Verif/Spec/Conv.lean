import Verif.Spec.Uri
import Verif.Model.Conv
/-
The encodings of Unicode text.
-/
namespace Verif.Conv.Spec
open Uri.Spec (Scalar utf8 utf16)

/-- The bytes of a character. -/
def enc : Enc → Nat → List Nat
  | .utf8, u => utf8 u
  | .u2le, u => (utf16 u).flatMap fun c => [c % 256, c / 256]
  | .u2be, u => (utf16 u).flatMap fun c => [c / 256, c % 256]
  | .u4le, u => [u % 256, u / 256 % 256, u / 65536 % 256, u / 16777216]
  | .u4be, u => [u / 16777216, u / 65536 % 256, u / 256 % 256, u % 256]

/-- The bytes of a text. -/
def encText (e : Enc) (us : List Nat) : List Nat := us.flatMap (enc e)

/-- A Unicode text. -/
def Text (us : List Nat) : Prop := ∀ u ∈ us, Scalar u

end Verif.Conv.Spec

import Verif.Data.Bytes
/-!
# Hexadecimal text, and the text of global transaction ids

`/repo/middleware/common/include/common/transcode.h`, namespace `hex`, and `source/transaction/global.cpp`.
A character is a byte; `char` is signed. `assert` is not compiled away (no build of the project defines `NDEBUG`): the process ends.
-/
namespace Casual.Data

/-- A digit, `transcode.h:182-187`. -/
def hexDigit (v : Nat) : Nat := if v < 10 then v + 48 else v + 87

/-- `detail::encode`, `transcode.h:179-195`: `0xf0 & value` and `0x0f & value` of the byte as `int8_t` are its halves. -/
def hexEncode : List Byte → List Byte
  | [] => []
  | b :: l => Fin.ofNat 256 (hexDigit (b.val / 16)) :: Fin.ofNat 256 (hexDigit (b.val % 16)) :: hexEncode l

/-- A character as number. -/
def charValue (c : Byte) : Int := if c.val < 128 then c.val else (c.val : Int) - 256

/-- `0x0f & hex( c)`, `transcode.h:202-212`. -/
def hexValue (c : Byte) : Nat := ((if charValue c ≥ 87 then charValue c - 87 else charValue c - 48) % 16).toNat

/-- The loop of `detail::decode`, `transcode.h:209-215`. -/
def hexLoop : List Byte → List Byte
  | a :: b :: l => Fin.ofNat 256 (hexValue a * 16 + hexValue b) :: hexLoop l
  | _ => []

/-- `detail::decode`, `transcode.h:197-216`; `none`: the assertion fails. -/
def hexDecode (s : List Byte) : Option (List Byte) := if s.length % 2 = 0 then some (hexLoop s) else none

/-- The digits that are written. -/
def isHexDigit (c : Byte) : Bool := (48 ≤ c.val && c.val ≤ 57) || (97 ≤ c.val && c.val ≤ 102)

/-! ## The text of a global transaction id -/

/-- What comes of a text that is read: an id, an error is raised, or the process ends. -/
inductive GRes
  | ok (g : List Byte)
  | invalid
  | ends
  deriving DecidableEq, Repr

/-- `operator <<`, `global.cpp:38-41`. -/
def gtridWrite (g : List Byte) : List Byte := hexEncode g

/-- `operator >>`, `global.cpp:43-60`, of a text without white space (the text that is extracted from the stream). The regular expression
is `[a-f0-9]+`. -/
def gtridRead (s : List Byte) : GRes :=
  if s = [] ∨ s.all isHexDigit = false then .invalid
  else if s.length % 2 = 1 then .invalid
  else if s.length ≤ 64 then
    match hexDecode s with
    | some g => .ok g
    | none => .ends
  else .ends

end Casual.Data

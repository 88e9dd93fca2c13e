/-
  Text, header fields, result codes, buffer types and base64 as the http parts of casual use them.
-/
namespace Casual.Http

/-- Text: a sequence of characters (`std::string`). -/
abbrev Text := List Char

/-- One byte of a buffer (`std::byte`). -/
abbrev Byte := Fin 256

/-- `std::isspace` in the "C" locale, used in `middleware/common/source/service/header.cpp:26-32`. -/
def isSpace (c : Char) : Bool :=
  c.toNat == 32 || (9 ≤ c.toNat && c.toNat ≤ 13)

/-- A header field: `Field( std::string)` removes everything that is white space.
`middleware/common/source/service/header.cpp:24-33`. -/
def field (t : Text) : Text := t.filter fun c => !isSpace c

/-- `Field( name, value)`: `middleware/common/source/service/header.cpp:35-37`. -/
def mkField (name value : Text) : Text := field (name ++ ':' :: value)

/-- `Field::name`: `middleware/common/include/common/service/header.h:32-35`. -/
def fname (f : Text) : Text := f.takeWhile (· != ':')

/-- `Field::value`: `middleware/common/include/common/service/header.h:36-42`. -/
def fvalue (f : Text) : Text := (f.dropWhile (· != ':')).drop 1

/-- `Fields::find`, the first with that name, compared as is:
`middleware/common/source/service/header.cpp:63-69`. -/
def ffind (fs : List Text) (n : Text) : Option Text := fs.find? fun f => fname f == n

/-- `Fields::add`: replaces the first with the same name, otherwise last.
`middleware/common/source/service/header.cpp:43-49`. -/
def fadd : List Text → Text → List Text
  | [], f => [f]
  | g :: gs, f => if fname g == fname f then f :: gs else g :: fadd gs f

/-! ### Result codes -/

/-- `code::xatmi::ok` and the rest, by their numbers (`middleware/common/include/common/code/xatmi.h`). -/
def ok : Int := 0
/-- `code::xatmi::limit`. -/
def limit : Int := 5
/-- `code::xatmi::no_entry`. -/
def noEntry : Int := 6
/-- `code::xatmi::protocol`. -/
def protocol : Int := 9
/-- `code::xatmi::service_error`. -/
def serviceError : Int := 10
/-- `code::xatmi::service_fail`. -/
def serviceFail : Int := 11
/-- `code::xatmi::system`. -/
def system : Int := 12
/-- `code::xatmi::timeout`. -/
def timeout : Int := 13

/-- What the codes are called, all but `absent`:
`middleware/common/source/code/xatmi.cpp:71-96`, and the same table in `middleware/http/source/common.cpp:41-61`. -/
def codes : List (Int × Text) :=
  [(0, "OK".toList), (2, "TPEBADDESC".toList), (3, "TPEBLOCK".toList), (4, "TPEINVAL".toList), (5, "TPELIMIT".toList),
   (6, "TPENOENT".toList), (7, "TPEOS".toList), (9, "TPEPROTO".toList), (10, "TPESVCERR".toList),
   (11, "TPESVCFAIL".toList), (12, "TPESYSTEM".toList), (13, "TPETIME".toList), (14, "TPETRAN".toList),
   (15, "TPGOTSIG".toList), (17, "TPEITYPE".toList), (18, "TPEOTYPE".toList), (22, "TPEEVENT".toList),
   (23, "TPEMATCH".toList)]

/-- `code::description`: `middleware/common/source/code/xatmi.cpp:71-96`. -/
def describe (c : Int) : Text :=
  if c = -1 then "nil".toList
  else match codes.find? (·.1 == c) with
    | some p => p.2
    | none => "unknown".toList

/-- `header::value::result::code( value)`: `middleware/http/source/common.cpp:39-69`. -/
def parseCode (t : Text) : Int :=
  if t = [] then ok
  else match codes.find? (·.2 == t) with
    | some p => p.1
    | none => protocol

/-! ### Numbers as text -/

/-- The digit for a number below ten. -/
def digit (n : Nat) : Char := Char.ofNat (48 + n)

/-- `std::to_string` for what is not negative. -/
def showNat (n : Nat) : Text :=
  if n < 10 then [digit n] else showNat (n / 10) ++ [digit (n % 10)]
termination_by n
decreasing_by omega

/-- `std::to_string( long)`: used at `middleware/http/source/common.cpp:86`. -/
def showLong (n : Int) : Text := if n < 0 then '-' :: showNat n.natAbs else showNat n.natAbs

/-- Is it a decimal digit? -/
def isDigit (c : Char) : Bool := 48 ≤ c.toNat && c.toNat ≤ 57

/-- The number that some digits stand for. -/
def digitsVal (t : Text) : Nat := t.foldl (fun acc c => acc * 10 + (c.toNat - 48)) 0

/-- What a `long` can hold. -/
def isLong (n : Int) : Prop := -9223372036854775808 ≤ n ∧ n ≤ 9223372036854775807

instance (n : Int) : Decidable (isLong n) := inferInstanceAs (Decidable (_ ∧ _))

/-- `std::from_chars` for a `long`, with `string::from`: text that does not begin with a number is refused (`none`),
what comes after the number is ignored, and a number that a `long` can not hold gives 0.
`middleware/common/include/common/string.h:133-139,170-180`. -/
def parseLong (t : Text) : Option Int :=
  let neg := t.head? == some '-'
  let ds := (if neg then t.drop 1 else t).takeWhile isDigit
  if ds = [] then none
  else
    let v : Int := if neg then -(digitsVal ds : Int) else digitsVal ds
    some (if isLong v then v else 0)

/-- `header::value::result::user::code( value)`: `middleware/http/source/common.cpp:79-84`. -/
def parseUser (t : Text) : Option Int := if t = [] then some 0 else parseLong t

/-! ### Buffer types -/

/-- The buffer types with a content type of their own. `middleware/http/source/common.cpp:129-137`,
`middleware/common/include/common/buffer/type.h`, `middleware/http/include/http/common.h:75-81`. -/
def contents : List (Text × Text) :=
  [("X_OCTET/".toList, "application/casual-x-octet".toList), (".binary/".toList, "application/casual-binary".toList),
   (".json/".toList, "application/json".toList), (".xml/".toList, "application/xml".toList),
   ("CFIELD/".toList, "application/casual-field".toList), ("CSTRING/".toList, "application/casual-string".toList),
   ("NULL".toList, "application/casual-null".toList)]

/-- What the content type of other buffers begin with: `middleware/http/source/common.cpp:121`. -/
def genericPrefix : Text := "application/casual-generic/".toList

/-- `protocol::convert::from::buffer`: `middleware/http/source/common.cpp:127-146`. -/
def fromBuffer (t : Text) : Text :=
  match contents.find? (·.1 == t) with
  | some p => p.2
  | none => genericPrefix ++ t

/-- `protocol::convert::to::buffer`: `middleware/http/source/common.cpp:151-182`. -/
def toBuffer (c : Text) : Text :=
  match contents.find? (·.2 == c) with
  | some p => p.1
  | none => if genericPrefix.isPrefixOf c then c.drop genericPrefix.length else []

/-- `common::buffer::type::null`. -/
def nullType : Text := "NULL".toList

/-! ### Base64 -/

/-- The base64 alphabet (RFC 4648). The library `cppcodec` is not part of /repo. -/
def alphabet : Text := "ABCDEFGHIJKLMNOPQRSTUVWXYZabcdefghijklmnopqrstuvwxyz0123456789+/".toList

/-- The character of six bits, as the byte it is on the wire. -/
def enc (i : Nat) : Byte := Fin.ofNat 256 (alphabet.getD i 'A').toNat

/-- The six bits of a character. -/
def dec (b : Byte) : Option Nat :=
  let i := alphabet.findIdx fun c => c.toNat == b.val
  if i < 64 then some i else none

/-- `=`, that fills up the last group. -/
def pad : Byte := 61

/-- `base64::encode`: `middleware/common/include/common/transcode.h:54-62`, `middleware/common/source/transcode.cpp:44-52`
(the coding itself: RFC 4648, external). -/
def encode64 : List Byte → List Byte
  | [] => []
  | [a] => [enc (a.val / 4), enc (a.val % 4 * 16), pad, pad]
  | [a, b] => [enc (a.val / 4), enc (a.val % 4 * 16 + b.val / 16), enc (b.val % 16 * 4), pad]
  | a :: b :: c :: r =>
    enc (a.val / 4) :: enc (a.val % 4 * 16 + b.val / 16) :: enc (b.val % 16 * 4 + c.val / 64) :: enc (c.val % 64) :: encode64 r

/-- `base64::decode`: a null byte ends the input (that is why `from::wire` adds one), what is not base64 is refused.
`middleware/common/source/transcode.cpp:54-71`. Simplified: RFC 4648 without looking at the bits that are
not used in the last group. -/
def decode64 : List Byte → Option (List Byte)
  | [] => some []
  | a :: r =>
    if a = 0 then some []
    else match r with
      | b :: c :: d :: r =>
        match dec a, dec b with
        | some x, some y =>
          if c = pad then
            (if d = pad ∧ r.head?.getD 0 = 0 then some [Fin.ofNat 256 (x * 4 + y / 16)] else none)
          else match dec c with
            | none => none
            | some z =>
              if d = pad then
                (if r.head?.getD 0 = 0 then some [Fin.ofNat 256 (x * 4 + y / 16), Fin.ofNat 256 (y % 16 * 16 + z / 4)] else none)
              else match dec d with
                | none => none
                | some w => (decode64 r).map fun l =>
                    Fin.ofNat 256 (x * 4 + y / 16) :: Fin.ofNat 256 (y % 16 * 16 + z / 4) :: Fin.ofNat 256 (z % 4 * 64 + w) :: l
        | _, _ => none
      | _ => none

/-- A buffer (`common::buffer::Payload`). -/
structure Payload where
  /-- `type` -/
  type : Text := []
  /-- `data` -/
  data : List Byte := []
  deriving DecidableEq, Repr

/-- The types that are text on the wire: `middleware/http/source/common.cpp:227-228,265-266`. -/
def isPlain (t : Text) : Bool := t == ".json/".toList || t == ".xml/".toList

/-- `transcode::from::wire`: `middleware/http/source/common.cpp:210-243`. -/
def fromWire (p : Payload) : Option Payload :=
  if isPlain p.type then some p
  else if p.type = nullType then some { p with data := [] }
  else (decode64 (p.data ++ [0])).map fun d => { p with data := d }

/-- `transcode::to::wire`: `middleware/http/source/common.cpp:249-281`. -/
def toWire (p : Payload) : Payload :=
  if isPlain p.type then p
  else if p.type = nullType then { p with data := [] }
  else { p with data := encode64 p.data }

end Casual.Http

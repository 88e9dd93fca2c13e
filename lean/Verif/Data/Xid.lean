import Verif.Data.Bytes
/-!
# Transaction ids

`/repo/middleware/common/source/transaction/id.cpp`, `include/common/transaction/id.h`, and `XID` of `middleware/xatmi/include/casual/xa.h:20-25`.
-/
namespace Casual.Data

/-- `XID`, `xa.h:20-25`: `long` are 8 bytes, `data` has 128 bytes, of which `gtrid + bqual` are used. Numbers are bit patterns. -/
structure Xid where
  format : Nat
  gtrid : Nat
  bqual : Nat
  data : List Byte
  deriving DecidableEq, Repr

/-- `ID::Format`, `id.h:56-64`; -1 as bit pattern. -/
def fNull : Nat := 2 ^ 64 - 1
def fCasual : Nat := 42
def fBranch : Nat := 43

/-- As `long`. -/
def signed64 (n : Nat) : Int := if n < 2 ^ 63 then n else (n : Int) - 2 ^ 64

/-- An id as the standard has it: lengths up to 64, and the data area. -/
structure Xid.Valid (x : Xid) : Prop where
  format : x.format < 256 ^ 8
  gtrid : x.gtrid ≤ 64
  bqual : x.bqual ≤ 64
  data : x.data.length = 128

/-- `xid::null`, `id.cpp:73-83`. -/
def Xid.null : Xid := { format := fNull, gtrid := 0, bqual := 0, data := List.replicate 128 0 }
def Xid.isNull (x : Xid) : Bool := x.format == fNull

/-- The memory of an id: `sizeof( XID)` is 152, there is no padding. -/
def Xid.image (h : Host) (x : Xid) : List Byte := mem h 8 x.format ++ mem h 8 x.gtrid ++ mem h 8 x.bqual ++ x.data

/-- `memcmp`. -/
def memcmp : Nat → List Byte → List Byte → Ordering
  | n + 1, a :: l, b :: r => if a < b then .lt else if b < a then .gt else memcmp n l r
  | _, _, _ => .eq

/-- How many bytes are compared, `id.cpp:27` and `:34`. -/
def Xid.used (x : Xid) : Nat := 152 - (128 - (x.gtrid + x.bqual))

/-- `operator ==`, `id.cpp:23-28`. -/
def Xid.eq (h : Host) (a b : Xid) : Bool :=
  if a.format ≠ b.format then false
  else if a.format = fNull then true
  else memcmp a.used (a.image h) (b.image h) == .eq

/-- `operator <`, `id.cpp:30-35`. -/
def Xid.lt (h : Host) (a b : Xid) : Bool :=
  if a.format ≠ b.format then decide (signed64 a.format < signed64 b.format)
  else if a.format = fNull then false
  else memcmp a.used (a.image h) (b.image h) == .lt

/-- `id::range::global`, `id.cpp:223-226`, and `id::range::branch`, `:228-231`. -/
def Xid.global (x : Xid) : List Byte := x.data.take x.gtrid
def Xid.branchPart (x : Xid) : List Byte := (x.data.drop x.gtrid).take x.bqual

/-- `id::range::data`, `id.h:160-173`. -/
def Xid.bytes (x : Xid) : List Byte := x.data.take (x.gtrid + x.bqual)

/-- Copy bytes to the data area, from an offset; `none`: beyond its end. `algorithm::copy`, `algorithm.h`. -/
def copyTo (data : List Byte) (at_ : Nat) (bs : List Byte) : Option (List Byte) :=
  if at_ + bs.length ≤ data.length then some (data.take at_ ++ bs ++ data.drop (at_ + bs.length)) else none

/-- `casual_xid`, `id.cpp:91-101`, on an id that is null; `none`: writes beyond the data area. -/
def casualXid (g b : List Byte) : Option Xid :=
  (copyTo Xid.null.data 0 g).bind fun d => (copyTo d g.length b).map fun d => { format := fCasual, gtrid := g.length, bqual := b.length, data := d }

/-- `id::branch`, `id.cpp:203-219`; `uuid`: the new uuid. -/
def Xid.branch (x : Xid) (uuid : List Byte) : Option Xid :=
  if x.isNull then some Xid.null
  else (copyTo x.data x.gtrid uuid).map fun d => { x with format := fBranch, data := d, bqual := uuid.length }

/-- `std::hash< ID>`, `id.h:220-228`; `f`: the hash of a string. -/
def Xid.hash (f : List Byte → Nat) (x : Xid) : Nat := f x.bytes

end Casual.Data

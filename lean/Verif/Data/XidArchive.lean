import Verif.Data.Xid
import Verif.Data.Serialize
/-!
# Transaction ids in archives

`XID`: `/repo/middleware/common/include/common/transaction/id.h:192-212`. `global::ID`: `include/common/transaction/global.h:43-46`. How much is read
depends on what has been read.
-/
namespace Casual.Data

/-- What a read comes to: a value and what is left; the process ends (not bytes enough); bytes are written outside of the object. -/
inductive Rd (α : Type) where
  | ok (v : α) (rest : List Byte)
  | stops
  | corrupt
  deriving DecidableEq, Repr

/-- Go on, if there was something. -/
def Rd.andThen {α : Type} (x : Option (Nat × List Byte)) (f : Nat → List Byte → Rd α) : Rd α :=
  match x with
  | none => .stops
  | some (n, r) => f n r

/-- `Value< XID, A>::serialize` with a writer, `id.h:199-209`. -/
def writeXid (p : Policy) (h : Host) (x : Xid) : List Byte :=
  putNum p h 8 x.format ++ if x.isNull then [] else putNum p h 8 x.gtrid ++ (putNum p h 8 x.bqual ++ x.bytes)

/-- Read `n` bytes into an area that starts with what `old` has and ends where `old` ends: `consume`, `binary.h:209-218`. -/
def readData {α : Type} (n : Nat) (old bs : List Byte) (f : List Byte → List Byte → Rd α) : Rd α :=
  if bs.length < n then .stops else if old.length < n then .corrupt else f (bs.take n ++ old.drop n) (bs.drop n)

/-- `Value< XID, A>::serialize` with a reader, `id.h:199-209`, into an id that is `old`. The lengths are `long`; a sum that is negative is a span of negative size. -/
def readXid (p : Policy) (h : Host) (old : Xid) (bs : List Byte) : Rd Xid :=
  .andThen (getNum p h 8 bs) fun format r =>
    if format = fNull then .ok { old with format := format } r
    else .andThen (getNum p h 8 r) fun gtrid r => .andThen (getNum p h 8 r) fun bqual r =>
      if signed64 gtrid + signed64 bqual < 0 then .corrupt
      else readData (signed64 gtrid + signed64 bqual).toNat old.data r fun d r => .ok { format := format, gtrid := gtrid, bqual := bqual, data := d } r

/-- `global::ID`, `global.h:51-54`. -/
structure Gtrid where
  size : Nat
  data : List Byte
  deriving DecidableEq, Repr

/-- An id as the constructors make it: at most 64 bytes, `global.cpp:23-29`. -/
structure Gtrid.Valid (g : Gtrid) : Prop where
  size : g.size ≤ 64
  data : g.data.length = 64

/-- `range`, `global.h:35`. -/
def Gtrid.range (g : Gtrid) : List Byte := g.data.take g.size

/-- `serialize` with a writer, `global.h:43-46`: the size is a `std::uint8_t`. -/
def writeGtrid (p : Policy) (h : Host) (g : Gtrid) : List Byte := putNum p h 1 g.size ++ g.data.take g.size

/-- `serialize` with a reader, `global.h:43-46`. -/
def readGtrid (p : Policy) (h : Host) (old : Gtrid) (bs : List Byte) : Rd Gtrid :=
  .andThen (getNum p h 1 bs) fun size r => readData size old.data r fun d r => .ok { size := size, data := d } r

end Casual.Data

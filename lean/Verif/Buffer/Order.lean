import Verif.Buffer.FieldReads
/-!
# The order buffer, the string buffer and the octet buffer

Model of `middleware/buffer/source/order.cpp`, `string.cpp` and `octet.cpp`. Memory is allocated when it is asked for (`std::bad_alloc` is not modelled), the capacity is
not modelled: what is beyond the size is outside.
-/
namespace Casual.Buffer.Order
open Casual.Data Casual.Buffer.Field

/-- What can be added, `order.cpp:390-434`. Numbers are bit patterns; a string is the memory its pointer points to. -/
inductive Val
  | bool (b : Byte) | char (c : Byte) | short (n : Fin 65536) | long (n : Fin 18446744073709551616)
  | float (n : Fin 4294967296) | double (n : Fin 18446744073709551616) | string (s : List Byte) | binary (b : List Byte)
  deriving DecidableEq, Repr

/-- What can be asked for, `order.cpp:436-479`. -/
inductive Kind | bool | char | short | long | float | double | string | binary
  deriving DecidableEq, Repr

/-- The function that gets what was added. -/
def Val.kind : Val → Kind
  | .bool _ => .bool | .char _ => .char | .short _ => .short | .long _ => .long | .float _ => .float | .double _ => .double | .string _ => .string | .binary _ => .binary

/-- The string ends at the NUL. -/
def Val.norm : Val → Val
  | .string s => .string (cstr s)
  | v => v

/-- `local::Buffer`, `order.cpp:40-105`: the memory and the select-cursor. -/
structure State where
  data : List Byte
  cursor : Int
  deriving DecidableEq, Repr

/-- `add::append`, `order.cpp:221-250`. -/
def Val.bytes (h : Host) : Val → List Byte
  | .bool b => enc h 1 b | .char c => enc h 1 c | .short n => enc h 2 n | .long n => enc h 8 n | .float n => enc h 4 n | .double n => enc h 8 n
  | .string s => cstr s ++ [0]
  | .binary b => enc h 8 (ofLong b.length) ++ b

/-- `casual_order_add_...`, `order.cpp:252-275`, `:390-434`. -/
def add (h : Host) (s : State) (v : Val) : State := ⟨s.data ++ v.bytes h, s.cursor⟩

/-- `casual_order_add_prepare`, `order.cpp:207-219`: `resize( 0)`, the select-cursor stays. -/
def addPrepare (s : State) : State := ⟨[], s.cursor⟩

/-- `casual_order_get_prepare`, `order.cpp:281-293`. -/
def getPrepare (s : State) : State := ⟨s.data, 0⟩

/-- Whether `w` bytes at an offset are within the memory. -/
def within (data : List Byte) (o : Int) (w : Nat) : Bool := decide (0 ≤ o ∧ o + w ≤ data.length)

/-- `get::select` of a number and `get::data`, `order.cpp:293-301`, `:318-350`. The number is read before the bounds are checked: the `Bool` tells if the read was within the memory. -/
def getNum (h : Host) (s : State) (w : Nat) (f : Nat → Val) : Got Val × State × Bool :=
  if s.cursor + w > s.data.length then (.code .outOfBounds, s, within s.data s.cursor w)
  else match rd s.data s.cursor w with
    | some l => (.ok (f (dec h l)), ⟨s.data, s.cursor + w⟩, true)
    | none => (.wild, ⟨s.data, s.cursor + w⟩, false)

/-- `casual_order_get_...`, `order.cpp:293-350`, `:436-479`: what is given, the buffer after, and if all reads were within the memory. A string (`strlen`) has to end in the memory, and
the size of a binary be in it, otherwise the outcome is undefined. For a binary the value is the memory that the caller is pointed to. -/
def get (h : Host) (s : State) : Kind → Got Val × State × Bool
  | .bool => getNum h s 1 fun n => .bool (num _ n (by decide))
  | .char => getNum h s 1 fun n => .char (num _ n (by decide))
  | .short => getNum h s 2 fun n => .short (num _ n (by decide))
  | .long => getNum h s 8 fun n => .long (num _ n (by decide))
  | .float => getNum h s 4 fun n => .float (num _ n (by decide))
  | .double => getNum h s 8 fun n => .double (num _ n (by decide))
  | .string => match rdStr s.data s.cursor with
    | some t => (.ok (.string t), ⟨s.data, s.cursor + (t.length + 1)⟩, true)
    | none => (.wild, s, false)
  | .binary => match rdLong h s.data s.cursor with
    | none => (.wild, s, false)
    | some size =>
      if s.cursor + (8 + size) > s.data.length then (.code .outOfBounds, s, true)
      else if 0 ≤ size then (Got.of ((rd s.data (s.cursor + 8) size.toNat).map .binary), ⟨s.data, s.cursor + (8 + size)⟩, true)
      else (.wild, ⟨s.data, s.cursor + (8 + size)⟩, true)

end Casual.Buffer.Order

namespace Casual.Buffer.Str
open Casual.Data Casual.Buffer.Field

/-- `allocate`, `string.cpp:77-84`; the rest of the memory is zero (`std::vector< std::byte>( size)`). -/
def allocate (size : Nat) : List Byte := List.replicate (if size = 0 then 1 else size) 0

/-- `reallocate`, `string.cpp:86-97`: resize, and a NUL at the end. -/
def reallocate (data : List Byte) (size : Nat) : List Byte :=
  let n := if size = 0 then 1 else size
  ((data ++ List.replicate (n - data.length) 0).take n).set (n - 1) 0

/-- `casual_string_set`, `string.cpp:168-187`. -/
def set (_ : List Byte) (value : List Byte) : List Byte := cstr value ++ [0]

/-- `casual_string_get`, `string.cpp:189-210`, and what the caller reads; `strlen` has to end in the memory. -/
def get (data : List Byte) : Got (List Byte) := Got.of (rdStr data 0)

/-- `local::validate`, `string.cpp:37-51`: how much is sent, `transport`, `:59-65`. `strlen` comes before the check. -/
def transport (data : List Byte) : Got Nat := Got.of ((rdStr data 0).map fun t => t.length + 1)

/-- `casual_string_explore_buffer`, `string.cpp:143-166`: size and use. -/
def explore (data : List Byte) : Got (Nat × Nat) :=
  match data.idxOf? 0 with
  | some n => .ok (data.length, n + 1)
  | none => .code .internal

/-- What is sent of a buffer: `transport` bytes of its memory, `common/buffer/type.h:154-160`. -/
def sent (data : List Byte) : Got (List Byte) :=
  match transport data with
  | .ok n => .ok (data.take n)
  | .code c => .code c
  | .wild => .wild

/-- A buffer that is the reply to a call is validated, `Allocator::insert`, `string.cpp:99-105`. -/
def insert (data : List Byte) : Got (List Byte) :=
  match transport data with
  | .ok _ => .ok data
  | .code c => .code c
  | .wild => .wild

/-- A buffer that a service is called with is not validated: `Default::adopt`, `common/include/common/buffer/pool.h:287-291`. -/
def adopt (data : List Byte) : Got (List Byte) := .ok data

end Casual.Buffer.Str

namespace Casual.Buffer.Octet
open Casual.Data Casual.Buffer.Field

/-- `casual_octet_set`, `octet.cpp:128-144`, `:197-205`, with the size as given. -/
def set (_ : List Byte) (value : List Byte) (size : Int) : Got (List Byte) :=
  if size < 0 then .code .invalidArgument else Got.of (rd value 0 size.toNat)

/-- `casual_octet_get`, `octet.cpp:146-162`: all of the memory. -/
def get (data : List Byte) : List Byte := data

/-- What is sent: all of it, whatever the size the user gives, `octet.cpp:34-39`. -/
def sent (data : List Byte) (_user : Int) : List Byte := data

/-- `reallocate`, `octet.cpp:62-79`. -/
def reallocate (data : List Byte) (size : Nat) : List Byte := (data ++ List.replicate (size - data.length) 0).take size

end Casual.Buffer.Octet

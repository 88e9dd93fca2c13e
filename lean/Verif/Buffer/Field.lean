import Verif.Data.Bytes
/-!
# The field buffer (`CFIELD`)

Model of `middleware/buffer/source/field.cpp` and `middleware/buffer/include/casual/buffer/field.h`.

A buffer is its memory and an index: for each id the offsets of its occurrences. `std::map` is a list sorted by key. All reads of the
memory are explicit: a read that is not within the memory gives `none`, and a call whose read is outside has no result (`none`: undefined
behaviour). Bytes between the size and the capacity of the memory count as outside.

Not modelled: logging, regular expressions, the text representations, capacity of the memory (`reserve`, `shrink_to_fit`); that the allocation of
nodes of the index fails (allocation of the memory of the buffer does fail, see `State.lim`). Lookup of the handle is in `Verif.Buffer.Pool`.
-/
namespace Casual.Buffer.Field
open Casual.Data

/-- Return codes, `field.h:15-25`. -/
inductive Code | success | invalidHandle | invalidArgument | outOfMemory | outOfBounds | internal
  deriving DecidableEq, Repr

/-- `CASUAL_FIELD_TYPE_BASE`, `field.h:43`. -/
def base : Int := 0x2000000

/-- `id / CASUAL_FIELD_TYPE_BASE`, division of C++ (toward zero). The values 1 to 7 are the types, `field.h:31-37`. -/
def typeOf (id : Int) : Int := id.tdiv base

/-- `data_offset`: 8 bytes of id and 8 bytes of size, `field.cpp:51-56`. -/
def dataOffset : Int := 16
/-- `size_offset`, `field.cpp:54`. -/
def sizeOffset : Int := 8

/-- The bit pattern of a `long`. -/
def ofLong (i : Int) : Nat := (i % 18446744073709551616).toNat
/-- The `long` with a bit pattern. -/
def toLong (n : Nat) : Int := if n < 9223372036854775808 then (n : Int) else (n : Int) - 18446744073709551616

/-- `network::byteorder::encode`, and the bytes of the result, of a value of `w` bytes. -/
def enc (h : Host) (w n : Nat) : List Byte := mem h w (hton h w n)
/-- `local::decode`, `field.cpp:62-68`, of bytes. -/
def dec (h : Host) (l : List Byte) : Nat := hton h l.length (ofMem h l)

/-- Read of `w` bytes of memory. -/
def rd (data : List Byte) (off : Int) (w : Nat) : Option (List Byte) :=
  if 0 ≤ off ∧ off + w ≤ data.length then some ((data.drop off.toNat).take w) else none

/-- `local::decode< long>`, `field.cpp:62-68`, at an offset. -/
def rdLong (h : Host) (data : List Byte) (off : Int) : Option Int := (rd data off 8).map fun l => toLong (dec h l)

/-- `std::map< item_type, std::vector< size_type>>`, `field.cpp:72`: sorted by key. -/
abbrev Index := List (Int × List Int)

namespace Index

/-- `index.at( id)`; no key, no offsets. -/
def look : Index → Int → List Int
  | [], _ => []
  | (k, l) :: ix, id => if k = id then l else look ix id

/-- `index[ id].push_back( offset)`. -/
def push : Index → Int → Int → Index
  | [], id, o => [(id, [o])]
  | (k, l) :: ix, id, o =>
    if id < k then (id, [o]) :: (k, l) :: ix
    else if id = k then (k, l ++ [o]) :: ix
    else (k, l) :: push ix id o

/-- `occurrences.erase( begin + n)`, and `index.erase( id)` if that was the last, `field.cpp:383-388`. -/
def drop : Index → Int → Nat → Index
  | [], _, _ => []
  | (k, l) :: ix, id, n =>
    if k = id then (if l.eraseIdx n = [] then ix else (k, l.eraseIdx n) :: ix) else (k, l) :: drop ix id n

/-- `for( auto& field : index) for( auto& occurrence : field.second) if( occurrence > offset) occurrence += d`, `field.cpp:395-398`, `:473-476`. -/
def shift (ix : Index) (o d : Int) : Index := ix.map fun (k, l) => (k, l.map fun x => if x > o then x + d else x)

end Index

/-- `std::vector::at` with a `long` that becomes a `size_t`: negative is out of range. -/
def at' (l : List Int) (n : Int) : Option Int := if 0 ≤ n then l[n.toNat]? else none

/-- `local::Buffer`, `field.cpp:70-130`. -/
structure State where
  data : List Byte
  index : Index
  deriving DecidableEq, Repr

/-- `index.at( id).at( occurrence)`, `field.cpp:296-299`; `none` is `std::out_of_range`. -/
def State.at (s : State) (id occ : Int) : Option Int := at' (s.index.look id) occ

/-- The outcome of construction from memory. -/
inductive Parsed | ok (ix : Index) | invalid | wild
  deriving DecidableEq, Repr

/-- The constructor, `field.cpp:74-98`: the loop from an offset and an index on. `wild`: a header is read outside of the memory. There is no
derivation if the loop does not end. (That `data_offset + size` overflows is not considered.) -/
inductive Scan (h : Host) (data : List Byte) : Int → Index → Parsed → Prop
  | stop (c : Int) (ix : Index) (hc : c = data.length) : Scan h data c ix (.ok ix)
  | beyond (c : Int) (ix : Index) (hc : c > data.length) : Scan h data c ix .invalid
  | outside (c : Int) (ix : Index) (hc : c < data.length) (hr : rd data c 16 = none) : Scan h data c ix .wild
  | next (c : Int) (ix : Index) (item size : Int) (out : Parsed) (hc : c < data.length)
      (hi : rdLong h data c = some item) (hs : rdLong h data (c + sizeOffset) = some size)
      (hn : Scan h data (c + (dataOffset + size)) (ix.push item c) out) : Scan h data c ix out

/-- `local::Buffer::Buffer`: the buffer with this memory. -/
def Constructs (h : Host) (data : List Byte) (out : Parsed) : Prop := Scan h data 0 [] out

/-- Values as the user has them; numbers are bit patterns. A string is the memory its pointer points to, the string itself ends at the first NUL. -/
inductive Val
  | short (n : Fin 65536) | long (n : Fin 18446744073709551616) | char (c : Byte)
  | float (n : Fin 4294967296) | double (n : Fin 18446744073709551616) | string (s : List Byte) | binary (b : List Byte)
  deriving DecidableEq, Repr

/-- The type in the name of the function that takes the value, `field.h:31-37`, `field.cpp:838-877`. -/
def Val.type : Val → Int
  | .short _ => 1 | .long _ => 2 | .char _ => 3 | .float _ => 4 | .double _ => 5 | .string _ => 6 | .binary _ => 7

/-- The characters before the NUL (`strlen`). -/
def cstr (s : List Byte) : List Byte := s.takeWhile (· ≠ 0)

/-- What is written for a value, `add::insert`, `field.cpp:252-266`, `set::update`, `:479-499`. -/
def Val.bytes (h : Host) : Val → List Byte
  | .short n => enc h 2 n | .long n => enc h 8 n | .char c => enc h 1 c
  | .float n => enc h 4 n | .double n => enc h 8 n | .string s => cstr s ++ [0] | .binary b => b

/-- A call that changes a buffer: code and buffer; `none`: undefined. -/
abbrev Result := Option (Code × State)

/-- `add::append`, `field.cpp:222-250`. `lim`: how large the memory can get, beyond that is `std::bad_alloc` and the size is as before. -/
def append (h : Host) (lim : Nat) (s : State) (id : Int) (bytes : List Byte) : Result :=
  let data := s.data ++ enc h 8 (ofLong id) ++ enc h 8 (ofLong bytes.length) ++ bytes
  if data.length ≤ lim then some (.success, ⟨data, s.index.push id s.data.length⟩) else some (.outOfMemory, s)

/-- `add::data`, `field.cpp:268-294`, for `casual_field_add_char` ... `casual_field_add_binary`, `:838-877`. -/
def add (h : Host) (lim : Nat) (s : State) (id : Int) (v : Val) : Result :=
  if v.type ≠ typeOf id then some (.invalidArgument, s) else append h lim s id (v.bytes h)

/-- `set::change`, `field.cpp:441-477`. The old value is erased before the new one is inserted; if that fails the size in the header and the
index are left as they were. -/
def change (h : Host) (lim : Nat) (s : State) (id occ : Int) (bytes : List Byte) : Result :=
  match s.at id occ with
  | none => some (.outOfBounds, s)
  | some o =>
    match rdLong h s.data (o + sizeOffset) with
    | none => none
    | some cur =>
      if 0 ≤ cur ∧ o + dataOffset + cur ≤ s.data.length then
        let before := s.data.take (o + dataOffset).toNat
        let after := s.data.drop (o + dataOffset + cur).toNat
        if (before ++ bytes ++ after).length ≤ lim then
          let data := before ++ bytes ++ after
          some (.success, ⟨data.take (o + sizeOffset).toNat ++ enc h 8 (ofLong bytes.length) ++ data.drop (o + dataOffset).toNat,
            s.index.shift o (bytes.length - cur)⟩)
        else some (.outOfMemory, ⟨before ++ after, s.index⟩)
      else none

/-- `set::data`, `field.cpp:501-526`, for `casual_field_set_char` ... `casual_field_set_binary`, `:1021-1060`. -/
def set (h : Host) (lim : Nat) (s : State) (id occ : Int) (v : Val) : Result :=
  if v.type ≠ typeOf id then some (.invalidArgument, s) else change h lim s id occ (v.bytes h)

/-- `cut::remove`, `field.cpp:366-399`. -/
def remove (h : Host) (s : State) (id occ : Int) : Result :=
  match s.at id occ with
  | none => some (.outOfBounds, s)
  | some o =>
    match rdLong h s.data (o + sizeOffset) with
    | none => none
    | some size =>
      if 0 ≤ dataOffset + size ∧ 0 ≤ o ∧ o + dataOffset + size ≤ s.data.length then
        some (.success, ⟨s.data.take o.toNat ++ s.data.drop (o + dataOffset + size).toNat, (s.index.drop id occ.toNat).shift o (0 - dataOffset - size)⟩)
      else none

/-- `cut::data`, `field.cpp:402-420`; `casual_field_remove_occurrence`, `:1812-1815`. -/
def cut (h : Host) (s : State) (id occ : Int) : Result :=
  if ¬ id > 0 then some (.invalidArgument, s) else remove h s id occ

/-- `while( occurrences) cut::data( buffer, id, --occurrences)`, `field.cpp:1804-1807`. -/
def cutLast (h : Host) (id : Int) : Nat → State → Option State
  | 0, s => some s
  | n + 1, s => match cut h s id n with
    | some (_, s') => cutLast h id n s'
    | none => none

/-- `explore::count`, `field.cpp:584-599`. -/
def count (s : State) (id : Int) : Nat := (s.index.look id).length

/-- `casual_field_remove_id`, `field.cpp:1795-1810`. -/
def removeId (h : Host) (s : State) (id : Int) : Result := (cutLast h id (count s id) s).map fun s' => (.success, s')

/-- `casual_field_remove_all`, `field.cpp:422-437`, `:1790-1793`. -/
def removeAll (_ : State) : Result := some (.success, ⟨[], []⟩)

/-- `casual_field_occurrences_of_id`, `field.cpp:817-826`, with `occurrences` given. -/
def occurrencesOf (s : State) (id : Int) : Except Code Nat := if id ≠ 0 then .ok (count s id) else .error .invalidArgument

/-- `casual_field_occurrences_in_buffer`, `field.cpp:601-619`, `:828-836`. (`accumulate` with an `int`: overflow is not considered.) -/
def occurrences (s : State) : Nat := s.index.foldl (fun n f => n + f.2.length) 0

/-- The types of value that can be asked for. -/
inductive Kind | short | long | char | float | double | string | binary
  deriving DecidableEq, Repr

/-- The type in the name of the function, `field.h:31-37`. -/
def Kind.type : Kind → Int
  | .short => 1 | .long => 2 | .char => 3 | .float => 4 | .double => 5 | .string => 6 | .binary => 7

/-- A call that reads: a value, a code, or undefined. -/
inductive Got (α : Type) | ok (a : α) | code (c : Code) | wild
  deriving DecidableEq, Repr

/-- A string that a pointer into the memory points to, as the caller reads it; it has to end within the memory. -/
def rdStr (data : List Byte) (off : Int) : Option (List Byte) :=
  if 0 ≤ off ∧ (0 : Byte) ∈ data.drop off.toNat then some (cstr (data.drop off.toNat)) else none

/-- `get::select`, `field.cpp:301-327`, of a number of type `T` (`w` bytes, the size in the header is not looked at). -/
def rdNum (h : Host) (data : List Byte) (off : Int) (w : Nat) : Option Nat := (rd data off w).map (dec h)

/-- `Option` to `Got`: nothing is undefined. -/
def Got.of {α : Type} : Option α → Got α
  | some a => .ok a
  | none => .wild

/-- The bytes of numbers read are in range. -/
def num (m : Nat) (n : Nat) (hm : 0 < m) : Fin m := ⟨n % m, Nat.mod_lt _ hm⟩

/-- `get::select` and what the caller reads through the pointer it gets, `field.cpp:301-327`. -/
def select (h : Host) (s : State) (o : Int) : Kind → Option Val
  | .short => (rdNum h s.data (o + dataOffset) 2).map fun n => .short (num _ n (by decide))
  | .long => (rdNum h s.data (o + dataOffset) 8).map fun n => .long (num _ n (by decide))
  | .char => (rdNum h s.data (o + dataOffset) 1).map fun n => .char (num _ n (by decide))
  | .float => (rdNum h s.data (o + dataOffset) 4).map fun n => .float (num _ n (by decide))
  | .double => (rdNum h s.data (o + dataOffset) 8).map fun n => .double (num _ n (by decide))
  | .string => (rdStr s.data (o + dataOffset)).map .string
  | .binary => match rdLong h s.data (o + sizeOffset) with
    | some size => if 0 ≤ size then (rd s.data (o + dataOffset) size.toNat).map .binary else none
    | none => none

/-- `get::data`, `field.cpp:330-352`, for `casual_field_get_char` ... `casual_field_get_binary`, `:927-960`. -/
def get (h : Host) (s : State) (id occ : Int) (k : Kind) : Got Val :=
  if k.type ≠ typeOf id then .code .invalidArgument else
    match s.at id occ with
    | none => .code .outOfBounds
    | some o => .of (select h s o k)

/-- `casual_field_explore_value` for strings and binaries, `field.cpp:791-815`, `explore::value`, `:533-549`. -/
def exploreValue (h : Host) (s : State) (id occ : Int) : Got Int :=
  match s.at id occ with
  | none => .code .outOfBounds
  | some o => .of (rdLong h s.data (o + sizeOffset))

/-- `iterate::first` and `iterate::next`, `casual_field_next`, `field.cpp:625-683`, `:1817-1833`. In: id and index; out: code, id and index. `++index` is done
even if the call fails. -/
def next (s : State) (id ix : Int) : Code × Int × Int :=
  if id = 0 then
    match s.index with
    | [] => (.outOfBounds, id, ix)
    | (k, _) :: _ => (.success, k, 0)
  else
    match s.index.dropWhile (fun f => f.1 ≠ id) with
    | [] => (.invalidArgument, id, ix)
    | (_, l) :: rest =>
      if ix + 1 < l.length then (.success, id, ix + 1)
      else match rest with
        | [] => (.outOfBounds, id, ix + 1)
        | (k, _) :: _ => (.success, k, 0)

/-- What `casual_field_add_empty` adds, `field.cpp:902-924`. -/
def empty (id : Int) : Option Val :=
  match typeOf id with
  | 1 => some (.short 0) | 2 => some (.long 0) | 3 => some (.char 0) | 4 => some (.float 0) | 5 => some (.double 0)
  | 6 => some (.string []) | 7 => some (.binary []) | _ => none

/-- `casual_field_add_empty`, `field.cpp:902-924`. -/
def addEmpty (h : Host) (lim : Nat) (s : State) (id : Int) : Result :=
  match empty id with
  | some v => add h lim s id v
  | none => some (.invalidArgument, s)

/-- `casual_field_put_value`, `field.cpp:1091-1109`, with a value of the type of the id (`casual_field_add_value`, `casual_field_set_value` take the type from the
id, `:877-900`, `:1062-1089`). A relation: the function calls itself. -/
inductive Put (h : Host) (lim : Nat) (id ix : Int) (v : Val) : State → Result → Prop
  | add (s : State) (hi : ix < 0) : Put h lim id ix v s (add h lim s id v)
  | set (s : State) (hi : ¬ ix < 0) (hs : ∀ s', set h lim s id ix v ≠ some (.outOfBounds, s')) : Put h lim id ix v s (set h lim s id ix v)
  | stuck (s s' : State) (hi : ¬ ix < 0) (hs : set h lim s id ix v = some (.outOfBounds, s'))
      (he : ∀ s'', addEmpty h lim s' id ≠ some (.success, s'')) : Put h lim id ix v s (addEmpty h lim s' id)
  | again (s s' s'' : State) (r : Result) (hi : ¬ ix < 0) (hs : set h lim s id ix v = some (.outOfBounds, s'))
      (he : addEmpty h lim s' id = some (.success, s'')) (hp : Put h lim id ix v s'' r) : Put h lim id ix v s r

/-- `casual_field_copy_buffer`, `field.cpp:689-713`: the target is as the source. -/
def copyBuffer (_target source : State) : Result := some (.success, ⟨source.data, source.index⟩)

/-- `casual_field_copy_memory`, `field.cpp:715-741`: a new buffer is constructed and, if that succeeds, replaces the old one. -/
inductive CopyMemory (h : Host) (s : State) (mem : List Byte) : Result → Prop
  | ok (ix : Index) (hc : Constructs h mem (.ok ix)) : CopyMemory h s mem (some (.success, ⟨mem, ix⟩))
  | invalid (hc : Constructs h mem .invalid) : CopyMemory h s mem (some (.invalidArgument, s))
  | wild (hc : Constructs h mem .wild) : CopyMemory h s mem none

/-- `casual_field_plain_type_host_size`, `field.cpp:1712-1743`. -/
def plainSize (type : Int) : Option Nat :=
  match type with
  | 1 => some 2 | 2 => some 8 | 3 => some 1 | 4 => some 4 | 5 => some 8 | _ => none

/-- `casual_field_minimum_need`, `field.cpp:1745-1786`. -/
def minimumNeed (id : Int) : Option Nat :=
  match typeOf id with
  | 1 => some (16 + 2) | 2 => some (16 + 8) | 3 => some (16 + 1) | 4 => some (16 + 4) | 5 => some (16 + 8) | 6 => some (16 + 1) | 7 => some (16 + 0)
  | _ => none

/-- The `kind` that `casual_field_get_value` uses for a type, `field.cpp:968-1014`. -/
def kindOf (type : Int) : Option Kind :=
  match type with
  | 1 => some .short | 2 => some .long | 3 => some .char | 4 => some .float | 5 => some .double | 6 => some .string | 7 => some .binary | _ => none

/-- `casual_field_get_value`, `field.cpp:962-1018`, with `value` and `count` given: `count` in; what is written to `value`, and `count` after.
Strings and binaries are the bytes in the buffer, numbers the bytes in memory of the host. -/
def getValue (h : Host) (s : State) (id occ cnt : Int) : Got (List Byte) × Int :=
  match kindOf (typeOf id) with
  | none => (.code .invalidArgument, cnt)
  | some k =>
    match k with
    | .string | .binary =>
      match s.at id occ with
      | none => (.code .outOfBounds, cnt)
      | some o =>
        match rdLong h s.data (o + sizeOffset) with
        | none => (.wild, cnt)
        | some size =>
          if cnt < size then (.code .invalidArgument, cnt)
          else if 0 ≤ size then (.of (rd s.data (o + dataOffset) size.toNat), size)
          else (.wild, size)
    | k =>
      match plainSize (typeOf id) with
      | none => (.code .invalidArgument, cnt)
      | some w =>
        if cnt < w then (.code .invalidArgument, cnt)
        else match get h s id occ k with
          | .ok (.short n) => (.ok (mem h 2 n), w)
          | .ok (.long n) => (.ok (mem h 8 n), w)
          | .ok (.char n) => (.ok (mem h 1 n), w)
          | .ok (.float n) => (.ok (mem h 4 n), w)
          | .ok (.double n) => (.ok (mem h 8 n), w)
          | .ok _ => (.wild, w)
          | .code c => (.code c, w)
          | .wild => (.wild, w)

end Casual.Buffer.Field

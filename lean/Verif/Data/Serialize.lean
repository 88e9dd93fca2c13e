import Verif.Data.Bytes
/-!
# Binary archives

`/repo/middleware/common/include/common/serialize/native/binary.h`, `native/network.h`, `serialize/value.h`, `memory.h`, `network/byteorder.h`.

A value is written as a sequence of bytes, without names (`Property::order`), and read back into an object of the same type. What is read into is
part of the model: `read` takes the content the target has before. The build does not define `NDEBUG`, hence the `assert` of `memory.h:92` and
the `assertion` of `binary.h:213` end the process if there are not bytes enough; that, and exceptions, is `none`.
-/
namespace Casual.Data

/-- `binary::Policy`, `binary.h:33-61`, and `network::Policy`, `network.h:41-93`. -/
inductive Policy | native | network
  deriving DecidableEq, Repr

/-- The types an archive takes. Enumerators are their underlying type (`value.h:276-295`), durations and time points a count of nanoseconds
(`:656-701`), paths strings (`:733-751`). Types with a size or presence of members that depend on other members (`XID`,
`global::ID`) are in `Verif/Data/XidArchive.lean`. Floating point values are bit patterns. Multi-maps and multi-sets are not covered. -/
inductive Ty where
  /-- `bool` -/
  | bool
  /-- arithmetic types of `w` bytes -/
  | num (w : Nat)
  /-- `std::string`, `std::u8string`, `platform::binary::type` -/
  | bytes
  /-- arrays of `n` bytes, `value.h:520-536`, `Uuid` -/
  | fixed (n : Nat)
  /-- containers with `resize`: `std::vector`, `std::deque`, `std::list` -/
  | seq (t : Ty)
  /-- `std::map`, `std::unordered_map`: containers with `insert` of an entry -/
  | map (k v : Ty)
  /-- `std::set`, `std::unordered_set` -/
  | set (t : Ty)
  /-- `std::optional` and those like it -/
  | opt (t : Ty)
  /-- a composite without members -/
  | unit
  /-- a member and those after it -/
  | pair (a b : Ty)
  /-- `std::tuple` and `std::pair` with `n` elements, which are the members of `t` -/
  | tuple (n : Nat) (t : Ty)
  deriving DecidableEq, Repr

/-- The values of a type. A map (a set) is the list of its entries in the order it is traversed in. -/
def Ty.Val : Ty → Type
  | .bool => Bool
  | .num w => Fin (256 ^ w)
  | .bytes => List Byte
  | .fixed n => { l : List Byte // l.length = n }
  | .seq t => List t.Val
  | .map k v => List (k.Val × v.Val)
  | .set t => List t.Val
  | .opt t => Option t.Val
  | .unit => Unit
  | .pair a b => a.Val × b.Val
  | .tuple _ t => t.Val

def Ty.decEq : (t : Ty) → DecidableEq t.Val
  | .bool => inferInstanceAs (DecidableEq Bool)
  | .num w => inferInstanceAs (DecidableEq (Fin (256 ^ w)))
  | .bytes => inferInstanceAs (DecidableEq (List Byte))
  | .fixed n => inferInstanceAs (DecidableEq { l : List Byte // l.length = n })
  | .seq t => @instDecidableEqList _ t.decEq
  | .map k v => @instDecidableEqList _ (@instDecidableEqProd _ _ k.decEq v.decEq)
  | .set t => @instDecidableEqList _ t.decEq
  | .opt t => @Option.instDecidableEq _ t.decEq
  | .unit => inferInstanceAs (DecidableEq Unit)
  | .pair a b => @instDecidableEqProd _ _ a.decEq b.decEq
  | .tuple _ t => t.decEq

instance (t : Ty) : DecidableEq t.Val := t.decEq

/-- A value initialized object of the type, a fresh one. -/
def Ty.fresh : (t : Ty) → t.Val
  | .bool => false
  | .num w => ⟨0, Nat.pow_pos (by decide)⟩
  | .bytes => ([] : List Byte)
  | .fixed n => ⟨List.replicate n 0, List.length_replicate⟩
  | .seq t => ([] : List t.Val)
  | .map k v => ([] : List (k.Val × v.Val))
  | .set t => ([] : List t.Val)
  | .opt t => (none : Option t.Val)
  | .unit => ()
  | .pair a b => (a.fresh, b.fresh)
  | .tuple _ t => t.fresh

/-! ## Numbers -/

/-- Write an arithmetic value of `w` bytes: `Policy::write`, `binary.h:37-41`, `network.h:45-50`, with `memory::append`, `memory.h:53-64`. -/
def putNum (p : Policy) (h : Host) (w n : Nat) : List Byte :=
  match p with
  | .native => mem h w n
  | .network => mem h w (hton h w n)

/-- The next `n` bytes: `memory::copy`, `memory.h:85-97`, and `consume`, `binary.h:209-218`. -/
def getBytes (n : Nat) (bs : List Byte) : Option (List Byte × List Byte) :=
  if n ≤ bs.length then some (bs.take n, bs.drop n) else none

/-- Read an arithmetic value of `w` bytes: `Policy::read`, `binary.h:49-53`, `network.h:66-75`. -/
def getNum (p : Policy) (h : Host) (w : Nat) (bs : List Byte) : Option (Nat × List Byte) :=
  (getBytes w bs).map fun (l, r) =>
    (match p with
      | .native => ofMem h l
      | .network => hton h w (ofMem h l), r)

/-- `write_size`, `binary.h:119-122`, `network.h:58-63`; `read_size`, `binary.h:220-225`, `network.h:83-90`: a `long`. -/
def putSize (p : Policy) (h : Host) (n : Nat) : List Byte := putNum p h 8 n
def getSize (p : Policy) (h : Host) (bs : List Byte) : Option (Nat × List Byte) := getNum p h 8 bs

/-- A number as a value of `w` bytes (the conversion to the type of the target). -/
def toNum (w n : Nat) : Fin (256 ^ w) := ⟨n % 256 ^ w, Nat.mod_lt _ (Nat.pow_pos (by decide))⟩

/-! ## Write -/

/-- A `bool`, `binary.h:90-94`. -/
def putBool (p : Policy) (h : Host) (b : Bool) : List Byte := putNum p h 1 (if b then 1 else 0)

/-- Strings and binaries, `binary.h:96-112`. -/
def putBytes (p : Policy) (h : Host) (v : List Byte) : List Byte := putSize p h v.length ++ v

/-- Containers, `value.h:423-432`. -/
def putAll {α : Type} (p : Policy) (h : Host) (f : α → List Byte) (v : List α) : List Byte := putSize p h v.length ++ v.flatMap f

/-- An entry of a map, which is a pair, `value.h:377-383`. -/
def putEntry {κ ν : Type} (p : Policy) (h : Host) (f : κ → List Byte) (g : ν → List Byte) (e : κ × ν) : List Byte := putSize p h 2 ++ (f e.1 ++ g e.2)

/-- Optionals, `value.h:550-560`. -/
def putOpt {α : Type} (p : Policy) (h : Host) (f : α → List Byte) : Option α → List Byte
  | some x => putBool p h true ++ f x
  | none => putBool p h false

/-- `serialize::value::write` to a `basic_writer`: arithmetic `binary.h:90-94`; fixed arrays `:114-117`; composites `value.h:198-204`; tuples
`:377-383`. -/
def write (p : Policy) (h : Host) : (t : Ty) → t.Val → List Byte
  | .bool, v => putBool p h v
  | .num w, v => putNum p h w (v : Fin (256 ^ w)).val
  | .bytes, v => putBytes p h v
  | .fixed n, v => (v : { l : List Byte // l.length = n }).val
  | .seq t, v => putAll p h (write p h t) v
  | .map k w, v => putAll p h (putEntry p h (write p h k) (write p h w)) v
  | .set t, v => putAll p h (write p h t) v
  | .opt t, v => putOpt p h (write p h t) v
  | .unit, _ => []
  | .pair a b, v => write p h a (v : a.Val × b.Val).1 ++ write p h b (v : a.Val × b.Val).2
  | .tuple n t, v => putSize p h n ++ write p h t v

/-! ## Read -/

/-- Read a `bool`, `binary.h:173-178`. In the native archive the byte is copied over the object, other values than 0 and 1 are not a `bool` (undefined,
`none`); in the network archive it is converted, `byteorder.h:38`. -/
def getBool (p : Policy) (h : Host) (bs : List Byte) : Option (Bool × List Byte) :=
  (getNum p h 1 bs).bind fun x =>
    match p with
    | .native => if x.1 = 0 then some (false, x.2) else if x.1 = 1 then some (true, x.2) else none
    | .network => some (x.1 != 0, x.2)

/-- Strings and binaries, `binary.h:180-199`. A size that is negative (as `long`) can not be allocated. -/
def getString (p : Policy) (h : Host) (bs : List Byte) : Option (List Byte × List Byte) :=
  (getSize p h bs).bind fun x => if x.1 < 2 ^ 63 then getBytes x.1 x.2 else none

/-- Fixed arrays, `binary.h:201-205`. -/
def getFixed (n : Nat) (bs : List Byte) : Option ({ l : List Byte // l.length = n } × List Byte) :=
  if hn : n ≤ bs.length then some (⟨bs.take n, by simp [hn]⟩, bs.drop n) else none

/-- Read into every element of a sequence, `value.h:459-460`. -/
def readEach {α : Type} (f : α → List Byte → Option (α × List Byte)) : List α → List Byte → Option (List α × List Byte)
  | [], bs => some ([], bs)
  | x :: xs, bs => (f x bs).bind fun y => (readEach f xs y.2).map fun z => (y.1 :: z.1, z.2)

/-- `container.resize( size)`: elements that are there are kept, new ones are value initialized. -/
def resize {α : Type} (n : Nat) (d : α) (l : List α) : List α := l.take n ++ List.replicate (n - l.length) d

/-- Sequences, `value.h:454-461`. A size that is larger than what can be allocated, but not negative, is not modelled: those reads fail in the model only when
the bytes end. -/
def getSeq {α : Type} (p : Policy) (h : Host) (f : α → List Byte → Option (α × List Byte)) (d : α) (old : List α) (bs : List Byte) : Option (List α × List Byte) :=
  (getSize p h bs).bind fun x => if x.1 < 2 ^ 63 then readEach f (resize x.1 d old) x.2 else none

/-- `insert` of an entry: nothing happens if the key is there already. (The order of the entries is that of the insertions. In an ordered map that is
the order of the keys; entries arrive in that order if they were written by a writer.) -/
def insertEntry {ε κ : Type} [DecidableEq κ] (key : ε → κ) (m : List ε) (e : ε) : List ε :=
  if key e ∈ m.map key then m else m ++ [e]

/-- The loop `value.h:445-452`: read an entry and insert it. -/
def readInto {ε κ : Type} [DecidableEq κ] (key : ε → κ) (f : List Byte → Option (ε × List Byte)) : Nat → List ε → List Byte → Option (List ε × List Byte)
  | 0, m, bs => some (m, bs)
  | n + 1, m, bs => (f bs).bind fun x => readInto key f n (insertEntry key m x.1) x.2

/-- The number of rounds of that loop: `size` is a `long`. -/
def rounds (n : Nat) : Nat := if n < 2 ^ 63 then n else 0

/-- Maps and sets, `value.h:441-453`. What is in the target before is not removed. -/
def getInto {ε κ : Type} [DecidableEq κ] (p : Policy) (h : Host) (key : ε → κ) (f : List Byte → Option (ε × List Byte)) (old : List ε) (bs : List Byte) :
    Option (List ε × List Byte) :=
  (getSize p h bs).bind fun x => readInto key f (rounds x.1) old x.2

/-- Read one thing and then another. -/
def getPair {α β : Type} (f : List Byte → Option (α × List Byte)) (g : List Byte → Option (β × List Byte)) (bs : List Byte) : Option ((α × β) × List Byte) :=
  (f bs).bind fun x => (g x.2).map fun y => ((x.1, y.1), y.2)

/-- Tuples, `value.h:385-401`. -/
def getTuple {α : Type} (p : Policy) (h : Host) (n : Nat) (f : List Byte → Option (α × List Byte)) (bs : List Byte) : Option (α × List Byte) :=
  (getSize p h bs).bind fun x => if x.1 = n then f x.2 else none

/-- Optionals, `value.h:594-608`. If there is no value the target is left as it is. -/
def getOpt {α : Type} (p : Policy) (h : Host) (f : List Byte → Option (α × List Byte)) (old : Option α) (bs : List Byte) : Option (Option α × List Byte) :=
  (getBool p h bs).bind fun x => if x.1 then (f x.2).map fun y => (some y.1, y.2) else some (old, x.2)

/-- `serialize::value::read` from a `basic_reader`, into an object with content `old`: arithmetic `binary.h:173-178`; composites `value.h:206-215`. The entries
of maps and sets, and the content of optionals, are read into fresh objects (`:448`, `:602`). -/
def read (p : Policy) (h : Host) : (t : Ty) → t.Val → List Byte → Option (t.Val × List Byte)
  | .bool, _, bs => getBool p h bs
  | .num w, _, bs => (getNum p h w bs).map fun x => (toNum w x.1, x.2)
  | .bytes, _, bs => getString p h bs
  | .fixed n, _, bs => getFixed n bs
  | .seq t, old, bs => getSeq p h (read p h t) t.fresh old bs
  | .map k v, old, bs => getInto p h (Prod.fst : k.Val × v.Val → k.Val) (getTuple p h 2 (getPair (read p h k k.fresh) (read p h v v.fresh))) old bs
  | .set t, old, bs => getInto p h (id : t.Val → t.Val) (read p h t t.fresh) old bs
  | .opt t, old, bs => getOpt p h (read p h t t.fresh) old bs
  | .unit, _, bs => some ((), bs)
  | .pair a b, old, bs => getPair (read p h a (old : a.Val × b.Val).1) (read p h b (old : a.Val × b.Val).2) bs
  | .tuple n t, old, bs => getTuple p h n (read p h t old) bs

end Casual.Data

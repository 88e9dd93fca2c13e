import Verif.Buffer.Order
/-!
# Buffers that the user has handles to

Model of `middleware/common/include/common/buffer/pool.h`, `type.h`, `source/buffer/pool.cpp`, `type.cpp`, `x_octet.cpp`, `middleware/xatmi/source/xatmi/explicit/buffer.cpp`, and of what
`explicit/service.cpp` and `common/source/server/service.cpp` do with buffers. A handle is the address of the memory; where memory is allocated the address is a parameter, chosen by the
environment. An empty `std::vector` that has not allocated has the address null (0). Capacity, and what it means for field and order buffers to be allocated with a size, is not modelled.
-/
namespace Casual.Buffer.Pool
open Casual.Data Casual.Buffer.Field

/-- The pools: X_OCTET and the like (`x_octet.cpp`), CASUAL_OCTET (`octet.cpp`), CSTRING (`string.cpp`), CASUAL_FIELD and CASUAL_ORDER. -/
inductive Kind | plain | octet | string | record
  deriving DecidableEq, Repr

/-- The codes that the user sees. -/
inductive Err | argument | bufferInput | bufferOutput
  deriving DecidableEq, Repr

/-- An outcome: a value, an error code, undefined (reads or writes outside of the memory), or an exception that leaves the C-function (`std::terminate`). -/
inductive Res (α : Type) | ok (a : α) | error (c : Err) | wild | abort
  deriving DecidableEq, Repr

/-- `buffer::Buffer`, `type.h:172-203`. -/
structure Block where
  addr : Nat
  type : String
  data : List Byte
  inbound : Bool
  deriving DecidableEq, Repr

/-- A registered pool, `pool.h:232-341`. -/
structure Pool where
  kind : Kind
  types : List String
  blocks : List Block
  deriving DecidableEq, Repr

/-- `Payload`, `type.h:105-133`. -/
structure Payload where
  type : String
  data : List Byte
  deriving DecidableEq, Repr

/-- `Payload::null`, `type.cpp:63-66`. -/
def Payload.null (p : Payload) : Bool := p.type == "NULL"

/-- `Holder::m_pools`, `pool.h:215`. -/
abbrev Holder := List Pool

/-- `find_if` and then change what was found. -/
def modifyFirst {α : Type} (p : α → Bool) (f : α → α) : List α → List α
  | [] => []
  | a :: l => if p a then f a :: l else a :: modifyFirst p f l

/-- `manage_key`, `pool.h:183-186`, `:130`. -/
def Pool.manages (type : String) (p : Pool) : Bool := p.types.contains type

/-- `manage_buffer`, `pool.h:188-191`, `:267-270`. -/
def Pool.has (h : Nat) (p : Pool) : Bool := p.blocks.any (·.addr == h)

/-- The memory of a new buffer: `pool.h:251-254`, `octet.cpp:56-59`, `string.cpp:77-84`, `field.cpp:156-165`, `order.cpp:113-120`. -/
def Kind.fresh : Kind → Nat → List Byte
  | .plain, n => List.replicate n 0
  | .octet, n => List.replicate n 0
  | .string, n => Str.allocate n
  | .record, _ => []

/-- The memory after reallocate: `pool.h:256-265`, `octet.cpp:62-79`, `string.cpp:86-97`, `field.cpp:167-184`, `order.cpp:123-139`. -/
def Kind.resize : Kind → List Byte → Nat → List Byte
  | .plain, d, n => (d ++ List.replicate (n - d.length) 0).take n
  | .octet, d, n => Octet.reallocate d n
  | .string, d, n => Str.reallocate d n
  | .record, d, _ => d

/-- `transport`, `type.cpp:103-109`, `octet.cpp:34-39`, `string.cpp:59-65`, `field.cpp:126-130`, `order.cpp:89-93`: how many bytes are sent. -/
def Kind.transport : Kind → List Byte → Int → Res Int
  | .plain, d, user => if user > d.length then .error .argument else .ok user
  | .octet, d, _ => .ok d.length
  | .string, d, _ => match Str.transport d with
    | .ok n => .ok n
    | _ => .wild
  | .record, d, _ => .ok d.length

/-- `Holder::allocate`, `pool.cpp:58-62`, `casual_buffer_allocate`, `explicit/buffer.cpp:17-31`: `a` is the address that is allocated. -/
def allocate (ps : Holder) (type : String) (size : Int) (a : Nat) : Res Nat × Holder :=
  if ps.any (Pool.manages type) then
    (.ok a, modifyFirst (Pool.manages type) (fun p => { p with blocks := p.blocks ++ [⟨a, type, p.kind.fresh size.toNat, false⟩] }) ps)
  else (.error .bufferInput, ps)

/-- `Holder::reallocate`, `pool.cpp:64-70`, `casual_buffer_reallocate`, `explicit/buffer.cpp:33-47`: `a` is the address after. -/
def reallocate (ps : Holder) (h : Nat) (size : Int) (a : Nat) : Res Nat × Holder :=
  if ps.any (Pool.has h) then
    (.ok a, modifyFirst (Pool.has h) (fun p => { p with blocks := modifyFirst (·.addr == h) (fun b => { b with addr := a, data := p.kind.resize b.data size.toNat }) p.blocks }) ps)
  else (.error .argument, ps)

/-- What the functions for a buffer type do to the memory (`casual_string_set`, `casual_field_add_...`, ...), and what the user writes to it: `a` is the address after. -/
def mutate (ps : Holder) (h : Nat) (data : List Byte) (a : Nat) : Holder :=
  modifyFirst (Pool.has h) (fun p => { p with blocks := modifyFirst (·.addr == h) (fun b => { b with addr := a, data := data }) p.blocks }) ps

/-- The first with the address is erased, if it is not the inbound buffer, `pool.h:272-280`. -/
def eraseFirst (h : Nat) : List Block → List Block
  | [] => []
  | b :: l => if b.addr == h then (if b.inbound then b :: l else l) else b :: eraseFirst h l

/-- `Holder::deallocate`, `pool.cpp:77-84`, `casual_buffer_free`, `explicit/buffer.cpp:85-95`. -/
def deallocate (ps : Holder) (h : Nat) : Res Unit × Holder :=
  if h = 0 then (.ok (), ps)
  else if ps.any (Pool.has h) then (.ok (), modifyFirst (Pool.has h) (fun p => { p with blocks := eraseFirst h p.blocks }) ps)
  else (.error .argument, ps)

/-- The address of received memory. -/
def received (data : List Byte) (a : Nat) : Nat := if data = [] then 0 else a

/-- `Holder::adopt`, `pool.cpp:86-98`, `pool.h:287-291`: the buffer that a service is called with. -/
def adopt (ps : Holder) (p : Payload) (a : Nat) : Res Nat × Holder :=
  if p.null then (.ok 0, ps)
  else if ps.any (Pool.manages p.type) then
    (.ok (received p.data a), modifyFirst (Pool.manages p.type) (fun q => { q with blocks := q.blocks ++ [⟨received p.data a, p.type, p.data, true⟩] }) ps)
  else (.error .bufferInput, ps)

/-- `validate` of an inserted string, `string.cpp:99-105`, `:37-51`. -/
def valid (ps : Holder) (p : Payload) : Bool :=
  match ps.find? (Pool.manages p.type) with
  | some q => decide (q.kind = .string → (0 : Byte) ∈ p.data)
  | none => true

/-- `Holder::insert`, `pool.cpp:100-111`, `pool.h:282-285`: a buffer that is a reply. The handle and the size. -/
def insert (ps : Holder) (p : Payload) (a : Nat) : Res (Nat × Nat) × Holder :=
  if p.null then (.ok (0, 0), ps)
  else if ps.any (Pool.manages p.type) then
    if valid ps p then
      (.ok (received p.data a, p.data.length), modifyFirst (Pool.manages p.type) (fun q => { q with blocks := q.blocks ++ [⟨received p.data a, p.type, p.data, false⟩] }) ps)
    else (.wild, ps)
  else (.error .bufferInput, ps)

/-- `get_pool( handle)` and `m_pool.get( handle)`, `pool.cpp:38-44`, `pool.h:293-299`. -/
def lookup (ps : Holder) (h : Nat) : Option (Kind × Block) :=
  match ps.find? (Pool.has h) with
  | some p => (p.blocks.find? (·.addr == h)).map fun b => (p.kind, b)
  | none => none

/-- `payload::Send`, `type.h:140-168`: what goes out is `n` bytes from the start of the memory; outside of the memory that is undefined. -/
def prefixOf (d : List Byte) (n : Int) : Res (List Byte) := if 0 ≤ n ∧ n ≤ d.length then .ok (d.take n.toNat) else .wild

/-- `Holder::get( handle, size)`, `pool.cpp:113-119`, and what is sent of it, `pool.h:145-149`. -/
def get (ps : Holder) (h : Nat) (user : Int) : Res Payload :=
  if h = 0 then .ok ⟨"NULL", []⟩
  else match lookup ps h with
    | none => .error .argument
    | some (k, b) => match k.transport b.data user with
      | .ok n => match prefixOf b.data n with
        | .ok d => .ok ⟨b.type, d⟩
        | _ => .wild
      | .error c => .error c
      | _ => .wild

/-- `Holder::get( handle)`, `pool.cpp:121-127`, `pool.h:139-143`; the type is what is asked for, `Holder::type`, `pool.cpp:72-75`. -/
def typeOf (ps : Holder) (h : Nat) : Res String :=
  if h = 0 then .ok "NULL"
  else match lookup ps h with
    | none => .error .argument
    | some (k, b) => match k.transport b.data b.data.length with
      | .ok _ => .ok b.type
      | .error c => .error c
      | _ => .wild

/-- The first with the address is removed, `pool.h:301-307`. -/
def removeFirst (h : Nat) : List Block → List Block
  | [] => []
  | b :: l => if b.addr == h then l else b :: removeFirst h l

/-- `Holder::release( handle, size)`, `pool.cpp:142-152`, `pool.h:153-164`, as `tpreturn` and `tpforward` use it, `common/source/server/service.cpp:86-94`. The buffer is taken out before the size is checked. -/
def release (ps : Holder) (h : Nat) (user : Int) : Res Payload × Holder :=
  if h = 0 then (.ok ⟨"NULL", []⟩, ps)
  else match lookup ps h with
    | none => (.error .argument, ps)
    | some _ => (get ps h user, modifyFirst (Pool.has h) (fun p => { p with blocks := removeFirst h p.blocks }) ps)

/-- `Holder::clear`, `pool.cpp:163-166`, `pool.h:316-323`: when the service is done, `common/source/server/context.cpp:231-235`. -/
def clear (ps : Holder) : Holder := ps.map fun p => { p with blocks := p.blocks.filter fun b => !b.inbound }

/-- `local::handle_reply_buffer`, `explicit/service.cpp:33-44`: a reply to `tpcall`, `tpgetrply` or (`conversation.cpp:155-182`) what `tprecv` receives, into `*odata`. -/
def reply (ps : Holder) (odata : Nat) (noChange : Bool) (p : Payload) (a : Nat) : Res (Nat × Nat) × Holder :=
  match typeOf ps odata with
  | .error c => (.error c, ps)
  | .wild => (.wild, ps)
  | .abort => (.abort, ps)
  | .ok t =>
    if noChange && p.type != t then (.error .bufferOutput, ps)
    else match deallocate ps odata with
      | (.ok _, ps) => insert ps p a
      | (.error c, ps) => (.error c, ps)
      | (_, ps) => (.wild, ps)

/-- The reply of a service that failed (`TPESVCFAIL`), `explicit/service.cpp:88-97`, `:176-186`: in a catch handler, an exception leaves the function. -/
def replyFail (ps : Holder) (odata : Nat) (p : Payload) (a : Nat) : Res (Nat × Nat) × Holder :=
  match deallocate ps odata with
  | (.ok _, ps) => match insert ps p a with
    | (.error _, ps) => (.abort, ps)
    | r => r
  | (.error _, ps) => (.abort, ps)
  | (_, ps) => (.wild, ps)

end Casual.Buffer.Pool

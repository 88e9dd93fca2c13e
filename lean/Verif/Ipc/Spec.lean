import Verif.Ipc.Model
/-!
# Specification of the interprocess communication

What is said about messages, without the cache and the loops of the code.
-/
namespace Casual.Ipc

/-- What tells one message from another, for the receiver: type and correlation. -/
def Msg.key (m : Msg) : Nat × Nat := (m.type, m.corr)
def Frag.key (f : Frag) : Nat × Nat := (f.type, f.corr)
def Complete.key (c : Complete) : Nat × Nat := (c.type, c.corr)

/-- The number of datagrams of a message with parts of size `n`: an empty message is one (empty) datagram. -/
def Msg.count (n : Nat) (m : Msg) : Nat := if m.payload.length = 0 then 1 else (m.payload.length + n - 1) / n

/-- The datagrams of a message: the parts from the offsets `0, n, 2n, ...`. -/
def Msg.frags (n : Nat) (m : Msg) : List Frag := (List.range (m.count n)).map fun j => m.part n (j * n)

/-- A message is given to be sent: it may be that a number of attempts break off after some datagrams, and the message is sent again
from its beginning; and that it is given up. -/
structure Item where
  msg : Msg
  /-- how many datagrams each attempt that has broken off has sent -/
  tries : List Nat
  /-- after these attempts the whole message has been sent -/
  done : Bool
  deriving DecidableEq, Repr

/-- The datagrams that are sent. -/
def Item.frags (n : Nat) (i : Item) : List Frag :=
  (i.tries.flatMap fun k => (i.msg.frags n).take k) ++ if i.done then i.msg.frags n else []

/-- What one sender sends: one message after the other. -/
def stream (n : Nat) (l : List Item) : List Frag := l.flatMap (Item.frags n)

/-- The messages of a sender that have been sent as a whole. -/
def whole (l : List Item) : List Msg := (l.filter (·.done)).map (·.msg)

/-- An attempt that has broken off has not sent everything; type and correlation of a message that has been given up are
not used again. -/
def Proper (n : Nat) (l : List Item) : Prop :=
  (∀ i ∈ l, ∀ k ∈ i.tries, k < i.msg.count n) ∧ l.Pairwise fun a b => a.done = false → a.msg.key ≠ b.msg.key

/-- The datagrams arrive in any order that keeps the order of each sender: with each datagram its sender, `w` is such an order. -/
def Interleaves (n : Nat) (senders : Nat → List Item) (w : List (Nat × Frag)) : Prop :=
  ∀ s, (w.filter fun x => x.1 == s).map (·.2) = stream n (senders s)

/-- Different senders do not use the same type and correlation. -/
def Apart (senders : Nat → List Item) : Prop :=
  ∀ s t, ∀ i ∈ senders s, ∀ j ∈ senders t, i.msg.key = j.msg.key → s = t

/-- The datagrams that arrive during some operations. -/
def arrivals : List Op → List Frag
  | [] => []
  | .arrive f :: os => f :: arrivals os
  | _ :: os => arrivals os

/-- The messages that have been received. -/
def received : List Got → List Msg
  | [] => []
  | .message m :: gs => m :: received gs
  | _ :: gs => received gs

/-- The messages with certain types and correlations. -/
def only (K : Nat × Nat → Bool) (l : List Msg) : List Msg := l.filter fun m => K m.key

/-- No operation treats the messages with these types and correlations differently: each `select` would take all of them or none; none is discarded.
(`discard` and `push` take messages of the type that is used to flush.) -/
def Op.even (K : Nat × Nat → Bool) : Op → Prop
  | .arrive _ => True
  | .select p => (∀ k, K k = true → p k.1 k.2 = true) ∨ (∀ k, K k = true → p k.1 k.2 = false)
  | .discard c => ∀ k, K k = true → k.2 ≠ c ∧ k.1 ≠ flushType
  | .push _ => ∀ k, K k = true → k.1 ≠ flushType

/-- The process does not itself push messages with the type and correlation of one that has been sent to it. -/
def Op.foreign (senders : Nat → List Item) : Op → Prop
  | .push m => ∀ s, ∀ i ∈ senders s, i.msg.key ≠ m.key
  | _ => True

end Casual.Ipc

namespace Casual.Ipc

/-- The messages that were to be sent to a destination, and if they have a callback. -/
def accepted (d : Nat) (tr : List Ev) : List (Msg × Bool) := tr.filterMap fun | .accept e m cb => if e = d then some (m, cb) else none | _ => none

/-- The datagrams that have been sent to a destination. -/
def sentTo (d : Nat) (tr : List Ev) : List Frag := tr.filterMap fun | .wire e f => if e = d then some f else none | _ => none

/-- The messages to a destination that are gone, and were told to be: with a callback or not. -/
def lostTo (d : Nat) (tr : List Ev) : List (Msg × Bool) := tr.filterMap fun | .lost e m cb => if e = d then some (m, cb) else none | _ => none

/-- The messages that wait to be sent to a destination. -/
def Coord.queueOf (c : Coord) (d : Nat) : List Pend := ((c.remotes.find? fun r => r.dest == d).map (·.queue)).getD []

end Casual.Ipc

import Verif.Service.Model
/-!
# What a user of the service manager sees

Functions of the trace alone: of the messages the service manager has received and sent, in their order.
-/
namespace Casual.Service

/-- The history `tr` contains `e`, after `a`. -/
def At (tr : List Ev) (a : List Ev) (e : Ev) : Prop := ∃ b, tr = a ++ e :: b

/-! ## Is an instance at work? -/

/-- The call the (sequential) instance with `ipc` has been handed out for: from the lookup reply, until the instance
acknowledges, the caller discards the lookup, the process dies or withdraws altogether, or its message queue turns out to be gone. -/
def useStep (ipc : Nat) (b : Option (Proc × Nat)) : Ev → Option (Proc × Nat)
  | .idle r .sequential t _ => if t.ipc = ipc then some (t, r.corr) else b
  | .recv (.ack p _ _ _) => if p.ipc = ipc then none else b
  | .recv (.discard _ corr _) => b.filter fun x => x.2 != corr
  | .recv (.exit pid _) => b.filter fun x => x.1.pid != pid
  | .recv (.advertise p _ add remove _) => if add = [] ∧ remove = [] then b.filter fun x => x.1.pid != p.pid else b
  | .recv (.creset p) => if p.ipc = ipc then none else b
  | .recv (.undelivered i) => if i = ipc then none else b
  | _ => b

def inUse (ipc : Nat) (tr : List Ev) : Option (Proc × Nat) := tr.foldl (useStep ipc) none

/-! ## What has an instance advertised? -/

/-- May a server with the alias offer the service? -/
def permitted (restriction : List (Nat × List Nat)) (alias name : Nat) : Bool :=
  match restriction.find? fun a => a.1 == alias with
  | some a => decide (name ∈ a.2)
  | none => true

/-- The sequential instance with `ipc` and the services it offers: what it has advertised and may offer, less what it has
withdrawn. Everything is withdrawn when it is asked to shut down; the instance is forgotten when it withdraws altogether, or dies. -/
def offerStep (res : List (Nat × List Nat)) (ipc : Nat) (b : Option (Proc × List Nat)) : Ev → Option (Proc × List Nat)
  | .recv (.advertise p alias add remove _) =>
    if add = [] ∧ remove = [] then b.filter fun x => x.1.pid != p.pid
    else if p.ipc = ipc then some ((b.getD (p, [])).1, ((b.getD (p, [])).2 ++ add.filter (permitted res alias)).filter fun n => n ∉ remove)
    else b
  | .recv (.exit pid _) => b.filter fun x => x.1.pid != pid
  | .recv (.creset p) => if p.ipc = ipc then none else b
  | .recv (.prepareShutdown _ _ ps _) => if ipc ∈ ps.map (·.ipc) then b.map fun x => (x.1, []) else b
  | _ => b

def offers (res : List (Nat × List Nat)) (ipc : Nat) (tr : List Ev) : Option (Proc × List Nat) := tr.foldl (offerStep res ipc) none

/-- An offer of a concurrent instance. -/
structure Offer where
  name : Nat
  order : Int
  hops : Int
  deriving DecidableEq, Repr

/-- An offer of a service that is offered already changes nothing. -/
def addOffer (os : List Offer) (o : Offer) : List Offer := if os.any (fun x => x.name == o.name) then os else os ++ [o]

/-- The concurrent instance with `ipc`, and what it offers. -/
def coffersStep (res : List (Nat × List Nat)) (ipc : Nat) (b : Option (Proc × List Offer)) : Ev → Option (Proc × List Offer)
  | .recv (.cadvertise p alias order add remove _) =>
    if p.ipc = ipc then
      some ((b.getD (p, [])).1, (((add.filter fun a => permitted res alias a.1).map fun a => (⟨a.1, order, a.2.1⟩ : Offer)).foldl addOffer (b.getD (p, [])).2).filter fun o => o.name ∉ remove)
    else b
  | .recv (.advertise p _ add remove _) => if add = [] ∧ remove = [] then b.filter fun x => x.1.pid != p.pid else b
  | .recv (.exit pid _) => b.filter fun x => x.1.pid != pid
  | .recv (.creset p) => if p.ipc = ipc then none else b
  | _ => b

def coffers (res : List (Nat × List Nat)) (ipc : Nat) (tr : List Ev) : Option (Proc × List Offer) := tr.foldl (coffersStep res ipc) none

/-- Comes before, or is as good: first the order counts, then the hops. -/
def Offer.le (a b : Offer) : Prop := a.order < b.order ∨ (a.order = b.order ∧ a.hops ≤ b.hops)

/-- `o` is an offer of the service `name`, of the concurrent instance with `ipc`. -/
def Offered (res : List (Nat × List Nat)) (tr : List Ev) (ipc : Nat) (p : Proc) (name : Nat) (o : Offer) : Prop :=
  ∃ os, coffers res ipc tr = some (p, os) ∧ o ∈ os ∧ o.name = name

/-- One of the best offers of the service. -/
def Best (res : List (Nat × List Nat)) (tr : List Ev) (ipc : Nat) (p : Proc) (name : Nat) : Prop :=
  ∃ o, Offered res tr ipc p name o ∧ ∀ ipc' p' o', Offered res tr ipc' p' name o' → o.le o'

/-- The concurrent instances handed out for a transaction, since it last was ended. -/
def handedStep (t : Nat) (b : List Nat) : Ev → List Nat
  | .idle r .concurrent p _ => if r.gtrid = some t then b ++ [p.ipc] else b
  | .recv (.disassociate t') => if t' = t then [] else b
  | _ => b

def handed (t : Nat) (tr : List Ev) : List Nat := tr.foldl (handedStep t) []

/-! ## The answers to lookups -/

/-- Is it an answer to a lookup with the correlation? -/
def isAnswer (c : Nat) : Ev → Bool
  | .idle r _ _ _ => r.corr == c
  | .absent _ corr _ => corr == c
  | .timedOut _ corr => corr == c
  | _ => false

def isAsked (c : Nat) : Ev → Bool
  | .recv (.lookup r _) => r.corr == c
  | _ => false

def isDiscard (c : Nat) : Ev → Bool
  | .recv (.discard _ corr _) => corr == c
  | _ => false

/-- How many answers to lookups with the correlation have been sent. -/
def answers (c : Nat) (tr : List Ev) : Nat := tr.countP (isAnswer c)
/-- How many lookups with the correlation have been received. -/
def asked (c : Nat) (tr : List Ev) : Nat := tr.countP (isAsked c)
/-- How often has it been asked to discard a lookup with the correlation. -/
def discards (c : Nat) (tr : List Ev) : Nat := tr.countP (isDiscard c)
/-- How many lookups with the correlation are waiting. -/
def State.waiting (s : State) (c : Nat) : Nat := s.lookups.countP fun l => l.req.corr == c

/-- An answer goes to who has asked, and about what has been asked. -/
def GoodAnswer (a : List Ev) : Ev → Prop
  | .idle r _ _ _ => ∃ e, .recv (.lookup r e) ∈ a
  | .absent to corr name => ∃ r e, .recv (.lookup r e) ∈ a ∧ r.proc.ipc = to ∧ r.corr = corr ∧ r.name = name
  | .timedOut to corr => ∃ r e, .recv (.lookup r e) ∈ a ∧ r.proc.ipc = to ∧ r.corr = corr
  | _ => True

/-! ## Deadlines -/

/-- Sorted by time. -/
def InOrder (l : List Entry) : Prop := l.Pairwise fun a b => a.when_ ≤ b.when_

/-- The timer goes off not later than the first deadline. -/
def State.covered (s : State) : Prop := ∀ d ∈ s.deadlines, ∃ t, s.timer = some t ∧ t ≤ d.when_

/-! ## The order a concurrent instance has announced -/

/-- The concurrent instance with `ipc`, and the order it announced last. -/
def announceStep (ipc : Nat) (b : Option (Proc × Int)) : Ev → Option (Proc × Int)
  | .recv (.cadvertise p _ order _ _ _) => if p.ipc = ipc then some ((b.map (·.1)).getD p, order) else b
  | .recv (.cinstance p _ order) => if p.ipc = ipc then b.map fun x => (x.1, order) else b
  | .recv (.advertise p _ add remove _) => if add = [] ∧ remove = [] then b.filter fun x => x.1.pid != p.pid else b
  | .recv (.exit pid _) => b.filter fun x => x.1.pid != pid
  | .recv (.creset p) => if p.ipc = ipc then none else b
  | _ => b

def announced (ipc : Nat) (tr : List Ev) : Option (Proc × Int) := tr.foldl (announceStep ipc) none

/-- Does the message come from an instance that keeps to the order it has announced (if it is known)? -/
def KeepsOrder (a : List Ev) : Ev → Prop
  | .recv (.cadvertise p _ order _ _ _) => ∀ q n, announced p.ipc a = some (q, n) → order = n
  | .recv (.cinstance p _ order) => ∀ q n, announced p.ipc a = some (q, n) → order = n
  | _ => True

/-! ## Who provides what -/

/-- The service `name` has the sequential instance of the process among its instances. -/
def State.provides (s : State) (p : Proc) (name : Nat) : Prop :=
  ∃ i x, Index.get s.seq i = some x ∧ x.proc = p ∧ ∃ v ∈ s.services, v.name = name ∧ i ∈ v.seqs

/-- The same for concurrent instances, with order and hops. -/
def State.cprovides (s : State) (p : Proc) (name : Nat) (order hops : Int) : Prop :=
  ∃ i x, Index.get s.con i = some x ∧ x.proc = p ∧ ∃ v ∈ s.services, v.name = name ∧ (⟨i, order, hops⟩ : ConE) ∈ v.cons

/-- Every instance a service has exists. -/
def State.sound (s : State) : Prop :=
  ∀ v ∈ s.services, (∀ i ∈ v.seqs, ∃ x, Index.get s.seq i = some x) ∧ ∀ c ∈ v.cons, ∃ x, Index.get s.con c.id = some x

/-! ## Messages -/

/-- Is the message a request to prepare the shutdown? -/
def In.isPrepare : In → Bool
  | .prepareShutdown .. => true
  | _ => false

/-- Does the message leave the concurrent instances of the processes `P` alone, and is a new one among them? -/
def Stays (P : Proc → Prop) : In → Prop
  | .cadvertise p _ _ _ _ _ => P p
  | .advertise p _ add remove _ => add = [] ∧ remove = [] → ∀ q, P q → q.pid ≠ p.pid
  | .exit pid _ => ∀ q, P q → q.pid ≠ pid
  | .creset p => ∀ q, P q → q.ipc ≠ p.ipc
  | _ => True

/-- A request whose lookup never gets a deadline of its own when it has to wait. -/
def Req.patient (r : Req) : Prop := r.sem = .noReply ∨ r.sem = .wait

/-- Is the message not a lookup that gets a deadline when it has to wait? -/
def In.patient : In → Prop
  | .lookup r _ => r.patient
  | _ => True

/-- Does the message come from (or tell of) a server that goes without having died: it withdraws altogether, is reset, or a lookup reply could
not be delivered to it? -/
def In.leaves : In → Prop
  | .advertise _ _ add remove _ => add = [] ∧ remove = []
  | .creset _ => True
  | .undelivered _ => True
  | _ => False

/-- Does the message free an instance without that anybody who waits gets it: the caller discards, a lookup reply could not be delivered; or is it
about a shutdown? -/
def In.frees : In → Prop
  | .discard .. => True
  | .undelivered _ => True
  | .prepareShutdown .. => True
  | _ => False

/-! ## Who waits for a reply? -/

/-- The instance with `ipc`, the caller that waits for its reply, and the correlation of the call: from the lookup reply (if a reply is
expected), until the instance acknowledges, the caller discards, the caller is told that the call has timed out, or the instance dies. -/
def servedStep (ipc : Nat) (b : Option (Proc × Proc × Nat)) : Ev → Option (Proc × Proc × Nat)
  | .idle r .sequential t _ => if t.ipc = ipc then (if r.noReply then none else some (t, r.proc, r.corr)) else b
  | .recv (.ack p _ _ _) => if p.ipc = ipc then none else b
  | .recv (.discard _ corr _) => b.filter fun x => x.2.2 != corr
  | .recv (.exit pid _) => b.filter fun x => x.1.pid != pid
  | .error to (some corr) .timeout => b.filter fun x => !(x.2.1.ipc == to && x.2.2 == corr)
  | _ => b

def served (ipc : Nat) (tr : List Ev) : Option (Proc × Proc × Nat) := tr.foldl (servedStep ipc) none

/-! ## Time -/

/-- The time at which a message is handled (for those for which it matters). -/
def In.time : In → Option Time
  | .advertise _ _ _ _ e | .cadvertise _ _ _ _ _ e | .lookup _ e | .ack _ _ _ e | .exit _ e | .prepareShutdown _ _ _ e | .alarm e | .discovered _ e => some e.now
  | _ => none

/-- The time it is. -/
def clockStep (b : Option Time) : Ev → Option Time
  | .recv m => m.time.or b
  | _ => b

def clock (tr : List Ev) : Option Time := tr.foldl clockStep none

/-- When the call is due that the (sequential) instance with `ipc` has been handed out for last: the time of the lookup reply, and the time
left that was told. -/
def dueStep (ipc : Nat) (b : Option Time × Option Time) (e : Ev) : Option Time × Option Time :=
  (clockStep b.1 e, match e with
    | .idle _ .sequential t left => if t.ipc = ipc then b.1.bind fun now => left.map fun x => now + x else b.2
    | _ => b.2)

def due (ipc : Nat) (tr : List Ev) : Option Time := (tr.foldl (dueStep ipc) (none, none)).2

/-- The caller is told at least to keep to its own deadline: the time left is not more than it has. -/
def GoodTime (a : List Ev) : Ev → Prop
  | .idle r kind _ left => kind ≠ .forward → ∀ c, r.deadline = some c → ∃ now x, clock a = some now ∧ left = some x ∧ x ≤ c - now
  | _ => True

/-- A caller is told that its call has timed out only if it waits for the reply of a call that was due before; and a server is killed only right after
that, for that call. -/
def GoodEnd (a : List Ev) : Ev → Prop
  | .error to (some k) .timeout => ∃ ipc t c dl now, served ipc a = some (t, c, k) ∧ c.ipc = to ∧ due ipc a = some dl ∧ clock a = some now ∧ dl < now
  | .assassinate pid => ∃ a' to k ipc t c dl now, a = a' ++ [.error to (some k) .timeout] ∧ served ipc a' = some (t, c, k) ∧ due ipc a' = some dl ∧ clock a' = some now ∧ dl < now ∧ t.pid = pid
  | _ => True

/-- Lookups with the same correlation are the same. -/
def SameRequest (tr : List Ev) : Prop := ∀ r r' e e', .recv (.lookup r e) ∈ tr → .recv (.lookup r' e') ∈ tr → r.corr = r'.corr → r = r'

/-- Who acknowledges a call, to which somebody awaits the reply, is who serves it. -/
def HonestAck (a : List Ev) : Ev → Prop
  | .recv (.ack p k _ _) => ∀ ipc t c, served ipc a = some (t, c, k) → ipc = p.ipc
  | _ => True

/-- Time does not go back. -/
def Forward (a : List Ev) : Ev → Prop
  | .recv m => ∀ t now, clock a = some t → m.time = some now → t ≤ now
  | _ => True

/-- Do the services of other domains that the message tells of have a timeout, of at most `d`? -/
def In.within (d : Int) : In → Prop
  | .cadvertise _ _ _ add _ _ => ∀ x ∈ add, ∃ y, x.2.2 = some y ∧ 0 < y ∧ y ≤ d
  | _ => True

/-- The time left that is told is at most `d`. -/
def GoodBound (d : Int) (_ : List Ev) : Ev → Prop
  | .idle _ kind _ left => kind ≠ .forward → ∃ x, left = some x ∧ x ≤ d
  | _ => True

end Casual.Service

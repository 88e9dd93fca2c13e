import Verif.Forward.Model
/-!
What a forward may do with a message: the words in which the properties are stated. Everything here
is a function of the log, not of the state of the model.
-/
namespace Casual.Forward

/-- The configuration that the forward has been created with. -/
def confOf (f : Nat) : List Obs → Option Conf
  | [] => none
  | .created g x :: l => if g = f then some x else confOf f l
  | _ :: l => confOf f l

/-- The number of instances that are configured now. Shutdown is to configure none. -/
def instancesOf (f : Nat) : List Obs → Nat
  | [] => 0
  | .instances g n :: l => if g = f then n else instancesOf f l
  | .shutdown :: _ => 0
  | _ :: l => instancesOf f l

/-- Has shutdown been requested? -/
def isDown (l : List Obs) : Bool := l.contains .shutdown

/-- Where a message is on its way through forward `f`, in transaction `t`. -/
inductive Phase
  | idle
  | asked (f : Nat) (t : Trid)                    -- dequeue is requested
  | held (f : Nat) (t : Trid) (m : Nat)           -- the message has arrived
  | looking (f : Nat) (t : Trid) (m : Nat)        -- the service is looked up
  | dropping (f : Nat) (t : Trid)                 -- the lookup is given up
  | found (f : Nat) (t : Trid) (m p : Nat)        -- the service is at `p`
  | calling (f : Nat) (t : Trid)                  -- the service is called
  | called (f : Nat) (t : Trid) (m : Nat)         -- the service has answered
  | storing (f : Nat) (t : Trid)                  -- enqueue is requested
  | stored (f : Nat) (t : Trid)                   -- enqueue is done
  | failed (f : Nat) (t : Trid)                   -- something has failed
  | committing (f : Nat) (t : Trid)
  | rolling (f : Nat) (t : Trid)
  | over
  | bad                                           -- the process has done what it must not do
  deriving DecidableEq, Repr

/-- What the process has received. `l` is what has happened before. An answer to what has not been
asked means nothing. -/
def hear (l : List Obs) : Phase → Obs → Phase
  | .asked f t, .got _ (some m) => if isDown l then .failed f t else .held f t m
  | .asked f t, .got _ none => .failed f t
  | .asked _ _, .forgetRequest _ => .over
  | .asked _ _, .forgotten _ true => .over
  | .asked _ _, .undelivered _ => .over
  | .looking f t m, .found _ (some p) => .found f t m p
  | .looking f t _, .found _ none => .failed f t
  | .dropping f t, .dropped _ => .failed f t
  | .calling f t, .replied _ true m => .called f t m
  | .calling f t, .replied _ false _ => .failed f t
  | .storing f t, .acked _ true => .stored f t
  | .storing f t, .acked _ false => .failed f t
  | .storing f t, .undelivered _ => .failed f t
  | .committing _ _, .committed _ .commit => .over
  | .committing _ _, .committed _ .rollback => .over
  | .rolling _ _, .rolledBack _ _ => .over
  | x, _ => x

/-- What the process sends: it may send this, in this phase only. -/
def say (l : List Obs) : Phase → Obs → Phase
  | .idle, .dequeue f _ t _ _ => .asked f t
  | .held f t m, .askService _ v =>
    if (confOf f l).any (fun x => x.target.svc == some v) then .looking f t m else .bad
  | .looking f t _, .dropService _ => .dropping f t
  | .found f t m p, .call _ t' m' p' => if t' = t ∧ m' = m ∧ p' = p then .calling f t else .bad
  | .held f t m, .enqueue _ t' n m' d _ _ =>
    if t' = t ∧ m' = m ∧ (confOf f l).any (fun x => x.target == .queue n && x.delayed == d) then .storing f t else .bad
  | .called f t m, .enqueue _ t' n m' d _ _ =>
    if t' = t ∧ m' = m ∧ (confOf f l).any (fun x => x.target.svc.isSome && x.target.dest == some n && x.delayed == d)
    then .storing f t else .bad
  | .stored f t, .commit _ t' => if t' = t then .committing f t else .bad
  | .called f t _, .commit _ t' =>
    if t' = t ∧ (confOf f l).any (fun x => x.target.svc.isSome && x.target.dest == none) then .committing f t else .bad
  | .failed f t, .rollback _ t' => if t' = t then .rolling f t else .bad
  | _, _ => .bad

/-- Received, about the message with this correlation. -/
def heard : Obs → Option Nat
  | .got c _ | .forgetRequest c | .forgotten c _ | .acked c _ | .found c _ | .dropped c | .replied c _ _
  | .committed c _ | .rolledBack c _ | .undelivered c => some c
  | _ => none

/-- Sent, for the message with this correlation. (To forget the dequeue may be asked for at any time.) -/
def said : Obs → Option Nat
  | .dequeue _ c _ _ _ | .enqueue c _ _ _ _ _ _ | .askService c _ | .dropService c | .call c _ _ _ | .commit c _
  | .rollback c _ => some c
  | _ => none

/-- Where the message with correlation `c` is. -/
def walk (c : Nat) : List Obs → Phase
  | [] => .idle
  | o :: l =>
    if heard o = some c then hear l (walk c l) o
    else if said o = some c then say l (walk c l) o
    else walk c l

/-- The message is waiting for an answer of another process. -/
def waiting : Phase → Bool
  | .asked _ _ | .looking _ _ _ | .dropping _ _ | .calling _ _ | .storing _ _ | .committing _ _ | .rolling _ _ => true
  | _ => false

/-- The correlations with which forward `f` has asked for messages. -/
def askedBy (f : Nat) : List Obs → List Nat
  | [] => []
  | .dequeue g c _ _ _ :: l => if g = f then c :: askedBy f l else askedBy f l
  | _ :: l => askedBy f l

/-- How many messages (or requests for messages) of forward `f` are under way. -/
def inFlight (f : Nat) (l : List Obs) : Nat := ((askedBy f l).filter fun c => waiting (walk c l)).length

/-- How often this has been heard, in this phase of the message that it is about. -/
def tally (k : Phase → Obs → Bool) : List Obs → Nat
  | [] => 0
  | o :: l => (match heard o with | some c => if k (walk c l) o then 1 else 0 | none => 0) + tally k l

/-- How many requests of forward `f` to dequeue could not be delivered. -/
def lostOf (f : Nat) : List Obs → Nat :=
  tally fun ph o => match ph, o with | .asked g _, .undelivered _ => g == f | _, _ => false

/-- How often the transaction manager has answered a commit of forward `f`. -/
def commitsOf (f : Nat) : List Obs → Nat :=
  tally fun ph o => match ph, o with | .committing g _, .committed _ e => g == f && e != .prepare | _, _ => false

/-- How often the transaction manager has answered a rollback of forward `f`. -/
def rollbacksOf (f : Nat) : List Obs → Nat :=
  tally fun ph o => match ph, o with | .rolling g _, .rolledBack _ _ => g == f | _, _ => false

end Casual.Forward

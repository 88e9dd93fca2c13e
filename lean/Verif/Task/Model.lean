/-
  Model of the task coordinator shared by the managers,
  `middleware/common/include/casual/task.h`.

  A *unit* holds an action, invoked when the unit starts, and a set of message
  handlers; a *group* starts all its units together and is done when all of
  them are; the *coordinator* runs its groups one after the other.

  Simplifications.  The C++ unit owns closures over the manager's state and over
  data shared between its action and its handlers.  Here that shared data is the
  unit's `body`, and the closures are the functions of `Ops`: they read and write
  the manager's state and the body.  No action or handler in the code calls back
  into the coordinator it runs in, so the functions below do not model that.
  `m_id`, a generated uuid, is the pair (number of the `then` call, position in the
  group), which is as unique.  The returned event lists are ghost: they record
  what happened, in order, and nothing reads them.
-/
namespace Casual.Task

/-- `unit::action::Outcome`, `task.h:45-49`. -/
inductive Outcome where
  | success | abort
deriving DecidableEq, Repr

/-- `unit::Dispatch`, `task.h:132-136`. -/
inductive Dispatch where
  | done | pending
deriving DecidableEq, Repr

/-- The identity of a unit (`m_id`, `task.h:248`): which `then` call brought it,
and its position in that group. -/
structure UId where
  seq : Nat
  idx : Nat
deriving DecidableEq, Repr

/-- `task::Unit`, `task.h:153-249`: the action is consumed when it is invoked
(`task.h:93-99`), so it is an option; the handlers are in `Ops.handle`. -/
structure TUnit (A B : Type) where
  id : UId
  action : Option A
  body : B
deriving DecidableEq, Repr

/-- What the closures of the units do.  `act` is the action's callable; `handle`
is `none` when the unit has no handler for the type of the message
(`task.h:167-170`). -/
structure Ops (S M A B : Type) where
  act : A → B → S → S × B × Outcome
  handle : B → M → Option (S → S × B × Dispatch)

/-- Ghost: what happened to a unit. -/
inductive Ev where
  /-- given to the coordinator -/
  | added (u : UId)
  /-- its action was invoked -/
  | started (u : UId)
  /-- its action said abort -/
  | aborted (u : UId)
  /-- one of its handlers said done -/
  | done (u : UId)
  /-- removed before it was started -/
  | cancelled (u : UId)
deriving DecidableEq, Repr

variable {S M A B : Type}

/-- `Unit::operator()()`, `task.h:174`, by `Action::operator()`, `task.h:94-99`: an
action already invoked is a success and does nothing. -/
def unitStart (ops : Ops S M A B) (u : TUnit A B) (s : S) : S × TUnit A B × Outcome :=
  match u.action with
  | some a =>
    let r := ops.act a u.body s
    (r.1, { u with action := none, body := r.2.1 }, r.2.2)
  | none => (s, u, .success)

/-- `Unit::operator()(message)`, `task.h:164-171`. -/
def unitMsg (ops : Ops S M A B) (m : M) (u : TUnit A B) (s : S) : S × TUnit A B × Dispatch :=
  match ops.handle u.body m with
  | some h =>
    let r := h s
    (r.1, { u with body := r.2.1 }, r.2.2)
  | none => (s, u, .pending)

/-- `Group::operator()()`, `task.h:270-275`: every unit is started, and those whose
action says abort are erased.  (The returned outcome is `abort` exactly when no
unit is left.) -/
def groupStart (ops : Ops S M A B) : List (TUnit A B) → S → S × List (TUnit A B) × List Ev
  | [], s => (s, [], [])
  | u :: us, s =>
    let r := unitStart ops u s
    let t := groupStart ops us r.1
    match r.2.2 with
    | .success => (t.1, r.2.1 :: t.2.1, .started u.id :: t.2.2)
    | .abort => (t.1, t.2.1, .started u.id :: .aborted u.id :: t.2.2)

/-- `Group::operator()(message)`, `task.h:263-268`: every unit gets the message, and
those that are done are erased.  (The result is `done` exactly when no unit is
left.) -/
def groupMsg (ops : Ops S M A B) (m : M) : List (TUnit A B) → S → S × List (TUnit A B) × List Ev
  | [], s => (s, [], [])
  | u :: us, s =>
    let r := unitMsg ops m u s
    let t := groupMsg ops m us r.1
    match r.2.2 with
    | .pending => (t.1, r.2.1 :: t.2.1, t.2.2)
    | .done => (t.1, t.2.1, .done u.id :: t.2.2)

/-- `Coordinator::operator()(message)`, `task.h:329-346`.  When the front group is
done it is popped, the next one is started - its outcome is not looked at - and
the same message is given to the coordinator again. -/
def coordMsg (ops : Ops S M A B) (m : M) :
    List (List (TUnit A B)) → S → S × List (List (TUnit A B)) × List Ev
  | [], s => (s, [], [])
  | g :: rest, s =>
    let r := groupMsg ops m g s
    if r.2.1.isEmpty then
      match rest with
      | [] => (r.1, [], r.2.2)
      | n :: rest' =>
        let t := groupStart ops n r.1
        let c := coordMsg ops m (t.2.1 :: rest') t.1
        (c.1, c.2.1, r.2.2 ++ t.2.2 ++ c.2.2)
    else (r.1, r.2.1 :: rest, r.2.2)
termination_by cs => cs.length

/-- `Coordinator::operator()()`, `task.h:348-355`. -/
def coordStart (ops : Ops S M A B) (cs : List (List (TUnit A B))) (s : S) :
    S × List (List (TUnit A B)) × List Ev :=
  match cs with
  | [] => (s, [], [])
  | g :: rest =>
    let r := groupStart ops g s
    if r.2.1.isEmpty then (r.1, rest, r.2.2) else (r.1, r.2.1 :: rest, r.2.2)

/-- `Coordinator::then( Group)`, `task.h:359-368`. -/
def coordThen (ops : Ops S M A B) (g : List (TUnit A B)) (cs : List (List (TUnit A B))) (s : S) :
    S × List (List (TUnit A B)) × List Ev :=
  let cs' := cs ++ [g]
  if cs'.length = 1 then
    let r := coordStart ops cs' s
    (r.1, r.2.1, (g.map fun u => .added u.id) ++ r.2.2)
  else (s, cs', g.map fun u => .added u.id)

/-- `Coordinator::cancel`, `task.h:387-391`: everything but the front group is
erased. -/
def coordCancel (cs : List (List (TUnit A B))) : List (List (TUnit A B)) × List Ev :=
  (cs.take 1, ((cs.drop 1).flatten).map fun u => .cancelled u.id)

/-- The units of a group as they are handed to `then`: nothing invoked yet. -/
def mkGroup (seq : Nat) (us : List (A × B)) : List (TUnit A B) :=
  us.zipIdx.map fun p => { id := ⟨seq, p.2⟩, action := some p.1.1, body := p.1.2 }

/-- A coordinator together with the state its units work on, the number of `then`
calls so far and the ghost log. -/
structure Coord (S A B : Type) where
  st : S
  conts : List (List (TUnit A B)) := []
  seq : Nat := 0
  log : List Ev := []

/-- What is done with a coordinator: a group is added, a message is dispatched, the
waiting groups are cancelled, or its owner changes the state it works on. -/
inductive Cmd (S M A B : Type) where
  | then_ (units : List (A × B))
  | msg (m : M)
  | cancel
  | owner (f : S → S)

/-- One use of the coordinator. -/
def Coord.step (ops : Ops S M A B) (c : Coord S A B) : Cmd S M A B → Coord S A B
  | .then_ us =>
    let r := coordThen ops (mkGroup c.seq us) c.conts c.st
    { st := r.1, conts := r.2.1, seq := c.seq + 1, log := c.log ++ r.2.2 }
  | .msg m =>
    let r := coordMsg ops m c.conts c.st
    { c with st := r.1, conts := r.2.1, log := c.log ++ r.2.2 }
  | .cancel =>
    let r := coordCancel c.conts
    { c with conts := r.1, log := c.log ++ r.2 }
  | .owner f => { c with st := f c.st }

/-- Any use of a coordinator, from its construction. -/
def Coord.run (ops : Ops S M A B) (s : S) (cmds : List (Cmd S M A B)) : Coord S A B :=
  cmds.foldl (Coord.step ops) { st := s }

end Casual.Task

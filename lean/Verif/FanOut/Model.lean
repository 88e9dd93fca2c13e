/-!
# Fan-out coordination

Models `fan::Out` in middleware/common/include/common/message/coordinate.h:25-218.

`M` is the reply message type with its correlation `corr : M → Nat`, `ID` the id type
(resource id / process id) and `K` stands for the callback closure (the model returns the
invoked callbacks with their arguments instead of running them: the callbacks in the code base
never call back into the same fan-out object).
-/
namespace Casual.FanOut

/-- `Pending::State`, coordinate.h:39-44. -/
inductive PState | pending | received | failed
  deriving DecidableEq, Repr

/-- `Pending`, coordinate.h:37-76. -/
structure Pending (ID : Type) where
  state : PState
  id : ID
  corr : Nat
  deriving DecidableEq, Repr

/-- `Entry`, coordinate.h:78-134.  `ptr` is the identity of the `shared_ptr`. -/
structure Entry (M ID K : Type) where
  ptr : Nat
  pending : List (Pending ID)
  received : List M
  callback : K

/-- An invocation of a callback `m_callback( received, outcome)`, coordinate.h:115. -/
structure Fired (M ID K : Type) where
  callback : K
  received : List M
  outcome : List (Pending ID)
  deriving DecidableEq

/-- `Out`, coordinate.h:31, 215-216.  `lookup` is `m_lookup` (the `shared_ptr` is represented
by the entry's `ptr`), `entries` is `m_entries`; `next` supplies fresh pointers. -/
structure Out (M ID K : Type) where
  lookup : List (Nat × Nat)
  entries : List (Entry M ID K)
  next : Nat

variable {M ID K : Type} [DecidableEq ID] (corr : M → Nat)

def Out.empty : Out M ID K := ⟨[], [], 0⟩

/-- `algorithm::any_of( m_pending, equal( State::pending))` negated; coordinate.h:110-117. -/
def Entry.isDone (e : Entry M ID K) : Bool := ! e.pending.any (fun p => p.state = .pending)

def Entry.fire (e : Entry M ID K) : Fired M ID K := ⟨e.callback, e.received, e.pending⟩

/-- Set the state of the first pending with correlation `c`
(`algorithm::find( m_pending, message.correlation)`; `found->state = received`),
coordinate.h:87-90. -/
def markReceived (c : Nat) : List (Pending ID) → List (Pending ID)
  | [] => []
  | p :: ps => if p.corr = c then { p with state := .received } :: ps else p :: markReceived c ps

/-- `Entry::coordinate` without the call to `done`, coordinate.h:85-94.  (The assertion that the
correlation is found holds by the invariant: lookup only has correlations of the entry.) -/
def Entry.coordinate (e : Entry M ID K) (m : M) : Entry M ID K :=
  { e with pending := markReceived (corr m) e.pending, received := e.received ++ [m] }

/-- `Entry::failed`, coordinate.h:96-108: new pending list (all with this id are failed,
regardless of state) and the correlations touched. -/
def Entry.failed (e : Entry M ID K) (id : ID) : Entry M ID K × List Nat :=
  ({ e with pending := e.pending.map (fun p => if p.id = id then { p with state := .failed } else p) },
   (e.pending.filter (fun p => p.id = id)).map (·.corr))

/-- `m_lookup.emplace( key, value)`: no effect if the key exists. -/
def emplace (l : List (Nat × Nat)) (k v : Nat) : List (Nat × Nat) :=
  if l.any (fun p => p.1 = k) then l else l ++ [(k, v)]

/-- `operator () ( pending, callback)`, coordinate.h:142-155. -/
def Out.register (o : Out M ID K) (ps : List (Nat × ID)) (k : K) : Out M ID K × List (Fired M ID K) :=
  let e : Entry M ID K := ⟨o.next, ps.map (fun p => ⟨.pending, p.2, p.1⟩), [], k⟩
  if e.isDone then (o, [e.fire])
  else
    (⟨e.pending.foldl (fun l p => emplace l p.corr e.ptr) o.lookup, o.entries ++ [e], o.next + 1⟩, [])

/-- `operator () ( message)`, coordinate.h:159-170.  A lookup hit whose entry is no longer in
`m_entries` is a no-op besides the lookup removal (unreachable, see `Inv`). -/
def Out.reply (o : Out M ID K) (m : M) : Out M ID K × List (Fired M ID K) :=
  match o.lookup.find? (fun p => p.1 = corr m) with
  | none => (o, [])
  | some (_, ptr) =>
    let lookup := o.lookup.filter (fun p => p.1 ≠ corr m)
    match o.entries.find? (fun e => e.ptr = ptr) with
    | none => ({ o with lookup := lookup }, [])
    | some e =>
      let e' := e.coordinate corr m
      if e'.isDone then
        ({ o with lookup := lookup, entries := o.entries.filter (fun x => x.ptr ≠ ptr) }, [e'.fire])
      else
        ({ o with lookup := lookup,
                  entries := o.entries.map (fun x => if x.ptr = ptr then e' else x) }, [])

/-- the loop of `erase_if` in `failed( id)`, coordinate.h:175-191. -/
def failLoop (id : ID) : List (Nat × Nat) → List (Entry M ID K) →
    List (Nat × Nat) × List (Entry M ID K) × List (Fired M ID K)
  | lookup, [] => (lookup, [], [])
  | lookup, e :: es =>
    let (e', cs) := e.failed id
    if cs = [] then
      let (l, es', f) := failLoop id lookup es
      (l, e' :: es', f)
    else
      let lookup' := cs.foldl (fun l c => l.filter (fun p => p.1 ≠ c)) lookup
      let (l, es', f) := failLoop id lookup' es
      if e'.isDone then (l, es', e'.fire :: f) else (l, e' :: es', f)

/-- `failed( id)`, coordinate.h:175-191. -/
def Out.fail (o : Out M ID K) (id : ID) : Out M ID K × List (Fired M ID K) :=
  let (l, es, f) := failLoop id o.lookup o.entries
  (⟨l, es, o.next⟩, f)

/-- The operations of a fan-out object. -/
inductive Op (M ID K : Type)
  | register (ps : List (Nat × ID)) (k : K)
  | reply (m : M)
  | fail (id : ID)

def Out.step (o : Out M ID K) : Op M ID K → Out M ID K × List (Fired M ID K)
  | .register ps k => o.register ps k
  | .reply m => o.reply corr m
  | .fail id => o.fail id

/-- A history of operations; all callbacks invoked, in order. -/
def Out.run (o : Out M ID K) : List (Op M ID K) → Out M ID K × List (Fired M ID K)
  | [] => (o, [])
  | op :: ops =>
    let (o', f) := o.step corr op
    let (o'', f') := o'.run ops
    (o'', f ++ f')

end Casual.FanOut

import Verif.Discovery.Spec

/-!
  The vocabulary of C149: what it means that something that was asked for is missing in an answer.
-/
namespace Casual.Discovery

/-- What can be asked for. -/
inductive Thing where
  | service (n : Name)
  | queue (n : Name)
deriving DecidableEq, Repr

def Want.wants (w : Want) : Thing → Prop
  | .service n => n ∈ w.services
  | .queue n => n ∈ w.queues

def Offer.has (o : Offer) : Thing → Prop
  | .service n => ∃ x ∈ o.services, x.name = n
  | .queue n => ∃ x ∈ o.queues, x.name = n

/-- The configuration in force: the last one received. -/
def currentStep (c : List SvcCfg) : Item → List SvcCfg
  | .inp (.configuration _ _ cs) => cs
  | _ => c

def currentCfg (services : List SvcCfg) (log : List Item) : List SvcCfg := log.foldl currentStep services

/-- The service that the name is a route to (the last one that is configured so), or the name itself. -/
def originUnder (c : List SvcCfg) (n : Name) : Name :=
  match c.reverse.find? (fun x => x.routes.contains n) with
  | some x => x.name
  | none => n

/-- The names under which the service is known in this domain: its routes if it is configured, or its name. -/
def namesUnder (c : List SvcCfg) (n : Name) : List Name :=
  match c.reverse.find? (fun x => x.name == n) with
  | some x => x.routes
  | none => [n]

/-- The name that other domains are asked for. -/
def Thing.outside (c : List SvcCfg) : Thing → Thing
  | .service n => .service (originUnder c n)
  | .queue n => .queue n

/-- The answer of another domain has it. -/
def Offer.gives (c : List SvcCfg) (o : Offer) : Thing → Prop
  | .service n => ∃ x ∈ o.services, n ∈ namesUnder c x.name
  | .queue n => ∃ x ∈ o.queues, x.name = n

/-- The process has ended, or its queue was removed. -/
def Gone (log : List Item) (p : Handle) : Prop := Item.inp (.exit p.pid) ∈ log ∨ Item.inp (.ipcDestroyed p.ipc) ∈ log

/-- In `rest`, that comes after `start`, the provider was asked to discover `t` in other domains: it could not be reached, or it has
gone since, or it has answered without `t`. -/
def Denied (services : List SvcCfg) (start rest : List Item) (t : Thing) (p : Handle) : Prop :=
  ∃ c w, w.wants (t.outside (currentCfg services start)) ∧
    (Item.lost (.request p c w) ∈ rest ∨
     (Item.out (.request p c w) ∈ rest ∧
      (Gone rest p ∨ ∃ pre o post, rest = pre ++ .inp (.reply c o) :: post ∧ ¬ o.gives (currentCfg services (start ++ pre)) t)))

/-- In `rest` the provider was asked for `w` in this domain: it could not be reached, or it has gone since, or it has answered without `t`. -/
def LookedUp (rest : List Item) (scope : Scope) (w : Want) (t : Thing) (p : Handle) : Prop :=
  ∃ c, Item.lost (.lookup p c scope w) ∈ rest ∨
    (Item.out (.lookup p c scope w) ∈ rest ∧ (Gone rest p ∨ ∃ o, Item.inp (.lookupReply c o) ∈ rest ∧ ¬ o.has t))

/-- Since the message `i` was received every provider that can discover (and was registered when the discovery began) was asked
for `t`, in vain. -/
def Nowhere (services : List SvcCfg) (log : List Item) (i : Input) (t : Thing) : Prop :=
  ∃ start rest, log = start ++ rest ∧ Item.inp i ∈ start ∧ ∀ p ∈ registered start, p.abilities.discover = true → Denied services start rest t p.process

/-- Since the request was received every provider that can look up (and was registered) was asked for `t`, in vain. -/
def NotHere (log : List Item) (scope : Scope) (r : Req) (t : Thing) : Prop :=
  ∃ start rest, log = start ++ rest ∧ Item.inp (.request (decide (scope = .extended)) r) ∈ start ∧
    ∀ p ∈ registered start, p.abilities.lookup = true → LookedUp rest scope r.content t p.process

/-- What is asked for and missing in the answer is nowhere to be found. -/
def Thorough (services : List SvcCfg) (log : List Item) : Out → Prop
  | .apiReply d c o => ∃ r, Item.inp (.api r) ∈ log ∧ r.process.ipc = d ∧ r.corr = c ∧
      ∀ t, r.content.wants t → ¬ o.has t → Item.inp .shutdown ∈ log ∨ Nowhere services log (.api r) t
  | .reply d c o =>
      (∃ r, Item.inp (.request true r) ∈ log ∧ r.process.ipc = d ∧ r.corr = c ∧
        ∀ t, r.content.wants t → ¬ o.has t → Item.inp .shutdown ∈ log ∨ (NotHere log .extended r t ∧ Nowhere services log (.request true r) t)) ∨
      (∃ r, Item.inp (.request false r) ∈ log ∧ r.process.ipc = d ∧ r.corr = c ∧
        ∀ t, r.content.wants t → ¬ o.has t → Item.inp .shutdown ∈ log ∨ NotHere log .internal r t)
  | _ => True

/-- Everything that was sent was thorough when it was. -/
def AllThorough (services : List SvcCfg) (log : List Item) : Prop :=
  ∀ before o after, log = before ++ .out o :: after ∨ log = before ++ .lost o :: after → Thorough services before o

end Casual.Discovery

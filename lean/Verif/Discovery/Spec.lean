import Verif.Discovery.Model

/-!
  The vocabulary of the properties of discovery: functions of the log of what the process has received and sent.
-/
namespace Casual.Discovery

/-- What is asked of the process. -/
inductive Kind where
  | api | request | rediscovery
deriving DecidableEq, Repr

/-- A question: of which kind, where the answer goes, and its correlation. -/
structure Ask where
  kind : Kind
  ipc : Ipc
  corr : Corr
deriving DecidableEq, Repr

/-- What the input asks. -/
def Input.ask : Input → Option Ask
  | .api r => some ⟨.api, r.process.ipc, r.corr⟩
  | .request _ r => some ⟨.request, r.process.ipc, r.corr⟩
  | .rediscovery corr process => some ⟨.rediscovery, process.ipc, corr⟩
  | _ => none

/-- What the message answers. -/
def Out.answers : Out → Option Ask
  | .apiReply dst corr _ => some ⟨.api, dst, corr⟩
  | .reply dst corr _ => some ⟨.request, dst, corr⟩
  | .rediscoveryReply dst corr _ => some ⟨.rediscovery, dst, corr⟩
  | _ => none

def Item.asks (a : Ask) : Item → Bool
  | .inp i => decide (i.ask = some a)
  | _ => false

/-- An answer; if its destination can not be reached there is nobody to answer any more. -/
def Item.answers (a : Ask) : Item → Bool
  | .out o | .lost o => decide (o.answers = some a)
  | .inp _ => false

/-- How many times it was asked. -/
def received (a : Ask) (log : List Item) : Nat := log.countP (Item.asks a)

/-- How many times it was answered. -/
def answered (a : Ask) (log : List Item) : Nat := log.countP (Item.answers a)

/-! ### What the process itself asks the providers -/

inductive Part where
  | lookup | request | known
deriving DecidableEq, Repr

/-- Something asked of a provider. -/
structure Sub where
  part : Part
  corr : Corr
  process : Handle
deriving DecidableEq, Repr

/-- What providers owe an answer, after one more item. -/
def owedStep (w : List Sub) : Item → List Sub
  | .out (.lookup h c _ _) => w ++ [⟨.lookup, c, h⟩]
  | .out (.request h c _) => w ++ [⟨.request, c, h⟩]
  | .out (.known h c) => w ++ [⟨.known, c, h⟩]
  | .inp (.lookupReply c _) => w.filter fun x => !(x.part == .lookup && x.corr == c)
  | .inp (.reply c _) => w.filter fun x => !(x.part == .request && x.corr == c)
  | .inp (.knownReply c _) => w.filter fun x => !(x.part == .known && x.corr == c)
  | .inp (.exit pid) => w.filter fun x => !(x.process.pid == pid)
  | .inp (.ipcDestroyed ipc) => w.filter fun x => !(x.process.ipc == ipc)
  | _ => w

/-- What providers that are alive have been asked and have not answered. -/
def owed (log : List Item) : List Sub := log.foldl owedStep []

/-! ### Who is registered -/

/-- The providers, after one more item: who gets the reply to its registration is registered, the first time. -/
def registeredStep (ps : List Provider) : Item → List Provider
  | .out (.registrationReply h _ a) => if ps.any (·.process.ipc == h.ipc) then ps else ps ++ [{ process := h, abilities := a }]
  | .inp (.exit pid) => ps.filter fun p => !(p.process.pid == pid)
  | .inp (.ipcDestroyed ipc) => ps.filter fun p => !(p.process.ipc == ipc)
  | _ => ps

/-- The providers that are registered. -/
def registered (log : List Item) : List Provider := log.foldl registeredStep []

/-! ### What providers have said -/

/-- What providers have said in answers to lookups and to discoveries, in order. -/
def saidOf : Item → List Offer
  | .inp (.lookupReply _ o) | .inp (.reply _ o) => [o]
  | _ => []

def said (log : List Item) : List Offer := log.flatMap saidOf

/-- The configurations: the one the process started with, and those it has received. -/
def configurations (services : List SvcCfg) (log : List Item) : List (List SvcCfg) :=
  services :: log.flatMap fun
    | .inp (.configuration _ _ cs) => [cs]
    | _ => []

/-- Under some configuration `route` is a route to the service `origin`. -/
def RouteOf (cs : List (List SvcCfg)) (route origin : Name) : Prop :=
  ∃ c ∈ cs, ∃ x ∈ c, x.name = origin ∧ route ∈ x.routes

/-! ### What is asked for, and what is said -/

/-- Somebody in this domain, or another domain that lets us ask further, has asked for the name (`sel`: services or queues). -/
def Asked (sel : Want → List Name) (log : List Item) (n : Name) : Prop :=
  ∃ r : Req, (Item.inp (.api r) ∈ log ∨ Item.inp (.request true r) ∈ log) ∧ n ∈ sel r.content

/-- A provider has told that it knows of the name. -/
def KnownTo (sel : Want → List Name) (log : List Item) (n : Name) : Prop :=
  ∃ c w, Item.inp (.knownReply c w) ∈ log ∧ n ∈ sel w

/-- The name is configured for a connection that has told that it is new. -/
def Configured (sel : Want → List Name) (log : List Item) (n : Name) : Prop :=
  ∃ d : Direct, Item.inp (.direct d) ∈ log ∧ n ∈ sel d.configured

/-- The name, or the service that the name is a route to, of one of `P`. -/
def Outside (services : List SvcCfg) (log : List Item) (P : Name → Prop) (n : Name) : Prop :=
  ∃ m, P m ∧ (n = m ∨ RouteOf (configurations services log) m n)

/-- A provider has said that there is the service, under this name or under one that this name is a route to. -/
def SaidSvc (services : List SvcCfg) (log : List Item) (x : Svc) : Prop :=
  ∃ o ∈ said log, ∃ y ∈ o.services, x = y ∨ (RouteOf (configurations services log) x.name y.name ∧ x.info = y.info)

def SaidQue (log : List Item) (x : Que) : Prop := ∃ o ∈ said log, x ∈ o.queues

/-- A provider of this domain has said that there is the service: in the answer to a lookup. -/
def LocalSvc (log : List Item) (x : Svc) : Prop := ∃ c o, Item.inp (.lookupReply c o) ∈ log ∧ x ∈ o.services
def LocalQue (log : List Item) (x : Que) : Prop := ∃ c o, Item.inp (.lookupReply c o) ∈ log ∧ x ∈ o.queues

/-- The content is part of what the request asks for, and has been said. -/
def Answers (services : List SvcCfg) (log : List Item) (r : Req) (o : Offer) : Prop :=
  (∀ x ∈ o.services, x.name ∈ r.content.services ∧ SaidSvc services log x) ∧
  (∀ x ∈ o.queues, x.name ∈ r.content.queues ∧ SaidQue log x)

/-- Sorted, and each name once. -/
abbrev Asc (l : List Name) : Prop := l.Pairwise (fun a b => a < b)

def Want.Asc (w : Want) : Prop := Discovery.Asc w.services ∧ Discovery.Asc w.queues

def Able (log : List Item) (h : Handle) (f : Ability → Bool) : Prop :=
  ∃ p ∈ registered log, p.process = h ∧ f p.abilities = true

/-- What may be sent, after `log`. -/
def Proper (domain : Domain) (services : List SvcCfg) (log : List Item) : Out → Prop
  | .registrationReply h c a => Item.inp (.registration c h a) ∈ log
  | .apiReply d c o => ∃ r, Item.inp (.api r) ∈ log ∧ r.process.ipc = d ∧ r.corr = c ∧ Answers services log r o
  | .reply d c o =>
    (∃ r, Item.inp (.request true r) ∈ log ∧ r.process.ipc = d ∧ r.corr = c ∧ Answers services log r o) ∨
    (∃ r, Item.inp (.request false r) ∈ log ∧ r.process.ipc = d ∧ r.corr = c ∧
      (∀ x ∈ o.services, LocalSvc log x) ∧ (∀ x ∈ o.queues, LocalQue log x))
  | .rediscoveryReply d c o => (∃ h, Item.inp (.rediscovery c h) ∈ log ∧ h.ipc = d) ∧
    (∀ x ∈ o.services, ∃ y ∈ said log, x ∈ y.services) ∧ (∀ x ∈ o.queues, SaidQue log x)
  | .lookup h _ scope w => Able log h (·.lookup) ∧ ∃ r, Item.inp (.request (decide (scope = .extended)) r) ∈ log ∧ r.content = w
  | .request h _ w => Able log h (·.discover) ∧ w.Asc ∧
    (∀ n ∈ w.services, Outside services log (fun m => Asked Want.services log m ∨ KnownTo Want.services log m) n) ∧
    (∀ n ∈ w.queues, Asked Want.queues log n ∨ KnownTo Want.queues log n)
  | .known h _ => Able log h (·.fetchKnown)
  | .explore d w => ((∃ x, Item.inp (.direct x) ∈ log ∧ x.process.ipc = d) ∨ (∃ x, Item.inp (.implicit x) ∈ log ∧ x.process.ipc = d)) ∧ w.Asc ∧
    (∀ n ∈ w.services, Outside services log (fun m => Asked Want.services log m ∨ KnownTo Want.services log m ∨ Configured Want.services log m) n) ∧
    (∀ n ∈ w.queues, Asked Want.queues log n ∨ KnownTo Want.queues log n ∨ Configured Want.queues log n)
  | .implicit d ds => (∃ h, h.ipc = d ∧ Able log h (·.topology)) ∧ domain ∈ ds ∧
    (∀ x ∈ ds, x = domain ∨ ∃ i, Item.inp (.implicit i) ∈ log ∧ x ∈ i.domains)
  | .configurationReply d c => ∃ h cs, Item.inp (.configuration c h cs) ∈ log ∧ h.ipc = d

/-- Everything that was sent (or could not be delivered) was proper when it was. -/
def AllProper (domain : Domain) (services : List SvcCfg) (log : List Item) : Prop :=
  ∀ before o after, log = before ++ .out o :: after ∨ log = before ++ .lost o :: after → Proper domain services before o

end Casual.Discovery

import Verif.Discovery.SpecMissing

/-!
  The vocabulary of C151: what has to follow a topology update and a rediscovery.
-/
namespace Casual.Discovery

/-- It was sent (and perhaps could not be delivered). -/
def Sent (log : List Item) (o : Out) : Prop := Item.out o ∈ log ∨ Item.lost o ∈ log

/-- In `mid`, that comes after `start`, every provider that knows names (and was registered) was asked for them: it could not be
reached, has gone, or all it knows of is in `tells`. -/
def Collected (start mid : List Item) (tells : Thing → Prop) : Prop :=
  ∀ p ∈ registered start, p.abilities.fetchKnown = true → ∃ c, Item.lost (.known p.process c) ∈ mid ∨
    (Item.out (.known p.process c) ∈ mid ∧ (Gone mid p.process ∨ ∃ k, Item.inp (.knownReply c k) ∈ mid ∧ ∀ t, k.wants t → tells t))

/-- The connection is told to explore `t` in `rest`, under the name that other domains know. -/
def Explores (services : List SvcCfg) (log rest : List Item) (dst : Ipc) (t : Thing) : Prop :=
  ∃ w, Sent rest (.explore dst w) ∧ w.wants (t.outside (currentCfg services log))

/-- Everybody who wants to know is told, with these domains and this one. -/
def Spread (domain : Domain) (log rest : List Item) (ds : List Domain) : Prop :=
  ∀ q ∈ registered log, q.abilities.topology = true → ∃ all, Sent rest (.implicit q.process.ipc all) ∧ domain ∈ all ∧ ∀ x ∈ ds, x ∈ all

/-- What has to follow a new connection: it explores everything that is known in this domain and what is configured for it, and the
upstream domains are told. -/
def DirectDone (domain : Domain) (services : List SvcCfg) (log : List Item) (d : Direct) : Prop :=
  ∃ start mid rest, log = start ++ mid ++ rest ∧ Item.inp (.direct d) ∈ start ∧
    Collected start mid (Explores services (start ++ mid) rest d.process.ipc) ∧
    (∀ t, d.configured.wants t → Explores services (start ++ mid) rest d.process.ipc t) ∧ Spread domain (start ++ mid) rest []

/-- What has to follow an update of another domain: the connection it came by explores everything that is known, and the upstream
domains are told, with all the domains of the update. -/
def ImplicitDone (domain : Domain) (services : List SvcCfg) (log : List Item) (i : Implicit) : Prop :=
  ∃ start mid rest, log = start ++ mid ++ rest ∧ Item.inp (.implicit i) ∈ start ∧
    Collected start mid (Explores services (start ++ mid) rest i.process.ipc) ∧ Spread domain (start ++ mid) rest i.domains

/-- What has to follow a rediscovery, before its answer: every provider that can discover is asked for everything that is known. -/
def RediscoveryDone (services : List SvcCfg) (log : List Item) (corr : Corr) (h : Handle) : Prop :=
  ∃ start mid rest, log = start ++ mid ++ rest ∧ Item.inp (.rediscovery corr h) ∈ start ∧
    ∀ q ∈ registered (start ++ mid), q.abilities.discover = true →
      Collected start mid (fun t => ∃ c w, Sent rest (.request q.process c w) ∧ w.wants (t.outside (currentCfg services (start ++ mid))))

end Casual.Discovery

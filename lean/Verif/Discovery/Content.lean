import Verif.Discovery.Proper
import Verif.Discovery.Props

/-!
  C146, C147 and C148: what is in the answers, in the requests to providers, and in the topology messages.
-/
namespace Casual.Discovery

/-- Everything that discovery sends is proper, given what was received before: `Proper` of `Spec.lean`. -/
theorem all_sent_is_proper (domain : Domain) (services : List SvcCfg) (xs : List (Env × Input)) :
    AllProper domain services (State.run domain services xs).log := (run_prov domain services xs).right

/-- The message was sent (or could not be delivered) after `before`. -/
def SentAfter (before : List Item) (o : Out) (log : List Item) : Prop := ∃ after, log = before ++ .out o :: after ∨ log = before ++ .lost o :: after

/-- C146.  The answer to a discovery of this domain belongs to a request that was received, has only names that the request asks
for, and only what a provider has said before. -/
theorem api_answer_asked_and_said (domain : Domain) (services : List SvcCfg) (xs : List (Env × Input)) (before : List Item) (dst : Ipc) (corr : Corr) (o : Offer)
    (h : SentAfter before (.apiReply dst corr o) (State.run domain services xs).log) :
    ∃ r, Item.inp (.api r) ∈ before ∧ r.process.ipc = dst ∧ r.corr = corr ∧
      (∀ x ∈ o.services, x.name ∈ r.content.services ∧ SaidSvc services before x) ∧ (∀ x ∈ o.queues, x.name ∈ r.content.queues ∧ SaidQue before x) := by
  obtain ⟨after, h⟩ := h
  exact all_sent_is_proper domain services xs before _ after h

/-- C146.  The answer to another domain: what is asked for and has been said; if the other domain wants to know only of what is in
this one, then only what providers of this domain have answered to a lookup. -/
theorem domain_answer_asked_and_said (domain : Domain) (services : List SvcCfg) (xs : List (Env × Input)) (before : List Item) (dst : Ipc) (corr : Corr) (o : Offer)
    (h : SentAfter before (.reply dst corr o) (State.run domain services xs).log) :
    (∃ r, Item.inp (.request true r) ∈ before ∧ r.process.ipc = dst ∧ r.corr = corr ∧
      (∀ x ∈ o.services, x.name ∈ r.content.services ∧ SaidSvc services before x) ∧ (∀ x ∈ o.queues, x.name ∈ r.content.queues ∧ SaidQue before x)) ∨
    (∃ r, Item.inp (.request false r) ∈ before ∧ r.process.ipc = dst ∧ r.corr = corr ∧
      (∀ x ∈ o.services, LocalSvc before x) ∧ (∀ x ∈ o.queues, LocalQue before x)) := by
  obtain ⟨after, h⟩ := h
  exact all_sent_is_proper domain services xs before _ after h

/-- C147.  A discovery that is sent on to other domains goes to a provider that is registered, and can discover; its names are
sorted and without duplicates; each is, or has as route, a name that somebody who may ask further has asked for, or that a provider
knows of. -/
theorem request_is_asked_for (domain : Domain) (services : List SvcCfg) (xs : List (Env × Input)) (before : List Item) (p : Handle) (corr : Corr) (w : Want)
    (h : SentAfter before (.request p corr w) (State.run domain services xs).log) :
    Able before p (·.discover) ∧ w.services.Pairwise (· < ·) ∧ w.queues.Pairwise (· < ·) ∧
    (∀ n ∈ w.services, Outside services before (fun m => Asked Want.services before m ∨ KnownTo Want.services before m) n) ∧
    (∀ n ∈ w.queues, Asked Want.queues before n ∨ KnownTo Want.queues before n) := by
  obtain ⟨after, h⟩ := h
  obtain ⟨h1, h2, h3⟩ := all_sent_is_proper domain services xs before _ after h
  exact ⟨h1, h2.1, h2.2, h3⟩

/-- C147.  If nobody who may ask further has asked for anything, and nothing is known, then nothing is asked of other domains: a
request that is restricted to this domain stays in it. -/
theorem local_requests_stay (domain : Domain) (services : List SvcCfg) (xs : List (Env × Input)) (before : List Item) (p : Handle) (corr : Corr) (w : Want)
    (h : SentAfter before (.request p corr w) (State.run domain services xs).log)
    (hn : ∀ i, Item.inp i ∈ before → (∀ r, i ≠ .api r) ∧ (∀ r, i ≠ .request true r) ∧ (∀ c k, i ≠ .knownReply c k)) : w = {} := by
  obtain ⟨_, _, _, h3, h4⟩ := request_is_asked_for domain services xs before p corr w h
  have none : ∀ sel n, ¬ (Asked sel before n ∨ KnownTo sel before n) := by
    rintro sel n (⟨r, hr | hr, _⟩ | ⟨c, k, hk, _⟩)
    · exact (hn _ hr).1 r rfl
    · exact (hn _ hr).2.1 r rfl
    · exact (hn _ hk).2.2 c k rfl
  have e1 : w.services = [] := List.eq_nil_iff_forall_not_mem.mpr (fun n hm => by
    obtain ⟨m, hm, _⟩ := h3 n hm
    exact none _ m hm)
  have e2 : w.queues = [] := List.eq_nil_iff_forall_not_mem.mpr (fun n hm => none _ n (h4 n hm))
  cases w
  simp only at e1 e2
  rw [e1, e2]

/-- C147.  A lookup goes to a provider that is registered and can look up, with the content and the scope of a request. -/
theorem lookup_is_asked_for (domain : Domain) (services : List SvcCfg) (xs : List (Env × Input)) (before : List Item) (p : Handle) (corr : Corr) (scope : Scope) (w : Want)
    (h : SentAfter before (.lookup p corr scope w) (State.run domain services xs).log) :
    Able before p (·.lookup) ∧ ∃ r, Item.inp (.request (decide (scope = .extended)) r) ∈ before ∧ r.content = w := by
  obtain ⟨after, h⟩ := h
  exact all_sent_is_proper domain services xs before _ after h

/-- C148.  The update of the topology that is sent on goes to a provider that wants to know, and names this domain, and otherwise
only domains of updates that were received. -/
theorem implicit_update_names_us (domain : Domain) (services : List SvcCfg) (xs : List (Env × Input)) (before : List Item) (dst : Ipc) (ds : List Domain)
    (h : SentAfter before (.implicit dst ds) (State.run domain services xs).log) :
    domain ∈ ds ∧ (∀ x ∈ ds, x = domain ∨ ∃ i, Item.inp (.implicit i) ∈ before ∧ x ∈ i.domains) ∧ ∃ p, p.ipc = dst ∧ Able before p (·.topology) := by
  obtain ⟨after, h⟩ := h
  obtain ⟨h1, h2, h3⟩ := all_sent_is_proper domain services xs before _ after h
  exact ⟨h2, h3, h1⟩

/-- C148.  An update that has passed through this domain already has no effect: it is not sent on, so that updates do not go round in
a circle of domains for ever. -/
theorem own_update_stops (s : State) (env : Env) (i : Implicit) (hi : s.domain ∈ i.domains) (hd : s.done = false) :
    s.step (env, .implicit i) = { s with log := s.log ++ [.inp (.implicit i)] } := by
  unfold State.step
  rw [hd]
  simp [State.handle, hi]

/-- C148.  A connection is told to explore only after it was the subject of a topology update, and only for what is asked for, known
or configured. -/
theorem explore_is_asked_for (domain : Domain) (services : List SvcCfg) (xs : List (Env × Input)) (before : List Item) (dst : Ipc) (w : Want)
    (h : SentAfter before (.explore dst w) (State.run domain services xs).log) :
    ((∃ x, Item.inp (.direct x) ∈ before ∧ x.process.ipc = dst) ∨ (∃ x, Item.inp (.implicit x) ∈ before ∧ x.process.ipc = dst)) ∧
    w.services.Pairwise (· < ·) ∧ w.queues.Pairwise (· < ·) ∧
    (∀ n ∈ w.services, Outside services before (fun m => Asked Want.services before m ∨ KnownTo Want.services before m ∨ Configured Want.services before m) n) ∧
    (∀ n ∈ w.queues, Asked Want.queues before n ∨ KnownTo Want.queues before n ∨ Configured Want.queues before n) := by
  obtain ⟨after, h⟩ := h
  obtain ⟨h1, h2, h3⟩ := all_sent_is_proper domain services xs before _ after h
  exact ⟨h1, h2.1, h2.2, h3⟩

/-! ### A concrete case -/

/-- Service 5 has the route 50; both domains answer; the request is sent on under the name of the service, and answered under that of
the route. -/
example :
    let xs := [(quiet, Input.registration 1 ⟨1, 11⟩ { discover := true }), (quiet, .registration 2 ⟨2, 12⟩ { lookup := true }),
      (quiet, .request true ⟨7, ⟨9, 19⟩, { services := [6, 50], queues := [3] }⟩),
      (quiet, .lookupReply 0 { queues := [{ name := 3, info := 1 }] }),
      (quiet, .reply 1 { services := [{ name := 5, info := 8 }] })]
    let log := (State.run 0 [{ name := 5, routes := [50] }] xs).log
    Item.out (.request ⟨1, 11⟩ 1 { services := [5, 6] }) ∈ log ∧ (owed log).length = 0 ∧
    Item.out (.reply 19 7 { services := [{ name := 50, info := 8 }], queues := [{ name := 3, info := 1 }] }) ∈ log := by
  decide +kernel

/-- A restricted request stays in the domain. -/
example :
    let xs := [(quiet, Input.registration 1 ⟨1, 11⟩ { discover := true, lookup := true }),
      (quiet, .request false ⟨7, ⟨9, 19⟩, { services := [6] }⟩), (quiet, .lookupReply 0 { services := [{ name := 6 }] })]
    let log := (State.run 0 [] xs).log
    Item.out (.lookup ⟨1, 11⟩ 0 .internal { services := [6] }) ∈ log ∧ Item.out (.reply 19 7 { services := [{ name := 6 }] }) ∈ log := by
  decide +kernel

/-- Updates of the topology. -/
example :
    let xs := [(quiet, Input.registration 1 ⟨1, 11⟩ { topology := true, fetchKnown := true }), (quiet, .implicit ⟨⟨4, 14⟩, [8, 9], 0⟩),
      (quiet, .direct ⟨⟨5, 15⟩, { services := [2] }, 0⟩), (quiet, .implicit ⟨⟨4, 14⟩, [0, 9], 0⟩),
      (quiet, .timeout), (quiet, .knownReply 0 { services := [1] })]
    let log := (State.run 0 [] xs).log
    Item.out (.implicit 11 [8, 9, 0]) ∈ log ∧ Item.out (.explore 14 { services := [1, 2] }) ∈ log ∧ Item.out (.explore 15 { services := [1, 2] }) ∈ log := by
  decide +kernel

end Casual.Discovery

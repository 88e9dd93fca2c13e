import Verif.Discovery.Waits
import Verif.Discovery.Sorted

/-!
  Where everything comes from (for C146, C147, C148).
-/
namespace Casual.Discovery

variable {domain : Domain} {cs : List SvcCfg}

/-! ### More in the log -/

theorem mem_left {α : Type} {a b : List α} {x : α} (h : x ∈ a) : x ∈ a ++ b := List.mem_append.mpr (Or.inl h)

theorem RouteOf.more {a b : List Item} {r o : Name} (h : RouteOf (configurations cs a) r o) : RouteOf (configurations cs (a ++ b)) r o := by
  obtain ⟨c, hc, x⟩ := h
  refine ⟨c, ?_, x⟩
  unfold configurations at *
  rw [List.flatMap_append]
  rw [← List.cons_append]
  exact mem_left hc

theorem said_more {a b : List Item} {o : Offer} (h : o ∈ said a) : o ∈ said (a ++ b) := by
  unfold said
  rw [List.flatMap_append]
  exact mem_left h

theorem Asked.more {sel : Want → List Name} {a b : List Item} {n : Name} (h : Asked sel a n) : Asked sel (a ++ b) n := by
  obtain ⟨r, h | h, hn⟩ := h
  · exact ⟨r, Or.inl (mem_left h), hn⟩
  · exact ⟨r, Or.inr (mem_left h), hn⟩

theorem KnownTo.more {sel : Want → List Name} {a b : List Item} {n : Name} (h : KnownTo sel a n) : KnownTo sel (a ++ b) n := by
  obtain ⟨c, w, h, hn⟩ := h
  exact ⟨c, w, mem_left h, hn⟩

theorem Outside.mono {a b : List Item} {P Q : Name → Prop} {n : Name} (h : Outside cs a P n) (hp : ∀ m, P m → Q m) : Outside cs (a ++ b) Q n := by
  obtain ⟨m, hm, e | e⟩ := h
  · exact ⟨m, hp m hm, Or.inl e⟩
  · exact ⟨m, hp m hm, Or.inr e.more⟩

theorem SaidSvc.more {a b : List Item} {x : Svc} (h : SaidSvc cs a x) : SaidSvc cs (a ++ b) x := by
  obtain ⟨o, ho, y, hy, e | ⟨e, i⟩⟩ := h
  · exact ⟨o, said_more ho, y, hy, Or.inl e⟩
  · exact ⟨o, said_more ho, y, hy, Or.inr ⟨e.more, i⟩⟩

theorem SaidQue.more {a b : List Item} {x : Que} (h : SaidQue a x) : SaidQue (a ++ b) x := by
  obtain ⟨o, ho, hx⟩ := h
  exact ⟨o, said_more ho, hx⟩

/-- The contents of an aggregated discovery. -/
def OfferSaid (cs : List SvcCfg) (log : List Item) (o : Offer) : Prop :=
  (∀ x ∈ o.services, SaidSvc cs log x) ∧ (∀ x ∈ o.queues, SaidQue log x)

def OfferRaw (log : List Item) (o : Offer) : Prop :=
  (∀ x ∈ o.services, ∃ y ∈ said log, x ∈ y.services) ∧ (∀ x ∈ o.queues, SaidQue log x)

theorem OfferSaid.more {a b : List Item} {o : Offer} (h : OfferSaid cs a o) : OfferSaid cs (a ++ b) o :=
  ⟨fun x hx => (h.1 x hx).more, fun x hx => (h.2 x hx).more⟩

theorem OfferRaw.more {a b : List Item} {o : Offer} (h : OfferRaw a o) : OfferRaw (a ++ b) o :=
  ⟨fun x hx => by obtain ⟨y, hy, h⟩ := h.1 x hx; exact ⟨y, said_more hy, h⟩, fun x hx => (h.2 x hx).more⟩

theorem OfferSaid.add {log : List Item} {a b : Offer} (h : OfferSaid cs log a) (h' : OfferSaid cs log b) : OfferSaid cs log (a.add b) :=
  ⟨fun x hx => (mem_offer_services hx).elim (h.1 x) (h'.1 x), fun x hx => (mem_offer_queues hx).elim (h.2 x) (h'.2 x)⟩

theorem OfferRaw.add {log : List Item} {a b : Offer} (h : OfferRaw log a) (h' : OfferRaw log b) : OfferRaw log (a.add b) :=
  ⟨fun x hx => (mem_offer_services hx).elim (h.1 x) (h'.1 x), fun x hx => (mem_offer_queues hx).elim (h.2 x) (h'.2 x)⟩

theorem OfferRaw.said {log : List Item} {a : Offer} (h : OfferRaw log a) : OfferSaid cs log a :=
  ⟨fun x hx => by obtain ⟨y, hy, h⟩ := h.1 x hx; exact ⟨y, hy, x, h, Or.inl rfl⟩, h.2⟩

/-- Wants of an aggregated discovery. -/
def WantFrom (cs : List SvcCfg) (log : List Item) (w : Want) : Prop :=
  (∀ n ∈ w.services, Outside cs log (Asked Want.services log) n) ∧ (∀ n ∈ w.queues, Asked Want.queues log n)

theorem WantFrom.more {a b : List Item} {w : Want} (h : WantFrom cs a w) : WantFrom cs (a ++ b) w :=
  ⟨fun n hn => (h.1 n hn).mono (fun m hm => hm.more), fun n hn => (h.2 n hn).more⟩

def LCb (log : List Item) : LookupCb → Prop
  | .internal r => Item.inp (.request false r) ∈ log
  | .extended r => Item.inp (.request true r) ∈ log

def KCb (log : List Item) : KnownCb → Prop
  | .rediscovery c h => Item.inp (.rediscovery c h) ∈ log
  | .topology direct implicit => (∀ d ∈ direct, Item.inp (.direct d) ∈ log) ∧ (∀ i ∈ implicit, Item.inp (.implicit i) ∈ log)

def DCb (cs : List SvcCfg) (log : List Item) : DiscCb → Prop
  | .aggregated o ds as _ => OfferSaid cs log o ∧ (∀ r ∈ ds, Item.inp (.request true r) ∈ log) ∧ (∀ r ∈ as, Item.inp (.api r) ∈ log)
  | .rediscovery o c h => OfferRaw log o ∧ Item.inp (.rediscovery c h) ∈ log

theorem LCb.more {a b : List Item} {cb : LookupCb} (h : LCb a cb) : LCb (a ++ b) cb := by
  cases cb <;> exact mem_left h

theorem KCb.more {a b : List Item} {cb : KnownCb} (h : KCb a cb) : KCb (a ++ b) cb := by
  cases cb with
  | rediscovery c p => exact mem_left h
  | topology direct implicit => exact ⟨fun d hd => mem_left (h.1 d hd), fun i hi => mem_left (h.2 i hi)⟩

theorem DCb.more {a b : List Item} {cb : DiscCb} (h : DCb cs a cb) : DCb cs (a ++ b) cb := by
  cases cb with
  | aggregated o ds as key => exact ⟨h.1.more, fun r hr => mem_left (h.2.1 r hr), fun r hr => mem_left (h.2.2 r hr)⟩
  | rediscovery o c p => exact ⟨h.1.more, mem_left h.2⟩

/-- What is accumulated. -/
structure AccOk (domain : Domain) (cs : List SvcCfg) (log : List Item) (a : Accumulate) : Prop where
  discovery : ∀ r ∈ a.discovery, Item.inp (.request true r) ∈ log
  api : ∀ r ∈ a.api, Item.inp (.api r) ∈ log
  direct : ∀ r ∈ a.direct, Item.inp (.direct r) ∈ log
  implicit : ∀ r ∈ a.implicit, Item.inp (.implicit r) ∈ log
  lookup : OfferSaid cs log a.lookup

theorem AccOk.more {a b : List Item} {x : Accumulate} (h : AccOk domain cs a x) : AccOk domain cs (a ++ b) x :=
  ⟨fun r hr => mem_left (h.discovery r hr), fun r hr => mem_left (h.api r hr), fun r hr => mem_left (h.direct r hr), fun r hr => mem_left (h.implicit r hr), h.lookup.more⟩

/-- The invariant. -/
structure Prov (domain : Domain) (cs : List SvcCfg) (s : State) : Prop where
  dom : s.domain = domain
  reg : s.providers = registered s.log
  origin : ∀ p ∈ s.toOrigin, RouteOf (configurations cs s.log) p.1 p.2
  routes : ∀ p ∈ s.toRoutes, ∀ r ∈ p.2, RouteOf (configurations cs s.log) r p.1
  lookup : ∀ e ∈ s.lookup, LCb s.log e.callback ∧ ∀ o ∈ e.received, ∃ c, Item.inp (.lookupReply c o) ∈ s.log
  known : ∀ e ∈ s.known, KCb s.log e.callback ∧ ∀ w ∈ e.received, ∃ c, Item.inp (.knownReply c w) ∈ s.log
  disc : ∀ e ∈ s.discovery, DCb cs s.log e.callback
  acc : AccOk domain cs s.log s.accumulate
  pend : ∀ p ∈ s.pending, WantFrom cs s.log p.2
  right : AllProper domain cs s.log

theorem AllProper.snoc {log : List Item} {y : Item} (h : AllProper domain cs log) (hy : ∀ o, y = .out o ∨ y = .lost o → Proper domain cs log o) :
    AllProper domain cs (log ++ [y]) := by
  intro before o after he
  have key : ∀ z, log ++ [y] = before ++ z :: after → (∃ a, log = before ++ z :: a) ∨ (before = log ∧ z = y) := by
    intro z e
    rcases List.eq_nil_or_concat after with ha | ⟨a, x, ha⟩
    · right
      rw [ha] at e
      have := List.append_inj' e rfl
      exact ⟨this.1.symm, by injection this.2 with h; exact h.symm⟩
    · left
      refine ⟨a, ?_⟩
      rw [ha, List.concat_eq_append, ← List.cons_append, ← List.append_assoc] at e
      exact (List.append_inj' e rfl).1
  rcases he with he | he
  · rcases key _ he with ⟨a, e⟩ | ⟨e1, e2⟩
    · exact h before o a (Or.inl e)
    · rw [e1]; exact hy o (Or.inl e2.symm)
  · rcases key _ he with ⟨a, e⟩ | ⟨e1, e2⟩
    · exact h before o a (Or.inr e)
    · rw [e1]; exact hy o (Or.inr e2.symm)

theorem registered_snoc (log : List Item) (y : Item) : registered (log ++ [y]) = registeredStep (registered log) y := by
  unfold registered
  rw [List.foldl_append]
  rfl

def Out.isReg : Out → Bool
  | .registrationReply .. => true
  | _ => false

theorem registered_sent (log : List Item) (o : Out) (h : o.isReg = false) (b : Bool) : registered (log ++ [if b then .out o else .lost o]) = registered log := by
  rw [registered_snoc]
  cases b
  · rfl
  · cases o <;> first | rfl | cases h

/-- One more item in the log, that does not change who is registered. -/
theorem Prov.grow {s : State} (h : Prov domain cs s) (y : Item) (hr : s.providers = registered (s.log ++ [y]))
    (hy : ∀ o, y = .out o ∨ y = .lost o → Proper domain cs s.log o) : Prov domain cs { s with log := s.log ++ [y] } where
  dom := h.dom
  reg := hr
  origin := fun p hp => (h.origin p hp).more
  routes := fun p hp r hr => (h.routes p hp r hr).more
  lookup := fun e he => ⟨(h.lookup e he).1.more, fun o ho => by obtain ⟨c, hc⟩ := (h.lookup e he).2 o ho; exact ⟨c, mem_left hc⟩⟩
  known := fun e he => ⟨(h.known e he).1.more, fun o ho => by obtain ⟨c, hc⟩ := (h.known e he).2 o ho; exact ⟨c, mem_left hc⟩⟩
  disc := fun e he => (h.disc e he).more
  acc := h.acc.more
  pend := fun p hp => (h.pend p hp).more
  right := h.right.snoc hy

theorem Prov.send {s : State} (h : Prov domain cs s) (env : Env) (d : Ipc) (o : Out) (ho : Proper domain cs s.log o) (hn : o.isReg = false := by rfl) :
    Prov domain cs (s.send env d o) := by
  unfold State.send
  refine h.grow _ (h.reg.trans (registered_sent _ _ hn _).symm) ?_
  · intro o' e
    split at e
    · rcases e with e | e
      · injection e with e; rw [← e]; exact ho
      · cases e
    · rcases e with e | e
      · cases e
      · injection e with e; rw [← e]; exact ho

/-- `P` stays true while more is sent. -/
theorem Prov.foldl {α : Type} (P : α → List Item → Prop) (hP : ∀ x a b, P x a → P x (a ++ b)) (f : State → α → State)
    (hg : ∀ s x, Grow s (f s x)) (hf : ∀ s x, Prov domain cs s → P x s.log → Prov domain cs (f s x)) :
    ∀ (l : List α) (s : State), Prov domain cs s → (∀ x ∈ l, P x s.log) → Prov domain cs (l.foldl f s)
  | [], _, h, _ => h
  | x :: xs, s, h, hl => by
    refine Prov.foldl P hP f hg hf xs _ (hf s x h (hl x (List.mem_cons_self ..))) ?_
    intro y hy
    obtain ⟨ys, e, _⟩ := hg s x
    rw [e]
    exact hP y _ _ (hl y (List.mem_cons_of_mem _ hy))

/-! ### The fields -/

theorem Prov.setDisc {s : State} (h : Prov domain cs s) (l : List DiscEntry) (hl : ∀ e ∈ l, DCb cs s.log e.callback) : Prov domain cs { s with discovery := l } :=
  ⟨h.dom, h.reg, h.origin, h.routes, h.lookup, h.known, hl, h.acc, h.pend, h.right⟩

theorem Prov.setLookup {s : State} (h : Prov domain cs s) (l : List (FanEntry Offer LookupCb))
    (hl : ∀ e ∈ l, LCb s.log e.callback ∧ ∀ o ∈ e.received, ∃ c, Item.inp (.lookupReply c o) ∈ s.log) : Prov domain cs { s with lookup := l } :=
  ⟨h.dom, h.reg, h.origin, h.routes, hl, h.known, h.disc, h.acc, h.pend, h.right⟩

theorem Prov.setKnown {s : State} (h : Prov domain cs s) (l : List (FanEntry Want KnownCb))
    (hl : ∀ e ∈ l, KCb s.log e.callback ∧ ∀ o ∈ e.received, ∃ c, Item.inp (.knownReply c o) ∈ s.log) : Prov domain cs { s with known := l } :=
  ⟨h.dom, h.reg, h.origin, h.routes, h.lookup, hl, h.disc, h.acc, h.pend, h.right⟩

theorem Prov.setAcc {s : State} (h : Prov domain cs s) (a : Accumulate) (ha : AccOk domain cs s.log a) : Prov domain cs { s with accumulate := a } :=
  ⟨h.dom, h.reg, h.origin, h.routes, h.lookup, h.known, h.disc, ha, h.pend, h.right⟩

/-! ### Requests -/

theorem Prov.requests {s : State} (h : Prov domain cs s) (env : Env) (f : Ability → Bool) (mk : Handle → Corr → Out)
    (hm : ∀ log' h c, (∃ b, log' = s.log ++ b) → Able log' h f → Proper domain cs log' (mk h c))
    (hn : ∀ h c, (mk h c).isReg = false := by intro h c; rfl) :
    Prov domain cs (s.requests env (s.providers.filter fun p => f p.abilities) mk).1 := by
  unfold State.requests
  suffices ∀ (ps : List Provider) (r : State × List Pend), Prov domain cs r.1 → (∃ b, r.1.log = s.log ++ b) → (∀ p ∈ ps, p ∈ r.1.providers ∧ f p.abilities = true) →
      Prov domain cs (ps.foldl (fun r p =>
    ({ r.1.send env p.process.ipc (mk p.process r.1.nextCorr) with nextCorr := r.1.nextCorr + 1 },
      if env.reach p.process.ipc then r.2 ++ [{ corr := r.1.nextCorr, process := p.process }] else r.2)) r).1 from
    this _ (s, []) h ⟨[], by simp⟩ (fun p hp => List.mem_filter.mp hp)
  intro ps
  induction ps with
  | nil => exact fun r h _ _ => h
  | cons p ps ih =>
    intro r hr hb hp
    obtain ⟨h1, h2⟩ := hp p (List.mem_cons_self ..)
    have hs := hr.send env p.process.ipc (mk p.process r.1.nextCorr) (hm _ _ _ hb ⟨p, hr.reg ▸ h1, rfl, h2⟩) (hn _ _)
    refine ih _ ?_ ?_ ?_
    · exact ⟨hs.dom, hs.reg, hs.origin, hs.routes, hs.lookup, hs.known, hs.disc, hs.acc, hs.pend, hs.right⟩
    · obtain ⟨b, hb⟩ := hb
      exact ⟨b ++ [_], by show r.1.log ++ _ = _; rw [hb, List.append_assoc]⟩
    · exact fun q hq => hp q (List.mem_cons_of_mem _ hq)

/-! ### Answers -/

theorem answer_ok {log : List Item} {o : Offer} (ho : OfferSaid cs log o) (r : Req) : Answers cs log r (o.answer r.content) := by
  refine ⟨?_, ?_⟩
  · intro x hx
    obtain ⟨n, hn, e⟩ := List.mem_filterMap.mp hx
    refine ⟨?_, ho.1 x (List.mem_of_find?_eq_some e)⟩
    have := List.find?_some e
    rw [eq_of_beq this]
    exact hn
  · intro x hx
    obtain ⟨n, hn, e⟩ := List.mem_filterMap.mp hx
    refine ⟨?_, ho.2 x (List.mem_of_find?_eq_some e)⟩
    have := List.find?_some e
    rw [eq_of_beq this]
    exact hn

theorem Prov.sendReply {s : State} (h : Prov domain cs s) (env : Env) (o : Offer) (ho : OfferSaid cs s.log o) (r : Req) (hr : Item.inp (.request true r) ∈ s.log) :
    Prov domain cs (s.sendReply env o r) := h.send env _ _ (Or.inl ⟨r, hr, rfl, rfl, answer_ok ho r⟩)

theorem Prov.sendApiReply {s : State} (h : Prov domain cs s) (env : Env) (o : Offer) (ho : OfferSaid cs s.log o) (r : Req) (hr : Item.inp (.api r) ∈ s.log) :
    Prov domain cs (s.sendApiReply env o r) := h.send env _ _ ⟨r, hr, rfl, rfl, answer_ok ho r⟩

theorem Prov.sendReplies {s : State} (h : Prov domain cs s) (env : Env) (o : Offer) (ho : OfferSaid cs s.log o) (rs : List Req)
    (hr : ∀ r ∈ rs, Item.inp (.request true r) ∈ s.log) : Prov domain cs (rs.foldl (fun s r => s.sendReply env o r) s) :=
  Prov.foldl (fun r log => OfferSaid cs log o ∧ Item.inp (.request true r) ∈ log) (fun x a b h => ⟨h.1.more, mem_left h.2⟩) _
    (fun s r => Grow.send s env _ _) (fun s r h hp => h.sendReply env o hp.1 r hp.2) rs s h (fun r hm => ⟨ho, hr r hm⟩)

theorem Prov.sendApiReplies {s : State} (h : Prov domain cs s) (env : Env) (o : Offer) (ho : OfferSaid cs s.log o) (rs : List Req)
    (hr : ∀ r ∈ rs, Item.inp (.api r) ∈ s.log) : Prov domain cs (rs.foldl (fun s r => s.sendApiReply env o r) s) :=
  Prov.foldl (fun r log => OfferSaid cs log o ∧ Item.inp (.api r) ∈ log) (fun x a b h => ⟨h.1.more, mem_left h.2⟩) _
    (fun s r => Grow.send s env _ _) (fun s r h hp => h.sendApiReply env o hp.1 r hp.2) rs s h (fun r hm => ⟨ho, hr r hm⟩)

theorem Grow.mem {s t : State} (h : Grow s t) {y : Item} (hy : y ∈ s.log) : y ∈ t.log := by
  obtain ⟨ys, e, _⟩ := h
  rw [e]
  exact mem_left hy

theorem Grow.pres {s t : State} (h : Grow s t) {P : List Item → Prop} (hP : ∀ a b, P a → P (a ++ b)) (hs : P s.log) : P t.log := by
  obtain ⟨ys, e, _⟩ := h
  rw [e]
  exact hP _ _ hs

theorem Grow.offerSaid {s t : State} (h : Grow s t) {o : Offer} (ho : OfferSaid cs s.log o) : OfferSaid cs t.log o := h.pres (P := fun l => OfferSaid cs l o) (fun _ _ h => OfferSaid.more h) ho

theorem Grow.wantFrom {s t : State} (h : Grow s t) {o : Want} (ho : WantFrom cs s.log o) : WantFrom cs t.log o := h.pres (P := fun l => WantFrom cs l o) (fun _ _ h => WantFrom.more h) ho

theorem Prov.discDone {s : State} (h : Prov domain cs s) (env : Env) (cb : DiscCb) (hc : DCb cs s.log cb) : Prov domain cs (s.discDone env cb) := by
  cases cb with
  | aggregated o ds as key =>
    have g : Grow s (as.foldl (fun s r => s.sendApiReply env o r) s) := Grow.foldl _ (fun s r => Grow.send s env _ _) as s
    exact (h.sendApiReplies env o hc.1 as hc.2.2).sendReplies env o (g.offerSaid hc.1) ds (fun r hr => g.mem (hc.2.1 r hr))
  | rediscovery o c p => exact h.send env _ _ ⟨⟨p, hc.2, rfl⟩, hc.1⟩

theorem Prov.discRelease {s : State} (h : Prov domain cs s) (cb : DiscCb) : Prov domain cs (s.discRelease cb) := by
  cases cb with
  | aggregated o ds as key =>
    exact ⟨h.dom, h.reg, h.origin, h.routes, h.lookup, h.known, h.disc, h.acc, fun p hp => h.pend p (List.mem_filter.mp hp).1, h.right⟩
  | rediscovery o c p => exact h

theorem Prov.discAdd {s : State} (h : Prov domain cs s) (env : Env) (e : DiscEntry) (he : DCb cs s.log e.callback) : Prov domain cs (s.discAdd env e) := by
  unfold State.discAdd
  split
  · exact (h.discDone env _ he).discRelease _
  · refine h.setDisc _ ?_
    intro x hx
    rcases List.mem_append.mp hx with hx | hx
    · exact h.disc x hx
    · rw [List.mem_singleton.mp hx]; exact he

theorem originOf_outside {s : State} (h : Prov domain cs s) {P : Name → Prop} {m : Name} (hm : P m) : Outside cs s.log P (s.originOf m) := by
  refine ⟨m, hm, ?_⟩
  unfold State.originOf
  split
  · rename_i p hp
    right
    have := h.origin p (List.mem_of_find?_eq_some hp)
    have e : p.1 = m := by simpa using List.find?_some hp
    rw [← e]
    exact this
  · exact Or.inl rfl

theorem Prov.aggregated {s : State} (h : Prov domain cs s) (env : Env) (ds as : List Req) (o : Offer) (ho : OfferSaid cs s.log o)
    (hd : ∀ r ∈ ds, Item.inp (.request true r) ∈ s.log) (ha : ∀ r ∈ as, Item.inp (.api r) ∈ s.log) : Prov domain cs (s.aggregated env ds as o) := by
  unfold State.aggregated
  split
  · exact h
  · dsimp only
    generalize hw : s.normalize (((ds ++ as).foldl (fun w r => w.add r.content) ({} : Want)).diff o) = w
    have hfrom : WantFrom cs s.log w := by
      have each : ∀ (sel : Want → List Name) (n : Name), (∃ r ∈ ds ++ as, n ∈ sel r.content) → Asked sel s.log n := by
        rintro sel n ⟨r, hr, hn⟩
        rcases List.mem_append.mp hr with hr | hr
        · exact ⟨r, Or.inr (hd r hr), hn⟩
        · exact ⟨r, Or.inl (ha r hr), hn⟩
      rw [← hw]
      refine ⟨?_, ?_⟩
      · intro n hn
        obtain ⟨m, hm, e⟩ := mem_normalize_services.mp hn
        rw [e]
        refine originOf_outside h (each _ m ?_)
        rcases (mem_foldl_add_services (fun r : Req => r.content) (ds ++ as) {}).mp (List.mem_filter.mp hm).1 with hm | hm
        · cases hm
        · exact hm
      · intro n hn
        have hm := mem_normalize_queues.mp hn
        refine each _ n ?_
        rcases (mem_foldl_add_queues (fun r : Req => r.content) (ds ++ as) {}).mp (List.mem_filter.mp hm).1 with hm | hm
        · cases hm
        · exact hm
    have hr : Prov domain cs (if w.any = true then s.requests env (s.providers.filter (·.abilities.discover)) (fun h c => .request h c w) else (s, [])).1 ∧
        Grow s (if w.any = true then s.requests env (s.providers.filter (·.abilities.discover)) (fun h c => .request h c w) else (s, [])).1 := by
      split
      · refine ⟨h.requests env (·.discover) _ ?_, Grow.requests s env _ _⟩
        rintro log' hh c ⟨b, e⟩ hab
        refine ⟨hab, by rw [← hw]; exact normalize_asc s _, ?_, ?_⟩
        · intro n hn
          rw [e]
          exact (hfrom.1 n hn).mono (fun m hm => Or.inl hm.more)
        · intro n hn
          rw [e]
          exact Or.inl (hfrom.2 n hn).more
      · exact ⟨h, Grow.refl s⟩
    generalize (if w.any = true then s.requests env (s.providers.filter (·.abilities.discover)) (fun h c => .request h c w) else (s, [])) = r at hr
    obtain ⟨hr, g⟩ := hr
    have hr' : Prov domain cs { r.1 with pending := r.1.pending ++ [(r.1.nextKey, w)], nextKey := r.1.nextKey + 1 } := by
      refine ⟨hr.dom, hr.reg, hr.origin, hr.routes, hr.lookup, hr.known, hr.disc, hr.acc, ?_, hr.right⟩
      intro p hp
      rcases List.mem_append.mp hp with hp | hp
      · exact hr.pend p hp
      · rw [List.mem_singleton.mp hp]
        exact g.wantFrom hfrom
    exact hr'.discAdd env _ ⟨g.offerSaid ho, fun r hr => g.mem (hd r hr), fun r hr => g.mem (ha r hr)⟩

/-! ### A reply -/

theorem normalizeReply_said {s : State} (h : Prov domain cs s) {o : Offer} (ho : OfferRaw s.log o) : OfferSaid cs s.log (s.normalizeReply o) := by
  refine ⟨?_, ho.2⟩
  intro x hx
  obtain ⟨y, hy, hx⟩ := List.mem_flatMap.mp (mem_sortUnique hx)
  obtain ⟨z, hz, hy'⟩ := ho.1 y hy
  refine ⟨z, hz, y, hy', ?_⟩
  split at hx
  · rename_i p hp
    obtain ⟨route, hr, e⟩ := List.mem_map.mp hx
    right
    have e2 : p.1 = y.name := by simpa using List.find?_some hp
    have := h.routes p (List.mem_of_find?_eq_some hp) route hr
    rw [← e]
    refine ⟨?_, rfl⟩
    rw [← e2]
    exact this
  · exact Or.inl (List.mem_singleton.mp hx)

theorem Prov.discMessage {s : State} (h : Prov domain cs s) (env : Env) (o : Offer) (ho : OfferRaw s.log o) (cb : DiscCb) (hc : DCb cs s.log cb) :
    Prov domain cs (s.discMessage env o cb).1 ∧ DCb cs (s.discMessage env o cb).1.log (s.discMessage env o cb).2.1 := by
  cases cb with
  | aggregated content ds as key =>
    unfold State.discMessage
    dsimp only
    have hcont := hc.1.add (normalizeReply_said h ho)
    generalize content.add (s.normalizeReply o) = content' at hcont
    unfold State.sendIncluded
    dsimp only
    have h1 := h.sendApiReplies env content' hcont (as.filter fun r => r.content.includedIn content') (fun r hr => hc.2.2 r (List.mem_filter.mp hr).1)
    have g1 : Grow s ((as.filter fun r => r.content.includedIn content').foldl (fun s r => s.sendApiReply env content' r) s) :=
      Grow.foldl _ (fun s r => Grow.send s env _ _) _ s
    generalize (as.filter fun r => r.content.includedIn content').foldl (fun s r => s.sendApiReply env content' r) s = t at h1 g1
    have h2 := h1.sendReplies env content' (g1.offerSaid hcont) (ds.filter fun r => r.content.includedIn content')
      (fun r hr => g1.mem (hc.2.1 r (List.mem_filter.mp hr).1))
    have g2 : Grow t ((ds.filter fun r => r.content.includedIn content').foldl (fun s r => s.sendReply env content' r) t) :=
      Grow.foldl _ (fun s r => Grow.send s env _ _) _ t
    refine ⟨h2, (g1.trans g2).offerSaid hcont, ?_, ?_⟩
    · exact fun r hr => (g1.trans g2).mem (hc.2.1 r (List.mem_filter.mp hr).1)
    · exact fun r hr => (g1.trans g2).mem (hc.2.2 r (List.mem_filter.mp hr).1)
  | rediscovery content c p => exact ⟨h, hc.1.add ho, hc.2⟩

theorem Prov.discMsgIn {s : State} (h : Prov domain cs s) (env : Env) (c : Corr) (o : Offer) (ho : OfferRaw s.log o) : ∀ (es before : List DiscEntry),
    s.discovery = before ++ es → Prov domain cs (s.discMsgIn env c o before es)
  | [], _, _ => h
  | e :: es, before, hd => by
    unfold State.discMsgIn
    split
    · unfold State.discEntryMsg
      dsimp only
      obtain ⟨h1, h2⟩ := h.discMessage env o ho e.callback (h.disc e (by rw [hd]; simp))
      obtain ⟨log, hf⟩ := discMessage_fields env s o e.callback
      have hd' : (s.discMessage env o e.callback).1.discovery = before ++ e :: es := by rw [hf]; exact hd
      generalize s.discMessage env o e.callback = r at h1 h2 hd'
      have hl : ∀ x ∈ before ++ es, DCb cs r.1.log x.callback := fun x hx => h1.disc x (by
        rw [hd']
        rcases List.mem_append.mp hx with hx | hx
        · exact mem_left hx
        · exact List.mem_append.mpr (Or.inr (List.mem_cons_of_mem _ hx)))
      split
      · exact (h1.setDisc _ hl).discRelease _
      · split
        · exact Prov.discRelease (Prov.discDone (h1.setDisc _ hl) env _ h2) _
        · refine h1.setDisc _ ?_
          intro x hx
          rcases List.mem_append.mp hx with hx | hx
          · exact hl x (mem_left hx)
          · rcases List.mem_cons.mp hx with hx | hx
            · rw [hx]; exact h2
            · exact hl x (List.mem_append.mpr (Or.inr hx))
    · exact Prov.discMsgIn h env c o ho es (before ++ [e]) (by rw [hd, List.append_assoc]; rfl)

theorem Grow.done_release (s : State) (env : Env) (cb : DiscCb) : Grow s ((s.discDone env cb).discRelease cb) :=
  (Grow.discDone s env cb).trans (Grow.discRelease _ _)

theorem Prov.discFailed {s : State} (h : Prov domain cs s) (env : Env) (p : Handle → Bool) : Prov domain cs (s.discFailed env p) := by
  unfold State.discFailed
  dsimp only
  have hl : ∀ e ∈ s.discovery.map (fun e => ({ e with pend := failPend p e.pend } : DiscEntry)), DCb cs s.log e.callback := by
    intro e he
    obtain ⟨e0, he0, rfl⟩ := List.mem_map.mp he
    exact h.disc e0 he0
  refine Prov.foldl (fun (e : DiscEntry) log => DCb cs log e.callback) (fun (x : DiscEntry) a b h => DCb.more h) _ (fun s e => Grow.done_release s env _) (fun s e h hp => (h.discDone env _ hp).discRelease _) _ _ ?_ ?_
  · exact h.setDisc _ (fun e he => hl e (List.mem_filter.mp he).1)
  · exact fun e he => hl e (List.mem_filter.mp he).1

/-! ### The local lookup -/

theorem raw_foldl {log : List Item} {l : List Offer} (h : ∀ o ∈ l, ∃ c, Item.inp (.lookupReply c o) ∈ log) :
    (∀ x ∈ (l.foldl Offer.add {}).services, LocalSvc log x) ∧ (∀ x ∈ (l.foldl Offer.add {}).queues, LocalQue log x) := by
  refine ⟨?_, ?_⟩
  · intro x hx
    rcases mem_foldl_offer_services l {} hx with hx | ⟨o, ho, hx⟩
    · cases hx
    · obtain ⟨c, hc⟩ := h o ho
      exact ⟨c, o, hc, hx⟩
  · intro x hx
    rcases mem_foldl_offer_queues l {} hx with hx | ⟨o, ho, hx⟩
    · cases hx
    · obtain ⟨c, hc⟩ := h o ho
      exact ⟨c, o, hc, hx⟩

theorem mem_said_lookup {log : List Item} {c : Corr} {o : Offer} (h : Item.inp (.lookupReply c o) ∈ log) : o ∈ said log :=
  List.mem_flatMap.mpr ⟨_, h, List.mem_singleton.mpr rfl⟩

theorem mem_said_reply {log : List Item} {c : Corr} {o : Offer} (h : Item.inp (.reply c o) ∈ log) : o ∈ said log :=
  List.mem_flatMap.mpr ⟨_, h, List.mem_singleton.mpr rfl⟩

theorem local_raw {log : List Item} {o : Offer} (h : (∀ x ∈ o.services, LocalSvc log x) ∧ (∀ x ∈ o.queues, LocalQue log x)) : OfferRaw log o := by
  refine ⟨?_, ?_⟩
  · intro x hx
    obtain ⟨c, o, ho, hx⟩ := h.1 x hx
    exact ⟨o, mem_said_lookup ho, hx⟩
  · intro x hx
    obtain ⟨c, o, ho, hx⟩ := h.2 x hx
    exact ⟨o, mem_said_lookup ho, hx⟩

theorem Prov.lookupDone {s : State} (h : Prov domain cs s) (env : Env) (replies : List Offer) (cb : LookupCb) (hc : LCb s.log cb)
    (hr : ∀ o ∈ replies, ∃ c, Item.inp (.lookupReply c o) ∈ s.log) : Prov domain cs (s.lookupDone env replies cb) := by
  have hl := raw_foldl hr
  have hs : OfferSaid cs s.log (replies.foldl Offer.add {}) := (local_raw hl).said
  cases cb with
  | internal r => exact h.send env _ _ (Or.inr ⟨r, hc, rfl, rfl, hl.1, hl.2⟩)
  | extended r =>
    unfold State.lookupDone
    dsimp only
    split
    · exact h.sendReply env _ hs r hc
    · split
      · refine h.setAcc _ ⟨?_, h.acc.api, h.acc.direct, h.acc.implicit, h.acc.lookup.add hs⟩
        intro x hx
        rcases List.mem_append.mp hx with hx | hx
        · exact h.acc.discovery x hx
        · rw [List.mem_singleton.mp hx]; exact hc
      · exact h.aggregated env _ _ _ hs (fun x hx => by rw [List.mem_singleton.mp hx]; exact hc) (fun x hx => by cases hx)

/-! ### What is known -/

theorem pendingContent_from {s : State} (h : Prov domain cs s) : WantFrom cs s.log s.pendingContent := by
  unfold State.pendingContent
  refine ⟨?_, ?_⟩
  · intro n hn
    rcases (mem_foldl_add_services (fun p : Nat × Want => p.2) s.pending {}).mp hn with hn | ⟨p, hp, hn⟩
    · cases hn
    · exact (h.pend p hp).1 n hn
  · intro n hn
    rcases (mem_foldl_add_queues (fun p : Nat × Want => p.2) s.pending {}).mp hn with hn | ⟨p, hp, hn⟩
    · cases hn
    · exact (h.pend p hp).2 n hn

theorem mem_appendValue {d x : Domain} {ds : List Domain} : x ∈ appendValue d ds ↔ x = d ∨ x ∈ ds := by
  unfold appendValue
  split
  · rename_i h
    have : d ∈ ds := by simpa using h
    exact ⟨Or.inr, fun h => h.elim (fun e => by rw [e]; exact this) id⟩
  · rw [List.mem_append, List.mem_singleton]
    exact Or.comm

theorem mem_appendDomains {x : Domain} : ∀ {ds out : List Domain}, x ∈ appendDomains ds out ↔ x ∈ ds ∨ x ∈ out
  | [], out => by simp [appendDomains]
  | d :: ds, out => by
    show x ∈ appendDomains ds (appendValue d out) ↔ _
    rw [mem_appendDomains, mem_appendValue, List.mem_cons]
    constructor
    · rintro (h | h | h)
      · exact Or.inl (Or.inr h)
      · exact Or.inl (Or.inl h)
      · exact Or.inr h
    · rintro ((h | h) | h)
      · exact Or.inr (Or.inl h)
      · exact Or.inl h
      · exact Or.inr (Or.inr h)

theorem mem_merged {x : Domain} : ∀ (l : List Implicit) (out : List Domain),
    x ∈ l.foldl (fun r (i : Implicit) => appendDomains i.domains r) out ↔ x ∈ out ∨ ∃ i ∈ l, x ∈ i.domains
  | [], out => by simp
  | i :: is, out => by
    rw [List.foldl_cons, mem_merged, mem_appendDomains]
    constructor
    · rintro ((h | h) | ⟨j, hj, h⟩)
      · exact Or.inr ⟨i, List.mem_cons_self .., h⟩
      · exact Or.inl h
      · exact Or.inr ⟨j, List.mem_cons_of_mem _ hj, h⟩
    · rintro (h | ⟨j, hj, h⟩)
      · exact Or.inl (Or.inr h)
      · rcases List.mem_cons.mp hj with e | hj
        · rw [e] at h; exact Or.inl (Or.inl h)
        · exact Or.inr ⟨j, hj, h⟩

theorem Prov.knownDone {s : State} (h : Prov domain cs s) (env : Env) (replies : List Want) (cb : KnownCb) (hc : KCb s.log cb)
    (hr : ∀ w ∈ replies, ∃ c, Item.inp (.knownReply c w) ∈ s.log) : Prov domain cs (s.knownDone env replies cb) := by
  have knownS : ∀ n, n ∈ (replies.foldl Want.add ({} : Want)).services → KnownTo Want.services s.log n := by
    intro n hn
    rcases (mem_foldl_add_services (fun w : Want => w) replies {}).mp hn with hn | ⟨w, hw, hn⟩
    · cases hn
    · obtain ⟨c, hc⟩ := hr w hw
      exact ⟨c, w, hc, hn⟩
  have knownQ : ∀ n, n ∈ (replies.foldl Want.add ({} : Want)).queues → KnownTo Want.queues s.log n := by
    intro n hn
    rcases (mem_foldl_add_queues (fun w : Want => w) replies {}).mp hn with hn | ⟨w, hw, hn⟩
    · cases hn
    · obtain ⟨c, hc⟩ := hr w hw
      exact ⟨c, w, hc, hn⟩
  have hpend := pendingContent_from h
  cases cb with
  | rediscovery corr process =>
    unfold State.knownDone
    dsimp only
    generalize hw : Want.add (s.normalize (replies.foldl Want.add ({} : Want))) s.pendingContent = w
    have hr := h.requests env (·.discover) (fun h c => .request h c w) (by
      rintro log' hh c ⟨b, e⟩ hab
      refine ⟨hab, by rw [← hw]; exact Want.add_asc (normalize_asc s _), ?_, ?_⟩
      · intro n hn
        rw [← hw] at hn
        rw [e]
        rcases mem_add_services.mp hn with hn | hn
        · obtain ⟨m, hm, e⟩ := mem_normalize_services.mp hn
          rw [e]
          exact (originOf_outside h (knownS m hm)).mono (fun m hm => Or.inr hm.more)
        · exact (hpend.1 n hn).mono (fun m hm => Or.inl hm.more)
      · intro n hn
        rw [← hw] at hn
        rw [e]
        rcases mem_add_queues.mp hn with hn | hn
        · exact Or.inr (knownQ n (mem_normalize_queues.mp hn)).more
        · exact Or.inl (hpend.2 n hn).more)
    exact hr.discAdd env _ ⟨⟨fun x hx => (by cases hx), fun x hx => (by cases hx)⟩, (Grow.requests s env _ _).mem hc⟩
  | topology direct implicit =>
    unfold State.knownDone
    dsimp only
    generalize hw : (s.normalize (direct.foldl (fun w d => w.add d.configured) (replies.foldl Want.add ({} : Want)))).add s.pendingContent = w
    have hasc : w.Asc := by rw [← hw]; exact Want.add_asc (normalize_asc s _)
    have hS : ∀ n ∈ w.services, Outside cs s.log (fun m => Asked Want.services s.log m ∨ KnownTo Want.services s.log m ∨ Configured Want.services s.log m) n := by
      intro n hn
      rw [← hw] at hn
      rcases mem_add_services.mp hn with hn | hn
      · obtain ⟨m, hm, e⟩ := mem_normalize_services.mp hn
        rw [e]
        refine originOf_outside h ?_
        rcases (mem_foldl_add_services (fun d : Direct => d.configured) direct _).mp hm with hm | ⟨d, hd, hm⟩
        · exact Or.inr (Or.inl (knownS m hm))
        · exact Or.inr (Or.inr ⟨d, hc.1 d hd, hm⟩)
      · obtain ⟨m, hm, e⟩ := hpend.1 n hn
        exact ⟨m, Or.inl hm, e⟩
    have hQ : ∀ n ∈ w.queues, Asked Want.queues s.log n ∨ KnownTo Want.queues s.log n ∨ Configured Want.queues s.log n := by
      intro n hn
      rw [← hw] at hn
      rcases mem_add_queues.mp hn with hn | hn
      · rcases (mem_foldl_add_queues (fun d : Direct => d.configured) direct _).mp (mem_normalize_queues.mp hn) with hm | ⟨d, hd, hm⟩
        · exact Or.inr (Or.inl (knownQ n hm))
        · exact Or.inr (Or.inr ⟨d, hc.1 d hd, hm⟩)
      · exact Or.inl (hpend.2 n hn)
    have more : ∀ (d : Ipc) (a b : List Item), Proper domain cs a (.explore d w) → Proper domain cs (a ++ b) (.explore d w) := by
      rintro d a b ⟨h1, h2, h3, h4⟩
      refine ⟨?_, h2, ?_, ?_⟩
      · rcases h1 with ⟨x, hx, e⟩ | ⟨x, hx, e⟩
        · exact Or.inl ⟨x, mem_left hx, e⟩
        · exact Or.inr ⟨x, mem_left hx, e⟩
      · intro n hn
        refine (h3 n hn).mono ?_
        rintro m (hm | hm | ⟨d, hd, hm⟩)
        · exact Or.inl hm.more
        · exact Or.inr (Or.inl hm.more)
        · exact Or.inr (Or.inr ⟨d, mem_left hd, hm⟩)
      · intro n hn
        rcases h4 n hn with hm | hm | ⟨d, hd, hm⟩
        · exact Or.inl hm.more
        · exact Or.inr (Or.inl hm.more)
        · exact Or.inr (Or.inr ⟨d, mem_left hd, hm⟩)
    have hex : Prov domain cs (if w.any = true then (targets direct implicit).foldl (fun s t => s.send env t (.explore t w)) s else s) ∧
        Grow s (if w.any = true then (targets direct implicit).foldl (fun s t => s.send env t (.explore t w)) s else s) ∧
        (if w.any = true then (targets direct implicit).foldl (fun s t => s.send env t (.explore t w)) s else s).providers = s.providers := by
      have hprov : ∀ (l : List Ipc) (s : State), (l.foldl (fun s t => s.send env t (.explore t w)) s).providers = s.providers := by
        intro l
        induction l with
        | nil => exact fun s => rfl
        | cons x xs ih => exact fun s => ih _
      split
      · refine ⟨?_, Grow.foldl _ (fun s t => Grow.send s env _ _) _ _, hprov _ _⟩
        refine Prov.foldl (fun t log => Proper domain cs log (.explore t w)) (fun x a b h => more x a b h) _ (fun s t => Grow.send s env _ _)
          (fun s t h hp => h.send env t _ hp) _ s h ?_
        intro t ht
        refine ⟨?_, hasc, hS, hQ⟩
        rcases List.mem_append.mp (mem_sortUnique ht) with ht | ht
        · obtain ⟨d, hd, e⟩ := List.mem_map.mp ht
          exact Or.inl ⟨d, hc.1 d hd, e⟩
        · obtain ⟨i, hi, e⟩ := List.mem_map.mp ht
          exact Or.inr ⟨i, hc.2 i hi, e⟩
      · exact ⟨h, Grow.refl s, rfl⟩
    generalize (if w.any = true then (targets direct implicit).foldl (fun s t => s.send env t (.explore t w)) s else s) = t at hex
    obtain ⟨ht, g, hpr⟩ := hex
    have hds : ∀ x ∈ appendValue t.domain (implicit.foldl (fun r i => appendDomains i.domains r) []), x = domain ∨ ∃ i, Item.inp (.implicit i) ∈ t.log ∧ x ∈ i.domains := by
      intro x hx
      rcases mem_appendValue.mp hx with hx | hx
      · exact Or.inl (hx.trans ht.dom)
      · rcases (mem_merged implicit []).mp hx with hx | ⟨i, hi, hx⟩
        · cases hx
        · exact Or.inr ⟨i, g.mem (hc.2 i hi), hx⟩
    have hdm : domain ∈ appendValue t.domain (implicit.foldl (fun r i => appendDomains i.domains r) []) := mem_appendValue.mpr (Or.inl ht.dom.symm)
    generalize appendValue t.domain (implicit.foldl (fun r i => appendDomains i.domains r) []) = ds at hds hdm
    have hps : ∀ p ∈ t.providers.filter (·.abilities.topology), p ∈ t.providers ∧ p.abilities.topology = true := fun p hp => List.mem_filter.mp hp
    generalize t.providers.filter (·.abilities.topology) = ps at hps
    clear hpr g
    induction ps generalizing t with
    | nil => exact ht
    | cons p ps ih =>
      obtain ⟨h1, h2⟩ := hps p (List.mem_cons_self ..)
      refine ih _ (ht.send env _ _ ⟨⟨p.process, rfl, p, ht.reg ▸ h1, rfl, h2⟩, hdm, hds⟩) ?_ ?_
      · intro x hx
        rcases hds x hx with hx | ⟨i, hi, hx⟩
        · exact Or.inl hx
        · exact Or.inr ⟨i, mem_left hi, hx⟩
      · exact fun q hq => hps q (List.mem_cons_of_mem _ hq)

end Casual.Discovery

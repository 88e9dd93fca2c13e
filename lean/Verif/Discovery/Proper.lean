import Verif.Discovery.Prov

/-!
  The rest of the invariant of `Prov.lean`: the handlers, a step, and a run.
-/
namespace Casual.Discovery

variable {domain : Domain} {cs : List SvcCfg}

theorem Prov.growWith {s : State} (h : Prov domain cs s) (y : Item) (ps : List Provider) (hr : ps = registered (s.log ++ [y]))
    (hy : ∀ o, y = .out o ∨ y = .lost o → Proper domain cs s.log o) : Prov domain cs { s with log := s.log ++ [y], providers := ps } where
  dom := h.dom
  reg := hr
  origin := fun p hp => (h.origin p hp).more
  routes := fun p hp r hr => (h.routes p hp r hr).more
  lookup := fun e he => ⟨(h.lookup e he).1.more, fun o ho => by obtain ⟨c, hc⟩ := (h.lookup e he).2 o ho; exact ⟨c, mem_left hc⟩⟩
  known := fun e he => ⟨(h.known e he).1.more, fun o ho => by obtain ⟨c, hc⟩ := (h.known e he).2 o ho; exact ⟨c, mem_left hc⟩⟩
  disc := fun e he => (h.disc e he).more
  acc := h.acc.more
  pend := fun p hp => (h.pend p hp).more
  right := h.right.snoc hy

theorem Prov.lookupAdd {s : State} (h : Prov domain cs s) (env : Env) (q : List Pend) (cb : LookupCb) (hc : LCb s.log cb) : Prov domain cs (s.lookupAdd env q cb) := by
  unfold State.lookupAdd
  split
  · exact h.lookupDone env [] cb hc (fun o ho => by cases ho)
  · refine h.setLookup _ ?_
    intro e he
    rcases List.mem_append.mp he with he | he
    · exact h.lookup e he
    · rw [List.mem_singleton.mp he]
      exact ⟨hc, fun o ho => (by cases ho)⟩

theorem Prov.knownAdd {s : State} (h : Prov domain cs s) (env : Env) (q : List Pend) (cb : KnownCb) (hc : KCb s.log cb) : Prov domain cs (s.knownAdd env q cb) := by
  unfold State.knownAdd
  split
  · exact h.knownDone env [] cb hc (fun o ho => by cases ho)
  · refine h.setKnown _ ?_
    intro e he
    rcases List.mem_append.mp he with he | he
    · exact h.known e he
    · rw [List.mem_singleton.mp he]
      exact ⟨hc, fun o ho => (by cases ho)⟩

theorem Prov.lookupMsgIn {s : State} (h : Prov domain cs s) (env : Env) (c : Corr) (o : Offer) (ho : Item.inp (.lookupReply c o) ∈ s.log) :
    ∀ (es before : List (FanEntry Offer LookupCb)), s.lookup = before ++ es → Prov domain cs (s.lookupMsgIn env c o before es)
  | [], _, _ => h
  | e :: es, before, hd => by
    unfold State.lookupMsgIn
    split
    · have he := h.lookup e (by rw [hd]; simp)
      have hl : ∀ x ∈ before ++ es, x ∈ s.lookup := by
        intro x hx
        rw [hd]
        rcases List.mem_append.mp hx with hx | hx
        · exact mem_left hx
        · exact List.mem_append.mpr (Or.inr (List.mem_cons_of_mem _ hx))
      have hrec : ∀ x ∈ e.received ++ [o], ∃ c, Item.inp (.lookupReply c x) ∈ s.log := by
        intro x hx
        rcases List.mem_append.mp hx with hx | hx
        · exact he.2 x hx
        · rw [List.mem_singleton.mp hx]; exact ⟨c, ho⟩
      dsimp only
      split
      · exact Prov.lookupDone (h.setLookup _ (fun x hx => h.lookup x (hl x hx))) env _ _ he.1 hrec
      · refine h.setLookup _ ?_
        intro x hx
        rcases List.mem_append.mp hx with hx | hx
        · exact h.lookup x (hl x (mem_left hx))
        · rcases List.mem_cons.mp hx with hx | hx
          · rw [hx]; exact ⟨he.1, hrec⟩
          · exact h.lookup x (hl x (List.mem_append.mpr (Or.inr hx)))
    · exact Prov.lookupMsgIn h env c o ho es (before ++ [e]) (by rw [hd, List.append_assoc]; rfl)

theorem Prov.knownMsgIn {s : State} (h : Prov domain cs s) (env : Env) (c : Corr) (o : Want) (ho : Item.inp (.knownReply c o) ∈ s.log) :
    ∀ (es before : List (FanEntry Want KnownCb)), s.known = before ++ es → Prov domain cs (s.knownMsgIn env c o before es)
  | [], _, _ => h
  | e :: es, before, hd => by
    unfold State.knownMsgIn
    split
    · have he := h.known e (by rw [hd]; simp)
      have hl : ∀ x ∈ before ++ es, x ∈ s.known := by
        intro x hx
        rw [hd]
        rcases List.mem_append.mp hx with hx | hx
        · exact mem_left hx
        · exact List.mem_append.mpr (Or.inr (List.mem_cons_of_mem _ hx))
      have hrec : ∀ x ∈ e.received ++ [o], ∃ c, Item.inp (.knownReply c x) ∈ s.log := by
        intro x hx
        rcases List.mem_append.mp hx with hx | hx
        · exact he.2 x hx
        · rw [List.mem_singleton.mp hx]; exact ⟨c, ho⟩
      dsimp only
      split
      · exact Prov.knownDone (h.setKnown _ (fun x hx => h.known x (hl x hx))) env _ _ he.1 hrec
      · refine h.setKnown _ ?_
        intro x hx
        rcases List.mem_append.mp hx with hx | hx
        · exact h.known x (hl x (mem_left hx))
        · rcases List.mem_cons.mp hx with hx | hx
          · rw [hx]; exact ⟨he.1, hrec⟩
          · exact h.known x (hl x (List.mem_append.mpr (Or.inr hx)))
    · exact Prov.knownMsgIn h env c o ho es (before ++ [e]) (by rw [hd, List.append_assoc]; rfl)

theorem Prov.lookupFailed {s : State} (h : Prov domain cs s) (env : Env) (p : Handle → Bool) : Prov domain cs (s.lookupFailed env p) := by
  unfold State.lookupFailed
  refine Prov.foldl (fun (e : FanEntry Offer LookupCb) log => LCb log e.callback ∧ ∀ o ∈ e.received, ∃ c, Item.inp (.lookupReply c o) ∈ log)
    (fun (x : FanEntry Offer LookupCb) a b h => ⟨h.1.more, fun o ho => by obtain ⟨c, hc⟩ := h.2 o ho; exact ⟨c, mem_left hc⟩⟩) _
    (fun s e => Grow.lookupDone s env _ _) (fun s e h hp => h.lookupDone env _ _ hp.1 hp.2) _ _ ?_ ?_
  · refine h.setLookup _ ?_
    intro e he
    obtain ⟨e0, he0, rfl⟩ := List.mem_map.mp he
    exact h.lookup e0 (List.mem_filter.mp he0).1
  · exact fun e he => h.lookup e (List.mem_filter.mp he).1

theorem Prov.knownFailed {s : State} (h : Prov domain cs s) (env : Env) (p : Handle → Bool) : Prov domain cs (s.knownFailed env p) := by
  unfold State.knownFailed
  refine Prov.foldl (fun (e : FanEntry Want KnownCb) log => KCb log e.callback ∧ ∀ o ∈ e.received, ∃ c, Item.inp (.knownReply c o) ∈ log)
    (fun (x : FanEntry Want KnownCb) a b h => ⟨h.1.more, fun o ho => by obtain ⟨c, hc⟩ := h.2 o ho; exact ⟨c, mem_left hc⟩⟩) _
    (fun s e => Grow.knownDone s env _ _) (fun s e h hp => h.knownDone env _ _ hp.1 hp.2) _ _ ?_ ?_
  · refine h.setKnown _ ?_
    intro e he
    obtain ⟨e0, he0, rfl⟩ := List.mem_map.mp he
    exact h.known e0 (List.mem_filter.mp he0).1
  · exact fun e he => h.known e (List.mem_filter.mp he).1

theorem Prov.localLookup {s : State} (h : Prov domain cs s) (env : Env) (scope : Scope) (r : Req) (hr : Item.inp (.request (decide (scope = .extended)) r) ∈ s.log) :
    Prov domain cs (s.localLookup env scope r) := by
  unfold State.localLookup
  dsimp only
  have hs := h.requests env (·.lookup) (fun h c => .lookup h c scope r.content) (by
    rintro log' hh c ⟨b, e⟩ hab
    exact ⟨hab, r, by rw [e]; exact mem_left hr, rfl⟩)
  refine hs.lookupAdd env _ _ ?_
  have := (Grow.requests s env (s.providers.filter (·.abilities.lookup)) (fun h c => .lookup h c scope r.content)).mem hr
  cases scope <;> exact this

theorem Prov.collectKnown {s : State} (h : Prov domain cs s) (env : Env) : Prov domain cs (s.collectKnown env).1 :=
  h.requests env (·.fetchKnown) (fun h c => .known h c) (fun _ _ _ _ hab => hab)

theorem Prov.explore {s : State} (h : Prov domain cs s) (env : Env) (direct : List Direct) (implicit : List Implicit)
    (hc : KCb s.log (.topology direct implicit)) : Prov domain cs (s.explore env direct implicit) := by
  unfold State.explore
  split
  · exact h
  · exact (h.collectKnown env).knownAdd env _ _ ((Grow.requests s env _ _).pres (P := fun l => KCb l (.topology direct implicit)) (fun _ _ h => h.more) hc)

/-! ### The configuration -/

theorem mem_assign {β : Type} {m : List (Name × β)} {k : Name} {v : β} {p : Name × β} (h : p ∈ assign m k v) : p ∈ m ∨ p = (k, v) := by
  rcases List.mem_append.mp h with h | h
  · exact Or.inl (List.mem_filter.mp h).1
  · exact Or.inr (List.mem_singleton.mp h)

theorem mem_assign_foldl {k : Name} {p : Name × Name} : ∀ (l : List Name) (m : List (Name × Name)), p ∈ l.foldl (fun m route => assign m route k) m →
    p ∈ m ∨ (p.1 ∈ l ∧ p.2 = k)
  | [], _, h => Or.inl h
  | r :: rs, m, h => by
    rcases mem_assign_foldl rs _ h with h | ⟨h1, h2⟩
    · rcases mem_assign h with h | h
      · exact Or.inl h
      · rw [h]; exact Or.inr ⟨List.mem_cons_self .., rfl⟩
    · exact Or.inr ⟨List.mem_cons_of_mem _ h1, h2⟩

theorem configure_tables (services all : List SvcCfg) : ∀ (s : State), (∀ x ∈ services, x ∈ all) →
    (∀ p ∈ s.toOrigin, ∃ x ∈ all, x.name = p.2 ∧ p.1 ∈ x.routes) → (∀ p ∈ s.toRoutes, ∃ x ∈ all, x.name = p.1 ∧ p.2 = x.routes) →
    let t := services.foldl (fun s (x : SvcCfg) =>
      { s with
        toRoutes := assign s.toRoutes x.name x.routes
        toOrigin := x.routes.foldl (fun m route => assign m route x.name) s.toOrigin }) s
    (∀ p ∈ t.toOrigin, ∃ x ∈ all, x.name = p.2 ∧ p.1 ∈ x.routes) ∧ (∀ p ∈ t.toRoutes, ∃ x ∈ all, x.name = p.1 ∧ p.2 = x.routes) := by
  induction services with
  | nil => exact fun s _ h1 h2 => ⟨h1, h2⟩
  | cons x xs ih =>
    intro s ha h1 h2
    refine ih _ (fun y hy => ha y (List.mem_cons_of_mem _ hy)) ?_ ?_
    · intro p hp
      rcases mem_assign_foldl x.routes s.toOrigin hp with hp | ⟨e1, e2⟩
      · exact h1 p hp
      · exact ⟨x, ha x (List.mem_cons_self ..), e2.symm, e1⟩
    · intro p hp
      rcases mem_assign hp with hp | hp
      · exact h2 p hp
      · rw [hp]; exact ⟨x, ha x (List.mem_cons_self ..), rfl, rfl⟩

theorem configure_same (services : List SvcCfg) (s : State) : s.configure services =
    { s with toRoutes := (s.configure services).toRoutes, toOrigin := (s.configure services).toOrigin } := by
  unfold State.configure
  generalize hu : ({ s with toRoutes := [], toOrigin := [] } : State) = u
  have : s = { u with toRoutes := s.toRoutes, toOrigin := s.toOrigin } := by rw [← hu]
  rw [this]
  clear this hu
  suffices ∀ (l : List SvcCfg) (u v : State), u = { v with toRoutes := u.toRoutes, toOrigin := u.toOrigin } →
      (l.foldl (fun s (x : SvcCfg) => { s with toRoutes := assign s.toRoutes x.name x.routes, toOrigin := x.routes.foldl (fun m route => assign m route x.name) s.toOrigin }) u) =
      { v with toRoutes := (l.foldl (fun s (x : SvcCfg) => { s with toRoutes := assign s.toRoutes x.name x.routes, toOrigin := x.routes.foldl (fun m route => assign m route x.name) s.toOrigin }) u).toRoutes,
               toOrigin := (l.foldl (fun s (x : SvcCfg) => { s with toRoutes := assign s.toRoutes x.name x.routes, toOrigin := x.routes.foldl (fun m route => assign m route x.name) s.toOrigin }) u).toOrigin } from
    this services u _ rfl
  intro l
  induction l with
  | nil => exact fun u v h => h
  | cons x xs ih => exact fun u v h => ih _ v (by rw [h])

theorem Prov.configure {s : State} (h : Prov domain cs s) (services : List SvcCfg) (hs : services ∈ configurations cs s.log) : Prov domain cs (s.configure services) := by
  have := configure_tables services services { s with toRoutes := [], toOrigin := [] } (fun x hx => hx) (fun p hp => by cases hp) (fun p hp => by cases hp)
  have e := configure_same services s
  obtain ⟨h1, h2⟩ := this
  rw [e]
  refine ⟨h.dom, h.reg, ?_, ?_, h.lookup, h.known, h.disc, h.acc, h.pend, h.right⟩
  · intro p hp
    obtain ⟨x, hx, e1, e2⟩ := h1 p hp
    exact ⟨services, hs, x, hx, e1, e2⟩
  · intro p hp r hr
    obtain ⟨x, hx, e1, e2⟩ := h2 p hp
    exact ⟨services, hs, x, hx, e1, by rw [← e2]; exact hr⟩

/-! ### A step -/

theorem Prov.logged {s : State} (h : Prov domain cs s) (i : Input) (hi : (∀ p, i ≠ .exit p) ∧ (∀ p, i ≠ .ipcDestroyed p)) :
    Prov domain cs { s with log := s.log ++ [.inp i] } := by
  refine h.grow _ ?_ (fun o e => by rcases e with e | e <;> cases e)
  rw [registered_snoc, h.reg]
  cases i <;> first | rfl | exact absurd rfl (hi.1 _) | exact absurd rfl (hi.2 _)

theorem empty_answers (log : List Item) (r : Req) : Answers cs log r {} := ⟨fun x hx => (by cases hx), fun x hx => (by cases hx)⟩

theorem empty_said (log : List Item) : OfferSaid cs log {} := ⟨fun x hx => (by cases hx), fun x hx => (by cases hx)⟩

theorem Prov.failed {s : State} (h : Prov domain cs s) (env : Env) (i : Input) (p : Handle → Bool)
    (hi : ∀ ps, registeredStep ps (.inp i) = ps.filter fun x => !p x.process) :
    Prov domain cs (({ s with log := s.log ++ [.inp i] } : State).failed env p) := by
  unfold State.failed
  dsimp only
  have := h.growWith (.inp i) (s.providers.filter fun x => !p x.process) (by rw [registered_snoc, hi, h.reg]) (fun o e => by rcases e with e | e <;> cases e)
  exact ((this.discFailed env p).lookupFailed env p).knownFailed env p

theorem Prov.step {s : State} (h : Prov domain cs s) (x : Env × Input) : Prov domain cs (s.step x) := by
  unfold State.step
  split
  · exact h
  obtain ⟨env, i⟩ := x
  have mem : Item.inp i ∈ s.log ++ [Item.inp i] := List.mem_append.mpr (Or.inr (List.mem_singleton.mpr rfl))
  cases i with
  | exit pid => exact h.failed env (.exit pid) (·.pid == pid) (fun ps => rfl)
  | ipcDestroyed ipc => exact h.failed env (.ipcDestroyed ipc) (·.ipc == ipc) (fun ps => rfl)
  | registration corr process abilities =>
    have hl := h.logged (.registration corr process abilities) ⟨fun p e => (by cases e), fun p e => (by cases e)⟩
    generalize ht : ({ s with log := s.log ++ [.inp (.registration corr process abilities)] } : State) = t at hl
    have hm : Item.inp (.registration corr process abilities) ∈ t.log := by rw [← ht]; exact mem
    show Prov domain cs (if env.reach process.ipc = true then (t.send env process.ipc (.registrationReply process corr abilities)).register process abilities else t.send env process.ipc (.registrationReply process corr abilities))
    unfold State.send State.register
    split
    · dsimp only
      have hg := hl.growWith (.out (.registrationReply process corr abilities)) (registered (t.log ++ [.out (.registrationReply process corr abilities)])) rfl
        (fun o e => by rcases e with e | e <;> cases e; exact hm)
      have er : registered (t.log ++ [.out (.registrationReply process corr abilities)]) =
          if t.providers.any (·.process.ipc == process.ipc) then t.providers else t.providers ++ [{ process := process, abilities := abilities }] := by
        rw [registered_snoc, hl.reg]; rfl
      rw [er] at hg
      split
      · rename_i hr
        rw [if_pos hr] at hg
        exact hg
      · rename_i hr
        rw [if_neg hr] at hg
        exact hg
    · refine hl.grow _ (by rw [registered_snoc, hl.reg]; rfl) (fun o e => by rcases e with e | e <;> cases e; exact hm)
  | api r =>
    have hl := h.logged (.api r) ⟨fun p e => (by cases e), fun p e => (by cases e)⟩
    generalize ht : ({ s with log := s.log ++ [.inp (.api r)] } : State) = t at hl
    have hm : Item.inp (.api r) ∈ t.log := by rw [← ht]; exact mem
    dsimp only [State.handle]
    split
    · exact hl.send env _ _ ⟨r, hm, rfl, rfl, empty_answers _ r⟩
    · split
      · refine hl.setAcc _ ⟨hl.acc.discovery, ?_, hl.acc.direct, hl.acc.implicit, hl.acc.lookup⟩
        intro q hq
        rcases List.mem_append.mp hq with hq | hq
        · exact hl.acc.api q hq
        · rw [List.mem_singleton.mp hq]; exact hm
      · exact hl.aggregated env _ _ _ (empty_said _) (fun q hq => by cases hq) (fun q hq => by rw [List.mem_singleton.mp hq]; exact hm)
  | request forward r =>
    have hl := h.logged (.request forward r) ⟨fun p e => (by cases e), fun p e => (by cases e)⟩
    generalize ht : ({ s with log := s.log ++ [.inp (.request forward r)] } : State) = t at hl
    have hm : Item.inp (.request forward r) ∈ t.log := by rw [← ht]; exact mem
    dsimp only [State.handle]
    split
    · cases forward
      · exact hl.send env _ _ (Or.inr ⟨r, hm, rfl, rfl, fun x hx => (by cases hx), fun x hx => (by cases hx)⟩)
      · exact hl.send env _ _ (Or.inl ⟨r, hm, rfl, rfl, empty_answers _ r⟩)
    · cases forward
      · exact hl.localLookup env .internal r hm
      · exact hl.localLookup env .extended r hm
  | rediscovery corr process =>
    have hl := h.logged (.rediscovery corr process) ⟨fun p e => (by cases e), fun p e => (by cases e)⟩
    exact (hl.collectKnown env).knownAdd env _ _ ((Grow.requests _ env _ _).mem mem)
  | lookupReply corr o =>
    have hl := h.logged (.lookupReply corr o) ⟨fun p e => (by cases e), fun p e => (by cases e)⟩
    exact hl.lookupMsgIn env corr o mem _ [] rfl
  | reply corr o =>
    have hl := h.logged (.reply corr o) ⟨fun p e => (by cases e), fun p e => (by cases e)⟩
    exact hl.discMsgIn env corr o ⟨fun x hx => ⟨o, mem_said_reply mem, hx⟩, fun x hx => ⟨o, mem_said_reply mem, hx⟩⟩ _ [] rfl
  | knownReply corr w =>
    have hl := h.logged (.knownReply corr w) ⟨fun p e => (by cases e), fun p e => (by cases e)⟩
    exact hl.knownMsgIn env corr w mem _ [] rfl
  | direct d =>
    have hl := h.logged (.direct d) ⟨fun p e => (by cases e), fun p e => (by cases e)⟩
    dsimp only [State.handle]
    split
    · exact hl
    · refine hl.setAcc _ ⟨hl.acc.discovery, hl.acc.api, ?_, hl.acc.implicit, hl.acc.lookup⟩
      intro q hq
      rcases List.mem_append.mp hq with hq | hq
      · exact hl.acc.direct q hq
      · rw [List.mem_singleton.mp hq]; exact mem
  | implicit d =>
    have hl := h.logged (.implicit d) ⟨fun p e => (by cases e), fun p e => (by cases e)⟩
    dsimp only [State.handle]
    split
    · exact hl
    · split
      · exact hl
      · refine hl.setAcc _ ⟨hl.acc.discovery, hl.acc.api, hl.acc.direct, ?_, hl.acc.lookup⟩
        intro q hq
        rcases List.mem_append.mp hq with hq | hq
        · exact hl.acc.implicit q hq
        · rw [List.mem_singleton.mp hq]; exact mem
  | timeout =>
    have hl := h.logged .timeout ⟨fun p e => (by cases e), fun p e => (by cases e)⟩
    generalize ({ s with log := s.log ++ [.inp .timeout] } : State) = t at hl
    dsimp only [State.handle]
    have h0 := hl.setAcc {} ⟨fun q hq => (by cases hq), fun q hq => (by cases hq), fun q hq => (by cases hq), fun q hq => (by cases hq), empty_said _⟩
    have h1 := h0.explore env t.accumulate.direct t.accumulate.implicit ⟨hl.acc.direct, hl.acc.implicit⟩
    have g := Grow.explore { t with accumulate := {} } env t.accumulate.direct t.accumulate.implicit
    exact h1.aggregated env _ _ _ (g.offerSaid hl.acc.lookup) (fun r hr => g.mem (hl.acc.discovery r hr)) (fun r hr => g.mem (hl.acc.api r hr))
  | configuration corr process services =>
    have hl := h.logged (.configuration corr process services) ⟨fun p e => (by cases e), fun p e => (by cases e)⟩
    have hmem : services ∈ configurations cs (s.log ++ [.inp (.configuration corr process services)]) := by
      unfold configurations
      rw [List.flatMap_append]
      exact List.mem_cons_of_mem _ (List.mem_append.mpr (Or.inr (by simp)))
    have hcf := hl.configure services hmem
    refine hcf.send env _ _ ⟨process, services, ?_, rfl⟩
    rw [configure_same]
    exact mem
  | shutdown =>
    have hl := h.logged .shutdown ⟨fun p e => (by cases e), fun p e => (by cases e)⟩
    exact ⟨hl.dom, hl.reg, hl.origin, hl.routes, hl.lookup, hl.known, hl.disc, hl.acc, hl.pend, hl.right⟩

theorem run_prov (domain : Domain) (cs : List SvcCfg) (xs : List (Env × Input)) : Prov domain cs (State.run domain cs xs) := by
  have h0 : Prov domain cs (State.init domain cs) := by
    have : Prov domain cs ({ domain := domain } : State) := ⟨rfl, rfl, fun p hp => (by cases hp), fun p hp => (by cases hp), fun p hp => (by cases hp),
      fun p hp => (by cases hp), fun p hp => (by cases hp),
      ⟨fun p hp => (by cases hp), fun p hp => (by cases hp), fun p hp => (by cases hp), fun p hp => (by cases hp), empty_said _⟩,
      fun p hp => (by cases hp), fun b o a e => by rcases e with e | e <;> (cases b <;> cases e)⟩
    exact this.configure cs (List.mem_cons_self ..)
  unfold State.run
  suffices ∀ (xs : List (Env × Input)) (s : State), Prov domain cs s → Prov domain cs (xs.foldl State.step s) from this xs _ h0
  intro xs
  induction xs with
  | nil => exact fun s h => h
  | cons x xs ih => exact fun s h => ih _ (h.step x)

end Casual.Discovery

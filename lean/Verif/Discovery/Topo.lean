import Verif.Discovery.Full
import Verif.Discovery.SpecTopology

/-!
  Topology updates and rediscoveries (for C151): the invariant.
-/
namespace Casual.Discovery

variable {cs : List SvcCfg} {domain : Domain}

/-! ### What does not change -/

/-- What the invariant is about stays. -/
structure Frame (s t : State) : Prop where
  domain : t.domain = s.domain
  known : t.known = s.known
  direct : t.accumulate.direct = s.accumulate.direct
  implicit : t.accumulate.implicit = s.accumulate.implicit
  shutdown : t.shutdown = s.shutdown

theorem Frame.refl (s : State) : Frame s s := ⟨rfl, rfl, rfl, rfl, rfl⟩
theorem Frame.trans {s t u : State} (h1 : Frame s t) (h2 : Frame t u) : Frame s u :=
  ⟨h2.domain.trans h1.domain, h2.known.trans h1.known, h2.direct.trans h1.direct, h2.implicit.trans h1.implicit, h2.shutdown.trans h1.shutdown⟩
theorem Frame.send (s : State) (env : Env) (d : Ipc) (o : Out) : Frame s (s.send env d o) := ⟨rfl, rfl, rfl, rfl, rfl⟩

theorem Frame.foldl {α : Type} (f : State → α → State) (hf : ∀ s x, Frame s (f s x)) : ∀ (l : List α) (s : State), Frame s (l.foldl f s)
  | [], s => Frame.refl s
  | x :: xs, s => (hf s x).trans (Frame.foldl f hf xs _)

theorem Frame.discDone (s : State) (env : Env) (cb : DiscCb) : Frame s (s.discDone env cb) := by
  cases cb with
  | aggregated content ds as key =>
    refine (Frame.foldl _ (fun s r => ?_) as s).trans (Frame.foldl _ (fun s r => ?_) ds _) <;> exact Frame.send s env _ _
  | rediscovery content corr process => exact Frame.send s env _ _

theorem Frame.discRelease (s : State) (cb : DiscCb) : Frame s (s.discRelease cb) := by
  cases cb <;> exact ⟨rfl, rfl, rfl, rfl, rfl⟩

theorem Frame.discAdd (s : State) (env : Env) (e : DiscEntry) : Frame s (s.discAdd env e) := by
  unfold State.discAdd
  split
  · exact (Frame.discDone s env _).trans (Frame.discRelease _ _)
  · exact ⟨rfl, rfl, rfl, rfl, rfl⟩

theorem Frame.requests (s : State) (env : Env) (ps : List Provider) (mk : Handle → Corr → Out) : Frame s (s.requests env ps mk).1 := by
  obtain ⟨n, log, e⟩ := requests_fields env mk s ps
  rw [e]
  exact ⟨rfl, rfl, rfl, rfl, rfl⟩

theorem Frame.aggregated (s : State) (env : Env) (ds as : List Req) (o : Offer) : Frame s (s.aggregated env ds as o) := by
  unfold State.aggregated
  split
  · exact Frame.refl s
  · dsimp only
    generalize s.normalize (((ds ++ as).foldl (fun w r => w.add r.content) ({} : Want)).diff o) = w
    have : Frame s (if w.any = true then s.requests env (s.providers.filter (·.abilities.discover)) (fun h c => .request h c w) else (s, [])).1 := by
      split
      · exact Frame.requests _ _ _ _
      · exact Frame.refl s
    generalize (if w.any = true then s.requests env (s.providers.filter (·.abilities.discover)) (fun h c => .request h c w) else (s, [])) = r at this
    refine this.trans (Frame.trans ?_ (Frame.discAdd _ env _))
    exact ⟨rfl, rfl, rfl, rfl, rfl⟩

theorem Frame.discMessage (s : State) (env : Env) (o : Offer) (cb : DiscCb) : Frame s (s.discMessage env o cb).1 := by
  obtain ⟨log, e⟩ := discMessage_fields env s o cb
  rw [e]
  exact ⟨rfl, rfl, rfl, rfl, rfl⟩

theorem Frame.discMsgIn (env : Env) (s : State) (c : Corr) (o : Offer) : ∀ (es before : List DiscEntry), Frame s (s.discMsgIn env c o before es)
  | [], _ => Frame.refl s
  | e :: es, before => by
    unfold State.discMsgIn
    split
    · unfold State.discEntryMsg
      dsimp only
      have h := Frame.discMessage s env o e.callback
      generalize s.discMessage env o e.callback = r at h
      have h' : ∀ l, Frame s { r.1 with discovery := l } := fun l => h.trans ⟨rfl, rfl, rfl, rfl, rfl⟩
      split
      · exact (h' _).trans (Frame.discRelease _ _)
      · split
        · exact (h' _).trans ((Frame.discDone _ env _).trans (Frame.discRelease _ _))
        · exact h' _
    · exact Frame.discMsgIn env s c o es _

theorem Frame.discFailed (s : State) (env : Env) (p : Handle → Bool) : Frame s (s.discFailed env p) := by
  unfold State.discFailed
  dsimp only
  refine Frame.trans ?_ (Frame.foldl _ (fun s e => (Frame.discDone s env _).trans (Frame.discRelease _ _)) _ _)
  exact ⟨rfl, rfl, rfl, rfl, rfl⟩

theorem Frame.lookupDone (s : State) (env : Env) (replies : List Offer) (cb : LookupCb) : Frame s (s.lookupDone env replies cb) := by
  cases cb with
  | internal r => exact Frame.send s env _ _
  | extended r =>
    unfold State.lookupDone
    dsimp only
    split
    · exact Frame.send s env _ _
    · split
      · exact ⟨rfl, rfl, rfl, rfl, rfl⟩
      · exact Frame.aggregated s env _ _ _

theorem Frame.lookupAdd (s : State) (env : Env) (q : List Pend) (cb : LookupCb) : Frame s (s.lookupAdd env q cb) := by
  unfold State.lookupAdd
  split
  · exact Frame.lookupDone s env _ _
  · exact ⟨rfl, rfl, rfl, rfl, rfl⟩

theorem Frame.lookupMsgIn (env : Env) (s : State) (c : Corr) (o : Offer) : ∀ (es before : List (FanEntry Offer LookupCb)), Frame s (s.lookupMsgIn env c o before es)
  | [], _ => Frame.refl s
  | e :: es, before => by
    unfold State.lookupMsgIn
    split
    · dsimp only
      split
      · refine Frame.trans ?_ (Frame.lookupDone _ env _ _)
        exact ⟨rfl, rfl, rfl, rfl, rfl⟩
      · exact ⟨rfl, rfl, rfl, rfl, rfl⟩
    · exact Frame.lookupMsgIn env s c o es _

theorem Frame.lookupFailed (s : State) (env : Env) (p : Handle → Bool) : Frame s (s.lookupFailed env p) := by
  unfold State.lookupFailed
  refine Frame.trans ?_ (Frame.foldl _ (fun s e => Frame.lookupDone s env _ _) _ _)
  exact ⟨rfl, rfl, rfl, rfl, rfl⟩

theorem Frame.localLookup (s : State) (env : Env) (scope : Scope) (r : Req) : Frame s (s.localLookup env scope r) := by
  unfold State.localLookup
  dsimp only
  exact (Frame.requests s env _ _).trans (Frame.lookupAdd _ env _ _)

/-! ### What is under way -/

/-- As in `Collected`, or an answer is waited for; what has been answered is `received`. -/
def Knowing (rest : List Item) (pend : List Pend) (received : List Want) (p : Handle) : Prop :=
  ∃ c, Item.lost (.known p c) ∈ rest ∨
    (Item.out (.known p c) ∈ rest ∧ ((Gone rest p ∨ ∃ k ∈ received, Item.inp (.knownReply c k) ∈ rest) ∨
      ∃ x ∈ pend, x.corr = c ∧ x.process = p ∧ x.state = .pending))

def KFrom (start : List Item) : KnownCb → Prop
  | .rediscovery corr process => Item.inp (.rediscovery corr process) ∈ start
  | .topology direct implicit => (∀ d ∈ direct, Item.inp (.direct d) ∈ start) ∧ (∀ i ∈ implicit, Item.inp (.implicit i) ∈ start)

def KnownOk (log : List Item) (pend : List Pend) (received : List Want) (cb : KnownCb) : Prop :=
  ∃ start rest, log = start ++ rest ∧ KFrom start cb ∧
    ∀ p ∈ registered start, p.abilities.fetchKnown = true → Knowing rest pend received p.process

theorem Knowing.more {rest b : List Item} {pend : List Pend} {received : List Want} {p : Handle} (h : Knowing rest pend received p) :
    Knowing (rest ++ b) pend received p := by
  obtain ⟨c, h⟩ := h
  refine ⟨c, ?_⟩
  rcases h with h | ⟨h1, (h | ⟨o, ho, h⟩) | h⟩
  · exact Or.inl (mem_left h)
  · exact Or.inr ⟨mem_left h1, Or.inl (Or.inl h.more)⟩
  · exact Or.inr ⟨mem_left h1, Or.inl (Or.inr ⟨o, ho, mem_left h⟩)⟩
  · exact Or.inr ⟨mem_left h1, Or.inr h⟩

theorem KnownOk.more {a b : List Item} {pend : List Pend} {received : List Want} {cb : KnownCb} (h : KnownOk a pend received cb) : KnownOk (a ++ b) pend received cb := by
  obtain ⟨start, rest, e, hi, h⟩ := h
  exact ⟨start, rest ++ b, by rw [e, List.append_assoc], hi, fun p hp hd => (h p hp hd).more⟩

theorem KnownOk.replied {log : List Item} {pend : List Pend} {received : List Want} {cb : KnownCb} (c : Corr) (k : Want) (h : KnownOk log pend received cb) :
    KnownOk (log ++ [.inp (.knownReply c k)]) (receivePend c pend) (received ++ [k]) cb := by
  obtain ⟨start, rest, e, hi, h⟩ := h
  refine ⟨start, rest ++ [.inp (.knownReply c k)], by rw [e, List.append_assoc], hi, fun p hp hl => ?_⟩
  obtain ⟨c', h⟩ := h p hp hl
  rcases h with h | ⟨h1, (h | ⟨o', ho, h⟩) | ⟨x, hx, e1, e2, e3⟩⟩
  · exact ⟨c', Or.inl (mem_left h)⟩
  · exact ⟨c', Or.inr ⟨mem_left h1, Or.inl (Or.inl h.more)⟩⟩
  · exact ⟨c', Or.inr ⟨mem_left h1, Or.inl (Or.inr ⟨o', mem_left ho, mem_left h⟩)⟩⟩
  · rcases mem_or_received (c := c) hx with hx | hx
    · exact ⟨c', Or.inr ⟨mem_left h1, Or.inr ⟨x, hx, e1, e2, e3⟩⟩⟩
    · refine ⟨c', Or.inr ⟨mem_left h1, Or.inl (Or.inr ⟨k, List.mem_append.mpr (Or.inr (List.mem_singleton.mpr rfl)), ?_⟩)⟩⟩
      rw [← e1, hx]
      exact List.mem_append.mpr (Or.inr (List.mem_singleton.mpr rfl))

theorem KnownOk.failed {log : List Item} {pend : List Pend} {received : List Want} {cb : KnownCb} {j : Input} {p : Handle → Bool} (hj : Goes j p)
    (h : KnownOk log pend received cb) : KnownOk (log ++ [.inp j]) (failPend p pend) received cb := by
  obtain ⟨start, rest, e, hi, h⟩ := h
  refine ⟨start, rest ++ [.inp j], by rw [e, List.append_assoc], hi, fun q hq hl => ?_⟩
  obtain ⟨c', h⟩ := h q hq hl
  rcases h with h | ⟨h1, h | ⟨x, hx, e1, e2, e3⟩⟩
  · exact ⟨c', Or.inl (mem_left h)⟩
  · exact Knowing.more ⟨c', Or.inr ⟨h1, Or.inl h⟩⟩
  · rcases mem_or_failed (p := p) hx with hx | hx
    · exact ⟨c', Or.inr ⟨mem_left h1, Or.inr ⟨x, hx, e1, e2, e3⟩⟩⟩
    · exact ⟨c', Or.inr ⟨mem_left h1, Or.inl (Or.inl (by rw [← e2]; exact hj _ _ hx))⟩⟩

/-- When nobody is waited for, everything that is known has been collected. -/
theorem collected_of {start rest : List Item} {pend : List Pend} {received : List Want} (hp : noneWaits pend = true)
    (h : ∀ p ∈ registered start, p.abilities.fetchKnown = true → Knowing rest pend received p.process) {tells : Thing → Prop}
    (ht : ∀ k ∈ received, ∀ t, k.wants t → tells t) : Collected start rest tells := by
  intro p hpr hf
  obtain ⟨c, h⟩ := h p hpr hf
  refine ⟨c, ?_⟩
  rcases h with h | ⟨h1, (h | ⟨k, hk, h⟩) | ⟨x, hx, _, _, h⟩⟩
  · exact Or.inl h
  · exact Or.inr ⟨h1, Or.inl h⟩
  · exact Or.inr ⟨h1, Or.inr ⟨k, h, ht k hk⟩⟩
  · exact absurd h (noneWaits_all hp x hx)

theorem Sent.more {a b : List Item} {o : Out} (h : Sent a o) : Sent (a ++ b) o := h.elim (fun h => Or.inl (mem_left h)) (fun h => Or.inr (mem_left h))
theorem Sent.right {a b : List Item} {o : Out} (h : Sent b o) : Sent (a ++ b) o :=
  h.elim (fun h => Or.inl (List.mem_append.mpr (Or.inr h))) (fun h => Or.inr (List.mem_append.mpr (Or.inr h)))

theorem Collected.mono {start mid : List Item} {P Q : Thing → Prop} (h : Collected start mid P) (hpq : ∀ t, P t → Q t) : Collected start mid Q := by
  intro p hp hf
  obtain ⟨c, h⟩ := h p hp hf
  refine ⟨c, h.imp id (fun h => ⟨h.1, h.2.imp id (fun ⟨k, hk, h⟩ => ⟨k, hk, fun t ht => hpq t (h t ht)⟩)⟩)⟩

theorem Explores.more {log rest b : List Item} {d : Ipc} {t : Thing} (h : Explores cs log rest d t) : Explores cs log (rest ++ b) d t := by
  obtain ⟨w, hs, hw⟩ := h
  exact ⟨w, hs.more, hw⟩

theorem Spread.more {log rest b : List Item} {ds : List Domain} (h : Spread domain log rest ds) : Spread domain log (rest ++ b) ds := by
  intro q hq hf
  obtain ⟨all, hs, h⟩ := h q hq hf
  exact ⟨all, hs.more, h⟩

theorem DirectDone.more {a b : List Item} {d : Direct} (h : DirectDone domain cs a d) : DirectDone domain cs (a ++ b) d := by
  obtain ⟨start, mid, rest, e, hi, h1, h2, h3⟩ := h
  exact ⟨start, mid, rest ++ b, by rw [e, List.append_assoc], hi, h1.mono (fun t ht => ht.more), fun t ht => (h2 t ht).more, h3.more⟩

theorem ImplicitDone.more {a b : List Item} {i : Implicit} (h : ImplicitDone domain cs a i) : ImplicitDone domain cs (a ++ b) i := by
  obtain ⟨start, mid, rest, e, hi, h1, h3⟩ := h
  exact ⟨start, mid, rest ++ b, by rw [e, List.append_assoc], hi, h1.mono (fun t ht => ht.more), h3.more⟩

theorem RediscoveryDone.more {a b : List Item} {c : Corr} {p : Handle} (h : RediscoveryDone cs a c p) : RediscoveryDone cs (a ++ b) c p := by
  obtain ⟨start, mid, rest, e, hi, h1⟩ := h
  exact ⟨start, mid, rest ++ b, by rw [e, List.append_assoc], hi, fun q hq hd => (h1 q hq hd).mono (fun t ⟨c, w, hs, hw⟩ => ⟨c, w, hs.more, hw⟩)⟩

/-! ### The invariant -/

/-- The callback is still to come. -/
def Awaits (s : State) (P : KnownCb → Prop) : Prop := ∃ e ∈ s.known, P e.callback

def ofDirect (d : Direct) : KnownCb → Prop
  | .topology direct _ => d ∈ direct
  | _ => False

def ofImplicit (i : Implicit) : KnownCb → Prop
  | .topology _ implicit => i ∈ implicit
  | _ => False

def ofRediscovery (c : Corr) (p : Handle) : KnownCb → Prop
  | .rediscovery corr process => corr = c ∧ process = p
  | _ => False

/-- `more` are the callbacks that are about to be called; `fk` is what is still to be done to those that are waited for. -/
structure Topo (domain : Domain) (cs : List SvcCfg) (fk : List Pend → List Pend) (more : List KnownCb) (s : State) : Prop where
  dom : s.domain = domain
  known : ∀ e ∈ s.known, KnownOk s.log (fk e.pend) e.received e.callback
  accd : ∀ d ∈ s.accumulate.direct, Item.inp (.direct d) ∈ s.log
  acci : ∀ i ∈ s.accumulate.implicit, Item.inp (.implicit i) ∈ s.log
  direct : s.shutdown = false → ∀ d, Item.inp (.direct d) ∈ s.log →
    d ∈ s.accumulate.direct ∨ Awaits s (ofDirect d) ∨ (∃ cb ∈ more, ofDirect d cb) ∨ DirectDone domain cs s.log d
  implicit : s.shutdown = false → ∀ i, Item.inp (.implicit i) ∈ s.log → domain ∉ i.domains →
    i ∈ s.accumulate.implicit ∨ Awaits s (ofImplicit i) ∨ (∃ cb ∈ more, ofImplicit i cb) ∨ ImplicitDone domain cs s.log i
  redisc : ∀ c p, Item.inp (.rediscovery c p) ∈ s.log → Awaits s (ofRediscovery c p) ∨ (∃ cb ∈ more, ofRediscovery c p cb) ∨ RediscoveryDone cs s.log c p

variable {fk : List Pend → List Pend} {more : List KnownCb}

/-- Nothing but what is sent. -/
theorem Topo.frame {s t : State} (h : Topo domain cs fk more s) (g : Grow s t) (f : Frame s t) : Topo domain cs fk more t := by
  obtain ⟨ys, e, hy⟩ := g
  have back : ∀ i, Item.inp i ∈ t.log → Item.inp i ∈ s.log := by
    intro i hi
    rw [e] at hi
    rcases List.mem_append.mp hi with hi | hi
    · exact hi
    · have := hy _ hi; cases this
  have aw : ∀ P, Awaits s P → Awaits t P := fun P ⟨x, hx, hp⟩ => ⟨x, by rw [f.known]; exact hx, hp⟩
  refine ⟨f.domain.trans h.dom, ?_, ?_, ?_, ?_, ?_, ?_⟩
  · rw [f.known, e]; exact fun x hx => (h.known x hx).more
  · rw [f.direct, e]; exact fun x hx => mem_left (h.accd x hx)
  · rw [f.implicit, e]; exact fun x hx => mem_left (h.acci x hx)
  · intro hs d hd
    rw [f.direct]
    rcases h.direct (f.shutdown ▸ hs) d (back _ hd) with h | h | h | h
    · exact Or.inl h
    · exact Or.inr (Or.inl (aw _ h))
    · exact Or.inr (Or.inr (Or.inl h))
    · rw [e]; exact Or.inr (Or.inr (Or.inr h.more))
  · intro hs d hd hdom
    rw [f.implicit]
    rcases h.implicit (f.shutdown ▸ hs) d (back _ hd) hdom with h | h | h | h
    · exact Or.inl h
    · exact Or.inr (Or.inl (aw _ h))
    · exact Or.inr (Or.inr (Or.inl h))
    · rw [e]; exact Or.inr (Or.inr (Or.inr h.more))
  · intro c p hi
    rcases h.redisc c p (back _ hi) with h | h | h
    · exact Or.inl (aw _ h)
    · exact Or.inr (Or.inl h)
    · rw [e]; exact Or.inr (Or.inr h.more)

theorem foldl_sends {α : Type} (env : Env) (d : α → Ipc) (o : α → Out) : ∀ (l : List α) (s : State),
    ∃ ys, l.foldl (fun s x => s.send env (d x) (o x)) s = { s with log := s.log ++ ys } ∧ ∀ x ∈ l, Sent ys (o x)
  | [], s => ⟨[], by simp, fun x hx => (by cases hx)⟩
  | x :: xs, s => by
    obtain ⟨ys, e, h⟩ := foldl_sends env d o xs (s.send env (d x) (o x))
    refine ⟨(if env.reach (d x) then .out (o x) else .lost (o x)) :: ys, ?_, ?_⟩
    · rw [List.foldl_cons, e]
      unfold State.send
      simp
    · intro y hy
      rcases List.mem_cons.mp hy with e | hy
      · rw [e]
        by_cases hr : env.reach (d x) = true
        · rw [if_pos hr]; exact Or.inl (List.mem_cons_self ..)
        · rw [if_neg hr]; exact Or.inr (List.mem_cons_self ..)
      · exact Sent.right (a := [_]) (h y hy)

theorem mem_targets {direct : List Direct} {implicit : List Implicit} {d : Ipc} :
    d ∈ targets direct implicit ↔ (∃ x ∈ direct, x.process.ipc = d) ∨ (∃ x ∈ implicit, x.process.ipc = d) := by
  unfold targets
  rw [mem_name_sortUnique, List.mem_append, List.mem_map, List.mem_map]

theorem wants_add {a b : Want} {t : Thing} : (a.add b).wants t ↔ a.wants t ∨ b.wants t := by
  cases t with
  | service n => exact mem_add_services
  | queue n => exact mem_add_queues

/-- A callback is called: what it stands for is done. -/
theorem Topo.knownDone {s : State} (h : Topo domain cs fk (cb :: more) s) (hreg : s.providers = registered s.log) (htab : Tables (currentCfg cs s.log) s)
    (env : Env) (pend : List Pend) (replies : List Want) (hc : KnownOk s.log pend replies cb) (hp : noneWaits pend = true) :
    Topo domain cs fk more (s.knownDone env replies cb) := by
  obtain ⟨start, mid, e, hf, hk⟩ := hc
  -- it is enough to show what is done
  have finish : ∀ t : State, Grow s t → Frame s t → (∀ d, ofDirect d cb → DirectDone domain cs t.log d) → (∀ i, ofImplicit i cb → ImplicitDone domain cs t.log i) →
      (∀ c p, ofRediscovery c p cb → RediscoveryDone cs t.log c p) → Topo domain cs fk more t := by
    intro t g f h1 h2 h3
    have ht := h.frame g f
    refine ⟨ht.dom, ht.known, ht.accd, ht.acci, ?_, ?_, ?_⟩
    · intro hs d hd
      rcases ht.direct hs d hd with h | h | ⟨x, hx, h⟩ | h
      · exact Or.inl h
      · exact Or.inr (Or.inl h)
      · rcases List.mem_cons.mp hx with e | hx
        · exact Or.inr (Or.inr (Or.inr (h1 d (e ▸ h))))
        · exact Or.inr (Or.inr (Or.inl ⟨x, hx, h⟩))
      · exact Or.inr (Or.inr (Or.inr h))
    · intro hs d hd hdom
      rcases ht.implicit hs d hd hdom with h | h | ⟨x, hx, h⟩ | h
      · exact Or.inl h
      · exact Or.inr (Or.inl h)
      · rcases List.mem_cons.mp hx with e | hx
        · exact Or.inr (Or.inr (Or.inr (h2 d (e ▸ h))))
        · exact Or.inr (Or.inr (Or.inl ⟨x, hx, h⟩))
      · exact Or.inr (Or.inr (Or.inr h))
    · intro c p hi
      rcases ht.redisc c p hi with h | ⟨x, hx, h⟩ | h
      · exact Or.inl h
      · rcases List.mem_cons.mp hx with e | hx
        · exact Or.inr (Or.inr (h3 c p (e ▸ h)))
        · exact Or.inr (Or.inl ⟨x, hx, h⟩)
      · exact Or.inr (Or.inr h)
  cases cb with
  | rediscovery corr process =>
    refine finish _ (Grow.knownDone s env replies _) ?_ (fun d hd => hd.elim) (fun i hi => hi.elim) ?_
    · unfold State.knownDone
      dsimp only
      exact (Frame.requests s env _ _).trans (Frame.discAdd _ env _)
    · rintro c p ⟨rfl, rfl⟩
      unfold State.knownDone
      dsimp only
      generalize hw : (s.normalize (replies.foldl Want.add ({} : Want))).add s.pendingContent = w
      have hwant : ∀ k ∈ replies, ∀ t, k.wants t → w.wants (t.outside (currentCfg cs s.log)) := by
        intro k hk t ht
        rw [← hw]
        exact wants_add.mpr (Or.inl (wants_normalize htab ((wants_foldl (fun w : Want => w) replies {}).mpr (Or.inr ⟨k, hk, ht⟩))))
      obtain ⟨rest, e', hasked⟩ := requests_asked env (fun h c => .request h c w) s (s.providers.filter (·.abilities.discover))
      have : RediscoveryDone cs (s.requests env (s.providers.filter (·.abilities.discover)) (fun h c => .request h c w)).1.log corr process := by
        refine ⟨start, mid, rest, by rw [e', e], hf, fun q hq hd => ?_⟩
        rw [← e] at hq ⊢
        obtain ⟨c, hc⟩ := hasked q (List.mem_filter.mpr ⟨by rw [hreg]; exact hq, hd⟩)
        refine collected_of hp hk (fun k hk t ht => ⟨c, w, ?_, hwant k hk t ht⟩)
        rcases hc with hc | ⟨hc, _⟩
        · exact Or.inr hc
        · exact Or.inl hc
      exact (Grow.discAdd _ env _).pres (P := fun l => RediscoveryDone cs l corr process) (fun _ _ h => h.more) this
  | topology direct implicit =>
    have gf : Grow s (s.knownDone env replies (.topology direct implicit)) := Grow.knownDone s env replies _
    have key : ∃ rest ds w, (s.knownDone env replies (.topology direct implicit)).log = s.log ++ rest ∧ Frame s (s.knownDone env replies (.topology direct implicit)) ∧
        (∀ d ∈ targets direct implicit, ∀ t, w.wants t → Sent rest (.explore d w)) ∧
        (∀ q ∈ s.providers, q.abilities.topology = true → Sent rest (.implicit q.process.ipc ds)) ∧
        domain ∈ ds ∧ (∀ i ∈ implicit, ∀ x ∈ i.domains, x ∈ ds) ∧
        (∀ t, (∃ k ∈ replies, k.wants t) ∨ (∃ d ∈ direct, d.configured.wants t) → w.wants (t.outside (currentCfg cs s.log))) := by
      unfold State.knownDone
      dsimp only
      generalize hw : (s.normalize (direct.foldl (fun w d => w.add d.configured) (replies.foldl Want.add ({} : Want)))).add s.pendingContent = w
      have h1 : ∃ ys, (if w.any = true then (targets direct implicit).foldl (fun s t => s.send env t (.explore t w)) s else s) = { s with log := s.log ++ ys } ∧
          ∀ d ∈ targets direct implicit, ∀ t, w.wants t → Sent ys (.explore d w) := by
        by_cases ha : w.any = true
        · rw [if_pos ha]
          obtain ⟨ys, e, h⟩ := foldl_sends env (fun t => t) (fun t => .explore t w) (targets direct implicit) s
          exact ⟨ys, e, fun d hd t _ => h d hd⟩
        · rw [if_neg ha]
          exact ⟨[], by simp, fun d hd t ht => absurd (wants_any ht) ha⟩
      obtain ⟨ys, e1, hys⟩ := h1
      rw [e1]
      dsimp only
      generalize hds : appendValue s.domain (implicit.foldl (fun r i => appendDomains i.domains r) []) = ds
      obtain ⟨zs, e2, hzs⟩ := foldl_sends env (fun p : Provider => p.process.ipc) (fun p => .implicit p.process.ipc ds) (s.providers.filter (·.abilities.topology))
        { s with log := s.log ++ ys }
      rw [e2]
      refine ⟨ys ++ zs, ds, w, by simp, ⟨rfl, rfl, rfl, rfl, rfl⟩, fun d hd t ht => (hys d hd t ht).more, fun q hq hf => (hzs q (List.mem_filter.mpr ⟨hq, hf⟩)).right, ?_, ?_, ?_⟩
      · rw [← hds]; exact mem_appendValue.mpr (Or.inl h.dom.symm)
      · intro i hi x hx
        rw [← hds]; exact mem_appendValue.mpr (Or.inr ((mem_merged implicit []).mpr (Or.inr ⟨i, hi, hx⟩)))
      · intro t ht
        rw [← hw]
        refine wants_add.mpr (Or.inl (wants_normalize htab ?_))
        refine (wants_foldl (fun d : Direct => d.configured) direct _).mpr ?_
        rcases ht with ⟨k, hk, ht⟩ | ⟨d, hd, ht⟩
        · exact Or.inl ((wants_foldl (fun w : Want => w) replies {}).mpr (Or.inr ⟨k, hk, ht⟩))
        · exact Or.inr ⟨d, hd, ht⟩
    obtain ⟨rest, ds, w, el, fr, hex, hsp, hdom, hdoms, hwant⟩ := key
    have spread : ∀ xs : List Domain, (∀ x ∈ xs, x ∈ ds) → Spread domain (start ++ mid) rest xs := by
      intro xs hx q hq hf
      rw [← e, ← hreg] at hq
      exact ⟨ds, hsp q hq hf, hdom, hx⟩
    have tells : ∀ d ∈ targets direct implicit, ∀ k ∈ replies, ∀ t, k.wants t → Explores cs (start ++ mid) rest d t := by
      intro d hd k hk t ht
      have := hwant t (Or.inl ⟨k, hk, ht⟩)
      rw [← e]
      exact ⟨w, hex d hd _ this, this⟩
    refine finish _ gf fr ?_ ?_ (fun c p hx => hx.elim)
    · intro d hd
      have hd : d ∈ direct := hd
      have ht : d.process.ipc ∈ targets direct implicit := mem_targets.mpr (Or.inl ⟨d, hd, rfl⟩)
      refine ⟨start, mid, rest, by rw [el, e], hf.1 d hd, collected_of hp hk (tells _ ht), ?_, spread [] (fun x hx => by cases hx)⟩
      intro t hc
      have := hwant t (Or.inr ⟨d, hd, hc⟩)
      rw [← e]
      exact ⟨w, hex _ ht _ this, this⟩
    · intro i hi
      have hi : i ∈ implicit := hi
      have ht : i.process.ipc ∈ targets direct implicit := mem_targets.mpr (Or.inr ⟨i, hi, rfl⟩)
      exact ⟨start, mid, rest, by rw [el, e], hf.2 i hi, collected_of hp hk (tells _ ht), spread _ (fun x hx => hdoms i hi x hx)⟩

/-- An entry is added. -/
theorem Topo.knownAdd {s : State} (h : Topo domain cs id (cb :: more) s) (hreg : s.providers = registered s.log) (htab : Tables (currentCfg cs s.log) s)
    (env : Env) (pend : List Pend) (hc : KnownOk s.log pend [] cb) : Topo domain cs id more (s.knownAdd env pend cb) := by
  unfold State.knownAdd
  split
  · rename_i hn
    exact h.knownDone hreg htab env pend [] hc hn
  · have self : ∀ P : KnownCb → Prop, P cb → Awaits { s with known := s.known ++ [{ pend := pend, callback := cb }] } P :=
      fun P hp => ⟨_, List.mem_append.mpr (Or.inr (List.mem_singleton.mpr rfl)), hp⟩
    have aw : ∀ P, Awaits s P → Awaits { s with known := s.known ++ [{ pend := pend, callback := cb }] } P := fun P ⟨x, hx, hp⟩ => ⟨x, mem_left hx, hp⟩
    refine ⟨h.dom, ?_, h.accd, h.acci, ?_, ?_, ?_⟩
    · intro e he
      rcases List.mem_append.mp he with he | he
      · exact h.known e he
      · rw [List.mem_singleton.mp he]; exact hc
    · intro hs d hd
      rcases h.direct hs d hd with h | h | ⟨x, hx, h⟩ | h
      · exact Or.inl h
      · exact Or.inr (Or.inl (aw _ h))
      · rcases List.mem_cons.mp hx with e | hx
        · exact Or.inr (Or.inl (self _ (e ▸ h)))
        · exact Or.inr (Or.inr (Or.inl ⟨x, hx, h⟩))
      · exact Or.inr (Or.inr (Or.inr h))
    · intro hs d hd hdom
      rcases h.implicit hs d hd hdom with h | h | ⟨x, hx, h⟩ | h
      · exact Or.inl h
      · exact Or.inr (Or.inl (aw _ h))
      · rcases List.mem_cons.mp hx with e | hx
        · exact Or.inr (Or.inl (self _ (e ▸ h)))
        · exact Or.inr (Or.inr (Or.inl ⟨x, hx, h⟩))
      · exact Or.inr (Or.inr (Or.inr h))
    · intro c p hi
      rcases h.redisc c p hi with h | ⟨x, hx, h⟩ | h
      · exact Or.inl (aw _ h)
      · rcases List.mem_cons.mp hx with e | hx
        · exact Or.inl (self _ (e ▸ h))
        · exact Or.inr (Or.inl ⟨x, hx, h⟩)
      · exact Or.inr (Or.inr h)

/-- The entries become `l`, and `more'` are about to be called. -/
theorem Topo.setKnown {s : State} {fk' : List Pend → List Pend} {more' : List KnownCb} (h : Topo domain cs fk more s) (l : List (FanEntry Want KnownCb))
    (hl : ∀ e ∈ l, KnownOk s.log (fk' e.pend) e.received e.callback)
    (hm : ∀ cb, (∃ e ∈ s.known, e.callback = cb) ∨ cb ∈ more → (∃ e ∈ l, e.callback = cb) ∨ cb ∈ more') :
    Topo domain cs fk' more' { s with known := l } := by
  have key : ∀ P : KnownCb → Prop, Awaits s P ∨ (∃ cb ∈ more, P cb) → Awaits { s with known := l } P ∨ (∃ cb ∈ more', P cb) := by
    intro P hp
    have : ∃ cb, ((∃ e ∈ s.known, e.callback = cb) ∨ cb ∈ more) ∧ P cb := by
      rcases hp with ⟨e, he, hp⟩ | ⟨cb, hc, hp⟩
      · exact ⟨_, Or.inl ⟨e, he, rfl⟩, hp⟩
      · exact ⟨cb, Or.inr hc, hp⟩
    obtain ⟨cb, hc, hp⟩ := this
    rcases hm cb hc with ⟨e, he, rfl⟩ | hc
    · exact Or.inl ⟨e, he, hp⟩
    · exact Or.inr ⟨cb, hc, hp⟩
  refine ⟨h.dom, hl, h.accd, h.acci, ?_, ?_, ?_⟩
  · intro hs d hd
    rcases h.direct hs d hd with h | h | h | h
    · exact Or.inl h
    · exact Or.inr ((key _ (Or.inl h)).imp id Or.inl)
    · exact Or.inr ((key _ (Or.inr h)).imp id Or.inl)
    · exact Or.inr (Or.inr (Or.inr h))
  · intro hs d hd hdom
    rcases h.implicit hs d hd hdom with h | h | h | h
    · exact Or.inl h
    · exact Or.inr ((key _ (Or.inl h)).imp id Or.inl)
    · exact Or.inr ((key _ (Or.inr h)).imp id Or.inl)
    · exact Or.inr (Or.inr (Or.inr h))
  · intro c p hi
    rcases h.redisc c p hi with h | h | h
    · exact (key _ (Or.inl h)).imp id Or.inl
    · exact (key _ (Or.inr h)).imp id Or.inl
    · exact Or.inr (Or.inr h)

theorem Topo.knownMsgIn {s : State} (h : Topo domain cs id [] s) (hreg : s.providers = registered s.log) (htab : Tables (currentCfg cs s.log) s) (env : Env) (c : Corr) (k : Want)
    (ho : ∀ e ∈ s.known, KnownOk s.log (receivePend c e.pend) (e.received ++ [k]) e.callback) :
    ∀ (es before : List (FanEntry Want KnownCb)), s.known = before ++ es → Topo domain cs id [] (s.knownMsgIn env c k before es)
  | [], _, _ => h
  | e :: es, before, hd => by
    unfold State.knownMsgIn
    split
    · have he := ho e (by rw [hd]; simp)
      have hl : ∀ x ∈ before ++ es, x ∈ s.known := by
        intro x hx
        rw [hd]
        rcases List.mem_append.mp hx with hx | hx
        · exact mem_left hx
        · exact List.mem_append.mpr (Or.inr (List.mem_cons_of_mem _ hx))
      dsimp only
      split
      · rename_i hn
        refine Topo.knownDone (cb := e.callback) (h.setKnown (before ++ es) (fun x hx => h.known x (hl x hx)) ?_) hreg (htab.same rfl rfl) env _ _ he hn
        rintro cb (⟨x, hx, e'⟩ | hx)
        · rw [hd] at hx
          rcases List.mem_append.mp hx with hx | hx
          · exact Or.inl ⟨x, mem_left hx, e'⟩
          · rcases List.mem_cons.mp hx with hx | hx
            · rw [← e', hx]; exact Or.inr (List.mem_cons_self ..)
            · exact Or.inl ⟨x, List.mem_append.mpr (Or.inr hx), e'⟩
        · cases hx
      · refine h.setKnown _ ?_ ?_
        · intro x hx
          rcases List.mem_append.mp hx with hx | hx
          · exact h.known x (hl x (mem_left hx))
          · rcases List.mem_cons.mp hx with hx | hx
            · rw [hx]; exact he
            · exact h.known x (hl x (List.mem_append.mpr (Or.inr hx)))
        · rintro cb (⟨x, hx, e'⟩ | hx)
          · rw [hd] at hx
            rcases List.mem_append.mp hx with hx | hx
            · exact Or.inl ⟨x, mem_left hx, e'⟩
            · rcases List.mem_cons.mp hx with hx | hx
              · rw [← e', hx]; exact Or.inl ⟨_, List.mem_append.mpr (Or.inr (List.mem_cons_self ..)), rfl⟩
              · exact Or.inl ⟨x, List.mem_append.mpr (Or.inr (List.mem_cons_of_mem _ hx)), e'⟩
          · cases hx
    · exact Topo.knownMsgIn h hreg htab env c k ho es (before ++ [e]) (by rw [hd, List.append_assoc]; rfl)

theorem Topo.knownFailed {s : State} {p : Handle → Bool} {fl : List Pend → List Pend} (hf : Full cs fl id s) (h : Topo domain cs (failPend p) [] s) (env : Env) : Topo domain cs id [] (s.knownFailed env p) := by
  unfold State.knownFailed
  have hall : ∀ e ∈ s.known.filter (fun e => failDone p e.pend), KnownOk s.log (failPend p e.pend) e.received e.callback ∧ noneWaits (failPend p e.pend) = true := by
    intro e he
    obtain ⟨h1, h2⟩ := List.mem_filter.mp he
    exact ⟨h.known e h1, (Bool.and_eq_true _ _ ▸ h2 : _ ∧ _).2⟩
  have h0 : Topo domain cs id ((s.known.filter (fun e => failDone p e.pend)).map (·.callback))
      { s with known := (s.known.filter fun e => !failDone p e.pend).map fun e => { e with pend := failPend p e.pend } } := by
    refine h.setKnown _ ?_ ?_
    · intro e he
      obtain ⟨e0, he0, rfl⟩ := List.mem_map.mp he
      exact h.known e0 (List.mem_filter.mp he0).1
    · rintro cb (⟨e, he, rfl⟩ | hx)
      · cases hfd : failDone p e.pend
        · exact Or.inl ⟨_, List.mem_map.mpr ⟨e, List.mem_filter.mpr ⟨he, by rw [hfd]; rfl⟩, rfl⟩, rfl⟩
        · exact Or.inr (List.mem_map.mpr ⟨e, List.mem_filter.mpr ⟨he, hfd⟩, rfl⟩)
      · cases hx
  have f0 : Full cs fl id { s with known := (s.known.filter fun e => !failDone p e.pend).map fun e => { e with pend := failPend p e.pend } } := hf.setKnown _
  have hlog : ∀ e ∈ s.known.filter (fun e => failDone p e.pend),
      KnownOk ({ s with known := (s.known.filter fun e => !failDone p e.pend).map fun e => { e with pend := failPend p e.pend } } : State).log (failPend p e.pend) e.received e.callback ∧ noneWaits (failPend p e.pend) = true := hall
  generalize ({ s with known := (s.known.filter fun e => !failDone p e.pend).map fun e => { e with pend := failPend p e.pend } } : State) = t at h0 f0 hlog
  generalize s.known.filter (fun e => failDone p e.pend) = l at h0 hlog
  clear hall h hf
  induction l generalizing t with
  | nil => exact h0
  | cons e es ih =>
    rw [List.foldl_cons]
    obtain ⟨h1, h2⟩ := hlog e (List.mem_cons_self ..)
    refine ih _ (f0.knownDone env _ _) (h0.knownDone f0.reg f0.tab env _ _ h1 h2) ?_
    intro x hx
    obtain ⟨h3, h4⟩ := hlog x (List.mem_cons_of_mem _ hx)
    exact ⟨(Grow.knownDone t env _ _).pres (P := fun l => KnownOk l (failPend p x.pend) x.received x.callback) (fun _ _ h => h.more) h3, h4⟩

/-- Ask for what is known. -/
theorem Topo.collect {s : State} (hf : Full cs id id s) (h : Topo domain cs id (cb :: more) s) (hk : KFrom s.log cb) (env : Env) :
    Topo domain cs id more ((s.collectKnown env).1.knownAdd env (s.collectKnown env).2 cb) := by
  have f1 := hf.collectKnown env
  have h1 : Topo domain cs id (cb :: more) (s.collectKnown env).1 := h.frame (Grow.requests s env _ _) (Frame.requests s env _ _)
  refine h1.knownAdd f1.reg f1.tab env _ ?_
  obtain ⟨rest, e, hasked⟩ := requests_asked env (fun h c => .known h c) s (s.providers.filter (·.abilities.fetchKnown))
  refine ⟨s.log, rest, e, hk, fun p hp hl => ?_⟩
  obtain ⟨c, hc⟩ := hasked p (List.mem_filter.mpr ⟨by rw [hf.reg]; exact hp, hl⟩)
  rcases hc with hc | ⟨h1, h2⟩
  · exact ⟨c, Or.inl hc⟩
  · exact ⟨c, Or.inr ⟨h1, Or.inr h2⟩⟩

/-! ### A step -/

/-- An input that is neither a topology update nor a rediscovery. -/
def Input.plain : Input → Bool
  | .direct _ | .implicit _ | .rediscovery .. => false
  | _ => true

theorem Topo.logged {s : State} (h : Topo domain cs fk more s) (i : Input) (hi : i.plain = true) (ps : List Provider) :
    Topo domain cs fk more { s with log := s.log ++ [.inp i], providers := ps } := by
  have back : ∀ j, j.plain = false → Item.inp j ∈ s.log ++ [Item.inp i] → Item.inp j ∈ s.log := by
    intro j hj hm
    rcases List.mem_append.mp hm with hm | hm
    · exact hm
    · have := List.mem_singleton.mp hm
      injection this with this
      rw [this, hi] at hj
      cases hj
  refine ⟨h.dom, fun e he => (h.known e he).more, fun d hd => mem_left (h.accd d hd), fun d hd => mem_left (h.acci d hd), ?_, ?_, ?_⟩
  · intro hs d hd
    exact (h.direct hs d (back _ rfl hd)).imp id (Or.imp id (Or.imp id (fun h => h.more)))
  · intro hs d hd hdom
    exact (h.implicit hs d (back _ rfl hd) hdom).imp id (Or.imp id (Or.imp id (fun h => h.more)))
  · intro c p hd
    exact (h.redisc c p (back _ rfl hd)).imp id (Or.imp id (fun h => h.more))

theorem Topo.failed {s : State} (hf : Full cs id id s) (h : Topo domain cs id [] s) (env : Env) (i : Input) (p : Handle → Bool) (hc : ∀ c, currentStep c (.inp i) = c)
    (hi : ∀ ps, registeredStep ps (.inp i) = ps.filter fun x => !p x.process) (hg : Goes i p) (hpl : i.plain = true) :
    Topo domain cs id [] (({ s with log := s.log ++ [.inp i] } : State).failed env p) := by
  unfold State.failed
  dsimp only
  have f1 := hf.grow (.inp i) (s.providers.filter fun x => !p x.process) (by rw [registered_snoc, hi, hf.reg]) (by rw [currentCfg_snoc, hc]) (fun o e => by rcases e with e | e <;> cases e)
  have f2 : Full cs (failPend p) (failPend p) { s with log := s.log ++ [.inp i], providers := s.providers.filter fun x => !p x.process } :=
    ⟨f1.reg, f1.tab, fun e he => (hf.look e he).failed hg, fun e he => (hf.disc e he).failed hg, f1.acc, f1.api, f1.stop, f1.right⟩
  have h1 := h.logged i hpl (s.providers.filter fun x => !p x.process)
  have h2 : Topo domain cs (failPend p) [] { s with log := s.log ++ [.inp i], providers := s.providers.filter fun x => !p x.process } :=
    ⟨h1.dom, fun e he => (h.known e he).failed hg, h1.accd, h1.acci, h1.direct, h1.implicit, h1.redisc⟩
  have h3 := h2.frame (Grow.discFailed _ env p) (Frame.discFailed _ env p)
  have h4 := h3.frame (Grow.lookupFailed _ env p) (Frame.lookupFailed _ env p)
  exact Topo.knownFailed ((f2.discFailed env).lookupFailed env) h4 env


theorem Topo.step {s : State} (hf : Full cs id id s) (h : Topo domain cs id [] s) (x : Env × Input) : Topo domain cs id [] (s.step x) := by
  unfold State.step
  split
  · exact h
  obtain ⟨env, i⟩ := x
  have mem : Item.inp i ∈ s.log ++ [Item.inp i] := List.mem_append.mpr (Or.inr (List.mem_singleton.mpr rfl))
  cases i with
  | exit pid => exact h.failed hf env (.exit pid) (·.pid == pid) (fun c => rfl) (fun ps => rfl) (fun x rest hx => Or.inl (by rw [eq_of_beq hx]; simp)) rfl
  | ipcDestroyed ipc => exact h.failed hf env (.ipcDestroyed ipc) (·.ipc == ipc) (fun c => rfl) (fun ps => rfl) (fun x rest hx => Or.inr (by rw [eq_of_beq hx]; simp)) rfl
  | registration corr process abilities =>
    refine (h.logged (.registration corr process abilities) rfl s.providers).frame ?_ ?_
    · exact Grow.handle _ env (.registration corr process abilities)
    · dsimp only [State.handle]
      split
      · unfold State.register
        split <;> exact ⟨rfl, rfl, rfl, rfl, rfl⟩
      · exact ⟨rfl, rfl, rfl, rfl, rfl⟩
  | api r =>
    refine (h.logged (.api r) rfl s.providers).frame (Grow.handle _ env (.api r)) ?_
    dsimp only [State.handle]
    split
    · exact Frame.send _ env _ _
    · split
      · exact ⟨rfl, rfl, rfl, rfl, rfl⟩
      · exact Frame.aggregated _ env _ _ _
  | request forward r =>
    refine (h.logged (.request forward r) rfl s.providers).frame (Grow.handle _ env (.request forward r)) ?_
    dsimp only [State.handle]
    split
    · exact Frame.send _ env _ _
    · split
      · exact Frame.localLookup _ env _ _
      · exact Frame.localLookup _ env _ _
  | rediscovery corr process =>
    have fl := hf.logged (.rediscovery corr process) ⟨fun p e => (by cases e), fun p e => (by cases e), fun _ _ _ e => (by cases e)⟩
    have hl : Topo domain cs id [.rediscovery corr process] { s with log := s.log ++ [.inp (.rediscovery corr process)] } := by
      refine ⟨h.dom, fun e he => (h.known e he).more, fun d hd => mem_left (h.accd d hd), fun d hd => mem_left (h.acci d hd), ?_, ?_, ?_⟩
      · intro hs d hd
        rcases List.mem_append.mp hd with hd | hd
        · rcases h.direct hs d hd with h | h | ⟨x, hx, _⟩ | h
          · exact Or.inl h
          · exact Or.inr (Or.inl h)
          · cases hx
          · exact Or.inr (Or.inr (Or.inr h.more))
        · have := List.mem_singleton.mp hd; cases this
      · intro hs d hd hdom
        rcases List.mem_append.mp hd with hd | hd
        · rcases h.implicit hs d hd hdom with h | h | ⟨x, hx, _⟩ | h
          · exact Or.inl h
          · exact Or.inr (Or.inl h)
          · cases hx
          · exact Or.inr (Or.inr (Or.inr h.more))
        · have := List.mem_singleton.mp hd; cases this
      · intro c p hi
        rcases List.mem_append.mp hi with hi | hi
        · rcases h.redisc c p hi with h | ⟨x, hx, _⟩ | h
          · exact Or.inl h
          · cases hx
          · exact Or.inr (Or.inr h.more)
        · have := List.mem_singleton.mp hi
          injection this with this
          injection this with e1 e2
          exact Or.inr (Or.inl ⟨_, List.mem_singleton.mpr rfl, e1.symm, e2.symm⟩)
    exact hl.collect fl mem env
  | lookupReply corr o => exact (h.logged (.lookupReply corr o) rfl s.providers).frame (Grow.handle _ env (.lookupReply corr o)) (Frame.lookupMsgIn env _ corr o _ [])
  | reply corr o => exact (h.logged (.reply corr o) rfl s.providers).frame (Grow.handle _ env (.reply corr o)) (Frame.discMsgIn env _ corr o _ [])
  | knownReply corr w =>
    have fl := hf.logged (.knownReply corr w) ⟨fun p e => (by cases e), fun p e => (by cases e), fun _ _ _ e => (by cases e)⟩
    exact (h.logged (.knownReply corr w) rfl s.providers).knownMsgIn fl.reg fl.tab env corr w (fun e he => (h.known e he).replied corr w) _ [] rfl
  | direct d =>
    dsimp only [State.handle]
    have acc : ∀ (a : Accumulate), (∀ x ∈ a.direct, x ∈ s.accumulate.direct ∨ x = d) → a.implicit = s.accumulate.implicit → (s.shutdown = false → ∀ x, x = d ∨ x ∈ s.accumulate.direct → x ∈ a.direct) →
        Topo domain cs id [] { s with log := s.log ++ [.inp (.direct d)], accumulate := a } := by
      intro a h1 h2 h3
      refine ⟨h.dom, fun e he => (h.known e he).more, ?_, ?_, ?_, ?_, ?_⟩
      · intro x hx
        rcases h1 x hx with hx | hx
        · exact mem_left (h.accd x hx)
        · rw [hx]; exact mem
      · intro x hx
        have hx : x ∈ a.implicit := hx
        rw [h2] at hx; exact mem_left (h.acci x hx)
      · intro hs x hx
        rcases List.mem_append.mp hx with hx | hx
        · rcases h.direct hs x hx with h | h | h | h
          · exact Or.inl (h3 hs x (Or.inr h))
          · exact Or.inr (Or.inl h)
          · exact Or.inr (Or.inr (Or.inl h))
          · exact Or.inr (Or.inr (Or.inr h.more))
        · have := List.mem_singleton.mp hx
          injection this with this
          injection this with this
          exact Or.inl (h3 hs x (Or.inl this))
      · intro hs x hx hdom
        show x ∈ a.implicit ∨ _
        rw [h2]
        rcases List.mem_append.mp hx with hx | hx
        · exact (h.implicit hs x hx hdom).imp id (Or.imp id (Or.imp id (fun h => h.more)))
        · have := List.mem_singleton.mp hx; cases this
      · intro c p hi
        rcases List.mem_append.mp hi with hi | hi
        · exact (h.redisc c p hi).imp id (Or.imp id (fun h => h.more))
        · have := List.mem_singleton.mp hi; cases this
    split
    · rename_i hs
      refine acc s.accumulate (fun x hx => Or.inl hx) rfl (fun hn => ?_)
      have hs : s.shutdown = true := hs
      rw [hs] at hn; cases hn
    · refine acc (s.accumulate.addDirect d) ?_ rfl ?_
      · intro x hx
        rcases List.mem_append.mp hx with hx | hx
        · exact Or.inl hx
        · exact Or.inr (List.mem_singleton.mp hx)
      · rintro _ x (hx | hx)
        · exact List.mem_append.mpr (Or.inr (List.mem_singleton.mpr hx))
        · exact mem_left hx
  | implicit d =>
    dsimp only [State.handle]
    have acc : ∀ (a : Accumulate), (∀ x ∈ a.implicit, x ∈ s.accumulate.implicit ∨ x = d) → a.direct = s.accumulate.direct →
        (s.shutdown = false → ∀ x, (x = d ∧ domain ∉ x.domains) ∨ x ∈ s.accumulate.implicit → x ∈ a.implicit) →
        Topo domain cs id [] { s with log := s.log ++ [.inp (.implicit d)], accumulate := a } := by
      intro a h1 h2 h3
      refine ⟨h.dom, fun e he => (h.known e he).more, ?_, ?_, ?_, ?_, ?_⟩
      · intro x hx
        have hx : x ∈ a.direct := hx
        rw [h2] at hx; exact mem_left (h.accd x hx)
      · intro x hx
        rcases h1 x hx with hx | hx
        · exact mem_left (h.acci x hx)
        · rw [hx]; exact mem
      · intro hs x hx
        show x ∈ a.direct ∨ _
        rw [h2]
        rcases List.mem_append.mp hx with hx | hx
        · exact (h.direct hs x hx).imp id (Or.imp id (Or.imp id (fun h => h.more)))
        · have := List.mem_singleton.mp hx; cases this
      · intro hs x hx hdom
        rcases List.mem_append.mp hx with hx | hx
        · rcases h.implicit hs x hx hdom with h | h | h | h
          · exact Or.inl (h3 hs x (Or.inr h))
          · exact Or.inr (Or.inl h)
          · exact Or.inr (Or.inr (Or.inl h))
          · exact Or.inr (Or.inr (Or.inr h.more))
        · have := List.mem_singleton.mp hx
          injection this with this
          injection this with this
          exact Or.inl (h3 hs x (Or.inl ⟨this, hdom⟩))
      · intro c p hi
        rcases List.mem_append.mp hi with hi | hi
        · exact (h.redisc c p hi).imp id (Or.imp id (fun h => h.more))
        · have := List.mem_singleton.mp hi; cases this
    split
    · rename_i hs
      refine acc s.accumulate (fun x hx => Or.inl hx) rfl (fun hn => ?_)
      have hs : s.shutdown = true := hs
      rw [hs] at hn; cases hn
    · split
      · rename_i hc
        refine acc s.accumulate (fun x hx => Or.inl hx) rfl ?_
        rintro _ x (⟨rfl, hx⟩ | hx)
        · have hc : x.domains.contains s.domain = true := hc
          rw [h.dom] at hc
          exact absurd (by simpa using hc) hx
        · exact hx
      · refine acc (s.accumulate.addImplicit d) ?_ rfl ?_
        · intro x hx
          rcases List.mem_append.mp hx with hx | hx
          · exact Or.inl hx
          · exact Or.inr (List.mem_singleton.mp hx)
        · rintro _ x (⟨hx, _⟩ | hx)
          · exact List.mem_append.mpr (Or.inr (List.mem_singleton.mpr hx))
          · exact mem_left hx
  | timeout =>
    have fl := hf.logged .timeout ⟨fun p e => (by cases e), fun p e => (by cases e), fun _ _ _ e => (by cases e)⟩
    have hl := h.logged .timeout rfl s.providers
    have hl : Topo domain cs id [] { s with log := s.log ++ [.inp .timeout] } := hl
    generalize ({ s with log := s.log ++ [.inp .timeout] } : State) = t at fl hl
    dsimp only [State.handle]
    have f0 : Full cs id id { t with accumulate := {} } :=
      ⟨fl.reg, fl.tab.same rfl rfl, fl.look, fl.disc, fun q hq => (by cases hq), fun q hq => (by cases hq), fl.stop, fl.right⟩
    have h1 : Topo domain cs id [] (State.explore { t with accumulate := {} } env t.accumulate.direct t.accumulate.implicit) := by
      have h0 : Topo domain cs id [.topology t.accumulate.direct t.accumulate.implicit] { t with accumulate := {} } := by
        refine ⟨hl.dom, hl.known, fun x hx => (by cases hx), fun x hx => (by cases hx), ?_, ?_, ?_⟩
        · intro hs d hd
          rcases hl.direct hs d hd with h | h | ⟨x, hx, _⟩ | h
          · exact Or.inr (Or.inr (Or.inl ⟨_, List.mem_singleton.mpr rfl, h⟩))
          · exact Or.inr (Or.inl h)
          · cases hx
          · exact Or.inr (Or.inr (Or.inr h))
        · intro hs d hd hdom
          rcases hl.implicit hs d hd hdom with h | h | ⟨x, hx, _⟩ | h
          · exact Or.inr (Or.inr (Or.inl ⟨_, List.mem_singleton.mpr rfl, h⟩))
          · exact Or.inr (Or.inl h)
          · cases hx
          · exact Or.inr (Or.inr (Or.inr h))
        · intro c p hi
          rcases hl.redisc c p hi with h | ⟨x, hx, _⟩ | h
          · exact Or.inl h
          · cases hx
          · exact Or.inr (Or.inr h)
      unfold State.explore
      split
      · rename_i he
        simp only [Bool.and_eq_true, List.isEmpty_iff] at he
        refine ⟨h0.dom, h0.known, h0.accd, h0.acci, ?_, ?_, ?_⟩
        · intro hs d hd
          rcases h0.direct hs d hd with h | h | ⟨x, hx, h⟩ | h
          · exact Or.inl h
          · exact Or.inr (Or.inl h)
          · rw [List.mem_singleton.mp hx, he.1] at h
            cases (show d ∈ [] from h)
          · exact Or.inr (Or.inr (Or.inr h))
        · intro hs d hd hdom
          rcases h0.implicit hs d hd hdom with h | h | ⟨x, hx, h⟩ | h
          · exact Or.inl h
          · exact Or.inr (Or.inl h)
          · rw [List.mem_singleton.mp hx, he.2] at h
            cases (show d ∈ [] from h)
          · exact Or.inr (Or.inr (Or.inr h))
        · intro c p hi
          rcases h0.redisc c p hi with h | ⟨x, hx, h⟩ | h
          · exact Or.inl h
          · rw [List.mem_singleton.mp hx] at h
            exact h.elim
          · exact Or.inr (Or.inr h)
      · exact h0.collect f0 ⟨hl.accd, hl.acci⟩ env
    exact h1.frame (Grow.aggregated _ env _ _ _) (Frame.aggregated _ env _ _ _)
  | configuration corr process services =>
    refine (h.logged (.configuration corr process services) rfl s.providers).frame (Grow.handle _ env (.configuration corr process services)) ?_
    dsimp only [State.handle]
    refine Frame.trans ?_ (Frame.send _ env _ _)
    rw [configure_same]
    exact ⟨rfl, rfl, rfl, rfl, rfl⟩
  | shutdown =>
    have hl := h.logged .shutdown rfl s.providers
    exact ⟨hl.dom, hl.known, hl.accd, hl.acci, fun hs => (by cases hs), fun hs => (by cases hs), hl.redisc⟩

theorem run_topo (domain : Domain) (cs : List SvcCfg) (xs : List (Env × Input)) : Topo domain cs id [] (State.run domain cs xs) := by
  have h0 : Topo domain cs id [] (State.init domain cs) := by
    unfold State.init
    rw [configure_same]
    exact ⟨rfl, fun p hp => (by cases hp), fun p hp => (by cases hp), fun p hp => (by cases hp), fun _ p hp => (by cases hp), fun _ p hp => (by cases hp), fun _ _ hp => (by cases hp)⟩
  have hf := run_full domain cs []
  unfold State.run at *
  suffices ∀ (xs : List (Env × Input)) (s : State), Full cs id id s → Topo domain cs id [] s → Topo domain cs id [] (xs.foldl State.step s) from this xs _ hf h0
  intro xs
  induction xs with
  | nil => exact fun s _ h => h
  | cons x xs ih => exact fun s hf h => ih _ (hf.step x) (h.step hf x)

end Casual.Discovery

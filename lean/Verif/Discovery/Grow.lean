import Verif.Discovery.Balance

/-!
  The log grows by what is sent; at most one answer for each question.
-/
namespace Casual.Discovery

def Item.isInp : Item → Bool
  | .inp _ => true
  | _ => false

/-- The log of `t` is that of `s`, and something sent. -/
def Grow (s t : State) : Prop := ∃ ys, t.log = s.log ++ ys ∧ ∀ y ∈ ys, y.isInp = false

theorem Grow.refl (s : State) : Grow s s := ⟨[], by simp, fun y h => by cases h⟩
theorem Grow.same {s t : State} (h : t.log = s.log) : Grow s t := ⟨[], by simp [h], fun y h => by cases h⟩

theorem Grow.trans {s t u : State} (h1 : Grow s t) (h2 : Grow t u) : Grow s u := by
  obtain ⟨y1, e1, n1⟩ := h1
  obtain ⟨y2, e2, n2⟩ := h2
  refine ⟨y1 ++ y2, by rw [e2, e1, List.append_assoc], ?_⟩
  intro y hy
  rcases List.mem_append.mp hy with h | h
  · exact n1 y h
  · exact n2 y h

theorem Grow.send (s : State) (env : Env) (d : Ipc) (o : Out) : Grow s (s.send env d o) :=
  ⟨_, rfl, fun y hy => by rw [List.mem_singleton.mp hy]; split <;> rfl⟩

theorem Grow.foldl {α : Type} (f : State → α → State) (hf : ∀ s x, Grow s (f s x)) : ∀ (l : List α) (s : State), Grow s (l.foldl f s)
  | [], s => Grow.refl s
  | x :: xs, s => (hf s x).trans (Grow.foldl f hf xs _)

theorem Grow.requests (s : State) (env : Env) (ps : List Provider) (mk : Handle → Corr → Out) : Grow s (s.requests env ps mk).1 := by
  unfold State.requests
  suffices ∀ r : State × List Pend, Grow r.1 (ps.foldl (fun r p =>
    ({ r.1.send env p.process.ipc (mk p.process r.1.nextCorr) with nextCorr := r.1.nextCorr + 1 },
      if env.reach p.process.ipc then r.2 ++ [{ corr := r.1.nextCorr, process := p.process }] else r.2)) r).1 from this (s, [])
  induction ps with
  | nil => exact fun r => Grow.refl _
  | cons p ps ih => exact fun r => Grow.trans ((Grow.send r.1 env _ _).trans (Grow.same rfl)) (ih _)

theorem Grow.discDone (s : State) (env : Env) (cb : DiscCb) : Grow s (s.discDone env cb) := by
  cases cb with
  | aggregated content ds as key =>
    exact (Grow.foldl _ (fun s r => Grow.send s env _ _) as s).trans (Grow.foldl _ (fun s r => Grow.send s env _ _) ds _)
  | rediscovery content corr process => exact Grow.send s env _ _

theorem Grow.discRelease (s : State) (cb : DiscCb) : Grow s (s.discRelease cb) := by
  cases cb <;> exact Grow.same rfl

theorem Grow.discAdd (s : State) (env : Env) (e : DiscEntry) : Grow s (s.discAdd env e) := by
  unfold State.discAdd
  split
  · exact (Grow.discDone s env _).trans (Grow.discRelease _ _)
  · exact Grow.same rfl

theorem Grow.aggregated (s : State) (env : Env) (ds as : List Req) (o : Offer) : Grow s (s.aggregated env ds as o) := by
  unfold State.aggregated
  split
  · exact Grow.refl s
  · dsimp only
    refine Grow.trans ?_ (Grow.discAdd _ env _)
    refine Grow.trans ?_ (Grow.same rfl)
    split
    · exact Grow.requests s env _ _
    · exact Grow.refl s

theorem Grow.sendIncluded (env : Env) (content : Offer) (send : State → Req → State) (hs : ∀ s r, ∃ d o, send s r = s.send env d o) (s : State) (rs : List Req) :
    Grow s (s.sendIncluded content send rs).1 :=
  Grow.foldl _ (fun s r => by obtain ⟨d, o, e⟩ := hs s r; rw [e]; exact Grow.send s env d o) _ s

theorem Grow.discMessage (s : State) (env : Env) (o : Offer) (cb : DiscCb) : Grow s (s.discMessage env o cb).1 := by
  cases cb with
  | aggregated content ds as key =>
    unfold State.discMessage
    dsimp only
    exact (Grow.sendIncluded env _ _ (sendApiReply_is env _) s as).trans (Grow.sendIncluded env _ _ (sendReply_is env _) _ ds)
  | rediscovery content corr process => exact Grow.refl s

theorem Grow.discMsgIn (env : Env) (s : State) (corr : Corr) (o : Offer) : ∀ (es before : List DiscEntry),
    Grow s (s.discMsgIn env corr o before es)
  | [], _ => Grow.refl s
  | e :: es, before => by
    unfold State.discMsgIn
    split
    · unfold State.discEntryMsg
      dsimp only
      have h := Grow.discMessage s env o e.callback
      split
      · exact (h.trans (Grow.same rfl)).trans (Grow.discRelease _ _)
      · split
        · exact Grow.trans (Grow.trans (Grow.trans h (Grow.same rfl)) (Grow.discDone { (s.discMessage env o e.callback).1 with discovery := before ++ es } env _)) (Grow.discRelease _ _)
        · exact h.trans (Grow.same rfl)
    · exact Grow.discMsgIn env s corr o es _

theorem Grow.discFailed (s : State) (env : Env) (p : Handle → Bool) : Grow s (s.discFailed env p) := by
  unfold State.discFailed
  exact (Grow.same rfl).trans (Grow.foldl _ (fun s e => (Grow.discDone s env _).trans (Grow.discRelease _ _)) _ _)

theorem Grow.lookupDone (s : State) (env : Env) (replies : List Offer) (cb : LookupCb) : Grow s (s.lookupDone env replies cb) := by
  cases cb with
  | internal r => exact Grow.send s env _ _
  | extended r =>
    unfold State.lookupDone
    dsimp only
    split
    · exact Grow.send s env _ _
    · split
      · exact Grow.same rfl
      · exact Grow.aggregated s env _ _ _

theorem Grow.knownDone (s : State) (env : Env) (replies : List Want) (cb : KnownCb) : Grow s (s.knownDone env replies cb) := by
  cases cb with
  | rediscovery corr process => exact (Grow.requests s env _ _).trans (Grow.discAdd _ env _)
  | topology direct implicit =>
    unfold State.knownDone
    dsimp only
    refine Grow.trans ?_ (Grow.foldl _ (fun s p => Grow.send s env _ _) _ _)
    split
    · exact Grow.foldl _ (fun s p => Grow.send s env _ _) _ _
    · exact Grow.refl s

theorem Grow.lookupAdd (s : State) (env : Env) (pend : List Pend) (cb : LookupCb) : Grow s (s.lookupAdd env pend cb) := by
  unfold State.lookupAdd
  split
  · exact Grow.lookupDone s env _ _
  · exact Grow.same rfl

theorem Grow.knownAdd (s : State) (env : Env) (pend : List Pend) (cb : KnownCb) : Grow s (s.knownAdd env pend cb) := by
  unfold State.knownAdd
  split
  · exact Grow.knownDone s env _ _
  · exact Grow.same rfl

theorem Grow.lookupMsgIn (env : Env) (s : State) (corr : Corr) (o : Offer) : ∀ (es before : List (FanEntry Offer LookupCb)),
    Grow s (s.lookupMsgIn env corr o before es)
  | [], _ => Grow.refl s
  | e :: es, before => by
    unfold State.lookupMsgIn
    split
    · dsimp only
      split
      · exact (Grow.same rfl).trans (Grow.lookupDone _ env _ _)
      · exact Grow.same rfl
    · exact Grow.lookupMsgIn env s corr o es _

theorem Grow.knownMsgIn (env : Env) (s : State) (corr : Corr) (w : Want) : ∀ (es before : List (FanEntry Want KnownCb)),
    Grow s (s.knownMsgIn env corr w before es)
  | [], _ => Grow.refl s
  | e :: es, before => by
    unfold State.knownMsgIn
    split
    · dsimp only
      split
      · exact (Grow.same rfl).trans (Grow.knownDone _ env _ _)
      · exact Grow.same rfl
    · exact Grow.knownMsgIn env s corr w es _

theorem Grow.lookupFailed (s : State) (env : Env) (p : Handle → Bool) : Grow s (s.lookupFailed env p) := by
  unfold State.lookupFailed
  exact (Grow.same rfl).trans (Grow.foldl _ (fun s e => Grow.lookupDone s env _ _) _ _)

theorem Grow.knownFailed (s : State) (env : Env) (p : Handle → Bool) : Grow s (s.knownFailed env p) := by
  unfold State.knownFailed
  exact (Grow.same rfl).trans (Grow.foldl _ (fun s e => Grow.knownDone s env _ _) _ _)

theorem Grow.failed (s : State) (env : Env) (p : Handle → Bool) : Grow s (s.failed env p) := by
  unfold State.failed
  dsimp only
  refine Grow.trans ?_ (Grow.knownFailed _ env p)
  refine Grow.trans ?_ (Grow.lookupFailed _ env p)
  refine Grow.trans ?_ (Grow.discFailed _ env p)
  exact Grow.same rfl

theorem Grow.explore (s : State) (env : Env) (direct : List Direct) (implicit : List Implicit) : Grow s (s.explore env direct implicit) := by
  unfold State.explore
  split
  · exact Grow.refl s
  · exact (Grow.requests s env _ _).trans (Grow.knownAdd _ env _ _)

theorem Grow.handle (s : State) (env : Env) (i : Input) : Grow s (s.handle env i) := by
  cases i with
  | registration corr process abilities =>
    unfold State.handle
    dsimp only
    refine (Grow.send s env process.ipc (.registrationReply process corr abilities)).trans ?_
    split
    · unfold State.register
      split
      · exact Grow.refl _
      · exact Grow.same rfl
    · exact Grow.refl _
  | api r =>
    unfold State.handle
    dsimp only
    split
    · exact Grow.send s env _ _
    · split
      · exact Grow.same rfl
      · exact Grow.aggregated s env _ _ _
  | request forward r =>
    unfold State.handle
    dsimp only
    split
    · exact Grow.send s env _ _
    · split <;> exact (Grow.requests s env _ _).trans (Grow.lookupAdd _ env _ _)
  | rediscovery corr process => exact (Grow.requests s env _ _).trans (Grow.knownAdd _ env _ _)
  | lookupReply corr o => exact Grow.lookupMsgIn env s corr o _ _
  | reply corr o => exact Grow.discMsgIn env s corr o _ _
  | knownReply corr w => exact Grow.knownMsgIn env s corr w _ _
  | direct d =>
    unfold State.handle
    dsimp only
    split
    · exact Grow.refl s
    · exact Grow.same rfl
  | implicit i =>
    unfold State.handle
    dsimp only
    split
    · exact Grow.refl s
    · split
      · exact Grow.refl s
      · exact Grow.same rfl
  | timeout =>
    unfold State.handle
    dsimp only
    refine Grow.trans ?_ (Grow.aggregated _ env _ _ _)
    refine Grow.trans ?_ (Grow.explore _ env _ _)
    exact Grow.same rfl
  | exit pid => exact Grow.failed s env _
  | ipcDestroyed ipc => exact Grow.failed s env _
  | configuration corr process services =>
    obtain ⟨tr, tor, h⟩ := configure_fields s services
    unfold State.handle
    dsimp only
    rw [h]
    exact (Grow.same rfl).trans (Grow.send _ env _ _)
  | shutdown => exact Grow.same rfl

theorem Grow.received {s t : State} (h : Grow s t) (a : Ask) : received a t.log = received a s.log := by
  obtain ⟨ys, e, n⟩ := h
  rw [e, received_append]
  have : Casual.Discovery.received a ys = 0 := by
    refine List.countP_eq_zero.mpr ?_
    intro y hy
    have := n y hy
    cases y <;> simp_all [Item.isInp, Item.asks]
  omega

theorem step_bal (a : Ask) (s : State) (x : Env × Input) (h : received a s.log = bal a s) :
    received a (s.step x).log = bal a (s.step x) := by
  unfold State.step
  split
  · exact h
  · rw [(Grow.handle _ x.1 x.2).received a, handle_bal]
    show received a (s.log ++ [.inp x.2]) = answered a (s.log ++ [.inp x.2]) + held a s + _
    rw [received_append, answered_append, h]
    unfold bal
    by_cases hx : x.2.ask = some a <;> simp [received, answered, Item.asks, Item.answers, hx]

theorem init_fields (domain : Domain) (services : List SvcCfg) :
    ∃ tr tor, State.init domain services = { domain := domain, toRoutes := tr, toOrigin := tor } := configure_fields _ services

theorem run_bal (a : Ask) (domain : Domain) (services : List SvcCfg) (xs : List (Env × Input)) :
    received a (State.run domain services xs).log = bal a (State.run domain services xs) := by
  unfold State.run
  suffices ∀ (xs : List (Env × Input)) (s : State), received a s.log = bal a s → received a (xs.foldl State.step s).log = bal a (xs.foldl State.step s) by
    refine this xs _ ?_
    obtain ⟨tr, tor, h⟩ := init_fields domain services
    rw [h]
    rfl
  intro xs
  induction xs with
  | nil => exact fun s h => h
  | cons x xs ih => exact fun s h => ih _ (step_bal a s x h)

end Casual.Discovery

import Verif.Discovery.Spec

/-!
  Every question that is received is answered or kept: conservation (for C143).
-/
namespace Casual.Discovery

def reqAsk (k : Kind) (r : Req) : Ask := ⟨k, r.process.ipc, r.corr⟩

def LookupCb.ask : LookupCb → Ask
  | .internal r | .extended r => reqAsk .request r

def KnownCb.ask : KnownCb → Option Ask
  | .rediscovery corr process => some ⟨.rediscovery, process.ipc, corr⟩
  | .topology .. => none

def cnt (a : Ask) (k : Kind) (rs : List Req) : Nat := rs.countP fun r => decide (reqAsk k r = a)

def DiscCb.keeps (a : Ask) : DiscCb → Nat
  | .aggregated _ ds as _ => cnt a .request ds + cnt a .api as
  | .rediscovery _ corr process => if (⟨.rediscovery, process.ipc, corr⟩ : Ask) = a then 1 else 0

def LookupCb.keeps (a : Ask) (cb : LookupCb) : Nat := if cb.ask = a then 1 else 0
def KnownCb.keeps (a : Ask) (cb : KnownCb) : Nat := if cb.ask = some a then 1 else 0

def sumOf {α : Type} (f : α → Nat) : List α → Nat
  | [] => 0
  | x :: xs => f x + sumOf f xs

theorem sumOf_append {α : Type} (f : α → Nat) (a b : List α) : sumOf f (a ++ b) = sumOf f a + sumOf f b := by
  induction a with
  | nil => simp [sumOf]
  | cons x xs ih => simp only [List.cons_append, sumOf, ih]; omega

theorem sumOf_filter {α : Type} (f : α → Nat) (p : α → Bool) (l : List α) :
    sumOf f (l.filter p) + sumOf f (l.filter fun x => !p x) = sumOf f l := by
  induction l with
  | nil => rfl
  | cons x xs ih =>
    by_cases h : p x = true
    · simp only [List.filter, h, Bool.not_true, sumOf]; omega
    · simp only [Bool.not_eq_true] at h
      simp only [List.filter, h, Bool.not_false, sumOf]; omega

theorem sumOf_map {α β : Type} (f : β → Nat) (g : α → β) (l : List α) : sumOf f (l.map g) = sumOf (fun x => f (g x)) l := by
  induction l with
  | nil => rfl
  | cons x xs ih => simp only [List.map, sumOf, ih]

/-- What is kept. -/
def held (a : Ask) (s : State) : Nat :=
  sumOf (fun e => e.callback.keeps a) s.lookup + sumOf (fun e => e.callback.keeps a) s.known +
  sumOf (fun e => e.callback.keeps a) s.discovery + (cnt a .request s.accumulate.discovery + cnt a .api s.accumulate.api)

/-- Answered and kept. -/
def bal (a : Ask) (s : State) : Nat := answered a s.log + held a s

theorem answered_append (a : Ask) (x y : List Item) : answered a (x ++ y) = answered a x + answered a y := List.countP_append ..
theorem received_append (a : Ask) (x y : List Item) : received a (x ++ y) = received a x + received a y := List.countP_append ..

theorem bal_send (a : Ask) (s : State) (env : Env) (d : Ipc) (o : Out) :
    bal a (s.send env d o) = bal a s + if o.answers = some a then 1 else 0 := by
  unfold bal State.send
  show answered a (s.log ++ _) + held a s = _
  rw [answered_append]
  have : answered a [if env.reach d = true then Item.out o else Item.lost o] = if o.answers = some a then 1 else 0 := by
    by_cases h : o.answers = some a <;> split <;> simp [answered, Item.answers, h]
  omega

theorem received_send (a : Ask) (s : State) (env : Env) (d : Ipc) (o : Out) : received a (s.send env d o).log = received a s.log := by
  unfold State.send
  show received a (s.log ++ _) = _
  rw [received_append]
  split <;> simp [received, Item.asks]

/-- What matters for the balance. -/
theorem bal_eq {a : Ask} {s t : State} (h1 : t.log = s.log) (h2 : t.lookup = s.lookup) (h3 : t.known = s.known) (h4 : t.discovery = s.discovery)
    (h5 : t.accumulate = s.accumulate) : bal a t = bal a s := by
  unfold bal held
  rw [h1, h2, h3, h4, h5]

theorem requests_bal (a : Ask) (env : Env) (mk : Handle → Corr → Out) (hm : ∀ h c, (mk h c).answers = none) (s : State) (ps : List Provider) :
    bal a (s.requests env ps mk).1 = bal a s := by
  unfold State.requests
  suffices ∀ r : State × List Pend, bal a (ps.foldl (fun r p =>
    ({ r.1.send env p.process.ipc (mk p.process r.1.nextCorr) with nextCorr := r.1.nextCorr + 1 },
      if env.reach p.process.ipc then r.2 ++ [{ corr := r.1.nextCorr, process := p.process }] else r.2)) r).1 = bal a r.1 from this (s, [])
  induction ps with
  | nil => exact fun r => rfl
  | cons p ps ih =>
    intro r
    refine (ih _).trans ?_
    have : bal a ({ r.1.send env p.process.ipc (mk p.process r.1.nextCorr) with nextCorr := r.1.nextCorr + 1 } : State) = bal a (r.1.send env p.process.ipc (mk p.process r.1.nextCorr)) :=
      bal_eq rfl rfl rfl rfl rfl
    rw [this, bal_send, hm]
    simp

theorem foldl_bal {α : Type} {a : Ask} (f : State → α → State) (n : α → Nat) (hf : ∀ s x, bal a (f s x) = bal a s + n x) :
    ∀ (l : List α) (s : State), bal a (l.foldl f s) = bal a s + sumOf n l
  | [], s => by simp [sumOf]
  | x :: xs, s => by
    rw [List.foldl_cons, foldl_bal f n hf xs, hf, sumOf]
    omega

theorem cnt_sum (a : Ask) (k : Kind) (rs : List Req) : cnt a k rs = sumOf (fun r => if reqAsk k r = a then 1 else 0) rs := by
  unfold cnt
  induction rs with
  | nil => rfl
  | cons r rs ih =>
    rw [List.countP_cons, ih, sumOf]
    by_cases h : reqAsk k r = a <;> simp [h] <;> omega

theorem sendReplies_bal (a : Ask) (env : Env) (o : Offer) (rs : List Req) (s : State) :
    bal a (rs.foldl (fun s r => s.sendReply env o r) s) = bal a s + cnt a .request rs := by
  rw [cnt_sum]
  refine foldl_bal _ _ ?_ rs s
  intro s r
  unfold State.sendReply
  rw [bal_send]
  simp [Out.answers, reqAsk]
  congr

theorem sendApiReplies_bal (a : Ask) (env : Env) (o : Offer) (rs : List Req) (s : State) :
    bal a (rs.foldl (fun s r => s.sendApiReply env o r) s) = bal a s + cnt a .api rs := by
  rw [cnt_sum]
  refine foldl_bal _ _ ?_ rs s
  intro s r
  unfold State.sendApiReply
  rw [bal_send]
  simp [Out.answers, reqAsk]
  congr

theorem discDone_bal (a : Ask) (env : Env) (s : State) (cb : DiscCb) : bal a (s.discDone env cb) = bal a s + cb.keeps a := by
  cases cb with
  | aggregated content ds as key =>
    show bal a (ds.foldl (fun s r => s.sendReply env content r) (as.foldl (fun s r => s.sendApiReply env content r) s)) = _
    rw [sendReplies_bal, sendApiReplies_bal]
    show _ = _ + (_ + _)
    omega
  | rediscovery content corr process =>
    show bal a (s.send env process.ipc _) = _
    rw [bal_send]
    simp [Out.answers, DiscCb.keeps]

theorem discRelease_bal (a : Ask) (s : State) (cb : DiscCb) : bal a (s.discRelease cb) = bal a s := by
  cases cb <;> exact bal_eq rfl rfl rfl rfl rfl

theorem discAdd_bal (a : Ask) (env : Env) (s : State) (e : DiscEntry) : bal a (s.discAdd env e) = bal a s + e.callback.keeps a := by
  unfold State.discAdd
  split
  · rw [discRelease_bal, discDone_bal]
  · unfold bal held
    show _ + (_ + _ + sumOf _ (s.discovery ++ [e]) + _) = _
    rw [sumOf_append]
    simp only [sumOf]
    show answered a s.log + (sumOf _ s.lookup + sumOf _ s.known + _ + (cnt a .request s.accumulate.discovery + cnt a .api s.accumulate.api)) = _
    omega

theorem aggregated_bal (a : Ask) (env : Env) (s : State) (ds as : List Req) (o : Offer) :
    bal a (s.aggregated env ds as o) = bal a s + (cnt a .request ds + cnt a .api as) := by
  unfold State.aggregated
  split
  · rename_i h
    simp only [Bool.and_eq_true, List.isEmpty_iff] at h
    rw [h.1, h.2]
    rfl
  · dsimp only
    rw [discAdd_bal]
    have h0 : ∀ (r : State × List Pend) (w : Want), bal a r.1 = bal a s → bal a ({ r.1 with pending := r.1.pending ++ [(r.1.nextKey, w)], nextKey := r.1.nextKey + 1 } : State) = bal a s := fun r w h =>
      (bal_eq rfl rfl rfl rfl rfl).trans h
    rw [h0]
    · rfl
    · split
      · exact requests_bal a env _ (fun _ _ => rfl) s _
      · rfl

theorem sendIncluded_bal (a : Ask) (n : Req → Nat) (content : Offer) (send : State → Req → State) (hs : ∀ s r, bal a (send s r) = bal a s + n r) (s : State) (rs : List Req) :
    bal a (s.sendIncluded content send rs).1 + sumOf n (s.sendIncluded content send rs).2 = bal a s + sumOf n rs := by
  unfold State.sendIncluded
  dsimp only
  rw [foldl_bal send n hs]
  have := sumOf_filter n (fun r => r.content.includedIn content) rs
  omega

theorem sendIncluded_fields (content : Offer) (env : Env) (send : State → Req → State) (hs : ∀ s r, ∃ d o, send s r = s.send env d o) (s : State) (rs : List Req) :
    ∃ log, (s.sendIncluded content send rs).1 = { s with log := log } := by
  unfold State.sendIncluded
  dsimp only
  generalize rs.filter (fun r => r.content.includedIn content) = l
  induction l generalizing s with
  | nil => exact ⟨s.log, rfl⟩
  | cons x xs ih =>
    obtain ⟨d, o, e⟩ := hs s x
    obtain ⟨log, h⟩ := ih (send s x)
    refine ⟨log, ?_⟩
    rw [List.foldl_cons, h, e]
    rfl

theorem sendReply_is (env : Env) (o : Offer) (s : State) (r : Req) : ∃ d x, s.sendReply env o r = s.send env d x := ⟨_, _, rfl⟩
theorem sendApiReply_is (env : Env) (o : Offer) (s : State) (r : Req) : ∃ d x, s.sendApiReply env o r = s.send env d x := ⟨_, _, rfl⟩

/-- Only the log changes. -/
theorem discMessage_fields (env : Env) (s : State) (o : Offer) (cb : DiscCb) : ∃ log, (s.discMessage env o cb).1 = { s with log := log } := by
  cases cb with
  | aggregated content ds as key =>
    unfold State.discMessage
    dsimp only
    generalize content.add (s.normalizeReply o) = content
    obtain ⟨l1, h1⟩ := sendIncluded_fields content env (fun s r => s.sendApiReply env content r) (sendApiReply_is env content) s as
    obtain ⟨l2, h2⟩ := sendIncluded_fields content env (fun s r => s.sendReply env content r) (sendReply_is env content)
      (s.sendIncluded content (fun s r => s.sendApiReply env content r) as).1 ds
    exact ⟨l2, by rw [h2, h1]⟩
  | rediscovery content corr process => exact ⟨s.log, rfl⟩

theorem discMessage_bal (a : Ask) (env : Env) (s : State) (o : Offer) (cb : DiscCb) :
    bal a (s.discMessage env o cb).1 + (s.discMessage env o cb).2.1.keeps a = bal a s + cb.keeps a ∧
    ((s.discMessage env o cb).2.2 = true → (s.discMessage env o cb).2.1.keeps a = 0) := by
  cases cb with
  | aggregated content ds as key =>
    unfold State.discMessage
    dsimp only
    generalize content.add (s.normalizeReply o) = content
    have h1 := sendIncluded_bal a (fun r => if reqAsk .api r = a then 1 else 0) content (fun s r => s.sendApiReply env content r)
      (fun s r => by unfold State.sendApiReply; rw [bal_send]; simp [Out.answers, reqAsk]; congr) s as
    generalize s.sendIncluded content (fun s r => s.sendApiReply env content r) as = x at h1
    have h2 := sendIncluded_bal a (fun r => if reqAsk .request r = a then 1 else 0) content (fun s r => s.sendReply env content r)
      (fun s r => by unfold State.sendReply; rw [bal_send]; simp [Out.answers, reqAsk]; congr) x.1 ds
    generalize x.1.sendIncluded content (fun s r => s.sendReply env content r) ds = y at h2
    simp only [DiscCb.keeps, cnt_sum]
    refine ⟨by omega, ?_⟩
    intro h
    simp only [Bool.and_eq_true, List.isEmpty_iff] at h
    rw [h.1, h.2]
    rfl
  | rediscovery content corr process => exact ⟨rfl, fun h => by cases h⟩

theorem bal_disc (a : Ask) (s : State) (l : List DiscEntry) :
    bal a ({ s with discovery := l } : State) + sumOf (fun e => e.callback.keeps a) s.discovery = bal a s + sumOf (fun e => e.callback.keeps a) l := by
  unfold bal held
  dsimp only
  omega

theorem bal_lookup (a : Ask) (s : State) (l : List (FanEntry Offer LookupCb)) :
    bal a ({ s with lookup := l } : State) + sumOf (fun e => e.callback.keeps a) s.lookup = bal a s + sumOf (fun e => e.callback.keeps a) l := by
  unfold bal held
  dsimp only
  omega

theorem bal_known (a : Ask) (s : State) (l : List (FanEntry Want KnownCb)) :
    bal a ({ s with known := l } : State) + sumOf (fun e => e.callback.keeps a) s.known = bal a s + sumOf (fun e => e.callback.keeps a) l := by
  unfold bal held
  dsimp only
  omega

theorem discEntryMsg_bal (a : Ask) (env : Env) (s : State) (corr : Corr) (o : Offer) (before after : List DiscEntry) (e : DiscEntry)
    (h : s.discovery = before ++ e :: after) : bal a (s.discEntryMsg env corr o before e after) = bal a s := by
  unfold State.discEntryMsg
  dsimp only
  obtain ⟨h1, h2⟩ := discMessage_bal a env s o e.callback
  obtain ⟨log, h3⟩ := discMessage_fields env s o e.callback
  have h4 : (s.discMessage env o e.callback).1.discovery = before ++ e :: after := by rw [h3]; exact h
  generalize s.discMessage env o e.callback = r at *
  have h5 := bal_disc a r.1 (before ++ after)
  rw [h4] at h5
  simp only [sumOf_append, sumOf] at h5
  split
  · rename_i hd
    rw [discRelease_bal]
    have := h2 hd
    omega
  · split
    · rw [discRelease_bal, discDone_bal]
      omega
    · have h6 := bal_disc a r.1 (before ++ { pend := eraseFirst (·.corr == corr) e.pend, callback := r.2.1 } :: after)
      rw [h4] at h6
      simp only [sumOf_append, sumOf] at h6
      omega

theorem discMsgIn_bal (a : Ask) (env : Env) (s : State) (corr : Corr) (o : Offer) : ∀ (es before : List DiscEntry),
    s.discovery = before ++ es → bal a (s.discMsgIn env corr o before es) = bal a s
  | [], _, _ => rfl
  | e :: es, before, h => by
    unfold State.discMsgIn
    split
    · exact discEntryMsg_bal a env s corr o before es e h
    · exact discMsgIn_bal a env s corr o es (before ++ [e]) (by rw [h, List.append_assoc]; rfl)

theorem discMsg_bal (a : Ask) (env : Env) (s : State) (corr : Corr) (o : Offer) : bal a (s.discMsg env corr o) = bal a s :=
  discMsgIn_bal a env s corr o s.discovery [] rfl

theorem discFailed_bal (a : Ask) (env : Env) (s : State) (p : Handle → Bool) : bal a (s.discFailed env p) = bal a s := by
  unfold State.discFailed
  dsimp only
  rw [foldl_bal (a := a) _ (fun e : DiscEntry => e.callback.keeps a) (fun s e => by rw [discRelease_bal, discDone_bal])]
  have h1 := bal_disc a s ((s.discovery.map fun e => { e with pend := failPend p e.pend }).filter fun e => !allFailed e.pend)
  have h2 := sumOf_filter (fun e : DiscEntry => e.callback.keeps a) (fun e => allFailed e.pend) (s.discovery.map fun e => { e with pend := failPend p e.pend })
  rw [sumOf_map] at h2
  dsimp only at h2
  omega

theorem lookupDone_bal (a : Ask) (env : Env) (s : State) (replies : List Offer) (cb : LookupCb) :
    bal a (s.lookupDone env replies cb) = bal a s + cb.keeps a := by
  cases cb with
  | internal r =>
    show bal a (s.send env _ _) = _
    rw [bal_send]
    simp [Out.answers, LookupCb.keeps, LookupCb.ask, reqAsk]
    congr
  | extended r =>
    unfold State.lookupDone
    dsimp only
    have hk : (LookupCb.extended r).keeps a = cnt a .request [r] := by simp [LookupCb.keeps, LookupCb.ask, cnt_sum, sumOf]; congr
    split
    · have := sendReplies_bal a env (replies.foldl Offer.add {}) [r] s
      rw [hk]
      exact this
    · split
      · rw [hk]
        unfold bal held Accumulate.addDiscovery Accumulate.addLookup cnt
        dsimp only
        rw [List.countP_append]
        omega
      · rw [aggregated_bal, hk]
        rfl

theorem knownDone_bal (a : Ask) (env : Env) (s : State) (replies : List Want) (cb : KnownCb) :
    bal a (s.knownDone env replies cb) = bal a s + cb.keeps a := by
  cases cb with
  | rediscovery corr process =>
    unfold State.knownDone
    dsimp only
    rw [discAdd_bal, requests_bal a env _ (fun _ _ => rfl)]
    simp [DiscCb.keeps, KnownCb.keeps, KnownCb.ask]
  | topology direct implicit =>
    unfold State.knownDone
    dsimp only
    have zero : ∀ {α : Type} (l : List α), sumOf (fun _ => 0) l = 0 := by
      intro α l
      induction l with
      | nil => rfl
      | cons x xs ih => simp only [sumOf, ih]
    rw [foldl_bal (a := a) _ (fun _ => 0) (fun s x => by rw [bal_send]; simp [Out.answers]), zero]
    split
    · rw [foldl_bal (a := a) _ (fun _ => 0) (fun s x => by rw [bal_send]; simp [Out.answers]), zero]
      simp [KnownCb.keeps, KnownCb.ask]
    · simp [KnownCb.keeps, KnownCb.ask]

theorem lookupAdd_bal (a : Ask) (env : Env) (s : State) (pend : List Pend) (cb : LookupCb) :
    bal a (s.lookupAdd env pend cb) = bal a s + cb.keeps a := by
  unfold State.lookupAdd
  split
  · exact lookupDone_bal a env s [] cb
  · have := bal_lookup a s (s.lookup ++ [{ pend := pend, callback := cb }])
    simp only [sumOf_append, sumOf] at this
    omega

theorem knownAdd_bal (a : Ask) (env : Env) (s : State) (pend : List Pend) (cb : KnownCb) :
    bal a (s.knownAdd env pend cb) = bal a s + cb.keeps a := by
  unfold State.knownAdd
  split
  · exact knownDone_bal a env s [] cb
  · have := bal_known a s (s.known ++ [{ pend := pend, callback := cb }])
    simp only [sumOf_append, sumOf] at this
    omega

theorem lookupMsgIn_bal (a : Ask) (env : Env) (s : State) (corr : Corr) (o : Offer) : ∀ (es before : List (FanEntry Offer LookupCb)),
    s.lookup = before ++ es → bal a (s.lookupMsgIn env corr o before es) = bal a s
  | [], _, _ => rfl
  | e :: es, before, h => by
    unfold State.lookupMsgIn
    split
    · dsimp only
      split
      · rw [lookupDone_bal]
        have := bal_lookup a s (before ++ es)
        rw [h] at this
        simp only [sumOf_append, sumOf] at this
        omega
      · have := bal_lookup a s (before ++ { e with pend := receivePend corr e.pend, received := e.received ++ [o] } :: es)
        rw [h] at this
        simp only [sumOf_append, sumOf] at this
        omega
    · exact lookupMsgIn_bal a env s corr o es (before ++ [e]) (by rw [h, List.append_assoc]; rfl)

theorem knownMsgIn_bal (a : Ask) (env : Env) (s : State) (corr : Corr) (w : Want) : ∀ (es before : List (FanEntry Want KnownCb)),
    s.known = before ++ es → bal a (s.knownMsgIn env corr w before es) = bal a s
  | [], _, _ => rfl
  | e :: es, before, h => by
    unfold State.knownMsgIn
    split
    · dsimp only
      split
      · rw [knownDone_bal]
        have := bal_known a s (before ++ es)
        rw [h] at this
        simp only [sumOf_append, sumOf] at this
        omega
      · have := bal_known a s (before ++ { e with pend := receivePend corr e.pend, received := e.received ++ [w] } :: es)
        rw [h] at this
        simp only [sumOf_append, sumOf] at this
        omega
    · exact knownMsgIn_bal a env s corr w es (before ++ [e]) (by rw [h, List.append_assoc]; rfl)

theorem lookupFailed_bal (a : Ask) (env : Env) (s : State) (p : Handle → Bool) : bal a (s.lookupFailed env p) = bal a s := by
  unfold State.lookupFailed
  rw [foldl_bal (a := a) _ (fun e : FanEntry Offer LookupCb => e.callback.keeps a) (fun s e => lookupDone_bal a env s _ _)]
  have h1 := bal_lookup a s ((s.lookup.filter fun e => !failDone p e.pend).map fun e => { e with pend := failPend p e.pend })
  rw [sumOf_map] at h1
  have h2 := sumOf_filter (fun e : FanEntry Offer LookupCb => e.callback.keeps a) (fun e => failDone p e.pend) s.lookup
  dsimp only at h1 h2
  omega

theorem knownFailed_bal (a : Ask) (env : Env) (s : State) (p : Handle → Bool) : bal a (s.knownFailed env p) = bal a s := by
  unfold State.knownFailed
  rw [foldl_bal (a := a) _ (fun e : FanEntry Want KnownCb => e.callback.keeps a) (fun s e => knownDone_bal a env s _ _)]
  have h1 := bal_known a s ((s.known.filter fun e => !failDone p e.pend).map fun e => { e with pend := failPend p e.pend })
  rw [sumOf_map] at h1
  have h2 := sumOf_filter (fun e : FanEntry Want KnownCb => e.callback.keeps a) (fun e => failDone p e.pend) s.known
  dsimp only at h1 h2
  omega

theorem failed_bal (a : Ask) (env : Env) (s : State) (p : Handle → Bool) : bal a (s.failed env p) = bal a s := by
  unfold State.failed
  dsimp only
  rw [knownFailed_bal, lookupFailed_bal, discFailed_bal]
  exact bal_eq rfl rfl rfl rfl rfl

/-- Only the routes change. -/
theorem configure_fields (s : State) (services : List SvcCfg) : ∃ tr tor, s.configure services = { s with toRoutes := tr, toOrigin := tor } := by
  unfold State.configure
  have : ∀ (l : List SvcCfg) (s : State), ∃ tr tor, l.foldl (fun s x =>
    { s with
      toRoutes := assign s.toRoutes x.name x.routes
      toOrigin := x.routes.foldl (fun m route => assign m route x.name) s.toOrigin }) s = { s with toRoutes := tr, toOrigin := tor } := by
    intro l
    induction l with
    | nil => exact fun s => ⟨s.toRoutes, s.toOrigin, rfl⟩
    | cons x xs ih =>
      intro s
      obtain ⟨tr, tor, h⟩ := ih { s with
        toRoutes := assign s.toRoutes x.name x.routes
        toOrigin := x.routes.foldl (fun m route => assign m route x.name) s.toOrigin }
      exact ⟨tr, tor, by rw [List.foldl_cons, h]⟩
  obtain ⟨tr, tor, h⟩ := this services { s with toRoutes := [], toOrigin := [] }
  exact ⟨tr, tor, h⟩

theorem explore_bal (a : Ask) (env : Env) (s : State) (direct : List Direct) (implicit : List Implicit) :
    bal a (s.explore env direct implicit) = bal a s := by
  unfold State.explore
  split
  · rfl
  · dsimp only
    rw [knownAdd_bal]
    unfold State.collectKnown
    rw [requests_bal a env _ (fun _ _ => rfl)]
    simp [KnownCb.keeps, KnownCb.ask]

/-- The balance after an input is what it was, and the question, if it is one. -/
theorem handle_bal (a : Ask) (env : Env) (s : State) (i : Input) :
    bal a (s.handle env i) = bal a s + if i.ask = some a then 1 else 0 := by
  cases i with
  | registration corr process abilities =>
    unfold State.handle
    dsimp only
    have h1 : bal a (s.send env process.ipc (.registrationReply process corr abilities)) = bal a s := by rw [bal_send]; simp [Out.answers]
    split
    · unfold State.register
      split
      · rw [h1]; simp [Input.ask]
      · refine (bal_eq rfl rfl rfl rfl rfl).trans (h1.trans ?_)
        simp [Input.ask]
    · rw [h1]; simp [Input.ask]
  | api r =>
    unfold State.handle
    dsimp only
    have hk : (if (Input.api r).ask = some a then 1 else 0) = cnt a .api [r] := by simp [Input.ask, cnt_sum, sumOf, reqAsk]; congr
    rw [hk]
    split
    · rw [bal_send]
      simp [Out.answers, cnt_sum, sumOf, reqAsk]
      congr
    · split
      · unfold bal held Accumulate.addApi cnt
        dsimp only
        rw [List.countP_append]
        omega
      · rw [aggregated_bal]
        simp [cnt]
  | request forward r =>
    unfold State.handle
    dsimp only
    have hk : ∀ scope, bal a (s.localLookup env scope r) = bal a s + if (Input.request forward r).ask = some a then 1 else 0 := by
      intro scope
      unfold State.localLookup
      dsimp only
      rw [lookupAdd_bal, requests_bal a env _ (fun _ _ => rfl)]
      cases scope <;> (simp [LookupCb.keeps, LookupCb.ask, reqAsk, Input.ask]; congr)
    split
    · rw [bal_send]
      simp [Out.answers, Input.ask]
    · split <;> exact hk _
  | rediscovery corr process =>
    unfold State.handle
    dsimp only
    rw [knownAdd_bal]
    unfold State.collectKnown
    rw [requests_bal a env _ (fun _ _ => rfl)]
    simp [KnownCb.keeps, KnownCb.ask, Input.ask]
  | lookupReply corr o => exact (lookupMsgIn_bal a env s corr o s.lookup [] rfl).trans (by simp [Input.ask])
  | reply corr o => exact (discMsg_bal a env s corr o).trans (by simp [Input.ask])
  | knownReply corr w => exact (knownMsgIn_bal a env s corr w s.known [] rfl).trans (by simp [Input.ask])
  | direct d =>
    unfold State.handle
    dsimp only
    split
    · simp [Input.ask]
    · simp [Input.ask]; rfl
  | implicit i =>
    unfold State.handle
    dsimp only
    split
    · simp [Input.ask]
    · split
      · simp [Input.ask]
      · simp [Input.ask]; rfl
  | timeout =>
    unfold State.handle
    dsimp only
    rw [aggregated_bal, explore_bal]
    unfold bal held
    simp only [Input.ask, cnt, List.countP_nil]
    simp
    omega
  | exit pid => exact (failed_bal a env s _).trans (by simp [Input.ask])
  | ipcDestroyed ipc => exact (failed_bal a env s _).trans (by simp [Input.ask])
  | configuration corr process services =>
    unfold State.handle
    dsimp only
    rw [bal_send]
    obtain ⟨tr, tor, h⟩ := configure_fields s services
    rw [h]
    simp [Out.answers, Input.ask]
    rfl
  | shutdown =>
    unfold State.handle
    simp [Input.ask]
    rfl

end Casual.Discovery

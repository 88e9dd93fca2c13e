import Verif.Forward.Props2
/-!
# Does a forward keep going?

Property C117.
-/
namespace Casual.Forward

/-! ### A forward for which nothing is under way -/

/-- An event that configures. -/
def configures : Event → Bool
  | .update _ _ => true
  | _ => false

def Asleep (s : State) : Prop := s.lookups = [] ∧ s.flows = []

theorem take_asleep {c : Nat} {p : Stage → Bool} {s : State} (h : s.flows = []) : take c p s = none := by
  unfold take; rw [h]; rfl

theorem shutdown_asleep {pref : List Nat} {s : State} (h : Asleep s) : Asleep (shutdown pref s) ∧
    ∃ a, (shutdown pref s).log = a ++ s.log ∧ ∀ o ∈ a, isDeq o = false := by
  have hq := quiet_shutdown pref s
  refine ⟨?_, ?_⟩
  · obtain ⟨h1, h2⟩ := h
    unfold shutdown
    have hc : ∀ (fs : List Fwd) (s : State), s.lookups = [] → s.flows = [] →
        (fs.foldl (fun s f => cancel pref f s) s).lookups = [] ∧ (fs.foldl (fun s f => cancel pref f s) s).flows = [] ∧
        (fs.foldl (fun s f => cancel pref f s) s).fwds = s.fwds := by
      intro fs
      induction fs with
      | nil => intro s h1 h2; exact ⟨h1, h2, rfl⟩
      | cons f fs ih =>
        intro s h1 h2
        have hcan : (cancel pref f s).lookups = [] ∧ (cancel pref f s).flows = [] ∧ (cancel pref f s).fwds = s.fwds := by
          unfold cancel
          dsimp only
          split
          · rw [emits_flows, emits_flows]; simp [h1, h2, prefer]
          · rw [emits_flows]; exact ⟨h1, h2, rfl⟩
        obtain ⟨c1, c2, c3⟩ := ih _ hcan.1 hcan.2.1
        exact ⟨c1, c2, c3.trans hcan.2.2⟩
    have hl : ∀ (fs : List Fwd) (s : State), (∀ f ∈ fs, f.configured = 0) → fs.foldl (fun s f => lookAgain f s) s = s := by
      intro fs
      induction fs with
      | nil => intro s _; rfl
      | cons f fs ih =>
        intro s hf
        have : lookAgain f s = s := by
          unfold lookAgain
          rw [hf f (List.mem_cons_self ..)]
          simp
        rw [List.foldl_cons, this]
        exact ih s fun g hg => hf g (List.mem_cons_of_mem _ hg)
    generalize hs' : ({ s with down := true, fwds := s.fwds.map fun f => { f with configured := 0 } } : State) = s'
    have h0 : s'.lookups = [] ∧ s'.flows = [] ∧ ∀ f ∈ s'.fwds, f.configured = 0 := by
      subst hs'
      refine ⟨h1, h2, ?_⟩
      intro f hf
      obtain ⟨g, _, rfl⟩ := List.mem_map.mp hf
      rfl
    have hdr : dropLookups s' = s' := by unfold dropLookups; rw [h0.1]; rfl
    unfold comply
    rw [hdr]
    dsimp only
    obtain ⟨c1, c2, c3⟩ := hc (queues s' ++ services s') s' h0.1 h0.2.1
    rw [hl]
    · exact ⟨c1, c2⟩
    · intro f hf
      have := mem_services hf
      rw [c3] at this
      exact h0.2.2 f this
  · obtain ⟨a, ha, hc⟩ := hq
    exact ⟨a, ha, fun o ho => by have := hc o ho; simp only [calm, Bool.and_eq_true] at this; simpa using this.1⟩

theorem bury_asleep {p : Nat} {f : Fwd} {s : State} (h : Asleep s) : Asleep (bury p f s) := by
  obtain ⟨h1, h2⟩ := h
  unfold bury
  dsimp only
  split
  · rw [emits_flows, emits_flows]
    split
    · exact ⟨h1, h2⟩
    · exact ⟨h1, h2⟩
  · exact ⟨h1, h2⟩

theorem exited_asleep {p : Nat} {s : State} (h : Asleep s) : Asleep (exited p s) := by
  unfold exited
  generalize queues s ++ services s = fs
  induction fs generalizing s with
  | nil => exact h
  | cons f fs ih => exact ih (bury_asleep h)

theorem quiet_deq {s s' : State} (h : Quiet s s') : ∀ o, isDeq o = true → o ∈ s'.log → o ∈ s.log := by
  obtain ⟨a, ha, hc⟩ := h
  intro o ho hm
  rw [ha] at hm
  rcases List.mem_append.mp hm with hm | hm
  · have := hc o hm
    simp only [calm, ho] at this; cases this
  · exact hm

/-- Nothing is under way, and nothing will be, unless there is a new configuration. -/
theorem asleep_apply {s : State} (e : Event) (h : Asleep s) (hc : configures e = false) :
    Asleep (apply e s) ∧ ∀ o, isDeq o = true → o ∈ (apply e s).log → o ∈ s.log := by
  obtain ⟨h1, h2⟩ := h
  have em : ∀ (o' : Obs), isDeq o' = false → Asleep (emit o' s) ∧ ∀ o, isDeq o = true → o ∈ (emit o' s).log → o ∈ s.log := by
    intro o' ho'
    refine ⟨⟨h1, h2⟩, ?_⟩
    intro o ho hm
    rcases List.mem_cons.mp hm with rfl | hm
    · rw [ho'] at ho; cases ho
    · exact hm
  cases e with
  | update xs pref => cases hc
  | shutdown pref =>
    obtain ⟨e1, e2⟩ := em .shutdown rfl
    refine ⟨(shutdown_asleep e1).1, ?_⟩
    intro o ho hm
    exact e2 o ho (quiet_deq (quiet_shutdown ..) o ho hm)
  | exited p =>
    obtain ⟨e1, e2⟩ := em (.exited p) rfl
    exact ⟨exited_asleep e1, fun o ho hm => e2 o ho (quiet_deq (quiet_exited ..) o ho hm)⟩
  | queueAt c n q p r =>
    have : queueAt c n q p r (emit (.queueAt c n q p r) s) = emit (.queueAt c n q p r) s := by
      unfold queueAt
      rw [show (emit (.queueAt c n q p r) s).lookups = [] from h1]
      rfl
    show Asleep (queueAt c n q p r _) ∧ ∀ o, _ → o ∈ (queueAt c n q p r _).log → _
    rw [this]; exact em _ rfl
  | queueDropped c r =>
    obtain ⟨e1, e2⟩ := em (.queueDropped c r) rfl
    show Asleep (queueDropped c r _) ∧ ∀ o, _ → o ∈ (queueDropped c r _).log → _
    unfold queueDropped
    split
    · exact ⟨e1, e2⟩
    · exact ⟨⟨by show (s.lookups.eraseP _) = []; rw [h1]; rfl, h2⟩, e2⟩
  | got c m =>
    show Asleep (got c m _) ∧ ∀ o, _ → o ∈ (got c m _).log → _
    rw [got, take_asleep (show (emit (.got c m) s).flows = [] from h2)]; exact em _ rfl
  | forgetRequest c =>
    show Asleep (forgetRequest c _) ∧ ∀ o, _ → o ∈ (forgetRequest c _).log → _
    rw [forgetRequest, take_asleep (show (emit (.forgetRequest c) s).flows = [] from h2)]; exact em _ rfl
  | forgotten c d =>
    show Asleep (forgotten c d _) ∧ ∀ o, _ → o ∈ (forgotten c d _).log → _
    rw [forgotten, take_asleep (show (emit (.forgotten c d) s).flows = [] from h2)]
    split <;> exact em _ rfl
  | found c p =>
    show Asleep (found c p _) ∧ ∀ o, _ → o ∈ (found c p _).log → _
    rw [found, take_asleep (show (emit (.found c p) s).flows = [] from h2)]; exact em _ rfl
  | dropped c =>
    show Asleep (dropped c _) ∧ ∀ o, _ → o ∈ (dropped c _).log → _
    rw [dropped, take_asleep (show (emit (.dropped c) s).flows = [] from h2)]; exact em _ rfl
  | replied c ok m =>
    show Asleep (replied c ok m _) ∧ ∀ o, _ → o ∈ (replied c ok m _).log → _
    rw [replied, take_asleep (show (emit (.replied c ok m) s).flows = [] from h2)]; exact em _ rfl
  | acked c ok =>
    show Asleep (acked c ok _) ∧ ∀ o, _ → o ∈ (acked c ok _).log → _
    rw [acked, take_asleep (show (emit (.acked c ok) s).flows = [] from h2)]; exact em _ rfl
  | own i =>
    simp only [apply]
    cases s.own[i]? with
    | none => exact ⟨⟨h1, h2⟩, fun o _ hm => hm⟩
    | some c =>
      dsimp only
      rw [acked, take_asleep (show (emit (.acked c false) { s with own := s.own.eraseIdx i }).flows = [] from h2)]
      exact em _ rfl
  | rolledBack c ok =>
    show Asleep (rolledBack c _) ∧ ∀ o, _ → o ∈ (rolledBack c _).log → _
    rw [rolledBack, take_asleep (show (emit (.rolledBack c ok) s).flows = [] from h2)]; exact em _ rfl
  | committed c e =>
    show Asleep (committed c e _) ∧ ∀ o, _ → o ∈ (committed c e _).log → _
    rw [committed, take_asleep (show (emit (.committed c e) s).flows = [] from h2)]
    split <;> exact em _ rfl
  | undelivered c =>
    show Asleep (undelivered c s) ∧ ∀ o, _ → o ∈ (undelivered c s).log → _
    rw [undelivered, take_asleep h2, take_asleep h2]
    exact ⟨⟨h1, h2⟩, fun o _ hm => hm⟩

theorem asleep_run (es es' : List Event) (h : Asleep (run es)) (hc : ∀ e ∈ es', configures e = false) :
    ∀ o, isDeq o = true → o ∈ (run (es ++ es')).log → o ∈ (run es).log := by
  have key : Asleep (run (es ++ es')) ∧ ∀ o, isDeq o = true → o ∈ (run (es ++ es')).log → o ∈ (run es).log := by
    induction es' using Casual.snocInd with
    | nil => rw [List.append_nil]; exact ⟨h, fun o _ hm => hm⟩
    | snoc es' e ih =>
      obtain ⟨i1, i2⟩ := ih fun e he => hc e (List.mem_append_left _ he)
      rw [← List.append_assoc, run_step]
      obtain ⟨a1, a2⟩ := asleep_apply e i1 (hc e (by simp))
      exact ⟨a1, fun o ho hm => i2 o ho (a2 o ho hm)⟩
  exact key.2

/-! ### C117 -/

/-- What the other processes do, if nothing is wrong with any of them: the queue manager answers what it is asked, with a
queue of this domain, and gives up a lookup only if it is told to; no process exits; everything is delivered; no queue group
takes back what it is asked for. -/
def proper (l : List Obs) : Event → Bool
  | .queueAt c n q p r =>
    q.isSome && p.isSome && !r && l.any (fun o => match o with | .askQueue _ d k => d == c && k == n | _ => false)
  | .queueDropped c r => r || l.contains (.dropQueue c)
  | .exited _ | .forgetRequest _ | .undelivered _ => false
  | _ => true

def allProper (s : State) : List Event → Bool
  | [] => true
  | e :: es => proper s.log e && allProper (step s e) es

/-- Two messages, that the queue does not take, one after the other. In between, the queue manager answers where the source
is, but not yet where the target is. -/
def twice : List Event :=
  [.update [toQueue] [], .queueAt 0 30 (some 5) (some 100) false, .queueAt 1 40 (some 6) (some 101) false,
   .got 2 (some 41), .got 3 (some 42), .acked 2 false, .rolledBack 2 true, .queueAt 4 30 (some 5) (some 100) false,
   .acked 3 false, .rolledBack 3 true, .queueAt 5 40 (some 6) (some 101) false]

/-- C117 does not hold: the forward is enabled, it has two instances, it is not shutting down, and all other processes do
what they should; but it has forgotten where the source is, and does not ask. It never asks for a message again, whatever
happens, unless there is a new configuration. -/
theorem forward_keeps_going_refuted :
    ∃ es f x, allProper {} es = true ∧ confOf f (run es).log = some x ∧ x.enabled = true ∧ instancesOf f (run es).log = 2 ∧
      isDown (run es).log = false ∧
      ∀ es', (∀ e ∈ es', configures e = false) →
        ∀ g c t p q, .dequeue g c t p q ∈ (run (es ++ es')).log → .dequeue g c t p q ∈ (run es).log := by
  refine ⟨twice, 0, toQueue, by decide +kernel, by decide +kernel, rfl, by decide +kernel, by decide +kernel, ?_⟩
  intro es' hc g c t p q hm
  exact asleep_run twice es' ⟨by decide +kernel, by decide +kernel⟩ hc _ rfl hm

/-- As many as are configured. -/
theorem startN_running {f : Fwd} (n : Nat) : ∀ {s : State} {g : Fwd}, g ∈ s.fwds → g.id = f.id →
    ∃ g' ∈ (startN f n s).fwds, g'.id = f.id ∧ g'.running = g.running + n := by
  induction n with
  | zero => intro s g hg hi; exact ⟨g, hg, hi, rfl⟩
  | succ n ih =>
    intro s g hg hi
    obtain ⟨g', h1, h2, h3⟩ := ih (s := startOne f s) (g := { g with running := g.running + 1 })
      (by simp only [startOne, State.set, List.mem_map]; exact ⟨g, hg, by rw [if_pos hi]⟩) hi
    exact ⟨g', h1, h2, by rw [h3]; show g.running + 1 + n = _; omega⟩

theorem start_full {s : State} {f : Fwd} (hi : Inv s) (hs : Inv (start f s)) (hf : f ∈ s.fwds) (he : f.enabled = true) :
    f.configured ≤ inFlight f.id (start f s).log + lostOf f.id (start f s).log := by
  unfold start at hs ⊢
  rw [if_pos he] at hs ⊢
  obtain ⟨g, h1, h2, h3⟩ := startN_running (f := f) (f.configured - f.running) hf rfl
  have := hs.R.run g h1
  rw [inFlight_eq hs, ← h2]
  omega

/-- C117. When the transaction of a message has ended, and it is known where the queues are, so many messages are asked for
that as many are on their way as instances are configured — but for those that could not be delivered. -/
theorem forward_starts_over_partial (es : List Event) (e : Event) (c f : Nat) (t : Trid) (g : Fwd)
    (he : (walk c (run es).log = .committing f t ∧ ∃ x, e = .committed c x ∧ x ≠ .prepare) ∨
      (walk c (run es).log = .rolling f t ∧ ∃ ok, e = .rolledBack c ok))
    (hg : g ∈ (run es).fwds) (hi : g.id = f) (hen : g.enabled = true) (hv : g.valid = true) (hd : 0 < g.configured) :
    instancesOf f (run es).log ≤ inFlight f (run (es ++ [e])).log + lostOf f (run (es ++ [e])).log := by
  have h := inv_run es
  have hx : ∃ x ∈ (run es).flows, x.corr = c := by
    by_cases hx : ∃ x ∈ (run es).flows, x.corr = c
    · exact hx
    · rcases h.W.gone c (fun x hxm e => hx ⟨x, hxm, e⟩) with k | k <;>
        (rcases he with ⟨he, _⟩ | ⟨he, _⟩ <;> (rw [he] at k; cases k))
  obtain ⟨x, hx, rfl⟩ := hx
  have hph := h.W.here x hx
  subst hi
  -- what is done at the end
  have fin : ∀ (o : Obs) (p : Stage → Bool) (k : Fwd → Fwd), p x.stage = true → x.id = g.id → heard o = some x.corr → plain o = true →
      hear (run es).log (phaseOf x) o = .over → Kept k → (∀ f, (k f).running = f.running) → isUndelivered o = false →
      (∀ f, (k f).commits = (if isCommitted o = true then 1 else 0) + f.commits) →
      (∀ f, (k f).rollbacks = (if isRolledBack o = true then 1 else 0) + f.rollbacks) →
      (∀ f : Fwd, (k f).source = f.source ∧ (k f).dest = f.dest) →
      ∃ s', take x.corr p (emit o (run es)) = some (x, s') ∧
        g.configured ≤ inFlight g.id (next x.id (finish x.id k s')).log + lostOf g.id (next x.id (finish x.id k s')).log := by
    intro o p k hp hid ho hpl hw hk hr hu hkc hkr hsd
    cases ht : take x.corr p (emit o (run es)) with
    | none => rw [take_none ht x hx rfl] at hp; cases hp
    | some r =>
      obtain ⟨y, s'⟩ := r
      obtain ⟨a, b, hs, hs', hc, _⟩ := take_some ht
      have hyx : y = x := eq_of_nodup_map (f := fun x : Flow => x.corr) h.W.nodup
        (by rw [show (run es).flows = _ from hs]; exact List.mem_append_right _ (List.mem_cons_self ..)) hx hc
      subst hyx
      refine ⟨s', rfl, ?_⟩
      obtain ⟨h1, h2⟩ := inv_finish h ho hpl ht hw hk hr hu hkc hkr
      have hfw : s'.fwds = (run es).fwds := by rw [hs']; rfl
      have hrun : g.running ≠ 0 := by
        have := h.R.run g hg
        have : 0 < cnt g.id (run es).flows := List.length_pos_of_mem (List.mem_filter.mpr ⟨hx, by simp [hid]⟩)
        omega
      have hfin : finish y.id k s' = s'.set y.id fun f => k f.dec := by
        rw [hid]; exact finish_eq (by rw [hfw]; exact ids_nodup h.F.ids) (by rw [hfw]; exact hg) hrun
      have hm : k g.dec ∈ (finish y.id k s').fwds := by
        rw [hfin]
        simp only [State.set, List.mem_map]
        exact ⟨g, by rw [hfw]; exact hg, by rw [if_pos hid.symm]⟩
      have hkid : (k g.dec).id = g.id := ((hk g.dec).1).trans (kept_dec g).1
      have hdec : g.dec.source = g.source ∧ g.dec.dest = g.dest ∧ g.dec.enabled = g.enabled ∧ g.dec.configured = g.configured := by
        unfold Fwd.dec
        dsimp only
        rw [if_neg (by omega)]
        exact ⟨rfl, rfl, rfl, rfl⟩
      have hen' : (k g.dec).enabled = true := by rw [(hk g.dec).2.2.2.2.2.2.1, hdec.2.2.1]; exact hen
      have hcf : (k g.dec).configured = g.configured := by rw [(hk g.dec).2.2.2.2.2.2.2.1, hdec.2.2.2]
      have hv' : (k g.dec).valid = true := by
        unfold Fwd.valid at hv ⊢
        rw [(hsd g.dec).1, (hsd g.dec).2, hdec.1, hdec.2.1]
        exact hv
      have hget : (finish y.id k s').get y.id = some (k g.dec) := by
        have key : (finish y.id k s').get (k g.dec).id = some (k g.dec) := get_of_mem (ids_nodup h1.F.ids) hm
        have hyk : (k g.dec).id = y.id := hkid.trans hid.symm
        generalize finish y.id k s' = S at key ⊢
        generalize k g.dec = G at key hyk ⊢
        rw [hyk] at key
        exact key
      have hnx : next y.id (finish y.id k s') = start (k g.dec) (finish y.id k s') := by
        unfold next
        rw [hget]
        simp [hv']
      have h3 := inv_next h1 h2
      rw [hnx] at h3 ⊢
      have := start_full h1 h3 hm hen'
      rw [hcf, hkid] at this
      exact this
  rw [h.F.inst g hg, run_step]
  rcases he with ⟨hw, z, rfl, hz⟩ | ⟨hw, ok, rfl⟩
  · rw [hw] at hph
    obtain ⟨hst, hid⟩ : x.stage = .commit ∧ x.id = g.id := by
      unfold phaseOf at hph
      cases hst : x.stage <;> rw [hst] at hph <;> simp only [Phase.committing.injEq, reduceCtorEq] at hph
      exact ⟨rfl, hph.1.symm⟩
    obtain ⟨s', ht, hle⟩ := fin (.committed x.corr z) (· == .commit) (fun f => { f with commits := f.commits + 1 })
      (by rw [hst]; rfl) hid rfl rfl (by rw [← hph]; cases z <;> first | rfl | exact absurd rfl hz)
      (fun f => ⟨rfl, rfl, rfl, rfl, rfl, rfl, rfl, rfl, fun _ => rfl⟩) (fun _ => rfl) rfl
      (fun f => by simp [isCommitted, Nat.add_comm]) (fun f => by simp [isRolledBack]) (fun _ => ⟨rfl, rfl⟩)
    show _ ≤ inFlight g.id (committed x.corr z _).log + lostOf g.id (committed x.corr z _).log
    unfold committed
    rw [if_neg hz, ht]
    exact hle
  · rw [hw] at hph
    obtain ⟨hst, hid⟩ : x.stage = .rollback ∧ x.id = g.id := by
      unfold phaseOf at hph
      cases hst : x.stage <;> rw [hst] at hph <;> simp only [Phase.rolling.injEq, reduceCtorEq] at hph
      exact ⟨rfl, hph.1.symm⟩
    obtain ⟨s', ht, hle⟩ := fin (.rolledBack x.corr ok) (· == .rollback) (fun f => { f with rollbacks := f.rollbacks + 1 })
      (by rw [hst]; rfl) hid rfl rfl (by rw [← hph]; rfl)
      (fun f => ⟨rfl, rfl, rfl, rfl, rfl, rfl, rfl, rfl, fun _ => rfl⟩) (fun _ => rfl) rfl
      (fun f => by simp [isCommitted]) (fun f => by simp [isRolledBack, Nat.add_comm]) (fun _ => ⟨rfl, rfl⟩)
    show _ ≤ inFlight g.id (rolledBack x.corr _).log + lostOf g.id (rolledBack x.corr _).log
    unfold rolledBack
    rw [ht]
    exact hle

example : walk 2 (run served).log = .committing 0 ⟨2⟩ ∧
    (∃ g ∈ (run served).fwds, g.id = 0 ∧ g.enabled = true ∧ g.valid = true ∧ 0 < g.configured) ∧
    inFlight 0 (run (served ++ [.committed 2 .commit])).log = 1 := by decide +kernel

end Casual.Forward

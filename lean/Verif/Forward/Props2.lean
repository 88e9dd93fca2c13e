import Verif.Forward.Grow
/-!
# What a forward reports, how it ends, and what it does when others end

Properties C115, C116, C118–C120.
-/
namespace Casual.Forward

/-! ### C115: the numbers -/

/-- How many messages of forward `f` have been committed, as the transaction manager has said. -/
def committedOf (f : Nat) : List Obs → Nat :=
  tally fun ph o => match ph, o with | .committing g _, .committed _ .commit => g == f | _, _ => false

/-- C115. What is reported of a forward: the configured instances, and the number of rollbacks that were answered, are
right. What runs is what is on its way, and also what could not be delivered; the number of commits is how many commits were
answered, also those that were answered with a rollback. -/
theorem forward_reported_numbers_partial (es : List Event) (f : Fwd) (hf : f ∈ (run es).fwds) :
    f.configured = instancesOf f.id (run es).log ∧
    f.running = inFlight f.id (run es).log + lostOf f.id (run es).log ∧
    f.commits = commitsOf f.id (run es).log ∧ f.rollbacks = rollbacksOf f.id (run es).log := by
  have h := inv_run es
  exact ⟨(h.F.inst f hf).symm, by rw [inFlight_eq h]; exact h.R.run f hf, h.R.com f hf, h.R.rol f hf⟩

/-- C115 does not hold: a commit that ends with a rollback is reported as a commit. -/
theorem forward_reported_commits_refuted :
    ∃ es f, f ∈ (run es).fwds ∧ f.commits = 1 ∧ committedOf f.id (run es).log = 0 := by
  refine ⟨served ++ [.committed 2 .rollback], ?_⟩
  have : ∃ f ∈ (run (served ++ [.committed 2 .rollback])).fwds, f.commits = 1 ∧
      committedOf f.id (run (served ++ [.committed 2 .rollback])).log = 0 := by decide +kernel
  obtain ⟨f, hf, h⟩ := this
  exact ⟨f, hf, h⟩

/-- C115 does not hold: a request that could not be delivered is reported as running. -/
theorem forward_reported_running_refuted :
    ∃ es f, f ∈ (run es).fwds ∧ f.running = 1 ∧ inFlight f.id (run es).log = 0 := by
  have : ∃ f ∈ (run (begun ++ [.undelivered 2])).fwds, f.running = 1 ∧ inFlight f.id (run (begun ++ [.undelivered 2])).log = 0 := by
    decide +kernel
  obtain ⟨f, hf, h⟩ := this
  exact ⟨_, f, hf, h⟩

example : ∃ f ∈ (run (served ++ [.committed 2 .commit])).fwds, f.commits = 1 ∧ f.running = 1 ∧
    inFlight f.id (run (served ++ [.committed 2 .commit])).log = 1 ∧
    committedOf f.id (run (served ++ [.committed 2 .commit])).log = 1 := by decide +kernel

/-! ### C116: the end -/

/-- C116. The forward is done if, and only if, shutdown has been requested, no forward has instances, and no message of any
forward is on its way — unless a request could not be delivered. -/
theorem forward_done_partial (es : List Event) (h0 : ∀ f x, .created f x ∈ (run es).log → lostOf f (run es).log = 0) :
    done (run es) = true ↔ isDown (run es).log = true ∧
      ∀ f x, .created f x ∈ (run es).log → instancesOf f (run es).log = 0 ∧ inFlight f (run es).log = 0 := by
  have h := inv_run es
  have hex : ∀ f ∈ (run es).fwds, ∃ x, .created f.id x ∈ (run es).log := fun f hf => by
    obtain ⟨x, hx, _⟩ := h.F.conf f hf
    exact ⟨x, confOf_mem hx⟩
  simp only [done, Bool.and_eq_true, List.all_eq_true, beq_iff_eq, h.down]
  constructor
  · intro ⟨hd, hall⟩
    refine ⟨hd, ?_⟩
    intro i x hx
    obtain ⟨f, hf, rfl⟩ := fwd_of_lt h (h.F.once i x hx).1
    obtain ⟨h1, h2, _, _⟩ := forward_reported_numbers_partial es f hf
    obtain ⟨h3, h4⟩ := hall f hf
    exact ⟨by omega, by omega⟩
  · intro ⟨hd, hall⟩
    refine ⟨hd, ?_⟩
    intro f hf
    obtain ⟨x, hx⟩ := hex f hf
    obtain ⟨h1, h2, _, _⟩ := forward_reported_numbers_partial es f hf
    obtain ⟨h3, h4⟩ := hall f.id x hx
    have := h0 f.id x hx
    exact ⟨by omega, by omega⟩

/-- A request that could not be delivered is never forgotten. -/
theorem lost_never_done (es es' : List Event) (i : Nat) (h : 0 < lostOf i (run es).log) : done (run (es ++ es')) = false := by
  obtain ⟨a, ha⟩ := log_grows es es'
  have hi := inv_run (es ++ es')
  have hl : 0 < lostOf i (run (es ++ es')).log := by
    rw [ha]; exact Nat.lt_of_lt_of_le h (tally_mono _ a _)
  have hf : ∃ f ∈ (run (es ++ es')).fwds, f.id = i := by
    by_cases hc : ∃ f ∈ (run (es ++ es')).fwds, f.id = i
    · exact hc
    · have := (hi.R.new i fun f hf e => hc ⟨f, hf, e⟩).1
      omega
  obtain ⟨f, hf, rfl⟩ := hf
  have hr := hi.R.run f hf
  rw [Bool.eq_false_iff]
  intro hd
  simp only [done, Bool.and_eq_true, List.all_eq_true, beq_iff_eq] at hd
  have := (hd.2 f hf).2
  omega

/-- C116 does not hold: after a request that could not be delivered, and a shutdown, there is nothing on its way and
nothing more to do, and the forward is not done, whatever happens. -/
theorem forward_shutdown_refuted :
    ∃ es, isDown (run es).log = true ∧ (∀ c, walk c (run es).log = .idle ∨ walk c (run es).log = .over) ∧
      ∀ es', done (run (es ++ es')) = false := by
  refine ⟨begun ++ [.undelivered 2, .shutdown []], by decide +kernel, ?_, ?_⟩
  · intro c
    apply (inv_run _).W.gone
    have : (run (begun ++ [.undelivered 2, .shutdown []])).flows = [] := by decide +kernel
    rw [this]
    intro x hx; cases hx
  · intro es'
    exact lost_never_done _ es' 0 (by decide +kernel)

example : done (run (begun ++ [.shutdown []])) = false ∧ done (run (begun ++ [.shutdown [], .forgotten 2 true])) = true ∧
    done (run (served ++ [.shutdown []])) = false ∧ done (run (served ++ [.shutdown [], .committed 2 .commit])) = true := by
  decide +kernel

/-! ### C118: other processes exit -/

/-- Could be an answer to the request to dequeue. -/
def answers (c : Nat) : Event → Bool
  | .got d _ | .forgetRequest d | .forgotten d _ | .undelivered d => d == c
  | _ => false

theorem asked_stays {c f : Nat} {t : Trid} {b : List Obs} (hb : walk c b = .asked f t) :
    ∀ a, (∀ o ∈ a, heard o = some c → ∀ l, hear l (.asked f t) o = .asked f t) → walk c (a ++ b) ≠ .bad →
      walk c (a ++ b) = .asked f t := by
  intro a
  induction a with
  | nil => intro _ _; exact hb
  | cons o a ih =>
    intro ha hg
    have hg' : walk c (a ++ b) ≠ .bad := walk_good (a := [o]) hg
    have ih := ih (fun o ho => ha o (List.mem_cons_of_mem _ ho)) hg'
    rw [List.cons_append] at hg ⊢
    by_cases ho : heard o = some c
    · rw [walk, if_pos ho, ih]; exact ha o (List.mem_cons_self ..) ho _
    · rw [walk, if_neg ho] at hg ⊢
      by_cases hs : said o = some c
      · rw [if_pos hs, ih] at hg
        exact absurd rfl hg
      · rw [if_neg hs]; exact ih

theorem hears_asked {s : State} {e : Event} {o : Obs} {c f : Nat} {t : Trid} (hh : hears s e o) (ho : heard o = some c)
    (ha : answers c e = false) (l : List Obs) : hear l (.asked f t) o = .asked f t := by
  cases e with
  | got d m => cases hh; cases ho; simp [answers] at ha
  | forgetRequest d => cases hh; cases ho; simp [answers] at ha
  | forgotten d r => cases hh; cases ho; simp [answers] at ha
  | undelivered d => cases hh; cases ho; simp [answers] at ha
  | own i => obtain ⟨d, _, rfl⟩ := hh; rfl
  | found d p => cases hh; rfl
  | dropped d => cases hh; rfl
  | replied d ok m => cases hh; rfl
  | acked d ok => cases hh; rfl
  | rolledBack d ok => cases hh; rfl
  | committed d e => cases hh; rfl
  | update xs pref => cases hh
  | shutdown pref => cases hh
  | exited p => cases hh
  | queueAt d n q p r => cases hh
  | queueDropped d r => cases hh

/-- A request to dequeue that is not answered is never given up. -/
theorem unanswered (es : List Event) {c f : Nat} {t : Trid} (h : walk c (run es).log = .asked f t) (es' : List Event)
    (hn : ∀ e ∈ es', answers c e = false) : walk c (run (es ++ es')).log = .asked f t := by
  induction es' using Casual.snocInd with
  | nil => simpa using h
  | snoc es' e ih =>
    have ih := ih fun e he => hn e (List.mem_append_left _ he)
    have hg := run_good (es ++ (es' ++ [e])) c
    rw [← List.append_assoc, run_step] at hg ⊢
    obtain ⟨a, ha, hp⟩ := grow_apply e (run (es ++ es'))
    rw [ha] at hg ⊢
    refine asked_stays ih a ?_ hg
    intro o ho hc l
    exact hears_asked (hp o ho (by rw [hc]; simp)) hc (hn e (by simp)) l

theorem asked_not_done (es : List Event) {c f : Nat} {t : Trid} (h : walk c (run es).log = .asked f t) : done (run es) = false := by
  have hi := inv_run es
  by_cases hx : ∃ x ∈ (run es).flows, x.corr = c
  · obtain ⟨x, hx, rfl⟩ := hx
    obtain ⟨g, hg, he, _⟩ := hi.R.ex x hx
    have hr := hi.R.run g hg
    have : 0 < cnt g.id (run es).flows := List.length_pos_of_mem (List.mem_filter.mpr ⟨hx, by simp [he]⟩)
    rw [Bool.eq_false_iff]
    intro hd
    simp only [done, Bool.and_eq_true, List.all_eq_true, beq_iff_eq] at hd
    have := (hd.2 g hg).2
    omega
  · rcases hi.W.gone c (fun x hxm e => hx ⟨x, hxm, e⟩) with e | e <;> rw [h] at e <;> cases e

/-- C118 does not hold: the group of the source queue, that has been asked for a message, exits. Nobody can answer then. The
forward asks the process that has exited to forget the request, and waits for its answer: whatever happens, this instance
never asks for a message again, and the forward never shuts down. -/
theorem forward_source_exit_refuted :
    ∃ es c p, .exited p ∈ es ∧ .dequeue 0 c ⟨c⟩ (some p) (some 5) ∈ (run es).log ∧ .forget c (some p) ∈ (run es).log ∧
      ∀ es', (∀ e ∈ es', answers c e = false) →
        walk c (run (es ++ es')).log = .asked 0 ⟨c⟩ ∧ done (run (es ++ es')) = false := by
  refine ⟨begun ++ [.exited 100], 2, 100, by decide +kernel, by decide +kernel, by decide +kernel, ?_⟩
  intro es' hn
  have := unanswered (begun ++ [.exited 100]) (c := 2) (f := 0) (t := ⟨2⟩) (by decide +kernel) es' hn
  exact ⟨this, asked_not_done _ this⟩

theorem bury_same (p : Nat) (f : Fwd) (s : State) : (bury p f s).flows = s.flows ∧ ∃ a, (bury p f s).own = s.own ++ a := by
  unfold bury
  dsimp only
  split
  · rw [emits_flows, emits_flows]
    split
    · exact ⟨rfl, _, rfl⟩
    · exact ⟨rfl, [], by simp⟩
  · exact ⟨rfl, [], by simp⟩

theorem buries_same (p : Nat) (fs : List Fwd) : ∀ s : State, (fs.foldl (fun s f => bury p f s) s).flows = s.flows ∧
    ∃ a, (fs.foldl (fun s f => bury p f s) s).own = s.own ++ a := by
  induction fs with
  | nil => intro s; exact ⟨rfl, [], by simp⟩
  | cons f fs ih =>
    intro s
    obtain ⟨h1, a, h2⟩ := ih (bury p f s)
    obtain ⟨h3, b, h4⟩ := bury_same p f s
    exact ⟨h1.trans h3, b ++ a, by rw [List.foldl_cons, h2, h4, List.append_assoc]⟩

theorem bury_own {p : Nat} {f : Fwd} {s : State} {d : Source} {x : Flow} (hd : f.dest = some d) (hp : d.process = some p)
    (hx : x ∈ s.flows) (hi : x.id = f.id) (hs : x.stage = .enqueue) : x.corr ∈ (bury p f s).own := by
  unfold bury
  have ht : (f.dest.any fun d => d.process == some p) = true := by simp [hd, hp]
  dsimp only
  rw [if_pos (by simp [ht]), emits_flows, emits_flows, if_pos ht]
  simp only [State.set, List.mem_append, List.mem_map, List.mem_filter]
  exact Or.inr ⟨x, ⟨hx, by simp [hi, hs]⟩, rfl⟩

/-- C118. The group of the queue that messages are enqueued to exits: every message that waits for it is rolled back. -/
theorem forward_target_exit_partial (es : List Event) (p c : Nat) (t : Trid) (f : Fwd) (d : Source) (hf : f ∈ (run es).fwds)
    (hd : f.dest = some d) (hp : d.process = some p) (hc : walk c (run es).log = .storing f.id t) :
    ∃ i, .rollback c t ∈ (run (es ++ [.exited p] ++ [.own i])).log := by
  have hi := inv_run es
  have hx : ∃ x ∈ (run es).flows, x.corr = c := by
    by_cases hx : ∃ x ∈ (run es).flows, x.corr = c
    · exact hx
    · rcases hi.W.gone c (fun x hxm e => hx ⟨x, hxm, e⟩) with e | e <;> rw [hc] at e <;> cases e
  obtain ⟨x, hx, rfl⟩ := hx
  have hph := hi.W.here x hx
  rw [hc] at hph
  obtain ⟨hst, hid⟩ : x.stage = .enqueue ∧ x.id = f.id := by
    unfold phaseOf at hph
    cases hst : x.stage <;> rw [hst] at hph <;> simp only [Phase.storing.injEq, reduceCtorEq] at hph
    exact ⟨rfl, hph.1.symm⟩
  have hown : x.corr ∈ (run (es ++ [.exited p])).own ∧ (run (es ++ [.exited p])).flows = (run es).flows := by
    rw [run_step]
    have hm : f ∈ queues (emit (.exited p) (run es)) ++ services (emit (.exited p) (run es)) := by
      simp only [queues, services, List.mem_append, List.mem_filter]
      cases hsv : f.service with
      | none => exact Or.inl ⟨hf, rfl⟩
      | some v => exact Or.inr ⟨hf, rfl⟩
    obtain ⟨fs, gs, e⟩ := List.append_of_mem hm
    show x.corr ∈ (exited p (emit (.exited p) (run es))).own ∧ (exited p (emit (.exited p) (run es))).flows = _
    unfold exited
    rw [e, List.foldl_append, List.foldl_cons]
    obtain ⟨h1, a, h2⟩ := buries_same p fs (emit (.exited p) (run es))
    generalize fs.foldl (fun s f => bury p f s) (emit (.exited p) (run es)) = s1 at h1 h2
    have h1 : s1.flows = (run es).flows := h1
    obtain ⟨h3, b, h4⟩ := buries_same p gs (bury p f s1)
    refine ⟨?_, ?_⟩
    · rw [h4]
      exact List.mem_append_left _ (bury_own hd hp (by rw [h1]; exact hx) hid hst)
    · rw [h3, (bury_same p f s1).1, h1]
  obtain ⟨i, hil, hget⟩ := List.getElem_of_mem hown.1
  refine ⟨i, ?_⟩
  have hw : walk x.corr (run (es ++ [.exited p])).log = .storing f.id t := by
    have := (inv_run (es ++ [.exited p])).W.here x (by rw [hown.2]; exact hx)
    rw [this, ← hph]
  have hg : (run (es ++ [.exited p])).own[i]? = some x.corr := by rw [List.getElem?_eq_getElem hil, hget]
  have hlog : ∃ a, (run (es ++ [.exited p] ++ [.own i])).log = a ++ .acked x.corr false :: (run (es ++ [.exited p])).log := by
    rw [run_step]
    simp only [apply, hg]
    obtain ⟨a, ha, _⟩ := quiet_acked x.corr false (emit (.acked x.corr false)
      { run (es ++ [.exited p]) with own := (run (es ++ [.exited p])).own.eraseIdx i })
    exact ⟨a, ha⟩
  obtain ⟨a, ha⟩ := hlog
  have := (forward_failure_rolled_back _ x.corr f.id t _ a _ ha rfl (by rw [hw]; rfl)).1
  rw [ha]
  exact List.mem_append_left _ this

/-- The sample, when its reply queue is to take the reply. -/
def stored : List Event := begun ++ [.got 2 (some 42), .found 2 (some 300), .replied 2 true 43]

example : ∃ f ∈ (run stored).fwds, f.dest = some ⟨20, some 6, some 101⟩ ∧ walk 2 (run stored).log = .storing f.id ⟨2⟩ := by
  decide +kernel

/-! ### C119: what is enqueued -/

/-- C119. What is enqueued is the message that has arrived, or the reply of the service that was called with it, in the
transaction in which it has arrived; and it is enqueued to the queue that is configured, with the delay that is configured. -/
theorem forward_enqueue_right_partial (es : List Event) (c : Nat) (t : Trid) (n m : Nat) (dl : Bool) (p q : Option Nat)
    (a b : List Obs) (h : (run es).log = a ++ .enqueue c t n m dl p q :: b) :
    ∃ f x, .created f x ∈ b ∧ x.target.dest = some n ∧ x.delayed = dl ∧ (∃ p q, .dequeue f c t p q ∈ b) ∧
      match x.target with
      | .queue _ => .got c (some m) ∈ b
      | .service _ _ => .replied c true m ∈ b ∧ ∃ m' p, .got c (some m') ∈ b ∧ .call c t m' p ∈ b := by
  have hg : walk c (.enqueue c t n m dl p q :: b) ≠ .bad := walk_good (a := a) (by rw [← h]; exact run_good es c)
  have hf := facts c b
  rw [walk, if_neg (by simp [heard]), if_pos (show said (Obs.enqueue c t n m dl p q) = some c from rfl)] at hg
  cases hw : walk c b with
  | held f t' m' =>
    rw [hw] at hf hg
    simp only [say] at hg
    split at hg
    · next e =>
      obtain ⟨rfl, rfl, hc⟩ := e
      obtain ⟨x, hx, hk⟩ := confOf_any hc
      simp only [Bool.and_eq_true, beq_iff_eq] at hk
      refine ⟨f, x, hx, by rw [hk.1]; rfl, hk.2, hf.1, ?_⟩
      rw [hk.1]; exact hf.2
    · exact absurd rfl hg
  | called f t' m' =>
    rw [hw] at hf hg
    simp only [say] at hg
    split at hg
    · next e =>
      obtain ⟨rfl, rfl, hc⟩ := e
      obtain ⟨x, hx, hk⟩ := confOf_any hc
      simp only [Bool.and_eq_true, beq_iff_eq] at hk
      obtain ⟨⟨m0, p0, hl, _, hcall⟩, hr⟩ := hf
      refine ⟨f, x, hx, hk.1.2, hk.2, hl.1.1, ?_⟩
      cases ht : x.target with
      | queue n' => rw [ht] at hk; cases hk.1.1
      | service v r => exact ⟨hr, m0, p0, hl.1.2, hcall⟩
    · exact absurd rfl hg
  | _ => rw [hw] at hg; exact absurd rfl hg

/-- C119 does not hold: it is not always sent to a process that the queue manager has named. The queue does not take the
first message, and with this, it is unknown where the queue is; the second message arrives, and is sent to nobody. -/
theorem forward_enqueue_to_nobody_refuted :
    ∃ es c t n m dl, .enqueue c t n m dl none none ∈ (run es).log ∧ walk c (run es).log = .storing 0 t :=
  ⟨[.update [toQueue] [], .queueAt 0 30 (some 5) (some 100) false, .queueAt 1 40 (some 6) (some 101) true,
    .got 3 (some 42), .acked 3 false, .got 2 (some 41)], 2, ⟨2⟩, 40, 41, true, by decide +kernel, by decide +kernel⟩

example : .enqueue 2 ⟨2⟩ 20 43 false (some 101) (some 6) ∈ (run served).log := by decide +kernel

/-! ### C120: configuration -/

/-- The configurations of the same forward: one with this alias, to a service, or to a queue. -/
def sameForward (x y : Conf) : Prop := x.alias = y.alias ∧ x.target.svc.isSome = y.target.svc.isSome

def Updated (x : Conf) (s : State) : Prop :=
  ∃ f ∈ s.fwds, f.alias = x.alias ∧ f.service.isSome = x.target.svc.isSome ∧ f.configured = x.instances

theorem updated_self (x : Conf) (s : State) : Updated x (addOrUpdate x s) := by
  unfold addOrUpdate
  cases hf : s.fwds.find? fun f => f.alias == x.alias && f.service.isSome == x.target.svc.isSome with
  | some f =>
    have hp := List.find?_some hf
    simp only [Bool.and_eq_true, beq_iff_eq] at hp
    refine ⟨{ f with configured := x.instances }, ?_, hp.1, hp.2, rfl⟩
    simp only [emit, State.set, List.mem_map]
    exact ⟨f, List.mem_of_find?_eq_some hf, by rw [if_pos rfl]⟩
  | none => exact ⟨_, List.mem_append_right _ (List.mem_singleton.mpr rfl), rfl, rfl, rfl⟩

theorem updated_other {x y : Conf} {s : State} (h : Inv s) (hu : Updated x s) (hne : ¬ sameForward y x) : Updated x (addOrUpdate y s) := by
  obtain ⟨g, hg, h1, h2, h3⟩ := hu
  unfold addOrUpdate
  cases hf : s.fwds.find? fun f => f.alias == y.alias && f.service.isSome == y.target.svc.isSome with
  | some f =>
    have hp := List.find?_some hf
    simp only [Bool.and_eq_true, beq_iff_eq] at hp
    refine ⟨g, ?_, h1, h2, h3⟩
    simp only [emit, State.set, List.mem_map]
    refine ⟨g, hg, ?_⟩
    rw [if_neg]
    intro e
    have := eq_of_nodup_map (ids_nodup h.F.ids) hg (List.mem_of_find?_eq_some hf) e
    subst this
    exact hne ⟨hp.1.symm.trans h1, hp.2.symm.trans h2⟩
  | none => exact ⟨g, List.mem_append_left _ hg, h1, h2, h3⟩

theorem updated_fold {x : Conf} (ys : List Conf) : ∀ {s : State}, Inv s → Updated x s → (∀ y ∈ ys, ¬ sameForward y x) →
    Updated x (ys.foldl (fun s x => addOrUpdate x s) s) := by
  induction ys with
  | nil => intro s _ h _; exact h
  | cons y ys ih =>
    intro s hi h hn
    exact ih (inv_addOrUpdate hi) (updated_other hi h (hn y (List.mem_cons_self ..))) fun z hz => hn z (List.mem_cons_of_mem _ hz)

theorem inv_fold (ys : List Conf) : ∀ {s : State}, Inv s → Inv (ys.foldl (fun s x => addOrUpdate x s) s) := by
  induction ys with
  | nil => intro s h; exact h
  | cons y ys ih => intro s h; exact ih (inv_addOrUpdate h)

theorem comply_fwds {s : State} (h : Inv s) (pref : List Nat) : (comply pref s).fwds = s.fwds := by
  unfold comply
  dsimp only
  have h1 : Inv (dropLookups s) := inv_emits (g := fun l : Look => .dropQueue l.corr) (fun _ => rfl) (fun _ => rfl) _ h
  have h0 : (dropLookups s).fwds = s.fwds := by unfold dropLookups; rw [emits_flows]
  obtain ⟨_, h2⟩ := inv_cancels pref (queues (dropLookups s) ++ services (dropLookups s)) h1
  generalize (queues (dropLookups s) ++ services (dropLookups s)).foldl (fun s f => cancel pref f s) (dropLookups s) = s1 at h2
  have h3 : ∀ (fs : List Fwd) (s : State), (fs.foldl (fun s f => lookAgain f s) s).fwds = s.fwds := by
    intro fs
    induction fs with
    | nil => intro s; rfl
    | cons f fs ih => intro s; rw [List.foldl_cons, ih, lookAgain_fwds]
  rw [h3, h2, h0]

/-- C120. After an update, every forward in it is there, with the number of instances that the update says (if it is not
there twice). -/
theorem forward_update_instances_partial (es : List Event) (xs : List Conf) (pref : List Nat)
    (hn : xs.Pairwise fun x y => ¬ sameForward x y) (x : Conf) (hx : x ∈ xs) :
    ∃ f y, confOf f (run (es ++ [.update xs pref])).log = some y ∧ sameForward x y ∧
      instancesOf f (run (es ++ [.update xs pref])).log = x.instances := by
  have hi := inv_run (es ++ [.update xs pref])
  have hsym : ∀ a ∈ xs, a = x ∨ ¬ sameForward a x := by
    intro a ha
    by_cases e : a = x
    · exact Or.inl e
    · right
      have hs : ∀ {a b : Conf}, ¬ sameForward a b → ¬ sameForward b a := fun h h' => h ⟨h'.1.symm, h'.2.symm⟩
      obtain ⟨l, r, rfl⟩ := List.append_of_mem ha
      rw [List.pairwise_append] at hn
      obtain ⟨_, h2, h3⟩ := hn
      rw [List.pairwise_cons] at h2
      rcases List.mem_append.mp hx with h | h
      · exact hs (h3 x h a (List.mem_cons_self ..))
      · rcases List.mem_cons.mp h with h | h
        · exact absurd h.symm e
        · exact h2.1 x h
  have hup : Updated x (run (es ++ [.update xs pref])) := by
    rw [run_step]
    show Updated x (update xs pref (run es))
    unfold update
    have hmem : ∀ y, y ∈ xs.filter (·.target.svc.isSome) ++ xs.filter (·.target.svc.isNone) → y ∈ xs := by
      intro y hy
      rcases List.mem_append.mp hy with hy | hy <;> exact (List.mem_filter.mp hy).1
    have hx' : x ∈ xs.filter (·.target.svc.isSome) ++ xs.filter (·.target.svc.isNone) := by
      simp only [List.mem_append, List.mem_filter]
      cases x.target.svc with
      | none => exact Or.inr ⟨hx, rfl⟩
      | some v => exact Or.inl ⟨hx, rfl⟩
    generalize xs.filter (·.target.svc.isSome) ++ xs.filter (·.target.svc.isNone) = ys at hmem hx'
    suffices hs : Updated x (ys.foldl (fun s x => addOrUpdate x s) (run es)) by
      obtain ⟨f, hf, h⟩ := hs
      exact ⟨f, by rw [comply_fwds (inv_fold ys (inv_run es))]; exact hf, h⟩
    have hgen : ∀ (zs : List Conf), (∀ z ∈ zs, z ∈ xs) → ∀ {s : State}, Inv s → (x ∈ zs ∨ Updated x s) →
        Updated x (zs.foldl (fun s x => addOrUpdate x s) s) := by
      intro zs
      induction zs with
      | nil =>
        intro _ s _ h
        rcases h with h | h
        · cases h
        · exact h
      | cons z zs ih =>
        intro hz s hi h
        refine ih (fun w hw => hz w (List.mem_cons_of_mem _ hw)) (inv_addOrUpdate hi) ?_
        rcases hsym z (hz z (List.mem_cons_self ..)) with e | e
        · subst e; exact Or.inr (updated_self z s)
        · rcases h with h | h
          · rcases List.mem_cons.mp h with h | h
            · exact absurd ⟨by rw [h], by rw [h]⟩ e
            · exact Or.inl h
          · exact Or.inr (updated_other hi h e)
    exact hgen ys hmem (inv_run es) (Or.inl hx')
  obtain ⟨f, hf, h1, h2, h3⟩ := hup
  obtain ⟨y, hy, hm⟩ := hi.F.conf f hf
  refine ⟨f.id, y, hy, ⟨by rw [← h1]; exact hm.1, by rw [← h2, hm.2.1]⟩, by rw [hi.F.inst f hf]; exact h3⟩

/-- C120 does not hold: nothing but the number of instances is taken from an update. A forward that is disabled by an update
asks for messages as before. -/
theorem forward_update_refuted :
    ∃ es pref es', .dequeue 0 5 ⟨5⟩ (some 100) (some 5) ∈ (run (es ++ [.update [{ toService with enabled := false }] pref] ++ es')).log ∧
      .dequeue 0 5 ⟨5⟩ (some 100) (some 5) ∉ (run (es ++ [.update [{ toService with enabled := false }] pref])).log :=
  ⟨served, [], [.committed 2 .commit], by decide +kernel, by decide +kernel⟩

example : ∃ f ∈ (run (begun ++ [.update [{ toService with instances := 3 }, toQueue] []])).fwds, f.configured = 3 ∧ f.alias = 1 := by
  decide +kernel

end Casual.Forward

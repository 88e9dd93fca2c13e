import Verif.Tx.Inv3
/-!
Properties of the transaction context, for every environment and every history.
-/
namespace Casual.Tx
open Casual.Code

/-- An environment where everything succeeds. -/
def okEnv (fixed dyn : List Rm) : Env where
  fixed := fixed
  dyn := dyn
  xa := fun _ _ => .ok
  involved := fun _ _ => []
  commit := fun _ _ => ((.commit, .ok), .ok)
  rollback := fun _ _ => .ok

theorem allGood (e : Env) (as : List Act) {post pre : List Event} {ev : Event}
    (h : (run e as).log = post ++ ev :: pre) : Good ev pre :=
  (W.run e as).inv.good.split h

theorem split_of_mem {ev : Event} {log : List Event} (h : ev ∈ log) :
    ∃ post pre, log = post ++ ev :: pre := by
  obtain ⟨a, b, h⟩ := List.append_of_mem h
  exact ⟨a, b, h⟩

/-! ### C75: one decision, taken by the process that began the transaction -/

/-- What every decision event has behind it. -/
theorem good_decision {x : Xid} {ev : Event} {pre : List Event} (h : Good ev pre)
    (hd : commits x ev = true ∨ rollsBack x ev = true) :
    (∃ d, Event.began x d ∈ pre) ∧ none? (commits x) pre ∧
    (commits x ev = true → none? (rollsBack x) pre) ∧
    (∀ rs, ev = .tmRollback x rs → none? (rollsBack x) pre) ∧
    (∀ r k, ev = .xa (.rollback r x) k →
      (∀ rs, Event.tmRollback x rs ∉ pre) ∧ ∀ k, Event.xa (.rollback r x) k ∉ pre) := by
  cases ev <;> try (simp [commits, rollsBack] at hd; done)
  case tmCommit y rs =>
    simp only [commits, rollsBack, decide_eq_true_eq, Bool.false_eq_true, or_false] at hd
    subst hd
    exact ⟨h.1, h.2.1, fun _ => h.2.2.1, fun rs he => (by cases he), fun r k he => (by cases he)⟩
  case tmRollback y rs =>
    simp only [commits, rollsBack, decide_eq_true_eq, Bool.false_eq_true, false_or] at hd
    subst hd
    exact ⟨h.1, h.2.1, fun hc => (by simp [commits] at hc), fun rs _ => h.2.2.1, fun r k he => (by cases he)⟩
  case committed y =>
    simp only [commits, rollsBack, decide_eq_true_eq, Bool.false_eq_true, or_false] at hd
    subst hd
    exact ⟨h.1, h.2.1, fun _ => h.2.2.1, fun rs he => (by cases he), fun r k he => (by cases he)⟩
  case xa op k =>
    cases op <;> try (simp [commits, rollsBack] at hd; done)
    case commit r y =>
      simp only [commits, rollsBack, decide_eq_true_eq, Bool.false_eq_true, or_false] at hd
      subst hd
      exact ⟨h.1, h.2.1, fun _ => h.2.2.1, fun rs he => (by cases he), fun r k he => (by cases he)⟩
    case rollback r y =>
      simp only [commits, rollsBack, decide_eq_true_eq, Bool.false_eq_true, false_or] at hd
      subst hd
      refine ⟨h.1, h.2.1, fun hc => (by simp [commits] at hc), fun rs he => (by cases he), ?_⟩
      intro r' k' he
      cases he
      exact ⟨h.2.2.1, h.2.2.2.1⟩

/-- C75. The history of one transaction `x`, read from the newest event: whenever (a part of) a
decision about `x` is made,
* this process had begun `x` before,
* no commit decision has been made before, and if this is a commit, no part of a rollback,
* a rollback request to the transaction manager is the first part of any decision; a rollback
  in a resource manager is the first one for that resource, and the transaction manager has not
  been asked.
So a transaction is decided once and in one way. -/
theorem C75_one_decision (e : Env) (as : List Act) (x : Xid) (post pre : List Event) (ev : Event)
    (h : (run e as).log = post ++ ev :: pre) (hd : commits x ev = true ∨ rollsBack x ev = true) :
    (∃ d, Event.began x d ∈ pre) ∧
    (∀ ev' ∈ pre, commits x ev' = false) ∧
    (commits x ev = true → ∀ ev' ∈ pre, rollsBack x ev' = false) ∧
    (∀ rs, ev = .tmRollback x rs → ∀ ev' ∈ pre, rollsBack x ev' = false) ∧
    (∀ r k, ev = .xa (.rollback r x) k →
      (∀ rs, Event.tmRollback x rs ∉ pre) ∧ ∀ k, Event.xa (.rollback r x) k ∉ pre) :=
  good_decision (allGood e as h) hd

/-- C75, the consequence for the whole history: never both a commit and a rollback. -/
theorem C75_one_way (e : Env) (as : List Act) (x : Xid) :
    ¬ ((∃ ev ∈ (run e as).log, commits x ev = true) ∧ ∃ ev ∈ (run e as).log, rollsBack x ev = true) := by
  rintro ⟨⟨a, ha, hca⟩, b, hb, hrb⟩
  obtain ⟨post, pre, hs⟩ := split_of_mem ha
  have h1 := C75_one_decision e as x post pre a hs (Or.inl hca)
  rw [hs] at hb
  rcases List.mem_append.mp hb with hb | hb
  · obtain ⟨p, q, hpq⟩ := List.append_of_mem hb
    have h2 := C75_one_decision e as x p (q ++ a :: pre) b (by rw [hs, hpq]; simp) (Or.inr hrb)
    have := h2.2.1 a (List.mem_append_right _ List.mem_cons_self)
    rw [this] at hca; cases hca
  · rcases List.mem_cons.mp hb with rfl | hb
    · cases b with
      | xa op k => cases op <;> simp [commits, rollsBack] at hca hrb
      | _ => simp [commits, rollsBack] at hca hrb
    · have := h1.2.2.1 hca b hb
      rw [this] at hrb; cases hrb

theorem countP_le_one {p : Event → Bool} : ∀ {log : List Event},
    (∀ post pre ev, log = post ++ ev :: pre → p ev = true → ∀ ev' ∈ pre, p ev' = false) →
    log.countP p ≤ 1
  | [], _ => by simp
  | a :: l, h => by
    rw [List.countP_cons]
    split
    · rename_i ha
      have : l.countP p = 0 := by
        rw [List.countP_eq_zero]
        intro ev hev
        have := h [] l a rfl ha ev hev
        simp [this]
      omega
    · have := countP_le_one (p := p) (log := l) (fun post pre ev hs => h (a :: post) pre ev (by rw [hs]; rfl))
      omega

/-- C75, counted: one commit decision at most. -/
theorem C75_at_most_once (e : Env) (as : List Act) (x : Xid) :
    (run e as).log.countP (commits x) ≤ 1 :=
  countP_le_one fun post pre ev hs hc =>
    (C75_one_decision e as x post pre ev hs (Or.inl hc)).2.1

/-- C75: a process that has joined a transaction can neither commit it nor roll it back, in any
reachable state; nothing happens. -/
theorem C75_joined (e : Env) (as : List Act) (now : Time) (n k : Nat)
    (h : (current (run e as)).trid = some (.other n k)) :
    commit e now (run e as) = (run e as, .protocol) ∧
    rollback e now (run e as) = (run e as, .protocol) := by
  have ho : (current (run e as)).own = false := by unfold Tran.own; rw [h]
  constructor
  · unfold commit commitPre
    rw [h, ho]; simp
  · unfold rollback rollbackPre
    rw [h, ho]; simp

/-! ### C76: commit and the replies -/

/-- C76, all paths (tx_commit and the end of a service): if a reply to a call made within `x`
had a transaction state other than ok, `x` is never committed. -/
theorem C76_state_partial (e : Env) (as : List Act) (x : Xid) (post pre : List Event) (ev : Event)
    (h : (run e as).log = post ++ ev :: pre) (hd : commits x ev = true)
    (corr st : Nat) (hc : Event.call corr x ∈ pre) (hr : Event.replied corr st ∈ pre) : st = 0 := by
  have hg := allGood e as h
  have hl : leaves x (.call corr x) = true := by simp [leaves]
  cases ev <;> try (simp [commits] at hd; done)
  case tmCommit y rs =>
    simp only [commits, decide_eq_true_eq] at hd
    subst hd
    exact hg.2.2.2.2 corr st hc hr
  case committed y =>
    simp only [commits, decide_eq_true_eq] at hd
    subst hd
    have := hg.2.2.2.1 _ hc
    rw [hl] at this; cases this
  case xa op k =>
    cases op <;> try (simp [commits] at hd; done)
    simp only [commits, decide_eq_true_eq] at hd
    subst hd
    have := hg.2.2.2.1 _ hc
    rw [hl] at this; cases this

/-- C76, `tx_commit`: with a reply outstanding, or a reply that was not ok, the call is refused
with `TX_PROTOCOL_ERROR` and nothing happens. -/
theorem C76_tx_commit_partial (e : Env) (as : List Act) (now : Time) (n corr : Nat)
    (h : (current (run e as)).trid = some (.mine n))
    (hc : Event.call corr (.mine n) ∈ (run e as).log)
    (hp : (∀ st, Event.replied corr st ∉ (run e as).log) ∨
      (∃ st, Event.replied corr st ∈ (run e as).log ∧ st ≠ 0)) :
    commit e now (run e as) = (run e as, .protocol) := by
  have hw := W.run e as
  obtain ⟨t, ts, hs, _, hcur, htx⟩ := current_some hw.emp h
  have hmem : t ∈ (run e as).stack := by rw [hs]; exact List.mem_cons_self
  have hpre : commitPre t = .protocol := by
    have ho : t.own = true := own_iff.mpr ⟨n, htx⟩
    unfold commitPre
    rw [htx, ho]
    simp only [Option.isNone_some, Bool.false_eq_true, if_false, Bool.not_true]
    rcases hp with hp | ⟨st, hp, hst⟩
    · rcases hw.inv.pend' t hmem n corr htx hc with h1 | ⟨st, h1⟩
      · have : t.pending ≠ [] := List.ne_nil_of_mem h1
        simp [this]
      · exact absurd h1 (hp st)
    · have := hw.inv.st t hmem n corr st htx hc hp
      have : t.state ≠ 0 := by omega
      simp [this]
  unfold commit
  rw [hcur, hpre]
  simp

/-- The full claim: when a transaction is committed, every call made within it has been answered
with the transaction state ok. -/
def CommitAfterReplies : Prop :=
  ∀ (e : Env) (as : List Act) (x : Xid) (post pre : List Event) (ev : Event),
    (run e as).log = post ++ ev :: pre → commits x ev = true →
    ∀ corr, Event.call corr x ∈ pre → ∃ st, Event.replied corr st ∈ pre ∧ st = 0

/-- C76 does not hold: a service that started its transaction (`auto`), makes an asynchronous
call in it and returns success without fetching the reply, has its transaction committed. -/
theorem C76_refuted : ¬ CommitAfterReplies := by
  intro h
  obtain ⟨st, hst, _⟩ := h (okEnv [] []) [.start, .call false, .finalize true] (.mine 0) []
    [.discard 0, .call 0 (.mine 0), .began (.mine 0) none] (.tmCommit (.mine 0) []) (by decide +kernel)
    (by decide) 0 (by decide)
  simp at hst

/-! ### C77: every involved resource takes part in the decision -/

/-- C77, commit: every resource that has been started for, or has registered with, the
transaction is in the commit request to the transaction manager; a one-phase commit happens only
when that resource is the only one and no work has left the process; a commit without any
resource only when there is none and no work has left the process. -/
theorem C77_commit_covers (e : Env) (as : List Act) (x : Xid) (post pre : List Event) (ev : Event)
    (h : (run e as).log = post ++ ev :: pre) :
    (∀ rs, ev = .tmCommit x rs → ∀ r, touched pre r x → r ∈ rs) ∧
    (∀ r k, ev = .xa (.commit r x) k → (∀ r', touched pre r' x → r' = r) ∧ ∀ ev' ∈ pre, leaves x ev' = false) ∧
    (ev = .committed x → (∀ r, ¬ touched pre r x) ∧ ∀ ev' ∈ pre, leaves x ev' = false) := by
  have hg := allGood e as h
  refine ⟨?_, ?_, ?_⟩
  · rintro rs rfl r hr; exact (hg.2.2.2.1 r hr).1
  · rintro r k rfl; exact ⟨fun r' hr' => (hg.2.2.2.2 r' hr').1, hg.2.2.2.1⟩
  · rintro rfl; exact ⟨hg.2.2.2.2, hg.2.2.2.1⟩

/-- C77, rollback: every resource that has been started for, or has registered with, the
transaction is in the rollback request to the transaction manager; and if resources are rolled
back directly, no work has left the process, and when the call is over each of the resources has
been rolled back. -/
theorem C77_rollback_covers (e : Env) (as : List Act) (x : Xid) :
    (∀ post pre rs, (run e as).log = post ++ .tmRollback x rs :: pre →
      ∀ r, touched pre r x → r ∈ rs) ∧
    (∀ post pre r k, (run e as).log = post ++ .xa (.rollback r x) k :: pre →
      ∀ ev ∈ pre, leaves x ev = false) ∧
    (∀ r k, Event.xa (.rollback r x) k ∈ (run e as).log → ∀ r', touched (run e as).log r' x →
      ∃ k', Event.xa (.rollback r' x) k' ∈ (run e as).log) := by
  refine ⟨?_, ?_, fun r k hm r' ht => (W.run e as).full x r k hm r' ht⟩
  · intro post pre rs h r hr
    exact ((allGood e as h).2.2.2 r hr).1
  · intro post pre r k h
    exact (allGood e as h).2.2.2.2.1

/-! ### C78: no resource is associated with the transaction when it is decided -/

/-- C78: at every part of a decision, the last thing every resource of the transaction has seen
is a successful `xa_end( TMSUCCESS)`. -/
theorem C78_ended_first (e : Env) (as : List Act) (x : Xid) (post pre : List Event) (ev : Event)
    (h : (run e as).log = post ++ ev :: pre) (hd : commits x ev = true ∨ rollsBack x ev = true)
    (r : Rm) (hr : touched pre r x) : ended pre r x := by
  have hg := allGood e as h
  cases ev <;> try (simp [commits, rollsBack] at hd; done)
  case tmCommit y rs =>
    simp only [commits, rollsBack, decide_eq_true_eq, Bool.false_eq_true, or_false] at hd
    subst hd
    exact (hg.2.2.2.1 r hr).2
  case tmRollback y rs =>
    simp only [commits, rollsBack, decide_eq_true_eq, Bool.false_eq_true, false_or] at hd
    subst hd
    exact (hg.2.2.2 r hr).2
  case committed y =>
    simp only [commits, rollsBack, decide_eq_true_eq, Bool.false_eq_true, or_false] at hd
    subst hd
    exact absurd hr (hg.2.2.2.2 r)
  case xa op k =>
    cases op <;> try (simp [commits, rollsBack] at hd; done)
    case commit r' y =>
      simp only [commits, rollsBack, decide_eq_true_eq, Bool.false_eq_true, or_false] at hd
      subst hd
      exact (hg.2.2.2.2 r hr).2
    case rollback r' y =>
      simp only [commits, rollsBack, decide_eq_true_eq, Bool.false_eq_true, false_or] at hd
      subst hd
      exact hg.2.2.2.2.2 r hr

/-! ### C80: the transaction state in a reply -/

/-- The states of a reply and of `tx_info`: what a reply state means for the caller's
transaction (message/service.h:73-80 and xatmi/include/casual/tx.h: `TX_ACTIVE` 0,
`TX_TIMEOUT_ROLLBACK_ONLY` 1, `TX_ROLLBACK_ONLY` 2). -/
def meaning : ReplyState → Option Nat
  | 0 => some 0   -- ok: active
  | 1 => some 2   -- rollback: rollback only
  | 2 => some 1   -- timeout: timeout rollback only
  | _ => none

/-- The claim: after the reply to a single call in an active transaction, the transaction has the
state the callee reported. -/
def ReplyStateKept : Prop :=
  ∀ (t : Tran) (corr st s : Nat), t.state = 0 → meaning st = some s → (t.update corr st).state = s

/-- C80 does not hold: rollback and timeout are swapped by the cast. Through the public calls:
a transaction whose callee reports a rollback is seen as timed out. -/
theorem C80_refuted : ¬ ReplyStateKept ∧
    (current (run (okEnv [] []) [.begin 0, .sync false (some 1)])).state = 1 ∧
    (current (run (okEnv [] []) [.begin 0, .sync false (some 2)])).state = 2 := by
  refine ⟨?_, by decide +kernel, by decide +kernel⟩
  intro h
  have := h {} 0 1 2 rfl rfl
  simp [Tran.update, Tran.replied] at this

/-- C80, what holds: after a reply that is not ok to a call in `x`, `x` is not active for as long
as it exists (so by C76 it is never committed). -/
theorem C80_not_active_partial (e : Env) (as : List Act) (n corr st : Nat) (t : Tran)
    (ht : t ∈ (run e as).stack) (htx : t.trid = some (.mine n))
    (hc : Event.call corr (.mine n) ∈ (run e as).log)
    (hr : Event.replied corr st ∈ (run e as).log) (hst : st ≠ 0) : t.state ≠ 0 := by
  have := (W.run e as).inv.st t ht n corr st htx hc hr
  omega

/-! ### C81: the transaction timeout -/

/-- The claim: a timeout set with `tx_set_transaction_timeout` is used by every transaction begun
later, until it is changed. -/
def TimeoutStays : Prop :=
  ∀ (e : Env) (tmo now : Time) (as : List Act), tmo > 0 → (∀ t, Act.setTimeout t ∉ as) →
    ∀ x d, Event.began x d ∈ (run e (.setTimeout tmo :: as ++ [.begin now])).log →
      Event.began x d ∉ (run e (.setTimeout tmo :: as)).log → d = some (now + tmo)

/-- C81 does not hold: the second transaction after `tx_set_transaction_timeout` has no timeout. -/
theorem C81_refuted : ¬ TimeoutStays := by
  intro h
  have := h (okEnv [] []) 5 20 [.begin 10, .commit 12] (by decide)
    (by intro t ht; simp at ht)
    (.mine 1) none (by decide +kernel) (by decide +kernel)
  cases this

/-- The calls that do not begin a transaction by `tx_begin` and do not set the timeout. -/
def keepsTimeout : Act → Bool
  | .begin _ => false
  | .commit _ => false
  | .rollback _ => false
  | .setTimeout _ => false
  | _ => true

theorem stopAll_timeout (e : Env) (x f rs c) : (stopAll e x f rs c).1.timeout = c.timeout :=
  (stack_of_extends (stopAll_extends e x f rs c)).2.2.2.2.2.2.1

theorem startAll_timeout (e : Env) (x f a rs c) : (startAll e x f a rs c).1.timeout = c.timeout :=
  (stack_of_extends (startAll_extends e x f a rs c)).2.2.2.2.2.2.1

theorem setCurrent_timeout (f : Tran → Tran) (c : Ctx) : (setCurrent f c).timeout = c.timeout := by
  unfold setCurrent
  split
  · rfl
  · split <;> rfl

theorem resumeCurrent_timeout (e : Env) (a c) : (resumeCurrent e a c).1.timeout = c.timeout := by
  unfold resumeCurrent
  split
  · rfl
  · split
    · rfl
    · dsimp only; rw [startAll_timeout, setCurrent_timeout]

theorem callAndReply_timeout (b st c) : (callAndReply b st c).timeout = c.timeout := by
  have hc : ∀ b c, (call b c).timeout = c.timeout := by
    intro b c
    unfold call
    dsimp only
    split
    · split
      · rfl
      · show (setCurrent _ _).timeout = _
        rw [setCurrent_timeout]
    · rfl
  unfold callAndReply
  split
  · unfold reply
    split
    · exact hc b c
    · exact hc b c
  · unfold callFails
    dsimp only
    split
    · split
      · rfl
      · rw [setCurrent_timeout]
    · rfl

theorem doXa_timeout (e : Env) (op c) : (doXa e op c).1.timeout = c.timeout := rfl

theorem decide_timeout (e : Env) (b : Bool) (t c) :
    (commitOrRollback e b t c).1.timeout = c.timeout := by
  unfold commitOrRollback
  split
  · unfold commitT
    split
    · rfl
    · dsimp only
      split
      · exact stopAll_timeout _ _ _ _ _
      · split
        · split
          · exact stopAll_timeout _ _ _ _ _
          · unfold resourceCommit
            split
            · exact stopAll_timeout _ _ _ _ _
            · exact stopAll_timeout _ _ _ _ _
        · exact stopAll_timeout _ _ _ _ _
  · unfold rollbackT
    split
    · rfl
    · dsimp only
      split
      · exact stopAll_timeout _ _ _ _ _
      · split
        · rename_i x _ _ _
          refine accum_ind (P := fun c' => c'.timeout = c.timeout) ?_ _ _ (stopAll_timeout _ _ _ _ _)
          intro r _ c' hc'
          unfold resourceRollback
          split
          · exact hc'
          · exact hc'
        · exact stopAll_timeout _ _ _ _ _

theorem step_timeout (e : Env) (c : Ctx) (a : Act) (h : keepsTimeout a = true) :
    (step e c a).timeout = c.timeout := by
  cases a <;> try (simp [keepsTimeout] at h; done)
  case suspend =>
    unfold step suspend
    try dsimp only
    split
    · rfl
    · try dsimp only
      split
      · (try dsimp only); rw [stopAll_timeout, setCurrent_timeout]
      · (try dsimp only); rw [stopAll_timeout, setCurrent_timeout]
  case resume x =>
    unfold step resume
    try dsimp only
    split
    · rfl
    split
    · rfl
    split
    · rfl
    split
    · rfl
    split
    · rfl
    try dsimp only
    split
    · rfl
    · split
      · (try dsimp only); rw [startAll_timeout]
      · (try dsimp only); rw [startAll_timeout]
  case setControl => rfl
  case setReturn => rfl
  case reg r =>
    unfold step register
    try dsimp only
    split
    · rfl
    split
    · rfl
    split
    · rw [setCurrent_timeout]
    · split
      · dsimp only [emit]; rw [setCurrent_timeout]
      · split
        · rw [setCurrent_timeout]; dsimp only [emit]; rw [setCurrent_timeout]
        · dsimp only [emit]; rw [setCurrent_timeout]; dsimp only [emit]; rw [setCurrent_timeout]
  case unreg r =>
    unfold step unregister
    try dsimp only
    split
    · rfl
    split
    · rfl
    · (try dsimp only); rw [setCurrent_timeout]
  case join n =>
    unfold step join
    try dsimp only
    split
    · rfl
    · split
      · rfl
      · refine accum_ind (P := fun c' => c'.timeout = c.timeout) ?_ _ _ rfl
        intro r _ c' hc'
        exact hc'
  case start =>
    unfold step start
    try dsimp only
    split
    · rw [startAll_timeout]; rfl
    · (try dsimp only); rw [startAll_timeout]; rfl
  case branch n =>
    unfold step branch
    try dsimp only
    split
    · rfl
    · rw [startAll_timeout]; rfl
  case call b =>
    unfold step call
    try dsimp only
    split
    · split
      · rfl
      · dsimp only [emit]; rw [setCurrent_timeout]
    · rfl
  case reply corr st =>
    unfold step reply
    try dsimp only
    split <;> rfl
  case cancel corr =>
    unfold step cancel
    try dsimp only
    split
    · rfl
    split <;> rfl
  case callFails b => exact callAndReply_timeout b none c
  case sync b st =>
    unfold step sync
    try dsimp only
    split
    · rename_i x _
      have h0 : ((if (current c).involved ≠ [] then emit (.involve x (current c).involved) c else c) : Ctx).timeout = c.timeout := by
        split <;> rfl
      generalize (if (current c).involved ≠ [] then emit (.involve x (current c).involved) c else c) = c0 at h0 ⊢
      try dsimp only
      split
      · (try dsimp only); rw [stopAll_timeout, h0]
      · (try dsimp only); rw [resumeCurrent_timeout, callAndReply_timeout, stopAll_timeout, h0]
    · exact callAndReply_timeout _ _ _
  case external =>
    unfold step external
    try dsimp only
    split
    · dsimp only [emit]; rw [setCurrent_timeout]
    · rfl
  case finalize ok =>
    unfold step finalize
    try dsimp only
    have hl : (accum (commitOrRollback e ok)
        ((c.stack.reverse.filter (fun t => t.trid.isSome)).filter (·.own))
        (discardAll c.stack.reverse { c with stack := [] }, .ok)).1.timeout = c.timeout := by
      refine accum_ind (P := fun c' => c'.timeout = c.timeout) ?_ _ _ rfl
      intro t _ c' hc'
      rw [decide_timeout]; exact hc'
    split
    · exact hl
    · split
      · exact hl
      · rw [stopAll_timeout]; exact hl

theorem beginNew_began (e : Env) (now : Time) (c : Ctx) :
    Event.began (.mine c.next) (deadlineOf now c.timeout) ∈ (beginNew e now c).1.log := by
  unfold beginNew
  dsimp only
  have hx := beginStart_extends e (.mine c.next) e.fixed
    (emit (.began (.mine c.next) ((newTran c.next (deadlineOf now c.timeout)).involve e.fixed).deadline)
      { c with timeout := 0, next := c.next + 1 })
  have hm : Event.began (.mine c.next) (deadlineOf now c.timeout) ∈
      (beginStart e (.mine c.next) e.fixed (emit (.began (.mine c.next) ((newTran c.next (deadlineOf now c.timeout)).involve e.fixed).deadline)
      { c with timeout := 0, next := c.next + 1 })).1.log := by
    obtain ⟨evs, _, he⟩ := hx
    rw [he]
    exact List.mem_append_right _ List.mem_cons_self
  split
  · exact hm
  · obtain ⟨evs, _, he⟩ := beginStop_extends e (.mine c.next)
      (((beginStart e (.mine c.next) e.fixed (emit (.began (.mine c.next) ((newTran c.next (deadlineOf now c.timeout)).involve e.fixed).deadline)
      { c with timeout := 0, next := c.next + 1 })).2.filter (·.2)).map (·.1))
      (beginStart e (.mine c.next) e.fixed (emit (.began (.mine c.next) ((newTran c.next (deadlineOf now c.timeout)).involve e.fixed).deadline)
      { c with timeout := 0, next := c.next + 1 })).1
    rw [he]
    exact List.mem_append_right _ hm

/-- C81, what holds: the first `tx_begin` after `tx_set_transaction_timeout( tmo)` - whatever else
happens in between, short of commit and rollback (which may begin a transaction) - that is made
outside a transaction creates a transaction with the deadline `now + tmo`. -/
theorem C81_next_begin_partial (e : Env) (tmo now : Time) (before as : List Act) (ht : tmo > 0)
    (hk : ∀ a ∈ as, keepsTimeout a = true)
    (h0 : (current (run e (before ++ .setTimeout tmo :: as))).trid = none)
    (h1 : (current (run e (before ++ .setTimeout tmo :: as))).dynamic = []) :
    let c := run e (before ++ .setTimeout tmo :: as)
    Event.began (.mine c.next) (some (now + tmo)) ∈ (begin e now c).1.log := by
  have htm : (run e (before ++ .setTimeout tmo :: as)).timeout = tmo := by
    unfold run
    rw [List.foldl_append, List.foldl_cons]
    have hs : ∀ c : Ctx, (step e c (.setTimeout tmo)).timeout = tmo := by
      intro c
      show (setTimeout tmo c).1.timeout = tmo
      unfold setTimeout
      rw [if_neg (by exact Int.not_lt.mpr (Int.le_of_lt ht))]
    have : ∀ (as : List Act) (c : Ctx), (∀ a ∈ as, keepsTimeout a = true) →
        (as.foldl (step e) c).timeout = c.timeout := by
      intro as
      induction as with
      | nil => intro c _; rfl
      | cons a as ih =>
        intro c hk
        rw [List.foldl_cons, ih _ (fun b hb => hk b (List.mem_cons_of_mem _ hb)),
          step_timeout e c a (hk a List.mem_cons_self)]
    rw [this as _ hk, hs]
  dsimp only
  unfold begin
  rw [h0]
  dsimp only
  rw [if_neg (by simp [h1])]
  have := beginNew_began e now (run e (before ++ .setTimeout tmo :: as))
  rw [htm] at this
  unfold deadlineOf at this
  rw [if_pos ht] at this
  exact this

/-! ### non-vacuity -/

/-- Three resources (one dynamic that registers): a distributed commit. -/
example : ∃ pre, (run (okEnv [1, 2] [7]) [.begin 0, .reg 7, .commit 5]).log =
    .tmCommit (.mine 0) [1, 2, 7] :: pre ∧ touched pre 7 (.mine 0) ∧ ended pre 2 (.mine 0) := by
  refine ⟨(run (okEnv [1, 2] [7]) [.begin 0, .reg 7, .commit 5]).log.tail, by decide +kernel, ⟨.reg 7 (.mine 0), by decide +kernel, rfl⟩, .ok, by decide +kernel, Or.inl rfl⟩

/-- One resource and no calls: a one-phase commit. -/
example : Event.xa (.commit 1 (.mine 0)) .ok ∈ (run (okEnv [1] []) [.begin 0, .commit 5]).log := by
  decide +kernel

/-- Local rollback of two resources. -/
example : Event.xa (.rollback 2 (.mine 0)) .ok ∈ (run (okEnv [2, 1] []) [.begin 0, .rollback 5]).log := by
  decide +kernel

/-- A joined transaction in a service. -/
example : (current (run (okEnv [1] []) [.join (some 3)])).trid = some (.other 3 0) := by decide +kernel

/-- A call whose reply is outstanding, and one whose reply was a rollback. -/
example : Event.call 0 (.mine 0) ∈ (run (okEnv [1] []) [.begin 0, .call false]).log ∧
    Event.replied 0 1 ∈ (run (okEnv [1] []) [.begin 0, .call false, .reply 0 1]).log := by decide +kernel

/-- C81's hypotheses are met with work between the calls. -/
example : let c := run (okEnv [1] []) ([.join none] ++ .setTimeout 5 :: [.call false, .suspend])
    (current c).trid = none ∧ (current c).dynamic = [] ∧
    Event.began (.mine 0) (some 15) ∈ (begin (okEnv [1] []) 10 c).1.log := by decide +kernel

end Casual.Tx

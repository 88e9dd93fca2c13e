import Verif.Gateway.OutLeave
/-!
The properties of the outbound group (C90-C99). The statements are about `(run es).log`: all that
the process has received and sent, newest first, after the events `es`; they use the views
`live`, `told`, `used`, `outstanding`, `leaving`, `asks`, `answers`, `reported` and `answered` of
that log, which are defined without the state of the process.
-/
namespace Casual.Gateway.Out

/-! ### C90: answers to calls and queue requests -/

/-- In every history, also when connections and sends fail, there are never more answers than
requests, for each correlation. -/
theorem c90_at_most_one_answer (es : List Event) (c : Nat) :
    (run es).log.countP (answers c) ≤ (run es).log.countP (asks c) := by
  have h := bal_nonneg c es
  unfold bal at h; omega

/-- In every history, an answer goes to a process that has asked for it, and says what the other
domain has answered with that correlation, or that the connection the request was for is lost. -/
theorem c90_answer_is_due (es : List Event) (a b : List Obs) (ipc c : Nat) (k : Kind) (r : Rep)
    (h : (run es).log = a ++ .reply ipc c k r :: b) (hk : k = .call ∨ k = .enqueue ∨ k = .dequeue) :
    ∃ d g, .req d c ipc k g ∈ b ∧
      ((∃ d', .got d' c k r ∈ b) ∨ (.closed d ∈ b ∧ r = ⟨if k = .call then svcErr else 0, 0⟩)) := by
  have := whys_at (w_run es).good h
  rcases hk with rfl | rfl | rfl <;> exact this

/-- Nothing is sent to another domain that has not been asked for, on that connection. -/
theorem c90_sent_is_due (es : List Event) (a b : List Obs) (d c : Nat) (k : Kind) (g : Option Nat)
    (h : (run es).log = a ++ .tcp d c k g :: b) : live d b = true ∧ ∃ ipc, .req d c ipc k g ∈ b :=
  whys_at (w_run es).good h

/-- A call that is answered, a queue request that fails with the connection. -/
def ex90 : List Event :=
  [.connect 1 true, .call 1 10 7 3 (some 5) true, .enqueue 1 11 8 none true, .rCall 1 10 ⟨0, 42⟩, .broken 1]

example : (run ex90).log.countP (answers 10) = 1 ∧ (run ex90).log.countP (answers 11) = 1 ∧
    .reply 7 10 .call ⟨0, 42⟩ ∈ (run ex90).log ∧ .reply 8 11 .enqueue ⟨0, 0⟩ ∈ (run ex90).log := by decide +kernel

/-! ### C91: no request is forgotten -/

/-- The full statement: when all the connections that requests with the correlation were for are
gone, all of these are answered. -/
def NoneForgotten (es : List Event) : Prop :=
  ∀ c, (∀ d ipc k g, .req d c ipc k g ∈ (run es).log → live d (run es).log = false) →
    (run es).log.countP (answers c) = (run es).log.countP (asks c)

/-- It holds if no service call, queue request or hang up of a conversation fails when it is sent. -/
theorem c91_none_forgotten_partial (es : List Event) (hb : ∀ e ∈ es, brokenSend e = false) : NoneForgotten es := by
  intro c hc
  have h0 : bal c (run es) = 0 := bal_zero c es (fun e he => by
    have := hb e he
    cases e <;> first | rfl | skip
    rename_i ok; cases ok <;> simp_all [brokenSend, badHangup])
  have hok := (ok_run es hb).1
  have h1 : (run es).tasks.countP (busy c) = 0 := by
    rw [List.countP_eq_zero]
    intro t ht hbz
    simp only [busy, Bool.and_eq_true, beq_iff_eq] at hbz
    obtain ⟨g, hr, _⟩ := hok.asked t ht
    have hl := hc t.key t.ipc t.kind g (hbz.1 ▸ hr)
    rw [← hok.live, hok.keys t ht] at hl; cases hl
  unfold bal at h0
  omega

/-- It does not hold otherwise: a call to a connection of the current protocol version that fails
when it is sent is never answered; so is a queue request. -/
theorem c91_none_forgotten_refuted : ¬ ∀ es, NoneForgotten es := by
  intro h
  have := h [.connect 1 true, .call 1 10 7 3 none false] 10
    (by
      intro d ipc k g hm
      have e : (run [.connect 1 true, .call 1 10 7 3 none false]).log =
        [.lostMsg 1, .closed 1, .unadvertised 1, .req 1 10 7 .call none, .connected 1] := by decide +kernel
      rw [e] at hm ⊢
      simp only [List.mem_cons, reduceCtorEq, Obs.req.injEq, false_or, or_false, List.not_mem_nil] at hm
      rw [hm.1]; decide)
  revert this; decide +kernel

/-- The same for a queue request. -/
theorem c91_queue_refuted :
    ∃ es, (run es).log.countP (asks 10) = 1 ∧ (run es).log.countP (answers 10) = 0 ∧ live 1 (run es).log = false ∧
      .req 1 10 7 .dequeue none ∈ (run es).log :=
  ⟨[.connect 1 false, .dequeue 1 10 7 none false, .idle], by decide +kernel⟩

/-- When the hang up of a conversation fails, another process loses its request: the erased
element is not the conversation. -/
theorem c91_hangup_refuted :
    ∃ es, (run es).dead = false ∧ live 2 (run es).log = true ∧
      .tcp 2 11 .call none ∈ (run es).log ∧ .got 2 11 .call ⟨0, 42⟩ ∈ (run es).log ∧
      (run es).log.countP (asks 11) = 1 ∧ (run es).log.countP (answers 11) = 0 :=
  ⟨[.connect 1 true, .connect 2 true, .converse 1 10 7 3 none true, .call 2 11 8 4 none true,
    .hangup 1 10 false, .rCall 2 11 ⟨0, 42⟩], by decide +kernel⟩

example : (∀ e ∈ ex90, brokenSend e = false) ∧ live 1 (run ex90).log = false := by decide +kernel

/-! ### C92: the transaction manager knows which connections take part in a transaction -/

/-- After each event: if a request in a transaction has been sent on a connection, TM has been told
so, since the transaction was last ended and since the connection was last closed. -/
theorem c92_told_partial (es : List Event) (hb : ∀ e ∈ es, brokenSend e = false) (g d : Nat)
    (h : used g d (run es).log = true) : told g d (run es).log = true :=
  (ok_run es hb).2 g d h

/-- TM is told before the caller gets the answer. -/
theorem c92_told_before_answer_partial (es : List Event) (hb : ∀ e ∈ es, brokenSend e = false)
    (a b : List Obs) (ipc c : Nat) (k : Kind) (r : Rep)
    (h : (run es).log = a ++ .reply ipc c k r :: b) (hk : k = .call ∨ k = .enqueue ∨ k = .dequeue) :
    ∃ d g, .req d c ipc k g ∈ b ∧ ∀ g', g = some g' → .involved g' d ∈ b := by
  have := good_at (ok_run es hb).1.good h
  rcases hk with rfl | rfl | rfl <;> exact (by
    obtain ⟨d, g, h1, h2, _⟩ : ∃ d g, _ ∧ _ ∧ _ := this
    exact ⟨d, g, h1, h2⟩)

/-- But not before the request is sent to the other domain. -/
theorem c92_told_before_sent_refuted :
    ∃ es a b, (∀ e ∈ es, brokenSend e = false) ∧ (run es).log = a ++ .tcp 1 10 .call (some 5) :: b ∧
      told 5 1 b = false :=
  ⟨[.connect 1 true, .call 1 10 7 3 (some 5) true], [.involved 5 1],
    [.req 1 10 7 .call (some 5), .connected 1], by decide +kernel⟩

/-- When a send has failed, TM is not told about the next connection with the same descriptor: the
transaction is changed in the other domain, and TM does not know. -/
theorem c92_told_refuted :
    ∃ es, (run es).dead = false ∧ used 5 1 (run es).log = true ∧ told 5 1 (run es).log = false :=
  ⟨[.connect 1 true, .call 1 10 7 3 (some 5) false, .connect 1 true, .call 1 11 7 3 (some 5) true], by decide +kernel⟩

example : used 5 1 (run [.connect 1 true, .call 1 10 7 3 (some 5) true]).log = true := by decide +kernel

/-! ### C93: a connection that is closed on request has nothing outstanding -/

/-- When the process closes a connection by itself, there is nothing that has been sent on it and
that is not answered, and no conversation is going on. -/
theorem c93_graceful_partial (es : List Event) (hb : ∀ e ∈ es, badHangup e = false) (hd : Distinct es) (d : Nat)
    (h1 : live d (run es).log = true) (h2 : live d (run (es ++ [.idle])).log = false) (c : Nat) :
    outstanding d c (run es).log = false := by
  rw [run_snoc] at h2
  unfold step at h2
  split at h2
  · rw [h1] at h2; cases h2
  · have hl : LiveOk (apply .idle (run es)) := liveOk_apply (liveOk_run es)
    rw [← hl, show apply .idle (run es) = idle (run es) from rfl, idle_connected, liveOk_run es d, h1] at h2
    simp only [Bool.true_and, Bool.not_eq_false', Bool.and_eq_true] at h2
    have hi := h2.2
    simp only [isIdle, Bool.and_eq_true, Bool.not_eq_true', List.any_eq_false, beq_iff_eq] at hi
    cases ho : outstanding d c (run es).log with
    | false => rfl
    | true =>
      rcases kept_run es hb hd d c ho with ⟨t, ht, hk, _⟩ | ⟨e, he, hk, _⟩
      · exact absurd hk (hi.2 t ht)
      · exact absurd hk (hi.1.2 e he)

/-- And no transaction that it takes part in is still going on. -/
theorem c93_graceful_transactions_partial (es : List Event) (hb : ∀ e ∈ es, brokenSend e = false) (d : Nat)
    (h1 : live d (run es).log = true) (h2 : live d (run (es ++ [.idle])).log = false) (g : Nat) :
    used g d (run es).log = false := by
  rw [run_snoc] at h2
  unfold step at h2
  split at h2
  · rw [h1] at h2; cases h2
  · have hl : LiveOk (apply .idle (run es)) := liveOk_apply (liveOk_run es)
    rw [← hl, show apply .idle (run es) = idle (run es) from rfl, idle_connected, liveOk_run es d, h1] at h2
    simp only [Bool.true_and, Bool.not_eq_false', Bool.and_eq_true] at h2
    have hi := h2.2
    simp only [isIdle, Bool.and_eq_true, Bool.not_eq_true'] at hi
    cases ho : used g d (run es).log with
    | false => rfl
    | true =>
      have ht := (ok_run es hb).2 g d ho
      rw [← (ok_run es hb).1.told] at ht
      have := (transHas_iff d (run es).trans).mpr ⟨g, ht⟩
      rw [this] at hi; cases hi.1.1

/-- Conversely, a connection that is to be closed is closed as soon as there is nothing
outstanding and no transaction left (when all correlations differ). -/
theorem c93_closes_partial (es : List Event) (hb : ∀ e ∈ es, brokenSend e = false) (hd : AllDistinct es) (d : Nat)
    (ha : (run es).dead = false) (hl : leaving d (run es).log = true)
    (h1 : ∀ c, outstanding d c (run es).log = false) (h2 : ∀ g, told g d (run es).log = false) :
    live d (run (es ++ [.idle])).log = false := by
  have hr := real_run es hb hd
  have hok := ok_run es hb
  rw [run_snoc]
  unfold step
  rw [if_neg (by simp [ha])]
  have hl' : LiveOk (apply .idle (run es)) := liveOk_apply (liveOk_run es)
  rw [← hl', show apply .idle (run es) = idle (run es) from rfl, idle_connected]
  have e1 : (run es).disconnecting.any (·.1 == d) = true := by rw [← (lv_run es).eq]; exact hl
  have e2 : isIdle d (run es) = true := by
    simp only [isIdle, Bool.and_eq_true, Bool.not_eq_true', List.any_eq_false, beq_iff_eq]
    refine ⟨⟨?_, fun e he hk => ?_⟩, fun t ht hk => ?_⟩
    · cases hh : transHas d (run es).trans with
      | false => rfl
      | true =>
        obtain ⟨g, hg⟩ := (transHas_iff d _).mp hh
        rw [hok.1.told, h2] at hg; cases hg
    · have := hr.dest e he; rw [hk, h1] at this; cases this
    · have := hr.tasks t ht; rw [hk, h1] at this; cases this
  simp [e1, e2]

/-- When the hang up of a conversation has failed, a connection is closed although a call on it is
not answered. -/
theorem c93_graceful_refuted :
    ∃ es, Distinct es ∧ live 2 (run es).log = true ∧ live 2 (run (es ++ [.idle])).log = false ∧
      outstanding 2 11 (run es).log = true :=
  ⟨[.connect 1 true, .connect 2 true, .converse 1 10 7 3 none true, .call 2 11 8 4 none true,
    .hangup 1 10 false, .rDisconnect 2 true], by unfold Distinct; decide +kernel⟩

def ex93 : List Event :=
  [.connect 1 true, .call 1 10 7 3 (some 5) true, .commit 1 12 9 true, .rDisconnect 1 true, .idle, .rCall 1 10 ⟨0, 1⟩,
    .rCommit 1 12 ⟨0, 0⟩, .disassociate 5]

example : (∀ e ∈ ex93, brokenSend e = false) ∧ AllDistinct ex93 ∧ (run ex93).dead = false ∧
    live 1 (run ex93).log = true ∧ leaving 1 (run ex93).log = true ∧
    live 1 (run (ex93 ++ [.idle])).log = false := by unfold AllDistinct; decide +kernel

example : outstanding 1 10 (run (ex93.take 5)).log = true ∧ live 1 (run (ex93.take 5)).log = true := by decide +kernel

/-! ### C94: shutdown -/

/-- The process ends only when nothing is outstanding, on any connection. -/
theorem c94_ends_when_done_partial (es : List Event) (hb : ∀ e ∈ es, badHangup e = false) (hd : Distinct es)
    (h : done (run es) = true) (d c : Nat) : outstanding d c (run es).log = false := by
  simp only [done, Bool.and_eq_true, List.isEmpty_iff] at h
  cases ho : outstanding d c (run es).log with
  | false => rfl
  | true =>
    rcases kept_run es hb hd d c ho with ⟨t, ht, _⟩ | ⟨e, he, _⟩
    · rw [h.1.1.2] at ht; cases ht
    · rw [h.2] at he; cases he

/-- ... and every call and queue request has been answered. -/
theorem c94_all_answered_partial (es : List Event) (hb : ∀ e ∈ es, badHangup e = false)
    (h : done (run es) = true) (c : Nat) : (run es).log.countP (answers c) = (run es).log.countP (asks c) := by
  simp only [done, Bool.and_eq_true, List.isEmpty_iff] at h
  have h0 := bal_zero c es hb
  unfold bal at h0
  rw [h.1.1.2] at h0
  simp at h0; omega

/-- After `shutdown` it does end, when nothing is outstanding, and no transaction is left. -/
theorem c94_ends_partial (es : List Event) (hb : ∀ e ∈ es, brokenSend e = false) (hd : AllDistinct es)
    (hs : (run es).running = false)
    (h1 : ∀ d c, outstanding d c (run es).log = false) (h2 : ∀ g d, told g d (run es).log = false) :
    done (run es) = true := by
  have hr := real_run es hb hd
  have hok := ok_run es hb
  have e1 : (run es).tasks = [] := by
    cases ht : (run es).tasks with
    | nil => rfl
    | cons t ts => have := hr.tasks t (by rw [ht]; exact List.mem_cons_self ..); rw [h1] at this; cases this
  have e2 : (run es).dest = [] := by
    cases ht : (run es).dest with
    | nil => rfl
    | cons t ts => have := hr.dest t (by rw [ht]; exact List.mem_cons_self ..); rw [h1] at this; cases this
  have e3 : (run es).trans = [] := trans_empty (full_run es) (fun g d => by rw [hok.1.told, h2])
  simp [done, hs, e1, e2, e3]

/-- The process does not terminate unless a connection is told to close twice. -/
theorem c94_alive_partial (es : List Event) (hb : ∀ e ∈ es, badHangup e = false) (ha : NoAgain es) :
    (run es).dead = false := (alive_run es hb ha).alive

/-- If the other domain wants to disconnect and then this domain shuts down, the process terminates
(so does it if the other domain says so twice). -/
theorem c94_alive_refuted : (run [.connect 1 true, .rDisconnect 1 true, .shutdown, .idle]).dead = true ∧
    (run [.connect 1 true, .rDisconnect 1 true, .rDisconnect 1 true, .idle]).dead = true := by decide +kernel

/-- A call that could not be sent keeps the process from ending. -/
theorem c94_ends_refuted : ∃ es, AllDistinct es ∧ (run es).dead = false ∧ (run es).running = false ∧
    (∀ d < 5, live d (run es).log = false) ∧ done (run es) = false :=
  ⟨[.connect 1 true, .call 1 10 7 3 none false, .shutdown, .idle], by unfold AllDistinct; decide +kernel⟩

/-- So does a conversation that the other domain has refused. -/
theorem c94_refused_conversation_refuted : ∃ es, AllDistinct es ∧ (∀ e ∈ es, brokenSend e = false) ∧
    (run es).running = false ∧ (run es).dead = false ∧ .reply 7 10 .conv ⟨noEntry, 0⟩ ∈ (run es).log ∧
    done (run es) = false ∧ live 1 (run es).log = true :=
  ⟨[.connect 1 true, .converse 1 10 7 3 none true, .rConnect 1 10 ⟨noEntry, 0⟩, .shutdown, .idle],
    by unfold AllDistinct; decide +kernel⟩

example : done (run (ex93 ++ [.idle, .shutdown])) = true ∧ (run (ex93 ++ [.idle, .shutdown])).dead = false := by decide +kernel

/-! ### C95: conversations -/

/-- What comes to a local process in a conversation is for a conversation it has asked for. -/
theorem c95_to_the_requester (es : List Event) (a b : List Obs) (ipc c data : Nat) (t : Bool)
    (h : (run es).log = a ++ .toLocal ipc c data t :: b) : ∃ d g, .req d c ipc .conv g ∈ b :=
  whys_at (w_run es).good h

/-- And so is the answer to the request to connect. -/
theorem c95_connected_to_the_requester (es : List Event) (a b : List Obs) (ipc c : Nat) (r : Rep)
    (h : (run es).log = a ++ .reply ipc c .conv r :: b) :
    ∃ d g, .req d c ipc .conv g ∈ b ∧ ∃ d', .got d' c .conv r ∈ b :=
  whys_at (w_run es).good h

/-- A process in a conversation is not told when the connection is lost: no answer, no message. -/
theorem c95_lost_refuted : ∃ es, .req 1 10 7 .conv none ∈ (run es).log ∧ live 1 (run es).log = false ∧
    (run es).tasks = [] ∧ (∀ o ∈ (run es).log, ∀ r data t, o ≠ .reply 7 10 .conv r ∧ o ≠ .toLocal 7 10 data t) := by
  refine ⟨[.connect 1 true, .converse 1 10 7 3 none true, .broken 1], by decide +kernel, by decide +kernel, by decide +kernel, ?_⟩
  have e : (run [.connect 1 true, .converse 1 10 7 3 none true, .broken 1]).log =
    [.lostMsg 1, .closed 1, .unadvertised 1, .tcp 1 10 .conv none, .req 1 10 7 .conv none, .connected 1] := by decide +kernel
  rw [e]
  intro o ho r data t
  simp only [List.mem_cons, List.not_mem_nil, or_false] at ho
  rcases ho with rfl | rfl | rfl | rfl | rfl | rfl <;> simp

example : .toLocal 7 10 5 true ∈ (run [.connect 1 true, .converse 1 10 7 3 none true, .rConnect 1 10 ⟨0, 0⟩, .rSay 1 10 5 true]).log := by
  decide +kernel

/-! ### C96: a call that comes back is refused -/

/-- A call whose correlation is in flight in this process, on any connection, is refused, and not sent. -/
theorem c96_refused_partial (es : List Event) (hb : ∀ e ∈ es, badHangup e = false) (hd : Distinct es)
    (hv : ∀ x ∈ es, asksVia x ≠ some c)
    (d d' ipc sv : Nat) (g : Option Nat) (ok : Bool) (ha : (run es).dead = false)
    (ho : outstanding d' c (run es).log = true) (hl : live d (run es).log = true) :
    ∃ p, (run (es ++ [.call d c ipc sv g ok])).log = p ++ .refused ipc c :: .req d c ipc .call g :: (run es).log ∧
      ∀ o ∈ p, ∃ m, o = .metrics m := by
  rw [run_snoc]; unfold step; rw [if_neg (by simp [ha])]
  have hc : connected d (run es) = true := by rw [liveOk_run es]; exact hl
  have ht : ∃ t ∈ (run es).tasks, t.corr = c := by
    rcases kept_run es hb hd d' c ho with ⟨t, ht, _, h⟩ | ⟨e, he, _, h⟩
    · exact ⟨t, ht, h⟩
    · have := dest_run es e he
      rw [h] at this
      obtain ⟨x, hx, hx'⟩ := List.mem_filterMap.mp this
      exact absurd hx' (hv x hx)
  have hany : (run es).tasks.any (·.corr == c) = true := by
    obtain ⟨t, h1, h2⟩ := ht
    exact List.any_eq_true.mpr ⟨t, h1, by simp [h2]⟩
  simp only [apply, on, hc, if_true, call, emit_tasks, hany]
  rcases metric_log c .call (emit (.refused ipc c) (emit (.req d c ipc .call g) (run es))) with h | ⟨m, h⟩
  · exact ⟨[], by rw [h]; rfl, by simp⟩
  · exact ⟨[.metrics m], by rw [h]; rfl, by simp⟩

/-- All other calls are sent, if the connection does not fail. -/
theorem c96_sent_partial (es : List Event) (hb : ∀ e ∈ es, brokenSend e = false) (hd : AllDistinct es)
    (c d ipc sv : Nat) (g : Option Nat) (ha : (run es).dead = false)
    (ho : ∀ d', outstanding d' c (run es).log = false) (hl : live d (run es).log = true) :
    .tcp d c .call g ∈ (run (es ++ [.call d c ipc sv g true])).log ∧
    (run (es ++ [.call d c ipc sv g true])).log.countP (fun o => o == .refused ipc c) = (run es).log.countP (fun o => o == .refused ipc c) := by
  rw [run_snoc]; unfold step; rw [if_neg (by simp [ha])]
  have hc : connected d (run es) = true := by rw [liveOk_run es]; exact hl
  have hr := real_run es hb hd
  have hany : ¬ ((run es).tasks.any (·.corr == c) = true) := by
    intro h
    obtain ⟨t, ht, htc⟩ := List.any_eq_true.mp h
    have := hr.tasks t ht
    rw [show t.corr = c by simpa using htc, ho] at this; cases this
  have h' : connected d (emit (.req d c ipc .call g) (run es)) = true := hc
  obtain ⟨x, hx, _⟩ := find_conn h'
  simp only [apply, on, hc, if_true, call, emit_tasks, hany, if_false, hx, Bool.false_eq_true]
  have hi : ∀ s, .tcp d c .call g ∈ s.log → .tcp d c .call g ∈ (involve g d s).log := by
    intro s hs; unfold involve; split
    · exact hs
    · dsimp only; split
      · split
        · exact List.mem_cons_of_mem _ hs
        · exact hs
      · exact hs
  have hj : ∀ s, (involve g d s).log.countP (fun o => o == .refused ipc c) = s.log.countP (fun o => o == .refused ipc c) := by
    intro s; unfold involve; split
    · rfl
    · dsimp only; split
      · split
        · simp
        · rfl
      · rfl
  split
  · simp only [send, h', if_true]
    refine ⟨hi _ (List.mem_cons_self ..), ?_⟩
    rw [hj]; simp
  · have h2 : connected d (involve g d (addTask ⟨d, c, ipc, .call, sv⟩ (emit (.req d c ipc .call g) (run es)))) = true := by
      rw [inv_connected]; exact hc
    simp only [send, h2, if_true]
    refine ⟨List.mem_cons_self .., ?_⟩
    rw [emit_log, List.countP_cons, hj]; simp

example : .refused 9 10 ∈ (run [.connect 1 true, .connect 2 true, .call 1 10 7 3 none true, .call 2 10 9 3 none true]).log ∧
    outstanding 1 10 (run [.connect 1 true, .connect 2 true, .call 1 10 7 3 none true]).log = true := by decide +kernel

/-! ### C97: prepare, commit and rollback -/

/-- An answer goes to a process that has asked the other domain to prepare, commit or rollback (or
for a discovery), and says what the other domain has answered. -/
theorem c97_answer_is_due (es : List Event) (a b : List Obs) (ipc c : Nat) (k : Kind) (r : Rep)
    (h : (run es).log = a ++ .reply ipc c k r :: b) (hk : k = .prepare ∨ k = .commit ∨ k = .rollback) :
    ∃ d k' g, .req d c ipc k' g ∈ b ∧ viaDest k' = true ∧ ∃ d', .got d' c k r ∈ b := by
  have := whys_at (w_run es).good h
  rcases hk with rfl | rfl | rfl <;> exact (by
    obtain ⟨d, k', g, h1, h2, h3⟩ : ∃ d k' g, _ ∧ _ ∧ _ := this
    rcases h3 with h3 | ⟨h3, _⟩
    · exact ⟨d, k', g, h1, h2, h3⟩
    · cases h3)

/-- If the connection is lost, TM gets no answer to its request to commit (it is only told that the
device is gone). -/
theorem c97_lost_refuted : ∃ es, .tcp 1 12 .commit none ∈ (run es).log ∧ live 1 (run es).log = false ∧
    done (run (es ++ [.shutdown])) = true ∧ (run es).log.countP (fun o => match o with | .reply _ 12 _ _ => true | _ => false) = 0 :=
  ⟨[.connect 1 true, .commit 1 12 9 true, .broken 1], by decide +kernel⟩

example : .reply 9 12 .commit ⟨0, 0⟩ ∈ (run ex93).log := by decide +kernel

/-! ### C98: what other domains offer -/

/-- What is advertised is what the other domain has said that it has, one hop further away, and the
connection is there. -/
theorem c98_advertised (es : List Event) (a b : List Obs) (d : Nat) (sv : List (Nat × Nat))
    (h : (run es).log = a ++ .advertised d sv :: b) :
    live d b = true ∧ ∃ sv' q, .found d sv' q ∈ b ∧ sv = sv'.map fun x => (x.1, x.2 + 1) :=
  whys_at (w_run es).good h

theorem c98_advertised_queues (es : List Event) (a b : List Obs) (d : Nat) (q : List Nat)
    (h : (run es).log = a ++ .advertisedQ d q :: b) : live d b = true ∧ ∃ sv, .found d sv q ∈ b :=
  whys_at (w_run es).good h

/-- What a connection offers, newest first. -/
def offers (d : Nat) : List Obs → Bool
  | [] => false
  | .advertised d' _ :: l => d' == d || offers d l
  | .advertisedQ d' _ :: l => d' == d || offers d l
  | .unadvertised d' :: l => d' != d && offers d l
  | _ :: l => offers d l

theorem offers_neutral (d) : Neutral (offers d) := ⟨fun _ _ => rfl, fun _ _ _ _ _ => rfl⟩

/-- A connection that is gone offers nothing, in any history. -/
theorem c98_gone (es : List Event) (d : Nat) (h : offers d (run es).log = true) : live d (run es).log = true := by
  have key : ∀ l, Whys l → offers d l = true → live d l = true := by
    intro l
    induction l with
    | nil => intro _ h; simp [offers] at h
    | cons o l ih =>
      intro hw h
      cases o <;> simp only [offers] at h <;> simp only [live] <;> first | exact ih hw.2 h | skip
      · exact Bool.or_eq_true _ _ ▸ Or.inr (ih hw.2 h)
      · rename_i d'
        obtain ⟨l', rfl⟩ : ∃ l', l = .unadvertised d' :: l' := hw.1
        have h' := ih hw.2 h
        simp only [offers, Bool.and_eq_true] at h
        rw [h', h.1]; rfl
      · simp only [Bool.or_eq_true, beq_iff_eq] at h
        rcases h with rfl | h
        · exact hw.1.1
        · exact ih hw.2 h
      · simp only [Bool.or_eq_true, beq_iff_eq] at h
        rcases h with rfl | h
        · exact hw.1.1
        · exact ih hw.2 h
      · rw [Bool.and_eq_true] at h; exact ih hw.2 h.2
  exact key _ (w_run es).good h

/-- A connection that is to be closed may be advertised again, and is used by SM until it is gone:
the answer to a discovery came after all it offers was withdrawn. -/
theorem c98_leaving_refuted : ∃ es, (∀ e ∈ es, brokenSend e = false) ∧ (run es).dead = false ∧
    leaving 1 (run es).log = true ∧ offers 1 (run es).log = true :=
  ⟨[.connect 1 true, .discover 1 12 9 true, .rDisconnect 1 true, .rDiscover 1 12 [(3, 0)] [] ⟨0, 0⟩], by decide +kernel⟩

example : .advertised 1 [(3, 1)] ∈ (run [.connect 1 true, .discover 1 12 9 true, .rDiscover 1 12 [(3, 0)] [] ⟨0, 0⟩]).log := by
  decide +kernel

/-! ### C99: metrics -/

/-- Every answered call is reported to SM once, or is about to be. -/
theorem c99_reported (es : List Event) (c : Nat) :
    answered c (run es).log = reported c (run es).log + (run es).pending.count (c, .call) := by
  have := mis_run c es
  unfold missing at this; omega

/-- When the process is idle, all have been. -/
theorem c99_idle (es : List Event) (c : Nat) (ha : (run es).dead = false) :
    answered c (run (es ++ [.idle])).log = reported c (run (es ++ [.idle])).log := by
  have h := c99_reported (es ++ [.idle]) c
  have e : (run (es ++ [.idle])).pending = [] := by
    rw [run_snoc]; unfold step; rw [if_neg (by simp [ha])]
    simp only [apply, idle, forceMetric]
    split
    · rename_i hp; exact List.isEmpty_iff.mp hp
    · rfl
  rw [e] at h; simpa using h

example : answered 10 (run ex90).log = 1 ∧ reported 10 (run ex90).log = 0 ∧
    reported 10 (run (ex90 ++ [.idle])).log = 1 := by decide +kernel

end Casual.Gateway.Out

import Verif.Gateway.InProps
/-! The properties of the inbound group, continued (C104-C108). -/
namespace Casual.Gateway.In

/-! ### C104: prepare, commit and rollback -/

/-- In every history, a prepare, commit or rollback that is sent to TM is one that a connection that is
there has asked for, and is for a branch that TM has given, of the same global transaction. -/
theorem c104_mapped (es : List Event) (a b : List Obs) (c d : Nat) (k : Kind) (t : Trid)
    (h : (run es).log = a ++ .toTM c k t d :: b) :
    live d b = true ∧ ∃ x, .req d c k (some x) ∈ b ∧ t.g = x.g ∧ ∃ c', .gotBranch c' t ∈ b :=
  whys_at (w_run es).good h

theorem find_has {g d : Nat} {cs : List Assoc} (h : Has g d cs) : ∃ t, find g cs = some t := by
  obtain ⟨a, ha, hg, _⟩ := h
  cases hf : find g cs with
  | some t => exact ⟨t, rfl⟩
  | none => exact absurd hg (find_none hf a ha)

/-- If a request of the connection has been passed on in a transaction, the connection has not been
closed since, and TM has not been done with the transaction since: then a prepare, commit or
rollback of that connection is sent to TM at once. -/
theorem c104_reaches_tm_partial (es : List Event) (he : ∀ e ∈ es, sound e = true) (ha : (run es).dead = false)
    (ipc c d : Nat) (k : Kind) (u : Trid) (hf : .fwd ipc c k (some u) d ∈ (run es).log) (hq : quiet d c u.g (run es).log = true)
    (k' : Kind) (hk : isResource k' = true) (c' : Nat) (x : Trid) (hx : x.g = u.g) (qm : Bool) (hl : live d (run es).log = true) :
    ∃ t, t.g = x.g ∧ (run (es ++ [.request k' d c' (some x) qm])).log = .toTM c' k' t d :: .req d c' k' (some x) :: (run es).log := by
  have hw := w_run es
  obtain ⟨t, ht⟩ := find_has ((tied_run es he ha).logs ipc c k u d hf hq)
  obtain ⟨b, hb, e1, e2⟩ := find_some ht
  refine ⟨t, by rw [← e2, (hw.cache b hb).1, e1, hx], ?_⟩
  rw [run_snoc_alive _ ha]
  simp only [apply, on]
  rw [if_pos (by rw [hw.live]; exact hl)]
  have : request k' d c' (some x) qm (emit (.req d c' k' (some x)) (run es)) =
      resourceRequest k' d c' (some x) (emit (.req d c' k' (some x)) (run es)) := by
    cases k' <;> first | rfl | (cases hk; done)
  rw [this]
  unfold resourceRequest
  simp only [Option.bind_some, emit_cache, hx, ht]
  rfl

/-- The full statement: if TM has given a branch of the transaction for a request of the connection,
and is not done with it, and the connection has not been closed, a prepare is sent to TM. -/
def Reaches (es : List Event) : Prop :=
  ∀ d c k x u c', .req d c k (some x) ∈ (run es).log → .gotBranch c u ∈ (run es).log → u.g = x.g →
    quiet d c u.g (run es).log = true → ∃ t, .toTM c' .prepare t d ∈ (run (es ++ [.request .prepare d c' (some x) true])).log

/-- It does not hold if SM says that there is no service before TM has given the branch: TM has the
branch, and the prepare is answered with a protocol error. -/
theorem c104_reaches_tm_refuted : ¬ ∀ es, (∀ e ∈ es, sound e = true) → Reaches es := by
  intro h
  let es : List Event := [.connect 1 true, .request .call 1 10 (some ⟨5, 1⟩) true, .service 1 10 .absent, .own 0 true, .branch 1 10 ⟨5, 100⟩]
  obtain ⟨t, ht⟩ := h es (by simp [es, sound]) 1 10 .call ⟨5, 1⟩ ⟨5, 100⟩ 11 (by decide +kernel) (by decide +kernel) rfl (by decide +kernel)
  have e : (run (es ++ [.request .prepare 1 11 (some ⟨5, 1⟩) true])).log =
    .fake 1 11 .prepare ⟨protocolError, 0⟩ :: .req 1 11 .prepare (some ⟨5, 1⟩) :: (run es).log := by decide +kernel
  rw [e] at ht
  have e' : (run es).log = [.gotBranch 10 ⟨5, 100⟩, .sent 1 10 .call ⟨noEntry, 0⟩ none, .fake 1 10 .call ⟨noEntry, 0⟩,
    .gotService 10 .absent, .askBranch 1 10 5, .askService 1 10, .req 1 10 .call (some ⟨5, 1⟩), .connected 1] := by decide +kernel
  rw [e'] at ht
  simp at ht

/-- "The answer to a prepare, commit or rollback is for the transaction id of the request". -/
def AnswersTheId (es : List Event) : Prop :=
  ∀ a b d c k r x y, isResource k = true → (run es).log = a ++ .sent d c k r y :: b → .req d c k x ∈ b → y = x

/-- It does not hold: the answer is for the id of TM. (handle_transaction captures the id after it has
replaced it.) -/
theorem c104_external_id_refuted : ¬ ∀ es, (∀ e ∈ es, sound e = true) → Distinct (run es).log → AnswersTheId es := by
  intro h
  let es : List Event := [.connect 1 true, .request .call 1 10 (some ⟨5, 1⟩) true, .service 1 10 (.idle 7), .branch 1 10 ⟨5, 100⟩,
    .answer 1 10 .call ⟨0, 1⟩ true, .request .prepare 1 11 (some ⟨5, 1⟩) true, .answer 1 11 .prepare ⟨0, 0⟩ true]
  have e : (run es).log = [] ++ .sent 1 11 .prepare ⟨0, 0⟩ (some ⟨5, 100⟩) :: (run es).log.tail := by decide +kernel
  have := h es (by simp [es, sound, isResource]) (by unfold Distinct; decide +kernel) _ _ 1 11 .prepare ⟨0, 0⟩ (some ⟨5, 1⟩) _ rfl e
    (by decide +kernel)
  cases this

/-- What holds: it is the id of the request, or one of the same global transaction that TM has given. -/
theorem c104_answer_id_partial (es : List Event) (a b : List Obs) (d c : Nat) (k : Kind) (r : Rep) (y : Option Trid)
    (hk : isResource k = true) (h : (run es).log = a ++ .sent d c k r y :: b) (hD : Distinct b) (hT : Honest b) :
    ∃ x, .req d c k x ∈ b ∧ (y = x ∨ ∃ x' u, x = some x' ∧ y = some u ∧ u.g = x'.g ∧ ∃ c', .gotBranch c' u ∈ b) := by
  obtain ⟨_, h2⟩ := whys_at (w_run es).good h
  rw [if_neg (by rintro rfl; cases hk), if_pos hk] at h2
  obtain ⟨⟨x, h3, h4⟩, _⟩ := h2
  refine ⟨x, h3, ?_⟩
  rcases h4 with h4 | ⟨rfl, rfl⟩ | ⟨u, rfl, h4 | ⟨x', rfl, h5, c', h6⟩⟩
  · exact Or.inl h4
  · exact Or.inl rfl
  · obtain ⟨d', k', x', h5, h6⟩ := hT c u h4
    obtain ⟨_, _, rfl⟩ := same_req hD h3 h5
    exact Or.inr ⟨x', u, rfl, rfl, h6.symm, c, h4⟩
  · exact Or.inr ⟨x', u, rfl, rfl, h5, c', h6⟩

/-- Calls of two connections in one transaction, that is prepared and committed. -/
def ex104 : List Event :=
  [.connect 1 true, .connect 2 true, .request .call 1 10 (some ⟨5, 1⟩) true, .service 1 10 (.idle 7), .branch 1 10 ⟨5, 100⟩,
   .request .call 2 11 (some ⟨5, 2⟩) true, .service 2 11 (.idle 8)]

example : (∀ e ∈ ex104, sound e = true) ∧ (run ex104).dead = false ∧ .fwd 8 11 .call (some ⟨5, 100⟩) 2 ∈ (run ex104).log ∧
    quiet 2 11 5 (run ex104).log = true ∧ live 2 (run ex104).log = true := by decide +kernel

/-! ### C105: lookups of a lost connection -/

/-- At each time, a lookup that has been asked for and has not been answered or ended is for a
connection that is there: when a connection is lost, SM is told to forget all that it has been asked
for it. -/
theorem c105_no_lookup_is_left_partial (es : List Event) (he : ∀ e ∈ es, sound e = true) (ha : (run es).dead = false) (d c : Nat)
    (h : needs d c (run es).log = true) : live d (run es).log = true := by
  obtain ⟨t, ht, rfl, rfl, _, _⟩ := needed_run es he ha d c h
  have hw := w_run es
  rw [← hw.live]; exact hw.keys t ht

/-- SM is only told so for lookups that have been asked for, for a connection that is lost. -/
theorem c105_discard_is_due (es : List Event) (a b : List Obs) (c : Nat) (h : (run es).log = a ++ .discard c :: b) :
    ∃ d, .askService d c ∈ b ∧ .closed d ∈ b := whys_at (w_run es).good h

def ex105 : List Event := [.connect 1 true, .connect 2 true, .request .call 1 10 none true, .request .call 2 11 none true,
  .request .conv 1 12 none true, .service 1 12 (.idle 3)]

example : needs 1 10 (run ex105).log = true ∧ needs 2 11 (run ex105).log = true ∧ needs 1 12 (run ex105).log = false ∧
    .discard 10 ∈ (run (ex105 ++ [.broken 1])).log ∧ .discard 11 ∉ (run (ex105 ++ [.broken 1])).log ∧
    needs 1 10 (run (ex105 ++ [.broken 1])).log = false ∧ needs 2 11 (run (ex105 ++ [.broken 1])).log = true := by decide +kernel

/-! ### C106: a connection is closed when it is done -/

/-- The events at which the group closes a connection by itself, because the other domain has said
that it is to be closed. -/
def leaves (e : Event) : Prop := (∃ d, e = .closing d) ∨ e = .idle

theorem fold_lost_of {xs : List Nat} {s : State} {d : Nat} (h : connected d s = true)
    (h' : connected d (xs.foldl (fun s d => lost d s) s) = false) : d ∈ xs := by
  induction xs generalizing s with
  | nil => rw [show connected d (([] : List Nat).foldl (fun s d => lost d s) s) = connected d s from rfl, h] at h'; cases h'
  | cons x xs ih =>
    by_cases e : d = x
    · rw [e]; exact List.mem_cons_self ..
    · refine List.mem_cons_of_mem _ (ih (s := lost x s) ?_ h')
      rw [lost_connected, h, Bool.true_and]; simpa using e

theorem leave_disconnectable {s : State} {e : Event} {d : Nat} (hl : leaves e) (h : connected d s = true)
    (h' : connected d (apply e s) = false) : disconnectable d s = true := by
  rcases hl with ⟨d', rfl⟩ | rfl
  · simp only [apply, on] at h'
    split at h'
    · unfold closing at h'
      split at h'
      · rename_i hd
        rw [lost_connected, emit_connected, h, Bool.true_and] at h'
        have : d = d' := by simpa using h'
        subst this; exact hd
      · have : connected d s = false := h'
        rw [h] at this; cases this
    · rw [h] at h'; cases h'
  · exact (List.mem_filter.mp (fold_lost_of (s := { s with pending := s.pending.filter fun d => !disconnectable d s }) h h')).2

/-- When the group closes a connection by itself, no call, conversation, prepare, commit or rollback of
that connection is without an answer, and TM is done with each transaction in which a request of that
connection has been passed on. -/
theorem c106_closed_when_done_partial (es : List Event) (he : ∀ e ∈ es, sound e = true) (ha : (run es).dead = false)
    (e : Event) (hl : leaves e) (d : Nat) (h : live d (run es).log = true) (h' : live d (run (es ++ [e])).log = false) :
    (∀ c k, keeps k = true → out d c k (run es).log = false) ∧
    (∀ ipc c k u, .fwd ipc c k (some u) d ∈ (run es).log → quiet d c u.g (run es).log = false) := by
  have hd : disconnectable d (run es) = true := by
    refine leave_disconnectable hl (by rw [(w_run es).live]; exact h) ?_
    rw [← run_snoc_alive e ha, (w_run _).live]; exact h'
  simp only [disconnectable, Bool.and_eq_true, Bool.not_eq_true', List.any_eq_false, associated] at hd
  refine ⟨fun c k hk => ?_, fun ipc c k u hf => ?_⟩
  · cases ho : out d c k (run es).log with
    | false => rfl
    | true =>
      obtain ⟨t, ht, h1, _⟩ := kept_run es he ha d c k hk ho
      exact absurd (by simpa using h1) (hd.2 t ht)
  · cases hq : quiet d c u.g (run es).log with
    | false => rfl
    | true =>
      obtain ⟨a, h1, _, h2⟩ := (tied_run es he ha).logs ipc c k u d hf hq
      exact absurd (by simpa using h2) (hd.1 a h1)

/-- The full statement is for all requests. -/
def ClosedWhenDone (es : List Event) : Prop :=
  ∀ e d, leaves e → live d (run es).log = true → live d (run (es ++ [e])).log = false → ∀ c k, out d c k (run es).log = false

/-- It does not hold for queue requests (and discovery): an enqueue that is passed on, and not answered,
does not keep the connection. -/
theorem c106_queue_refuted : ¬ ∀ es, (∀ e ∈ es, sound e = true) → ClosedWhenDone es := by
  intro h
  have := h [.connect 1 true, .request .enqueue 1 10 none true, .queueAt 1 10 (some 7)] (by simp [sound]) (.closing 1) 1
    (Or.inl ⟨1, rfl⟩) (by decide +kernel) (by decide +kernel) 10 .enqueue
  revert this; decide +kernel

/-- The other way: when the other domain has said that the connection is to be closed, nothing of it is
without an answer, all its queue requests have been passed on, and TM is done with all transactions,
then the connection is closed when the group is idle. -/
theorem c106_closes_partial (es : List Event) (he : ∀ e ∈ es, sound e = true) (ha : (run es).dead = false)
    (hD : Distinct (run es).log) (d : Nat) (hl : live d (run es).log = true) (hc : 1 ≤ closings d (run es).log)
    (ho : ∀ c k, keeps k = true → out d c k (run es).log = false)
    (hq : ∀ c k x, isQueue k = true → .req d c k x ∈ (run es).log → ∃ ipc k' x' d', .fwd ipc c k' x' d' ∈ (run es).log)
    (ht : ∀ g, opened g (run es).log = false) : live d (run (es ++ [.idle])).log = false := by
  have hw := w_run es
  have hr := real_run es he ha hD
  have hcon : connected d (run es) = true := by rw [hw.live]; exact hl
  have hp := (asked_run es).pend d hcon hc
  have hdis : disconnectable d (run es) = true := by
    simp only [disconnectable, Bool.and_eq_true, Bool.not_eq_true', List.any_eq_false, associated]
    refine ⟨fun a hm => ?_, fun t hm hk => ?_⟩
    · have := (hr.cache a hm).2
      rw [ht] at this; cases this
    · have hk : t.key = d := by simpa using hk
      subst hk
      cases hkk : keeps t.kind with
      | true =>
        have := hr.out t hm hkk
        rw [ho _ _ hkk] at this; cases this
      | false =>
        have hqq : isQueue t.kind = true := by
          have hn := (hw.tasks t hm).kind
          cases e : t.kind <;> rw [e] at hkk hn <;> first | rfl | (cases hkk; done) | exact absurd rfl hn
        obtain ⟨x, hx⟩ := hr.asked t hm
        obtain ⟨ipc, k', x', d', hf⟩ := hq _ _ _ hqq hx
        exact hr.queue t hm (Or.inl hqq) _ _ _ _ hf
  rw [← (w_run _).live, run_snoc_alive _ ha]
  exact lose_connected _ _ d (List.mem_filter.mpr ⟨hp, hdis⟩)

/-- It does not hold without all that: a call that wants no reply is never done, and the connection is never
closed. -/
theorem c106_closes_refuted : ¬ ∀ es, (∀ e ∈ es, sound e = true) → Distinct (run es).log → ∀ d, live d (run es).log = true →
    1 ≤ closings d (run es).log → (∀ c k, k ≠ .post → out d c k (run es).log = false) → (∀ g, opened g (run es).log = false) →
    live d (run (es ++ [.idle])).log = false := by
  intro h
  let es : List Event := [.connect 1 true, .request .post 1 10 none true, .service 1 10 (.idle 7), .closing 1]
  have e : (run es).log = [.closing 1, .fwd 7 10 .post none 1, .gotService 10 (.idle 7), .askService 1 10, .req 1 10 .post none, .connected 1] := by
    decide +kernel
  have := h es (by simp [es, sound]) (by unfold Distinct; decide +kernel) 1 (by decide +kernel) (by decide +kernel)
    (by intro c k hk; rw [e]; cases k <;> first | exact absurd rfl hk | simp [out])
    (by intro g; rw [e]; rfl)
  revert this; decide +kernel

/-- A connection that waits for an answer, and one that waits for TM, are closed when they have it. -/
def ex106 : List Event :=
  [.connect 1 true, .connect 2 true, .request .call 1 10 none true, .service 1 10 (.idle 7), .closing 1,
   .request .call 2 11 (some ⟨5, 1⟩) true, .service 2 11 (.idle 7), .branch 2 11 ⟨5, 100⟩, .answer 2 11 .call ⟨0, 1⟩ true, .closing 2, .idle]

example : live 1 (run ex106).log = true ∧ live 2 (run ex106).log = true ∧ out 1 10 .call (run ex106).log = true ∧
    quiet 2 11 5 (run ex106).log = true ∧
    live 1 (run (ex106 ++ [.answer 1 10 .call ⟨0, 2⟩ true, .idle])).log = false ∧
    live 2 (run (ex106 ++ [.answer 1 10 .call ⟨0, 2⟩ true, .idle])).log = true ∧
    live 2 (run (ex106 ++ [.answer 1 10 .call ⟨0, 2⟩ true, .idle, .disassociate 5, .idle])).log = false := by decide +kernel

example : closings 2 (run (ex106 ++ [.answer 1 10 .call ⟨0, 2⟩ true, .idle, .disassociate 5])).log = 1 ∧
    (run (ex106 ++ [.answer 1 10 .call ⟨0, 2⟩ true, .idle, .disassociate 5])).dead = false := by decide +kernel

/-! ### C107: shutdown -/

theorem lost_ext (d s) : ∃ a, (lost d s).log = a ++ s.log := by
  cases h : connected d s with
  | true => rw [lost_eq h]; exact ⟨(discards (s.tasks.filter (·.key = d))).reverse ++ [.closed d], by simp⟩
  | false => rw [lost_not h]; exact ⟨[], rfl⟩

theorem disconnect_ext (ok d s) : ∃ a, (disconnect ok d s).log = a ++ s.log := by
  unfold disconnect; split
  · exact ⟨[], rfl⟩
  · split
    · unfold send; split
      · split
        · exact ⟨[_], rfl⟩
        · exact lost_ext d s
      · exact ⟨[], rfl⟩
    · exact lost_ext d s

theorem disconnect_one {ok d s} (h : connected d (disconnect ok d s) = true) (hc : connected d s = true) :
    (disconnect ok d s).log = .askDisconnect d :: s.log := by
  unfold disconnect at h ⊢
  split at h
  · rename_i hn
    have := List.find?_eq_none.mp hn
    obtain ⟨x, h1, h2⟩ := connected_iff.mp hc
    exact absurd (by simpa using h2) (this x h1)
  · split at h
    · unfold send at h ⊢
      rw [if_pos hc] at h ⊢
      split at h
      · rename_i hx; rw [if_pos ‹_›, if_pos hx]; rfl
      · rw [lost_connected] at h; simp at h
    · rw [lost_connected] at h; simp at h

theorem shut_fold {f : Nat → Bool} (xs : List Nat) (s : State) (d : Nat) (hd : d ∈ xs)
    (hc : connected d (xs.foldl (fun s d => disconnect (f d) d s) s) = true) :
    ∃ a, (xs.foldl (fun s d => disconnect (f d) d s) s).log = a ++ s.log ∧ .askDisconnect d ∈ a := by
  have ext : ∀ (xs : List Nat) (s : State), ∃ a, (xs.foldl (fun s d => disconnect (f d) d s) s).log = a ++ s.log := by
    intro xs
    induction xs with
    | nil => intro s; exact ⟨[], rfl⟩
    | cons x xs ih =>
      intro s
      obtain ⟨a, h⟩ := ih (disconnect (f x) x s)
      obtain ⟨b, h'⟩ := disconnect_ext (f x) x s
      exact ⟨a ++ b, by rw [List.foldl_cons, h, h']; simp⟩
  induction xs generalizing s with
  | nil => cases hd
  | cons x xs ih =>
    rcases List.mem_cons.mp hd with rfl | hd
    · obtain ⟨a, h⟩ := ext xs (disconnect (f d) d s)
      have h1 : connected d (disconnect (f d) d s) = true :=
        (same_fold (fun s d => same_disconnect (f d) d s) xs (disconnect (f d) d s)).conns d hc
      have h2 := disconnect_one h1 ((same_disconnect (f d) d s).conns d h1)
      exact ⟨a ++ [.askDisconnect d], by rw [List.foldl_cons, h, h2]; simp, by simp⟩
    · obtain ⟨a, h1, h2⟩ := ih (disconnect (f x) x s) hd hc
      obtain ⟨b, h'⟩ := disconnect_ext (f x) x s
      exact ⟨a ++ b, by rw [List.foldl_cons, h1, h']; simp, by simp [h2]⟩

/-- At shutdown, each connection is closed, or the other domain is asked to close it. -/
theorem c107_all_are_asked (es : List Event) (ha : (run es).dead = false) (bad : List Nat) (d : Nat)
    (h : live d (run (es ++ [.shutdown bad])).log = true) :
    ∃ a, (run (es ++ [.shutdown bad])).log = a ++ (run es).log ∧ .askDisconnect d ∈ a := by
  rw [← (w_run _).live, run_snoc_alive _ ha] at h
  rw [run_snoc_alive _ ha]
  have h1 : connected d (run es) = true := (shutdown_same bad (run es)).conns d h
  obtain ⟨x, h2, h3⟩ := connected_iff.mp h1
  simp only [apply, shutdown] at h ⊢
  exact shut_fold (f := fun d => !bad.contains d) _ _ d (List.mem_map.mpr ⟨x, h2, h3⟩) h

/-- The group is done exactly when it has been told to shut down and there is no connection. -/
theorem c107_done (es : List Event) (ha : (run es).dead = false) :
    done (run es) = true ↔ (∃ bad, .shutdown bad ∈ es) ∧ ∀ d, live d (run es).log = false := by
  have hw := w_run es
  simp only [done, Bool.and_eq_true, Bool.not_eq_true', List.isEmpty_iff]
  constructor
  · rintro ⟨h1, h2⟩
    refine ⟨running_run es h1, fun d => ?_⟩
    rw [← hw.live]; simp [connected, h2]
  · rintro ⟨⟨bad, h1⟩, h2⟩
    refine ⟨not_running es ha bad h1, ?_⟩
    cases hc : (run es).conns with
    | nil => rfl
    | cons x xs =>
      have : connected x.d (run es) = true := connected_iff.mpr ⟨x, by rw [hc]; exact List.mem_cons_self .., rfl⟩
      rw [hw.live, h2] at this; cases this

/-- "After shutdown, each connection that is there has been asked to close" does not hold: a connection that is
being established at the shutdown is not asked, and the group does not end until the other side
leaves. -/
theorem c107_later_connection_refuted : ¬ ∀ es d, (∃ bad, .shutdown bad ∈ es) → live d (run es).log = true →
    .askDisconnect d ∈ (run es).log := by
  intro h
  have := h [.shutdown [], .connect 1 true] 1 ⟨[], by simp⟩ (by decide +kernel)
  revert this; decide +kernel

example : (run [.connect 1 true, .connect 2 false, .connect 3 true, .shutdown [3]]).log =
    [.closed 3, .closed 2, .askDisconnect 1, .connected 3, .connected 2, .connected 1] := by decide +kernel
example : done (run [.connect 1 true, .connect 2 false, .shutdown [], .closing 1]) = true ∧
    done (run [.connect 1 true, .connect 2 false, .shutdown []]) = false := by decide +kernel

/-! ### C108: the group lives on -/

/-- If replies to other domains do not fail when they are sent, the only things that kill the group are:
a message or a hang up, in a conversation that has been asked for and that has not been passed on yet;
and that a connection has been said to be closed twice. -/
theorem c108_lives_on_partial (es : List Event) (he : ∀ e ∈ es, sound e = true) (ha : (run es).dead = false)
    (hD : Distinct (run es).log) (e : Event) (hse : sound e = true) (h : (run (es ++ [e])).dead = true) :
    (∃ d c, (e = .hangup d c ∨ ∃ data, e = .say d c data) ∧ (∃ d', out d' c .conv (run es).log = true) ∧
      ∀ ipc k x d', .fwd ipc c k x d' ∉ (run es).log) ∨
    (e = .idle ∧ ∃ d, live d (run es).log = true ∧ 2 ≤ closings d (run es).log) := by
  have hw := w_run es
  have hp := pend_run es he ha
  have hr := real_run es he ha hD
  rw [run_snoc_alive _ ha] at h
  have conv : ∀ t ∈ (run es).tasks, t.kind = .conv → (∀ ipc, t.lookup ≠ some (some ipc)) →
      (∃ d', out d' t.corr .conv (run es).log = true) ∧ ∀ ipc k x d', .fwd ipc t.corr k x d' ∉ (run es).log := by
    intro t ht hk hl
    refine ⟨⟨t.key, by rw [← hk]; exact hr.out t ht (by rw [hk]; rfl)⟩, hr.queue t ht (Or.inr ?_)⟩
    cases e : t.lookup with
    | none => rfl
    | some p =>
      obtain ⟨ipc, rfl, _⟩ := ((hw.tasks t ht).service (by rw [hk]; rfl)).2 p e
      exact absurd e (hl ipc)
  cases deadly_apply ha hw hp h with
  | say d c data t ht hc hk hl =>
    subst hc; exact Or.inl ⟨d, t.corr, Or.inr ⟨data, rfl⟩, conv t ht hk hl⟩
  | hangup d c t ht hc hk hl =>
    subst hc; exact Or.inl ⟨d, t.corr, Or.inl rfl, conv t ht hk hl⟩
  | idle d h2 =>
    refine Or.inr ⟨rfl, d, ?_, Nat.le_trans h2 (hp.count d)⟩
    rw [← hw.live]; exact hp.live d (List.count_pos_iff.mp (by omega))
  | unsound e h => rw [hse] at h; cases h

/-- "The group lives on" does not hold: a message in a conversation whose service has not been found yet
is enough. -/
theorem c108_say_refuted : ¬ ∀ es, (∀ e ∈ es, sound e = true) → (run es).dead = false := by
  intro h
  have := h [.connect 1 true, .request .conv 1 10 none true, .say 1 10 5] (by simp [sound])
  revert this; decide +kernel

/-- So is a second disconnect reply. -/
theorem c108_twice_refuted : ¬ ∀ es, (∀ e ∈ es, sound e = true) →
    (∀ e ∈ es, ∀ d c, e ≠ .hangup d c ∧ ∀ data, e ≠ .say d c data) → (run es).dead = false := by
  intro h
  have := h [.connect 1 true, .request .call 1 10 none true, .service 1 10 (.idle 7), .closing 1, .closing 1,
    .answer 1 10 .call ⟨0, 1⟩ true, .idle] (by simp [sound]) (by simp)
  revert this; decide +kernel

/-- Something of one connection does not change what another one has asked for. -/
def OthersUntouched (es : List Event) : Prop :=
  ∀ d d' c c' r ok, d ≠ d' → out d' c' .call (run es).log = true → out d c .call (run es).log = true →
    (∃ t ∈ (run es).tasks, t.corr = c') → ∃ t ∈ (run (es ++ [.answer d c .call r ok])).tasks, t.corr = c'

/-- It does not hold if the sending of a reply fails: the unit of a call of another connection is
erased, and its reply is lost. -/
theorem c108_others_refuted : ¬ ∀ es, Distinct (run es).log → OthersUntouched es := by
  intro h
  have := h [.connect 1 true, .connect 2 true, .request .call 1 10 none true, .request .call 2 11 none true,
    .service 1 10 (.idle 7), .service 2 11 (.idle 7)] (by unfold Distinct; decide +kernel) 1 2 10 11 ⟨0, 1⟩ false (by decide)
    (by decide +kernel) (by decide +kernel) (by decide +kernel)
  revert this; decide +kernel

end Casual.Gateway.In

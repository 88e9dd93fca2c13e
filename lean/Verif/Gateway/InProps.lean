import Verif.Gateway.InSame
/-!
The properties of the inbound group (C100-C108). The statements are about `(run es).log`: all that
the process has received and sent, newest first, after the events `es`. They use the views `live`,
`out`, `needs`, `waitS`, `waitB`, `waitR`, `quiet`, `opened`, `closings`, `asks` and `answers` of
that log, which are defined without the state of the process. `sound e`: the sending of a reply to
the other domain, at `e`, does not fail; that it matters is `c108_others_refuted`.
-/
namespace Casual.Gateway.In

theorem reach_alive {es : List Event} {e : Event} (h : (run (es ++ [e])).dead = false) : (run es).dead = false := by
  cases hd : (run es).dead with
  | false => rfl
  | true => rw [run_snoc] at h; unfold step at h; rw [if_pos hd, hd] at h; cases h

/-! ### C100: at most one answer -/

/-- In every history, also when connections and sends fail, there are never more answers to calls,
prepares, commits and rollbacks than there are such requests, for each correlation. -/
theorem c100_at_most_one_answer (es : List Event) (c : Nat) :
    (run es).log.countP (answers c) ≤ (run es).log.countP (asks c) := by
  have h := bal_run c es
  unfold bal at h; omega

def ex100 : List Event :=
  [.connect 1 true, .request .call 1 10 none true, .service 1 10 (.idle 7), .answer 1 10 .call ⟨0, 42⟩ true,
   .answer 1 10 .call ⟨0, 43⟩ true]

example : (run ex100).log.countP (answers 10) = 1 ∧ .sent 1 10 .call ⟨0, 42⟩ none ∈ (run ex100).log := by decide +kernel

/-! ### C101: the answer is the one that is due -/

/-- In every history, an answer to a call goes to a connection that is there, on which there has been
such a call; and it says what a local process has answered with that correlation, or that there is no
such service (SM has said so), that the time is out (SM has said so), or that the request could
not be delivered. -/
theorem c101_call_answer_is_due (es : List Event) (a b : List Obs) (d c : Nat) (r : Rep) (x : Option Trid)
    (h : (run es).log = a ++ .sent d c .call r x :: b) :
    live d b = true ∧ (∃ k x, (k = .call ∨ k = .post) ∧ .req d c k x ∈ b) ∧
      ((∃ d', .got d' c .call r ∈ b) ∨ (r = ⟨noEntry, 0⟩ ∧ .gotService c .absent ∈ b) ∨
        (r = ⟨timedOut, 0⟩ ∧ .gotService c .timeout ∈ b) ∨ (r = ⟨svcErr, 0⟩ ∧ ∃ d' k', .undelivered d' c k' ∈ b)) := by
  obtain ⟨h1, h2⟩ := whys_at (w_run es).good h
  rw [if_pos rfl] at h2
  obtain ⟨⟨k, x', h3, h4⟩, d', h5⟩ := h2
  refine ⟨h1, ⟨k, x', ?_, h4⟩, ?_⟩
  · cases k <;> first | (cases h3; done) | simp
  · rcases h5 with h5 | h5
    · exact Or.inl ⟨d', h5⟩
    · obtain ⟨p, q, e⟩ := List.append_of_mem h5
      have e' : (run es).log = (a ++ .sent d c .call r x :: p) ++ .fake d' c .call r :: q := by rw [h, e]; simp
      obtain ⟨_, h6⟩ := whys_at (w_run es).good e'
      rw [if_pos (show isService .call = true from rfl)] at h6
      have hq : ∀ o, o ∈ q → o ∈ b := fun o ho => by rw [e]; simp [ho]
      rcases h6 with ⟨e1, h6⟩ | ⟨e1, h6⟩ | ⟨e1, k', h6⟩
      · exact Or.inr (Or.inl ⟨e1, hq _ h6⟩)
      · exact Or.inr (Or.inr (Or.inl ⟨e1, hq _ h6⟩))
      · exact Or.inr (Or.inr (Or.inr ⟨e1, d', k', hq _ h6⟩))

/-- The same for an answer to a prepare, commit or rollback; what is not an answer of TM is a protocol
error, or the request could not be delivered to TM. -/
theorem c101_resource_answer_is_due (es : List Event) (a b : List Obs) (d c : Nat) (k : Kind) (hk : isResource k = true)
    (r : Rep) (x : Option Trid) (h : (run es).log = a ++ .sent d c k r x :: b) :
    live d b = true ∧ (∃ x', .req d c k x' ∈ b) ∧
      ((∃ d', .got d' c k r ∈ b) ∨ r = ⟨protocolError, 0⟩ ∨ ∃ d' k', .undelivered d' c k' ∈ b) := by
  obtain ⟨h1, h2⟩ := whys_at (w_run es).good h
  rw [if_neg (by rintro rfl; cases hk), if_pos hk] at h2
  obtain ⟨⟨x', h3, _⟩, d', h5⟩ := h2
  refine ⟨h1, ⟨x', h3⟩, ?_⟩
  rcases h5 with h5 | h5
  · exact Or.inl ⟨d', h5⟩
  · obtain ⟨p, q, e⟩ := List.append_of_mem h5
    have e' : (run es).log = (a ++ .sent d c k r x :: p) ++ .fake d' c k r :: q := by rw [h, e]; simp
    obtain ⟨_, h6⟩ := whys_at (w_run es).good e'
    have hs : isService k = false := by cases k <;> first | rfl | (cases hk; done)
    rw [hs] at h6
    simp only [Bool.false_eq_true, if_false, hk, if_true] at h6
    have hq : ∀ o, o ∈ q → o ∈ b := fun o ho => by rw [e]; simp [ho]
    rcases h6 with ⟨x', e1, h6⟩ | ⟨k', h6⟩
    · exact Or.inr (Or.inl e1)
    · exact Or.inr (Or.inr ⟨d', k', hq _ h6⟩)

/-- An answer to a queue request, a conversation connect or a discovery is what has come to the
connection, or it says that there is no such queue (QM has said so), or that the request could not
be delivered. -/
theorem c101_other_answer_is_due (es : List Event) (a b : List Obs) (d c : Nat) (k : Kind)
    (hk : k = .conv ∨ k = .enqueue ∨ k = .dequeue ∨ k = .discovery)
    (r : Rep) (x : Option Trid) (h : (run es).log = a ++ .sent d c k r x :: b) :
    live d b = true ∧
      (.got d c k r ∈ b ∨ .gotQueue c none ∈ b ∨ .gotService c .absent ∈ b ∨ .gotService c .timeout ∈ b ∨
        ∃ k', .undelivered d c k' ∈ b) := by
  obtain ⟨h1, h2⟩ := whys_at (w_run es).good h
  have h2 : .got d c k r ∈ b ∨ .fake d c k r ∈ b := by
    rcases hk with rfl | rfl | rfl | rfl <;> exact h2
  refine ⟨h1, ?_⟩
  rcases h2 with h5 | h5
  · exact Or.inl h5
  · obtain ⟨p, q, e⟩ := List.append_of_mem h5
    have e' : (run es).log = (a ++ .sent d c k r x :: p) ++ .fake d c k r :: q := by rw [h, e]; simp
    obtain ⟨_, h6⟩ := whys_at (w_run es).good e'
    have hq : ∀ o, o ∈ q → o ∈ b := fun o ho => by rw [e]; simp [ho]
    rcases hk with rfl | hk
    · rw [if_pos (show isService .conv = true from rfl)] at h6
      rcases h6 with ⟨_, h6⟩ | ⟨_, h6⟩ | ⟨_, k', h6⟩
      · exact Or.inr (Or.inr (Or.inl (hq _ h6)))
      · exact Or.inr (Or.inr (Or.inr (Or.inl (hq _ h6))))
      · exact Or.inr (Or.inr (Or.inr (Or.inr ⟨k', hq _ h6⟩)))
    · have hs : isService k = false := by rcases hk with rfl | rfl | rfl <;> rfl
      have hr : isResource k = false := by rcases hk with rfl | rfl | rfl <;> rfl
      rw [hs, hr] at h6
      simp only [Bool.false_eq_true, if_false] at h6
      rcases h6 with h6 | ⟨k', h6⟩
      · exact Or.inr (Or.inl (hq _ h6))
      · exact Or.inr (Or.inr (Or.inr (Or.inr ⟨k', hq _ h6⟩)))

/-- An answer of a local process, a service that is not there, a prepare that is not known, a queue
that is not there. -/
def ex101 : List Event :=
  [.connect 1 true, .connect 2 true, .request .call 1 10 none true, .request .call 2 11 none true,
   .request .prepare 1 12 (some ⟨5, 1⟩) true, .request .enqueue 2 13 none true,
   .service 2 11 .absent, .service 1 10 (.idle 7), .queueAt 2 13 none, .answer 1 10 .call ⟨0, 42⟩ true,
   .own 2 true, .own 1 true, .own 0 true]

example : .sent 1 10 .call ⟨0, 42⟩ none ∈ (run ex101).log ∧ .sent 2 11 .call ⟨noEntry, 0⟩ none ∈ (run ex101).log ∧
    .sent 1 12 .prepare ⟨protocolError, 0⟩ (some ⟨5, 1⟩) ∈ (run ex101).log ∧ .sent 2 13 .enqueue ⟨0, 0⟩ none ∈ (run ex101).log := by
  decide +kernel

/-! ### C102: requests go on in the right transaction -/

/-- TM answers with a branch of the transaction it has been asked for. -/
def Honest (l : List Obs) : Prop := ∀ c b, .gotBranch c b ∈ l → ∃ d k x, .req d c k (some x) ∈ l ∧ x.g = b.g

theorem same_req {l : List Obs} (hD : Distinct l) {d c k x d' k' x'} (h : .req d c k x ∈ l) (h' : .req d' c k' x' ∈ l) :
    d = d' ∧ k = k' ∧ x = x' := by
  unfold Distinct at hD
  induction l with
  | nil => cases h
  | cons o l ih =>
    by_cases ho : (reqCorr o).isSome
    · obtain ⟨c', hc⟩ := Option.isSome_iff_exists.mp ho
      simp only [List.filterMap_cons, hc, List.nodup_cons] at hD
      rcases List.mem_cons.mp h with e | hl <;> rcases List.mem_cons.mp h' with e' | hl'
      · rw [← e] at e'; cases e'; exact ⟨rfl, rfl, rfl⟩
      · subst e; simp only [reqCorr, Option.some.injEq] at hc; subst hc; exact absurd (mem_reqs (l := l) hl') hD.1
      · subst e'; simp only [reqCorr, Option.some.injEq] at hc; subst hc; exact absurd (mem_reqs (l := l) hl) hD.1
      · exact ih hD.2 hl hl'
    · have hn : reqCorr o = none := by simpa using ho
      simp only [List.filterMap_cons, hn] at hD
      refine ih hD ?_ ?_
      · rcases List.mem_cons.mp h with e | h
        · subst e; cases hn
        · exact h
      · rcases List.mem_cons.mp h' with e | h'
        · subst e; cases hn
        · exact h'

/-- In every history in which the correlations of requests are unique, and TM is honest: a request
that is passed on is a request of a connection that is there; the local process is the one that SM
or QM has said; it is in a transaction if and only if the request of the other domain is; and then
it is in a branch that TM has given, of the same global transaction. -/
theorem c102_passed_on_in_its_transaction (es : List Event) (a b : List Obs) (ipc c d : Nat) (k : Kind) (t : Option Trid)
    (h : (run es).log = a ++ .fwd ipc c k t d :: b) (hD : Distinct b) (hT : Honest b) :
    live d b = true ∧ (if isService k then .gotService c (.idle ipc) ∈ b else .gotQueue c (some ipc) ∈ b) ∧
      ∃ x, .req d c k x ∈ b ∧
        match x with
        | none => t = none
        | some x => ∃ u, t = some u ∧ u.g = x.g ∧ ∃ c', .gotBranch c' u ∈ b := by
  obtain ⟨h1, x, h2, h3, h4⟩ := whys_at (w_run es).good h
  refine ⟨h1, h4, x, h2, ?_⟩
  rcases h3 with ⟨rfl, rfl⟩ | ⟨u, rfl, h3 | ⟨x', rfl, h5, c', h6⟩⟩
  · rfl
  · obtain ⟨d', k', x', h5, h6⟩ := hT c u h3
    obtain ⟨_, _, rfl⟩ := same_req hD h2 h5
    exact ⟨u, rfl, h6.symm, c, h3⟩
  · exact ⟨u, rfl, h5, c', h6⟩

/-- It is never passed on with the transaction id of the other domain, if TM does not give that. -/
theorem c102_never_external (es : List Event) (a b : List Obs) (ipc c d : Nat) (k : Kind) (u : Trid)
    (h : (run es).log = a ++ .fwd ipc c k (some u) d :: b) (hD : Distinct b) (hT : Honest b) (hF : Fresh b) :
    ∀ d' c' k', .req d' c' k' (some u) ∉ b := by
  obtain ⟨_, _, x, h2, h3⟩ := c102_passed_on_in_its_transaction es a b ipc c d k (some u) h hD hT
  cases x with
  | none => cases h3
  | some x =>
    obtain ⟨u', e, _, c', h4⟩ := h3
    cases e
    exact hF c' u h4

/-- Two calls and an enqueue in one transaction, and a call that is in none. -/
def ex102 : List Event :=
  [.connect 1 true, .request .call 1 10 (some ⟨5, 1⟩) true, .service 1 10 (.idle 7), .branch 1 10 ⟨5, 100⟩,
   .request .call 1 11 (some ⟨5, 2⟩) true, .service 1 11 (.idle 8), .request .enqueue 1 12 (some ⟨5, 3⟩) true,
   .queueAt 1 12 (some 9), .request .call 1 13 none true, .service 1 13 (.idle 7)]

example : .fwd 7 10 .call (some ⟨5, 100⟩) 1 ∈ (run ex102).log ∧ .fwd 8 11 .call (some ⟨5, 100⟩) 1 ∈ (run ex102).log ∧
    .fwd 9 12 .enqueue (some ⟨5, 100⟩) 1 ∈ (run ex102).log ∧ .fwd 7 13 .call none 1 ∈ (run ex102).log := by decide +kernel

/-! ### C103: nothing is forgotten -/

/-- What somebody has been asked for, for the request, and has not answered; or the answer is on its
way. -/
def Pending (d c : Nat) (k : Kind) (s : State) : Prop :=
  waitS c s.log = true ∨ waitB c s.log = true ∨ waitR c k s.log = true ∨
    ∃ m ∈ s.inbox, m.d = d ∧ m.c = c ∧ m.k = replyKind k

/-- The kinds of requests for which the group itself waits for the answer. -/
def waited (k : Kind) : Prop := k = .call ∨ k = .prepare ∨ k = .commit ∨ k = .rollback

/-- As long as a call, a prepare, a commit or a rollback is not answered, and its connection is there,
the group waits for SM, for TM, or for the process that has the request; or it has made up an answer
that is on its way. Correlations are unique, and TM gives its own branches. -/
theorem c103_not_stuck_partial (es : List Event) (he : ∀ e ∈ es, sound e = true) (ha : (run es).dead = false)
    (hD : Distinct (run es).log) (hF : Fresh (run es).log) (d c : Nat) (k : Kind) (hk : waited k)
    (ho : out d c k (run es).log = true) : Pending d c k (run es) := by
  have hkk : keeps k = true := by rcases hk with rfl | rfl | rfl | rfl <;> rfl
  obtain ⟨t, ht, rfl, rfl, rfl⟩ := kept_run es he ha d c k hkk ho
  have hs := (stage_run es he ha hD hF).tasks t ht
  rcases hk with hk | hk
  · have hc : calls t.kind := Or.inl hk
    by_cases hl : t.lookup = none
    · rcases hs.ask hc hl with h | h
      · exact Or.inl h
      · exact Or.inr (Or.inr (Or.inr h))
    · by_cases hor : t.origin = none ∨ t.origin ≠ t.trid
      · exact Or.inr (Or.inr (Or.inl (hs.fwd hc hl hor)))
      · simp only [ne_eq, not_or, Classical.not_not] at hor
        exact Or.inr (Or.inl (hs.hold hc hor.1 hor.2))
  · have hr : isResource t.kind = true := by rcases hk with h | h | h <;> rw [h] <;> rfl
    rcases hs.res hr with h | h
    · exact Or.inr (Or.inr (Or.inl h))
    · exact Or.inr (Or.inr (Or.inr h))

theorem split_of {ts pre post : List Task} {t : Task} (h : ts = pre ++ t :: post) (hf : ∀ u ∈ pre, u.corr ≠ t.corr) :
    split t.corr ts = some (pre, t, post) := by
  induction pre generalizing ts with
  | nil => rw [h]; simp [split]
  | cons p pre ih =>
    rw [h]
    have hp := hf p (List.mem_cons_self ..)
    have := ih (ts := pre ++ t :: post) rfl fun u hu => hf u (List.mem_cons_of_mem _ hu)
    simp only [List.cons_append, split, if_neg hp, this, Option.map_some]

theorem split_mem {ts : List Task} {t : Task} (hn : (ts.map (·.corr)).Nodup) (ht : t ∈ ts) :
    ∃ pre post, split t.corr ts = some (pre, t, post) ∧ ts = pre ++ t :: post := by
  obtain ⟨pre, post, e⟩ := List.append_of_mem ht
  refine ⟨pre, post, split_of e fun u hu hc => ?_, e⟩
  rw [e, List.map_append, List.nodup_append] at hn
  exact hn.2.2 _ (List.mem_map.mpr ⟨u, hu, rfl⟩) _ (List.mem_map.mpr ⟨t, List.mem_cons_self .., rfl⟩) hc

theorem answered_now {s : State} {d c : Nat} {k : Kind} {r : Rep} {t : Task} {d'} (hk : waited k) (hn : (s.tasks.map (·.corr)).Nodup)
    (ht : t ∈ s.tasks) (h1 : t.key = d) (h2 : t.corr = c) (h3 : t.kind = k) (hc : connected d s = true) :
    ∃ x, (answer d' c (replyKind k) r true s).log = .sent d c (replyKind k) r x :: s.log := by
  subst h1 h2 h3
  obtain ⟨pre, post, e1, e2⟩ := split_mem hn ht
  have hlen : pre.length < s.tasks.length := by rw [e2]; simp
  have hsend : ∀ o, send true t.key o s = emit o s := by
    intro o; unfold send; rw [if_pos hc]; rfl
  rcases hk with hk | hk
  · refine ⟨none, ?_⟩
    rw [hk]
    show (dispatch t.corr (onCall r true) s).log = _
    unfold dispatch
    rw [e1]
    simp only [onCall, hk, true_or, if_true, hc, hsend]
    exact congrArg State.log (if_pos hlen)
  · refine ⟨t.trid, ?_⟩
    have hr : isResource t.kind = true := by rcases hk with h | h | h <;> rw [h] <;> rfl
    have : answer d' t.corr (replyKind t.kind) r true s = dispatch t.corr (onResource t.kind r true) s := by
      rcases hk with h | h | h <;> rw [h] <;> rfl
    rw [this]
    unfold dispatch
    rw [e1]
    simp only [onResource, if_true, hsend, resource_reply hr]
    exact congrArg State.log (if_pos hlen)

/-- The answer to such a request, when it comes from the local domain, is sent to the other domain at
once, on the connection that the request came from. -/
theorem c103_answer_is_passed_on_partial (es : List Event) (he : ∀ e ∈ es, sound e = true) (ha : (run es).dead = false)
    (hD : Distinct (run es).log) (d c : Nat) (k : Kind) (hk : waited k) (ho : out d c k (run es).log = true)
    (d' : Nat) (hd : live d' (run es).log = true) (r : Rep) :
    ∃ x, (run (es ++ [.answer d' c (replyKind k) r true])).log =
      .sent d c (replyKind k) r x :: .got d' c (replyKind k) r :: (run es).log := by
  have hkk : keeps k = true := by rcases hk with rfl | rfl | rfl | rfl <;> rfl
  obtain ⟨t, ht, h1, h2, h3⟩ := kept_run es he ha d c k hkk ho
  have hw := w_run es
  rw [run_snoc_alive _ ha]
  simp only [apply, on]
  rw [if_pos (by rw [hw.live]; exact hd)]
  exact answered_now (s := emit (.got d' c (replyKind k) r) (run es)) hk (real_run es he ha hD).nodup ht h1 h2 h3
    (by rw [← h1]; exact hw.keys t ht)

/-- So is the answer that the group has made up. -/
theorem c103_own_answer_is_passed_on_partial (es : List Event) (he : ∀ e ∈ es, sound e = true) (ha : (run es).dead = false)
    (hD : Distinct (run es).log) (d c : Nat) (k : Kind) (hk : waited k) (ho : out d c k (run es).log = true)
    (i : Nat) (m : Own) (hm : (run es).inbox[i]? = some m) (hc : m.c = c) (hmk : m.k = replyKind k) :
    ∃ x, (run (es ++ [.own i true])).log = .sent d c (replyKind k) m.r x :: (run es).log := by
  have hkk : keeps k = true := by rcases hk with rfl | rfl | rfl | rfl <;> rfl
  obtain ⟨t, ht, h1, h2, h3⟩ := kept_run es he ha d c k hkk ho
  have hw := w_run es
  rw [run_snoc_alive _ ha]
  simp only [apply, hm]
  rw [hc, hmk]
  exact answered_now (s := { run es with inbox := (run es).inbox.eraseIdx i }) hk (real_run es he ha hD).nodup ht h1 h2 h3
    (by rw [← h1]; exact hw.keys t ht)

/-- The full statement, for all requests but conversations (that have no end of their own). -/
def NotStuck (es : List Event) : Prop :=
  ∀ d c k, k ≠ .conv → k ≠ .discovery → out d c k (run es).log = true → Pending d c k (run es)

/-- It does not hold for queue requests: if there is no QM, nobody is asked. -/
theorem c103_no_queue_manager_refuted : ¬ ∀ es, (∀ e ∈ es, sound e = true) → Distinct (run es).log → Fresh (run es).log → NotStuck es := by
  intro h
  have := h [.connect 1 true, .request .enqueue 1 10 none false] (by simp [sound])
    (by unfold Distinct; decide +kernel)
    (by
      have e : (run [.connect 1 true, .request .enqueue 1 10 none false]).log = [.req 1 10 .enqueue none, .connected 1] := by decide +kernel
      rw [e]; intro c b hb; simp at hb) 1 10 .enqueue (by simp) (by simp) (by decide +kernel)
  rcases this with h | h | h | ⟨m, h, _⟩
  · revert h; decide +kernel
  · revert h; decide +kernel
  · revert h; decide +kernel
  · rw [show (run [.connect 1 true, .request .enqueue 1 10 none false]).inbox = [] by decide +kernel] at h; cases h

/-- Nor does it hold if TM gives the transaction id of the other domain as it is: the call is not
passed on, and nobody is asked. -/
theorem c103_own_branch_refuted : ¬ ∀ es, (∀ e ∈ es, sound e = true) → Distinct (run es).log → NotStuck es := by
  intro h
  let es : List Event := [.connect 1 true, .request .call 1 10 (some ⟨5, 1⟩) true, .branch 1 10 ⟨5, 1⟩, .service 1 10 (.idle 7)]
  have := h es (by simp [es, sound]) (by unfold Distinct; decide +kernel) 1 10 .call (by simp) (by simp) (by decide +kernel)
  rcases this with h | h | h | ⟨m, h, _⟩
  · revert h; decide +kernel
  · revert h; decide +kernel
  · revert h; decide +kernel
  · rw [show (run es).inbox = [] by decide +kernel] at h; cases h

/-- Each of the ways to wait. -/
def ex103 : List Event :=
  [.connect 1 true, .request .call 1 10 (some ⟨5, 1⟩) true, .request .call 1 11 (some ⟨6, 1⟩) true, .service 1 11 (.idle 7),
   .request .call 1 12 none true, .service 1 12 (.idle 8), .request .commit 1 13 (some ⟨9, 1⟩) true]

example : (∀ e ∈ ex103, sound e = true) ∧ (run ex103).dead = false ∧ out 1 10 .call (run ex103).log = true ∧
    waitS 10 (run ex103).log = true ∧ waitS 11 (run ex103).log = false ∧ waitB 11 (run ex103).log = true ∧
    waitB 12 (run ex103).log = false ∧ waitR 12 .call (run ex103).log = true ∧ out 1 13 .commit (run ex103).log = true ∧
    (run ex103).inbox = [⟨1, 13, .commit, ⟨protocolError, 0⟩⟩] := by decide +kernel

end Casual.Gateway.In

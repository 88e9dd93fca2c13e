import Verif.Forward.Ends
/-!
# What a forward does with messages

Properties C109–C114. The words are in `Spec`; `run es` is the forward after the events `es`, in any
order and with any contents.
-/
namespace Casual.Forward

/-! ### Samples -/

/-- A forward from queue 10 to service 7, and its replies to queue 20. -/
def toService : Conf := { alias := 1, source := 10, target := .service 7 (some 20), instances := 1 }

/-- A forward from queue 30 to queue 40, with two instances. -/
def toQueue : Conf := { alias := 2, source := 30, target := .queue 40, delayed := true, instances := 2 }

/-- The queues are found, and a message is asked for. -/
def begun : List Event :=
  [.update [toService] [], .queueAt 0 10 (some 5) (some 100) false, .queueAt 1 20 (some 6) (some 101) false]

/-- The message gets there. -/
def served : List Event := begun ++ [.got 2 (some 42), .found 2 (some 300), .replied 2 true 43, .acked 2 true]

/-- The service fails. -/
def refused : List Event := begun ++ [.got 2 (some 42), .found 2 (some 300), .replied 2 false 43]

/-- Two messages from queue to queue. -/
def moved : List Event :=
  [.update [toQueue] [], .queueAt 0 30 (some 5) (some 100) false, .queueAt 1 40 (some 6) (some 101) true,
   .got 3 (some 42), .got 2 (some 41), .acked 2 true]

/-! ### C109: the protocol -/

/-- C109. Of every message, the forward has done only what it may do, in the order in which it may; and it either has
nothing to do with it (yet, or any more), or waits for an answer of another process. -/
theorem forward_keeps_to_protocol (es : List Event) (c : Nat) :
    walk c (run es).log = .idle ∨ walk c (run es).log = .over ∨ waiting (walk c (run es).log) = true := by
  by_cases hx : ∃ x ∈ (run es).flows, x.corr = c
  · obtain ⟨x, hx, rfl⟩ := hx
    rw [(inv_run es).W.here x hx]; exact Or.inr (Or.inr (waiting_phaseOf x))
  · rcases (inv_run es).W.gone c (fun x hxm e => hx ⟨x, hxm, e⟩) with e | e
    · exact Or.inl e
    · exact Or.inr (Or.inl e)

/-- C109. No message, whatever it is, stops the forward. -/
theorem forward_never_dies (es : List Event) : (run es).dead = false := (inv_run es).alive

example : walk 2 (run served).log = .committing 0 ⟨2⟩ ∧ walk 2 (run refused).log = .rolling 0 ⟨2⟩ ∧
    walk 3 (run moved).log = .storing 0 ⟨3⟩ ∧ walk 2 (run (served ++ [.committed 2 .commit])).log = .over ∧
    walk 3 (run (served ++ [.committed 2 .commit])).log = .asked 0 ⟨3⟩ := by decide +kernel

/-! ### C110: commit -/

/-- All that the configuration `x` asks for has been done with message `m`. -/
def Delivered (x : Conf) (c : Nat) (t : Trid) (m : Nat) (l : List Obs) : Prop :=
  match x.target with
  | .queue n => (∃ p q, .enqueue c t n m x.delayed p q ∈ l) ∧ .acked c true ∈ l
  | .service v r =>
    .askService c v ∈ l ∧ (∃ p, .found c (some p) ∈ l ∧ .call c t m p ∈ l) ∧
    ∃ m', .replied c true m' ∈ l ∧
      ∀ n, r = some n → (∃ p q, .enqueue c t n m' x.delayed p q ∈ l) ∧ .acked c true ∈ l

theorem delivered_service {es : List Event} {a b : List Obs} (hl : (run es).log = a ++ b) {c f m' : Nat} {t : Trid} {x : Conf}
    (hx : .created f x ∈ b) (ha : Answered c f t m' b) :
    ∃ m v, Held c f t m b ∧ x.target.svc = some v ∧ .askService c v ∈ b ∧ (∃ p, .found c (some p) ∈ b ∧ .call c t m p ∈ b) ∧
      .replied c true m' ∈ b := by
  obtain ⟨⟨m, p, ⟨hh, y, v, hy, hv, hask⟩, hf, hc⟩, hr⟩ := ha
  have hsub : ∀ o ∈ b, o ∈ (run es).log := fun o ho => by rw [hl]; exact List.mem_append_right _ ho
  have := created_once (inv_run es) (hsub _ hx) (hsub _ hy)
  subst this
  exact ⟨m, v, hh, hv, hask, ⟨p, hf, hc⟩, hr⟩

/-- C110. A transaction is committed only after the message has arrived in it, and everything that the configuration of
the forward asks for has been done with this message, in this transaction, and has been answered with success: the queue
has taken the message; or the service that is configured has been called with the message, at the process that was found
for it, and has answered, and the reply queue, if there is one, has taken its reply. -/
theorem forward_commit_only_after_success (es : List Event) (c : Nat) (t : Trid) (a b : List Obs)
    (h : (run es).log = a ++ .commit c t :: b) :
    ∃ f m x, .created f x ∈ b ∧ (∃ p q, .dequeue f c t p q ∈ b) ∧ .got c (some m) ∈ b ∧ Delivered x c t m b := by
  have hg : walk c (.commit c t :: b) ≠ .bad := walk_good (a := a) (by rw [← h]; exact run_good es c)
  have h' : (run es).log = (a ++ [.commit c t]) ++ b := by rw [h]; simp
  obtain ⟨f, hf⟩ := commit_finished hg
  rcases hf with ⟨⟨x, m, n, p, q, hx, henq, hcase⟩, hack⟩ | ⟨m', x, hx, hsv, hdest, hans⟩
  · rcases hcase with ⟨ht, hh⟩ | ⟨hsv, hdest, hans⟩
    · refine ⟨f, m, x, hx, hh.1, hh.2, ?_⟩
      rw [Delivered, ht]
      exact ⟨⟨p, q, henq⟩, hack⟩
    · obtain ⟨m0, v, hh, hv, hask, hcall, hr⟩ := delivered_service h' hx hans
      refine ⟨f, m0, x, hx, hh.1, hh.2, ?_⟩
      rw [Delivered]
      cases ht : x.target with
      | queue n' => rw [ht] at hv; cases hv
      | service v' r =>
        rw [ht] at hv hdest
        cases hv
        refine ⟨hask, hcall, m, hr, ?_⟩
        intro n' hn'
        have hdest : r = some n := hdest
        rw [hdest] at hn'
        cases hn'
        exact ⟨⟨p, q, henq⟩, hack⟩
  · obtain ⟨m0, v, hh, hv, hask, hcall, hr⟩ := delivered_service h' hx hans
    refine ⟨f, m0, x, hx, hh.1, hh.2, ?_⟩
    rw [Delivered]
    cases ht : x.target with
    | queue n' => rw [ht] at hv; cases hv
    | service v' r =>
      rw [ht] at hv hdest
      cases hv
      refine ⟨hask, hcall, m', hr, ?_⟩
      intro n' hn'
      have hdest : r = none := hdest
      rw [hdest] at hn'
      cases hn'

example : .commit 2 ⟨2⟩ ∈ (run served).log ∧ .commit 2 ⟨2⟩ ∈ (run moved).log ∧
    .call 2 ⟨2⟩ 42 300 ∈ (run served).log ∧ .enqueue 2 ⟨2⟩ 20 43 false (some 101) (some 6) ∈ (run served).log ∧
    .enqueue 2 ⟨2⟩ 40 41 true (some 101) (some 6) ∈ (run moved).log := by decide +kernel

/-! ### C111: once -/

/-- Ends transaction `t`. -/
def ends (t : Trid) : Obs → Bool
  | .commit _ u | .rollback _ u => u == t
  | _ => false

theorem filter_length_le {α : Type} {p q : α → Bool} {l : List α} (h : ∀ x ∈ l, p x = true → q x = true) :
    (l.filter p).length ≤ (l.filter q).length := by
  induction l with
  | nil => exact Nat.le_refl _
  | cons x l ih =>
    have ih := ih fun y hy => h y (List.mem_cons_of_mem _ hy)
    by_cases hp : p x = true
    · have hq := h x (List.mem_cons_self ..) hp
      simp only [List.filter_cons, hp, hq, if_true, List.length_cons]
      omega
    · rw [List.filter_cons_of_neg hp, List.filter_cons]
      split
      · rw [List.length_cons]; omega
      · exact ih

theorem deq_tr {es : List Event} {a b : List Obs} (hl : (run es).log = a ++ b) {c f : Nat} {t : Trid} (h : Deq c f t b) : t.n = c := by
  obtain ⟨p, q, h⟩ := h
  obtain ⟨b1, b2, e⟩ := List.append_of_mem h
  have := asks_run es (a ++ b1) b2 f c t p q (by rw [hl, e]; simp)
  exact this.tr

/-- C111. Every message is asked for in a transaction of its own. -/
theorem forward_own_transaction (es : List Event) {f f' c c' : Nat} {t : Trid} {p q p' q' : Option Nat}
    (h : .dequeue f c t p q ∈ (run es).log) (h' : .dequeue f' c' t p' q' ∈ (run es).log) : f = f' ∧ c = c' := by
  have h1 := deq_tr (es := es) (a := []) rfl ⟨p, q, h⟩
  have h2 := deq_tr (es := es) (a := []) rfl ⟨p', q', h'⟩
  have hc : c = c' := h1.symm.trans h2
  subst hc
  exact ⟨(deq_once (run_good es c) ⟨p, q, h⟩ ⟨p', q', h'⟩).1, rfl⟩

/-- C111. Every transaction is ended at most once: by one commit or one rollback, and never by both. -/
theorem forward_transaction_ended_once (es : List Event) (t : Trid) : ((run es).log.filter (ends t)).length ≤ 1 := by
  refine Nat.le_trans (filter_length_le (q := endsC t.n) ?_) (endCount_le (run_good es t.n)).1
  intro o ho he
  obtain ⟨a, b, e⟩ := List.append_of_mem ho
  have key : ∀ c, (o = .commit c t ∨ o = .rollback c t) → t.n = c := by
    intro c hc
    obtain ⟨f, hd⟩ := end_deq hc (walk_good (a := a) (by rw [← e]; exact run_good es c))
    exact deq_tr (es := es) (a := a ++ [o]) (by rw [e]; simp) hd
  cases o with
  | commit c u =>
    obtain rfl : u = t := by simpa [ends] using he
    simp [endsC, key c (Or.inl rfl)]
  | rollback c u =>
    obtain rfl : u = t := by simpa [ends] using he
    simp [endsC, key c (Or.inr rfl)]
  | _ => cases he

example : ((run served).log.filter (ends ⟨2⟩)).length = 1 ∧ ((run refused).log.filter (ends ⟨2⟩)).length = 1 := by decide +kernel

/-! ### C112: nothing is forgotten -/

/-- C112. A message that has arrived, in transaction `t`, is not forgotten: it is still on its way, or its transaction has
been ended, by a commit or a rollback. -/
theorem forward_no_message_forgotten (es : List Event) (c f m : Nat) (t : Trid) (a b : List Obs)
    (h : (run es).log = a ++ .got c (some m) :: b) (hb : walk c b = .asked f t) :
    (waiting (walk c (run es).log) = true ∧ inside (walk c (run es).log) = some (f, t)) ∨
      .commit c t ∈ (run es).log ∨ .rollback c t ∈ (run es).log := by
  have hw : inside (walk c (.got c (some m) :: b)) = some (f, t) := by
    rw [walk, if_pos (show heard (Obs.got c (some m)) = some c from rfl), hb]
    simp only [hear]
    split <;> rfl
  have hg := run_good es c
  rw [h] at hg
  rcases inside_stays hw a hg with hi | ⟨_, he⟩
  · left
    rw [← h] at hi
    refine ⟨?_, hi⟩
    rcases forward_keeps_to_protocol es c with e | e | e
    · rw [e] at hi; cases hi
    · rw [e] at hi; cases hi
    · exact e
  · right; rw [h]; exact he

example : ∃ a b, (run moved).log = a ++ .got 3 (some 42) :: b ∧ walk 3 b = .asked 0 ⟨3⟩ ∧
    waiting (walk 3 (run moved).log) = true :=
  ⟨(run moved).log.take 5, (run moved).log.drop 6, by decide +kernel, by decide +kernel, by decide +kernel⟩

/-! ### C113: failures -/

/-- What is heard is a failure: there is no message; there is one, but the forward is shutting down; the service is not
found, or it is found no more; the service has failed; the queue has not taken the message. -/
def failure (l : List Obs) : Phase → Obs → Option (Nat × Trid)
  | .asked f t, .got _ none => some (f, t)
  | .asked f t, .got _ (some _) => if isDown l then some (f, t) else none
  | .looking f t _, .found _ none => some (f, t)
  | .dropping f t, .dropped _ => some (f, t)
  | .calling f t, .replied _ false _ => some (f, t)
  | .storing f t, .acked _ false => some (f, t)
  | .storing f t, .undelivered _ => some (f, t)
  | _, _ => none

theorem failure_failed {l : List Obs} {ph : Phase} {o : Obs} {f : Nat} {t : Trid} (h : failure l ph o = some (f, t)) :
    hear l ph o = .failed f t := by
  cases ph with
  | asked g u =>
    cases o with
    | got c m =>
      cases m with
      | none => cases h; rfl
      | some m =>
        simp only [failure] at h
        split at h
        · next e => cases h; simp [hear, e]
        · cases h
    | _ => cases h
  | looking g u m =>
    cases o with
    | found c p => cases p <;> cases h <;> rfl
    | _ => cases h
  | dropping g u => cases o <;> first | (cases h; done) | (cases h; rfl)
  | calling g u =>
    cases o with
    | replied c ok m => cases ok <;> cases h <;> rfl
    | _ => cases h
  | storing g u =>
    cases o with
    | acked c ok => cases ok <;> cases h <;> rfl
    | undelivered c => cases h; rfl
    | _ => cases h
  | _ => cases h

/-- C113. Whenever something fails, the transaction is rolled back, and it is never committed. -/
theorem forward_failure_rolled_back (es : List Event) (c f : Nat) (t : Trid) (o : Obs) (a b : List Obs)
    (h : (run es).log = a ++ o :: b) (ho : heard o = some c) (hf : failure b (walk c b) o = some (f, t)) :
    .rollback c t ∈ a ∧ ∀ u, .commit c u ∉ (run es).log := by
  have hw : walk c (o :: b) = .failed f t := by rw [walk, if_pos ho]; exact failure_failed hf
  have hg := run_good es c
  have hr : .rollback c t ∈ a := by
    rw [h] at hg
    rcases failed_stays hw a hg with e | e
    · rw [← h] at e
      rcases forward_keeps_to_protocol es c with k | k | k <;> rw [e] at k <;> cases k
    · exact e
  refine ⟨hr, ?_⟩
  intro u hu
  have hrl : .rollback c t ∈ (run es).log := by rw [h]; exact List.mem_append_left _ hr
  have h1 := (endCount_le hg).1
  have h2 : ([.commit c u, .rollback c t] : List Obs).length ≤ ((run es).log.filter (endsC c)).length := by
    apply length_le_of_subset
    · simp
    · intro o ho
      rcases List.mem_cons.mp ho with rfl | ho
      · exact List.mem_filter.mpr ⟨hu, by simp [endsC]⟩
      · rw [List.mem_singleton.mp ho]
        exact List.mem_filter.mpr ⟨hrl, by simp [endsC]⟩
  unfold endCount at h1
  have h3 : ([.commit c u, .rollback c t] : List Obs).length = 2 := rfl
  omega

example : ∃ a b, (run refused).log = a ++ .replied 2 false 43 :: b ∧ failure b (walk 2 b) (.replied 2 false 43) = some (0, ⟨2⟩) ∧
    a = [.rollback 2 ⟨2⟩] :=
  ⟨(run refused).log.take 1, (run refused).log.drop 2, by decide +kernel, by decide +kernel, by decide +kernel⟩

/-! ### C114: how many -/

/-- C114. A message is asked for only if fewer messages are on their way than instances are configured; the forward is
enabled; and the request goes to the queue, and the process, that the queue manager has named for the source queue that is
configured. -/
theorem forward_concurrency_bound (es : List Event) (f c : Nat) (t : Trid) (p q : Option Nat) (a b : List Obs)
    (h : (run es).log = a ++ .dequeue f c t p q :: b) :
    inFlight f b < instancesOf f b ∧
      (∃ x, confOf f b = some x ∧ x.enabled = true ∧ ∃ k, .queueAt k x.source q p false ∈ b) ∧
      p.isSome = true ∧ q.isSome = true := by
  have := asks_run es a b f c t p q h
  exact ⟨by have := this.room; omega, this.conf, this.there⟩

/-- C114. After a shutdown no message is asked for, until instances are configured again. -/
theorem forward_no_dequeue_after_shutdown (es : List Event) (f c : Nat) (t : Trid) (p q : Option Nat) (a b b' : List Obs)
    (h : (run es).log = a ++ .dequeue f c t p q :: (b ++ .shutdown :: b')) : ∃ n, 0 < n ∧ .instances f n ∈ b := by
  have hr := (forward_concurrency_bound es f c t p q a _ h).1
  have : 0 < instancesOf f (b ++ .shutdown :: b') := by omega
  clear hr h
  induction b with
  | nil => exact absurd this (Nat.lt_irrefl _)
  | cons o b ih =>
    have key : 0 < instancesOf f (b ++ .shutdown :: b') → ∃ n, 0 < n ∧ .instances f n ∈ o :: b := fun h => by
      obtain ⟨n, hn, hm⟩ := ih h
      exact ⟨n, hn, List.mem_cons_of_mem _ hm⟩
    rw [List.cons_append] at this
    cases o with
    | instances g n =>
      simp only [instancesOf] at this
      split at this
      · next e => subst e; exact ⟨n, this, List.mem_cons_self ..⟩
      · exact key this
    | shutdown => exact absurd this (Nat.lt_irrefl _)
    | _ => exact key this

example : inFlight 0 (run moved).log = 2 ∧ instancesOf 0 (run moved).log = 2 ∧
    .dequeue 0 3 ⟨3⟩ (some 100) (some 5) ∈ (run moved).log := by decide +kernel

end Casual.Forward

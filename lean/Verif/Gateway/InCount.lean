import Verif.Gateway.InWhy
/-! The number of answers is at most the number of requests, in all histories. -/
namespace Casual.Gateway.In

/-- A request with the correlation that is to be answered once: a call, prepare, commit or rollback. -/
def once (k : Kind) : Bool := k == .call || k == .post || isResource k

def asks (c : Nat) : Obs → Bool
  | .req _ c' k _ => c' == c && once k
  | _ => false

def answers (c : Nat) : Obs → Bool
  | .sent _ c' k _ _ => c' == c && once k
  | _ => false

def busy (c : Nat) (t : Task) : Bool := t.corr == c && once t.kind

/-- Requests that are neither answered nor in progress. -/
def bal (c : Nat) (s : State) : Int :=
  s.log.countP (asks c) - s.log.countP (answers c) - s.tasks.countP (busy c)

/-- Neither a request nor an answer. -/
def mute : Obs → Bool
  | .req .. => false
  | .sent .. => false
  | _ => true

theorem mute_asks {o : Obs} (h : mute o = true) (c) : asks c o = false := by cases o <;> simp_all [mute, asks]
theorem mute_answers {o : Obs} (h : mute o = true) (c) : answers c o = false := by cases o <;> simp_all [mute, answers]

theorem bal_emit {c o s} (h : mute o = true) : bal c (emit o s) = bal c s := by
  simp [bal, mute_asks h, mute_answers h]

theorem bal_congr {c : Nat} {s t : State} (h1 : t.log = s.log) (h2 : t.tasks = s.tasks) : bal c t = bal c s := by
  unfold bal; rw [h1, h2]

theorem bal_fake {c d c' k r s} : bal c (fake d c' k r s) = bal c s := by
  unfold fake; split
  · exact (bal_emit rfl).trans (bal_congr rfl rfl)
  · rfl

theorem count_discards (c : Nat) (ts : List Task) (p : Obs → Bool) (hp : ∀ c, p (.discard c) = false) :
    (discards ts).reverse.countP p = 0 := by
  rw [List.countP_eq_zero]
  intro o ho
  rw [List.mem_reverse] at ho
  obtain ⟨t, _, rfl⟩ := List.mem_map.mp ho
  rw [hp]; simp

theorem bal_lost {c d s} : bal c s ≤ bal c (lost d s) := by
  cases h : connected d s with
  | false => rw [lost_not h]; exact Int.le_of_eq (bal_congr rfl rfl).symm
  | true =>
    rw [lost_eq h]
    unfold bal
    simp only [List.countP_append, List.countP_cons]
    rw [count_discards c _ _ (by intro; rfl), count_discards c _ _ (by intro; rfl)]
    have := (List.filter_sublist (p := fun t : Task => decide (t.key ≠ d)) (l := s.tasks)).countP_le (p := busy c)
    have e1 : asks c (.closed d) = false := rfl
    have e2 : answers c (.closed d) = false := rfl
    rw [if_neg (by rw [e1]; simp), if_neg (by rw [e2]; simp)]
    omega

theorem bal_mono {c : Nat} {s t : State} (h1 : t.log = s.log) (h2 : t.tasks.Sublist s.tasks) : bal c s ≤ bal c t := by
  unfold bal; rw [h1]
  have := h2.countP_le (p := busy c); omega

theorem bal_send {c ok d o s} (h : mute o = true) : bal c s ≤ bal c (send ok d o s) := by
  unfold send; split
  · split
    · exact Int.le_of_eq (bal_emit h).symm
    · exact bal_lost
  · exact Int.le_refl _

theorem bal_add {c t s} : bal c (addTask t s) = bal c s - (if busy c t then 1 else 0) := by
  simp only [bal, add_log, add_tasks, List.countP_append, List.countP_singleton]
  split <;> omega

theorem bal_req {c d c' k x s} : bal c (emit (.req d c' k x) s) = bal c s + (if c' = c ∧ once k = true then 1 else 0) := by
  unfold bal
  simp only [emit_log, emit_tasks, List.countP_cons, asks, answers]
  by_cases h : c' = c ∧ once k = true
  · simp [h.1, h.2]; omega
  · rw [if_neg h]
    have : (c' == c && once k) = false := by
      cases h1 : (c' == c && once k) with
      | false => rfl
      | true => simp at h1; exact absurd h1 h
    simp [this]

/-- After a handler that leaves the units as they are. -/
theorem bal_dispatch {c c' h s} (hp : ∀ t ∈ s.tasks, t.corr = c' → ∀ s' t', h t s = (s', some t') →
      bal c s ≤ bal c s' ∧ s'.tasks = s.tasks ∧ busy c t' = busy c t)
    (hd : ∀ t ∈ s.tasks, t.corr = c' → ∀ s', h t s = (s', none) →
      (bal c s ≤ bal c s' ∨ ((bal c s ≤ bal c s' + 1) ∧ s'.tasks = s.tasks ∧ busy c t = true))) :
    bal c s ≤ bal c (dispatch c' h s) := by
  refine dispatch_ind (P := fun x => bal c s ≤ bal c x) (Int.le_refl _) ?_ ?_ ?_
  · intro pre t post s' t' h1 h2 h3
    obtain ⟨a, b, e⟩ := hp t (by rw [h1]; simp) h2 s' t' h3
    refine Int.le_trans a (Int.le_of_eq ?_)
    unfold bal
    rw [b, h1]
    simp [List.countP_append, List.countP_cons, e]
  · intro pre t post s' h1 h2 h3 h4
    rcases hd t (by rw [h1]; simp) h2 s' h3 with a | ⟨a, b, e⟩
    · exact Int.le_trans a (bal_mono rfl (List.eraseIdx_sublist ..))
    · have : bal c { s' with tasks := s'.tasks.eraseIdx pre.length } = bal c s' + 1 := by
        unfold bal
        simp only
        rw [b, h1]
        simp [List.eraseIdx_append_of_length_le, List.countP_append, List.countP_cons, e]
        omega
      rw [this]; exact a
  · intro pre t post s' h1 h2 h3 h4
    rcases hd t (by rw [h1]; simp) h2 s' h3 with a | ⟨a, b, e⟩
    · exact Int.le_trans a (Int.le_of_eq (bal_congr rfl rfl).symm)
    · have := congrArg List.length h1
      rw [b] at h4
      simp at this; omega

theorem bal_sent {c ok} {t : Task} {k : Kind} {r : Rep} {x : Option Trid} {s : State} (hk : once k = true) (hb : once t.kind = true) :
    (bal c s ≤ bal c (send ok t.key (.sent t.key t.corr k r x) s) ∨
      ((bal c s ≤ bal c (send ok t.key (.sent t.key t.corr k r x) s) + 1) ∧
        (send ok t.key (.sent t.key t.corr k r x) s).tasks = s.tasks ∧ busy c t = true)) := by
  unfold send; split
  · split
    · by_cases hc : t.corr = c
      · right
        refine ⟨?_, rfl, by simp [busy, hc, hb]⟩
        unfold bal
        simp only [emit_log, emit_tasks, List.countP_cons, asks, answers, hc, hk]
        simp; omega
      · left
        unfold bal
        simp only [emit_log, emit_tasks, List.countP_cons, asks, answers]
        simp [hc]
    · exact Or.inl bal_lost
  · exact Or.inl (Int.le_refl _)

theorem bal_call {c c' r ok s} : bal c s ≤ bal c (dispatch c' (onCall r ok) s) := by
  refine bal_dispatch ?_ ?_
  · intro t _ _ s' t' h
    unfold onCall at h
    split at h
    · split at h <;> simp at h
    · simp only [Prod.mk.injEq, Option.some.injEq] at h
      obtain ⟨rfl, rfl⟩ := h
      exact ⟨Int.le_refl _, rfl, rfl⟩
  · intro t _ _ s' h
    unfold onCall at h
    split at h
    · rename_i hk
      have ho : once t.kind = true := by rcases hk with h | h <;> rw [h] <;> rfl
      split at h
      · simp only [Prod.mk.injEq, and_true] at h
        rw [← h]; exact bal_sent rfl ho
      · simp only [Prod.mk.injEq, and_true] at h
        rw [← h]; exact Or.inl (Int.le_of_eq (bal_congr rfl rfl).symm)
    · simp at h

theorem bal_resource {c c' k r ok s} (hk : once k = true) : bal c s ≤ bal c (dispatch c' (onResource k r ok) s) := by
  refine bal_dispatch ?_ ?_
  · intro t _ _ s' t' h
    unfold onResource at h
    split at h
    · simp at h
    · simp only [Prod.mk.injEq, Option.some.injEq] at h
      obtain ⟨rfl, rfl⟩ := h
      exact ⟨Int.le_refl _, rfl, rfl⟩
  · intro t _ _ s' h
    unfold onResource at h
    split at h
    · rename_i hk'
      simp only [Prod.mk.injEq, and_true] at h
      rw [← h]; exact bal_sent hk (by rw [hk']; exact hk)
    · simp at h

theorem bal_forward {c d c' k r x ok s} (hk : once k = false) : bal c s ≤ bal c (send ok d (.sent d c' k r x) s) := by
  unfold send; split
  · split
    · refine Int.le_of_eq ?_
      unfold bal
      simp only [emit_log, emit_tasks, List.countP_cons, asks, answers, hk, Bool.and_false]
      simp
    · exact bal_lost
  · exact Int.le_refl _

theorem bal_answer {c d c' k r ok s} : bal c s ≤ bal c (answer d c' k r ok s) := by
  cases k
  case call => exact bal_call
  case post => exact Int.le_refl _
  case prepare => exact bal_resource rfl
  case commit => exact bal_resource rfl
  case rollback => exact bal_resource rfl
  case conv => exact bal_forward rfl
  case enqueue => exact bal_forward rfl
  case dequeue => exact bal_forward rfl
  case discovery => exact bal_forward rfl

/-- Handlers that only add to the log. -/
theorem bal_quiet {c c' h s} (hp : ∀ t ∈ s.tasks, t.corr = c' → ∀ s' t', h t s = (s', some t') →
      bal c s ≤ bal c s' ∧ s'.tasks = s.tasks ∧ t'.corr = t.corr ∧ t'.kind = t.kind)
    (hd : ∀ t ∈ s.tasks, t.corr = c' → ∀ s', h t s = (s', none) → bal c s ≤ bal c s') :
    bal c s ≤ bal c (dispatch c' h s) :=
  bal_dispatch (fun t ht hc s' t' h => by
    obtain ⟨a, b, e1, e2⟩ := hp t ht hc s' t' h
    exact ⟨a, b, by unfold busy; rw [e1, e2]⟩) (fun t ht hc s' h => Or.inl (hd t ht hc s' h))

theorem bal_queueSend {c p t s} : bal c (queueSend p t s) = bal c s := by
  unfold queueSend; split
  · exact bal_fake
  · exact bal_emit rfl

theorem bal_service {c c' l s} : bal c s ≤ bal c (dispatch c' (onService l) s) := by
  refine bal_quiet ?_ ?_
  · intro t _ _ s' t' h
    unfold onService at h
    split at h
    · split at h
      · dsimp only at h
        split at h
        · simp only [Prod.mk.injEq, Option.some.injEq] at h
          obtain ⟨rfl, rfl⟩ := h
          exact ⟨Int.le_of_eq (bal_emit rfl).symm, rfl, rfl, rfl⟩
        · simp only [Prod.mk.injEq, Option.some.injEq] at h
          obtain ⟨rfl, rfl⟩ := h
          exact ⟨Int.le_refl _, rfl, rfl, rfl⟩
      all_goals
        simp only [Prod.mk.injEq, Option.some.injEq] at h
        obtain ⟨rfl, rfl⟩ := h
        exact ⟨Int.le_of_eq bal_fake.symm, fake_tasks .., rfl, rfl⟩
    · simp only [Prod.mk.injEq, Option.some.injEq] at h
      obtain ⟨rfl, rfl⟩ := h
      exact ⟨Int.le_refl _, rfl, rfl, rfl⟩
  · intro t _ _ s' h
    unfold onService at h
    split at h
    · split at h
      · dsimp only at h
        split at h <;> simp at h
      all_goals simp at h
    · simp at h

theorem bal_queue {c c' p s} : bal c s ≤ bal c (dispatch c' (onQueue p) s) := by
  refine bal_quiet ?_ ?_
  · intro t _ _ s' t' h
    unfold onQueue at h
    split at h
    · split at h
      · simp only [Prod.mk.injEq, Option.some.injEq] at h
        obtain ⟨rfl, rfl⟩ := h
        exact ⟨Int.le_refl _, rfl, rfl, rfl⟩
      · simp at h
    · simp only [Prod.mk.injEq, Option.some.injEq] at h
      obtain ⟨rfl, rfl⟩ := h
      exact ⟨Int.le_refl _, rfl, rfl, rfl⟩
  · intro t _ _ s' h
    unfold onQueue at h
    split at h
    · split at h
      · simp at h
      · simp only [Prod.mk.injEq, and_true] at h
        rw [← h]; exact Int.le_of_eq bal_queueSend.symm
    · simp at h

theorem bal_branch {c c' b s} : bal c s ≤ bal c (dispatch c' (onBranch b) s) := by
  refine bal_quiet ?_ ?_
  · intro t _ _ s' t' h
    unfold onBranch at h
    split at h
    · dsimp only at h
      split at h
      · simp only [Prod.mk.injEq, Option.some.injEq] at h
        obtain ⟨rfl, rfl⟩ := h
        exact ⟨Int.le_of_eq ((bal_emit rfl).trans (bal_congr rfl rfl)).symm, rfl, rfl, rfl⟩
      · simp only [Prod.mk.injEq, Option.some.injEq] at h
        obtain ⟨rfl, rfl⟩ := h
        exact ⟨Int.le_of_eq (bal_congr rfl rfl).symm, rfl, rfl, rfl⟩
    · split at h
      · dsimp only at h
        split at h
        · simp only [Prod.mk.injEq, Option.some.injEq] at h
          obtain ⟨rfl, rfl⟩ := h
          exact ⟨Int.le_of_eq (bal_congr rfl rfl).symm, rfl, rfl, rfl⟩
        · simp at h
      · simp only [Prod.mk.injEq, Option.some.injEq] at h
        obtain ⟨rfl, rfl⟩ := h
        exact ⟨Int.le_refl _, rfl, rfl, rfl⟩
  · intro t _ _ s' h
    unfold onBranch at h
    split at h
    · dsimp only at h
      split at h <;> simp at h
    · split at h
      · dsimp only at h
        split at h
        · simp at h
        · simp only [Prod.mk.injEq, and_true] at h
          rw [← h, bal_queueSend]; exact Int.le_of_eq (bal_congr (s := s) rfl rfl).symm
      · simp at h

theorem bal_say {c c' data s} : bal c s ≤ bal c (dispatch c' (onSay data) s) := by
  refine bal_quiet ?_ ?_
  · intro t _ _ s' t' h
    unfold onSay at h
    split at h
    · split at h
      all_goals
        simp only [Prod.mk.injEq, Option.some.injEq] at h
        obtain ⟨rfl, rfl⟩ := h
      · exact ⟨Int.le_of_eq (bal_emit rfl).symm, rfl, rfl, rfl⟩
      · exact ⟨Int.le_of_eq (bal_congr rfl rfl).symm, rfl, rfl, rfl⟩
    · simp only [Prod.mk.injEq, Option.some.injEq] at h
      obtain ⟨rfl, rfl⟩ := h
      exact ⟨Int.le_refl _, rfl, rfl, rfl⟩
  · intro t _ _ s' h
    unfold onSay at h
    split at h
    · split at h <;> simp at h
    · simp at h

theorem bal_hangup {c c' s} : bal c s ≤ bal c (dispatch c' onHangup s) := by
  refine bal_quiet ?_ ?_
  · intro t _ _ s' t' h
    unfold onHangup at h
    split at h
    · split at h <;> simp at h
    · simp only [Prod.mk.injEq, Option.some.injEq] at h
      obtain ⟨rfl, rfl⟩ := h
      exact ⟨Int.le_refl _, rfl, rfl, rfl⟩
  · intro t _ _ s' h
    unfold onHangup at h
    split at h
    · split at h
      all_goals
        simp only [Prod.mk.injEq, and_true] at h
        rw [← h]
      · exact Int.le_of_eq (bal_emit rfl).symm
      · exact Int.le_of_eq (bal_congr rfl rfl).symm
    · simp at h

theorem bal_start {c k d c' x s} (t : Task) (u : State) (h1 : t.corr = c') (h2 : t.kind = k)
    (h3 : bal c u = bal c (emit (.req d c' k x) s)) : bal c s ≤ bal c (addTask t u) := by
  rw [bal_add, h3, bal_req]
  by_cases h : c' = c ∧ once k = true
  · simp only [busy, h1, h2, h.1, h.2]; simp
  · rw [if_neg h]
    have : busy c t = false := by
      cases hb : busy c t with
      | false => rfl
      | true => simp [busy, h1, h2] at hb; exact absurd hb h
    rw [this]; simp

theorem bal_serviceRequest {c k d c' x s} : bal c s ≤ bal c (serviceRequest k d c' x (emit (.req d c' k x) s)) := by
  unfold serviceRequest
  dsimp only
  split
  · exact bal_start (d := d) (x := none) _ _ rfl rfl (bal_emit rfl)
  · split
    · exact bal_start (d := d) (x := some _) _ _ rfl rfl ((bal_congr rfl rfl).trans (bal_emit (o := .askService d c') rfl))
    · exact bal_start (d := d) (x := some _) _ _ rfl rfl ((bal_emit rfl).trans (bal_emit rfl))

theorem bal_queueRequest {c k d c' x qm s} : bal c s ≤ bal c (queueRequest k d c' x qm (emit (.req d c' k x) s)) := by
  have h0 : bal c (if qm = true then emit (.askQueue d c') (emit (.req d c' k x) s) else emit (.req d c' k x) s)
      = bal c (emit (.req d c' k x) s) := by
    split
    · exact bal_emit rfl
    · rfl
  unfold queueRequest
  dsimp only
  generalize (if qm = true then emit (.askQueue d c') (emit (.req d c' k x) s) else emit (.req d c' k x) s) = u at h0
  split
  · exact bal_start _ _ rfl rfl h0
  · split
    · exact bal_start _ _ rfl rfl ((bal_congr (s := u) rfl rfl).trans h0)
    · exact bal_start _ _ rfl rfl ((bal_emit rfl).trans h0)

theorem bal_resourceRequest {c k d c' x s} : bal c s ≤ bal c (resourceRequest k d c' x (emit (.req d c' k x) s)) := by
  unfold resourceRequest
  split
  · exact bal_start _ _ rfl rfl (bal_emit rfl)
  · exact bal_start _ _ rfl rfl bal_fake

theorem bal_request {c k d c' x qm s} : bal c s ≤ bal c (request k d c' x qm (emit (.req d c' k x) s)) := by
  cases k
  case call => exact bal_serviceRequest
  case post => exact bal_serviceRequest
  case conv => exact bal_serviceRequest
  case enqueue => exact bal_queueRequest
  case dequeue => exact bal_queueRequest
  case prepare => exact bal_resourceRequest
  case commit => exact bal_resourceRequest
  case rollback => exact bal_resourceRequest
  case discovery =>
    refine Int.le_of_eq ?_
    show _ = bal c (emit _ (emit _ s))
    rw [bal_emit rfl, bal_req]; simp [once, isResource]

theorem bal_disconnect {c ok d s} : bal c s ≤ bal c (disconnect ok d s) := by
  unfold disconnect; split
  · exact Int.le_refl _
  · split
    · exact bal_send rfl
    · exact bal_lost

theorem bal_apply {c e s} : bal c s ≤ bal c (apply e s) := by
  have on_le : ∀ {d : Nat} {f : State → State}, bal c s ≤ bal c (f s) → bal c s ≤ bal c (on d f s) := by
    intro d f h; exact on_ind (P := fun x => bal c s ≤ bal c x) (Int.le_refl _) fun _ => h
  have em : ∀ {o : Obs} {u : State}, mute o = true → bal c (emit o s) ≤ bal c u → bal c s ≤ bal c u :=
    fun h h' => Int.le_trans (Int.le_of_eq (bal_emit h).symm) h'
  cases e <;> simp only [apply]
  case connect d m =>
    split
    · exact Int.le_refl _
    · exact Int.le_of_eq ((bal_emit rfl).trans (bal_congr rfl rfl)).symm
  case request => exact on_le bal_request
  case say => exact on_le bal_say
  case hangup => exact on_le bal_hangup
  case closing d =>
    refine on_le (em (o := .closing d) rfl ?_)
    unfold closing; split
    · exact bal_lost
    · exact Int.le_of_eq (bal_congr (s := emit (.closing d) s) rfl rfl).symm
  case broken => exact on_le bal_lost
  case service => exact on_le (em rfl bal_service)
  case queueAt => exact on_le (em rfl bal_queue)
  case branch => exact on_le (em rfl bal_branch)
  case answer => exact on_le (em rfl bal_answer)
  case localSay d c' data t ok =>
    refine on_le ?_
    unfold localSay
    dsimp only
    split
    · exact Int.le_trans (bal_send (ok := ok) (d := d) rfl) (bal_mono rfl List.filter_sublist)
    · exact bal_send rfl
  case own i ok =>
    split
    · exact Int.le_refl _
    · rename_i m _
      exact Int.le_trans (Int.le_of_eq (bal_congr (s := s) (t := { s with inbox := s.inbox.eraseIdx i }) rfl rfl).symm) bal_answer
  case undeliverable => exact em rfl (Int.le_of_eq bal_fake.symm)
  case disassociate => exact Int.le_of_eq ((bal_emit rfl).trans (bal_congr rfl rfl)).symm
  case disconnect => exact bal_disconnect
  case idle =>
    unfold idle
    have : ∀ (xs : List Nat) (u : State), bal c u ≤ bal c (xs.foldl (fun s d => lost d s) u) := by
      intro xs; induction xs with
      | nil => intro u; exact Int.le_refl _
      | cons x xs ih => intro u; exact Int.le_trans bal_lost (ih _)
    exact Int.le_trans (Int.le_of_eq (bal_congr rfl rfl).symm) (this _ _)
  case shutdown bad =>
    unfold shutdown
    have : ∀ (xs : List Nat) (u : State), bal c u ≤ bal c (xs.foldl (fun s d => disconnect (!bad.contains d) d s) u) := by
      intro xs; induction xs with
      | nil => intro u; exact Int.le_refl _
      | cons x xs ih => intro u; exact Int.le_trans bal_disconnect (ih _)
    exact Int.le_trans (Int.le_of_eq (bal_congr rfl rfl).symm) (this _ _)

theorem bal_run (c : Nat) (es : List Event) : 0 ≤ bal c (run es) :=
  inv_run (P := fun s => 0 ≤ bal c s) (by simp [bal]) (fun _ _ _ h => Int.le_trans h bal_apply) es

end Casual.Gateway.In

import Verif.Gateway.OutInv
/-!
Requests and answers of the outbound group, counted.
-/
namespace Casual.Gateway.Out

/-- Service calls and queue requests: they are to be answered once. -/
def work : Kind → Bool
  | .call => true
  | .enqueue => true
  | .dequeue => true
  | _ => false

/-- The observation is a request with the correlation. -/
def asks (c : Nat) : Obs → Bool
  | .req _ c' _ k _ => c' == c && work k
  | _ => false

/-- The observation is an answer, to the local process, with the correlation. -/
def answers (c : Nat) : Obs → Bool
  | .reply _ c' k _ => c' == c && work k
  | .refused _ c' => c' == c
  | _ => false

def busy (c : Nat) (t : Task) : Bool := t.corr == c && work t.kind

/-- Requests that are neither answered nor in flight. -/
def bal (c : Nat) (s : State) : Int :=
  (s.log.countP (asks c) : Int) - s.log.countP (answers c) - s.tasks.countP (busy c)

theorem bal_congr {c : Nat} {s t : State} (h1 : s.log = t.log) (h2 : s.tasks = t.tasks) : bal c s = bal c t := by
  unfold bal; rw [h1, h2]

theorem bal_emit (c o s) : bal c (emit o s) =
    bal c s + (if asks c o then 1 else 0) - (if answers c o then 1 else 0) := by
  unfold bal
  simp only [emit_log, emit_tasks, List.countP_cons]
  split <;> split <;> omega

theorem bal_emit0 {c o s} (h1 : asks c o = false) (h2 : answers c o = false) : bal c (emit o s) = bal c s := by
  rw [bal_emit, h1, h2]; simp

theorem bal_metrics {c : Nat} {s t : State} (h2 : t.tasks = s.tasks)
    (h : t.log = s.log ∨ ∃ p, t.log = .metrics p :: s.log) : bal c t = bal c s := by
  unfold bal
  rcases h with h | ⟨p, h⟩ <;> rw [h, h2]
  simp [asks, answers]

@[simp] theorem bal_metric (c c' k s) : bal c (metric c' k s) = bal c s :=
  bal_metrics (by simp) (metric_log c' k s)

@[simp] theorem bal_force (c s) : bal c (forceMetric s) = bal c s :=
  bal_metrics (by simp) (force_log s)

@[simp] theorem bal_unadv (c d s) : bal c (unadvertise d s) = bal c s := by
  unfold unadvertise; split
  · exact bal_emit0 rfl rfl
  · rfl

theorem bal_failTask (c t s) : bal c (failTask t s) = bal c s - (if busy c t then 1 else 0) := by
  unfold failTask busy
  split <;> rename_i h <;> simp only [bal_metric, bal_emit, asks, answers, h, work] <;> simp
  all_goals (cases h' : t.kind <;> simp_all [work])

theorem bal_foldFail (c : Nat) (ts : List Task) (s : State) :
    bal c (ts.foldl (fun s t => failTask t s) s) = bal c s - ts.countP (busy c) := by
  induction ts generalizing s with
  | nil => simp
  | cons t ts ih =>
    rw [List.foldl_cons, ih, bal_failTask, List.countP_cons]
    split <;> omega

theorem countP_split (p q : Task → Bool) (l : List Task) :
    (l.filter q).countP p + (l.filter (fun x => !q x)).countP p = l.countP p := by
  induction l with
  | nil => rfl
  | cons a l ih =>
    simp only [List.filter_cons, List.countP_cons]
    cases q a <;> simp [List.countP_cons] <;> omega

@[simp] theorem bal_ft (c d s) : bal c (failedTasks d s) = bal c s := by
  have h := bal_foldFail c (s.tasks.filter (·.key = d)) s
  have h1 := (foldFail_fields (s.tasks.filter (·.key = d)) s).1
  have h2 := countP_split (busy c) (·.key = d) s.tasks
  have h3 : (s.tasks.filter (fun x => !decide (x.key = d))) = s.tasks.filter (·.key ≠ d) := by
    congr 1; funext x; simp
  rw [h3] at h2
  unfold bal at h ⊢
  rw [h1] at h
  have h4 : (failedTasks d s).log = ((s.tasks.filter (·.key = d)).foldl (fun s t => failTask t s) s).log := rfl
  rw [ft_tasks, h4]
  omega

@[simp] theorem bal_lost (c d s) : bal c (lost d s) = bal c s := by
  have h : bal c (lostMid d s) = bal c s := by
    unfold lostMid; split
    · rw [bal_ft, bal_emit0 rfl rfl, bal_unadv]
    · rw [bal_ft, bal_unadv]
  rw [← h]
  exact bal_congr (lost_log d s) (by rw [lost_tasks, mid_tasks])

theorem bal_send {c ok d o s} (h1 : asks c o = false) (h2 : answers c o = false) : bal c (send ok d o s) = bal c s := by
  unfold send; split
  · split
    · exact bal_emit0 h1 h2
    · rw [bal_emit0 rfl rfl, bal_lost]
  · rfl

@[simp] theorem bal_involve (c g d s) : bal c (involve g d s) = bal c s := by
  unfold involve
  split
  · rfl
  · dsimp only; split
    · split
      · rw [bal_emit0 rfl rfl]; rfl
      · rfl
    · rfl

theorem bal_add (c t s) : bal c (addTask t s) = bal c s - (if busy c t then 1 else 0) := by
  unfold bal; simp only [add_tasks, add_log, List.countP_append, List.countP_cons, List.countP_nil]
  split <;> omega

@[simp] theorem bal_addDest (c e s) : bal c (addDest e s) = bal c s := bal_congr (by simp) (by simp)

theorem findIdx_get {c : Nat} {l : List Task} {i : Nat} (h : l.findIdx? (·.corr = c) = some i) :
    ∃ t, l[i]? = some t ∧ t.corr = c := by
  rw [List.findIdx?_eq_some_iff_getElem] at h
  obtain ⟨hi, hc, _⟩ := h
  exact ⟨l[i], List.getElem?_eq_getElem hi, by simpa using hc⟩

theorem countP_eraseIdx {A : Type} (p : A → Bool) {l : List A} {i : Nat} {t : A} (h : l[i]? = some t) :
    (l.eraseIdx i).countP p + (if p t then 1 else 0) = l.countP p := by
  induction l generalizing i with
  | nil => simp at h
  | cons a l ih =>
    cases i with
    | zero =>
      simp only [List.getElem?_cons_zero, Option.some.injEq] at h
      subst h
      simp [List.countP_cons]
    | succ i =>
      simp only [List.getElem?_cons_succ] at h
      simp only [List.eraseIdx_cons_succ, List.countP_cons]
      have := ih h
      omega

/-- A handler that leaves the units alone, and answers when it is done with a call or a queue request. -/
theorem bal_dispatch {c c' : Nat} {h : Task → State → State × Bool} {s : State}
    (h1 : ∀ t, (h t s).1.tasks = s.tasks)
    (h2 : ∀ t, bal c (h t s).1 = bal c s - (if (h t s).2 ∧ busy c t then 1 else 0)) :
    bal c (dispatch c' h s) = bal c s := by
  unfold dispatch
  cases hf : s.tasks.findIdx? (·.corr = c') with
  | none => rfl
  | some i =>
    obtain ⟨t, ht, _⟩ := findIdx_get hf
    simp only [ht]
    have e1 := h1 t
    have e2 := h2 t
    have hi : i < s.tasks.length := by
      rw [List.getElem?_eq_some_iff] at ht; exact ht.1
    cases hd : (h t s).2 with
    | false => simp [hd] at e2 ⊢; exact e2
    | true =>
      simp only [if_true, e1, hi]
      have e3 := countP_eraseIdx (busy c) ht
      simp only [hd, true_and] at e2
      unfold bal at e2 ⊢
      simp only [e1] at e2 ⊢
      split at e3 <;> split at e2 <;> simp_all <;> omega

theorem bal_onReply (c k r t s) : (onReply k r t s).1.tasks = s.tasks ∧
    bal c (onReply k r t s).1 = bal c s - (if (onReply k r t s).2 ∧ busy c t then 1 else 0) := by
  unfold onReply
  split
  · rename_i hk
    subst hk
    split <;> rename_i hk <;> constructor
    · dsimp only; split
      · split <;> simp
      · simp
    · dsimp only
      have : ∀ s', bal c (if r.code = noEntry then
          (if connected t.key s' then emit (.unadvertisedOne t.key t.service) s' else s') else s') = bal c s' := by
        intro s'; split
        · split
          · exact bal_emit0 rfl rfl
          · rfl
        · rfl
      rw [bal_metric, this, bal_emit]
      simp [asks, answers, busy, work, hk]
    · simp
    · simp [bal_emit, asks, answers, busy, work, hk]
    · simp
    · simp [bal_emit, asks, answers, busy, work, hk]
    · simp
    · simp
  · simp

theorem bal_onConnect (c r t s) : (onConnect r t s).1.tasks = s.tasks ∧
    bal c (onConnect r t s).1 = bal c s - (if (onConnect r t s).2 ∧ busy c t then 1 else 0) := by
  unfold onConnect
  split
  · dsimp only
    constructor
    · split
      · split <;> simp
      · simp
    · have : ∀ s', bal c (if r.code = noEntry then
          (if connected t.key s' then emit (.unadvertisedOne t.key t.service) s' else s') else s') = bal c s' := by
        intro s'; split
        · split
          · exact bal_emit0 rfl rfl
          · rfl
        · rfl
      rw [bal_emit0 rfl (by simp [answers, work]), this]; simp
  · simp

theorem bal_onSend (c data tm t s) : (onSend data tm t s).1.tasks = s.tasks ∧
    bal c (onSend data tm t s).1 = bal c s - (if (onSend data tm t s).2 ∧ busy c t then 1 else 0) := by
  unfold onSend
  split
  · rename_i hk
    constructor
    · rfl
    · dsimp only; rw [bal_emit0 rfl rfl]; simp [busy, work, hk]
  · simp

theorem bal_onHangup (c ok t s) :
    bal c (onHangup ok t s).1 = bal c s - (if (onHangup ok t s).2 ∧ busy c t then 1 else 0) := by
  unfold onHangup
  split
  · rename_i hk
    dsimp only; rw [bal_metric, bal_send rfl rfl]; simp [busy, work, hk]
  · simp

theorem onHangup_tasks (t s) : (onHangup true t s).1.tasks = s.tasks := by
  unfold onHangup send
  split
  · dsimp only; split <;> simp
  · rfl

/-- Whatever a hang up does, it can only lose units. -/
theorem bal_hangup_le (c c' ok s) : bal c s ≤ bal c (dispatch c' (onHangup ok) s) := by
  unfold dispatch
  cases hf : s.tasks.findIdx? (·.corr = c') with
  | none => exact Int.le_refl _
  | some i =>
    obtain ⟨t, ht, _⟩ := findIdx_get hf
    simp only [ht]
    have e := bal_onHangup c ok t s
    have hb : bal c (onHangup ok t s).1 = bal c s := by
      rw [e]; unfold onHangup; split
      · rename_i hk; simp [busy, work, hk]
      · simp
    split
    · split
      · rename_i hi
        obtain ⟨u, hu⟩ : ∃ u, (onHangup ok t s).1.tasks[i]? = some u := ⟨_, List.getElem?_eq_getElem hi⟩
        have := countP_eraseIdx (busy c) hu
        rw [← hb]; unfold bal; simp only; split at this <;> omega
      · exact Int.le_of_eq hb.symm
    · exact Int.le_of_eq hb.symm

theorem takeDest_fields (c s) : (takeDest c s).1.tasks = s.tasks ∧ (takeDest c s).1.log = s.log ∧
    (takeDest c s).1.conns = s.conns ∧ (takeDest c s).1.trans = s.trans ∧
    (takeDest c s).1.disconnecting = s.disconnecting ∧ (takeDest c s).1.dead = s.dead ∧
    (takeDest c s).1.running = s.running ∧ (takeDest c s).1.pending = s.pending := by
  unfold takeDest; split <;> exact ⟨rfl, rfl, rfl, rfl, rfl, rfl, rfl, rfl⟩

theorem bal_resourceReply {c c' k r s} (hk : work k = false) : bal c (resourceReply c' k r s) = bal c s := by
  have h := takeDest_fields c' s
  unfold resourceReply
  split <;> rename_i s' e he <;> rw [he] at h
  · rw [bal_emit0 rfl (by simp [answers, hk])]; exact bal_congr h.2.1 h.1
  · exact bal_congr h.2.1 h.1

theorem bal_discoveryReply {c d c' sv q r s} : bal c (discoveryReply d c' sv q r s) = bal c s := by
  unfold discoveryReply
  dsimp only
  rw [bal_resourceReply rfl]
  split
  · split
    · rfl
    · exact bal_emit0 rfl rfl
  · split
    · exact bal_emit0 rfl rfl
    · rw [bal_emit0 rfl rfl, bal_emit0 rfl rfl]

@[simp] theorem bal_disconnect (c d b s) : bal c (disconnect d b s) = bal c s := by
  have := bal_unadv c d s
  exact this

theorem bal_idleLoop (c : Nat) (xs : List (Nat × Bool)) (s : State) : bal c (idleLoop xs s) = bal c s := by
  induction xs generalizing s with
  | nil => rfl
  | cons x xs ih =>
    obtain ⟨d, b⟩ := x
    unfold idleLoop
    dsimp only
    rw [ih]
    split
    · rw [bal_emit0 rfl rfl, bal_lost]
    · exact bal_lost c d s

theorem bal_foldDisc (c : Nat) (xs : List Nat) (s : State) :
    bal c (xs.foldl (fun s d => disconnect d true s) s) = bal c s := by
  induction xs generalizing s with
  | nil => rfl
  | cons x xs ih => rw [List.foldl_cons, ih, bal_disconnect]

theorem find_conn {d : Nat} {s : State} (h : connected d s = true) : ∃ x, s.conns.find? (·.d == d) = some x ∧ x.d = d := by
  unfold connected at h
  obtain ⟨x, hx, hd⟩ := List.any_eq_true.mp h
  cases hf : s.conns.find? (·.d == d) with
  | none => exact absurd hd (by simpa using List.find?_eq_none.mp hf x hx)
  | some y => exact ⟨y, rfl, by simpa using List.find?_some hf⟩

theorem bal_call {c d c' ipc sv g ok s} (h : connected d s = true) :
    bal c (call d c' ipc sv g ok s) = bal c s - (if c' = c then 1 else 0) := by
  unfold call
  split
  · rw [bal_metric, bal_emit]; simp [asks, answers]
  · obtain ⟨x, hx, _⟩ := find_conn h
    simp only [hx]
    split
    · rw [bal_involve, bal_add, bal_send rfl rfl]; simp [busy, work]
    · rw [bal_send rfl rfl, bal_involve, bal_add]; simp [busy, work]

theorem bal_on {c d f s} (h : connected d s = true → bal c (f s) = bal c s) : bal c (on d f s) = bal c s := by
  unfold on; split
  · exact h (by assumption)
  · rfl

/-- A hang up of a conversation that can not be sent. -/
def badHangup : Event → Bool
  | .hangup _ _ false => true
  | _ => false

theorem bal_apply_eq (c : Nat) (e : Event) (s : State) (he : badHangup e = false) : bal c (apply e s) = bal c s := by
  cases e <;> simp only [apply]
  case connect d m =>
    split
    · rfl
    · rw [bal_emit0 rfl rfl]; rfl
  case call d c' ipc sv g ok =>
    refine bal_on fun h => ?_
    rw [bal_call (by simpa using h), bal_emit]; simp [asks, answers, work]
  case converse d c' ipc sv g ok =>
    refine bal_on fun h => ?_
    unfold converse
    rw [bal_send rfl rfl, bal_involve, bal_add, bal_emit]; simp [asks, answers, work, busy]
  case say => exact bal_on fun h => bal_send rfl rfl
  case hangup d c' ok =>
    cases ok with
    | false => simp [badHangup] at he
    | true =>
      exact bal_on fun h => bal_dispatch (fun t => onHangup_tasks t s) (fun t => bal_onHangup c true t s)
  case enqueue d c' ipc g ok =>
    refine bal_on fun h => ?_
    unfold queue
    rw [bal_involve, bal_add, bal_send rfl rfl, bal_emit]; simp [asks, answers, work, busy]
  case dequeue d c' ipc g ok =>
    refine bal_on fun h => ?_
    unfold queue
    rw [bal_involve, bal_add, bal_send rfl rfl, bal_emit]; simp [asks, answers, work, busy]
  case prepare => refine bal_on fun h => ?_; unfold resource; rw [bal_send rfl rfl, bal_addDest, bal_emit]; simp [asks, answers, work]
  case commit => refine bal_on fun h => ?_; unfold resource; rw [bal_send rfl rfl, bal_addDest, bal_emit]; simp [asks, answers, work]
  case rollback => refine bal_on fun h => ?_; unfold resource; rw [bal_send rfl rfl, bal_addDest, bal_emit]; simp [asks, answers, work]
  case discover =>
    refine bal_on fun h => ?_
    unfold discovery; split
    · simp [bal_emit, asks, answers, work]
    · rw [bal_send rfl rfl, bal_addDest, bal_emit]; simp [asks, answers, work]
  case explore =>
    refine bal_on fun h => ?_
    unfold explore; split
    · rfl
    · exact bal_send rfl rfl
  case rDisconnect => refine bal_on fun h => ?_; rw [bal_send rfl rfl, bal_disconnect]
  case rCall =>
    refine bal_on fun h => ?_
    rw [bal_dispatch (fun t => (bal_onReply c _ _ t _).1) (fun t => (bal_onReply c _ _ t _).2), bal_emit0 rfl rfl]
  case rEnqueue =>
    refine bal_on fun h => ?_
    rw [bal_dispatch (fun t => (bal_onReply c _ _ t _).1) (fun t => (bal_onReply c _ _ t _).2), bal_emit0 rfl rfl]
  case rDequeue =>
    refine bal_on fun h => ?_
    rw [bal_dispatch (fun t => (bal_onReply c _ _ t _).1) (fun t => (bal_onReply c _ _ t _).2), bal_emit0 rfl rfl]
  case rConnect =>
    refine bal_on fun h => ?_
    rw [bal_dispatch (fun t => (bal_onConnect c _ t _).1) (fun t => (bal_onConnect c _ t _).2), bal_emit0 rfl rfl]
  case rSay => exact bal_on fun h => bal_dispatch (fun t => (bal_onSend c _ _ t _).1) (fun t => (bal_onSend c _ _ t _).2)
  case rPrepare => refine bal_on fun h => ?_; rw [bal_resourceReply rfl, bal_emit0 rfl rfl]
  case rCommit => refine bal_on fun h => ?_; rw [bal_resourceReply rfl, bal_emit0 rfl rfl]
  case rRollback => refine bal_on fun h => ?_; rw [bal_resourceReply rfl, bal_emit0 rfl rfl]
  case rDiscover => refine bal_on fun h => ?_; rw [bal_discoveryReply, bal_emit0 rfl rfl, bal_emit0 rfl rfl]
  case broken => refine bal_on fun h => ?_; rw [bal_emit0 rfl rfl, bal_lost]
  case disassociate => rw [bal_emit0 rfl rfl]; rfl
  case remove => exact bal_on fun h => bal_disconnect _ _ _ _
  case idle => unfold idle; rw [bal_force, bal_idleLoop]
  case shutdown => unfold shutdown; rw [bal_force, bal_foldDisc]; rfl

theorem bal_apply_le (c : Nat) (e : Event) (s : State) : bal c s ≤ bal c (apply e s) := by
  cases he : badHangup e with
  | false => exact Int.le_of_eq (bal_apply_eq c e s he).symm
  | true =>
    cases e <;> simp [badHangup] at he
    simp only [apply, on]; split
    · exact bal_hangup_le c _ _ s
    · exact Int.le_refl _

theorem bal_nonneg (c : Nat) (es : List Event) : 0 ≤ bal c (run es) := by
  refine inv_run (P := fun s => 0 ≤ bal c s) (by simp [bal]) (fun s e h => ?_) es
  unfold step; split
  · exact h
  · exact Int.le_trans h (bal_apply_le c e s)

theorem bal_zero (c : Nat) (es : List Event) (hb : ∀ e ∈ es, badHangup e = false) : bal c (run es) = 0 := by
  refine inv_run_of (P := fun s => bal c s = 0) (A := fun e => badHangup e = false) (by simp [bal]) (fun s e he h => ?_) es hb
  unfold step; split
  · exact h
  · rw [bal_apply_eq c e s he, h]

end Casual.Gateway.Out

import Verif.Gateway.InReal
/-! When an inbound group dies. -/
namespace Casual.Gateway.In

/-- The number of times that the other domain has said that the connection is to be closed. -/
def closings (d : Nat) : List Obs → Nat
  | [] => 0
  | .closing d' :: l => (if d' = d then 1 else 0) + closings d l
  | .closed d' :: l => if d' = d then 0 else closings d l
  | _ :: l => closings d l

structure Pend (s : State) : Prop where
  live : ∀ d ∈ s.pending, connected d s = true
  count : ∀ d, s.pending.count d ≤ closings d s.log

/-- Observations that do not count. -/
def plain : Obs → Bool
  | .closing _ | .closed _ => false
  | _ => true

theorem plains_closings {a d l} (h : ∀ o ∈ a, plain o = true) : closings d (a ++ l) = closings d l := by
  induction a with
  | nil => rfl
  | cons o a ih =>
    have h1 := h o (List.mem_cons_self ..)
    have h2 := ih fun o ho => h o (List.mem_cons_of_mem _ ho)
    cases o <;> first | (cases h1; done) | exact h2

theorem closings_note {s o d l} (h : Harmless s o) : closings d l ≤ closings d (o :: l) := by
  cases o <;> first | exact (show False from h).elim | exact Nat.le_refl _ | skip
  simp only [closings]; omega

theorem pend_of {s t : State} (hs : Pend s) (hp : t.pending = s.pending) (hc : t.conns = s.conns)
    (hl : ∀ d, closings d s.log ≤ closings d t.log) : Pend t where
  live := fun d h => by rw [connected_congr hc]; rw [hp] at h; exact hs.live d h
  count := fun d => by rw [hp]; exact Nat.le_trans (hs.count d) (hl d)

theorem pend_plain {s t : State} (a : List Obs) (hs : Pend s) (hp : t.pending = s.pending) (hc : t.conns = s.conns)
    (hl : t.log = a ++ s.log) (ha : ∀ o ∈ a, plain o = true) : Pend t :=
  pend_of hs hp hc fun d => by rw [hl, plains_closings ha]; exact Nat.le_refl _

theorem asking_plain {o} (h : asking o = true) : plain o = true := by cases o <;> first | rfl | (cases h; done)

theorem service_pending (k d c x s) : (serviceRequest k d c x s).pending = s.pending ∧ (serviceRequest k d c x s).conns = s.conns := by
  unfold serviceRequest; dsimp only; split
  · exact ⟨rfl, rfl⟩
  · split <;> exact ⟨rfl, rfl⟩

theorem queue_pending (k d c x qm s) : (queueRequest k d c x qm s).pending = s.pending ∧ (queueRequest k d c x qm s).conns = s.conns := by
  unfold queueRequest; dsimp only
  cases qm <;> split
  · exact ⟨rfl, rfl⟩
  · split <;> exact ⟨rfl, rfl⟩
  · exact ⟨rfl, rfl⟩
  · split <;> exact ⟨rfl, rfl⟩

theorem resource_pending (k d c x s) : (resourceRequest k d c x s).pending = s.pending ∧ (resourceRequest k d c x s).conns = s.conns := by
  unfold resourceRequest; split
  · exact ⟨rfl, rfl⟩
  · exact ⟨(add_pending ..).trans (fake_pending ..), (add_conns ..).trans (fake_conns ..)⟩

theorem queueSend_pending (p t s) : (queueSend p t s).pending = s.pending := by
  unfold queueSend; split
  · exact fake_pending ..
  · rfl

theorem pend_move (s t : State) (h : Move s t) (hd : t.dead = false) (hs : Pend s) : Pend t := by
  cases h
  case same h1 h2 h3 h4 h5 h6 h7 =>
    refine ⟨fun d h => ?_, fun d => ?_⟩
    · rw [connected_congr h1]; exact hs.live d (h7.mem h)
    · rw [h5]; exact Nat.le_trans (h7.count_le d) (hs.count d)
  case push d hc =>
    refine ⟨fun d' h => ?_, fun d' => ?_⟩
    · rcases List.mem_append.mp h with h | h
      · exact hs.live d' h
      · rw [List.mem_singleton.mp h]; exact hc
    · have := hs.count d'
      simp only [emit_log, closings, List.count_append, List.count_singleton, beq_iff_eq]
      omega
  case die h => rw [h] at hd; cases hd
  case connect d m hc =>
    refine ⟨fun d' h => ?_, hs.count⟩
    obtain ⟨x, h1, h2⟩ := connected_iff.mp (hs.live d' h)
    exact connected_iff.mpr ⟨x, List.mem_append_left _ h1, h2⟩
  case lost d hc =>
    have hdis : ∀ o ∈ (discards (s.tasks.filter (·.key = d))).reverse, plain o = true := by
      intro o ho
      rw [List.mem_reverse] at ho
      obtain ⟨t, _, rfl⟩ := List.mem_map.mp ho
      rfl
    refine ⟨fun d' h => ?_, fun d' => ?_⟩
    · rw [lost_connected]
      rw [lost_eq hc] at h
      obtain ⟨h1, h2⟩ := List.mem_filter.mp h
      rw [hs.live d' h1, Bool.true_and]
      simpa using h2
    · rw [lost_eq hc]
      simp only
      rw [plains_closings hdis]
      simp only [closings]
      split
      · rename_i e; subst e
        rw [List.count_eq_zero.mpr]; exact Nat.le_refl _
        intro h; have := (List.mem_filter.mp h).2; simp at this
      · exact Nat.le_trans (List.filter_sublist.count_le _) (hs.count d')
  case note o ho => exact pend_of hs rfl rfl fun d => closings_note ho
  case ended => exact pend_plain [_] hs rfl rfl rfl (by simp [plain])
  case service k d c x hk hc =>
    obtain ⟨t, _, _, _, _, _, h⟩ := service_facts k d c x (emit (.req d c k x) s)
    obtain ⟨e1, e2⟩ := service_pending k d c x (emit (.req d c k x) s)
    rcases h with h | ⟨g, h⟩
    · exact pend_plain [.askService d c, .req d c k x] hs e1 e2 h (by simp [plain])
    · exact pend_plain [.askBranch d c g, .askService d c, .req d c k x] hs e1 e2 h (by simp [plain])
  case queue k d c x qm hk hc =>
    obtain ⟨t, _, _, _, _, _, a, h6, h⟩ := queue_facts k d c x qm (emit (.req d c k x) s)
    obtain ⟨e1, e2⟩ := queue_pending k d c x qm (emit (.req d c k x) s)
    refine pend_plain (a ++ [.req d c k x]) hs e1 e2 (by rw [h]; simp) ?_
    intro o ho
    rcases List.mem_append.mp ho with ho | ho
    · exact asking_plain (h6 o ho)
    · rw [List.mem_singleton.mp ho]; rfl
  case resource k d c x hk hc =>
    obtain ⟨t, _, _, _, _, _, a, h6, h⟩ := resource_facts k d c x (emit (.req d c k x) s)
    obtain ⟨e1, e2⟩ := resource_pending k d c x (emit (.req d c k x) s)
    refine pend_plain (a ++ [.req d c k x]) hs e1 e2 (by rw [h]; simp) ?_
    intro o ho
    rcases List.mem_append.mp ho with ho | ho
    · exact asking_plain (h6 o ho)
    · rw [List.mem_singleton.mp ho]; rfl
  case hangup => exact pend_plain [_] hs rfl rfl rfl (by simp [plain])
  case idleFwd => exact pend_plain [_, _] hs rfl rfl rfl (by simp [plain])
  case idleHold => exact pend_plain [_] hs rfl rfl rfl (by simp [plain])
  case noService t l r h hk hl =>
    rcases fake_log t.key t.corr (replyKind t.kind) r (emit (.gotService t.corr l) s) with e | e
    · exact pend_plain [.gotService t.corr l] hs (fake_pending ..) (fake_conns ..) e (by simp [plain])
    · exact pend_plain [.fake t.key t.corr (replyKind t.kind) r, .gotService t.corr l] hs (fake_pending ..) (fake_conns ..) e (by simp [plain])
  case queueHold => exact pend_plain [_] hs rfl rfl rfl (by simp [plain])
  case queueSend pre t post p h hf hk hw =>
    obtain ⟨hc, e | ⟨c, k, d, r, e⟩ | ⟨ipc, e⟩⟩ := queueSend_cases p t (emit (.gotQueue t.corr p) s)
    · exact pend_plain [.gotQueue t.corr p] hs (queueSend_pending ..) (queueSend_conns ..) e (by simp [plain])
    · exact pend_plain [.fake d c k r, .gotQueue t.corr p] hs (queueSend_pending ..) (queueSend_conns ..) e (by simp [plain])
    · exact pend_plain [_, .gotQueue t.corr p] hs (queueSend_pending ..) (queueSend_conns ..) e (by simp [plain])
  case branchFwd => exact pend_plain [_, _] hs rfl rfl rfl (by simp [plain])
  case branchHold => exact pend_plain [_] hs rfl rfl rfl (by simp [plain])
  case branchQueueHold => exact pend_plain [_] hs rfl rfl rfl (by simp [plain])
  case branchQueueSend pre t post b p h hf hk hl =>
    obtain ⟨hc, e | ⟨c, k, d, r, e⟩ | ⟨ipc, e⟩⟩ := queueSend_cases p { t with trid := some b, wait := false }
      { emit (.gotBranch t.corr b) s with cache := addTrid b t.key s.cache }
    · exact pend_plain [.gotBranch t.corr b] hs (queueSend_pending ..) (queueSend_conns ..) e (by simp [plain])
    · exact pend_plain [.fake d c k r, .gotBranch t.corr b] hs (queueSend_pending ..) (queueSend_conns ..) e (by simp [plain])
    · exact pend_plain [_, .gotBranch t.corr b] hs (queueSend_pending ..) (queueSend_conns ..) e (by simp [plain])
  case answered pre t post k r x ib g hg h hf hk he h1 h2 =>
    rcases hg with rfl | ⟨d', rfl⟩
    · exact pend_plain [_] hs rfl rfl rfl (by simp [plain])
    · exact pend_plain [_, .got d' t.corr k r] hs rfl rfl rfl (by simp [plain])
  case pop => exact pend_plain [] hs rfl rfl rfl (by simp)
  case made d c k r =>
    rcases fake_log d c (replyKind k) r s with e | e
    · exact pend_plain [] hs (fake_pending ..) (fake_conns ..) e (by simp)
    · exact pend_plain [_] hs (fake_pending ..) (fake_conns ..) e (by simp [plain])
  case disassociate => exact pend_plain [_] hs rfl rfl rfl (by simp [plain])

theorem pend_run (es : List Event) (he : ∀ e ∈ es, sound e = true) (ha : (run es).dead = false) : Pend (run es) :=
  inv_alive ⟨by simp, by simp⟩ pend_move es he ha

/-! ### What does not die -/

theorem send_alive {ok d o s} (h : s.dead = false) : (send ok d o s).dead = false := by
  unfold send; split
  · rename_i hc
    split
    · exact h
    · rw [lost_dead, h, hc]; rfl
  · exact h

theorem disconnect_alive {ok d s} (h : s.dead = false) : (disconnect ok d s).dead = false := by
  unfold disconnect; split
  · exact h
  · rename_i x hx
    split
    · exact send_alive h
    · have : connected d s = true := connected_iff.mpr ⟨x, List.mem_of_find?_eq_some hx, by simpa using List.find?_some hx⟩
      rw [lost_dead, h, this]; rfl

theorem fold_alive {A : Type} {f : State → A → State} (h : ∀ s a, s.dead = false → (f s a).dead = false) (xs : List A) (s : State)
    (hs : s.dead = false) : (xs.foldl f s).dead = false := by
  induction xs generalizing s with
  | nil => exact hs
  | cons a xs ih => exact ih _ (h s a hs)

theorem dispatch_dead {c h s} (hd : s.dead = false) (hh : (dispatch c h s).dead = true) :
    ∃ pre t post, s.tasks = pre ++ t :: post ∧ t.corr = c ∧ ((h t s).1.dead = true ∨
      ((h t s).2 = none ∧ (h t s).1.tasks.length ≤ pre.length)) := by
  rcases dispatch_cases c h s with ⟨_, e⟩ | ⟨pre, t, post, h1, h2, _, h4⟩
  · rw [e, hd] at hh; cases hh
  · refine ⟨pre, t, post, h1, h2, ?_⟩
    rcases h4 with ⟨s', t', h5, e⟩ | ⟨s', h5, h6, e⟩ | ⟨s', h5, h6, e⟩
    · rw [e] at hh; rw [h5]; exact Or.inl hh
    · rw [e] at hh; rw [h5]; exact Or.inl hh
    · rw [h5]; exact Or.inr ⟨rfl, h6⟩

/-- A handler that keeps the process and its units. -/
theorem dispatch_alive {c h s} (hd : s.dead = false) (hh : ∀ t ∈ s.tasks, (h t s).1.dead = false ∧
    ((h t s).2 = none → (h t s).1.tasks = s.tasks)) : (dispatch c h s).dead = false := by
  cases hx : (dispatch c h s).dead with
  | false => rfl
  | true =>
    obtain ⟨pre, t, post, h1, _, h2⟩ := dispatch_dead hd hx
    obtain ⟨h3, h4⟩ := hh t (by rw [h1]; simp)
    rcases h2 with h2 | ⟨h2, h5⟩
    · rw [h3] at h2; cases h2
    · rw [h4 h2, h1] at h5
      simp at h5; omega

theorem send_true_tasks {d o s} : (send true d o s).tasks = s.tasks := by
  unfold send; split
  · rfl
  · rfl

theorem service_alive {c l s} (h : s.dead = false) : (dispatch c (onService l) s).dead = false := by
  refine dispatch_alive h fun t _ => ?_
  unfold onService; split
  · cases l
    · dsimp only; split <;> exact ⟨h, fun h => by cases h⟩
    · exact ⟨by rw [fake_dead]; exact h, fun h => by cases h⟩
    · exact ⟨by rw [fake_dead]; exact h, fun h => by cases h⟩
  · exact ⟨h, fun h => by cases h⟩

theorem queue_alive {c p s} (h : s.dead = false) : (dispatch c (onQueue p) s).dead = false := by
  refine dispatch_alive h fun t _ => ?_
  unfold onQueue; split
  · split
    · exact ⟨h, fun h => by cases h⟩
    · exact ⟨by rw [queueSend_dead]; exact h, fun _ => queueSend_tasks ..⟩
  · exact ⟨h, fun h => by cases h⟩

theorem branch_alive {c b s} (h : s.dead = false) : (dispatch c (onBranch b) s).dead = false := by
  refine dispatch_alive h fun t _ => ?_
  unfold onBranch; split
  · dsimp only; split
    · exact ⟨h, fun h => by cases h⟩
    · exact ⟨h, fun h => by cases h⟩
  · split
    · dsimp only; split
      · exact ⟨h, fun h => by cases h⟩
      · exact ⟨by rw [queueSend_dead]; exact h, fun _ => queueSend_tasks ..⟩
    · exact ⟨h, fun h => by cases h⟩

theorem answer_alive {d c k r ok s} (h : s.dead = false) (hk : ∀ t ∈ s.tasks, connected t.key s = true)
    (ho : ok = true ∨ (k == .call || isResource k) = false) : (answer d c k r ok s).dead = false := by
  have hres : isResource k = true → (dispatch c (onResource k r ok) s).dead = false := by
    intro hr
    have : ok = true := by
      rcases ho with ho | ho
      · exact ho
      · rw [hr] at ho; simp at ho
    subst this
    refine dispatch_alive h fun t _ => ?_
    unfold onResource; split
    · exact ⟨send_alive h, fun _ => send_true_tasks⟩
    · exact ⟨h, fun h => by cases h⟩
  cases k
  case call =>
    have : ok = true := by
      rcases ho with ho | ho
      · exact ho
      · cases ho
    subst this
    refine dispatch_alive h fun t ht => ?_
    unfold onCall; split
    · rw [if_pos (hk t ht)]; exact ⟨send_alive h, fun _ => send_true_tasks⟩
    · exact ⟨h, fun h => by cases h⟩
  case post => exact h
  case prepare => exact hres rfl
  case commit => exact hres rfl
  case rollback => exact hres rfl
  all_goals exact send_alive h

/-- All the ways to die. -/
inductive Deadly (s : State) : Event → Prop
  | say (d c data : Nat) (t : Task) (ht : t ∈ s.tasks) (hc : t.corr = c) (hk : t.kind = .conv) (hl : ∀ ipc, t.lookup ≠ some (some ipc)) :
      Deadly s (.say d c data)
  | hangup (d c : Nat) (t : Task) (ht : t ∈ s.tasks) (hc : t.corr = c) (hk : t.kind = .conv) (hl : ∀ ipc, t.lookup ≠ some (some ipc)) :
      Deadly s (.hangup d c)
  | idle (d : Nat) (h : 2 ≤ s.pending.count d) : Deadly s .idle
  | unsound (e : Event) (h : sound e = false) : Deadly s e

theorem lose_dead (xs : List Nat) (s : State) (hs : s.dead = false) (hc : ∀ d ∈ xs, connected d s = true)
    (hd : (xs.foldl (fun s d => lost d s) s).dead = true) : ∃ d, 2 ≤ xs.count d := by
  induction xs generalizing s with
  | nil => rw [show (([] : List Nat).foldl (fun s d => lost d s) s).dead = s.dead from rfl, hs] at hd; cases hd
  | cons d xs ih =>
    by_cases hm : d ∈ xs
    · refine ⟨d, ?_⟩
      have := List.count_pos_iff.mpr hm
      rw [List.count_cons_self]; omega
    · obtain ⟨d', h⟩ := ih (lost d s) (by rw [lost_dead, hs, hc d (List.mem_cons_self ..)]; rfl) (fun d' h => by
        rw [lost_connected, hc d' (List.mem_cons_of_mem _ h), Bool.true_and]
        simp only [bne_iff_ne, ne_eq]; rintro rfl; exact hm h) hd
      exact ⟨d', Nat.le_trans h (List.count_le_count_cons ..)⟩

theorem deadly_apply {e s} (hd : s.dead = false) (hw : W s) (hp : Pend s) (h : (apply e s).dead = true) : Deadly s e := by
  cases hso : sound e with
  | false => exact .unsound e hso
  | true =>
  have no : ∀ {t : State}, t = apply e s → t.dead = false → False := by
    rintro t rfl h'; rw [h] at h'; cases h'
  have on_alive : ∀ {d f}, (connected d s = true → (f s).dead = false) → (on d f s).dead = false :=
    fun hf => on_ind (P := fun t => t.dead = false) hd hf
  cases e
  case connect d m =>
    exfalso; refine no rfl ?_
    simp only [apply]; split
    · exact hd
    · exact hd
  case request k d c x qm =>
    exfalso; refine no rfl (on_alive fun _ => ?_)
    cases k
    case discovery => exact hd
    all_goals first
      | exact (serviceRequest_dead ..).trans hd
      | exact (queueRequest_dead ..).trans hd
      | exact (resourceRequest_dead ..).trans hd
  case say d c data =>
    simp only [apply, on] at h
    split at h
    · obtain ⟨pre, t, post, h1, h2, h3⟩ := dispatch_dead hd h
      have ht : t ∈ s.tasks := by rw [h1]; simp
      unfold onSay at h3
      split at h3
      · rename_i hk
        split at h3
        · rcases h3 with h3 | ⟨h3, _⟩
          · rw [show (emit (.toProcess _ t.corr data) s).dead = s.dead from rfl, hd] at h3; cases h3
          · cases h3
        · rename_i hl; exact .say d c data t ht h2 hk fun ipc e => hl ipc e
      · rcases h3 with h3 | ⟨h3, _⟩
        · rw [show s.dead = true from h3] at hd; cases hd
        · cases h3
    · rw [hd] at h; cases h
  case hangup d c =>
    simp only [apply, on] at h
    split at h
    · obtain ⟨pre, t, post, h1, h2, h3⟩ := dispatch_dead hd h
      have ht : t ∈ s.tasks := by rw [h1]; simp
      unfold onHangup at h3
      split at h3
      · rename_i hk
        split at h3
        · rcases h3 with h3 | ⟨_, h3⟩
          · rw [show (emit (.hangup _ t.corr) s).dead = s.dead from rfl, hd] at h3; cases h3
          · rw [emit_tasks, h1] at h3; simp at h3; omega
        · rename_i hl; exact .hangup d c t ht h2 hk fun ipc e => hl ipc e
      · rcases h3 with h3 | ⟨h3, _⟩
        · rw [show s.dead = true from h3] at hd; cases hd
        · cases h3
    · rw [hd] at h; cases h
  case closing d =>
    exfalso; refine no rfl (on_alive fun hc => ?_)
    unfold closing; split
    · rw [lost_dead, emit_dead, hd, emit_connected, hc]; rfl
    · exact hd
  case broken d =>
    exfalso; refine no rfl (on_alive fun hc => ?_)
    rw [lost_dead, hd, hc]; rfl
  case service d c l => exfalso; exact no rfl (on_alive fun _ => service_alive hd)
  case queueAt d c p => exfalso; exact no rfl (on_alive fun _ => queue_alive hd)
  case branch d c t => exfalso; exact no rfl (on_alive fun _ => branch_alive hd)
  case answer d c k r ok =>
    exfalso; refine no rfl (on_alive fun _ => answer_alive hd hw.keys ?_)
    simp only [sound, Bool.or_eq_true, Bool.not_eq_true'] at hso
    exact hso
  case localSay d c data t ok =>
    exfalso; refine no rfl (on_alive fun _ => ?_)
    unfold localSay; dsimp only; split
    · exact send_alive (ok := ok) (d := d) (o := .toRemote d c data t) hd
    · exact send_alive hd
  case own i ok =>
    exfalso; refine no rfl ?_
    simp only [apply]; split
    · exact hd
    · exact answer_alive hd hw.keys (Or.inl hso)
  case undeliverable d c k => exfalso; exact no rfl ((fake_dead ..).trans hd)
  case disassociate g => exfalso; exact no rfl hd
  case disconnect d ok => exfalso; exact no rfl (disconnect_alive hd)
  case idle =>
    obtain ⟨d, h⟩ := lose_dead (s.pending.filter fun d => disconnectable d s)
      { s with pending := s.pending.filter fun d => !disconnectable d s } hd
      (fun d h => hp.live d (List.mem_filter.mp h).1) h
    exact .idle d (Nat.le_trans h (List.filter_sublist.count_le _))
  case shutdown bad => exfalso; exact no rfl (fold_alive (fun s d h => disconnect_alive h) _ _ hd)

end Casual.Gateway.In

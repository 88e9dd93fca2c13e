import Verif.Gateway.InAlive
/-! What most of the events leave as it is: who is to be closed, and whether the group is running. -/
namespace Casual.Gateway.In

theorem lost_closings {d d' s} (h : connected d s = true) : closings d' (lost d s).log = if d = d' then 0 else closings d' s.log := by
  have hdis : ∀ o ∈ (discards (s.tasks.filter (·.key = d))).reverse, plain o = true := by
    intro o ho
    rw [List.mem_reverse] at ho
    obtain ⟨t, _, rfl⟩ := List.mem_map.mp ho
    rfl
  rw [lost_eq h]
  simp only
  rw [plains_closings hdis]
  simp only [closings]

/-- No connection that is gone has anything to close. -/
def Zero (s : State) : Prop := ∀ d, connected d s = false → closings d s.log = 0

theorem zero_lost {d s} (h : Zero s) : Zero (lost d s) := by
  intro d' hc
  cases hd : connected d s with
  | false => rw [lost_not hd] at hc ⊢; exact h d' hc
  | true =>
    rw [lost_closings hd]
    split
    · rfl
    · rename_i hn
      rw [lost_connected] at hc
      refine h d' ?_
      have : (d' != d) = true := by simp only [bne_iff_ne, ne_eq]; exact fun e => hn e.symm
      rw [this, Bool.and_true] at hc; exact hc

structure Same (s t : State) : Prop where
  running : t.running = s.running
  conns : ∀ d, connected d t = true → connected d s = true
  pending : ∀ d ∈ s.pending, connected d t = true → d ∈ t.pending
  closings : ∀ d, closings d t.log ≤ closings d s.log
  zero : Zero s → Zero t

theorem Same.refl (s : State) : Same s s := ⟨rfl, fun _ h => h, fun _ h _ => h, fun _ => Nat.le_refl _, fun h => h⟩

theorem Same.trans {s t u : State} (h : Same s t) (h' : Same t u) : Same s u where
  running := h'.running.trans h.running
  conns := fun d hd => h.conns d (h'.conns d hd)
  pending := fun d hd hc => h'.pending d (h.pending d hd (h'.conns d hc)) hc
  closings := fun d => Nat.le_trans (h'.closings d) (h.closings d)
  zero := fun hz => h'.zero (h.zero hz)

theorem same_plain {s t : State} (a : List Obs) (hr : t.running = s.running) (hp : t.pending = s.pending) (hc : t.conns = s.conns)
    (hl : t.log = a ++ s.log) (ha : ∀ o ∈ a, plain o = true) : Same s t where
  running := hr
  conns := fun d h => by rw [connected_congr hc] at h; exact h
  pending := fun d h _ => by rw [hp]; exact h
  closings := fun d => by rw [hl, plains_closings ha]; exact Nat.le_refl _
  zero := fun h d hd => by rw [hl, plains_closings ha]; rw [connected_congr hc] at hd; exact h d hd

theorem same_emit {o s} (h : plain o = true) : Same s (emit o s) := same_plain [o] rfl rfl rfl rfl (by simp [h])

theorem same_fake (d c k r s) : Same s (fake d c k r s) := by
  rcases fake_log d c k r s with e | e
  · exact same_plain [] (fake_running ..) (fake_pending ..) (fake_conns ..) e (by simp)
  · exact same_plain [.fake d c k r] (fake_running ..) (fake_pending ..) (fake_conns ..) e (by simp [plain])

theorem same_lost (d s) : Same s (lost d s) := by
  cases h : connected d s with
  | false => rw [lost_not h]; exact ⟨rfl, fun _ h => h, fun _ h _ => h, fun _ => Nat.le_refl _, fun h => h⟩
  | true =>
    refine ⟨lost_running .., fun d' hc => ?_, fun d' hp hc => ?_, fun d' => ?_, zero_lost⟩
    · rw [lost_connected, Bool.and_eq_true] at hc; exact hc.1
    · rw [lost_connected, Bool.and_eq_true] at hc
      rw [lost_eq h]
      refine List.mem_filter.mpr ⟨hp, ?_⟩
      simpa using hc.2
    · rw [lost_closings h]
      split
      · exact Nat.zero_le _
      · exact Nat.le_refl _

theorem same_send {ok d o s} (h : plain o = true) : Same s (send ok d o s) := by
  unfold send; split
  · split
    · exact same_emit h
    · exact same_lost ..
  · exact .refl s

theorem same_tasks {s t : State} {ts : List Task} (h : Same s t) : Same s { t with tasks := ts } :=
  ⟨h.running, h.conns, h.pending, h.closings, h.zero⟩

theorem same_dead {s t : State} {b : Bool} (h : Same s t) : Same s { t with dead := b } :=
  ⟨h.running, h.conns, h.pending, h.closings, h.zero⟩

theorem same_trids {s t : State} {cs : List Assoc} (h : Same s t) : Same s { t with cache := cs } :=
  ⟨h.running, h.conns, h.pending, h.closings, h.zero⟩

theorem same_inbox {s t : State} {ib : List Own} (h : Same s t) : Same s { t with inbox := ib } :=
  ⟨h.running, h.conns, h.pending, h.closings, h.zero⟩

theorem same_dispatch {c h s} (hh : ∀ t ∈ s.tasks, Same s (h t s).1) : Same s (dispatch c h s) := by
  refine dispatch_ind (P := Same s) (.refl s) ?_ ?_ ?_
  · intro pre t post s' t' h1 _ h2
    have := hh t (by rw [h1]; simp)
    rw [h2] at this; exact same_tasks this
  · intro pre t post s' h1 _ h2 _
    have := hh t (by rw [h1]; simp)
    rw [h2] at this; exact same_tasks this
  · intro pre t post s' h1 _ h2 _
    have := hh t (by rw [h1]; simp)
    rw [h2] at this; exact same_dead this

theorem same_onService (l t s) : Same s (onService l t s).1 := by
  unfold onService; split
  · cases l
    · dsimp only; split
      · exact same_emit rfl
      · exact .refl s
    · exact same_fake ..
    · exact same_fake ..
  · exact .refl s

theorem same_queueSend (p t s) : Same s (queueSend p t s) := by
  unfold queueSend; split
  · exact same_fake ..
  · exact same_emit rfl

theorem same_onQueue (p t s) : Same s (onQueue p t s).1 := by
  unfold onQueue; split
  · split
    · exact .refl s
    · exact same_queueSend ..
  · exact .refl s

theorem same_onBranch (b t s) : Same s (onBranch b t s).1 := by
  unfold onBranch; split
  · dsimp only; split
    · exact (same_trids (.refl s)).trans (same_emit rfl)
    · exact same_trids (.refl s)
  · split
    · dsimp only; split
      · exact same_trids (.refl s)
      · exact (same_trids (.refl s)).trans (same_queueSend ..)
    · exact .refl s

theorem same_onCall (r ok t s) : Same s (onCall r ok t s).1 := by
  unfold onCall; split
  · split
    · exact same_send rfl
    · exact same_dead (.refl s)
  · exact .refl s

theorem same_onResource (k r ok t s) : Same s (onResource k r ok t s).1 := by
  unfold onResource; split
  · exact same_send rfl
  · exact .refl s

theorem same_onSay (data t s) : Same s (onSay data t s).1 := by
  unfold onSay; split
  · split
    · exact same_emit rfl
    · exact same_dead (.refl s)
  · exact .refl s

theorem same_onHangup (t s) : Same s (onHangup t s).1 := by
  unfold onHangup; split
  · split
    · exact same_emit rfl
    · exact same_dead (.refl s)
  · exact .refl s

theorem same_answer (d c k r ok s) : Same s (answer d c k r ok s) := by
  cases k
  case call => exact same_dispatch fun t _ => same_onCall ..
  case post => exact .refl s
  case prepare => exact same_dispatch fun t _ => same_onResource ..
  case commit => exact same_dispatch fun t _ => same_onResource ..
  case rollback => exact same_dispatch fun t _ => same_onResource ..
  all_goals exact same_send rfl

theorem same_request (k d c x qm s) : Same s (request k d c x qm s) := by
  have hs : ∀ k, Same s (serviceRequest k d c x s) := by
    intro k
    unfold serviceRequest; dsimp only; split
    · exact (same_emit (o := .askService d c) rfl).trans (same_tasks (.refl _))
    · split
      · exact (same_emit (o := .askService d c) rfl).trans (same_tasks (same_trids (.refl _)))
      · exact ((same_emit (o := .askService d c) rfl).trans (same_emit rfl)).trans (same_tasks (.refl _))
  have hq : ∀ k, Same s (queueRequest k d c x qm s) := by
    intro k
    have h0 : Same s (if qm = true then emit (.askQueue d c) s else s) := by
      split
      · exact same_emit rfl
      · exact .refl s
    unfold queueRequest; dsimp only; split
    · exact h0.trans (same_tasks (.refl _))
    · split
      · exact h0.trans (same_tasks (same_trids (.refl _)))
      · exact (h0.trans (same_emit rfl)).trans (same_tasks (.refl _))
  have hr : ∀ k, Same s (resourceRequest k d c x s) := by
    intro k
    unfold resourceRequest; split
    · exact (same_emit rfl).trans (same_tasks (.refl _))
    · exact (same_fake d c k ⟨protocolError, 0⟩ s).trans (same_tasks (.refl _))
  cases k
  case discovery => exact same_emit rfl
  all_goals first | exact hs _ | exact hq _ | exact hr _

theorem same_disconnect (ok d s) : Same s (disconnect ok d s) := by
  unfold disconnect; split
  · exact .refl s
  · split
    · exact same_send rfl
    · exact same_lost ..

theorem same_fold {A : Type} {f : State → A → State} (h : ∀ s a, Same s (f s a)) (xs : List A) (s : State) : Same s (xs.foldl f s) := by
  induction xs generalizing s with
  | nil => exact .refl s
  | cons a xs ih => exact (h s a).trans (ih _)

/-- The events that are about opening and closing. -/
def moving : Event → Bool
  | .connect .. | .closing _ | .idle | .shutdown _ => true
  | _ => false

theorem same_apply {e s} (he : moving e = false) : Same s (apply e s) := by
  have ons : ∀ {d : Nat} {f : State → State}, Same s (f s) → Same s (on d f s) := fun h => on_ind (P := Same s) (.refl s) fun _ => h
  cases e <;> first | (cases he; done) | skip
  case request k d c x qm =>
    exact ons (f := fun s => request k d c x qm (emit (.req d c k x) s)) ((same_emit rfl).trans (same_request ..))
  case say => exact ons (same_dispatch fun t _ => same_onSay ..)
  case hangup => exact ons (same_dispatch fun t _ => same_onHangup ..)
  case broken => exact ons (same_lost ..)
  case service d c l =>
    exact ons (f := fun s => dispatch c (onService l) (emit (.gotService c l) s))
      ((same_emit rfl).trans (same_dispatch fun t _ => same_onService ..))
  case queueAt d c p =>
    exact ons (f := fun s => dispatch c (onQueue p) (emit (.gotQueue c p) s))
      ((same_emit rfl).trans (same_dispatch fun t _ => same_onQueue ..))
  case branch d c t =>
    exact ons (f := fun s => dispatch c (onBranch t) (emit (.gotBranch c t) s))
      ((same_emit rfl).trans (same_dispatch fun t _ => same_onBranch ..))
  case answer d c k r ok =>
    exact ons (f := fun s => answer d c k r ok (emit (.got d c k r) s)) ((same_emit rfl).trans (same_answer ..))
  case localSay d c data t ok =>
    refine ons ?_
    unfold localSay; dsimp only; split
    · exact same_tasks (same_send rfl)
    · exact same_send rfl
  case own i ok =>
    simp only [apply]; split
    · exact .refl s
    · rename_i m _
      exact (same_inbox (.refl s)).trans (same_answer m.d m.c m.k m.r ok { s with inbox := s.inbox.eraseIdx i })
  case undeliverable => exact (same_emit rfl).trans (same_fake ..)
  case disassociate => exact (same_trids (.refl s)).trans (same_emit rfl)
  case disconnect => exact same_disconnect ..

theorem idle_running (s) : (idle s).running = s.running :=
  (same_fold (fun s d => same_lost d s) (s.pending.filter fun d => disconnectable d s)
    { s with pending := s.pending.filter fun d => !disconnectable d s }).running

/-- It is running until it is told to shut down. -/
theorem running_run (es : List Event) : (run es).running = false → ∃ bad, .shutdown bad ∈ es := by
  induction es using snocInd with
  | nil => intro h; cases h
  | snoc es e ih =>
    intro h
    rw [run_snoc] at h
    have old : (run es).running = false → ∃ bad, .shutdown bad ∈ es ++ [e] := fun h =>
      (ih h).imp fun b hb => List.mem_append_left _ hb
    unfold step at h
    split at h
    · exact old h
    · cases hm : moving e with
      | false => rw [(same_apply hm).running] at h; exact old h
      | true =>
        cases e <;> first | (cases hm; done) | skip
        case connect d m =>
          simp only [apply] at h; split at h
          · exact old h
          · exact old h
        case closing d =>
          simp only [apply, on] at h; split at h
          · unfold closing at h; split at h
            · rw [lost_running] at h; exact old h
            · exact old h
          · exact old h
        case idle => rw [show (apply .idle (run es)).running = (run es).running from idle_running _] at h; exact old h
        case shutdown bad => exact ⟨bad, by simp⟩

theorem shutdown_same (bad : List Nat) (s : State) : Same { s with running := false } (shutdown bad s) := by
  unfold shutdown
  exact same_fold (fun s d => same_disconnect (!bad.contains d) d s) _ _

theorem shutdown_running (bad) (s : State) : (shutdown bad s).running = false := (shutdown_same bad s).running

/-- Once told, it is not running any more. -/
theorem not_running (es : List Event) (ha : (run es).dead = false) (bad) (h : .shutdown bad ∈ es) : (run es).running = false := by
  induction es using snocInd with
  | nil => cases h
  | snoc es e ih =>
    have hd : (run es).dead = false := by
      cases hd : (run es).dead with
      | false => rfl
      | true => rw [run_snoc] at ha; unfold step at ha; rw [if_pos hd, hd] at ha; cases ha
    rw [run_snoc_alive e hd]
    have old : .shutdown bad ∈ es → (apply e (run es)).running = false := by
      intro h'
      have hr := ih hd h'
      clear h' h
      cases hm : moving e with
      | false => rw [(same_apply hm).running]; exact hr
      | true =>
        cases e <;> first | (cases hm; done) | skip
        case connect d m => simp only [apply]; split <;> exact hr
        case closing d =>
          simp only [apply, on]; split
          · unfold closing; split
            · rw [lost_running]; exact hr
            · exact hr
          · exact hr
        case idle => exact (idle_running _).trans hr
        case shutdown bad => exact shutdown_running ..
    rcases List.mem_append.mp h with h | h
    · exact old h
    · rw [← List.mem_singleton.mp h]; exact shutdown_running ..

/-! ### Who is to be closed -/

/-- A connection that the other domain has said is to be closed is to be closed. -/
structure Asked (s : State) : Prop where
  zero : Zero s
  pend : ∀ d, connected d s = true → 1 ≤ closings d s.log → d ∈ s.pending

theorem asked_same {s t : State} (h : Same s t) (hs : Asked s) : Asked t :=
  ⟨h.zero hs.zero, fun d hc hn => h.pending d (hs.pend d (h.conns d hc) (Nat.le_trans hn (h.closings d))) hc⟩

theorem lose_connected (xs : List Nat) (s : State) (d : Nat) (hd : d ∈ xs) :
    connected d (xs.foldl (fun s d => lost d s) s) = false := by
  have keep : ∀ (xs : List Nat) (s : State), connected d s = false → connected d (xs.foldl (fun s d => lost d s) s) = false := by
    intro xs s h
    cases h' : connected d (xs.foldl (fun s d => lost d s) s) with
    | false => rfl
    | true => rw [(same_fold (fun s d => same_lost d s) xs s).conns d h'] at h; cases h
  induction xs generalizing s with
  | nil => cases hd
  | cons x xs ih =>
    rcases List.mem_cons.mp hd with rfl | hd
    · exact keep xs _ (by rw [lost_connected]; simp)
    · exact ih _ hd

theorem asked_apply {e s} (hs : Asked s) : Asked (apply e s) := by
  cases hm : moving e with
  | false => exact asked_same (same_apply hm) hs
  | true =>
    cases e <;> first | (cases hm; done) | skip
    case connect d m =>
      simp only [apply]; split
      · exact hs
      · rename_i hn
        have hn : connected d s = false := by simpa using hn
        refine ⟨fun d' h => ?_, fun d' h h1 => ?_⟩
        · refine hs.zero d' ?_
          cases h' : connected d' s with
          | false => rfl
          | true =>
            obtain ⟨x, h1, h2⟩ := connected_iff.mp h'
            have : connected d' (emit (.connected d) { s with conns := s.conns ++ [⟨d, m⟩] }) = true :=
              connected_iff.mpr ⟨x, List.mem_append_left _ h1, h2⟩
            rw [this] at h; cases h
        · cases h' : connected d' s with
          | true => exact hs.pend d' h' h1
          | false =>
            have h1 : 1 ≤ closings d' s.log := h1
            rw [hs.zero d' h'] at h1; omega
    case closing d =>
      simp only [apply]
      refine on_ind hs fun hc => ?_
      have h0 : Zero (emit (.closing d) s) := by
        intro d' h
        have h : connected d' s = false := h
        simp only [emit_log, closings]
        split
        · rename_i e; subst e; rw [hc] at h; cases h
        · rw [hs.zero d' h]
      unfold closing; split
      · refine ⟨zero_lost h0, fun d' h h1 => ?_⟩
        have hc' : connected d (emit (.closing d) s) = true := hc
        rw [lost_connected, Bool.and_eq_true] at h
        have hn : d' ≠ d := by simpa using h.2
        rw [lost_closings hc', if_neg (Ne.symm hn)] at h1
        simp only [emit_log, closings, if_neg (Ne.symm hn), Nat.zero_add] at h1
        rw [lost_eq hc']
        exact List.mem_filter.mpr ⟨hs.pend d' h.1 h1, by simpa using hn⟩
      · refine ⟨h0, fun d' h h1 => ?_⟩
        by_cases hn : d = d'
        · subst hn; simp
        · simp only [emit_log, closings, if_neg hn, Nat.zero_add] at h1
          exact List.mem_append_left _ (hs.pend d' h h1)
    case idle =>
      have h := same_fold (fun s d => same_lost d s) (s.pending.filter fun d => disconnectable d s)
        { s with pending := s.pending.filter fun d => !disconnectable d s }
      refine ⟨h.zero hs.zero, fun d hc h1 => ?_⟩
      have hp := hs.pend d (h.conns d hc) (Nat.le_trans h1 (h.closings d))
      refine h.pending d (List.mem_filter.mpr ⟨hp, ?_⟩) hc
      cases hd : disconnectable d s with
      | false => rfl
      | true =>
        have := lose_connected (s.pending.filter fun d => disconnectable d s)
          { s with pending := s.pending.filter fun d => !disconnectable d s } d (List.mem_filter.mpr ⟨hp, hd⟩)
        rw [show connected d (List.foldl (fun s d => lost d s) _ _) = true from hc] at this; cases this
    case shutdown bad =>
      have h := shutdown_same bad s
      exact asked_same (s := { s with running := false }) h ⟨hs.zero, hs.pend⟩

theorem asked_run (es : List Event) : Asked (run es) :=
  inv_run ⟨fun d _ => rfl, fun d h => by cases h⟩ (fun s e _ h => asked_apply h) es

end Casual.Gateway.In

import Verif.Gateway.OutDone
/-!
Connections of the outbound group that are to be closed, when the process dies, and metrics.
-/
namespace Casual.Gateway.Out

/-! ### connections that are to be closed -/

/-- All the connection offers has been withdrawn, and it has not been closed yet. -/
def leaving (d : Nat) : List Obs → Bool
  | [] => false
  | .unadvertised d' :: l => leaving d l || d' == d
  | .closed d' :: l => d' != d && leaving d l
  | _ :: l => leaving d l

theorem leaving_neutral (d) : Neutral (leaving d) := ⟨fun _ _ => rfl, fun _ _ _ _ _ => rfl⟩

structure Lv (s : State) : Prop where
  eq : ∀ d, leaving d s.log = s.disconnecting.any (·.1 == d)
  sub : ∀ x ∈ s.disconnecting, connected x.1 s = true

def stays : Obs → Bool
  | .unadvertised _ => false
  | .closed _ => false
  | _ => true

theorem leaving_stays {o : Obs} (h : stays o = true) (d l) : leaving d (o :: l) = leaving d l := by
  cases o <;> simp [stays] at h <;> rfl

theorem lv_emit {o s} (h : stays o = true) (hs : Lv s) : Lv (emit o s) :=
  ⟨fun d => (leaving_stays h d _).trans (hs.eq d), hs.sub⟩

theorem lv_congr {s t : State} (h1 : t.conns = s.conns) (h2 : t.disconnecting = s.disconnecting)
    (h3 : ∀ d, leaving d t.log = leaving d s.log) (hs : Lv s) : Lv t :=
  ⟨fun d => by rw [h3, h2]; exact hs.eq d, fun x hx => by
    have := hs.sub x (h2 ▸ hx); unfold connected at this ⊢; rw [h1]; exact this⟩

theorem lv_metric {c k s} (hs : Lv s) : Lv (metric c k s) :=
  lv_congr (by simp) (by simp) (fun d => view_metric (leaving_neutral d) c k s) hs

theorem lv_force {s} (hs : Lv s) : Lv (forceMetric s) :=
  lv_congr (by simp) (by simp) (fun d => view_force (leaving_neutral d) s) hs

theorem any_filter_ne (d d' : Nat) (l : List (Nat × Bool)) :
    (l.filter (·.1 ≠ d)).any (·.1 == d') = (d != d' && l.any (·.1 == d')) := by
  rw [Bool.eq_iff_iff]
  simp only [List.any_eq_true, List.mem_filter, Bool.and_eq_true, bne_iff_ne, beq_iff_eq, decide_eq_true_eq]
  constructor
  · rintro ⟨x, ⟨hx, hne⟩, rfl⟩; exact ⟨fun h => hne h.symm, x, hx, rfl⟩
  · rintro ⟨hne, x, hx, rfl⟩; exact ⟨x, ⟨hx, fun h => hne h.symm⟩, rfl⟩

theorem lv_lost {d s} (hs : Lv s) : Lv (lost d s) := by
  refine ⟨fun d' => ?_, fun x hx => ?_⟩
  · rw [lost_disc, any_filter_ne, ← hs.eq]
    cases hc : connected d s with
    | true =>
      rw [view_lost (leaving_neutral d') hc]
      simp only [leaving]
      cases h : (d == d') with
      | true => rw [beq_iff_eq] at h; subst h; simp
      | false => simp
    | false =>
      rw [view_lost_not (leaving_neutral d') hc]
      cases h : (d != d') with
      | true => simp
      | false =>
        simp only [bne_eq_false_iff_eq] at h; subst h
        rw [Bool.false_and, hs.eq, List.any_eq_false]
        intro x hx hxd
        have := hs.sub x hx
        rw [show x.1 = d by simpa using hxd, hc] at this; cases this
  · rw [lost_disc] at hx
    obtain ⟨h1, h2⟩ := List.mem_filter.mp hx
    rw [lost_connected, hs.sub x h1]
    simpa using h2

theorem lv_send {ok d o s} (h : stays o = true) (hs : Lv s) : Lv (send ok d o s) := by
  unfold send; split
  · split
    · exact lv_emit h hs
    · exact lv_emit rfl (lv_lost hs)
  · exact hs

theorem lv_involve {g d s} (hs : Lv s) : Lv (involve g d s) := by
  unfold involve
  split
  · exact hs
  · dsimp only
    have h' : ∀ t, Lv { s with trans := t } := fun t => ⟨hs.eq, hs.sub⟩
    split
    · split
      · exact lv_emit rfl (h' _)
      · exact h' _
    · exact h' _

theorem lv_add {t s} (hs : Lv s) : Lv (addTask t s) := ⟨hs.eq, hs.sub⟩

theorem lv_addDest {e s} (hs : Lv s) : Lv (addDest e s) :=
  lv_congr (by simp) (by simp) (fun d => by simp) hs

theorem lv_dispatch {c h s} (hh : ∀ t, Lv (h t s).1) (hs : Lv s) : Lv (dispatch c h s) := by
  unfold dispatch
  split
  · exact hs
  · split
    · exact hs
    · dsimp only
      split
      · split
        · exact ⟨(hh _).eq, (hh _).sub⟩
        · exact ⟨(hh _).eq, (hh _).sub⟩
      · exact hh _

theorem lv_opt {b : Bool} {p : Prop} [Decidable p] {o s} (h : stays o = true) (hs : Lv s) :
    Lv (if p then (if b then emit o s else s) else s) := by
  split
  · split
    · exact lv_emit h hs
    · exact hs
  · exact hs

theorem lv_onReply {k r t s} (hs : Lv s) : Lv (onReply k r t s).1 := by
  unfold onReply
  split
  · split
    · exact lv_metric (lv_opt rfl (lv_emit rfl hs))
    · exact lv_emit rfl hs
    · exact lv_emit rfl hs
    · exact hs
  · exact hs

theorem lv_resourceReply {c k r s} (hs : Lv s) : Lv (resourceReply c k r s) := by
  have h := takeDest_fields c s
  have h' : Lv (takeDest c s).1 := lv_congr h.2.2.1 h.2.2.2.2.1 (fun d => by rw [h.2.1]) hs
  unfold resourceReply
  split <;> rename_i he <;> rw [he] at h'
  · exact lv_emit rfl h'
  · exact h'

theorem lv_disconnect {d b s} (hc : connected d s = true) (hs : Lv s) : Lv (disconnect d b s) := by
  unfold disconnect
  simp only [unadvertise, hc, if_true]
  refine ⟨fun d' => ?_, fun x hx => ?_⟩
  · simp only [emit_log, leaving, hs.eq, emit_disc, List.any_append, List.any_cons, List.any_nil, Bool.or_false]
  · rcases List.mem_append.mp hx with h | h
    · exact hs.sub x h
    · rw [List.mem_singleton] at h; subst h; exact hc

theorem lv_idleLoop {xs : List (Nat × Bool)} {s} (hs : Lv s) : Lv (idleLoop xs s) := by
  induction xs generalizing s with
  | nil => exact hs
  | cons x xs ih =>
    obtain ⟨d, b⟩ := x
    unfold idleLoop; dsimp only
    apply ih
    split
    · exact lv_emit rfl (lv_lost hs)
    · exact lv_lost hs

theorem disconnect_connected (d b s d') : connected d' (disconnect d b s) = connected d' s := by
  unfold disconnect; simp [connected]

theorem lv_foldDisc {xs : List Nat} {s} (hx : ∀ x ∈ xs, connected x s = true) (hs : Lv s) :
    Lv (xs.foldl (fun s d => disconnect d true s) s) := by
  induction xs generalizing s with
  | nil => exact hs
  | cons x xs ih =>
    exact ih (fun y hy => by rw [disconnect_connected]; exact hx y (List.mem_cons_of_mem _ hy))
      (lv_disconnect (hx x (List.mem_cons_self ..)) hs)

theorem conns_connected {s : State} : ∀ x ∈ s.conns.map (·.d), connected x s = true := by
  intro x hx
  obtain ⟨y, hy, rfl⟩ := List.mem_map.mp hx
  exact List.any_eq_true.mpr ⟨y, hy, by simp⟩

theorem lv_apply {e s} (hs : Lv s) : Lv (apply e s) := by
  cases e <;> simp only [apply]
  case connect d m =>
    split
    · exact hs
    · refine lv_emit rfl ⟨hs.eq, fun x hx => ?_⟩
      have := hs.sub x hx
      simp only [connected, List.any_append] at this ⊢
      rw [this]; rfl
  case call d c ipc sv g ok =>
    refine on_ind hs fun h => ?_
    unfold call; split
    · exact lv_metric (lv_emit rfl (lv_emit rfl hs))
    · split
      · exact ⟨(lv_emit (o := .req d c ipc .call g) rfl hs).eq, hs.sub⟩
      · split
        · exact lv_involve (lv_add (lv_send rfl (lv_emit rfl hs)))
        · exact lv_send rfl (lv_involve (lv_add (lv_emit rfl hs)))
  case converse => exact on_ind hs fun h => lv_send rfl (lv_involve (lv_add (lv_emit rfl hs)))
  case say => exact on_ind hs fun h => lv_send rfl hs
  case hangup d c ok =>
    refine on_ind hs fun h => lv_dispatch (fun t => ?_) hs
    unfold onHangup; split
    · exact lv_metric (lv_send rfl hs)
    · exact hs
  case enqueue => exact on_ind hs fun h => lv_involve (lv_add (lv_send rfl (lv_emit rfl hs)))
  case dequeue => exact on_ind hs fun h => lv_involve (lv_add (lv_send rfl (lv_emit rfl hs)))
  case prepare => exact on_ind hs fun h => lv_send rfl (lv_addDest (lv_emit rfl hs))
  case commit => exact on_ind hs fun h => lv_send rfl (lv_addDest (lv_emit rfl hs))
  case rollback => exact on_ind hs fun h => lv_send rfl (lv_addDest (lv_emit rfl hs))
  case discover =>
    refine on_ind hs fun h => ?_
    unfold discovery; split
    · exact lv_emit rfl (lv_emit rfl hs)
    · exact lv_send rfl (lv_addDest (lv_emit rfl hs))
  case explore =>
    refine on_ind hs fun h => ?_
    unfold explore; split
    · exact hs
    · exact lv_send rfl hs
  case rDisconnect => exact on_ind hs fun h => lv_send rfl (lv_disconnect h hs)
  case rCall =>
    exact on_ind hs fun h => lv_dispatch (fun t => lv_onReply (lv_emit rfl hs)) (lv_emit rfl hs)
  case rEnqueue =>
    exact on_ind hs fun h => lv_dispatch (fun t => lv_onReply (lv_emit rfl hs)) (lv_emit rfl hs)
  case rDequeue =>
    exact on_ind hs fun h => lv_dispatch (fun t => lv_onReply (lv_emit rfl hs)) (lv_emit rfl hs)
  case rConnect =>
    refine on_ind hs fun h => lv_dispatch (fun t => ?_) (lv_emit rfl hs)
    unfold onConnect; split
    · exact lv_emit rfl (lv_opt rfl (lv_emit rfl hs))
    · exact lv_emit rfl hs
  case rSay =>
    refine on_ind hs fun h => lv_dispatch (fun t => ?_) hs
    unfold onSend; split
    · exact lv_emit rfl hs
    · exact hs
  case rPrepare => exact on_ind hs fun h => lv_resourceReply (lv_emit rfl hs)
  case rCommit => exact on_ind hs fun h => lv_resourceReply (lv_emit rfl hs)
  case rRollback => exact on_ind hs fun h => lv_resourceReply (lv_emit rfl hs)
  case rDiscover =>
    refine on_ind hs fun h => ?_
    unfold discoveryReply; dsimp only
    refine lv_resourceReply ?_
    split
    · split
      · exact lv_emit rfl (lv_emit rfl hs)
      · exact lv_emit rfl (lv_emit rfl (lv_emit rfl hs))
    · split
      · exact lv_emit rfl (lv_emit rfl (lv_emit rfl hs))
      · exact lv_emit rfl (lv_emit rfl (lv_emit rfl (lv_emit rfl hs)))
  case broken => exact on_ind hs fun h => lv_emit rfl (lv_lost hs)
  case disassociate => exact lv_emit rfl ⟨hs.eq, hs.sub⟩
  case remove => exact on_ind hs fun h => lv_disconnect h hs
  case idle => exact lv_force (lv_idleLoop hs)
  case shutdown => exact lv_force (lv_foldDisc conns_connected ⟨hs.eq, hs.sub⟩)

theorem lv_run (es : List Event) : Lv (run es) := by
  refine inv_run ⟨fun _ => rfl, by simp⟩ (fun s e h => ?_) es
  unfold step; split
  · exact h
  · exact lv_apply h

/-- Which connections `idle` closes. -/
theorem idleLoop_connected (d : Nat) (xs : List (Nat × Bool)) (s : State) :
    connected d (idleLoop xs s) = (connected d s && !xs.any (·.1 == d)) := by
  induction xs generalizing s with
  | nil => simp [idleLoop]
  | cons x xs ih =>
    obtain ⟨d', b⟩ := x
    unfold idleLoop; dsimp only
    rw [ih]
    have : connected d (if b = true then emit (.lostMsg d') (lost d' s) else lost d' s) = connected d (lost d' s) := by
      split <;> rfl
    rw [this, lost_connected, List.any_cons]
    have e : (d != d') = !(d' == d) := by
      rw [Bool.eq_iff_iff]; simp; exact ⟨fun a b => a b.symm, fun a b => a b.symm⟩
    rw [e]
    cases connected d s <;> cases (d' == d) <;> simp

theorem idle_connected (d s) : connected d (idle s) =
    (connected d s && !(s.disconnecting.any (·.1 == d) && isIdle d s)) := by
  unfold idle
  rw [force_connected, idleLoop_connected]
  congr 2
  rw [Bool.eq_iff_iff]
  simp only [List.any_eq_true, List.mem_filter, beq_iff_eq, Bool.and_eq_true]
  constructor
  · rintro ⟨x, ⟨hx, hi⟩, rfl⟩; exact ⟨⟨x, hx, rfl⟩, hi⟩
  · rintro ⟨⟨x, hx, rfl⟩, hi⟩; exact ⟨x, ⟨hx, hi⟩, rfl⟩

theorem transHas_iff (d : Nat) (xs : List (Nat × List Nat)) : transHas d xs = true ↔ ∃ g, has g d xs = true := by
  unfold transHas has
  simp only [List.any_eq_true, Bool.and_eq_true, beq_iff_eq]
  constructor
  · rintro ⟨x, hx, h⟩; exact ⟨x.1, x, hx, rfl, h⟩
  · rintro ⟨g, x, hx, _, h⟩; exact ⟨x, hx, h⟩

/-! ### the process does not die -/

/-- The connection is told to close, although it is to be closed already. -/
def again (e : Event) (l : List Obs) : Prop :=
  match e with
  | .rDisconnect d _ => leaving d l = true
  | .remove d => leaving d l = true
  | .shutdown => ∃ d, live d l = true ∧ leaving d l = true
  | _ => False

/-- Alive, and each connection is to be closed at most once. -/
structure Alive (s : State) : Prop where
  alive : s.dead = false
  once : (s.disconnecting.map (·.1)).Nodup
  conns : (s.conns.map (·.d)).Nodup

theorem al_congr {s t : State} (h1 : t.dead = s.dead) (h2 : t.disconnecting = s.disconnecting)
    (h3 : t.conns = s.conns) (hs : Alive s) : Alive t :=
  ⟨h1 ▸ hs.alive, h2 ▸ hs.once, h3 ▸ hs.conns⟩

theorem al_lost {d s} (hc : connected d s = true) (hs : Alive s) : Alive (lost d s) :=
  ⟨by rw [lost_dead, hs.alive, hc]; rfl, by rw [lost_disc]; exact hs.once.sublist (List.filter_sublist.map _),
    by rw [lost_conns]; exact hs.conns.sublist (List.filter_sublist.map _)⟩

theorem al_send {ok d o s} (hs : Alive s) : Alive (send ok d o s) := by
  unfold send; split
  · split
    · exact al_congr (s := s) rfl rfl rfl hs
    · exact al_congr (s := lost d s) rfl rfl rfl (al_lost (by assumption) hs)
  · exact hs

theorem al_emit {o s} (hs : Alive s) : Alive (emit o s) := al_congr (s := s) rfl rfl rfl hs
theorem al_metric {c k s} (hs : Alive s) : Alive (metric c k s) := al_congr (by simp) (by simp) (by simp) hs
theorem al_force {s} (hs : Alive s) : Alive (forceMetric s) := al_congr (by simp) (by simp) (by simp) hs
theorem al_involve {g d s} (hs : Alive s) : Alive (involve g d s) := al_congr (by simp) (by simp) (by simp) hs
theorem al_add {t s} (hs : Alive s) : Alive (addTask t s) := al_congr (s := s) rfl rfl rfl hs
theorem al_addDest {e s} (hs : Alive s) : Alive (addDest e s) := al_congr (by simp) (by simp) (by simp) hs

theorem al_dispatch {c h s} (h1 : ∀ t, (h t s).1.tasks = s.tasks) (hh : ∀ t, Alive (h t s).1) (hs : Alive s) :
    Alive (dispatch c h s) := by
  unfold dispatch
  cases hf : s.tasks.findIdx? (·.corr = c) with
  | none => exact hs
  | some i =>
    obtain ⟨t, ht, htc⟩ := findIdx_get hf
    simp only [ht]
    have hi : i < s.tasks.length := by
      rw [List.getElem?_eq_some_iff] at ht; exact ht.1
    split
    · rw [h1 t, if_pos hi]; exact al_congr (s := (h t s).1) rfl rfl rfl (hh t)
    · exact hh t

theorem al_opt {b : Bool} {p : Prop} [Decidable p] {o s} (hs : Alive s) :
    Alive (if p then (if b then emit o s else s) else s) := by
  split
  · split
    · exact al_emit hs
    · exact hs
  · exact hs

theorem al_onReply {k r t s} (hs : Alive s) : Alive (onReply k r t s).1 := by
  unfold onReply
  split
  · split
    · exact al_metric (al_opt (al_emit hs))
    · exact al_emit hs
    · exact al_emit hs
    · exact hs
  · exact hs

theorem al_resourceReply {c k r s} (hs : Alive s) : Alive (resourceReply c k r s) := by
  have h := takeDest_fields c s
  have h' : Alive (takeDest c s).1 := al_congr h.2.2.2.2.2.1 h.2.2.2.2.1 h.2.2.1 hs
  unfold resourceReply
  split <;> rename_i he <;> rw [he] at h'
  · exact al_emit h'
  · exact h'

theorem al_disconnect {d b s} (hn : s.disconnecting.any (·.1 == d) = false) (hs : Alive s) : Alive (disconnect d b s) := by
  unfold disconnect
  refine ⟨by simpa using hs.alive, ?_, by simpa using hs.conns⟩
  simp only [unadv_disc, List.map_append, List.map_cons, List.map_nil]
  rw [List.nodup_append]
  refine ⟨hs.once, by simp, ?_⟩
  intro a ha c hc
  rw [List.mem_singleton] at hc; subst hc
  rintro rfl
  obtain ⟨x, hx, rfl⟩ := List.mem_map.mp ha
  rw [List.any_eq_false] at hn
  exact hn x hx (by simp)

theorem al_idleLoop {xs : List (Nat × Bool)} {s} (hx : ∀ x ∈ xs, connected x.1 s = true) (hn : (xs.map (·.1)).Nodup)
    (hs : Alive s) : Alive (idleLoop xs s) := by
  induction xs generalizing s with
  | nil => exact hs
  | cons x xs ih =>
    obtain ⟨d, b⟩ := x
    rw [List.map_cons, List.nodup_cons] at hn
    have hl := al_lost (hx _ (List.mem_cons_self ..)) hs
    have hy : ∀ y ∈ xs, connected y.1 (lost d s) = true := by
      intro y hy
      rw [lost_connected, hx y (List.mem_cons_of_mem _ hy)]
      simp only [Bool.true_and, bne_iff_ne, ne_eq]
      intro he
      exact hn.1 (List.mem_map.mpr ⟨y, hy, he⟩)
    unfold idleLoop; dsimp only
    split
    · exact ih (s := emit (.lostMsg d) (lost d s)) hy hn.2 (al_emit hl)
    · exact ih hy hn.2 hl

theorem disconnect_disc (d b s) : (disconnect d b s).disconnecting = s.disconnecting ++ [(d, b)] := by
  unfold disconnect; simp

theorem al_foldDisc {xs : List Nat} {s} (hx : ∀ x ∈ xs, s.disconnecting.any (·.1 == x) = false) (hn : xs.Nodup)
    (hs : Alive s) : Alive (xs.foldl (fun s d => disconnect d true s) s) := by
  induction xs generalizing s with
  | nil => exact hs
  | cons x xs ih =>
    rw [List.nodup_cons] at hn
    refine ih (fun y hy => ?_) hn.2 (al_disconnect (hx x (List.mem_cons_self ..)) hs)
    rw [disconnect_disc, List.any_append, hx y (List.mem_cons_of_mem _ hy)]
    simp only [List.any_cons, List.any_nil, Bool.or_false, Bool.false_or, beq_eq_false_iff_ne, ne_eq]
    rintro rfl; exact hn.1 hy

theorem al_apply {e s} (he : badHangup e = false) (ha : ¬ again e s.log) (hw : W s) (hl : Lv s) (hs : Alive s) :
    Alive (apply e s) := by
  cases e <;> simp only [apply]
  case connect d m =>
    split
    · exact hs
    · rename_i hd
      refine ⟨hs.alive, hs.once, ?_⟩
      simp only [emit_conns, List.map_append, List.map_cons, List.map_nil]
      rw [List.nodup_append]
      refine ⟨hs.conns, by simp, ?_⟩
      intro a ha' c hc
      rw [List.mem_singleton] at hc; subst hc
      rintro rfl
      exact hd (conns_connected _ ha')
  case call d c ipc sv g ok =>
    refine on_ind hs fun h => ?_
    have h' : connected d (emit (.req d c ipc .call g) s) = true := h
    unfold call; split
    · exact al_metric (al_emit (al_emit hs))
    · obtain ⟨x, hx, _⟩ := find_conn h'
      simp only [hx]
      split
      · exact al_involve (al_add (al_send (al_emit hs)))
      · exact al_send (al_involve (al_add (al_emit hs)))
  case converse => exact on_ind hs fun h => al_send (al_involve (al_add (al_emit hs)))
  case say => exact on_ind hs fun h => al_send hs
  case hangup d c ok =>
    cases ok with
    | false => simp [badHangup] at he
    | true =>
      refine on_ind hs fun h => al_dispatch (fun t => onHangup_tasks t s) (fun t => ?_) hs
      unfold onHangup; split
      · exact al_metric (al_send hs)
      · exact hs
  case enqueue => exact on_ind hs fun h => al_involve (al_add (al_send (al_emit hs)))
  case dequeue => exact on_ind hs fun h => al_involve (al_add (al_send (al_emit hs)))
  case prepare => exact on_ind hs fun h => al_send (al_addDest (al_emit hs))
  case commit => exact on_ind hs fun h => al_send (al_addDest (al_emit hs))
  case rollback => exact on_ind hs fun h => al_send (al_addDest (al_emit hs))
  case discover =>
    refine on_ind hs fun h => ?_
    unfold discovery; split
    · exact al_emit (al_emit hs)
    · exact al_send (al_addDest (al_emit hs))
  case explore =>
    refine on_ind hs fun h => ?_
    unfold explore; split
    · exact hs
    · exact al_send hs
  case rDisconnect d ok =>
    refine on_ind hs fun h => al_send (al_disconnect ?_ hs)
    rw [← hl.eq]; simpa [again] using ha
  case rCall =>
    exact on_ind hs fun h => al_dispatch (fun t => (bal_onReply 0 _ _ _ _).1) (fun t => al_onReply (al_emit hs)) (al_emit hs)
  case rEnqueue =>
    exact on_ind hs fun h => al_dispatch (fun t => (bal_onReply 0 _ _ _ _).1) (fun t => al_onReply (al_emit hs)) (al_emit hs)
  case rDequeue =>
    exact on_ind hs fun h => al_dispatch (fun t => (bal_onReply 0 _ _ _ _).1) (fun t => al_onReply (al_emit hs)) (al_emit hs)
  case rConnect =>
    refine on_ind hs fun h => al_dispatch (fun t => (bal_onConnect 0 _ _ _).1) (fun t => ?_) (al_emit hs)
    unfold onConnect; split
    · exact al_emit (al_opt (al_emit hs))
    · exact al_emit hs
  case rSay =>
    refine on_ind hs fun h => al_dispatch (fun t => (bal_onSend 0 _ _ _ _).1) (fun t => ?_) hs
    unfold onSend; split
    · exact al_emit hs
    · exact hs
  case rPrepare => exact on_ind hs fun h => al_resourceReply (al_emit hs)
  case rCommit => exact on_ind hs fun h => al_resourceReply (al_emit hs)
  case rRollback => exact on_ind hs fun h => al_resourceReply (al_emit hs)
  case rDiscover =>
    refine on_ind hs fun h => ?_
    unfold discoveryReply; dsimp only
    refine al_resourceReply ?_
    split
    · split
      · exact al_emit (al_emit hs)
      · exact al_emit (al_emit (al_emit hs))
    · split
      · exact al_emit (al_emit (al_emit hs))
      · exact al_emit (al_emit (al_emit (al_emit hs)))
  case broken => exact on_ind hs fun h => al_emit (al_lost h hs)
  case disassociate => exact al_emit (al_congr (s := s) rfl rfl rfl hs)
  case remove d =>
    refine on_ind hs fun h => al_disconnect ?_ hs
    rw [← hl.eq]; simpa [again] using ha
  case idle =>
    refine al_force (al_idleLoop (fun x hx => hl.sub x (List.mem_filter.mp hx).1) ?_ hs)
    exact hs.once.sublist (List.filter_sublist.map _)
  case shutdown =>
    refine al_force (al_foldDisc (fun x hx => ?_) hs.conns (al_congr (s := s) rfl rfl rfl hs))
    have hc := conns_connected x hx
    rw [hw.live] at hc
    show s.disconnecting.any (·.1 == x) = false
    rw [← hl.eq]
    cases hh : leaving x s.log with
    | false => rfl
    | true => exact absurd ⟨x, hc, hh⟩ ha

/-- No connection is told to close twice. -/
def NoAgain (es : List Event) : Prop := ∀ es' e, es' ++ [e] <+: es → ¬ again e (run es').log

theorem alive_run (es : List Event) (hb : ∀ e ∈ es, badHangup e = false) (ha : NoAgain es) : Alive (run es) := by
  induction es using Casual.snocInd with
  | nil => exact ⟨rfl, by simp [run], by simp [run]⟩
  | snoc es e ih =>
    have h := ih (fun x hx => hb x (by simp [hx])) (fun es' e' hp => ha es' e' (hp.trans (List.prefix_append ..)))
    rw [run_snoc]; unfold step; split
    · exact h
    · exact al_apply (hb e (by simp)) (ha es e (List.prefix_refl _)) (w_run es) (lv_run es) h

/-! ### metrics -/

/-- How many times the call has been reported to SM. -/
def reported (c : Nat) : List Obs → Nat
  | [] => 0
  | .metrics p :: l => p.count (c, .call) + reported c l
  | _ :: l => reported c l

/-- How many times a call with the correlation has been answered. -/
def answered (c : Nat) : List Obs → Nat
  | [] => 0
  | .reply _ c' .call _ :: l => (if c' = c then 1 else 0) + answered c l
  | .refused _ c' :: l => (if c' = c then 1 else 0) + answered c l
  | _ :: l => answered c l

/-- Answered calls that are not going to be reported. -/
def missing (c : Nat) (s : State) : Int :=
  (answered c s.log : Int) - reported c s.log - s.pending.count (c, .call)

/-- Neither an answer nor a report. -/
def plain : Obs → Bool
  | .reply _ _ .call _ => false
  | .refused _ _ => false
  | .metrics _ => false
  | _ => true

theorem mis_emit {c o s} (h : plain o = true) : missing c (emit o s) = missing c s := by
  unfold missing
  have h1 : answered c (o :: s.log) = answered c s.log := by
    cases o <;> first | rfl | (simp [plain] at h; done) | skip
    rename_i k r
    cases k <;> first | rfl | simp [plain] at h
  have h2 : reported c (o :: s.log) = reported c s.log := by
    cases o <;> first | rfl | simp [plain] at h
  simp only [emit_log, emit_pending, h1, h2]

theorem mis_congr {c : Nat} {s t : State} (h1 : t.log = s.log) (h2 : t.pending = s.pending) : missing c t = missing c s := by
  unfold missing; rw [h1, h2]

theorem mis_metric {c c' k s} : missing c (metric c' k s) =
    missing c s - (if c' = c ∧ k = .call then 1 else 0) := by
  have hx : (s.pending ++ [(c', k)]).count (c, .call) = s.pending.count (c, .call) + (if c' = c ∧ k = .call then 1 else 0) := by
    simp only [List.count_append, List.count_cons, List.count_nil, Nat.zero_add]
    congr 1
    by_cases h : c' = c ∧ k = .call
    · obtain ⟨rfl, rfl⟩ := h; simp
    · rw [if_neg h, if_neg]
      intro he
      simp only [beq_iff_eq, Prod.mk.injEq] at he
      exact h he
  unfold metric missing; dsimp only
  split
  · simp only [answered, reported, List.count_nil, hx]
    split <;> omega
  · simp only [hx]
    split <;> omega

theorem mis_force {c s} : missing c (forceMetric s) = missing c s := by
  unfold forceMetric missing
  split
  · rfl
  · simp only [answered, reported, List.count_nil]; omega

theorem mis_unadv {c d s} : missing c (unadvertise d s) = missing c s := by
  unfold unadvertise; split
  · exact mis_emit rfl
  · rfl

theorem mis_call {c ipc c' r s} : missing c (emit (.reply ipc c' .call r) s) = missing c s + (if c' = c then 1 else 0) := by
  unfold missing; simp only [emit_log, emit_pending, answered, reported]
  split <;> omega

theorem mis_refused {c ipc c' s} : missing c (emit (.refused ipc c') s) = missing c s + (if c' = c then 1 else 0) := by
  unfold missing; simp only [emit_log, emit_pending, answered, reported]
  split <;> omega

theorem mis_failTask {c t s} : missing c (failTask t s) = missing c s := by
  unfold failTask; split
  · rw [mis_metric, mis_call]; simp
  · exact mis_emit rfl
  · exact mis_emit rfl
  · rfl

theorem mis_foldFail {c : Nat} {ts : List Task} {s : State} :
    missing c (ts.foldl (fun s t => failTask t s) s) = missing c s := by
  induction ts generalizing s with
  | nil => rfl
  | cons t ts ih => rw [List.foldl_cons, ih, mis_failTask]

theorem mis_lost {c d s} : missing c (lost d s) = missing c s := by
  have h : missing c (lostMid d s) = missing c s := by
    have hf : ∀ s, missing c (failedTasks d s) = missing c s := fun s => by
      have := mis_foldFail (c := c) (ts := s.tasks.filter (·.key = d)) (s := s)
      exact this
    unfold lostMid; rw [hf]; split
    · rw [mis_emit rfl, mis_unadv]
    · rw [mis_unadv]
  rw [← h]
  refine mis_congr (lost_log d s) ?_
  rw [lost_eq]; split <;> rfl

theorem mis_send {c ok d o s} (h : plain o = true) : missing c (send ok d o s) = missing c s := by
  unfold send; split
  · split
    · exact mis_emit h
    · rw [mis_emit rfl, mis_lost]
  · rfl

theorem mis_involve {c g d s} : missing c (involve g d s) = missing c s := by
  unfold involve
  split
  · rfl
  · dsimp only; split
    · split
      · rw [mis_emit rfl]; rfl
      · rfl
    · rfl

theorem mis_add {c t s} : missing c (addTask t s) = missing c s := rfl

theorem mis_addDest {c e s} : missing c (addDest e s) = missing c s := by
  unfold addDest; split <;> rfl

theorem mis_dispatch {c c' h s} (hh : ∀ t, missing c (h t s).1 = missing c s) : missing c (dispatch c' h s) = missing c s := by
  unfold dispatch
  split
  · rfl
  · split
    · rfl
    · dsimp only
      split
      · split <;> exact hh _
      · exact hh _

theorem mis_opt {c : Nat} {b : Bool} {p : Prop} [Decidable p] {o s} (h : plain o = true) :
    missing c (if p then (if b then emit o s else s) else s) = missing c s := by
  split
  · split
    · exact mis_emit h
    · rfl
  · rfl

theorem mis_onReply {c k r t s} : missing c (onReply k r t s).1 = missing c s := by
  unfold onReply
  split
  · split
    · dsimp only; rw [mis_metric, mis_opt rfl, mis_call]; simp
    · exact mis_emit rfl
    · exact mis_emit rfl
    · rfl
  · rfl

theorem mis_resourceReply {c c' k r s} (hk : k ≠ .call) : missing c (resourceReply c' k r s) = missing c s := by
  have h := takeDest_fields c' s
  have h' : missing c (takeDest c' s).1 = missing c s := mis_congr h.2.1 h.2.2.2.2.2.2.2
  unfold resourceReply
  split <;> rename_i he <;> rw [he] at h'
  · rw [mis_emit, h']; cases k <;> first | rfl | exact absurd rfl hk
  · exact h'

theorem mis_disconnect {c d b s} : missing c (disconnect d b s) = missing c s := by
  have := mis_unadv (c := c) (d := d) (s := s)
  exact this

theorem mis_idleLoop {c : Nat} {xs : List (Nat × Bool)} {s} : missing c (idleLoop xs s) = missing c s := by
  induction xs generalizing s with
  | nil => rfl
  | cons x xs ih =>
    obtain ⟨d, b⟩ := x
    unfold idleLoop; dsimp only
    rw [ih]
    split
    · rw [mis_emit rfl, mis_lost]
    · exact mis_lost

theorem mis_foldDisc {c : Nat} {xs : List Nat} {s} :
    missing c (xs.foldl (fun s d => disconnect d true s) s) = missing c s := by
  induction xs generalizing s with
  | nil => rfl
  | cons x xs ih => rw [List.foldl_cons, ih, mis_disconnect]

theorem mis_apply {c e s} : missing c (apply e s) = missing c s := by
  have on' : ∀ {d f}, (connected d s = true → missing c (f s) = missing c s) → missing c (on d f s) = missing c s := by
    intro d f hf; unfold on; split
    · exact hf (by assumption)
    · rfl
  cases e <;> simp only [apply]
  case connect => split; · rfl
                  · rw [mis_emit rfl]; rfl
  case call d c' ipc sv g ok =>
    refine on' fun h => ?_
    have h' : connected d (emit (.req d c' ipc .call g) s) = true := h
    unfold call; split
    · rw [mis_metric, mis_refused, mis_emit rfl]; simp
    · obtain ⟨x, hx, _⟩ := find_conn h'
      simp only [hx]
      split
      · rw [mis_involve, mis_add, mis_send rfl, mis_emit rfl]
      · rw [mis_send rfl, mis_involve, ← mis_emit (o := .req d c' ipc .call g) (s := s) rfl]; rfl
  case converse d c' ipc sv g ok =>
    refine on' fun h => ?_
    unfold converse
    rw [mis_send rfl, mis_involve, ← mis_emit (o := .req d c' ipc .conv g) (s := s) rfl]; rfl
  case say => exact on' fun h => mis_send rfl
  case hangup =>
    refine on' fun h => mis_dispatch fun t => ?_
    unfold onHangup; split
    · dsimp only; rw [mis_metric, mis_send rfl]; simp
    · rfl
  case enqueue d c' ipc g ok =>
    refine on' fun h => ?_
    unfold queue
    rw [mis_involve, mis_add, mis_send rfl, mis_emit rfl]
  case dequeue d c' ipc g ok =>
    refine on' fun h => ?_
    unfold queue
    rw [mis_involve, mis_add, mis_send rfl, mis_emit rfl]
  case prepare => refine on' fun h => ?_; unfold resource; rw [mis_send rfl, mis_addDest, mis_emit rfl]
  case commit => refine on' fun h => ?_; unfold resource; rw [mis_send rfl, mis_addDest, mis_emit rfl]
  case rollback => refine on' fun h => ?_; unfold resource; rw [mis_send rfl, mis_addDest, mis_emit rfl]
  case discover =>
    refine on' fun h => ?_
    unfold discovery; split
    · rw [mis_emit rfl, mis_emit rfl]
    · rw [mis_send rfl, mis_addDest, mis_emit rfl]
  case explore =>
    refine on' fun h => ?_
    unfold explore; split
    · rfl
    · exact mis_send rfl
  case rDisconnect => refine on' fun h => ?_; rw [mis_send rfl, mis_disconnect]
  case rCall => refine on' fun h => ?_; rw [mis_dispatch fun t => mis_onReply, mis_emit rfl]
  case rEnqueue => refine on' fun h => ?_; rw [mis_dispatch fun t => mis_onReply, mis_emit rfl]
  case rDequeue => refine on' fun h => ?_; rw [mis_dispatch fun t => mis_onReply, mis_emit rfl]
  case rConnect =>
    refine on' fun h => ?_
    rw [mis_dispatch fun t => ?_, mis_emit rfl]
    unfold onConnect; split
    · dsimp only; rw [mis_emit rfl, mis_opt rfl]
    · rfl
  case rSay =>
    refine on' fun h => mis_dispatch fun t => ?_
    unfold onSend; split
    · exact mis_emit rfl
    · rfl
  case rPrepare => refine on' fun h => ?_; rw [mis_resourceReply (by decide), mis_emit rfl]
  case rCommit => refine on' fun h => ?_; rw [mis_resourceReply (by decide), mis_emit rfl]
  case rRollback => refine on' fun h => ?_; rw [mis_resourceReply (by decide), mis_emit rfl]
  case rDiscover =>
    refine on' fun h => ?_
    unfold discoveryReply; dsimp only
    rw [mis_resourceReply (by decide)]
    split
    · split
      · rw [mis_emit rfl, mis_emit rfl]
      · rw [mis_emit rfl, mis_emit rfl, mis_emit rfl]
    · split
      · rw [mis_emit rfl, mis_emit rfl, mis_emit rfl]
      · rw [mis_emit rfl, mis_emit rfl, mis_emit rfl, mis_emit rfl]
  case broken => refine on' fun h => ?_; rw [mis_emit rfl, mis_lost]
  case disassociate => rw [mis_emit rfl]; rfl
  case remove => exact on' fun h => mis_disconnect
  case idle => unfold idle; rw [mis_force, mis_idleLoop]
  case shutdown => unfold shutdown; rw [mis_force, mis_foldDisc]; rfl

theorem mis_run (c : Nat) (es : List Event) : missing c (run es) = 0 := by
  refine inv_run (P := fun s => missing c s = 0) (by simp [missing, answered, reported]) (fun s e h => ?_) es
  unfold step; split
  · exact h
  · rw [mis_apply]; exact h

end Casual.Gateway.Out

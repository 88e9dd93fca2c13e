import Verif.Gateway.OutCount
/-!
Views of the log of the outbound group: which connections there are, in which transactions TM has
been told that they take part, and what is advertised.
-/
namespace Casual.Gateway.Out

/-! ### views that do not look at replies and metrics -/

structure Neutral {X : Type} (V : List Obs → X) : Prop where
  metrics : ∀ p l, V (.metrics p :: l) = V l
  reply : ∀ i c k r l, V (.reply i c k r :: l) = V l

section
variable {X : Type} {V : List Obs → X} (hv : Neutral V)
include hv

theorem view_metric (c k s) : V (metric c k s).log = V s.log := by
  rcases metric_log c k s with h | ⟨p, h⟩ <;> rw [h]
  exact hv.metrics _ _

theorem view_force (s) : V (forceMetric s).log = V s.log := by
  rcases force_log s with h | ⟨p, h⟩ <;> rw [h]
  exact hv.metrics _ _

theorem view_failTask (t s) : V (failTask t s).log = V s.log := by
  unfold failTask; split
  · rw [view_metric hv, emit_log, hv.reply]
  · rw [emit_log, hv.reply]
  · rw [emit_log, hv.reply]
  · rfl

theorem view_ft (d s) : V (failedTasks d s).log = V s.log := by
  have h : ∀ (ts : List Task) (s : State), V (ts.foldl (fun s t => failTask t s) s).log = V s.log := by
    intro ts
    induction ts with
    | nil => intro s; rfl
    | cons t ts ih => intro s; rw [List.foldl_cons, ih, view_failTask hv]
  exact h _ s

theorem view_lost {d s} (h : connected d s = true) :
    V (lost d s).log = V (.closed d :: .unadvertised d :: s.log) := by
  rw [lost_log]; unfold lostMid
  rw [view_ft hv]
  rw [unadv_connected, if_pos h, emit_log]
  simp [unadvertise, h]

theorem view_lost_not {d s} (h : connected d s = false) : V (lost d s).log = V s.log := by
  rw [lost_log]; unfold lostMid
  rw [view_ft hv]
  simp [unadvertise, h]

end

/-! ### connections -/

/-- The connection is there (newest observation first). -/
def live (d : Nat) : List Obs → Bool
  | [] => false
  | .connected d' :: l => d' == d || live d l
  | .closed d' :: l => d' != d && live d l
  | _ :: l => live d l

theorem live_neutral (d) : Neutral (live d) := ⟨fun _ _ => rfl, fun _ _ _ _ _ => rfl⟩

/-- Observations that do not change which connections there are. -/
def still : Obs → Bool
  | .connected _ => false
  | .closed _ => false
  | _ => true

theorem live_still {o : Obs} (h : still o = true) (d l) : live d (o :: l) = live d l := by
  cases o <;> simp [still] at h <;> rfl

/-- The connections in the state are those of the log. -/
def LiveOk (s : State) : Prop := ∀ d, connected d s = live d s.log

theorem liveOk_emit {o s} (h : still o = true) (hs : LiveOk s) : LiveOk (emit o s) := by
  intro d; rw [emit_connected, emit_log, live_still h]; exact hs d

theorem liveOk_congr {s t : State} (h1 : t.conns = s.conns) (h2 : ∀ d, live d t.log = live d s.log)
    (hs : LiveOk s) : LiveOk t := by
  intro d; rw [h2, ← hs d]; unfold connected; rw [h1]

theorem liveOk_metric {c k s} (hs : LiveOk s) : LiveOk (metric c k s) :=
  liveOk_congr (by simp) (fun d => view_metric (live_neutral d) c k s) hs

theorem liveOk_force {s} (hs : LiveOk s) : LiveOk (forceMetric s) :=
  liveOk_congr (by simp) (fun d => view_force (live_neutral d) s) hs

theorem liveOk_unadv {d s} (hs : LiveOk s) : LiveOk (unadvertise d s) := by
  unfold unadvertise; split
  · exact liveOk_emit rfl hs
  · exact hs

theorem liveOk_lost {d s} (hs : LiveOk s) : LiveOk (lost d s) := by
  intro d'
  rw [lost_connected]
  cases h : connected d s with
  | true =>
    rw [view_lost (live_neutral d') h, hs d']
    simp only [live]
    rw [Bool.and_comm]; congr 1
    rw [Bool.eq_iff_iff]; simp only [bne_iff_ne, ne_eq]; exact ⟨fun a b => a b.symm, fun a b => a b.symm⟩
  | false =>
    rw [view_lost_not (live_neutral d') h, ← hs d']
    cases hd : connected d' s with
    | false => rfl
    | true =>
      simp only [Bool.true_and, bne_iff_ne, ne_eq]
      rintro rfl; rw [h] at hd; cases hd

theorem liveOk_send {ok d o s} (h : still o = true) (hs : LiveOk s) : LiveOk (send ok d o s) := by
  unfold send; split
  · split
    · exact liveOk_emit h hs
    · exact liveOk_emit rfl (liveOk_lost hs)
  · exact hs

theorem liveOk_involve {g d s} (hs : LiveOk s) : LiveOk (involve g d s) := by
  unfold involve
  split
  · exact hs
  · dsimp only
    have h' : ∀ t, LiveOk { s with trans := t } := fun t => hs
    split
    · split
      · exact liveOk_emit rfl (h' _)
      · exact h' _
    · exact h' _

theorem liveOk_add {t s} (hs : LiveOk s) : LiveOk (addTask t s) := hs

theorem liveOk_addDest {e s} (hs : LiveOk s) : LiveOk (addDest e s) :=
  liveOk_congr (by simp) (fun d => by simp) hs

theorem liveOk_dispatch {c h s} (hh : ∀ t, LiveOk (h t s).1) (hs : LiveOk s) : LiveOk (dispatch c h s) := by
  unfold dispatch
  split
  · exact hs
  · split
    · exact hs
    · dsimp only
      split
      · split <;> exact hh _
      · exact hh _

theorem liveOk_opt {b : Bool} {p : Prop} [Decidable p] {o s} (h : still o = true) (hs : LiveOk s) :
    LiveOk (if p then (if b then emit o s else s) else s) := by
  split
  · split
    · exact liveOk_emit h hs
    · exact hs
  · exact hs

theorem liveOk_onReply {k r t s} (hs : LiveOk s) : LiveOk (onReply k r t s).1 := by
  unfold onReply
  split
  · split
    · exact liveOk_metric (liveOk_opt rfl (liveOk_emit rfl hs))
    · exact liveOk_emit rfl hs
    · exact liveOk_emit rfl hs
    · exact hs
  · exact hs

theorem liveOk_resourceReply {c k r s} (hs : LiveOk s) : LiveOk (resourceReply c k r s) := by
  have h := takeDest_fields c s
  have h' : LiveOk (takeDest c s).1 := liveOk_congr h.2.2.1 (fun d => by rw [h.2.1]) hs
  unfold resourceReply
  split <;> rename_i he <;> rw [he] at h'
  · exact liveOk_emit rfl h'
  · exact h'

theorem liveOk_disconnect {d b s} (hs : LiveOk s) : LiveOk (disconnect d b s) := by
  have := liveOk_unadv (d := d) hs
  exact this

theorem liveOk_idleLoop {xs : List (Nat × Bool)} {s} (hs : LiveOk s) : LiveOk (idleLoop xs s) := by
  induction xs generalizing s with
  | nil => exact hs
  | cons x xs ih =>
    obtain ⟨d, b⟩ := x
    unfold idleLoop; dsimp only
    apply ih
    split
    · exact liveOk_emit rfl (liveOk_lost hs)
    · exact liveOk_lost hs

theorem liveOk_foldDisc {xs : List Nat} {s} (hs : LiveOk s) :
    LiveOk (xs.foldl (fun s d => disconnect d true s) s) := by
  induction xs generalizing s with
  | nil => exact hs
  | cons x xs ih => exact ih (liveOk_disconnect hs)

theorem on_ind {P : State → Prop} {d f s} (hs : P s) (hf : connected d s = true → P (f s)) : P (on d f s) := by
  unfold on; split
  · exact hf (by assumption)
  · exact hs

theorem liveOk_apply {e s} (hs : LiveOk s) : LiveOk (apply e s) := by
  cases e <;> simp only [apply]
  case connect d m =>
    split
    · exact hs
    · intro d'
      have := hs d'
      simp only [connected, emit_conns, emit_log, live, List.any_append, List.any_cons, List.any_nil] at this ⊢
      rw [this, Bool.or_comm]; simp
  case call d c ipc sv g ok =>
    refine on_ind hs fun h => ?_
    unfold call; split
    · exact liveOk_metric (liveOk_emit rfl (liveOk_emit rfl hs))
    · split
      · exact liveOk_emit rfl hs
      · split
        · exact liveOk_involve (liveOk_add (liveOk_send rfl (liveOk_emit rfl hs)))
        · exact liveOk_send rfl (liveOk_involve (liveOk_add (liveOk_emit rfl hs)))
  case converse => exact on_ind hs fun h => liveOk_send rfl (liveOk_involve (liveOk_add (liveOk_emit rfl hs)))
  case say => exact on_ind hs fun h => liveOk_send rfl hs
  case hangup d c ok =>
    refine on_ind hs fun h => liveOk_dispatch (fun t => ?_) hs
    unfold onHangup; split
    · exact liveOk_metric (liveOk_send rfl hs)
    · exact hs
  case enqueue => exact on_ind hs fun h => liveOk_involve (liveOk_add (liveOk_send rfl (liveOk_emit rfl hs)))
  case dequeue => exact on_ind hs fun h => liveOk_involve (liveOk_add (liveOk_send rfl (liveOk_emit rfl hs)))
  case prepare => exact on_ind hs fun h => liveOk_send rfl (liveOk_addDest (liveOk_emit rfl hs))
  case commit => exact on_ind hs fun h => liveOk_send rfl (liveOk_addDest (liveOk_emit rfl hs))
  case rollback => exact on_ind hs fun h => liveOk_send rfl (liveOk_addDest (liveOk_emit rfl hs))
  case discover =>
    refine on_ind hs fun h => ?_
    unfold discovery; split
    · exact liveOk_emit rfl (liveOk_emit rfl hs)
    · exact liveOk_send rfl (liveOk_addDest (liveOk_emit rfl hs))
  case explore =>
    refine on_ind hs fun h => ?_
    unfold explore; split
    · exact hs
    · exact liveOk_send rfl hs
  case rDisconnect => exact on_ind hs fun h => liveOk_send rfl (liveOk_disconnect hs)
  case rCall =>
    exact on_ind hs fun h => liveOk_dispatch (fun t => liveOk_onReply (liveOk_emit rfl hs)) (liveOk_emit rfl hs)
  case rEnqueue =>
    exact on_ind hs fun h => liveOk_dispatch (fun t => liveOk_onReply (liveOk_emit rfl hs)) (liveOk_emit rfl hs)
  case rDequeue =>
    exact on_ind hs fun h => liveOk_dispatch (fun t => liveOk_onReply (liveOk_emit rfl hs)) (liveOk_emit rfl hs)
  case rConnect =>
    refine on_ind hs fun h => liveOk_dispatch (fun t => ?_) (liveOk_emit rfl hs)
    unfold onConnect; split
    · exact liveOk_emit rfl (liveOk_opt rfl (liveOk_emit rfl hs))
    · exact liveOk_emit rfl hs
  case rSay =>
    refine on_ind hs fun h => liveOk_dispatch (fun t => ?_) hs
    unfold onSend; split
    · exact liveOk_emit rfl hs
    · exact hs
  case rPrepare => exact on_ind hs fun h => liveOk_resourceReply (liveOk_emit rfl hs)
  case rCommit => exact on_ind hs fun h => liveOk_resourceReply (liveOk_emit rfl hs)
  case rRollback => exact on_ind hs fun h => liveOk_resourceReply (liveOk_emit rfl hs)
  case rDiscover =>
    refine on_ind hs fun h => ?_
    unfold discoveryReply; dsimp only
    refine liveOk_resourceReply ?_
    split
    · split
      · exact liveOk_emit rfl (liveOk_emit rfl hs)
      · exact liveOk_emit rfl (liveOk_emit rfl (liveOk_emit rfl hs))
    · split
      · exact liveOk_emit rfl (liveOk_emit rfl (liveOk_emit rfl hs))
      · exact liveOk_emit rfl (liveOk_emit rfl (liveOk_emit rfl (liveOk_emit rfl hs)))
  case broken => exact on_ind hs fun h => liveOk_emit rfl (liveOk_lost hs)
  case disassociate => exact liveOk_emit rfl hs
  case remove => exact on_ind hs fun h => liveOk_disconnect hs
  case idle => exact liveOk_force (liveOk_idleLoop hs)
  case shutdown => exact liveOk_force (liveOk_foldDisc hs)

theorem liveOk_run (es : List Event) : LiveOk (run es) := by
  refine inv_run (by intro d; rfl) (fun s e h => ?_) es
  unfold step; split
  · exact h
  · exact liveOk_apply h

end Casual.Gateway.Out

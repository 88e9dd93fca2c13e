import Verif.Gateway.OutWhy
/-!
What is sent to another domain and not answered yet, and what the outbound group keeps.
-/
namespace Casual.Gateway.Out

/-- A request with the correlation has been sent on the connection, and there is no answer yet (a
conversation is not over yet), and the connection has not been closed. -/
def outstanding (d c : Nat) : List Obs → Bool
  | [] => false
  | .tcp d' c' _ _ :: l => outstanding d c l || (d' == d && c' == c)
  | .reply _ c' k _ :: l => (k == .conv || c' != c) && outstanding d c l
  | .hangup _ c' :: l => c' != c && outstanding d c l
  | .toLocal _ c' _ t :: l => (!t || c' != c) && outstanding d c l
  | .closed d' :: l => d' != d && outstanding d c l
  | _ :: l => outstanding d c l

def isTcp : Obs → Bool
  | .tcp .. => true
  | _ => false

theorem out_mono {o : Obs} (h : isTcp o = false) {d c l} (ho : outstanding d c (o :: l) = true) :
    outstanding d c l = true := by
  cases o <;> simp only [outstanding, Bool.and_eq_true] at ho <;>
    first | exact ho | exact ho.2 | simp [isTcp] at h

theorem out_live {d c : Nat} {l : List Obs} (hw : Whys l) (h : outstanding d c l = true) : live d l = true := by
  induction l with
  | nil => simp [outstanding] at h
  | cons o l ih =>
    cases ht : isTcp o with
    | true =>
      cases o <;> simp [isTcp] at ht
      simp only [outstanding, Bool.or_eq_true, Bool.and_eq_true, beq_iff_eq] at h
      rcases h with h | ⟨rfl, rfl⟩
      · exact ih hw.2 h
      · exact hw.1.1
    | false =>
      have hl := ih hw.2 (out_mono ht h)
      cases o <;> simp only [live, hl, Bool.or_true, Bool.and_true]
      simp only [outstanding, Bool.and_eq_true] at h
      exact h.1

/-- All that is outstanding is kept. -/
def Kept (s : State) : Prop := ∀ d c, outstanding d c s.log = true →
  (∃ t ∈ s.tasks, t.key = d ∧ t.corr = c) ∨ (∃ e ∈ s.dest, e.conn = d ∧ e.corr = c)

theorem kept_emit {o s} (h : isTcp o = false) (hs : Kept s) : Kept (emit o s) :=
  fun d c ho => hs d c (out_mono h ho)

theorem kept_congr {s t : State} (h2 : t.tasks = s.tasks) (h4 : t.dest = s.dest)
    (h5 : t.log = s.log ∨ ∃ p, t.log = .metrics p :: s.log) (hs : Kept s) : Kept t := by
  intro d c ho
  rw [h2, h4]
  rcases h5 with h5 | ⟨p, h5⟩ <;> rw [h5] at ho
  · exact hs d c ho
  · exact hs d c ho

theorem kept_metric {c k s} (hs : Kept s) : Kept (metric c k s) :=
  kept_congr (by simp) (by simp) (metric_log c k s) hs

theorem kept_force {s} (hs : Kept s) : Kept (forceMetric s) :=
  kept_congr (by simp) (by simp) (force_log s) hs

theorem kept_unadv {d s} (hs : Kept s) : Kept (unadvertise d s) := by
  unfold unadvertise; split
  · exact kept_emit rfl hs
  · exact hs

theorem out_failTask {d c t s} (h : outstanding d c (failTask t s).log = true) : outstanding d c s.log = true := by
  unfold failTask at h; split at h
  · rcases metric_log t.corr .call (emit (.reply t.ipc t.corr .call ⟨svcErr, 0⟩) s) with e | ⟨p, e⟩ <;> rw [e] at h
    · exact out_mono rfl h
    · exact out_mono rfl (out_mono rfl h)
  · exact out_mono rfl h
  · exact out_mono rfl h
  · exact h

theorem out_foldFail {d c : Nat} {ts : List Task} {s : State}
    (h : outstanding d c (ts.foldl (fun s t => failTask t s) s).log = true) : outstanding d c s.log = true := by
  induction ts generalizing s with
  | nil => exact h
  | cons t ts ih => exact out_failTask (ih h)

theorem out_lost {d d' c s} (h : outstanding d' c (lost d s).log = true) :
    outstanding d' c s.log = true ∧ (connected d s = true → d' ≠ d) := by
  rw [lost_log] at h
  have h := out_foldFail h
  cases hc : connected d s with
  | true =>
    rw [unadv_connected, if_pos hc] at h
    simp only [hc, if_true, unadvertise, emit_log, outstanding, Bool.and_eq_true, bne_iff_ne, ne_eq] at h
    exact ⟨h.2, fun _ e => h.1 e.symm⟩
  | false =>
    simp only [unadv_connected, hc, Bool.false_eq_true, if_false, unadvertise] at h
    exact ⟨h, fun h => by cases h⟩

theorem lost_dest {d s} : ∀ e ∈ s.dest, e.conn ≠ d → e ∈ (lost d s).dest := by
  intro e he hne
  rw [lost_eq]; split
  · exact List.mem_filter.mpr ⟨he, by simpa using hne⟩
  · have : (lostMid d s).dest = s.dest := by unfold lostMid; split <;> simp
    exact this.symm ▸ he

theorem kept_lost {d s} (hw : W s) (hs : Kept s) : Kept (lost d s) := by
  intro d' c h
  obtain ⟨h1, h2⟩ := out_lost h
  have hd : d' ≠ d := by
    cases hc : connected d s with
    | true => exact h2 hc
    | false =>
      rintro rfl
      have := out_live hw.good h1
      rw [← hw.live, hc] at this; cases this
  rcases hs d' c h1 with ⟨t, ht, hk, hc⟩ | ⟨e, he, hk, hc⟩
  · exact Or.inl ⟨t, by rw [lost_tasks]; exact List.mem_filter.mpr ⟨ht, by simpa using fun h => hd (hk.symm.trans h)⟩, hk, hc⟩
  · exact Or.inr ⟨e, lost_dest e he (fun h => hd (hk.symm.trans h)), hk, hc⟩

theorem kept_send {ok d o s} (h : isTcp o = false) (hw : W s) (hs : Kept s) : Kept (send ok d o s) := by
  unfold send; split
  · split
    · exact kept_emit h hs
    · exact kept_emit rfl (kept_lost hw hs)
  · exact hs

theorem kept_involve {g d s} (hs : Kept s) : Kept (involve g d s) := by
  unfold involve
  split
  · exact hs
  · dsimp only
    have h' : ∀ t, Kept { s with trans := t } := fun t => hs
    split
    · split
      · exact kept_emit rfl (h' _)
      · exact h' _
    · exact h' _

theorem kept_add {t s} (hs : Kept s) : Kept (addTask t s) := by
  intro d c h
  rcases hs d c h with ⟨u, hu, h1⟩ | h1
  · exact Or.inl ⟨u, by simp [hu], h1⟩
  · exact Or.inr h1

/-- The request is sent, and its unit is added. -/
theorem kept_sendAdd {t s ok k g} (hc : connected t.key s = true) (hw : W s) (hs : Kept s) :
    Kept (addTask t (send ok t.key (.tcp t.key t.corr k g) s)) := by
  unfold send; rw [if_pos hc]
  split
  · intro d c h
    simp only [add_log, emit_log, outstanding, Bool.or_eq_true, Bool.and_eq_true, beq_iff_eq] at h
    rcases h with h | ⟨rfl, rfl⟩
    · rcases hs d c h with ⟨u, hu, h1⟩ | h1
      · exact Or.inl ⟨u, by simp [hu], h1⟩
      · exact Or.inr h1
    · exact Or.inl ⟨t, by simp, rfl, rfl⟩
  · exact kept_add (kept_emit rfl (kept_lost hw hs))

theorem kept_addSend {t s ok k g} (ht : t ∈ s.tasks) (hw : W s) (hs : Kept s) :
    Kept (send ok t.key (.tcp t.key t.corr k g) s) := by
  unfold send; split
  · split
    · intro d c h
      simp only [emit_log, outstanding, Bool.or_eq_true, Bool.and_eq_true, beq_iff_eq] at h
      rcases h with h | ⟨rfl, rfl⟩
      · exact hs d c h
      · exact Or.inl ⟨t, ht, rfl, rfl⟩
    · exact kept_emit rfl (kept_lost hw hs)
  · exact hs

theorem kept_destSend {e s ok k g} (he : e ∈ s.dest) (hw : W s) (hs : Kept s) :
    Kept (send ok e.conn (.tcp e.conn e.corr k g) s) := by
  unfold send; split
  · split
    · intro d c h
      simp only [emit_log, outstanding, Bool.or_eq_true, Bool.and_eq_true, beq_iff_eq] at h
      rcases h with h | ⟨rfl, rfl⟩
      · exact hs d c h
      · exact Or.inr ⟨e, he, rfl, rfl⟩
    · exact kept_emit rfl (kept_lost hw hs)
  · exact hs

theorem mem_eraseIdx_ne {A : Type} {l : List A} {i : Nat} {t u : A} (h : l[i]? = some t) (hu : u ∈ l) (hne : u ≠ t) :
    u ∈ l.eraseIdx i := by
  induction l generalizing i with
  | nil => cases hu
  | cons a l ih =>
    cases i with
    | zero =>
      simp only [List.getElem?_cons_zero, Option.some.injEq] at h
      subst h
      rcases List.mem_cons.mp hu with rfl | h
      · exact absurd rfl hne
      · exact h
    | succ i =>
      simp only [List.getElem?_cons_succ] at h
      rcases List.mem_cons.mp hu with rfl | hu
      · exact List.mem_cons_self ..
      · exact List.mem_cons_of_mem _ (ih h hu)

/-- A handler that leaves the units alone, and that ends all that is outstanding with the
correlation if it is done. -/
theorem kept_dispatch {c h s} (h1 : ∀ t, (h t s).1.tasks = s.tasks)
    (h2 : ∀ t ∈ s.tasks, t.corr = c → Kept (h t s).1 ∧
      ((h t s).2 = true → ∀ d, outstanding d c (h t s).1.log = true → t.key ≠ d))
    (hs : Kept s) : Kept (dispatch c h s) := by
  unfold dispatch
  cases hf : s.tasks.findIdx? (·.corr = c) with
  | none => exact hs
  | some i =>
    obtain ⟨t, ht, htc⟩ := findIdx_get hf
    have hm : t ∈ s.tasks := List.mem_of_getElem? ht
    simp only [ht]
    obtain ⟨hk, hd⟩ := h2 t hm htc
    have hi : i < s.tasks.length := by
      rw [List.getElem?_eq_some_iff] at ht; exact ht.1
    split
    · rename_i hdone
      rw [h1 t, if_pos hi]
      intro d' c' ho
      have ho' : outstanding d' c' (h t s).1.log = true := ho
      rcases hk d' c' ho' with ⟨u, hu, e1, e2⟩ | hx
      · left
        refine ⟨u, mem_eraseIdx_ne ht (h1 t ▸ hu) ?_, e1, e2⟩
        rintro rfl
        have : c' = c := e2.symm.trans htc
        subst this
        exact hd hdone d' ho' e1
      · exact Or.inr hx
    · exact hk

theorem kept_opt {b : Bool} {p : Prop} [Decidable p] {o s} (hq : isTcp o = false) (hs : Kept s) :
    Kept (if p then (if b then emit o s else s) else s) := by
  split
  · split
    · exact kept_emit hq hs
    · exact hs
  · exact hs

theorem out_opt {b : Bool} {p : Prop} [Decidable p] {o s d c} (hq : isTcp o = false)
    (h : outstanding d c (if p then (if b then emit o s else s) else s).log = true) : outstanding d c s.log = true := by
  split at h
  · split at h
    · exact out_mono hq h
    · exact h
  · exact h

theorem out_metric {c' k s d c} (h : outstanding d c (metric c' k s).log = true) : outstanding d c s.log = true := by
  rcases metric_log c' k s with e | ⟨p, e⟩ <;> rw [e] at h
  · exact h
  · exact h

theorem kept_onReply {k r t s} (hs : Kept s) : Kept (onReply k r t s).1 ∧
    ((onReply k r t s).2 = true → ∀ d, outstanding d t.corr (onReply k r t s).1.log = true → t.key ≠ d) := by
  have hx : ∀ k' r d, k' ≠ .conv → outstanding d t.corr (emit (.reply t.ipc t.corr k' r) s).log = true → t.key ≠ d := by
    intro k' r d hne h
    simp [outstanding, hne] at h
  unfold onReply
  split
  · split
    · refine ⟨kept_metric (kept_opt rfl (kept_emit rfl hs)), fun _ d h => ?_⟩
      exact hx _ _ _ (by decide) (out_opt (by rfl) (out_metric h))
    · exact ⟨kept_emit rfl hs, fun _ d h => hx _ _ _ (by decide) h⟩
    · exact ⟨kept_emit rfl hs, fun _ d h => hx _ _ _ (by decide) h⟩
    · exact ⟨hs, fun h => (by cases h)⟩
  · exact ⟨hs, fun h => (by cases h)⟩

theorem kept_onConnect {r t s} (hs : Kept s) : Kept (onConnect r t s).1 ∧ (onConnect r t s).2 = false := by
  unfold onConnect
  split
  · exact ⟨kept_emit rfl (kept_opt rfl hs), rfl⟩
  · exact ⟨hs, rfl⟩

theorem kept_onSend {data tm t s} (hs : Kept s) : Kept (onSend data tm t s).1 ∧
    ((onSend data tm t s).2 = true → ∀ d, outstanding d t.corr (onSend data tm t s).1.log = true → t.key ≠ d) := by
  unfold onSend
  split
  · refine ⟨kept_emit rfl hs, fun h d ho => ?_⟩
    dsimp only at h
    simp [outstanding, h] at ho
  · exact ⟨hs, fun h => (by cases h)⟩

theorem kept_onHangup {t s} (hw : W s) (hs : Kept s) : Kept (onHangup true t s).1 ∧
    ((onHangup true t s).2 = true → ∀ d, outstanding d t.corr (onHangup true t s).1.log = true → t.key ≠ d) := by
  unfold onHangup
  split
  · refine ⟨kept_metric (kept_send rfl hw hs), fun h d ho => ?_⟩
    have ho := out_metric ho
    unfold send at ho
    split at ho
    · simp [outstanding] at ho
    · rename_i hc
      rintro rfl
      have := out_live hw.good ho
      rw [← hw.live] at this
      exact hc this
  · exact ⟨hs, fun h => (by cases h)⟩

theorem kept_resourceReply {c k r s} (hk : k ≠ .conv) (hs : Kept s) : Kept (resourceReply c k r s) := by
  unfold resourceReply takeDest
  cases hf : s.dest.find? (·.corr == c) with
  | none => exact hs
  | some e =>
    dsimp only
    have hc : e.corr = c := by simpa using List.find?_some hf
    intro d' c' h
    simp only [emit_log, outstanding, Bool.and_eq_true, Bool.or_eq_true, beq_iff_eq, bne_iff_ne, ne_eq, hk, false_or] at h
    rcases hs d' c' h.2 with h1 | ⟨x, hx, h1, h2⟩
    · exact Or.inl h1
    · right
      refine ⟨x, ?_, h1, h2⟩
      refine (List.mem_erase_of_ne ?_).mpr hx
      rintro rfl
      exact h.1 (hc.symm.trans h2)

theorem kept_disconnect {d b s} (hs : Kept s) : Kept (disconnect d b s) := by
  have := kept_unadv (d := d) hs
  exact this

theorem kept_idleLoop {xs : List (Nat × Bool)} {s} (hw : W s) (hs : Kept s) : Kept (idleLoop xs s) := by
  induction xs generalizing s with
  | nil => exact hs
  | cons x xs ih =>
    obtain ⟨d, b⟩ := x
    unfold idleLoop; dsimp only
    split
    · exact ih (w_emit rfl trivial (w_lost hw).1) (kept_emit rfl (kept_lost hw hs))
    · exact ih (w_lost hw).1 (kept_lost hw hs)

theorem kept_foldDisc {xs : List Nat} {s} (hs : Kept s) :
    Kept (xs.foldl (fun s d => disconnect d true s) s) := by
  induction xs generalizing s with
  | nil => exact hs
  | cons x xs ih => exact ih (kept_disconnect hs)

/-- The correlation of a request to prepare, commit or rollback, or a discovery request. -/
def asksVia : Event → Option Nat
  | .prepare _ c _ _ => some c
  | .commit _ c _ _ => some c
  | .rollback _ c _ _ => some c
  | .discover _ c _ _ => some c
  | _ => none

theorem addDest_new {e s} (h : ∀ x ∈ s.dest, x.corr ≠ e.corr) : e ∈ (addDest e s).dest := by
  unfold addDest
  rw [if_neg (by simpa using h)]
  simp

theorem kept_addDest {e s} (hs : Kept s) : Kept (addDest e s) := by
  intro d c h
  rw [ad_log] at h; rw [ad_tasks]
  rcases hs d c h with h1 | ⟨x, hx, h1⟩
  · exact Or.inl h1
  · refine Or.inr ⟨x, ?_, h1⟩
    unfold addDest; split
    · exact hx
    · exact List.mem_append_left _ hx

theorem kept_apply {e s} (he : badHangup e = false) (hf : ∀ c, asksVia e = some c → ∀ x ∈ s.dest, x.corr ≠ c)
    (hw : W s) (hs : Kept s) : Kept (apply e s) := by
  cases e <;> simp only [apply]
  case connect d m =>
    split
    · exact hs
    · exact kept_emit rfl hs
  case call d c ipc sv g ok =>
    refine on_ind hs fun h => ?_
    have hs' : Kept (emit (.req d c ipc .call g) s) := kept_emit rfl hs
    have hw' : W (emit (.req d c ipc .call g) s) := w_emit rfl trivial hw
    have h' : connected d (emit (.req d c ipc .call g) s) = true := h
    unfold call; split
    · exact kept_metric (kept_emit rfl hs')
    · obtain ⟨x, hx, _⟩ := find_conn h'
      simp only [hx]
      split
      · exact kept_involve (kept_sendAdd (t := ⟨d, c, ipc, .call, sv⟩) h' hw' hs')
      · refine kept_addSend (t := ⟨d, c, ipc, .call, sv⟩) (by simp) ?_ (kept_involve (kept_add hs'))
        exact (w_involve (w_add hw' (Or.inl h') ⟨g, List.mem_cons_self ..⟩)).1
  case converse d c ipc sv g ok =>
    refine on_ind hs fun h => ?_
    have hs' : Kept (emit (.req d c ipc .conv g) s) := kept_emit rfl hs
    have hw' : W (emit (.req d c ipc .conv g) s) := w_emit rfl trivial hw
    refine kept_addSend (t := ⟨d, c, ipc, .conv, sv⟩) (by simp) ?_ (kept_involve (kept_add hs'))
    exact (w_involve (w_add hw' (Or.inl h) ⟨g, List.mem_cons_self ..⟩)).1
  case say => exact on_ind hs fun h => kept_send rfl hw hs
  case hangup d c ok =>
    cases ok with
    | false => simp [badHangup] at he
    | true =>
      refine on_ind hs fun h => kept_dispatch (fun t => onHangup_tasks t s) (fun t _ hc => hc ▸ kept_onHangup hw hs) hs
  case enqueue d c ipc g ok =>
    exact on_ind hs fun h => kept_involve (kept_sendAdd (t := ⟨d, c, ipc, .enqueue, 0⟩) h (w_emit rfl trivial hw) (kept_emit rfl hs))
  case dequeue d c ipc g ok =>
    exact on_ind hs fun h => kept_involve (kept_sendAdd (t := ⟨d, c, ipc, .dequeue, 0⟩) h (w_emit rfl trivial hw) (kept_emit rfl hs))
  case prepare d c ipc ok =>
    exact on_ind hs fun h => kept_destSend (e := ⟨c, ipc, d⟩) (addDest_new (hf c rfl))
      (w_addDest ⟨.prepare, none, List.mem_cons_self .., rfl⟩ (w_emit rfl trivial hw)) (kept_addDest (kept_emit rfl hs))
  case commit d c ipc ok =>
    exact on_ind hs fun h => kept_destSend (e := ⟨c, ipc, d⟩) (addDest_new (hf c rfl))
      (w_addDest ⟨.commit, none, List.mem_cons_self .., rfl⟩ (w_emit rfl trivial hw)) (kept_addDest (kept_emit rfl hs))
  case rollback d c ipc ok =>
    exact on_ind hs fun h => kept_destSend (e := ⟨c, ipc, d⟩) (addDest_new (hf c rfl))
      (w_addDest ⟨.rollback, none, List.mem_cons_self .., rfl⟩ (w_emit rfl trivial hw)) (kept_addDest (kept_emit rfl hs))
  case discover d c ipc ok =>
    refine on_ind hs fun h => ?_
    unfold discovery; split
    · exact kept_emit rfl (kept_emit rfl hs)
    · exact kept_destSend (e := ⟨c, ipc, d⟩) (addDest_new (hf c rfl))
        (w_addDest ⟨.discovery, none, List.mem_cons_self .., rfl⟩ (w_emit rfl trivial hw)) (kept_addDest (kept_emit rfl hs))
  case explore =>
    refine on_ind hs fun h => ?_
    unfold explore; split
    · exact hs
    · exact kept_send rfl hw hs
  case rDisconnect => exact on_ind hs fun h => kept_send rfl (w_disconnect hw) (kept_disconnect hs)
  case rCall d c r =>
    exact on_ind hs fun h => kept_dispatch (fun t => (bal_onReply c _ _ t _).1)
      (fun t _ hc => hc ▸ kept_onReply (kept_emit rfl hs)) (kept_emit rfl hs)
  case rEnqueue d c r =>
    exact on_ind hs fun h => kept_dispatch (fun t => (bal_onReply c _ _ t _).1)
      (fun t _ hc => hc ▸ kept_onReply (kept_emit rfl hs)) (kept_emit rfl hs)
  case rDequeue d c r =>
    exact on_ind hs fun h => kept_dispatch (fun t => (bal_onReply c _ _ t _).1)
      (fun t _ hc => hc ▸ kept_onReply (kept_emit rfl hs)) (kept_emit rfl hs)
  case rConnect d c r =>
    refine on_ind hs fun h => kept_dispatch (fun t => (bal_onConnect c _ t _).1)
      (fun t _ hc => ?_) (kept_emit rfl hs)
    obtain ⟨h1, h2⟩ := kept_onConnect (r := r) (t := t) (kept_emit (o := .got d c .conv r) rfl hs)
    exact ⟨h1, fun h => by rw [h2] at h; cases h⟩
  case rSay d c data tm =>
    exact on_ind hs fun h => kept_dispatch (fun t => (bal_onSend c _ _ t _).1)
      (fun t _ hc => hc ▸ kept_onSend hs) hs
  case rPrepare => exact on_ind hs fun h => kept_resourceReply (by decide) (kept_emit rfl hs)
  case rCommit => exact on_ind hs fun h => kept_resourceReply (by decide) (kept_emit rfl hs)
  case rRollback => exact on_ind hs fun h => kept_resourceReply (by decide) (kept_emit rfl hs)
  case rDiscover =>
    refine on_ind hs fun h => ?_
    unfold discoveryReply; dsimp only
    refine kept_resourceReply (by decide) ?_
    split
    · split
      · exact kept_emit rfl (kept_emit rfl hs)
      · exact kept_emit rfl (kept_emit rfl (kept_emit rfl hs))
    · split
      · exact kept_emit rfl (kept_emit rfl (kept_emit rfl hs))
      · exact kept_emit rfl (kept_emit rfl (kept_emit rfl (kept_emit rfl hs)))
  case broken => exact on_ind hs fun h => kept_emit rfl (kept_lost hw hs)
  case disassociate => exact kept_emit rfl hs
  case remove => exact on_ind hs fun h => kept_disconnect hs
  case idle => exact kept_force (kept_idleLoop hw hs)
  case shutdown => exact kept_force (kept_foldDisc hs)

/-! ### destinations come from requests -/

theorem dest_lost {d s} : ∀ e ∈ (lost d s).dest, e ∈ s.dest := by
  intro e he
  rw [lost_eq] at he
  split at he
  · exact (List.mem_filter.mp he).1
  · have : (lostMid d s).dest = s.dest := by unfold lostMid; split <;> simp
    exact this ▸ he

theorem dest_send {ok d o s} : ∀ e ∈ (send ok d o s).dest, e ∈ s.dest := by
  intro e he
  unfold send at he
  split at he
  · split at he
    · exact he
    · exact dest_lost e he
  · exact he

theorem dest_dispatch {c h s} (hh : ∀ t, ∀ e ∈ (h t s).1.dest, e ∈ s.dest) : ∀ e ∈ (dispatch c h s).dest, e ∈ s.dest := by
  intro e he
  unfold dispatch at he
  split at he
  · exact he
  · split at he
    · exact he
    · dsimp only at he
      split at he
      · split at he <;> exact hh _ e he
      · exact hh _ e he

theorem dest_idleLoop {xs : List (Nat × Bool)} {s} : ∀ e ∈ (idleLoop xs s).dest, e ∈ s.dest := by
  induction xs generalizing s with
  | nil => exact fun e he => he
  | cons x xs ih =>
    obtain ⟨d, b⟩ := x
    intro e he
    unfold idleLoop at he; dsimp only at he
    have := ih e he
    split at this
    · exact dest_lost e this
    · exact dest_lost e this

theorem dest_foldDisc (xs : List Nat) (s : State) :
    (xs.foldl (fun s d => disconnect d true s) s).dest = s.dest := by
  induction xs generalizing s with
  | nil => rfl
  | cons x xs ih => rw [List.foldl_cons, ih]; simp [disconnect]

theorem dest_addDest {e s} : ∀ x ∈ (addDest e s).dest, x ∈ s.dest ∨ x = e := by
  intro x hx
  unfold addDest at hx
  split at hx
  · exact Or.inl hx
  · rcases List.mem_append.mp hx with h | h
    · exact Or.inl h
    · exact Or.inr (by simpa using h)

theorem dest_take {c k r s} : ∀ x ∈ (resourceReply c k r s).dest, x ∈ s.dest := by
  intro x hx
  unfold resourceReply takeDest at hx
  cases hf : s.dest.find? (·.corr == c) with
  | none => simp only [hf] at hx; exact hx
  | some e => simp only [hf, emit_dest] at hx; exact List.mem_of_mem_erase hx

theorem onReply_dest {k r t s} : (onReply k r t s).1.dest = s.dest := by
  unfold onReply; split
  · split
    · dsimp only; split
      · split <;> simp
      · simp
    · rfl
    · rfl
    · rfl
  · rfl

theorem onConnect_dest {r t s} : (onConnect r t s).1.dest = s.dest := by
  unfold onConnect; split
  · dsimp only; split
    · split <;> simp
    · simp
  · rfl

theorem dest_apply {e s} : ∀ x ∈ (apply e s).dest, x ∈ s.dest ∨ asksVia e = some x.corr := by
  have on' : ∀ {d f}, (∀ x ∈ (f s).dest, x ∈ s.dest ∨ asksVia e = some x.corr) →
      ∀ x ∈ (on d f s).dest, x ∈ s.dest ∨ asksVia e = some x.corr := by
    intro d f hf x hx
    unfold on at hx; split at hx
    · exact hf x hx
    · exact Or.inl hx
  cases e <;> simp only [apply]
  case connect d m => intro x hx; split at hx <;> exact Or.inl hx
  case call d c ipc sv g ok =>
    refine on' fun x hx => ?_
    left
    unfold call at hx; split at hx
    · simpa using hx
    · split at hx
      · exact hx
      · split at hx
        · rw [inv_dest, add_dest] at hx; have := dest_send x hx; exact this
        · have := dest_send x hx; rwa [inv_dest, add_dest] at this
  case converse => refine on' fun x hx => Or.inl ?_; have := dest_send x hx; rwa [inv_dest, add_dest] at this
  case say => exact on' fun x hx => Or.inl (dest_send x hx)
  case hangup d c ok =>
    refine on' fun x hx => Or.inl (dest_dispatch (fun t y hy => ?_) x hx)
    unfold onHangup at hy; split at hy
    · simp only [metric_dest] at hy; exact dest_send y hy
    · exact hy
  case enqueue => refine on' fun x hx => Or.inl ?_; unfold queue at hx; rw [inv_dest, add_dest] at hx; have := dest_send x hx; exact this
  case dequeue => refine on' fun x hx => Or.inl ?_; unfold queue at hx; rw [inv_dest, add_dest] at hx; have := dest_send x hx; exact this
  case prepare => exact on' fun x hx => (dest_addDest x (dest_send x hx)).imp id (fun h => by rw [h]; rfl)
  case commit => exact on' fun x hx => (dest_addDest x (dest_send x hx)).imp id (fun h => by rw [h]; rfl)
  case rollback => exact on' fun x hx => (dest_addDest x (dest_send x hx)).imp id (fun h => by rw [h]; rfl)
  case discover =>
    refine on' fun x hx => ?_
    unfold discovery at hx; split at hx
    · exact Or.inl hx
    · exact (dest_addDest x (dest_send x hx)).imp id (fun h => by rw [h]; rfl)
  case explore =>
    refine on' fun x hx => Or.inl ?_
    unfold explore at hx; split at hx
    · exact hx
    · exact dest_send x hx
  case rDisconnect =>
    refine on' fun x hx => Or.inl ?_
    have := dest_send x hx
    simpa [disconnect] using this
  case rCall =>
    refine on' fun x hx => Or.inl ?_
    have := dest_dispatch (fun t y hy => by rw [onReply_dest] at hy; exact hy) x hx
    exact this
  case rEnqueue =>
    refine on' fun x hx => Or.inl ?_
    have := dest_dispatch (fun t y hy => by rw [onReply_dest] at hy; exact hy) x hx
    exact this
  case rDequeue =>
    refine on' fun x hx => Or.inl ?_
    have := dest_dispatch (fun t y hy => by rw [onReply_dest] at hy; exact hy) x hx
    exact this
  case rConnect =>
    refine on' fun x hx => Or.inl ?_
    have := dest_dispatch (fun t y hy => by rw [onConnect_dest] at hy; exact hy) x hx
    exact this
  case rSay =>
    refine on' fun x hx => Or.inl (dest_dispatch (fun t y hy => ?_) x hx)
    unfold onSend at hy; split at hy <;> exact hy
  case rPrepare => refine on' fun x hx => Or.inl ?_; have := dest_take x hx; exact this
  case rCommit => refine on' fun x hx => Or.inl ?_; have := dest_take x hx; exact this
  case rRollback => refine on' fun x hx => Or.inl ?_; have := dest_take x hx; exact this
  case rDiscover =>
    refine on' fun x hx => Or.inl ?_
    unfold discoveryReply at hx; dsimp only at hx
    have := dest_take x hx
    split at this
    · split at this <;> exact this
    · split at this <;> exact this
  case broken => exact on' fun x hx => Or.inl (dest_lost x hx)
  case disassociate => exact fun x hx => Or.inl hx
  case remove => exact on' fun x hx => Or.inl (by simpa [disconnect] using hx)
  case idle => intro x hx; unfold idle at hx; rw [force_dest] at hx; exact Or.inl (dest_idleLoop x hx)
  case shutdown => intro x hx; unfold shutdown at hx; rw [force_dest, dest_foldDisc] at hx; exact Or.inl hx

/-- Requests to prepare, commit and rollback and discovery requests have correlations of their own. -/
def Distinct (es : List Event) : Prop := (es.filterMap asksVia).Nodup

theorem dest_run (es : List Event) : ∀ x ∈ (run es).dest, x.corr ∈ es.filterMap asksVia := by
  induction es using Casual.snocInd with
  | nil => intro x hx; cases hx
  | snoc es e ih =>
    rw [run_snoc]
    intro x hx
    rw [List.filterMap_append, List.mem_append]
    unfold step at hx
    split at hx
    · exact Or.inl (ih x hx)
    · rcases dest_apply x hx with h | h
      · exact Or.inl (ih x h)
      · right; simp [List.filterMap_cons, h]

theorem kept_run (es : List Event) (hb : ∀ e ∈ es, badHangup e = false) (hd : Distinct es) : Kept (run es) := by
  induction es using Casual.snocInd with
  | nil => intro d c h; simp [run, outstanding] at h
  | snoc es e ih =>
    unfold Distinct at hd
    rw [List.filterMap_append, List.nodup_append] at hd
    have hk := ih (fun x hx => hb x (by simp [hx])) hd.1
    rw [run_snoc]; unfold step; split
    · exact hk
    · refine kept_apply (hb e (by simp)) (fun c hc x hx he => ?_) (w_run es) hk
      exact hd.2.2 c (he ▸ dest_run es x hx) c (by simp [List.filterMap_cons, hc]) rfl

end Casual.Gateway.Out

import Verif.Gateway.OutGood
/-!
What the outbound group sends to whom, in every history (also when sends fail).
-/
namespace Casual.Gateway.Out

/-- Why a message is sent: `l` is what has been observed before. -/
def why : Obs → List Obs → Prop
  | .reply ipc c k r, l =>
    if work k then
      ∃ d g, .req d c ipc k g ∈ l ∧ ((∃ d', .got d' c k r ∈ l) ∨ (.closed d ∈ l ∧ r = lostRep k))
    else if viaDest k then
      ∃ d k' g, .req d c ipc k' g ∈ l ∧ viaDest k' ∧
        ((∃ d', .got d' c k r ∈ l) ∨ (k = .discovery ∧ k' = .discovery ∧ r = ⟨0, 0⟩))
    else ∃ d g, .req d c ipc k g ∈ l ∧ ∃ d', .got d' c k r ∈ l
  | .refused ipc c, l => ∃ d g, .req d c ipc .call g ∈ l
  | .closed d, l => ∃ l', l = .unadvertised d :: l'
  | .tcp d c k g, l => live d l ∧ ∃ ipc, .req d c ipc k g ∈ l
  | .toLocal ipc c _ _, l => ∃ d g, .req d c ipc .conv g ∈ l
  | .advertised d sv, l => live d l ∧ ∃ sv' q, .found d sv' q ∈ l ∧ sv = sv'.map fun x => (x.1, x.2 + 1)
  | .advertisedQ d q, l => live d l ∧ ∃ sv', .found d sv' q ∈ l
  | _, _ => True

def Whys : List Obs → Prop
  | [] => True
  | o :: l => why o l ∧ Whys l

structure W (s : State) : Prop where
  live : LiveOk s
  keys : ∀ t ∈ s.tasks, connected t.key s = true ∨ .closed t.key ∈ s.log
  asked : ∀ t ∈ s.tasks, ∃ g, .req t.key t.corr t.ipc t.kind g ∈ s.log
  dests : ∀ e ∈ s.dest, ∃ k g, .req e.conn e.corr e.ipc k g ∈ s.log ∧ viaDest k = true
  good : Whys s.log

theorem w_emit {o s} (hq : still o = true) (hj : why o s.log) (hs : W s) : W (emit o s) where
  live := liveOk_emit hq hs.live
  keys := fun t h => (hs.keys t h).imp id (List.mem_cons_of_mem _)
  asked := fun t h => by
    obtain ⟨g, h1⟩ := hs.asked t h
    exact ⟨g, List.mem_cons_of_mem _ h1⟩
  dests := fun e h => by
    obtain ⟨k, g, h1, h2⟩ := hs.dests e h
    exact ⟨k, g, List.mem_cons_of_mem _ h1, h2⟩
  good := ⟨hj, hs.good⟩

theorem w_sub {s t : State} (h1 : t.conns = s.conns) (h2 : ∀ u ∈ t.tasks, u ∈ s.tasks)
    (h4 : ∀ e ∈ t.dest, e ∈ s.dest) (h5 : t.log = s.log) (hs : W s) : W t := by
  have hc : ∀ d, connected d t = connected d s := fun d => by unfold connected; rw [h1]
  refine ⟨fun d => by rw [hc, h5]; exact hs.live d, fun t ht => ?_, ?_, ?_, h5 ▸ hs.good⟩
  · rw [hc, h5]; exact hs.keys t (h2 _ ht)
  · rw [h5]; exact fun t ht => hs.asked t (h2 _ ht)
  · rw [h5]; exact fun t ht => hs.dests t (h4 _ ht)

theorem w_log {s t : State} (h1 : t.conns = s.conns) (h2 : t.tasks = s.tasks) (h4 : t.dest = s.dest)
    (h5 : t.log = s.log ∨ ∃ p, t.log = .metrics p :: s.log) (hs : W s) : W t := by
  rcases h5 with h5 | ⟨p, h5⟩
  · exact w_sub h1 (fun u hu => h2 ▸ hu) (fun u hu => h4 ▸ hu) h5 hs
  · have : W { t with log := s.log } := w_sub (s := s) h1 (fun u hu => h2 ▸ hu) (fun u hu => h4 ▸ hu) rfl hs
    have := w_emit (o := .metrics p) rfl trivial this
    have e : emit (.metrics p) { t with log := s.log } = t := by unfold emit; rw [← h5]
    rwa [e] at this

theorem w_metric {c k s} (hs : W s) : W (metric c k s) :=
  w_log (by simp) (by simp) (by simp) (metric_log c k s) hs

theorem w_force {s} (hs : W s) : W (forceMetric s) :=
  w_log (by simp) (by simp) (by simp) (force_log s) hs

theorem w_unadv {d s} (hs : W s) : W (unadvertise d s) := by
  unfold unadvertise; split
  · exact w_emit rfl trivial hs
  · exact hs

theorem whys_failTask {t : Task} {s : State} (hg : Whys s.log)
    (ha : ∃ g, .req t.key t.corr t.ipc t.kind g ∈ s.log)
    (hc : .closed t.key ∈ s.log) : Whys (failTask t s).log ∧ ∀ o ∈ s.log, o ∈ (failTask t s).log := by
  obtain ⟨g, h1⟩ := ha
  have hj : work t.kind = true → why (.reply t.ipc t.corr t.kind (lostRep t.kind)) s.log := by
    intro hw
    show (if work t.kind = true then _ else _); rw [if_pos hw]
    exact ⟨t.key, g, h1, Or.inr ⟨hc, rfl⟩⟩
  unfold failTask
  split <;> rename_i hk <;> first | rw [hk] at hj | skip
  · have hg' : Whys (emit (.reply t.ipc t.corr .call ⟨svcErr, 0⟩) s).log := ⟨hj rfl, hg⟩
    rcases metric_log t.corr .call (emit (.reply t.ipc t.corr .call ⟨svcErr, 0⟩) s) with h | ⟨p, h⟩ <;> rw [h]
    · exact ⟨hg', fun o ho => List.mem_cons_of_mem _ ho⟩
    · exact ⟨⟨trivial, hg'⟩, fun o ho => List.mem_cons_of_mem _ (List.mem_cons_of_mem _ ho)⟩
  · exact ⟨⟨hj rfl, hg⟩, fun o ho => List.mem_cons_of_mem _ ho⟩
  · exact ⟨⟨hj rfl, hg⟩, fun o ho => List.mem_cons_of_mem _ ho⟩
  · exact ⟨hg, fun o ho => ho⟩

theorem whys_foldFail (ts : List Task) (s : State) (hg : Whys s.log)
    (ha : ∀ t ∈ ts, .closed t.key ∈ s.log ∧ ∃ g, .req t.key t.corr t.ipc t.kind g ∈ s.log) :
    Whys (ts.foldl (fun s t => failTask t s) s).log ∧
    ∀ o ∈ s.log, o ∈ (ts.foldl (fun s t => failTask t s) s).log := by
  induction ts generalizing s with
  | nil => exact ⟨hg, fun o h => h⟩
  | cons t ts ih =>
    obtain ⟨hc, ht⟩ := ha t (List.mem_cons_self ..)
    obtain ⟨g1, g2⟩ := whys_failTask hg ht hc
    obtain ⟨g3, g4⟩ := ih (failTask t s) g1 (fun u hu => by
      obtain ⟨h1, g, h2⟩ := ha u (List.mem_cons_of_mem _ hu)
      exact ⟨g2 _ h1, g, g2 _ h2⟩)
    exact ⟨g3, fun o ho => g4 o (g2 o ho)⟩

theorem w_lost {d s} (hs : W s) : W (lost d s) ∧ (∀ o ∈ s.log, o ∈ (lost d s).log) ∧
    (connected d s = true → .closed d ∈ (lost d s).log) := by
  have hl := liveOk_lost (d := d) hs.live
  have hlog : Whys (lost d s).log ∧ (∀ o ∈ s.log, o ∈ (lost d s).log) ∧
      (connected d s = true → .closed d ∈ (lost d s).log) := by
    rw [lost_log]; unfold lostMid
    cases hc : connected d s with
    | true =>
      have e : (if connected d (unadvertise d s) then emit (.closed d) (unadvertise d s) else unadvertise d s) =
          emit (.closed d) (emit (.unadvertised d) s) := by
        rw [unadv_connected, if_pos hc]; simp [unadvertise, hc]
      rw [e]
      obtain ⟨h1, h2⟩ := whys_foldFail (s.tasks.filter (·.key = d)) (emit (.closed d) (emit (.unadvertised d) s))
        ⟨⟨_, rfl⟩, trivial, hs.good⟩ (fun t ht => by
          obtain ⟨ht, hk⟩ := List.mem_filter.mp ht
          obtain ⟨g, h1⟩ := hs.asked t ht
          exact ⟨by simp at hk; simp [hk], g, by simp [h1]⟩)
      exact ⟨h1, fun o ho => h2 o (by simp [ho]), fun _ => h2 _ (by simp)⟩
    | false =>
      have e : (if connected d (unadvertise d s) then emit (.closed d) (unadvertise d s) else unadvertise d s) = s := by
        rw [unadv_connected, if_neg (by simp [hc])]; simp [unadvertise, hc]
      rw [e]
      obtain ⟨h1, h2⟩ := whys_foldFail (s.tasks.filter (·.key = d)) s hs.good (fun t ht => by
          obtain ⟨ht, hk⟩ := List.mem_filter.mp ht
          simp only [decide_eq_true_eq] at hk
          exact ⟨(hs.keys t ht).elim (fun h => by rw [hk, hc] at h; cases h) id, hs.asked t ht⟩)
      exact ⟨h1, h2, fun h => (by cases h)⟩
  refine ⟨⟨hl, ?_, ?_, ?_, hlog.1⟩, hlog.2⟩
  · intro t ht
    rw [lost_tasks] at ht
    obtain ⟨h1, h2⟩ := List.mem_filter.mp ht
    simp only [ne_eq, decide_eq_true_eq] at h2
    rw [lost_connected]
    rcases hs.keys t h1 with h | h
    · left; rw [h]; simpa using h2
    · right; exact hlog.2.1 _ h
  · intro t ht
    rw [lost_tasks] at ht
    obtain ⟨g, h1⟩ := hs.asked t (List.mem_filter.mp ht).1
    exact ⟨g, hlog.2.1 _ h1⟩
  · intro e he
    have : e ∈ s.dest := by
      rw [lost_eq] at he
      split at he
      · exact (List.mem_filter.mp he).1
      · have : (lostMid d s).dest = s.dest := by unfold lostMid; split <;> simp
        exact this ▸ he
    obtain ⟨k, g, h1, h2⟩ := hs.dests e this
    exact ⟨k, g, hlog.2.1 _ h1, h2⟩

theorem w_send {ok d o s} (hq : still o = true) (hj : connected d s = true → why o s.log) (hs : W s) :
    W (send ok d o s) := by
  unfold send; split
  · split
    · exact w_emit hq (hj (by assumption)) hs
    · exact w_emit rfl trivial (w_lost hs).1
  · exact hs

theorem w_add {t s} (hs : W s) (hc : connected t.key s = true ∨ .closed t.key ∈ s.log)
    (ha : ∃ g, .req t.key t.corr t.ipc t.kind g ∈ s.log) : W (addTask t s) where
  live := hs.live
  keys := fun u hu => by
    rw [add_tasks, List.mem_append] at hu
    rcases hu with hu | hu
    · exact hs.keys u hu
    · rw [List.mem_singleton] at hu; subst hu; exact hc
  asked := fun u hu => by
    rw [add_tasks, List.mem_append] at hu
    rcases hu with hu | hu
    · exact hs.asked u hu
    · rw [List.mem_singleton] at hu; subst hu; exact ha
  dests := hs.dests
  good := hs.good

theorem w_involve {g d s} (hs : W s) : W (involve g d s) ∧ ∀ o ∈ s.log, o ∈ (involve g d s).log := by
  unfold involve
  split
  · exact ⟨hs, fun _ h => h⟩
  · dsimp only
    have h' : ∀ t, W { s with trans := t } := fun t => w_sub (s := s) rfl (fun _ h => h) (fun _ h => h) rfl hs
    split
    · split
      · exact ⟨w_emit rfl trivial (h' _), fun o ho => List.mem_cons_of_mem _ ho⟩
      · exact ⟨h' _, fun o ho => ho⟩
    · exact ⟨h' _, fun o ho => ho⟩

theorem w_tcp {t : Task} {g s} (hc : connected t.key s = true) (hr : .req t.key t.corr t.ipc t.kind g ∈ s.log) (hs : W s) :
    why (.tcp t.key t.corr t.kind g) s.log := ⟨by rw [← hs.live]; exact hc, t.ipc, hr⟩

theorem w_sendFirst {ok g t s} (hc : connected t.key s = true) (hr : .req t.key t.corr t.ipc t.kind g ∈ s.log) (hs : W s) :
    W (involve g t.key (addTask t (send ok t.key (.tcp t.key t.corr t.kind g) s))) := by
  refine (w_involve (w_add (w_send rfl (fun h => w_tcp h hr hs) hs) ?_ ⟨g, ?_⟩)).1
  · unfold send; rw [if_pos hc]; split
    · exact Or.inl hc
    · exact Or.inr (List.mem_cons_of_mem _ ((w_lost hs).2.2 hc))
  · unfold send; rw [if_pos hc]; split
    · exact List.mem_cons_of_mem _ hr
    · exact List.mem_cons_of_mem _ ((w_lost hs).2.1 _ hr)

theorem w_sendLast {ok g t s} (hc : connected t.key s = true) (hr : .req t.key t.corr t.ipc t.kind g ∈ s.log) (hs : W s) :
    W (send ok t.key (.tcp t.key t.corr t.kind g) (involve g t.key (addTask t s))) := by
  have h1 := w_involve (g := g) (d := t.key) (w_add hs (Or.inl hc) ⟨g, hr⟩)
  exact w_send rfl (fun h => w_tcp h (h1.2 _ hr) h1.1) h1.1

theorem w_dispatch {c h s} (hh : ∀ t ∈ s.tasks, t.corr = c → W (h t s).1) (hs : W s) : W (dispatch c h s) := by
  unfold dispatch
  cases hf : s.tasks.findIdx? (·.corr = c) with
  | none => exact hs
  | some i =>
    obtain ⟨t, ht, htc⟩ := findIdx_get hf
    have hm : t ∈ s.tasks := List.mem_of_getElem? ht
    simp only [ht]
    have := hh t hm htc
    split
    · split
      · exact w_sub (s := (h t s).1) rfl (fun u hu => (List.eraseIdx_sublist ..).subset hu) (fun _ h => h) rfl this
      · exact w_sub (s := (h t s).1) rfl (fun u hu => hu) (fun _ h => h) rfl this
    · exact this

theorem w_opt {b : Bool} {p : Prop} [Decidable p] {o s} (hq : still o = true) (hj : ∀ l, why o l) (hs : W s) :
    W (if p then (if b then emit o s else s) else s) := by
  split
  · split
    · exact w_emit hq (hj _) hs
    · exact hs
  · exact hs

theorem w_onReply {k r t s} (ht : t ∈ s.tasks) (hg : ∃ d, .got d t.corr k r ∈ s.log) (hs : W s) :
    W (onReply k r t s).1 := by
  obtain ⟨g, h1⟩ := hs.asked t ht
  have hj : t.kind = k → work k = true → why (.reply t.ipc t.corr k r) s.log := by
    intro hk hw
    simp only [why, hw, if_true]
    exact ⟨t.key, g, hk ▸ h1, Or.inl hg⟩
  unfold onReply
  split
  · rename_i hk
    have hj := hj hk
    split
    · exact w_metric (w_opt rfl (fun _ => trivial) (w_emit rfl (hj rfl) hs))
    · exact w_emit rfl (hj rfl) hs
    · exact w_emit rfl (hj rfl) hs
    · exact hs
  · exact hs

theorem w_onConnect {r t s} (ht : t ∈ s.tasks) (hg : ∃ d, .got d t.corr .conv r ∈ s.log) (hs : W s) :
    W (onConnect r t s).1 := by
  obtain ⟨g, h1⟩ := hs.asked t ht
  unfold onConnect
  split
  · rename_i hk
    rw [hk] at h1
    have hx : W (if r.code = noEntry then
        (if connected t.key s then emit (.unadvertisedOne t.key t.service) s else s) else s) := w_opt rfl (fun _ => trivial) hs
    refine w_emit rfl ?_ hx
    have hm : ∀ o ∈ s.log, o ∈ (if r.code = noEntry then
        (if connected t.key s then emit (.unadvertisedOne t.key t.service) s else s) else s).log := by
      intro o ho; split
      · split
        · exact List.mem_cons_of_mem _ ho
        · exact ho
      · exact ho
    obtain ⟨d, hg⟩ := hg
    exact ⟨t.key, g, hm _ h1, d, hm _ hg⟩
  · exact hs

theorem w_onSend {data tm t s} (ht : t ∈ s.tasks) (hs : W s) : W (onSend data tm t s).1 := by
  obtain ⟨g, h1⟩ := hs.asked t ht
  unfold onSend
  split
  · rename_i hk
    rw [hk] at h1
    exact w_emit rfl ⟨t.key, g, h1⟩ hs
  · exact hs

theorem w_onHangup {ok t s} (hs : W s) : W (onHangup ok t s).1 := by
  unfold onHangup; split
  · exact w_metric (w_send rfl (fun _ => trivial) hs)
  · exact hs

theorem w_addDest {e s} (hr : ∃ k g, .req e.conn e.corr e.ipc k g ∈ s.log ∧ viaDest k = true) (hs : W s) : W (addDest e s) := by
  unfold addDest; split
  · exact hs
  · refine ⟨hs.live, hs.keys, hs.asked, ?_, hs.good⟩
    intro x hx
    rcases List.mem_append.mp hx with hx | hx
    · exact hs.dests x hx
    · rw [List.mem_singleton] at hx; subst hx; exact hr

theorem w_resourceReply {c k r s} (hk : viaDest k = true) (hg : ∃ d, .got d c k r ∈ s.log) (hs : W s) :
    W (resourceReply c k r s) := by
  have hw : work k = false := by cases k <;> simp [viaDest] at hk <;> rfl
  unfold resourceReply takeDest
  cases hf : s.dest.find? (·.corr == c) with
  | none => exact hs
  | some e =>
    dsimp only
    have hm : e ∈ s.dest := List.mem_of_find?_eq_some hf
    have hc : e.corr = c := by simpa using List.find?_some hf
    obtain ⟨k', g, h1, h2⟩ := hs.dests e hm
    refine w_emit rfl ?_ (w_sub (s := s) rfl (fun _ h => h) (fun x hx => List.mem_of_mem_erase hx) rfl hs)
    simp only [why, hw, hk, if_true, Bool.false_eq_true, if_false]
    obtain ⟨d, hg⟩ := hg
    exact ⟨e.conn, k', g, hc ▸ h1, h2, Or.inl ⟨d, hg⟩⟩

theorem w_disconnect {d b s} (hs : W s) : W (disconnect d b s) :=
  w_sub (s := unadvertise d s) rfl (fun _ h => h) (fun _ h => h) rfl (w_unadv hs)

theorem w_idleLoop {xs : List (Nat × Bool)} {s} (hs : W s) : W (idleLoop xs s) := by
  induction xs generalizing s with
  | nil => exact hs
  | cons x xs ih =>
    obtain ⟨d, b⟩ := x
    unfold idleLoop; dsimp only
    apply ih
    split
    · exact w_emit rfl trivial (w_lost hs).1
    · exact (w_lost hs).1

theorem w_foldDisc {xs : List Nat} {s} (hs : W s) : W (xs.foldl (fun s d => disconnect d true s) s) := by
  induction xs generalizing s with
  | nil => exact hs
  | cons x xs ih => exact ih (w_disconnect hs)

theorem w_apply {e s} (hs : W s) : W (apply e s) := by
  cases e <;> simp only [apply]
  case connect d m =>
    split
    · exact hs
    · rename_i hd
      have hl : LiveOk (apply (.connect d m) s) := liveOk_apply hs.live
      simp only [apply, hd, if_false, Bool.false_eq_true] at hl
      refine ⟨hl, ?_, ?_, ?_, ⟨trivial, hs.good⟩⟩
      · intro t ht
        rcases hs.keys t ht with h | h
        · left
          simp only [connected, emit_conns, List.any_append] at h ⊢
          rw [h]; rfl
        · right; exact List.mem_cons_of_mem _ h
      · intro t ht
        obtain ⟨g, h1⟩ := hs.asked t ht
        exact ⟨g, List.mem_cons_of_mem _ h1⟩
      · intro x hx
        obtain ⟨k, g', h1, h2⟩ := hs.dests x hx
        exact ⟨k, g', List.mem_cons_of_mem _ h1, h2⟩
  case call d c ipc sv g ok =>
    refine on_ind hs fun h => ?_
    have hs' : W (emit (.req d c ipc .call g) s) := w_emit rfl trivial hs
    have h' : connected d (emit (.req d c ipc .call g) s) = true := h
    unfold call; split
    · exact w_metric (w_emit rfl ⟨d, g, List.mem_cons_self ..⟩ hs')
    · obtain ⟨x, hx, _⟩ := find_conn h'
      simp only [hx]
      split
      · exact w_sendFirst (t := ⟨d, c, ipc, .call, sv⟩) h' (List.mem_cons_self ..) hs'
      · exact w_sendLast (t := ⟨d, c, ipc, .call, sv⟩) h' (List.mem_cons_self ..) hs'
  case converse d c ipc sv g ok =>
    exact on_ind hs fun h => w_sendLast (t := ⟨d, c, ipc, .conv, sv⟩) h (List.mem_cons_self ..) (w_emit rfl trivial hs)
  case say => exact on_ind hs fun h => w_send rfl (fun _ => trivial) hs
  case hangup d c ok =>
    exact on_ind hs fun h => w_dispatch (fun t _ _ => w_onHangup hs) hs
  case enqueue d c ipc g ok =>
    exact on_ind hs fun h => w_sendFirst (t := ⟨d, c, ipc, .enqueue, 0⟩) h (List.mem_cons_self ..) (w_emit rfl trivial hs)
  case dequeue d c ipc g ok =>
    exact on_ind hs fun h => w_sendFirst (t := ⟨d, c, ipc, .dequeue, 0⟩) h (List.mem_cons_self ..) (w_emit rfl trivial hs)
  case prepare d c ipc ok =>
    refine on_ind hs fun h => w_send rfl (fun hc => ⟨?_, ipc, by simp⟩)
      (w_addDest ⟨.prepare, none, List.mem_cons_self .., rfl⟩ (w_emit rfl trivial hs))
    rw [ad_log, emit_log, live_still rfl, ← hs.live]; exact h
  case commit d c ipc ok =>
    refine on_ind hs fun h => w_send rfl (fun hc => ⟨?_, ipc, by simp⟩)
      (w_addDest ⟨.commit, none, List.mem_cons_self .., rfl⟩ (w_emit rfl trivial hs))
    rw [ad_log, emit_log, live_still rfl, ← hs.live]; exact h
  case rollback d c ipc ok =>
    refine on_ind hs fun h => w_send rfl (fun hc => ⟨?_, ipc, by simp⟩)
      (w_addDest ⟨.rollback, none, List.mem_cons_self .., rfl⟩ (w_emit rfl trivial hs))
    rw [ad_log, emit_log, live_still rfl, ← hs.live]; exact h
  case discover d c ipc ok =>
    refine on_ind hs fun h => ?_
    unfold discovery; split
    · exact w_emit rfl ⟨d, .discovery, none, List.mem_cons_self .., rfl, Or.inr ⟨rfl, rfl, rfl⟩⟩ (w_emit rfl trivial hs)
    · refine w_send rfl (fun hc => ⟨?_, ipc, by simp⟩)
        (w_addDest ⟨.discovery, none, List.mem_cons_self .., rfl⟩ (w_emit rfl trivial hs))
      rw [ad_log, emit_log, live_still rfl, ← hs.live]; exact h
  case explore =>
    refine on_ind hs fun h => ?_
    unfold explore; split
    · exact hs
    · exact w_send rfl (fun _ => trivial) hs
  case rDisconnect => exact on_ind hs fun h => w_send rfl (fun _ => trivial) (w_disconnect hs)
  case rCall d c r =>
    exact on_ind hs fun h => w_dispatch
      (fun t ht hc => w_onReply ht ⟨d, hc ▸ List.mem_cons_self ..⟩ (w_emit rfl trivial hs)) (w_emit rfl trivial hs)
  case rEnqueue d c r =>
    exact on_ind hs fun h => w_dispatch
      (fun t ht hc => w_onReply ht ⟨d, hc ▸ List.mem_cons_self ..⟩ (w_emit rfl trivial hs)) (w_emit rfl trivial hs)
  case rDequeue d c r =>
    exact on_ind hs fun h => w_dispatch
      (fun t ht hc => w_onReply ht ⟨d, hc ▸ List.mem_cons_self ..⟩ (w_emit rfl trivial hs)) (w_emit rfl trivial hs)
  case rConnect d c r =>
    exact on_ind hs fun h => w_dispatch
      (fun t ht hc => w_onConnect ht ⟨d, hc ▸ List.mem_cons_self ..⟩ (w_emit rfl trivial hs)) (w_emit rfl trivial hs)
  case rSay => exact on_ind hs fun h => w_dispatch (fun t ht _ => w_onSend ht hs) hs
  case rPrepare d c r => exact on_ind hs fun h => w_resourceReply rfl ⟨d, List.mem_cons_self ..⟩ (w_emit rfl trivial hs)
  case rCommit d c r => exact on_ind hs fun h => w_resourceReply rfl ⟨d, List.mem_cons_self ..⟩ (w_emit rfl trivial hs)
  case rRollback d c r => exact on_ind hs fun h => w_resourceReply rfl ⟨d, List.mem_cons_self ..⟩ (w_emit rfl trivial hs)
  case rDiscover d c sv q r =>
    refine on_ind hs fun h => ?_
    have h0 : W (emit (.found d sv q) (emit (.got d c .discovery r) s)) := w_emit rfl trivial (w_emit rfl trivial hs)
    have hl : live d (emit (.found d sv q) (emit (.got d c .discovery r) s)).log = true := by
      rw [← h0.live]; exact h
    unfold discoveryReply; dsimp only
    have hf1 : why (.advertised d (sv.map fun x => (x.1, x.2 + 1))) (emit (.found d sv q) (emit (.got d c .discovery r) s)).log :=
      ⟨hl, sv, q, List.mem_cons_self .., rfl⟩
    have hf2 : why (.advertisedQ d q) (emit (.found d sv q) (emit (.got d c .discovery r) s)).log :=
      ⟨hl, sv, List.mem_cons_self ..⟩
    split
    · split
      · exact w_resourceReply rfl ⟨d, by simp⟩ h0
      · exact w_resourceReply rfl ⟨d, by simp⟩ (w_emit rfl hf1 h0)
    · split
      · exact w_resourceReply rfl ⟨d, by simp⟩ (w_emit rfl hf2 h0)
      · exact w_resourceReply rfl ⟨d, by simp⟩ (w_emit rfl ⟨by simpa [emit, live] using hl, sv, by simp⟩ (w_emit rfl hf1 h0))
  case broken => exact on_ind hs fun h => w_emit rfl trivial (w_lost hs).1
  case disassociate g =>
    exact w_emit rfl trivial (w_sub (s := s) rfl (fun _ h => h) (fun _ h => h) rfl hs)
  case remove => exact on_ind hs fun h => w_disconnect hs
  case idle => exact w_force (w_idleLoop hs)
  case shutdown =>
    exact w_force (w_foldDisc (w_sub (s := s) (t := { s with running := false }) rfl (fun _ h => h) (fun _ h => h) rfl hs))

theorem w_run (es : List Event) : W (run es) := by
  refine inv_run ⟨fun _ => rfl, by simp, by simp, by simp, trivial⟩ (fun s e h => ?_) es
  unfold step; split
  · exact h
  · exact w_apply h

/-- What is sent, and what has been observed before. -/
theorem whys_at {o : Obs} {a b l : List Obs} (h : Whys l) (he : l = a ++ o :: b) : why o b := by
  subst he
  induction a with
  | nil => exact h.1
  | cons x a ih => exact ih h.2

theorem good_at {o : Obs} {a b l : List Obs} (h : Good l) (he : l = a ++ o :: b) : just o b := by
  subst he
  induction a with
  | nil => exact h.1
  | cons x a ih => exact ih h.2

end Casual.Gateway.Out

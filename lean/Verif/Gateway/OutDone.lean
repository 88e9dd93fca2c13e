import Verif.Gateway.OutStand
/-!
What the outbound group keeps is outstanding, so it can be done; and which connections are to be closed.
-/
namespace Casual.Gateway.Out

/-! ### what is kept is outstanding -/

/-- Correlations of units and destinations. -/
def corrs (s : State) : List Nat := s.tasks.map (·.corr) ++ s.dest.map (·.corr)

structure Real (s : State) : Prop where
  tasks : ∀ t ∈ s.tasks, outstanding t.key t.corr s.log = true
  dest : ∀ e ∈ s.dest, outstanding e.conn e.corr s.log = true
  nodup : (corrs s).Nodup

/-- Observations that end nothing. -/
def mild : Obs → Bool
  | .reply _ _ k _ => k == .conv
  | .hangup .. => false
  | .toLocal _ _ _ t => !t
  | .closed _ => false
  | _ => true

theorem out_mild {o : Obs} (h : mild o = true) {d c l} (ho : outstanding d c l = true) :
    outstanding d c (o :: l) = true := by
  cases o <;> simp only [outstanding, ho, Bool.true_or, Bool.and_true] <;>
    first | rfl | (simp [mild] at h; done) | (simp only [mild] at h; simp [h])

theorem real_emit {o s} (h : mild o = true) (hs : Real s) : Real (emit o s) :=
  ⟨fun t ht => out_mild h (hs.tasks t ht), fun e he => out_mild h (hs.dest e he), hs.nodup⟩

theorem real_congr {s t : State} (h2 : t.tasks = s.tasks) (h4 : t.dest = s.dest)
    (h5 : t.log = s.log ∨ ∃ p, t.log = .metrics p :: s.log) (hs : Real s) : Real t := by
  have hn : corrs t = corrs s := by unfold corrs; rw [h2, h4]
  rcases h5 with h5 | ⟨p, h5⟩
  · exact ⟨by rw [h2, h5]; exact hs.tasks, by rw [h4, h5]; exact hs.dest, hn ▸ hs.nodup⟩
  · exact ⟨by rw [h2, h5]; exact hs.tasks, by rw [h4, h5]; exact hs.dest, hn ▸ hs.nodup⟩

theorem real_metric {c k s} (hs : Real s) : Real (metric c k s) :=
  real_congr (by simp) (by simp) (metric_log c k s) hs

theorem real_force {s} (hs : Real s) : Real (forceMetric s) :=
  real_congr (by simp) (by simp) (force_log s) hs

theorem real_unadv {d s} (hs : Real s) : Real (unadvertise d s) := by
  unfold unadvertise; split
  · exact real_emit rfl hs
  · exact hs

theorem out_metric' {c' k s d c} (h : outstanding d c s.log = true) : outstanding d c (metric c' k s).log = true := by
  rcases metric_log c' k s with e | ⟨p, e⟩ <;> rw [e]
  · exact h
  · exact h

theorem out_foldFail' {d c : Nat} {ts : List Task} {s : State} (h : outstanding d c s.log = true)
    (hc : ∀ t ∈ ts, t.corr ≠ c) : outstanding d c (ts.foldl (fun s t => failTask t s) s).log = true := by
  induction ts generalizing s with
  | nil => exact h
  | cons t ts ih =>
    rw [List.foldl_cons]
    refine ih ?_ (fun u hu => hc u (List.mem_cons_of_mem _ hu))
    have hne := hc t (List.mem_cons_self ..)
    unfold failTask; split
    · apply out_metric'; simp [outstanding, h, hne]
    · simp [outstanding, h, hne]
    · simp [outstanding, h, hne]
    · exact h

theorem out_lost' {d d' c s} (h : outstanding d' c s.log = true) (hd : d' ≠ d)
    (hc : ∀ t ∈ s.tasks, t.key = d → t.corr ≠ c) : outstanding d' c (lost d s).log = true := by
  rw [lost_log]; unfold lostMid
  refine out_foldFail' ?_ (fun t ht => ?_)
  · cases hc : connected d s with
    | true =>
      rw [unadv_connected, if_pos hc]
      simp only [emit_log, outstanding, Bool.and_eq_true, bne_iff_ne, ne_eq]
      refine ⟨fun h => hd h.symm, ?_⟩
      simp [unadvertise, hc, outstanding, h]
    | false =>
      rw [unadv_connected, if_neg (by simp [hc])]
      simp [unadvertise, hc, h]
  · have ht : t ∈ s.tasks.filter (fun x => decide (x.key = d)) := by
      cases hc : connected d s with
      | true => rw [unadv_connected, if_pos hc] at ht; simpa using ht
      | false => rw [unadv_connected, if_neg (by simp [hc])] at ht; simpa using ht
    obtain ⟨h1, h2⟩ := List.mem_filter.mp ht
    exact hc t h1 (by simpa using h2)

theorem corrs_lost {d s} : (corrs (lost d s)).Sublist (corrs s) := by
  unfold corrs
  refine List.Sublist.append ?_ ?_
  · rw [lost_tasks]; exact List.filter_sublist.map _
  · rw [lost_eq]; split
    · exact List.filter_sublist.map _
    · have : (lostMid d s).dest = s.dest := by unfold lostMid; split <;> simp
      rw [show ({ lostMid d s with disconnecting := s.disconnecting.filter (·.1 ≠ d), dead := true } : State).dest = s.dest from this]
      exact List.Sublist.refl _

/-- It does not matter whether what is kept for the connection is outstanding. -/
theorem real_lost {d s} (hcn : connected d s = true)
    (ht : ∀ t ∈ s.tasks, t.key ≠ d → outstanding t.key t.corr s.log = true)
    (he : ∀ e ∈ s.dest, e.conn ≠ d → outstanding e.conn e.corr s.log = true) (hn : (corrs s).Nodup) : Real (lost d s) := by
  have hn' := hn
  unfold corrs at hn'
  rw [List.nodup_append] at hn'
  refine ⟨fun t htm => ?_, fun e hem => ?_, hn.sublist corrs_lost⟩
  · rw [lost_tasks] at htm
    obtain ⟨h1, h2⟩ := List.mem_filter.mp htm
    simp only [ne_eq, decide_eq_true_eq] at h2
    refine out_lost' (ht t h1 h2) h2 (fun u hu hk hc => ?_)
    have := eq_of_nodup_map hn'.1 hu h1 hc
    exact h2 (this ▸ hk)
  · rw [lost_eq, if_pos hcn] at hem
    obtain ⟨h1, h2⟩ := List.mem_filter.mp hem
    simp only [ne_eq, decide_eq_true_eq] at h2
    refine out_lost' (he e h1 h2) h2 (fun u hu hk hc => ?_)
    exact hn'.2.2 _ (List.mem_map_of_mem hu) _ (List.mem_map_of_mem h1) hc

theorem real_lost' {d s} (hcn : connected d s = true) (hs : Real s) : Real (lost d s) :=
  real_lost hcn (fun t h _ => hs.tasks t h) (fun e h _ => hs.dest e h) hs.nodup

theorem real_send {ok d o s} (h : mild o = true) (hs : Real s) : Real (send ok d o s) := by
  unfold send; split
  · split
    · exact real_emit h hs
    · exact real_emit rfl (real_lost' (by assumption) hs)
  · exact hs

theorem involve_out {g d s d' c} : outstanding d' c (involve g d s).log = outstanding d' c s.log := by
  unfold involve
  split
  · rfl
  · dsimp only; split
    · split <;> rfl
    · rfl

theorem corrs_add {t s} : corrs (addTask t s) = s.tasks.map (·.corr) ++ t.corr :: s.dest.map (·.corr) := by
  simp [corrs]

theorem nodup_add {t s} (hn : (corrs s).Nodup) (hc : t.corr ∉ corrs s) : (corrs (addTask t s)).Nodup := by
  rw [corrs_add]
  unfold corrs at hn hc
  rw [List.mem_append] at hc
  rw [List.nodup_append] at hn ⊢
  refine ⟨hn.1, List.nodup_cons.mpr ⟨fun h => hc (Or.inr h), hn.2.1⟩, ?_⟩
  intro a ha b hb
  rcases List.mem_cons.mp hb with rfl | hb
  · rintro rfl; exact hc (Or.inl ha)
  · exact hn.2.2 a ha b hb

/-- A new unit whose request is sent. -/
theorem real_sendFirst {t g k s} (hn : t.corr ∉ corrs s) (hs : Real s) :
    Real (involve g t.key (addTask t (emit (.tcp t.key t.corr k g) s))) := by
  have hc : corrs (involve g t.key (addTask t (emit (.tcp t.key t.corr k g) s))) = corrs (addTask t s) := by
    unfold corrs; simp
  refine ⟨fun u hu => ?_, fun e he => ?_, hc ▸ nodup_add hs.nodup hn⟩
  · rw [involve_out]
    simp only [inv_tasks, add_tasks, emit_tasks, List.mem_append, List.mem_singleton] at hu
    rcases hu with hu | rfl
    · exact out_mild rfl (hs.tasks u hu)
    · simp [outstanding]
  · rw [involve_out]
    simp only [inv_dest, add_dest, emit_dest] at he
    exact out_mild rfl (hs.dest e he)

theorem real_sendLast {ok t g k s} (hcn : connected t.key s = true) (hn : t.corr ∉ corrs s) (hs : Real s) :
    Real (send ok t.key (.tcp t.key t.corr k g) (involve g t.key (addTask t s))) := by
  have hc : corrs (involve g t.key (addTask t s)) = corrs (addTask t s) := by unfold corrs; simp
  have hcn' : connected t.key (involve g t.key (addTask t s)) = true := by rw [inv_connected]; exact hcn
  have hnd : (corrs (involve g t.key (addTask t s))).Nodup := hc ▸ nodup_add hs.nodup hn
  have htask : ∀ u ∈ (involve g t.key (addTask t s)).tasks, u = t ∨ outstanding u.key u.corr s.log = true := by
    intro u hu
    simp only [inv_tasks, add_tasks, List.mem_append, List.mem_singleton] at hu
    rcases hu with hu | rfl
    · exact Or.inr (hs.tasks u hu)
    · exact Or.inl rfl
  have hdest : ∀ e ∈ (involve g t.key (addTask t s)).dest, outstanding e.conn e.corr s.log = true := by
    intro e he; simp only [inv_dest, add_dest] at he; exact hs.dest e he
  unfold send; rw [if_pos hcn']
  split
  · refine ⟨fun u hu => ?_, fun e he => ?_, hnd⟩
    · rcases htask u hu with rfl | h
      · simp [outstanding]
      · exact out_mild rfl (by rw [involve_out]; exact h)
    · exact out_mild rfl (by rw [involve_out]; exact hdest e he)
  · refine real_emit rfl (real_lost hcn' (fun u hu hk => ?_) (fun e he _ => ?_) hnd)
    · rcases htask u hu with rfl | h
      · exact absurd rfl hk
      · rw [involve_out]; exact h
    · rw [involve_out]; exact hdest e he

theorem real_destSend {ok d c ipc k s} (hcn : connected d s = true) (hn : c ∉ corrs s) (hs : Real s) :
    Real (send ok d (.tcp d c k none) (addDest ⟨c, ipc, d⟩ s)) := by
  have hno : ¬ (s.dest.any (·.corr == c) = true) := by
    intro h
    obtain ⟨x, hx, hc⟩ := List.any_eq_true.mp h
    exact hn (List.mem_append_right _ (List.mem_map.mpr ⟨x, hx, by simpa using hc⟩))
  have e : addDest ⟨c, ipc, d⟩ s = { s with dest := s.dest ++ [⟨c, ipc, d⟩] } := by
    unfold addDest; rw [if_neg hno]
  rw [e]
  have hnd : (corrs { s with dest := s.dest ++ [⟨c, ipc, d⟩] }).Nodup := by
    unfold corrs
    simp only [List.map_append, List.map_cons, List.map_nil, ← List.append_assoc]
    rw [List.nodup_append]
    refine ⟨hs.nodup, by simp, ?_⟩
    intro a ha b hb
    rw [List.mem_singleton] at hb; subst hb
    rintro rfl; exact hn ha
  unfold send
  rw [if_pos (show connected d { s with dest := s.dest ++ [⟨c, ipc, d⟩] } = true from hcn)]
  split
  · refine ⟨fun u hu => out_mild rfl (hs.tasks u hu), fun x hx => ?_, hnd⟩
    rcases List.mem_append.mp hx with h | h
    · exact out_mild rfl (hs.dest x h)
    · rw [List.mem_singleton] at h; subst h; simp [outstanding]
  · refine real_emit rfl (real_lost hcn (fun u hu hk => hs.tasks u hu) (fun x hx hk => ?_) hnd)
    rcases List.mem_append.mp hx with h | h
    · exact hs.dest x h
    · rw [List.mem_singleton] at h; subst h; exact absurd rfl hk

theorem nodup_eraseIdx_ne {l : List Task} {i : Nat} {t u : Task} (hn : (l.map (·.corr)).Nodup) (h : l[i]? = some t)
    (hu : u ∈ l.eraseIdx i) : u.corr ≠ t.corr := by
  induction l generalizing i with
  | nil => cases hu
  | cons a l ih =>
    rw [List.map_cons, List.nodup_cons] at hn
    cases i with
    | zero =>
      simp only [List.getElem?_cons_zero, Option.some.injEq] at h
      subst h
      exact fun he => hn.1 (List.mem_map.mpr ⟨u, hu, he⟩)
    | succ i =>
      simp only [List.getElem?_cons_succ] at h
      rcases List.mem_cons.mp hu with rfl | hu
      · exact fun he => hn.1 (List.mem_map.mpr ⟨t, List.mem_of_getElem? h, he.symm⟩)
      · exact ih hn.2 h hu

/-- A handler that leaves what is kept alone, and only ends what has its correlation, when it is done. -/
theorem real_dispatch {c h s} (h1 : ∀ t, (h t s).1.tasks = s.tasks) (h1' : ∀ t, (h t s).1.dest = s.dest)
    (h2 : ∀ t ∈ s.tasks, t.corr = c → ∀ d' c', outstanding d' c' s.log = true → (h t s).2 = false ∨ c' ≠ c →
      outstanding d' c' (h t s).1.log = true)
    (hs : Real s) : Real (dispatch c h s) := by
  unfold dispatch
  cases hf : s.tasks.findIdx? (·.corr = c) with
  | none => exact hs
  | some i =>
    obtain ⟨t, ht, htc⟩ := findIdx_get hf
    have hm : t ∈ s.tasks := List.mem_of_getElem? ht
    simp only [ht]
    have h2 := h2 t hm htc
    have hi : i < s.tasks.length := by
      rw [List.getElem?_eq_some_iff] at ht; exact ht.1
    have hn := hs.nodup
    unfold corrs at hn
    rw [List.nodup_append] at hn
    split
    · rw [h1 t, if_pos hi]
      refine ⟨fun u hu => ?_, fun e he => ?_, ?_⟩
      · have hu : u ∈ s.tasks.eraseIdx i := hu
        exact h2 _ _ (hs.tasks u ((List.eraseIdx_sublist ..).subset hu)) (Or.inr (htc ▸ nodup_eraseIdx_ne hn.1 ht hu))
      · have he : e ∈ s.dest := h1' t ▸ he
        refine h2 _ _ (hs.dest e he) (Or.inr fun hc => ?_)
        exact hn.2.2 _ (List.mem_map_of_mem hm) _ (List.mem_map_of_mem he) (htc.trans hc.symm)
      · have : corrs { (h t s).1 with tasks := s.tasks.eraseIdx i } = (s.tasks.eraseIdx i).map (·.corr) ++ s.dest.map (·.corr) := by
          unfold corrs; simp only [h1' t]
        rw [this]
        exact hs.nodup.sublist (List.Sublist.append ((List.eraseIdx_sublist ..).map _) (List.Sublist.refl _))
    · rename_i hd
      have hd : (h t s).2 = false := by simpa using hd
      refine ⟨fun u hu => h2 _ _ (hs.tasks u (h1 t ▸ hu)) (Or.inl hd), fun e he => h2 _ _ (hs.dest e (h1' t ▸ he)) (Or.inl hd), ?_⟩
      have : corrs (h t s).1 = corrs s := by unfold corrs; rw [h1 t, h1' t]
      rw [this]; exact hs.nodup

theorem out_opt' {b : Bool} {p : Prop} [Decidable p] {o s d c} (hq : mild o = true) (h : outstanding d c s.log = true) :
    outstanding d c (if p then (if b then emit o s else s) else s).log = true := by
  split
  · split
    · exact out_mild hq h
    · exact h
  · exact h

theorem out_onReply {k r t s d' c'} (h : outstanding d' c' s.log = true)
    (hc : (onReply k r t s).2 = false ∨ c' ≠ t.corr) : outstanding d' c' (onReply k r t s).1.log = true := by
  have hr : ∀ k' r, c' ≠ t.corr → outstanding d' c' (emit (.reply t.ipc t.corr k' r) s).log = true := by
    intro k' r hne
    have : ¬ t.corr = c' := fun e => hne e.symm
    simp [outstanding, h, this]
  unfold onReply at hc ⊢
  split
  · rename_i hk
    rw [if_pos hk] at hc
    split
    · exact out_metric' (out_opt' rfl (hr _ _ (by simpa using hc)))
    · exact hr _ _ (by simpa using hc)
    · exact hr _ _ (by simpa using hc)
    · exact h
  · exact h

theorem out_onSend {data tm t s d' c'} (h : outstanding d' c' s.log = true)
    (hc : (onSend data tm t s).2 = false ∨ c' ≠ t.corr) : outstanding d' c' (onSend data tm t s).1.log = true := by
  unfold onSend at hc ⊢
  split
  · rename_i hk
    rw [if_pos hk] at hc
    simp only [emit_log, outstanding, h, Bool.and_true]
    rcases hc with hc | hc
    · simp [show tm = false from hc]
    · have : ¬ t.corr = c' := fun e => hc e.symm
      simp [this]
  · exact h

theorem out_onHangup {t s d' c'} (h : outstanding d' c' s.log = true)
    (hc : (onHangup true t s).2 = false ∨ c' ≠ t.corr) : outstanding d' c' (onHangup true t s).1.log = true := by
  unfold onHangup at hc ⊢
  split
  · rename_i hk
    rw [if_pos hk] at hc
    have hne : c' ≠ t.corr := hc.resolve_left (by simp)
    have hne : ¬ t.corr = c' := fun e => hne e.symm
    apply out_metric'
    unfold send; split
    · simp [outstanding, h, hne]
    · exact h
  · exact h

theorem onHangup_dest (t s) : (onHangup true t s).1.dest = s.dest := by
  unfold onHangup send
  split
  · dsimp only; split <;> simp
  · rfl

theorem real_resourceReply {c k r s} (hs : Real s) : Real (resourceReply c k r s) := by
  unfold resourceReply takeDest
  cases hf : s.dest.find? (·.corr == c) with
  | none => exact hs
  | some e =>
    dsimp only
    have hm : e ∈ s.dest := List.mem_of_find?_eq_some hf
    have hc : e.corr = c := by simpa using List.find?_some hf
    have hn := hs.nodup
    unfold corrs at hn
    rw [List.nodup_append] at hn
    have hr : ∀ d' c', c' ≠ c → outstanding d' c' s.log = true →
        outstanding d' c' (.reply e.ipc c k r :: s.log) = true := by
      intro d' c' hne h
      have : ¬ c = c' := fun e => hne e.symm
      simp [outstanding, h, this]
    refine ⟨fun u hu => hr _ _ ?_ (hs.tasks u hu), fun x hx => ?_, ?_⟩
    · intro he
      exact hn.2.2 _ (List.mem_map_of_mem (show u ∈ s.tasks from hu)) _ (List.mem_map_of_mem hm) (he.trans hc.symm)
    · have hx : x ∈ s.dest.erase e := hx
      have hd : s.dest.Nodup := (List.pairwise_map.mp hn.2.1).imp (fun h e => h (by rw [e]))
      obtain ⟨hne, hx⟩ := hd.mem_erase_iff.mp hx
      refine hr _ _ (fun he => hne ?_) (hs.dest x hx)
      exact eq_of_nodup_map hn.2.1 hx hm (he.trans hc.symm)
    · exact hs.nodup.sublist (List.Sublist.append (List.Sublist.refl _) (List.erase_sublist.map _))

theorem real_disconnect {d b s} (hs : Real s) : Real (disconnect d b s) := by
  exact real_congr (s := unadvertise d s) rfl rfl (Or.inl rfl) (real_unadv hs)

theorem real_foldDisc {xs : List Nat} {s} (hs : Real s) :
    Real (xs.foldl (fun s d => disconnect d true s) s) := by
  induction xs generalizing s with
  | nil => exact hs
  | cons x xs ih => exact ih (real_disconnect hs)

/-- Without the connection nothing but the log of the units fails, and there are none. -/
theorem real_lostNot {d s} (hcn : connected d s = false) (hi : Inv s) (hs : Real s) : Real (lost d s) := by
  have hno : ∀ t ∈ s.tasks, t.key ≠ d := by
    intro t ht hk
    have := hi.keys t ht
    rw [hk, hcn] at this; cases this
  have hde : (lost d s).dest = s.dest := by
    rw [lost_eq, if_neg (by simp [hcn])]; unfold lostMid; simp [unadvertise, hcn]
  refine ⟨fun t ht => ?_, fun e he => ?_, hs.nodup.sublist corrs_lost⟩
  · rw [lost_tasks] at ht
    obtain ⟨h1, h2⟩ := List.mem_filter.mp ht
    exact out_lost' (hs.tasks t h1) (hno t h1) (fun u hu hk => absurd hk (hno u hu))
  · rw [hde] at he
    have ho := hs.dest e he
    have hl : live e.conn s.log = true := out_live_good hi.good ho
    have : e.conn ≠ d := by
      rintro h
      rw [← hi.live, h, hcn] at hl; cases hl
    exact out_lost' ho this (fun u hu hk => absurd hk (hno u hu))
where
  out_live_good {d c : Nat} {l : List Obs} (hw : Good l) (h : outstanding d c l = true) : live d l = true := by
    induction l with
    | nil => simp [outstanding] at h
    | cons o l ih =>
      cases ht : isTcp o with
      | true =>
        cases o <;> simp [isTcp] at ht
        simp only [outstanding, Bool.or_eq_true, Bool.and_eq_true, beq_iff_eq] at h
        rcases h with h | ⟨rfl, rfl⟩
        · exact ih hw.2 h
        · exact hw.1.1
      | false =>
        have hl := ih hw.2 (out_mono ht h)
        cases o <;> simp only [live, hl, Bool.or_true, Bool.and_true]
        simp only [outstanding, Bool.and_eq_true] at h
        exact h.1

theorem real_idleLoop {xs : List (Nat × Bool)} {s} (hi : Ok s) (hs : Real s) : Real (idleLoop xs s) := by
  induction xs generalizing s with
  | nil => exact hs
  | cons x xs ih =>
    obtain ⟨d, b⟩ := x
    have hl : Real (lost d s) := by
      cases hc : connected d s with
      | true => exact real_lost' hc hs
      | false => exact real_lostNot hc hi.1 hs
    unfold idleLoop; dsimp only
    split
    · exact ih (ok_emit rfl trivial (ok_lost hi)) (real_emit rfl hl)
    · exact ih (ok_lost hi) hl

/-- The correlation of a request from a local process. -/
def requests : Event → Option Nat
  | .call _ c _ _ _ _ => some c
  | .converse _ c _ _ _ _ => some c
  | .enqueue _ c _ _ _ => some c
  | .dequeue _ c _ _ _ => some c
  | e => asksVia e

theorem real_apply {e s} (he : brokenSend e = false) (hf : ∀ c, requests e = some c → c ∉ corrs s)
    (hi : Ok s) (hs : Real s) : Real (apply e s) := by
  cases e <;> simp only [apply]
  case connect d m =>
    split
    · exact hs
    · exact real_emit rfl (real_congr (s := s) rfl rfl (Or.inl rfl) hs)
  case call d c ipc sv g ok =>
    refine on_ind hs fun h => ?_
    have hs' : Real (emit (.req d c ipc .call g) s) := real_emit rfl hs
    have h' : connected d (emit (.req d c ipc .call g) s) = true := h
    unfold call; split
    · rename_i ha
      exact real_metric (real_emit rfl hs')
    · obtain ⟨x, hx, _⟩ := find_conn h'
      simp only [hx]
      cases ok with
      | false => simp [brokenSend] at he
      | true =>
        split
        · simp only [send, h', if_true]
          exact real_sendFirst (t := ⟨d, c, ipc, .call, sv⟩) (hf c rfl) hs'
        · exact real_sendLast (t := ⟨d, c, ipc, .call, sv⟩) h' (hf c rfl) hs'
  case converse d c ipc sv g ok =>
    exact on_ind hs fun h => real_sendLast (t := ⟨d, c, ipc, .conv, sv⟩) h (hf c rfl) (real_emit rfl hs)
  case say => exact on_ind hs fun h => real_send rfl hs
  case hangup d c ok =>
    cases ok with
    | false => simp [brokenSend] at he
    | true =>
      exact on_ind hs fun h => real_dispatch (fun t => onHangup_tasks t s) (fun t => onHangup_dest t s)
        (fun t _ hc d' c' ho hx => out_onHangup ho (hc ▸ hx)) hs
  case enqueue d c ipc g ok =>
    refine on_ind hs fun h => ?_
    cases ok with
    | false => simp [brokenSend] at he
    | true =>
      have h' : connected d (emit (.req d c ipc .enqueue g) s) = true := h
      simp only [queue, send, h', if_true]
      exact real_sendFirst (t := ⟨d, c, ipc, .enqueue, 0⟩) (hf c rfl) (real_emit rfl hs)
  case dequeue d c ipc g ok =>
    refine on_ind hs fun h => ?_
    cases ok with
    | false => simp [brokenSend] at he
    | true =>
      have h' : connected d (emit (.req d c ipc .dequeue g) s) = true := h
      simp only [queue, send, h', if_true]
      exact real_sendFirst (t := ⟨d, c, ipc, .dequeue, 0⟩) (hf c rfl) (real_emit rfl hs)
  case prepare d c ipc ok => exact on_ind hs fun h => real_destSend h (hf c rfl) (real_emit rfl hs)
  case commit d c ipc ok => exact on_ind hs fun h => real_destSend h (hf c rfl) (real_emit rfl hs)
  case rollback d c ipc ok => exact on_ind hs fun h => real_destSend h (hf c rfl) (real_emit rfl hs)
  case discover d c ipc ok =>
    refine on_ind hs fun h => ?_
    unfold discovery; split
    · have hn := hf c rfl
      unfold corrs at hn
      rw [List.mem_append] at hn
      have hr : ∀ d' c', c' ≠ c → outstanding d' c' s.log = true →
          outstanding d' c' (.reply ipc c .discovery ⟨0, 0⟩ :: .req d c ipc .discovery none :: s.log) = true := by
        intro d' c' hne h
        have : ¬ c = c' := fun e => hne e.symm
        simp [outstanding, h, this]
      refine ⟨fun t ht => hr _ _ ?_ (hs.tasks t ht), fun e he => hr _ _ ?_ (hs.dest e he), hs.nodup⟩
      · exact fun hx => hn (Or.inl (List.mem_map.mpr ⟨t, ht, hx⟩))
      · exact fun hx => hn (Or.inr (List.mem_map.mpr ⟨e, he, hx⟩))
    · exact real_destSend h (hf c rfl) (real_emit rfl hs)
  case explore =>
    refine on_ind hs fun h => ?_
    unfold explore; split
    · exact hs
    · exact real_send rfl hs
  case rDisconnect => exact on_ind hs fun h => real_send rfl (real_disconnect hs)
  case rCall d c r =>
    exact on_ind hs fun h => real_dispatch (fun t => (bal_onReply c _ _ t _).1) (fun t => onReply_dest)
      (fun t _ hc d' c' ho hx => out_onReply ho (hc ▸ hx)) (real_emit rfl hs)
  case rEnqueue d c r =>
    exact on_ind hs fun h => real_dispatch (fun t => (bal_onReply c _ _ t _).1) (fun t => onReply_dest)
      (fun t _ hc d' c' ho hx => out_onReply ho (hc ▸ hx)) (real_emit rfl hs)
  case rDequeue d c r =>
    exact on_ind hs fun h => real_dispatch (fun t => (bal_onReply c _ _ t _).1) (fun t => onReply_dest)
      (fun t _ hc d' c' ho hx => out_onReply ho (hc ▸ hx)) (real_emit rfl hs)
  case rConnect d c r =>
    refine on_ind hs fun h => real_dispatch (fun t => (bal_onConnect c _ t _).1) (fun t => onConnect_dest)
      (fun t _ hc d' c' ho hx => ?_) (real_emit rfl hs)
    unfold onConnect; split
    · exact out_mild rfl (out_opt' rfl ho)
    · exact ho
  case rSay d c data tm =>
    exact on_ind hs fun h => real_dispatch (fun t => (bal_onSend c _ _ t _).1)
      (fun t => by unfold onSend; split <;> rfl)
      (fun t _ hc d' c' ho hx => out_onSend ho (hc ▸ hx)) hs
  case rPrepare => exact on_ind hs fun h => real_resourceReply (real_emit rfl hs)
  case rCommit => exact on_ind hs fun h => real_resourceReply (real_emit rfl hs)
  case rRollback => exact on_ind hs fun h => real_resourceReply (real_emit rfl hs)
  case rDiscover =>
    refine on_ind hs fun h => ?_
    unfold discoveryReply; dsimp only
    refine real_resourceReply ?_
    split
    · split
      · exact real_emit rfl (real_emit rfl hs)
      · exact real_emit rfl (real_emit rfl (real_emit rfl hs))
    · split
      · exact real_emit rfl (real_emit rfl (real_emit rfl hs))
      · exact real_emit rfl (real_emit rfl (real_emit rfl (real_emit rfl hs)))
  case broken => exact on_ind hs fun h => real_emit rfl (real_lost' h hs)
  case disassociate => exact real_emit rfl (real_congr (s := s) rfl rfl (Or.inl rfl) hs)
  case remove => exact on_ind hs fun h => real_disconnect hs
  case idle => exact real_force (real_idleLoop hi hs)
  case shutdown =>
    exact real_force (real_foldDisc (real_congr (s := s) (t := { s with running := false }) rfl rfl (Or.inl rfl) hs))

/-! ### units come from requests -/

theorem tasks_send {ok d o s} : ∀ t ∈ (send ok d o s).tasks, t ∈ s.tasks := by
  intro t ht
  unfold send at ht
  split at ht
  · split at ht
    · exact ht
    · simp only [emit_tasks, lost_tasks] at ht; exact (List.mem_filter.mp ht).1
  · exact ht

theorem tasks_dispatch {c h s} (hh : ∀ t, ∀ u ∈ (h t s).1.tasks, u ∈ s.tasks) : ∀ u ∈ (dispatch c h s).tasks, u ∈ s.tasks := by
  intro u hu
  unfold dispatch at hu
  split at hu
  · exact hu
  · split at hu
    · exact hu
    · dsimp only at hu
      split at hu
      · split at hu
        · exact hh _ u ((List.eraseIdx_sublist ..).subset hu)
        · exact hh _ u hu
      · exact hh _ u hu

theorem tasks_idleLoop {xs : List (Nat × Bool)} {s} : ∀ t ∈ (idleLoop xs s).tasks, t ∈ s.tasks := by
  induction xs generalizing s with
  | nil => exact fun t h => h
  | cons x xs ih =>
    obtain ⟨d, b⟩ := x
    intro t ht
    unfold idleLoop at ht; dsimp only at ht
    have := ih t ht
    split at this
    · simp only [emit_tasks, lost_tasks] at this; exact (List.mem_filter.mp this).1
    · simp only [lost_tasks] at this; exact (List.mem_filter.mp this).1

theorem tasks_foldDisc (xs : List Nat) (s : State) :
    (xs.foldl (fun s d => disconnect d true s) s).tasks = s.tasks := by
  induction xs generalizing s with
  | nil => rfl
  | cons x xs ih => rw [List.foldl_cons, ih]; simp [disconnect]

theorem tasks_resourceReply {c k r s} : (resourceReply c k r s).tasks = s.tasks := by
  have h := takeDest_fields c s
  unfold resourceReply
  split <;> rename_i he <;> rw [he] at h <;> exact h.1

theorem tasks_apply {e s} : ∀ t ∈ (apply e s).tasks, t ∈ s.tasks ∨ requests e = some t.corr := by
  have on' : ∀ {d f}, (∀ t ∈ (f s).tasks, t ∈ s.tasks ∨ requests e = some t.corr) →
      ∀ t ∈ (on d f s).tasks, t ∈ s.tasks ∨ requests e = some t.corr := by
    intro d f hf x hx
    unfold on at hx; split at hx
    · exact hf x hx
    · exact Or.inl hx
  cases e <;> simp only [apply]
  case connect d m => intro x hx; split at hx <;> exact Or.inl hx
  case call d c ipc sv g ok =>
    refine on' fun x hx => ?_
    unfold call at hx; split at hx
    · exact Or.inl (by simpa using hx)
    · split at hx
      · exact Or.inl hx
      · split at hx
        · simp only [inv_tasks, add_tasks, List.mem_append, List.mem_singleton] at hx
          rcases hx with hx | rfl
          · have := tasks_send x hx; exact Or.inl this
          · exact Or.inr rfl
        · have hx := tasks_send x hx
          simp only [inv_tasks, add_tasks, List.mem_append, List.mem_singleton] at hx
          rcases hx with hx | rfl
          · exact Or.inl hx
          · exact Or.inr rfl
  case converse =>
    refine on' fun x hx => ?_
    have hx := tasks_send x hx
    simp only [inv_tasks, add_tasks, List.mem_append, List.mem_singleton] at hx
    rcases hx with hx | rfl
    · exact Or.inl hx
    · exact Or.inr rfl
  case say => exact on' fun x hx => Or.inl (tasks_send x hx)
  case hangup d c ok =>
    refine on' fun x hx => Or.inl (tasks_dispatch (fun t y hy => ?_) x hx)
    unfold onHangup at hy; split at hy
    · simp only [metric_tasks] at hy; exact tasks_send y hy
    · exact hy
  case enqueue =>
    refine on' fun x hx => ?_
    unfold queue at hx
    simp only [inv_tasks, add_tasks, List.mem_append, List.mem_singleton] at hx
    rcases hx with hx | rfl
    · have := tasks_send x hx; exact Or.inl this
    · exact Or.inr rfl
  case dequeue =>
    refine on' fun x hx => ?_
    unfold queue at hx
    simp only [inv_tasks, add_tasks, List.mem_append, List.mem_singleton] at hx
    rcases hx with hx | rfl
    · have := tasks_send x hx; exact Or.inl this
    · exact Or.inr rfl
  case prepare => refine on' fun x hx => ?_; have := tasks_send x hx; rw [ad_tasks] at this; exact Or.inl this
  case commit => refine on' fun x hx => ?_; have := tasks_send x hx; rw [ad_tasks] at this; exact Or.inl this
  case rollback => refine on' fun x hx => ?_; have := tasks_send x hx; rw [ad_tasks] at this; exact Or.inl this
  case discover =>
    refine on' fun x hx => ?_
    unfold discovery at hx; split at hx
    · exact Or.inl hx
    · have := tasks_send x hx; rw [ad_tasks] at this; exact Or.inl this
  case explore =>
    refine on' fun x hx => Or.inl ?_
    unfold explore at hx; split at hx
    · exact hx
    · exact tasks_send x hx
  case rDisconnect =>
    refine on' fun x hx => Or.inl ?_
    have := tasks_send x hx
    simpa [disconnect] using this
  case rCall =>
    refine on' fun x hx => Or.inl ?_
    have := tasks_dispatch (fun t y hy => by rw [(bal_onReply 0 _ _ _ _).1] at hy; exact hy) x hx
    exact this
  case rEnqueue =>
    refine on' fun x hx => Or.inl ?_
    have := tasks_dispatch (fun t y hy => by rw [(bal_onReply 0 _ _ _ _).1] at hy; exact hy) x hx
    exact this
  case rDequeue =>
    refine on' fun x hx => Or.inl ?_
    have := tasks_dispatch (fun t y hy => by rw [(bal_onReply 0 _ _ _ _).1] at hy; exact hy) x hx
    exact this
  case rConnect =>
    refine on' fun x hx => Or.inl ?_
    have := tasks_dispatch (fun t y hy => by rw [(bal_onConnect 0 _ _ _).1] at hy; exact hy) x hx
    exact this
  case rSay =>
    refine on' fun x hx => Or.inl ?_
    have := tasks_dispatch (fun t y hy => by rw [(bal_onSend 0 _ _ _ _).1] at hy; exact hy) x hx
    exact this
  case rPrepare => refine on' fun x hx => Or.inl ?_; rw [tasks_resourceReply] at hx; exact hx
  case rCommit => refine on' fun x hx => Or.inl ?_; rw [tasks_resourceReply] at hx; exact hx
  case rRollback => refine on' fun x hx => Or.inl ?_; rw [tasks_resourceReply] at hx; exact hx
  case rDiscover =>
    refine on' fun x hx => Or.inl ?_
    unfold discoveryReply at hx; dsimp only at hx
    rw [tasks_resourceReply] at hx
    split at hx
    · split at hx <;> exact hx
    · split at hx <;> exact hx
  case broken =>
    refine on' fun x hx => Or.inl ?_
    simp only [emit_tasks, lost_tasks] at hx; exact (List.mem_filter.mp hx).1
  case disassociate => exact fun x hx => Or.inl hx
  case remove => exact on' fun x hx => Or.inl (by simpa [disconnect] using hx)
  case idle => intro x hx; unfold idle at hx; rw [force_tasks] at hx; exact Or.inl (tasks_idleLoop x hx)
  case shutdown => intro x hx; unfold shutdown at hx; rw [force_tasks, tasks_foldDisc] at hx; exact Or.inl hx

theorem requests_of_via {e c} (h : asksVia e = some c) : requests e = some c := by
  cases e <;> simp [asksVia] at h <;> simp [requests, asksVia, h]

theorem corrs_run (es : List Event) : ∀ c ∈ corrs (run es), c ∈ es.filterMap requests := by
  induction es using Casual.snocInd with
  | nil => intro x hx; cases hx
  | snoc es e ih =>
    rw [run_snoc]
    intro x hx
    rw [List.filterMap_append, List.mem_append]
    unfold step at hx
    split at hx
    · exact Or.inl (ih x hx)
    · unfold corrs at hx
      rcases List.mem_append.mp hx with hx | hx
      · obtain ⟨t, ht, rfl⟩ := List.mem_map.mp hx
        rcases tasks_apply t ht with h | h
        · exact Or.inl (ih _ (List.mem_append_left _ (List.mem_map_of_mem h)))
        · right; simp [List.filterMap_cons, h]
      · obtain ⟨t, ht, rfl⟩ := List.mem_map.mp hx
        rcases dest_apply t ht with h | h
        · exact Or.inl (ih _ (List.mem_append_right _ (List.mem_map_of_mem h)))
        · right; simp [List.filterMap_cons, requests_of_via h]

/-- No two requests have the same correlation. -/
def AllDistinct (es : List Event) : Prop := (es.filterMap requests).Nodup

theorem distinct_of_all {es : List Event} (h : AllDistinct es) : Distinct es := by
  unfold AllDistinct at h; unfold Distinct
  refine h.sublist ?_
  clear h
  induction es with
  | nil => exact List.Sublist.refl _
  | cons e es ih =>
    simp only [List.filterMap_cons]
    cases hv : asksVia e with
    | some c => rw [requests_of_via hv]; exact ih.cons_cons _
    | none =>
      cases requests e with
      | none => exact ih
      | some c => exact ih.cons _

theorem real_run (es : List Event) (hb : ∀ e ∈ es, brokenSend e = false) (hd : AllDistinct es) : Real (run es) := by
  induction es using Casual.snocInd with
  | nil => exact ⟨by simp [run], by simp [run], by simp [run, corrs]⟩
  | snoc es e ih =>
    unfold AllDistinct at hd
    rw [List.filterMap_append, List.nodup_append] at hd
    have hk := ih (fun x hx => hb x (by simp [hx])) hd.1
    rw [run_snoc]; unfold step; split
    · exact hk
    · refine real_apply (hb e (by simp)) (fun c hc hx => ?_) (ok_run es fun x hx => hb x (by simp [hx])) hk
      exact hd.2.2 c (corrs_run es c hx) c (by simp [List.filterMap_cons, hc]) rfl

/-! ### no empty entries in the table of transactions -/

def Full (xs : List (Nat × List Nat)) : Prop := ∀ x ∈ xs, x.2 ≠ []

theorem full_associate {g d : Nat} {xs : List (Nat × List Nat)} (h : Full xs) : Full (associate g d xs).1 := by
  induction xs with
  | nil => intro x hx; simp [associate] at hx; subst hx; simp
  | cons y ys ih =>
    obtain ⟨g', ds⟩ := y
    have hys : Full ys := fun x hx => h x (List.mem_cons_of_mem _ hx)
    unfold associate
    split
    · split
      · exact h
      · intro x hx
        rcases List.mem_cons.mp hx with rfl | hx
        · simp
        · exact hys x hx
    · intro x hx
      rcases List.mem_cons.mp hx with rfl | hx
      · exact h _ (List.mem_cons_self ..)
      · exact ih hys x hx

theorem full_extract {d : Nat} {xs : List (Nat × List Nat)} (h : Full xs) : Full (extractTrans d xs) := by
  induction xs with
  | nil => exact h
  | cons y ys ih =>
    obtain ⟨g', ds⟩ := y
    have hys : Full ys := fun x hx => h x (List.mem_cons_of_mem _ hx)
    unfold extractTrans
    split
    · split
      · exact ih hys
      · rename_i he
        intro x hx
        rcases List.mem_cons.mp hx with rfl | hx
        · simpa using he
        · exact ih hys x hx
    · intro x hx
      rcases List.mem_cons.mp hx with rfl | hx
      · exact h _ (List.mem_cons_self ..)
      · exact ih hys x hx

theorem full_lost {d s} (h : Full s.trans) : Full (lost d s).trans := by
  rw [lost_eq]; split
  · exact full_extract h
  · have : (lostMid d s).trans = s.trans := by unfold lostMid; split <;> simp
    show Full (lostMid d s).trans
    rw [this]; exact h

theorem full_send {ok d o s} (h : Full s.trans) : Full (send ok d o s).trans := by
  unfold send; split
  · split
    · exact h
    · exact full_lost h
  · exact h

theorem full_involve {g d s} (h : Full s.trans) : Full (involve g d s).trans := by
  unfold involve
  split
  · exact h
  · dsimp only; split
    · split <;> exact full_associate h
    · exact full_associate h

theorem full_dispatch {c h s} (hh : ∀ t, Full (h t s).1.trans) (hs : Full s.trans) : Full (dispatch c h s).trans := by
  unfold dispatch
  split
  · exact hs
  · split
    · exact hs
    · dsimp only
      split
      · split <;> exact hh _
      · exact hh _

theorem onReply_trans {k r t s} : (onReply k r t s).1.trans = s.trans := by
  unfold onReply; split
  · split
    · dsimp only; split
      · split <;> simp
      · simp
    · rfl
    · rfl
    · rfl
  · rfl

theorem onConnect_trans {r t s} : (onConnect r t s).1.trans = s.trans := by
  unfold onConnect; split
  · dsimp only; split
    · split <;> simp
    · simp
  · rfl

theorem trans_resourceReply {c k r s} : (resourceReply c k r s).trans = s.trans := by
  have h := takeDest_fields c s
  unfold resourceReply
  split <;> rename_i he <;> rw [he] at h <;> exact h.2.2.2.1

theorem full_idleLoop {xs : List (Nat × Bool)} {s} (hs : Full s.trans) : Full (idleLoop xs s).trans := by
  induction xs generalizing s with
  | nil => exact hs
  | cons x xs ih =>
    obtain ⟨d, b⟩ := x
    unfold idleLoop; dsimp only
    apply ih
    split
    · exact full_lost hs
    · exact full_lost hs

theorem trans_foldDisc (xs : List Nat) (s : State) :
    (xs.foldl (fun s d => disconnect d true s) s).trans = s.trans := by
  induction xs generalizing s with
  | nil => rfl
  | cons x xs ih => rw [List.foldl_cons, ih]; simp [disconnect]

theorem full_apply {e s} (hs : Full s.trans) : Full (apply e s).trans := by
  have on' : ∀ {d f}, Full (f s).trans → Full (on d f s).trans := by
    intro d f hf; unfold on; split
    · exact hf
    · exact hs
  cases e <;> simp only [apply]
  case connect => split <;> exact hs
  case call d c ipc sv g ok =>
    refine on' ?_
    unfold call; split
    · rw [metric_trans]; exact hs
    · split
      · exact hs
      · split
        · exact full_involve (full_send hs)
        · exact full_send (full_involve hs)
  case converse => exact on' (full_send (full_involve hs))
  case say => exact on' (full_send hs)
  case hangup =>
    refine on' (full_dispatch (fun t => ?_) hs)
    unfold onHangup; split
    · rw [metric_trans]; exact full_send hs
    · exact hs
  case enqueue => exact on' (full_involve (full_send hs))
  case dequeue => exact on' (full_involve (full_send hs))
  case prepare => exact on' (full_send (by rw [ad_trans]; exact hs))
  case commit => exact on' (full_send (by rw [ad_trans]; exact hs))
  case rollback => exact on' (full_send (by rw [ad_trans]; exact hs))
  case discover =>
    refine on' ?_
    unfold discovery; split
    · exact hs
    · exact full_send (by rw [ad_trans]; exact hs)
  case explore =>
    refine on' ?_
    unfold explore; split
    · exact hs
    · exact full_send hs
  case rDisconnect => exact on' (full_send (by simpa [disconnect] using hs))
  case rCall => exact on' (full_dispatch (fun t => by rw [onReply_trans]; exact hs) hs)
  case rEnqueue => exact on' (full_dispatch (fun t => by rw [onReply_trans]; exact hs) hs)
  case rDequeue => exact on' (full_dispatch (fun t => by rw [onReply_trans]; exact hs) hs)
  case rConnect => exact on' (full_dispatch (fun t => by rw [onConnect_trans]; exact hs) hs)
  case rSay => exact on' (full_dispatch (fun t => by unfold onSend; split <;> exact hs) hs)
  case rPrepare => exact on' (by rw [trans_resourceReply]; exact hs)
  case rCommit => exact on' (by rw [trans_resourceReply]; exact hs)
  case rRollback => exact on' (by rw [trans_resourceReply]; exact hs)
  case rDiscover =>
    refine on' ?_
    unfold discoveryReply; dsimp only
    rw [trans_resourceReply]
    split
    · split <;> exact hs
    · split <;> exact hs
  case broken => exact on' (full_lost hs)
  case disassociate => exact fun x hx => hs x (List.mem_filter.mp hx).1
  case remove => exact on' (by simpa [disconnect] using hs)
  case idle => unfold idle; rw [force_trans]; exact full_idleLoop hs
  case shutdown => unfold shutdown; rw [force_trans, trans_foldDisc]; exact hs

theorem full_run (es : List Event) : Full (run es).trans := by
  refine inv_run (P := fun s => Full s.trans) (by intro x hx; cases hx) (fun s e h => ?_) es
  unfold step; split
  · exact h
  · exact full_apply h

theorem trans_empty {s : State} (hf : Full s.trans) (hh : ∀ g d, has g d s.trans = false) : s.trans = [] := by
  cases hx : s.trans with
  | nil => rfl
  | cons x xs =>
    exfalso
    have h1 := hf x (by rw [hx]; exact List.mem_cons_self ..)
    obtain ⟨d, ds, hd⟩ := List.exists_cons_of_ne_nil h1
    have := hh x.1 d
    rw [hx] at this
    simp [has, hd] at this

end Casual.Gateway.Out

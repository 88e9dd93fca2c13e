import Verif.Gateway.InTied
/-! There is nothing in progress but what has been asked for, and has not been answered. -/
namespace Casual.Gateway.In

/-- TM has given a branch of the transaction, and has not been done with it since. -/
def opened (g : Nat) : List Obs → Bool
  | [] => false
  | .gotBranch _ b :: l => b.g == g || opened g l
  | .disassociate g' :: l => g' != g && opened g l
  | _ :: l => opened g l

/-- A unit that has not passed its request on. -/
def early (t : Task) : Prop := isQueue t.kind = true ∨ t.lookup = none

structure Real (s : State) : Prop where
  nodup : (s.tasks.map (·.corr)).Nodup
  asked : ∀ t ∈ s.tasks, ∃ x, .req t.key t.corr t.kind x ∈ s.log
  fwds : ∀ ipc c k x d, .fwd ipc c k x d ∈ s.log → ∃ d k x, .req d c k x ∈ s.log
  out : ∀ t ∈ s.tasks, keeps t.kind = true → out t.key t.corr t.kind s.log = true
  queue : ∀ t ∈ s.tasks, early t → ∀ ipc k x d, .fwd ipc t.corr k x d ∉ s.log
  cache : ∀ a ∈ s.cache, a.trid.g = a.g ∧ opened a.g s.log = true

/-- Observations that end nothing. -/
def mild : Obs → Bool
  | .sent .. | .closed _ | .toRemote _ _ _ true | .hangup .. | .fwd .. | .disassociate _ => false
  | _ => true

theorem mild_out {o d c k l} (h : mild o = true) (ho : out d c k l = true) : out d c k (o :: l) = true := by
  cases o <;> first | exact ho | (cases h; done) | skip
  case req => simp [out, ho]
  case toRemote t => cases t; exact ho; cases h

theorem mild_opened {o g l} (h : mild o = true) (ho : opened g l = true) : opened g (o :: l) = true := by
  cases o <;> first | exact ho | (cases h; done) | skip
  case gotBranch => simp [opened, ho]

theorem milds_out {a d c k l} (h : ∀ o ∈ a, mild o = true) (ho : out d c k l = true) : out d c k (a ++ l) = true := by
  induction a with
  | nil => exact ho
  | cons o a ih => exact mild_out (h o (List.mem_cons_self ..)) (ih fun o ho => h o (List.mem_cons_of_mem _ ho))

theorem milds_opened {a g l} (h : ∀ o ∈ a, mild o = true) (ho : opened g l = true) : opened g (a ++ l) = true := by
  induction a with
  | nil => exact ho
  | cons o a ih => exact mild_opened (h o (List.mem_cons_self ..)) (ih fun o ho => h o (List.mem_cons_of_mem _ ho))

theorem mild_fwd {a l : List Obs} {i c k x d} (h : ∀ o ∈ a, mild o = true) (hf : .fwd i c k x d ∈ a ++ l) : .fwd i c k x d ∈ l := by
  rcases List.mem_append.mp hf with hf | hf
  · have := h _ hf; cases this
  · exact hf

/-- Some tasks are gone, or changed within. -/
theorem real_of {s u : State} (hs : Real s) (hn : (u.tasks.map (·.corr)).Nodup)
    (hu : ∀ v ∈ u.tasks, ∃ w ∈ s.tasks, w.key = v.key ∧ w.corr = v.corr ∧ w.kind = v.kind ∧ (early v → early w))
    (hl : ∃ a, u.log = a ++ s.log)
    (ho : ∀ v ∈ u.tasks, keeps v.kind = true → out v.key v.corr v.kind s.log = true → out v.key v.corr v.kind u.log = true)
    (hf : ∀ ipc c k x d, .fwd ipc c k x d ∈ u.log → .fwd ipc c k x d ∈ s.log ∨
      ((∃ d k x, .req d c k x ∈ s.log) ∧ ∀ v ∈ u.tasks, early v → v.corr ≠ c))
    (hc : ∀ a ∈ u.cache, a.trid.g = a.g ∧ opened a.g u.log = true) : Real u where
  nodup := hn
  asked := fun v hv => by
    obtain ⟨w, hw, e1, e2, e3, _⟩ := hu v hv
    obtain ⟨x, h⟩ := hs.asked w hw
    obtain ⟨a, e⟩ := hl
    rw [e1, e2, e3] at h
    rw [e]; exact ⟨x, List.mem_append_right _ h⟩
  fwds := fun ipc c k x d h => by
    obtain ⟨a, e⟩ := hl
    rcases hf ipc c k x d h with h | ⟨⟨d, k, x, h⟩, _⟩
    · obtain ⟨d, k, x, h⟩ := hs.fwds _ _ _ _ _ h
      rw [e]; exact ⟨d, k, x, List.mem_append_right _ h⟩
    · rw [e]; exact ⟨d, k, x, List.mem_append_right _ h⟩
  out := fun v hv hk => by
    obtain ⟨w, hw, e1, e2, e3, _⟩ := hu v hv
    have := hs.out w hw (by rw [e3]; exact hk)
    rw [e1, e2, e3] at this
    exact ho v hv hk this
  queue := fun v hv hk ipc k x d h => by
    obtain ⟨w, hw, e1, e2, e3, e4⟩ := hu v hv
    rcases hf _ _ _ _ _ h with h | ⟨_, h⟩
    · refine hs.queue w hw (e4 hk) ipc k x d ?_
      rw [e2]; exact h
    · exact h v hv hk rfl
  cache := hc

theorem real_mild {s u : State} (hs : Real s) (a : List Obs) (hn : (u.tasks.map (·.corr)).Nodup)
    (hu : ∀ v ∈ u.tasks, ∃ w ∈ s.tasks, w.key = v.key ∧ w.corr = v.corr ∧ w.kind = v.kind ∧ (early v → early w))
    (hl : u.log = a ++ s.log) (ha : ∀ o ∈ a, mild o = true)
    (hc : ∀ x ∈ u.cache, (∃ y ∈ s.cache, x.g = y.g ∧ x.trid = y.trid) ∨ (x.trid.g = x.g ∧ opened x.g u.log = true)) : Real u := by
  refine real_of hs hn hu ⟨a, hl⟩ ?_ ?_ ?_
  · intro v _ _ h; rw [hl]; exact milds_out ha h
  · intro ipc c k x d h; rw [hl] at h; exact Or.inl (mild_fwd ha h)
  · intro x hx
    rcases hc x hx with ⟨y, hy, e1, e2⟩ | h
    · rw [e1, e2, hl]; exact ⟨(hs.cache y hy).1, milds_opened ha (hs.cache y hy).2⟩
    · exact h

theorem real_request {s u : State} {t : Task} {d c k x} (hs : Real s) (hD : Distinct (.req d c k x :: s.log)) (a : List Obs)
    (ht : u.tasks = s.tasks ++ [t]) (h1 : t.key = d) (h2 : t.corr = c) (h3 : t.kind = k)
    (hl : u.log = a ++ .req d c k x :: s.log) (ha : ∀ o ∈ a, mild o = true)
    (hc : ∀ x ∈ u.cache, ∃ y ∈ s.cache, x.g = y.g ∧ x.trid = y.trid) : Real u := by
  have hD' : ∀ d' k' x', .req d' c k' x' ∉ s.log := by
    intro d' k' x' h
    unfold Distinct at hD
    simp only [List.filterMap_cons, reqCorr, List.nodup_cons] at hD
    exact hD.1 (mem_reqs h)
  have hm : ∀ o ∈ a ++ [.req d c k x], mild o = true := by
    intro o ho
    rcases List.mem_append.mp ho with ho | ho
    · exact ha o ho
    · rw [List.mem_singleton.mp ho]; rfl
  have hl' : u.log = (a ++ [.req d c k x]) ++ s.log := by rw [hl]; simp
  refine ⟨?_, ?_, ?_, ?_, ?_, ?_⟩
  · rw [ht, List.map_append, List.nodup_append]
    refine ⟨hs.nodup, by simp, ?_⟩
    intro c1 hc1 c2 hc2
    simp only [List.map_cons, List.map_nil, List.mem_singleton] at hc2
    rw [hc2, h2]
    obtain ⟨v, hv, rfl⟩ := List.mem_map.mp hc1
    intro ec
    obtain ⟨x', h⟩ := hs.asked v hv
    rw [ec] at h
    exact hD' _ _ _ h
  · intro v hv
    rw [ht] at hv
    rcases List.mem_append.mp hv with hv | hv
    · obtain ⟨x', h⟩ := hs.asked v hv
      rw [hl']; exact ⟨x', List.mem_append_right _ h⟩
    · rw [List.mem_singleton.mp hv, h1, h2, h3, hl]; exact ⟨x, by simp⟩
  · intro ipc c' k' x' d' h
    rw [hl'] at h ⊢
    obtain ⟨d, k, x, h⟩ := hs.fwds _ _ _ _ _ (mild_fwd hm h)
    exact ⟨d, k, x, List.mem_append_right _ h⟩
  · intro v hv hk
    rw [ht] at hv
    rcases List.mem_append.mp hv with hv | hv
    · rw [hl']; exact milds_out hm (hs.out v hv hk)
    · rw [List.mem_singleton.mp hv, h1, h2, h3, hl]; exact milds_out ha (by simp [out])
  · intro v hv hk ipc k' x' d' h
    rw [hl'] at h
    have h := mild_fwd hm h
    rw [ht] at hv
    rcases List.mem_append.mp hv with hv | hv
    · exact hs.queue v hv hk _ _ _ _ h
    · rw [List.mem_singleton.mp hv, h2] at h
      obtain ⟨_, _, _, h⟩ := hs.fwds _ _ _ _ _ h
      exact hD' _ _ _ h
  · intro b hb
    obtain ⟨y, hy, e1, e2⟩ := hc b hb
    rw [e1, e2, hl']; exact ⟨(hs.cache y hy).1, milds_opened hm (hs.cache y hy).2⟩

theorem asking_mild {o} (h : asking o = true) : mild o = true := by cases o <;> first | rfl | (cases h; done)

theorem service_cache (k d c x) (s : State) : ∀ a ∈ (serviceRequest k d c x s).cache, ∃ b ∈ s.cache, a.g = b.g ∧ a.trid = b.trid := by
  unfold serviceRequest; dsimp only; split
  · exact fun a ha => ⟨a, ha, rfl, rfl⟩
  · split
    · exact (join_cache _ _ _).1
    · exact fun a ha => ⟨a, ha, rfl, rfl⟩

theorem queue_cache (k d c x qm) (s : State) : ∀ a ∈ (queueRequest k d c x qm s).cache, ∃ b ∈ s.cache, a.g = b.g ∧ a.trid = b.trid := by
  have h : (if qm = true then emit (.askQueue d c) s else s).cache = s.cache := by split <;> rfl
  unfold queueRequest; dsimp only; split
  · rw [add_cache, h]; exact fun a ha => ⟨a, ha, rfl, rfl⟩
  · split
    · rw [add_cache]; simp only [h]; exact (join_cache _ _ _).1
    · rw [add_cache, emit_cache, h]; exact fun a ha => ⟨a, ha, rfl, rfl⟩

theorem resource_cache (k d c x) (s : State) : ∀ a ∈ (resourceRequest k d c x s).cache, ∃ b ∈ s.cache, a.g = b.g ∧ a.trid = b.trid := by
  unfold resourceRequest; split
  · exact fun a ha => ⟨a, ha, rfl, rfl⟩
  · rw [add_cache, fake_cache]; exact fun a ha => ⟨a, ha, rfl, rfl⟩

theorem old_cache {s : State} : ∀ x ∈ s.cache, (∃ y ∈ s.cache, x.g = y.g ∧ x.trid = y.trid) ∨ (x.trid.g = x.g ∧ opened x.g s.log = true) :=
  fun x hx => Or.inl ⟨x, hx, rfl, rfl⟩

theorem add_cache' {b : Trid} {d : Nat} {cs : List Assoc} {l : List Obs} (hl : opened b.g l = true) :
    ∀ x ∈ addTrid b d cs, (∃ y ∈ cs, x.g = y.g ∧ x.trid = y.trid) ∨ (x.trid.g = x.g ∧ opened x.g l = true) := by
  intro x hx
  rcases addTrid_mem hx with ⟨y, hy, e1, e2, _⟩ | rfl
  · exact Or.inl ⟨y, hy, e1, e2⟩
  · exact Or.inr ⟨rfl, hl⟩

theorem from_change {pre post : List Task} {t t' : Task} {ts : List Task} (h : ts = pre ++ t :: post)
    (h1 : t'.key = t.key) (h2 : t'.corr = t.corr) (h3 : t'.kind = t.kind) (h4 : early t' → early t) :
    ∀ v ∈ pre ++ t' :: post, ∃ w ∈ ts, w.key = v.key ∧ w.corr = v.corr ∧ w.kind = v.kind ∧ (early v → early w) := by
  intro v hv
  simp only [List.mem_append, List.mem_cons] at hv
  rcases hv with hv | rfl | hv
  · exact ⟨v, by rw [h]; simp [hv], rfl, rfl, rfl, id⟩
  · exact ⟨t, by rw [h]; simp, h1.symm, h2.symm, h3.symm, h4⟩
  · exact ⟨v, by rw [h]; simp [hv], rfl, rfl, rfl, id⟩

theorem from_sub {ts us : List Task} (h : us.Sublist ts) : ∀ v ∈ us, ∃ w ∈ ts, w.key = v.key ∧ w.corr = v.corr ∧ w.kind = v.kind ∧ (early v → early w) :=
  fun v hv => ⟨v, h.mem hv, rfl, rfl, rfl, id⟩

theorem nodup_sub {ts us : List Task} (h : us.Sublist ts) (hn : (ts.map (·.corr)).Nodup) : (us.map (·.corr)).Nodup :=
  List.Sublist.nodup (List.Sublist.map _ h) hn

theorem service_not_queue {k} (h : isService k = true) : isQueue k = false := by cases k <;> first | rfl | (cases h; done)

/-- A request of a unit is passed on. -/
theorem real_fwd {s u : State} {t : Task} {ipc k x d} (a : List Obs) (hs : Real s) (ht : t ∈ s.tasks) (hn : (u.tasks.map (·.corr)).Nodup)
    (hu : ∀ v ∈ u.tasks, ∃ w ∈ s.tasks, w.key = v.key ∧ w.corr = v.corr ∧ w.kind = v.kind ∧ (early v → early w))
    (hl : u.log = .fwd ipc t.corr k x d :: (a ++ s.log)) (ha : ∀ o ∈ a, mild o = true)
    (hq : ∀ v ∈ u.tasks, early v → v.corr ≠ t.corr)
    (hc : ∀ x ∈ u.cache, (∃ y ∈ s.cache, x.g = y.g ∧ x.trid = y.trid) ∨ (x.trid.g = x.g ∧ opened x.g u.log = true)) : Real u := by
  refine real_of hs hn hu ⟨.fwd ipc t.corr k x d :: a, hl⟩ ?_ ?_ ?_
  · intro v _ _ h; rw [hl]; exact milds_out ha h
  · intro ipc' c' k' x' d' h
    rw [hl] at h
    rcases List.mem_cons.mp h with h | h
    · simp only [Obs.fwd.injEq] at h
      obtain ⟨_, rfl, _⟩ := h
      obtain ⟨x, h⟩ := hs.asked t ht
      exact Or.inr ⟨⟨_, _, _, h⟩, hq⟩
    · exact Or.inl (mild_fwd ha h)
  · intro y hy
    rcases hc y hy with ⟨z, hz, e1, e2⟩ | h
    · rw [e1, e2, hl]; exact ⟨(hs.cache z hz).1, milds_opened ha (hs.cache z hz).2⟩
    · exact h

theorem real_move (s t : State) (h : Move s t) (hd : t.dead = false) (hs : Distinct s.log → Real s) (hD : Distinct t.log) : Real t := by
  have hs : Real s := by
    obtain ⟨a, e⟩ := grows h hd
    rw [e] at hD
    exact hs hD.of
  cases h
  case push d _ =>
    exact real_mild hs [.closing d] hs.nodup (from_sub (List.Sublist.refl _)) rfl (by simp [mild]) fun x hx => Or.inl ⟨x, hx, rfl, rfl⟩
  case same h1 h2 h3 h4 h5 h6 _ =>
    exact real_mild hs [] (by rw [h2]; exact hs.nodup) (by rw [h2]; exact from_sub (List.Sublist.refl _)) h5 (by simp)
      (by rw [h3]; exact fun x hx => Or.inl ⟨x, hx, rfl, rfl⟩)
  case die h => rw [h] at hd; cases hd
  case connect d m hc =>
    exact real_mild hs [.connected d] hs.nodup (from_sub (List.Sublist.refl _)) rfl (by simp [mild]) fun x hx => Or.inl ⟨x, hx, rfl, rfl⟩
  case lost d hc =>
    rw [lost_eq hc]
    refine real_of hs (nodup_sub List.filter_sublist hs.nodup) (from_sub List.filter_sublist)
      ⟨(discards (s.tasks.filter (·.key = d))).reverse ++ [.closed d], by simp⟩ ?_ ?_ ?_
    · intro v hv hk h
      simp only
      rw [out_discards]
      have := (List.mem_filter.mp hv).2
      simp only [ne_eq, decide_not, Bool.not_eq_true', decide_eq_false_iff_not] at this
      simp only [out, h, Bool.and_true, bne_iff_ne, ne_eq]
      exact fun e => this e.symm
    · intro ipc c k x d' h
      rcases List.mem_append.mp h with h | h
      · rw [List.mem_reverse] at h
        obtain ⟨t, _, e⟩ := List.mem_map.mp h
        cases e
      · rcases List.mem_cons.mp h with h | h
        · cases h
        · exact Or.inl h
    · intro a ha
      obtain ⟨b, hb, e1, e2, _⟩ := failedTrids_mem ha
      have : ∀ xs : List Obs, (∀ o ∈ xs, ∃ c, o = .discard c) → opened b.g (xs ++ .closed d :: s.log) = true := by
        intro xs
        induction xs with
        | nil => intro _; exact (hs.cache b hb).2
        | cons o xs ih =>
          intro h
          obtain ⟨c, rfl⟩ := h o (List.mem_cons_self ..)
          exact ih fun o ho => h o (List.mem_cons_of_mem _ ho)
      rw [e1, e2]
      refine ⟨(hs.cache b hb).1, this _ fun o ho => ?_⟩
      rw [List.mem_reverse] at ho
      obtain ⟨t, _, rfl⟩ := List.mem_map.mp ho
      exact ⟨_, rfl⟩
  case note o ho =>
    refine real_of hs hs.nodup (from_sub (List.Sublist.refl _)) ⟨[o], rfl⟩ ?_ ?_ ?_
    · intro v hv hk h; rw [emit_log, out_note ho hk]; exact h
    · intro ipc c k x d h
      rcases List.mem_cons.mp h with h | h
      · subst h; exact (show False from ho).elim
      · exact Or.inl h
    · intro a ha
      refine ⟨(hs.cache a ha).1, ?_⟩
      have := (hs.cache a ha).2
      cases o <;> first | exact this | exact (show False from ho).elim | simp [opened, this]
  case ended d c data hc =>
    refine real_of hs (nodup_sub List.filter_sublist hs.nodup) (from_sub List.filter_sublist) ⟨[_], rfl⟩ ?_ ?_ hs.cache
    · intro v hv hk h
      have := (List.mem_filter.mp hv).2
      simp only [ne_eq, decide_not, Bool.not_eq_true', decide_eq_false_iff_not] at this
      simp only [emit_log, out, h, Bool.and_true, bne_iff_ne, ne_eq]
      exact fun e => this e.symm
    · intro ipc c' k x d' h
      rcases List.mem_cons.mp h with h | h
      · cases h
      · exact Or.inl h
  case service k d c x hk hc =>
    obtain ⟨t, h1, h2, h3, _, h5, h⟩ := service_facts k d c x (emit (.req d c k x) s)
    rcases h with h | ⟨g, h⟩
    · rw [h] at hD
      exact real_request hs (Distinct.of (a := [_]) hD) [.askService d c] h5 h1 h2 h3 h (by simp [mild]) (service_cache k d c x (emit (.req d c k x) s))
    · rw [h] at hD
      exact real_request hs (Distinct.of (a := [_, _]) hD) [.askBranch d c g, .askService d c] h5 h1 h2 h3 h (by simp [mild]) (service_cache k d c x (emit (.req d c k x) s))
  case queue k d c x qm hk hc =>
    obtain ⟨t, h1, h2, h3, _, h5, a, h6, h⟩ := queue_facts k d c x qm (emit (.req d c k x) s)
    rw [h] at hD
    exact real_request hs hD.of a h5 h1 h2 h3 h (fun o ho => asking_mild (h6 o ho)) (queue_cache k d c x qm (emit (.req d c k x) s))
  case resource k d c x hk hc =>
    obtain ⟨t, h1, h2, h3, _, h5, a, h6, h⟩ := resource_facts k d c x (emit (.req d c k x) s)
    rw [h] at hD
    exact real_request hs hD.of a h5 h1 h2 h3 h (fun o ho => asking_mild (h6 o ho)) (resource_cache k d c x (emit (.req d c k x) s))
  case hangup pre t post ipc h hf hk =>
    refine real_of hs (nodup_removed h hs.nodup) (from_sub ?_) ⟨[_], rfl⟩ ?_ ?_ hs.cache
    · rw [h]; exact List.Sublist.append_left (List.sublist_cons_self ..) _
    · intro v hv hk ho
      have := (not_corr h hs.nodup hv).2
      simp [out, this, ho]
    · intro ipc c' k x d' h
      rcases List.mem_cons.mp h with h | h
      · cases h
      · exact Or.inl h
  case idleFwd pre t post ipc h hf hk ho =>
    refine real_fwd [.gotService t.corr (.idle ipc)] hs (t := t) (by rw [h]; simp) (nodup_change h rfl hs.nodup) (from_change h rfl rfl rfl (fun h => h.imp id (by simp))) rfl
      (by simp [mild]) ?_ fun x hx => Or.inl ⟨x, hx, rfl, rfl⟩
    intro v hv hq
    by_cases he : v ∈ pre ++ post
    · exact (not_corr h hs.nodup he).2.symm
    · have : v = { t with lookup := some (some ipc) } := by
        simp only [List.mem_append, List.mem_cons, not_or] at hv he
        rcases hv with hv | hv | hv
        · exact absurd hv he.1
        · exact hv
        · exact absurd hv he.2
      rw [this] at hq
      rcases hq with hq | hq
      · rw [show isQueue t.kind = false from service_not_queue hk] at hq; cases hq
      · cases hq
  case idleHold pre t post ipc h hf hk ho =>
    exact real_mild hs [.gotService t.corr (.idle ipc)] (nodup_change h rfl hs.nodup) (from_change h rfl rfl rfl (fun h => h.imp id (by simp))) rfl (by simp [mild])
      fun x hx => Or.inl ⟨x, hx, rfl, rfl⟩
  case noService t l r h hk hl =>
    rcases fake_log t.key t.corr (replyKind t.kind) r (emit (.gotService t.corr l) s) with e | e
    · exact real_mild hs [.gotService t.corr l] (by rw [fake_tasks]; exact hs.nodup) (by rw [fake_tasks]; exact from_sub (List.Sublist.refl _)) e (by simp [mild])
        (by rw [fake_cache]; exact fun x hx => Or.inl ⟨x, hx, rfl, rfl⟩)
    · exact real_mild hs [.fake t.key t.corr (replyKind t.kind) r, .gotService t.corr l] (by rw [fake_tasks]; exact hs.nodup)
        (by rw [fake_tasks]; exact from_sub (List.Sublist.refl _)) e (by simp [mild])
        (by rw [fake_cache]; exact fun x hx => Or.inl ⟨x, hx, rfl, rfl⟩)
  case queueHold pre t post p h hf hk hw =>
    exact real_mild hs [.gotQueue t.corr p] (nodup_change h rfl hs.nodup) (from_change h rfl rfl rfl (fun _ => Or.inl hk)) rfl (by simp [mild])
      fun x hx => Or.inl ⟨x, hx, rfl, rfl⟩
  case queueSend pre t post p h hf hk hw =>
    have hm : t ∈ s.tasks := by rw [h]; simp
    have hsub : (pre ++ post).Sublist s.tasks := by rw [h]; exact List.Sublist.append_left (List.sublist_cons_self ..) _
    obtain ⟨hc, e | ⟨c, k, d, r, e⟩ | ⟨ipc, e⟩⟩ := queueSend_cases p t (emit (.gotQueue t.corr p) s)
    · exact real_mild hs [.gotQueue t.corr p] (nodup_removed h hs.nodup) (from_sub hsub) e (by simp [mild])
        (by simp only [hc]; exact fun x hx => Or.inl ⟨x, hx, rfl, rfl⟩)
    · exact real_mild hs [.fake d c k r, .gotQueue t.corr p] (nodup_removed h hs.nodup) (from_sub hsub) e (by simp [mild])
        (by simp only [hc]; exact fun x hx => Or.inl ⟨x, hx, rfl, rfl⟩)
    · exact real_fwd [.gotQueue t.corr p] hs hm (nodup_removed h hs.nodup) (from_sub hsub) e (by simp [mild])
        (fun v hv _ => (not_corr h hs.nodup hv).2.symm) (by simp only [hc]; exact fun x hx => Or.inl ⟨x, hx, rfl, rfl⟩)
  case branchFwd pre t post ipc b h hf hk hl =>
    refine real_fwd [.gotBranch t.corr b] hs (t := t) (by rw [h]; simp) (nodup_change h rfl hs.nodup) (from_change h rfl rfl rfl id) rfl
      (by simp [mild]) ?_ (add_cache' (by simp [opened]))
    intro v hv hq
    by_cases he : v ∈ pre ++ post
    · exact (not_corr h hs.nodup he).2.symm
    · have : v = { t with trid := some b } := by
        simp only [List.mem_append, List.mem_cons, not_or] at hv he
        rcases hv with hv | hv | hv
        · exact absurd hv he.1
        · exact hv
        · exact absurd hv he.2
      rw [this] at hq
      rcases hq with hq | hq
      · rw [show isQueue t.kind = false from service_not_queue hk] at hq; cases hq
      · simp only [hl] at hq; cases hq
  case branchHold pre t post b h hf hk hl =>
    exact real_mild hs [.gotBranch t.corr b] (nodup_change h rfl hs.nodup) (from_change h rfl rfl rfl id) rfl (by simp [mild])
      (add_cache' (by simp [opened]))
  case branchQueueHold pre t post b h hf hk hl =>
    exact real_mild hs [.gotBranch t.corr b] (nodup_change h rfl hs.nodup) (from_change h rfl rfl rfl id) rfl (by simp [mild])
      (add_cache' (by simp [opened]))
  case branchQueueSend pre t post b p h hf hk hl =>
    have hm : t ∈ s.tasks := by rw [h]; simp
    have hsub : (pre ++ post).Sublist s.tasks := by rw [h]; exact List.Sublist.append_left (List.sublist_cons_self ..) _
    obtain ⟨hc, e | ⟨c, k, d, r, e⟩ | ⟨ipc, e⟩⟩ := queueSend_cases p { t with trid := some b, wait := false }
      { emit (.gotBranch t.corr b) s with cache := addTrid b t.key s.cache }
    · exact real_mild hs [.gotBranch t.corr b] (nodup_removed h hs.nodup) (from_sub hsub) e (by simp [mild])
        (by simp only [hc, e]; exact add_cache' (by simp [opened]))
    · exact real_mild hs [.fake d c k r, .gotBranch t.corr b] (nodup_removed h hs.nodup) (from_sub hsub) e (by simp [mild])
        (by simp only [hc, e]; exact add_cache' (by simp [opened]))
    · exact real_fwd (t := t) [.gotBranch t.corr b] hs hm (nodup_removed h hs.nodup) (from_sub hsub) e (by simp [mild])
        (fun v hv _ => (not_corr h hs.nodup hv).2.symm) (by simp only [hc, e]; exact add_cache' (by simp [opened]))
  case answered pre t post k r x ib g hg h hf hk he h1 h2 =>
    refine real_of hs (nodup_removed h hs.nodup) (from_sub ?_) ⟨_ :: g, rfl⟩ ?_ ?_ ?_
    · rw [h]; exact List.Sublist.append_left (List.sublist_cons_self ..) _
    · intro v hv _ ho
      have := (not_corr h hs.nodup hv).2
      have hl : out v.key v.corr v.kind (g ++ s.log) = true := by
        rcases hg with rfl | ⟨d', rfl⟩ <;> exact ho
      simp [out, this, hl]
    · intro ipc c' k x d' h
      rcases List.mem_cons.mp h with h | h
      · cases h
      · rcases hg with rfl | ⟨d', rfl⟩
        · exact Or.inl h
        · rcases List.mem_cons.mp h with h | h
          · cases h
          · exact Or.inl h
    · intro a ha
      refine ⟨(hs.cache a ha).1, ?_⟩
      rcases hg with rfl | ⟨d', rfl⟩ <;> exact (hs.cache a ha).2
  case pop i m hm hdf => exact ⟨hs.nodup, hs.asked, hs.fwds, hs.out, hs.queue, hs.cache⟩
  case made d c k r =>
    rcases fake_log d c (replyKind k) r s with e | e
    · exact real_mild hs [] (by rw [fake_tasks]; exact hs.nodup) (by rw [fake_tasks]; exact from_sub (List.Sublist.refl _)) e (by simp)
        (by rw [fake_cache]; exact fun x hx => Or.inl ⟨x, hx, rfl, rfl⟩)
    · exact real_mild hs [.fake d c (replyKind k) r] (by rw [fake_tasks]; exact hs.nodup) (by rw [fake_tasks]; exact from_sub (List.Sublist.refl _)) e (by simp [mild])
        (by rw [fake_cache]; exact fun x hx => Or.inl ⟨x, hx, rfl, rfl⟩)
  case disassociate g =>
    refine real_of hs hs.nodup (from_sub (List.Sublist.refl _)) ⟨[_], rfl⟩ (fun v hv _ h => h) ?_ ?_
    · intro ipc c' k x d' h
      rcases List.mem_cons.mp h with h | h
      · cases h
      · exact Or.inl h
    · intro a ha
      obtain ⟨h1, h2⟩ := List.mem_filter.mp ha
      refine ⟨(hs.cache a h1).1, ?_⟩
      simp only [ne_eq, decide_not, Bool.not_eq_true', decide_eq_false_iff_not] at h2
      simp only [emit_log, opened, (hs.cache a h1).2, Bool.and_true, bne_iff_ne, ne_eq]
      exact fun e => h2 e.symm

theorem real_run (es : List Event) (he : ∀ e ∈ es, sound e = true) (ha : (run es).dead = false)
    (hD : Distinct (run es).log) : Real (run es) :=
  inv_alive (P := fun s => Distinct s.log → Real s)
    (fun _ => ⟨List.nodup_nil, by simp, by simp, by simp, by simp, by simp⟩) real_move es he ha hD

end Casual.Gateway.In

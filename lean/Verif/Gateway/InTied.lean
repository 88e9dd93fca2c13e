import Verif.Gateway.InStage
/-! A connection that has taken part in a transaction is known to do so. -/
namespace Casual.Gateway.In

def isReq (d c : Nat) : Obs → Bool
  | .req d' c' _ _ => d' == d && c' == c
  | _ => false

/-- There has been a request on the connection with the correlation, and since the first of them the
connection has not been closed, and TM has not been done with the transaction. -/
def quiet (d c g : Nat) : List Obs → Bool
  | [] => false
  | .req d' c' _ _ :: l => quiet d c g l || (d' == d && c' == c && !l.any (isReq d c))
  | .disassociate g' :: l => g' != g && quiet d c g l
  | .closed d' :: l => d' != d && quiet d c g l
  | _ :: l => quiet d c g l

def Has (g d : Nat) (cs : List Assoc) : Prop := ∃ a ∈ cs, a.g = g ∧ d ∈ a.ds

theorem has_join {g d g' d' cs} (h : Has g d cs) : Has g d (join g' d' cs) := by
  obtain ⟨a, ha, h1, h2⟩ := h
  refine ⟨if a.g = g' then (if d' ∈ a.ds then a else { a with ds := a.ds ++ [d'] }) else a, List.mem_map.mpr ⟨a, ha, rfl⟩, ?_⟩
  split
  · split
    · exact ⟨h1, h2⟩
    · exact ⟨h1, List.mem_append_left _ h2⟩
  · exact ⟨h1, h2⟩

theorem has_joined {g d cs} {a : Assoc} (ha : a ∈ cs) (hg : a.g = g) : Has g d (join g d cs) := by
  refine ⟨if a.g = g then (if d ∈ a.ds then a else { a with ds := a.ds ++ [d] }) else a, List.mem_map.mpr ⟨a, ha, rfl⟩, ?_⟩
  rw [if_pos hg]
  split
  · exact ⟨hg, by assumption⟩
  · exact ⟨hg, by simp⟩

theorem has_add {g d} {t : Trid} {d' cs} (h : Has g d cs) : Has g d (addTrid t d' cs) := by
  unfold addTrid; split
  · exact has_join h
  · obtain ⟨a, ha, h⟩ := h; exact ⟨a, List.mem_append_left _ ha, h⟩

theorem has_added {t : Trid} {d cs} : Has t.g d (addTrid t d cs) := by
  unfold addTrid; split
  · rename_i h
    simp only [List.any_eq_true, beq_iff_eq] at h
    obtain ⟨a, ha, hg⟩ := h
    exact has_joined ha hg
  · exact ⟨⟨t.g, t, [d]⟩, by simp, rfl, by simp⟩

theorem has_failed {g d d' cs} (h : Has g d cs) (hd : d ≠ d') : Has g d (failedTrids d' cs) := by
  obtain ⟨a, ha, h1, h2⟩ := h
  have hm : d ∈ a.ds.filter (· ≠ d') := List.mem_filter.mpr ⟨h2, by simpa using hd⟩
  refine ⟨{ a with ds := a.ds.filter (· ≠ d') }, List.mem_filter.mpr ⟨List.mem_map.mpr ⟨a, ha, rfl⟩, ?_⟩, h1, hm⟩
  simp only [Bool.not_eq_true', List.isEmpty_eq_false_iff]
  exact List.ne_nil_of_mem hm

theorem has_removed {g d g' cs} (h : Has g d cs) (hg : g ≠ g') : Has g d (removeTrid g' cs) := by
  obtain ⟨a, ha, h1, h2⟩ := h
  exact ⟨a, List.mem_filter.mpr ⟨ha, by simp [h1, hg]⟩, h1, h2⟩

/-- Neither a request nor an end. -/
def calm : Obs → Bool
  | .req .. | .disassociate _ | .closed _ => false
  | _ => true

theorem quiet_calm {d c g o l} (h : calm o = true) : quiet d c g (o :: l) = quiet d c g l := by
  cases o <;> first | rfl | (cases h; done)

theorem quiet_calms {d c g a l} (h : ∀ o ∈ a, calm o = true) : quiet d c g (a ++ l) = quiet d c g l := by
  induction a with
  | nil => rfl
  | cons o a ih =>
    rw [List.cons_append, quiet_calm (h o (List.mem_cons_self ..))]
    exact ih fun o ho => h o (List.mem_cons_of_mem _ ho)

theorem quiet_req {d c g d' c' k x l} (h : quiet d c g (.req d' c' k x :: l) = true) (hr : ∃ k x, .req d c k x ∈ l) :
    quiet d c g l = true := by
  simp only [quiet, Bool.or_eq_true, Bool.and_eq_true, Bool.not_eq_true', List.any_eq_false] at h
  rcases h with h | h
  · exact h
  · obtain ⟨k, x, hr⟩ := hr
    exact absurd (by simp [isReq]) (h.2 _ hr)

/-- The request may go on to the local domain. -/
def Ready (t : Task) : Prop :=
  (isService t.kind = true ∧ (t.origin = none ∨ t.origin ≠ t.trid)) ∨ (isQueue t.kind = true ∧ t.wait = false)

structure Tied (s : State) : Prop where
  asked : ∀ t ∈ s.tasks, ∃ k x, .req t.key t.corr k x ∈ s.log
  fwds : ∀ ipc c k x d, .fwd ipc c k x d ∈ s.log → ∃ k x, .req d c k x ∈ s.log
  cg : ∀ a ∈ s.cache, a.trid.g = a.g
  tasks : ∀ t ∈ s.tasks, Ready t → ∀ b, t.trid = some b → quiet t.key t.corr b.g s.log = true → Has b.g t.key s.cache
  logs : ∀ ipc c k b d, .fwd ipc c k (some b) d ∈ s.log → quiet d c b.g s.log = true → Has b.g d s.cache

/-- The shape of a move: what is new in the log, and where tasks come from. -/
structure Shape (s t : State) : Prop where
  cg : (∀ a ∈ s.cache, a.trid.g = a.g) → ∀ a ∈ t.cache, a.trid.g = a.g
  quiet : ∀ d c g, (∃ k x, .req d c k x ∈ s.log) → quiet d c g t.log = true → quiet d c g s.log = true ∧ (Has g d s.cache → Has g d t.cache)
  asked : ∀ v ∈ t.tasks, (∃ u ∈ s.tasks, u.key = v.key ∧ u.corr = v.corr) ∨ ∃ k x, .req v.key v.corr k x ∈ t.log
  fwd : ∀ ipc c k x d, .fwd ipc c k x d ∈ t.log → .fwd ipc c k x d ∈ s.log ∨ ∃ u ∈ s.tasks, u.key = d ∧ u.corr = c ∧
    ((x = u.trid ∧ Ready u) ∨ ∃ b, x = some b ∧ Has b.g d t.cache)
  task : (∀ a ∈ s.cache, a.trid.g = a.g) → ∀ v ∈ t.tasks, Ready v → ∀ b, v.trid = some b →
    (∃ u ∈ s.tasks, u.key = v.key ∧ u.corr = v.corr ∧ u.trid = v.trid ∧ Ready u) ∨ Has b.g v.key t.cache

theorem tied_shape {s t : State} (h : Shape s t) (hg : ∃ a, t.log = a ++ s.log) (hs : Tied s) : Tied t := by
  have hm : ∀ o ∈ s.log, o ∈ t.log := by
    obtain ⟨a, e⟩ := hg; intro o ho; rw [e]; exact List.mem_append_right _ ho
  refine ⟨?_, ?_, h.cg hs.cg, ?_, ?_⟩
  · intro v hv
    rcases h.asked v hv with ⟨u, hu, e1, e2⟩ | hr
    · obtain ⟨k, x, hr⟩ := hs.asked u hu
      rw [e1, e2] at hr; exact ⟨k, x, hm _ hr⟩
    · exact hr
  · intro ipc c k x d hf
    rcases h.fwd ipc c k x d hf with hf | ⟨u, hu, rfl, rfl, _⟩
    · obtain ⟨k, x, hr⟩ := hs.fwds _ _ _ _ _ hf; exact ⟨k, x, hm _ hr⟩
    · obtain ⟨k, x, hr⟩ := hs.asked u hu; exact ⟨k, x, hm _ hr⟩
  · intro v hv hr b hb hq
    rcases h.task hs.cg v hv hr b hb with ⟨u, hu, e1, e2, e3, h4⟩ | hh
    · have hq' := h.quiet _ _ _ (by rw [← e1, ← e2]; exact hs.asked u hu) hq
      refine hq'.2 ?_
      have := hs.tasks u hu h4 b (by rw [e3]; exact hb)
      rw [e1, e2] at this
      exact this hq'.1
    · exact hh
  · intro ipc c k b d hf hq
    rcases h.fwd ipc c k _ d hf with hf | ⟨u, hu, rfl, rfl, ⟨e, h4⟩ | ⟨b', e, hh⟩⟩
    · have hq' := h.quiet _ _ _ (hs.fwds _ _ _ _ _ hf) hq
      exact hq'.2 (hs.logs ipc c k b d hf hq'.1)
    · have hq' := h.quiet _ _ _ (hs.asked u hu) hq
      exact hq'.2 (hs.tasks u hu h4 b e.symm hq'.1)
    · simp only [Option.some.injEq] at e; rw [e]; exact hh

/-- Nothing but calm observations, with no request passed on; fewer tasks. -/
theorem shape_calm {s t : State} (a : List Obs) (hl : t.log = a ++ s.log) (ha : ∀ o ∈ a, calm o = true ∧ ∀ i c k x d, o ≠ .fwd i c k x d)
    (hc : t.cache = s.cache) (ht : ∀ v ∈ t.tasks, v ∈ s.tasks) : Shape s t where
  cg := by rw [hc]; exact id
  quiet := fun d c g _ hq => by
    rw [hl, quiet_calms fun o ho => (ha o ho).1] at hq
    exact ⟨hq, by rw [hc]; exact id⟩
  asked := fun v hv => Or.inl ⟨v, ht v hv, rfl, rfl⟩
  fwd := fun ipc c k x d hf => by
    rw [hl] at hf
    rcases List.mem_append.mp hf with hf | hf
    · exact absurd rfl ((ha _ hf).2 ipc c k x d)
    · exact Or.inl hf
  task := fun _ v hv hr b _ => Or.inl ⟨v, ht v hv, rfl, rfl, rfl, hr⟩

/-- A request. -/
theorem shape_request {s t : State} {d c k x} {u : Task} (a : List Obs) (hl : t.log = a ++ .req d c k x :: s.log)
    (ha : ∀ o ∈ a, calm o = true ∧ ∀ i c k x d, o ≠ .fwd i c k x d)
    (ht : t.tasks = s.tasks ++ [u]) (h1 : u.key = d) (h2 : u.corr = c)
    (hc : (∀ a ∈ t.cache, ∃ b ∈ s.cache, a.g = b.g ∧ a.trid = b.trid) ∧ ∀ g d, Has g d s.cache → Has g d t.cache)
    (hu : (∀ a ∈ s.cache, a.trid.g = a.g) → Ready u → ∀ b, u.trid = some b → Has b.g d t.cache) : Shape s t where
  cg := fun h a ha => by
    obtain ⟨b, hb, e1, e2⟩ := hc.1 a ha
    rw [e1, e2]; exact h b hb
  quiet := fun d' c' g hr hq => by
    rw [hl, quiet_calms fun o ho => (ha o ho).1] at hq
    exact ⟨quiet_req hq hr, hc.2 g d'⟩
  asked := fun v hv => by
    rw [ht] at hv
    rcases List.mem_append.mp hv with hv | hv
    · exact Or.inl ⟨v, hv, rfl, rfl⟩
    · rw [List.mem_singleton.mp hv, h1, h2, hl]
      exact Or.inr ⟨k, x, by simp⟩
  fwd := fun ipc c' k' x' d' hf => by
    rw [hl] at hf
    rcases List.mem_append.mp hf with hf | hf
    · exact absurd rfl ((ha _ hf).2 ipc c' k' x' d')
    · rcases List.mem_cons.mp hf with hf | hf
      · cases hf
      · exact Or.inl hf
  task := fun hcg v hv hr b hb => by
    rw [ht] at hv
    rcases List.mem_append.mp hv with hv | hv
    · exact Or.inl ⟨v, hv, rfl, rfl, rfl, hr⟩
    · have e := List.mem_singleton.mp hv
      subst e
      rw [h1]; exact Or.inr (hu hcg hr b hb)

theorem same_cache (cs : List Assoc) : (∀ a ∈ cs, ∃ b ∈ cs, a.g = b.g ∧ a.trid = b.trid) ∧ ∀ g d, Has g d cs → Has g d cs :=
  ⟨fun a ha => ⟨a, ha, rfl, rfl⟩, fun _ _ => id⟩

theorem join_cache (g d : Nat) (cs : List Assoc) :
    (∀ a ∈ join g d cs, ∃ b ∈ cs, a.g = b.g ∧ a.trid = b.trid) ∧ ∀ g' d', Has g' d' cs → Has g' d' (join g d cs) := by
  refine ⟨fun a ha => ?_, fun _ _ => has_join⟩
  obtain ⟨b, hb, e1, e2, _⟩ := join_mem ha
  exact ⟨b, hb, e1, e2⟩

theorem shape_service {s : State} {k d c x} (hk : isService k = true) : Shape s (serviceRequest k d c x (emit (.req d c k x) s)) := by
  unfold serviceRequest; dsimp only; split
  · refine shape_request [.askService d c] rfl (by simp [calm]) rfl rfl rfl (same_cache _) ?_
    intro _ _ b hb; cases hb
  · rename_i x
    split
    · rename_i t ht
      refine shape_request [.askService d c] rfl (by simp [calm]) rfl rfl rfl (join_cache x.g d s.cache) ?_
      intro hcg _ b hb
      simp only [Option.some.injEq] at hb
      obtain ⟨a, ha, e1, e2⟩ := find_some ht
      have : b.g = x.g := by rw [← hb, ← e2, hcg a ha]; exact e1
      rw [this]; exact has_joined ha e1
    · refine shape_request [.askBranch d c x.g, .askService d c] rfl (by simp [calm]) rfl rfl rfl (same_cache _) ?_
      rintro _ (⟨_, h | h⟩ | ⟨h, _⟩)
      · cases h
      · exact absurd rfl h
      · have := hk; cases k <;> first | (cases h; done) | (cases this; done)

theorem shape_queue {s : State} {k d c x qm} (hk : isQueue k = true) : Shape s (queueRequest k d c x qm (emit (.req d c k x) s)) := by
  have cached : ∀ {x t : Trid} {a b : _}, find x.g s.cache = some t → (∀ a ∈ s.cache, a.trid.g = a.g) → (a : Trid) = b → some t = some a →
      Has b.g d (join x.g d s.cache) := by
    intro x t a b ht hcg hab hb
    simp only [Option.some.injEq] at hb
    obtain ⟨a, ha, e1, e2⟩ := find_some ht
    have : b.g = x.g := by rw [← hab, ← hb, ← e2, hcg a ha]; exact e1
    rw [this]; exact has_joined ha e1
  have waits : ∀ {b : Trid} {x : Trid} {P : Prop}, Ready { key := d, corr := c, kind := k, origin := some x, trid := some x, wait := true } → P := by
    rintro b x P (⟨h, _⟩ | ⟨_, h⟩)
    · exfalso; have := hk; cases k <;> first | (cases h; done) | (cases this; done)
    · cases h
  unfold queueRequest; dsimp only
  cases qm <;> simp only [if_true, Bool.false_eq_true, if_false]
  · split
    · exact shape_request [] rfl (by simp) rfl rfl rfl (same_cache _) fun _ _ b hb => by cases hb
    · rename_i x
      split
      · rename_i t ht
        exact shape_request [] rfl (by simp) rfl rfl rfl (join_cache x.g d s.cache) fun hcg _ b hb => cached ht hcg rfl hb
      · exact shape_request [.askBranch d c x.g] rfl (by simp [calm]) rfl rfl rfl (same_cache _) fun _ h b _ => waits (b := b) h
  · split
    · exact shape_request [.askQueue d c] rfl (by simp [calm]) rfl rfl rfl (same_cache _) fun _ _ b hb => by cases hb
    · rename_i x
      split
      · rename_i t ht
        exact shape_request [.askQueue d c] rfl (by simp [calm]) rfl rfl rfl (join_cache x.g d s.cache) fun hcg _ b hb => cached ht hcg rfl hb
      · exact shape_request [.askBranch d c x.g, .askQueue d c] rfl (by simp [calm]) rfl rfl rfl (same_cache _) fun _ h b _ => waits (b := b) h

theorem shape_resource {s : State} {k d c x} (hk : isResource k = true) : Shape s (resourceRequest k d c x (emit (.req d c k x) s)) := by
  have no : ∀ {o t : Option Trid} {P : Prop}, Ready { key := d, corr := c, kind := k, origin := o, trid := t } → P := by
    rintro o t P (⟨h, _⟩ | ⟨h, _⟩) <;> (exfalso; have := hk; cases k <;> first | (cases h; done) | (cases this; done))
  unfold resourceRequest; split
  · rename_i t _
    exact shape_request [.toTM c k t d] rfl (by simp [calm]) rfl rfl rfl (same_cache _) fun _ h b _ => no h
  · rcases fake_log d c k ⟨protocolError, 0⟩ (emit (.req d c k x) s) with h | h
    · refine shape_request [] h (by simp) (by rw [add_tasks, fake_tasks]; rfl) rfl rfl ?_ fun _ h b _ => no h
      rw [add_cache, fake_cache]; exact same_cache _
    · refine shape_request [.fake d c k ⟨protocolError, 0⟩] h (by simp [calm]) (by rw [add_tasks, fake_tasks]; rfl) rfl rfl ?_ fun _ h b _ => no h
      rw [add_cache, fake_cache]; exact same_cache _

theorem addTrid_cg {b : Trid} {d cs} (h : ∀ a ∈ cs, a.trid.g = a.g) : ∀ a ∈ addTrid b d cs, a.trid.g = a.g := by
  intro a ha
  rcases addTrid_mem ha with ⟨c, hc, e1, e2, _⟩ | rfl
  · rw [e1, e2]; exact h c hc
  · rfl

theorem queueSend_cases (p t s) : (queueSend p t s).cache = s.cache ∧ ((queueSend p t s).log = s.log ∨
    (∃ c k d r, (queueSend p t s).log = .fake d c k r :: s.log) ∨
    ∃ ipc, (queueSend p t s).log = .fwd ipc t.corr t.kind t.trid t.key :: s.log) := by
  refine ⟨queueSend_cache .., ?_⟩
  unfold queueSend; split
  · rcases fake_log t.key t.corr t.kind ⟨0, 0⟩ s with h | h
    · exact Or.inl h
    · exact Or.inr (Or.inl ⟨_, _, _, _, h⟩)
  · exact Or.inr (Or.inr ⟨_, rfl⟩)

theorem shape_move {s t : State} (h : Move s t) (hd : t.dead = false) : Shape s t := by
  cases h
  case push d _ => exact shape_calm [.closing d] rfl (by simp [calm]) rfl fun _ h => h
  case same h1 h2 h3 h4 h5 h6 _ => exact shape_calm [] h5 (by simp) h3 (by rw [h2]; exact fun _ h => h)
  case die h => rw [h] at hd; cases hd
  case connect d m hc => exact shape_calm [.connected d] rfl (by simp [calm]) rfl fun _ h => h
  case lost d hc =>
    rw [lost_eq hc]
    have hdis : ∀ o ∈ (discards (s.tasks.filter (·.key = d))).reverse, calm o = true ∧ ∀ i c k x d, o ≠ .fwd i c k x d := by
      intro o ho
      rw [List.mem_reverse] at ho
      obtain ⟨t, _, rfl⟩ := List.mem_map.mp ho
      exact ⟨rfl, by simp⟩
    refine ⟨?_, ?_, ?_, ?_, ?_⟩
    · intro h a ha
      obtain ⟨b, hb, e1, e2, _⟩ := failedTrids_mem ha
      rw [e1, e2]; exact h b hb
    · intro d' c g _ hq
      simp only at hq
      rw [quiet_calms fun o ho => (hdis o ho).1] at hq
      simp only [quiet, Bool.and_eq_true, bne_iff_ne, ne_eq] at hq
      exact ⟨hq.2, fun h => has_failed h (fun e => hq.1 e.symm)⟩
    · intro v hv; exact Or.inl ⟨v, (List.mem_filter.mp hv).1, rfl, rfl⟩
    · intro ipc c k x d' hf
      rcases List.mem_append.mp hf with hf | hf
      · exact absurd rfl ((hdis _ hf).2 ipc c k x d')
      · rcases List.mem_cons.mp hf with hf | hf
        · cases hf
        · exact Or.inl hf
    · intro _ v hv hr b _; exact Or.inl ⟨v, (List.mem_filter.mp hv).1, rfl, rfl, rfl, hr⟩
  case note o ho =>
    by_cases hr : ∃ d c k x, o = .req d c k x
    · obtain ⟨d, c, k, x, rfl⟩ := hr
      refine ⟨id, fun d' c' g h hq => ⟨quiet_req hq h, id⟩, fun v hv => Or.inl ⟨v, hv, rfl, rfl⟩, ?_,
        fun _ v hv hr b _ => Or.inl ⟨v, hv, rfl, rfl, rfl, hr⟩⟩
      intro ipc c' k' x' d' hf
      rcases List.mem_cons.mp hf with hf | hf
      · cases hf
      · exact Or.inl hf
    · refine shape_calm [o] rfl ?_ rfl fun _ h => h
      intro o' ho'
      rw [List.mem_singleton.mp ho']
      cases o <;> first | exact (show False from ho).elim | exact absurd ⟨_, _, _, _, rfl⟩ hr | exact ⟨rfl, by simp⟩
  case ended d c data hc => exact shape_calm [.toRemote d c data true] rfl (by simp [calm]) rfl fun v hv => (List.mem_filter.mp hv).1
  case service k d c x hk hc => exact shape_service hk
  case queue k d c x qm hk hc => exact shape_queue hk
  case resource k d c x hk hc => exact shape_resource hk
  case hangup pre t post ipc h hf hk =>
    refine shape_calm [.hangup ipc t.corr] rfl (by simp [calm]) rfl fun v hv => ?_
    rw [h]; simp only [List.mem_append, List.mem_cons] at hv ⊢
    rcases hv with h | h <;> simp [h]
  case idleFwd pre t post ipc h hf hk ho =>
    have hm : t ∈ s.tasks := by rw [h]; simp
    refine ⟨id, fun d c g _ hq => ⟨hq, id⟩, ?_, ?_, ?_⟩
    · intro v hv
      simp only [List.mem_append, List.mem_cons] at hv
      rcases hv with hv | rfl | hv
      · exact Or.inl ⟨v, by rw [h]; simp [hv], rfl, rfl⟩
      · exact Or.inl ⟨t, hm, rfl, rfl⟩
      · exact Or.inl ⟨v, by rw [h]; simp [hv], rfl, rfl⟩
    · intro ipc' c k x d hf
      simp only [emit_log, List.mem_cons] at hf
      rcases hf with hf | hf | hf
      · simp only [Obs.fwd.injEq] at hf
        obtain ⟨_, rfl, rfl, rfl, rfl⟩ := hf
        exact Or.inr ⟨t, hm, rfl, rfl, Or.inl ⟨rfl, Or.inl ⟨hk, ho⟩⟩⟩
      · cases hf
      · exact Or.inl hf
    · intro _ v hv hr b _
      simp only [List.mem_append, List.mem_cons] at hv
      rcases hv with hv | rfl | hv
      · exact Or.inl ⟨v, by rw [h]; simp [hv], rfl, rfl, rfl, hr⟩
      · exact Or.inl ⟨t, hm, rfl, rfl, rfl, hr⟩
      · exact Or.inl ⟨v, by rw [h]; simp [hv], rfl, rfl, rfl, hr⟩
  case idleHold pre t post ipc h hf hk ho =>
    have hm : t ∈ s.tasks := by rw [h]; simp
    refine ⟨id, fun d c g _ hq => ⟨hq, id⟩, ?_, ?_, ?_⟩
    · intro v hv
      simp only [List.mem_append, List.mem_cons] at hv
      rcases hv with hv | rfl | hv
      · exact Or.inl ⟨v, by rw [h]; simp [hv], rfl, rfl⟩
      · exact Or.inl ⟨t, hm, rfl, rfl⟩
      · exact Or.inl ⟨v, by rw [h]; simp [hv], rfl, rfl⟩
    · intro ipc' c k x d hf
      simp only [emit_log, List.mem_cons] at hf
      rcases hf with hf | hf
      · cases hf
      · exact Or.inl hf
    · intro _ v hv hr b _
      simp only [List.mem_append, List.mem_cons] at hv
      rcases hv with hv | rfl | hv
      · exact Or.inl ⟨v, by rw [h]; simp [hv], rfl, rfl, rfl, hr⟩
      · exact Or.inl ⟨t, hm, rfl, rfl, rfl, hr⟩
      · exact Or.inl ⟨v, by rw [h]; simp [hv], rfl, rfl, rfl, hr⟩
  case noService t l r h hk hl =>
    rcases fake_log t.key t.corr (replyKind t.kind) r (emit (.gotService t.corr l) s) with e | e
    · exact shape_calm [.gotService t.corr l] e (by simp [calm]) (fake_cache ..) (by rw [fake_tasks]; exact fun _ h => h)
    · exact shape_calm [.fake t.key t.corr (replyKind t.kind) r, .gotService t.corr l] e (by simp [calm]) (fake_cache ..) (by rw [fake_tasks]; exact fun _ h => h)
  case queueHold pre t post p h hf hk hw =>
    have hm : t ∈ s.tasks := by rw [h]; simp
    refine ⟨id, fun d c g _ hq => ⟨hq, id⟩, ?_, ?_, ?_⟩
    · intro v hv
      simp only [List.mem_append, List.mem_cons] at hv
      rcases hv with hv | rfl | hv
      · exact Or.inl ⟨v, by rw [h]; simp [hv], rfl, rfl⟩
      · exact Or.inl ⟨t, hm, rfl, rfl⟩
      · exact Or.inl ⟨v, by rw [h]; simp [hv], rfl, rfl⟩
    · intro ipc' c k x d hf
      simp only [emit_log, List.mem_cons] at hf
      rcases hf with hf | hf
      · cases hf
      · exact Or.inl hf
    · intro _ v hv hr b _
      simp only [List.mem_append, List.mem_cons] at hv
      rcases hv with hv | rfl | hv
      · exact Or.inl ⟨v, by rw [h]; simp [hv], rfl, rfl, rfl, hr⟩
      · exact Or.inl ⟨t, hm, rfl, rfl, rfl, hr⟩
      · exact Or.inl ⟨v, by rw [h]; simp [hv], rfl, rfl, rfl, hr⟩
  case queueSend pre t post p h hf hk hw =>
    have hm : t ∈ s.tasks := by rw [h]; simp
    have hsub : ∀ v ∈ pre ++ post, v ∈ s.tasks := by
      intro v hv; rw [h]; simp only [List.mem_append, List.mem_cons] at hv ⊢
      rcases hv with h | h <;> simp [h]
    obtain ⟨hc, e | ⟨c, k, d, r, e⟩ | ⟨ipc, e⟩⟩ := queueSend_cases p t (emit (.gotQueue t.corr p) s)
    · exact shape_calm [.gotQueue t.corr p] e (by simp [calm]) hc hsub
    · exact shape_calm [.fake d c k r, .gotQueue t.corr p] e (by simp [calm]) hc hsub
    · refine ⟨by simp only [hc]; exact id, ?_, fun v hv => Or.inl ⟨v, hsub v hv, rfl, rfl⟩, ?_,
        fun _ v hv hr b _ => Or.inl ⟨v, hsub v hv, rfl, rfl, rfl, hr⟩⟩
      · intro d c g _ hq
        simp only [e, hc] at hq ⊢
        exact ⟨hq, id⟩
      · intro ipc' c k x d hf
        simp only [e, emit_log, List.mem_cons] at hf
        rcases hf with hf | hf | hf
        · simp only [Obs.fwd.injEq] at hf
          obtain ⟨_, rfl, rfl, rfl, rfl⟩ := hf
          exact Or.inr ⟨t, hm, rfl, rfl, Or.inl ⟨rfl, Or.inr ⟨hk, hw⟩⟩⟩
        · cases hf
        · exact Or.inl hf
  case branchFwd pre t post ipc b h hf hk hl =>
    have hm : t ∈ s.tasks := by rw [h]; simp
    refine ⟨addTrid_cg, fun d c g _ hq => ⟨hq, has_add⟩, ?_, ?_, ?_⟩
    · intro v hv
      simp only [List.mem_append, List.mem_cons] at hv
      rcases hv with hv | rfl | hv
      · exact Or.inl ⟨v, by rw [h]; simp [hv], rfl, rfl⟩
      · exact Or.inl ⟨t, hm, rfl, rfl⟩
      · exact Or.inl ⟨v, by rw [h]; simp [hv], rfl, rfl⟩
    · intro ipc' c k x d hf
      simp only [emit_log, List.mem_cons] at hf
      rcases hf with hf | hf | hf
      · simp only [Obs.fwd.injEq] at hf
        obtain ⟨_, rfl, rfl, rfl, rfl⟩ := hf
        exact Or.inr ⟨t, hm, rfl, rfl, Or.inr ⟨b, rfl, has_added⟩⟩
      · cases hf
      · exact Or.inl hf
    · intro _ v hv hr b' hb'
      simp only [List.mem_append, List.mem_cons] at hv
      rcases hv with hv | rfl | hv
      · exact Or.inl ⟨v, by rw [h]; simp [hv], rfl, rfl, rfl, hr⟩
      · simp only [Option.some.injEq] at hb'
        rw [← hb']; exact Or.inr has_added
      · exact Or.inl ⟨v, by rw [h]; simp [hv], rfl, rfl, rfl, hr⟩
  case branchHold pre t post b h hf hk hl =>
    have hm : t ∈ s.tasks := by rw [h]; simp
    refine ⟨addTrid_cg, fun d c g _ hq => ⟨hq, has_add⟩, ?_, ?_, ?_⟩
    · intro v hv
      simp only [List.mem_append, List.mem_cons] at hv
      rcases hv with hv | rfl | hv
      · exact Or.inl ⟨v, by rw [h]; simp [hv], rfl, rfl⟩
      · exact Or.inl ⟨t, hm, rfl, rfl⟩
      · exact Or.inl ⟨v, by rw [h]; simp [hv], rfl, rfl⟩
    · intro ipc' c k x d hf
      simp only [emit_log, List.mem_cons] at hf
      rcases hf with hf | hf
      · cases hf
      · exact Or.inl hf
    · intro _ v hv hr b' hb'
      simp only [List.mem_append, List.mem_cons] at hv
      rcases hv with hv | rfl | hv
      · exact Or.inl ⟨v, by rw [h]; simp [hv], rfl, rfl, rfl, hr⟩
      · simp only [Option.some.injEq] at hb'
        rw [← hb']; exact Or.inr has_added
      · exact Or.inl ⟨v, by rw [h]; simp [hv], rfl, rfl, rfl, hr⟩
  case branchQueueHold pre t post b h hf hk hl =>
    have hm : t ∈ s.tasks := by rw [h]; simp
    refine ⟨addTrid_cg, fun d c g _ hq => ⟨hq, has_add⟩, ?_, ?_, ?_⟩
    · intro v hv
      simp only [List.mem_append, List.mem_cons] at hv
      rcases hv with hv | rfl | hv
      · exact Or.inl ⟨v, by rw [h]; simp [hv], rfl, rfl⟩
      · exact Or.inl ⟨t, hm, rfl, rfl⟩
      · exact Or.inl ⟨v, by rw [h]; simp [hv], rfl, rfl⟩
    · intro ipc' c k x d hf
      simp only [emit_log, List.mem_cons] at hf
      rcases hf with hf | hf
      · cases hf
      · exact Or.inl hf
    · intro _ v hv hr b' hb'
      simp only [List.mem_append, List.mem_cons] at hv
      rcases hv with hv | rfl | hv
      · exact Or.inl ⟨v, by rw [h]; simp [hv], rfl, rfl, rfl, hr⟩
      · simp only [Option.some.injEq] at hb'
        rw [← hb']; exact Or.inr has_added
      · exact Or.inl ⟨v, by rw [h]; simp [hv], rfl, rfl, rfl, hr⟩
  case branchQueueSend pre t post b p h hf hk hl =>
    have hm : t ∈ s.tasks := by rw [h]; simp
    have hsub : ∀ v ∈ pre ++ post, v ∈ s.tasks := by
      intro v hv; rw [h]; simp only [List.mem_append, List.mem_cons] at hv ⊢
      rcases hv with h | h <;> simp [h]
    obtain ⟨hc, hlog⟩ := queueSend_cases p { t with trid := some b, wait := false }
      { emit (.gotBranch t.corr b) s with cache := addTrid b t.key s.cache }
    refine ⟨by simp only [hc]; exact addTrid_cg, ?_, fun v hv => Or.inl ⟨v, hsub v hv, rfl, rfl⟩, ?_,
      fun _ v hv hr b _ => Or.inl ⟨v, hsub v hv, rfl, rfl, rfl, hr⟩⟩
    · intro d c g _ hq
      simp only [hc] at hq ⊢
      refine ⟨?_, has_add⟩
      rcases hlog with e | ⟨c, k, d, r, e⟩ | ⟨ipc, e⟩ <;> rw [e] at hq <;> exact hq
    · intro ipc' c k x d hf
      simp only [hc] at hf ⊢
      rcases hlog with e | ⟨c', k', d', r, e⟩ | ⟨ipc, e⟩ <;> rw [e] at hf <;> simp only [emit_log, List.mem_cons] at hf
      · rcases hf with hf | hf
        · cases hf
        · exact Or.inl hf
      · rcases hf with hf | hf | hf
        · cases hf
        · cases hf
        · exact Or.inl hf
      · rcases hf with hf | hf | hf
        · simp only [Obs.fwd.injEq] at hf
          obtain ⟨_, rfl, rfl, rfl, rfl⟩ := hf
          exact Or.inr ⟨t, hm, rfl, rfl, Or.inr ⟨b, rfl, has_added⟩⟩
        · cases hf
        · exact Or.inl hf
  case answered pre t post k r x ib g hg h hf hk he h1 h2 =>
    refine shape_calm (.sent t.key t.corr k r x :: g) rfl ?_ rfl fun v hv => ?_
    · rcases hg with rfl | ⟨d', rfl⟩ <;> simp [calm]
    · rw [h]; simp only [List.mem_append, List.mem_cons] at hv ⊢
      rcases hv with h | h <;> simp [h]
  case pop i m hm hdf => exact shape_calm [] rfl (by simp) rfl fun _ h => h
  case made d c k r =>
    rcases fake_log d c (replyKind k) r s with e | e
    · exact shape_calm [] e (by simp) (fake_cache ..) (by rw [fake_tasks]; exact fun _ h => h)
    · exact shape_calm [.fake d c (replyKind k) r] e (by simp [calm]) (fake_cache ..) (by rw [fake_tasks]; exact fun _ h => h)
  case disassociate g =>
    refine ⟨?_, ?_, fun v hv => Or.inl ⟨v, hv, rfl, rfl⟩, ?_, fun _ v hv hr b _ => Or.inl ⟨v, hv, rfl, rfl, rfl, hr⟩⟩
    · intro h a ha; exact h a (List.mem_filter.mp ha).1
    · intro d c g' _ hq
      simp only [emit_log, quiet, Bool.and_eq_true, bne_iff_ne, ne_eq] at hq
      exact ⟨hq.2, fun h => has_removed h (fun e => hq.1 e.symm)⟩
    · intro ipc c k x d hf
      rcases List.mem_cons.mp hf with hf | hf
      · cases hf
      · exact Or.inl hf

theorem tied_run (es : List Event) (he : ∀ e ∈ es, sound e = true) (ha : (run es).dead = false) : Tied (run es) :=
  inv_alive ⟨by simp, by simp, by simp, by simp, by simp⟩ (fun _ _ h hd hs => tied_shape (shape_move h hd) (grows h hd) hs) es he ha

end Casual.Gateway.In

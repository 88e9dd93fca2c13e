import Verif.Gateway.InMove
/-! Requests that are not answered are not forgotten, and neither are lookups. -/
namespace Casual.Gateway.In

/-- Kinds of requests that are kept until they are answered. -/
def keeps (k : Kind) : Bool := isService k || isResource k

/-- The request with the correlation has come on the connection, and since then: it has not been
answered, the connection has not been closed, and no message with the correlation has ended a
conversation. (The log is newest first.) -/
def out (d c : Nat) (k : Kind) : List Obs → Bool
  | [] => false
  | .req d' c' k' _ :: l => (d' == d && c' == c && k' == k) || out d c k l
  | .sent d' c' k' _ _ :: l => !(d' == d && c' == c && k' == replyKind k && k != .conv) && out d c k l
  | .closed d' :: l => d' != d && out d c k l
  | .toRemote _ c' _ true :: l => c' != c && out d c k l
  | .hangup _ c' :: l => !(c' == c && k == .conv) && out d c k l
  | _ :: l => out d c k l

/-- The service of the request has been asked for, and since then: it has not been found, the lookup
has not been discarded, and the request has not ended. -/
def needs (d c : Nat) : List Obs → Bool
  | [] => false
  | .askService d' c' :: l => (d' == d && c' == c) || needs d c l
  | .discard c' :: l => c' != c && needs d c l
  | .gotService c' (.idle _) :: l => c' != c && needs d c l
  | .sent d' c' .call _ _ :: l => !(d' == d && c' == c) && needs d c l
  | .toRemote _ c' _ true :: l => c' != c && needs d c l
  | .hangup _ c' :: l => c' != c && needs d c l
  | _ :: l => needs d c l

def Kept (s : State) : Prop :=
  ∀ d c k, keeps k = true → out d c k s.log = true → ∃ t ∈ s.tasks, t.key = d ∧ t.corr = c ∧ t.kind = k

def Needed (s : State) : Prop :=
  ∀ d c, needs d c s.log = true → ∃ t ∈ s.tasks, t.key = d ∧ t.corr = c ∧ isService t.kind = true ∧ t.lookup = none

theorem out_discards {d c k ts l} : out d c k ((discards ts).reverse ++ l) = out d c k l := by
  have : ∀ xs : List Obs, (∀ o ∈ xs, ∃ c, o = .discard c) → out d c k (xs ++ l) = out d c k l := by
    intro xs
    induction xs with
    | nil => intro _; rfl
    | cons o xs ih =>
      intro h
      obtain ⟨c, rfl⟩ := h o (List.mem_cons_self ..)
      exact ih fun o ho => h o (List.mem_cons_of_mem _ ho)
  refine this _ fun o ho => ?_
  rw [List.mem_reverse] at ho
  obtain ⟨t, _, rfl⟩ := List.mem_map.mp ho
  exact ⟨_, rfl⟩

theorem needs_discards {d c l} {xs : List Obs} (hx : ∀ o ∈ xs, ∃ c, o = .discard c) (h : needs d c (xs ++ l) = true) :
    needs d c l = true ∧ .discard c ∉ xs := by
  induction xs with
  | nil => exact ⟨h, by simp⟩
  | cons o xs ih =>
    obtain ⟨c', rfl⟩ := hx o (List.mem_cons_self ..)
    simp only [List.cons_append, needs, Bool.and_eq_true, bne_iff_ne, ne_eq] at h
    obtain ⟨h1, h2⟩ := ih (fun o ho => hx o (List.mem_cons_of_mem _ ho)) h.2
    refine ⟨h1, fun hm => ?_⟩
    rcases List.mem_cons.mp hm with hm | hm
    · simp only [Obs.discard.injEq] at hm; exact h.1 hm.symm
    · exact h2 hm

/-- A note that changes neither. -/
theorem out_note {s o d c k l} (h : Harmless s o) (hk : keeps k = true) : out d c k (o :: l) = out d c k l := by
  cases o <;> simp only [Harmless] at h <;> try rfl
  case req =>
    subst h
    simp only [out]
    cases k <;> simp_all [keeps, isService, isResource]
  case toRemote => subst h; rfl
  case sent d' c' k' r x =>
    simp only [out]
    cases k <;> cases k' <;> first | (cases h; done) | (cases hk; done) | skip
    all_goals simp [replyKind]

theorem needs_note {s o d c l} (h : Harmless s o) (ho : ∀ c ipc, o ≠ .gotService c (.idle ipc)) : needs d c (o :: l) = needs d c l := by
  cases o <;> simp only [Harmless] at h <;> try rfl
  case toRemote => subst h; rfl
  case gotService c' l' =>
    cases l'
    · exact absurd rfl (ho _ _)
    · rfl
    · rfl
  case sent d' c' k' r x => cases k' <;> first | (cases h; done) | rfl

/-- Tasks with the same connection, correlation and kind, and with no lookup if there was none. -/
theorem kept_of {s t : State} (hs : Kept s)
    (ho : ∀ d c k, keeps k = true → out d c k t.log = true → out d c k s.log = true ∧
      ∀ u ∈ s.tasks, u.key = d → u.corr = c → u.kind = k → ∃ v ∈ t.tasks, v.key = d ∧ v.corr = c ∧ v.kind = k) : Kept t := by
  intro d c k hk h
  obtain ⟨h1, h2⟩ := ho d c k hk h
  obtain ⟨u, h3, h4, h5, h6⟩ := hs d c k hk h1
  exact h2 u h3 h4 h5 h6

/-- With the same tasks, or a task that is changed but for its signature. -/
theorem mem_change {s : List Task} {pre post : List Task} {t t' u : Task} (h : s = pre ++ t :: post) (hu : u ∈ s)
    (h1 : t'.key = t.key) (h2 : t'.corr = t.corr) (h3 : t'.kind = t.kind) :
    ∃ v ∈ pre ++ t' :: post, v.key = u.key ∧ v.corr = u.corr ∧ v.kind = u.kind := by
  rw [h] at hu
  rcases List.mem_append.mp hu with hu | hu
  · exact ⟨u, List.mem_append_left _ hu, rfl, rfl, rfl⟩
  · rcases List.mem_cons.mp hu with rfl | hu
    · exact ⟨t', by simp, h1, h2, h3⟩
    · exact ⟨u, by simp [hu], rfl, rfl, rfl⟩

theorem mem_removed {s : List Task} {pre post : List Task} {t u : Task} (h : s = pre ++ t :: post) (hu : u ∈ s) (hn : u ≠ t) :
    u ∈ pre ++ post := by
  rw [h] at hu
  rcases List.mem_append.mp hu with hu | hu
  · exact List.mem_append_left _ hu
  · rcases List.mem_cons.mp hu with rfl | hu
    · exact absurd rfl hn
    · exact List.mem_append_right _ hu

theorem fake_log (d c k r s) : (fake d c k r s).log = s.log ∨ (fake d c k r s).log = .fake d c k r :: s.log := by
  unfold fake; split
  · exact Or.inr rfl
  · exact Or.inl rfl

theorem out_fake {d c k d' c' k' r s} : out d c k (fake d' c' k' r s).log = out d c k s.log := by
  rcases fake_log d' c' k' r s with h | h <;> rw [h]; rfl

theorem needs_fake {d c d' c' k' r s} : needs d c (fake d' c' k' r s).log = needs d c s.log := by
  rcases fake_log d' c' k' r s with h | h <;> rw [h]; rfl

theorem out_queueSend {d c k p t s} : out d c k (queueSend p t s).log = out d c k s.log := by
  unfold queueSend; split
  · exact out_fake
  · rfl

theorem needs_queueSend {d c p t s} : needs d c (queueSend p t s).log = needs d c s.log := by
  unfold queueSend; split
  · exact needs_fake
  · rfl

/-- A request adds a task of its own. -/
theorem service_facts (k d c x) (s : State) : ∃ t, t.key = d ∧ t.corr = c ∧ t.kind = k ∧ t.lookup = none ∧
    (serviceRequest k d c x s).tasks = s.tasks ++ [t] ∧
    ((serviceRequest k d c x s).log = .askService d c :: s.log ∨
     ∃ g, (serviceRequest k d c x s).log = .askBranch d c g :: .askService d c :: s.log) := by
  unfold serviceRequest; dsimp only; split
  · exact ⟨_, rfl, rfl, rfl, rfl, rfl, Or.inl rfl⟩
  · split
    · exact ⟨_, rfl, rfl, rfl, rfl, rfl, Or.inl rfl⟩
    · exact ⟨_, rfl, rfl, rfl, rfl, rfl, Or.inr ⟨_, rfl⟩⟩

/-- Only questions to QM and TM. -/
def asking : Obs → Bool
  | .askQueue .. | .askBranch .. | .toTM .. | .fake .. => true
  | _ => false

theorem queue_facts (k d c x qm) (s : State) : ∃ t, t.key = d ∧ t.corr = c ∧ t.kind = k ∧ t.lookup = none ∧
    (queueRequest k d c x qm s).tasks = s.tasks ++ [t] ∧
    ∃ a, (∀ o ∈ a, asking o = true) ∧ (queueRequest k d c x qm s).log = a ++ s.log := by
  unfold queueRequest; dsimp only; cases qm <;> simp only [if_true, Bool.false_eq_true, if_false]
  · split
    · exact ⟨_, rfl, rfl, rfl, rfl, rfl, [], by simp, rfl⟩
    · split
      · exact ⟨_, rfl, rfl, rfl, rfl, rfl, [], by simp, rfl⟩
      · exact ⟨_, rfl, rfl, rfl, rfl, rfl, [_], by simp [asking], rfl⟩
  · split
    · exact ⟨_, rfl, rfl, rfl, rfl, rfl, [_], by simp [asking], rfl⟩
    · split
      · exact ⟨_, rfl, rfl, rfl, rfl, rfl, [_], by simp [asking], rfl⟩
      · exact ⟨_, rfl, rfl, rfl, rfl, rfl, [_, _], by simp [asking], rfl⟩

theorem resource_facts (k d c x) (s : State) : ∃ t, t.key = d ∧ t.corr = c ∧ t.kind = k ∧ t.lookup = none ∧
    (resourceRequest k d c x s).tasks = s.tasks ++ [t] ∧
    ∃ a, (∀ o ∈ a, asking o = true) ∧ (resourceRequest k d c x s).log = a ++ s.log := by
  unfold resourceRequest; split
  · exact ⟨_, rfl, rfl, rfl, rfl, rfl, [_], by simp [asking], rfl⟩
  · refine ⟨_, rfl, rfl, rfl, rfl, by rw [add_tasks, fake_tasks], ?_⟩
    rw [add_log]
    rcases fake_log d c k ⟨protocolError, 0⟩ s with h | h <;> rw [h]
    · exact ⟨[], by simp, rfl⟩
    · exact ⟨[_], by simp [asking], rfl⟩

theorem out_asking {d c k a l} (h : ∀ o ∈ a, asking o = true) : out d c k (a ++ l) = out d c k l := by
  induction a with
  | nil => rfl
  | cons o a ih =>
    have := h o (List.mem_cons_self ..)
    have ih := ih fun o ho => h o (List.mem_cons_of_mem _ ho)
    cases o <;> first | exact ih | (cases this; done)

theorem needs_asking {d c a l} (h : ∀ o ∈ a, asking o = true) : needs d c (a ++ l) = needs d c l := by
  induction a with
  | nil => rfl
  | cons o a ih =>
    have := h o (List.mem_cons_self ..)
    have ih := ih fun o ho => h o (List.mem_cons_of_mem _ ho)
    cases o <;> first | exact ih | (cases this; done)

/-- A request that is out is the one that came, or one from before. -/
theorem kept_request {s u : State} {d c k x} {t : Task} (hs : Kept s) (h1 : t.key = d) (h2 : t.corr = c) (h3 : t.kind = k)
    (ht : u.tasks = s.tasks ++ [t]) (hl : ∀ d' c' k', out d' c' k' u.log = out d' c' k' (.req d c k x :: s.log)) : Kept u := by
  intro d' c' k' hk h
  rw [hl] at h
  simp only [out, Bool.or_eq_true, Bool.and_eq_true, beq_iff_eq] at h
  rw [ht]
  rcases h with ⟨⟨rfl, rfl⟩, rfl⟩ | h
  · exact ⟨t, by simp, h1, h2, h3⟩
  · obtain ⟨u, hu, h⟩ := hs d' c' k' hk h
    exact ⟨u, List.mem_append_left _ hu, h⟩

theorem kept_move (s t : State) (h : Move s t) (hd : t.dead = false) (hs : Kept s) : Kept t := by
  cases h
  case push => exact hs
  case same h1 h2 h3 h4 h5 h6 _ => unfold Kept; rw [h2, h5]; exact hs
  case die h => rw [h] at hd; cases hd
  case connect => exact hs
  case lost d hc =>
    rw [lost_eq hc]
    refine kept_of hs fun d' c k _ h => ?_
    simp only at h
    rw [out_discards] at h
    simp only [out, Bool.and_eq_true, bne_iff_ne, ne_eq] at h
    refine ⟨h.2, fun u hu h1 h2 h3 => ⟨u, ?_, h1, h2, h3⟩⟩
    refine List.mem_filter.mpr ⟨hu, ?_⟩
    simp only [ne_eq, decide_not, Bool.not_eq_true', decide_eq_false_iff_not]
    rw [h1]; exact fun e => h.1 e.symm
  case note o ho =>
    refine kept_of hs fun d' c k hk h => ⟨?_, fun u hu h1 h2 h3 => ⟨u, hu, h1, h2, h3⟩⟩
    rw [emit_log, out_note ho hk] at h; exact h
  case ended d c data hc =>
    refine kept_of hs fun d' c' k _ h => ?_
    simp only [emit_log, out, Bool.and_eq_true, bne_iff_ne, ne_eq] at h
    refine ⟨h.2, fun u hu h1 h2 h3 => ⟨u, List.mem_filter.mpr ⟨hu, ?_⟩, h1, h2, h3⟩⟩
    simp only [ne_eq, decide_not, Bool.not_eq_true', decide_eq_false_iff_not]
    rw [h2]; exact fun e => h.1 e.symm
  case service k d c x hk hc =>
    obtain ⟨t, h1, h2, h3, _, h5, h6⟩ := service_facts k d c x (emit (.req d c k x) s)
    refine kept_request (x := x) hs h1 h2 h3 h5 fun d' c' k' => ?_
    rcases h6 with h | ⟨g, h⟩ <;> rw [h] <;> rfl
  case queue k d c x qm hk hc =>
    obtain ⟨t, h1, h2, h3, _, h5, a, h6, h7⟩ := queue_facts k d c x qm (emit (.req d c k x) s)
    refine kept_request (x := x) hs h1 h2 h3 h5 fun d' c' k' => ?_
    rw [h7, out_asking h6]; rfl
  case resource k d c x hk hc =>
    obtain ⟨t, h1, h2, h3, _, h5, a, h6, h7⟩ := resource_facts k d c x (emit (.req d c k x) s)
    refine kept_request (x := x) hs h1 h2 h3 h5 fun d' c' k' => ?_
    rw [h7, out_asking h6]; rfl
  case hangup pre t post ipc h hf hk =>
    refine kept_of hs fun d' c' k' _ ho => ?_
    simp only [emit_log, out, Bool.and_eq_true, Bool.not_eq_true'] at ho
    refine ⟨ho.2, fun u hu h1 h2 h3 => ⟨u, mem_removed h hu ?_, h1, h2, h3⟩⟩
    rintro rfl
    have := ho.1
    rw [← h3, hk, h2] at this
    simp at this
  case idleFwd pre t post ipc h hf hk ho' =>
    refine kept_of hs fun d' c' k' _ ho => ⟨ho, fun u hu h1 h2 h3 => ?_⟩
    rw [← h1, ← h2, ← h3]
    exact mem_change h hu rfl rfl rfl
  case idleHold pre t post ipc h hf hk ho' =>
    refine kept_of hs fun d' c' k' _ ho => ⟨ho, fun u hu h1 h2 h3 => ?_⟩
    rw [← h1, ← h2, ← h3]
    exact mem_change h hu rfl rfl rfl
  case noService t l r h hk hl =>
    refine kept_of hs fun d' c' k' _ ho => ⟨?_, fun u hu h1 h2 h3 => ⟨u, by rw [fake_tasks]; exact hu, h1, h2, h3⟩⟩
    rw [out_fake] at ho; exact ho
  case queueHold pre t post p h hf hk hw =>
    refine kept_of hs fun d' c' k' _ ho => ⟨ho, fun u hu h1 h2 h3 => ?_⟩
    rw [← h1, ← h2, ← h3]
    exact mem_change h hu rfl rfl rfl
  case queueSend pre t post p h hf hk hw =>
    refine kept_of hs fun d' c' k' hk' ho => ⟨?_, fun u hu h1 h2 h3 => ⟨u, mem_removed h hu ?_, h1, h2, h3⟩⟩
    · simp only at ho; rw [out_queueSend] at ho; exact ho
    · rintro rfl; rw [h3] at hk; cases k' <;> first | (cases hk; done) | (cases hk'; done)
  case branchFwd pre t post ipc b h hf hk hl =>
    refine kept_of hs fun d' c' k' _ ho => ⟨ho, fun u hu h1 h2 h3 => ?_⟩
    rw [← h1, ← h2, ← h3]
    exact mem_change h hu rfl rfl rfl
  case branchHold pre t post b h hf hk hl =>
    refine kept_of hs fun d' c' k' _ ho => ⟨ho, fun u hu h1 h2 h3 => ?_⟩
    rw [← h1, ← h2, ← h3]
    exact mem_change h hu rfl rfl rfl
  case branchQueueHold pre t post b h hf hk hl =>
    refine kept_of hs fun d' c' k' _ ho => ⟨ho, fun u hu h1 h2 h3 => ?_⟩
    rw [← h1, ← h2, ← h3]
    exact mem_change h hu rfl rfl rfl
  case branchQueueSend pre t post b p h hf hk hl =>
    refine kept_of hs fun d' c' k' hk' ho => ⟨?_, fun u hu h1 h2 h3 => ⟨u, mem_removed h hu ?_, h1, h2, h3⟩⟩
    · simp only at ho; rw [out_queueSend] at ho; exact ho
    · rintro rfl; rw [h3] at hk; cases k' <;> first | (cases hk; done) | (cases hk'; done)
  case answered pre t post k r x ib g hg h hf hk he h1 h2 =>
    refine kept_of hs fun d' c' k' hk' ho => ?_
    simp only [out, Bool.and_eq_true, Bool.not_eq_true'] at ho
    have hl : out d' c' k' (g ++ s.log) = out d' c' k' s.log := by
      rcases hg with rfl | ⟨d', rfl⟩ <;> rfl
    refine ⟨by rw [← hl]; exact ho.2, fun u hu a1 a2 a3 => ⟨u, mem_removed h hu ?_, a1, a2, a3⟩⟩
    rintro rfl
    have e : k = replyKind k' := by rw [← a3]; simpa [ends] using he
    have : k' ≠ .conv := by rintro rfl; subst e; cases hk
    have := ho.1
    rw [a1, a2, e] at this
    simp_all
  case pop => exact hs
  case made =>
    refine kept_of hs fun d' c' k' _ ho => ⟨?_, fun u hu h1 h2 h3 => ⟨u, by rw [fake_tasks]; exact hu, h1, h2, h3⟩⟩
    rw [out_fake] at ho; exact ho
  case disassociate => exact hs

theorem kept_run (es : List Event) (he : ∀ e ∈ es, sound e = true) (ha : (run es).dead = false) : Kept (run es) :=
  inv_alive (fun d c k _ h => by cases h) kept_move es he ha

theorem needed_of {s t : State} (hs : Needed s)
    (ho : ∀ d c, needs d c t.log = true → needs d c s.log = true ∧
      ∀ u ∈ s.tasks, u.key = d → u.corr = c → isService u.kind = true → u.lookup = none → u ∈ t.tasks) : Needed t := by
  intro d c h
  obtain ⟨h1, h2⟩ := ho d c h
  obtain ⟨u, h3, h4, h5, h6, h7⟩ := hs d c h1
  exact ⟨u, h2 u h3 h4 h5 h6 h7, h4, h5, h6, h7⟩

theorem mem_others {s : List Task} {pre post : List Task} {t t' u : Task} (h : s = pre ++ t :: post) (hu : u ∈ s) (hn : u ≠ t) :
    u ∈ pre ++ t' :: post := by
  rw [h] at hu
  rcases List.mem_append.mp hu with hu | hu
  · exact List.mem_append_left _ hu
  · rcases List.mem_cons.mp hu with rfl | hu
    · exact absurd rfl hn
    · exact List.mem_append_right _ (List.mem_cons_of_mem _ hu)

theorem needed_move (s t : State) (h : Move s t) (hd : t.dead = false) (hs : Needed s) : Needed t := by
  cases h
  case push => exact hs
  case same h1 h2 h3 h4 h5 h6 _ => unfold Needed; rw [h2, h5]; exact hs
  case die h => rw [h] at hd; cases hd
  case connect => exact hs
  case lost d hc =>
    rw [lost_eq hc]
    intro d' c h
    simp only at h
    obtain ⟨h1, h2⟩ := needs_discards (by
      intro o ho
      rw [List.mem_reverse] at ho
      obtain ⟨t, _, rfl⟩ := List.mem_map.mp ho
      exact ⟨_, rfl⟩) h
    obtain ⟨u, h3, h4, h5, h6, h7⟩ := hs d' c h1
    refine ⟨u, List.mem_filter.mpr ⟨h3, ?_⟩, h4, h5, h6, h7⟩
    simp only [ne_eq, decide_not, Bool.not_eq_true', decide_eq_false_iff_not]
    intro e
    apply h2
    rw [List.mem_reverse]
    refine List.mem_map.mpr ⟨u, List.mem_filter.mpr ⟨List.mem_filter.mpr ⟨h3, by simpa using e⟩, by simp [h6, h7]⟩, by rw [h5]⟩
  case note o ho =>
    refine needed_of hs fun d' c h => ⟨?_, fun u hu _ _ _ _ => hu⟩
    rw [emit_log] at h
    by_cases hg : ∀ c ipc, o ≠ .gotService c (.idle ipc)
    · rw [needs_note ho hg] at h; exact h
    · simp only [ne_eq, Classical.not_forall, Classical.not_not] at hg
      obtain ⟨c', ipc, rfl⟩ := hg
      simp only [needs, Bool.and_eq_true] at h; exact h.2
  case ended d c data hc =>
    refine needed_of hs fun d' c' h => ?_
    simp only [emit_log, needs, Bool.and_eq_true, bne_iff_ne, ne_eq] at h
    refine ⟨h.2, fun u hu h1 h2 _ _ => List.mem_filter.mpr ⟨hu, ?_⟩⟩
    simp only [ne_eq, decide_not, Bool.not_eq_true', decide_eq_false_iff_not]
    rw [h2]; exact fun e => h.1 e.symm
  case service k d c x hk hc =>
    obtain ⟨t, h1, h2, h3, h4, h5, h6⟩ := service_facts k d c x (emit (.req d c k x) s)
    intro d' c' h
    have : needs d' c' (.askService d c :: s.log) = true := by
      rcases h6 with e | ⟨g, e⟩ <;> rw [e] at h <;> exact h
    simp only [needs, Bool.or_eq_true, Bool.and_eq_true, beq_iff_eq] at this
    rw [h5]
    rcases this with ⟨rfl, rfl⟩ | h
    · exact ⟨t, by simp, h1, h2, by rw [h3]; exact hk, h4⟩
    · obtain ⟨u, hu, h⟩ := hs d' c' h
      exact ⟨u, List.mem_append_left _ hu, h⟩
  case queue k d c x qm hk hc =>
    obtain ⟨t, _, _, _, _, h5, a, h6, h7⟩ := queue_facts k d c x qm (emit (.req d c k x) s)
    refine needed_of hs fun d' c' h => ⟨?_, fun u hu _ _ _ _ => by rw [h5]; exact List.mem_append_left _ hu⟩
    rw [h7, needs_asking h6] at h; exact h
  case resource k d c x hk hc =>
    obtain ⟨t, _, _, _, _, h5, a, h6, h7⟩ := resource_facts k d c x (emit (.req d c k x) s)
    refine needed_of hs fun d' c' h => ⟨?_, fun u hu _ _ _ _ => by rw [h5]; exact List.mem_append_left _ hu⟩
    rw [h7, needs_asking h6] at h; exact h
  case hangup pre t post ipc h hf hk =>
    refine needed_of hs fun d' c' ho => ?_
    simp only [emit_log, needs, Bool.and_eq_true, bne_iff_ne, ne_eq] at ho
    refine ⟨ho.2, fun u hu h1 h2 _ _ => mem_removed h hu ?_⟩
    rintro rfl; exact ho.1 h2
  case idleFwd pre t post ipc h hf hk ho' =>
    refine needed_of hs fun d' c' ho => ?_
    simp only [emit_log, needs, Bool.and_eq_true, bne_iff_ne, ne_eq] at ho
    refine ⟨ho.2, fun u hu _ h2 _ _ => mem_others h hu ?_⟩
    rintro rfl; exact ho.1 h2
  case idleHold pre t post ipc h hf hk ho' =>
    refine needed_of hs fun d' c' ho => ?_
    simp only [emit_log, needs, Bool.and_eq_true, bne_iff_ne, ne_eq] at ho
    refine ⟨ho.2, fun u hu _ h2 _ _ => mem_others h hu ?_⟩
    rintro rfl; exact ho.1 h2
  case noService t l r h hk hl =>
    refine needed_of hs fun d' c' ho => ⟨?_, fun u hu _ _ _ _ => by rw [fake_tasks]; exact hu⟩
    rw [needs_fake, emit_log] at ho
    cases l
    · exact absurd rfl (hl _)
    · exact ho
    · exact ho
  case queueHold pre t post p h hf hk hw =>
    refine needed_of hs fun d' c' ho => ⟨ho, fun u hu _ _ h3 _ => mem_others h hu ?_⟩
    rintro rfl; cases e : u.kind <;> rw [e] at hk h3 <;> first | (cases hk; done) | (cases h3; done)
  case queueSend pre t post p h hf hk hw =>
    refine needed_of hs fun d' c' ho => ⟨?_, fun u hu _ _ h3 _ => mem_removed h hu ?_⟩
    · simp only at ho; rw [needs_queueSend] at ho; exact ho
    · rintro rfl; cases e : u.kind <;> rw [e] at hk h3 <;> first | (cases hk; done) | (cases h3; done)
  case branchFwd pre t post ipc b h hf hk hl =>
    refine needed_of hs fun d' c' ho => ⟨ho, fun u hu _ _ h3 h4 => mem_others h hu ?_⟩
    rintro rfl; rw [hl] at h4; cases h4
  case branchHold pre t post b h hf hk hl =>
    intro d' c' ho
    obtain ⟨u, hu, h1, h2, h3, h4⟩ := hs d' c' ho
    by_cases hn : u = t
    · subst hn
      exact ⟨{ u with trid := some b }, by simp, h1, h2, h3, h4⟩
    · exact ⟨u, mem_others h hu hn, h1, h2, h3, h4⟩
  case branchQueueHold pre t post b h hf hk hl =>
    refine needed_of hs fun d' c' ho => ⟨ho, fun u hu _ _ h3 _ => mem_others h hu ?_⟩
    rintro rfl; cases e : u.kind <;> rw [e] at hk h3 <;> first | (cases hk; done) | (cases h3; done)
  case branchQueueSend pre t post b p h hf hk hl =>
    refine needed_of hs fun d' c' ho => ⟨?_, fun u hu _ _ h3 _ => mem_removed h hu ?_⟩
    · simp only at ho; rw [needs_queueSend] at ho; exact ho
    · rintro rfl; cases e : u.kind <;> rw [e] at hk h3 <;> first | (cases hk; done) | (cases h3; done)
  case answered pre t post k r x ib g hg h hf hk he h1 h2 =>
    refine needed_of hs fun d' c' ho => ?_
    have hl : needs d' c' (g ++ s.log) = needs d' c' s.log := by
      rcases hg with rfl | ⟨d', rfl⟩ <;> rfl
    simp only at ho
    by_cases hc : k = .call
    · subst hc
      simp only [needs, Bool.and_eq_true, Bool.not_eq_true'] at ho
      refine ⟨by rw [← hl]; exact ho.2, fun u hu a1 a2 _ _ => mem_removed h hu ?_⟩
      rintro rfl
      have := ho.1
      rw [a1, a2] at this
      simp at this
    · refine ⟨by rw [← hl]; cases k <;> first | exact ho | exact absurd rfl hc, fun u hu h1 h2 h3 _ => mem_removed h hu ?_⟩
      rintro rfl
      have e : k = replyKind u.kind := by simpa [ends] using he
      cases e' : u.kind <;> rw [e'] at h3 e <;> first | (cases h3; done) | exact hc e | (subst e; cases hk; done)
  case pop => exact hs
  case made =>
    refine needed_of hs fun d' c' ho => ⟨?_, fun u hu _ _ _ _ => by rw [fake_tasks]; exact hu⟩
    rw [needs_fake] at ho; exact ho
  case disassociate => exact hs

theorem needed_run (es : List Event) (he : ∀ e ∈ es, sound e = true) (ha : (run es).dead = false) : Needed (run es) :=
  inv_alive (fun d c h => by cases h) needed_move es he ha

end Casual.Gateway.In

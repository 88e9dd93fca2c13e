import Verif.Gateway.InInv
/-! Why everything that an inbound group says is said, in all histories. -/
namespace Casual.Gateway.In

/-- There is a connection with the descriptor, according to the log (newest first). -/
def live (d : Nat) : List Obs → Bool
  | [] => false
  | .connected d' :: l => d' == d || live d l
  | .closed d' :: l => d' != d && live d l
  | _ :: l => live d l

/-- The request with transaction `x` and correlation `c` may go on as `t`. -/
def Branch (c : Nat) (x t : Option Trid) (l : List Obs) : Prop :=
  (x = none ∧ t = none) ∨
  ∃ b, t = some b ∧ (.gotBranch c b ∈ l ∨ ∃ x', x = some x' ∧ b.g = x'.g ∧ ∃ c', .gotBranch c' b ∈ l)

/-- What must have been before. -/
def why : Obs → List Obs → Prop
  | .askService d c, l => live d l = true ∧ ∃ k x, isService k = true ∧ .req d c k x ∈ l
  | .askQueue d c, l => live d l = true ∧ ∃ k x, isQueue k = true ∧ .req d c k x ∈ l
  | .askBranch d c g, l => live d l = true ∧ ∃ k x, .req d c k (some x) ∈ l ∧ x.g = g
  | .explore d c, l => live d l = true ∧ ∃ x, .req d c .discovery x ∈ l
  | .discard c, l => ∃ d, .askService d c ∈ l ∧ .closed d ∈ l
  | .fwd ipc c k t d, l => live d l = true ∧ ∃ x, .req d c k x ∈ l ∧ Branch c x t l ∧
      (if isService k then .gotService c (.idle ipc) ∈ l else .gotQueue c (some ipc) ∈ l)
  | .toTM c k t d, l => live d l = true ∧ ∃ x, .req d c k (some x) ∈ l ∧ t.g = x.g ∧ ∃ c', .gotBranch c' t ∈ l
  | .fake d c k r, l => live d l = true ∧
      if isService k then
        (r = ⟨noEntry, 0⟩ ∧ .gotService c .absent ∈ l) ∨ (r = ⟨timedOut, 0⟩ ∧ .gotService c .timeout ∈ l) ∨
          (r = ⟨svcErr, 0⟩ ∧ ∃ k', .undelivered d c k' ∈ l)
      else if isResource k then
        (∃ x, r = ⟨protocolError, 0⟩ ∧ .req d c k x ∈ l) ∨ ∃ k', .undelivered d c k' ∈ l
      else .gotQueue c none ∈ l ∨ ∃ k', .undelivered d c k' ∈ l
  | .sent d c k r t, l => live d l = true ∧
      if k = .call then (∃ k' x, replyKind k' = .call ∧ .req d c k' x ∈ l) ∧
        ∃ d', .got d' c .call r ∈ l ∨ .fake d' c .call r ∈ l
      else if isResource k then (∃ x, .req d c k x ∈ l ∧ (t = x ∨ Branch c x t l)) ∧
        ∃ d', .got d' c k r ∈ l ∨ .fake d' c k r ∈ l
      else .got d c k r ∈ l ∨ .fake d c k r ∈ l
  | .toProcess ipc c _, l => .gotService c (.idle ipc) ∈ l
  | .hangup ipc c, l => .gotService c (.idle ipc) ∈ l
  | .toRemote d _ _ _, l => live d l = true
  | .askDisconnect d, l => live d l = true
  | .closed d, l => live d l = true
  | _, _ => True

def Whys : List Obs → Prop
  | [] => True
  | o :: l => why o l ∧ Whys l

/-- What a unit knows. -/
structure TaskOk (t : Task) (l : List Obs) : Prop where
  asked : .req t.key t.corr t.kind t.origin ∈ l
  kind : t.kind ≠ .discovery
  service : isService t.kind = true → .askService t.key t.corr ∈ l ∧
    ∀ p, t.lookup = some p → ∃ ipc, p = some ipc ∧ .gotService t.corr (.idle ipc) ∈ l
  queue : isQueue t.kind = true → ∀ p, t.lookup = some p → .gotQueue t.corr p ∈ l
  trid : Branch t.corr t.origin t.trid l ∨ (t.origin = t.trid ∧ t.origin ≠ none ∧ (isQueue t.kind = true → t.wait = true)) ∨
    (isResource t.kind = true ∧ t.trid = t.origin)

structure W (s : State) : Prop where
  live : ∀ d, connected d s = live d s.log
  good : Whys s.log
  keys : ∀ t ∈ s.tasks, connected t.key s = true
  tasks : ∀ t ∈ s.tasks, TaskOk t s.log
  cache : ∀ a ∈ s.cache, a.trid.g = a.g ∧ (∃ c, .gotBranch c a.trid ∈ s.log) ∧ ∀ d ∈ a.ds, connected d s = true
  inbox : ∀ m ∈ s.inbox, .fake m.d m.c m.k m.r ∈ s.log ∧ connected m.d s = true

theorem Branch.mono {c x t l l'} (h : Branch c x t l) (hl : ∀ o ∈ l, o ∈ l') : Branch c x t l' := by
  rcases h with h | ⟨b, h1, h2 | ⟨x', h3, h4, c', h5⟩⟩
  · exact Or.inl h
  · exact Or.inr ⟨b, h1, Or.inl (hl _ h2)⟩
  · exact Or.inr ⟨b, h1, Or.inr ⟨x', h3, h4, c', hl _ h5⟩⟩

theorem TaskOk.mono {t l l'} (h : TaskOk t l) (hl : ∀ o ∈ l, o ∈ l') : TaskOk t l' where
  asked := hl _ h.asked
  kind := h.kind
  service := fun hk => ⟨hl _ (h.service hk).1, fun p hp => by
    obtain ⟨ipc, h1, h2⟩ := (h.service hk).2 p hp; exact ⟨ipc, h1, hl _ h2⟩⟩
  queue := fun hk p hp => hl _ (h.queue hk p hp)
  trid := by
    rcases h.trid with h | h
    · exact Or.inl (h.mono hl)
    · exact Or.inr h

def still : Obs → Bool
  | .connected _ => false
  | .closed _ => false
  | _ => true

theorem live_still {o : Obs} (h : still o = true) (d l) : live d (o :: l) = live d l := by
  cases o <;> simp_all [still, live]

theorem w_emit {o s} (hq : still o = true) (hj : why o s.log) (hs : W s) : W (emit o s) where
  live := fun d => by rw [emit_connected, emit_log, live_still hq]; exact hs.live d
  good := ⟨hj, hs.good⟩
  keys := hs.keys
  tasks := fun t ht => (hs.tasks t ht).mono fun o ho => List.mem_cons_of_mem _ ho
  cache := fun a ha => ⟨(hs.cache a ha).1, (hs.cache a ha).2.1.imp fun c h => List.mem_cons_of_mem _ h, (hs.cache a ha).2.2⟩
  inbox := fun m hm => ⟨List.mem_cons_of_mem _ (hs.inbox m hm).1, (hs.inbox m hm).2⟩

/-- Less of it. -/
theorem w_sub {s t : State} (h1 : t.conns = s.conns) (h2 : ∀ u ∈ t.tasks, u ∈ s.tasks) (h3 : t.cache = s.cache)
    (h4 : ∀ u ∈ t.inbox, u ∈ s.inbox) (h5 : t.log = s.log) (hs : W s) : W t where
  live := fun d => by rw [connected_congr h1, h5]; exact hs.live d
  good := by rw [h5]; exact hs.good
  keys := fun u hu => by rw [connected_congr h1]; exact hs.keys u (h2 u hu)
  tasks := fun u hu => by rw [h5]; exact hs.tasks u (h2 u hu)
  cache := fun a ha => by
    rw [h3] at ha; rw [h5]
    exact ⟨(hs.cache a ha).1, (hs.cache a ha).2.1, fun d hd => by rw [connected_congr h1]; exact (hs.cache a ha).2.2 d hd⟩
  inbox := fun m hm => by rw [h5, connected_congr h1]; exact hs.inbox m (h4 m hm)

theorem w_add {t s} (hk : connected t.key s = true) (ht : TaskOk t s.log) (hs : W s) : W (addTask t s) where
  live := hs.live
  good := hs.good
  keys := fun u hu => by
    rcases List.mem_append.mp hu with h | h
    · exact hs.keys u h
    · rw [List.mem_singleton.mp h]; exact hk
  tasks := fun u hu => by
    rcases List.mem_append.mp hu with h | h
    · exact hs.tasks u h
    · rw [List.mem_singleton.mp h]; exact ht
  cache := hs.cache
  inbox := hs.inbox

theorem w_join {g d s} (hc : connected d s = true) (hs : W s) : W { s with cache := join g d s.cache } where
  live := hs.live
  good := hs.good
  keys := hs.keys
  tasks := hs.tasks
  cache := fun a ha => by
    obtain ⟨b, hb, e1, e2, e3⟩ := join_mem ha
    obtain ⟨h1, h2, h3⟩ := hs.cache b hb
    refine ⟨by rw [e1, e2]; exact h1, by rw [e2]; exact h2, fun x hx => ?_⟩
    rcases e3 x hx with h | h
    · exact h3 x h
    · rw [h.1]; exact hc
  inbox := hs.inbox

theorem w_addTrid {t : Trid} {d s} (hc : connected d s = true) (hg : ∃ c, .gotBranch c t ∈ s.log) (hs : W s) :
    W { s with cache := addTrid t d s.cache } where
  live := hs.live
  good := hs.good
  keys := hs.keys
  tasks := hs.tasks
  cache := fun a ha => by
    rcases addTrid_mem ha with ⟨b, hb, e1, e2, e3⟩ | rfl
    · obtain ⟨h1, h2, h3⟩ := hs.cache b hb
      refine ⟨by rw [e1, e2]; exact h1, by rw [e2]; exact h2, fun x hx => ?_⟩
      rcases e3 x hx with h | h
      · exact h3 x h
      · rw [h]; exact hc
    · refine ⟨rfl, hg, fun x hx => ?_⟩
      rw [List.mem_singleton.mp hx]; exact hc
  inbox := hs.inbox

theorem w_fake {d c k r s} (hj : connected d s = true → why (.fake d c k r) s.log) (hs : W s) : W (fake d c k r s) := by
  unfold fake; split
  · rename_i h
    have := w_emit (o := .fake d c k r) rfl (hj h) hs
    refine ⟨this.live, this.good, this.keys, this.tasks, this.cache, fun m hm => ?_⟩
    rcases List.mem_append.mp hm with hm | hm
    · exact this.inbox m hm
    · rw [List.mem_singleton.mp hm]; exact ⟨List.mem_cons_self .., h⟩
  · exact hs

theorem live_discards (d : Nat) (ts : List Task) (l : List Obs) :
    live d ((discards ts).reverse ++ l) = live d l := by
  have : ∀ xs : List Obs, (∀ o ∈ xs, ∃ c, o = .discard c) → live d (xs ++ l) = live d l := by
    intro xs
    induction xs with
    | nil => intro _; rfl
    | cons o xs ih =>
      intro h
      obtain ⟨c, rfl⟩ := h o (List.mem_cons_self ..)
      exact ih fun o ho => h o (List.mem_cons_of_mem _ ho)
  refine this _ fun o ho => ?_
  rw [List.mem_reverse] at ho
  obtain ⟨t, _, rfl⟩ := List.mem_map.mp ho
  exact ⟨_, rfl⟩

theorem w_lost {d s} (hs : W s) : W (lost d s) := by
  cases hc : connected d s with
  | false => rw [lost_not hc]; exact w_sub (s := s) rfl (fun _ h => h) rfl (fun _ h => h) rfl hs
  | true =>
    have hk := lost_connected d s
    rw [lost_eq hc] at hk ⊢
    have hmem : ∀ o ∈ s.log, o ∈ (discards (s.tasks.filter (·.key = d))).reverse ++ .closed d :: s.log :=
      fun o ho => List.mem_append_right _ (List.mem_cons_of_mem _ ho)
    constructor
    · intro d'
      rw [hk]
      show _ = live d' ((discards (s.tasks.filter (·.key = d))).reverse ++ .closed d :: s.log)
      rw [live_discards, hs.live]
      simp only [live]
      rw [Bool.and_comm]; congr 1
      cases h : d' != d <;> cases h' : d != d' <;> simp_all
    · show Whys (_ ++ .closed d :: s.log)
      have : ∀ ts : List Task, (∀ t ∈ ts, t ∈ s.tasks ∧ t.key = d) → Whys ((discards ts).reverse ++ .closed d :: s.log) := by
        intro ts
        have key : ∀ xs : List Obs, (∀ o ∈ xs, ∃ t ∈ s.tasks, o = .discard t.corr ∧ t.key = d ∧ isService t.kind = true) →
            Whys (xs ++ .closed d :: s.log) := by
          intro xs
          induction xs with
          | nil => intro _; exact ⟨by show live d s.log = true; rw [← hs.live]; exact hc, hs.good⟩
          | cons o xs ih =>
            intro h
            obtain ⟨t, ht, rfl, hk, hse⟩ := h o (List.mem_cons_self ..)
            refine ⟨⟨d, ?_, ?_⟩, ih fun o ho => h o (List.mem_cons_of_mem _ ho)⟩
            · have := ((hs.tasks t ht).service hse).1
              rw [hk] at this
              exact List.mem_append_right _ (List.mem_cons_of_mem _ this)
            · exact List.mem_append_right _ (List.mem_cons_self ..)
        intro h
        refine key _ fun o ho => ?_
        rw [List.mem_reverse] at ho
        obtain ⟨t, ht, rfl⟩ := List.mem_map.mp ho
        obtain ⟨h1, h2⟩ := List.mem_filter.mp ht
        simp only [Bool.and_eq_true] at h2
        exact ⟨t, (h t h1).1, rfl, (h t h1).2, h2.1⟩
      refine this _ fun t ht => ?_
      obtain ⟨h1, h2⟩ := List.mem_filter.mp ht
      exact ⟨h1, by simpa using h2⟩
    · intro t ht
      obtain ⟨h1, h2⟩ := List.mem_filter.mp ht
      rw [hk, hs.keys t h1]; simpa using h2
    · intro t ht
      exact (hs.tasks t (List.mem_filter.mp ht).1).mono hmem
    · intro a ha
      obtain ⟨b, hb, e1, e2, e3, _⟩ := failedTrids_mem ha
      obtain ⟨h1, ⟨c, h2⟩, h3⟩ := hs.cache b hb
      refine ⟨by rw [e1, e2]; exact h1, ⟨c, by rw [e2]; exact hmem _ h2⟩, fun x hx => ?_⟩
      rw [hk, h3 x (e3 x hx).1]; simpa using (e3 x hx).2
    · intro m hm
      obtain ⟨h1, h2⟩ := List.mem_filter.mp hm
      refine ⟨hmem _ (hs.inbox m h1).1, ?_⟩
      rw [hk, (hs.inbox m h1).2]; simpa using h2

theorem w_send {ok d o s} (hq : still o = true) (hj : connected d s = true → why o s.log) (hs : W s) : W (send ok d o s) := by
  unfold send; split
  · rename_i h
    split
    · exact w_emit hq (hj h) hs
    · exact w_lost hs
  · exact hs

/-- A unit is replaced by what it is after the message. -/
theorem w_replace {s : State} {pre post : List Task} {t t' : Task} (hp : ∀ u ∈ pre, u ∈ s.tasks) (hq : ∀ u ∈ post, u ∈ s.tasks)
    (hk : connected t'.key s = true) (ht : TaskOk t' s.log) (hs : W s) : W { s with tasks := pre ++ t' :: post } where
  live := hs.live
  good := hs.good
  keys := fun u hu => by
    rcases List.mem_append.mp hu with h | h
    · exact hs.keys u (hp u h)
    · rcases List.mem_cons.mp h with rfl | h
      · exact hk
      · exact hs.keys u (hq u h)
  tasks := fun u hu => by
    rcases List.mem_append.mp hu with h | h
    · exact hs.tasks u (hp u h)
    · rcases List.mem_cons.mp h with rfl | h
      · exact ht
      · exact hs.tasks u (hq u h)
  cache := hs.cache
  inbox := hs.inbox

/-- A handler keeps it. -/
structure HandlerOk (c : Nat) (h : Task → State → State × Option Task) (s : State) : Prop where
  ok : ∀ t ∈ s.tasks, t.corr = c → W (h t s).1
  next : ∀ t ∈ s.tasks, t.corr = c → ∀ t', (h t s).2 = some t' →
    (h t s).1.tasks = s.tasks ∧ connected t'.key (h t s).1 = true ∧ TaskOk t' (h t s).1.log

theorem w_dispatch {c h s} (hh : HandlerOk c h s) (hs : W s) : W (dispatch c h s) := by
  refine dispatch_ind hs ?_ ?_ ?_
  · intro pre t post s' t' h1 h2 h3
    have hm : t ∈ s.tasks := by rw [h1]; simp
    have a := hh.ok t hm h2
    obtain ⟨b1, b2, b3⟩ := hh.next t hm h2 t' (by rw [h3])
    rw [h3] at a b1 b2 b3
    refine w_replace (t := t) (fun u hu => ?_) (fun u hu => ?_) b2 b3 a
    · rw [b1, h1]; simp [hu]
    · rw [b1, h1]; simp [hu]
  · intro pre t post s' h1 h2 h3 _
    have hm : t ∈ s.tasks := by rw [h1]; simp
    have a := hh.ok t hm h2
    rw [h3] at a
    exact w_sub (s := s') rfl (fun u hu => List.mem_of_mem_eraseIdx hu) rfl (fun _ h => h) rfl a
  · intro pre t post s' h1 h2 h3 _
    have hm : t ∈ s.tasks := by rw [h1]; simp
    have a := hh.ok t hm h2
    rw [h3] at a
    exact w_sub (s := s') rfl (fun _ h => h) rfl (fun _ h => h) rfl a

theorem fake_conns (d c k r s) : (fake d c k r s).conns = s.conns := by unfold fake; split <;> rfl
theorem fake_tasks (d c k r s) : (fake d c k r s).tasks = s.tasks := by unfold fake; split <;> rfl
theorem fake_cache (d c k r s) : (fake d c k r s).cache = s.cache := by unfold fake; split <;> rfl
theorem fake_pending (d c k r s) : (fake d c k r s).pending = s.pending := by unfold fake; split <;> rfl
theorem fake_dead (d c k r s) : (fake d c k r s).dead = s.dead := by unfold fake; split <;> rfl
theorem fake_running (d c k r s) : (fake d c k r s).running = s.running := by unfold fake; split <;> rfl
theorem fake_mem {o d c k r s} (h : o ∈ s.log) : o ∈ (fake d c k r s).log := by
  unfold fake; split
  · exact List.mem_cons_of_mem _ h
  · exact h

theorem replyKind_service {k} (h : isService k = true) : isService (replyKind k) = true := by cases k <;> simp_all [isService, replyKind]

/-- It goes on as it may. -/
theorem branch_of_task {t : Task} {l} (ht : TaskOk t l) (hk : isService t.kind = true) (h : t.origin = none ∨ t.origin ≠ t.trid) :
    Branch t.corr t.origin t.trid l := by
  rcases ht.trid with hb | ⟨h1, h2, _⟩ | ⟨h1, _⟩
  · exact hb
  · rcases h with h | h
    · exact absurd h h2
    · exact absurd h1 h
  · revert hk h1; cases t.kind <;> simp [isService, isResource]

theorem h_service {c l} {s : State} (hg : .gotService c l ∈ s.log) (hs : W s) : HandlerOk c (onService l) s := by
  constructor
  · intro t ht hc
    have hto := hs.tasks t ht
    have hlive : live t.key s.log = true := by rw [← hs.live]; exact hs.keys t ht
    unfold onService
    split
    · rename_i hk
      split
      · dsimp only
        split
        · rename_i ho
          refine w_emit rfl ⟨hlive, t.origin, hto.asked, branch_of_task hto hk ho, ?_⟩ hs
          rw [if_pos hk, hc]; exact hg
        · exact hs
      · refine w_fake (fun _ => ⟨hlive, ?_⟩) hs
        rw [if_pos (replyKind_service hk), hc]; exact Or.inl ⟨rfl, hg⟩
      · refine w_fake (fun _ => ⟨hlive, ?_⟩) hs
        rw [if_pos (replyKind_service hk), hc]; exact Or.inr (Or.inl ⟨rfl, hg⟩)
    · exact hs
  · intro t ht hc t'
    have hto := hs.tasks t ht
    unfold onService
    split
    · rename_i hk
      split
      · rename_i ipc
        have hn : TaskOk { t with lookup := some (some ipc) } s.log :=
          ⟨hto.asked, hto.kind, fun hk => ⟨(hto.service hk).1, fun p hp => ⟨ipc, (Option.some.inj hp).symm, by rw [← hc] at hg; exact hg⟩⟩,
            fun hq => by exfalso; revert hk hq; show isService t.kind = true → isQueue t.kind = true → False
                         cases t.kind <;> simp [isService, isQueue],
            hto.trid⟩
        dsimp only
        split
        · intro h
          rw [← Option.some.inj h]
          exact ⟨rfl, hs.keys t ht, hn.mono fun o ho => List.mem_cons_of_mem _ ho⟩
        · intro h
          rw [← Option.some.inj h]
          exact ⟨rfl, hs.keys t ht, hn⟩
      · intro h
        rw [← Option.some.inj h]
        exact ⟨fake_tasks .., by rw [connected_congr (fake_conns ..)]; exact hs.keys t ht, hto.mono fun o ho => fake_mem ho⟩
      · intro h
        rw [← Option.some.inj h]
        exact ⟨fake_tasks .., by rw [connected_congr (fake_conns ..)]; exact hs.keys t ht, hto.mono fun o ho => fake_mem ho⟩
    · intro h
      rw [← Option.some.inj h]
      exact ⟨rfl, hs.keys t ht, hto⟩

theorem w_queueSend {p} {t : Task} {s : State} (hq : isQueue t.kind = true) (hk : connected t.key s = true)
    (hr : .req t.key t.corr t.kind t.origin ∈ s.log) (hb : Branch t.corr t.origin t.trid s.log)
    (hg : .gotQueue t.corr p ∈ s.log) (hs : W s) : W (queueSend p t s) := by
  have hlive : live t.key s.log = true := by rw [← hs.live]; exact hk
  have hns : isService t.kind = false := by revert hq; cases t.kind <;> simp [isService, isQueue]
  have hnr : isResource t.kind = false := by revert hq; cases t.kind <;> simp [isResource, isQueue]
  unfold queueSend
  split
  · refine w_fake (fun _ => ⟨hlive, ?_⟩) hs
    rw [hns, hnr]; exact Or.inl hg
  · refine w_emit rfl ⟨hlive, t.origin, hr, hb, ?_⟩ hs
    rw [hns]; exact hg

theorem h_queue {c p} {s : State} (hg : .gotQueue c p ∈ s.log) (hs : W s) : HandlerOk c (onQueue p) s := by
  constructor
  · intro t ht hc
    have hto := hs.tasks t ht
    unfold onQueue
    split
    · rename_i hk
      split
      · exact hs
      · rename_i hw
        refine w_queueSend hk (hs.keys t ht) hto.asked ?_ (by rw [hc]; exact hg) hs
        rcases hto.trid with hb | ⟨_, _, h3⟩ | ⟨h1, _⟩
        · exact hb
        · exact absurd (h3 hk) hw
        · exfalso; revert hk h1; cases t.kind <;> simp [isQueue, isResource]
    · exact hs
  · intro t ht hc t'
    have hto := hs.tasks t ht
    unfold onQueue
    split
    · rename_i hk
      split
      · intro h
        rw [← Option.some.inj h]
        refine ⟨rfl, hs.keys t ht, hto.asked, hto.kind, fun hk' => ?_, fun _ q hq => ?_, hto.trid⟩
        · exfalso; revert hk hk'; show isQueue t.kind = true → isService t.kind = true → False
          cases t.kind <;> simp [isService, isQueue]
        · rw [← Option.some.inj hq]; show .gotQueue t.corr p ∈ s.log; rw [hc]; exact hg
      · intro h; cases h
    · intro h
      rw [← Option.some.inj h]
      exact ⟨rfl, hs.keys t ht, hto⟩

theorem h_branch {c b} {s : State} (hg : .gotBranch c b ∈ s.log) (hs : W s) : HandlerOk c (onBranch b) s := by
  constructor
  · intro t ht hc
    have hto := hs.tasks t ht
    have hlive : live t.key s.log = true := by rw [← hs.live]; exact hs.keys t ht
    have hb : Branch t.corr t.origin (some b) s.log := Or.inr ⟨b, rfl, Or.inl (by rw [hc]; exact hg)⟩
    unfold onBranch
    split
    · rename_i hk
      have := w_addTrid (t := b) (hs.keys t ht) ⟨c, hg⟩ hs
      dsimp only
      split
      · rename_i ipc hl
        refine w_emit rfl ⟨hlive, t.origin, hto.asked, hb, ?_⟩ this
        rw [if_pos hk]
        obtain ⟨ipc', h1, h2⟩ := (hto.service hk).2 _ hl
        rw [Option.some.inj h1]; exact h2
      · exact this
    · split
      · rename_i hk
        have := w_addTrid (t := b) (hs.keys t ht) ⟨c, hg⟩ hs
        dsimp only
        split
        · exact this
        · rename_i p hl
          exact w_queueSend (t := { t with trid := some b, wait := false }) hk (hs.keys t ht) hto.asked hb
            (hto.queue hk p hl) this
      · exact hs
  · intro t ht hc t'
    have hto := hs.tasks t ht
    have hb : Branch t.corr t.origin (some b) s.log := Or.inr ⟨b, rfl, Or.inl (by rw [hc]; exact hg)⟩
    unfold onBranch
    split
    · have hn : TaskOk { t with trid := some b } s.log := ⟨hto.asked, hto.kind, hto.service, hto.queue, Or.inl hb⟩
      dsimp only
      split
      · intro h
        rw [← Option.some.inj h]
        exact ⟨rfl, hs.keys t ht, hn.mono fun o ho => List.mem_cons_of_mem _ ho⟩
      · intro h
        rw [← Option.some.inj h]
        exact ⟨rfl, hs.keys t ht, hn⟩
    · split
      · dsimp only
        split
        · intro h
          rw [← Option.some.inj h]
          exact ⟨rfl, hs.keys t ht, hto.asked, hto.kind, hto.service, hto.queue, Or.inl hb⟩
        · intro h; cases h
      · intro h
        rw [← Option.some.inj h]
        exact ⟨rfl, hs.keys t ht, hto⟩

theorem h_call {c r ok} {s : State} (hg : ∃ d', .got d' c .call r ∈ s.log ∨ .fake d' c .call r ∈ s.log) (hs : W s) :
    HandlerOk c (onCall r ok) s := by
  constructor
  · intro t ht hc
    have hto := hs.tasks t ht
    have hlive : live t.key s.log = true := by rw [← hs.live]; exact hs.keys t ht
    unfold onCall
    split
    · rename_i hk
      rw [if_pos (hs.keys t ht)]
      refine w_send rfl (fun _ => ⟨hlive, ?_⟩) hs
      rw [if_pos rfl]
      refine ⟨⟨t.kind, t.origin, by rcases hk with h | h <;> rw [h] <;> rfl, hto.asked⟩, by rw [hc]; exact hg⟩
    · exact hs
  · intro t ht hc t'
    unfold onCall
    split
    · split <;> (intro h; cases h)
    · intro h
      rw [← Option.some.inj h]
      exact ⟨rfl, hs.keys t ht, hs.tasks t ht⟩

theorem h_resource {c k r ok} {s : State} (hk : isResource k = true)
    (hg : ∃ d', .got d' c k r ∈ s.log ∨ .fake d' c k r ∈ s.log) (hs : W s) :
    HandlerOk c (onResource k r ok) s := by
  constructor
  · intro t ht hc
    have hto := hs.tasks t ht
    have hlive : live t.key s.log = true := by rw [← hs.live]; exact hs.keys t ht
    unfold onResource
    split
    · rename_i hk'
      refine w_send rfl (fun _ => ⟨hlive, ?_⟩) hs
      rw [if_neg (by intro h; rw [h] at hk; cases hk), if_pos hk]
      refine ⟨⟨t.origin, by rw [← hk']; exact hto.asked, ?_⟩, by rw [hc]; exact hg⟩
      rcases hto.trid with h | h | h
      · exact Or.inr h
      · exact Or.inl h.1.symm
      · exact Or.inl h.2
    · exact hs
  · intro t ht hc t'
    unfold onResource
    split
    · intro h; cases h
    · intro h
      rw [← Option.some.inj h]
      exact ⟨rfl, hs.keys t ht, hs.tasks t ht⟩

theorem h_say {c data} {s : State} (hs : W s) : HandlerOk c (onSay data) s := by
  constructor
  · intro t ht hc
    unfold onSay
    split
    · rename_i hk
      split
      · rename_i ipc hl
        refine w_emit rfl ?_ hs
        obtain ⟨ipc', h1, h2⟩ := ((hs.tasks t ht).service (by rw [hk]; rfl)).2 _ hl
        rw [Option.some.inj h1]; exact h2
      · exact w_sub (s := s) rfl (fun _ h => h) rfl (fun _ h => h) rfl hs
    · exact hs
  · intro t ht hc t'
    have hto := hs.tasks t ht
    unfold onSay
    split
    · split
      · intro h
        rw [← Option.some.inj h]
        exact ⟨rfl, hs.keys t ht, hto.mono fun o ho => List.mem_cons_of_mem _ ho⟩
      · intro h
        rw [← Option.some.inj h]
        exact ⟨rfl, hs.keys t ht, hto⟩
    · intro h
      rw [← Option.some.inj h]
      exact ⟨rfl, hs.keys t ht, hto⟩

theorem h_hangup {c} {s : State} (hs : W s) : HandlerOk c onHangup s := by
  constructor
  · intro t ht hc
    unfold onHangup
    split
    · rename_i hk
      split
      · rename_i ipc hl
        refine w_emit rfl ?_ hs
        obtain ⟨ipc', h1, h2⟩ := ((hs.tasks t ht).service (by rw [hk]; rfl)).2 _ hl
        rw [Option.some.inj h1]; exact h2
      · exact w_sub (s := s) rfl (fun _ h => h) rfl (fun _ h => h) rfl hs
    · exact hs
  · intro t ht hc t'
    unfold onHangup
    split
    · split <;> (intro h; cases h)
    · intro h
      rw [← Option.some.inj h]
      exact ⟨rfl, hs.keys t ht, hs.tasks t ht⟩

theorem w_answer {d c k r ok s} (hc : connected d s = true) (hg : .got d c k r ∈ s.log ∨ .fake d c k r ∈ s.log) (hs : W s) :
    W (answer d c k r ok s) := by
  have hlive : live d s.log = true := by rw [← hs.live]; exact hc
  unfold answer
  split
  · exact w_dispatch (h_call ⟨d, hg⟩ hs) hs
  · exact hs
  · exact w_dispatch (h_resource rfl ⟨d, hg⟩ hs) hs
  · exact w_dispatch (h_resource rfl ⟨d, hg⟩ hs) hs
  · exact w_dispatch (h_resource rfl ⟨d, hg⟩ hs) hs
  all_goals exact w_send rfl (fun _ => ⟨hlive, hg⟩) hs

theorem cache_branch {x : Trid} {t : Trid} {c} {s : State} (h : find x.g s.cache = some t) (hs : W s) :
    t.g = x.g ∧ (∃ c', .gotBranch c' t ∈ s.log) ∧ Branch c (some x) (some t) s.log := by
  obtain ⟨a, ha, h1, h2⟩ := find_some h
  obtain ⟨h3, h4, _⟩ := hs.cache a ha
  rw [h2] at h3 h4
  exact ⟨h3.trans h1, h4, Or.inr ⟨t, rfl, Or.inr ⟨x, rfl, h3.trans h1, h4⟩⟩⟩

theorem w_serviceRequest {k d c x s} (hk : isService k = true) (hc : connected d s = true)
    (hr : .req d c k x ∈ s.log) (hs : W s) : W (serviceRequest k d c x s) := by
  have hlive : live d s.log = true := by rw [← hs.live]; exact hc
  have h1 : W (emit (.askService d c) s) := w_emit rfl ⟨hlive, k, x, hk, hr⟩ hs
  have hnq : isQueue k = false := by revert hk; cases k <;> simp [isService, isQueue]
  have hkd : k ≠ .discovery := by intro h; rw [h] at hk; cases hk
  unfold serviceRequest
  dsimp only
  split
  · exact w_add hc ⟨List.mem_cons_of_mem _ hr, hkd, fun _ => ⟨List.mem_cons_self .., fun p hp => (by cases hp)⟩,
      fun hq => (by rw [hnq] at hq; cases hq), Or.inl (Or.inl ⟨rfl, rfl⟩)⟩ h1
  · rename_i x
    split
    · rename_i t hf
      refine w_add (s := { emit (.askService d c) s with cache := _ }) hc
        ⟨List.mem_cons_of_mem _ hr, hkd, fun _ => ⟨List.mem_cons_self .., fun p hp => (by cases hp)⟩,
        fun hq => (by rw [hnq] at hq; cases hq), Or.inl ?_⟩ (w_join hc h1)
      exact (cache_branch hf h1).2.2
    · refine w_add hc ⟨List.mem_cons_of_mem _ (List.mem_cons_of_mem _ hr), hkd,
        fun _ => ⟨List.mem_cons_of_mem _ (List.mem_cons_self ..), fun p hp => (by cases hp)⟩,
        fun hq => (by rw [hnq] at hq; cases hq), Or.inr (Or.inl ⟨rfl, by simp, fun hq => (by rw [hnq] at hq; cases hq)⟩)⟩ ?_
      exact w_emit rfl ⟨hlive, k, x, List.mem_cons_of_mem _ hr, rfl⟩ h1

theorem w_queueRequest {k d c x qm s} (hk : isQueue k = true) (hc : connected d s = true)
    (hr : .req d c k x ∈ s.log) (hs : W s) : W (queueRequest k d c x qm s) := by
  have hlive : live d s.log = true := by rw [← hs.live]; exact hc
  have hns : isService k = false := by revert hk; cases k <;> simp [isService, isQueue]
  have hkd : k ≠ .discovery := by intro h; rw [h] at hk; cases hk
  unfold queueRequest
  dsimp only
  generalize hs1 : (if qm = true then emit (.askQueue d c) s else s) = s1
  have h1 : W s1 := by
    rw [← hs1]; split
    · exact w_emit rfl ⟨hlive, k, x, hk, hr⟩ hs
    · exact hs
  have hc1 : connected d s1 = true := by rw [← hs1]; split <;> exact hc
  have hr1 : .req d c k x ∈ s1.log := by
    rw [← hs1]; split
    · exact List.mem_cons_of_mem _ hr
    · exact hr
  have hlive1 : live d s1.log = true := by rw [← h1.live]; exact hc1
  split
  · exact w_add hc1 ⟨hr1, hkd, fun h => (by rw [hns] at h; cases h), fun _ p hp => (by cases hp), Or.inl (Or.inl ⟨rfl, rfl⟩)⟩ h1
  · rename_i x
    split
    · rename_i t hf
      refine w_add (s := { s1 with cache := _ }) hc1 ⟨hr1, hkd, fun h => (by rw [hns] at h; cases h), fun _ p hp => (by cases hp), Or.inl ?_⟩ (w_join hc1 h1)
      exact (cache_branch hf h1).2.2
    · refine w_add hc1 ⟨List.mem_cons_of_mem _ hr1, hkd, fun h => (by rw [hns] at h; cases h), fun _ p hp => (by cases hp),
        Or.inr (Or.inl ⟨rfl, by simp, fun _ => rfl⟩)⟩ ?_
      exact w_emit rfl ⟨hlive1, k, x, hr1, rfl⟩ h1

theorem w_resourceRequest {k d c x s} (hk : isResource k = true) (hc : connected d s = true)
    (hr : .req d c k x ∈ s.log) (hs : W s) : W (resourceRequest k d c x s) := by
  have hlive : live d s.log = true := by rw [← hs.live]; exact hc
  have hns : isService k = false := by revert hk; cases k <;> simp [isService, isResource]
  have hnq : isQueue k = false := by revert hk; cases k <;> simp [isQueue, isResource]
  have hkd : k ≠ .discovery := by intro h; rw [h] at hk; cases hk
  unfold resourceRequest
  split
  · rename_i t hf
    rw [Option.bind_eq_some_iff] at hf
    obtain ⟨x', rfl, hf⟩ := hf
    have hb := cache_branch (c := c) hf hs
    refine w_add hc ⟨List.mem_cons_of_mem _ hr, hkd, fun h => (by rw [hns] at h; cases h), fun h => (by rw [hnq] at h; cases h),
      Or.inl (hb.2.2.mono fun o ho => List.mem_cons_of_mem _ ho)⟩ ?_
    exact w_emit rfl ⟨hlive, x', hr, hb.1, hb.2.1⟩ hs
  · refine w_add (by rw [connected_congr (fake_conns ..)]; exact hc) ⟨fake_mem hr, hkd, fun h => (by rw [hns] at h; cases h),
      fun h => (by rw [hnq] at h; cases h), Or.inr (Or.inr ⟨hk, rfl⟩)⟩ (w_fake (fun _ => ⟨hlive, ?_⟩) hs)
    rw [hns, hk]; exact Or.inl ⟨x, rfl, hr⟩

theorem w_request {k d c x qm s} (hc : connected d s = true) (hr : .req d c k x ∈ s.log) (hs : W s) :
    W (request k d c x qm s) := by
  unfold request
  split
  · exact w_serviceRequest rfl hc hr hs
  · exact w_serviceRequest rfl hc hr hs
  · exact w_serviceRequest rfl hc hr hs
  · exact w_queueRequest rfl hc hr hs
  · exact w_queueRequest rfl hc hr hs
  · exact w_resourceRequest rfl hc hr hs
  · exact w_resourceRequest rfl hc hr hs
  · exact w_resourceRequest rfl hc hr hs
  · exact w_emit rfl ⟨by rw [← hs.live]; exact hc, x, hr⟩ hs

theorem w_disconnect {ok d s} (hs : W s) : W (disconnect ok d s) := by
  unfold disconnect; split
  · exact hs
  · split
    · exact w_send rfl (fun h => by show live d s.log = true; rw [← hs.live]; exact h) hs
    · exact w_lost hs

theorem w_apply {e s} (hs : W s) : W (apply e s) := by
  cases e <;> simp only [apply]
  case connect d m =>
    split
    · exact hs
    · rename_i hn
      have hcon : ∀ d', connected d' { s with conns := s.conns ++ [⟨d, m⟩] } = (connected d' s || d == d') := by
        intro d'; simp [connected, List.any_append]
      constructor
      · intro d'
        show connected d' { s with conns := s.conns ++ [⟨d, m⟩] } = live d' (.connected d :: s.log)
        rw [hcon, hs.live]; simp only [live]; rw [Bool.or_comm]
      · exact ⟨trivial, hs.good⟩
      · intro t ht
        show connected t.key { s with conns := s.conns ++ [⟨d, m⟩] } = true
        rw [hcon, hs.keys t ht]; rfl
      · intro t ht; exact (hs.tasks t ht).mono fun o ho => List.mem_cons_of_mem _ ho
      · intro a ha
        obtain ⟨h1, ⟨c, h2⟩, h3⟩ := hs.cache a ha
        refine ⟨h1, ⟨c, List.mem_cons_of_mem _ h2⟩, fun x hx => ?_⟩
        show connected x { s with conns := s.conns ++ [⟨d, m⟩] } = true
        rw [hcon, h3 x hx]; rfl
      · intro u hu
        refine ⟨List.mem_cons_of_mem _ (hs.inbox u hu).1, ?_⟩
        show connected u.d { s with conns := s.conns ++ [⟨d, m⟩] } = true
        rw [hcon, (hs.inbox u hu).2]; rfl
  case request k d c x qm =>
    exact on_ind hs fun h => w_request h (List.mem_cons_self ..) (w_emit rfl trivial hs)
  case say d c data => exact on_ind hs fun _ => w_dispatch (h_say hs) hs
  case hangup d c => exact on_ind hs fun _ => w_dispatch (h_hangup hs) hs
  case closing d =>
    refine on_ind hs fun h => ?_
    have h1 : W (emit (.closing d) s) := w_emit rfl trivial hs
    unfold closing; split
    · exact w_lost h1
    · exact w_sub (s := emit (.closing d) s) rfl (fun _ h => h) rfl (fun _ h => h) rfl h1
  case broken d => exact on_ind hs fun _ => w_lost hs
  case service d c l =>
    have h1 : W (emit (.gotService c l) s) := w_emit rfl trivial hs
    exact on_ind hs fun _ => w_dispatch (h_service (List.mem_cons_self ..) h1) h1
  case queueAt d c p =>
    have h1 : W (emit (.gotQueue c p) s) := w_emit rfl trivial hs
    exact on_ind hs fun _ => w_dispatch (h_queue (List.mem_cons_self ..) h1) h1
  case branch d c t =>
    have h1 : W (emit (.gotBranch c t) s) := w_emit rfl trivial hs
    exact on_ind hs fun _ => w_dispatch (h_branch (List.mem_cons_self ..) h1) h1
  case answer d c k r ok =>
    have h1 : W (emit (.got d c k r) s) := w_emit rfl trivial hs
    exact on_ind hs fun h => w_answer h (Or.inl (List.mem_cons_self ..)) h1
  case localSay d c data t ok =>
    refine on_ind hs fun h => ?_
    unfold localSay
    have h1 : W (send ok d (.toRemote d c data t) s) :=
      w_send rfl (fun h => by show live d s.log = true; rw [← hs.live]; exact h) hs
    dsimp only
    split
    · exact w_sub (s := send ok d (.toRemote d c data t) s) rfl (fun u hu => (List.mem_filter.mp hu).1) rfl (fun _ h => h) rfl h1
    · exact h1
  case own i ok =>
    split
    · exact hs
    · rename_i m hm
      have hmem := List.mem_of_getElem? hm
      obtain ⟨h1, h2⟩ := hs.inbox m hmem
      have h3 : W { s with inbox := s.inbox.eraseIdx i } :=
        w_sub (s := s) rfl (fun _ h => h) rfl (fun u hu => List.mem_of_mem_eraseIdx hu) rfl hs
      exact w_answer h2 (Or.inr h1) h3
  case undeliverable d c k =>
    have h1 : W (emit (.undelivered d c k) s) := w_emit rfl trivial hs
    refine w_fake (fun h => ⟨by rw [← h1.live]; exact h, ?_⟩) h1
    cases k <;> simp [replyKind, isService, isResource, unreachable]
  case disassociate g =>
    have h1 : W (emit (.disassociate g) s) := w_emit rfl trivial hs
    exact ⟨h1.live, h1.good, h1.keys, h1.tasks, fun a ha => h1.cache a (List.mem_filter.mp ha).1, h1.inbox⟩
  case disconnect d ok => exact w_disconnect hs
  case idle =>
    unfold idle
    have : ∀ (xs : List Nat) (s : State), W s → W (xs.foldl (fun s d => lost d s) s) := by
      intro xs; induction xs with
      | nil => intro s h; exact h
      | cons x xs ih => intro s h; exact ih _ (w_lost h)
    exact this _ _ (w_sub (s := s) rfl (fun _ h => h) rfl (fun _ h => h) rfl hs)
  case shutdown bad =>
    unfold shutdown
    have : ∀ (xs : List Nat) (s : State), W s → W (xs.foldl (fun s d => disconnect (!bad.contains d) d s) s) := by
      intro xs; induction xs with
      | nil => intro s h; exact h
      | cons x xs ih => intro s h; exact ih _ (w_disconnect h)
    exact this _ _ (w_sub (s := s) rfl (fun _ h => h) rfl (fun _ h => h) rfl hs)

theorem w_run (es : List Event) : W (run es) :=
  inv_run ⟨fun _ => rfl, trivial, by simp, by simp, by simp, by simp⟩ (fun _ _ _ h => w_apply h) es

theorem whys_at {o : Obs} {a b l : List Obs} (h : Whys l) (he : l = a ++ o :: b) : why o b := by
  subst he
  induction a with
  | nil => exact h.1
  | cons x a ih => exact ih h.2

end Casual.Gateway.In

import Verif.Queue.GroupWire

/-! Each dequeue request is settled once. -/
namespace Casual.Queue

/-- The reply settles the dequeue request with the correlation it is sent with: an answer, or the confirmation that the
request is discarded, or (at shutdown) the word that it is. -/
def Reply.settles : Reply → Bool
  | .dequeued _ _ => true
  | .noMessage => true
  | .dequeueFailed => true
  | .forgotten b => b
  | .forget => true
  | _ => false

def Ev.settles (c : Nat) : Ev → Bool
  | .send _ c' r => c' == c && r.settles
  | _ => false

/-- A dequeue request with correlation `c` arrives. -/
def Ev.asks (c : Nat) : Ev → Bool
  | .recv (.dequeue req _) => req.corr == c
  | _ => false

/-- Settled requests plus blocked requests, for one correlation. -/
def acct (c : Nat) (g : Group) : Nat := g.tr.countP (Ev.settles c) + g.dequeues.countP fun r => r.corr == c

theorem acct_congr {c : Nat} {g g' : Group} (h1 : g'.tr = g.tr) (h2 : g'.dequeues = g.dequeues) : acct c g' = acct c g := by
  unfold acct; rw [h1, h2]

theorem acct_emit (c : Nat) (g : Group) (e : Ev) : acct c (g.emit e) = acct c g + if e.settles c then 1 else 0 := by
  unfold acct Group.emit
  simp only [List.countP_append, List.countP_singleton]; omega

theorem acct_send (c : Nat) (g : Group) (p c' r) : acct c (g.send p c' r) = acct c g + if c' == c && r.settles then 1 else 0 :=
  acct_emit c g _

theorem acct_involve (c : Nat) (g : Group) (t) : acct c (g.involve t) = acct c g := by
  unfold Group.involve
  split
  · rfl
  · show acct c (g.emit (.involve t)) = _
    rw [acct_emit]; simp [Ev.settles]

theorem acct_tick (c : Nat) (g : Group) (now) : acct c (g.tick now) = acct c g :=
  acct_congr (dequeues_tick g now).2.2 (dequeues_tick g now).1

theorem acct_dequeueOne (c : Nat) (g : Group) (req now) :
    acct c (g.dequeueOne req now).1 = acct c g + if req.corr == c then 1 else 0 := by
  unfold Group.dequeueOne
  split
  · simp [acct_send, Reply.settles]
  · split
    · dsimp only
      split
      · rw [acct_send, acct_involve]
        simp only [Reply.settles, Bool.and_true]
        rfl
      · rw [acct_send]
        simp only [Reply.settles, Bool.and_true]
        rfl
    · next q _ _ _ =>
      split
      · have key : ∀ g' : Group, g'.tr = g.tr → g'.dequeues = g.dequeues →
            acct c { g' with dequeues := g'.dequeues ++ [{ req with queue := q }] } = acct c g + if req.corr == c then 1 else 0 := by
          intro g' h1 h2
          unfold acct
          simp only [h1, h2, List.countP_append, List.countP_singleton]; omega
        dsimp only
        split
        · exact key _ (dequeues_arm g _ _).2.2 (dequeues_arm g _ _).1
        · exact key g rfl rfl
      · simp [acct_send, Reply.settles]

theorem acct_serve (c : Nat) {now : Time} {rs : List DeqReq} (g : Group) (count) :
    acct c (g.serve now count rs) = acct c g + rs.countP fun r => r.corr == c := by
  induction rs generalizing g count with
  | nil => simp [Group.serve]
  | cons r rs ih =>
    unfold Group.serve
    split
    · unfold acct
      simp only [List.countP_append]; omega
    · dsimp only
      rw [ih, acct_dequeueOne, List.countP_cons]; omega

theorem countP_disjoint (p : DeqReq → Bool) (l : List Available) (hl : (l.map (·.queue)).Nodup) (rs : List DeqReq) :
    (l.map fun a => (rs.filter fun r => a.queue == r.queue).countP p).sum = (rs.filter fun r => l.any fun a => a.queue == r.queue).countP p := by
  induction l with
  | nil => induction rs with
    | nil => rfl
    | cons r rs ih => simpa using ih
  | cons a l ih =>
    simp only [List.map_cons, List.nodup_cons, List.mem_map, not_exists, not_and] at hl
    simp only [List.map_cons, List.sum_cons, ih hl.2]
    clear ih
    induction rs with
    | nil => simp
    | cons r rs ih =>
      simp only [List.filter_cons, List.any_cons] at ih ⊢
      by_cases h1 : a.queue = r.queue
      · have h2 : (l.any fun b => b.queue == r.queue) = false := by
          rw [List.any_eq_false]
          intro b hb
          have := hl.1 b hb
          simp; omega
        simp only [h1, h2, BEq.rfl, if_true, Bool.true_or, List.countP_cons] at ih ⊢
        simp only [Bool.false_eq_true, if_false] at ih ⊢
        omega
      · have h3 : (a.queue == r.queue) = false := by simpa using h1
        simp only [h3, Bool.false_or, Bool.false_eq_true, if_false]
        cases h4 : l.any fun b => b.queue == r.queue
        · simpa using ih
        · simp only [if_true, List.countP_cons]; omega

theorem nodup_availables {db : DB} (h : Inv db) (qs) (p : Available → Bool) : (((db.availables qs).filter p).map (·.queue)).Nodup := by
  have h1 := h.paired.nodup
  unfold DB.availables
  refine List.Sublist.nodup (l₂ := db.queues.map (·.id)) ?_ h1
  refine List.Sublist.trans ((List.filter_sublist).map _) ?_
  rw [List.map_map]
  exact ((List.filter_sublist).trans List.filter_sublist).map _

theorem countP_split (p q : DeqReq → Bool) (l : List DeqReq) : l.countP p = (l.filter fun r => !q r).countP p + (l.filter q).countP p := by
  induction l with
  | nil => rfl
  | cons r l ih =>
    cases h : q r <;> simp [h, List.countP_cons, ih] <;> omega

theorem acct_pending (c : Nat) {g : Group} (hi : Inv g.db) (now) : acct c (g.pendingDequeues now) = acct c g := by
  unfold Group.pendingDequeues
  split
  · rfl
  · dsimp only
    have key : ∀ (l : List Available) (rs : Available → List DeqReq) (g : Group), acct c (l.foldl (fun g a => g.serve now a.count (rs a)) g) =
        acct c g + (l.map fun a => (rs a).countP fun r => r.corr == c).sum := by
      intro l rs
      induction l with
      | nil => simp
      | cons a l ih =>
        intro g
        simp only [List.foldl_cons, List.map_cons, List.sum_cons]
        rw [ih, acct_serve]; omega
    have hnd := nodup_availables hi (g.dequeues.map (·.queue)) (fun a => decide (a.when_ ≤ now))
    generalize List.filter (fun a => decide (a.when_ ≤ now)) (g.db.availables (g.dequeues.map (·.queue))) = l at hnd ⊢
    have hk := key l (fun a => (g.dequeues.filter fun r => l.any fun a => a.queue == r.queue).filter fun r => a.queue == r.queue)
      { g with dequeues := g.dequeues.filter fun r => !l.any fun a => a.queue == r.queue }
    have hd := countP_disjoint (fun r => r.corr == c) l hnd (g.dequeues.filter fun r => l.any fun a => a.queue == r.queue)
    rw [List.filter_filter] at hd
    simp only [Bool.and_self] at hd
    have hs := countP_split (fun r => r.corr == c) (fun r => l.any fun a => a.queue == r.queue) g.dequeues
    have : acct c (l.foldl (fun g_1 a => g_1.serve now a.count ((g.dequeues.filter fun r => l.any fun a => a.queue == r.queue).filter fun r => a.queue == r.queue))
        { g with dequeues := g.dequeues.filter fun r => !l.any fun a => a.queue == r.queue }) = acct c g := by
      rw [hk, hd]
      unfold acct
      dsimp only
      omega
    split
    · rw [acct_congr (dequeues_setTimer _ _ _).2.2 (dequeues_setTimer _ _ _).1]; exact this
    · exact this

/-- The replies kept settle no dequeue request. -/
def Unsettling (g : Group) : Prop := ∀ p c r, (p, c, r) ∈ g.replies → r.settles = false

theorem acct_flush (c : Nat) {g : Group} (hu : Unsettling g) : acct c g.flush = acct c g := by
  unfold Group.flush
  split
  · rfl
  · unfold acct
    simp only [List.countP_append]
    have : List.countP (Ev.settles c) (g.replies.map fun r => .send r.1 r.2.1 r.2.2) = 0 := by
      rw [List.countP_eq_zero]
      intro e he
      rw [List.mem_map] at he
      obtain ⟨⟨p, c', r⟩, h1, rfl⟩ := he
      simp [Ev.settles, hu p c' r h1]
    rw [this]; rfl

theorem acct_persist (c : Nat) {g : Group} (hi : Inv g.db) (hu : Unsettling g) (now) : acct c (g.persist now) = acct c g := by
  rw [persist_eq, acct_pending, acct_flush c hu]
  unfold Group.flush; split <;> exact hi

theorem acct_persistentReply (c : Nat) {g : Group} (hi : Inv g.db) (hu : Unsettling g) (p c' r now) (hr : r.settles = false) :
    acct c (g.persistentReply p c' r now) = acct c g := by
  unfold Group.persistentReply
  dsimp only
  split
  · rw [acct_persist c (g := { g with replies := g.replies ++ [(p, c', r)] }) hi]
    · rfl
    · intro p1 c1 r1 hm
      rcases List.mem_append.mp hm with hm | hm
      · exact hu _ _ _ hm
      · simp only [List.mem_singleton, Prod.mk.injEq] at hm
        obtain ⟨rfl, rfl, rfl⟩ := hm
        exact hr
  · rfl

/-- `replies` after each function. -/
theorem replies_pending (g : Group) (now) : (g.pendingDequeues now).replies = g.replies := by
  have h1 : ∀ (g : Group) req, (g.dequeueOne req now).1.replies = g.replies := by
    intro g req
    unfold Group.dequeueOne
    split
    · rfl
    · split
      · dsimp only
        split
        · exact (same_involve _ _).replies
        · rfl
      · split
        · dsimp only
          split
          · exact (same_arm _ _ _).replies
          · rfl
        · rfl
  have h2 : ∀ (rs : List DeqReq) (g : Group) count, (g.serve now count rs).replies = g.replies := by
    intro rs
    induction rs with
    | nil => exact fun g _ => rfl
    | cons r rs ih =>
      intro g count
      unfold Group.serve
      split
      · rfl
      · exact (ih _ _).trans (h1 g r)
  unfold Group.pendingDequeues
  split
  · rfl
  · dsimp only
    have key : ∀ (l : List Available) (rs : Available → List DeqReq) (g : Group), (l.foldl (fun g a => g.serve now a.count (rs a)) g).replies = g.replies := by
      intro l rs
      induction l with
      | nil => exact fun g => rfl
      | cons a l ih => exact fun g => (ih _).trans (h2 _ g _)
    split
    · rw [(same_setTimer _ _ _).replies]; exact key _ (fun _ => List.filter _ _) _
    · exact key _ (fun _ => List.filter _ _) _

theorem replies_dequeueOne (g : Group) (req now) : (g.dequeueOne req now).1.replies = g.replies := by
  unfold Group.dequeueOne
  split
  · rfl
  · split
    · dsimp only
      split
      · exact (same_involve _ _).replies
      · rfl
    · split
      · dsimp only
        split
        · exact (same_arm _ _ _).replies
        · rfl
      · rfl

theorem replies_persist (g : Group) (now) : ∀ x ∈ (g.persist now).replies, x ∈ g.replies := by
  intro x hx
  rw [persist_eq, replies_pending] at hx
  unfold Group.flush at hx
  split at hx
  · exact hx
  · simp at hx

theorem replies_persistentReply (g : Group) (p c r now) : ∀ x ∈ (g.persistentReply p c r now).replies, x ∈ g.replies ∨ x = (p, c, r) := by
  intro x hx
  unfold Group.persistentReply at hx
  dsimp only at hx
  have : x ∈ g.replies ++ [(p, c, r)] := by
    split at hx
    · exact replies_persist _ now x hx
    · exact hx
  simpa using this

theorem replies_applyAll {α : Type} (g : Group) (f : α → Op) (l : List α) : (l.foldl (fun g q => g.apply (f q)) g).replies = g.replies := by
  induction l generalizing g with
  | nil => rfl
  | cons a l ih => exact ih _

theorem dequeues_applyAll {α : Type} (g : Group) (f : α → Op) (l : List α) :
    (l.foldl (fun g q => g.apply (f q)) g).dequeues = g.dequeues ∧ (l.foldl (fun g q => g.apply (f q)) g).tr = g.tr := by
  induction l generalizing g with
  | nil => exact ⟨rfl, rfl⟩
  | cons a l ih => exact ih _

/-- Where the replies kept come from. -/
theorem replies_handle (g : Group) (i : In) : ∀ x ∈ (g.handle i).replies, x ∈ g.replies ∨
    (∃ p c id queue name a b now, i = .enqueue p c id queue name none a b now ∧ x = (p, c, .enqueued none id)) ∨
    (∃ p c t now, i = .commit p c t now ∧ x = (p, c, .committed t)) ∨
    (∃ p c t now, i = .rollback p c t now ∧ x = (p, c, .rolledBack t)) := by
  intro x hx
  cases i with
  | configure p c conf cap now =>
    left
    simp only [Group.handle, Group.configure] at hx
    split at hx
    · exact hx
    · simp [Group.crash, Group.init] at hx
  | enqueue p c id queue name trid a b now =>
    simp only [Group.handle, Group.enqueue] at hx
    split at hx
    · split at hx
      · exact Or.inl hx
      · split at hx
        · exact Or.inl hx
        · split at hx
          · left
            have : x ∈ (Group.involve _ _).replies := hx
            rw [(same_involve _ _).replies] at this
            exact this
          · rcases replies_persistentReply _ _ _ _ _ x hx with h | h
            · exact Or.inl h
            · exact Or.inr (Or.inl ⟨p, c, id, queue, name, a, b, now, rfl, h⟩)
    · exact Or.inl hx
  | dequeue req now =>
    left
    simp only [Group.handle] at hx
    rw [replies_dequeueOne, (same_tick g now).replies] at hx; exact hx
  | forget p c => left; simp only [Group.handle, Group.forget] at hx; split at hx <;> exact hx
  | timeout now =>
    left
    simp only [Group.handle] at hx
    split at hx
    · rw [replies_pending] at hx; rw [← (same_tick g now).replies]; exact hx
    · rw [← (same_tick g now).replies]; exact hx
  | prepare p c t => exact Or.inl hx
  | commit p c t now =>
    simp only [Group.handle, Group.commit] at hx
    rcases replies_persistentReply _ _ _ _ _ x hx with h | h
    · left; rw [← (same_tick g now).replies]; exact h
    · exact Or.inr (Or.inr (Or.inl ⟨p, c, t, now, rfl, h⟩))
  | rollback p c t now =>
    simp only [Group.handle, Group.rollback] at hx
    rcases replies_persistentReply _ _ _ _ _ x hx with h | h
    · left; rw [← (same_tick g now).replies]; exact h
    · exact Or.inr (Or.inr (Or.inr ⟨p, c, t, now, rfl, h⟩))
  | restore qs now =>
    left
    simp only [Group.handle] at hx
    rw [replies_pending] at hx
    have : x ∈ (List.foldl (fun g q => g.apply (.restore q)) (g.tick now) qs).replies := hx
    rw [replies_applyAll _ (fun q => .restore q), (same_tick g now).replies] at this
    exact this
  | clear qs =>
    left
    have : x ∈ (List.foldl (fun g q => g.apply (.clear q)) g qs).replies := hx
    rw [replies_applyAll _ (fun q => .clear q)] at this
    exact this
  | remove q ids force => exact Or.inl hx
  | recovery c ts now => left; simp only [Group.handle, Group.recovery] at hx; split at hx <;> exact hx
  | metricReset qs => exact Or.inl hx
  | exit p => left; simp only [Group.handle] at hx; exact (List.mem_filter.mp hx).1
  | shutdown now =>
    left
    have : x ∈ ((g.tick now).persist now).replies := hx
    rw [← (same_tick g now).replies]; exact replies_persist _ _ x this
  | idle now => left; rw [← (same_tick g now).replies]; exact replies_persist _ _ x hx
  | crash => simp [Group.handle, Group.crash, Group.init] at hx

theorem unsettling_run (is : List In) : Unsettling (Group.init.run is) := by
  induction is using snocInd with
  | nil => intro p c r hr; simp [Group.run, Group.init] at hr
  | snoc is i ih =>
    rw [run_snoc']
    intro p c r hr
    rcases step_cases (Group.init.run is) i with ⟨he, -⟩ | ⟨he, -⟩ <;> rw [he] at hr
    · rcases replies_handle _ i _ hr with h | ⟨p', c', id, queue, name, a, b, now, -, h⟩ | ⟨p', c', t, now, -, h⟩ | ⟨p', c', t, now, -, h⟩
      · exact ih p c r h
      all_goals simp only [Prod.mk.injEq] at h; rw [h.2.2]; rfl
    · exact ih p c r hr

/-- Handling a message settles or blocks what it asks for, and otherwise moves requests from blocked to settled only; if a
client or the process has ended, requests may be gone. -/
theorem acct_handle (c : Nat) {g : Group} (hi : Inv g.db) (hu : Unsettling g) (i : In) :
    acct c (g.handle i) ≤ acct c g + (if (Ev.recv i).asks c then 1 else 0) ∧
    ((g.handle i).up = true → (∀ p, i ≠ .exit p) → acct c (g.handle i) = acct c g + if (Ev.recv i).asks c then 1 else 0) := by
  have hut : ∀ now, Unsettling (g.tick now) := by
    intro now p c r hr; rw [(same_tick g now).replies] at hr; exact hu p c r hr
  have hit : ∀ now, Inv (g.tick now).db := by intro now; rw [(same_tick g now).db]; exact hi
  have eq : ∀ g' : Group, acct c g' = acct c g + (if (Ev.recv i).asks c then 1 else 0) → (acct c g' ≤ acct c g + (if (Ev.recv i).asks c then 1 else 0) ∧
    (g'.up = true → (∀ p, i ≠ .exit p) → acct c g' = acct c g + if (Ev.recv i).asks c then 1 else 0)) := by
    intro g' h; exact ⟨by omega, fun _ _ => h⟩
  cases i with
  | configure p c' conf cap now =>
    simp only [Group.handle, Group.configure]
    split
    · apply eq
      show acct c (Group.send _ p c' _) = _
      rw [acct_send]
      simp only [Reply.settles, Ev.asks, Bool.and_false, Bool.false_eq_true, if_false]
      rfl
    · refine ⟨?_, by simp [Group.crash, Group.init]⟩
      have h1 := acct_persist c (g := { g.sync with capacity := cap, up := true }) hi hu now
      have h2 : acct c ({ g.sync with capacity := cap, up := true } : Group) = acct c g := rfl
      rw [← h2, ← h1]
      unfold acct
      simp [Group.crash, Group.init, Ev.asks, Group.sync]
  | enqueue p c' id queue name trid a b now =>
    apply eq
    simp only [Ev.asks, Bool.false_eq_true, if_false]
    simp only [Group.handle, Group.enqueue]
    split
    · split
      · rw [acct_send]; simp [Reply.settles]
      · split
        · rw [acct_send]; simp [Reply.settles]
        · next q _ _ _ =>
          split
          · rw [acct_send, acct_involve]; simp only [Reply.settles, Bool.and_false, Bool.false_eq_true, if_false]; rfl
          · refine (acct_persistentReply c ?_ ?_ _ _ _ _ rfl).trans rfl
            · exact hi.step (.enqueue id q none a b now)
            · exact hu
    · rw [acct_send]; simp [Reply.settles]
  | dequeue req now =>
    apply eq
    simp only [Group.handle]
    rw [acct_dequeueOne, acct_tick]; rfl
  | forget p c' =>
    apply eq
    simp only [Ev.asks, Bool.false_eq_true, if_false]
    simp only [Group.handle, Group.forget]
    split
    · next hany =>
      rw [acct_send]
      unfold acct
      simp only [Reply.settles, Bool.and_true]
      have hcount : ∀ l : List DeqReq, (l.any fun r => r.corr == c') = true →
          (l.eraseP fun r => r.corr == c').countP (fun r => r.corr == c) + (if (c' == c) = true then 1 else 0) = l.countP fun r => r.corr == c := by
        intro l
        induction l with
        | nil => simp
        | cons r l ih =>
          intro h
          by_cases hr : r.corr = c'
          · subst hr
            simp [List.eraseP_cons, List.countP_cons]
          · have hr' : (r.corr == c') = false := by simpa using hr
            simp only [List.any_cons, hr', Bool.false_or] at h
            rw [List.eraseP_cons, hr']
            simp only [cond_false, List.countP_cons]
            have := ih h
            omega
      have := hcount g.dequeues hany
      omega
    · rw [acct_send]; simp [Reply.settles]
  | timeout now =>
    apply eq
    simp only [Ev.asks, Bool.false_eq_true, if_false]
    simp only [Group.handle]
    split
    · rw [acct_pending c (g := { g.tick now with alarmed := false }) (hit now)]; exact acct_tick c g now
    · exact acct_tick c g now
  | prepare p c' t => apply eq; simp only [Group.handle]; rw [acct_send]; simp [Reply.settles, Ev.asks]
  | commit p c' t now =>
    apply eq
    simp only [Ev.asks, Bool.false_eq_true, if_false]
    simp only [Group.handle, Group.commit]
    refine (acct_persistentReply c ?_ ?_ _ _ _ _ rfl).trans (acct_tick c g now)
    · exact (hit now).step (.commit t.g)
    · exact hut now
  | rollback p c' t now =>
    apply eq
    simp only [Ev.asks, Bool.false_eq_true, if_false]
    simp only [Group.handle, Group.rollback]
    refine (acct_persistentReply c ?_ ?_ _ _ _ _ rfl).trans (acct_tick c g now)
    · exact (hit now).step (.rollback t.g now)
    · exact hut now
  | restore qs now =>
    apply eq
    simp only [Ev.asks, Bool.false_eq_true, if_false]
    simp only [Group.handle]
    have hinv : ∀ (l : List Qid) (g : Group), Inv g.db → Inv (l.foldl (fun g q => g.apply (.restore q)) g).db := by
      intro l
      induction l with
      | nil => exact fun g h => h
      | cons a l ih => exact fun g h => ih _ (h.step (.restore a))
    rw [acct_pending c (show Inv (List.foldl (fun g q => Group.apply g (.restore q)) (g.tick now) qs).sync.db from hinv qs _ (hit now))]
    rw [show acct c (List.foldl (fun g q => g.apply (.restore q)) (g.tick now) qs).sync = acct c (List.foldl (fun g q => g.apply (.restore q)) (g.tick now) qs) from rfl]
    obtain ⟨h1, h2⟩ := dequeues_applyAll (g.tick now) (fun q => .restore q) qs
    rw [acct_congr h2 h1]; exact acct_tick c g now
  | clear qs =>
    apply eq
    simp only [Ev.asks, Bool.false_eq_true, if_false]
    obtain ⟨h1, h2⟩ := dequeues_applyAll g (fun q => .clear q) qs
    exact acct_congr h2 h1
  | remove q ids force => exact eq _ rfl
  | recovery c' ts now => apply eq; simp only [Group.handle, Group.recovery]; split <;> rfl
  | metricReset qs => exact eq _ rfl
  | exit p =>
    refine ⟨?_, fun _ h => absurd rfl (h p)⟩
    simp only [Group.handle, acct, Ev.asks]
    have := (List.filter_sublist (l := g.dequeues) (p := fun r => decide (r.proc ≠ p))).countP_le (p := fun r => r.corr == c)
    omega
  | shutdown now =>
    apply eq
    simp only [Ev.asks, Bool.false_eq_true, if_false]
    simp only [Group.handle, Group.shutdown]
    have h1 := acct_persist c (hit now) (hut now) now
    rw [acct_tick] at h1
    generalize (g.tick now).persist now = g' at h1
    unfold acct at h1 ⊢
    simp only [List.countP_append, List.countP_nil, List.countP_map]
    have : (Ev.settles c ∘ fun r : DeqReq => Ev.send r.proc r.corr Reply.forget) = fun r => r.corr == c := by
      funext r; simp [Ev.settles, Reply.settles]
    rw [this]; omega
  | idle now =>
    apply eq
    simp only [Ev.asks, Bool.false_eq_true, if_false]
    simp only [Group.handle]
    rw [acct_persist c (hit now) (hut now), acct_tick]
    rfl
  | crash =>
    refine ⟨?_, by simp [Group.handle, Group.crash, Group.init]⟩
    simp only [Group.handle, acct, Group.crash, Group.init, List.countP_nil]; omega

theorem acct_step (c : Nat) {g : Group} (hc : Core g) (hu : Unsettling g) (i : In) :
    acct c (g.step i) ≤ acct c g + (if (Ev.recv i).asks c then 1 else 0) ∧
    (g.up = true → (g.step i).up = true → (∀ p, i ≠ .exit p) → acct c (g.step i) = acct c g + if (Ev.recv i).asks c then 1 else 0) := by
  have he : acct c (g.emit (.recv i)) = acct c g := by rw [acct_emit]; simp [Ev.settles]
  rcases step_cases g i with ⟨hs, -⟩ | ⟨hs, hup, -⟩ <;> rw [hs]
  · have := acct_handle c (g := g.emit (.recv i)) hc.inv hu i
    rw [he] at this
    exact ⟨this.1, fun _ => this.2⟩
  · rw [he]
    refine ⟨by omega, ?_⟩
    intro h; rw [hup] at h; simp at h

/-- The requests the group gets with its input. -/
theorem acct_run (c : Nat) (is : List In) : acct c (Group.init.run is) ≤ (is.map Ev.recv).countP (Ev.asks c) := by
  induction is using snocInd with
  | nil => simp [acct, Group.run, Group.init]
  | snoc is i ih =>
    have := (acct_step c (core is) (unsettling_run is) i).1
    rw [run_snoc', List.map_append, List.countP_append]
    simp only [List.map_cons, List.map_nil, List.countP_singleton]
    omega

end Casual.Queue

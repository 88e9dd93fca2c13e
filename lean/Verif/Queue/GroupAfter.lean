import Verif.Queue.GroupCount

/-! What happens after some point in time: what is sent to whom, and what gets on disk. -/
namespace Casual.Queue

/-- The event is a message to process `p`. -/
def Ev.goesTo (p : Option Nat) : Ev → Bool
  | .send p' _ _ => some p' == p
  | _ => false

/-- The process a message comes from, if it expects an answer. -/
def In.from? : In → Option Nat
  | .configure p _ _ _ _ => some p
  | .enqueue p _ _ _ _ _ _ _ _ => some p
  | .dequeue req _ => some req.proc
  | .forget p _ => some p
  | .prepare p _ _ => some p
  | .commit p _ _ _ => some p
  | .rollback p _ _ _ => some p
  | _ => none

/-- Since the trace was `tr0` and the operations `ops0`: nothing was sent to `p`, and nothing that promises something unless
`ops0` is on disk. -/
structure After (tr0 : List Ev) (ops0 : List Op) (p : Option Nat) (g : Group) : Prop where
  ops : ops0 <+: g.ops
  tr : ∃ es, g.tr = tr0 ++ es ∧ (ops0 <+: g.diskOps ∨ ∀ e ∈ es, e.free = true) ∧ ∀ e ∈ es, e.goesTo p = false
  deq : ∀ r ∈ g.dequeues, some r.proc ≠ p
  rep : ∀ x ∈ g.replies, some x.1 ≠ p

variable {tr0 : List Ev} {ops0 : List Op} {p : Option Nat}

theorem After.emit {g : Group} (h : After tr0 ops0 p g) (e : Ev) (h1 : e.free = true) (h2 : e.goesTo p = false) : After tr0 ops0 p (g.emit e) := by
  obtain ⟨es, ht, hf, hg⟩ := h.tr
  refine ⟨h.ops, ⟨es ++ [e], by simp [Group.emit, ht], ?_, ?_⟩, h.deq, h.rep⟩
  · rcases hf with hf | hf
    · exact Or.inl hf
    · right
      intro x hx
      rcases List.mem_append.mp hx with hx | hx
      · exact hf x hx
      · simp at hx; subst hx; exact h1
  · intro x hx
    rcases List.mem_append.mp hx with hx | hx
    · exact hg x hx
    · simp at hx; subst hx; exact h2

theorem After.send {g : Group} (h : After tr0 ops0 p g) (q c r) (h1 : r.free = true) (h2 : some q ≠ p) : After tr0 ops0 p (g.send q c r) :=
  h.emit _ h1 (by simpa [Ev.goesTo] using h2)

theorem After.frame {g g' : Group} (h : After tr0 ops0 p g) (h1 : g'.ops = g.ops) (h2 : g'.diskOps = g.diskOps) (h3 : g'.tr = g.tr)
    (h4 : ∀ r ∈ g'.dequeues, r ∈ g.dequeues) (h5 : ∀ x ∈ g'.replies, x ∈ g.replies) : After tr0 ops0 p g' := by
  refine ⟨by rw [h1]; exact h.ops, by rw [h2, h3]; exact h.tr, fun r hr => h.deq r (h4 r hr), fun x hx => h.rep x (h5 x hx)⟩

theorem After.apply {g : Group} (h : After tr0 ops0 p g) (op) : After tr0 ops0 p (g.apply op) :=
  ⟨h.ops.trans (List.prefix_append _ _), h.tr, h.deq, h.rep⟩

theorem After.current {g : Group} (h : After tr0 ops0 p g) (n) : After tr0 ops0 p { g with current := n } := ⟨h.ops, h.tr, h.deq, h.rep⟩

theorem After.sync {g : Group} (h : After tr0 ops0 p g) : After tr0 ops0 p g.sync := by
  obtain ⟨es, ht, -, hg⟩ := h.tr
  exact ⟨h.ops, ⟨es, ht, Or.inl h.ops, hg⟩, h.deq, h.rep⟩

theorem After.involve {g : Group} (h : After tr0 ops0 p g) (t) : After tr0 ops0 p (g.involve t) := by
  unfold Group.involve
  split
  · exact h
  · have := h.emit (.involve t) rfl rfl
    exact ⟨this.ops, this.tr, this.deq, this.rep⟩

theorem After.setTimer {g : Group} (h : After tr0 ops0 p g) (a now) : After tr0 ops0 p (g.setTimer a now) := by
  unfold Group.setTimer; split <;> exact ⟨h.ops, h.tr, h.deq, h.rep⟩

theorem After.arm {g : Group} (h : After tr0 ops0 p g) (a now) : After tr0 ops0 p (g.arm a now) := by
  unfold Group.arm
  split
  · exact h.setTimer _ _
  · split
    · exact h.setTimer _ _
    · exact h

theorem After.tick {g : Group} (h : After tr0 ops0 p g) (now) : After tr0 ops0 p (g.tick now) := by
  unfold Group.tick
  split
  · split
    · exact ⟨h.ops, h.tr, h.deq, h.rep⟩
    · exact h
  · exact h

theorem After.dequeueOne {g : Group} (h : After tr0 ops0 p g) (req now) (hr : some req.proc ≠ p) : After tr0 ops0 p (g.dequeueOne req now).1 := by
  unfold Group.dequeueOne
  split
  · exact h.send _ _ _ rfl hr
  · split
    · dsimp only
      split
      · exact ((h.apply _).involve _).send _ _ _ rfl hr
      · exact ((h.apply _).current _).send _ _ _ rfl hr
    · next q _ _ _ =>
      split
      · have key : ∀ g' : Group, After tr0 ops0 p g' → After tr0 ops0 p { g' with dequeues := g'.dequeues ++ [{ req with queue := q }] } := by
          intro g' h'
          refine ⟨h'.ops, h'.tr, ?_, h'.rep⟩
          intro r hm
          rcases List.mem_append.mp hm with hm | hm
          · exact h'.deq r hm
          · simp at hm; subst hm; exact hr
        dsimp only
        split
        · exact key _ (h.arm _ _)
        · exact key _ h
      · exact h.send _ _ _ rfl hr

theorem After.serve {now : Time} {rs : List DeqReq} {g : Group} (h : After tr0 ops0 p g) (count) (hr : ∀ r ∈ rs, some r.proc ≠ p) :
    After tr0 ops0 p (g.serve now count rs) := by
  induction rs generalizing g count with
  | nil => exact h
  | cons r rs ih =>
    unfold Group.serve
    split
    · refine ⟨h.ops, h.tr, ?_, h.rep⟩
      intro x hx
      rcases List.mem_append.mp hx with hx | hx
      · exact h.deq x hx
      · exact hr x hx
    · exact ih (h.dequeueOne r now (hr r (by simp))) _ fun x hx => hr x (by simp [hx])

theorem After.pendingDequeues {g : Group} (h : After tr0 ops0 p g) (now) : After tr0 ops0 p (g.pendingDequeues now) := by
  unfold Group.pendingDequeues
  split
  · exact h
  · dsimp only
    have key : ∀ (l : List Available) (rs : Available → List DeqReq) (g : Group), After tr0 ops0 p g → (∀ a, ∀ r ∈ rs a, some r.proc ≠ p) →
        After tr0 ops0 p (l.foldl (fun g a => g.serve now a.count (rs a)) g) := by
      intro l rs
      induction l with
      | nil => exact fun g h _ => h
      | cons a l ih => exact fun g h hr => ih _ (h.serve _ (hr a)) hr
    generalize hl : List.filter (fun a => decide (a.when_ ≤ now)) (g.db.availables (g.dequeues.map (·.queue))) = l
    generalize hg : ({ g with dequeues := g.dequeues.filter fun r => !l.any fun a => a.queue == r.queue } : Group) = g1
    have hk := key l (fun a => (g.dequeues.filter fun r => l.any fun a => a.queue == r.queue).filter fun r => a.queue == r.queue)
      g1 (by subst hg; exact h.frame rfl rfl rfl (fun r hr => (List.mem_filter.mp hr).1) fun _ h => h)
      (by intro a r hr; exact h.deq r (List.mem_filter.mp (List.mem_filter.mp hr).1).1)
    split
    · exact hk.setTimer _ _
    · exact hk.frame rfl rfl rfl (fun _ h => h) fun _ h => h

theorem After.flush {g : Group} (h : After tr0 ops0 p g) : After tr0 ops0 p g.flush := by
  unfold Group.flush
  split
  · exact h
  · obtain ⟨es, ht, -, hg⟩ := h.tr
    refine ⟨h.ops, ⟨es ++ g.replies.map fun r => .send r.1 r.2.1 r.2.2, by simp [ht], Or.inl h.ops, ?_⟩, h.deq, by simp⟩
    intro e he
    rcases List.mem_append.mp he with he | he
    · exact hg e he
    · rw [List.mem_map] at he
      obtain ⟨x, hx, rfl⟩ := he
      simpa [Ev.goesTo] using h.rep x hx

theorem After.persist {g : Group} (h : After tr0 ops0 p g) (now) : After tr0 ops0 p (g.persist now) := h.flush.pendingDequeues now

theorem After.persistentReply {g : Group} (h : After tr0 ops0 p g) (q c r now) (hq : some q ≠ p) : After tr0 ops0 p (g.persistentReply q c r now) := by
  have h' : After tr0 ops0 p { g with replies := g.replies ++ [(q, c, r)] } := by
    refine ⟨h.ops, h.tr, h.deq, ?_⟩
    intro x hx
    rcases List.mem_append.mp hx with hx | hx
    · exact h.rep x hx
    · simp at hx; subst hx; exact hq
  unfold Group.persistentReply
  dsimp only
  split
  · exact h'.persist now
  · exact h'

theorem After.crash {g : Group} (h : After tr0 ops0 p g) (hd : ops0 <+: g.diskOps) : After tr0 ops0 p g.crash := by
  obtain ⟨es, ht, -, hg⟩ := h.tr
  exact ⟨hd, ⟨es, ht, Or.inl hd, hg⟩, by simp [Group.crash, Group.init], by simp [Group.crash, Group.init]⟩

theorem After.applyAll {α : Type} {g : Group} (h : After tr0 ops0 p g) (f : α → Op) (l : List α) : After tr0 ops0 p (l.foldl (fun g q => g.apply (f q)) g) := by
  induction l generalizing g with
  | nil => exact h
  | cons a l ih => exact ih (h.apply _)

theorem diskOps_pending (g : Group) (now) : (g.pendingDequeues now).diskOps = g.diskOps := by
  have h1 : ∀ (g : Group) req, (g.dequeueOne req now).1.diskOps = g.diskOps := by
    intro g req
    unfold Group.dequeueOne
    split
    · rfl
    · split
      · dsimp only
        split
        · exact (same_involve _ _).diskOps
        · rfl
      · split
        · dsimp only
          split
          · exact (same_arm _ _ _).diskOps
          · rfl
        · rfl
  have h2 : ∀ (rs : List DeqReq) (g : Group) count, (g.serve now count rs).diskOps = g.diskOps := by
    intro rs
    induction rs with
    | nil => exact fun g _ => rfl
    | cons r rs ih =>
      intro g count
      unfold Group.serve
      split
      · rfl
      · exact (ih _ _).trans (h1 g r)
  unfold Group.pendingDequeues
  split
  · rfl
  · dsimp only
    have key : ∀ (l : List Available) (rs : Available → List DeqReq) (g : Group), (l.foldl (fun g a => g.serve now a.count (rs a)) g).diskOps = g.diskOps := by
      intro l rs
      induction l with
      | nil => exact fun g => rfl
      | cons a l ih => exact fun g => (ih _).trans (h2 _ g _)
    split
    · rw [(same_setTimer _ _ _).diskOps]; exact key _ (fun _ => List.filter _ _) _
    · exact key _ (fun _ => List.filter _ _) _

theorem After.handle {g : Group} (h : After tr0 ops0 p g) (i : In) (hi : i.from? ≠ p ∨ i.from? = none) (hcr : i = .crash → ops0 <+: g.diskOps) :
    After tr0 ops0 p (g.handle i) := by
  have hfrom : ∀ q, i.from? = some q → some q ≠ p := by
    intro q hq
    rcases hi with hi | hi
    · rw [← hq]; exact hi
    · rw [hq] at hi; simp at hi
  cases i with
  | configure q c conf cap now =>
    have hq := hfrom q rfl
    simp only [Group.handle, Group.configure]
    have h1 : After tr0 ops0 p { g.sync with capacity := cap, up := true } := h.sync.frame rfl rfl rfl (fun _ h => h) fun _ h => h
    split
    · have h2 := h1.apply (.configure conf)
      have h3 : After tr0 ops0 p { ({ g.sync with capacity := cap, up := true } : Group).apply (.configure conf) with
        zombies := g.zombies ++ (g.sync.db.plan conf).2.2 } := h2.frame rfl rfl rfl (fun _ h => h) fun _ h => h
      exact ((h3.send q c _ rfl hq).current _).sync
    · have h2 := (h1.persist now).sync
      exact h2.crash h2.ops
  | enqueue q c id queue name trid a b now =>
    have hq := hfrom q rfl
    simp only [Group.handle, Group.enqueue]
    split
    · split
      · exact h.send _ _ _ rfl hq
      · split
        · exact h.send _ _ _ rfl hq
        · split
          · exact (((h.apply _).current _).involve _).send _ _ _ rfl hq
          · exact ((h.apply _).current _).persistentReply _ _ _ _ hq
    · exact h.send _ _ _ rfl hq
  | dequeue req now => exact (h.tick now).dequeueOne req now (hfrom _ rfl)
  | forget q c =>
    have hq := hfrom q rfl
    simp only [Group.handle, Group.forget]
    split
    · have : After tr0 ops0 p { g with dequeues := g.dequeues.eraseP fun r => r.corr == c } :=
        h.frame rfl rfl rfl (fun r hr => List.mem_of_mem_eraseP hr) fun _ h => h
      exact this.send _ _ _ rfl hq
    · exact h.send _ _ _ rfl hq
  | timeout now =>
    have h1 : After tr0 ops0 p { g.tick now with alarmed := false } := (h.tick now).frame rfl rfl rfl (fun _ h => h) fun _ h => h
    simp only [Group.handle]
    split
    · exact h1.pendingDequeues now
    · exact h1
  | prepare q c t => exact h.send _ _ _ rfl (hfrom q rfl)
  | commit q c t now =>
    have h1 : After tr0 ops0 p ((g.tick now).done t) := (h.tick now).frame rfl rfl rfl (fun _ h => h) fun _ h => h
    exact ((h1.apply _).current _).persistentReply _ _ _ _ (hfrom q rfl)
  | rollback q c t now =>
    have h1 : After tr0 ops0 p ((g.tick now).done t) := (h.tick now).frame rfl rfl rfl (fun _ h => h) fun _ h => h
    exact ((h1.apply _).current _).persistentReply _ _ _ _ (hfrom q rfl)
  | restore qs now => exact (((h.tick now).applyAll (fun q => .restore q) qs).sync).pendingDequeues now
  | clear qs => exact (h.applyAll (fun q => .clear q) qs).current _
  | remove q ids force => exact (h.apply _).current _
  | recovery c ts now =>
    simp only [Group.handle, Group.recovery]
    split
    · exact (h.apply _).current _
    · exact (h.apply _).current _
  | metricReset qs => exact h.apply _
  | exit q => exact h.frame rfl rfl rfl (fun r hr => (List.mem_filter.mp hr).1) fun x hx => (List.mem_filter.mp hx).1
  | shutdown now =>
    have h1 := (h.tick now).persist now
    simp only [Group.handle, Group.shutdown]
    generalize (g.tick now).persist now = g' at h1
    obtain ⟨es, ht, hf, hg⟩ := h1.tr
    refine ⟨h1.ops, ⟨es ++ g'.dequeues.map fun r => .send r.proc r.corr .forget, by simp [ht], ?_, ?_⟩, by simp, h1.rep⟩
    · rcases hf with hf | hf
      · exact Or.inl hf
      · right
        intro e he
        rcases List.mem_append.mp he with he | he
        · exact hf e he
        · rw [List.mem_map] at he
          obtain ⟨x, hx, rfl⟩ := he; rfl
    · intro e he
      rcases List.mem_append.mp he with he | he
      · exact hg e he
      · rw [List.mem_map] at he
        obtain ⟨x, hx, rfl⟩ := he
        simpa [Ev.goesTo] using h1.deq x hx
  | idle now => exact (h.tick now).persist now
  | crash => exact h.crash (hcr rfl)

theorem After.step {g : Group} (h : After tr0 ops0 p g) (i : In) (hi : i.from? ≠ p ∨ i.from? = none) (hcr : i = .crash → ops0 <+: g.diskOps) :
    After tr0 ops0 p (g.step i) := by
  have h1 := h.emit (.recv i) rfl rfl
  rcases step_cases g i with ⟨hs, -⟩ | ⟨hs, -⟩ <;> rw [hs]
  · exact h1.handle i hi hcr
  · exact h1

theorem After.run {g : Group} (h : After tr0 ops0 p g) (is : List In) (hi : ∀ i ∈ is, i.from? ≠ p ∨ i.from? = none)
    (hcr : ∀ i ∈ is, i = .crash → ops0 = []) : After tr0 ops0 p (g.run is) := by
  induction is generalizing g with
  | nil => exact h
  | cons i is ih =>
    refine ih (h.step i (hi i (by simp)) ?_) (fun j hj => hi j (by simp [hj])) (fun j hj => hcr j (by simp [hj]))
    intro hc
    rw [hcr i (by simp) hc]; exact List.nil_prefix

end Casual.Queue

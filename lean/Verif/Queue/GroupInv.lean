import Verif.Queue.Size
import Verif.Queue.Group

/-!
# Invariants of a queue group
-/
namespace Casual.Queue

/-- Everything but the timers, the blocked requests and the list of involved transactions is as before. -/
structure Same (g g' : Group) : Prop where
  db : g'.db = g.db
  disk : g'.disk = g.disk
  ops : g'.ops = g.ops
  diskOps : g'.diskOps = g.diskOps
  replies : g'.replies = g.replies
  current : g'.current = g.current
  capacity : g'.capacity = g.capacity
  up : g'.up = g.up

theorem Same.rfl' (g : Group) : Same g g := ⟨rfl, rfl, rfl, rfl, rfl, rfl, rfl, rfl⟩
theorem Same.trans {a b c : Group} (h : Same a b) (h' : Same b c) : Same a c :=
  ⟨h'.db.trans h.db, h'.disk.trans h.disk, h'.ops.trans h.ops, h'.diskOps.trans h.diskOps, h'.replies.trans h.replies,
   h'.current.trans h.current, h'.capacity.trans h.capacity, h'.up.trans h.up⟩

/-- The transactions outside and the answers: `ops` hold what the reply promises. -/
def Promised (tr : List Ev) (ops : List Op) (proc corr : Nat) : Reply → Prop
  | .enqueued none id => ∃ queue name a b now q before after, Ev.recv (.enqueue proc corr id queue name none a b now) ∈ tr ∧
      ops = before ++ .enqueue id q none a b now :: after ∧ ((DB.empty.run before).enqueue id q none a b now).2 = .ok () ∧
      (queue ≠ 0 → q = queue) ∧ (queue = 0 → (DB.empty.run before).qid? name = some q)
  | .committed t => ∃ now, Ev.recv (.commit proc corr t now) ∈ tr ∧ Op.commit t.g ∈ ops
  | .rolledBack t => ∃ now, Ev.recv (.rollback proc corr t now) ∈ tr ∧ Op.rollback t.g now ∈ ops
  | _ => True

theorem Promised.mono {tr tr' : List Ev} {ops ops' : List Op} {p c : Nat} {r : Reply} (h : Promised tr ops p c r)
    (ht : ∀ e ∈ tr, e ∈ tr') (ho : ops <+: ops') : Promised tr' ops' p c r := by
  obtain ⟨s, rfl⟩ := ho
  unfold Promised at h ⊢
  split
  · obtain ⟨queue, name, a, b, now, q, before, after, h1, h2, h3⟩ := h
    exact ⟨queue, name, a, b, now, q, before, after ++ s, ht _ h1, by rw [h2]; simp, h3⟩
  · obtain ⟨now, h1, h2⟩ := h
    exact ⟨now, ht _ h1, List.mem_append_left _ h2⟩
  · obtain ⟨now, h1, h2⟩ := h
    exact ⟨now, ht _ h1, List.mem_append_left _ h2⟩
  · trivial

/-- A reply that needs no promise. -/
def Reply.free : Reply → Bool
  | .enqueued none _ => false
  | .committed _ => false
  | .rolledBack _ => false
  | _ => true

theorem promised_free {tr ops p c} {r : Reply} (h : r.free = true) : Promised tr ops p c r := by
  unfold Promised
  split <;> first | trivial | simp [Reply.free] at h

structure Core (g : Group) : Prop where
  db : g.db = DB.empty.run g.ops
  disk : g.disk = DB.empty.run g.diskOps
  pre : g.diskOps <+: g.ops
  acks : ∀ p c r, (p, c, r) ∈ g.replies → Promised g.tr g.ops p c r
  sent : ∀ p c r, Ev.send p c r ∈ g.tr → Promised g.tr g.diskOps p c r

theorem Core.inv {g : Group} (h : Core g) : Inv g.db := by rw [h.db]; exact inv_run _

theorem Core.init : Core Group.init :=
  ⟨rfl, rfl, List.prefix_refl _, by simp [Group.init], by simp [Group.init]⟩

/-- Events that are no promises. -/
def Ev.free : Ev → Bool
  | .send _ _ r => r.free
  | _ => true

theorem Core.same {g g' : Group} (h : Core g) (hs : Same g g') (es : List Ev) (ht : g'.tr = g.tr ++ es)
    (he : ∀ e ∈ es, e.free = true) : Core g' := by
  refine ⟨?_, ?_, ?_, ?_, ?_⟩
  · rw [hs.db, hs.ops]; exact h.db
  · rw [hs.disk, hs.diskOps]; exact h.disk
  · rw [hs.diskOps, hs.ops]; exact h.pre
  · intro p c r hr
    rw [hs.replies] at hr
    rw [hs.ops, ht]
    exact (h.acks p c r hr).mono (fun e h => List.mem_append_left _ h) (List.prefix_refl _)
  · intro p c r hr
    rw [hs.diskOps]
    rw [ht] at hr ⊢
    rcases List.mem_append.mp hr with hr | hr
    · exact (h.sent p c r hr).mono (fun e h => List.mem_append_left _ h) (List.prefix_refl _)
    · exact promised_free (he _ hr)

theorem Core.emit {g : Group} (h : Core g) (e : Ev) (he : e.free = true) : Core (g.emit e) :=
  h.same (Same.mk rfl rfl rfl rfl rfl rfl rfl rfl) [e] rfl (by simpa using he)

theorem Core.send {g : Group} (h : Core g) (p c : Nat) (r : Reply) (he : r.free = true) : Core (g.send p c r) := h.emit _ he

theorem same_involve (g : Group) (t : Trid) : Same g (g.involve t) := by
  unfold Group.involve; split <;> exact ⟨rfl, rfl, rfl, rfl, rfl, rfl, rfl, rfl⟩

theorem tr_involve (g : Group) (t : Trid) : (g.involve t).tr = g.tr ∨ (g.involve t).tr = g.tr ++ [.involve t] := by
  unfold Group.involve; split <;> simp [Group.emit]

theorem Core.involve {g : Group} (h : Core g) (t : Trid) : Core (g.involve t) := by
  rcases tr_involve g t with ht | ht
  · exact h.same (same_involve g t) [] (by simp [ht]) (by simp)
  · exact h.same (same_involve g t) _ ht (by simp [Ev.free])

theorem Core.apply {g : Group} (h : Core g) (op : Op) : Core (g.apply op) := by
  refine ⟨?_, h.disk, ?_, ?_, h.sent⟩
  · show g.db.step op = _
    rw [h.db]; exact (run_snoc _ _ _).symm
  · exact h.pre.trans (List.prefix_append _ _)
  · intro p c r hr
    exact (h.acks p c r hr).mono (fun _ h => h) (List.prefix_append _ _)

theorem Core.current {g : Group} (h : Core g) (n : Int) : Core { g with current := n } := ⟨h.db, h.disk, h.pre, h.acks, h.sent⟩
theorem Core.dequeues {g : Group} (h : Core g) (l) : Core { g with dequeues := l } := ⟨h.db, h.disk, h.pre, h.acks, h.sent⟩
theorem Core.done {g : Group} (h : Core g) (t) : Core (g.done t) := ⟨h.db, h.disk, h.pre, h.acks, h.sent⟩
theorem Core.timer {g : Group} (h : Core g) (t a) : Core { g with timer := t, alarmed := a } := ⟨h.db, h.disk, h.pre, h.acks, h.sent⟩
theorem Core.timer' {g : Group} (h : Core g) (t) : Core { g with timer := t } := ⟨h.db, h.disk, h.pre, h.acks, h.sent⟩

theorem Core.sync {g : Group} (h : Core g) : Core g.sync :=
  ⟨h.db, h.db, List.prefix_refl _, h.acks, fun p c r hr => (h.sent p c r hr).mono (fun _ h => h) h.pre⟩

theorem Core.setTimer {g : Group} (h : Core g) (a now) : Core (g.setTimer a now) := by
  unfold Group.setTimer; split <;> exact ⟨h.db, h.disk, h.pre, h.acks, h.sent⟩

theorem Core.arm {g : Group} (h : Core g) (a now) : Core (g.arm a now) := by
  unfold Group.arm
  split
  · exact h.setTimer _ _
  · split
    · exact h.setTimer _ _
    · exact h

theorem Core.tick {g : Group} (h : Core g) (now) : Core (g.tick now) := by
  unfold Group.tick
  split
  · split
    · exact ⟨h.db, h.disk, h.pre, h.acks, h.sent⟩
    · exact h
  · exact h

theorem Core.dequeueOne {g : Group} (h : Core g) (req now) : Core (g.dequeueOne req now).1 := by
  unfold Group.dequeueOne
  split
  · exact h.send _ _ _ rfl
  · split
    · dsimp only
      split
      · exact ((h.apply _).involve _).send _ _ _ rfl
      · exact ((h.apply _).current _).send _ _ _ rfl
    · split
      · dsimp only
        split
        · exact (h.arm _ _).dequeues _
        · exact h.dequeues _
      · exact h.send _ _ _ rfl

theorem Core.serve {now : Time} {rs : List DeqReq} {g : Group} (h : Core g) (count) : Core (g.serve now count rs) := by
  induction rs generalizing g count with
  | nil => exact h
  | cons r rs ih =>
    unfold Group.serve
    split
    · exact h.dequeues _
    · exact ih (h.dequeueOne r now) _

theorem Core.pendingDequeues {g : Group} (h : Core g) (now) : Core (g.pendingDequeues now) := by
  unfold Group.pendingDequeues
  split
  · exact h
  · dsimp only
    have key : ∀ (l : List Available) (rs : Available → List DeqReq) (g : Group), Core g → Core (l.foldl (fun g a => g.serve now a.count (rs a)) g) := by
      intro l rs
      induction l with
      | nil => exact fun g h => h
      | cons a l ih => exact fun g h => ih _ (h.serve _)
    split
    · exact (key _ _ _ (h.dequeues _)).setTimer _ _
    · exact (key _ _ _ (h.dequeues _)).timer' _

/-- The first part of `persist`. -/
def Group.flush (g : Group) : Group :=
  if g.replies.isEmpty then g else { g.sync with replies := [], tr := g.tr ++ g.replies.map fun r => .send r.1 r.2.1 r.2.2 }

theorem persist_eq (g : Group) (now : Time) : g.persist now = g.flush.pendingDequeues now := rfl

theorem Core.flush {g : Group} (h : Core g) : Core g.flush := by
  unfold Group.flush
  split
  · exact h
  · refine ⟨h.db, h.db, List.prefix_refl _, by simp, ?_⟩
    intro p c r hr
    dsimp only at hr ⊢
    rcases List.mem_append.mp hr with hr | hr
    · exact (h.sent p c r hr).mono (fun e h => List.mem_append_left _ h) h.pre
    · rw [List.mem_map] at hr
      obtain ⟨⟨p', c', r'⟩, h1, h2⟩ := hr
      simp only [Ev.send.injEq] at h2
      obtain ⟨rfl, rfl, rfl⟩ := h2
      exact (h.acks _ _ _ h1).mono (fun e h => List.mem_append_left _ h) (List.prefix_refl _)

theorem Core.persist {g : Group} (h : Core g) (now) : Core (g.persist now) := (h.flush).pendingDequeues now

theorem Core.persistentReply {g : Group} (h : Core g) (p c r now) (hr : Promised g.tr g.ops p c r) : Core (g.persistentReply p c r now) := by
  have h' : Core { g with replies := g.replies ++ [(p, c, r)] } := by
    refine ⟨h.db, h.disk, h.pre, ?_, h.sent⟩
    intro p' c' r' hm
    rcases List.mem_append.mp hm with hm | hm
    · exact h.acks _ _ _ hm
    · simp only [List.mem_singleton, Prod.mk.injEq] at hm
      obtain ⟨rfl, rfl, rfl⟩ := hm
      exact hr
  unfold Group.persistentReply
  dsimp only
  split
  · exact h'.persist now
  · exact h'

theorem Core.enqueue {g : Group} (h : Core g) (p c id queue name trid a b now)
    (hr : Ev.recv (.enqueue p c id queue name trid a b now) ∈ g.tr) : Core (g.enqueue p c id queue name trid a b now) := by
  unfold Group.enqueue
  split
  · split
    · exact h.send _ _ _ rfl
    · next q hq =>
      split
      · exact h.send _ _ _ rfl
      · next hok =>
        dsimp only
        split
        · exact (((h.apply _).current _).involve _).send _ _ _ rfl
        · refine ((h.apply _).current _).persistentReply _ _ _ _ ⟨queue, name, a, b, now, q, g.ops, [], hr, rfl, ?_, ?_, ?_⟩
          · rw [← h.db]; exact hok
          · intro hne; unfold Group.target at hq; rw [if_pos hne] at hq; simpa using hq.symm
          · intro he; unfold Group.target at hq; rw [if_neg (by simpa using he), h.db] at hq; exact hq
  · exact h.send _ _ _ rfl

theorem Core.forget {g : Group} (h : Core g) (p c) : Core (g.forget p c) := by
  unfold Group.forget
  split
  · exact (h.dequeues _).send _ _ _ rfl
  · exact h.send _ _ _ rfl

theorem Core.commit {g : Group} (h : Core g) (p c t now) (hr : Ev.recv (.commit p c t now) ∈ g.tr) : Core (g.commit p c t now) := by
  unfold Group.commit
  exact (((h.done t).apply (.commit t.g)).current _).persistentReply _ _ _ _ ⟨now, hr, by simp [Group.apply]⟩

theorem Core.rollback {g : Group} (h : Core g) (p c t now) (hr : Ev.recv (.rollback p c t now) ∈ g.tr) : Core (g.rollback p c t now) := by
  unfold Group.rollback
  exact (((h.done t).apply (.rollback t.g now)).current _).persistentReply _ _ _ _ ⟨now, hr, by simp [Group.apply]⟩

theorem Core.recovery {g : Group} (h : Core g) (c ts now) : Core (g.recovery c ts now) := by
  unfold Group.recovery
  split
  · exact (h.apply _).current _
  · exact (h.apply _).current _

theorem Core.crash {g : Group} (h : Core g) : Core g.crash :=
  ⟨h.disk, h.disk, List.prefix_refl _, by simp [Group.crash, Group.init], h.sent⟩

theorem Core.configure {g : Group} (h : Core g) (p c conf cap now) : Core (g.configure p c conf cap now) := by
  unfold Group.configure
  have h1 : Core { g.sync with capacity := cap, up := true } :=
    h.sync.same (Same.mk rfl rfl rfl rfl rfl rfl rfl rfl : Same g.sync g.sync) [] (by simp) (by simp) |> fun h => ⟨h.db, h.disk, h.pre, h.acks, h.sent⟩
  dsimp only
  split
  · have h2 := h1.apply (.configure conf)
    have h3 : Core { ({ g.sync with capacity := cap, up := true } : Group).apply (.configure conf) with
        zombies := g.zombies ++ (g.sync.db.plan conf).2.2 } := ⟨h2.db, h2.disk, h2.pre, h2.acks, h2.sent⟩
    exact ((h3.send _ _ _ rfl).current _).sync
  · exact ((h1.persist now).sync).crash

theorem Core.shutdown {g : Group} (h : Core g) (now) : Core (g.shutdown now) := by
  unfold Group.shutdown
  have h1 := h.persist now
  generalize g.persist now = g' at h1
  refine (h1.dequeues []).same (g' := { g' with dequeues := [], tr := g'.tr ++ g'.dequeues.map fun r => .send r.proc r.corr .forget })
    ⟨rfl, rfl, rfl, rfl, rfl, rfl, rfl, rfl⟩ _ rfl ?_
  intro e he
  rw [List.mem_map] at he
  obtain ⟨r, -, rfl⟩ := he
  rfl

theorem Core.applyAll {α : Type} {g : Group} (h : Core g) (f : α → Op) (l : List α) : Core (l.foldl (fun g q => g.apply (f q)) g) := by
  induction l generalizing g with
  | nil => exact h
  | cons a l ih => exact ih (h.apply _)

theorem Core.handle {g : Group} (h : Core g) (i : In) (hr : Ev.recv i ∈ g.tr) : Core (g.handle i) := by
  have htick : ∀ now, (g.tick now).tr = g.tr := by
    intro now; unfold Group.tick; split
    · split <;> rfl
    · rfl
  cases i with
  | configure p c conf cap now => exact h.configure ..
  | enqueue p c id queue name trid a b now => exact h.enqueue _ _ _ _ _ _ _ _ _ hr
  | dequeue req now => exact (h.tick now).dequeueOne req now
  | forget p c => exact h.forget p c
  | timeout now =>
    have h1 : Core { g.tick now with alarmed := false } := (h.tick now).timer _ _
    simp only [Group.handle]
    split
    · exact h1.pendingDequeues now
    · exact h1
  | prepare p c t => exact h.send _ _ _ rfl
  | commit p c t now => exact (h.tick now).commit _ _ _ _ (by rw [htick]; exact hr)
  | rollback p c t now => exact (h.tick now).rollback _ _ _ _ (by rw [htick]; exact hr)
  | restore qs now => exact (((h.tick now).applyAll (fun q => .restore q) qs).sync).pendingDequeues now
  | clear qs => exact (h.applyAll (fun q => .clear q) qs).current _
  | remove q ids force => exact (h.apply _).current _
  | recovery c ts now => exact h.recovery c ts now
  | metricReset qs => exact h.apply _
  | exit p =>
    refine ⟨h.db, h.disk, h.pre, ?_, h.sent⟩
    intro p' c' r' hm
    exact h.acks _ _ _ ((List.mem_filter.mp hm).1)
  | shutdown now => exact (h.tick now).shutdown now
  | idle now => exact (h.tick now).persist now
  | crash => exact h.crash

/-- A message is handled if the group is up; otherwise only a configuration and a crash are. -/
theorem step_cases (g : Group) (i : In) :
    (g.step i = (g.emit (.recv i)).handle i ∧ (g.up = true ∨ (∃ p c conf cap now, i = .configure p c conf cap now) ∨ i = .crash)) ∨
    (g.step i = g.emit (.recv i) ∧ g.up = false ∧ (∀ p c conf cap now, i ≠ .configure p c conf cap now) ∧ i ≠ .crash) := by
  cases i with
  | configure p c conf cap now => exact Or.inl ⟨rfl, Or.inr (Or.inl ⟨p, c, conf, cap, now, rfl⟩)⟩
  | crash => exact Or.inl ⟨rfl, Or.inr (Or.inr rfl)⟩
  | _ =>
    cases hu : g.up with
    | true => exact Or.inl ⟨by simp [Group.step, Group.emit, hu], Or.inl rfl⟩
    | false => exact Or.inr ⟨by simp [Group.step, Group.emit, hu], rfl, by simp, by simp⟩

theorem run_snoc' (g : Group) (is : List In) (i : In) : g.run (is ++ [i]) = (g.run is).step i := by
  unfold Group.run; rw [List.foldl_append]; rfl

theorem Core.step {g : Group} (h : Core g) (i : In) : Core (g.step i) := by
  have h1 : Core (g.emit (.recv i)) := h.emit _ rfl
  have h2 : Ev.recv i ∈ (g.emit (.recv i)).tr := by simp [Group.emit]
  rcases step_cases g i with ⟨he, -⟩ | ⟨he, -⟩ <;> rw [he]
  · exact h1.handle _ h2
  · exact h1

theorem Core.run {g : Group} (h : Core g) (is : List In) : Core (g.run is) := by
  induction is generalizing g with
  | nil => exact h
  | cons i is ih => exact ih (h.step i)

theorem core (is : List In) : Core (Group.init.run is) := Core.init.run is

end Casual.Queue

import Verif.Queue.GroupInv

/-! The size a group believes to use. -/
namespace Casual.Queue

/-- What matters for the size: the invariants, and that `current` is right. -/
structure Sized (g : Group) : Prop where
  core : Core g
  size : g.current = g.db.size

theorem Sized.keep {g g' : Group} (h : Sized g) (hc : Core g') (hd : g'.db = g.db) (hn : g'.current = g.current) : Sized g' :=
  ⟨hc, by rw [hd, hn]; exact h.size⟩

theorem Sized.same {g g' : Group} (h : Sized g) (hc : Core g') (hs : Same g g') : Sized g' := h.keep hc hs.db hs.current

theorem same_setTimer (g : Group) (a now) : Same g (g.setTimer a now) := by
  unfold Group.setTimer; split <;> exact ⟨rfl, rfl, rfl, rfl, rfl, rfl, rfl, rfl⟩

theorem same_arm (g : Group) (a now) : Same g (g.arm a now) := by
  unfold Group.arm
  split
  · exact same_setTimer _ _ _
  · split
    · exact same_setTimer _ _ _
    · exact Same.rfl' _

theorem same_tick (g : Group) (now) : Same g (g.tick now) := by
  unfold Group.tick
  split
  · split <;> exact ⟨rfl, rfl, rfl, rfl, rfl, rfl, rfl, rfl⟩
  · exact Same.rfl' _

theorem Sized.tick {g : Group} (h : Sized g) (now) : Sized (g.tick now) := h.same (h.core.tick now) (same_tick g now)

theorem Sized.dequeueOne {g : Group} (h : Sized g) (req now) : Sized (g.dequeueOne req now).1 := by
  refine ⟨h.core.dequeueOne req now, ?_⟩
  unfold Group.dequeueOne
  split
  · exact h.size
  · next q hq =>
    split
    · next m hm =>
      dsimp only
      have hsz := fun trid => size_dequeue h.core.inv (trid := trid) hm
      split
      · next t ht =>
        show (Group.involve _ t).current = (Group.involve _ t).db.size
        rw [(same_involve _ t).current, (same_involve _ t).db]
        show g.current = (g.db.dequeue q req.sel (req.trid.map (·.g)) now).1.size
        rw [ht, hsz]; exact h.size
      · next ht =>
        show g.current - m.length = (g.db.dequeue q req.sel (req.trid.map (·.g)) now).1.size
        rw [ht, hsz, h.size]; rfl
    · split
      · dsimp only
        split
        · show (Group.arm g _ _).current = (Group.arm g _ _).db.size
          rw [(same_arm g _ _).current, (same_arm g _ _).db]; exact h.size
        · exact h.size
      · exact h.size

theorem Sized.serve {now : Time} {rs : List DeqReq} {g : Group} (h : Sized g) (count) : Sized (g.serve now count rs) := by
  induction rs generalizing g count with
  | nil => exact h
  | cons r rs ih =>
    unfold Group.serve
    split
    · exact ⟨h.core.dequeues _, h.size⟩
    · exact ih (h.dequeueOne r now) _

theorem Sized.pendingDequeues {g : Group} (h : Sized g) (now) : Sized (g.pendingDequeues now) := by
  refine ⟨h.core.pendingDequeues now, ?_⟩
  unfold Group.pendingDequeues
  split
  · exact h.size
  · dsimp only
    have key : ∀ (l : List Available) (rs : Available → List DeqReq) (g : Group), Sized g → Sized (l.foldl (fun g a => g.serve now a.count (rs a)) g) := by
      intro l rs
      induction l with
      | nil => exact fun g h => h
      | cons a l ih => exact fun g h => ih _ (h.serve _)
    generalize hl : List.filter (fun a => decide (a.when_ ≤ now)) (g.db.availables (g.dequeues.map (·.queue))) = l
    generalize hg : ({ g with dequeues := g.dequeues.filter fun r => !l.any fun a => a.queue == r.queue } : Group) = g1
    have hk := key l (fun a => (g.dequeues.filter fun r => l.any fun a => a.queue == r.queue).filter fun r => a.queue == r.queue)
      g1 (by subst hg; exact ⟨h.core.dequeues _, h.size⟩)
    split
    · rw [(same_setTimer _ _ _).current, (same_setTimer _ _ _).db]; exact hk.size
    · exact hk.size

theorem Sized.flush {g : Group} (h : Sized g) : Sized g.flush := by
  refine ⟨h.core.flush, ?_⟩
  unfold Group.flush; split <;> exact h.size

theorem Sized.persist {g : Group} (h : Sized g) (now) : Sized (g.persist now) := h.flush.pendingDequeues now

theorem Sized.persistentReply {g : Group} (h : Sized g) (p c r now) (hr : Promised g.tr g.ops p c r) : Sized (g.persistentReply p c r now) := by
  have hc := h.core.persistentReply p c r now hr
  refine ⟨hc, ?_⟩
  have h' : Sized { g with replies := g.replies ++ [(p, c, r)] } := by
    refine ⟨⟨h.core.db, h.core.disk, h.core.pre, ?_, h.core.sent⟩, h.size⟩
    intro p' c' r' hm
    rcases List.mem_append.mp hm with hm | hm
    · exact h.core.acks _ _ _ hm
    · simp only [List.mem_singleton, Prod.mk.injEq] at hm
      obtain ⟨rfl, rfl, rfl⟩ := hm
      exact hr
  unfold Group.persistentReply
  dsimp only
  split
  · exact (h'.persist now).size
  · exact h'.size

theorem Sized.enqueue {g : Group} (h : Sized g) (p c id queue name trid a b now)
    (hr : Ev.recv (.enqueue p c id queue name trid a b now) ∈ g.tr) : Sized (g.enqueue p c id queue name trid a b now) := by
  refine ⟨h.core.enqueue p c id queue name trid a b now hr, ?_⟩
  unfold Group.enqueue
  split
  · split
    · exact h.size
    · next q hq =>
      split
      · exact h.size
      · next hok =>
        dsimp only
        have hs : (g.db.enqueue id q (trid.map (·.g)) a b now).1.size = g.db.size + b.payload.length := size_enqueue hok
        split
        · next t =>
          show (Group.involve _ t).current = (Group.involve _ t).db.size
          rw [(same_involve _ t).current, (same_involve _ t).db]
          show g.current + _ = (g.db.enqueue id q (Option.map (·.g) (some t)) a b now).1.size
          rw [hs, h.size]
        · refine (Sized.persistentReply (g := { g.apply (.enqueue id q none a b now) with current := g.current + b.payload.length }) (r := .enqueued none id)
            ⟨(h.core.apply _).current _, ?_⟩ p c (now := now) ⟨queue, name, a, b, now, q, g.ops, [], hr, rfl, ?_, ?_, ?_⟩).size
          · show g.current + _ = (g.db.enqueue id q none a b now).1.size
            rw [← h.size] at hs; rw [← hs]; rfl --, h.size]
          · rw [← h.core.db]; exact hok
          · intro hne; unfold Group.target at hq; rw [if_pos hne] at hq; simpa using hq.symm
          · intro he; unfold Group.target at hq; rw [if_neg (by simpa using he), h.core.db] at hq; exact hq
  · exact h.size

theorem Sized.commit {g : Group} (h : Sized g) (p c t now) (hr : Ev.recv (.commit p c t now) ∈ g.tr) : Sized (g.commit p c t now) := by
  refine Sized.persistentReply (g := { (g.done t).apply (.commit t.g) with current := (g.done t).current - (g.db.commit t.g).2 })
    ⟨((h.core.done t).apply (.commit t.g)).current _, ?_⟩ p c _ now ⟨now, hr, by simp [Group.apply]⟩
  show g.current - (g.db.commit t.g).2 = (g.db.commit t.g).1.size
  rw [size_commit, h.size]

theorem Sized.rollback {g : Group} (h : Sized g) (p c t now) (hr : Ev.recv (.rollback p c t now) ∈ g.tr) : Sized (g.rollback p c t now) := by
  unfold Group.rollback
  dsimp only
  refine Sized.persistentReply ⟨((h.core.done t).apply (.rollback t.g now)).current _, ?_⟩ p c _ now ⟨now, hr, by simp [Group.apply]⟩
  obtain ⟨n, hn⟩ : ∃ n, (g.db.rollback t.g now).2 = .ok n := by rw [rollback_eq h.core.inv]; exact ⟨_, rfl⟩
  have := size_rollback h.core.inv t.g now hn
  show g.current - (match (g.db.rollback t.g now).2 with | .ok n => n | .error _ => 0) = (g.db.rollback t.g now).1.size
  rw [hn, this, h.size]

theorem Sized.recovery {g : Group} (h : Sized g) (c ts now) : Sized (g.recovery c ts now) := by
  refine ⟨h.core.recovery c ts now, ?_⟩
  unfold Group.recovery
  split
  · show g.current - _ = (g.db.recoveryCommit ts).1.size
    rw [size_recoveryCommit, h.size]
  · obtain ⟨n, f, hn, hs⟩ := recoveryRollback_eq h.core.inv now ts
    show g.current - (match (g.db.recoveryRollback now ts).2 with | .ok (n, _) => n | .error _ => 0) = (g.db.recoveryRollback now ts).1.size
    rw [hn, hs, h.size]

theorem applyAll_restore (qs : List Qid) (g : Group) : (qs.foldl (fun g q => g.apply (.restore q)) g).db.size = g.db.size ∧
    (qs.foldl (fun g q => g.apply (.restore q)) g).current = g.current := by
  induction qs generalizing g with
  | nil => exact ⟨rfl, rfl⟩
  | cons q qs ih =>
    obtain ⟨h1, h2⟩ := ih (g.apply (.restore q))
    refine ⟨h1.trans ?_, h2⟩
    exact size_restore _ _

theorem Sized.shutdown {g : Group} (h : Sized g) (now) : Sized (g.shutdown now) :=
  ⟨h.core.shutdown now, (h.persist now).size⟩

/-- After any message the size is right, unless the process has come to an end. -/
theorem sized_handle {g : Group} (h : Sized g) (i : In) (hr : Ev.recv i ∈ g.tr) : (g.handle i).up = true → Sized (g.handle i) := by
  intro hup'
  have htick : ∀ now, (g.tick now).tr = g.tr := by
    intro now; unfold Group.tick; split
    · split <;> rfl
    · rfl
  cases i with
  | configure p c conf cap now =>
    refine ⟨h.core.configure .., ?_⟩
    simp only [Group.handle, Group.configure] at hup' ⊢
    split
    · rfl
    · next hf => rw [if_neg hf] at hup'; simp [Group.crash, Group.init] at hup'
  | enqueue p c id queue name trid a b now => exact h.enqueue _ _ _ _ _ _ _ _ _ hr
  | dequeue req now => exact (h.tick now).dequeueOne req now
  | forget p c =>
    refine ⟨h.core.forget p c, ?_⟩
    simp only [Group.handle, Group.forget]; split <;> exact h.size
  | timeout now =>
    have h1 : Sized { g.tick now with alarmed := false } := ⟨(h.core.tick now).timer _ _, (h.tick now).size⟩
    simp only [Group.handle]
    split
    · exact h1.pendingDequeues now
    · exact h1
  | prepare p c t => exact ⟨h.core.send _ _ _ rfl, h.size⟩
  | commit p c t now => exact (h.tick now).commit _ _ _ _ (by rw [htick]; exact hr)
  | rollback p c t now => exact (h.tick now).rollback _ _ _ _ (by rw [htick]; exact hr)
  | restore qs now =>
    have h1 : Sized (qs.foldl (fun g q => g.apply (.restore q)) (g.tick now)).sync := by
      refine ⟨((h.core.tick now).applyAll (fun q => .restore q) qs).sync, ?_⟩
      obtain ⟨h1, h2⟩ := applyAll_restore qs (g.tick now)
      show (qs.foldl (fun g q => g.apply (.restore q)) (g.tick now)).current = (qs.foldl (fun g q => g.apply (.restore q)) (g.tick now)).db.size
      rw [h1, h2]; exact (h.tick now).size
    exact h1.pendingDequeues now
  | clear qs => exact ⟨(h.core.applyAll (fun q => .clear q) qs).current _, rfl⟩
  | remove q ids force => exact ⟨(h.core.apply _).current _, rfl⟩
  | recovery c ts now => exact h.recovery c ts now
  | metricReset qs => exact ⟨h.core.apply _, h.size⟩
  | exit p => exact ⟨h.core.handle (.exit p) hr, h.size⟩
  | shutdown now => exact (h.tick now).shutdown now
  | idle now => exact (h.tick now).persist now
  | crash => simp [Group.handle, Group.crash, Group.init] at hup'

theorem up_configure {g : Group} (p c conf cap now) (h : (g.configure p c conf cap now).up = true) :
    (g.configure p c conf cap now).current = (g.configure p c conf cap now).db.size := by
  simp only [Group.configure] at h ⊢
  split
  · rfl
  · next hf => rw [if_neg hf] at h; simp [Group.crash, Group.init] at h

theorem size_step {g : Group} (hc : Core g) (h : g.up = true → g.current = g.db.size) (i : In) :
    (g.step i).up = true → (g.step i).current = (g.step i).db.size := by
  have h1 : Core (g.emit (.recv i)) := hc.emit _ rfl
  have h2 : Ev.recv i ∈ (g.emit (.recv i)).tr := by simp [Group.emit]
  have h3 : (g.emit (.recv i)).up = true → Sized (g.emit (.recv i)) := fun hu => ⟨h1, h hu⟩
  intro hup
  rcases step_cases g i with ⟨he, hx⟩ | ⟨he, hx, -⟩ <;> rw [he] at hup ⊢
  · rcases hx with hu | ⟨p, c, conf, cap, now, rfl⟩ | rfl
    · exact (sized_handle (h3 hu) _ h2 hup).size
    · exact up_configure _ _ _ _ _ hup
    · simp [Group.handle, Group.crash, Group.init] at hup
  · exact h hup

theorem size_run (is : List In) : (Group.init.run is).up = true → (Group.init.run is).current = (Group.init.run is).db.size := by
  induction is using snocInd with
  | nil => simp [Group.run, Group.init]
  | snoc is i ih =>
    rw [run_snoc']
    exact size_step (core is) ih i

end Casual.Queue

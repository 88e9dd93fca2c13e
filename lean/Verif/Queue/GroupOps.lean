import Verif.Queue.GroupAfter
import Verif.Queue.Reconf

/-! Which operations a group performs on its queuebase when it handles a message. -/
namespace Casual.Queue

/-- `g'` has done more operations than `g`, all of them with `P`. -/
def Tail (P : Op → Prop) (g g' : Group) : Prop := ∃ l, g'.ops = g.ops ++ l ∧ ∀ op ∈ l, P op

def Op.isDequeue : Op → Prop
  | .dequeue .. => True
  | _ => False

def Op.isEnqueue : Op → Prop
  | .enqueue .. => True
  | _ => False

theorem Op.isDequeue.not {op : Op} (h : op.isDequeue) : ¬ op.isEnqueue := by cases op <;> simp_all [Op.isDequeue, Op.isEnqueue]

variable {P : Op → Prop}

theorem Tail.of_eq {g g' : Group} (h : g'.ops = g.ops) : Tail P g g' := ⟨[], by simp [h], by simp⟩
theorem Tail.trans {a b c : Group} (h : Tail P a b) (h' : Tail P b c) : Tail P a c := by
  obtain ⟨l, h1, h2⟩ := h
  obtain ⟨l', h3, h4⟩ := h'
  refine ⟨l ++ l', by rw [h3, h1]; simp, ?_⟩
  intro op ho
  rcases List.mem_append.mp ho with ho | ho
  · exact h2 op ho
  · exact h4 op ho
theorem Tail.imp {Q : Op → Prop} (hi : ∀ op, P op → Q op) {g g' : Group} (h : Tail P g g') : Tail Q g g' := by
  obtain ⟨l, h1, h2⟩ := h
  exact ⟨l, h1, fun op ho => hi op (h2 op ho)⟩
theorem Tail.apply (g : Group) (op : Op) (h : P op) : Tail P g (g.apply op) := ⟨[op], rfl, by simpa using h⟩

theorem Tail.dequeueOne (g : Group) (req now) : Tail Op.isDequeue g (g.dequeueOne req now).1 := by
  unfold Group.dequeueOne
  split
  · exact Tail.of_eq rfl
  · next q _ =>
    split
    · dsimp only
      split
      · refine Tail.trans (Tail.apply g (.dequeue q req.sel (req.trid.map (·.g)) now) trivial) (Tail.of_eq ?_)
        exact (same_involve _ _).ops
      · exact Tail.trans (Tail.apply g (.dequeue _ req.sel (req.trid.map (·.g)) now) trivial) (Tail.of_eq rfl)
    · split
      · dsimp only
        split
        · exact Tail.of_eq (same_arm _ _ _).ops
        · exact Tail.of_eq rfl
      · exact Tail.of_eq rfl

theorem Tail.serve (now : Time) (rs : List DeqReq) (g : Group) (count) : Tail Op.isDequeue g (g.serve now count rs) := by
  induction rs generalizing g count with
  | nil => exact Tail.of_eq rfl
  | cons r rs ih =>
    unfold Group.serve
    split
    · exact Tail.of_eq rfl
    · exact (Tail.dequeueOne g r now).trans (ih _ _)

theorem Tail.pendingDequeues (g : Group) (now) : Tail Op.isDequeue g (g.pendingDequeues now) := by
  unfold Group.pendingDequeues
  split
  · exact Tail.of_eq rfl
  · dsimp only
    have key : ∀ (l : List Available) (rs : Available → List DeqReq) (g : Group), Tail Op.isDequeue g (l.foldl (fun g a => g.serve now a.count (rs a)) g) := by
      intro l rs
      induction l with
      | nil => exact fun g => Tail.of_eq rfl
      | cons a l ih => exact fun g => (Tail.serve now _ g _).trans (ih _)
    generalize hl : List.filter (fun a => decide (a.when_ ≤ now)) (g.db.availables (g.dequeues.map (·.queue))) = l
    generalize hg : ({ g with dequeues := g.dequeues.filter fun r => !l.any fun a => a.queue == r.queue } : Group) = g1
    have hk := key l (fun a => (g.dequeues.filter fun r => l.any fun a => a.queue == r.queue).filter fun r => a.queue == r.queue) g1
    have h0 : Tail Op.isDequeue g g1 := Tail.of_eq (by rw [← hg])
    split
    · exact (h0.trans hk).trans (Tail.of_eq (same_setTimer _ _ _).ops)
    · exact (h0.trans hk).trans (Tail.of_eq rfl)

theorem Tail.persist (g : Group) (now) : Tail Op.isDequeue g (g.persist now) := by
  rw [persist_eq]
  refine Tail.trans (Tail.of_eq ?_) (Tail.pendingDequeues _ now)
  unfold Group.flush; split <;> rfl

theorem Tail.persistentReply (g : Group) (p c r now) : Tail Op.isDequeue g (g.persistentReply p c r now) := by
  unfold Group.persistentReply
  dsimp only
  split
  · exact Tail.trans (Tail.of_eq rfl) (Tail.persist _ now)
  · exact Tail.of_eq rfl

theorem Tail.applyAll {α : Type} (g : Group) (f : α → Op) (hf : ∀ a, P (f a)) (l : List α) : Tail P g (l.foldl (fun g q => g.apply (f q)) g) := by
  induction l generalizing g with
  | nil => exact Tail.of_eq rfl
  | cons a l ih => exact (Tail.apply g _ (hf a)).trans (ih _)

def Op.isConfigure : Op → Prop
  | .configure _ => True
  | _ => False

/-- The message is a configuration. -/
def In.isConfigure : In → Prop
  | .configure .. => True
  | _ => False

/-- What a group does with its queuebase when it handles something else than an enqueue. -/
def Allowed (i : In) (op : Op) : Prop := ¬ op.isEnqueue ∧ (op.isConfigure → i.isConfigure)

/-- What operations the handling of a message other than an enqueue leads to. -/
theorem Tail.handle (g : Group) (i : In) (hc : i ≠ .crash) (he : ∀ p c id queue name trid a b now, i ≠ .enqueue p c id queue name trid a b now) :
    Tail (Allowed i) g (g.handle i) := by
  have hq : ∀ {a b : Group}, Tail Op.isDequeue a b → Tail (Allowed i) a b := fun h => h.imp fun op ho =>
    ⟨ho.not, by cases op <;> simp_all [Op.isDequeue, Op.isConfigure]⟩
  have ht : ∀ now, Tail (Allowed i) g (g.tick now) := fun now => Tail.of_eq (same_tick g now).ops
  cases i with
  | configure p c conf cap now =>
    simp only [Group.handle, Group.configure]
    split
    · exact (Tail.of_eq rfl : Tail _ g { g.sync with capacity := cap, up := true }).trans ((Tail.apply _ (.configure conf) (by simp [Allowed, Op.isEnqueue, Op.isConfigure, In.isConfigure])).trans (Tail.of_eq rfl))
    · have h1 : Tail (Allowed (.configure p c conf cap now)) g { g.sync with capacity := cap, up := true } := Tail.of_eq rfl
      exact (h1.trans (hq (Tail.persist _ now))).trans (Tail.of_eq rfl)
  | enqueue => exact absurd rfl (he _ _ _ _ _ _ _ _ _)
  | dequeue req now => exact (ht now).trans (hq (Tail.dequeueOne _ req now))
  | forget p c =>
    simp only [Group.handle, Group.forget]
    split <;> exact Tail.of_eq rfl
  | timeout now =>
    simp only [Group.handle]
    split
    · exact ((ht now).trans (Tail.of_eq rfl)).trans (hq (Tail.pendingDequeues _ now))
    · exact (ht now).trans (Tail.of_eq rfl)
  | prepare p c t => exact Tail.of_eq rfl
  | commit p c t now =>
    exact (((ht now).trans (Tail.of_eq rfl : Tail _ _ ((g.tick now).done t))).trans ((Tail.apply _ (.commit t.g) (by simp [Allowed, Op.isEnqueue, Op.isConfigure, In.isConfigure])).trans (Tail.of_eq rfl))).trans
      (hq (Tail.persistentReply _ p c (.committed t) now))
  | rollback p c t now =>
    exact (((ht now).trans (Tail.of_eq rfl : Tail _ _ ((g.tick now).done t))).trans ((Tail.apply _ (.rollback t.g now) (by simp [Allowed, Op.isEnqueue, Op.isConfigure, In.isConfigure])).trans (Tail.of_eq rfl))).trans
      (hq (Tail.persistentReply _ p c (.rolledBack t) now))
  | restore qs now =>
    exact (((ht now).trans (Tail.applyAll _ (fun q => .restore q) (by simp [Allowed, Op.isEnqueue, Op.isConfigure, In.isConfigure]) qs)).trans (Tail.of_eq rfl)).trans (hq (Tail.pendingDequeues _ now))
  | clear qs => exact (Tail.applyAll _ (fun q => .clear q) (by simp [Allowed, Op.isEnqueue, Op.isConfigure, In.isConfigure]) qs).trans (Tail.of_eq rfl)
  | remove q ids force => exact (Tail.apply g _ (by split <;> simp [Allowed, Op.isEnqueue, Op.isConfigure, In.isConfigure])).trans (Tail.of_eq rfl)
  | recovery c ts now =>
    simp only [Group.handle, Group.recovery]
    split
    · exact (Tail.apply g (.recoveryCommit ts) (by simp [Allowed, Op.isEnqueue, Op.isConfigure, In.isConfigure])).trans (Tail.of_eq rfl)
    · exact (Tail.apply g (.recoveryRollback ts now) (by simp [Allowed, Op.isEnqueue, Op.isConfigure, In.isConfigure])).trans (Tail.of_eq rfl)
  | metricReset qs => exact Tail.apply g _ (by simp [Allowed, Op.isEnqueue, Op.isConfigure, In.isConfigure])
  | exit p => exact Tail.of_eq rfl
  | shutdown now =>
    simp only [Group.handle, Group.shutdown]
    exact ((ht now).trans (hq (Tail.persist _ now))).trans (Tail.of_eq rfl)
  | idle now => exact (ht now).trans (hq (Tail.persist _ now))
  | crash => exact absurd rfl hc

/-! ## Sizes -/

theorem totalSize_nonneg (ms : List Msg) : 0 ≤ totalSize ms := by
  unfold totalSize
  induction ms with
  | nil => simp
  | cons m ms ih => simp only [List.map_cons, List.sum_cons]; omega

theorem size_foldl {α : Type} {f : DB → α → DB} (hf : ∀ d a, Inv d → Inv (f d a) ∧ (f d a).size ≤ d.size) (l : List α) {db : DB} (h : Inv db) :
    (l.foldl f db).size ≤ db.size := by
  induction l generalizing db with
  | nil => exact Int.le_refl _
  | cons a l ih =>
    have h1 := hf db a h
    have h2 := ih h1.1
    exact Int.le_trans h2 h1.2

theorem size_commit_le (db : DB) (t) : (db.commit t).1.size ≤ db.size := by
  rw [size_commit]
  have : 0 ≤ (db.commit t).2 := totalSize_nonneg _
  omega

theorem size_rollback_le {db : DB} (h : Inv db) (t now) : (db.rollback t now).1.size ≤ db.size := by
  have h1 := size_rollback h t now (n := totalSize (db.affected (isAdded t))) (by rw [rollback_eq h])
  have := totalSize_nonneg (db.affected (isAdded t))
  omega

theorem size_deleteWhere_le (db : DB) (p) : (db.deleteWhere p).size ≤ db.size := by
  rw [size_deleteWhere]
  have := totalSize_nonneg (db.affected p)
  omega

theorem size_remove_le (db : DB) (q ids) : (db.remove q ids).1.size ≤ db.size := by
  induction ids generalizing db with
  | nil => exact Int.le_refl _
  | cons id ids ih =>
    simp only [DB.remove]
    exact Int.le_trans (ih _) (size_deleteWhere_le _ _)

theorem size_forceRemove_le (db : DB) (q ids) : (db.forceRemove q ids).1.size ≤ db.size := by
  induction ids generalizing db with
  | nil => exact Int.le_refl _
  | cons id ids ih =>
    simp only [DB.forceRemove]
    exact Int.le_trans (ih _) (size_deleteWhere_le _ _)

/-- Only an enqueue makes the stored size larger. -/
theorem size_step_le {db : DB} (h : Inv db) {op : Op} (ho : ¬ op.isEnqueue) : (db.step op).size ≤ db.size := by
  cases op with
  | configure conf => exact Int.le_of_eq (size_of_msgs (configure_msgs db conf))
  | enqueue => exact absurd trivial ho
  | dequeue q sel trid now =>
    simp only [DB.step]
    cases hs : db.select q sel now with
    | none => unfold DB.dequeue; rw [hs]; exact Int.le_refl _
    | some m =>
      rw [size_dequeue h hs]
      split
      · exact Int.le_refl _
      · have : 0 ≤ (m.length : Int) := Int.natCast_nonneg _
        omega
  | commit t => exact size_commit_le db t
  | rollback t now => exact size_rollback_le h t now
  | recoveryCommit ts =>
    simp only [DB.step]; rw [recoveryCommit_db]
    exact size_foldl (f := fun (db : DB) t => (db.commit t).1) (fun d t hd => ⟨hd.commit t, size_commit_le d t⟩) ts h
  | recoveryRollback ts now =>
    simp only [DB.step]; rw [recoveryRollback_db h]
    exact size_foldl (f := fun (db : DB) t => (db.rollback t now).1) (fun d t hd => ⟨hd.rollback t now, size_rollback_le hd t now⟩) ts h
  | restore q => exact Int.le_of_eq (size_restore db q)
  | clear q => exact size_deleteWhere_le _ _
  | remove q ids => exact size_remove_le db q ids
  | forceRemove q ids => exact size_forceRemove_le db q ids
  | metricReset qs => exact Int.le_refl _

theorem size_tail {g g' : Group} (h : Core g) (h' : Core g') (ht : Tail (fun op => ¬ op.isEnqueue) g g') : g'.db.size ≤ g.db.size := by
  obtain ⟨l, h1, h2⟩ := ht
  rw [h'.db, h1, run_append, ← h.db]
  have hi := h.inv
  generalize g.db = db at hi
  clear h1
  induction l generalizing db with
  | nil => exact Int.le_refl _
  | cons op l ih =>
    rw [run_cons]
    exact Int.le_trans (ih (fun o ho => h2 o (by simp [ho])) _ (hi.step op)) (size_step_le hi (h2 op (by simp)))

/-- Handling an enqueue: rejected, or performed first and then followed by dequeues. -/
theorem enqueue_ops (g : Group) (p c id queue name trid a b now) :
    (g.enqueue p c id queue name trid a b now = g.send p c .enqueueFailed ∧
      (g.hasCapacity b = false ∨ g.target queue name = none ∨
        ∃ q e, g.target queue name = some q ∧ (g.db.enqueue id q (trid.map (·.g)) a b now).2 = .error e)) ∨
    ∃ q, g.hasCapacity b = true ∧ g.target queue name = some q ∧ (g.db.enqueue id q (trid.map (·.g)) a b now).2 = .ok () ∧
      ∃ g1, g1.db = (g.db.enqueue id q (trid.map (·.g)) a b now).1 ∧ g1.ops = g.ops ++ [.enqueue id q (trid.map (·.g)) a b now] ∧
        Tail Op.isDequeue g1 (g.enqueue p c id queue name trid a b now) := by
  unfold Group.enqueue
  by_cases hcap : g.hasCapacity b = true
  · rw [if_pos hcap]
    cases htg : g.target queue name with
    | none => exact Or.inl ⟨rfl, Or.inr (Or.inl rfl)⟩
    | some q =>
      dsimp only
      cases hok : (g.db.enqueue id q (trid.map (·.g)) a b now).2 with
      | error e => exact Or.inl ⟨rfl, Or.inr (Or.inr ⟨q, e, rfl, hok⟩)⟩
      | ok u =>
        right
        refine ⟨q, hcap, rfl, hok, g.apply (.enqueue id q (trid.map (·.g)) a b now), rfl, rfl, ?_⟩
        dsimp only
        split
        · exact Tail.of_eq (same_involve _ _).ops
        · exact Tail.trans (Tail.of_eq rfl) (Tail.persistentReply _ _ _ _ _)
  · rw [if_neg hcap]; exact Or.inl ⟨rfl, Or.inl (by simpa using hcap)⟩

end Casual.Queue

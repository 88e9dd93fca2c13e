import Verif.Queue.InvConf

/-! # What each operation does with the message stored under one id (helper lemmas) -/
namespace Casual.Queue

/-- The message stored with the given id. -/
def DB.get? (db : DB) (id : MsgId) : Option Msg := db.msgs.find? fun m => m.id == id

theorem get?_some_iff {db : DB} (h : (db.msgs.map (·.id)).Nodup) {id : MsgId} {m : Msg} :
    db.get? id = some m ↔ m ∈ db.msgs ∧ m.id = id := by
  constructor
  · intro hf
    exact ⟨List.mem_of_find?_eq_some hf, by simpa using List.find?_some hf⟩
  · rintro ⟨hm, rfl⟩
    unfold DB.get?
    cases hf : db.msgs.find? fun x => x.id == m.id with
    | none =>
      rw [List.find?_eq_none] at hf
      exact absurd (hf m hm) (by simp)
    | some x =>
      have h1 := List.mem_of_find?_eq_some hf
      have h2 : x.id = m.id := by simpa using List.find?_some hf
      rw [eq_of_nodup_map h h1 hm h2]

theorem get?_none_iff {db : DB} {id : MsgId} : db.get? id = none ↔ ∀ m ∈ db.msgs, m.id ≠ id := by
  unfold DB.get?
  rw [List.find?_eq_none]
  simp

theorem get?_id {db : DB} {id : MsgId} {m : Msg} (h : db.get? id = some m) : m.id = id := by
  simpa using List.find?_some h

theorem get?_mem {db : DB} {id : MsgId} {m : Msg} (h : db.get? id = some m) : m ∈ db.msgs := List.mem_of_find?_eq_some h

theorem get?_deleteWhere {db : DB} (h : (db.msgs.map (·.id)).Nodup) (p : Msg → Bool) (id : MsgId) :
    (db.deleteWhere p).get? id = (db.get? id).filter fun m => !p m := by
  have h' : ((db.deleteWhere p).msgs.map (·.id)).Nodup := List.Nodup.sublist (List.Sublist.map _ List.filter_sublist) h
  apply Option.ext
  intro m
  rw [get?_some_iff h', Option.filter_eq_some_iff, get?_some_iff h]
  simp only [DB.deleteWhere, List.mem_filter]
  constructor
  · rintro ⟨⟨a, b⟩, c⟩; exact ⟨⟨a, c⟩, b⟩
  · rintro ⟨⟨a, b⟩, c⟩; exact ⟨⟨a, c⟩, b⟩

theorem find?_map_id (l : List Msg) (g : Msg → Msg) (hg : ∀ m, (g m).id = m.id) (id : MsgId) :
    (l.map g).find? (fun m => m.id == id) = (l.find? fun m => m.id == id).map g := by
  induction l with
  | nil => rfl
  | cons m l ih =>
    simp only [List.map_cons, List.find?_cons, hg]
    split
    · rfl
    · exact ih

theorem get?_updateWhere (db : DB) (p : Msg → Bool) (f : Msg → Msg) (trig) (hf : ∀ m, (f m).id = m.id) (id : MsgId) :
    (db.updateWhere p f trig).get? id = (db.get? id).map fun m => if p m then f m else m := by
  unfold DB.get? DB.updateWhere
  apply find?_map_id
  intro m
  split
  · exact hf m
  · rfl

theorem get?_of_msgs {db db' : DB} (h : db'.msgs = db.msgs) (id : MsgId) : db'.get? id = db.get? id := by
  unfold DB.get?; rw [h]

/-! ## Reconfiguration does not touch messages -/

theorem removeQueue_msgs (db : DB) (q : Qid) : (db.removeQueue q).1.msgs = db.msgs := by
  unfold DB.removeQueue
  split
  · rfl
  · unfold DB.deleteQueueRow
    dsimp only
    split
    · next heq => split at heq <;> simp at heq; rw [← heq.1]
    · next heq =>
      split at heq
      · simp at heq
      · simp at heq
        split
        · rw [← heq]
        · rw [← heq]

theorem updateQueueRow_msgs (db : DB) (q n c d) : (db.updateQueueRow q n c d).1.msgs = db.msgs := by
  unfold DB.updateQueueRow; split <;> rfl

theorem updateQueue_msgs (db : DB) (q n c d) : (db.updateQueue q n c d).1.msgs = db.msgs := by
  unfold DB.updateQueue
  split
  · rfl
  · have h1 := updateQueueRow_msgs db q n c d
    split
    · next heq => rw [heq] at h1; exact h1
    · next heq => rw [heq] at h1; rw [updateQueueRow_msgs]; exact h1

theorem insertQueue_msgs (db : DB) (n c d e) : (db.insertQueue n c d e).1.msgs = db.msgs := by
  unfold DB.insertQueue; split <;> rfl

theorem create_msgs (db : DB) (n c d) : (db.create n c d).1.msgs = db.msgs := by
  unfold DB.create
  have h1 := insertQueue_msgs db (errorName n) 0 0 0
  split
  · next heq => rw [heq] at h1; exact h1
  · next heq => rw [heq] at h1; rw [insertQueue_msgs]; exact h1

theorem createWanted_msgs (db : DB) (w) : (db.createWanted w).1.msgs = db.msgs := by
  unfold DB.createWanted
  have h1 := create_msgs db w.name w.retryCount w.retryDelay
  split
  · next heq => rw [heq] at h1; exact h1
  · next heq => rw [heq] at h1; exact h1

theorem forEach_msgs {α : Type} {f : DB → α → DB × Except Err Unit} (hf : ∀ db a, (f db a).1.msgs = db.msgs) (db : DB) (l : List α) :
    (forEach f db l).1.msgs = db.msgs := by
  induction l generalizing db with
  | nil => rfl
  | cons a l ih =>
    unfold forEach
    have h1 := hf db a
    split
    · next heq => rw [heq] at h1; exact h1
    · next heq => rw [heq] at h1; rw [ih]; exact h1

theorem configure_msgs (db : DB) (conf) : (db.configure conf).1.msgs = db.msgs := by
  unfold DB.configure
  dsimp only
  have h : ∀ w r, (db.updateQueues w r).1.msgs = db.msgs := by
    intro w r
    unfold DB.updateQueues
    have h1 := forEach_msgs removeQueue_msgs db r
    split
    · next heq => rw [heq] at h1; exact h1
    · next db1 heq =>
      rw [heq] at h1
      have h2 := forEach_msgs (f := fun db (w : Wanted) => db.updateQueue w.id w.name w.retryCount w.retryDelay)
        (fun db w => updateQueue_msgs db _ _ _ _) db1 (w.filter fun w => w.id != 0)
      split
      · next heq => rw [heq] at h2; exact h2.trans h1
      · next heq => rw [heq] at h2; rw [forEach_msgs createWanted_msgs]; exact h2.trans h1
  have h' := h (db.plan conf).1 (db.plan conf).2.1
  split
  · next heq => rw [heq] at h'; exact h'
  · rfl

/-! ## Messages -/

theorem enqueue_cases (db : DB) (id q trid a b now) :
    let m : Msg := { id := id, queue := q, origin := q, gtrid := trid, state := if trid.isSome then .added else .enqueued, redelivered := 0, available := a, timestamp := now, body := b }
    ((db.enqueue id q trid a b now).2 = .ok () ∧ db.get? id = none ∧ (db.enqueue id q trid a b now).1.msgs = db.msgs ++ [m]) ∨
    ((db.enqueue id q trid a b now).2 ≠ .ok () ∧ (db.enqueue id q trid a b now).1 = db) := by
  intro m
  rw [show db.enqueue id q trid a b now = db.insert m from rfl]
  have hid : m.id = id := rfl
  generalize m = m at hid ⊢
  unfold DB.insert
  by_cases h1 : (db.msgs.any fun x => x.id == m.id) = true
  · right; rw [if_pos h1]; simp
  · rw [if_neg h1]
    by_cases h2 : (db.queues.any fun r => r.id == m.queue) = true
    · left
      rw [if_pos h2]
      refine ⟨rfl, ?_, rfl⟩
      rw [get?_none_iff]
      intro x hx he
      exact h1 (List.any_eq_true.mpr ⟨x, hx, by simp [he, hid]⟩)
    · right; rw [if_neg h2]; simp

theorem get?_enqueue {db : DB} {id q trid a b now} (hok : (db.enqueue id q trid a b now).2 = .ok ()) (x : MsgId) :
    (db.enqueue id q trid a b now).1.get? x = if x = id then
      some { id := id, queue := q, origin := q, gtrid := trid, state := if trid.isSome then .added else .enqueued, redelivered := 0, available := a, timestamp := now, body := b }
    else db.get? x := by
  rcases enqueue_cases db id q trid a b now with ⟨-, h1, h2⟩ | ⟨h1, -⟩
  · unfold DB.get? at h1 ⊢
    rw [h2, List.find?_append]
    by_cases hx : x = id
    · subst hx; rw [h1]; simp
    · rw [if_neg hx]
      have : ¬ id = x := fun e => hx e.symm
      simp [this]
  · exact absurd hok h1

theorem get?_enqueue_other (db : DB) {id q trid a b now} {x : MsgId} (hx : x ≠ id) :
    (db.enqueue id q trid a b now).1.get? x = db.get? x := by
  rcases enqueue_cases db id q trid a b now with ⟨h, h1, h2⟩ | ⟨-, h1⟩
  · rw [get?_enqueue h, if_neg hx]
  · rw [h1]

theorem dequeue_eq {db : DB} {q sel trid now} :
    (db.dequeue q sel trid now) = match db.select q sel now, trid with
      | none, _ => (db, none)
      | some m, some t => (db.take m.id t, some m)
      | some m, none => (db.deleteWhere (fun x => x.id == m.id), some m) := by
  unfold DB.dequeue
  cases db.select q sel now <;> cases trid <;> rfl

theorem dequeue_out {db : DB} {q sel trid now} : (db.dequeue q sel trid now).2 = db.select q sel now := by
  rw [dequeue_eq]; cases db.select q sel now <;> cases trid <;> rfl

theorem get?_dequeue {db : DB} (h : Inv db) (q sel trid now) (x : MsgId) :
    (db.dequeue q sel trid now).1.get? x =
      match db.select q sel now with
      | none => db.get? x
      | some m => if x = m.id then trid.map fun t => { m with gtrid := some t, state := .dequeued } else db.get? x := by
  rw [dequeue_eq]
  cases hs : db.select q sel now with
  | none => rfl
  | some m =>
    obtain ⟨hm, -, -⟩ := select_mem hs
    have hg : db.get? m.id = some m := (get?_some_iff h.nodup).mpr ⟨hm, rfl⟩
    cases trid with
    | some t =>
      simp only [DB.take]
      rw [get?_updateWhere _ _ _ _ (by intro m; rfl)]
      split
      · next he => subst he; rw [hg]; simp
      · next he =>
        cases hx : db.get? x with
        | none => rfl
        | some y =>
          have := get?_id hx
          have : ¬ y.id = m.id := by omega
          simp [this]
    | none =>
      simp only
      rw [get?_deleteWhere h.nodup]
      split
      · next he => subst he; rw [hg]; simp
      · next he =>
        cases hx : db.get? x with
        | none => rfl
        | some y =>
          have := get?_id hx
          have : ¬ y.id = m.id := by omega
          simp [this]

/-- `commit` message by message. -/
def commitMsg (t : Gtrid) (m : Msg) : Option Msg :=
  if m.gtrid = some t then
    match m.state with
    | .added => some { m with state := .enqueued }
    | .enqueued => some m
    | .dequeued => none
  else some m

theorem get?_commit {db : DB} (h : Inv db) (t : Gtrid) (x : MsgId) : (db.commit t).1.get? x = (db.get? x).bind (commitMsg t) := by
  unfold DB.commit
  dsimp only
  rw [get?_deleteWhere (h.commit1 t).nodup]
  unfold DB.commit1
  rw [get?_updateWhere _ _ _ _ (by intro m; rfl)]
  cases db.get? x with
  | none => rfl
  | some m =>
    simp only [Option.map_some, Option.bind_some, commitMsg, isTaken]
    by_cases hg : m.gtrid = some t
    · cases hs : m.state <;> simp [hg, hs]
    · simp [hg]

/-- `rollback` message by message. -/
def rollbackMsg (db : DB) (t : Gtrid) (now : Time) (m : Msg) : Option Msg :=
  if m.gtrid = some t then
    match m.state with
    | .added => none
    | s =>
      let m := if s = .dequeued then
          { m with state := .enqueued, redelivered := m.redelivered + 1,
                   available := db.retryAt now m }
        else m
      if db.exhausted t m then some { m with redelivered := 0, queue := m.queue - 1, available := 0 } else some m
  else some m

/-- Same queues up to the counters. -/
theorem Shift.queue? {dc ds du : Qid → Int} {a b : List QRow} (h : Shift dc ds du a b) (q : Qid) :
    ((b.find? fun r => r.id == q).map fun r => (r.retryCount, r.retryDelay, r.error)) =
      (a.find? fun r => r.id == q).map fun r => (r.retryCount, r.retryDelay, r.error) := by
  obtain ⟨g, rfl, hg⟩ := h
  induction a with
  | nil => rfl
  | cons r a ih =>
    simp only [List.map_cons, List.find?_cons, (hg r).1]
    split
    · simp [(hg r).2.2.1, (hg r).2.2.2.1, (hg r).2.2.2.2.1]
    · exact ih

theorem exhausted_congr {db db' : DB} (h : ∀ q, (db'.queue? q).map (fun r => (r.retryCount, r.retryDelay, r.error)) =
    (db.queue? q).map fun r => (r.retryCount, r.retryDelay, r.error)) (t : Gtrid) (m : Msg) : db'.exhausted t m = db.exhausted t m := by
  unfold DB.exhausted
  congr 1
  have := h m.queue
  cases h1 : db'.queue? m.queue <;> cases h2 : db.queue? m.queue <;> simp [h1, h2] at this ⊢
  rw [this.1]

theorem get?_rollbackSteps {db : DB} (h : Inv db) (t : Gtrid) (now : Time) (x : MsgId) :
    (((db.deleteWhere (isAdded t)).rollback2 t now).rollback3 t).1.get? x = (db.get? x).bind (rollbackMsg db t now) := by
  have h1 := h.deleteWhere (isAdded t)
  have h2 := h1.rollback2 t now
  have h3 := h2.rollback3 t (noAdded_after db t now)
  have s1 := (shift_deleteWhere db (isAdded t)).queue?
  have s2 : ∀ q, (((db.deleteWhere (isAdded t)).rollback2 t now).queue? q).map (fun r => (r.retryCount, r.retryDelay, r.error)) =
      (db.queue? q).map fun r => (r.retryCount, r.retryDelay, r.error) := by
    intro q
    rw [show (db.queue? q).map _ = _ from (s1 q).symm]
    unfold DB.rollback2
    refine (shift_updateWhere _ _ _ _ ?_).queue? q
    intro m _ hp a
    simp only [isTaken, Bool.and_eq_true, beq_iff_eq] at hp
    exact shift_trigState a m _ ⟨rfl, rfl, Or.inr ⟨by simp [hp.2], by simp⟩⟩
  unfold DB.rollback3
  have hfk := (h2.rollback3' t (noAdded_after db t now)).fkOk
  simp only [hfk, if_true]
  rw [get?_updateWhere _ _ _ _ (by intro m; rfl)]
  unfold DB.rollback2
  rw [get?_updateWhere _ _ _ _ (by intro m; rfl), get?_deleteWhere h.nodup]
  cases db.get? x with
  | none => rfl
  | some m =>
    have hex : ∀ m, ((db.deleteWhere (isAdded t)).rollback2 t now).exhausted t m = db.exhausted t m := exhausted_congr s2 t
    unfold DB.rollback2 at hex
    simp only [hex, rollbackMsg, Option.bind_some]
    have hq : ∀ q, ((db.deleteWhere (isAdded t)).queue? q).map (fun r => (r.retryCount, r.retryDelay, r.error)) =
      (db.queue? q).map fun r => (r.retryCount, r.retryDelay, r.error) := s1
    have hav : (db.deleteWhere (isAdded t)).retryAt now m = db.retryAt now m := by
      unfold DB.retryAt
      have := hq m.queue
      cases h1 : (db.deleteWhere (isAdded t)).queue? m.queue <;> cases h2 : db.queue? m.queue <;> simp [h1, h2] at this ⊢
      rw [this.2.1]
    by_cases hg : m.gtrid = some t
    · cases hs : m.state
      · simp [isAdded, hg, hs, Option.filter]
      · have h1 : isAdded t m = false := by simp [isAdded, hs]
        have h2 : isTaken t m = false := by simp [isTaken, hs]
        rw [show Option.filter (fun m => !isAdded t m) (some m) = some m by simp [Option.filter, h1]]
        simp only [Option.map_some, h2, if_true, hg, reduceCtorEq, if_false, Bool.false_eq_true]
        split <;> rfl
      · have h1 : isAdded t m = false := by simp [isAdded, hs]
        have h2 : isTaken t m = true := by simp [isTaken, hs, hg]
        rw [show Option.filter (fun m => !isAdded t m) (some m) = some m by simp [Option.filter, h1]]
        simp only [Option.map_some, h2, if_true, hg, hav]
        split <;> rfl
    · have hne : db.exhausted t m = false := by simp [DB.exhausted, hg]
      simp [hg, isAdded, isTaken, Option.filter, hne]

theorem rollback_eq {db : DB} (h : Inv db) (t : Gtrid) (now : Time) :
    db.rollback t now = ((((db.deleteWhere (isAdded t)).rollback2 t now).rollback3 t).1, .ok (totalSize (db.affected (isAdded t)))) := by
  unfold DB.rollback
  have h2 := (((h.deleteWhere (isAdded t)).rollback2 t now).rollback3 t (noAdded_after db t now)).2
  dsimp only
  split
  · next heq => rw [heq] at h2; simp at h2
  · next heq => rw [heq]

theorem get?_rollback {db : DB} (h : Inv db) (t : Gtrid) (now : Time) (x : MsgId) :
    (db.rollback t now).1.get? x = (db.get? x).bind (rollbackMsg db t now) := by
  rw [rollback_eq h]; exact get?_rollbackSteps h t now x

theorem recoveryCommit_db (db : DB) (ts : List Gtrid) : (db.recoveryCommit ts).1 = ts.foldl (fun db t => (db.commit t).1) db := by
  induction ts generalizing db with
  | nil => rfl
  | cons t ts ih => simp only [DB.recoveryCommit, List.foldl_cons]; rw [ih]; rfl

theorem recoveryRollback_db {db : DB} (h : Inv db) (now : Time) (ts : List Gtrid) :
    (db.recoveryRollback now ts).1 = ts.foldl (fun db t => (db.rollback t now).1) db := by
  induction ts generalizing db with
  | nil => rfl
  | cons t ts ih =>
    simp only [List.foldl_cons]
    rw [rollback_eq h]
    have h3 := ((h.deleteWhere (isAdded t)).rollback2 t now).rollback3 t (noAdded_after db t now)
    have := ih h3.1
    unfold DB.recoveryRollback
    dsimp only
    generalize ((db.deleteWhere (isAdded t)).rollback2 t now).rollback3 t = r at h3 this ⊢
    obtain ⟨d, e⟩ := r
    simp only at h3
    cases e with
    | error e => simp at h3
    | ok u =>
      simp only at this ⊢
      rw [← this]
      split <;> simp_all

theorem get?_restore {db : DB} (h : Inv db) (q : Qid) (x : MsgId) :
    (db.restore q).1.get? x = (db.get? x).map fun m => if isRestorable q m then { m with queue := q } else m := by
  unfold DB.restore
  simp only [(h.restore' q).fkOk, if_true]
  exact get?_updateWhere _ _ _ _ (by intro m; rfl) _

theorem get?_clear {db : DB} (h : Inv db) (q : Qid) (x : MsgId) :
    (db.clear q).1.get? x = (db.get? x).filter fun m => !(m.state == .enqueued && m.queue == q) :=
  get?_deleteWhere h.nodup _ x

theorem get?_remove {db : DB} (h : Inv db) (q : Qid) (ids : List MsgId) (x : MsgId) :
    (db.remove q ids).1.get? x = (db.get? x).filter fun m => !(m.state == .enqueued && m.queue == q && ids.contains m.id) := by
  induction ids generalizing db with
  | nil => cases h : db.get? x <;> simp [DB.remove, Option.filter, h]
  | cons id ids ih =>
    unfold DB.remove
    have := ih (h.deleteWhere (fun m => m.state == .enqueued && m.queue == q && m.id == id))
    dsimp only
    rw [this, get?_deleteWhere h.nodup, Option.filter_filter]
    congr 1; funext m
    simp only [List.contains_cons]
    cases (m.state == MState.enqueued) <;> cases (m.queue == q) <;> simp

theorem get?_forceRemove {db : DB} (h : Inv db) (q : Qid) (ids : List MsgId) (x : MsgId) :
    (db.forceRemove q ids).1.get? x = (db.get? x).filter fun m => !(m.queue == q && ids.contains m.id) := by
  induction ids generalizing db with
  | nil => cases h : db.get? x <;> simp [DB.forceRemove, Option.filter, h]
  | cons id ids ih =>
    unfold DB.forceRemove
    have := ih (h.deleteWhere (fun m => m.queue == q && m.id == id))
    dsimp only
    rw [this, get?_deleteWhere h.nodup, Option.filter_filter]
    congr 1; funext m
    simp only [List.contains_cons]
    cases (m.queue == q) <;> simp

theorem metricReset_msgs (db : DB) (qs) : (db.metricReset qs).msgs = db.msgs := rfl

end Casual.Queue

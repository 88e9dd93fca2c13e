import Verif.Queue.Props

/-! How the operations change the total size of the messages. -/
namespace Casual.Queue

theorem totalSize_filter (p : Msg → Bool) (ms : List Msg) :
    totalSize (ms.filter fun m => !p m) = totalSize ms - totalSize (ms.filter p) := by
  induction ms with
  | nil => rfl
  | cons m ms ih =>
    unfold totalSize at ih ⊢
    cases h : p m <;> simp [h] at ih ⊢ <;> omega

theorem totalSize_update (p : Msg → Bool) (f : Msg → Msg) (hf : ∀ m, (f m).body = m.body) (ms : List Msg) :
    totalSize (ms.map fun m => if p m then f m else m) = totalSize ms := by
  induction ms with
  | nil => rfl
  | cons m ms ih =>
    unfold totalSize at ih ⊢
    have : (if p m = true then f m else m).length = m.length := by unfold Msg.length; split <;> simp [hf]
    simp only [List.map_cons, List.sum_cons, this, ih]

theorem size_deleteWhere (db : DB) (p : Msg → Bool) : (db.deleteWhere p).size = db.size - totalSize (db.affected p) :=
  totalSize_filter p db.msgs

theorem size_updateWhere (db : DB) (p : Msg → Bool) (f : Msg → Msg) (trig) (hf : ∀ m, (f m).body = m.body) :
    (db.updateWhere p f trig).size = db.size := totalSize_update p f hf db.msgs

theorem size_of_msgs {db db' : DB} (h : db'.msgs = db.msgs) : db'.size = db.size := by unfold DB.size; rw [h]

theorem size_enqueue {db : DB} {id q trid a b now} (hok : (db.enqueue id q trid a b now).2 = .ok ()) :
    (db.enqueue id q trid a b now).1.size = db.size + b.payload.length := by
  unfold DB.enqueue at hok ⊢
  generalize hm : ({ id := id, queue := q, origin := q, gtrid := trid, state := if trid.isSome then .added else .enqueued, redelivered := 0, available := a, timestamp := now, body := b } : Msg) = m at hok ⊢
  have hl : m.length = b.payload.length := by subst hm; rfl
  unfold DB.insert at hok ⊢
  split at hok
  · simp at hok
  · next h1 =>
    split at hok
    · next h2 =>
      rw [if_neg h1, if_pos h2]
      simp [DB.size, totalSize, hl]
    · simp at hok

theorem totalSize_one {db : DB} (h : (db.msgs.map (·.id)).Nodup) {m : Msg} (hm : m ∈ db.msgs) :
    db.affected (fun x => x.id == m.id) = [m] := by
  unfold DB.affected
  generalize db.msgs = l at h hm
  induction l with
  | nil => cases hm
  | cons x l ih =>
    simp only [List.map_cons, List.nodup_cons, List.mem_map, not_exists, not_and] at h
    rcases List.mem_cons.mp hm with rfl | hm'
    · have : l.filter (fun y => y.id == m.id) = [] := by
        rw [List.filter_eq_nil_iff]; intro y hy; simpa using h.1 y hy
      simp [this]
    · have hne : x.id ≠ m.id := fun he => h.1 m hm' he.symm
      have : (x.id == m.id) = false := by simpa using hne
      rw [List.filter_cons, this]
      exact ih h.2 hm'

theorem size_dequeue {db : DB} (h : Inv db) {q sel trid now m} (hs : db.select q sel now = some m) :
    (db.dequeue q sel trid now).1.size = if trid.isSome then db.size else db.size - m.length := by
  unfold DB.dequeue
  rw [hs]
  cases trid with
  | some t => exact size_updateWhere _ _ _ _ (fun _ => rfl)
  | none =>
    dsimp only
    rw [size_deleteWhere, totalSize_one h.nodup (select_mem hs).1]
    simp [totalSize]

theorem size_commit (db : DB) (t : Gtrid) : (db.commit t).1.size = db.size - (db.commit t).2 := by
  unfold DB.commit
  dsimp only
  rw [size_deleteWhere]
  congr 1
  exact size_updateWhere _ _ _ _ (fun _ => rfl)

theorem size_rollback3 (db : DB) (t : Gtrid) : (db.rollback3 t).1.size = db.size := by
  unfold DB.rollback3
  dsimp only
  split
  · exact size_updateWhere _ _ _ _ (fun _ => rfl)
  · rfl

theorem size_rollback {db : DB} (h : Inv db) (t : Gtrid) (now : Time) {n : Int} (hn : (db.rollback t now).2 = .ok n) :
    (db.rollback t now).1.size = db.size - n := by
  rw [rollback_eq h] at hn ⊢
  simp only [Except.ok.injEq] at hn
  subst hn
  rw [size_rollback3, ← size_deleteWhere]
  exact size_updateWhere _ _ _ _ (fun _ => rfl)

theorem size_recoveryCommit (db : DB) (ts : List Gtrid) : (db.recoveryCommit ts).1.size = db.size - (db.recoveryCommit ts).2.1 := by
  induction ts generalizing db with
  | nil => simp [DB.recoveryCommit]
  | cons t ts ih =>
    simp only [DB.recoveryCommit]
    rw [ih, size_deleteWhere]
    have : (db.commit1 t).size = db.size := size_updateWhere _ _ _ _ (fun _ => rfl)
    rw [this]
    generalize ((db.commit1 t).deleteWhere (isTaken t)).recoveryCommit ts = r
    obtain ⟨a, b, c⟩ := r
    dsimp only
    omega

theorem recoveryRollback_eq {db : DB} (h : Inv db) (now : Time) (ts : List Gtrid) :
    ∃ n found, (db.recoveryRollback now ts).2 = .ok (n, found) ∧ (db.recoveryRollback now ts).1.size = db.size - n := by
  induction ts generalizing db with
  | nil => exact ⟨0, [], rfl, by simp [DB.recoveryRollback]⟩
  | cons t ts ih =>
    have hsz : (((db.deleteWhere (isAdded t)).rollback2 t now).rollback3 t).1.size = db.size - totalSize (db.affected (isAdded t)) := by
      rw [size_rollback3, ← size_deleteWhere]
      exact size_updateWhere _ _ _ _ (fun _ => rfl)
    obtain ⟨hinv, hok⟩ := (((h.deleteWhere (isAdded t)).rollback2 t now).rollback3 t (noAdded_after db t now))
    simp only [DB.recoveryRollback]
    generalize ((db.deleteWhere (isAdded t)).rollback2 t now).rollback3 t = r at hsz hinv hok ⊢
    obtain ⟨d, e⟩ := r
    simp only at hok hinv hsz
    subst hok
    obtain ⟨n, f, h2, h3⟩ := ih hinv
    dsimp only
    generalize d.recoveryRollback now ts = r at h2 h3 ⊢
    obtain ⟨d', e'⟩ := r
    simp only at h2 h3
    subst h2
    exact ⟨_, _, rfl, by dsimp only; omega⟩

theorem size_restore (db : DB) (q : Qid) : (db.restore q).1.size = db.size := by
  unfold DB.restore
  dsimp only
  split
  · exact size_updateWhere _ _ _ _ (fun _ => rfl)
  · rfl

theorem size_metricReset (db : DB) (qs) : (db.metricReset qs).size = db.size := rfl

end Casual.Queue

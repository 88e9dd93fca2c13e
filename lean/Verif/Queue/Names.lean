import Verif.Queue.Hist

/-! # Names: the error queue of a queue is the one named after it (helper lemmas) -/
namespace Casual.Queue

/-- What no operation but reconfiguration changes in a row of `queue`. -/
def QRow.key (r : QRow) : Qid × Name × Qid := (r.id, r.name, r.error)

def keys (qs : List QRow) : List (Qid × Name × Qid) := qs.map QRow.key

/-- Each queue with an error queue has one named after it. -/
def Named (qs : List QRow) : Prop :=
  ∀ r ∈ qs, r.id % 2 = 0 → ∃ e ∈ qs, e.id = r.error ∧ e.name = errorName r.name

theorem named_congr {a b : List QRow} (h : keys b = keys a) (hn : Named a) : Named b := by
  have hmem : ∀ {x y : List QRow}, keys x = keys y → ∀ r ∈ x, ∃ r' ∈ y, r'.key = r.key := by
    intro x y hxy r hr
    have : r.key ∈ keys y := by rw [← hxy]; exact List.mem_map_of_mem hr
    obtain ⟨r', h1, h2⟩ := List.mem_map.mp this
    exact ⟨r', h1, h2⟩
  intro r hr he
  obtain ⟨r', hr', hk⟩ := hmem h r hr
  simp only [QRow.key, Prod.mk.injEq] at hk
  obtain ⟨e, he1, he2, he3⟩ := hn r' hr' (by omega)
  obtain ⟨e', he', hk'⟩ := hmem h.symm e he1
  simp only [QRow.key, Prod.mk.injEq] at hk'
  exact ⟨e', he', by rw [hk'.1, he2, hk.2.2], by rw [hk'.2.1, he3, hk.2.1]⟩

theorem keys_onQueue (qs : List QRow) (q : Qid) (f : QRow → QRow) (hf : ∀ r, (f r).key = r.key) : keys (onQueue qs q f) = keys qs := by
  unfold keys onQueue
  rw [List.map_map]
  apply List.map_congr_left
  intro r _
  simp only [Function.comp_apply]
  split
  · exact hf r
  · rfl

theorem keys_trigInsert (qs m) : keys (trigInsert qs m) = keys qs := by
  unfold trigInsert
  split
  · exact keys_onQueue _ _ _ (fun _ => rfl)
  · exact keys_onQueue _ _ _ (fun _ => rfl)
  · rfl

theorem keys_trigState (qs o n) : keys (trigState qs o n) = keys qs := by
  unfold trigState
  split
  · exact keys_onQueue _ _ _ (fun _ => rfl)
  · rfl

theorem keys_trigQueue (qs o n) : keys (trigQueue qs o n) = keys qs := by
  unfold trigQueue
  split
  · dsimp only
    refine (keys_onQueue _ _ _ ?_).trans (keys_onQueue _ _ _ ?_) <;> intro r <;> rfl
  · rfl

theorem keys_trigDelete (qs m) : keys (trigDelete qs m) = keys qs := by
  unfold trigDelete
  split
  · exact keys_onQueue _ _ _ (fun _ => rfl)
  · exact keys_onQueue _ _ _ (fun _ => rfl)
  · exact keys_onQueue _ _ _ (fun _ => rfl)

theorem keys_foldl {α : Type} (f : List QRow → α → List QRow) (hf : ∀ qs a, keys (f qs a) = keys qs) (l : List α) (qs : List QRow) :
    keys (l.foldl f qs) = keys qs := by
  induction l generalizing qs with
  | nil => rfl
  | cons a l ih => rw [List.foldl_cons, ih, hf]

theorem keys_deleteWhere (db : DB) (p) : keys (db.deleteWhere p).queues = keys db.queues :=
  keys_foldl _ keys_trigDelete _ _

theorem keys_updateWhere (db : DB) (p f trig) (ht : ∀ qs o n, keys (trig qs o n) = keys qs) :
    keys (db.updateWhere p f trig).queues = keys db.queues :=
  keys_foldl _ (fun qs m => ht qs m (f m)) _ _

theorem keys_commit (db : DB) (t) : keys (db.commit t).1.queues = keys db.queues := by
  unfold DB.commit DB.commit1
  dsimp only
  rw [keys_deleteWhere, keys_updateWhere _ _ _ _ keys_trigState]

theorem keys_rollback3 (db : DB) (t) : keys (db.rollback3 t).1.queues = keys db.queues := by
  unfold DB.rollback3
  dsimp only
  split
  · exact keys_updateWhere _ _ _ _ keys_trigQueue
  · rfl

theorem keys_rollback {db : DB} (h : Inv db) (t now) : keys (db.rollback t now).1.queues = keys db.queues := by
  rw [rollback_eq h]
  dsimp only
  rw [keys_rollback3]
  unfold DB.rollback2
  rw [keys_updateWhere _ _ _ _ keys_trigState, keys_deleteWhere]

theorem keys_remove (db : DB) (q ids) : keys (db.remove q ids).1.queues = keys db.queues :=
  remove_keeps (P := fun d => keys d.queues = keys db.queues) rfl (fun d p h => by rw [keys_deleteWhere, h]) q ids

theorem keys_forceRemove (db : DB) (q ids) : keys (db.forceRemove q ids).1.queues = keys db.queues :=
  forceRemove_keeps (P := fun d => keys d.queues = keys db.queues) rfl (fun d p h => by rw [keys_deleteWhere, h]) q ids

theorem keys_step {db : DB} (h : Inv db) {op : Op} (hop : ∀ conf, op ≠ .configure conf) : keys (db.step op).queues = keys db.queues := by
  cases op with
  | configure conf => exact absurd rfl (hop conf)
  | enqueue id q trid a b now =>
    simp only [DB.step, DB.enqueue]
    unfold DB.insert
    dsimp only
    by_cases h1 : (db.msgs.any fun x => x.id == id) = true
    · rw [if_pos h1]
    · rw [if_neg h1]
      by_cases h2 : (db.queues.any fun x => x.id == q) = true
      · rw [if_pos h2]; exact keys_trigInsert _ _
      · rw [if_neg h2]
  | dequeue q sel trid now =>
    simp only [DB.step]
    rw [dequeue_eq]
    cases db.select q sel now with
    | none => rfl
    | some m =>
      cases trid with
      | none => exact keys_deleteWhere _ _
      | some t => exact keys_updateWhere _ _ _ _ keys_trigState
  | commit t => exact keys_commit db t
  | rollback t now => exact keys_rollback h t now
  | recoveryCommit ts =>
    simp only [DB.step]; rw [recoveryCommit_db]
    exact foldl_keeps (P := fun d => keys d.queues = keys db.queues) (fun t _ d hd hk => by rw [keys_commit, hk]) (fun t d hd => hd.commit t) h rfl
  | recoveryRollback ts now =>
    simp only [DB.step]; rw [recoveryRollback_db h]
    exact foldl_keeps (P := fun d => keys d.queues = keys db.queues) (fun t _ d hd hk => by rw [keys_rollback hd, hk]) (fun t d hd => hd.rollback t now) h rfl
  | restore q =>
    simp only [DB.step, DB.restore]
    split
    · exact keys_updateWhere _ _ _ _ keys_trigQueue
    · rfl
  | clear q => exact keys_deleteWhere _ _
  | remove q ids => exact keys_remove db q ids
  | forceRemove q ids => exact keys_forceRemove db q ids
  | metricReset qs =>
    refine keys_foldl _ (fun qs q => ?_) _ _
    refine keys_onQueue _ _ _ ?_
    intro r; rfl

/-! ## Reconfiguration -/

/-- A wanted queue that exists has the name of the existing queue. -/
def Agrees (qs : List QRow) (w : Wanted) : Prop := ∀ r ∈ qs, r.id = w.id → r.name = w.name

theorem agrees_congr {a b : List QRow} (h : keys b = keys a) {w : Wanted} (ha : Agrees a w) : Agrees b w := by
  intro r hr he
  have : r.key ∈ keys a := by rw [← h]; exact List.mem_map_of_mem hr
  obtain ⟨r', h1, h2⟩ := List.mem_map.mp this
  simp only [QRow.key, Prod.mk.injEq] at h2
  rw [← h2.2.1]
  exact ha r' h1 (by omega)

theorem keys_setName {qs : List QRow} {q : Qid} {n : Name} {c d : Nat} (hn : ∀ r ∈ qs, r.id = q → r.name = n) :
    keys (onQueue qs q fun r => { r with name := n, retryCount := c, retryDelay := d }) = keys qs := by
  unfold keys onQueue
  rw [List.map_map]
  apply List.map_congr_left
  intro r hr
  simp only [Function.comp_apply]
  split
  · next he => simp [QRow.key, hn r hr he]
  · rfl

theorem keys_updateQueueRow {db : DB} {q : Qid} {n : Name} {c d : Nat} (hn : ∀ r ∈ db.queues, r.id = q → r.name = n) :
    keys (db.updateQueueRow q n c d).1.queues = keys db.queues := by
  unfold DB.updateQueueRow
  split
  · rfl
  · exact keys_setName hn

theorem keys_updateQueue {db : DB} (h : Inv db) (hnm : Named db.queues) {w : Wanted} (ha : Agrees db.queues w) {c d : Nat} :
    keys (db.updateQueue w.id w.name c d).1.queues = keys db.queues := by
  unfold DB.updateQueue
  split
  · rfl
  · next ex hf =>
    have hmem : ex ∈ db.queues := List.mem_of_find?_eq_some hf
    have hid : ex.id = w.id := by simpa using List.find?_some hf
    have h1 := keys_updateQueueRow (db := db) (q := w.id) (n := w.name) (c := c) (d := d) ha
    have hi := h.updateQueueRow w.id w.name c d
    generalize db.updateQueueRow w.id w.name c d = r at h1 hi ⊢
    obtain ⟨d1, e⟩ := r
    cases e with
    | error e => exact h1
    | ok u =>
      dsimp only at h1 hi ⊢
      rw [keys_updateQueueRow]
      · exact h1
      · intro r hr he
        have hr' : r.key ∈ keys db.queues := by rw [← h1]; exact List.mem_map_of_mem hr
        obtain ⟨r', h2, h3⟩ := List.mem_map.mp hr'
        simp only [QRow.key, Prod.mk.injEq] at h3
        rcases Nat.mod_two_eq_zero_or_one ex.id with h0 | h0
        · obtain ⟨e, he1, he2, he3⟩ := hnm ex hmem h0
          have : r' = e := eq_of_nodup_map h.paired.nodup h2 he1 (by show r'.id = e.id; omega)
          rw [← h3.2.1, this, he3, ha ex hmem hid]
        · have := (h.paired.odd ex hmem h0).1
          exfalso
          rcases Nat.mod_two_eq_zero_or_one r'.id with h4 | h4
          · have := (h.paired.even r' h2 h4).2.1
            omega
          · omega

theorem named_remove {db : DB} (h : Inv db) (hn : Named db.queues) (q : Qid) (hq : q % 2 = 0) (hok : (db.removeQueue q).2 = .ok ()) :
    Named (db.removeQueue q).1.queues := by
  rw [(h.removeQueue q hq hok).2]
  intro r hr he
  simp only [List.mem_filter, Bool.and_eq_true, bne_iff_ne, ne_eq] at hr
  obtain ⟨e, h1, h2, h3⟩ := hn r hr.1 he
  refine ⟨e, ?_, h2, h3⟩
  have hp := h.paired.even r hr.1 he
  simp only [List.mem_filter, Bool.and_eq_true, bne_iff_ne, ne_eq]
  exact ⟨h1, by omega, by omega⟩

theorem named_create {db : DB} (h : Inv db) (hn : Named db.queues) (name rc rd) {q : Qid} (hok : (db.create name rc rd).2 = .ok q) :
    Named (db.create name rc rd).1.queues := by
  unfold DB.create at hok ⊢
  unfold DB.insertQueue at hok ⊢
  obtain ⟨hodd, hpos, hlt⟩ := h.paired.next
  by_cases h1 : db.queues.any (fun r => r.name == errorName name) = true
  · simp [h1] at hok
  · simp only [h1, if_false, Bool.false_eq_true] at hok ⊢
    split at hok
    · simp at hok
    · next h2 =>
      rw [if_neg h2]
      intro r hr he
      simp only [List.append_assoc, List.mem_append, List.mem_cons, List.cons_append, List.nil_append, List.not_mem_nil, or_false] at hr
      rcases hr with hr | rfl | rfl
      · obtain ⟨e, h4, h5, h6⟩ := hn r hr he
        exact ⟨e, by simp [h4], h5, h6⟩
      · simp only at he; omega
      · exact ⟨_, List.mem_append_left _ (List.mem_append_right _ (List.mem_singleton.mpr rfl)), rfl, rfl⟩

theorem named_configure {db : DB} (h : Inv db) (hn : Named db.queues) (conf : List Conf) : Named (db.configure conf).1.queues := by
  unfold DB.configure
  generalize hplan : db.plan conf = pl
  obtain ⟨wanted, remove, zs⟩ := pl
  simp only [DB.plan, Prod.mk.injEq] at hplan
  obtain ⟨hwanted, hrem, -⟩ := hplan
  dsimp only
  have hag : ∀ w ∈ wanted, w.id ≠ 0 → Agrees db.queues w := by
    intro w hw h0 r hr he
    rw [← hwanted] at hw
    obtain ⟨c, -, rfl⟩ := List.mem_map.mp hw
    unfold correlate at h0 he ⊢
    cases hf : db.queues.find? (fun r => r.name == c.name) with
    | none => simp [hf] at h0
    | some r' =>
      simp only [hf] at he ⊢
      have h1 := List.mem_of_find?_eq_some hf
      have h2 : r'.name = c.name := by simpa using List.find?_some hf
      rw [eq_of_nodup_map h.paired.nodup hr h1 he, h2]
  split
  · next db' heq =>
    unfold DB.updateQueues at heq
    split at heq
    · simp at heq
    · next db1 h1 =>
      have hok : (forEach DB.removeQueue db remove).2 = .ok () := by rw [h1]
      have hdb1 : Inv db1 ∧ Named db1.queues ∧ ∀ r ∈ db1.queues, r ∈ db.queues := by
        subst hrem
        generalize hps : (joined (unwanted db.queues (conf.map (correlate db.queues)))).filter (fun p => !hasMessages p) = ps at *
        have hsp : ∀ p ∈ ps, p.1.id % 2 = 0 ∧ p.2.id = p.1.id - 1 := by
          intro p hp
          rw [← hps] at hp
          have := joined_spec h (List.mem_filter.mp hp).1
          exact ⟨this.1, this.2.1⟩
        unfold pairIds at hok h1
        obtain ⟨hok1, heq1⟩ := forEach_append hok
        have hev : ∀ q ∈ ps.map (fun p => p.1.id), q % 2 = 0 := by
          intro q hq
          obtain ⟨p, hp, rfl⟩ := List.mem_map.mp hq
          exact (hsp p hp).1
        obtain ⟨hi, hr⟩ := removeQueues h hev hok1
        have hnm := (forEach_ok (P := fun d => Inv d ∧ Named d.queues) (f := DB.removeQueue)
          (fun q hq d hd hok' => ⟨(hd.1.removeQueue q (hev q hq) hok').1, named_remove hd.1 hd.2 q (hev q hq) hok'⟩) ⟨h, hn⟩ hok1).2
        have habs := forEach_absent (db := (forEach DB.removeQueue db (ps.map (fun p => p.1.id))).1) (l := ps.map (fun p => p.2.id)) (by
          intro q hq r hr'
          obtain ⟨p, hp, rfl⟩ := List.mem_map.mp hq
          rw [(hsp p hp).2]
          exact (hr r hr').2 _ (List.mem_map_of_mem (f := fun p => p.1.id) hp))
        rw [habs] at heq1
        rw [heq1] at h1
        simp only [Prod.mk.injEq, and_true] at h1
        rw [← h1]; exact ⟨hi, hnm, fun r hr' => (hr r hr').1⟩
      split at heq
      · simp at heq
      · next db2 h2 =>
        have hdb2 : Inv db2 ∧ Named db2.queues := by
          have := forEach_ok (P := fun d => Inv d ∧ Named d.queues ∧ keys d.queues = keys db1.queues)
            (f := fun db (w : Wanted) => db.updateQueue w.id w.name w.retryCount w.retryDelay)
            (l := wanted.filter fun w => w.id != 0) (fun w hw d hd _ => by
              obtain ⟨hw1, hw2⟩ := List.mem_filter.mp hw
              have ha : Agrees d.queues w := agrees_congr hd.2.2 (by
                intro r hr he
                exact hag w hw1 (by simpa using hw2) r (hdb1.2.2 r hr) he)
              have hk := keys_updateQueue hd.1 hd.2.1 ha (c := w.retryCount) (d := w.retryDelay)
              exact ⟨hd.1.updateQueue _ _ _ _, named_congr hk hd.2.1, hk.trans hd.2.2⟩) ⟨hdb1.1, hdb1.2.1, rfl⟩ (by rw [h2])
          rw [h2] at this
          exact ⟨this.1, this.2.1⟩
        have := forEach_ok (P := fun d => Inv d ∧ Named d.queues) (f := DB.createWanted) (l := wanted.filter fun w => w.id == 0) (fun a _ d hd hok' => by
          refine ⟨hd.1.createWanted a hok', ?_⟩
          unfold DB.createWanted at hok' ⊢
          have hc : ∀ q, _ → _ := fun q => named_create hd.1 hd.2 a.name a.retryCount a.retryDelay (q := q)
          generalize d.create a.name a.retryCount a.retryDelay = r at hc hok' ⊢
          obtain ⟨d', e⟩ := r
          cases e with
          | error e => simp at hok'
          | ok q => exact hc q rfl) hdb2
          (by rw [heq])
        rw [heq] at this
        exact this.2
  · exact hn

theorem named_run (ops : List Op) : Named (DB.empty.run ops).queues :=
  run_keeps (P := fun d => Named d.queues) (fun op _ d hi hn => by
    by_cases hc : ∃ conf, op = .configure conf
    · obtain ⟨conf, rfl⟩ := hc; exact named_configure hi hn conf
    · exact named_congr (keys_step hi (fun conf e => hc ⟨conf, e⟩)) hn) Inv.empty (by intro r hr; simp [DB.empty] at hr)

end Casual.Queue

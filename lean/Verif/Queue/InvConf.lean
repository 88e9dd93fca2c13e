import Verif.Queue.Inv

/-! # Reconfiguration keeps the invariant -/
namespace Casual.Queue

theorem forEach_ok {α : Type} {f : DB → α → DB × Except Err Unit} {P : DB → Prop} {l : List α}
    (hf : ∀ a ∈ l, ∀ db, P db → (f db a).2 = .ok () → P (f db a).1) {db : DB} (h : P db)
    (hok : (forEach f db l).2 = .ok ()) : P (forEach f db l).1 := by
  induction l generalizing db with
  | nil => exact h
  | cons a l ih =>
    unfold forEach at hok ⊢
    have := hf a (by simp) db h
    generalize f db a = r at this hok ⊢
    obtain ⟨db', e⟩ := r
    cases e with
    | error e => simp at hok
    | ok u => exact ih (fun x hx => hf x (by simp [hx])) (this rfl) hok

theorem forEach_append {α : Type} {f : DB → α → DB × Except Err Unit} {l l' : List α} {db : DB}
    (hok : (forEach f db (l ++ l')).2 = .ok ()) :
    (forEach f db l).2 = .ok () ∧ (forEach f db (l ++ l')) = forEach f (forEach f db l).1 l' := by
  induction l generalizing db with
  | nil => exact ⟨rfl, rfl⟩
  | cons a l ih =>
    simp only [List.cons_append, forEach] at hok ⊢
    generalize f db a = r at hok ⊢
    obtain ⟨db', e⟩ := r
    cases e with
    | error e => simp at hok
    | ok u => exact ih hok

theorem removeQueues {db : DB} (h : Inv db) {l : List Qid} (hl : ∀ q ∈ l, q % 2 = 0)
    (hok : (forEach DB.removeQueue db l).2 = .ok ()) :
    Inv (forEach DB.removeQueue db l).1 ∧ (∀ r ∈ (forEach DB.removeQueue db l).1.queues, r ∈ db.queues ∧ ∀ q ∈ l, r.id ≠ q - 1) := by
  induction l generalizing db with
  | nil => exact ⟨h, fun r hr => ⟨hr, by simp⟩⟩
  | cons a l ih =>
    unfold forEach at hok ⊢
    have h1 := h.removeQueue a (hl a (by simp))
    generalize db.removeQueue a = r at h1 hok ⊢
    obtain ⟨db', e⟩ := r
    cases e with
    | error e => simp at hok
    | ok u =>
      obtain ⟨h2, h3⟩ := h1 rfl
      obtain ⟨h4, h5⟩ := ih h2 (fun q hq => hl q (by simp [hq])) hok
      refine ⟨h4, ?_⟩
      intro r hr
      obtain ⟨h6, h7⟩ := h5 r hr
      simp only at h3
      rw [h3] at h6
      simp only [List.mem_filter, Bool.and_eq_true, bne_iff_ne, ne_eq] at h6
      refine ⟨h6.1, ?_⟩
      intro q hq
      rcases List.mem_cons.mp hq with rfl | hq
      · exact h6.2.1
      · exact h7 q hq

theorem forEach_absent {db : DB} {l : List Qid} (hl : ∀ q ∈ l, ∀ r ∈ db.queues, r.id ≠ q) :
    (forEach DB.removeQueue db l) = (db, .ok ()) := by
  induction l with
  | nil => rfl
  | cons a l ih =>
    unfold forEach
    have : db.removeQueue a = (db, .ok ()) := by
      unfold DB.removeQueue
      have : db.queue? a = none := by
        simp only [DB.queue?, List.find?_eq_none]
        intro r hr
        have := hl a (by simp) r hr
        simpa using this
      rw [this]
    rw [this]
    exact ih (fun q hq => hl q (by simp [hq]))

theorem joined_spec {db : DB} (h : Inv db) {wanted : List Wanted} {p : QRow × QRow} (hp : p ∈ joined (unwanted db.queues wanted)) :
    p.1.id % 2 = 0 ∧ p.2.id = p.1.id - 1 ∧ p.1 ∈ db.queues ∧ p.2 ∈ db.queues := by
  unfold joined at hp
  obtain ⟨r, hr, he⟩ := List.mem_filterMap.mp hp
  obtain ⟨hr1, hr2⟩ := List.mem_filter.mp hr
  have hmem : r ∈ db.queues := (List.mem_filter.mp hr1).1
  simp only [bne_iff_ne, ne_eq] at hr2
  rw [Option.map_eq_some_iff] at he
  obtain ⟨e, hf, rfl⟩ := he
  have h1 := List.mem_of_find?_eq_some hf
  have h2 := List.find?_some hf
  simp only [beq_iff_eq] at h2
  have heven : r.id % 2 = 0 := by
    rcases Nat.mod_two_eq_zero_or_one r.id with h0 | h0
    · exact h0
    · exact absurd (h.paired.odd r hmem h0).1 hr2
  exact ⟨heven, by rw [h2]; exact (h.paired.even r hmem heven).1, hmem, (List.mem_filter.mp h1).1⟩

theorem Inv.createWanted {db : DB} (h : Inv db) (w : Wanted) (hok : (db.createWanted w).2 = .ok ()) :
    Inv (db.createWanted w).1 := by
  unfold DB.createWanted at hok ⊢
  have hc : ∀ q, _ → _ := fun q => h.create w.name w.retryCount w.retryDelay (q := q)
  generalize db.create w.name w.retryCount w.retryDelay = r at hc hok ⊢
  obtain ⟨d', e⟩ := r
  cases e with
  | error e => simp at hok
  | ok q => exact hc q rfl

theorem Inv.configure {db : DB} (h : Inv db) (conf : List Conf) : Inv (db.configure conf).1 := by
  unfold DB.configure
  generalize hplan : db.plan conf = pl
  obtain ⟨wanted, remove, zs⟩ := pl
  simp only [DB.plan, Prod.mk.injEq] at hplan
  obtain ⟨-, hrem, -⟩ := hplan
  dsimp only
  split
  · next db' heq =>
    unfold DB.updateQueues at heq
    split at heq
    · simp at heq
    · next db1 h1 =>
      have hok : (forEach DB.removeQueue db remove).2 = .ok () := by rw [h1]
      have hdb1 : Inv db1 := by
        subst hrem
        generalize hps : (joined (unwanted db.queues (conf.map (correlate db.queues)))).filter (fun p => !hasMessages p) = ps at *
        have hsp : ∀ p ∈ ps, p.1.id % 2 = 0 ∧ p.2.id = p.1.id - 1 := by
          intro p hp
          rw [← hps] at hp
          have := joined_spec h (List.mem_filter.mp hp).1
          exact ⟨this.1, this.2.1⟩
        unfold pairIds at hok h1
        obtain ⟨hok1, heq1⟩ := forEach_append hok
        have hev : ∀ q ∈ ps.map (fun p => p.1.id), q % 2 = 0 := by
          intro q hq
          obtain ⟨p, hp, rfl⟩ := List.mem_map.mp hq
          exact (hsp p hp).1
        obtain ⟨hi, hr⟩ := removeQueues h hev hok1
        have habs := forEach_absent (db := (forEach DB.removeQueue db (ps.map (fun p => p.1.id))).1) (l := ps.map (fun p => p.2.id)) (by
          intro q hq r hr'
          obtain ⟨p, hp, rfl⟩ := List.mem_map.mp hq
          rw [(hsp p hp).2]
          exact (hr r hr').2 _ (List.mem_map_of_mem (f := fun p => p.1.id) hp))
        rw [habs] at heq1
        rw [heq1] at h1
        simp only [Prod.mk.injEq, and_true] at h1
        rw [← h1]; exact hi
      split at heq
      · simp at heq
      · next db2 h2 =>
        have hdb2 : Inv db2 := by
          have := forEach_ok (P := Inv) (f := fun db (w : Wanted) => db.updateQueue w.id w.name w.retryCount w.retryDelay)
            (l := wanted.filter fun w => w.id != 0) (fun a _ d hd _ => hd.updateQueue _ _ _ _) hdb1 (by rw [h2])
          rw [h2] at this
          exact this
        have := forEach_ok (P := Inv) (l := wanted.filter fun w => w.id == 0) (fun a _ d hd hok' => hd.createWanted a hok') hdb2
          (by rw [heq])
        rw [heq] at this
        exact this
  · exact h

theorem Inv.step {db : DB} (h : Inv db) (op : Op) : Inv (db.step op) := by
  cases op with
  | configure conf => exact h.configure conf
  | enqueue id q trid a b now => exact h.enqueue id q trid a b now
  | dequeue q sel trid now => exact h.dequeue q sel trid now
  | commit t => exact h.commit t
  | rollback t now => exact h.rollback t now
  | recoveryCommit ts => exact h.recoveryCommit ts
  | recoveryRollback ts now => exact h.recoveryRollback now ts
  | restore q => exact h.restore q
  | clear q => exact h.clear q
  | remove q ids => exact h.remove q ids
  | forceRemove q ids => exact h.forceRemove q ids
  | metricReset qs => exact h.metricReset qs

theorem Inv.run {db : DB} (h : Inv db) (ops : List Op) : Inv (db.run ops) := by
  induction ops generalizing db with
  | nil => exact h
  | cons op ops ih => exact ih (h.step op)

theorem Reachable.inv {db : DB} (h : Reachable db) : Inv db := by
  obtain ⟨ops, rfl⟩ := h
  exact Inv.empty.run ops

end Casual.Queue

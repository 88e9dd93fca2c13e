import Verif.Queue.Steps

/-! # Histories: what is known of the messages of a transaction that is not completed (helper lemmas) -/
namespace Casual.Queue

/-- Every message that carries `t` is uncommitted work of `t`. -/
def Open (db : DB) (t : Gtrid) : Prop :=
  ∀ x m, db.get? x = some m → m.gtrid = some t → m.state ≠ .enqueued ∧ (m.state = .added → m.redelivered = 0)

theorem commitMsg_some {t : Gtrid} {m m' : Msg} (h : commitMsg t m = some m') :
    m' = m ∨ (m.gtrid = some t ∧ m.state = .added ∧ m' = { m with state := .enqueued }) := by
  unfold commitMsg at h
  split at h
  · next hg =>
    split at h
    · next hs => simp at h; exact Or.inr ⟨hg, hs, h.symm⟩
    · simp at h; exact Or.inl h.symm
    · simp at h
  · simp at h; exact Or.inl h.symm

theorem rollbackMsg_some {db : DB} {t : Gtrid} {now : Time} {m m' : Msg} (h : rollbackMsg db t now m = some m') :
    m' = m ∨ (m.gtrid = some t ∧ m.state ≠ .added ∧ m'.state = .enqueued ∧ m'.gtrid = some t) ∧ m'.body = m.body ∧ m'.timestamp = m.timestamp ∧ m'.origin = m.origin ∧ m'.id = m.id := by
  unfold rollbackMsg at h
  split at h
  · next hg =>
    cases hs : m.state <;> simp only [hs] at h
    · simp at h
    · simp only [reduceCtorEq, if_false] at h
      split at h <;> simp at h <;> subst h
      · right; simp [hg, hs]
      · left; rfl
    · simp only [if_true] at h
      split at h <;> simp at h <;> subst h <;> right <;> simp [hg]
  · simp at h; exact Or.inl h.symm

theorem open_commit {db : DB} (h : Inv db) {t t' : Gtrid} (ho : Open db t) (hne : t' ≠ t) : Open (db.commit t').1 t := by
  intro x m hx hg
  rw [get?_commit h, Option.bind_eq_some_iff] at hx
  obtain ⟨m0, h0, hc⟩ := hx
  rcases commitMsg_some hc with rfl | ⟨h1, h2, rfl⟩
  · exact ho x m h0 hg
  · simp only at hg; rw [h1] at hg; simp at hg; exact absurd hg hne

theorem open_rollback {db : DB} (h : Inv db) {t t' : Gtrid} {now : Time} (ho : Open db t) (hne : t' ≠ t) : Open (db.rollback t' now).1 t := by
  intro x m hx hg
  rw [get?_rollback h, Option.bind_eq_some_iff] at hx
  obtain ⟨m0, h0, hc⟩ := hx
  rcases rollbackMsg_some hc with rfl | ⟨⟨-, -, -, h4⟩, -⟩
  · exact ho x m h0 hg
  · rw [h4] at hg; simp at hg; exact absurd hg hne

theorem open_step {db : DB} (h : Inv db) {t : Gtrid} (ho : Open db t) {op : Op} (hop : ¬ op.completes t) : Open (db.step op) t := by
  cases op with
  | configure conf => intro x m hx; rw [DB.step, get?_of_msgs (configure_msgs db conf)] at hx; exact ho x m hx
  | enqueue id q trid a b now =>
    rcases enqueue_cases db id q trid a b now with ⟨hok, -, -⟩ | ⟨-, he⟩
    · intro x m hx hg
      simp only [DB.step] at hx
      rw [get?_enqueue hok] at hx
      split at hx
      · simp only [Option.some.injEq] at hx
        subst hx
        simp only at hg
        simp [hg]
      · exact ho x m hx hg
    · simp only [DB.step]; rw [he]; exact ho
  | dequeue q sel trid now =>
    intro x m hx hg
    simp only [DB.step] at hx
    rw [get?_dequeue h] at hx
    cases hs : db.select q sel now with
    | none => rw [hs] at hx; exact ho x m hx hg
    | some m' =>
      rw [hs] at hx
      simp only at hx
      split at hx
      · cases trid with
        | none => simp at hx
        | some t' => simp at hx; subst hx; simp
      · exact ho x m hx hg
  | commit t' => exact open_commit h ho (fun e => hop (Or.inl e))
  | rollback t' now => exact open_rollback h ho (fun e => hop (Or.inr e))
  | recoveryCommit ts =>
    simp only [DB.step]; rw [recoveryCommit_db]
    exact foldl_keeps (P := fun db => Open db t) (fun t' ht d hd ho => open_commit hd ho (by rintro rfl; exact hop (Or.inl ht)))
      (fun t d hd => hd.commit t) h ho
  | recoveryRollback ts now =>
    simp only [DB.step]; rw [recoveryRollback_db h]
    exact foldl_keeps (P := fun db => Open db t) (fun t' ht d hd ho => open_rollback hd ho (by rintro rfl; exact hop (Or.inr ht)))
      (fun t d hd => hd.rollback t now) h ho
  | restore q =>
    intro x m hx hg
    simp only [DB.step] at hx
    rw [get?_restore h, Option.map_eq_some_iff] at hx
    obtain ⟨m0, h0, rfl⟩ := hx
    split at hg
    · next hr =>
      have := (ho x m0 h0 hg).1
      simp [isRestorable, this] at hr
    · next hr => rw [if_neg hr]; exact ho x m0 h0 hg
  | clear q =>
    intro x m hx
    simp only [DB.step] at hx
    rw [get?_clear h, Option.filter_eq_some_iff] at hx
    exact ho x m hx.1
  | remove q ids =>
    intro x m hx
    simp only [DB.step] at hx
    rw [get?_remove h, Option.filter_eq_some_iff] at hx
    exact ho x m hx.1
  | forceRemove q ids =>
    intro x m hx
    simp only [DB.step] at hx
    rw [get?_forceRemove h, Option.filter_eq_some_iff] at hx
    exact ho x m hx.1
  | metricReset qs => exact ho

theorem open_run {t : Gtrid} {ops : List Op} (hops : ∀ op ∈ ops, ¬ op.completes t) : Open (DB.empty.run ops) t :=
  run_keeps (P := fun db => Open db t) (fun op hop _ hi ho => open_step hi ho (hops op hop)) Inv.empty (by
    intro x m hx; simp [DB.get?, DB.empty] at hx)

/-! ## Completed transactions -/

/-- No message that carries `t` is open work, and none would be moved by another rollback. -/
def Inert (db : DB) (t : Gtrid) : Prop :=
  ∀ m ∈ db.msgs, m.gtrid = some t → m.state = .enqueued ∧ db.exhausted t m = false

theorem inert_iff {db : DB} (h : Inv db) {t : Gtrid} :
    Inert db t ↔ ∀ x m, db.get? x = some m → m.gtrid = some t → m.state = .enqueued ∧ db.exhausted t m = false := by
  constructor
  · intro hi x m hx hg; exact hi m (get?_mem hx) hg
  · intro hi m hm hg; exact hi m.id m ((get?_some_iff h.nodup).mpr ⟨hm, rfl⟩) hg

theorem updateWhere_none {db : DB} {p : Msg → Bool} {f : Msg → Msg} {trig} (h : ∀ m ∈ db.msgs, p m = false) : db.updateWhere p f trig = db := by
  have h1 : db.msgs.filter p = [] := by
    rw [List.filter_eq_nil_iff]; intro m hm; simp [h m hm]
  have h2 : db.msgs.map (fun m => if p m then f m else m) = db.msgs := by
    conv => rhs; rw [← List.map_id db.msgs]
    apply List.map_congr_left
    intro m hm; simp [h m hm]
  unfold DB.updateWhere
  rw [h1, h2]; rfl

theorem deleteWhere_none {db : DB} {p : Msg → Bool} (h : ∀ m ∈ db.msgs, p m = false) : db.deleteWhere p = db := by
  have h1 : db.msgs.filter p = [] := by
    rw [List.filter_eq_nil_iff]; intro m hm; simp [h m hm]
  have h2 : db.msgs.filter (fun m => !p m) = db.msgs := by
    rw [List.filter_eq_self]; intro m hm; simp [h m hm]
  unfold DB.deleteWhere
  rw [h1, h2]; rfl

theorem affected_none {db : DB} {p : Msg → Bool} (h : ∀ m ∈ db.msgs, p m = false) : db.affected p = [] := by
  unfold DB.affected
  rw [List.filter_eq_nil_iff]; intro m hm; simp [h m hm]

theorem inert_notAdded {db : DB} {t : Gtrid} (h : Inert db t) : ∀ m ∈ db.msgs, isAdded t m = false := by
  intro m hm
  by_cases hg : m.gtrid = some t
  · simp [isAdded, (h m hm hg).1]
  · simp [isAdded, hg]

theorem inert_notTaken {db : DB} {t : Gtrid} (h : Inert db t) : ∀ m ∈ db.msgs, isTaken t m = false := by
  intro m hm
  by_cases hg : m.gtrid = some t
  · simp [isTaken, (h m hm hg).1]
  · simp [isTaken, hg]

theorem inert_commit {db : DB} {t : Gtrid} (h : Inert db t) : db.commit t = (db, 0) := by
  unfold DB.commit
  have : db.commit1 t = db := updateWhere_none (fun m hm => inert_notAdded h m hm)
  dsimp only
  rw [this, deleteWhere_none (inert_notTaken h), affected_none (inert_notTaken h)]
  rfl

theorem inert_rollback {db : DB} (hi : Inv db) {t : Gtrid} {now : Time} (h : Inert db t) : db.rollback t now = (db, .ok 0) := by
  rw [rollback_eq hi, deleteWhere_none (inert_notAdded h), affected_none (inert_notAdded h)]
  have : db.rollback2 t now = db := updateWhere_none (inert_notTaken h)
  rw [this]
  have h3 : ∀ m ∈ db.msgs, db.exhausted t m = false := by
    intro m hm
    by_cases hg : m.gtrid = some t
    · exact (h m hm hg).2
    · simp [DB.exhausted, hg]
  unfold DB.rollback3
  rw [updateWhere_none h3]
  simp [hi.fkOk, totalSize]

/-- Changes of messages only: which queues exist and how they retry stays. -/
def SameConf (db db' : DB) : Prop := ∀ q, (db'.queue? q).map (fun r => (r.retryCount, r.retryDelay, r.error)) =
    (db.queue? q).map fun r => (r.retryCount, r.retryDelay, r.error)

theorem SameConf.rfl' (db : DB) : SameConf db db := fun _ => rfl
theorem SameConf.trans {a b c : DB} (h : SameConf a b) (h' : SameConf b c) : SameConf a c := fun q => (h' q).trans (h q)

theorem sameConf_deleteWhere (db : DB) (p) : SameConf db (db.deleteWhere p) := (shift_deleteWhere db p).queue?

theorem sameConf_commit {db : DB} (t : Gtrid) : SameConf db (db.commit t).1 := by
  refine SameConf.trans (b := db.commit1 t) ?_ (sameConf_deleteWhere _ _)
  unfold DB.commit1
  refine (shift_updateWhere _ _ _ _ ?_).queue?
  intro m _ hp a
  simp only [Bool.and_eq_true, beq_iff_eq] at hp
  exact shift_trigState a m _ ⟨rfl, rfl, Or.inl ⟨hp.2, rfl⟩⟩

theorem sameConf_rollback {db : DB} (h : Inv db) (t : Gtrid) (now : Time) : SameConf db (db.rollback t now).1 := by
  rw [rollback_eq h]
  have hna := noAdded_after db t now
  have h2 := (h.deleteWhere (isAdded t)).rollback2 t now
  refine SameConf.trans (sameConf_deleteWhere db (isAdded t)) (SameConf.trans (b := (db.deleteWhere (isAdded t)).rollback2 t now) ?_ ?_)
  · unfold DB.rollback2
    refine (shift_updateWhere _ _ _ _ ?_).queue?
    intro m _ hp a
    simp only [isTaken, Bool.and_eq_true, beq_iff_eq] at hp
    exact shift_trigState a m _ ⟨rfl, rfl, Or.inr ⟨by simp [hp.2], by simp⟩⟩
  · generalize (db.deleteWhere (isAdded t)).rollback2 t now = d at hna h2 ⊢
    unfold DB.rollback3
    simp only [(h2.rollback3' t hna).fkOk, if_true]
    refine (shift_updateWhere _ _ _ _ ?_).queue?
    intro m hm hp a
    simp only [DB.exhausted, Bool.and_eq_true, beq_iff_eq] at hp
    exact shift_trigQueue a m _ ⟨rfl, rfl, hna m hm hp.1.1⟩

theorem rollback_inert {db : DB} (h : Inv db) (t : Gtrid) (now : Time) : Inert (db.rollback t now).1 t := by
  rw [inert_iff (h.rollback t now)]
  intro x m hx hg
  rw [exhausted_congr (sameConf_rollback h t now)]
  rw [get?_rollback h, Option.bind_eq_some_iff] at hx
  obtain ⟨m0, h0, hc⟩ := hx
  unfold rollbackMsg at hc
  by_cases hg0 : m0.gtrid = some t
  · rw [if_pos hg0] at hc
    obtain ⟨r, hr, he⟩ := (h.msgs m0 (get?_mem h0)).fk
    have hmoved : ∀ m1 : Msg, m1.queue = m0.queue → db.exhausted t m1 = true →
        db.exhausted t { m1 with redelivered := 0, queue := m1.queue - 1, available := 0 } = false := by
      intro m1 hq hex
      simp only [DB.exhausted, Bool.and_eq_true, beq_iff_eq] at hex
      obtain ⟨-, hp, -⟩ := h.paired.even r hr (by rw [he, ← hq]; exact hex.1.2)
      have : ((m1.queue - 1) % 2 == 0) = false := by
        have := hex.1.2
        simp; omega
      simp [DB.exhausted, this]
    cases hs : m0.state <;> simp only [hs] at hc
    · simp at hc
    · simp only [reduceCtorEq, if_false] at hc
      split at hc <;> simp at hc <;> subst hc
      · next hex => exact ⟨hs, hmoved m0 rfl hex⟩
      · next hex => exact ⟨hs, by simpa using hex⟩
    · simp only [if_true] at hc
      split at hc <;> simp at hc <;> subst hc
      · next hex =>
          exact ⟨rfl, hmoved { m0 with state := .enqueued, redelivered := m0.redelivered + 1, available := db.retryAt now m0 } rfl hex⟩
      · next hex => exact ⟨rfl, by simpa using hex⟩
  · rw [if_neg hg0] at hc
    simp at hc
    subst hc
    exact absurd hg hg0

theorem commit_inert {db : DB} (h : Inv db) {t : Gtrid} (ho : Open db t) : Inert (db.commit t).1 t := by
  rw [inert_iff (h.commit t)]
  intro x m hx hg
  rw [exhausted_congr (sameConf_commit t)]
  rw [get?_commit h, Option.bind_eq_some_iff] at hx
  obtain ⟨m0, h0, hc⟩ := hx
  unfold commitMsg at hc
  by_cases hg0 : m0.gtrid = some t
  · have ho' := ho x m0 h0 hg0
    rw [if_pos hg0] at hc
    cases hs : m0.state <;> simp only [hs] at hc
    · simp at hc; subst hc
      refine ⟨rfl, ?_⟩
      have := ho'.2 hs
      simp only [DB.exhausted, this]
      split <;> simp
    · exact absurd hs ho'.1
    · simp at hc
  · rw [if_neg hg0] at hc
    simp at hc; subst hc
    exact absurd hg hg0

theorem inert_congr {db db' : DB} (h' : Inv db') {t : Gtrid} (hi : Inert db t) (hc : SameConf db db')
    (hm : ∀ x m, db'.get? x = some m → m.gtrid = some t → db.get? x = some m) : Inert db' t := by
  rw [inert_iff h']
  intro x m hx hg
  rw [exhausted_congr hc]
  exact hi m (get?_mem (hm x m hx hg)) hg

theorem inert_commit_other {db : DB} (h : Inv db) {t t' : Gtrid} (hi : Inert db t) : Inert (db.commit t').1 t := by
  by_cases he : t' = t
  · subst he; rw [inert_commit hi]; exact hi
  refine inert_congr (h.commit t') hi (sameConf_commit t') ?_
  intro x m hx hg
  rw [get?_commit h, Option.bind_eq_some_iff] at hx
  obtain ⟨m0, h0, hc⟩ := hx
  rcases commitMsg_some hc with rfl | ⟨h1, -, rfl⟩
  · exact h0
  · simp only at hg; rw [h1] at hg; simp at hg; exact absurd hg he

theorem inert_rollback_other {db : DB} (h : Inv db) {t t' : Gtrid} {now : Time} (hi : Inert db t) : Inert (db.rollback t' now).1 t := by
  by_cases he : t' = t
  · subst he; rw [inert_rollback h hi]; exact hi
  refine inert_congr (h.rollback t' now) hi (sameConf_rollback h t' now) ?_
  intro x m hx hg
  rw [get?_rollback h, Option.bind_eq_some_iff] at hx
  obtain ⟨m0, h0, hc⟩ := hx
  rcases rollbackMsg_some hc with rfl | ⟨⟨-, -, -, h4⟩, -⟩
  · exact h0
  · rw [h4] at hg; simp at hg; exact absurd hg he

theorem inert_deleteWhere {db : DB} (h : Inv db) {t : Gtrid} (hi : Inert db t) (p) : Inert (db.deleteWhere p) t := by
  refine inert_congr (h.deleteWhere p) hi (sameConf_deleteWhere db p) ?_
  intro x m hx hg
  rw [get?_deleteWhere h.nodup, Option.filter_eq_some_iff] at hx
  exact hx.1

theorem remove_keeps {db : DB} {P : DB → Prop} (h : P db) (hd : ∀ db p, P db → P (db.deleteWhere p)) (q ids) : P (db.remove q ids).1 := by
  induction ids generalizing db with
  | nil => exact h
  | cons id ids ih => unfold DB.remove; exact ih (hd _ _ h)

theorem forceRemove_keeps {db : DB} {P : DB → Prop} (h : P db) (hd : ∀ db p, P db → P (db.deleteWhere p)) (q ids) : P (db.forceRemove q ids).1 := by
  induction ids generalizing db with
  | nil => exact h
  | cons id ids ih => unfold DB.forceRemove; exact ih (hd _ _ h)

theorem inert_step {db : DB} (h : Inv db) {t : Gtrid} (hi : Inert db t) {op : Op} (h1 : ¬ op.worksIn t) (h2 : ¬ op.reorganizes) :
    Inert (db.step op) t := by
  cases op with
  | configure conf => exact absurd trivial h2
  | restore q => exact absurd trivial h2
  | enqueue id q trid a b now =>
    rcases enqueue_cases db id q trid a b now with ⟨hok, -, -⟩ | ⟨-, he⟩
    · have hconf : SameConf db (db.enqueue id q trid a b now).1 := by
        have hm : ({ id := id, queue := q, origin := q, gtrid := trid, state := if trid.isSome then .added else .enqueued, redelivered := 0, available := a, timestamp := now, body := b } : Msg).state ≠ .dequeued := by
          cases trid <;> simp
        unfold DB.enqueue
        revert hm
        generalize ({ id := id, queue := q, origin := q, gtrid := trid, state := if trid.isSome then .added else .enqueued, redelivered := 0, available := a, timestamp := now, body := b } : Msg) = m
        intro hm
        unfold DB.insert
        split
        · exact SameConf.rfl' db
        · split
          · exact Shift.queue? (shift_trigInsert db.queues m hm)
          · exact SameConf.rfl' db
      refine inert_congr (h.enqueue id q trid a b now) hi hconf ?_
      intro x m hx hg
      rw [get?_enqueue hok] at hx
      split at hx
      · simp only [Option.some.injEq] at hx
        subst hx
        exact absurd hg h1
      · exact hx
    · simp only [DB.step]; rw [he]; exact hi
  | dequeue q sel trid now =>
    simp only [DB.step]
    have hinv := h.dequeue q sel trid now
    rw [dequeue_eq] at hinv ⊢
    cases hs : db.select q sel now with
    | none => exact hi
    | some m =>
      cases trid with
      | none => exact inert_deleteWhere h hi _
      | some t' =>
        rw [hs] at hinv
        simp only at hinv ⊢
        refine inert_congr hinv hi ?_ ?_
        · unfold DB.take
          refine (shift_updateWhere _ _ _ _ ?_).queue?
          intro y hy hp a
          obtain ⟨hm1, -, hm3⟩ := select_mem hs
          have : y = m := eq_of_nodup_map h.nodup hy hm1 (by simpa using hp)
          subst this
          exact shift_trigState a y _ ⟨rfl, rfl, Or.inr ⟨by simp [hm3], by simp⟩⟩
        · intro x y hx hg
          unfold DB.take at hx
          rw [get?_updateWhere _ _ _ _ (by intro m; rfl), Option.map_eq_some_iff] at hx
          obtain ⟨y0, h0, rfl⟩ := hx
          split at hg
          · exact absurd hg h1
          · next hne => rw [if_neg hne]; exact h0
  | commit t' => exact inert_commit_other h hi
  | rollback t' now => exact inert_rollback_other h hi
  | recoveryCommit ts =>
    simp only [DB.step]; rw [recoveryCommit_db]
    exact foldl_keeps (P := fun db => Inert db t) (fun t' _ d hd hi => inert_commit_other hd hi) (fun t d hd => hd.commit t) h hi
  | recoveryRollback ts now =>
    simp only [DB.step]; rw [recoveryRollback_db h]
    exact foldl_keeps (P := fun db => Inert db t) (fun t' _ d hd hi => inert_rollback_other hd hi) (fun t d hd => hd.rollback t now) h hi
  | clear q => exact inert_deleteWhere h hi _
  | remove q ids =>
    exact (remove_keeps (P := fun db => Inv db ∧ Inert db t) ⟨h, hi⟩ (fun d p hd => ⟨hd.1.deleteWhere p, inert_deleteWhere hd.1 hd.2 p⟩) q ids).2
  | forceRemove q ids =>
    exact (forceRemove_keeps (P := fun db => Inv db ∧ Inert db t) ⟨h, hi⟩ (fun d p hd => ⟨hd.1.deleteWhere p, inert_deleteWhere hd.1 hd.2 p⟩) q ids).2
  | metricReset qs =>
    refine inert_congr (h.metricReset qs) hi ?_ (fun x m hx _ => hx)
    simp only [DB.metricReset]
    suffices ∀ a : List QRow, ∀ q, ((qs.foldl (fun qs q => onQueue qs q fun r => { r with metricDequeued := 0, metricEnqueued := 0 }) a).find? (fun r => r.id == q)).map (fun r => (r.retryCount, r.retryDelay, r.error)) = (a.find? (fun r => r.id == q)).map fun r => (r.retryCount, r.retryDelay, r.error) from
      this db.queues
    clear h1 h2
    induction qs with
    | nil => intro a q; rfl
    | cons z qs ih =>
      intro a q
      simp only [List.foldl_cons]
      rw [ih]
      have : Shift (fun _ => 0) (fun _ => 0) (fun _ => 0) a (onQueue a z fun r => { r with metricDequeued := 0, metricEnqueued := 0 }) :=
        (shift_onQueue a z _ 0 0 0 (by intro r; simp)).congr (by simp) (by simp) (by simp)
      exact this.queue? q

end Casual.Queue

import Verif.Queue.Spec

/-! # One-step lemmas for the queue properties -/
namespace Casual.Queue

theorem run_keeps {P : DB → Prop} {ops : List Op} (hstep : ∀ op ∈ ops, ∀ db, Inv db → P db → P (db.step op)) {db : DB}
    (hi : Inv db) (h : P db) : P (db.run ops) := by
  induction ops generalizing db with
  | nil => exact h
  | cons op ops ih =>
    exact ih (fun o ho => hstep o (by simp [ho])) (hi.step op) (hstep op (by simp) db hi h)

theorem foldl_keeps {α : Type} {P : DB → Prop} {f : DB → α → DB} {l : List α} (hf : ∀ a ∈ l, ∀ db, Inv db → P db → P (f db a))
    (hfi : ∀ a db, Inv db → Inv (f db a)) {db : DB} (hi : Inv db) (h : P db) : P (l.foldl f db) := by
  induction l generalizing db with
  | nil => exact h
  | cons a l ih => exact ih (fun x hx => hf x (by simp [hx])) (hfi a db hi) (hf a (by simp) db hi h)

theorem select_get? {db : DB} (h : Inv db) {q sel now m} (hs : db.select q sel now = some m) : db.get? m.id = some m :=
  (get?_some_iff h.nodup).mpr ⟨(select_mem hs).1, rfl⟩

theorem absent_step {db : DB} (h : Inv db) {x : MsgId} (hx : db.get? x = none) {op : Op} (hop : ¬ op.enqueues x) :
    (db.step op).get? x = none := by
  cases op with
  | configure conf => exact (get?_of_msgs (configure_msgs db conf) x).trans hx
  | enqueue id q trid a b now => exact (get?_enqueue_other db (fun e => hop e.symm)).trans hx
  | dequeue q sel trid now =>
    simp only [DB.step]
    rw [get?_dequeue h]
    cases hs : db.select q sel now with
    | none => exact hx
    | some m =>
      simp only
      split
      · next he => subst he; rw [select_get? h hs] at hx; simp at hx
      · exact hx
  | commit t => simp only [DB.step]; rw [get?_commit h, hx]; rfl
  | rollback t now => simp only [DB.step]; rw [get?_rollback h, hx]; rfl
  | recoveryCommit ts =>
    simp only [DB.step]; rw [recoveryCommit_db]
    exact foldl_keeps (P := fun db => db.get? x = none) (fun t _ d hd hx => by rw [get?_commit hd, hx]; rfl)
      (fun t d hd => hd.commit t) h hx
  | recoveryRollback ts now =>
    simp only [DB.step]; rw [recoveryRollback_db h]
    exact foldl_keeps (P := fun db => db.get? x = none) (fun t _ d hd hx => by rw [get?_rollback hd, hx]; rfl)
      (fun t d hd => hd.rollback t now) h hx
  | restore q => simp only [DB.step]; rw [get?_restore h, hx]; rfl
  | clear q => simp only [DB.step]; rw [get?_clear h, hx]; rfl
  | remove q ids => simp only [DB.step]; rw [get?_remove h, hx]; rfl
  | forceRemove q ids => simp only [DB.step]; rw [get?_forceRemove h, hx]; rfl
  | metricReset qs => exact hx

theorem commit_other {t t' : Gtrid} {m : Msg} (hg : m.gtrid = some t) (hne : t' ≠ t) : commitMsg t' m = some m := by
  unfold commitMsg
  rw [if_neg (by rw [hg]; simp; exact fun e => hne e.symm)]

theorem rollback_other {db : DB} {t t' : Gtrid} {now : Time} {m : Msg} (hg : m.gtrid = some t) (hne : t' ≠ t) :
    rollbackMsg db t' now m = some m := by
  unfold rollbackMsg
  rw [if_neg (by rw [hg]; simp; exact fun e => hne e.symm)]

/-- A message that is part of the uncommitted work of `t` is touched by nothing but the completion of `t` and forced
removal. -/
theorem inTx_step {db : DB} (h : Inv db) {x : MsgId} {m : Msg} {t : Gtrid} (hx : db.get? x = some m) (hs : m.state ≠ .enqueued)
    (hg : m.gtrid = some t) {op : Op} (h1 : ¬ op.completes t) (h2 : ¬ op.forces x) : (db.step op).get? x = some m := by
  have hid := get?_id hx
  cases op with
  | configure conf => exact (get?_of_msgs (configure_msgs db conf) x).trans hx
  | enqueue id q trid a b now =>
    rcases enqueue_cases db id q trid a b now with ⟨ho, hn, -⟩ | ⟨-, he⟩
    · have : x ≠ id := by rintro rfl; rw [hx] at hn; simp at hn
      exact (get?_enqueue_other db this).trans hx
    · simp only [DB.step]; rw [he]; exact hx
  | dequeue q sel trid now =>
    simp only [DB.step]
    rw [get?_dequeue h]
    cases hsel : db.select q sel now with
    | none => exact hx
    | some m' =>
      simp only
      split
      · next he =>
        subst he
        have := select_get? h hsel
        rw [hx] at this
        simp only [Option.some.injEq] at this
        subst this
        exact absurd (select_mem hsel).2.2 hs
      · exact hx
  | commit t' =>
    simp only [DB.step]; rw [get?_commit h, hx]
    exact commit_other hg (fun e => h1 (Or.inl e))
  | rollback t' now =>
    simp only [DB.step]; rw [get?_rollback h, hx]
    exact rollback_other hg (fun e => h1 (Or.inr e))
  | recoveryCommit ts =>
    simp only [DB.step]; rw [recoveryCommit_db]
    exact foldl_keeps (P := fun db => db.get? x = some m) (fun t' ht d hd hx => by
      rw [get?_commit hd, hx]; exact commit_other hg (by rintro rfl; exact h1 (Or.inl ht)))
      (fun t d hd => hd.commit t) h hx
  | recoveryRollback ts now =>
    simp only [DB.step]; rw [recoveryRollback_db h]
    exact foldl_keeps (P := fun db => db.get? x = some m) (fun t' ht d hd hx => by
      rw [get?_rollback hd, hx]; exact rollback_other hg (by rintro rfl; exact h1 (Or.inr ht)))
      (fun t d hd => hd.rollback t now) h hx
  | restore q =>
    simp only [DB.step]; rw [get?_restore h, hx]
    have : isRestorable q m = false := by simp [isRestorable, hs]
    simp [this]
  | clear q =>
    simp only [DB.step]; rw [get?_clear h, hx]
    simp [Option.filter, hs]
  | remove q ids =>
    simp only [DB.step]; rw [get?_remove h, hx]
    simp [Option.filter, hs]
  | forceRemove q ids =>
    simp only [DB.step]; rw [get?_forceRemove h, hx]
    have : x ∉ ids := h2
    simp [Option.filter, hid, this]
  | metricReset qs => exact hx

/-- Same, when forced removal is possible: it is unchanged, or gone. -/
theorem inTx_step' {db : DB} (h : Inv db) {x : MsgId} {m : Msg} {t : Gtrid} (hx : db.get? x = some m) (hs : m.state ≠ .enqueued)
    (hg : m.gtrid = some t) {op : Op} (h1 : ¬ op.completes t) : (db.step op).get? x = some m ∨ (db.step op).get? x = none := by
  by_cases h2 : op.forces x
  · cases op with
    | forceRemove q ids =>
      simp only [DB.step]; rw [get?_forceRemove h, hx]
      simp only [Option.filter]
      split <;> simp
    | _ => exact absurd h2 (by simp [Op.forces])
  · exact Or.inl (inTx_step h hx hs hg h1 h2)

theorem invisible_of_absent {db : DB} (h : Inv db) {x : MsgId} (hx : db.get? x = none) : Invisible db x := by
  rw [get?_none_iff] at hx
  refine ⟨?_, ?_⟩
  · intro q sel trid now m hd
    rw [dequeue_out] at hd
    exact hx m (select_mem hd).1
  · intro q last now m hb
    have := firstBy_mem hb
    exact hx m (List.mem_filter.mp this).1

theorem invisible_of_state {db : DB} (h : Inv db) {x : MsgId} {m : Msg} (hx : db.get? x = some m) (hs : m.state ≠ .enqueued) :
    Invisible db x := by
  refine ⟨?_, ?_⟩
  · intro q sel trid now m' hd he
    rw [dequeue_out] at hd
    obtain ⟨h1, -, h3⟩ := select_mem hd
    have := (get?_some_iff h.nodup).mpr ⟨h1, he⟩
    rw [hx] at this
    simp only [Option.some.injEq] at this
    subst this
    exact hs h3
  · intro q last now m' hb he
    have hm := firstBy_mem hb
    simp only [List.mem_filter, Bool.and_eq_true, beq_iff_eq] at hm
    have := (get?_some_iff h.nodup).mpr ⟨hm.1, he⟩
    rw [hx] at this
    simp only [Option.some.injEq] at this
    subst this
    exact hs hm.2.1.1.2

/-! ## Selection -/

theorem firstBy_none {lt : Msg → Msg → Bool} {l : List Msg} : firstBy lt l = none ↔ l = [] := by
  cases l with
  | nil => simp [firstBy]
  | cons a l =>
    simp only [firstBy]
    split
    · simp
    · split <;> simp

/-- The comparison is a strict weak order. -/
structure Weak (lt : Msg → Msg → Bool) : Prop where
  irrefl : ∀ a, lt a a = false
  trans : ∀ a b c, lt a b = true → lt b c = true → lt a c = true
  incomp : ∀ a b c, lt a b = false → lt b c = false → lt a c = false

theorem firstBy_min {lt : Msg → Msg → Bool} (w : Weak lt) {l : List Msg} {m : Msg} (h : firstBy lt l = some m) :
    ∀ x ∈ l, lt x m = false := by
  induction l generalizing m with
  | nil => simp
  | cons a l ih =>
    simp only [firstBy] at h
    split at h
    · next hn =>
      simp only [Option.some.injEq] at h
      subst h
      rw [firstBy_none] at hn
      subst hn
      simp [w.irrefl]
    · next y hy =>
      have hmin := ih hy
      split at h
      · next hlt =>
        simp only [Option.some.injEq] at h
        subst h
        intro x hx
        rcases List.mem_cons.mp hx with rfl | hx
        · cases hc : lt x y with
          | false => rfl
          | true => have := w.trans _ _ _ hlt hc; rw [w.irrefl] at this; simp at this
        · exact hmin x hx
      · next hlt =>
        simp only [Option.some.injEq] at h
        subst h
        intro x hx
        rcases List.mem_cons.mp hx with rfl | hx
        · exact w.irrefl _
        · exact w.incomp _ _ _ (hmin x hx) (by simpa using hlt)

theorem weak_before : Weak Msg.before := by
  constructor
  · intro a; simp [Msg.before]
  · intro a b c; simp only [Msg.before, Bool.or_eq_true, decide_eq_true_eq, Bool.and_eq_true, beq_iff_eq]; omega
  · intro a b c; simp only [Msg.before, Bool.or_eq_false_iff, decide_eq_false_iff_not, Bool.and_eq_false_iff, beq_eq_false_iff_ne, ne_eq]; omega

theorem weak_timestamp : Weak (fun a b => decide (a.timestamp < b.timestamp)) := by
  constructor
  · intro a; simp
  · intro a b c; simp only [decide_eq_true_eq]; omega
  · intro a b c; simp only [decide_eq_false_iff_not]; omega

end Casual.Queue

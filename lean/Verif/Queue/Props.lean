import Verif.Queue.Names

/-!
# Properties of the queuebase

`DB.empty.run ops` is the queuebase after an arbitrary history `ops` of operations. `DB.get? id` is what `peek` by id
shows (`peek_one`).
-/
namespace Casual.Queue

theorem peek_one (db : DB) (x : MsgId) : db.peek [x] = (db.get? x).toList := by
  unfold DB.peek DB.get?
  cases h : db.msgs.find? (fun m => m.id == x) <;> simp [h]

theorem run_append (db : DB) (a b : List Op) : db.run (a ++ b) = (db.run a).run b := by
  unfold DB.run; rw [List.foldl_append]

theorem run_cons (db : DB) (op : Op) (b : List Op) : db.run (op :: b) = (db.step op).run b := rfl

theorem run_snoc (db : DB) (a : List Op) (op : Op) : db.run (a ++ [op]) = (db.run a).step op := by
  rw [run_append]; rfl

theorem inv_run (ops : List Op) : Inv (DB.empty.run ops) := Inv.empty.run ops

/-! ## A small example used to show that the hypotheses can be met -/

/-- One queue `a` (id 2, error queue id 1), retry count 1. -/
def exConf : Op := .configure [{ name := ['a'], retryCount := 1, retryDelay := 0 }]
def exBody (n : Nat) : Body := { properties := ['p'], reply := [], type := ['t'], payload := List.replicate n 7 }
/-- Message 10 enqueued in transaction 5, and message 11 outside. -/
def exOps : List Op := [exConf, .enqueue 10 2 (some 5) 0 (exBody 3) 100, .enqueue 11 2 none 0 (exBody 4) 101]

/-! ## C14 -/

/-- A message enqueued in a transaction is out of reach for everybody, as long as the transaction is not committed: for
every history before, and every history after. -/
theorem C14_invisible_until_commit (before after : List Op) (id : MsgId) (q : Qid) (t : Gtrid) (a : Time) (b : Body) (now : Time)
    (hok : ((DB.empty.run before).enqueue id q (some t) a b now).2 = .ok ())
    (hcommit : ∀ op ∈ after, ¬ op.commits t) (hid : ∀ op ∈ after, ¬ op.enqueues id) :
    Invisible (DB.empty.run (before ++ .enqueue id q (some t) a b now :: after)) id := by
  rw [run_append, run_cons]
  have h0 := inv_run before
  generalize DB.empty.run before = db at h0 hok ⊢
  have h1 := h0.step (.enqueue id q (some t) a b now)
  generalize hm : ({ id := id, queue := q, origin := q, gtrid := some t, state := .added, redelivered := 0, available := a, timestamp := now, body := b } : Msg) = m
  have hg : (db.step (.enqueue id q (some t) a b now)).get? id = some m := by
    simp only [DB.step]; rw [get?_enqueue hok, if_pos rfl, ← hm]; rfl
  generalize db.step (.enqueue id q (some t) a b now) = db1 at h1 hg ⊢
  have hms : m.state = .added := by rw [← hm]
  have hmg : m.gtrid = some t := by rw [← hm]
  have key := run_keeps (P := fun d => d.get? id = some m ∨ d.get? id = none) (ops := after) (fun op hop d hd hP => by
    rcases hP with hP | hP
    · by_cases hc : op.completes t
      · rcases hc with hc | hc
        · exact absurd hc (hcommit op hop)
        · have hrb : ∀ t' now' (d : DB), Inv d → (d.get? id = some m ∨ d.get? id = none) → ((d.rollback t' now').1.get? id = some m ∨ (d.rollback t' now').1.get? id = none) := by
            intro t' now' d hd hP
            rw [get?_rollback hd]
            rcases hP with hP | hP
            · rw [hP]
              by_cases he : t' = t
              · right; subst he; simp [rollbackMsg, hmg, hms]
              · left; exact rollback_other hmg he
            · right; rw [hP]; rfl
          cases op with
          | rollback t' now' => exact hrb t' now' d hd (Or.inl hP)
          | recoveryRollback ts now' =>
            simp only [DB.step]; rw [recoveryRollback_db hd]
            exact foldl_keeps (P := fun d => d.get? id = some m ∨ d.get? id = none) (fun t' _ d hd hP => hrb t' now' d hd hP)
              (fun t d hd => hd.rollback t now') hd (Or.inl hP)
          | _ => exact absurd hc (by simp [Op.rollsBack])
      · exact inTx_step' hd hP (by rw [hms]; simp) hmg hc
    · exact Or.inr (absent_step hd hP (hid op hop))) h1 (Or.inl hg)
  rcases key with hk | hk
  · exact invisible_of_state (h1.run after) hk (by rw [hms]; simp)
  · exact invisible_of_absent (h1.run after) hk

theorem step_commit (db : DB) (t : Gtrid) : db.step (.commit t) = (db.commit t).1 := rfl

/-- After the commit it can be obtained: by id, at once; and when its available time has passed, the queue is not empty for
anybody. It has the content that was enqueued. -/
theorem C14_visible_after_commit (before after : List Op) (id : MsgId) (q : Qid) (t : Gtrid) (a : Time) (b : Body) (now : Time)
    (hok : ((DB.empty.run before).enqueue id q (some t) a b now).2 = .ok ())
    (hc : ∀ op ∈ after, ¬ op.completes t) (hf : ∀ op ∈ after, ¬ op.forces id) :
    let db := DB.empty.run (before ++ .enqueue id q (some t) a b now :: after ++ [.commit t])
    (∀ trid now', ∃ m, (db.dequeue q (.byId id) trid now').2 = some m ∧ m.id = id ∧ m.body = b ∧ m.timestamp = now) ∧
    (∀ trid now', a < now' → (db.dequeue q .any trid now').2 ≠ none ∧ (db.dequeue q (.byProperties b.properties) trid now').2 ≠ none) ∧
    (∀ last now', a < now' → last < now → db.browse q last now' ≠ none) := by
  intro db
  have hdb : db = ((((DB.empty.run before).step (.enqueue id q (some t) a b now)).run after).commit t).1 := by
    show DB.empty.run _ = _
    rw [run_snoc, run_append, run_cons]; rfl
  have h0 := inv_run before
  rw [hdb]
  clear hdb db
  generalize DB.empty.run before = db at h0 hok ⊢
  have h1 := h0.step (.enqueue id q (some t) a b now)
  generalize hm : ({ id := id, queue := q, origin := q, gtrid := some t, state := .added, redelivered := 0, available := a, timestamp := now, body := b } : Msg) = m
  have hg : (db.step (.enqueue id q (some t) a b now)).get? id = some m := by
    simp only [DB.step]; rw [get?_enqueue hok, if_pos rfl, ← hm]; rfl
  generalize db.step (.enqueue id q (some t) a b now) = db1 at h1 hg ⊢
  have hms : m.state = .added := by rw [← hm]
  have hmg : m.gtrid = some t := by rw [← hm]
  have key : (db1.run after).get? id = some m := run_keeps (P := fun d => d.get? id = some m) (fun op hop d hd hP =>
    inTx_step hd hP (by rw [hms]; simp) hmg (hc op hop) (hf op hop)) h1 hg
  have h2 := h1.run after
  generalize db1.run after = db2 at h2 key ⊢
  have hfin : (db2.commit t).1.get? id = some { m with state := .enqueued } := by
    rw [get?_commit h2, key]
    simp [commitMsg, hmg, hms]
  have h3 := h2.commit t
  generalize (db2.commit t).1 = d at h3 hfin ⊢
  subst hm
  have hmem := get?_mem hfin
  have hne : ∀ (lt : Msg → Msg → Bool) (p : Msg → Bool), p { id := id, queue := q, origin := q, gtrid := some t, state := MState.enqueued, redelivered := 0, available := a, timestamp := now, body := b } = true →
      firstBy lt (d.msgs.filter p) ≠ none := by
    intro lt p hp hnone
    rw [firstBy_none, List.filter_eq_nil_iff] at hnone
    exact hnone _ hmem hp
  refine ⟨?_, ?_, ?_⟩
  · intro trid now'
    rw [dequeue_out]
    unfold DB.select
    dsimp only
    cases hfd : d.msgs.find? (fun m => m.id == id && m.queue == q && m.state == .enqueued) with
    | none =>
      rw [List.find?_eq_none] at hfd
      exact absurd (hfd _ hmem) (by simp)
    | some m' =>
      have h5 := List.mem_of_find?_eq_some hfd
      have h6 := List.find?_some hfd
      simp only [Bool.and_eq_true, beq_iff_eq] at h6
      have : m' = _ := eq_of_nodup_map h3.nodup h5 hmem h6.1.1
      rw [this]
      exact ⟨_, rfl, rfl, rfl, rfl⟩
  · intro trid now' hlt
    rw [dequeue_out, dequeue_out]
    exact ⟨hne _ _ (by simp [hlt]), hne _ _ (by simp [hlt])⟩
  · intro last now' hlt hl
    exact hne _ _ (by simp [hlt, hl])

/-- The hypotheses are met by the example, and the message is really visible afterwards. -/
example : ((DB.empty.run [exConf]).enqueue 10 2 (some 5) 0 (exBody 3) 100).2.isOk = true ∧
    ((DB.empty.run (exOps ++ [.commit 5])).dequeue 2 .any none 200).2.map (·.id) = some 10 ∧
    ((DB.empty.run exOps).dequeue 2 .any none 200).2.map (·.id) = some 11 := by decide +kernel

/-! ## C15 -/

/-- What a message carries of transaction `t` comes from work of `t`: an enqueue of it, or a dequeue that handed it
out. -/
theorem C15_only_own_work (ops : List Op) (x : MsgId) (m : Msg) (t : Gtrid)
    (hm : (DB.empty.run ops).get? x = some m) (hg : m.gtrid = some t) :
    ∃ before op after, ops = before ++ op :: after ∧ op.worksIn t ∧ (op.enqueues x ∨ op.handsOut (DB.empty.run before) x) := by
  induction ops using snocInd generalizing m with
  | nil => simp [DB.run, DB.empty, DB.get?] at hm
  | snoc ops op ih =>
    rw [run_snoc] at hm
    have hi := inv_run ops
    have lift : (∃ m, (DB.empty.run ops).get? x = some m ∧ m.gtrid = some t) →
        ∃ before op' after, ops ++ [op] = before ++ op' :: after ∧ op'.worksIn t ∧ (op'.enqueues x ∨ op'.handsOut (DB.empty.run before) x) := by
      rintro ⟨m', h1, h2⟩
      obtain ⟨b, o, a, rfl, h3, h4⟩ := ih m' h1 h2
      exact ⟨b, o, a ++ [op], by simp, h3, h4⟩
    have hcom : ∀ t' (d : DB), Inv d → ∀ m', (d.commit t').1.get? x = some m' → m'.gtrid = some t → ∃ m0, d.get? x = some m0 ∧ m0.gtrid = some t := by
      intro t' d hd m' h1 h2
      rw [get?_commit hd, Option.bind_eq_some_iff] at h1
      obtain ⟨m0, h3, h4⟩ := h1
      refine ⟨m0, h3, ?_⟩
      rcases commitMsg_some h4 with rfl | ⟨-, -, rfl⟩ <;> exact h2
    have hrol : ∀ t' now (d : DB), Inv d → ∀ m', (d.rollback t' now).1.get? x = some m' → m'.gtrid = some t → ∃ m0, d.get? x = some m0 ∧ m0.gtrid = some t := by
      intro t' now d hd m' h1 h2
      rw [get?_rollback hd, Option.bind_eq_some_iff] at h1
      obtain ⟨m0, h3, h4⟩ := h1
      refine ⟨m0, h3, ?_⟩
      rcases rollbackMsg_some h4 with rfl | ⟨⟨h5, -, -, h6⟩, -⟩
      · exact h2
      · rw [h5, ← h6, h2]
    have hfil : ∀ (d : DB) (p : Msg → Bool), ((DB.empty.run ops).get? x).filter p = some m → ∃ m0, (DB.empty.run ops).get? x = some m0 ∧ m0.gtrid = some t := by
      intro d p h1
      rw [Option.filter_eq_some_iff] at h1
      exact ⟨m, h1.1, hg⟩
    cases op with
    | configure conf =>
      rw [DB.step, get?_of_msgs (configure_msgs _ conf)] at hm
      exact lift ⟨m, hm, hg⟩
    | enqueue id q trid a b now =>
      simp only [DB.step] at hm
      rcases enqueue_cases (DB.empty.run ops) id q trid a b now with ⟨hok, -, -⟩ | ⟨-, he⟩
      · rw [get?_enqueue hok] at hm
        split at hm
        · next he =>
          simp only [Option.some.injEq] at hm
          subst hm
          exact ⟨ops, _, [], rfl, hg, Or.inl he.symm⟩
        · exact lift ⟨m, hm, hg⟩
      · rw [he] at hm; exact lift ⟨m, hm, hg⟩
    | dequeue q sel trid now =>
      simp only [DB.step] at hm
      rw [get?_dequeue hi] at hm
      cases hs : (DB.empty.run ops).select q sel now with
      | none => rw [hs] at hm; exact lift ⟨m, hm, hg⟩
      | some m' =>
        rw [hs] at hm
        simp only at hm
        split at hm
        · next he =>
          cases trid with
          | none => simp at hm
          | some t' =>
            simp at hm; subst hm
            exact ⟨ops, _, [], rfl, hg, Or.inr ⟨m', by rw [dequeue_out]; exact hs, he.symm⟩⟩
        · exact lift ⟨m, hm, hg⟩
    | commit t' => exact lift (hcom t' _ hi m hm hg)
    | rollback t' now => exact lift (hrol t' now _ hi m hm hg)
    | recoveryCommit ts =>
      simp only [DB.step] at hm; rw [recoveryCommit_db] at hm
      have := foldl_keeps (P := fun d => (∃ m, d.get? x = some m ∧ m.gtrid = some t) → ∃ m, (DB.empty.run ops).get? x = some m ∧ m.gtrid = some t)
        (f := fun (db : DB) t => (db.commit t).1) (l := ts)
        (fun t' _ d hd hP ⟨m', h1, h2⟩ => hP (hcom t' d hd m' h1 h2)) (fun t d hd => hd.commit t) hi (fun h => h)
      exact lift (this ⟨m, hm, hg⟩)
    | recoveryRollback ts now =>
      simp only [DB.step] at hm; rw [recoveryRollback_db hi] at hm
      have := foldl_keeps (P := fun d => (∃ m, d.get? x = some m ∧ m.gtrid = some t) → ∃ m, (DB.empty.run ops).get? x = some m ∧ m.gtrid = some t)
        (f := fun (db : DB) t => (db.rollback t now).1) (l := ts)
        (fun t' _ d hd hP ⟨m', h1, h2⟩ => hP (hrol t' now d hd m' h1 h2)) (fun t d hd => hd.rollback t now) hi (fun h => h)
      exact lift (this ⟨m, hm, hg⟩)
    | restore q =>
      simp only [DB.step] at hm
      rw [get?_restore hi, Option.map_eq_some_iff] at hm
      obtain ⟨m0, h0, rfl⟩ := hm
      exact lift ⟨m0, h0, by split at hg <;> exact hg⟩
    | clear q => simp only [DB.step] at hm; rw [get?_clear hi] at hm; exact lift (hfil DB.empty _ hm)
    | remove q ids => simp only [DB.step] at hm; rw [get?_remove hi] at hm; exact lift (hfil DB.empty _ hm)
    | forceRemove q ids => simp only [DB.step] at hm; rw [get?_forceRemove hi] at hm; exact lift (hfil DB.empty _ hm)
    | metricReset qs => exact lift ⟨m, hm, hg⟩

/-- The (first) rollback of a transaction removes what the transaction enqueued. -/
theorem C15_enqueued_is_gone (before after : List Op) (id : MsgId) (q : Qid) (t : Gtrid) (a : Time) (b : Body) (now now' : Time)
    (hok : ((DB.empty.run before).enqueue id q (some t) a b now).2 = .ok ())
    (hc : ∀ op ∈ after, ¬ op.completes t) (hid : ∀ op ∈ after, ¬ op.enqueues id) :
    (DB.empty.run (before ++ .enqueue id q (some t) a b now :: after ++ [.rollback t now'])).get? id = none := by
  rw [run_snoc, run_append, run_cons]
  have h0 := inv_run before
  generalize DB.empty.run before = db at h0 hok ⊢
  have h1 := h0.step (.enqueue id q (some t) a b now)
  generalize hm : ({ id := id, queue := q, origin := q, gtrid := some t, state := .added, redelivered := 0, available := a, timestamp := now, body := b } : Msg) = m
  have hg : (db.step (.enqueue id q (some t) a b now)).get? id = some m := by
    simp only [DB.step]; rw [get?_enqueue hok, if_pos rfl, ← hm]; rfl
  generalize db.step (.enqueue id q (some t) a b now) = db1 at h1 hg ⊢
  have hms : m.state = .added := by rw [← hm]
  have hmg : m.gtrid = some t := by rw [← hm]
  have key := run_keeps (P := fun d => d.get? id = some m ∨ d.get? id = none) (ops := after) (fun op hop d hd hP => by
    rcases hP with hP | hP
    · exact inTx_step' hd hP (by rw [hms]; simp) hmg (hc op hop)
    · exact Or.inr (absent_step hd hP (hid op hop))) h1 (Or.inl hg)
  simp only [DB.step]
  rw [get?_rollback (h1.run after)]
  rcases key with hk | hk
  · rw [hk]; simp [rollbackMsg, hmg, hms]
  · rw [hk]; rfl

/-- What the rollback does with a message that was taken: where it goes is C18. -/
def RolledBack (db : DB) (now : Time) (m m' : Msg) : Prop :=
  m'.id = m.id ∧ m'.body = m.body ∧ m'.timestamp = m.timestamp ∧ m'.origin = m.origin ∧ m'.state = .enqueued ∧
  ∃ r ∈ db.queues, r.id = m.queue ∧
    if r.error ≠ 0 ∧ r.retryCount < m.redelivered + 1 then m'.queue = r.error ∧ m'.redelivered = 0 ∧ m'.available = 0
    else m'.queue = m.queue ∧ m'.redelivered = m.redelivered + 1 ∧
      m'.available = if r.retryDelay = 0 then 0 else now + r.retryDelay

theorem queue?_mem {db : DB} (h : Inv db) {r : QRow} (hr : r ∈ db.queues) : db.queue? r.id = some r := by
  unfold DB.queue?
  cases hf : db.queues.find? fun x => x.id == r.id with
  | none =>
    rw [List.find?_eq_none] at hf
    exact absurd (hf r hr) (by simp)
  | some x =>
    have h1 := List.mem_of_find?_eq_some hf
    have h2 : x.id = r.id := by simpa using List.find?_some hf
    rw [eq_of_nodup_map h.paired.nodup h1 hr h2]

theorem rolledBack_of_taken {db : DB} (h : Inv db) {x : MsgId} {m : Msg} {t : Gtrid} (now : Time) (hx : db.get? x = some m)
    (hs : m.state = .dequeued) (hg : m.gtrid = some t) : ∃ m', (db.rollback t now).1.get? x = some m' ∧ RolledBack db now m m' := by
  obtain ⟨r, hr, he⟩ := (h.msgs m (get?_mem hx)).fk
  have hq : db.queue? m.queue = some r := by rw [← he]; exact queue?_mem h hr
  have hav : db.retryAt now m = if r.retryDelay = 0 then 0 else now + r.retryDelay := by unfold DB.retryAt; rw [hq]
  rw [get?_rollback h, hx]
  simp only [Option.bind_some]
  unfold rollbackMsg
  rw [if_pos hg]
  simp only [hs, if_true]
  have hex : db.exhausted t { m with state := .enqueued, redelivered := m.redelivered + 1, available := db.retryAt now m } =
      decide (m.queue % 2 = 0 ∧ r.retryCount < m.redelivered + 1) := by
    simp only [DB.exhausted, hq, hg, BEq.rfl, Bool.true_and, Bool.decide_and]
    congr 1
  rw [hex]
  by_cases hc : m.queue % 2 = 0 ∧ r.retryCount < m.redelivered + 1
  · rw [if_pos (by simpa using hc)]
    obtain ⟨h1, h2, -⟩ := h.paired.even r hr (by omega)
    refine ⟨_, rfl, rfl, rfl, rfl, rfl, rfl, r, hr, he, ?_⟩
    have hne : r.error ≠ 0 := by rcases h.paired.even r hr (by omega) with ⟨-, -, r', hr', he'⟩; have := h.paired.odd; intro h0; have : r'.id = 0 := by omega
                                 have := h.paired.even r' hr' (by omega); omega
    rw [if_pos ⟨hne, hc.2⟩]
    exact ⟨by dsimp only; omega, rfl, rfl⟩
  · rw [if_neg (by simpa using hc)]
    refine ⟨_, rfl, rfl, rfl, rfl, rfl, rfl, r, hr, he, ?_⟩
    rw [if_neg]
    · exact ⟨rfl, rfl, hav⟩
    · rintro ⟨h1, h2⟩
      apply hc
      refine ⟨?_, h2⟩
      rcases Nat.mod_two_eq_zero_or_one r.id with h3 | h3
      · omega
      · exact absurd (h.paired.odd r hr h3).1 h1

/-- The (first) rollback of a transaction brings back every message the transaction dequeued: with the same content,
committed, and on the queue (C18). -/
theorem C15_dequeued_is_back (before after : List Op) (q : Qid) (sel : Selector) (t : Gtrid) (now now' : Time) (m : Msg)
    (hd : ((DB.empty.run before).dequeue q sel (some t) now).2 = some m)
    (hc : ∀ op ∈ after, ¬ op.completes t) (hf : ∀ op ∈ after, ¬ op.forces m.id) :
    let db := DB.empty.run (before ++ .dequeue q sel (some t) now :: after)
    ∃ m', (db.rollback t now').1.get? m.id = some m' ∧ RolledBack db now' m m' := by
  intro db
  have hdb : db = ((DB.empty.run before).step (.dequeue q sel (some t) now)).run after := by
    show DB.empty.run _ = _
    rw [run_append, run_cons]
  have h0 := inv_run before
  rw [hdb]
  clear hdb db
  generalize DB.empty.run before = db at h0 hd ⊢
  rw [dequeue_out] at hd
  have hg : (db.step (.dequeue q sel (some t) now)).get? m.id = some { m with gtrid := some t, state := .dequeued } := by
    simp only [DB.step]; rw [get?_dequeue h0, hd]; simp
  have h1 := h0.step (.dequeue q sel (some t) now)
  generalize db.step (.dequeue q sel (some t) now) = db1 at h1 hg ⊢
  have key := run_keeps (P := fun d => d.get? m.id = some { m with gtrid := some t, state := .dequeued }) (ops := after)
    (fun op hop d hd hP => inTx_step hd hP (by simp) rfl (hc op hop) (hf op hop)) h1 hg
  obtain ⟨m', h2, h3⟩ := rolledBack_of_taken (h1.run after) now' key rfl rfl
  exact ⟨m', h2, h3⟩

/-- A rollback changes no message that does not carry work of the transaction (see `C15_only_own_work`), brings none into
being, and always succeeds. -/
theorem C15_others_untouched (ops : List Op) (t : Gtrid) (now : Time) (x : MsgId) :
    (∃ n, ((DB.empty.run ops).rollback t now).2 = .ok n) ∧
    (∀ m, (DB.empty.run ops).get? x = some m → m.gtrid ≠ some t → ((DB.empty.run ops).rollback t now).1.get? x = some m) ∧
    ((DB.empty.run ops).get? x = none → ((DB.empty.run ops).rollback t now).1.get? x = none) := by
  have h := inv_run ops
  generalize DB.empty.run ops = db at h
  refine ⟨by rw [rollback_eq h]; exact ⟨_, rfl⟩, ?_, ?_⟩
  · intro m hx hg
    rw [get?_rollback h, hx]
    simp [rollbackMsg, hg]
  · intro hx
    rw [get?_rollback h, hx]; rfl

example : ((DB.empty.run exOps).dequeue 2 .any (some 5) 200).2.map (·.id) = some 11 ∧
    (DB.empty.run (exOps ++ [.dequeue 2 .any (some 5) 200, .rollback 5 300])).msgs.map (fun m => (m.id, m.redelivered, m.queue)) = [(11, 1, 2)] := by
  decide +kernel

/-! ## C16 -/

theorem C16_ids_unique (ops : List Op) : ((DB.empty.run ops).msgs.map (·.id)).Nodup := (inv_run ops).nodup

/-- A committed message that nobody has taken disappears only if it is handed out to somebody outside a transaction, or an
administrator asks for its removal. -/
theorem C16_committed_not_lost (ops : List Op) (op : Op) (x : MsgId) (m : Msg) (hx : (DB.empty.run ops).get? x = some m)
    (hs : m.state = .enqueued) (hgone : (DB.empty.run (ops ++ [op])).get? x = none) :
    op.handsOutForGood (DB.empty.run ops) x ∨ op.discards m.queue x := by
  rw [run_snoc] at hgone
  have h := inv_run ops
  generalize DB.empty.run ops = db at h hx hgone ⊢
  have hid := get?_id hx
  have hcm : ∀ t (d : DB), Inv d → (∃ m', d.get? x = some m' ∧ m'.state = .enqueued) → ∃ m', (d.commit t).1.get? x = some m' ∧ m'.state = .enqueued := by
    rintro t d hd ⟨m', h1, h2⟩
    refine ⟨m', ?_, h2⟩
    rw [get?_commit hd, h1]; simp only [Option.bind_some, commitMsg, h2]; split <;> rfl
  have hrb : ∀ t now (d : DB), Inv d → (∃ m', d.get? x = some m' ∧ m'.state = .enqueued) → ∃ m', (d.rollback t now).1.get? x = some m' ∧ m'.state = .enqueued := by
    rintro t now d hd ⟨m', h1, h2⟩
    rw [get?_rollback hd, h1]; simp only [Option.bind_some, rollbackMsg, h2]
    split
    · simp only [reduceCtorEq, if_false]; split
      · exact ⟨_, rfl, h2⟩
      · exact ⟨_, rfl, h2⟩
    · exact ⟨_, rfl, h2⟩
  cases op with
  | configure conf => rw [DB.step, get?_of_msgs (configure_msgs db conf), hx] at hgone; simp at hgone
  | enqueue id q trid a b now =>
    simp only [DB.step] at hgone
    rcases enqueue_cases db id q trid a b now with ⟨ho, hn, -⟩ | ⟨-, he⟩
    · rw [get?_enqueue ho] at hgone
      split at hgone
      · simp at hgone
      · rw [hx] at hgone; simp at hgone
    · rw [he, hx] at hgone; simp at hgone
  | dequeue q sel trid now =>
    left
    simp only [DB.step] at hgone
    rw [get?_dequeue h] at hgone
    cases hsel : db.select q sel now with
    | none => rw [hsel] at hgone; simp only at hgone; rw [hx] at hgone; simp at hgone
    | some m' =>
      rw [hsel] at hgone
      simp only at hgone
      split at hgone
      · next he =>
        cases trid with
        | none => exact ⟨m', by rw [dequeue_out]; exact hsel, he.symm⟩
        | some t => simp at hgone
      · rw [hx] at hgone; simp at hgone
  | commit t =>
    obtain ⟨m', h1, -⟩ := hcm t db h ⟨m, hx, hs⟩
    rw [DB.step, h1] at hgone; simp at hgone
  | rollback t now =>
    obtain ⟨m', h1, -⟩ := hrb t now db h ⟨m, hx, hs⟩
    rw [DB.step, h1] at hgone; simp at hgone
  | recoveryCommit ts =>
    simp only [DB.step] at hgone; rw [recoveryCommit_db] at hgone
    obtain ⟨m', h1, -⟩ := foldl_keeps (P := fun d => ∃ m', d.get? x = some m' ∧ m'.state = .enqueued) (f := fun (db : DB) t => (db.commit t).1) (l := ts)
      (fun t _ d hd hP => hcm t d hd hP) (fun t d hd => hd.commit t) h ⟨m, hx, hs⟩
    rw [h1] at hgone; simp at hgone
  | recoveryRollback ts now =>
    simp only [DB.step] at hgone; rw [recoveryRollback_db h] at hgone
    obtain ⟨m', h1, -⟩ := foldl_keeps (P := fun d => ∃ m', d.get? x = some m' ∧ m'.state = .enqueued) (f := fun (db : DB) t => (db.rollback t now).1) (l := ts)
      (fun t _ d hd hP => hrb t now d hd hP) (fun t d hd => hd.rollback t now) h ⟨m, hx, hs⟩
    rw [h1] at hgone; simp at hgone
  | restore q => simp only [DB.step] at hgone; rw [get?_restore h, hx] at hgone; simp at hgone
  | clear q =>
    right
    simp only [DB.step] at hgone; rw [get?_clear h, hx] at hgone
    simp [Option.filter, hs] at hgone
    exact hgone.symm
  | remove q ids =>
    right
    simp only [DB.step] at hgone; rw [get?_remove h, hx] at hgone
    simp [Option.filter, hs, hid] at hgone
    exact ⟨hgone.1.symm, hgone.2⟩
  | forceRemove q ids =>
    right
    simp only [DB.step] at hgone; rw [get?_forceRemove h, hx] at hgone
    simp [Option.filter, hid] at hgone
    exact ⟨hgone.1.symm, hgone.2⟩
  | metricReset qs => rw [show (db.step (.metricReset qs)).get? x = db.get? x from rfl, hx] at hgone; simp at hgone

/-- A message a transaction has taken disappears only by the commit of that transaction, or forced removal. -/
theorem C16_taken_not_lost (ops : List Op) (op : Op) (x : MsgId) (m : Msg) (hx : (DB.empty.run ops).get? x = some m)
    (hs : m.state = .dequeued) (hgone : (DB.empty.run (ops ++ [op])).get? x = none) :
    ∃ t, m.gtrid = some t ∧ (op.commits t ∨ op.forces x) := by
  rw [run_snoc] at hgone
  have h := inv_run ops
  generalize DB.empty.run ops = db at h hx hgone ⊢
  have hgt := (h.msgs m (get?_mem hx)).gtrid (by rw [hs]; simp)
  obtain ⟨t, hg⟩ := Option.isSome_iff_exists.mp hgt
  refine ⟨t, hg, ?_⟩
  by_cases hf : op.forces x
  · exact Or.inr hf
  by_cases hc : op.completes t
  · rcases hc with hc | hc
    · exact Or.inl hc
    · exfalso
      have hrb : ∀ t now (d : DB), Inv d → (∃ m', d.get? x = some m' ∧ m'.state ≠ .added) → ∃ m', (d.rollback t now).1.get? x = some m' ∧ m'.state ≠ .added := by
        rintro t now d hd ⟨m', h1, h2⟩
        rw [get?_rollback hd, h1]; simp only [Option.bind_some, rollbackMsg]
        split
        · cases hst : m'.state with
          | added => exact absurd hst h2
          | enqueued => simp only [reduceCtorEq, if_false]; split <;> exact ⟨_, rfl, h2⟩
          | dequeued => simp only [if_true]; split <;> exact ⟨_, rfl, by simp⟩
        · exact ⟨_, rfl, h2⟩
      cases op with
      | rollback t' now =>
        obtain ⟨m', h1, -⟩ := hrb t' now db h ⟨m, hx, by rw [hs]; simp⟩
        rw [DB.step, h1] at hgone; simp at hgone
      | recoveryRollback ts now =>
        simp only [DB.step] at hgone; rw [recoveryRollback_db h] at hgone
        obtain ⟨m', h1, -⟩ := foldl_keeps (P := fun d => ∃ m', d.get? x = some m' ∧ m'.state ≠ .added) (f := fun (db : DB) t => (db.rollback t now).1) (l := ts)
          (fun t _ d hd hP => hrb t now d hd hP) (fun t d hd => hd.rollback t now) h ⟨m, hx, by rw [hs]; simp⟩
        rw [h1] at hgone; simp at hgone
      | _ => exact absurd hc (by simp [Op.rollsBack])
  · rw [inTx_step h hx (by rw [hs]; simp) hg hc hf] at hgone; simp at hgone

/-- No operation changes the content of a stored message. -/
theorem C16_content_unchanged (ops : List Op) (op : Op) (x : MsgId) (m m' : Msg) (hx : (DB.empty.run ops).get? x = some m)
    (hx' : (DB.empty.run (ops ++ [op])).get? x = some m') :
    m'.body = m.body ∧ m'.timestamp = m.timestamp ∧ m'.origin = m.origin := by
  rw [run_snoc] at hx'
  have h := inv_run ops
  generalize DB.empty.run ops = db at h hx hx' ⊢
  have hcm : ∀ t (d : DB), Inv d → (∀ m', d.get? x = some m' → m'.body = m.body ∧ m'.timestamp = m.timestamp ∧ m'.origin = m.origin) →
      (∀ m', (d.commit t).1.get? x = some m' → m'.body = m.body ∧ m'.timestamp = m.timestamp ∧ m'.origin = m.origin) := by
    intro t d hd hP m' h1
    rw [get?_commit hd, Option.bind_eq_some_iff] at h1
    obtain ⟨m0, h2, h3⟩ := h1
    rcases commitMsg_some h3 with rfl | ⟨-, -, rfl⟩
    · exact hP _ h2
    · exact hP m0 h2
  have hrb : ∀ t now (d : DB), Inv d → (∀ m', d.get? x = some m' → m'.body = m.body ∧ m'.timestamp = m.timestamp ∧ m'.origin = m.origin) →
      (∀ m', (d.rollback t now).1.get? x = some m' → m'.body = m.body ∧ m'.timestamp = m.timestamp ∧ m'.origin = m.origin) := by
    intro t now d hd hP m' h1
    rw [get?_rollback hd, Option.bind_eq_some_iff] at h1
    obtain ⟨m0, h2, h3⟩ := h1
    rcases rollbackMsg_some h3 with rfl | ⟨-, h4, h5, h6, -⟩
    · exact hP _ h2
    · rw [h4, h5, h6]; exact hP m0 h2
  have h0 : ∀ m', db.get? x = some m' → m'.body = m.body ∧ m'.timestamp = m.timestamp ∧ m'.origin = m.origin := by
    intro m' h1; rw [hx] at h1; simp only [Option.some.injEq] at h1; subst h1; exact ⟨rfl, rfl, rfl⟩
  cases op with
  | configure conf => rw [DB.step, get?_of_msgs (configure_msgs db conf)] at hx'; exact h0 m' hx'
  | enqueue id q trid a b now =>
    simp only [DB.step] at hx'
    rcases enqueue_cases db id q trid a b now with ⟨ho, hn, -⟩ | ⟨-, he⟩
    · rw [get?_enqueue ho] at hx'
      split at hx'
      · next he => subst he; rw [hx] at hn; simp at hn
      · exact h0 m' hx'
    · rw [he] at hx'; exact h0 m' hx'
  | dequeue q sel trid now =>
    simp only [DB.step] at hx'
    rw [get?_dequeue h] at hx'
    cases hsel : db.select q sel now with
    | none => rw [hsel] at hx'; exact h0 m' hx'
    | some m1 =>
      rw [hsel] at hx'
      simp only at hx'
      split at hx'
      · next he =>
        cases trid with
        | none => simp at hx'
        | some t =>
          simp at hx'
          subst hx'
          exact h0 m1 (by rw [he]; exact select_get? h hsel)
      · exact h0 m' hx'
  | commit t => exact hcm t db h h0 m' hx'
  | rollback t now => exact hrb t now db h h0 m' hx'
  | recoveryCommit ts =>
    simp only [DB.step] at hx'; rw [recoveryCommit_db] at hx'
    exact foldl_keeps (P := fun d => ∀ m', d.get? x = some m' → m'.body = m.body ∧ m'.timestamp = m.timestamp ∧ m'.origin = m.origin) (f := fun (db : DB) t => (db.commit t).1) (l := ts)
      (fun t _ d hd hP => hcm t d hd hP) (fun t d hd => hd.commit t) h h0 m' hx'
  | recoveryRollback ts now =>
    simp only [DB.step] at hx'; rw [recoveryRollback_db h] at hx'
    exact foldl_keeps (P := fun d => ∀ m', d.get? x = some m' → m'.body = m.body ∧ m'.timestamp = m.timestamp ∧ m'.origin = m.origin) (f := fun (db : DB) t => (db.rollback t now).1) (l := ts)
      (fun t _ d hd hP => hrb t now d hd hP) (fun t d hd => hd.rollback t now) h h0 m' hx'
  | restore q =>
    simp only [DB.step] at hx'; rw [get?_restore h, hx] at hx'
    simp only [Option.map_some, Option.some.injEq] at hx'
    subst hx'
    split <;> exact ⟨rfl, rfl, rfl⟩
  | clear q => simp only [DB.step] at hx'; rw [get?_clear h, Option.filter_eq_some_iff] at hx'; exact h0 m' hx'.1
  | remove q ids => simp only [DB.step] at hx'; rw [get?_remove h, Option.filter_eq_some_iff] at hx'; exact h0 m' hx'.1
  | forceRemove q ids => simp only [DB.step] at hx'; rw [get?_forceRemove h, Option.filter_eq_some_iff] at hx'; exact h0 m' hx'.1
  | metricReset qs => exact h0 m' hx'

theorem gone_stays {db : DB} (h : Inv db) {x : MsgId} (hx : db.get? x = none) (after : List Op) (hid : ∀ op ∈ after, ¬ op.enqueues x) :
    Invisible (db.run after) x :=
  invisible_of_absent (h.run after) (run_keeps (P := fun d => d.get? x = none) (fun op hop d hd hP => absent_step hd hP (hid op hop)) h hx)

/-- A message handed out outside a transaction is never handed out again (unless somebody enqueues a new message with the
same id). -/
theorem C16_handed_out_once (before after : List Op) (q : Qid) (sel : Selector) (now : Time) (m : Msg)
    (hd : ((DB.empty.run before).dequeue q sel none now).2 = some m) (hid : ∀ op ∈ after, ¬ op.enqueues m.id) :
    Invisible (DB.empty.run (before ++ .dequeue q sel none now :: after)) m.id := by
  rw [run_append, run_cons]
  have h0 := inv_run before
  generalize DB.empty.run before = db at h0 hd ⊢
  refine gone_stays (h0.step _) ?_ after hid
  rw [dequeue_out] at hd
  simp only [DB.step]; rw [get?_dequeue h0, hd]; simp

/-- A message handed out in a transaction is never handed out again, if the transaction commits. -/
theorem C16_handed_out_once_tx (before between after : List Op) (q : Qid) (sel : Selector) (t : Gtrid) (now : Time) (m : Msg)
    (hd : ((DB.empty.run before).dequeue q sel (some t) now).2 = some m) (hc : ∀ op ∈ between, ¬ op.completes t)
    (hid : ∀ op ∈ between ++ after, ¬ op.enqueues m.id) :
    Invisible (DB.empty.run (before ++ .dequeue q sel (some t) now :: between ++ .commit t :: after)) m.id := by
  rw [run_append, run_append, run_cons, run_cons]
  have h0 := inv_run before
  generalize DB.empty.run before = db at h0 hd ⊢
  rw [dequeue_out] at hd
  have hg : (db.step (.dequeue q sel (some t) now)).get? m.id = some { m with gtrid := some t, state := .dequeued } := by
    simp only [DB.step]; rw [get?_dequeue h0, hd]; simp
  have h1 := h0.step (.dequeue q sel (some t) now)
  generalize db.step (.dequeue q sel (some t) now) = db1 at h1 hg ⊢
  have key := run_keeps (P := fun d => d.get? m.id = some { m with gtrid := some t, state := .dequeued } ∨ d.get? m.id = none) (ops := between)
    (fun op hop d hd hP => by
      rcases hP with hP | hP
      · exact inTx_step' hd hP (by simp) rfl (hc op hop)
      · exact Or.inr (absent_step hd hP (hid op (by simp [hop])))) h1 (Or.inl hg)
  have h2 := h1.run between
  refine gone_stays (h2.step _) ?_ after (fun op hop => hid op (by simp [hop]))
  rw [step_commit, get?_commit h2]
  rcases key with hk | hk
  · rw [hk]; simp [commitMsg]
  · rw [hk]; rfl

example : ((DB.empty.run exOps).dequeue 2 .any (some 6) 200).2.map (·.id) = some 11 ∧
    ((DB.empty.run (exOps ++ [.dequeue 2 .any (some 6) 200, .commit 6])).dequeue 2 (.byId 11) none 300).2 = none := by
  decide +kernel

/-! ## C17 -/

theorem deliverable_any {db : DB} {q now m} : Deliverable db q .any now m ↔
    m ∈ db.msgs.filter (fun m => m.queue == q && m.state == .enqueued && decide (m.available < now)) := by
  simp only [List.mem_filter, Bool.and_eq_true, beq_iff_eq, decide_eq_true_eq]
  exact ⟨fun ⟨a, b, c, d⟩ => ⟨a, ⟨b, c⟩, d⟩, fun ⟨a, ⟨b, c⟩, d⟩ => ⟨a, b, c, d⟩⟩

theorem deliverable_prop {db : DB} {q now m p} : Deliverable db q (.byProperties p) now m ↔
    m ∈ db.msgs.filter (fun m => m.queue == q && m.state == .enqueued && m.body.properties == p && decide (m.available < now)) := by
  simp only [List.mem_filter, Bool.and_eq_true, beq_iff_eq, decide_eq_true_eq]
  exact ⟨fun ⟨a, b, c, d⟩ => ⟨a, ⟨⟨b, c⟩, d.1⟩, d.2⟩, fun ⟨a, ⟨⟨b, c⟩, d⟩, e⟩ => ⟨a, b, c, d, e⟩⟩

/-- Dequeue hands out a deliverable message, and no deliverable message was enqueued before it; among those enqueued at the
same instant, none has been available longer (if any message will do). -/
theorem C17_first_in_first_out (ops : List Op) (q : Qid) (sel : Selector) (trid : Option Gtrid) (now : Time) (m : Msg)
    (hd : ((DB.empty.run ops).dequeue q sel trid now).2 = some m) :
    Deliverable (DB.empty.run ops) q sel now m ∧
    (∀ m', Deliverable (DB.empty.run ops) q sel now m' → m.timestamp ≤ m'.timestamp ∧
      (sel = .any → m'.timestamp = m.timestamp → m.available ≤ m'.available)) := by
  have h := inv_run ops
  generalize DB.empty.run ops = db at h hd ⊢
  rw [dequeue_out] at hd
  cases sel with
  | any =>
    refine ⟨deliverable_any.mpr (firstBy_mem hd), ?_⟩
    intro m' hm'
    have := firstBy_min weak_before hd m' (deliverable_any.mp hm')
    simp only [Msg.before, Bool.or_eq_false_iff, decide_eq_false_iff_not, Bool.and_eq_false_iff, beq_eq_false_iff_ne, ne_eq] at this
    omega
  | byProperties p =>
    refine ⟨deliverable_prop.mpr (firstBy_mem hd), ?_⟩
    intro m' hm'
    have := firstBy_min weak_timestamp hd m' (deliverable_prop.mp hm')
    simp only [decide_eq_false_iff_not] at this
    exact ⟨by omega, by simp⟩
  | byId id =>
    have h1 := List.mem_of_find?_eq_some hd
    have h2 := List.find?_some hd
    simp only [Bool.and_eq_true, beq_iff_eq] at h2
    refine ⟨⟨h1, h2.1.2, h2.2, h2.1.1⟩, ?_⟩
    intro m' hm'
    have : m' = m := eq_of_nodup_map h.nodup hm'.stored h1 (by rw [hm'.fits, h2.1.1])
    subst this
    exact ⟨Int.le_refl _, by simp⟩

/-- "No message" is the answer if and only if there is nothing deliverable. -/
theorem C17_no_message_iff (ops : List Op) (q : Qid) (sel : Selector) (trid : Option Gtrid) (now : Time) :
    ((DB.empty.run ops).dequeue q sel trid now).2 = none ↔ ∀ m, ¬ Deliverable (DB.empty.run ops) q sel now m := by
  generalize DB.empty.run ops = db
  rw [dequeue_out]
  cases sel with
  | any =>
    unfold DB.select
    simp only [firstBy_none, List.eq_nil_iff_forall_not_mem]
    exact forall_congr' fun m => not_congr deliverable_any.symm
  | byProperties p =>
    unfold DB.select
    simp only [firstBy_none, List.eq_nil_iff_forall_not_mem]
    exact forall_congr' fun m => not_congr deliverable_prop.symm
  | byId id =>
    unfold DB.select
    simp only [List.find?_eq_none]
    constructor
    · intro h m hm
      exact h m hm.stored (by simp [hm.queue, hm.committed, hm.fits])
    · intro h m hm hp
      simp only [Bool.and_eq_true, beq_iff_eq] at hp
      exact h m ⟨hm, hp.1.2, hp.2, hp.1.1⟩

/-- Browse (`peek` the next message after a point in time) shows the first deliverable message enqueued later than that
point. -/
theorem C17_browse_next (ops : List Op) (q : Qid) (last now : Time) (m : Msg)
    (hb : (DB.empty.run ops).browse q last now = some m) :
    Deliverable (DB.empty.run ops) q .any now m ∧ last < m.timestamp ∧
    ∀ m', Deliverable (DB.empty.run ops) q .any now m' → last < m'.timestamp → m.timestamp ≤ m'.timestamp := by
  generalize DB.empty.run ops = db at hb ⊢
  have hmem : ∀ m, m ∈ db.msgs.filter (fun m => m.queue == q && m.state == .enqueued && decide (last < m.timestamp) && decide (m.available < now)) ↔
      Deliverable db q .any now m ∧ last < m.timestamp := by
    intro m
    simp only [List.mem_filter, Bool.and_eq_true, beq_iff_eq, decide_eq_true_eq]
    exact ⟨fun ⟨a, ⟨⟨b, c⟩, d⟩, e⟩ => ⟨⟨a, b, c, e⟩, d⟩, fun ⟨⟨a, b, c, e⟩, d⟩ => ⟨a, ⟨⟨b, c⟩, d⟩, e⟩⟩
  obtain ⟨h1, h2⟩ := (hmem m).mp (firstBy_mem hb)
  refine ⟨h1, h2, ?_⟩
  intro m' h3 h4
  have := firstBy_min weak_before hb m' ((hmem m').mpr ⟨h3, h4⟩)
  simp only [Msg.before, Bool.or_eq_false_iff, decide_eq_false_iff_not, Bool.and_eq_false_iff, beq_eq_false_iff_ne, ne_eq] at this
  omega

example : ((DB.empty.run (exOps ++ [.commit 5, .enqueue 12 2 none 500 (exBody 1) 50])).dequeue 2 .any none 200).2.map (·.id) = some 10 ∧
    ((DB.empty.run (exOps ++ [.commit 5, .enqueue 12 2 none 500 (exBody 1) 50])).dequeue 2 (.byId 12) none 200).2.map (·.id) = some 12 ∧
    ((DB.empty.run (exOps ++ [.commit 5])).dequeue 1 .any none 200).2 = none := by decide +kernel

/-! ## C18 -/

/-- Where a message goes that is dequeued in a transaction that is rolled back: to the same queue, until it has been
redelivered `retryCount` times; then to the error queue of that queue - the queue named after it - with its count reset; a
message on an error queue stays there. -/
theorem C18_error_queue (before after : List Op) (q : Qid) (sel : Selector) (t : Gtrid) (now now' : Time) (m : Msg)
    (hd : ((DB.empty.run before).dequeue q sel (some t) now).2 = some m)
    (hc : ∀ op ∈ after, ¬ op.completes t) (hf : ∀ op ∈ after, ¬ op.forces m.id) :
    let db := DB.empty.run (before ++ .dequeue q sel (some t) now :: after)
    ∃ m' row, (db.rollback t now').1.get? m.id = some m' ∧ row ∈ db.queues ∧ row.id = m.queue ∧
      -- the queue has no error queue (it is one)
      ((row.error = 0 ∧ m'.queue = m.queue ∧ m'.redelivered = m.redelivered + 1) ∨
      -- retried
       (m.redelivered + 1 ≤ row.retryCount ∧ m'.queue = m.queue ∧ m'.redelivered = m.redelivered + 1) ∨
      -- moved
       (row.retryCount < m.redelivered + 1 ∧ m'.redelivered = 0 ∧
        ∃ err ∈ db.queues, err.id = m'.queue ∧ err.name = errorName row.name ∧ err.error = 0)) := by
  intro db
  obtain ⟨m', h1, h2, h3, h4, h5, h6, r, hr, he, h7⟩ := C15_dequeued_is_back before after q sel t now now' m hd hc hf
  refine ⟨m', r, h1, hr, he, ?_⟩
  have hi : Inv db := inv_run _
  split at h7
  · next hcond =>
    right; right
    refine ⟨hcond.2, h7.2.1, ?_⟩
    have heven : r.id % 2 = 0 := by
      rcases Nat.mod_two_eq_zero_or_one r.id with h0 | h0
      · exact h0
      · exact absurd (hi.paired.odd r hr h0).1 hcond.1
    obtain ⟨e, he1, he2, he3⟩ := named_run _ r hr heven
    have := hi.paired.even r hr heven
    exact ⟨e, he1, by rw [he2, h7.1], he3, (hi.paired.odd e he1 (by omega)).1⟩
  · next hcond =>
    by_cases h0 : r.error = 0
    · left; exact ⟨h0, h7.1, h7.2.1⟩
    · right; left; exact ⟨by omega, h7.1, h7.2.1⟩

/-- Each queue that can be configured has exactly one error queue, the one named after it; and no other queue has it as
its error queue. -/
theorem C18_error_queue_is_own (ops : List Op) :
    let db := DB.empty.run ops
    (∀ r ∈ db.queues, r.error ≠ 0 → ∃ e ∈ db.queues, e.id = r.error ∧ e.name = errorName r.name ∧ e.error = 0) ∧
    (∀ r ∈ db.queues, ∀ r' ∈ db.queues, r.error ≠ 0 → r.error = r'.error → r = r') := by
  intro db
  have hi : Inv db := inv_run ops
  have heven : ∀ r ∈ db.queues, r.error ≠ 0 → r.id % 2 = 0 := by
    intro r hr hne
    rcases Nat.mod_two_eq_zero_or_one r.id with h0 | h0
    · exact h0
    · exact absurd (hi.paired.odd r hr h0).1 hne
  refine ⟨?_, ?_⟩
  · intro r hr hne
    obtain ⟨e, he1, he2, he3⟩ := named_run ops r hr (heven r hr hne)
    have := hi.paired.even r hr (heven r hr hne)
    have hev := heven r hr hne
    exact ⟨e, he1, he2, he3, (hi.paired.odd e he1 (by omega)).1⟩
  · intro r hr r' hr' hne heq
    have h1 := hi.paired.even r hr (heven r hr hne)
    have h2 := hi.paired.even r' hr' (heven r' hr' (by rw [← heq]; exact hne))
    exact eq_of_nodup_map hi.paired.nodup hr hr' (by show r.id = r'.id; omega)

example : (DB.empty.run (exOps ++ [.dequeue 2 .any (some 6) 200, .rollback 6 300, .dequeue 2 .any (some 7) 400, .rollback 7 500])).msgs.map
      (fun m => (m.id, m.redelivered, m.queue)) = [(10, 0, 2), (11, 0, 1)] ∧
    (DB.empty.run exOps).queues.map (fun r => (r.id, r.error, r.retryCount)) = [(1, 0, 0), (2, 1, 1)] := by decide +kernel

/-! ## C19 -/

theorem sumOf_counted (q : Qid) (ms : List Msg) :
    sumOf (counted q) ms = (((ms.filter fun m => m.queue == q).filter fun m => m.state != .added).length : Int) ∧
    sumOf (sized q) ms = totalSize ((ms.filter fun m => m.queue == q).filter fun m => m.state != .added) ∧
    sumOf (pendingOf q) ms = (((ms.filter fun m => m.queue == q).filter fun m => m.state == .added).length : Int) := by
  induction ms with
  | nil => exact ⟨rfl, rfl, rfl⟩
  | cons m ms ih =>
    obtain ⟨h1, h2, h3⟩ := ih
    rw [sumOf_cons, sumOf_cons, sumOf_cons, h1, h2, h3]
    by_cases hq : m.queue = q
    · by_cases hs : m.state = .added
      · simp [counted, sized, pendingOf, hq, hs, totalSize]; omega
      · simp [counted, sized, pendingOf, hq, hs, totalSize]; omega
    · simp [counted, sized, pendingOf, hq, totalSize]

/-- The number of messages, their total size and the number of uncommitted messages reported for a queue are what the list
of its messages gives. -/
theorem C19_counters_exact (ops : List Op) (r : QRow) (hr : r ∈ (DB.empty.run ops).queues) :
    let stored := (DB.empty.run ops).meta r.id
    r.count = ((stored.filter fun m => m.state != .added).length : Int) ∧
    r.size = ((stored.filter fun m => m.state != .added).map fun m => (m.body.payload.length : Int)).sum ∧
    r.uncommitted = ((stored.filter fun m => m.state == .added).length : Int) := by
  have h := (inv_run ops).exact_ r hr
  obtain ⟨h1, h2, h3⟩ := sumOf_counted r.id (DB.empty.run ops).msgs
  exact ⟨h.1.trans h1, h.2.1.trans h2, h.2.2.trans h3⟩

example : (DB.empty.run exOps).queues.map (fun r => (r.id, r.count, r.size, r.uncommitted)) = [(1, 0, 0, 0), (2, 1, 4, 1)] := by
  decide +kernel

/-! ## C23 -/

/-- A message a transaction has dequeued stays as it is and out of reach for everybody, until the transaction is completed
(or it is removed by force). -/
theorem C23_taken_is_protected (before after : List Op) (q : Qid) (sel : Selector) (t : Gtrid) (now : Time) (m : Msg)
    (hd : ((DB.empty.run before).dequeue q sel (some t) now).2 = some m)
    (hc : ∀ op ∈ after, ¬ op.completes t) (hf : ∀ op ∈ after, ¬ op.forces m.id) :
    let db := DB.empty.run (before ++ .dequeue q sel (some t) now :: after)
    db.get? m.id = some { m with gtrid := some t, state := .dequeued } ∧ Invisible db m.id := by
  intro db
  have hdb : db = ((DB.empty.run before).step (.dequeue q sel (some t) now)).run after := by
    show DB.empty.run _ = _
    rw [run_append, run_cons]
  have h0 := inv_run before
  rw [hdb]
  clear hdb db
  generalize DB.empty.run before = db at h0 hd ⊢
  rw [dequeue_out] at hd
  have hg : (db.step (.dequeue q sel (some t) now)).get? m.id = some { m with gtrid := some t, state := .dequeued } := by
    simp only [DB.step]; rw [get?_dequeue h0, hd]; simp
  have h1 := h0.step (.dequeue q sel (some t) now)
  generalize db.step (.dequeue q sel (some t) now) = db1 at h1 hg ⊢
  have key := run_keeps (P := fun d => d.get? m.id = some { m with gtrid := some t, state := .dequeued }) (ops := after)
    (fun op hop d hd hP => inTx_step hd hP (by simp) rfl (hc op hop) (hf op hop)) h1 hg
  exact ⟨key, invisible_of_state (h1.run after) key (by simp)⟩

example : ((DB.empty.run (exOps ++ [.dequeue 2 .any (some 6) 200, .clear 2, .remove 2 [11], .restore 2, .commit 9])).msgs.map (·.id)) = [10, 11] ∧
    ((DB.empty.run exOps).dequeue 2 .any (some 6) 200).2.map (·.id) = some 11 := by decide +kernel

/-! ## C24 -/

/-- After the completion of a transaction (that was not completed before), any number of further commits and rollbacks of it
change nothing and succeed, provided that in the meantime nobody works in the transaction and no queue is reconfigured or
restored. See `C24_refuted` for what happens otherwise. -/
theorem C24_idempotent_partial (before after : List Op) (op : Op) (t : Gtrid) (now : Time)
    (hb : ∀ o ∈ before, ¬ o.completes t) (hop : op = .commit t ∨ ∃ n, op = .rollback t n)
    (ha : ∀ o ∈ after, ¬ o.worksIn t ∧ ¬ o.reorganizes) :
    let db := DB.empty.run (before ++ op :: after)
    db.commit t = (db, 0) ∧ db.rollback t now = (db, .ok 0) := by
  intro db
  have hdb : db = ((DB.empty.run before).step op).run after := by
    show DB.empty.run _ = _
    rw [run_append, run_cons]
  have h0 := inv_run before
  have ho := open_run hb
  rw [hdb]
  clear hdb db
  generalize DB.empty.run before = db at h0 ho ⊢
  have h1 : Inert (db.step op) t := by
    rcases hop with rfl | ⟨n, rfl⟩
    · exact commit_inert h0 ho
    · exact rollback_inert h0 t n
  have h2 := h0.step op
  have key := run_keeps (P := fun d => Inert d t) (ops := after) (fun o hop d hd hP => inert_step hd hP (ha o hop).1 (ha o hop).2) h2 h1
  exact ⟨inert_commit key, inert_rollback (h2.run after) key⟩

/-- The unrestricted statement is false: if the retry count of the queue is lowered between two rollbacks of the same
transaction, the second rollback moves the message, which nobody has dequeued again, to the error queue. -/
theorem C24_refuted : ¬ ∀ (before after : List Op) (t : Gtrid) (now : Time),
    (∀ o ∈ before, ¬ o.completes t) → (∀ o ∈ after, ¬ o.worksIn t) →
    let db := DB.empty.run (before ++ .rollback t now :: after)
    (db.rollback t now).1 = db := by
  intro h
  have := h [exConf, .enqueue 11 2 none 0 (exBody 4) 101, .dequeue 2 .any (some 5) 200]
    [.configure [{ name := ['a'], retryCount := 0, retryDelay := 0 }]] 5 300
    (by simp [Op.completes, Op.commits, Op.rollsBack, exConf]) (by simp [Op.worksIn])
  revert this
  decide +kernel

example : (DB.empty.run [exConf, .enqueue 11 2 none 0 (exBody 4) 101, .dequeue 2 .any (some 5) 200, .rollback 5 300]).msgs.map
    (fun m => (m.id, m.redelivered, m.queue, m.state)) = [(11, 1, 2, .enqueued)] := by decide +kernel

/-! ## C45 -/

/-- The browse loop of the API, `queue::browse::peek`, `middleware/queue/source/api/queue.cpp:553-586`: `shown` is what the
callback gets if it never asks to stop; `last` is the timestamp of the message shown most recently (the epoch at first).
The queue does not change in the meantime. -/
inductive Browses (db : DB) (q : Qid) (now : Time) : Time → List Msg → Prop
  | done {last} : db.browse q last now = none → Browses db q now last []
  | next {last m shown} : db.browse q last now = some m → Browses db q now m.timestamp shown → Browses db q now last (m :: shown)

theorem browse_iff {db : DB} {q last now} (m : Msg) :
    m ∈ db.msgs.filter (fun m => m.queue == q && m.state == .enqueued && decide (last < m.timestamp) && decide (m.available < now)) ↔
      Deliverable db q .any now m ∧ last < m.timestamp := by
  simp only [List.mem_filter, Bool.and_eq_true, beq_iff_eq, decide_eq_true_eq]
  exact ⟨fun ⟨a, ⟨⟨b, c⟩, d⟩, e⟩ => ⟨⟨a, b, c, e⟩, d⟩, fun ⟨⟨a, b, c, e⟩, d⟩ => ⟨a, ⟨⟨b, c⟩, d⟩, e⟩⟩

/-- The loop ends, whatever the queue contains. -/
theorem C45_browse_terminates (db : DB) (q : Qid) (now last : Time) : ∃ shown, Browses db q now last shown := by
  generalize hn : (db.msgs.filter (fun m => m.queue == q && m.state == .enqueued && decide (last < m.timestamp) && decide (m.available < now))).length = n
  induction n using Nat.strongRecOn generalizing last with
  | ind n ih =>
    cases hb : db.browse q last now with
    | none => exact ⟨[], .done hb⟩
    | some m =>
      have hm := firstBy_mem hb
      obtain ⟨hd, hlt⟩ := (browse_iff m).mp hm
      have hless : (db.msgs.filter (fun x => x.queue == q && x.state == .enqueued && decide (m.timestamp < x.timestamp) && decide (x.available < now))).length < n := by
        rw [← hn]
        have : db.msgs.filter (fun x => x.queue == q && x.state == .enqueued && decide (m.timestamp < x.timestamp) && decide (x.available < now)) =
            (db.msgs.filter (fun x => x.queue == q && x.state == .enqueued && decide (last < x.timestamp) && decide (x.available < now))).filter (fun x => decide (m.timestamp < x.timestamp)) := by
          rw [List.filter_filter]
          apply List.filter_congr
          intro x _
          rw [Bool.eq_iff_iff]
          simp only [Bool.and_eq_true, beq_iff_eq, decide_eq_true_eq]
          constructor
          · rintro ⟨⟨h1, h2⟩, h3⟩; exact ⟨h2, ⟨h1, by omega⟩, h3⟩
          · rintro ⟨h2, ⟨h1, -⟩, h3⟩; exact ⟨⟨h1, h2⟩, h3⟩
        rw [this]
        rw [List.length_filter_lt_length_iff_exists]
        exact ⟨m, hm, by simp⟩
      obtain ⟨shown, hs⟩ := ih _ hless m.timestamp rfl
      exact ⟨m :: shown, .next hb hs⟩

/-- What is shown is visible, in the order of the enqueue times, and nothing is shown twice. -/
theorem C45_browse_sound {db : DB} {q : Qid} {now last : Time} {shown : List Msg} (h : Browses db q now last shown) :
    (∀ m ∈ shown, Deliverable db q .any now m ∧ last < m.timestamp) ∧ shown.Pairwise (fun a b => a.timestamp < b.timestamp) := by
  induction h with
  | done => simp
  | next hb _ ih =>
    obtain ⟨hd, hlt⟩ := (browse_iff _).mp (firstBy_mem hb)
    refine ⟨?_, ?_⟩
    · intro x hx
      rcases List.mem_cons.mp hx with rfl | hx
      · exact ⟨hd, hlt⟩
      · exact ⟨(ih.1 x hx).1, by have := (ih.1 x hx).2; omega⟩
    · rw [List.pairwise_cons]
      exact ⟨fun x hx => (ih.1 x hx).2, ih.2⟩

/-- Every message that can be dequeued is shown, provided that no two of them were enqueued at the same instant. -/
theorem C45_browse_complete_partial {db : DB} {q : Qid} {now last : Time} {shown : List Msg} (h : Browses db q now last shown)
    (hdist : ∀ a b, Deliverable db q .any now a → Deliverable db q .any now b → a.timestamp = b.timestamp → a = b) :
    ∀ m, Deliverable db q .any now m → last < m.timestamp → m ∈ shown := by
  induction h with
  | done hb =>
    intro m hm hlt
    have : db.browse _ _ now = none := hb
    unfold DB.browse at this
    rw [firstBy_none, List.eq_nil_iff_forall_not_mem] at this
    exact absurd ((browse_iff m).mpr ⟨hm, hlt⟩) (this m)
  | @next last m0 shown hb _ ih =>
    intro m hm hlt
    have hmin := firstBy_min weak_before hb m ((browse_iff m).mpr ⟨hm, hlt⟩)
    obtain ⟨hd, -⟩ := (browse_iff _).mp (firstBy_mem hb)
    simp only [Msg.before, Bool.or_eq_false_iff, decide_eq_false_iff_not, Bool.and_eq_false_iff, beq_eq_false_iff_ne, ne_eq] at hmin
    by_cases he : m.timestamp = m0.timestamp
    · rw [hdist m m0 hm hd he]; simp
    · exact List.mem_cons_of_mem _ (ih m hm (by omega))

/-- Two messages enqueued in the same microsecond: browsing shows only one of them. -/
theorem C45_refuted : ¬ ∀ (ops : List Op) (q : Qid) (now : Time) (shown : List Msg), Browses (DB.empty.run ops) q now 0 shown →
    ∀ m, Deliverable (DB.empty.run ops) q .any now m → 0 < m.timestamp → m ∈ shown := by
  intro h
  have hb : ∃ m, (DB.empty.run [exConf, .enqueue 10 2 none 0 (exBody 1) 100, .enqueue 11 2 none 0 (exBody 1) 100]).browse 2 0 200 = some m ∧ m.id = 10 ∧ m.timestamp = 100 :=
    ⟨_, rfl, rfl, rfl⟩
  obtain ⟨m, h1, h2, h3⟩ := hb
  have hm := h [exConf, .enqueue 10 2 none 0 (exBody 1) 100, .enqueue 11 2 none 0 (exBody 1) 100] 2 200 [m]
    (.next h1 (by rw [h3]; exact .done (by decide +kernel)))
    { id := 11, queue := 2, origin := 2, gtrid := none, state := .enqueued, redelivered := 0, available := 0, timestamp := 100, body := exBody 1 }
    ⟨by decide +kernel, rfl, rfl, by decide⟩ (by decide)
  simp only [List.mem_singleton] at hm
  rw [← hm] at h2
  simp at h2

example : ∃ a b, Browses (DB.empty.run (exOps ++ [.commit 5])) 2 200 0 [a, b] ∧ a.id = 10 ∧ b.id = 11 :=
  ⟨{ id := 10, queue := 2, origin := 2, gtrid := some 5, state := .enqueued, redelivered := 0, available := 0, timestamp := 100, body := exBody 3 },
   { id := 11, queue := 2, origin := 2, gtrid := none, state := .enqueued, redelivered := 0, available := 0, timestamp := 101, body := exBody 4 },
   .next (by decide +kernel) (.next (by decide +kernel) (.done (by decide +kernel))), rfl, rfl⟩

end Casual.Queue

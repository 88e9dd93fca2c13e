import Verif.Queue.GroupWake

/-! When a reconfiguration succeeds, and which queues there are afterwards. -/
namespace Casual.Queue

theorem forEach_all {α : Type} {f : DB → α → DB × Except Err Unit} {P : DB → Prop} (l : List α)
    (hf : ∀ a ∈ l, ∀ d, P d → (f d a).2 = .ok () ∧ P (f d a).1) {db : DB} (h : P db) : (forEach f db l).2 = .ok () ∧ P (forEach f db l).1 := by
  induction l generalizing db with
  | nil => exact ⟨rfl, h⟩
  | cons a l ih =>
    unfold forEach
    have h1 := hf a (by simp) db h
    generalize f db a = x at h1 ⊢
    obtain ⟨d, e⟩ := x
    obtain ⟨h2, h3⟩ := h1
    dsimp only at h2 h3
    subst h2
    exact ih (fun b hb => hf b (by simp [hb])) h3

theorem forEach_append_ok {α : Type} {f : DB → α → DB × Except Err Unit} (l l' : List α) (d : DB) (hd : (forEach f d l).2 = .ok ()) :
    forEach f d (l ++ l') = forEach f (forEach f d l).1 l' := by
  induction l generalizing d with
  | nil => rfl
  | cons a l ih =>
    rw [List.cons_append]
    simp only [forEach] at hd ⊢
    generalize f d a = x at hd ⊢
    obtain ⟨d', e⟩ := x
    cases e with
    | error e => simp at hd
    | ok u => exact ih d' hd

/-- The wanted configuration makes sense: no name twice, and no queue with the name of the error queue of another. -/
structure Sensible (conf : List Conf) : Prop where
  nodup : (conf.map (·.name)).Nodup
  noError : ∀ c ∈ conf, ∀ c' ∈ conf, c.name ≠ errorName c'.name

theorem errorName_inj {a b : Name} (h : errorName a = errorName b) : a = b := by
  unfold errorName at h
  exact List.append_cancel_right h

theorem errorName_ne (a : Name) : a ≠ errorName a := by
  intro h
  have := congrArg List.length h
  simp [errorName] at this

theorem removeQueue_ok {db : DB} (h : Inv db) {q : Qid} (hq : q % 2 = 0) (hm : ∀ m ∈ db.msgs, m.queue ≠ q - 1 ∧ m.queue ≠ q) : (db.removeQueue q).2 = .ok () := by
  unfold DB.removeQueue
  cases hf : db.queue? q with
  | none => rfl
  | some ex =>
    have hmem : ex ∈ db.queues := List.mem_of_find?_eq_some hf
    have hid : ex.id = q := by simpa using List.find?_some hf
    obtain ⟨he, hp, -⟩ := h.paired.even ex hmem (by omega)
    rw [hid] at he
    dsimp only
    unfold DB.deleteQueueRow
    have h1 : ¬ db.msgs.any (fun m => m.queue == ex.error) = true := by
      simp only [List.any_eq_true, not_exists, not_and, beq_iff_eq]
      intro m hx; rw [he]; exact (hm m hx).1
    have h2 : ¬ db.msgs.any (fun m => m.queue == ex.id) = true := by
      simp only [List.any_eq_true, not_exists, not_and, beq_iff_eq]
      intro m hx; rw [hid]; exact (hm m hx).2
    simp only [h1, h2, if_false, Bool.false_eq_true]

theorem names_of_keys (qs : List QRow) : qs.map (·.name) = (keys qs).map (·.2.1) := by unfold keys; rw [List.map_map]; rfl

theorem updateQueueRow_ok {db : DB} (hu : Unique db.queues) {q : Qid} {n : Name} {c d : Nat} (ha : ∀ r ∈ db.queues, r.id = q → r.name = n) :
    (db.updateQueueRow q n c d).2 = .ok () := by
  unfold DB.updateQueueRow
  rw [if_neg]
  simp only [Bool.and_eq_true, List.any_eq_true, beq_iff_eq, bne_iff_ne, ne_eq, not_and, forall_exists_index, and_imp, not_exists, Classical.not_not]
  intro r hr hid r' hr' hn
  have h1 := ha r hr hid
  have : r' = r := eq_of_nodup_map hu hr' hr (by rw [hn, h1])
  rw [this]; exact hid

theorem updateQueue_ok {db : DB} (h : Inv db) (hn : Named db.queues) (hu : Unique db.queues) {w : Wanted} (ha : Agrees db.queues w) :
    (db.updateQueue w.id w.name w.retryCount w.retryDelay).2 = .ok () := by
  unfold DB.updateQueue
  cases hf : db.queue? w.id with
  | none => rfl
  | some ex =>
    have hmem : ex ∈ db.queues := List.mem_of_find?_eq_some hf
    have hid : ex.id = w.id := by simpa using List.find?_some hf
    dsimp only
    have h1 := updateQueueRow_ok hu (q := w.id) (n := w.name) (c := w.retryCount) (d := w.retryDelay) ha
    have hk := keys_updateQueueRow (db := db) (q := w.id) (n := w.name) (c := w.retryCount) (d := w.retryDelay) ha
    generalize db.updateQueueRow w.id w.name w.retryCount w.retryDelay = x at h1 hk ⊢
    obtain ⟨d, e⟩ := x
    dsimp only at h1 hk
    subst h1
    dsimp only
    apply updateQueueRow_ok (unique_congr hk hu)
    intro r hr he
    have hrk : r.key ∈ keys db.queues := by rw [← hk]; exact List.mem_map_of_mem hr
    obtain ⟨r0, hr0, hk0⟩ := List.mem_map.mp hrk
    simp only [QRow.key, Prod.mk.injEq] at hk0
    rcases Nat.mod_two_eq_zero_or_one ex.id with h0 | h0
    · obtain ⟨e, he1, he2, he3⟩ := hn ex hmem h0
      have := h.paired.even ex hmem h0
      have h5 : r0 = e := eq_of_nodup_map h.paired.nodup hr0 he1 (by show r0.id = e.id; omega)
      rw [← hk0.2.1, h5, he3, ha ex hmem hid]
    · have := (h.paired.odd ex hmem h0).1
      have := id_pos h hr0
      omega

theorem createWanted_ok {db : DB} {w : Wanted} (h1 : ∀ r ∈ db.queues, r.name ≠ w.name) (h2 : ∀ r ∈ db.queues, r.name ≠ errorName w.name) :
    (db.createWanted w).2 = .ok () := by
  unfold DB.createWanted DB.create DB.insertQueue
  have ha : ¬ db.queues.any (fun r => r.name == errorName w.name) = true := by
    simp only [List.any_eq_true, not_exists, not_and, beq_iff_eq]; exact h2
  rw [if_neg ha]
  dsimp only
  rw [if_neg]
  simp only [List.any_eq_true, not_exists, not_and, beq_iff_eq, List.mem_append, List.mem_singleton]
  rintro r (hr | rfl)
  · exact h1 r hr
  · exact fun he => errorName_ne _ he.symm

theorem creates_ok (l : List Wanted) (hnd : (l.map (·.name)).Nodup) (hne : ∀ w ∈ l, ∀ w' ∈ l, w.name ≠ errorName w'.name) {db : DB}
    (h1 : ∀ w ∈ l, ∀ r ∈ db.queues, r.name ≠ w.name ∧ r.name ≠ errorName w.name) : (forEach DB.createWanted db l).2 = .ok () := by
  induction l generalizing db with
  | nil => rfl
  | cons w l ih =>
    unfold forEach
    have hok := createWanted_ok (fun r hr => (h1 w (by simp) r hr).1) (fun r hr => (h1 w (by simp) r hr).2)
    have hrows := create_rows hok
    generalize db.createWanted w = x at hok hrows ⊢
    obtain ⟨d, e⟩ := x
    dsimp only at hok hrows
    subst hok
    obtain ⟨e, r, hq, hen, hrn, -⟩ := hrows
    dsimp only
    rw [List.map_cons, List.nodup_cons] at hnd
    apply ih hnd.2 (fun a ha b hb => hne a (by simp [ha]) b (by simp [hb]))
    intro w' hw' x hx
    rw [hq] at hx
    rcases List.mem_append.mp hx with hx | hx
    · exact h1 w' (by simp [hw']) x hx
    · have hdiff : w'.name ≠ w.name := fun he => hnd.1 (by rw [← he]; exact List.mem_map_of_mem hw')
      simp only [List.mem_cons, List.not_mem_nil, or_false] at hx
      rcases hx with rfl | rfl
      · rw [hen]
        exact ⟨fun he => hne w' (by simp [hw']) w (by simp) he.symm, fun he => hdiff (errorName_inj he).symm⟩
      · rw [hrn]
        exact ⟨fun he => hdiff he.symm, hne w (by simp) w' (by simp [hw'])⟩

/-- A reconfiguration succeeds, unless there is a stored message in a queue that is to be removed, or a clash of names. -/
theorem configure_ok {db : DB} (h : Inv db) (hn : Named db.queues) (hu : Unique db.queues) (conf : List Conf) (hs : Sensible conf)
    (hclash : ∀ c ∈ conf, db.qid? c.name = none → ∀ r ∈ db.queues, r.name ≠ errorName c.name)
    (hmsgs : ∀ p ∈ db.removedPairs conf, ∀ m ∈ db.msgs, m.queue ≠ p.1.id ∧ m.queue ≠ p.2.id) : (db.configure conf).2 = true := by
  unfold DB.configure
  simp only [DB.plan]
  have hcorr : ∀ c, (correlate db.queues c).id = 0 → db.qid? c.name = none := by
    intro c hz
    unfold DB.qid?
    unfold correlate at hz
    cases hf : db.queues.find? (fun r => r.name == c.name) with
    | none => rfl
    | some x => simp only [hf] at hz; exact absurd hz (id_pos h (List.mem_of_find?_eq_some hf))
  suffices hupd : (db.updateQueues (conf.map (correlate db.queues)) (pairIds (db.removedPairs conf))).2 = .ok () by
    unfold DB.removedPairs at hupd
    generalize db.updateQueues _ _ = x at hupd ⊢
    obtain ⟨d, e⟩ := x
    dsimp only at hupd
    subst hupd
    rfl
  unfold DB.updateQueues
  -- removal
  have hsp : ∀ p ∈ db.removedPairs conf, p.1.id % 2 = 0 ∧ p.2.id = p.1.id - 1 := by
    intro p hp
    have := joined_spec h (List.mem_filter.mp hp).1
    exact ⟨this.1, this.2.1⟩
  have hrem : (forEach DB.removeQueue db (pairIds (db.removedPairs conf))).2 = .ok () ∧
      Inv (forEach DB.removeQueue db (pairIds (db.removedPairs conf))).1 ∧ Named (forEach DB.removeQueue db (pairIds (db.removedPairs conf))).1.queues ∧
      ∀ r ∈ (forEach DB.removeQueue db (pairIds (db.removedPairs conf))).1.queues, r ∈ db.queues := by
    unfold pairIds
    generalize db.removedPairs conf = ps at hsp hmsgs
    have hev : ∀ q ∈ ps.map (fun p => p.1.id), q % 2 = 0 := by
      intro q hq
      obtain ⟨p, hp, rfl⟩ := List.mem_map.mp hq
      exact (hsp p hp).1
    have h1 := forEach_all (P := fun d => Inv d ∧ Named d.queues ∧ d.msgs = db.msgs) (f := DB.removeQueue) (ps.map fun p => p.1.id) (fun q hq d hd => by
      obtain ⟨p, hp, rfl⟩ := List.mem_map.mp hq
      have hok : (d.removeQueue p.1.id).2 = .ok () := removeQueue_ok hd.1 (hsp p hp).1 (by
        intro m hm
        rw [hd.2.2] at hm
        have := hmsgs p hp m hm
        rw [(hsp p hp).2] at this
        exact ⟨this.2, this.1⟩)
      exact ⟨hok, (hd.1.removeQueue _ (hsp p hp).1 hok).1, named_remove hd.1 hd.2.1 _ (hsp p hp).1 hok, (removeQueue_msgs d _).trans hd.2.2⟩)
      (db := db) ⟨h, hn, rfl⟩
    obtain ⟨hok1, hP⟩ := h1
    obtain ⟨-, hr⟩ := removeQueues h hev hok1
    have hsub : ∀ r ∈ (forEach DB.removeQueue db (ps.map fun p => p.1.id)).1.queues, r ∈ db.queues := by
      rw [removeQueues_eq h hev hok1]; exact fun r hr => (List.mem_filter.mp hr).1
    have habs := forEach_absent (db := (forEach DB.removeQueue db (ps.map (fun p => p.1.id))).1) (l := ps.map (fun p => p.2.id)) (by
      intro q hq r hr'
      obtain ⟨p, hp, rfl⟩ := List.mem_map.mp hq
      rw [(hsp p hp).2]
      exact (hr r hr').2 _ (List.mem_map_of_mem (f := fun p => p.1.id) hp))
    have happ : forEach DB.removeQueue db (ps.map (fun p => p.1.id) ++ ps.map (fun p => p.2.id)) = ((forEach DB.removeQueue db (ps.map (fun p => p.1.id))).1, .ok ()) := by
      rw [forEach_append_ok _ _ _ hok1, habs]
    rw [happ]
    exact ⟨rfl, hP.1, hP.2.1, hsub⟩
  generalize forEach DB.removeQueue db (pairIds (db.removedPairs conf)) = x at hrem ⊢
  obtain ⟨db1, e1⟩ := x
  obtain ⟨he, hi1, hn1, hsub⟩ := hrem
  dsimp only at he hi1 hn1 hsub
  subst he
  dsimp only
  -- update
  have hu1 : Unique db1.queues := by
    unfold Unique
    have hnd := hi1.paired.nodup
    apply List.Pairwise.imp_of_mem (R := fun a b : Name => a ≠ b) (fun _ _ h => h)
    rw [List.pairwise_map]
    have : db1.queues.Pairwise fun a b => a.id ≠ b.id := by rw [← List.pairwise_map]; exact hnd
    refine this.imp_of_mem ?_
    intro a b ha hb hab heq
    exact hab (congrArg QRow.id (eq_of_nodup_map hu (hsub a ha) (hsub b hb) heq))
  have hup := forEach_all (P := fun d => Inv d ∧ Named d.queues ∧ keys d.queues = keys db1.queues)
    (f := fun db (w : Wanted) => db.updateQueue w.id w.name w.retryCount w.retryDelay)
    ((conf.map (correlate db.queues)).filter fun w => w.id != 0) (fun w hw d hd => by
      obtain ⟨c, hc, rfl, hne⟩ := mem_wanted hw
      have ha : Agrees d.queues (correlate db.queues c) := agrees_congr hd.2.2 (by
        intro r hr he
        obtain ⟨r0, hr0, hid, hnm, -⟩ := correlate_id h c hne
        have : r = r0 := eq_of_nodup_map h.paired.nodup (hsub r hr) hr0 (he.trans hid.symm)
        rw [this, hnm, (correlate_fields db.queues c).1])
      have hk := keys_updateQueue hd.1 hd.2.1 ha (c := (correlate db.queues c).retryCount) (d := (correlate db.queues c).retryDelay)
      exact ⟨updateQueue_ok hd.1 hd.2.1 (unique_congr hd.2.2 hu1) ha, hd.1.updateQueue _ _ _ _, named_congr hk hd.2.1, hk.trans hd.2.2⟩) ⟨hi1, hn1, rfl⟩
  generalize forEach (fun db (w : Wanted) => db.updateQueue w.id w.name w.retryCount w.retryDelay) db1 ((conf.map (correlate db.queues)).filter fun w => w.id != 0) = x at hup ⊢
  obtain ⟨db2, e2⟩ := x
  obtain ⟨he, -, -, hk2⟩ := hup
  dsimp only at he hk2
  subst he
  dsimp only
  -- create
  apply creates_ok
  · refine List.Sublist.nodup (l₂ := conf.map (·.name)) ?_ hs.nodup
    refine List.Sublist.trans ((List.filter_sublist).map _) ?_
    rw [List.map_map, List.map_congr_left (g := fun c : Conf => c.name)]
    · exact List.Sublist.refl _
    · intro c _; exact (correlate_fields db.queues c).1
  · intro w hw w' hw'
    obtain ⟨c, hc, rfl⟩ := List.mem_map.mp (List.mem_filter.mp hw).1
    obtain ⟨c', hc', rfl⟩ := List.mem_map.mp (List.mem_filter.mp hw').1
    rw [(correlate_fields db.queues c).1, (correlate_fields db.queues c').1]
    exact hs.noError c hc c' hc'
  · intro w hw r hr
    obtain ⟨hw1, hw2⟩ := List.mem_filter.mp hw
    obtain ⟨c, hc, rfl⟩ := List.mem_map.mp hw1
    have hq := hcorr c (by simpa using hw2)
    have hrk : r.key ∈ keys db1.queues := by rw [← hk2]; exact List.mem_map_of_mem hr
    obtain ⟨r0, hr0, hk0⟩ := List.mem_map.mp hrk
    simp only [QRow.key, Prod.mk.injEq] at hk0
    rw [(correlate_fields db.queues c).1, ← hk0.2.1]
    refine ⟨?_, hclash c hc hq r0 (hsub r0 hr0)⟩
    intro he
    unfold DB.qid? at hq
    rw [Option.map_eq_none_iff, List.find?_eq_none] at hq
    exact hq r0 (hsub r0 hr0) (by simpa using he)

/-- The queues after a successful reconfiguration: those that were there and are not removed (with their id, name and error
queue), and new ones for the wanted names that did not exist. -/
theorem configure_rows {db : DB} (h : Inv db) (hn : Named db.queues) (conf : List Conf) (hok : (db.configure conf).2 = true) :
    ∃ old new, (db.configure conf).1.queues = old ++ new ∧
      keys old = keys (db.queues.filter fun r => !(db.removedPairs conf).any fun p => r.id == p.1.id || r.id == p.2.id) ∧
      (∀ r ∈ new, ∃ c ∈ conf, db.qid? c.name = none ∧ (r.name = c.name ∨ r.name = errorName c.name)) ∧
      ∀ m ∈ db.msgs, ∃ r ∈ old, r.id = m.queue := by
  obtain ⟨db1, db2, hi1, hn1, hq1, hup, hcr⟩ := configure_phases h hn conf hok
  have hsub : ∀ r ∈ db1.queues, r ∈ db.queues := by rw [hq1]; exact fun r hr => (List.mem_filter.mp hr).1
  obtain ⟨hi2, hn2, hk2⟩ := updates_keys h hi1 hn1 hsub _ (fun w hw => mem_wanted hw) hup
  obtain ⟨new, hnew, -, hnames⟩ := creates_rows (db := db2) (l := (conf.map (correlate db.queues)).filter fun w => w.id == 0) (by rw [hcr])
  rw [hcr] at hnew
  refine ⟨db2.queues, new, hnew, by rw [hk2, hq1], ?_, ?_⟩
  · intro r hr
    obtain ⟨w, hw, hx⟩ := hnames r hr
    obtain ⟨hw1, hw2⟩ := List.mem_filter.mp hw
    obtain ⟨c, hc, rfl⟩ := List.mem_map.mp hw1
    rw [(correlate_fields db.queues c).1] at hx
    refine ⟨c, hc, ?_, hx⟩
    simp only [beq_iff_eq] at hw2
    unfold DB.qid?
    unfold correlate at hw2
    cases hf : db.queues.find? (fun r => r.name == c.name) with
    | none => rfl
    | some x => simp only [hf] at hw2; exact absurd hw2 (id_pos h (List.mem_of_find?_eq_some hf))
  · intro m hm
    have hmsgs2 : db2.msgs = db.msgs := by
      have h1 := forEach_msgs createWanted_msgs db2 ((conf.map (correlate db.queues)).filter fun w => w.id == 0)
      rw [hcr] at h1
      rw [← h1]; exact configure_msgs db conf
    exact (hi2.msgs m (by rw [hmsgs2]; exact hm)).fk

end Casual.Queue

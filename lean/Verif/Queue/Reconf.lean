import Verif.Queue.Props

/-! What a successful reconfiguration does to the queues. -/
namespace Casual.Queue

/-- The pairs of queue and error queue that are removed. -/
def DB.removedPairs (db : DB) (conf : List Conf) : List (QRow × QRow) :=
  (joined (unwanted db.queues (conf.map (correlate db.queues)))).filter fun p => !hasMessages p

theorem removeQueues_eq {db : DB} (h : Inv db) {l : List Qid} (hl : ∀ q ∈ l, q % 2 = 0)
    (hok : (forEach DB.removeQueue db l).2 = .ok ()) :
    (forEach DB.removeQueue db l).1.queues = db.queues.filter (fun r => l.all fun q => r.id != q - 1 && r.id != q) := by
  induction l generalizing db with
  | nil => exact (List.filter_eq_self.mpr (by simp)).symm
  | cons a l ih =>
    unfold forEach at hok ⊢
    have h1 := h.removeQueue a (hl a (by simp))
    generalize db.removeQueue a = r at h1 hok ⊢
    obtain ⟨db', e⟩ := r
    cases e with
    | error e => simp at hok
    | ok u =>
      obtain ⟨h2, h3⟩ := h1 rfl
      have h4 := ih h2 (fun q hq => hl q (by simp [hq])) hok
      dsimp only at h3 h4 ⊢
      rw [h4, h3, List.filter_filter]
      congr 1; funext r
      simp only [List.all_cons]
      exact Bool.and_comm _ _

theorem configure_phases {db : DB} (h : Inv db) (hn : Named db.queues) (conf : List Conf) (hok : (db.configure conf).2 = true) :
    ∃ db1 db2, Inv db1 ∧ Named db1.queues ∧
      db1.queues = (db.queues.filter fun r => !(db.removedPairs conf).any fun p => r.id == p.1.id || r.id == p.2.id) ∧
      forEach (fun db (w : Wanted) => db.updateQueue w.id w.name w.retryCount w.retryDelay) db1
        ((conf.map (correlate db.queues)).filter fun w => w.id != 0) = (db2, .ok ()) ∧
      forEach DB.createWanted db2 ((conf.map (correlate db.queues)).filter fun w => w.id == 0) = ((db.configure conf).1, .ok ()) := by
  unfold DB.configure at hok ⊢
  generalize hplan : db.plan conf = pl at hok ⊢
  obtain ⟨wanted, remove, zs⟩ := pl
  simp only [DB.plan, Prod.mk.injEq] at hplan
  obtain ⟨hwanted, hrem, -⟩ := hplan
  dsimp only at hok ⊢
  split at hok
  · next db' heq =>
    unfold DB.updateQueues at heq
    split at heq
    · simp at heq
    · next db1 h1 =>
      have hok : (forEach DB.removeQueue db remove).2 = .ok () := by rw [h1]
      have hdb1 : Inv db1 ∧ Named db1.queues ∧
          db1.queues = (db.queues.filter fun r => !(db.removedPairs conf).any fun p => r.id == p.1.id || r.id == p.2.id) := by
        subst hrem
        unfold DB.removedPairs
        generalize hps : (joined (unwanted db.queues (conf.map (correlate db.queues)))).filter (fun p => !hasMessages p) = ps at *
        have hsp : ∀ p ∈ ps, p.1.id % 2 = 0 ∧ p.2.id = p.1.id - 1 := by
          intro p hp
          rw [← hps] at hp
          have := joined_spec h (List.mem_filter.mp hp).1
          exact ⟨this.1, this.2.1⟩
        unfold pairIds at hok h1
        obtain ⟨hok1, heq1⟩ := forEach_append hok
        have hev : ∀ q ∈ ps.map (fun p => p.1.id), q % 2 = 0 := by
          intro q hq
          obtain ⟨p, hp, rfl⟩ := List.mem_map.mp hq
          exact (hsp p hp).1
        obtain ⟨hi, hr⟩ := removeQueues h hev hok1
        have hre := removeQueues_eq h hev hok1
        have hnm := (forEach_ok (P := fun d => Inv d ∧ Named d.queues) (f := DB.removeQueue)
          (fun q hq d hd hok' => ⟨(hd.1.removeQueue q (hev q hq) hok').1, named_remove hd.1 hd.2 q (hev q hq) hok'⟩) ⟨h, hn⟩ hok1).2
        have habs := forEach_absent (db := (forEach DB.removeQueue db (ps.map (fun p => p.1.id))).1) (l := ps.map (fun p => p.2.id)) (by
          intro q hq r hr'
          obtain ⟨p, hp, rfl⟩ := List.mem_map.mp hq
          rw [(hsp p hp).2]
          exact (hr r hr').2 _ (List.mem_map_of_mem (f := fun p => p.1.id) hp))
        rw [habs] at heq1
        rw [heq1] at h1
        simp only [Prod.mk.injEq, and_true] at h1
        rw [← h1]
        refine ⟨hi, hnm, ?_⟩
        rw [hre]
        apply List.filter_congr
        intro r _
        rw [Bool.eq_iff_iff]
        simp only [List.all_map, List.all_eq_true, Function.comp_apply, Bool.and_eq_true, bne_iff_ne, ne_eq, Bool.not_eq_true', List.any_eq_false,
          Bool.or_eq_true, beq_iff_eq, not_or]
        constructor
        · intro hx p hp
          have := hx p hp
          rw [(hsp p hp).2]; exact ⟨this.2, this.1⟩
        · intro hx p hp
          have := hx p hp
          rw [(hsp p hp).2] at this; exact ⟨this.2, this.1⟩
      split at heq
      · simp at heq
      · next db2 h2 =>
        refine ⟨db1, db2, hdb1.1, hdb1.2.1, hdb1.2.2, ?_, ?_⟩
        · rw [hwanted]; exact h2
        · rw [hwanted]; exact heq
  · simp at hok

/-! ## Single steps -/

theorem row_updateQueueRow {db : DB} {q : Qid} {n : Name} {c d : Nat} (hok : (db.updateQueueRow q n c d).2 = .ok ()) :
    (db.updateQueueRow q n c d).1.queues = onQueue db.queues q fun r => { r with name := n, retryCount := c, retryDelay := d } := by
  unfold DB.updateQueueRow at hok ⊢
  split at hok
  · simp at hok
  · next h => rw [if_neg h]

/-- A row with these retry settings. -/
def HasConf (db : DB) (w : Wanted) : Prop := ∀ r ∈ db.queues, r.id = w.id → r.retryCount = w.retryCount ∧ r.retryDelay = w.retryDelay

theorem mem_onQueue {qs : List QRow} {q : Qid} {f : QRow → QRow} {r : QRow} (h : r ∈ onQueue qs q f) :
    ∃ r0 ∈ qs, (r0.id = q ∧ r = f r0) ∨ (r0.id ≠ q ∧ r = r0) := by
  obtain ⟨r0, h1, h2⟩ := List.mem_map.mp h
  refine ⟨r0, h1, ?_⟩
  split at h2
  · next he => exact Or.inl ⟨he, h2.symm⟩
  · next he => exact Or.inr ⟨he, h2.symm⟩

theorem hasConf_update {db : DB} (h : Inv db) {w : Wanted} (hok : (db.updateQueue w.id w.name w.retryCount w.retryDelay).2 = .ok ()) :
    HasConf (db.updateQueue w.id w.name w.retryCount w.retryDelay).1 w := by
  unfold DB.updateQueue at hok ⊢
  cases hf : db.queue? w.id with
  | none =>
    simp only [hf] at hok ⊢
    intro r hr he
    simp only [DB.queue?, List.find?_eq_none] at hf
    exact absurd he (by simpa using hf r hr)
  | some ex =>
    simp only [hf] at hok ⊢
    have hmem : ex ∈ db.queues := List.mem_of_find?_eq_some hf
    have hid : ex.id = w.id := by simpa using List.find?_some hf
    have hne : ex.error ≠ w.id := by
      rcases Nat.mod_two_eq_zero_or_one ex.id with h0 | h0
      · have := h.paired.even ex hmem h0; omega
      · have := (h.paired.odd ex hmem h0).1; omega
    have h1 := row_updateQueueRow (db := db) (q := w.id) (n := w.name) (c := w.retryCount) (d := w.retryDelay)
    generalize db.updateQueueRow w.id w.name w.retryCount w.retryDelay = x at h1 hok ⊢
    obtain ⟨d1, e⟩ := x
    cases e with
    | error e => simp at hok
    | ok u =>
      dsimp only at hok h1 ⊢
      have h2 := row_updateQueueRow hok
      intro r hr he
      rw [h2] at hr
      obtain ⟨r0, hr0, hx⟩ := mem_onQueue hr
      rcases hx with ⟨hx, rfl⟩ | ⟨hx, rfl⟩
      · dsimp only at he; omega
      · rw [h1 rfl] at hr0
        obtain ⟨r1, hr1, hy⟩ := mem_onQueue hr0
        rcases hy with ⟨hy, rfl⟩ | ⟨hy, rfl⟩
        · exact ⟨rfl, rfl⟩
        · omega

theorem hasConf_update_other {db : DB} {w w' : Wanted} (hid : w'.id ≠ w.id) (herr : ∀ r ∈ db.queues, r.id = w'.id → r.error ≠ w.id)
    (hc : HasConf db w) : HasConf (db.updateQueue w'.id w'.name w'.retryCount w'.retryDelay).1 w := by
  have key : ∀ (db : DB) q n c d, q ≠ w.id → HasConf db w → HasConf (db.updateQueueRow q n c d).1 w := by
    intro db q n c d hq hc
    unfold DB.updateQueueRow
    split
    · exact hc
    · intro r hr he
      obtain ⟨r0, hr0, hx⟩ := mem_onQueue hr
      rcases hx with ⟨hx, rfl⟩ | ⟨hx, rfl⟩
      · dsimp only at he; omega
      · exact hc _ hr0 he
  unfold DB.updateQueue
  split
  · exact hc
  · next ex hf =>
    have hmem : ex ∈ db.queues := List.mem_of_find?_eq_some hf
    have hid' : ex.id = w'.id := by simpa using List.find?_some hf
    have h1 := key db w'.id w'.name w'.retryCount w'.retryDelay hid hc
    generalize db.updateQueueRow w'.id w'.name w'.retryCount w'.retryDelay = x at h1 ⊢
    obtain ⟨d1, e⟩ := x
    cases e with
    | error e => exact h1
    | ok u => exact key _ _ _ _ _ (herr ex hmem hid') h1

/-- Creating a queue adds the queue and its error queue. -/
theorem create_rows {db : DB} {w : Wanted} (hok : (db.createWanted w).2 = .ok ()) :
    ∃ e r, (db.createWanted w).1.queues = db.queues ++ [e, r] ∧ e.name = errorName w.name ∧ r.name = w.name ∧
      r.retryCount = w.retryCount ∧ r.retryDelay = w.retryDelay ∧ r.error = e.id ∧
      (∀ x ∈ db.queues, x.name ≠ errorName w.name ∧ x.name ≠ w.name) ∧ w.name ≠ errorName w.name := by
  unfold DB.createWanted DB.create DB.insertQueue at hok ⊢
  by_cases h1 : db.queues.any (fun r => r.name == errorName w.name) = true
  · simp [h1] at hok
  · simp only [h1, if_false, Bool.false_eq_true] at hok ⊢
    split at hok
    · simp at hok
    · next heq =>
      split at heq
      · simp at heq
      · next h2 =>
        obtain ⟨rfl, -⟩ := Prod.mk.inj heq
        simp only [List.append_assoc, List.cons_append, List.nil_append]
        refine ⟨_, _, rfl, rfl, rfl, rfl, rfl, rfl, ?_, ?_⟩
        · simp only [List.any_eq_true, not_exists, not_and, beq_iff_eq, List.mem_append, List.mem_singleton] at h1 h2
          exact fun x hx => ⟨h1 x hx, h2 x (Or.inl hx)⟩
        · simp only [List.any_eq_true, not_exists, not_and, beq_iff_eq, List.mem_append, List.mem_singleton] at h2
          intro he
          exact h2 _ (Or.inr rfl) he.symm

/-- All the creations. -/
theorem creates_rows {db : DB} {l : List Wanted} (hok : (forEach DB.createWanted db l).2 = .ok ()) :
    ∃ new, (forEach DB.createWanted db l).1.queues = db.queues ++ new ∧
      (∀ w ∈ l, ∃ r ∈ new, r.name = w.name ∧ r.retryCount = w.retryCount ∧ r.retryDelay = w.retryDelay) ∧
      (∀ r ∈ new, ∃ w ∈ l, r.name = w.name ∨ r.name = errorName w.name) := by
  induction l generalizing db with
  | nil => exact ⟨[], by simp [forEach], by simp, by simp⟩
  | cons a l ih =>
    unfold forEach at hok ⊢
    have h1 := create_rows (db := db) (w := a)
    generalize db.createWanted a = x at h1 hok ⊢
    obtain ⟨d1, e⟩ := x
    cases e with
    | error e => simp at hok
    | ok u =>
      obtain ⟨e, r, h2, h3, h4, h5, h6, -⟩ := h1 rfl
      obtain ⟨new, h7, h8, h9⟩ := ih hok
      refine ⟨[e, r] ++ new, ?_, ?_, ?_⟩
      · dsimp only at h2 h7 ⊢
        rw [h7, h2]; simp
      · intro w hw
        rcases List.mem_cons.mp hw with rfl | hw
        · exact ⟨r, by simp, h4, h5, h6⟩
        · obtain ⟨r', hr', hx⟩ := h8 w hw
          exact ⟨r', by simp [hr'], hx⟩
      · intro x hx
        simp only [List.cons_append, List.nil_append, List.mem_cons] at hx
        rcases hx with rfl | rfl | hx
        · exact ⟨a, by simp, Or.inr h3⟩
        · exact ⟨a, by simp, Or.inl h4⟩
        · obtain ⟨w, hw, hy⟩ := h9 x hx
          exact ⟨w, by simp [hw], hy⟩

/-! ## Correlation -/

theorem correlate_fields (qs : List QRow) (c : Conf) :
    (correlate qs c).name = c.name ∧ (correlate qs c).retryCount = c.retryCount ∧ (correlate qs c).retryDelay = c.retryDelay := by
  unfold correlate; split <;> exact ⟨rfl, rfl, rfl⟩

theorem correlate_id {db : DB} (h : Inv db) (c : Conf) (hne : (correlate db.queues c).id ≠ 0) :
    ∃ r ∈ db.queues, r.id = (correlate db.queues c).id ∧ r.name = c.name ∧ r.error = (correlate db.queues c).error := by
  unfold correlate at hne ⊢
  cases hf : db.queues.find? (fun r => r.name == c.name) with
  | none => simp [hf] at hne
  | some r =>
    simp only
    exact ⟨r, List.mem_of_find?_eq_some hf, rfl, by simpa using List.find?_some hf, rfl⟩

theorem id_pos {db : DB} (h : Inv db) {r : QRow} (hr : r ∈ db.queues) : r.id ≠ 0 := by
  intro h0
  have := h.paired.even r hr (by omega)
  omega

/-- Names are unique (column `name` is `UNIQUE`). -/
def Unique (qs : List QRow) : Prop := (qs.map (·.name)).Nodup

theorem unique_congr {a b : List QRow} (h : keys b = keys a) (hu : Unique a) : Unique b := by
  unfold Unique at hu ⊢
  have : ∀ l : List QRow, l.map (·.name) = (keys l).map (·.2.1) := by
    intro l; unfold keys; rw [List.map_map]; rfl
  rw [this, h, ← this]; exact hu

theorem unique_create {db : DB} (hu : Unique db.queues) {w : Wanted} (hok : (db.createWanted w).2 = .ok ()) : Unique (db.createWanted w).1.queues := by
  obtain ⟨e, r, h2, h3, h4, -, -, -, h5, h6⟩ := create_rows hok
  unfold Unique at hu ⊢
  rw [h2, List.map_append, List.nodup_append]
  refine ⟨hu, ?_, ?_⟩
  · simp [h3, h4]; exact fun he => h6 he.symm
  · intro a ha b hb
    obtain ⟨x, hx, rfl⟩ := List.mem_map.mp ha
    have := h5 x hx
    simp only [List.map_cons, List.map_nil, List.mem_cons, List.not_mem_nil, or_false, h3, h4] at hb
    rcases hb with rfl | rfl
    · exact this.1
    · exact this.2

/-- The keys do not change when the wanted queues are updated. -/
theorem updates_keys {db db1 db2 : DB} {conf : List Conf} (h : Inv db) (h1 : Inv db1) (hn1 : Named db1.queues)
    (hsub : ∀ r ∈ db1.queues, r ∈ db.queues) (l : List Wanted) (hl : ∀ w ∈ l, ∃ c ∈ conf, w = correlate db.queues c ∧ w.id ≠ 0)
    (hup : forEach (fun db (w : Wanted) => db.updateQueue w.id w.name w.retryCount w.retryDelay) db1 l = (db2, .ok ())) :
    Inv db2 ∧ Named db2.queues ∧ keys db2.queues = keys db1.queues := by
  have := forEach_ok (P := fun d => Inv d ∧ Named d.queues ∧ keys d.queues = keys db1.queues)
    (f := fun db (w : Wanted) => db.updateQueue w.id w.name w.retryCount w.retryDelay)
    (l := l) (fun w hw d hd _ => by
      obtain ⟨c, hc, rfl, hne⟩ := hl w hw
      have ha : Agrees d.queues (correlate db.queues c) := agrees_congr hd.2.2 (by
        intro r hr he
        obtain ⟨r0, hr0, hid, hnm, -⟩ := correlate_id h c hne
        have : r = r0 := eq_of_nodup_map h.paired.nodup (hsub r hr) hr0 (he.trans hid.symm)
        rw [this, hnm, (correlate_fields db.queues c).1])
      have hk := keys_updateQueue hd.1 hd.2.1 ha (c := (correlate db.queues c).retryCount) (d := (correlate db.queues c).retryDelay)
      exact ⟨hd.1.updateQueue _ _ _ _, named_congr hk hd.2.1, hk.trans hd.2.2⟩) ⟨h1, hn1, rfl⟩ (by rw [hup])
  rw [hup] at this
  exact this

theorem mem_wanted {db : DB} {conf : List Conf} {w : Wanted} (hw : w ∈ (conf.map (correlate db.queues)).filter fun w => w.id != 0) :
    ∃ c ∈ conf, w = correlate db.queues c ∧ w.id ≠ 0 := by
  obtain ⟨hw1, hw2⟩ := List.mem_filter.mp hw
  obtain ⟨c, hc, rfl⟩ := List.mem_map.mp hw1
  exact ⟨c, hc, rfl, by simpa using hw2⟩

theorem unique_configure {db : DB} (h : Inv db) (hn : Named db.queues) (hu : Unique db.queues) (conf : List Conf) : Unique (db.configure conf).1.queues := by
  cases hok : (db.configure conf).2 with
  | false =>
    have : (db.configure conf).1 = db := by
      unfold DB.configure at hok ⊢
      dsimp only at hok ⊢
      generalize db.updateQueues _ _ = x at hok ⊢
      obtain ⟨d, e⟩ := x
      cases e with
      | error e => rfl
      | ok u => simp at hok
    rw [this]; exact hu
  | true =>
    obtain ⟨db1, db2, hi1, hn1, hq1, hup, hcr⟩ := configure_phases h hn conf hok
    have hu1 : Unique db1.queues := by
      rw [hq1]
      exact List.Sublist.nodup ((List.filter_sublist).map _) hu
    obtain ⟨hi2, hn2, hk2⟩ := updates_keys h hi1 hn1 (by rw [hq1]; exact fun r hr => (List.mem_filter.mp hr).1) _ (fun w hw => mem_wanted hw) hup
    have := forEach_ok (P := fun d => Unique d.queues) (f := DB.createWanted) (fun w _ d hd hok' => unique_create hd hok') (unique_congr hk2 hu1)
      (l := (conf.map (correlate db.queues)).filter fun w => w.id == 0) (by rw [hcr])
    rw [hcr] at this
    exact this

theorem unique_run (ops : List Op) : Unique (DB.empty.run ops).queues :=
  (run_keeps (P := fun d => Unique d.queues ∧ Named d.queues) (fun op _ d hi hn => by
    by_cases hc : ∃ conf, op = .configure conf
    · obtain ⟨conf, rfl⟩ := hc; exact ⟨unique_configure hi hn.2 hn.1 conf, named_configure hi hn.2 conf⟩
    · have hk := keys_step hi (fun conf e => hc ⟨conf, e⟩)
      exact ⟨unique_congr hk hn.1, named_congr hk hn.2⟩) Inv.empty (by simp [Unique, Named, DB.empty])).1

/-! ## The effect -/

/-- Wanted queues are not removed. -/
theorem wanted_kept {db : DB} {conf : List Conf} {c : Conf} (hc : c ∈ conf) {r : QRow} (hr : r ∈ db.queues)
    (hw : r.id = (correlate db.queues c).id ∨ r.id = (correlate db.queues c).error) :
    ¬ (db.removedPairs conf).any (fun p => r.id == p.1.id || r.id == p.2.id) = true := by
  intro ha
  rw [List.any_eq_true] at ha
  obtain ⟨p, hp, hx⟩ := ha
  have hj := (List.mem_filter.mp hp).1
  unfold joined at hj
  obtain ⟨x, hx1, hx2⟩ := List.mem_filterMap.mp hj
  rw [Option.map_eq_some_iff] at hx2
  obtain ⟨e, he, rfl⟩ := hx2
  have h1 := (List.mem_filter.mp (List.mem_filter.mp hx1).1).2
  have h2 := (List.mem_filter.mp (List.mem_of_find?_eq_some he)).2
  simp only [Bool.not_eq_true', List.any_eq_false, List.mem_map, forall_exists_index, and_imp, forall_apply_eq_imp_iff₂, Bool.or_eq_true, beq_iff_eq, not_or] at h1 h2
  have h3 := h1 c hc
  have h4 := h2 c hc
  simp only [Bool.or_eq_true, beq_iff_eq] at hx
  omega

theorem configure_wanted {db : DB} (h : Inv db) (hn : Named db.queues) (conf : List Conf)
    (hnd : (conf.map (·.name)).Nodup) (herr : ∀ c ∈ conf, ∀ c' ∈ conf, c.name ≠ errorName c'.name)
    (hok : (db.configure conf).2 = true) (c : Conf) (hc : c ∈ conf) :
    ∃ r ∈ (db.configure conf).1.queues, r.name = c.name ∧ r.retryCount = c.retryCount ∧ r.retryDelay = c.retryDelay ∧
      ∀ r0 ∈ db.queues, db.qid? c.name = some r0.id → r.id = r0.id := by
  obtain ⟨db1, db2, hi1, hn1, hq1, hup, hcr⟩ := configure_phases h hn conf hok
  have hsub : ∀ r ∈ db1.queues, r ∈ db.queues := by rw [hq1]; exact fun r hr => (List.mem_filter.mp hr).1
  obtain ⟨new, hnew, hcreated, -⟩ := creates_rows (db := db2) (l := (conf.map (correlate db.queues)).filter fun w => w.id == 0) (by rw [hcr])
  rw [hcr] at hnew
  obtain ⟨f1, f2, f3⟩ := correlate_fields db.queues c
  by_cases hz : (correlate db.queues c).id = 0
  · obtain ⟨r, hr, h1, h2, h3⟩ := hcreated (correlate db.queues c) (List.mem_filter.mpr ⟨List.mem_map_of_mem hc, by simp [hz]⟩)
    refine ⟨r, by rw [hnew]; exact List.mem_append_right _ hr, h1.trans f1, h2.trans f2, h3.trans f3, ?_⟩
    intro r0 hr0 hq
    exfalso
    unfold DB.qid? at hq
    unfold correlate at hz
    cases hf : db.queues.find? (fun r => r.name == c.name) with
    | none => simp [hf] at hq
    | some x =>
      simp only [hf] at hz
      exact id_pos h (List.mem_of_find?_eq_some hf) hz
  · obtain ⟨r0, hr0, hid0, hnm0, -⟩ := correlate_id h c hz
    have hr01 : r0 ∈ db1.queues := by
      rw [hq1, List.mem_filter]
      exact ⟨hr0, by simpa using wanted_kept hc hr0 (Or.inl hid0)⟩
    obtain ⟨hi2, hn2, hk2⟩ := updates_keys h hi1 hn1 hsub _ (fun w hw => mem_wanted hw) hup
    have hkey : r0.key ∈ keys db2.queues := by rw [hk2]; exact List.mem_map_of_mem hr01
    obtain ⟨r2, hr2, hkk⟩ := List.mem_map.mp hkey
    simp only [QRow.key, Prod.mk.injEq] at hkk
    have hconf : HasConf db2 (correlate db.queues c) := by
      have hmem : correlate db.queues c ∈ (conf.map (correlate db.queues)).filter fun w => w.id != 0 :=
        List.mem_filter.mpr ⟨List.mem_map_of_mem hc, by simpa using hz⟩
      have hall : ∀ w ∈ (conf.map (correlate db.queues)).filter fun w => w.id != 0, ∃ c ∈ conf, w = correlate db.queues c ∧ w.id ≠ 0 := fun w hw => mem_wanted hw
      have hnd' : ((conf.map (correlate db.queues)).filter fun w => w.id != 0).map (·.name) |>.Nodup := by
        refine List.Sublist.nodup (l₂ := conf.map (·.name)) ?_ hnd
        refine List.Sublist.trans ((List.filter_sublist).map _) ?_
        rw [List.map_map, List.map_congr_left (g := fun c : Conf => c.name)]
        · exact List.Sublist.refl _
        · intro c _; exact (correlate_fields db.queues c).1
      generalize (conf.map (correlate db.queues)).filter (fun w => w.id != 0) = l at hup hmem hall hnd'
      obtain ⟨l1, l2, rfl⟩ := List.append_of_mem hmem
      have hok' : (forEach (fun db (w : Wanted) => db.updateQueue w.id w.name w.retryCount w.retryDelay) db1 (l1 ++ correlate db.queues c :: l2)).2 = .ok () := by rw [hup]
      obtain ⟨hokl, heql⟩ := forEach_append hok'
      generalize hda : (forEach (fun db (w : Wanted) => db.updateQueue w.id w.name w.retryCount w.retryDelay) db1 l1) = xa at hokl heql
      obtain ⟨da, ea⟩ := xa
      dsimp only at hokl heql
      subst hokl
      obtain ⟨hia, hna, hka⟩ := updates_keys h hi1 hn1 hsub l1 (fun w hw => hall w (by simp [hw])) hda
      rw [heql] at hup
      unfold forEach at hup
      have hset := hasConf_update hia (w := correlate db.queues c)
      have hib := hia.updateQueue (correlate db.queues c).id (correlate db.queues c).name (correlate db.queues c).retryCount (correlate db.queues c).retryDelay
      have hag : Agrees da.queues (correlate db.queues c) := agrees_congr hka (by
        intro r hr he
        have : r = r0 := eq_of_nodup_map h.paired.nodup (hsub r hr) hr0 (he.trans hid0.symm)
        rw [this, hnm0, f1])
      have hkb := keys_updateQueue hia hna hag (c := (correlate db.queues c).retryCount) (d := (correlate db.queues c).retryDelay)
      generalize da.updateQueue (correlate db.queues c).id (correlate db.queues c).name (correlate db.queues c).retryCount (correlate db.queues c).retryDelay = xb at hset hup hib hkb
      obtain ⟨dc, ec⟩ := xb
      cases ec with
      | error e => simp at hup
      | ok u =>
        dsimp only at hup hib hkb
        have := forEach_ok (P := fun d => HasConf d (correlate db.queues c) ∧ Inv d ∧ Named d.queues ∧ keys d.queues = keys db1.queues)
          (f := fun db (w : Wanted) => db.updateQueue w.id w.name w.retryCount w.retryDelay)
          (l := l2) (fun w hw d hd _ => by
            obtain ⟨c', hc', hwe, hne⟩ := hall w (by simp [hw])
            obtain ⟨r', hr', hid', hnm', -⟩ := correlate_id h c' (by rw [← hwe]; exact hne)
            have hagw : Agrees d.queues w := agrees_congr hd.2.2.2 (by
              intro r hr he
              have : r = r' := eq_of_nodup_map h.paired.nodup (hsub r hr) hr' (by rw [hid', ← hwe]; exact he)
              rw [this, hnm', hwe, (correlate_fields db.queues c').1])
            have hk := keys_updateQueue hd.2.1 hd.2.2.1 hagw (c := w.retryCount) (d := w.retryDelay)
            refine ⟨hasConf_update_other ?_ ?_ hd.1, hd.2.1.updateQueue _ _ _ _, named_congr hk hd.2.2.1, hk.trans hd.2.2.2⟩
            · -- different names, so different ids
              intro he
              have h1 : r' = r0 := eq_of_nodup_map h.paired.nodup hr' hr0 (by rw [hid', hid0, ← hwe]; exact he)
              have h2 : (correlate db.queues c).name ≠ w.name := by
                rw [List.map_append, List.map_cons, List.nodup_append] at hnd'
                have := (List.nodup_cons.mp hnd'.2.1).1
                intro hx
                exact this (by rw [hx]; exact List.mem_map_of_mem hw)
              apply h2
              rw [f1, hwe, (correlate_fields db.queues c').1, ← hnm0, ← hnm', h1]
            · intro r hr he hx
              -- the wanted queue would be the error queue of another wanted queue
              have hrk : r.key ∈ keys db1.queues := by rw [← hd.2.2.2]; exact List.mem_map_of_mem hr
              obtain ⟨r1, hr1, hk1⟩ := List.mem_map.mp hrk
              simp only [QRow.key, Prod.mk.injEq] at hk1
              have e1 : r1 = r' := eq_of_nodup_map h.paired.nodup (hsub r1 hr1) hr' (by rw [hid', ← hwe, hk1.1]; exact he)
              have e2 : r1.error = r0.id := by rw [hk1.2.2, hid0]; exact hx
              have hev : r1.id % 2 = 0 := by
                rcases Nat.mod_two_eq_zero_or_one r1.id with h0 | h0
                · exact h0
                · have := (h.paired.odd r1 (hsub r1 hr1) h0).1
                  have := id_pos h hr0
                  omega
              obtain ⟨e, he1, he2, he3⟩ := hn r1 (hsub r1 hr1) hev
              have e3 : e = r0 := eq_of_nodup_map h.paired.nodup he1 hr0 (by show e.id = r0.id; omega)
              rw [e3] at he3
              rw [hnm0, e1, hnm'] at he3
              exact herr c hc c' hc' he3) ⟨hset rfl, hib, named_congr hkb hna, hkb.trans hka⟩ (by rw [hup])
        rw [hup] at this
        exact this.1
    have hrc := hconf r2 hr2 (by rw [hkk.1, hid0])
    refine ⟨r2, by rw [hnew]; exact List.mem_append_left _ hr2, by rw [hkk.2.1, hnm0], hrc.1.trans f2, hrc.2.trans f3, ?_⟩
    intro r' hr' hq
    rw [hkk.1]
    unfold DB.qid? at hq
    unfold correlate at hid0
    cases hf : db.queues.find? (fun r => r.name == c.name) with
    | none => simp [hf] at hq
    | some x =>
      simp only [hf, Option.map_some, Option.some.injEq] at hq hid0
      omega

end Casual.Queue

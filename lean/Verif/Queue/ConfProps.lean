import Verif.Queue.ReconfOk
import Verif.Queue.GroupProps

/-!
# Properties of the reconfiguration of a queue group

`Group.init.run is` is the group after the messages `is`. A new configuration is one more message. If the group could
not apply it, it ends (and is started again): `up = false`.
-/
namespace Casual.Queue

theorem step_configure (g : Group) (p c : Nat) (conf : List Conf) (cap : Option Int) (now : Time) :
    g.step (.configure p c conf cap now) =
      if (g.db.configure conf).2 = true then
        ((({ ({ (g.emit (.recv (.configure p c conf cap now))).sync with capacity := cap, up := true } : Group).apply (.configure conf) with zombies := g.zombies ++ (g.db.plan conf).2.2 } : Group).send p c
          (.configured (((g.db.configure conf).1.queues.filter fun r => !(g.zombies ++ (g.db.plan conf).2.2).contains r.id).map fun r => (r.id, r.name)))).recount).sync
      else (({ (g.emit (.recv (.configure p c conf cap now))).sync with capacity := cap, up := true } : Group).persist now).sync.crash := rfl

/-- The group is still there after the new configuration exactly if the queuebase accepted it. -/
theorem configure_up {g : Group} {p c : Nat} {conf : List Conf} {cap : Option Int} {now : Time} :
    (g.step (.configure p c conf cap now)).up = (g.db.configure conf).2 := by
  rw [step_configure]
  by_cases h : (g.db.configure conf).2 = true
  · rw [if_pos h, h]; rfl
  · rw [if_neg h]; simp only [Bool.not_eq_true] at h; rw [h]; rfl

theorem configure_db {g : Group} {p c : Nat} {conf : List Conf} {cap : Option Int} {now : Time}
    (h : (g.db.configure conf).2 = true) :
    (g.step (.configure p c conf cap now)).db = (g.db.configure conf).1 ∧ (g.step (.configure p c conf cap now)).disk = (g.db.configure conf).1 ∧
    (g.step (.configure p c conf cap now)).tr = g.tr ++ [.recv (.configure p c conf cap now),
      .send p c (.configured (((g.db.configure conf).1.queues.filter fun r => !(g.zombies ++ (g.db.plan conf).2.2).contains r.id).map fun r => (r.id, r.name)))] := by
  rw [step_configure, if_pos h]
  refine ⟨rfl, rfl, ?_⟩
  simp only [Group.recount, Group.send, Group.emit, Group.apply, Group.sync, List.append_assoc, List.cons_append, List.nil_append]

theorem qid_of_unique {db : DB} (hu : Unique db.queues) {r : QRow} (hr : r ∈ db.queues) : db.qid? r.name = some r.id := by
  unfold DB.qid?
  cases hf : db.queues.find? (fun x => x.name == r.name) with
  | none => rw [List.find?_eq_none] at hf; exact absurd (beq_self_eq_true r.name) (hf r hr)
  | some x =>
    have h1 := List.mem_of_find?_eq_some hf
    have h2 : x.name = r.name := by simpa using List.find?_some hf
    rw [eq_of_nodup_map hu h1 hr h2]; rfl

theorem db_facts (is : List In) : Inv (Group.init.run is).db ∧ Named (Group.init.run is).db.queues ∧ Unique (Group.init.run is).db.queues := by
  have := (core is).db
  rw [this]; exact ⟨inv_run _, named_run _, unique_run _⟩

/-! ## C53: what a new configuration does -/

/-- If the group accepts the configuration, every wanted queue is there, with the settings of the configuration; a queue that
was there before keeps its id. What is stored on disk is the same. -/
theorem C53_wanted_queues (is : List In) (p c : Nat) (conf : List Conf) (cap : Option Int) (now : Time) (hs : Sensible conf)
    (hup : ((Group.init.run is).step (.configure p c conf cap now)).up = true) (w : Conf) (hw : w ∈ conf) :
    let g := (Group.init.run is).step (.configure p c conf cap now)
    g.disk = g.db ∧ ∃ r ∈ g.db.queues, r.name = w.name ∧ r.retryCount = w.retryCount ∧ r.retryDelay = w.retryDelay ∧
      g.db.qid? w.name = some r.id ∧ ∀ q, (Group.init.run is).db.qid? w.name = some q → r.id = q := by
  intro g
  rw [configure_up] at hup
  obtain ⟨hi, hn, hu⟩ := db_facts is
  obtain ⟨h1, h2, -⟩ := configure_db (p := p) (c := c) (cap := cap) (now := now) hup
  refine ⟨h2.trans h1.symm, ?_⟩
  obtain ⟨r, hr, hrn, hrc, hrd, hid⟩ := configure_wanted hi hn conf hs.nodup hs.noError hup w hw
  refine ⟨r, by show r ∈ (Group.db _).queues; rw [h1]; exact hr, hrn, hrc, hrd, ?_, ?_⟩
  · show DB.qid? (Group.db _) _ = _
    rw [h1, ← hrn]
    exact qid_of_unique (unique_configure hi hn hu conf) hr
  · intro q hq
    unfold DB.qid? at hq
    rw [Option.map_eq_some_iff] at hq
    obtain ⟨r0, hf, rfl⟩ := hq
    exact hid r0 (List.mem_of_find?_eq_some hf) (by unfold DB.qid?; rw [hf]; rfl)

/-- No message is lost or changed, and the queue each message is in keeps its name and its error queue. -/
theorem C53_messages_kept (is : List In) (p c : Nat) (conf : List Conf) (cap : Option Int) (now : Time)
    (hup : ((Group.init.run is).step (.configure p c conf cap now)).up = true) :
    let g := (Group.init.run is).step (.configure p c conf cap now)
    g.db.msgs = (Group.init.run is).db.msgs ∧
    ∀ m ∈ g.db.msgs, ∀ r ∈ (Group.init.run is).db.queues, r.id = m.queue →
      ∃ r' ∈ g.db.queues, r'.id = r.id ∧ r'.name = r.name ∧ r'.error = r.error := by
  intro g
  rw [configure_up] at hup
  obtain ⟨hi, hn, hu⟩ := db_facts is
  obtain ⟨h1, h2, -⟩ := configure_db (p := p) (c := c) (cap := cap) (now := now) hup
  have hm : g.db.msgs = (Group.init.run is).db.msgs := by show (Group.db _).msgs = _; rw [h1]; exact configure_msgs _ _
  refine ⟨hm, ?_⟩
  intro m hmm r hr hrid
  rw [hm] at hmm
  obtain ⟨old, new, hq, hk, -, hold⟩ := configure_rows hi hn conf hup
  obtain ⟨r', hr', hid⟩ := hold m hmm
  have : r'.key ∈ keys old := List.mem_map_of_mem hr'
  rw [hk] at this
  obtain ⟨r0, hr0, hkey⟩ := List.mem_map.mp this
  have hr0 := (List.mem_filter.mp hr0).1
  simp only [QRow.key, Prod.mk.injEq] at hkey
  have : r0 = r := eq_of_nodup_map hi.paired.nodup hr0 hr (by show r0.id = r.id; omega)
  subst this
  refine ⟨r', ?_, hkey.1.symm, hkey.2.1.symm, hkey.2.2.symm⟩
  show r' ∈ (Group.db _).queues
  rw [h1, hq]; exact List.mem_append_left _ hr'

theorem count_zero {db : DB} (h : Inv db) {r : QRow} (hr : r ∈ db.queues) (hm : ∀ m ∈ db.msgs, m.queue ≠ r.id) : r.count = 0 := by
  rw [(h.exact_ r hr).1]
  clear hr
  generalize db.msgs = l at hm
  induction l with
  | nil => rfl
  | cons m l ih =>
    have := hm m (by simp)
    simp only [sumOf, List.map_cons, List.sum_cons] at ih ⊢
    rw [ih fun x hx => hm x (by simp [hx])]
    simp [counted, this]

theorem count_pos {db : DB} (h : Inv db) {r : QRow} (hr : r ∈ db.queues) (he : ∀ m ∈ db.msgs, m.state ≠ .added) {m : Msg} (hm : m ∈ db.msgs) (hq : m.queue = r.id) : 0 < r.count := by
  rw [(h.exact_ r hr).1]
  have hnn : ∀ l : List Msg, 0 ≤ sumOf (counted r.id) l := by
    intro l
    induction l with
    | nil => exact Int.le_refl _
    | cons x l ih =>
      simp only [sumOf, List.map_cons, List.sum_cons] at ih ⊢
      have : 0 ≤ counted r.id x := by unfold counted; split <;> omega
      omega
  clear hr
  generalize db.msgs = l at hm he
  induction l with
  | nil => simp at hm
  | cons x l ih =>
    have h1 := hnn l
    have h2 : 0 ≤ counted r.id x := by unfold counted; split <;> omega
    simp only [sumOf, List.map_cons, List.sum_cons] at ih h1 ⊢
    rcases List.mem_cons.mp hm with rfl | hm
    · have : counted r.id m = 1 := by simp [counted, hq, he m (by simp)]
      omega
    · have := ih hm fun y hy => he y (by simp [hy])
      omega

theorem wanted_row {db : DB} (h : Inv db) {c : Conf} {r : QRow} (hr : r ∈ db.queues) (hid : r.id = (correlate db.queues c).id) : r.name = c.name := by
  obtain ⟨r0, h1, h2, h3, -⟩ := correlate_id h c (by rw [← hid]; exact id_pos h hr)
  rw [eq_of_nodup_map h.paired.nodup hr h1 (hid.trans h2.symm)]; exact h3

theorem wanted_error {db : DB} (h : Inv db) {c : Conf} {r : QRow} (hr : r ∈ db.queues) (hid : r.id = (correlate db.queues c).error) :
    ∃ r0 ∈ db.queues, r0.name = c.name ∧ r0.id % 2 = 0 ∧ r.id + 1 = r0.id := by
  by_cases hz : (correlate db.queues c).id = 0
  · have : (correlate db.queues c).error = 0 := by
      unfold correlate at hz ⊢
      cases hf : db.queues.find? (fun r => r.name == c.name) with
      | none => rfl
      | some x => simp only [hf] at hz; exact absurd hz (id_pos h (List.mem_of_find?_eq_some hf))
    rw [this] at hid
    exact absurd hid (id_pos h hr)
  · obtain ⟨r0, h1, h2, h3, h4⟩ := correlate_id h c hz
    refine ⟨r0, h1, h3, ?_⟩
    rcases Nat.mod_two_eq_zero_or_one r0.id with h0 | h0
    · have := h.paired.even r0 h1 h0
      refine ⟨h0, ?_⟩
      rw [hid, ← h4]; omega
    · have := h.paired.odd r0 h1 h0
      have := id_pos h hr
      omega

/-- A queue (with its error queue) that is not wanted and holds no message is gone. -/
theorem C53_unwanted_gone (is : List In) (p c : Nat) (conf : List Conf) (cap : Option Int) (now : Time)
    (hup : ((Group.init.run is).step (.configure p c conf cap now)).up = true)
    (r : QRow) (hr : r ∈ (Group.init.run is).db.queues) (hq : r.error ≠ 0)
    (hn : ∀ w ∈ conf, w.name ≠ r.name ∧ w.name ≠ errorName r.name ∧ errorName w.name ≠ r.name)
    (hm : ∀ m ∈ (Group.init.run is).db.msgs, m.queue ≠ r.id ∧ m.queue ≠ r.error) :
    ∀ r' ∈ ((Group.init.run is).step (.configure p c conf cap now)).db.queues, r'.name ≠ r.name ∧ r'.name ≠ errorName r.name := by
  rw [configure_up] at hup
  obtain ⟨hi, hnm, hu⟩ := db_facts is
  obtain ⟨h1, h2, -⟩ := configure_db (p := p) (c := c) (cap := cap) (now := now) hup
  rw [h1]
  clear h1 h2
  generalize (Group.init.run is).db = db at *
  have heven : r.id % 2 = 0 := by
    rcases Nat.mod_two_eq_zero_or_one r.id with h0 | h0
    · exact h0
    · exact absurd (hi.paired.odd r hr h0).1 hq
  obtain ⟨he1, -, -⟩ := hi.paired.even r hr heven
  obtain ⟨e, hemem, heid, hename⟩ := hnm r hr heven
  have hrpos := id_pos hi hr
  have hepos := id_pos hi hemem
  have hpair : (r, e) ∈ db.removedPairs conf := by
    unfold DB.removedPairs
    have hz : ∀ x ∈ db.queues, (∀ w ∈ conf, x.id ≠ (correlate db.queues w).id ∧ x.id ≠ (correlate db.queues w).error) →
        x ∈ unwanted db.queues (conf.map (correlate db.queues)) := by
      intro x hx hall
      unfold unwanted
      refine List.mem_filter.mpr ⟨hx, ?_⟩
      simp only [Bool.not_eq_true', List.any_eq_false, Bool.or_eq_true, beq_iff_eq, not_or]
      intro w hw
      obtain ⟨cc, hcc, rfl⟩ := List.mem_map.mp hw
      exact hall cc hcc
    have hrz := hz r hr (by
      intro w hw
      refine ⟨fun he => (hn w hw).1 (wanted_row hi hr he).symm, ?_⟩
      intro he
      obtain ⟨r0, -, -, h3, h4⟩ := wanted_error hi hr he
      omega)
    have hez := hz e hemem (by
      intro w hw
      refine ⟨fun he => (hn w hw).2.1 ((wanted_row hi hemem he).symm.trans hename), ?_⟩
      intro he
      obtain ⟨r0, h0, h3, -, h4⟩ := wanted_error hi hemem he
      have : r0 = r := eq_of_nodup_map hi.paired.nodup h0 hr (by show r0.id = r.id; omega)
      exact (hn w hw).1 (by rw [← h3, this]))
    refine List.mem_filter.mpr ⟨?_, ?_⟩
    · unfold joined
      refine List.mem_filterMap.mpr ⟨r, List.mem_filter.mpr ⟨hrz, by simpa using hq⟩, ?_⟩
      cases hf : (unwanted db.queues (conf.map (correlate db.queues))).find? (fun x => x.id == r.error) with
      | none => rw [List.find?_eq_none] at hf; exact absurd (by simpa using heid) (hf e hez)
      | some x =>
        have hx := (List.mem_filter.mp (List.mem_of_find?_eq_some hf)).1
        have hxid : x.id = r.error := by simpa using List.find?_some hf
        rw [eq_of_nodup_map hi.paired.nodup hx hemem (hxid.trans heid.symm)]; rfl
    · have c1 := count_zero hi hr fun m h => (hm m h).1
      have c2 := count_zero hi hemem fun m h => by rw [heid]; exact (hm m h).2
      simp [hasMessages, c1, c2]
  obtain ⟨old, new, hqs, hk, hnew, -⟩ := configure_rows hi hnm conf hup
  intro r' hr'
  rw [hqs] at hr'
  rcases List.mem_append.mp hr' with hr' | hr'
  · have : r'.key ∈ keys old := List.mem_map_of_mem hr'
    rw [hk] at this
    obtain ⟨r0, hr0, hkey⟩ := List.mem_map.mp this
    obtain ⟨hr0, hnot⟩ := List.mem_filter.mp hr0
    simp only [QRow.key, Prod.mk.injEq] at hkey
    simp only [Bool.not_eq_true', List.any_eq_false, Bool.or_eq_true, beq_iff_eq, not_or] at hnot
    have := hnot _ hpair
    rw [← hkey.2.1]
    constructor
    · intro he; exact this.1 (congrArg QRow.id (eq_of_nodup_map hu hr0 hr he))
    · intro he; exact this.2 (congrArg QRow.id (eq_of_nodup_map hu hr0 hemem (he.trans hename.symm)))
  · obtain ⟨w, hw, -, hx⟩ := hnew r' hr'
    have := hn w hw
    rcases hx with hx | hx <;> rw [hx]
    · exact ⟨this.1, this.2.1⟩
    · exact ⟨this.2.2, fun he => this.1 (errorName_inj he)⟩

/-- If the group can not apply the configuration, all queues are as before. -/
theorem C53_rejected_keeps_queues (is : List In) (p c : Nat) (conf : List Conf) (cap : Option Int) (now : Time)
    (hup : ((Group.init.run is).step (.configure p c conf cap now)).up = false) :
    ((Group.init.run is).step (.configure p c conf cap now)).db.queues.map (fun r => (r.id, r.name, r.error)) =
      (Group.init.run is).db.queues.map (fun r => (r.id, r.name, r.error)) := by
  rw [configure_up] at hup
  have hc := core is
  generalize Group.init.run is = g at *
  rw [step_configure, if_neg (by simp [hup])]
  show keys (Group.db _).queues = keys _
  have hc1 : Core ({ (g.emit (.recv (.configure p c conf cap now))).sync with capacity := cap, up := true } : Group) := by
    have := (hc.emit (.recv (.configure p c conf cap now)) rfl).sync
    exact ⟨this.db, this.disk, this.pre, this.acks, this.sent⟩
  have hdb : ({ (g.emit (.recv (.configure p c conf cap now))).sync with capacity := cap, up := true } : Group).db = g.db := rfl
  rw [← hdb]
  generalize ({ (g.emit (.recv (.configure p c conf cap now))).sync with capacity := cap, up := true } : Group) = g1 at hc1
  show keys (g1.persist now).db.queues = keys _
  obtain ⟨l, h3, h4⟩ := Tail.persist g1 now
  rw [(hc1.persist now).db, h3, run_append, ← hc1.db]
  exact keys_ops hc1.inv l fun op ho => by have := h4 op ho; cases op <;> simp_all [Op.isDequeue, Op.isConfigure]

/-- An accepted configuration: `a` keeps its id and gets new settings, `b` and its error queue are gone, `c` is new. -/
example :
    let g := Group.init.run [.configure 900 0 [⟨['a'], 1, 0⟩, ⟨['b'], 0, 0⟩] none 1, exEnq 1 10 none 3 2, .idle 3]
    let g' := g.step (.configure 900 1 [⟨['c'], 5, 6⟩, ⟨['a'], 2, 7⟩] none 4)
    Sensible [⟨['c'], 5, 6⟩, ⟨['a'], 2, 7⟩] ∧ g'.up = true ∧
    g.db.queues.map (fun r => (r.id, r.name)) = [(1, ['a', '.', 'e', 'r', 'r', 'o', 'r']), (2, ['a']), (3, ['b', '.', 'e', 'r', 'r', 'o', 'r']), (4, ['b'])] ∧
    g'.db.queues.map (fun r => (r.id, r.name, r.retryCount, r.retryDelay)) =
      [(1, ['a', '.', 'e', 'r', 'r', 'o', 'r'], 0, 0), (2, ['a'], 2, 7), (3, ['c', '.', 'e', 'r', 'r', 'o', 'r'], 0, 0), (4, ['c'], 5, 6)] := by
  refine ⟨⟨by decide, by decide⟩, ?_⟩
  decide +kernel

/-- A rejected one: `a` is created and so is `a.error`, with which the wanted `a.error` clashes. -/
example :
    let g := (Group.init.run [.configure 900 0 [⟨['b'], 0, 0⟩] none 1]).step (.configure 900 1 [⟨['a'], 0, 0⟩, ⟨errorName ['a'], 0, 0⟩] none 4)
    g.up = false ∧ g.db.queues.map (fun r => r.id) = [1, 2] := by decide +kernel

/-! ## C51: the queue manager learns of every queue -/

/-- In a group that has no queues it could not remove, the answer to a configuration lists every wanted queue, with its id.
Missing: with such queues it does not hold (`C51_refuted`). -/
theorem C51_announced_partial (is : List In) (p c : Nat) (conf : List Conf) (cap : Option Int) (now : Time) (hs : Sensible conf)
    (hz : (Group.init.run is).zombies = []) (hup : ((Group.init.run is).step (.configure p c conf cap now)).up = true) :
    ∃ qs, ((Group.init.run is).step (.configure p c conf cap now)).tr = (Group.init.run is).tr ++ [.recv (.configure p c conf cap now), .send p c (.configured qs)] ∧
      ∀ w ∈ conf, ∃ q, (q, w.name) ∈ qs ∧ ((Group.init.run is).step (.configure p c conf cap now)).db.qid? w.name = some q := by
  have hup' := hup
  rw [configure_up] at hup
  obtain ⟨hi, hnm, hu⟩ := db_facts is
  obtain ⟨h1, -, h3⟩ := configure_db (p := p) (c := c) (cap := cap) (now := now) hup
  refine ⟨_, h3, ?_⟩
  intro w hw
  obtain ⟨-, r, hr, hrn, -, -, hq, -⟩ := C53_wanted_queues is p c conf cap now hs hup' w hw
  refine ⟨r.id, ?_, hq⟩
  rw [h1] at hr
  rw [hz]
  clear h3 hq h1 hup' hz
  generalize (Group.init.run is).db = db at *
  refine List.mem_map.mpr ⟨r, List.mem_filter.mpr ⟨hr, ?_⟩, by rw [hrn]⟩
  rw [List.nil_append, Bool.not_eq_true', ← Bool.not_eq_true]
  intro hin
  simp only [DB.plan, List.contains_iff_mem, pairIds, List.mem_append, List.mem_map] at hin
  have hex : ∃ x ∈ db.queues, x.id = r.id ∧ x ∈ unwanted db.queues (conf.map (correlate db.queues)) ∧
      ∀ p ∈ db.removedPairs conf, x.id ≠ p.1.id ∧ x.id ≠ p.2.id := by
    have hmain : ∀ p : QRow × QRow, p ∈ (joined (unwanted db.queues (conf.map (correlate db.queues)))).filter hasMessages →
        p.1 ∈ unwanted db.queues (conf.map (correlate db.queues)) ∧ p.2 ∈ unwanted db.queues (conf.map (correlate db.queues)) ∧
        ∀ p' ∈ db.removedPairs conf, p'.1.id ≠ p.1.id := by
      intro p hp
      obtain ⟨hj, hh⟩ := List.mem_filter.mp hp
      have hjj := hj
      unfold joined at hjj
      obtain ⟨x, hx1, hx2⟩ := List.mem_filterMap.mp hjj
      rw [Option.map_eq_some_iff] at hx2
      obtain ⟨y, hy, rfl⟩ := hx2
      refine ⟨(List.mem_filter.mp hx1).1, List.mem_of_find?_eq_some hy, ?_⟩
      intro p' hp' he
      obtain ⟨hj', hh'⟩ := List.mem_filter.mp hp'
      have s1 := joined_spec hi hj
      have s2 := joined_spec hi hj'
      have e1 : p'.1 = x := eq_of_nodup_map hi.paired.nodup s2.2.2.1 s1.2.2.1 he
      have e2 : p'.2 = y := eq_of_nodup_map hi.paired.nodup s2.2.2.2 s1.2.2.2 (by rw [s2.2.1, s1.2.1, he])
      have : p' = (x, y) := Prod.ext e1 e2
      rw [this] at hh'
      simp only [Bool.not_eq_true'] at hh'
      rw [hh'] at hh; exact absurd hh (by simp)
    rcases hin with ⟨p, hp, hid⟩ | ⟨p, hp, hid⟩
    all_goals
      obtain ⟨z1, z2, z3⟩ := hmain p hp
      have s1 := joined_spec hi (List.mem_filter.mp hp).1
    · refine ⟨p.1, s1.2.2.1, hid, z1, ?_⟩
      intro p' hp'
      have s2 := joined_spec hi (List.mem_filter.mp hp').1
      have := z3 p' hp'
      have := id_pos hi s2.2.2.1
      have := id_pos hi s2.2.2.2
      have := id_pos hi s1.2.2.2
      omega
    · refine ⟨p.2, s1.2.2.2, hid, z2, ?_⟩
      intro p' hp'
      have s2 := joined_spec hi (List.mem_filter.mp hp').1
      have := z3 p' hp'
      have := id_pos hi s2.2.2.1
      have := id_pos hi s2.2.2.2
      have := id_pos hi s1.2.2.2
      have := id_pos hi s1.2.2.1
      omega
  obtain ⟨x, hx, hxid, hxz, hxr⟩ := hex
  obtain ⟨old, new, hqs, hk, -, -⟩ := configure_rows hi hnm conf hup
  have hxo : x.key ∈ keys old := by
    rw [hk]
    refine List.mem_map_of_mem (List.mem_filter.mpr ⟨hx, ?_⟩)
    simp only [Bool.not_eq_true', List.any_eq_false, Bool.or_eq_true, beq_iff_eq, not_or]
    exact hxr
  obtain ⟨r', hr', hkey⟩ := List.mem_map.mp hxo
  simp only [QRow.key, Prod.mk.injEq] at hkey
  have hrr : r' = r := eq_of_nodup_map (hi.step (.configure conf)).paired.nodup (show r' ∈ (db.configure conf).1.queues by rw [hqs]; exact List.mem_append_left _ hr') hr
    (by show r'.id = r.id; omega)
  have hname : x.name = w.name := by rw [← hkey.2.1, hrr]; exact hrn
  have hc : (correlate db.queues w).id = x.id := by
    have := qid_of_unique hu hx
    unfold DB.qid? at this
    unfold correlate
    rw [hname] at this
    cases hf : db.queues.find? (fun r => r.name == w.name) with
    | none => rw [hf] at this; simp at this
    | some y => rw [hf] at this; simpa using this
  unfold unwanted at hxz
  have := (List.mem_filter.mp hxz).2
  simp only [Bool.not_eq_true', List.any_eq_false, Bool.or_eq_true, beq_iff_eq, not_or] at this
  exact (this _ (List.mem_map_of_mem hw)).1 hc.symm

/-- A queue that was to be removed while it held messages stays out of every answer until the group is restarted, also if it is
wanted again. -/
theorem C51_refuted : ¬ ∀ (is : List In) (p c : Nat) (conf : List Conf) (cap : Option Int) (now : Time), Sensible conf →
    ((Group.init.run is).step (.configure p c conf cap now)).up = true →
    ∃ qs, Ev.send p c (.configured qs) ∈ ((Group.init.run is).step (.configure p c conf cap now)).tr ∧ ∀ w ∈ conf, ∃ q, (q, w.name) ∈ qs := by
  intro h
  obtain ⟨qs, h1, h2⟩ := h [exStart, exEnq 1 10 none 3 2, .idle 3, .configure 900 1 [] none 4, .idle 5] 900 2 exOneQueue none 6
    ⟨by decide, by decide⟩ (by decide +kernel)
  obtain ⟨q, hq⟩ := h2 _ (List.mem_singleton.mpr rfl)
  have : ((Group.init.run [exStart, exEnq 1 10 none 3 2, .idle 3, .configure 900 1 [] none 4, .idle 5]).step
      (.configure 900 2 exOneQueue none 6)).tr.filterMap (fun e => match e with | .send 900 2 (.configured q) => some q | _ => none) = [[]] := by decide +kernel
  have hin : qs ∈ [([] : List (Qid × Name))] := by rw [← this]; exact List.mem_filterMap.mpr ⟨_, h1, rfl⟩
  simp only [List.mem_singleton] at hin
  rw [hin] at hq; simp at hq

example : (Group.init.run [exStart]).zombies = [] ∧
    ((Group.init.run [exStart]).step (.configure 900 1 [⟨['b'], 0, 0⟩, ⟨['a'], 0, 0⟩] none 4)).tr.getLast? =
      some (.send 900 1 (.configured [(1, ['a', '.', 'e', 'r', 'r', 'o', 'r']), (2, ['a']), (3, ['b', '.', 'e', 'r', 'r', 'o', 'r']), (4, ['b'])])) := by decide +kernel

/-! ## C54: a sensible configuration is accepted -/

/-- A configuration without a clash of names is accepted, if no transaction holds messages added but not committed.
Missing: with such messages it may be rejected (`C54_refuted`). -/
theorem C54_accepted_partial (is : List In) (p c : Nat) (conf : List Conf) (cap : Option Int) (now : Time) (hs : Sensible conf)
    (hclash : ∀ w ∈ conf, ∀ r ∈ (Group.init.run is).db.queues, r.name ≠ errorName w.name ∨ (Group.init.run is).db.qid? w.name ≠ none)
    (hm : ∀ m ∈ (Group.init.run is).db.msgs, m.state ≠ .added) :
    ((Group.init.run is).step (.configure p c conf cap now)).up = true := by
  rw [configure_up]
  obtain ⟨hi, hnm, hu⟩ := db_facts is
  generalize (Group.init.run is).db = db at *
  refine configure_ok hi hnm hu conf hs (fun w hw hq r hr => (hclash w hw r hr).resolve_right fun h => h hq) ?_
  intro p hp m hmm
  obtain ⟨hj, hh⟩ := List.mem_filter.mp hp
  have hsp := joined_spec hi hj
  simp only [hasMessages, Bool.not_eq_true', Bool.or_eq_false_iff, decide_eq_false_iff_not] at hh
  exact ⟨fun he => hh.1 (count_pos hi hsp.2.2.1 hm hmm he), fun he => hh.2 (count_pos hi hsp.2.2.2 hm hmm he)⟩

/-- A queue that holds nothing but a message of a transaction in progress is removed from the configuration: the group fails and
ends. -/
theorem C54_refuted : ¬ ∀ (is : List In) (p c : Nat) (conf : List Conf) (cap : Option Int) (now : Time), Sensible conf →
    (∀ w ∈ conf, ∀ r ∈ (Group.init.run is).db.queues, r.name ≠ errorName w.name ∨ (Group.init.run is).db.qid? w.name ≠ none) →
    ((Group.init.run is).step (.configure p c conf cap now)).up = true := by
  intro h
  have := h [exStart, exEnq 1 10 (some ⟨5, 1⟩) 3 2] 900 1 [] none 4 ⟨by decide, by decide⟩ (by simp)
  revert this
  decide +kernel

example : (∀ m ∈ (Group.init.run [exStart, exEnq 1 10 none 3 2, .idle 3, exDeq 2 (some ⟨5, 1⟩) false 4]).db.msgs, m.state ≠ .added) ∧
    (Group.init.run [exStart, exEnq 1 10 none 3 2, .idle 3, exDeq 2 (some ⟨5, 1⟩) false 4]).db.msgs.map (·.state) = [.dequeued] := by decide +kernel

end Casual.Queue

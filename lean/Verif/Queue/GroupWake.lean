import Verif.Queue.GroupOps

/-! Blocked dequeue requests are served. -/
namespace Casual.Queue

/-- There is a message for request `r`: in its queue, committed, not taken, available, and it fits the selector. -/
def Waiting (db : DB) (r : DeqReq) (now : Time) : Prop :=
  ∃ m ∈ db.msgs, m.queue = r.queue ∧ m.state = .enqueued ∧ m.available < now ∧ r.sel.matches_ m

theorem select_none {db : DB} {r : DeqReq} {now} (h : db.select r.queue r.sel now = none) : ¬ Waiting db r now := by
  rintro ⟨m, hm, h1, h2, h3, h4⟩
  unfold DB.select at h
  cases hs : r.sel with
  | any =>
    rw [hs] at h
    have := firstBy_none.mp h
    rw [List.filter_eq_nil_iff] at this
    exact this m hm (by simp [h1, h2, h3])
  | byId id =>
    rw [hs] at h h4
    rw [List.find?_eq_none] at h
    exact h m hm (by simp [h1, h2]; exact h4)
  | byProperties p =>
    rw [hs] at h h4
    have := firstBy_none.mp h
    rw [List.filter_eq_nil_iff] at this
    exact this m hm (by simp [h1, h2, h3]; exact h4)

/-- The number of committed messages nobody has taken. -/
def free (db : DB) (q : Qid) : Nat := db.msgs.countP fun m => m.queue == q && m.state == .enqueued

theorem dequeue_msgs {db : DB} {q sel trid now m} (hs : db.select q sel now = some m) :
    (db.dequeue q sel trid now).1.msgs =
      match trid with
      | some t => db.msgs.map fun x => if x.id == m.id then { x with gtrid := some t, state := .dequeued } else x
      | none => db.msgs.filter fun x => !(x.id == m.id) := by
  unfold DB.dequeue
  rw [hs]
  cases trid <;> rfl

theorem dequeue_none {db : DB} {q sel trid now} (hs : db.select q sel now = none) : (db.dequeue q sel trid now).1 = db := by
  unfold DB.dequeue
  rw [hs]

/-- A dequeue brings no new messages. -/
theorem mem_dequeue {db : DB} {q sel trid now x} (hx : x ∈ (db.dequeue q sel trid now).1.msgs) (hs : x.state = .enqueued) : x ∈ db.msgs := by
  cases hsel : db.select q sel now with
  | none => rw [dequeue_none hsel] at hx; exact hx
  | some m =>
    rw [dequeue_msgs hsel] at hx
    cases trid with
    | none => exact (List.mem_filter.mp hx).1
    | some t =>
      obtain ⟨y, hy, rfl⟩ := List.mem_map.mp hx
      split at hs
      · simp at hs
      · rw [if_neg (by assumption)]; exact hy

theorem Waiting.dequeue {db : DB} {q sel trid now r now'} (h : Waiting (db.dequeue q sel trid now).1 r now') : Waiting db r now' := by
  obtain ⟨m, hm, h1, h2, h3⟩ := h
  exact ⟨m, mem_dequeue hm h2, h1, h2, h3⟩

theorem countP_split' {α : Type} (p f : α → Bool) (l : List α) : l.countP p = (l.filter f).countP p + (l.filter fun x => !f x).countP p := by
  induction l with
  | nil => rfl
  | cons a l ih =>
    cases hf : f a <;> simp [List.countP_cons, List.filter_cons, hf, ih] <;> omega

theorem free_dequeue {db : DB} {q sel trid now m} (hs : db.select q sel now = some m) : free (db.dequeue q sel trid now).1 q + 1 ≤ free db q := by
  obtain ⟨h1, h2, -⟩ := select_fits hs
  have hmem : m ∈ db.msgs := by
    unfold DB.select at hs
    cases sel with
    | any => exact (List.mem_filter.mp (firstBy_mem hs)).1
    | byId id => exact List.mem_of_find?_eq_some hs
    | byProperties p => exact (List.mem_filter.mp (firstBy_mem hs)).1
  have hsp := countP_split' (fun m : Msg => m.queue == q && m.state == .enqueued) (fun x => x.id == m.id) db.msgs
  have hpos : 1 ≤ (db.msgs.filter fun x => x.id == m.id).countP fun m => m.queue == q && m.state == .enqueued :=
    List.countP_pos_iff.mpr ⟨m, List.mem_filter.mpr ⟨hmem, by simp⟩, by simp [h1, h2]⟩
  have hle : free (db.dequeue q sel trid now).1 q = (db.msgs.filter fun x => !(x.id == m.id)).countP fun m => m.queue == q && m.state == .enqueued := by
    unfold free
    rw [dequeue_msgs hs]
    cases trid with
    | none => rfl
    | some t =>
      dsimp only
      rw [List.countP_map, List.countP_filter]
      congr 1
      funext x
      simp only [Function.comp_apply]
      split
      · next he => simp [he]
      · next he => simp [he]
  unfold free at hle ⊢
  omega

theorem free_dequeue_le (db : DB) (q' q sel trid now) : free (db.dequeue q sel trid now).1 q' ≤ free db q' := by
  unfold free
  cases hs : db.select q sel now with
  | none => rw [dequeue_none hs]; exact Nat.le_refl _
  | some m =>
    rw [dequeue_msgs hs]
    cases trid with
    | none => exact List.Sublist.countP_le (List.filter_sublist)
    | some t =>
      dsimp only
      rw [List.countP_map]
      apply List.countP_mono_left
      intro x _
      simp only [Function.comp_apply]
      split
      · simp
      · exact id

theorem free_zero {db : DB} {r : DeqReq} {now} (h : free db r.queue = 0) : ¬ Waiting db r now := by
  rintro ⟨m, hm, h1, h2, -⟩
  unfold free at h
  rw [List.countP_eq_zero] at h
  exact h m hm (by simp [h1, h2])

/-- What serving does to the database. -/
structure Served (now : Time) (g g' : Group) : Prop where
  inv : Inv g'.db
  waiting : ∀ r now', Waiting g'.db r now' → Waiting g.db r now'
  free : ∀ q, free g'.db q ≤ free g.db q

theorem Served.rfl' {g : Group} (h : Inv g.db) (now) : Served now g g := ⟨h, fun _ _ h => h, fun _ => Nat.le_refl _⟩
theorem Served.trans {now} {a b c : Group} (h : Served now a b) (h' : Served now b c) : Served now a c :=
  ⟨h'.inv, fun r n hw => h.waiting r n (h'.waiting r n hw), fun q => Nat.le_trans (h'.free q) (h.free q)⟩

theorem Served.dequeueOne {g : Group} (h : Inv g.db) (req : DeqReq) (now) : Served now g (g.dequeueOne req now).1 := by
  have key : ∀ (g' : Group) q, g'.db = (g.db.dequeue q req.sel (req.trid.map (·.g)) now).1 → Served now g g' := by
    intro g' q he
    refine ⟨?_, ?_, ?_⟩
    · rw [he]; exact h.step (.dequeue q req.sel (req.trid.map (·.g)) now)
    · intro r n hw; rw [he] at hw; exact hw.dequeue
    · intro q'; rw [he]; exact free_dequeue_le ..
  have key' : ∀ g' : Group, g'.db = g.db → Served now g g' := by
    intro g' he
    exact ⟨by rw [he]; exact h, fun r n hw => by rw [he] at hw; exact hw, fun q => by rw [he]; exact Nat.le_refl _⟩
  unfold Group.dequeueOne
  split
  · exact key' _ rfl
  · next q _ =>
    split
    · dsimp only
      split
      · exact key _ q (same_involve _ _).db
      · exact key _ q rfl
    · split
      · dsimp only
        split
        · exact key' _ (same_arm _ _ _).db
        · exact key' _ rfl
      · exact key' _ rfl

/-- Serving a blocked request: it gets a message and there is one less, or there is none for it and it is blocked again. -/
theorem dequeueOne_blocked {g : Group} {r : DeqReq} {now} (hq : r.queue ≠ 0) (hb : r.block = true) :
    ((g.dequeueOne r now).2 = true ∧ (g.dequeueOne r now).1.dequeues = g.dequeues ∧ free (g.dequeueOne r now).1.db r.queue + 1 ≤ free g.db r.queue) ∨
    ((g.dequeueOne r now).2 = false ∧ (g.dequeueOne r now).1.dequeues = g.dequeues ++ [r] ∧ (g.dequeueOne r now).1.db = g.db ∧ ¬ Waiting g.db r now) := by
  have ht : g.target r.queue r.name = some r.queue := by unfold Group.target; rw [if_pos hq]
  unfold Group.dequeueOne
  rw [ht]
  dsimp only
  cases hs : g.db.select r.queue r.sel now with
  | some m =>
    left
    dsimp only
    have h1 := free_dequeue (trid := r.trid.map (·.g)) hs
    have hinv : ∀ (g : Group) t, (g.involve t).dequeues = g.dequeues := by
      intro g t; unfold Group.involve; split <;> rfl
    cases htr : r.trid with
    | some t =>
      dsimp only
      refine ⟨rfl, hinv _ t, ?_⟩
      show free (Group.involve _ t).db _ + 1 ≤ _
      rw [(same_involve _ t).db]
      rw [htr] at h1
      exact h1
    | none =>
      refine ⟨rfl, rfl, ?_⟩
      rw [htr] at h1
      exact h1
  | none =>
    right
    dsimp only
    rw [if_pos hb]
    refine ⟨rfl, ?_, ?_, select_none hs⟩
    · have hr : ({ r with queue := r.queue } : DeqReq) = r := rfl
      dsimp only
      split
      · rw [(dequeues_arm g _ now).1]
      · rfl
    · dsimp only
      split
      · exact (same_arm g _ now).db
      · rfl

theorem serve_waiting {now : Time} {q : Qid} {rs : List DeqReq} {g : Group} (hi : Inv g.db) (count : Int)
    (hr : ∀ r ∈ rs, r.queue = q ∧ r.queue ≠ 0 ∧ r.block = true) (hc : (free g.db q : Int) ≤ count) :
    Served now g (g.serve now count rs) ∧
    ∀ r ∈ (g.serve now count rs).dequeues, r ∈ g.dequeues ∨ (r ∈ rs ∧ ¬ Waiting (g.serve now count rs).db r now) := by
  induction rs generalizing g count with
  | nil => exact ⟨Served.rfl' hi now, fun r hr => Or.inl hr⟩
  | cons r rs ih =>
    unfold Group.serve
    split
    · next hlt =>
      refine ⟨⟨hi, fun _ _ h => h, fun _ => Nat.le_refl _⟩, ?_⟩
      intro x hx
      rcases List.mem_append.mp hx with hx | hx
      · exact Or.inl hx
      · refine Or.inr ⟨hx, free_zero ?_⟩
        rw [(hr x hx).1]
        show free g.db q = 0
        omega
    · obtain ⟨h1, h2, h3⟩ := hr r (by simp)
      have hs := Served.dequeueOne hi r now
      rcases dequeueOne_blocked (g := g) (now := now) h2 h3 with ⟨ho, hd, hf⟩ | ⟨ho, hd, hdb, hw⟩
      · generalize g.dequeueOne r now = x at hs ho hd hf ⊢
        obtain ⟨g1, ok⟩ := x
        dsimp only at hs ho hd hf ⊢
        subst ho
        rw [h1] at hf
        obtain ⟨a, b⟩ := ih hs.inv (count - 1) (fun x hx => hr x (by simp [hx])) (by omega)
        simp only [if_true]
        refine ⟨hs.trans a, ?_⟩
        intro x hx
        rcases b x hx with hx | ⟨hx, hw⟩
        · rw [hd] at hx; exact Or.inl hx
        · exact Or.inr ⟨by simp [hx], hw⟩
      · generalize g.dequeueOne r now = x at hs ho hd hdb ⊢
        obtain ⟨g1, ok⟩ := x
        dsimp only at hs ho hd hdb ⊢
        subst ho
        obtain ⟨a, b⟩ := ih hs.inv count (fun x hx => hr x (by simp [hx])) (by rw [hdb]; exact hc)
        simp only [Bool.false_eq_true, if_false]
        refine ⟨hs.trans a, ?_⟩
        intro x hx
        rcases b x hx with hx | ⟨hx, hw⟩
        · rw [hd] at hx
          rcases List.mem_append.mp hx with hx | hx
          · exact Or.inl hx
          · simp at hx; subst hx
            refine Or.inr ⟨by simp, fun hw' => hw ?_⟩
            have := a.waiting _ _ hw'
            rw [hdb] at this; exact this
        · exact Or.inr ⟨by simp [hx], hw⟩

theorem serves_waiting {now : Time} {rs : Available → List DeqReq} (hr : ∀ a, ∀ r ∈ rs a, r.queue = a.queue ∧ r.queue ≠ 0 ∧ r.block = true)
    (l : List Available) {g : Group} (hi : Inv g.db) (hc : ∀ a ∈ l, (free g.db a.queue : Int) ≤ a.count) :
    let g' := l.foldl (fun g a => g.serve now a.count (rs a)) g
    Served now g g' ∧ ∀ r ∈ g'.dequeues, r ∈ g.dequeues ∨ ¬ Waiting g'.db r now := by
  induction l generalizing g with
  | nil => exact ⟨Served.rfl' hi now, fun r hr => Or.inl hr⟩
  | cons a l ih =>
    obtain ⟨h1, h2⟩ := serve_waiting (now := now) hi a.count (hr a) (hc a (by simp))
    obtain ⟨h3, h4⟩ := ih (g := g.serve now a.count (rs a)) h1.inv (fun x hx => by
      have := h1.free x.queue
      have := hc x (by simp [hx])
      omega)
    refine ⟨h1.trans h3, ?_⟩
    intro r hx
    rcases h4 r hx with hx | hx
    · rcases h2 r hx with hx | hx
      · exact Or.inl hx
      · exact Or.inr fun hw => hx.2 (h3.waiting _ _ hw)
    · exact Or.inr hx

theorem free_le_count {db : DB} (h : Inv db) {r : QRow} (hr : r ∈ db.queues) : (free db r.id : Int) ≤ r.count := by
  have h1 := (h.exact_ r hr).1
  rw [(sumOf_counted r.id db.msgs).1] at h1
  rw [h1]
  unfold free
  have : db.msgs.countP (fun m => m.queue == r.id && m.state == .enqueued) ≤ ((db.msgs.filter fun m => m.queue == r.id).filter fun m => m.state != .added).length := by
    rw [List.filter_filter, ← List.countP_eq_length_filter]
    apply List.countP_mono_left
    intro x _ hx
    simp only [Bool.and_eq_true, beq_iff_eq] at hx
    simp [hx.1, hx.2]
  omega

theorem min?_le {l : List Int} {a w : Int} (ha : a ∈ l) (hw : l.min? = some w) : w ≤ a :=
  (List.min?_eq_some_iff.mp hw).2 a ha

/-- If there is a message for a blocked request, its queue is among those with available messages. -/
theorem availables_waiting {db : DB} (h : Inv db) {r : DeqReq} {now} {qs : List Qid} (hq : r.queue ∈ qs) (hw : Waiting db r now) :
    ∃ a ∈ db.availables qs, a.queue = r.queue ∧ a.when_ ≤ now := by
  obtain ⟨m, hm, h1, h2, h3, -⟩ := hw
  obtain ⟨row, hrow, hid⟩ := (h.msgs m hm).fk
  have hf : 0 < free db row.id := List.countP_pos_iff.mpr ⟨m, hm, by simp [h2, hid]⟩
  have hcount := free_le_count h hrow
  refine ⟨{ queue := row.id, count := row.count, when_ := (db.available row.id).getD 0 }, ?_, hid.trans h1, ?_⟩
  · unfold DB.availables
    refine List.mem_map.mpr ⟨row, List.mem_filter.mpr ⟨List.mem_filter.mpr ⟨hrow, by simp; omega⟩, ?_⟩, rfl⟩
    rw [hid, h1]; simpa using hq
  · show (db.available row.id).getD 0 ≤ now
    unfold DB.available
    have hmem : m.available ∈ (db.msgs.filter fun m => m.queue == row.id && m.state == .enqueued).map (·.available) :=
      List.mem_map_of_mem (List.mem_filter.mpr ⟨hm, by simp [h2, hid]⟩)
    cases hmin : ((db.msgs.filter fun m => m.queue == row.id && m.state == .enqueued).map (·.available)).min? with
    | none =>
      rw [List.min?_eq_none_iff] at hmin
      rw [hmin] at hmem; simp at hmem
    | some w =>
      have := min?_le hmem hmin
      simp only [Option.getD_some]; omega

/-- After the blocked requests have been considered, there is no message for any of those that are still blocked. -/
theorem pending_waiting {g : Group} (hi : Inv g.db) (hb : ∀ r ∈ g.dequeues, r.queue ≠ 0 ∧ r.block = true) (now) :
    ∀ r ∈ (g.pendingDequeues now).dequeues, ¬ Waiting (g.pendingDequeues now).db r now := by
  unfold Group.pendingDequeues
  split
  · next he => intro r hr; rw [List.isEmpty_iff] at he; rw [he] at hr; simp at hr
  · dsimp only
    generalize hl : List.filter (fun a => decide (a.when_ ≤ now)) (g.db.availables (g.dequeues.map (·.queue))) = l
    generalize hg : ({ g with dequeues := g.dequeues.filter fun r => !l.any fun a => a.queue == r.queue } : Group) = g1
    have hdb : g1.db = g.db := by rw [← hg]
    have hk := serves_waiting (now := now) (rs := fun a => (g.dequeues.filter fun r => l.any fun a => a.queue == r.queue).filter fun r => a.queue == r.queue)
      (by
        intro a r hr
        obtain ⟨h1, h2⟩ := List.mem_filter.mp hr
        have h3 := (List.mem_filter.mp h1).1
        simp only [beq_iff_eq] at h2
        exact ⟨h2.symm, hb r h3⟩) l (g := g1) (by rw [hdb]; exact hi)
      (by
        intro a ha
        rw [hdb]
        rw [← hl] at ha
        have := (List.mem_filter.mp ha).1
        unfold DB.availables at this
        obtain ⟨row, hrow, rfl⟩ := List.mem_map.mp this
        exact free_le_count hi (List.mem_filter.mp (List.mem_filter.mp hrow).1).1)
    dsimp only at hk
    generalize hfin : List.foldl (fun g_1 a => Group.serve now g_1 a.count ((g.dequeues.filter fun r => l.any fun a => a.queue == r.queue).filter fun r => a.queue == r.queue)) g1 l = g2 at hk
    have main : ∀ r ∈ g2.dequeues, ¬ Waiting g2.db r now := by
      intro r hr
      rcases hk.2 r hr with h | h
      · intro hw
        have hw' := hk.1.waiting _ _ hw
        rw [hdb] at hw'
        rw [← hg] at h
        obtain ⟨h1, h2⟩ := List.mem_filter.mp h
        obtain ⟨a, ha, ha1, ha2⟩ := availables_waiting hi (List.mem_map_of_mem (f := fun r : DeqReq => r.queue) h1) hw'
        simp only [Bool.not_eq_true', List.any_eq_false, beq_iff_eq] at h2
        refine h2 a ?_ ha1
        rw [← hl]; exact List.mem_filter.mpr ⟨ha, by simpa using ha2⟩
      · exact h
    split
    · rw [(dequeues_setTimer _ _ _).1, (same_setTimer _ _ _).db]; exact main
    · exact main

end Casual.Queue

import Verif.Queue.Config

/-!
# Invariants of the queuebase

Helper definitions and lemmas; the properties are in `Props.lean`.
-/
namespace Casual.Queue

/-! ## Counting -/

/-- A stored message that is not an uncommitted enqueue. -/
def counted (q : Qid) (m : Msg) : Int := if m.queue = q ∧ m.state ≠ .added then 1 else 0
def sized (q : Qid) (m : Msg) : Int := if m.queue = q ∧ m.state ≠ .added then m.length else 0
def pendingOf (q : Qid) (m : Msg) : Int := if m.queue = q ∧ m.state = .added then 1 else 0

def sumOf (f : Msg → Int) (ms : List Msg) : Int := (ms.map f).sum

@[simp] theorem sumOf_nil (f : Msg → Int) : sumOf f [] = 0 := rfl
@[simp] theorem sumOf_cons (f : Msg → Int) (m : Msg) (ms : List Msg) : sumOf f (m :: ms) = f m + sumOf f ms := by
  simp [sumOf]
@[simp] theorem sumOf_append (f : Msg → Int) (a b : List Msg) : sumOf f (a ++ b) = sumOf f a + sumOf f b := by
  simp [sumOf]

theorem sumOf_filter (f : Msg → Int) (p : Msg → Bool) (ms : List Msg) :
    sumOf f (ms.filter fun m => !p m) = sumOf f ms - sumOf f (ms.filter p) := by
  induction ms with
  | nil => rfl
  | cons m ms ih =>
    by_cases h : p m
    · simp [h]; omega
    · simp [h]; omega

theorem sumOf_update (f : Msg → Int) (p : Msg → Bool) (g : Msg → Msg) (ms : List Msg) :
    sumOf f (ms.map fun m => if p m then g m else m) = sumOf f ms + sumOf (fun m => f (g m) - f m) (ms.filter p) := by
  induction ms with
  | nil => rfl
  | cons m ms ih =>
    by_cases h : p m
    · simp [h]; omega
    · simp [h]; omega

/-- The queue table `b` is `a` with the counters of each queue changed by the given amounts. -/
def Shift (dc ds du : Qid → Int) (a b : List QRow) : Prop :=
  ∃ g : QRow → QRow, b = a.map g ∧ ∀ r, (g r).id = r.id ∧ (g r).name = r.name ∧ (g r).retryCount = r.retryCount ∧
    (g r).retryDelay = r.retryDelay ∧ (g r).error = r.error ∧
    (g r).count = r.count + dc r.id ∧ (g r).size = r.size + ds r.id ∧ (g r).uncommitted = r.uncommitted + du r.id

theorem Shift.rfl' {a : List QRow} : Shift (fun _ => 0) (fun _ => 0) (fun _ => 0) a a :=
  ⟨id, by simp, by intro r; simp⟩

theorem Shift.trans {dc ds du ec es eu : Qid → Int} {a b c : List QRow} (h : Shift dc ds du a b) (h' : Shift ec es eu b c) :
    Shift (fun q => dc q + ec q) (fun q => ds q + es q) (fun q => du q + eu q) a c := by
  obtain ⟨g, hb, hg⟩ := h
  obtain ⟨k, hc, hk⟩ := h'
  refine ⟨fun r => k (g r), by rw [hc, hb, List.map_map]; rfl, ?_⟩
  intro r
  have h1 := hg r
  have h2 := hk (g r)
  obtain ⟨a1, a2, a3, a4, a5, a6, a7, a8⟩ := h1
  obtain ⟨b1, b2, b3, b4, b5, b6, b7, b8⟩ := h2
  rw [a1] at b6 b7 b8
  refine ⟨b1.trans a1, b2.trans a2, b3.trans a3, b4.trans a4, b5.trans a5, ?_, ?_, ?_⟩ <;> dsimp only <;> omega

theorem Shift.congr {dc ds du ec es eu : Qid → Int} {a b : List QRow} (h : Shift dc ds du a b)
    (h1 : ∀ q, dc q = ec q) (h2 : ∀ q, ds q = es q) (h3 : ∀ q, du q = eu q) : Shift ec es eu a b := by
  obtain ⟨g, hb, hg⟩ := h
  exact ⟨g, hb, fun r => by rw [← h1, ← h2, ← h3]; exact hg r⟩

theorem shift_onQueue (a : List QRow) (q : Qid) (f : QRow → QRow) (c s u : Int)
    (hf : ∀ r, (f r).id = r.id ∧ (f r).name = r.name ∧ (f r).retryCount = r.retryCount ∧ (f r).retryDelay = r.retryDelay ∧
      (f r).error = r.error ∧ (f r).count = r.count + c ∧ (f r).size = r.size + s ∧ (f r).uncommitted = r.uncommitted + u) :
    Shift (fun x => if q = x then c else 0) (fun x => if q = x then s else 0) (fun x => if q = x then u else 0) a (onQueue a q f) := by
  refine ⟨fun r => if r.id = q then f r else r, rfl, ?_⟩
  intro r
  by_cases h : r.id = q
  · simp only [h, if_true]
    have := hf r
    rw [h] at this
    exact this
  · have h' : ¬ q = r.id := fun e => h e.symm
    simp [h, h']

theorem shift_trigDelete (a : List QRow) (m : Msg) :
    Shift (fun q => - counted q m) (fun q => - sized q m) (fun q => - pendingOf q m) a (trigDelete a m) := by
  unfold trigDelete
  cases hs : m.state
  · refine (shift_onQueue a m.queue _ 0 0 (-1) ?_).congr ?_ ?_ ?_
    · intro r; simp; omega
    · intro q; simp [counted, hs]
    · intro q; simp [sized, hs]
    · intro q; simp only [pendingOf, hs, and_true]; split <;> simp
  all_goals
    refine (shift_onQueue a m.queue _ (-1) (- m.length) 0 ?_).congr ?_ ?_ ?_
    · intro r; simp; omega
    · intro q; simp only [counted, hs, and_true, ne_eq, reduceCtorEq, not_false_eq_true]; split <;> simp
    · intro q; simp only [sized, hs, and_true, ne_eq, reduceCtorEq, not_false_eq_true]; split <;> simp
    · intro q; simp [pendingOf, hs]

theorem shift_trigInsert (a : List QRow) (m : Msg) (h : m.state ≠ .dequeued) :
    Shift (fun q => counted q m) (fun q => sized q m) (fun q => pendingOf q m) a (trigInsert a m) := by
  unfold trigInsert
  cases hs : m.state
  · refine (shift_onQueue a m.queue _ 0 0 1 ?_).congr ?_ ?_ ?_
    · intro r; simp
    · intro q; simp [counted, hs]
    · intro q; simp [sized, hs]
    · intro q; simp only [pendingOf, hs, and_true]
  · refine (shift_onQueue a m.queue _ 1 m.length 0 ?_).congr ?_ ?_ ?_
    · intro r; simp
    · intro q; simp only [counted, hs, and_true, ne_eq, reduceCtorEq, not_false_eq_true]
    · intro q; simp only [sized, hs, and_true, ne_eq, reduceCtorEq, not_false_eq_true]
    · intro q; simp [pendingOf, hs]
  · exact absurd hs h

/-- A change of state the state trigger accounts for. -/
def GoodState (old new : Msg) : Prop :=
  new.queue = old.queue ∧ new.body = old.body ∧
    ((old.state = .added ∧ new.state = .enqueued) ∨ (old.state ≠ .added ∧ new.state ≠ .added))

theorem shift_trigState (a : List QRow) (old new : Msg) (h : GoodState old new) :
    Shift (fun q => counted q new - counted q old) (fun q => sized q new - sized q old)
      (fun q => pendingOf q new - pendingOf q old) a (trigState a old new) := by
  obtain ⟨hq, hb, hs⟩ := h
  have hl : new.length = old.length := by simp [Msg.length, hb]
  unfold trigState
  rcases hs with ⟨h1, h2⟩ | ⟨h1, h2⟩
  · rw [if_pos ⟨h1, h2⟩]
    refine (shift_onQueue a new.queue _ 1 new.length (-1) ?_).congr ?_ ?_ ?_
    · intro r; simp; omega
    · intro q; simp [counted, h1, h2]
    · intro q; simp [sized, h1, h2]
    · intro q; simp only [pendingOf, h1, h2, and_true, reduceCtorEq, and_false, if_false, hq]; split <;> simp
  · rw [if_neg (fun h => h1 h.1)]
    refine Shift.rfl'.congr ?_ ?_ ?_ <;> intro q <;> simp [counted, sized, pendingOf, h1, h2, hq, hl]

/-- A move the queue trigger accounts for. -/
def GoodMove (old new : Msg) : Prop := new.body = old.body ∧ new.state = old.state ∧ old.state ≠ .added

theorem shift_trigQueue (a : List QRow) (old new : Msg) (h : GoodMove old new) :
    Shift (fun q => counted q new - counted q old) (fun q => sized q new - sized q old)
      (fun q => pendingOf q new - pendingOf q old) a (trigQueue a old new) := by
  obtain ⟨hb, hs, hn⟩ := h
  have hl : new.length = old.length := by simp [Msg.length, hb]
  unfold trigQueue
  split
  · refine ((shift_onQueue a new.queue _ 1 new.length 0 ?_).trans (shift_onQueue _ old.queue _ (-1) (- old.length) 0 ?_)).congr ?_ ?_ ?_
    · intro r; simp
    · intro r; simp; omega
    · intro q; simp only [counted, hs, hn, ne_eq, not_false_eq_true, and_true]; split <;> split <;> simp
    · intro q; simp only [sized, hs, hn, ne_eq, not_false_eq_true, and_true]; split <;> split <;> omega
    · intro q; simp [pendingOf, hs, hn]
  · next heq =>
    have heq : new.queue = old.queue := by simpa using heq
    refine Shift.rfl'.congr ?_ ?_ ?_ <;> intro q <;> simp [counted, sized, pendingOf, hs, heq, hl]

theorem shift_foldl (trig : List QRow → Msg → List QRow) (dc ds du : Msg → Qid → Int) (ms : List Msg)
    (h : ∀ m ∈ ms, ∀ a, Shift (dc m) (ds m) (du m) a (trig a m)) (a : List QRow) :
    Shift (fun q => sumOf (fun m => dc m q) ms) (fun q => sumOf (fun m => ds m q) ms) (fun q => sumOf (fun m => du m q) ms)
      a (ms.foldl trig a) := by
  induction ms generalizing a with
  | nil => exact Shift.rfl'
  | cons m ms ih =>
    refine ((h m (by simp) a).trans (ih (fun x hx => h x (by simp [hx])) (trig a m))).congr ?_ ?_ ?_ <;> intro q <;> simp

/-! ## The invariant -/

/-- The counters of every queue are what a count of the message table gives. -/
def Exact (db : DB) : Prop :=
  ∀ r ∈ db.queues, r.count = sumOf (counted r.id) db.msgs ∧ r.size = sumOf (sized r.id) db.msgs ∧
    r.uncommitted = sumOf (pendingOf r.id) db.msgs

/-- Queues come in pairs: an error queue (odd id) and its queue (the next, even, id). -/
structure Paired (qs : List QRow) : Prop where
  nodup : (qs.map (·.id)).Nodup
  odd : ∀ r ∈ qs, r.id % 2 = 1 → r.error = 0 ∧ ∃ r' ∈ qs, r'.id = r.id + 1
  even : ∀ r ∈ qs, r.id % 2 = 0 → r.error = r.id - 1 ∧ 0 < r.id ∧ ∃ r' ∈ qs, r'.id + 1 = r.id

/-- What holds of every stored message. -/
structure MsgOk (qs : List QRow) (m : Msg) : Prop where
  fk : ∃ r ∈ qs, r.id = m.queue
  gtrid : m.state ≠ .enqueued → m.gtrid.isSome = true
  origin : m.queue = m.origin ∨ (m.origin % 2 = 0 ∧ m.queue + 1 = m.origin)

structure Inv (db : DB) : Prop where
  nodup : (db.msgs.map (·.id)).Nodup
  exact_ : Exact db
  paired : Paired db.queues
  msgs : ∀ m ∈ db.msgs, MsgOk db.queues m

theorem Inv.empty : Inv DB.empty :=
  ⟨by simp [DB.empty], by simp [DB.empty, Exact], ⟨by simp [DB.empty], by simp [DB.empty], by simp [DB.empty]⟩, by simp [DB.empty]⟩

theorem Shift.paired {dc ds du : Qid → Int} {a b : List QRow} (h : Shift dc ds du a b) (hp : Paired a) : Paired b := by
  obtain ⟨g, rfl, hg⟩ := h
  constructor
  · rw [List.map_map]
    have : (fun r : QRow => r.id) ∘ g = fun r => r.id := by funext r; exact (hg r).1
    rw [this]; exact hp.nodup
  · intro r hr ho
    obtain ⟨x, hx, rfl⟩ := List.mem_map.mp hr
    obtain ⟨h1, -, -, -, h5, -⟩ := hg x
    rw [h1] at ho ⊢
    obtain ⟨e, y, hy, hyx⟩ := hp.odd x hx ho
    exact ⟨h5.trans e, g y, List.mem_map_of_mem hy, (hg y).1.trans hyx⟩
  · intro r hr ho
    obtain ⟨x, hx, rfl⟩ := List.mem_map.mp hr
    obtain ⟨h1, -, -, -, h5, -⟩ := hg x
    rw [h1] at ho ⊢
    obtain ⟨e, hpos, y, hy, hyx⟩ := hp.even x hx ho
    exact ⟨h5.trans e, hpos, g y, List.mem_map_of_mem hy, by rw [(hg y).1]; exact hyx⟩

theorem Shift.fk {dc ds du : Qid → Int} {a b : List QRow} (h : Shift dc ds du a b) {q : Qid} (hq : ∃ r ∈ a, r.id = q) :
    ∃ r ∈ b, r.id = q := by
  obtain ⟨g, rfl, hg⟩ := h
  obtain ⟨r, hr, rfl⟩ := hq
  exact ⟨g r, List.mem_map_of_mem hr, (hg r).1⟩

theorem Shift.msgOk {dc ds du : Qid → Int} {a b : List QRow} (h : Shift dc ds du a b) {m : Msg} (hm : MsgOk a m) : MsgOk b m :=
  ⟨h.fk hm.fk, hm.gtrid, hm.origin⟩

theorem Shift.exact_ {dc ds du : Qid → Int} {a b : List QRow} {ms ms' : List Msg} (h : Shift dc ds du a b)
    (he : Exact ⟨ms, a⟩) (h1 : ∀ q, sumOf (counted q) ms' = sumOf (counted q) ms + dc q)
    (h2 : ∀ q, sumOf (sized q) ms' = sumOf (sized q) ms + ds q)
    (h3 : ∀ q, sumOf (pendingOf q) ms' = sumOf (pendingOf q) ms + du q) : Exact ⟨ms', b⟩ := by
  obtain ⟨g, rfl, hg⟩ := h
  intro r hr
  obtain ⟨x, hx, rfl⟩ := List.mem_map.mp hr
  obtain ⟨i1, -, -, -, -, i6, i7, i8⟩ := hg x
  have := he x hx
  simp only [i1, i6, i7, i8, h1, h2, h3]
  simp only at this
  omega

/-- The shape of the queue table is kept by `UPDATE` and `DELETE` on messages. -/
theorem shift_deleteWhere (db : DB) (p : Msg → Bool) :
    Shift (fun q => - sumOf (counted q) (db.msgs.filter p)) (fun q => - sumOf (sized q) (db.msgs.filter p))
      (fun q => - sumOf (pendingOf q) (db.msgs.filter p)) db.queues (db.deleteWhere p).queues := by
  have := shift_foldl trigDelete (fun m q => - counted q m) (fun m q => - sized q m) (fun m q => - pendingOf q m)
    (db.msgs.filter p) (fun m _ a => shift_trigDelete a m) db.queues
  have neg : ∀ (f : Msg → Int) (l : List Msg), sumOf (fun m => - f m) l = - sumOf f l := by
    intro f l
    induction l with
    | nil => rfl
    | cons m l ih => simp [ih]; omega
  refine this.congr ?_ ?_ ?_ <;> intro q <;> exact neg _ _

theorem shift_updateWhere (db : DB) (p : Msg → Bool) (f : Msg → Msg) (trig : List QRow → Msg → Msg → List QRow)
    (h : ∀ m ∈ db.msgs, p m = true → ∀ a, Shift (fun q => counted q (f m) - counted q m) (fun q => sized q (f m) - sized q m)
      (fun q => pendingOf q (f m) - pendingOf q m) a (trig a m (f m))) :
    Shift (fun q => sumOf (fun m => counted q (f m) - counted q m) (db.msgs.filter p))
      (fun q => sumOf (fun m => sized q (f m) - sized q m) (db.msgs.filter p))
      (fun q => sumOf (fun m => pendingOf q (f m) - pendingOf q m) (db.msgs.filter p))
      db.queues (db.updateWhere p f trig).queues :=
  shift_foldl (fun a m => trig a m (f m)) (fun m q => counted q (f m) - counted q m) (fun m q => sized q (f m) - sized q m)
    (fun m q => pendingOf q (f m) - pendingOf q m) (db.msgs.filter p)
    (fun m hm a => h m (List.mem_filter.mp hm).1 (List.mem_filter.mp hm).2 a) db.queues

theorem Inv.deleteWhere {db : DB} (h : Inv db) (p : Msg → Bool) : Inv (db.deleteWhere p) := by
  have hs := shift_deleteWhere db p
  refine ⟨?_, ?_, hs.paired h.paired, ?_⟩
  · exact List.Nodup.sublist (List.Sublist.map _ List.filter_sublist) h.nodup
  · refine hs.exact_ h.exact_ ?_ ?_ ?_ <;> intro q <;> rw [sumOf_filter] <;> omega
  · intro m hm
    exact hs.msgOk (h.msgs m (List.mem_filter.mp hm).1)

theorem Inv.updateWhere {db : DB} (h : Inv db) (p : Msg → Bool) (f : Msg → Msg) (trig : List QRow → Msg → Msg → List QRow)
    (hid : ∀ m, (f m).id = m.id)
    (ht : ∀ m ∈ db.msgs, p m = true → ∀ a, Shift (fun q => counted q (f m) - counted q m) (fun q => sized q (f m) - sized q m)
      (fun q => pendingOf q (f m) - pendingOf q m) a (trig a m (f m)))
    (hok : ∀ m ∈ db.msgs, p m = true → MsgOk db.queues (f m)) : Inv (db.updateWhere p f trig) := by
  have hs := shift_updateWhere db p f trig ht
  refine ⟨?_, ?_, hs.paired h.paired, ?_⟩
  · have : (db.updateWhere p f trig).msgs.map (·.id) = db.msgs.map (·.id) := by
      simp only [DB.updateWhere, List.map_map]
      congr 1; funext m
      simp only [Function.comp]
      split
      · exact hid m
      · rfl
    rw [this]; exact h.nodup
  · refine hs.exact_ h.exact_ ?_ ?_ ?_ <;> intro q <;> rw [sumOf_update]
  · intro m hm
    simp only [DB.updateWhere, List.mem_map] at hm
    obtain ⟨x, hx, rfl⟩ := hm
    by_cases hp : p x
    · simp only [hp, if_true]; exact hs.msgOk (hok x hx hp)
    · simp only [hp]; exact hs.msgOk (h.msgs x hx)

theorem Inv.insert {db : DB} (h : Inv db) (m : Msg) (h1 : m.state ≠ .dequeued) (h2 : m.state ≠ .enqueued → m.gtrid.isSome = true)
    (h3 : m.queue = m.origin) : Inv (db.insert m).1 := by
  unfold DB.insert
  split
  · exact h
  · next hn =>
    split
    · next hq =>
      have hs := shift_trigInsert db.queues m h1
      refine ⟨?_, ?_, hs.paired h.paired, ?_⟩
      · simp only [List.map_append, List.map_cons, List.map_nil]
        rw [List.nodup_append]
        refine ⟨h.nodup, by simp, ?_⟩
        intro a ha b hb
        simp only [List.mem_singleton] at hb
        obtain ⟨x, hx, rfl⟩ := List.mem_map.mp ha
        rintro rfl
        exact hn (List.any_eq_true.mpr ⟨x, hx, by simp [hb]⟩)
      · refine hs.exact_ h.exact_ ?_ ?_ ?_ <;> intro q <;> simp
      · intro x hx
        simp only [List.mem_append, List.mem_singleton] at hx
        rcases hx with hx | rfl
        · exact hs.msgOk (h.msgs x hx)
        · obtain ⟨r, hr, he⟩ := List.any_eq_true.mp hq
          refine hs.msgOk ⟨⟨r, hr, by simpa using he⟩, h2, Or.inl h3⟩
    · exact h

/-! ## Every operation keeps it -/

theorem Inv.enqueue {db : DB} (h : Inv db) (id q trid available body now) : Inv (db.enqueue id q trid available body now).1 := by
  unfold DB.enqueue
  cases trid with
  | none => exact h.insert _ (by simp) (by simp) rfl
  | some t => exact h.insert _ (by simp) (by simp) rfl

theorem Inv.take {db : DB} (h : Inv db) (id : MsgId) (t : Gtrid)
    (hm : ∀ m ∈ db.msgs, m.id = id → m.state = .enqueued) : Inv (db.take id t) := by
  unfold DB.take
  refine h.updateWhere _ _ _ (fun _ => rfl) ?_ ?_
  · intro m hmem hp a
    have := hm m hmem (by simpa using hp)
    exact shift_trigState a m _ ⟨rfl, rfl, Or.inr ⟨by simp [this], by simp⟩⟩
  · intro m hmem hp
    have := h.msgs m hmem
    exact ⟨this.fk, by simp, this.origin⟩

theorem firstBy_mem {lt : Msg → Msg → Bool} {l : List Msg} {m : Msg} (h : firstBy lt l = some m) : m ∈ l := by
  induction l generalizing m with
  | nil => simp [firstBy] at h
  | cons a l ih =>
    simp only [firstBy] at h
    split at h
    · simp at h; simp [h]
    · next x hx =>
      split at h
      · simp at h; subst h; exact List.mem_cons_of_mem _ (ih hx)
      · simp at h; simp [h]

theorem select_mem {db : DB} {q sel now m} (h : db.select q sel now = some m) :
    m ∈ db.msgs ∧ m.queue = q ∧ m.state = .enqueued := by
  unfold DB.select at h
  split at h
  · have h1 := List.mem_of_find?_eq_some h
    have h2 := List.find?_some h
    simp only [Bool.and_eq_true, beq_iff_eq] at h2
    exact ⟨h1, h2.1.2, h2.2⟩
  · have := firstBy_mem h
    simp only [List.mem_filter, Bool.and_eq_true, beq_iff_eq] at this
    exact ⟨this.1, this.2.1.1.1, this.2.1.1.2⟩
  · have := firstBy_mem h
    simp only [List.mem_filter, Bool.and_eq_true, beq_iff_eq] at this
    exact ⟨this.1, this.2.1.1, this.2.1.2⟩

theorem Inv.dequeue {db : DB} (h : Inv db) (q sel trid now) : Inv (db.dequeue q sel trid now).1 := by
  unfold DB.dequeue
  split
  · exact h
  · next m hm =>
    obtain ⟨h1, h2, h3⟩ := select_mem hm
    split
    · refine h.take _ _ ?_
      intro x hx hid
      rw [eq_of_nodup_map h.nodup hx h1 hid]; exact h3
    · exact h.deleteWhere _

theorem Inv.commit1 {db : DB} (h : Inv db) (t : Gtrid) : Inv (db.commit1 t) := by
  unfold DB.commit1
  refine h.updateWhere _ _ _ (fun _ => rfl) ?_ ?_
  · intro m hm hp a
    simp only [Bool.and_eq_true, beq_iff_eq] at hp
    exact shift_trigState a m _ ⟨rfl, rfl, Or.inl ⟨hp.2, rfl⟩⟩
  · intro m hm hp
    have := h.msgs m hm
    exact ⟨this.fk, by simp, this.origin⟩

theorem Inv.commit {db : DB} (h : Inv db) (t : Gtrid) : Inv (db.commit t).1 := (h.commit1 t).deleteWhere _

theorem Inv.rollback2 {db : DB} (h : Inv db) (t : Gtrid) (now : Time) : Inv (db.rollback2 t now) := by
  unfold DB.rollback2
  refine h.updateWhere _ _ _ (fun _ => rfl) ?_ ?_
  · intro m hm hp a
    simp only [isTaken, Bool.and_eq_true, beq_iff_eq] at hp
    exact shift_trigState a m _ ⟨rfl, rfl, Or.inr ⟨by simp [hp.2], by simp⟩⟩
  · intro m hm hp
    have := h.msgs m hm
    exact ⟨this.fk, by simp, this.origin⟩

theorem Inv.fkOk {db : DB} (h : Inv db) : db.fkOk = true := by
  unfold DB.fkOk
  rw [List.all_eq_true]
  intro m hm
  obtain ⟨r, hr, he⟩ := (h.msgs m hm).fk
  exact List.any_eq_true.mpr ⟨r, hr, by simp [he]⟩

/-- No uncommitted enqueue of the transaction is left. -/
def NoAdded (db : DB) (t : Gtrid) : Prop := ∀ m ∈ db.msgs, m.gtrid = some t → m.state ≠ .added

theorem Inv.rollback3' {db : DB} (h : Inv db) (t : Gtrid) (hn : NoAdded db t) :
    Inv (db.updateWhere (db.exhausted t) (fun m => { m with redelivered := 0, queue := m.queue - 1, available := 0 }) trigQueue) := by
  refine h.updateWhere _ _ _ (fun _ => rfl) ?_ ?_
  · intro m hm hp a
    simp only [DB.exhausted, Bool.and_eq_true, beq_iff_eq] at hp
    exact shift_trigQueue a m _ ⟨rfl, rfl, hn m hm hp.1.1⟩
  · intro m hm hp
    simp only [DB.exhausted, Bool.and_eq_true, beq_iff_eq] at hp
    have hok := h.msgs m hm
    obtain ⟨r, hr, he⟩ := hok.fk
    obtain ⟨h1, hpos, r', hr', he'⟩ := h.paired.even r hr (by rw [he]; exact hp.1.2)
    refine ⟨⟨r', hr', ?_⟩, hok.gtrid, ?_⟩
    · show r'.id = m.queue - 1; omega
    · rcases hok.origin with ho | ho
      · exact Or.inr ⟨by show m.origin % 2 = 0; omega, by show m.queue - 1 + 1 = m.origin; omega⟩
      · omega

theorem Inv.rollback3 {db : DB} (h : Inv db) (t : Gtrid) (hn : NoAdded db t) :
    Inv (db.rollback3 t).1 ∧ (db.rollback3 t).2 = .ok () := by
  unfold DB.rollback3
  have h' := h.rollback3' t hn
  simp only [h'.fkOk, if_true]
  exact ⟨h', trivial⟩

theorem noAdded_after (db : DB) (t : Gtrid) (now : Time) : NoAdded ((db.deleteWhere (isAdded t)).rollback2 t now) t := by
  intro m hm hg hs
  simp only [DB.rollback2, DB.updateWhere, List.mem_map] at hm
  obtain ⟨x, hx, rfl⟩ := hm
  by_cases hp : isTaken t x
  · simp [hp] at hs
  · simp only [hp] at hg hs
    simp only [DB.deleteWhere, List.mem_filter, isAdded] at hx
    simp at hg hs
    simp [hg, hs] at hx

theorem Inv.rollback {db : DB} (h : Inv db) (t : Gtrid) (now : Time) : Inv (db.rollback t now).1 := by
  unfold DB.rollback
  have h2 := ((h.deleteWhere (isAdded t)).rollback2 t now).rollback3 t (noAdded_after db t now)
  dsimp only
  split
  · next heq => simp [heq] at h2
  · next heq => simp [heq] at h2; exact h2

theorem Inv.recoveryCommit {db : DB} (h : Inv db) (ts : List Gtrid) : Inv (db.recoveryCommit ts).1 := by
  induction ts generalizing db with
  | nil => exact h
  | cons t ts ih =>
    unfold DB.recoveryCommit
    exact ih ((h.commit1 t).deleteWhere _)

theorem Inv.recoveryRollback {db : DB} (h : Inv db) (now : Time) (ts : List Gtrid) : Inv (db.recoveryRollback now ts).1 := by
  induction ts generalizing db with
  | nil => exact h
  | cons t ts ih =>
    unfold DB.recoveryRollback
    have h2 := ((h.deleteWhere (isAdded t)).rollback2 t now).rollback3 t (noAdded_after db t now)
    dsimp only
    split
    · next heq => simp [heq] at h2
    · next heq =>
      simp only [heq] at h2
      have := ih h2.1
      split
      · next heq' => rw [heq'] at this; exact this
      · next heq' => rw [heq'] at this; exact this

theorem Inv.restore' {db : DB} (h : Inv db) (q : Qid) :
    Inv (db.updateWhere (isRestorable q) (fun m => { m with queue := q }) trigQueue) := by
  refine h.updateWhere _ _ _ (fun _ => rfl) ?_ ?_
  · intro m hm hp a
    simp only [isRestorable, Bool.and_eq_true, beq_iff_eq] at hp
    exact shift_trigQueue a m _ ⟨rfl, rfl, by simp [hp.1.2]⟩
  · intro m hm hp
    simp only [isRestorable, Bool.and_eq_true, beq_iff_eq, bne_iff_ne, ne_eq] at hp
    have hok := h.msgs m hm
    obtain ⟨r, hr, he⟩ := hok.fk
    rcases hok.origin with ho | ho
    · exact absurd ho hp.1.1
    · obtain ⟨-, r', hr', he'⟩ := h.paired.odd r hr (by omega)
      exact ⟨⟨r', hr', by show r'.id = q; omega⟩, hok.gtrid, Or.inl hp.2.symm⟩

theorem Inv.restore {db : DB} (h : Inv db) (q : Qid) : Inv (db.restore q).1 := by
  unfold DB.restore
  have h' := h.restore' q
  simp only [h'.fkOk, if_true]
  exact h'

theorem Inv.clear {db : DB} (h : Inv db) (q : Qid) : Inv (db.clear q).1 := h.deleteWhere _

theorem Inv.remove {db : DB} (h : Inv db) (q : Qid) (ids : List MsgId) : Inv (db.remove q ids).1 := by
  induction ids generalizing db with
  | nil => exact h
  | cons id ids ih => unfold DB.remove; exact ih (h.deleteWhere _)

theorem Inv.forceRemove {db : DB} (h : Inv db) (q : Qid) (ids : List MsgId) : Inv (db.forceRemove q ids).1 := by
  induction ids generalizing db with
  | nil => exact h
  | cons id ids ih => unfold DB.forceRemove; exact ih (h.deleteWhere _)

/-- The queue table changed without touching the counters, ids or error queues. -/
theorem Inv.of_shift {db : DB} (h : Inv db) {qs : List QRow}
    (hs : ∃ g : QRow → QRow, qs = db.queues.map g ∧ ∀ r, (g r).id = r.id ∧ (g r).error = r.error ∧ (g r).count = r.count ∧
      (g r).size = r.size ∧ (g r).uncommitted = r.uncommitted) : Inv { db with queues := qs } := by
  obtain ⟨g, rfl, hg⟩ := hs
  refine ⟨h.nodup, ?_, ⟨?_, ?_, ?_⟩, ?_⟩
  · intro r hr
    obtain ⟨x, hx, rfl⟩ := List.mem_map.mp hr
    obtain ⟨h1, -, h3, h4, h5⟩ := hg x
    rw [h1, h3, h4, h5]; exact h.exact_ x hx
  · rw [List.map_map]
    have : (fun r : QRow => r.id) ∘ g = fun r => r.id := by funext r; exact (hg r).1
    rw [this]; exact h.paired.nodup
  · intro r hr ho
    obtain ⟨x, hx, rfl⟩ := List.mem_map.mp hr
    rw [(hg x).1] at ho ⊢
    obtain ⟨e, y, hy, hyx⟩ := h.paired.odd x hx ho
    exact ⟨(hg x).2.1.trans e, g y, List.mem_map_of_mem hy, (hg y).1.trans hyx⟩
  · intro r hr ho
    obtain ⟨x, hx, rfl⟩ := List.mem_map.mp hr
    rw [(hg x).1] at ho ⊢
    obtain ⟨e, hp, y, hy, hyx⟩ := h.paired.even x hx ho
    exact ⟨(hg x).2.1.trans e, hp, g y, List.mem_map_of_mem hy, by rw [(hg y).1]; exact hyx⟩
  · intro m hm
    obtain ⟨⟨r, hr, he⟩, h2, h3⟩ := h.msgs m hm
    exact ⟨⟨g r, List.mem_map_of_mem hr, (hg r).1.trans he⟩, h2, h3⟩

theorem Inv.metricReset {db : DB} (h : Inv db) (ids : List Qid) : Inv (db.metricReset ids) := by
  unfold DB.metricReset
  suffices ∀ qs, Inv { db with queues := qs } → Inv { db with queues := ids.foldl (fun qs q =>
      onQueue qs q fun r => { r with metricDequeued := 0, metricEnqueued := 0 }) qs } from this _ h
  induction ids with
  | nil => intro qs h; exact h
  | cons id ids ih =>
    intro qs h
    simp only [List.foldl_cons]
    apply ih
    refine h.of_shift ⟨fun r => if r.id = id then { r with metricDequeued := 0, metricEnqueued := 0 } else r, rfl, ?_⟩
    intro r; dsimp only; split <;> simp

/-! ### Reconfiguration -/

theorem Inv.updateQueueRow {db : DB} (h : Inv db) (q name rc rd) : Inv (db.updateQueueRow q name rc rd).1 := by
  unfold DB.updateQueueRow
  split
  · exact h
  · refine h.of_shift ⟨fun r => if r.id = q then { r with name := name, retryCount := rc, retryDelay := rd } else r, rfl, ?_⟩
    intro r; dsimp only; split <;> simp

theorem Inv.updateQueue {db : DB} (h : Inv db) (q name rc rd) : Inv (db.updateQueue q name rc rd).1 := by
  unfold DB.updateQueue
  split
  · exact h
  · split
    · next heq => have := h.updateQueueRow q name rc rd; rw [heq] at this; exact this
    · next heq => have := h.updateQueueRow q name rc rd; rw [heq] at this; exact this.updateQueueRow _ _ _ _

theorem foldl_max_ge (l : List Nat) (a : Nat) : a ≤ l.foldl max a ∧ ∀ x ∈ l, x ≤ l.foldl max a := by
  induction l generalizing a with
  | nil => simp
  | cons b l ih =>
    obtain ⟨h1, h2⟩ := ih (max a b)
    simp only [List.foldl_cons]
    refine ⟨by omega, ?_⟩
    intro x hx
    rcases List.mem_cons.mp hx with rfl | hx
    · omega
    · exact h2 x hx

theorem foldl_max_mem (l : List Nat) (a : Nat) : l.foldl max a = a ∨ l.foldl max a ∈ l := by
  induction l generalizing a with
  | nil => simp
  | cons b l ih =>
    simp only [List.foldl_cons]
    rcases ih (max a b) with h | h
    · rw [h]
      by_cases hab : a ≤ b
      · right; rw [Nat.max_eq_right hab]; simp
      · left; omega
    · right; simp [h]

/-- With paired queues the next id is odd. -/
theorem Paired.next {db : DB} (h : Paired db.queues) : db.nextQid % 2 = 1 ∧ 0 < db.nextQid ∧ ∀ r ∈ db.queues, r.id < db.nextQid := by
  unfold DB.nextQid
  have hge := foldl_max_ge (db.queues.map (·.id)) 0
  have hall : ∀ r ∈ db.queues, r.id ≤ (db.queues.map (·.id)).foldl max 0 := fun r hr => hge.2 _ (List.mem_map_of_mem hr)
  refine ⟨?_, by omega, fun r hr => by have := hall r hr; omega⟩
  rcases foldl_max_mem (db.queues.map (·.id)) 0 with h0 | h0
  · rw [h0]
  · obtain ⟨r, hr, he⟩ := List.mem_map.mp h0
    rw [← he]
    rcases Nat.mod_two_eq_zero_or_one r.id with h2 | h2
    · omega
    · obtain ⟨-, r', hr', he'⟩ := h.odd r hr h2
      have := hall r' hr'
      omega

/-- Creating a queue keeps the invariant, if both rows could be inserted. -/
theorem Inv.create {db : DB} (h : Inv db) (name rc rd) {q : Qid} (hok : (db.create name rc rd).2 = .ok q) :
    Inv (db.create name rc rd).1 := by
  obtain ⟨hodd, hpos, hlt⟩ := h.paired.next
  unfold DB.create at hok ⊢
  unfold DB.insertQueue at hok ⊢
  by_cases h1 : db.queues.any (fun r => r.name == errorName name) = true
  · simp [h1] at hok
  · simp only [h1, if_false, Bool.false_eq_true] at hok ⊢
    split at hok
    · simp at hok
    · next h2 =>
      rw [if_neg h2]
      generalize hd1 : ({ db with queues := db.queues ++ [_] } : DB) = db1 at hok ⊢
      have hn1 : db1.nextQid = db.nextQid + 1 := by
        subst hd1
        simp only [DB.nextQid, List.map_append, List.map_cons, List.map_nil, List.foldl_append, List.foldl_cons, List.foldl_nil]
        omega
      rw [hn1]
      have hnone : ∀ m ∈ db.msgs, m.queue < db.nextQid := by
        intro m hm
        obtain ⟨r, hr, he⟩ := (h.msgs m hm).fk
        rw [← he]; exact hlt r hr
      have hz : ∀ (f : Qid → Msg → Int) q, (∀ m, m.queue ≠ q → f q m = 0) → db.nextQid ≤ q → sumOf (f q) db.msgs = 0 := by
        intro f q hf hq
        have : ∀ l : List Msg, (∀ m ∈ l, m.queue < db.nextQid) → sumOf (f q) l = 0 := by
          intro l
          induction l with
          | nil => intro _; rfl
          | cons m l ih =>
            intro hl
            rw [sumOf_cons, hf m (by have := hl m (by simp); omega), ih (fun x hx => hl x (by simp [hx]))]; rfl
        exact this _ hnone
      subst hd1
      refine ⟨h.nodup, ?_, ⟨?_, ?_, ?_⟩, ?_⟩
      · intro r hr
        simp only [List.append_assoc, List.mem_append, List.mem_cons, List.cons_append, List.nil_append, List.not_mem_nil, or_false] at hr
        rcases hr with hr | rfl | rfl
        · exact h.exact_ r hr
        · refine ⟨(hz counted _ ?_ (Nat.le_refl _)).symm, (hz sized _ ?_ (Nat.le_refl _)).symm, (hz pendingOf _ ?_ (Nat.le_refl _)).symm⟩ <;>
            intro m hm <;> simp [counted, sized, pendingOf, hm]
        · refine ⟨(hz counted _ ?_ (Nat.le_succ _)).symm, (hz sized _ ?_ (Nat.le_succ _)).symm, (hz pendingOf _ ?_ (Nat.le_succ _)).symm⟩ <;>
            intro m hm <;> simp [counted, sized, pendingOf, hm]
      · simp only [List.map_append, List.map_cons, List.map_nil, List.append_assoc, List.cons_append, List.nil_append]
        rw [List.nodup_append]
        refine ⟨h.paired.nodup, by simp, ?_⟩
        intro a ha b hb
        obtain ⟨r, hr, rfl⟩ := List.mem_map.mp ha
        have := hlt r hr
        simp only [List.mem_cons, List.not_mem_nil, or_false] at hb
        omega
      · intro r hr ho
        simp only [List.append_assoc, List.mem_append, List.mem_cons, List.cons_append, List.nil_append, List.not_mem_nil, or_false] at hr ⊢
        rcases hr with hr | rfl | rfl
        · obtain ⟨e, y, hy, hyx⟩ := h.paired.odd r hr ho
          exact ⟨e, y, Or.inl hy, hyx⟩
        · exact ⟨rfl, _, Or.inr (Or.inr rfl), rfl⟩
        · simp only at ho; omega
      · intro r hr ho
        simp only [List.append_assoc, List.mem_append, List.mem_cons, List.cons_append, List.nil_append, List.not_mem_nil, or_false] at hr ⊢
        rcases hr with hr | rfl | rfl
        · obtain ⟨e, hp, y, hy, hyx⟩ := h.paired.even r hr ho
          exact ⟨e, hp, y, Or.inl hy, hyx⟩
        · simp only at ho; omega
        · exact ⟨by simp, by simp, _, Or.inr (Or.inl rfl), rfl⟩
      · intro m hm
        obtain ⟨⟨r, hr, he⟩, h2, h3⟩ := h.msgs m hm
        exact ⟨⟨r, by simp [hr], he⟩, h2, h3⟩

/-- Removing a queue (not an error queue) removes the pair. -/
theorem Inv.removeQueue {db : DB} (h : Inv db) (q : Qid) (hq : q % 2 = 0) (hok : (db.removeQueue q).2 = .ok ()) :
    Inv (db.removeQueue q).1 ∧ (db.removeQueue q).1.queues = db.queues.filter (fun r => r.id != q - 1 && r.id != q) := by
  unfold DB.removeQueue at hok ⊢
  cases hf : db.queue? q with
  | none =>
    simp only [hf]
    refine ⟨h, ?_⟩
    symm
    rw [List.filter_eq_self]
    intro r hr
    simp only [DB.queue?, List.find?_eq_none] at hf
    have h1 := hf r hr
    simp only [beq_iff_eq] at h1
    simp only [Bool.and_eq_true, bne_iff_ne, ne_eq]
    refine ⟨?_, h1⟩
    intro he
    by_cases hq0 : q = 0
    · subst hq0; simp at he; exact h1 he
    · obtain ⟨-, r', hr', he'⟩ := h.paired.odd r hr (by omega)
      have := hf r' hr'
      simp only [beq_iff_eq] at this
      omega
  | some ex =>
    have hmem : ex ∈ db.queues := List.mem_of_find?_eq_some hf
    have hid : ex.id = q := by simpa using List.find?_some hf
    obtain ⟨he, hp, -⟩ := h.paired.even ex hmem (by omega)
    rw [hid] at he hp
    simp only [hf] at hok ⊢
    simp only [he, hid] at hok ⊢
    unfold DB.deleteQueueRow at hok ⊢
    by_cases hm1 : db.msgs.any (fun m => m.queue == q - 1) = true
    · simp [hm1] at hok
    · simp only [hm1, if_false, Bool.false_eq_true] at hok ⊢
      by_cases hm2 : db.msgs.any (fun m => m.queue == q) = true
      · simp [hm2] at hok
      · simp only [hm2, if_false, Bool.false_eq_true]
        have hkeep : ∀ m ∈ db.msgs, m.queue ≠ q - 1 ∧ m.queue ≠ q := by
          intro m hm
          simp only [List.any_eq_true, not_exists, not_and, beq_iff_eq] at hm1 hm2
          exact ⟨hm1 m hm, hm2 m hm⟩
        have hfil : (db.queues.filter (fun r => r.id != q - 1)).filter (fun r => r.id != q) =
            db.queues.filter (fun r => r.id != q - 1 && r.id != q) := by
          rw [List.filter_filter]
          congr 1; funext r
          exact Bool.and_comm _ _
        refine ⟨?_, hfil⟩
        rw [hfil]
        have hmf : ∀ r, r ∈ db.queues.filter (fun r => r.id != q - 1 && r.id != q) ↔ r ∈ db.queues ∧ r.id ≠ q - 1 ∧ r.id ≠ q := by
          intro r; simp [List.mem_filter]
        refine ⟨h.nodup, ?_, ⟨?_, ?_, ?_⟩, ?_⟩
        · intro r hr
          exact h.exact_ r ((hmf r).mp hr).1
        · exact List.Nodup.sublist (List.Sublist.map _ List.filter_sublist) h.paired.nodup
        · intro r hr ho
          obtain ⟨h1, h2, h3⟩ := (hmf r).mp hr
          obtain ⟨e, y, hy, hyx⟩ := h.paired.odd r h1 ho
          exact ⟨e, y, (hmf y).mpr ⟨hy, by omega, by omega⟩, hyx⟩
        · intro r hr ho
          obtain ⟨h1, h2, h3⟩ := (hmf r).mp hr
          obtain ⟨e, hp', y, hy, hyx⟩ := h.paired.even r h1 ho
          exact ⟨e, hp', y, (hmf y).mpr ⟨hy, by omega, by omega⟩, hyx⟩
        · intro m hm
          obtain ⟨⟨r, hr, he'⟩, h2, h3⟩ := h.msgs m hm
          exact ⟨⟨r, (hmf r).mpr ⟨hr, by have := hkeep m hm; omega, by have := hkeep m hm; omega⟩, he'⟩, h2, h3⟩

end Casual.Queue

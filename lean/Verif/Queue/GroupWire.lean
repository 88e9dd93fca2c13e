import Verif.Queue.GroupSize

/-! What a group says to whom: involvement in transactions, and the answers to dequeue requests. -/
namespace Casual.Queue

/-- The transaction a reply says work has been done in. -/
def Reply.work : Reply → Option Trid
  | .enqueued t _ => t
  | .dequeued t _ => t
  | _ => none

/-- The transaction comes to its end in the group, or the process does. -/
def Ev.ends (t : Trid) : Ev → Prop
  | .recv (.commit _ _ t' _) => t' = t
  | .recv (.rollback _ _ t' _) => t' = t
  | .recv .crash => True
  | _ => False

/-- The transaction manager has been told that the group is involved in `t`, and `t` has not come to an end since. -/
def Told (tr : List Ev) (t : Trid) : Prop := ∃ a b, tr = a ++ .involve t :: b ∧ ∀ e ∈ b, ¬ e.ends t

/-- Each reply about work in a transaction is preceded by a word to the transaction manager. -/
def Informed (tr : List Ev) : Prop :=
  ∀ a b p c r t, tr = a ++ .send p c r :: b → r.work = some t → Told a t

/-- The selector fits the message. -/
def Selector.matches_ (sel : Selector) (m : Msg) : Prop :=
  match sel with
  | .any => True
  | .byId id => m.id = id
  | .byProperties p => m.body.properties = p

/-- Message `m` fits what the request asks for. -/
def Fits (req : DeqReq) (m : Msg) : Prop :=
  m.state = .enqueued ∧ (req.queue ≠ 0 → m.queue = req.queue) ∧ req.sel.matches_ m

/-- The request `r` is what somebody asked for. If the queue was not known by the caller, it is the one the name stands
for: `R name queue`. -/
def Asked (R : Name → Qid → Prop) (tr : List Ev) (r : DeqReq) : Prop :=
  ∃ req now, Ev.recv (.dequeue req now) ∈ tr ∧ (req.queue = 0 ∨ req.queue = r.queue) ∧ (req.queue = 0 → r.queue ≠ 0 → R req.name r.queue) ∧
    r = { req with queue := r.queue }

/-- The request `r` is what somebody asked for, and it can be blocked. -/
def Blocked (R : Name → Qid → Prop) (tr : List Ev) (r : DeqReq) : Prop := Asked R tr r ∧ r.queue ≠ 0 ∧ r.block = true

/-- The reply handing out `m` is an answer to a request. -/
def Answers (R : Name → Qid → Prop) (tr : List Ev) (p c : Nat) (t : Option Trid) (m : Msg) : Prop :=
  ∃ req now, Ev.recv (.dequeue req now) ∈ tr ∧ req.proc = p ∧ req.corr = c ∧ req.trid = t ∧ Fits req m ∧ (req.queue = 0 → R req.name m.queue)

structure Wire (R : Name → Qid → Prop) (g : Group) : Prop where
  inv : Inv g.db
  told : ∀ t ∈ g.involved, Told g.tr t
  informed : Informed g.tr
  asked : ∀ r ∈ g.dequeues, Blocked R g.tr r
  answers : ∀ p c t m, Ev.send p c (.dequeued t m) ∈ g.tr → Answers R g.tr p c t m

variable {R : Name → Qid → Prop}

theorem Told.snoc {tr : List Ev} {t : Trid} (h : Told tr t) (e : Ev) (he : ¬ e.ends t) : Told (tr ++ [e]) t := by
  obtain ⟨a, b, rfl, h2⟩ := h
  refine ⟨a, b ++ [e], by simp, ?_⟩
  intro x hx
  rcases List.mem_append.mp hx with hx | hx
  · exact h2 x hx
  · simp at hx; subst hx; exact he

theorem Informed.snoc {tr : List Ev} (h : Informed tr) (e : Ev)
    (he : ∀ p c r t, e = .send p c r → r.work = some t → Told tr t) : Informed (tr ++ [e]) := by
  intro a b p c r t hs hw
  rcases List.eq_nil_or_concat b with rfl | ⟨b', x, rfl⟩
  · obtain ⟨h1, h2⟩ := List.append_inj' hs rfl
    simp only [List.cons.injEq, and_true] at h2
    subst h1
    exact he p c r t h2 hw
  · have : tr ++ [e] = (a ++ .send p c r :: b') ++ [x] := by rw [hs]; simp
    obtain ⟨h1, h2⟩ := List.append_inj' this rfl
    exact h a b' p c r t h1 hw

theorem Asked.mono {tr : List Ev} {r : DeqReq} (h : Asked R tr r) (es) : Asked R (tr ++ es) r := by
  obtain ⟨req, now, h1, h2⟩ := h
  exact ⟨req, now, List.mem_append_left _ h1, h2⟩

theorem Blocked.mono {tr : List Ev} {r : DeqReq} (h : Blocked R tr r) (es) : Blocked R (tr ++ es) r := ⟨h.1.mono es, h.2⟩

theorem Answers.mono {tr : List Ev} {p c t m} (h : Answers R tr p c t m) (es) : Answers R (tr ++ es) p c t m := by
  obtain ⟨req, now, h1, h2⟩ := h
  exact ⟨req, now, List.mem_append_left _ h1, h2⟩

/-- Emitting an event. -/
theorem Wire.emit {g : Group} (h : Wire R g) (e : Ev) (he : ∀ t ∈ g.involved, ¬ e.ends t)
    (hw : ∀ p c r t, e = .send p c r → r.work = some t → t ∈ g.involved)
    (ha : ∀ p c t m, e = .send p c (.dequeued t m) → Answers R g.tr p c t m) : Wire R (g.emit e) := by
  refine ⟨h.inv, ?_, ?_, ?_, ?_⟩
  · intro t ht
    exact (h.told t ht).snoc e (he t ht)
  · exact h.informed.snoc e fun p c r t h1 h2 => h.told t (hw p c r t h1 h2)
  · intro r hr
    exact (h.asked r hr).mono _
  · intro p c t m hm
    rcases List.mem_append.mp hm with hm | hm
    · exact (h.answers p c t m hm).mono _
    · simp at hm
      exact (ha p c t m hm.symm).mono _

/-- Sending something that has to do neither with a transaction nor with a dequeue. -/
theorem Wire.send {g : Group} (h : Wire R g) (p c r) (hw : r.work = none) (hd : ∀ t m, r ≠ .dequeued t m) : Wire R (g.send p c r) := by
  refine h.emit _ (by simp [Ev.ends]) ?_ ?_
  · rintro p' c' r' t he hw'
    simp only [Ev.send.injEq] at he
    obtain ⟨-, -, rfl⟩ := he
    rw [hw] at hw'; simp at hw'
  · rintro p' c' t m he
    simp only [Ev.send.injEq] at he
    exact absurd he.2.2 (hd t m)

/-- Only the database, the size, the timers, the pending replies or what is on disk change. -/
theorem Wire.frame {g g' : Group} (h : Wire R g) (hi : Inv g'.db) (h1 : g'.involved = g.involved) (h2 : g'.tr = g.tr)
    (h3 : ∀ r ∈ g'.dequeues, r ∈ g.dequeues) : Wire R g' :=
  ⟨hi, by rw [h1, h2]; exact h.told, by rw [h2]; exact h.informed, by rw [h2]; exact fun r hr => h.asked r (h3 r hr), by rw [h2]; exact h.answers⟩

theorem Wire.apply {g : Group} (h : Wire R g) (op) : Wire R (g.apply op) := h.frame (h.inv.step op) rfl rfl fun _ h => h

theorem Wire.current {g : Group} (h : Wire R g) (n) : Wire R { g with current := n } := h.frame h.inv rfl rfl fun _ h => h
theorem Wire.fewer {g : Group} (h : Wire R g) (l) (hl : ∀ r ∈ l, r ∈ g.dequeues) : Wire R { g with dequeues := l } := h.frame h.inv rfl rfl hl

theorem Wire.involve {g : Group} (h : Wire R g) (t) : Wire R (g.involve t) ∧ t ∈ (g.involve t).involved := by
  unfold Group.involve
  split
  · next ht => exact ⟨h, ht⟩
  · have h1 := h.emit (.involve t) (by simp [Ev.ends]) (by simp) (by simp)
    refine ⟨⟨h1.inv, ?_, h1.informed, h1.asked, h1.answers⟩, by simp⟩
    intro t' ht'
    rcases List.mem_append.mp ht' with ht' | ht'
    · exact h1.told t' ht'
    · simp at ht'; subst ht'
      exact ⟨g.tr, [], rfl, by simp⟩

theorem dequeues_setTimer (g : Group) (a now) : (g.setTimer a now).dequeues = g.dequeues ∧ (g.setTimer a now).involved = g.involved ∧ (g.setTimer a now).tr = g.tr := by
  unfold Group.setTimer; split <;> exact ⟨rfl, rfl, rfl⟩

theorem dequeues_arm (g : Group) (a now) : (g.arm a now).dequeues = g.dequeues ∧ (g.arm a now).involved = g.involved ∧ (g.arm a now).tr = g.tr := by
  unfold Group.arm
  split
  · exact dequeues_setTimer _ _ _
  · split
    · exact dequeues_setTimer _ _ _
    · exact ⟨rfl, rfl, rfl⟩

theorem dequeues_tick (g : Group) (now) : (g.tick now).dequeues = g.dequeues ∧ (g.tick now).involved = g.involved ∧ (g.tick now).tr = g.tr := by
  unfold Group.tick
  split
  · split <;> exact ⟨rfl, rfl, rfl⟩
  · exact ⟨rfl, rfl, rfl⟩

theorem Wire.tick {g : Group} (h : Wire R g) (now) : Wire R (g.tick now) := by
  obtain ⟨h1, h2, h3⟩ := dequeues_tick g now
  exact h.frame (by rw [(same_tick g now).db]; exact h.inv) h2 h3 (by rw [h1]; exact fun _ h => h)

theorem Wire.setTimer {g : Group} (h : Wire R g) (a now) : Wire R (g.setTimer a now) := by
  obtain ⟨h1, h2, h3⟩ := dequeues_setTimer g a now
  exact h.frame (by rw [(same_setTimer g a now).db]; exact h.inv) h2 h3 (by rw [h1]; exact fun _ h => h)

theorem select_fits {db : DB} {q sel now m} (hs : db.select q sel now = some m) :
    m.queue = q ∧ m.state = .enqueued ∧ sel.matches_ m := by
  unfold DB.select at hs
  cases sel with
  | any =>
    have h1 := firstBy_mem hs
    simp only [List.mem_filter, Bool.and_eq_true, beq_iff_eq] at h1
    exact ⟨h1.2.1.1, h1.2.1.2, trivial⟩
  | byId id =>
    have h1 := List.find?_some hs
    simp only [Bool.and_eq_true, beq_iff_eq] at h1
    exact ⟨h1.1.2, h1.2, h1.1.1⟩
  | byProperties p =>
    have h1 := firstBy_mem hs
    simp only [List.mem_filter, Bool.and_eq_true, beq_iff_eq] at h1
    exact ⟨h1.2.1.1.1, h1.2.1.1.2, h1.2.1.2⟩

/-- The target of a request is a queue. -/
theorem target_ne {g : Group} (h : Inv g.db) {queue name q} (ht : g.target queue name = some q) : q ≠ 0 := by
  unfold Group.target at ht
  split at ht
  · simp at ht; omega
  · unfold DB.qid? at ht
    rw [Option.map_eq_some_iff] at ht
    obtain ⟨r, hr, rfl⟩ := ht
    have hm := List.mem_of_find?_eq_some hr
    intro h0
    have := h.paired.even r hm (by omega)
    omega

theorem Wire.dequeueOne {g : Group} (h : Wire R g) (req now) (hreq : Asked R g.tr req)
    (hR : req.queue = 0 → ∀ q, g.db.qid? req.name = some q → R req.name q) : Wire R (g.dequeueOne req now).1 := by
  unfold Group.dequeueOne
  split
  · exact h.send _ _ _ rfl (by simp)
  · next q hq =>
    have hq' : req.queue ≠ 0 → q = req.queue := by
      intro hne; unfold Group.target at hq; rw [if_pos hne] at hq; simpa using hq.symm
    split
    · next m hm =>
      obtain ⟨hf1, hf2, hf3⟩ := select_fits hm
      have hans : ∀ tr es, tr = g.tr ++ es → ∀ t, req.trid = t → Answers R tr req.proc req.corr t m := by
        rintro tr es rfl t rfl
        obtain ⟨r0, now0, h1, h2, hn, h3⟩ := hreq
        have e1 : req.proc = r0.proc := by rw [h3]
        have e2 : req.corr = r0.corr := by rw [h3]
        have e3 : req.trid = r0.trid := by rw [h3]
        have e4 : req.sel = r0.sel := by rw [h3]
        refine ⟨r0, now0, List.mem_append_left _ h1, e1.symm, e2.symm, e3.symm, ⟨hf2, ?_, ?_⟩, ?_⟩
        · intro hne
          rcases h2 with h2 | h2
          · exact absurd h2 hne
          · rw [hf1, hq' (by rw [← h2]; exact hne), ← h2]
        · rw [← e4]; exact hf3
        · intro hz
          have e5 : req.name = r0.name := by rw [h3]
          by_cases hz' : req.queue = 0
          · rw [hf1, ← e5]
            unfold Group.target at hq
            rw [if_neg (by simpa using hz')] at hq
            exact hR hz' q hq
          · rw [hf1, hq' hz']; exact hn hz hz'
      dsimp only
      split
      · next t ht =>
        obtain ⟨h1, h2⟩ := (h.apply (.dequeue q req.sel (req.trid.map (·.g)) now)).involve t
        rcases tr_involve (g.apply (.dequeue q req.sel (req.trid.map (·.g)) now)) t with htr | htr
        · refine h1.emit _ (by simp [Ev.ends]) ?_ ?_
          · rintro p c r t' he hw
            simp only [Ev.send.injEq] at he; obtain ⟨-, -, rfl⟩ := he
            simp only [Reply.work, Option.some.injEq] at hw; subst hw; exact h2
          · rintro p c t' m' he
            simp only [Ev.send.injEq, Reply.dequeued.injEq] at he
            obtain ⟨rfl, rfl, rfl, rfl⟩ := he
            exact hans _ [] (by rw [htr]; simp [Group.apply]) _ ht
        · refine h1.emit _ (by simp [Ev.ends]) ?_ ?_
          · rintro p c r t' he hw
            simp only [Ev.send.injEq] at he; obtain ⟨-, -, rfl⟩ := he
            simp only [Reply.work, Option.some.injEq] at hw; subst hw; exact h2
          · rintro p c t' m' he
            simp only [Ev.send.injEq, Reply.dequeued.injEq] at he
            obtain ⟨rfl, rfl, rfl, rfl⟩ := he
            exact hans _ [.involve t] (by rw [htr]; rfl) _ ht
      · next ht =>
        have h1 := h.apply (.dequeue q req.sel (req.trid.map (·.g)) now)
        refine (h1.current _).emit _ ?_ ?_ ?_
        · simp [Ev.ends]
        · rintro p c r t' he hw
          simp only [Ev.send.injEq] at he; obtain ⟨-, -, rfl⟩ := he
          simp [Reply.work] at hw
        · rintro p c t' m' he
          simp only [Ev.send.injEq, Reply.dequeued.injEq] at he
          obtain ⟨rfl, rfl, rfl, rfl⟩ := he
          exact hans _ [] (by simp [Group.apply]) _ ht
    · have hblocked : Asked R g.tr { req with queue := q } := by
        obtain ⟨r0, now0, h1, h2, hn, h3⟩ := hreq
        refine ⟨r0, now0, h1, ?_, ?_, ?_⟩
        · rcases h2 with h2 | h2
          · exact Or.inl h2
          · by_cases hz : r0.queue = 0
            · exact Or.inl hz
            · right; show r0.queue = q; rw [hq' (by rw [← h2]; exact hz), h2]
        · intro hz _
          have e5 : req.name = r0.name := by rw [h3]
          show R r0.name q
          by_cases hz' : req.queue = 0
          · rw [← e5]
            unfold Group.target at hq
            rw [if_neg (by simpa using hz')] at hq
            exact hR hz' q hq
          · rw [hq' hz']; exact hn hz hz'
        · rw [h3]
      split
      · next hbl =>
        have key : ∀ g' : Group, g'.tr = g.tr → g'.involved = g.involved → g'.dequeues = g.dequeues → Inv g'.db →
            Wire R { g' with dequeues := g'.dequeues ++ [{ req with queue := q }] } := by
          intro g' e1 e2 e3 e4
          refine ⟨e4, ?_, ?_, ?_, ?_⟩
          · show ∀ t ∈ g'.involved, Told g'.tr t
            rw [e1, e2]; exact h.told
          · show Informed g'.tr
            rw [e1]; exact h.informed
          · intro r hr
            show Blocked R g'.tr r
            rw [e1]
            dsimp only at hr
            rw [e3] at hr
            rcases List.mem_append.mp hr with hr | hr
            · exact h.asked r hr
            · simp at hr; subst hr; exact ⟨hblocked, target_ne h.inv hq, hbl⟩
          · show ∀ p c t m, Ev.send p c (.dequeued t m) ∈ g'.tr → Answers R g'.tr p c t m
            rw [e1]; exact h.answers
        dsimp only
        split
        · next a _ =>
          obtain ⟨h1, h2, h3⟩ := dequeues_arm g a now
          exact key _ h3 h2 h1 (by rw [(same_arm g a now).db]; exact h.inv)
        · exact key g rfl rfl rfl h.inv
      · exact h.send _ _ _ rfl (by simp)

/-- The trace only grows. -/
theorem grow_dequeueOne (g : Group) (req now) : ∃ es, (g.dequeueOne req now).1.tr = g.tr ++ es := by
  unfold Group.dequeueOne
  split
  · exact ⟨_, rfl⟩
  · split
    · dsimp only
      split
      · next t _ =>
        rcases tr_involve (g.apply (.dequeue _ req.sel (req.trid.map (·.g)) now)) t with h | h
        · exact ⟨_, by show (Group.involve _ t).tr ++ _ = _; rw [h]; rfl⟩
        · exact ⟨_, by show (Group.involve _ t).tr ++ _ = _; rw [h]; simp [Group.apply]; rfl⟩
      · exact ⟨_, rfl⟩
    · split
      · dsimp only
        split
        · exact ⟨[], by show (Group.arm g _ _).tr = _; rw [(dequeues_arm g _ _).2.2]; simp⟩
        · exact ⟨[], by simp⟩
      · exact ⟨_, rfl⟩

theorem Wire.serve {now : Time} {rs : List DeqReq} {g : Group} (h : Wire R g) (count) (hr : ∀ r ∈ rs, Blocked R g.tr r) :
    Wire R (g.serve now count rs) ∧ ∃ es, (g.serve now count rs).tr = g.tr ++ es := by
  induction rs generalizing g count with
  | nil => exact ⟨h, [], by simp [Group.serve]⟩
  | cons r rs ih =>
    unfold Group.serve
    split
    · refine ⟨⟨h.inv, h.told, h.informed, ?_, h.answers⟩, [], by simp⟩
      intro x hx
      rcases List.mem_append.mp hx with hx | hx
      · exact h.asked x hx
      · exact hr x hx
    · obtain ⟨es, he⟩ := grow_dequeueOne g r now
      have h1 := h.dequeueOne r now (hr r (by simp)).1 (fun hz => absurd hz (hr r (by simp)).2.1)
      obtain ⟨h2, es', h3⟩ := ih h1 (if (g.dequeueOne r now).2 then count - 1 else count)
        (fun x hx => by rw [he]; exact (hr x (by simp [hx])).mono _)
      exact ⟨h2, es ++ es', by dsimp only at h3 ⊢; rw [h3, he]; simp⟩

theorem Wire.pendingDequeues {g : Group} (h : Wire R g) (now) : Wire R (g.pendingDequeues now) := by
  unfold Group.pendingDequeues
  split
  · exact h
  · dsimp only
    have key : ∀ (l : List Available) (rs : Available → List DeqReq) (g : Group), Wire R g → (∀ a, ∀ r ∈ rs a, Blocked R g.tr r) →
        Wire R (l.foldl (fun g a => g.serve now a.count (rs a)) g) := by
      intro l rs
      induction l with
      | nil => exact fun g h _ => h
      | cons a l ih =>
        intro g h hr
        obtain ⟨h1, es, h2⟩ := h.serve (now := now) a.count (hr a)
        exact ih _ h1 fun a' r hx => by rw [h2]; exact (hr a' r hx).mono _
    generalize hl : List.filter (fun a => decide (a.when_ ≤ now)) (g.db.availables (g.dequeues.map (·.queue))) = l
    generalize hg : ({ g with dequeues := g.dequeues.filter fun r => !l.any fun a => a.queue == r.queue } : Group) = g1
    have hk := key l (fun a => (g.dequeues.filter fun r => l.any fun a => a.queue == r.queue).filter fun r => a.queue == r.queue)
      g1 (by subst hg; exact h.frame h.inv rfl rfl fun r hr => (List.mem_filter.mp hr).1)
      (by subst hg; intro a r hr; exact h.asked r (List.mem_filter.mp (List.mem_filter.mp hr).1).1)
    split
    · exact hk.setTimer _ _
    · exact hk.frame hk.inv rfl rfl fun _ h => h

/-- The replies kept until the next commit are no answers about work in a transaction. -/
def Plain (g : Group) : Prop := ∀ p c r, (p, c, r) ∈ g.replies → r.work = none ∧ ∀ t m, r ≠ .dequeued t m

theorem Wire.sends {g : Group} (h : Wire R g) (l : List (Nat × Nat × Reply)) (hl : ∀ p c r, (p, c, r) ∈ l → r.work = none ∧ ∀ t m, r ≠ .dequeued t m) :
    Wire R { g with tr := g.tr ++ l.map fun r => .send r.1 r.2.1 r.2.2 } := by
  induction l generalizing g with
  | nil => simpa using h
  | cons x l ih =>
    obtain ⟨p, c, r⟩ := x
    have h1 := h.send p c r (hl p c r (by simp)).1 (hl p c r (by simp)).2
    have h2 := ih h1 fun p c r hm => hl p c r (by simp [hm])
    simpa [Group.send, Group.emit] using h2

theorem Wire.flush {g : Group} (h : Wire R g) (hp : Plain g) : Wire R g.flush := by
  unfold Group.flush
  split
  · exact h
  · have := h.sends g.replies hp
    exact this.frame this.inv rfl rfl fun _ h => h

theorem plain_dequeueOne {g : Group} (h : Plain g) (req now) : Plain (g.dequeueOne req now).1 := by
  have : (g.dequeueOne req now).1.replies = g.replies := by
    unfold Group.dequeueOne
    split
    · rfl
    · split
      · dsimp only
        split
        · exact (same_involve _ _).replies
        · rfl
      · split
        · dsimp only
          split
          · exact (same_arm _ _ _).replies
          · rfl
        · rfl
  unfold Plain; rw [this]; exact h

theorem plain_serve {now : Time} {rs : List DeqReq} {g : Group} (h : Plain g) (count) : Plain (g.serve now count rs) := by
  induction rs generalizing g count with
  | nil => exact h
  | cons r rs ih =>
    unfold Group.serve
    split
    · exact h
    · exact ih (plain_dequeueOne h r now) _

theorem plain_pending {g : Group} (h : Plain g) (now) : Plain (g.pendingDequeues now) := by
  unfold Group.pendingDequeues
  split
  · exact h
  · dsimp only
    have key : ∀ (l : List Available) (rs : Available → List DeqReq) (g : Group), Plain g → Plain (l.foldl (fun g a => g.serve now a.count (rs a)) g) := by
      intro l rs
      induction l with
      | nil => exact fun g h => h
      | cons a l ih => exact fun g h => ih _ (plain_serve h _)
    generalize hl : List.filter (fun a => decide (a.when_ ≤ now)) (g.db.availables (g.dequeues.map (·.queue))) = l
    generalize hg : ({ g with dequeues := g.dequeues.filter fun r => !l.any fun a => a.queue == r.queue } : Group) = g1
    have hk := key l (fun a => (g.dequeues.filter fun r => l.any fun a => a.queue == r.queue).filter fun r => a.queue == r.queue)
      g1 (by subst hg; exact h)
    split
    · intro p c r hr
      rw [(same_setTimer _ _ _).replies] at hr
      exact hk p c r hr
    · exact hk

structure WP (R : Name → Qid → Prop) (g : Group) : Prop where
  wire : Wire R g
  plain : Plain g

theorem WP.persist {g : Group} (h : WP R g) (now) : WP R (g.persist now) := by
  refine ⟨(h.wire.flush h.plain).pendingDequeues now, ?_⟩
  apply plain_pending
  split
  · exact h.plain
  · intro p c r hr; simp at hr

theorem WP.persistentReply {g : Group} (h : WP R g) (p c r now) (hr : r.work = none) (hd : ∀ t m, r ≠ .dequeued t m) : WP R (g.persistentReply p c r now) := by
  have h' : WP R { g with replies := g.replies ++ [(p, c, r)] } := by
    refine ⟨h.wire.frame h.wire.inv rfl rfl fun _ h => h, ?_⟩
    intro p' c' r' hm
    rcases List.mem_append.mp hm with hm | hm
    · exact h.plain _ _ _ hm
    · simp only [List.mem_singleton, Prod.mk.injEq] at hm
      obtain ⟨rfl, rfl, rfl⟩ := hm
      exact ⟨hr, hd⟩
  unfold Group.persistentReply
  dsimp only
  split
  · exact h'.persist now
  · exact h'

theorem WP.enqueue {g : Group} (h : WP R g) (p c id queue name trid a b now) : WP R (g.enqueue p c id queue name trid a b now) := by
  unfold Group.enqueue
  split
  · split
    · exact ⟨h.wire.send _ _ _ rfl (by simp), h.plain⟩
    · next q hq =>
      split
      · exact ⟨h.wire.send _ _ _ rfl (by simp), h.plain⟩
      · next hok =>
        dsimp only
        have h1 := h.wire.apply (.enqueue id q (trid.map (·.g)) a b now)
        have h2 : Wire R { g.apply (.enqueue id q (trid.map (·.g)) a b now) with current := g.current + b.payload.length } := h1.frame h1.inv rfl rfl fun _ h => h
        split
        · next t =>
          obtain ⟨h3, h4⟩ := h2.involve t
          refine ⟨h3.emit _ (by simp [Ev.ends]) ?_ (by simp), ?_⟩
          · rintro p' c' r t' he hw
            simp only [Ev.send.injEq] at he; obtain ⟨-, -, rfl⟩ := he
            simp only [Reply.work, Option.some.injEq] at hw; subst hw; exact h4
          · intro p' c' r hr
            exact h.plain p' c' r (by
              have : (Group.involve { g.apply (.enqueue id q (Option.map (·.g) (some t)) a b now) with current := g.current + b.payload.length } t).replies = g.replies := (same_involve _ t).replies
              rw [← this]; exact hr)
        · exact WP.persistentReply ⟨h2, h.plain⟩ _ _ _ _ rfl (by simp)
  · exact ⟨h.wire.send _ _ _ rfl (by simp), h.plain⟩

/-- Just after the message that ends transaction `t` is received. -/
structure Ending (R : Name → Qid → Prop) (t : Trid) (g : Group) : Prop where
  inv : Inv g.db
  told : ∀ t' ∈ g.involved, t' ≠ t → Told g.tr t'
  informed : Informed g.tr
  asked : ∀ r ∈ g.dequeues, Blocked R g.tr r
  answers : ∀ p c t m, Ev.send p c (.dequeued t m) ∈ g.tr → Answers R g.tr p c t m
  plain : Plain g

theorem Ending.done {t : Trid} {g : Group} (h : Ending R t g) : WP R (g.done t) := by
  refine ⟨⟨h.inv, ?_, h.informed, h.asked, h.answers⟩, h.plain⟩
  intro t' ht'
  simp only [Group.done, List.mem_filter, decide_eq_true_eq] at ht'
  exact h.told t' ht'.1 ht'.2

theorem Ending.tick {t : Trid} {g : Group} (h : Ending R t g) (now) : Ending R t (g.tick now) := by
  obtain ⟨h1, h2, h3⟩ := dequeues_tick g now
  refine ⟨by rw [(same_tick g now).db]; exact h.inv, by rw [h2, h3]; exact h.told, by rw [h3]; exact h.informed, by rw [h1, h3]; exact h.asked, by rw [h3]; exact h.answers, ?_⟩
  intro p c r hr
  rw [(same_tick g now).replies] at hr
  exact h.plain p c r hr

theorem Ending.commit {t : Trid} {g : Group} (h : Ending R t g) (p c now) : WP R (g.commit p c t now) := by
  have h1 := h.done
  have h2 := h1.wire.apply (.commit t.g)
  unfold Group.commit
  exact WP.persistentReply (r := .committed t) ⟨h2.current _, h.plain⟩ _ _ _ rfl (by simp)

theorem Ending.rollback {t : Trid} {g : Group} (h : Ending R t g) (p c now) : WP R (g.rollback p c t now) := by
  have h1 := h.done
  have h2 := h1.wire.apply (.rollback t.g now)
  unfold Group.rollback
  exact WP.persistentReply (r := .rolledBack t) ⟨h2.current _, h.plain⟩ _ _ _ rfl (by simp)

theorem WP.ending {g : Group} (h : WP R g) (i : In) (t : Trid) (hi : ∀ t', t' ≠ t → ¬ (Ev.recv i).ends t') : Ending R t (g.emit (.recv i)) := by
  refine ⟨h.wire.inv, ?_, ?_, ?_, ?_, h.plain⟩
  · intro t' ht' hne
    exact (h.wire.told t' ht').snoc _ (hi t' hne)
  · exact h.wire.informed.snoc _ (by simp)
  · exact fun r hr => (h.wire.asked r hr).mono _
  · intro p c t m hm
    simp only [Group.emit, List.mem_append, List.mem_singleton, reduceCtorEq, or_false] at hm
    exact (h.wire.answers p c t m hm).mono _

theorem WP.emitRecv {g : Group} (h : WP R g) (i : In) (hi : ∀ t, ¬ (Ev.recv i).ends t) : WP R (g.emit (.recv i)) :=
  ⟨h.wire.emit _ (fun t _ => hi t) (by simp) (by simp), h.plain⟩

theorem WP.applyAll {α : Type} {g : Group} (h : WP R g) (f : α → Op) (l : List α) : WP R (l.foldl (fun g q => g.apply (f q)) g) := by
  induction l generalizing g with
  | nil => exact h
  | cons a l ih => exact ih ⟨h.wire.apply _, h.plain⟩

theorem WP.tick {g : Group} (h : WP R g) (now) : WP R (g.tick now) := by
  refine ⟨h.wire.tick now, ?_⟩
  intro p c r hr
  rw [(same_tick g now).replies] at hr
  exact h.plain p c r hr

/-- A new start. -/
theorem wp_crash {g : Group} (hdisk : Inv g.disk) (hi : Informed g.tr) (ha : ∀ p c t m, Ev.send p c (.dequeued t m) ∈ g.tr → Answers R g.tr p c t m) : WP R g.crash := by
  refine ⟨⟨hdisk, ?_, hi, ?_, ha⟩, ?_⟩
  · simp [Group.crash, Group.init]
  · simp [Group.crash, Group.init]
  · intro p c r hr; simp [Group.crash, Group.init] at hr

theorem WP.configure {g : Group} (h : WP R g) (p c conf cap now) : WP R (g.configure p c conf cap now) := by
  unfold Group.configure
  have h1 : WP R { g.sync with capacity := cap, up := true } := ⟨h.wire.frame h.wire.inv rfl rfl fun _ h => h, h.plain⟩
  dsimp only
  split
  · have h2 := h1.wire.apply (.configure conf)
    have h3 : Wire R { ({ g.sync with capacity := cap, up := true } : Group).apply (.configure conf) with
        zombies := g.zombies ++ (g.sync.db.plan conf).2.2 } := h2.frame h2.inv rfl rfl fun _ h => h
    have h4 := h3.send p c (.configured (((({ g.sync with capacity := cap, up := true } : Group).apply (.configure conf)).db.queues.filter fun r => !(g.zombies ++ (g.sync.db.plan conf).2.2).contains r.id).map fun r => (r.id, r.name))) rfl (by simp)
    exact ⟨h4.frame h4.inv rfl rfl fun _ h => h, h.plain⟩
  · have h2 := h1.persist now
    exact wp_crash (g := (Group.persist _ now).sync) h2.wire.inv h2.wire.informed h2.wire.answers

theorem WP.handle {g : Group} (h : WP R g) (hc : Core g) (i : In) (hR : ∀ name q, g.db.qid? name = some q → R name q) : WP R ((g.emit (.recv i)).handle i) := by
  by_cases hend : ∃ t, (Ev.recv i).ends t
  · obtain ⟨t, ht⟩ := hend
    cases i with
    | commit p c t' now => 
      have : t' = t := ht
      subst this
      exact ((h.ending (.commit p c t' now) t' (fun t'' hne he => hne (Eq.symm he))).tick now).commit p c now
    | rollback p c t' now =>
      have : t' = t := ht
      subst this
      exact ((h.ending (.rollback p c t' now) t' (fun t'' hne he => hne (Eq.symm he))).tick now).rollback p c now
    | crash =>
      refine wp_crash (g := g.emit (.recv .crash)) (by show Inv g.disk; rw [hc.disk]; exact inv_run _) (h.wire.informed.snoc _ (by simp)) ?_
      intro p c t m hm
      simp only [Group.emit, List.mem_append, List.mem_singleton, reduceCtorEq, or_false] at hm
      exact (h.wire.answers p c t m hm).mono _
    | _ => exact absurd ht (by simp [Ev.ends])
  · have hi : ∀ t, ¬ (Ev.recv i).ends t := fun t ht => hend ⟨t, ht⟩
    have h1 := h.emitRecv i hi
    have hr : Ev.recv i ∈ (g.emit (.recv i)).tr := by simp [Group.emit]
    have hR' : ∀ name q, (g.emit (.recv i)).db.qid? name = some q → R name q := hR
    generalize g.emit (.recv i) = g at h1 hr hR' ⊢
    cases i with
    | configure p c conf cap now => exact h1.configure ..
    | enqueue p c id queue name trid a b now => exact h1.enqueue ..
    | dequeue req now =>
      refine ⟨(h1.tick now).wire.dequeueOne req now ⟨req, now, ?_, Or.inr rfl, fun hz hz' => absurd hz hz', rfl⟩ (fun _ q hq => hR' _ _ (by rw [(same_tick g now).db] at hq; exact hq)), plain_dequeueOne (h1.tick now).plain req now⟩
      rw [(dequeues_tick g now).2.2]; exact hr
    | forget p c =>
      simp only [Group.handle, Group.forget]
      split
      · exact ⟨(h1.wire.fewer _ fun r hr => List.mem_of_mem_eraseP hr).send _ _ _ rfl (by simp), h1.plain⟩
      · exact ⟨h1.wire.send _ _ _ rfl (by simp), h1.plain⟩
    | timeout now =>
      have h2 : WP R { g.tick now with alarmed := false } := ⟨(h1.tick now).wire.frame (h1.tick now).wire.inv rfl rfl fun _ h => h, (h1.tick now).plain⟩
      simp only [Group.handle]
      split
      · exact ⟨h2.wire.pendingDequeues now, plain_pending h2.plain now⟩
      · exact h2
    | prepare p c t => exact ⟨h1.wire.send _ _ _ rfl (by simp), h1.plain⟩
    | commit p c t now => exact absurd rfl (hi t)
    | rollback p c t now => exact absurd rfl (hi t)
    | restore qs now =>
      have h2 := (h1.tick now).applyAll (fun q => .restore q) qs
      have h3 : WP R (qs.foldl (fun g q => g.apply (.restore q)) (g.tick now)).sync := ⟨h2.wire.frame h2.wire.inv rfl rfl fun _ h => h, h2.plain⟩
      exact ⟨h3.wire.pendingDequeues now, plain_pending h3.plain now⟩
    | clear qs =>
      have h2 := h1.applyAll (fun q => .clear q) qs
      exact ⟨h2.wire.frame h2.wire.inv rfl rfl fun _ h => h, h2.plain⟩
    | remove q ids force =>
      have h2 := h1.wire.apply (if force then .forceRemove q ids else .remove q ids)
      exact ⟨h2.frame h2.inv rfl rfl fun _ h => h, h1.plain⟩
    | recovery c ts now =>
      simp only [Group.handle, Group.recovery]
      split
      · have h2 := h1.wire.apply (.recoveryCommit ts)
        exact ⟨h2.frame h2.inv rfl rfl fun _ h => h, h1.plain⟩
      · have h2 := h1.wire.apply (.recoveryRollback ts now)
        exact ⟨h2.frame h2.inv rfl rfl fun _ h => h, h1.plain⟩
    | metricReset qs => exact ⟨h1.wire.apply _, h1.plain⟩
    | exit p =>
      refine ⟨h1.wire.frame h1.wire.inv rfl rfl ?_, ?_⟩
      · intro r hr; exact (List.mem_filter.mp hr).1
      · intro p' c r hr; exact h1.plain p' c r (List.mem_filter.mp hr).1
    | shutdown now =>
      have h2 := (h1.tick now).persist now
      simp only [Group.handle, Group.shutdown]
      generalize (g.tick now).persist now = g' at h2
      have h3 := h2.wire.sends (g'.dequeues.map fun r => (r.proc, r.corr, .forget)) (by
        intro p c r hm
        rw [List.mem_map] at hm
        obtain ⟨x, -, hx⟩ := hm
        simp only [Prod.mk.injEq] at hx
        obtain ⟨-, -, rfl⟩ := hx
        exact ⟨rfl, by simp⟩)
      rw [List.map_map] at h3
      exact ⟨h3.frame h3.inv rfl rfl (by simp), h2.plain⟩
    | idle now => exact (h1.tick now).persist now
    | crash => exact absurd trivial (hi ⟨0, 0⟩)

/-! ## A group that is not up -/

/-- Nothing is pending. -/
structure Blank (g : Group) : Prop where
  involved : g.involved = []
  dequeues : g.dequeues = []
  replies : g.replies = []

theorem up_dequeueOne (g : Group) (req now) : (g.dequeueOne req now).1.up = g.up := by
  unfold Group.dequeueOne
  split
  · rfl
  · split
    · dsimp only
      split
      · exact (same_involve _ _).up
      · rfl
    · split
      · dsimp only
        split
        · exact (same_arm _ _ _).up
        · rfl
      · rfl

theorem up_serve {now : Time} {rs : List DeqReq} (g : Group) (count) : (g.serve now count rs).up = g.up := by
  induction rs generalizing g count with
  | nil => rfl
  | cons r rs ih =>
    unfold Group.serve
    split
    · rfl
    · exact (ih _ _).trans (up_dequeueOne g r now)

theorem up_pending (g : Group) (now) : (g.pendingDequeues now).up = g.up := by
  unfold Group.pendingDequeues
  split
  · rfl
  · dsimp only
    have key : ∀ (l : List Available) (rs : Available → List DeqReq) (g : Group), (l.foldl (fun g a => g.serve now a.count (rs a)) g).up = g.up := by
      intro l rs
      induction l with
      | nil => exact fun g => rfl
      | cons a l ih => exact fun g => (ih _).trans (up_serve g _)
    split
    · rw [(same_setTimer _ _ _).up]; exact key _ (fun _ => List.filter _ _) _
    · exact key _ (fun _ => List.filter _ _) _

theorem up_persist (g : Group) (now) : (g.persist now).up = g.up := by
  rw [persist_eq, up_pending]
  unfold Group.flush; split <;> rfl

theorem up_persistentReply (g : Group) (p c r now) : (g.persistentReply p c r now).up = g.up := by
  unfold Group.persistentReply
  dsimp only
  split
  · rw [up_persist]
  · rfl

theorem up_applyAll {α : Type} (g : Group) (f : α → Op) (l : List α) : (l.foldl (fun g q => g.apply (f q)) g).up = g.up := by
  induction l generalizing g with
  | nil => rfl
  | cons a l ih => exact ih _

theorem up_handle {g : Group} (h : g.up = true) (i : In) : (g.handle i).up = true ∨ Blank (g.handle i) := by
  cases i with
  | configure p c conf cap now =>
    simp only [Group.handle, Group.configure]
    split
    · exact Or.inl rfl
    · exact Or.inr ⟨rfl, rfl, rfl⟩
  | enqueue p c id queue name trid a b now =>
    left
    simp only [Group.handle, Group.enqueue]
    split
    · split
      · exact h
      · split
        · exact h
        · split
          · exact ((same_involve _ _).up).trans h
          · rw [up_persistentReply]; exact h
    · exact h
  | dequeue req now => exact Or.inl (by simp only [Group.handle]; rw [up_dequeueOne, (same_tick g now).up]; exact h)
  | forget p c => exact Or.inl (by simp only [Group.handle, Group.forget]; split <;> exact h)
  | timeout now =>
    left
    simp only [Group.handle]
    split
    · rw [up_pending]; exact ((same_tick g now).up).trans h
    · exact ((same_tick g now).up).trans h
  | prepare p c t => exact Or.inl h
  | commit p c t now =>
    left; simp only [Group.handle, Group.commit]; rw [up_persistentReply]; exact ((same_tick g now).up).trans h
  | rollback p c t now =>
    left; simp only [Group.handle, Group.rollback]; rw [up_persistentReply]; exact ((same_tick g now).up).trans h
  | restore qs now =>
    left; simp only [Group.handle]; rw [up_pending]
    show (List.foldl (fun g q => g.apply (.restore q)) (g.tick now) qs).up = true
    rw [up_applyAll _ (fun q => .restore q)]; exact ((same_tick g now).up).trans h
  | clear qs =>
    left; simp only [Group.handle]
    show (List.foldl (fun g q => g.apply (.clear q)) g qs).up = true
    rw [up_applyAll _ (fun q => .clear q)]; exact h
  | remove q ids force => exact Or.inl h
  | recovery c ts now => exact Or.inl (by simp only [Group.handle, Group.recovery]; split <;> exact h)
  | metricReset qs => exact Or.inl h
  | exit p => exact Or.inl h
  | shutdown now =>
    left; simp only [Group.handle, Group.shutdown]
    exact (up_persist _ now).trans (((same_tick g now).up).trans h)
  | idle now => left; exact (up_persist _ now).trans (((same_tick g now).up).trans h)
  | crash => exact Or.inr ⟨rfl, rfl, rfl⟩

theorem blank_step {g : Group} (h : g.up = true ∨ Blank g) (i : In) : (g.step i).up = true ∨ Blank (g.step i) := by
  rcases step_cases g i with ⟨he, hx⟩ | ⟨he, hup, -⟩ <;> rw [he]
  · rcases hx with hx | ⟨p, c, conf, cap, now, rfl⟩ | rfl
    · exact up_handle (g := g.emit (.recv i)) hx i
    · simp only [Group.handle, Group.configure]
      split
      · exact Or.inl rfl
      · exact Or.inr ⟨rfl, rfl, rfl⟩
    · exact Or.inr ⟨rfl, rfl, rfl⟩
  · rcases h with h | h
    · rw [h] at hup; simp at hup
    · exact Or.inr ⟨h.involved, h.dequeues, h.replies⟩

theorem blank_run (is : List In) : (Group.init.run is).up = true ∨ Blank (Group.init.run is) := by
  induction is using snocInd with
  | nil => exact Or.inr ⟨rfl, rfl, rfl⟩
  | snoc is i ih => rw [run_snoc']; exact blank_step ih i

theorem WP.step {g : Group} (h : WP R g) (hc : Core g) (hb : g.up = true ∨ Blank g) (hR : ∀ name q, g.db.qid? name = some q → R name q) (i : In) :
    WP R (g.step i) := by
  rcases step_cases g i with ⟨he, -⟩ | ⟨he, hup, hn⟩ <;> rw [he]
  · exact h.handle hc i hR
  · rcases hb with hb | hb
    · rw [hb] at hup; simp at hup
    · refine ⟨h.wire.emit _ ?_ (by simp) (by simp), h.plain⟩
      rw [hb.involved]; simp

theorem Asked.imp {R R' : Name → Qid → Prop} (hi : ∀ n q, R n q → R' n q) {tr r} (h : Asked R tr r) : Asked R' tr r := by
  obtain ⟨req, now, h1, h2, h3, h4⟩ := h
  exact ⟨req, now, h1, h2, fun a b => hi _ _ (h3 a b), h4⟩

theorem WP.imp {R R' : Name → Qid → Prop} (hi : ∀ n q, R n q → R' n q) {g : Group} (h : WP R g) : WP R' g := by
  refine ⟨⟨h.wire.inv, h.wire.told, h.wire.informed, fun r hr => ⟨(h.wire.asked r hr).1.imp hi, (h.wire.asked r hr).2⟩, ?_⟩, h.plain⟩
  intro p c t m hm
  obtain ⟨req, now, h1, h2, h3, h4, h5, h6⟩ := h.wire.answers p c t m hm
  exact ⟨req, now, h1, h2, h3, h4, h5, fun hz => hi _ _ (h6 hz)⟩

/-- Name `name` has stood for queue `q` at some time. -/
def NameWas (is : List In) (name : Name) (q : Qid) : Prop := ∃ is0, is0 <+: is ∧ (Group.init.run is0).db.qid? name = some q

theorem wp_run (is : List In) : WP (NameWas is) (Group.init.run is) := by
  induction is using snocInd with
  | nil =>
    refine ⟨⟨Inv.empty, by simp [Group.run, Group.init], ?_, by simp [Group.run, Group.init], by simp [Group.run, Group.init]⟩, by intro p c r hr; simp [Group.run, Group.init] at hr⟩
    intro a b p c r t hs
    simp [Group.run, Group.init] at hs
  | snoc is i ih =>
    have hi : ∀ n q, NameWas is n q → NameWas (is ++ [i]) n q := fun n q ⟨is0, h1, h2⟩ => ⟨is0, h1.trans (List.prefix_append _ _), h2⟩
    rw [run_snoc']
    exact (ih.imp hi).step (core is) (blank_run is) (fun name q hq => ⟨is, List.prefix_append _ _, hq⟩) i

end Casual.Queue

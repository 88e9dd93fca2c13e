import Verif.Ipc.Coord
/-! What a coordinator has done, for one destination: every message is sent, lost, or waits. -/
namespace Casual.Ipc

/-- The part of the first waiting message that has been sent. -/
def headFrags (n : Nat) (q : List Pend) (j : Nat) : List Frag :=
  match q with
  | [] => []
  | p :: _ => (p.send.msg.frags n).take j

/-- `j` datagrams of the first waiting message have been sent, and none of the others. -/
def Qok (n : Nat) (q : List Pend) (j : Nat) : Prop :=
  match q with
  | [] => j = 0
  | p :: q' => p.send.offset = off n p.send.msg j ∧ j < p.send.msg.count n ∧ ∀ p' ∈ q', p'.send.offset = 0

def Pend.what (p : Pend) : Msg × Bool := (p.send.msg, p.callback)

theorem off_zero {n : Nat} {m : Msg} : off n m 0 = 0 := by simp [off]

theorem qok_tail {n : Nat} (hn : 0 < n) {q : List Pend} (h : ∀ p' ∈ q, p'.send.offset = 0) : Qok n q 0 := by
  cases q with
  | nil => rfl
  | cons p q => exact ⟨by rw [h p (by simp), off_zero], count_pos hn _, fun p' hp => h p' (by simp [hp])⟩

theorem sendQueue_spec {n : Nat} (hn : 0 < n) : ∀ {q : List Pend} {rs : List Res} {j : Nat}, Qok n q j → (∀ p ∈ q, p.send.msg.payload ≠ []) →
    ∃ l j', Qok n (sendQueue n q rs).2.1 j' ∧ q.map Pend.what = l ++ (sendQueue n q rs).2.1.map Pend.what ∧
      headFrags n q j ++ (sendQueue n q rs).1 = (l.flatMap fun x => x.1.frags n) ++ headFrags n (sendQueue n q rs).2.1 j'
  | [], rs, j, h, _ => ⟨[], 0, rfl, rfl, by cases h; simp [sendQueue, headFrags]⟩
  | p :: q, rs, j, h, hp => by
    obtain ⟨h1, h2, h3⟩ := h
    have hs : p.send = ⟨p.send.msg, off n p.send.msg j⟩ := by rw [← h1]
    obtain ⟨k, e1, e2, e3, e4⟩ := partial_spec hn (hp p (by simp)) (rs := rs) (Nat.le_of_lt h2)
    rw [← hs] at e2 e3 e4
    have htake : (p.send.msg.frags n).take j ++ ((p.send.msg.frags n).drop j).take k = (p.send.msg.frags n).take (j + k) := by
      rw [List.take_add]
    unfold sendQueue
    dsimp only
    have hnd : (partialSend n p.send rs).2.2.1 ≠ .done → ∃ l j', Qok n ({ p with send := (partialSend n p.send rs).2.1 } :: q) j' ∧
        (p :: q).map Pend.what = l ++ ({ p with send := (partialSend n p.send rs).2.1 } :: q).map Pend.what ∧
        headFrags n (p :: q) j ++ (partialSend n p.send rs).1 = (l.flatMap fun x => x.1.frags n) ++ headFrags n ({ p with send := (partialSend n p.send rs).2.1 } :: q) j' := by
      intro hne
      have hlt : j + k < p.send.msg.count n := by
        have : ¬ j + k = p.send.msg.count n := fun e => hne (e4.mpr e)
        omega
      refine ⟨[], j + k, ?_, ?_, ?_⟩
      · refine ⟨?_, ?_, h3⟩
        · dsimp only; rw [e3]
        · dsimp only; rw [e3]; exact hlt
      · simp only [List.map_cons, List.nil_append, Pend.what, e3]
      · simp only [headFrags, List.flatMap_nil, List.nil_append, e2, e3, htake]
    cases ho : (partialSend n p.send rs).2.2.1 with
    | done =>
      dsimp only
      obtain ⟨l, j', i1, i2, i3⟩ := sendQueue_spec hn (q := q) (rs := (partialSend n p.send rs).2.2.2) (qok_tail hn h3) (fun p' hp' => hp p' (by simp [hp']))
      refine ⟨p.what :: l, j', i1, by simp only [List.map_cons, i2, List.cons_append], ?_⟩
      have hz : headFrags n q 0 = [] := by cases q <;> simp [headFrags]
      rw [hz, List.nil_append] at i3
      have hfull : (p.send.msg.frags n).take (j + k) = p.send.msg.frags n := by
        rw [e4.mp ho]; exact List.take_of_length_le (by rw [frags_length]; omega)
      simp only [headFrags, List.flatMap_cons, Pend.what]
      rw [i3, e2, ← List.append_assoc, htake, hfull, List.append_assoc]
      cases h : (sendQueue n q (partialSend n p.send rs).2.2.2).2.1 <;> rfl
    | blocked => exact hnd (by rw [ho]; simp)
    | failed => exact hnd (by rw [ho]; simp)

/-- Every message to a destination has been sent as a whole, or it is lost, at some datagram; or it waits. -/
structure QI (n d : Nat) (x : List Pend × List Ev) (past : List (Item × Bool)) (j : Nat) : Prop where
  ok : Qok n x.1 j
  acc : accepted d x.2 = past.map (fun y => (y.1.msg, y.2)) ++ x.1.map Pend.what
  sent : sentTo d x.2 = stream n (past.map (·.1)) ++ headFrags n x.1 j
  lost : lostTo d x.2 = (past.filter fun y => !y.1.done).map fun y => (y.1.msg, y.2)
  sane : ∀ y ∈ past, (y.1.done = true ∧ y.1.tries = []) ∨ (y.1.done = false ∧ ∃ k, k < y.1.msg.count n ∧ y.1.tries = [k])

theorem accepted_append {d : Nat} {a b : List Ev} : accepted d (a ++ b) = accepted d a ++ accepted d b := by simp [accepted]
theorem sentTo_append {d : Nat} {a b : List Ev} : sentTo d (a ++ b) = sentTo d a ++ sentTo d b := by simp [sentTo]
theorem lostTo_append {d : Nat} {a b : List Ev} : lostTo d (a ++ b) = lostTo d a ++ lostTo d b := by simp [lostTo]

theorem wire_views {d : Nat} {fs : List Frag} : accepted d (fs.map (Ev.wire d)) = [] ∧ sentTo d (fs.map (Ev.wire d)) = fs ∧ lostTo d (fs.map (Ev.wire d)) = [] := by
  induction fs with
  | nil => exact ⟨rfl, rfl, rfl⟩
  | cons f fs ih =>
    obtain ⟨h1, h2, h3⟩ := ih
    simp only [accepted, sentTo, lostTo, List.map_cons] at h1 h2 h3 ⊢
    refine ⟨?_, ?_, ?_⟩
    · rw [List.filterMap_cons_none rfl]; exact h1
    · rw [List.filterMap_cons_some (b := f) (by simp), h2]
    · rw [List.filterMap_cons_none rfl]; exact h3

theorem lost_views {d : Nat} {q : List Pend} : accepted d (lostAll d q) = [] ∧ sentTo d (lostAll d q) = [] ∧ lostTo d (lostAll d q) = q.map Pend.what := by
  induction q with
  | nil => exact ⟨rfl, rfl, rfl⟩
  | cons p q ih =>
    obtain ⟨h1, h2, h3⟩ := ih
    simp only [accepted, sentTo, lostTo, lostAll, List.map_cons] at h1 h2 h3 ⊢
    refine ⟨?_, ?_, ?_⟩
    · rw [List.filterMap_cons_none rfl]; exact h1
    · rw [List.filterMap_cons_none rfl]; exact h2
    · rw [List.filterMap_cons_some (b := p.what) (by simp [Pend.what]), h3]

/-- The messages that are given up: `j` datagrams of the first have been sent. -/
def given (q : List Pend) (j : Nat) : List (Item × Bool) :=
  match q with
  | [] => []
  | p :: q => (⟨p.send.msg, [j], false⟩, p.callback) :: q.map fun p => (⟨p.send.msg, [0], false⟩, p.callback)

theorem given_spec {n : Nat} (hn : 0 < n) {q : List Pend} {j : Nat} (h : Qok n q j) :
    (given q j).map (fun y => (y.1.msg, y.2)) = q.map Pend.what ∧ stream n ((given q j).map (·.1)) = headFrags n q j ∧ (∀ y ∈ given q j, y.1.done = false ∧ ∃ k, k < y.1.msg.count n ∧ y.1.tries = [k]) := by
  cases q with
  | nil => exact ⟨rfl, rfl, fun y hy => by cases hy⟩
  | cons p q =>
    refine ⟨by simp [given, Pend.what], ?_, ?_⟩
    · simp only [given, headFrags, stream, List.map_cons, List.flatMap_cons, Item.frags, Bool.false_eq_true, if_false, List.append_nil, List.flatMap_nil]
      have : (List.flatMap (Item.frags n) (List.map (fun x => x.1) (List.map (fun p : Pend => ((⟨p.send.msg, [0], false⟩ : Item), p.callback)) q))) = [] := by
        rw [List.flatMap_eq_nil_iff]
        intro i hi
        simp only [List.mem_map] at hi
        obtain ⟨_, ⟨p', -, rfl⟩, rfl⟩ := hi
        simp [Item.frags]
      rw [this, List.append_nil]
    · intro y hy
      rcases List.mem_cons.mp hy with rfl | hy
      · exact ⟨rfl, j, h.2.1, rfl⟩
      · obtain ⟨p', -, rfl⟩ := List.mem_map.mp hy
        exact ⟨rfl, 0, count_pos hn _, rfl⟩

theorem QI.lose {n d : Nat} (hn : 0 < n) {q : List Pend} {t : List Ev} {past : List (Item × Bool)} {j : Nat} (h : QI n d (q, t) past j) :
    QI n d ([], t ++ lostAll d q) (past ++ given q j) 0 := by
  obtain ⟨h1, h2, h3, h4, h5⟩ := h
  dsimp only at h1 h2 h3 h4
  obtain ⟨g1, g2, g3⟩ := given_spec hn h1
  obtain ⟨l1, l2, l3⟩ := @lost_views d q
  refine ⟨rfl, ?_, ?_, ?_, ?_⟩
  · dsimp only
    rw [accepted_append, l1, h2, List.map_append, g1]; simp
  · dsimp only
    rw [sentTo_append, l2, h3, List.map_append]
    simp only [stream, List.flatMap_append, headFrags] at g2 ⊢
    rw [g2]
  · dsimp only
    rw [lostTo_append, l3, h4, List.filter_append, List.map_append, ← g1]
    congr 2
    symm
    exact List.filter_eq_self.mpr fun y hy => by rw [(g3 y hy).1]; rfl
  · intro y hy
    rcases List.mem_append.mp hy with hy | hy
    · exact h5 y hy
    · exact .inr (g3 y hy)

theorem QI.flush {n d : Nat} (hn : 0 < n) {q : List Pend} {t : List Ev} {past : List (Item × Bool)} {j : Nat} (h : QI n d (q, t) past j) (hp : ∀ p ∈ q, p.send.msg.payload ≠ []) (rs : List Res) :
    ∃ past' j', QI n d ((sendQueue n q rs).2.1, t ++ (sendQueue n q rs).1.map (.wire d)) past' j' := by
  obtain ⟨h1, h2, h3, h4, h5⟩ := h
  dsimp only at h1 h2 h3 h4
  obtain ⟨l, j', e1, e2, e3⟩ := sendQueue_spec hn (rs := rs) h1 hp
  obtain ⟨w1, w2, w3⟩ := @wire_views d (sendQueue n q rs).1
  refine ⟨past ++ l.map (fun x => (⟨x.1, [], true⟩, x.2)), j', e1, ?_, ?_, ?_, ?_⟩
  · dsimp only
    rw [accepted_append, w1, h2, e2, List.map_append, List.map_map, List.append_nil, List.append_assoc]
    congr 2
    exact (List.map_id l).symm
  · dsimp only
    rw [sentTo_append, w2, h3, List.append_assoc, e3, List.map_append, stream, stream, List.flatMap_append, List.append_assoc]
    congr 2
    rw [List.map_map, List.flatMap_map]
    congr 1
  · dsimp only
    rw [lostTo_append, w3, h4, List.append_nil, List.filter_append]
    have : (l.map (fun x => ((⟨x.1, [], true⟩ : Item), x.2))).filter (fun y => !y.1.done) = [] := by
      rw [List.filter_eq_nil_iff]; intro y hy; obtain ⟨x, -, rfl⟩ := List.mem_map.mp hy; simp
    rw [this, List.append_nil]
  · intro y hy
    rcases List.mem_append.mp hy with hy | hy
    · exact h5 y hy
    · obtain ⟨x, -, rfl⟩ := List.mem_map.mp hy
      exact .inl ⟨rfl, rfl⟩

theorem QI.push {n d : Nat} (hn : 0 < n) {q : List Pend} {t : List Ev} {past : List (Item × Bool)} {j : Nat} (h : QI n d (q, t) past j) (m : Msg) (cb : Bool) :
    QI n d (q ++ [⟨⟨m, 0⟩, cb⟩], t ++ [.accept d m cb]) past j := by
  obtain ⟨h1, h2, h3, h4, h5⟩ := h
  dsimp only at h1 h2 h3 h4
  have hh : headFrags n (q ++ [⟨⟨m, 0⟩, cb⟩]) j = headFrags n q j := by
    cases q with
    | nil => cases h1; simp [headFrags]
    | cons p q => rfl
  refine ⟨?_, ?_, ?_, ?_, h5⟩
  · dsimp only
    cases q with
    | nil => cases h1; exact qok_tail hn (by simp)
    | cons p q =>
      refine ⟨h1.1, h1.2.1, fun p' hp => ?_⟩
      rcases List.mem_append.mp hp with hp | hp
      · exact h1.2.2 p' hp
      · simp only [List.mem_singleton] at hp; subst hp; rfl
  · dsimp only
    rw [accepted_append, h2]
    simp [accepted, Pend.what]
  · dsimp only
    rw [sentTo_append, h3, hh]
    simp [sentTo]
  · dsimp only
    rw [lostTo_append, h4]
    simp [lostTo]

theorem Local.mono {n d x y} (h : Local n d x y) : ∃ t, y.2 = x.2 ++ t := by
  cases h <;> exact ⟨_, rfl⟩

theorem QI.local {n d : Nat} (hn : 0 < n) {x y : List Pend × List Ev} (h : Local n d x y) (hp : ∀ m ∈ accepted d y.2, m.1.payload ≠ []) :
    (∃ past j, QI n d x past j) → ∃ past j, QI n d y past j := by
  rintro ⟨past, j, hq⟩
  have hp' : ∀ p ∈ x.1, p.send.msg.payload ≠ [] := by
    intro p hpm
    obtain ⟨t, ht⟩ := h.mono
    apply hp p.what
    rw [ht, accepted_append, hq.acc]
    simp only [List.mem_append, List.mem_map]
    exact .inl (.inr ⟨p, hpm, rfl⟩)
  cases h with
  | push q t m cb => exact ⟨past, j, hq.push hn m cb⟩
  | flush q t rs h => exact hq.flush hn hp' rs
  | fail q t rs h =>
    obtain ⟨past', j', h'⟩ := hq.flush hn hp' rs
    have := h'.lose hn
    rw [List.append_assoc] at this
    exact ⟨_, _, this⟩
  | lose q t => exact ⟨_, _, hq.lose hn⟩

theorem QI.locals {n d : Nat} (hn : 0 < n) {x y : List Pend × List Ev} (h : Locals n d x y) (hp : ∀ m ∈ accepted d y.2, m.1.payload ≠ []) :
    (∃ past j, QI n d x past j) → ∃ past j, QI n d y past j := by
  induction h with
  | refl => exact id
  | tail h h' ih =>
    intro hx
    refine QI.local hn h' hp (ih (fun m hm => ?_) hx)
    obtain ⟨t, ht⟩ := h'.mono
    exact hp m (by rw [ht, accepted_append]; exact List.mem_append.mpr (.inl hm))

theorem Locals.trans {n d x y z} (h : Locals n d x y) (h' : Locals n d y z) : Locals n d x z := by
  induction h' with
  | refl => exact h
  | tail _ h2 ih => exact .tail ih h2

theorem run_locals {n : Nat} (is : List In) : ∀ {c : Coord}, CI c → ∀ d, Locals n d (c.view d) ((c.run n is).view d) := by
  induction is with
  | nil => exact fun _ d => .refl _
  | cons i is ih => exact fun h d => ((step_spec h i).2 d).trans (ih (step_spec h i).1 d)

theorem filterMap_filter_dest {β : Type} {d : Nat} {f : Ev → Option β} (h : ∀ e, e.dest ≠ d → f e = none) (t : List Ev) : (t.filter fun e => e.dest == d).filterMap f = t.filterMap f := by
  induction t with
  | nil => rfl
  | cons e t ih =>
    by_cases he : e.dest = d
    · rw [List.filter_cons_of_pos (by simp [he]), List.filterMap_cons, List.filterMap_cons, ih]
    · rw [List.filter_cons_of_neg (by simp [he]), List.filterMap_cons, h e he, ih]

theorem view_accepted {d : Nat} {t : List Ev} : accepted d (t.filter fun e => e.dest == d) = accepted d t :=
  filterMap_filter_dest (fun e he => by cases e <;> simp_all [Ev.dest]) t
theorem view_sentTo {d : Nat} {t : List Ev} : sentTo d (t.filter fun e => e.dest == d) = sentTo d t :=
  filterMap_filter_dest (fun e he => by cases e <;> simp_all [Ev.dest]) t
theorem view_lostTo {d : Nat} {t : List Ev} : lostTo d (t.filter fun e => e.dest == d) = lostTo d t :=
  filterMap_filter_dest (fun e he => by cases e <;> simp_all [Ev.dest]) t

theorem run_QI {n : Nat} (hn : 0 < n) (is : List In) (d : Nat) (hp : ∀ m ∈ accepted d (Coord.init.run n is).tr, m.1.payload ≠ []) :
    ∃ past j, QI n d ((Coord.init.run n is).queueOf d, (Coord.init.run n is).tr) past j := by
  obtain ⟨past, j, h⟩ := QI.locals hn (run_locals (n := n) is CI.init d) (by simpa only [Coord.view, view_accepted] using hp)
    ⟨[], 0, rfl, rfl, rfl, rfl, fun y hy => by cases hy⟩
  refine ⟨past, j, h.ok, ?_, ?_, ?_, h.sane⟩
  · have := h.acc; simpa only [Coord.view, view_accepted] using this
  · have := h.sent; simpa only [Coord.view, view_sentTo] using this
  · have := h.lost; simpa only [Coord.view, view_lostTo] using this

end Casual.Ipc

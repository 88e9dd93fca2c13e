import Verif.Callback.Model
/-
  What is relied on when callbacks send.
-/
namespace Casual.Callback

/-- What is pending. -/
def State.pending (st : State) : List (Nat × Msg) := st.remotes.flatMap Remote.entries

/-- All that has been accepted is sent, lost or pending. -/
def Bal (st : State) : Prop := ∀ x, st.acc.count x = st.sent.count x + st.lost.count x + st.pending.count x

theorem count_erase (l : List Remote) (j : Nat) (x : Nat × Msg) :
    (l.flatMap Remote.entries).count x = ((l.eraseIdx j).flatMap Remote.entries).count x + ((l[j]?.map Remote.entries).getD []).count x := by
  induction l generalizing j with
  | nil => simp
  | cons r l ih =>
    cases j with
    | zero => simp [List.count_append]; omega
    | succ j =>
      simp only [List.flatMap_cons, List.count_append, List.eraseIdx_cons_succ, List.getElem?_cons_succ]
      have := ih j
      omega

theorem flush_bal {st : State} (h : Bal st) (j : Nat) : Bal (st.flushAt j) := by
  intro x
  have h1 := h x
  have h2 := count_erase st.remotes j x
  unfold State.flushAt State.pending State.at at *
  simp only [List.count_append] at *
  omega

theorem lose_bal {st : State} (h : Bal st) (j : Nat) : Bal (st.loseAt j) := by
  intro x
  have h1 := h x
  have h2 := count_erase st.remotes j x
  unfold State.loseAt State.pending State.at at *
  simp only [List.count_append] at *
  omega

theorem emplace_bal {st : State} {d : Nat} {m : Msg} (h : Bal st) :
    Bal (State.emplace { st with acc := st.acc ++ [(d, m)] } { dest := d, queue := [m] }) := by
  intro x
  have h1 := h x
  unfold State.emplace State.pending at *
  simp only [List.count_append, List.flatMap_append, List.flatMap_cons, List.flatMap_nil, List.append_nil] at *
  show _ = _ + _ + (_ + List.count x [(d, m)])
  omega

theorem count_push (l : List Remote) (j d : Nat) (m : Msg) (x : Nat × Msg) (h : l.findIdx? (·.dest == d) = some j) :
    ((l.modify j fun r => { r with queue := r.queue ++ [m] }).flatMap Remote.entries).count x = (l.flatMap Remote.entries).count x + [(d, m)].count x := by
  induction l generalizing j with
  | nil => simp at h
  | cons r l ih =>
    rw [List.findIdx?_cons] at h
    by_cases e : (r.dest == d) = true
    · rw [if_pos e] at h
      cases h
      have e : r.dest = d := by simpa using e
      simp only [List.modify_zero_cons, List.flatMap_cons, List.count_append]
      unfold Remote.entries
      simp only [List.map_append, List.map_cons, List.map_nil, List.count_append, e]
      omega
    · rw [if_neg e] at h
      cases hj : l.findIdx? (·.dest == d) with
      | none => rw [hj] at h; cases h
      | some k =>
        rw [hj] at h
        cases h
        simp only [List.modify_succ_cons, List.flatMap_cons, List.count_append]
        have := ih k hj
        omega

theorem push_bal {st : State} {d j : Nat} {m : Msg} (h : Bal st) (hj : st.idx d = some j) :
    Bal (State.pushAt { st with acc := st.acc ++ [(d, m)] } j m) := by
  intro x
  have h1 := h x
  have h2 := count_push st.remotes j d m x hj
  unfold State.pushAt State.pending at *
  simp only [List.count_append] at *
  omega

theorem fold_keeps {α} {P : State → Prop} {f : State → α → State} (h : ∀ st x, P st → P (f st x)) (l : List α) (st : State) (hs : P st) : P (l.foldl f st) := by
  induction l generalizing st with
  | nil => exact hs
  | cons a l ih => exact ih _ (h _ _ hs)

/-- If nothing undefined has happened, everything is accounted for. -/
def Good (st : State) : Prop := st.ub = false → Bal st

theorem broken_good (st : State) : Good st.broken := fun h => by cases h

theorem finish_good {net : Nat → Net} {rec : List Nat → State → Nat × Msg → State} (hr : ∀ a st x, Good st → Good (rec a st x))
    (active : List Nat) (st : State) (j d : Nat) (h : Good st) : Good (finish net rec active st j d) := by
  unfold finish
  split
  · split
    · exact broken_good _
    · intro hu; exact flush_bal (h hu) j
  · exact h
  · have h2 := fold_keeps (hr (j :: active)) ((st.at j).flatMap calls) st h
    dsimp only
    split
    · exact h2
    · split
      · exact broken_good _
      · intro hu; exact lose_bal (h2 hu) j

theorem sendIn_good (net : Nat → Net) (n : Nat) : ∀ (active : List Nat) (st : State) (x : Nat × Msg), Good st → Good (sendIn net n active st x) := by
  induction n with
  | zero => intro active st x _; exact broken_good _
  | succ n ih =>
    intro active st x h
    unfold sendIn
    split
    · exact h
    · rename_i hu
      have hu : st.ub = false := by simpa using hu
      have hb := h hu
      dsimp only
      split
      · rename_i j hj
        split
        · exact broken_good _
        · exact finish_good ih _ _ _ _ fun _ => push_bal hb hj
      · split
        · intro _ y
          have := hb y
          unfold State.pending at *
          simp only [List.count_append] at *
          omega
        · split
          · exact broken_good _
          · exact fun _ => emplace_bal hb
        · apply fold_keeps (ih active)
          intro _ y
          have := hb y
          unfold State.pending at *
          simp only [List.count_append] at *
          omega

/-- Whatever callbacks send: as long as nothing undefined has happened, each message that has been accepted has been sent, or its callback has been
called, or it is pending: exactly one of these, once. -/
theorem accounted (n : Nat) (es : List Ev) (h : (run n {} es).ub = false) (d : Nat) (m : Msg) :
    (run n {} es).acc.count (d, m) = (run n {} es).sent.count (d, m) + (run n {} es).lost.count (d, m) + (run n {} es).pending.count (d, m) := by
  have : Good (run n {} es) := by
    apply fold_keeps (P := Good) (f := step n) _ es
    · intro _ x; rfl
    · intro st e hs
      unfold step
      split
      · exact hs
      · cases e with
        | send d m net => exact sendIn_good net n [] st (d, m) hs
        | writable d net =>
          dsimp only
          split
          · exact hs
          · exact finish_good (sendIn_good net n) _ _ _ _ hs
        | failed d net =>
          dsimp only
          split
          · exact hs
          · exact finish_good (sendIn_good net n) _ _ _ _ hs
  exact this h (d, m)

/-! ### Callbacks send what they should -/

/-- What is used further out stays as it is. -/
def Same (active : List Nat) (a b : State) : Prop := b.ub = false → a.ub = false ∧ ∀ i ∈ active, i < a.remotes.length → b.remotes[i]? = a.remotes[i]? ∧ i < b.remotes.length

theorem Same.refl (active : List Nat) (a : State) : Same active a a := fun h => ⟨h, fun _ _ hi => ⟨rfl, hi⟩⟩

theorem Same.trans {active : List Nat} {a b c : State} (h1 : Same active a b) (h2 : Same active b c) : Same active a c := by
  intro hu
  obtain ⟨g1, g2⟩ := h2 hu
  obtain ⟨f1, f2⟩ := h1 g1
  refine ⟨f1, fun i hi hl => ?_⟩
  obtain ⟨e1, e2⟩ := f2 i hi hl
  obtain ⟨e3, e4⟩ := g2 i hi e2
  exact ⟨e3.trans e1, e4⟩

theorem Same.sub {a1 a2 : List Nat} {a b : State} (h : Same a1 a b) (hs : ∀ i ∈ a2, i ∈ a1) : Same a2 a b := by
  intro hu
  obtain ⟨f1, f2⟩ := h hu
  exact ⟨f1, fun i hi hl => f2 i (hs i hi) hl⟩

theorem same_fold {α} {active : List Nat} {f : State → α → State} (h : ∀ st x, Same active st (f st x)) (l : List α) (st : State) : Same active st (l.foldl f st) := by
  induction l generalizing st with
  | nil => exact Same.refl _ _
  | cons a l ih => exact (h st a).trans (ih _)

theorem same_broken (active : List Nat) (a b : State) : Same active a b.broken := fun h => by cases h

theorem same_erase {active : List Nat} {a b : State} {j : Nat} (hn : j ∉ active) (h : ¬ active.any (j < ·) = true) (hu : b.ub = a.ub) (hr : b.remotes = a.remotes.eraseIdx j) :
    Same active a b := by
  intro hb
  refine ⟨by rw [← hu]; exact hb, fun i hi hl => ?_⟩
  have hij : ¬ j < i := by
    intro e
    exact h (List.any_eq_true.2 ⟨i, hi, by simpa using e⟩)
  have hne : i ≠ j := fun e => hn (e ▸ hi)
  have h1 : i < j := by omega
  rw [hr]
  refine ⟨List.getElem?_eraseIdx_of_lt h1, ?_⟩
  rw [List.length_eraseIdx]
  split <;> omega

theorem finish_same {net : Nat → Net} {rec : List Nat → State → Nat × Msg → State} (hr : ∀ a st x, Same a st (rec a st x))
    {active : List Nat} (st : State) (j d : Nat) (hn : j ∉ active) : Same active st (finish net rec active st j d) := by
  unfold finish
  split
  · split
    · exact same_broken _ _ _
    · rename_i h; exact same_erase hn h rfl rfl
  · exact Same.refl _ _
  · have h2 := (same_fold (hr (j :: active)) ((st.at j).flatMap calls) st).sub (a2 := active) fun i hi => List.mem_cons_of_mem _ hi
    dsimp only
    split
    · exact h2
    · split
      · exact same_broken _ _ _
      · rename_i h; exact h2.trans (same_erase hn h rfl rfl)

theorem sendIn_same (net : Nat → Net) (n : Nat) : ∀ (active : List Nat) (st : State) (x : Nat × Msg), Same active st (sendIn net n active st x) := by
  induction n with
  | zero => intro active st x; exact same_broken _ _ _
  | succ n ih =>
    intro active st x
    unfold sendIn
    split
    · exact Same.refl _ _
    · have h0 : ∀ st2 : State, st2.ub = st.ub → st2.remotes = st.remotes → Same active st st2 := by
        intro st2 h1 h2 hu
        exact ⟨by rw [← h1]; exact hu, fun i _ hl => by rw [h2]; exact ⟨rfl, hl⟩⟩
      dsimp only
      split
      · rename_i j hj
        split
        · exact same_broken _ _ _
        · rename_i hn
          refine Same.trans (b := State.pushAt { st with acc := st.acc ++ [x] } j x.2) ?_ (finish_same ih _ _ _ hn)
          intro hu
          refine ⟨hu, fun i hi hl => ?_⟩
          have hne : j ≠ i := fun e => hn (e ▸ hi)
          unfold State.pushAt
          dsimp only
          rw [List.getElem?_modify_ne _ _ hne, List.length_modify]
          exact ⟨rfl, hl⟩
      · split
        · exact h0 _ rfl rfl
        · split
          · exact same_broken _ _ _
          · intro hu
            refine ⟨hu, fun i hi hl => ?_⟩
            unfold State.emplace
            dsimp only
            rw [List.getElem?_append_left hl, List.length_append]
            exact ⟨rfl, by omega⟩
        · exact (h0 { st with acc := st.acc ++ [x], lost := st.lost ++ [x] } rfl rfl).trans (same_fold (ih active) _ _)

/-- `k` more have been accepted, apart from what callbacks of lost messages have sent. -/
def More (k : Nat × Msg → Nat) (a b : State) : Prop :=
  b.ub = false → ∀ x, b.acc.count x + (a.lost.flatMap calls).count x = a.acc.count x + (b.lost.flatMap calls).count x + k x

theorem more_fold {f : State → Nat × Msg → State} (hu : ∀ st x, (f st x).ub = false → st.ub = false) (h : ∀ st y, More (fun x => [y].count x) st (f st y)) (l : List (Nat × Msg)) (st : State) :
    More (fun x => l.count x) st (l.foldl f st) := by
  have hs : ∀ (l : List (Nat × Msg)) (st : State), (l.foldl f st).ub = false → st.ub = false := by
    intro l
    induction l with
    | nil => intro st h; exact h
    | cons a l ih => intro st h; exact hu _ _ (ih _ h)
  induction l generalizing st with
  | nil => intro _ x; simp
  | cons a l ih =>
    intro hb x
    rw [List.foldl_cons] at hb ⊢
    have h1 := ih (f st a) hb x
    have h2 := h st a (hs _ _ hb) x
    have h3 : (a :: l).count x = [a].count x + l.count x := by
      rw [← List.count_append]; rfl
    simp only at h1 h2 ⊢
    omega

theorem finish_more {net : Nat → Net} {rec : List Nat → State → Nat × Msg → State} (hs : ∀ a st x, Same a st (rec a st x))
    (hr : ∀ a st y, More (fun x => [y].count x) st (rec a st y)) (active : List Nat) (st : State) (j d : Nat) (hj : j < st.remotes.length) :
    More (fun _ => 0) st (finish net rec active st j d) := by
  unfold finish
  split
  · split
    · intro h; cases h
    · intro _ x; show _ = _ + 0; unfold State.flushAt; dsimp only; omega
  · intro _ x; show _ = _ + 0; omega
  · have h1 := more_fold (f := rec (j :: active)) (fun st x h => (hs _ st x h).1) (hr (j :: active)) ((st.at j).flatMap calls) st
    have h2 := same_fold (hs (j :: active)) ((st.at j).flatMap calls) st
    dsimp only
    generalize ((st.at j).flatMap calls).foldl (rec (j :: active)) st = st2 at h1 h2
    split
    · rename_i hu; intro h; rw [hu] at h; cases h
    · split
      · intro h; cases h
      · intro h x
        have h1 := h1 h x
        have h3 := ((h2 h).2 j (by simp) hj).1
        have h4 : st2.at j = st.at j := by unfold State.at; rw [h3]
        show _ = _ + 0
        have h5 : (st2.loseAt j).acc = st2.acc := rfl
        have h6 : (st2.loseAt j).lost = st2.lost ++ st.at j := by rw [← h4]; rfl
        rw [h5, h6, List.flatMap_append, List.count_append]
        simp only at h1
        omega

theorem sendIn_more (net : Nat → Net) (n : Nat) : ∀ (active : List Nat) (st : State) (y : Nat × Msg), More (fun x => [y].count x) st (sendIn net n active st y) := by
  induction n with
  | zero => intro active st y h; cases h
  | succ n ih =>
    intro active st y
    unfold sendIn
    split
    · rename_i hu; intro h; rw [hu] at h; cases h
    · dsimp only
      split
      · rename_i j hj
        split
        · intro h; cases h
        · intro hu x
          have hl : j < (State.pushAt { st with acc := st.acc ++ [y] } j y.2).remotes.length := by
            have : j < st.remotes.length := by
              have hj : st.remotes.findIdx? (·.dest == y.1) = some j := hj
              exact (List.findIdx?_eq_some_iff_getElem.1 hj).1
            unfold State.pushAt
            rw [List.length_modify]
            exact this
          have := finish_more (sendIn_same net n) ih active _ j y.1 hl hu x
          have e1 : (State.pushAt { st with acc := st.acc ++ [y] } j y.2).acc = st.acc ++ [y] := rfl
          have e2 : (State.pushAt { st with acc := st.acc ++ [y] } j y.2).lost = st.lost := rfl
          rw [e1, e2, List.count_append] at this
          show _ = _ + List.count x [y]
          simp only at this ⊢
          omega
      · split
        · intro _ x; simp only [List.count_append]; omega
        · split
          · intro h; cases h
          · intro _ x; unfold State.emplace; simp only [List.count_append]; omega
        · intro hu x
          have := more_fold (fun st x h => (sendIn_same net n active st x h).1) (ih active) (calls y) { st with acc := st.acc ++ [y], lost := st.lost ++ [y] } hu x
          simp only [List.count_append, List.flatMap_append, List.flatMap_cons, List.flatMap_nil, List.append_nil] at this ⊢
          omega

/-- What has been asked for to be sent. -/
def asked (es : List Ev) : List (Nat × Msg) := es.filterMap fun e => match e with | .send d m _ => some (d, m) | _ => none

/-- Whatever callbacks send: as long as nothing undefined has happened, what has been accepted is what was asked for, and all that the callbacks of the
lost messages send, once for each. -/
theorem callbacks_run (n : Nat) (es : List Ev) (h : (run n {} es).ub = false) (d : Nat) (m : Msg) :
    (run n {} es).acc.count (d, m) = (asked es).count (d, m)
      + ((run n {} es).lost.flatMap fun x => x.2.cb.map fun y => (y.1, ({ id := y.2 } : Msg))).count (d, m) := by
  have hidx : ∀ (st : State) (d j : Nat), st.idx d = some j → j < st.remotes.length := by
    intro st d j hj
    exact (List.findIdx?_eq_some_iff_getElem.1 hj).1
  have hstep : ∀ (st : State) (e : Ev), ((step n st e).ub = false → st.ub = false) ∧ More (fun x => (asked [e]).count x) st (step n st e) := by
    intro st e
    unfold step
    split
    · rename_i hu
      exact ⟨fun h => h, fun h => by rw [hu] at h; cases h⟩
    · rename_i hu
      refine ⟨fun _ => by simpa using hu, ?_⟩
      cases e with
      | send d m net => exact sendIn_more net n [] st (d, m)
      | writable d net =>
        dsimp only
        split
        · intro _ x; simp [asked]
        · rename_i j hj
          exact finish_more (sendIn_same net n) (sendIn_more net n) [] st j d (hidx st d j hj)
      | failed d net =>
        dsimp only
        split
        · intro _ x; simp [asked]
        · rename_i j hj
          exact finish_more (sendIn_same net n) (sendIn_more net n) [] st j d (hidx st d j hj)
  have hsticky : ∀ (es : List Ev) (st : State), (run n st es).ub = false → st.ub = false := by
    intro es
    induction es with
    | nil => intro st h; exact h
    | cons e es ih => intro st h; exact (hstep st e).1 (ih _ h)
  have : ∀ (es : List Ev) (st : State), More (fun x => (asked es).count x) st (run n st es) := by
    intro es
    induction es with
    | nil => intro st _ x; simp [asked, run]
    | cons e es ih =>
      intro st hb x
      have h1 := ih (step n st e) hb x
      have h2 := (hstep st e).2 (hsticky es _ hb) x
      have h3 : asked (e :: es) = asked [e] ++ asked es := by unfold asked; rw [← List.filterMap_append]; rfl
      rw [show run n st (e :: es) = run n (step n st e) es from rfl, h3]
      simp only [List.count_append] at *
      omega
  have := this es {} h (d, m)
  have hc : (run n {} es).lost.flatMap calls = (run n {} es).lost.flatMap fun x => x.2.cb.map fun y => (y.1, ({ id := y.2 } : Msg)) := rfl
  rw [← hc]
  simp only [List.flatMap_nil, List.count_nil, Nat.zero_add, Nat.add_zero] at this
  omega

/-! ### Undefined -/

/-- A net where these destinations are gone, and those are blocked. -/
def nets (gone blocked : List Nat) (d : Nat) : Net := if d ∈ gone then .gone else if d ∈ blocked then .blocked else .ready

/-- One message waits for a destination that then turns out to be gone; its callback sends to a destination that is blocked: the vector
moves the element that is used. -/
theorem callback_blocked_refuted (n : Nat) : (run (n + 1) {} [.send 1 { id := 7, cb := [(2, 8)] } (nets [] [1]), .writable 1 (nets [1] [2])]).ub = true := rfl

/-- The same when something already waits for the destination that the callback sends to, before, and that now can be sent: the
element that is used is moved when the one before it is erased. -/
theorem callback_erase_refuted (n : Nat) :
    (run (n + 1) {} [.send 2 { id := 6 } (nets [] [2]), .send 1 { id := 7, cb := [(2, 8)] } (nets [] [1]), .writable 1 (nets [1] [])]).ub = true := rfl

/-- If there is room in the vector the same is fine: three destinations wait, there is room for a fourth. -/
theorem callback_room (n : Nat) :
    (run (n + 2) {} [.send 1 { id := 1 } (nets [] [1]), .send 2 { id := 2 } (nets [] [2]), .send 3 { id := 3, cb := [(4, 8)] } (nets [] [3]), .writable 3 (nets [3] [4])]).ub = false := rfl

/-- Destinations that callbacks send to can always be sent to at once (or are gone), and nothing else is undefined. -/
def Handy (T : Nat → Prop) (e : Ev) : Prop :=
  match e with
  | .send _ m net => (∀ y ∈ m.cb, T y.1) ∧ ∀ t, T t → net t ≠ .blocked
  | .writable _ net => ∀ t, T t → net t ≠ .blocked
  | .failed _ net => ∀ t, T t → net t ≠ .blocked

/-- No destination that a callback sends to has anything that waits. -/
def Clear (T : Nat → Prop) (st : State) : Prop := st.ub = false ∧ ∀ r ∈ st.remotes, ¬ T r.dest ∧ ∀ m ∈ r.queue, ∀ y ∈ m.cb, T y.1

theorem idx_none {T : Nat → Prop} {st : State} (h : Clear T st) {d : Nat} (hd : T d) : st.idx d = none := by
  unfold State.idx
  rw [List.findIdx?_eq_none_iff]
  intro r hr
  have := (h.2 r hr).1
  simp only [beq_eq_false_iff_ne]
  rintro rfl
  exact this hd

/-- A callback sends to such a destination: nothing that waits is touched. -/
theorem plain_clear {T : Nat → Prop} {net : Nat → Net} (hnet : ∀ t, T t → net t ≠ .blocked) (n : Nat) (active : List Nat) {st : State} (h : Clear T st)
    {d i : Nat} (hd : T d) : Clear T (sendIn net (n + 1) active st (d, { id := i })) ∧ (sendIn net (n + 1) active st (d, { id := i })).remotes = st.remotes := by
  unfold sendIn
  rw [if_neg (by simp [h.1])]
  dsimp only
  have : State.idx { st with acc := st.acc ++ [(d, ({ id := i } : Msg))] } d = none := idx_none h hd
  rw [this]
  dsimp only
  cases hn : net d with
  | ready => exact ⟨⟨h.1, h.2⟩, rfl⟩
  | blocked => exact absurd hn (hnet d hd)
  | gone => exact ⟨⟨h.1, h.2⟩, rfl⟩

theorem plain_fold {T : Nat → Prop} {net : Nat → Net} (hnet : ∀ t, T t → net t ≠ .blocked) (n : Nat) (active : List Nat) (l : List (Nat × Msg)) {st : State} (h : Clear T st)
    (hl : ∀ x ∈ l, T x.1 ∧ x.2.cb = []) : Clear T (l.foldl (sendIn net (n + 1) active) st) ∧ (l.foldl (sendIn net (n + 1) active) st).remotes = st.remotes := by
  induction l generalizing st with
  | nil => exact ⟨h, rfl⟩
  | cons x l ih =>
    obtain ⟨hx, hc⟩ := hl x (by simp)
    have e : x = (x.1, { id := x.2.id }) := by
      obtain ⟨a, i, cb⟩ := x
      simp only at hc
      rw [hc]
    have h1 := plain_clear hnet n active h hx (i := x.2.id)
    rw [← e] at h1
    obtain ⟨g1, g2⟩ := ih h1.1 fun y hy => hl y (by simp [hy])
    exact ⟨g1, g2.trans h1.2⟩

theorem calls_plain {T : Nat → Prop} {x : Nat × Msg} (h : ∀ y ∈ x.2.cb, T y.1) : ∀ z ∈ calls x, T z.1 ∧ z.2.cb = [] := by
  intro z hz
  unfold calls at hz
  obtain ⟨y, hy, rfl⟩ := List.mem_map.1 hz
  exact ⟨h y hy, rfl⟩

theorem at_plain {T : Nat → Prop} {st : State} (h : Clear T st) (j : Nat) : ∀ z ∈ (st.at j).flatMap calls, T z.1 ∧ z.2.cb = [] := by
  intro z hz
  obtain ⟨x, hx, hz⟩ := List.mem_flatMap.1 hz
  unfold State.at at hx
  cases hr : st.remotes[j]? with
  | none => rw [hr] at hx; simp at hx
  | some r =>
    rw [hr] at hx
    simp only [Option.map_some, Option.getD_some] at hx
    unfold Remote.entries at hx
    obtain ⟨m, hm, rfl⟩ := List.mem_map.1 hx
    exact calls_plain (x := (r.dest, m)) ((h.2 r (List.mem_of_getElem? hr)).2 m hm) z hz

theorem clear_erase {T : Nat → Prop} {a b : State} (h : Clear T a) (hu : b.ub = a.ub) {j : Nat} (hr : b.remotes = a.remotes.eraseIdx j) : Clear T b :=
  ⟨by rw [hu]; exact h.1, fun r hm => h.2 r (List.eraseIdx_subset (by rw [← hr]; exact hm))⟩

theorem finish_clear {T : Nat → Prop} {net net2 : Nat → Net} (hnet : ∀ t, T t → net t ≠ .blocked) (n : Nat) {st : State} (h : Clear T st) (j d : Nat) :
    Clear T (finish net2 (sendIn net (n + 1)) [] st j d) := by
  unfold finish
  split
  · rw [if_neg (by simp)]
    exact clear_erase h rfl rfl
  · exact h
  · obtain ⟨h1, h2⟩ := plain_fold hnet n [j] _ h (at_plain h j)
    dsimp only
    rw [if_neg (by simp [h1.1]), if_neg (by simp)]
    exact clear_erase h1 rfl rfl

theorem push_clear {T : Nat → Prop} {st : State} (h : Clear T st) {d j : Nat} {m : Msg} (hm : ∀ y ∈ m.cb, T y.1) :
    Clear T (State.pushAt { st with acc := st.acc ++ [(d, m)] } j m) := by
  refine ⟨h.1, ?_⟩
  intro r hr
  unfold State.pushAt at hr
  dsimp only at hr
  obtain ⟨i, hi⟩ := List.mem_iff_getElem?.1 hr
  rw [List.getElem?_modify] at hi
  cases he : st.remotes[i]? with
  | none => rw [he] at hi; simp at hi
  | some r0 =>
    rw [he] at hi
    have h0 := h.2 r0 (List.mem_of_getElem? he)
    by_cases e : j = i
    · simp only [e, if_true] at hi
      have hi := Option.some.inj hi
      subst hi
      refine ⟨h0.1, fun m2 hm2 => ?_⟩
      rcases List.mem_append.1 hm2 with hm2 | hm2
      · exact h0.2 m2 hm2
      · rw [List.mem_singleton.1 hm2]; exact hm
    · simp only [e, if_false] at hi
      have hi := Option.some.inj hi
      subst hi
      exact h0

/-- If the destinations that callbacks send to always can be sent to at once (or are gone), nothing undefined happens: callbacks may send,
whatever else happens, with stack for two sends. -/
theorem callbacks_safe_partial (n : Nat) (T : Nat → Prop) (es : List Ev) (h : ∀ e ∈ es, Handy T e) : (run (n + 2) {} es).ub = false := by
  have : ∀ (es : List Ev) (st : State), (∀ e ∈ es, Handy T e) → Clear T st → Clear T (run (n + 2) st es) := by
    intro es
    induction es with
    | nil => intro st _ hc; exact hc
    | cons e es ih =>
      intro st h hc
      refine ih _ (fun e he => h e (by simp [he])) ?_
      have he := h e (by simp)
      unfold step
      rw [if_neg (by simp [hc.1])]
      cases e with
      | send d m net =>
        obtain ⟨hm, hnet⟩ := he
        dsimp only
        unfold sendIn
        rw [if_neg (by simp [hc.1])]
        dsimp only
        split
        · rw [if_neg (by simp)]
          exact finish_clear hnet n (push_clear hc hm) _ _
        · split
          · exact ⟨hc.1, hc.2⟩
          · rename_i hb
            rw [if_neg (by simp)]
            refine ⟨hc.1, ?_⟩
            intro r hr
            unfold State.emplace at hr
            dsimp only at hr
            rcases List.mem_append.1 hr with hr | hr
            · exact hc.2 r hr
            · rw [List.mem_singleton.1 hr]
              refine ⟨fun ht => hnet d ht hb, fun m2 hm2 => ?_⟩
              rw [List.mem_singleton.1 hm2]
              exact hm
          · refine (plain_fold hnet n [] (calls (d, m)) ?_ (calls_plain (x := (d, m)) hm)).1
            exact ⟨hc.1, hc.2⟩
      | writable d net =>
        dsimp only
        split
        · exact hc
        · exact finish_clear he (n + 1) hc _ _
      | failed d net =>
        dsimp only
        split
        · exact hc
        · exact finish_clear he (n + 1) hc _ _
  exact (this es {} h ⟨rfl, fun r hr => by cases hr⟩).1

/-- The hypotheses are met, and the callback sends: a message is lost, and what its callback sends is sent. -/
example : (∀ e ∈ [Ev.send 1 { id := 7, cb := [(2, 8)] } (nets [] [1]), .writable 1 (nets [1] [])], Handy (· = 2) e)
    ∧ (run 2 {} [.send 1 { id := 7, cb := [(2, 8)] } (nets [] [1]), .writable 1 (nets [1] [])]).sent = [(2, { id := 8 })] := by
  refine ⟨?_, rfl⟩
  intro e he
  rcases List.mem_cons.1 he with rfl | he
  · refine ⟨?_, ?_⟩
    · intro y hy; rw [List.mem_singleton.1 hy]
    · rintro t rfl; decide
  · rw [List.mem_singleton.1 he]
    rintro t rfl
    decide

end Casual.Callback

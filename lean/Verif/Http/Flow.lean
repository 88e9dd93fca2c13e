import Verif.Http.Count
/-
  One request, from the call to the answer, whatever happens to the others.
-/
namespace Casual.Http

/-- What an event does to a request. -/
def apply (r : Req) : Ev → Req
  | .read h n => if h = r.handle then readReq r n else r
  | .header h l => if h = r.handle then headerReq r l else r
  | .body h bs => if h = r.handle then bodyReq r bs else r
  | _ => r

/-- What any number of events do to a request. -/
def follow (r : Req) (es : List Ev) : Req := es.foldl apply r

/-- The event is not the end of the request. -/
def NotDone (h : Nat) (e : Ev) : Prop := ∀ k s, e ≠ .done h k s

theorem readReq_handle (r : Req) (n : Nat) : (readReq r n).handle = r.handle := by
  unfold readReq; split <;> rfl

theorem headerReq_handle (r : Req) (n : Text) : (headerReq r n).handle = r.handle := by
  unfold headerReq; dsimp only; split <;> rfl

theorem apply_handle (r : Req) (e : Ev) : (apply r e).handle = r.handle := by
  cases e <;> unfold apply <;> dsimp only
  · split
    · exact readReq_handle _ _
    · rfl
  · split
    · exact headerReq_handle _ _
    · rfl
  · split <;> rfl

theorem find_map {l : List Req} {h h' : Nat} {f : Req → Req} (hf : ∀ r, (f r).handle = r.handle) {r : Req}
    (hr : l.find? (·.handle == h) = some r) :
    (l.map fun r => if r.handle = h' then f r else r).find? (·.handle == h) = some (if h' = r.handle then f r else r) := by
  induction l with
  | nil => cases hr
  | cons x l ih =>
    rw [List.find?_cons] at hr
    have hx : (if x.handle = h' then f x else x).handle = x.handle := by
      split
      · exact hf x
      · rfl
    rw [List.map_cons, List.find?_cons, hx]
    by_cases e : x.handle = h
    · rw [show (x.handle == h) = true by simpa using e] at hr ⊢
      cases hr
      by_cases e' : r.handle = h'
      · simp [e']
      · have e'' : h' ≠ r.handle := fun q => e' q.symm
        simp [e', e'']
    · rw [show (x.handle == h) = false by simpa using e] at hr ⊢
      exact ih hr

theorem find_eraseP {l : List Req} {h h' : Nat} (hne : h' ≠ h) :
    (l.eraseP (·.handle == h')).find? (·.handle == h) = l.find? (·.handle == h) := by
  induction l with
  | nil => rfl
  | cons x l ih =>
    by_cases e : x.handle = h'
    · rw [List.eraseP_cons_of_pos (by simpa using e), List.find?_cons,
        show (x.handle == h) = false by rw [e]; simpa using hne]
    · rw [List.eraseP_cons_of_neg (by simpa using e), List.find?_cons, List.find?_cons, ih]

theorem errorReply_pending (st : State) (c : Call) (code : Int) : (errorReply st c code).pending = st.pending := by
  unfold errorReply
  rw [metricMaybe_pending]
  dsimp only
  cases c.noReply <;> rfl

theorem step_find {st : State} {e : Ev} {h : Nat} {r : Req} (hr : st.pending.find? (·.handle == h) = some r)
    (hn : NotDone h e) (hd : (step st e).down = false) : (step st e).pending.find? (·.handle == h) = some (apply r e) := by
  have hrh : r.handle = h := by simpa using List.find?_some hr
  have hst : st.down = false := by
    cases h : st.down with
    | false => rfl
    | true => unfold step at hd; rw [if_pos h] at hd; exact h ▸ hd
  unfold step at hd ⊢
  rw [if_neg (by simp [hst])] at hd ⊢
  cases e with
  | call c =>
    simp only
    unfold onCall
    split
    · rw [errorReply_pending]; exact hr
    · split
      · rw [errorReply_pending]; exact hr
      · rw [List.find?_append, hr]; rfl
  | discover d ns => exact hr
  | read hh n =>
    simp only
    split
    · rename_i hf
      unfold apply
      dsimp only
      rw [if_neg, hr]
      intro e
      rw [e, hrh, hr] at hf
      exact absurd hf (by simp)
    · exact find_map (readReq_handle · n) hr
  | header hh l => exact find_map (headerReq_handle · l) hr
  | body hh l => exact find_map (f := (bodyReq · l)) (fun _ => rfl) hr
  | done hh k s =>
    simp only at hd ⊢
    have hne : hh ≠ h := fun e => hn k s (by rw [e])
    unfold onDone at hd ⊢
    cases hf : st.pending.find? (·.handle == hh) with
    | none => exact hr
    | some x =>
      rw [hf] at hd
      dsimp only at hd ⊢
      cases hcode : codeOf x k s with
      | none => rw [hcode] at hd; exact absurd hd (by simp)
      | some c =>
        dsimp only
        rw [metricMaybe_pending]
        dsimp only
        rw [find_eraseP hne]
        exact hr

theorem run_append (st : State) (a b : List Ev) : run st (a ++ b) = run (run st a) b := List.foldl_append ..

theorem up_before {st : State} {es : List Ev} (h : (run st es).down = false) : st.down = false := by
  cases hd : st.down with
  | false => rfl
  | true => rw [down_stays _ _ hd, hd] at h; exact absurd h (by decide)

theorem run_find {st : State} {es : List Ev} {h : Nat} {r : Req} (hr : st.pending.find? (·.handle == h) = some r)
    (hn : ∀ e ∈ es, NotDone h e) (hd : (run st es).down = false) :
    (run st es).pending.find? (·.handle == h) = some (follow r es) := by
  induction es generalizing st r with
  | nil => exact hr
  | cons e es ih =>
    exact ih (step_find hr (hn e List.mem_cons_self) (down_before hd)) (fun e he => hn e (List.mem_cons_of_mem _ he)) hd

/-! ### Handles are not used again -/

/-- All handles that have been used are below the next. -/
def Fresh (st : State) : Prop := (∀ r ∈ st.pending, r.handle < st.next) ∧ ∀ w ∈ st.wire, w.1 < st.next

theorem metricMaybe_same (st : State) : (metricMaybe st).next = st.next ∧ (metricMaybe st).wire = st.wire
    ∧ (metricMaybe st).lookup = st.lookup ∧ (metricMaybe st).cfg = st.cfg := by
  unfold metricMaybe; split <;> exact ⟨rfl, rfl, rfl, rfl⟩

theorem errorReply_same (st : State) (c : Call) (code : Int) : (errorReply st c code).next = st.next
    ∧ (errorReply st c code).wire = st.wire ∧ (errorReply st c code).lookup = st.lookup ∧ (errorReply st c code).cfg = st.cfg := by
  unfold errorReply
  dsimp only
  obtain ⟨h1, h2, h3, h4⟩ := metricMaybe_same { (if c.noReply then st else { st with out := st.out ++ [Msg.reply { dest := c.dest, corr := c.corr, code := code, txn := if c.trid then .rollback else .ok }] }) with
    held := st.held ++ [{ corr := c.corr, code := code }] }
  cases hn : c.noReply <;> simp only [hn, Bool.false_eq_true, if_false, if_true] at h1 h2 h3 h4 ⊢ <;> exact ⟨h1, h2, h3, h4⟩

theorem fresh_errorReply {st : State} (h : Fresh st) (c : Call) (code : Int) : Fresh (errorReply st c code) := by
  unfold Fresh
  rw [errorReply_pending, (errorReply_same st c code).1, (errorReply_same st c code).2.1]
  exact h

theorem fresh_onReq {st : State} (h : Fresh st) (hh : Nat) (f : Req → Req) (hf : ∀ r, (f r).handle = r.handle) : Fresh (onReq st hh f) := by
  refine ⟨fun r hr => ?_, h.2⟩
  obtain ⟨x, hx, rfl⟩ := List.mem_map.1 hr
  have := h.1 x hx
  split
  · rw [hf]; exact this
  · exact this

theorem fresh_step {st : State} (h : Fresh st) (e : Ev) : Fresh (step st e) := by
  unfold step
  split
  · exact h
  cases e with
  | call c =>
    simp only
    unfold onCall
    split
    · exact fresh_errorReply h _ _
    · split
      · exact fresh_errorReply h _ _
      · refine ⟨fun r hr => ?_, fun w hw => Nat.lt_succ_of_lt (h.2 w hw)⟩
        rcases List.mem_append.1 hr with hr | hr
        · exact Nat.lt_succ_of_lt (h.1 r hr)
        · rcases List.mem_singleton.1 hr with rfl
          exact Nat.lt_succ_self _
  | discover d ns => exact h
  | read hh n =>
    simp only
    split
    · exact h
    · rename_i r hr
      have := fresh_onReq h hh (readReq · n) (readReq_handle · n)
      refine ⟨this.1, fun w hw => ?_⟩
      rcases List.mem_append.1 hw with hw | hw
      · exact h.2 w hw
      · rcases List.mem_singleton.1 hw with rfl
        have hrh : r.handle = hh := by simpa using List.find?_some hr
        have := h.1 r (List.mem_of_find?_eq_some hr)
        rw [hrh] at this
        exact this
  | header hh l => exact fresh_onReq h hh (headerReq · l) (headerReq_handle · l)
  | body hh l => exact fresh_onReq h hh (bodyReq · l) fun _ => rfl
  | done hh k s =>
    simp only
    unfold onDone
    split
    · exact h
    · rename_i r hf
      dsimp only
      split
      · exact ⟨fun x hx => h.1 x (List.mem_of_mem_eraseP hx), h.2⟩
      · refine ⟨?_, ?_⟩
        · rw [metricMaybe_pending, (metricMaybe_same _).1]
          exact fun x hx => h.1 x (List.mem_of_mem_eraseP hx)
        · rw [(metricMaybe_same _).1, (metricMaybe_same _).2.1]
          exact h.2

theorem fresh_run {st : State} (h : Fresh st) (es : List Ev) : Fresh (run st es) := by
  induction es generalizing st with
  | nil => exact h
  | cons e es ih => exact ih (fresh_step h e)

theorem fresh_start (cfg : Cfg) (files : List Model) : Fresh (start cfg files) :=
  ⟨(fun _ h => by cases h), (fun _ h => by cases h)⟩

theorem same_step (st : State) (e : Ev) : (step st e).lookup = st.lookup ∧ (step st e).cfg = st.cfg := by
  unfold step
  split
  · exact ⟨rfl, rfl⟩
  cases e with
  | call c =>
    simp only
    unfold onCall
    split
    · exact (errorReply_same _ _ _).2.2
    · split
      · exact (errorReply_same _ _ _).2.2
      · exact ⟨rfl, rfl⟩
  | discover d ns => exact ⟨rfl, rfl⟩
  | read hh n => simp only; split <;> exact ⟨rfl, rfl⟩
  | header hh l => exact ⟨rfl, rfl⟩
  | body hh l => exact ⟨rfl, rfl⟩
  | done hh k s =>
    simp only
    unfold onDone
    split
    · exact ⟨rfl, rfl⟩
    · dsimp only
      split
      · exact ⟨rfl, rfl⟩
      · exact (metricMaybe_same _).2.2

theorem same_run (st : State) (es : List Ev) : (run st es).lookup = st.lookup ∧ (run st es).cfg = st.cfg := by
  induction es generalizing st with
  | nil => exact ⟨rfl, rfl⟩
  | cons e es ih =>
    have h1 := ih (step st e)
    have h2 := same_step st e
    exact ⟨h1.1.trans h2.1, h1.2.trans h2.2⟩

/-! ### From the call to the answer -/

/-- The call is sent on to this node. -/
def Accepted (st : State) (c : Call) (node : Node) : Prop :=
  ∃ p, st.lookup.find? (·.1 == c.name) = some p ∧ p.2 = node ∧ (c.trid = true → node.discard = true)

theorem call_pending {st : State} (hf : Fresh st) (hd : st.down = false) {c : Call} {node : Node} (ha : Accepted st c node) :
    (step st (.call c)).pending.find? (·.handle == st.next) = some (prepare st.cfg st.next node c)
    ∧ (step st (.call c)).wire = st.wire := by
  obtain ⟨p, hp, rfl, ht⟩ := ha
  unfold step
  rw [if_neg (by simp [hd])]
  simp only
  unfold onCall
  rw [hp]
  simp only
  rw [if_neg]
  · refine ⟨?_, rfl⟩
    dsimp only
    rw [List.find?_append]
    have : st.pending.find? (·.handle == st.next) = none := by
      rw [List.find?_eq_none]
      intro r hr e
      have := hf.1 r hr
      have e : r.handle = st.next := by simpa using e
      omega
    rw [this]
    simp [prepare]
  · intro h
    simp only [Bool.and_eq_true] at h
    rw [ht h.1] at h
    exact absurd h.2 (by decide)

theorem done_out {st : State} {h : Nat} {r : Req} {k : Bool} {s : Nat} (hd : (step st (.done h k s)).down = false)
    (hr : st.pending.find? (·.handle == h) = some r) :
    ∃ code user, codeOf r k s = some (code, user) ∧
      ∃ more, (step st (.done h k s)).out = st.out ++ Msg.reply (answer st.cfg r code user) :: more ∧ (∀ m ∈ more, ∃ l, m = Msg.metrics l) := by
  have hst : st.down = false := by
    cases h : st.down with
    | false => rfl
    | true => unfold step at hd; rw [if_pos h] at hd; exact h ▸ hd
  unfold step at hd ⊢
  rw [if_neg (by simp [hst])] at hd ⊢
  simp only at hd ⊢
  unfold onDone at hd ⊢
  rw [hr] at hd ⊢
  dsimp only at hd ⊢
  cases hc : codeOf r k s with
  | none => rw [hc] at hd; exact absurd hd (by simp)
  | some c =>
    refine ⟨c.1, c.2, rfl, ?_⟩
    dsimp only
    unfold metricMaybe
    split
    · exact ⟨[Msg.metrics _], by simp; rfl, fun m hm => ⟨_, List.mem_singleton.1 hm⟩⟩
    · exact ⟨[], by simp, fun m hm => by cases hm⟩

/-- A call that is sent on, whatever happens before, during and to the other calls: when curl is done with it,
its answer is sent, and the answer is made of what has happened to this request. -/
theorem call_to_answer (cfg : Cfg) (files : List Model) (pre mid : List Ev) (c : Call) (node : Node) (k : Bool) (s : Nat)
    (ha : Accepted (start cfg files) c node)
    (hn : ∀ e ∈ mid, NotDone (run (start cfg files) pre).next e)
    (hd : (run (start cfg files) (pre ++ .call c :: mid ++ [.done (run (start cfg files) pre).next k s])).down = false) :
    ∃ code user, codeOf (follow (prepare cfg (run (start cfg files) pre).next node c) mid) k s = some (code, user) ∧
      ∃ more, (run (start cfg files) (pre ++ .call c :: mid ++ [.done (run (start cfg files) pre).next k s])).out
        = (run (start cfg files) (pre ++ .call c :: mid)).out
          ++ Msg.reply (answer cfg (follow (prepare cfg (run (start cfg files) pre).next node c) mid) code user) :: more
        ∧ ∀ m ∈ more, ∃ l, m = Msg.metrics l := by
  rw [run_append] at hd ⊢
  have hd2 : (run (start cfg files) (pre ++ .call c :: mid)).down = false := up_before hd
  have e2 : run (start cfg files) (pre ++ .call c :: mid) = run (step (run (start cfg files) pre) (.call c)) mid := run_append ..
  have hd1 : (step (run (start cfg files) pre) (.call c)).down = false := by rw [e2] at hd2; exact up_before hd2
  have hd0 : (run (start cfg files) pre).down = false := up_before (es := [.call c]) hd1
  have hs := same_run (start cfg files) pre
  have ha' : Accepted (run (start cfg files) pre) c node := by
    obtain ⟨p, hp, h⟩ := ha
    exact ⟨p, by rw [hs.1]; exact hp, h⟩
  have h1 := (call_pending (fresh_run (fresh_start cfg files) pre) hd0 ha').1
  rw [e2] at hd2
  have h2 := run_find h1 hn hd2
  rw [← e2] at h2
  have hs2 := (same_run (start cfg files) (pre ++ .call c :: mid)).2
  have hcfg : (run (start cfg files) pre).cfg = cfg := hs.2
  have h3 := done_out (st := run (start cfg files) (pre ++ .call c :: mid)) hd h2
  rw [hcfg] at h3
  rw [hs2] at h3
  exact h3

/-! ### Data -/

/-- All of the body that curl has got for a request. -/
def bodyOf (h : Nat) : List Ev → List Byte
  | [] => []
  | .body h' bs :: es => if h' = h then bs ++ bodyOf h es else bodyOf h es
  | _ :: es => bodyOf h es

/-- How much curl has asked for, of a request. -/
def askedFor (h : Nat) : List Ev → Nat
  | [] => 0
  | .read h' n :: es => if h' = h then n + askedFor h es else askedFor h es
  | _ :: es => askedFor h es

/-- curl asks for all of the request before it gives any of the reply, and does not ask for more than it has to:
`size` is how much there is to send. -/
def Fed (h size : Nat) (mid : List Ev) : Prop :=
  ∃ a b, mid = a ++ b ∧ bodyOf h a = [] ∧ size ≤ askedFor h a ∧ ∀ n, Ev.read h n ∉ b

theorem bodyOf_append (h : Nat) (a b : List Ev) : bodyOf h (a ++ b) = bodyOf h a ++ bodyOf h b := by
  induction a with
  | nil => rfl
  | cons e a ih =>
    cases e <;> simp only [List.cons_append, bodyOf, ih]
    split
    · rw [List.append_assoc]
    · rfl

theorem apply_payload_type (r : Req) (e : Ev) : (apply r e).payload.type = r.payload.type := by
  cases e <;> unfold apply <;> dsimp only <;> split <;> try rfl
  · unfold readReq; split <;> rfl
  · unfold headerReq; dsimp only; split <;> rfl

theorem follow_type (r : Req) (es : List Ev) : (follow r es).payload.type = r.payload.type := by
  induction es generalizing r with
  | nil => rfl
  | cons e es ih => exact (ih (apply r e)).trans (apply_payload_type r e)

/-- How far the sending has come: all is there and `n` has been sent, or all is sent and nothing is left. -/
def Sent (d : List Byte) (n : Nat) (r : Req) : Prop :=
  (n < d.length ∧ r.payload.data = d ∧ r.offset = n) ∨ (d.length ≤ n ∧ r.payload.data = [] ∧ r.offset = 0)

theorem sent_read {d : List Byte} {n m : Nat} {r : Req} (h : Sent d n r) : Sent d (n + m) (readReq r m)
    ∧ readBytes r m = (d.drop n).take m := by
  rcases h with ⟨h1, h2, h3⟩ | ⟨h1, h2, h3⟩
  · refine ⟨?_, by unfold readBytes; rw [h2, h3]⟩
    unfold readReq
    rw [h2, h3, List.length_drop]
    split
    · exact Or.inr ⟨by omega, rfl, rfl⟩
    · exact Or.inl ⟨by omega, h2, rfl⟩
  · have e1 : (r.payload.data.drop r.offset).length ≤ m := by rw [h2]; simp
    refine ⟨?_, ?_⟩
    · unfold readReq
      rw [if_pos e1]
      exact Or.inr ⟨by omega, rfl, rfl⟩
    · unfold readBytes
      rw [h2, List.drop_eq_nil_of_le h1]
      simp

theorem headerReq_data (r : Req) (l : Text) : (headerReq r l).payload = r.payload ∧ (headerReq r l).offset = r.offset := by
  unfold headerReq; dsimp only; split <;> exact ⟨rfl, rfl⟩

theorem follow_sent {d : List Byte} {n : Nat} {r : Req} (es : List Ev) (h : Sent d n r) (hb : bodyOf r.handle es = []) :
    Sent d (n + askedFor r.handle es) (follow r es) := by
  induction es generalizing r n with
  | nil => exact h
  | cons e es ih =>
    have hh := apply_handle r e
    show Sent d _ (follow (apply r e) es)
    cases e with
    | read h' m =>
      by_cases e1 : h' = r.handle
      · have e2 : apply r (.read h' m) = readReq r m := by unfold apply; dsimp only; rw [if_pos e1]
        have := ih (r := apply r (.read h' m)) (by rw [e2]; exact (sent_read (m := m) h).1) (by rw [hh]; exact hb)
        rw [hh] at this
        simp only [askedFor, if_pos e1]
        rw [← Nat.add_assoc]
        exact this
      · have e2 : apply r (.read h' m) = r := by unfold apply; dsimp only; rw [if_neg e1]
        rw [e2]
        simp only [askedFor, if_neg e1]
        exact ih h hb
    | body h' m =>
      by_cases e1 : h' = r.handle
      · simp only [bodyOf, if_pos e1] at hb
        obtain ⟨hm, hb⟩ := List.append_eq_nil_iff.1 hb
        subst hm
        have e2 : apply r (.body h' []) = bodyReq r [] := by unfold apply; dsimp only; rw [if_pos e1]
        have e3 : bodyReq r [] = r := by unfold bodyReq; rw [List.append_nil]
        rw [e2, e3]
        exact ih h hb
      · have e2 : apply r (.body h' m) = r := by unfold apply; dsimp only; rw [if_neg e1]
        simp only [bodyOf, if_neg e1] at hb
        rw [e2]
        exact ih h hb
    | header h' l =>
      have e2 : (apply r (.header h' l)).payload = r.payload ∧ (apply r (.header h' l)).offset = r.offset := by
        unfold apply; dsimp only; split
        · exact headerReq_data r l
        · exact ⟨rfl, rfl⟩
      have := ih (r := apply r (.header h' l)) (n := n) (by unfold Sent; rw [e2.1, e2.2]; exact h) (by rw [hh]; exact hb)
      rw [hh] at this
      exact this
    | call c => exact ih h hb
    | discover d' ns => exact ih h hb
    | done h' k s => exact ih h hb

theorem follow_body {r : Req} (es : List Ev) (hr : ∀ n, Ev.read r.handle n ∉ es) :
    (follow r es).payload.data = r.payload.data ++ bodyOf r.handle es := by
  induction es generalizing r with
  | nil => exact (List.append_nil _).symm
  | cons e es ih =>
    have hh := apply_handle r e
    show (follow (apply r e) es).payload.data = _
    have := ih (r := apply r e) fun n hn => hr n (by rw [hh] at hn; exact List.mem_cons_of_mem _ hn)
    rw [this, hh]
    cases e with
    | read h' m =>
      have e1 : h' ≠ r.handle := fun e => hr m (by rw [e]; exact List.mem_cons_self)
      unfold apply; dsimp only; rw [if_neg e1]; rfl
    | body h' m =>
      unfold apply; dsimp only
      by_cases e1 : h' = r.handle
      · rw [if_pos e1]; simp only [bodyOf, if_pos e1]
        show (r.payload.data ++ m) ++ _ = _
        rw [List.append_assoc]
      · rw [if_neg e1]; simp only [bodyOf, if_neg e1]
    | header h' l =>
      unfold apply; dsimp only
      split
      · rw [(headerReq_data r l).1]; rfl
      · rfl
    | call c => rfl
    | discover d' ns => rfl
    | done h' k s => rfl

theorem follow_handle (r : Req) (es : List Ev) : (follow r es).handle = r.handle := by
  induction es generalizing r with
  | nil => rfl
  | cons e es ih => exact (ih (apply r e)).trans (apply_handle r e)

theorem follow_append (r : Req) (a b : List Ev) : follow r (a ++ b) = follow (follow r a) b := List.foldl_append ..

/-- If the request is sent before the reply comes, what is kept when the request is done is the body of the reply. -/
theorem follow_data {r : Req} (h0 : r.offset = 0) {mid : List Ev} (hf : Fed r.handle r.payload.data.length mid) :
    (follow r mid).payload.data = bodyOf r.handle mid := by
  obtain ⟨a, b, rfl, hb, hs, hr⟩ := hf
  rw [follow_append, bodyOf_append, hb, List.nil_append]
  have h1 : Sent r.payload.data 0 r := by
    by_cases e : r.payload.data = []
    · exact Or.inr ⟨by rw [e]; exact Nat.le_refl _, e, h0⟩
    · exact Or.inl ⟨List.length_pos_iff.2 e, rfl, h0⟩
  have h2 := follow_sent a h1 hb
  rw [Nat.zero_add] at h2
  have h3 : (follow r a).payload.data = [] := by
    rcases h2 with h2 | h2
    · omega
    · exact h2.2.1
  have := follow_body (r := follow r a) b (by rw [follow_handle]; exact hr)
  rw [this, h3, follow_handle]
  rfl

/-! ### What curl is given to send -/

/-- All that curl has been given for a request, in order. -/
def wireOf (h : Nat) (w : List (Nat × List Byte)) : List Byte := (w.filter fun x => x.1 == h).flatMap (·.2)

theorem wireOf_append (h : Nat) (a b : List (Nat × List Byte)) : wireOf h (a ++ b) = wireOf h a ++ wireOf h b := by
  unfold wireOf; rw [List.filter_append, List.flatMap_append]

theorem wireOf_none {h : Nat} {w : List (Nat × List Byte)} (hw : ∀ x ∈ w, x.1 < h) : wireOf h w = [] := by
  unfold wireOf
  rw [List.filter_eq_nil_iff.2]
  · rfl
  · intro x hx e
    have := hw x hx
    have e : x.1 = h := by simpa using e
    omega

theorem step_wire {st : State} {e : Ev} {h : Nat} {r : Req} (hr : st.pending.find? (·.handle == h) = some r)
    (hd : (step st e).down = false) :
    wireOf h (step st e).wire = wireOf h st.wire ++ (match e with | .read h' n => if h' = h then readBytes r n else [] | _ => []) := by
  have hst : st.down = false := by
    cases h : st.down with
    | false => rfl
    | true => unfold step at hd; rw [if_pos h] at hd; exact h ▸ hd
  unfold step at hd ⊢
  rw [if_neg (by simp [hst])] at hd ⊢
  cases e with
  | call c =>
    simp only [List.append_nil]
    unfold onCall
    split
    · rw [(errorReply_same _ _ _).2.1]
    · split
      · rw [(errorReply_same _ _ _).2.1]
      · rfl
  | discover d ns => simp only [List.append_nil]; rfl
  | read hh n =>
    simp only
    by_cases e : hh = h
    · subst e
      rw [hr, if_pos rfl]
      simp only
      rw [wireOf_append]
      congr 1
      simp [wireOf]
    · rw [if_neg e, List.append_nil]
      split
      · rfl
      · rw [wireOf_append]
        have : wireOf h [(hh, readBytes (by assumption) n)] = [] := by simp [wireOf, e]
        rw [this, List.append_nil]
  | header hh l => simp only [List.append_nil]; rfl
  | body hh l => simp only [List.append_nil]; rfl
  | done hh k s =>
    simp only [List.append_nil]
    unfold onDone
    split
    · rfl
    · dsimp only
      split
      · rfl
      · rw [(metricMaybe_same _).2.1]

theorem run_wire {st : State} {es : List Ev} {h : Nat} {r : Req} {d : List Byte} {n : Nat} (hr : st.pending.find? (·.handle == h) = some r)
    (hs : Sent d n r) (hw : wireOf h st.wire = d.take n)
    (hn : ∀ e ∈ es, NotDone h e) (hb : bodyOf h es = []) (hd : (run st es).down = false) :
    wireOf h (run st es).wire = d.take (n + askedFor h es) := by
  have hrh : r.handle = h := by simpa using List.find?_some hr
  induction es generalizing st r n with
  | nil => exact hw
  | cons e es ih =>
    have hd1 := down_before hd
    have hf := step_find hr (hn e List.mem_cons_self) hd1
    have hwire := step_wire hr hd1
    have hbe : bodyOf h [e] = [] ∧ bodyOf h es = [] := by
      have := bodyOf_append h [e] es
      rw [show [e] ++ es = e :: es from rfl, hb] at this
      exact List.append_eq_nil_iff.1 this.symm
    have hsent := follow_sent (r := r) [e] hs (by rw [hrh]; exact hbe.1)
    rw [hrh] at hsent
    have hask : askedFor h (e :: es) = askedFor h [e] + askedFor h es := by
      cases e <;> simp only [askedFor] <;> try omega
      split <;> omega
    rw [hask, ← Nat.add_assoc]
    show wireOf h (run (step st e) es).wire = _
    refine ih hf hsent ?_ (fun e he => hn e (List.mem_cons_of_mem _ he)) hbe.2 hd ((apply_handle r e).trans hrh)
    rw [hwire, hw]
    cases e with
    | read h' m =>
      simp only [askedFor]
      by_cases e1 : h' = h
      · rw [if_pos e1, if_pos e1, (sent_read (m := m) hs).2, Nat.add_zero, List.take_add]
      · rw [if_neg e1, if_neg e1, List.append_nil, Nat.add_zero]
    | call c => simp [askedFor]
    | discover d' ns => simp [askedFor]
    | header h' l => simp [askedFor]
    | body h' l => simp [askedFor]
    | done h' k s => simp [askedFor]

theorem run_wire_none {st : State} {es : List Ev} {h : Nat} {r : Req} (hr : st.pending.find? (·.handle == h) = some r)
    (hn : ∀ e ∈ es, NotDone h e) (hread : ∀ n, Ev.read h n ∉ es) (hd : (run st es).down = false) :
    wireOf h (run st es).wire = wireOf h st.wire := by
  induction es generalizing st r with
  | nil => rfl
  | cons e es ih =>
    have hd1 := down_before hd
    have hf := step_find hr (hn e List.mem_cons_self) hd1
    have := ih hf (fun e he => hn e (List.mem_cons_of_mem _ he)) (fun n hn => hread n (List.mem_cons_of_mem _ hn)) hd
    refine this.trans ?_
    rw [step_wire hr hd1]
    cases e with
    | read h' m =>
      have : h' ≠ h := fun e => hread m (by rw [e]; exact List.mem_cons_self)
      simp [this]
    | _ => simp

end Casual.Http

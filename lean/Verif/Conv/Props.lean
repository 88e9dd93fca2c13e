import Verif.Conv.Desc
/-!
Properties of conversations. A history is any list of actions of any number of processes; `run srv as` is what it leads to;
the log is what the users of the processes have seen.
-/
namespace Casual.Conv

/-! ### the calls -/

/-- `tpsend` in process `p`. -/
def sendResult (w : World) (p : Nat) (d : Int) (x : Nat) (receiveOnly : Bool) : Res :=
  (send w.up (w.procs p) d x receiveOnly).2.2

/-- `tprecv` in process `p`. -/
def recvResult (w : World) (p : Nat) (d : Int) (noBlock : Bool) : Res := (recv (w.procs p) d noBlock).2

/-- `tpdiscon` in process `p`. -/
def disconResult (w : World) (p : Nat) (d : Int) : Res := (disconnect w.up (w.procs p) d).2.2

/-- `d` is, in process `p`, an open descriptor of the conversation `c`. -/
def IsOpen (w : World) (p : Nat) (d : Int) (c : Nat) : Prop := ∃ v, lookup (w.procs p).table d = some v ∧ v.corr = c

/-- It is, and the process is in control. -/
def InControl (w : World) (p : Nat) (d : Int) (c : Nat) : Prop :=
  ∃ v, lookup (w.procs p).table d = some v ∧ v.corr = c ∧ v.duplex = .send

/-- It is, and the other side is in control. -/
def Receiving (w : World) (p : Nat) (d : Int) (c : Nat) : Prop :=
  ∃ v, lookup (w.procs p).table d = some v ∧ v.corr = c ∧ v.duplex = .receive

theorem IsOpen.places {w : World} {p : Nat} {d : Int} {c : Nat} (h : IsOpen w p d c) : 1 ≤ places c (w.procs p) := by
  obtain ⟨v, h1, rfl⟩ := h
  exact open_places (mem_of_idx (lookup_some h1).1)

theorem InControl.open {w : World} {p : Nat} {d : Int} {c : Nat} (h : InControl w p d c) : IsOpen w p d c := by
  obtain ⟨v, h1, h2, _⟩ := h; exact ⟨v, h1, h2⟩

theorem Receiving.open {w : World} {p : Nat} {d : Int} {c : Nat} (h : Receiving w p d c) : IsOpen w p d c := by
  obtain ⟨v, h1, h2, _⟩ := h; exact ⟨v, h1, h2⟩

/-- The process is a side of the conversation: the one that connected. -/
def IsInitiator (w : World) (p c : Nat) : Prop := ∃ k, w.convs[c]? = some k ∧ p = k.initiator
def IsSubordinate (w : World) (p c : Nat) : Prop := ∃ k, w.convs[c]? = some k ∧ p = k.subordinate

/-! ### C185 descriptors -/

theorem countP_unique {f : Option Val → Bool} : ∀ {l : Table} {i j : Nat} {a b : Option Val}, l.countP f ≤ 1 →
    l[i]? = some a → f a = true → l[j]? = some b → f b = true → i = j
  | [], i, j, a, b, _, h, _, _, _ => by simp at h
  | o :: l, 0, 0, _, _, _, _, _, _, _ => rfl
  | o :: l, 0, j + 1, a, b, hc, h1, h2, h3, h4 => by
    simp only [List.getElem?_cons_zero, Option.some.injEq, List.getElem?_cons_succ] at h1 h3
    subst h1
    have := table_pos_of (List.mem_of_getElem? h3) h4
    rw [List.countP_cons, if_pos h2] at hc
    omega
  | o :: l, i + 1, 0, a, b, hc, h1, h2, h3, h4 => by
    simp only [List.getElem?_cons_zero, Option.some.injEq, List.getElem?_cons_succ] at h1 h3
    subst h3
    have := table_pos_of (List.mem_of_getElem? h1) h2
    rw [List.countP_cons, if_pos h4] at hc
    omega
  | o :: l, i + 1, j + 1, a, b, hc, h1, h2, h3, h4 => by
    simp only [List.getElem?_cons_succ] at h1 h3
    have : l.countP f ≤ 1 := by rw [List.countP_cons] at hc; omega
    rw [countP_unique this h1 h2 h3 h4]

/-- In a process a conversation has at most one descriptor. -/
theorem conv_descriptor_unique (srv : Nat → Bool) (as : List Act) (p c : Nat) (d d' : Int)
    (h : IsOpen (run srv as) p d c) (h' : IsOpen (run srv as) p d' c) : d = d' := by
  obtain ⟨v, h1, h2⟩ := h
  obtain ⟨v', h1', h2'⟩ := h'
  obtain ⟨h3, h4⟩ := lookup_some h1
  obtain ⟨h3', h4'⟩ := lookup_some h1'
  have h0 := (All.run srv as).inv.one c p
  unfold places at h0
  have := countP_unique (f := isOpen c) (by omega) h3 (by simp [isOpen, h2]) h3' (by simp [isOpen, h2'])
  omega

/-- What `tpconnect` has returned is the descriptor of the conversation, as long as it is open. -/
theorem conv_descriptor (srv : Nat → Bool) (as : List Act) (p c d : Nat) (d' : Int)
    (hc : .connected c d ∈ (run srv as).log) (hp : IsInitiator (run srv as) p c) (ho : IsOpen (run srv as) p d' c) :
    d' = (d : Int) := by
  obtain ⟨k, hk, rfl⟩ := hp
  obtain ⟨v, h1, h2⟩ := (All.run srv as).desc.desc c d k hk (Or.inl hc) ho.places
  exact conv_descriptor_unique srv as _ c _ _ ho ⟨v, lookup_ofNat h1, h2⟩

/-- A descriptor that is not open is refused, by all calls, and nothing happens. -/
theorem conv_bad_descriptor (srv : Nat → Bool) (w : World) (p : Nat) (d : Int) (h : ¬ ∃ c, IsOpen w p d c)
    (x : Nat) (b : Bool) :
    (sendResult w p d x b = .error .descriptor ∧ step srv w (.send p d x b) = w) ∧
    (recvResult w p d b = .error .descriptor ∧ step srv w (.recv p d b) = w) ∧
    (disconResult w p d = .error .descriptor ∧ step srv w (.disconnect p d) = w) := by
  have hl : lookup (w.procs p).table d = none := by
    cases hx : lookup (w.procs p).table d with
    | none => rfl
    | some v => exact absurd ⟨v.corr, v, hx, rfl⟩ h
  have e1 : send w.up (w.procs p) d x b = (w.procs p, none, .error .descriptor) := by unfold send; rw [hl]
  have e2 : recv (w.procs p) d b = (w.procs p, .error .descriptor) := by unfold recv; rw [hl]
  have e3 : disconnect w.up (w.procs p) d = (w.procs p, none, .error .descriptor) := by unfold disconnect; rw [hl]
  refine ⟨⟨by rw [sendResult, e1], ?_⟩, ⟨by rw [recvResult, e2], ?_⟩, ⟨by rw [disconResult, e3], ?_⟩⟩
  · unfold step
    simp only
    split
    · rw [e1]; simp only [noteSend, World.post, set_self]
    · rfl
  · unfold step
    simp only
    split
    · rw [e2]; simp only [noteRecv, set_self]
    · rfl
  · unfold step
    simp only
    split
    · rw [e3]; simp only [noteDisconnect, World.post, set_self]
    · rfl

/-! ### C186 control -/

/-- The two sides of a conversation are never in control at the same time. -/
theorem conv_control (srv : Nat → Bool) (as : List Act) (p q c : Nat) (d d' : Int) (hpq : p ≠ q)
    (h : InControl (run srv as) p d c) : ¬ InControl (run srv as) q d' c := by
  rintro ⟨v', h1', h2', h3'⟩
  obtain ⟨v, h1, h2, h3⟩ := h
  have hi := (All.run srv as).inv
  have m1 := mem_of_idx (lookup_some h1).1
  have m2 := mem_of_idx (lookup_some h1').1
  have ht := hi.turn m1 h3
  obtain ⟨k, hk, _, hs⟩ := hi.home.tab p v m1
  obtain ⟨k', hk', _, hs'⟩ := hi.home.tab q v' m2
  rw [h2] at hk
  rw [h2', hk] at hk'
  simp only [Option.some.injEq] at hk'
  subst hk'
  have hq : v.peer = q := by
    rcases hs with ⟨_, a, b⟩ | ⟨_, a, b⟩ <;> rcases hs' with ⟨_, a', b'⟩ | ⟨_, a', b'⟩
    · exact absurd (a.trans a'.symm) hpq
    · rw [b, a']
    · rw [b, a']
    · exact absurd (a.trans a'.symm) hpq
  rw [hq, h2] at ht
  have := control_pos m2 h3'
  rw [h2'] at this
  omega

/-- Whoever is not in control gets `TPEPROTO` from `tpsend`, whoever is gets it from `tprecv`, and nothing happens. -/
theorem conv_control_protocol (srv : Nat → Bool) (w : World) (p c : Nat) (d : Int) (x : Nat) (b : Bool) (ho : IsOpen w p d c) :
    (¬ InControl w p d c → sendResult w p d x b = .error .protocol ∧ step srv w (.send p d x b) = w) ∧
    (InControl w p d c → recvResult w p d b = .error .protocol ∧ step srv w (.recv p d b) = w) := by
  obtain ⟨v, h1, h2⟩ := ho
  constructor
  · intro hn
    have hd : v.duplex ≠ .send := fun e => hn ⟨v, h1, h2, e⟩
    have e1 : send w.up (w.procs p) d x b = (w.procs p, none, .error .protocol) := by
      unfold send; rw [h1]; simp [hd]
    refine ⟨by rw [sendResult, e1], ?_⟩
    unfold step
    simp only
    split
    · rw [e1]; simp only [noteSend, World.post, set_self]
    · rfl
  · rintro ⟨v', h1', _, h3'⟩
    rw [h1] at h1'
    simp only [Option.some.injEq] at h1'
    subst h1'
    have e1 : recv (w.procs p) d b = (w.procs p, .error .protocol) := by
      unfold recv; rw [h1]; simp [h3']
    refine ⟨by rw [recvResult, e1], ?_⟩
    unfold step
    simp only
    split
    · rw [e1]; simp only [noteRecv, set_self]
    · rfl

/-! ### C187 the data -/

/-- A server does not wait for requests while it has an open conversation that it has initiated: a service disconnects, or
receives until the end, before it returns. -/
def NeatHistory (srv : Nat → Bool) (as : List Act) (p : Nat) : Prop :=
  ∀ pre, pre <+: as → srv p = true → ((run srv pre).procs p).busy = false →
    ∀ d c, IsOpen (run srv pre) p d c → ¬ IsInitiator (run srv pre) p c

theorem NeatHistory.now {srv : Nat → Bool} {as : List Act} {p : Nat} (h : NeatHistory srv as p) {pre : List Act}
    (hp : pre <+: as) : NeatNow srv (run srv pre) p := by
  rintro ⟨h1, h2⟩ v hv
  cases hvi : v.initiator with
  | false => rfl
  | true =>
    obtain ⟨i, hi⟩ := List.getElem?_of_mem hv
    obtain ⟨k, hk, _, h3⟩ := (All.run srv pre).inv.home.tab p v hv
    rcases h3 with ⟨_, h3, _⟩ | ⟨h3, _⟩
    · exact absurd ⟨k, hk, h3⟩ (h pre hp h1 h2 i v.corr ⟨v, lookup_ofNat hi, rfl⟩)
    · rw [hvi] at h3; cases h3

theorem NeatHistory.init {srv : Nat → Bool} {as : List Act} {a : Act} {p : Nat} (h : NeatHistory srv (as ++ [a]) p) :
    NeatHistory srv as p := fun pre hp => h pre (hp.trans (List.prefix_append _ _))

/-- The two sides. -/
def Sides (w : World) (c r s : Nat) : Prop :=
  (IsInitiator w r c ∧ IsSubordinate w s c) ∨ (IsSubordinate w r c ∧ IsInitiator w s c)

theorem Sides.pair {w : World} {c r s : Nat} (h : Sides w c r s) : Pair w c r s := by
  rcases h with ⟨⟨k, h1, h2⟩, ⟨k', h1', h2'⟩⟩ | ⟨⟨k, h1, h2⟩, ⟨k', h1', h2'⟩⟩
  · rw [h1] at h1'; simp only [Option.some.injEq] at h1'; subst h1'; exact ⟨k, h1, Or.inl ⟨h2, h2'⟩⟩
  · rw [h1] at h1'; simp only [Option.some.injEq] at h1'; subst h1'; exact ⟨k, h1, Or.inr ⟨h2, h2'⟩⟩

/-- What is received is what has been sent, in the same order, nothing twice. -/
theorem conv_data_order (srv : Nat → Bool) (as : List Act) (c r s : Nat) (h : Sides (run srv as) c r s) :
    (gotBy r c (run srv as).log).Sublist (sentBy s c (run srv as).log) :=
  (List.sublist_append_left _ _).trans ((All.run srv as).seq c r s h.pair)

theorem run_full (srv : Nat → Bool) (c r s : Nat) : ∀ (n : Nat) (as : List Act), as.length = n →
    (IsInitiator (run srv as) r c → NeatHistory srv as r) →
    Full (run srv as) c r s ∧ (Pair (run srv as) c r s → gotBy r c (run srv as).log <+: sentBy s c (run srv as).log) := by
  intro n
  induction n with
  | zero =>
    intro as hl _
    have : as = [] := List.length_eq_zero_iff.1 hl
    subst this
    exact ⟨by rintro ⟨k, hk, _⟩; simp [run] at hk, by rintro ⟨k, hk, _⟩; simp [run] at hk⟩
  | succ n ih =>
    intro as hl hn
    rcases List.eq_nil_or_concat as with rfl | ⟨bs, a, rfl⟩
    · simp at hl
    · have hl' : bs.length = n := by simpa using hl
      have hm := step_move srv (run srv bs) a
      rw [List.concat_eq_append] at hn ⊢
      simp only [run_snoc] at hn ⊢
      have hA := All.run srv bs
      have hinit : IsInitiator (run srv bs) r c → NeatHistory srv (bs ++ [a]) r := by
        rintro ⟨k, hk, hr⟩
        apply hn
        refine ⟨k, ?_, hr⟩
        rcases hm.convs with e | ⟨k', e⟩
        · rw [e]; exact hk
        · rw [e, List.getElem?_append_left (lt_of_some hk)]; exact hk
      obtain ⟨f, g⟩ := ih bs hl' (fun h => (hinit h).init)
      refine ⟨f.move hA.inv hA.known hA.disc hA.fram hA.req hm (fun h => (hinit h).now (List.prefix_append _ _)), ?_⟩
      intro hp
      by_cases hp0 : Pair (run srv bs) c r s
      · exact prefix_move (g hp0) f hp0 hA.inv hm
      · obtain ⟨_, h2, _, _⟩ := hm.new hA.inv.home hA.known hp hp0
        rw [h2]
        exact List.nil_prefix

/-- What is received is the first part of what has been sent: nothing is missing in between. -/
theorem conv_data_prefix (srv : Nat → Bool) (as : List Act) (c r s : Nat) (h : Sides (run srv as) c r s)
    (hn : IsInitiator (run srv as) r c → NeatHistory srv as r) :
    gotBy r c (run srv as).log <+: sentBy s c (run srv as).log :=
  (run_full srv c r s _ as rfl hn).2 h.pair

/-- Whoever is in control has received everything that the other side has sent. -/
theorem conv_control_all (srv : Nat → Bool) (as : List Act) (c r s : Nat) (d : Int) (h : Sides (run srv as) c r s)
    (hn : IsInitiator (run srv as) r c → NeatHistory srv as r) (hc : InControl (run srv as) r d c) :
    gotBy r c (run srv as).log = sentBy s c (run srv as).log := by
  have := (run_full srv c r s _ as rfl hn).1 h.pair hc.open.places
  obtain ⟨v, h1, h2, h3⟩ := hc
  have hq := (All.run srv as).turn.quiet r v (mem_of_idx (lookup_some h1).1) h3
  rw [h2] at hq
  rw [hq] at this
  simpa using this

/-! ### C188 the events -/

/-- What has happened in the other process, when an event that ends the conversation has been given to `p`. -/
theorem conv_events_true (srv : Nat → Bool) (as : List Act) (p c : Nat) (e : Event) (u : Int) (x : Option Nat)
    (h : .ended p c e u x ∈ (run srv as).log) :
    match e with
    | .disconnect => .disconnected c ∈ (run srv as).log ∧ IsSubordinate (run srv as) p c
    | .serviceSuccess => ∃ y, x = some y ∧ .returned c true u y true ∈ (run srv as).log
    | .serviceFail => ∃ y t, (x = some y ∨ x = none) ∧ .returned c false u y t ∈ (run srv as).log
    | .serviceError => .failed c ∈ (run srv as).log ∨ .reported c ∈ (run srv as).log ∨
        ∃ u' y t, .returned c true u' y t ∈ (run srv as).log
    | .sendOnly => False := by
  have := (All.run srv as).told p c e u x h
  cases e <;> exact this

/-! ### C189 after the end -/

/-- When the conversation has ended for a process, by an event or an error of the communication, no later call in that process is
for that conversation (the log has the newest first). -/
theorem conv_end_final (srv : Nat → Bool) (as : List Act) (p c : Nat) (later before : List Entry) (e : Entry)
    (hl : (run srv as).log = later ++ e :: before)
    (he : (∃ ev u x, e = .ended p c ev u x) ∨ e = .lost p c) :
    ∀ e' ∈ later, (∀ x, e' ≠ .sent p c x) ∧ (∀ x b, e' ≠ .got p c x b) ∧ (∀ ev u x, e' ≠ .ended p c ev u x) ∧
      e' ≠ .lost p c := by
  intro e' he'
  have hf := (All.run srv as).final
  unfold Final at hf
  rw [hl, List.pairwise_append] at hf
  have hends : endsFor p c e = true := by
    rcases he with ⟨ev, u, x, rfl⟩ | rfl <;> simp [endsFor]
  have := hf.2.2 e' he' e List.mem_cons_self p c hends
  refine ⟨?_, ?_, ?_, ?_⟩
  · rintro x rfl; simp [usedBy] at this
  · rintro x b rfl; simp [usedBy] at this
  · rintro ev u x rfl; simp [usedBy] at this
  · rintro rfl; simp [usedBy] at this

/-- And its descriptor is not open any more. -/
theorem conv_end_closed (srv : Nat → Bool) (as : List Act) (p c : Nat) (e : Entry) (h : e ∈ (run srv as).log)
    (he : (∃ ev u x, e = .ended p c ev u x) ∨ e = .lost p c) (d : Int) : ¬ IsOpen (run srv as) p d c := by
  intro ho
  have hends : endsFor p c e = true := by
    rcases he with ⟨ev, u, x, rfl⟩ | rfl <;> simp [endsFor]
  have := (All.run srv as).over e h p c hends
  have := ho.places
  omega

/-! ### C190 the end of the service is noticed -/

theorem run_ends (srv : Nat → Bool) (c : Nat) : ∀ (n : Nat) (as : List Act), as.length = n →
    (∀ p, IsInitiator (run srv as) p c → NeatHistory srv as p) → Ends (run srv as) c := by
  intro n
  induction n with
  | zero =>
    intro as hl _
    have : as = [] := List.length_eq_zero_iff.1 hl
    subst this
    intro k hk; simp [run] at hk
  | succ n ih =>
    intro as hl hn
    rcases List.eq_nil_or_concat as with rfl | ⟨bs, a, rfl⟩
    · simp at hl
    · have hl' : bs.length = n := by simpa using hl
      have hm := step_move srv (run srv bs) a
      rw [List.concat_eq_append] at hn ⊢
      simp only [run_snoc] at hn ⊢
      have hA := All.run srv bs
      have hinit : ∀ r, IsInitiator (run srv bs) r c → NeatHistory srv (bs ++ [a]) r := by
        rintro r ⟨k, hk, hr⟩
        apply hn
        refine ⟨k, ?_, hr⟩
        rcases hm.convs with e | ⟨k', e⟩
        · rw [e]; exact hk
        · rw [e, List.getElem?_append_left (lt_of_some hk)]; exact hk
      refine (ih bs hl' (fun r h => (hinit r h).init)).move hA.inv hA.known hA.disc hm ?_
      intro k hk
      exact (hinit k.initiator ⟨k, hk, rfl⟩).now (List.prefix_append _ _)

theorem recv_found {p : Proc} {d : Int} {v : Val} (hl : lookup p.table d = some v) (hd : v.duplex = .receive) {m : Msg}
    (hm : m ∈ p.inbox) (hc : isConversation v.corr m = true) (nb : Bool) :
    (recv p d nb).2 ≠ .wait ∧ (recv p d nb).2 ≠ .error .noMessage := by
  unfold recv
  rw [hl]
  simp only [hd, ne_eq, not_true_eq_false, if_false]
  split
  · simp
  · split
    · rename_i h
      have := takeFirst_none.1 h m hm
      rw [hc] at this; cases this
    · split
      · simp
      · split <;> simp
    · simp
    · simp

theorem send_found {up : Nat → Bool} {p : Proc} {d : Int} {v : Val} (hl : lookup p.table d = some v) (hd : v.duplex = .send) {m : Msg}
    (hm : m ∈ p.inbox) (hc : isConversation v.corr m = true) (x : Nat) (ro : Bool) :
    (∃ e u y, (send up p d x ro).2.2 = .event e u y) ∧ (send up p d x ro).2.1 = none := by
  unfold send
  rw [hl]
  simp only [hd, ne_eq, not_true_eq_false, if_false]
  split
  · exact ⟨⟨_, _, _, rfl⟩, rfl⟩
  · split
    · exact ⟨⟨_, _, _, rfl⟩, rfl⟩
    · exact ⟨⟨_, _, _, rfl⟩, rfl⟩
    · exact ⟨⟨_, _, _, rfl⟩, rfl⟩
    · rename_i h
      have := takeFirst_none.1 h m hm
      rw [hc] at this; cases this

/-- When the service has returned, could not be called, or the service manager has told about its end, the initiator does not wait for ever:
`tprecv` returns, and `tpsend` gives an event and sends nothing. -/
theorem conv_end_noticed (srv : Nat → Bool) (as : List Act) (p c : Nat) (d : Int)
    (hp : IsInitiator (run srv as) p c) (hn : NeatHistory srv as p) (ha : ((run srv as).procs p).alive = true)
    (he : .failed c ∈ (run srv as).log ∨ .reported c ∈ (run srv as).log ∨ ∃ s u x t, .returned c s u x t ∈ (run srv as).log) :
    (Receiving (run srv as) p d c → ∀ nb, recvResult (run srv as) p d nb ≠ .wait ∧
      recvResult (run srv as) p d nb ≠ .error .noMessage) ∧
    (InControl (run srv as) p d c → ∀ x ro, ∃ e u y, sendResult (run srv as) p d x ro = .event e u y) := by
  have hE := run_ends srv c _ as rfl (by
    rintro q ⟨k, hk, hq⟩
    obtain ⟨k', hk', hp'⟩ := hp
    rw [hk] at hk'
    simp only [Option.some.injEq] at hk'
    subst hk'
    rw [hq, ← hp']
    exact hn)
  obtain ⟨k, hk, rfl⟩ := hp
  have hfin : ∃ e ∈ (run srv as).log, finishes c e = true := by
    rcases he with h | h | ⟨s, u, x, t, h⟩ <;> exact ⟨_, h, by simp [finishes]⟩
  constructor
  · rintro ⟨v, h1, rfl, h3⟩ nb
    obtain ⟨m, hm, hme⟩ := hE k hk hfin ha (open_places (mem_of_idx (lookup_some h1).1))
    exact recv_found h1 h3 hm hme.1 nb
  · rintro ⟨v, h1, rfl, h3⟩ x ro
    obtain ⟨m, hm, hme⟩ := hE k hk hfin ha (open_places (mem_of_idx (lookup_some h1).1))
    exact (send_found h1 h3 hm hme.1 x ro).1

/-! ### C191 tpdiscon is noticed -/

theorem takeFirst_mem {f : Msg → Bool} {l : List Msg} {m : Msg} (hm : m ∈ l) (hf : f m = true) :
    ∃ m' rest, takeFirst f l = some (m', rest) := by
  cases h : takeFirst f l with
  | none => have := takeFirst_none.1 h m hm; rw [hf] at this; cases this
  | some r => exact ⟨r.1, r.2, rfl⟩

/-- When the initiator has called `tpdiscon`, whatever else has been sent to the subordinate: its next `tprecv` or `tpsend` gives
`TPEV_DISCONIMM`. -/
theorem conv_disconnect_noticed (srv : Nat → Bool) (as : List Act) (q c : Nat) (d : Int)
    (hq : IsSubordinate (run srv as) q c) (hd : .disconnected c ∈ (run srv as).log) (ha : ((run srv as).procs q).alive = true) :
    (Receiving (run srv as) q d c → ∀ nb, recvResult (run srv as) q d nb = .event .disconnect 0 none) ∧
    (InControl (run srv as) q d c → ∀ x ro, sendResult (run srv as) q d x ro = .event .disconnect 0 none) := by
  obtain ⟨k, hk, rfl⟩ := hq
  constructor
  · rintro ⟨v, h1, rfl, h3⟩ nb
    have hm := (All.run srv as).discon v.corr k hk hd ha (open_places (mem_of_idx (lookup_some h1).1))
    obtain ⟨m', rest, h4⟩ := takeFirst_mem (f := isDisconnect v.corr) hm (by simp [isDisconnect])
    unfold recvResult recv
    rw [h1]
    simp only [h3, ne_eq, not_true_eq_false, if_false, h4]
  · rintro ⟨v, h1, rfl, h3⟩ x ro
    have hm := (All.run srv as).discon v.corr k hk hd ha (open_places (mem_of_idx (lookup_some h1).1))
    obtain ⟨m', rest, h4⟩ := takeFirst_mem (f := isDisconnect v.corr) hm (by simp [isDisconnect])
    unfold sendResult send
    rw [h1]
    simp only [h3, ne_eq, not_true_eq_false, if_false, h4]

/-! ### C192 the start of the service -/

/-- The service is called at most once for a `tpconnect`. -/
theorem conv_started_once (srv : Nat → Bool) (as : List Act) (c : Nat) (b b' : Bool) (x x' : Nat)
    (l1 l2 : List Entry) (h : (run srv as).log = l1 ++ .started c b x :: l2) : .started c b' x' ∉ l1 ∧ .started c b' x' ∉ l2 := by
  have := (All.run srv as).start.once
  rw [h, List.pairwise_append] at this
  constructor
  · intro hm
    exact this.2.2 _ hm _ List.mem_cons_self c b x b' x' rfl rfl
  · intro hm
    exact (List.pairwise_cons.1 this.2.1).1 _ hm c b' x' b x rfl rfl

/-- It gets the data of the `tpconnect`, and is in control if and only if `TPRECVONLY` was given. -/
theorem conv_started_data (srv : Nat → Bool) (as : List Act) (c : Nat) (b ro : Bool) (x y : Nat)
    (h : .started c b x ∈ (run srv as).log) (ha : .asked c ro y ∈ (run srv as).log) : x = y ∧ b = ro := by
  have h1 := (All.run srv as).start.asked c b x h
  have h2 := (All.run srv as).start.once'
  have gen : ∀ l : List Entry, l.Pairwise (fun e' e => ∀ c b x b' x', e = .asked c b x → e' ≠ .asked c b' x') →
      Entry.asked c b x ∈ l → Entry.asked c ro y ∈ l → x = y ∧ b = ro := by
    intro l
    induction l with
    | nil => intro _ h; cases h
    | cons e l ih =>
      intro hp m1 m2
      obtain ⟨p1, p2⟩ := List.pairwise_cons.1 hp
      rcases List.mem_cons.1 m1 with m1 | m1 <;> rcases List.mem_cons.1 m2 with m2 | m2
      · rw [← m1] at m2; simp only [Entry.asked.injEq] at m2; exact ⟨m2.2.2.symm, m2.2.1.symm⟩
      · exact absurd m1.symm (p1 _ m2 c ro y b x rfl)
      · exact absurd m2.symm (p1 _ m1 c b x ro y rfl)
      · exact ih p2 m1 m2
  exact gen _ h2 h1 ha

/-- `tpconnect` returns a descriptor only when the service has been called. -/
theorem conv_connected_started (srv : Nat → Bool) (as : List Act) (c d : Nat) (h : .connected c d ∈ (run srv as).log) :
    ∃ b x, .started c b x ∈ (run srv as).log := (All.run srv as).start.conn c d h

end Casual.Conv

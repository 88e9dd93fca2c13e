import Verif.Service.Book
/-! The time left that callers are told. -/
namespace Casual.Service

theorem clock_snoc (tr : List Ev) (e : Ev) : clock (tr ++ [e]) = clockStep (clock tr) e := by simp [clock]

def noRecv : Ev → Prop
  | .recv _ => False
  | _ => True

theorem clock_quiet {tr es : List Ev} (h : ∀ e ∈ es, noRecv e) : clock (tr ++ es) = clock tr := by
  induction es generalizing tr with
  | nil => simp
  | cons e es ih =>
    rw [show tr ++ e :: es = (tr ++ [e]) ++ es by simp, ih (fun x hx => h x (List.mem_cons_of_mem _ hx)), clock_snoc]
    have := h e List.mem_cons_self
    cases e <;> first | rfl | exact absurd this id

def Asked (r : Req) (tr : List Ev) : Prop := ∃ e, .recv (.lookup r e) ∈ tr

theorem Asked.mono {r : Req} {tr es : List Ev} (h : Asked r tr) : Asked r (tr ++ es) := by
  obtain ⟨e, he⟩ := h; exact ⟨e, List.mem_append_left _ he⟩

/-- The time matters to nobody. -/
def TQuiet (e : Ev) : Prop := noRecv e ∧ ∀ a, GoodTime a e

structure TInv (s : State) : Prop where
  asks : ∀ l ∈ s.lookups, Asked l.req s.tr
  dl : ∀ d ∈ s.deadlines, ∃ r, Asked r s.tr ∧ r.corr = d.corr ∧ ∀ c, r.deadline = some c → d.when_ ≤ c
  good : SameRequest s.tr → AllGood GoodTime s.tr

theorem SameRequest.less {tr es : List Ev} (h : SameRequest (tr ++ es)) : SameRequest tr :=
  fun r r' e e' h1 h2 => h r r' e e' (List.mem_append_left _ h1) (List.mem_append_left _ h2)

theorem TInv.keeps {s s' : State} (h : TInv s) {es : List Ev} (ht : s'.tr = s.tr ++ es) (hq : ∀ e ∈ es, ∀ a, GoodTime a e)
    (hd : ∀ d ∈ s'.deadlines, d ∈ s.deadlines) (hl : ∀ l ∈ s'.lookups, l ∈ s.lookups) : TInv s' := by
  obtain ⟨h1, h2, h3⟩ := h
  refine ⟨fun l hm => ?_, fun d hm => ?_, fun hs => ?_⟩
  · rw [ht]; exact (h1 l (hl l hm)).mono
  · obtain ⟨r, hr, hc⟩ := h2 d (hd d hm)
    exact ⟨r, by rw [ht]; exact hr.mono, hc⟩
  · rw [ht] at hs ⊢
    exact (h3 hs.less).append fun a e he => hq e he a

theorem calc_some {timeout : Option Int} {now : Time} {c : Time} : ∃ t, calcDeadline timeout now (some c) = some t ∧ t ≤ c := by
  unfold calcDeadline
  split
  · split
    · rename_i d _
      dsimp only
      split
      · exact ⟨_, rfl, by rename_i h; exact Int.le_of_lt h⟩
      · exact ⟨c, rfl, Int.le_refl _⟩
    · exact ⟨c, rfl, Int.le_refl _⟩
  · exact ⟨c, rfl, Int.le_refl _⟩

theorem calc_le {timeout : Option Int} {now : Time} {r : Option Time} {t c : Time} (h : calcDeadline timeout now r = some t) (hr : r = some c) : t ≤ c := by
  subst hr
  obtain ⟨t', h1, h2⟩ := calc_some (timeout := timeout) (now := now) (c := c)
  rw [h] at h1
  cases h1
  exact h2

theorem mem_claim {corr v i : Nat} {l : List Entry} {d : Entry} (h : d ∈ claimEntry corr v i l) : ∃ d' ∈ l, d'.corr = d.corr ∧ d'.when_ = d.when_ := by
  induction l with
  | nil => cases h
  | cons a l ih =>
    unfold claimEntry at h
    split at h
    · rcases List.mem_cons.mp h with rfl | h
      · exact ⟨a, List.mem_cons_self, rfl, rfl⟩
      · exact ⟨d, List.mem_cons_of_mem _ h, rfl, rfl⟩
    · rcases List.mem_cons.mp h with rfl | h
      · exact ⟨d, List.mem_cons_self, rfl, rfl⟩
      · obtain ⟨d', h1, h2⟩ := ih h
        exact ⟨d', List.mem_cons_of_mem _ h1, h2⟩

theorem mem_add {e d : Entry} {l : List Entry} (h : d ∈ (addDeadline e l).1) : d = e ∨ d ∈ l := by
  induction l with
  | nil => simpa [addDeadline] using h
  | cons a l ih =>
    unfold addDeadline at h
    split at h
    · exact List.mem_cons.mp h
    · rcases List.mem_cons.mp h with rfl | h
      · exact .inr List.mem_cons_self
      · rcases ih h with h | h
        · exact .inl h
        · exact .inr (List.mem_cons_of_mem _ h)

/-- What the deadline entries of the state after the reply come from. -/
theorem seqDl_dl (s : State) (v : Svc) (i : Nat) (r : Req) (e : Env) : ∀ d ∈ (seqDl s v i r e).1,
    (∃ d' ∈ s.deadlines, d'.corr = d.corr ∧ d'.when_ = d.when_) ∨ (d.corr = r.corr ∧ ∀ c, r.deadline = some c → d.when_ ≤ c) := by
  unfold seqDl
  split
  · intro d hd
    exact .inl (mem_claim hd)
  · split
    · rename_i t ht
      intro d hd
      rcases mem_add hd with rfl | hd
      · exact .inr ⟨rfl, fun c hc => calc_le ht hc⟩
      · exact .inl ⟨d, hd, rfl, rfl⟩
    · intro d hd; exact .inl ⟨d, hd, rfl, rfl⟩

theorem pendDl_dl (s : State) (v : Svc) (r : Req) (e : Env) : ∀ d ∈ pendDl s v r e, d ∈ s.deadlines ∨ (d.corr = r.corr ∧ ∀ c, r.deadline = some c → d.when_ ≤ c) := by
  unfold pendDl
  split
  · exact fun d hd => .inl hd
  · split
    · rename_i t ht
      intro d hd
      rcases mem_add hd with rfl | hd
      · exact .inr ⟨rfl, fun c hc => calc_le ht hc⟩
      · exact .inl hd
    · exact fun d hd => .inl hd

/-- The invariant, and what time it is. -/
def TInvAt (e : Env) (s : State) : Prop := Inv s ∧ TInv s ∧ clock s.tr = some e.now

theorem TInv.outcome {s s' : State} {r : Req} {e : Env} (h : TInvAt e s) (hr : Asked r s.tr) (o : Outcome s r e s') : TInvAt e s' := by
  obtain ⟨hi, h, hc⟩ := h
  refine ⟨hi.outcome o, ?_, ?_⟩
  · cases o with
    | absent => exact h.keeps rfl (by simp [GoodTime]) (fun _ => id) (fun _ => id)
    | discover =>
      rw [discover_eq]
      split
      · obtain ⟨h1, h2, h3⟩ := h.keeps (s' := s.emit (.discover r.name r.corr)) rfl (by simp [GoodTime]) (fun _ => id) (fun _ => id)
        refine ⟨fun l hl => ?_, h2, h3⟩
        rcases List.mem_append.mp hl with hl | hl
        · exact h1 l hl
        · rw [List.mem_singleton] at hl; subst hl; exact hr.mono
      · refine h.keeps (es := [.discover r.name r.corr, .absent r.proc.ipc r.corr r.name]) ?_ (by simp [GoodTime]) (fun _ => id) (fun _ => id)
        show (s.tr ++ [_]) ++ [_] = _
        simp
    | forward => exact h.keeps rfl (by simp [GoodTime]) (fun _ => id) (fun _ => id)
    | pending v h1 h2 h3 h4 =>
      obtain ⟨g1, g2, g3⟩ := h
      refine ⟨fun l hl => ?_, fun d hd => ?_, g3⟩
      · rcases List.mem_append.mp hl with hl | hl
        · exact g1 l hl
        · rw [List.mem_singleton] at hl; subst hl; exact hr
      · rcases pendDl_dl s v r e d hd with hd | ⟨hd, hd'⟩
        · exact g2 d hd
        · exact ⟨r, hr, hd.symm, hd'⟩
    | seq v i x h1 h2 h3 h4 =>
      obtain ⟨g1, g2, g3⟩ := h
      refine ⟨fun l hl => (g1 l hl).mono, fun d hd => ?_, fun hs => ?_⟩
      · rcases seqDl_dl s v i r e d hd with ⟨d', hd, hd', hw⟩ | ⟨hd, hd'⟩
        · obtain ⟨r', hr', hc', hle⟩ := g2 d' hd
          exact ⟨r', hr'.mono, by rw [hc', hd'], by rw [← hw]; exact hle⟩
        · exact ⟨r, hr.mono, hd.symm, hd'⟩
      · refine (g3 hs.less).snoc ?_
        intro _ c hdl
        refine ⟨e.now, ?_⟩
        unfold seqDl
        split
        · rename_i d hd
          refine ⟨_, hc, rfl, ?_⟩
          obtain ⟨r', hr', hc', hle⟩ := g2 d (List.mem_of_find?_eq_some hd)
          have hdc : d.corr = r.corr := by simpa using List.find?_some hd
          obtain ⟨e1, he1⟩ := hr'
          obtain ⟨e2, he2⟩ := hr
          have : r' = r := hs.less r' r e1 e2 he1 he2 (by rw [hc', hdc])
          subst this
          exact Int.sub_le_sub_right (hle c hdl) _
        · obtain ⟨t, ht, hle⟩ := calc_some (timeout := v.timeout) (now := e.now) (c := c)
          rw [hdl, ht]
          exact ⟨_, hc, rfl, Int.sub_le_sub_right hle _⟩
    | con v i x h1 h2 h3 h4 h5 =>
      obtain ⟨g1, g2, g3⟩ := h
      refine ⟨fun l hl => (g1 l hl).mono, fun d hd => ?_, fun hs => ?_⟩
      · obtain ⟨r', hr', hh⟩ := g2 d hd
        exact ⟨r', hr'.mono, hh⟩
      · refine (g3 hs.less).snoc ?_
        intro _ c hdl
        obtain ⟨t, ht, hle⟩ := calc_some (timeout := v.timeout) (now := e.now) (c := c)
        rw [hdl, ht]
        exact ⟨e.now, _, hc, rfl, Int.sub_le_sub_right hle _⟩
  · cases o with
    | absent => show clock (s.tr ++ [_]) = _; rw [clock_snoc]; exact hc
    | discover =>
      rw [discover_eq]
      split
      · show clock (s.tr ++ [_]) = _; rw [clock_snoc]; exact hc
      · show clock ((s.tr ++ [_]) ++ [_]) = _; rw [clock_snoc, clock_snoc]; exact hc
    | forward => show clock (s.tr ++ [_]) = _; rw [clock_snoc]; exact hc
    | pending => exact hc
    | seq => show clock (s.tr ++ [_]) = _; rw [clock_snoc]; exact hc
    | con => show clock (s.tr ++ [_]) = _; rw [clock_snoc]; exact hc

theorem outcome_tr {s s' : State} {r : Req} {e : Env} (o : Outcome s r e s') : ∃ es, s'.tr = s.tr ++ es := by
  cases o with
  | absent => exact ⟨_, rfl⟩
  | discover =>
    rw [discover_eq]
    split
    · exact ⟨_, rfl⟩
    · exact ⟨[.discover r.name r.corr, .absent r.proc.ipc r.corr r.name], by show (s.tr ++ [_]) ++ [_] = _; simp⟩
  | forward => exact ⟨_, rfl⟩
  | pending => exact ⟨[], by simp⟩
  | seq => exact ⟨_, rfl⟩
  | con => exact ⟨_, rfl⟩

theorem TInv.lookup {s : State} {r : Req} {e : Env} (h : TInvAt e s) (hr : Asked r s.tr) : TInvAt e (s.lookup r e) :=
  TInv.outcome h hr (lookup_outcome h.1 r e)

theorem TInv.again {e : Env} (ls : List Lookup) {s : State} (h : TInvAt e s) (hr : ∀ l ∈ ls, Asked l.req s.tr) : TInvAt e (s.again ls e) := by
  unfold State.again
  induction ls generalizing s with
  | nil => exact h
  | cons l ls ih =>
    refine ih (TInv.lookup h (hr l List.mem_cons_self)) fun l' hl' => ?_
    obtain ⟨es, he⟩ := outcome_tr (lookup_outcome h.1 l.req e)
    rw [he]
    exact (hr l' (List.mem_cons_of_mem _ hl')).mono

theorem TInv.takePending {s : State} {e : Env} (h : TInvAt e s) (i : Nat) : TInvAt e (s.takePending i e) := by
  rw [takePending_eq]
  split
  · rename_i l hl
    refine TInv.lookup ⟨h.1.same ⟨rfl, rfl, rfl⟩, ?_, h.2.2⟩ (h.2.1.asks l (List.mem_of_find?_eq_some hl))
    exact h.2.1.keeps (es := []) (by simp) (by simp) (fun _ => id) fun l hl => List.eraseP_sublist.subset hl
  · exact h

theorem mem_remove {corr : Nat} {l : List Entry} {d : Entry} (h : d ∈ (removeDeadline corr l).1) : d ∈ l := by
  unfold removeDeadline at h
  split at h
  · cases h
  · split at h
    · split at h
      · cases h
      · exact List.mem_cons_of_mem _ h
    · rcases List.mem_cons.mp h with rfl | h
      · exact List.mem_cons_self
      · exact List.mem_cons_of_mem _ (List.eraseP_sublist.subset h)

theorem goodTime_shutdown {es : List Ev} (h : ∀ e ∈ es, ∃ a b c, e = .shutdown a b c) : (∀ e ∈ es, ∀ a, GoodTime a e) ∧ ∀ e ∈ es, noRecv e := by
  refine ⟨fun e he a => ?_, fun e he => ?_⟩ <;> obtain ⟨x, y, z, rfl⟩ := h e he <;> trivial

theorem TInv.step {s : State} (hi : Inv s) (h : TInv s) (m : In) : TInv (s.step m) := by
  have hi' : Inv (s.emit (.recv m)) := hi.same ⟨rfl, rfl, rfl⟩
  have hb : TInv (s.emit (.recv m)) := h.keeps rfl (by simp [GoodTime]) (fun _ => id) (fun _ => id)
  have hclk : ∀ e : Env, m.time = some e.now → clock (s.emit (.recv m)).tr = some e.now := by
    intro e he
    show clock (s.tr ++ [.recv m]) = _
    rw [clock_snoc]
    show m.time.or _ = _
    rw [he]; rfl
  cases m with
  | lookup r e => exact (TInv.lookup (e := e) ⟨hi', hb, hclk e rfl⟩ ⟨e, List.mem_append_right _ List.mem_cons_self⟩).2.1
  | advertise p alias add remove e =>
    show TInv ((s.emit _).advertise p alias add remove e)
    have hc := hclk e rfl
    rw [advertise_eq]
    split
    · rw [remove_eq hi']
      exact hb.keeps (es := []) (by simp [State.without]) (by simp) (fun _ => id) (fun _ => id)
    · have hfr := seqFor_eq (s.emit (.recv (.advertise p alias add remove e))) p alias
      have hsi := seqFor_isSome (s.emit (.recv (.advertise p alias add remove e))) p alias
      have hsf := hi'.seqFor p alias
      generalize (s.emit (.recv (.advertise p alias add remove e))).seqFor p alias = r at hfr hsi hsf ⊢
      obtain ⟨i, t⟩ := r
      dsimp only at hfr hsi hsf ⊢
      split
      · exact hb.keeps (es := []) (by rw [hfr]; simp) (by simp) (by rw [hfr]; exact fun _ => id) (by rw [hfr]; exact fun _ => id)
      · have hfr2 := addSeqServices_frame i t (add.filter fun n => (s.emit (.recv (.advertise p alias add remove e))).allowed alias n)
        refine (TInv.takePending (e := e) ⟨(hsf.addSeqServices hsi _).removeSeqServices _ _, ?_, ?_⟩ _).2.1
        · generalize (add.filter fun n => (s.emit (.recv (.advertise p alias add remove e))).allowed alias n).foldl (State.addSeqService i) t = u at hfr2
          refine hb.keeps (es := []) ?_ (by simp) ?_ ?_
          · show u.tr = _
            rw [hfr2, hfr]; simp
          · show ∀ d ∈ u.deadlines, _
            rw [hfr2, hfr]; exact fun _ => id
          · show ∀ d ∈ u.lookups, _
            rw [hfr2, hfr]; exact fun _ => id
        · generalize (add.filter fun n => (s.emit (.recv (.advertise p alias add remove e))).allowed alias n).foldl (State.addSeqService i) t = u at hfr2
          show clock u.tr = _
          rw [hfr2, hfr]; exact hc
  | cadvertise p alias order add remove e =>
    show TInv ((s.emit _).cadvertise p alias order add remove e)
    have hc := hclk e rfl
    rw [cadvertise_eq, takeReady_eq]
    have hcf := conFor_eq (s.emit (.recv (.cadvertise p alias order add remove e))) p alias order
    have hinv := hi'.conFor p alias order
    have hsome := conFor_isSome (s.emit (.recv (.cadvertise p alias order add remove e))) p alias order
    generalize (s.emit (.recv (.cadvertise p alias order add remove e))).conFor p alias order = r at hcf hinv hsome ⊢
    obtain ⟨i, t⟩ := r
    dsimp only at hcf hinv hsome ⊢
    have hfr := addConServices_frame i order t (add.filter fun n => (s.emit (.recv (.cadvertise p alias order add remove e))).allowed alias n.1)
    have hinv2 := (hinv.addConServices hsome order (add.filter fun n => (s.emit (.recv (.cadvertise p alias order add remove e))).allowed alias n.1)).removeConServices i remove
    generalize (add.filter fun n => (s.emit (.recv (.cadvertise p alias order add remove e))).allowed alias n.1).foldl (State.addConService i order) t = u at hfr hinv2 ⊢
    have hb2 : TInv (u.removeConServices i remove) ∧ clock (u.removeConServices i remove).tr = some e.now := by
      refine ⟨hb.keeps (es := []) ?_ (by simp) ?_ ?_, ?_⟩
      · show u.tr = _
        rw [hfr, hcf]; simp
      · show ∀ d ∈ u.deadlines, _
        rw [hfr, hcf]; exact fun _ => id
      · show ∀ d ∈ u.lookups, _
        rw [hfr, hcf]; exact fun _ => id
      · show clock u.tr = _
        rw [hfr, hcf]; exact hc
    generalize u.removeConServices i remove = w at hb2 hinv2 ⊢
    refine (TInv.again (e := e) _ ⟨?_, ?_, ?_⟩ ?_).2.1
    · exact hinv2.same ⟨rfl, rfl, rfl⟩
    · exact hb2.1.keeps (es := []) (by simp) (by simp) (fun _ => id) (fun l hl => (List.mem_filter.mp hl).1)
    · exact hb2.2
    · exact fun l hl => hb2.1.asks l (List.mem_filter.mp hl).1
  | creset p =>
    show TInv ((s.emit _).remove _).1
    rw [remove_eq hi']
    exact hb.keeps (es := []) (by simp [State.without]) (by simp) (fun _ => id) (fun _ => id)
  | cinstance p alias order =>
    show TInv ((s.emit _).cinstance p alias order)
    unfold State.cinstance
    split
    · exact hb
    · exact hb.keeps (es := []) (by simp) (by simp) (fun _ => id) (fun _ => id)
  | discard p corr reply =>
    show TInv ((s.emit _).discard p corr reply)
    rw [discard_eq]
    split
    · exact hb.keeps (es := if reply then [.discarded p.ipc corr true] else []) rfl (by cases reply <;> simp [GoodTime]) (fun _ => id) (fun l hl => List.eraseP_sublist.subset hl)
    · exact hb.keeps (es := if reply then [.discarded p.ipc corr false] else []) rfl (by cases reply <;> simp [GoodTime]) (fun _ => id) (fun _ => id)
  | ack p corr trid e =>
    show TInv ((s.emit _).ack p corr trid e)
    have hc := hclk e rfl
    rw [ack_eq]
    obtain ⟨es, ht, hq⟩ := ackPrep_tr (s.emit (.recv (.ack p corr trid e))) p corr trid e
    have hs := ackPrep_same (s.emit (.recv (.ack p corr trid e))) p corr trid e
    obtain ⟨hl, hd, -⟩ := ackPrep_lookups (s.emit (.recv (.ack p corr trid e))) p corr trid e
    have hpi := hi'.same hs
    have hq' : (∀ x ∈ es, ∀ a, GoodTime a x) ∧ ∀ x ∈ es, noRecv x := ⟨fun x hx => by obtain ⟨y, rfl⟩ := hq x hx; exact fun _ => trivial, fun x hx => by obtain ⟨y, rfl⟩ := hq x hx; trivial⟩
    generalize (s.emit (.recv (.ack p corr trid e))).ackPrep p corr trid e = t at ht hs hpi hl hd
    have ht3 : TInv t := by
      refine hb.keeps ht hq'.1 (fun d hdm => ?_) (by rw [hl]; exact fun _ => id)
      rw [hd] at hdm
      exact mem_remove hdm
    have htc : clock t.tr = some e.now := by rw [ht, clock_quiet hq'.2]; exact hc
    split
    · exact ht3
    · split
      · exact ht3.keeps (es := (ackShutdown p corr t.shutdowns).2) rfl (goodTime_shutdown ackShutdown_shutdown).1 (fun _ => id) (fun _ => id)
      · refine (TInv.takePending (e := e) ⟨?_, ?_, ?_⟩ _).2.1
        · exact hpi.free _ rfl rfl rfl
        · exact ht3.keeps (es := []) (by simp [State.modifySeq]) (by simp) (fun _ => id) (fun _ => id)
        · exact htc
  | exit pid e =>
    show TInv ((s.emit _).exit pid e)
    have hc := hclk e rfl
    rw [exit_eq hi']
    have heq : ((s.emit (.recv (.exit pid e))).exitPrep pid).tr = (s.emit (.recv (.exit pid e))).tr ++ ((failShutdown pid s.shutdowns).2 ++ (s.callers (s.seqIds fun q => q.pid == pid)).map fun c => Ev.error c.1.ipc c.2 .serviceError) := by
      show ((s.tr ++ [_]) ++ _) ++ _ = _
      rw [List.append_assoc]; rfl
    have hq : ∀ x ∈ ((failShutdown pid s.shutdowns).2 ++ (s.callers (s.seqIds fun q => q.pid == pid)).map fun c => Ev.error c.1.ipc c.2 .serviceError), noRecv x ∧ ∀ a, GoodTime a x := by
      intro x hx
      rcases List.mem_append.mp hx with hx | hx
      · obtain ⟨a, b, c, rfl⟩ := failShutdown_shutdown x hx; exact ⟨trivial, fun _ => trivial⟩
      · obtain ⟨c, -, rfl⟩ := List.mem_map.mp hx; exact ⟨trivial, fun _ => trivial⟩
    refine (TInv.again (e := e) _ ⟨?_, ?_, ?_⟩ ?_).2.1
    · exact (hi'.without fun q => q.pid == pid).same ⟨rfl, rfl, rfl⟩
    · exact hb.keeps heq (fun x hx => (hq x hx).2) (fun _ => id) (fun l hl => by cases hl)
    · rw [heq, clock_quiet fun x hx => (hq x hx).1]; exact hc
    · intro l hl; rw [heq]; exact (hb.asks l hl).mono
  | prepareShutdown p corr ps e =>
    show TInv ((s.emit _).prepareShutdown p corr ps e)
    have hc := hclk e rfl
    have hfr := prepareAll_frame (s.emit (.recv (.prepareShutdown p corr ps e))) ([], [], []) ps
    have hinv := hi'.prepareAll ([], [], []) ps
    have h1 : TInv ((s.emit (.recv (.prepareShutdown p corr ps e))).prepareAll ([], [], []) ps).1 :=
      hb.keeps (es := []) (by rw [hfr]; simp) (by simp) (by rw [hfr]; exact fun _ => id) (by rw [hfr]; exact fun _ => id)
    have h1c : clock ((s.emit (.recv (.prepareShutdown p corr ps e))).prepareAll ([], [], []) ps).1.tr = some e.now := by rw [hfr]; exact hc
    have h2 : TInv ((s.emit (.recv (.prepareShutdown p corr ps e))).prepared ps e) := by
      unfold State.prepared
      simp only
      split
      · exact h1
      · refine (TInv.again (e := e) _ ⟨?_, ?_, ?_⟩ ?_).2.1
        · exact hinv.same ⟨rfl, rfl, rfl⟩
        · exact h1.keeps (es := []) (by simp) (by simp) (fun _ => id) (fun l hl => (List.mem_filter.mp hl).1)
        · exact h1c
        · exact fun l hl => h1.asks l (List.mem_filter.mp hl).1
    rw [prepareShutdown_eq]
    simp only
    split <;> split
    · exact h2
    · exact h2.keeps rfl (by simp [GoodTime]) (fun _ => id) (fun _ => id)
    · exact h2.keeps (es := []) (by simp) (by simp) (fun _ => id) (fun _ => id)
    · exact h2.keeps rfl (by simp [GoodTime]) (fun _ => id) (fun _ => id)
  | alarm e =>
    show TInv ((s.emit _).alarm e)
    rw [alarm_eq]
    have h1 : TInv ((s.emit (.recv (.alarm e))).alarmPrep e) :=
      hb.keeps (es := []) (by simp [State.alarmPrep]) (by simp) (fun d hd => (List.dropWhile_sublist _).subset hd) (fun _ => id)
    have h2 : ∀ ds : List Entry, TInv (ds.foldl State.expire ((s.emit (.recv (.alarm e))).alarmPrep e)) := by
      intro ds
      refine expire_ind (P := TInv) ?_ ds h1
      intro t d ht
      have := expire_cases t d
      generalize t.expire d = t' at this
      cases this with
      | nothing => exact ht
      | lookup l _ => exact ht.keeps rfl (by simp [GoodTime]) (fun _ => id) (fun l hl => List.eraseP_sublist.subset hl)
      | noCaller => exact ht.keeps (es := []) (by simp) (by simp) (fun _ => id) (fun _ => id)
      | caller => exact ht.keeps rfl (by simp [GoodTime]) (fun _ => id) (fun _ => id)
    split
    · exact (h2 _).keeps (es := []) (by simp [State.setTimer]) (by simp) (fun _ => id) (fun _ => id)
    · exact h2 _
  | discovered corr e =>
    show TInv ((s.emit _).discovered corr e)
    have hc := hclk e rfl
    rw [discovered_eq]
    split
    · exact hb
    · rename_i l hl
      split
      · refine (TInv.lookup (e := e) ⟨?_, ?_, ?_⟩ ?_).2.1
        · exact hi'.same ⟨rfl, rfl, rfl⟩
        · exact hb.keeps (es := []) (by simp) (by simp) (fun _ => id) (fun l hl => List.eraseP_sublist.subset hl)
        · exact hc
        · exact hb.asks l (List.mem_of_find?_eq_some hl)
      · split
        · exact hb
        · exact hb.keeps rfl (by simp [GoodTime]) (fun _ => id) (fun l hl => List.eraseP_sublist.subset hl)
  | disassociate t => exact hb.keeps (es := []) (by simp [State.step, State.handle]) (by simp) (fun _ => id) (fun _ => id)
  | undelivered ipc =>
    show TInv (match (s.emit (.recv (.undelivered ipc))).seqOf ipc with | some i => (s.emit (.recv (.undelivered ipc))).modifySeq i SeqI.free | none => s.emit (.recv (.undelivered ipc)))
    cases hf : (s.emit (.recv (.undelivered ipc))).seqOf ipc with
    | none => exact hb
    | some i => exact hb.keeps (es := []) (by simp [State.modifySeq]) (by simp) (fun _ => id) (fun _ => id)

theorem TInv.init (c : Config) : TInv (State.init c) := ⟨fun _ h => (by cases h), fun _ h => (by cases h), fun _ => AllGood.nil⟩

theorem TInv.run {s : State} (hi : Inv s) (h : TInv s) (is : List In) : TInv (s.run is) := by
  unfold State.run
  induction is generalizing s with
  | nil => exact h
  | cons i is ih => exact ih (hi.step i) (h.step hi i)

end Casual.Service

import Verif.Service.Steps
import Verif.Service.Spec
/-! The trace and the reservations: an instance in use is reserved. -/
namespace Casual.Service

/-- Every event of the trace is good after the events before it. -/
def AllGood (Good : List Ev → Ev → Prop) (tr : List Ev) : Prop := ∀ a e, At tr a e → Good a e

theorem AllGood.nil {G : List Ev → Ev → Prop} : AllGood G [] := by
  rintro a e ⟨b, h⟩
  simp at h

theorem AllGood.snoc {G : List Ev → Ev → Prop} {tr : List Ev} {e : Ev} (h : AllGood G tr) (he : G tr e) : AllGood G (tr ++ [e]) := by
  rintro a e' ⟨b, hb⟩
  rcases List.eq_nil_or_concat b with rfl | ⟨b', x, rfl⟩
  · obtain ⟨h1, h2⟩ := List.append_inj' hb rfl
    simp only [List.cons.injEq, and_true] at h2
    subst h1; subst h2; exact he
  · rw [List.concat_eq_append, ← List.cons_append, ← List.append_assoc] at hb
    obtain ⟨h1, -⟩ := List.append_inj' hb rfl
    exact h a e' ⟨b', h1⟩

theorem AllGood.append {G : List Ev → Ev → Prop} {tr es : List Ev} (h : AllGood G tr) (he : ∀ a, ∀ e ∈ es, G a e) : AllGood G (tr ++ es) := by
  induction es generalizing tr with
  | nil => rw [List.append_nil]; exact h
  | cons e es ih =>
    rw [show tr ++ e :: es = (tr ++ [e]) ++ es by simp]
    exact ih (h.snoc (he _ e List.mem_cons_self)) (fun a e' h' => he a e' (List.mem_cons_of_mem _ h'))

/-- A sequential instance that is handed out is not in use. -/
def GoodUse (a : List Ev) : Ev → Prop
  | .idle _ .sequential t _ => inUse t.ipc a = none
  | _ => True

/-- Not about the use of sequential instances. -/
def Quiet (e : Ev) : Prop := (∀ ipc b, useStep ipc b e = b) ∧ ∀ a, GoodUse a e

theorem inUse_snoc (ipc : Nat) (tr : List Ev) (e : Ev) : inUse ipc (tr ++ [e]) = useStep ipc (inUse ipc tr) e := by
  simp [inUse]

theorem inUse_quiet {ipc : Nat} {tr es : List Ev} (h : ∀ e ∈ es, Quiet e) : inUse ipc (tr ++ es) = inUse ipc tr := by
  induction es generalizing tr with
  | nil => simp
  | cons e es ih =>
    rw [show tr ++ e :: es = (tr ++ [e]) ++ es by simp, ih (fun x hx => h x (List.mem_cons_of_mem _ hx)), inUse_snoc, (h e List.mem_cons_self).1]

theorem AllGood.quiet {tr es : List Ev} (h : AllGood GoodUse tr) (hq : ∀ e ∈ es, Quiet e) : AllGood GoodUse (tr ++ es) :=
  h.append fun a e he => (hq e he).2 a

/-- The instances in use are reserved. -/
def Uses (tr : List Ev) (q : List (Option SeqI)) : Prop :=
  ∀ ipc p c, inUse ipc tr = some (p, c) → ∃ i x, Index.get q i = some x ∧ x.proc = p ∧ p.ipc = ipc ∧ x.reserved.isSome ∧ (x.corr = some c ∨ x.corr = none)

def UseInv (s : State) : Prop := AllGood GoodUse s.tr ∧ Uses s.tr s.seq

/-- What is reserved stays so. -/
def Keeps (s s' : State) : Prop :=
  ∀ i x, Index.get s.seq i = some x → x.reserved.isSome → ∃ x', Index.get s'.seq i = some x' ∧ x'.proc = x.proc ∧ x'.reserved.isSome ∧ (x'.corr = x.corr ∨ x'.corr = none)

theorem Keeps.refl_of_seq {s s' : State} (h : s'.seq = s.seq) : Keeps s s' := by
  intro i x hx hr
  exact ⟨x, by rw [h]; exact hx, rfl, hr, .inl rfl⟩

theorem UseInv.keeps {s s' : State} (h : UseInv s) {es : List Ev} (ht : s'.tr = s.tr ++ es) (hq : ∀ e ∈ es, Quiet e) (hk : Keeps s s') : UseInv s' := by
  refine ⟨by rw [ht]; exact h.1.quiet hq, ?_⟩
  intro ipc p c hu
  rw [ht, inUse_quiet hq] at hu
  obtain ⟨i, x, hx, hp, hi, hr, hc⟩ := h.2 ipc p c hu
  obtain ⟨x', hx', hp', hr', hc'⟩ := hk i x hx hr
  refine ⟨i, x', hx', by rw [hp', hp], hi, hr', ?_⟩
  rcases hc' with hc' | hc'
  · rw [hc']; exact hc
  · exact .inr hc'

/-- A message has been received, and some reservations been given up. -/
theorem UseInv.recv {s s' : State} (h : UseInv s) (m : In) {es : List Ev} (ht : s'.tr = (s.tr ++ [.recv m]) ++ es) (hq : ∀ e ∈ es, Quiet e)
    (hle : ∀ ipc b x, useStep ipc b (.recv m) = some x → b = some x)
    (hk : ∀ i x c, Index.get s.seq i = some x → x.reserved.isSome → (x.corr = some c ∨ x.corr = none) → useStep x.proc.ipc (some (x.proc, c)) (.recv m) = some (x.proc, c) →
      ∃ x', Index.get s'.seq i = some x' ∧ x'.proc = x.proc ∧ x'.reserved.isSome ∧ (x'.corr = x.corr ∨ x'.corr = none)) : UseInv s' := by
  refine ⟨by rw [ht]; exact (h.1.snoc (e := .recv m) trivial).quiet hq, ?_⟩
  intro ipc p c hu
  rw [ht, inUse_quiet hq, inUse_snoc] at hu
  have hu' := hle _ _ _ hu
  obtain ⟨i, x, hx, hp, hi, hr, hc⟩ := h.2 ipc p c hu'
  subst hp; subst hi
  rw [hu'] at hu
  obtain ⟨x', hx', hp', hr', hc'⟩ := hk i x c hx hr hc hu
  refine ⟨i, x', hx', hp', rfl, hr', ?_⟩
  rcases hc' with hc' | hc'
  · rw [hc']; exact hc
  · exact .inr hc'

theorem useStep_le (ipc : Nat) (b : Option (Proc × Nat)) (m : In) (x : Proc × Nat) (h : useStep ipc b (.recv m) = some x) : b = some x := by
  cases m <;> simp only [useStep] at h <;> first
    | exact h
    | (split at h <;> first | cases h; done | exact h | exact (Option.filter_eq_some_iff.mp h).1)
    | exact (Option.filter_eq_some_iff.mp h).1

theorem UseInv.outcome {s s' : State} (h : UseInv s) (hi : Inv s) {r : Req} {e : Env} (o : Outcome s r e s') : UseInv s' := by
  have q1 : ∀ a b c, Quiet (.absent a b c) := fun a b c => ⟨fun _ _ => rfl, fun _ => trivial⟩
  have q2 : ∀ a b, Quiet (.discover a b) := fun a b => ⟨fun _ _ => rfl, fun _ => trivial⟩
  cases o with
  | absent => exact h.keeps rfl (by simp [q1]) (Keeps.refl_of_seq rfl)
  | discover =>
    rw [discover_eq]
    split
    · exact h.keeps (es := [.discover r.name r.corr]) rfl (by simp [q2]) (Keeps.refl_of_seq rfl)
    · refine h.keeps (es := [.discover r.name r.corr, .absent r.proc.ipc r.corr r.name]) ?_ (by simp [q1, q2]) (Keeps.refl_of_seq rfl)
      show (s.tr ++ [_]) ++ [_] = _
      simp
  | forward => exact h.keeps rfl (by intro e he; rw [List.mem_singleton] at he; subst he; exact ⟨fun _ _ => rfl, fun _ => trivial⟩) (Keeps.refl_of_seq rfl)
  | pending => exact h.keeps (es := []) (by simp) (by simp) (Keeps.refl_of_seq rfl)
  | con => exact h.keeps rfl (by intro e he; rw [List.mem_singleton] at he; subst he; exact ⟨fun _ _ => rfl, fun _ => trivial⟩) (Keeps.refl_of_seq rfl)
  | seq v i x h1 h2 h3 h4 =>
    have hnone : inUse x.proc.ipc s.tr = none := by
      cases hu : inUse x.proc.ipc s.tr with
      | none => rfl
      | some pc =>
        obtain ⟨p, c⟩ := pc
        obtain ⟨j, y, hy, hp, hip, hr, -⟩ := h.2 _ p c hu
        have : j = i := hi.seqIpc j i y x hy h3 (by rw [hp]; exact hip)
        subst this
        rw [h3] at hy
        simp only [Option.some.injEq] at hy
        subst hy
        rw [h4] at hr; cases hr
    refine ⟨h.1.snoc hnone, ?_⟩
    intro ipc p c hu
    change inUse ipc (s.tr ++ [_]) = _ at hu
    rw [inUse_snoc] at hu
    simp only [useStep] at hu
    split at hu
    · rename_i hip
      simp only [Option.some.injEq, Prod.mk.injEq] at hu
      refine ⟨i, SeqI.reserve r v.name x, ?_, hu.1, by rw [← hu.1]; exact hip, rfl, .inl (by rw [← hu.2]; rfl)⟩
      show Index.get (Index.modify s.seq i _) i = _
      rw [Index.get_modify, if_pos rfl, h3]; rfl
    · rename_i hip
      obtain ⟨j, y, hy, hp, hip', hr, hc⟩ := h.2 _ p c hu
      refine ⟨j, y, ?_, hp, hip', hr, hc⟩
      show Index.get (Index.modify s.seq i _) j = _
      rw [Index.get_modify, if_neg, hy]
      intro e; subst e
      rw [h3] at hy
      simp only [Option.some.injEq] at hy
      subst hy
      exact hip (by rw [hp]; exact hip')

/-- Both invariants. -/
def Inv2 (s : State) : Prop := Inv s ∧ UseInv s

theorem Inv2.lookup {s : State} (h : Inv2 s) (r : Req) (e : Env) : Inv2 (s.lookup r e) :=
  ⟨h.1.lookup r e, h.2.outcome h.1 (lookup_outcome h.1 r e)⟩

theorem Inv2.again {s : State} (h : Inv2 s) (ls : List Lookup) (e : Env) : Inv2 (s.again ls e) :=
  again_ind (P := Inv2) (fun _ r h => h.lookup r e) ls h

theorem Inv2.takePending {s : State} (h : Inv2 s) (i : Nat) (e : Env) : Inv2 (s.takePending i e) := by
  rw [takePending_eq]
  split
  · apply Inv2.lookup
    exact ⟨h.1.same ⟨rfl, rfl, rfl⟩, h.2.keeps (es := []) (by simp) (by simp) (Keeps.refl_of_seq rfl)⟩
  · exact h

theorem Keeps.trans {s s' s'' : State} (h : Keeps s s') (h' : Keeps s' s'') : Keeps s s'' := by
  intro i x hx hr
  obtain ⟨y, hy, hp, hr', hc⟩ := h i x hx hr
  obtain ⟨z, hz, hp', hr'', hc'⟩ := h' i y hy hr'
  refine ⟨z, hz, by rw [hp', hp], hr'', ?_⟩
  rcases hc' with hc' | hc'
  · rw [hc']; exact hc
  · exact .inr hc'

theorem keeps_seqFor (s : State) (p : Proc) (alias : Nat) : Keeps s (s.seqFor p alias).2 := by
  intro i x hx hr
  rcases seqFor_spec (s := s) p alias with ⟨y, -, hy, -, hg⟩ | ⟨-, hy, hg⟩
  · rw [hg]
    split
    · rename_i e; subst e; rw [hx] at hy; cases hy; exact ⟨_, rfl, rfl, hr, .inl rfl⟩
    · exact ⟨x, hx, rfl, hr, .inl rfl⟩
  · rw [hg]
    split
    · rename_i e; subst e; rw [hx] at hy; cases hy
    · exact ⟨x, hx, rfl, hr, .inl rfl⟩

theorem keeps_modify {s s' : State} {i : Nat} {f : SeqI → SeqI} (hq : s'.seq = Index.modify s.seq i f) (hf : ∀ x, (f x).proc = x.proc ∧ (f x).reserved = x.reserved ∧ ((f x).corr = x.corr ∨ (f x).corr = none)) : Keeps s s' := by
  intro j x hx hr
  rw [hq, Index.get_modify]
  split
  · rename_i e; subst e; rw [hx]
    exact ⟨_, rfl, (hf x).1, by rw [(hf x).2.1]; exact hr, (hf x).2.2⟩
  · exact ⟨x, hx, rfl, hr, .inl rfl⟩

theorem keeps_addSeqService (i : Nat) (s : State) (n : Nat) : Keeps s (State.addSeqService i s n) := by
  rw [addSeqService_eq]
  exact keeps_modify rfl fun x => ⟨rfl, rfl, .inl rfl⟩

theorem addSeqServices_tr (i : Nat) (s : State) (add : List Nat) : (add.foldl (State.addSeqService i) s).tr = s.tr := by
  induction add generalizing s with
  | nil => rfl
  | cons n add ih => rw [List.foldl_cons, ih, addSeqService_eq]

theorem addConServices_frame (i : Nat) (o : Int) (s : State) (add : List (Nat × Int × Option Int)) : add.foldl (State.addConService i o) s = { s with services := (add.foldl (State.addConService i o) s).services } := by
  induction add generalizing s with
  | nil => rfl
  | cons n add ih => rw [List.foldl_cons, ih, addConService_eq]

theorem keeps_addSeqServices (i : Nat) (s : State) (add : List Nat) : Keeps s (add.foldl (State.addSeqService i) s) := by
  induction add generalizing s with
  | nil => exact Keeps.refl_of_seq rfl
  | cons n add ih => exact (keeps_addSeqService i s n).trans (ih _)

theorem keeps_removeSeqServices (s : State) (i : Nat) (names : List Nat) : Keeps s (s.removeSeqServices i names) :=
  keeps_modify (i := i) rfl fun _ => ⟨rfl, rfl, .inl rfl⟩

theorem quiet_shutdown (a b : Nat) (c : List Proc) : Quiet (.shutdown a b c) := ⟨fun _ _ => rfl, fun _ => trivial⟩
theorem quiet_error (a : Nat) (b : Option Nat) (c : Code) : Quiet (.error a b c) := ⟨fun _ _ => rfl, fun _ => trivial⟩
theorem quiet_assassinate (a : Nat) : Quiet (.assassinate a) := ⟨fun _ _ => rfl, fun _ => trivial⟩
theorem quiet_timedOut (a b : Nat) : Quiet (.timedOut a b) := ⟨fun _ _ => rfl, fun _ => trivial⟩
theorem quiet_discarded (a b : Nat) (c : Bool) : Quiet (.discarded a b c) := ⟨fun _ _ => rfl, fun _ => trivial⟩
theorem quiet_rollback (a : Nat) : Quiet (.rollback a) := ⟨fun _ _ => rfl, fun _ => trivial⟩
theorem quiet_absent (a b c : Nat) : Quiet (.absent a b c) := ⟨fun _ _ => rfl, fun _ => trivial⟩

theorem ackShutdown_shutdown {p : Proc} {corr : Nat} {l : List Shutdown} : ∀ e ∈ (ackShutdown p corr l).2, ∃ a b c, e = .shutdown a b c := by
  induction l with
  | nil => simp [ackShutdown]
  | cons d l ih =>
    unfold ackShutdown
    split
    · simp only
      split
      · simp
      · simp
    · exact ih

theorem failShutdown_shutdown {pid : Nat} {l : List Shutdown} : ∀ e ∈ (failShutdown pid l).2, ∃ a b c, e = .shutdown a b c := by
  intro e he
  unfold failShutdown at he
  obtain ⟨d, -, rfl⟩ := List.mem_map.mp he
  exact ⟨_, _, _, rfl⟩

theorem notifyTM_tr (s : State) (p : Proc) (t : Option Nat) : ∃ es, (s.notifyTM p t).tr = s.tr ++ es ∧ ∀ e ∈ es, ∃ x, e = .rollback x := by
  unfold State.notifyTM
  split
  · exact ⟨[], by simp, by simp⟩
  · split
    · exact ⟨_, rfl, by simp⟩
    · exact ⟨[], by simp, by simp⟩

theorem ackPrep_tr (s : State) (p : Proc) (corr : Nat) (trid : Option Nat) (e : Env) : ∃ es, (s.ackPrep p corr trid e).tr = s.tr ++ es ∧ ∀ e ∈ es, ∃ x, e = .rollback x :=
  notifyTM_tr _ p trid

theorem without_keeps {s : State} {p : Proc → Bool} {i : Nat} {x : SeqI} (hx : Index.get s.seq i = some x) (hr : x.reserved.isSome) (hp : p x.proc = false) :
    ∃ x', Index.get (s.without p).seq i = some x' ∧ x'.proc = x.proc ∧ x'.reserved.isSome ∧ (x'.corr = x.corr ∨ x'.corr = none) := by
  refine ⟨x, ?_, rfl, hr, .inl rfl⟩
  rw [without_seq, hx]
  simp [hp]

theorem Inv2.step {s : State} (h : Inv2 s) (m : In) : Inv2 (s.step m) := by
  refine ⟨h.1.step m, ?_⟩
  obtain ⟨hi, hu⟩ := h
  have hi' : Inv (s.emit (.recv m)) := hi.same ⟨rfl, rfl, rfl⟩
  -- a message that says nothing about the use of instances
  have base : (∀ ipc b, useStep ipc b (.recv m) = b) → Inv2 (s.emit (.recv m)) := fun hn =>
    ⟨hi', hu.keeps (es := [.recv m]) rfl (by intro e he; rw [List.mem_singleton] at he; subst he; exact ⟨hn, fun _ => trivial⟩) (Keeps.refl_of_seq rfl)⟩
  cases m with
  | advertise p alias add remove e =>
    show UseInv ((s.emit _).advertise p alias add remove e)
    rw [advertise_eq]
    split
    · rename_i hc
      rw [remove_eq hi']
      have hc' : add = [] ∧ remove = [] := by simpa using hc
      refine hu.recv _ (es := []) (by rw [List.append_nil]; rfl) (by simp) (useStep_le · · _) ?_
      intro i x c hx hr hcr hst
      refine without_keeps (s := s.emit _) hx hr ?_
      simp only [useStep, hc', and_self, if_true] at hst
      have := (Option.filter_eq_some_iff.mp hst).2
      simpa using this
    · rename_i hc
      have hc' : ¬ (add = [] ∧ remove = []) := by simpa using hc
      have hb := base (fun ipc b => by simp only [useStep, hc', if_false])
      have hsf : UseInv ((s.emit (.recv (.advertise p alias add remove e))).seqFor p alias).2 :=
        hb.2.keeps (es := []) (by rw [seqFor_eq]; simp) (by simp) (keeps_seqFor _ p alias)
      split
      · exact hsf.keeps (es := []) (by simp) (by simp) (Keeps.refl_of_seq rfl)
      · refine (Inv2.takePending ⟨?_, ?_⟩ _ _).2
        · exact (((hb.1.seqFor p alias).addSeqServices (seqFor_isSome _ p alias) _).removeSeqServices _ _)
        · refine hsf.keeps (es := []) ?_ (by simp) ((keeps_addSeqServices _ _ _).trans (keeps_removeSeqServices _ _ _))
          rw [List.append_nil]
          exact addSeqServices_tr _ _ _
  | cadvertise p alias order add remove e =>
    show UseInv ((s.emit _).cadvertise p alias order add remove e)
    have hb := base (fun _ _ => rfl)
    rw [cadvertise_eq, takeReady_eq]
    refine (Inv2.again ⟨?_, ?_⟩ _ _).2
    · exact Inv.same (((hb.1.conFor p alias order).addConServices (conFor_isSome _ p alias order) order _).removeConServices _ _) ⟨rfl, rfl, rfl⟩
    · refine hb.2.keeps (es := []) ?_ (by simp) (Keeps.refl_of_seq ?_)
      · rw [addConServices_frame, conFor_eq]; simp [State.removeConServices]
      · rw [addConServices_frame, conFor_eq]; rfl
  | creset p =>
    show UseInv ((s.emit _).remove _).1
    rw [remove_eq hi']
    refine hu.recv _ (es := []) (by rw [List.append_nil]; rfl) (by simp) (useStep_le · · _) ?_
    intro i x c hx hr hcr hst
    refine without_keeps (s := s.emit _) hx hr ?_
    simp only [useStep] at hst
    split at hst
    · cases hst
    · rename_i hne; simpa using fun h => hne h.symm
  | cinstance p alias order =>
    show UseInv ((s.emit _).cinstance p alias order)
    have hb := base (fun _ _ => rfl)
    unfold State.cinstance
    split
    · exact hb.2
    · exact hb.2.keeps (es := []) (by simp) (by simp) (Keeps.refl_of_seq rfl)
  | lookup r e => exact ((base (fun _ _ => rfl)).lookup r e).2
  | discard p corr reply =>
    show UseInv ((s.emit _).discard p corr reply)
    rw [discard_eq]
    split
    · refine hu.recv (.discard p corr reply) (es := if reply then [.discarded p.ipc corr true] else []) rfl (by cases reply <;> simp [quiet_discarded]) (useStep_le · · _) ?_
      intro i x c hx hr hcr hst
      exact ⟨x, hx, rfl, hr, .inl rfl⟩
    · refine hu.recv (.discard p corr reply) (es := if reply then [.discarded p.ipc corr false] else []) rfl (by cases reply <;> simp [quiet_discarded]) (useStep_le · · _) ?_
      intro i x c hx hr hcr hst
      have hne : c ≠ corr := by
        simp only [useStep] at hst
        have := (Option.filter_eq_some_iff.mp hst).2
        simpa using this
      refine ⟨x, ?_, rfl, hr, .inl rfl⟩
      show Index.get (s.seq.map _) i = _
      rw [Index.get_map, hx]
      simp only [Option.map_some, SeqI.discardCorr, Option.some.injEq]
      rw [if_neg]
      rintro ⟨-, hc⟩
      rcases hcr with hcr | hcr
      · rw [hcr] at hc; simp only [Option.some.injEq] at hc; exact hne hc
      · rw [hcr] at hc; cases hc
  | ack p corr trid e =>
    show UseInv ((s.emit _).ack p corr trid e)
    rw [ack_eq]
    obtain ⟨es, ht, hq⟩ := ackPrep_tr (s.emit (.recv (.ack p corr trid e))) p corr trid e
    have hs := ackPrep_same (s.emit (.recv (.ack p corr trid e))) p corr trid e
    have hpi := hi'.same hs
    have hq' : ∀ x ∈ es, Quiet x := fun x hx => by obtain ⟨y, rfl⟩ := hq x hx; exact quiet_rollback y
    generalize (s.emit (.recv (.ack p corr trid e))).ackPrep p corr trid e = t at ht hs hpi
    have hts : t.seq = s.seq := hs.seq
    have hne : ∀ i x c, Index.get s.seq i = some x → useStep x.proc.ipc (some (x.proc, c)) (.recv (.ack p corr trid e)) = some (x.proc, c) → x.proc.ipc ≠ p.ipc := by
      intro i x c hx hst
      simp only [useStep] at hst
      split at hst
      · cases hst
      · rename_i hne; exact fun h => hne h.symm
    split
    · refine hu.recv _ ht hq' (useStep_le · · _) ?_
      intro i x c hx hr hcr hst
      exact ⟨x, by rw [hts]; exact hx, rfl, hr, .inl rfl⟩
    · rename_i i hf
      obtain ⟨y, hy, hyp⟩ := seqOf_some hf
      have key : ∀ j x c, Index.get s.seq j = some x → x.reserved.isSome → (x.corr = some c ∨ x.corr = none) → useStep x.proc.ipc (some (x.proc, c)) (.recv (.ack p corr trid e)) = some (x.proc, c) →
          ∃ x', Index.get (Index.modify t.seq i SeqI.free) j = some x' ∧ x'.proc = x.proc ∧ x'.reserved.isSome ∧ (x'.corr = x.corr ∨ x'.corr = none) := by
        intro j x c hx hr hcr hst
        refine ⟨x, ?_, rfl, hr, .inl rfl⟩
        rw [Index.get_modify, if_neg, hts, hx]
        intro e; subst e
        rw [hts, hx] at hy
        simp only [Option.some.injEq] at hy
        subst hy
        exact hne _ _ c hx hst hyp
      split
      · refine hu.recv _ (es := es ++ (ackShutdown p corr t.shutdowns).2) ?_ ?_ (useStep_le · · _) key
        · show t.tr ++ _ = _
          rw [ht]; exact List.append_assoc _ _ _
        · intro x hx
          rcases List.mem_append.mp hx with hx | hx
          · exact hq' x hx
          · obtain ⟨a, b, c, rfl⟩ := ackShutdown_shutdown x hx; exact quiet_shutdown a b c
      · refine (Inv2.takePending ⟨?_, ?_⟩ _ _).2
        · exact hpi.free _ rfl rfl rfl
        · exact hu.recv _ ht hq' (useStep_le · · _) key
  | exit pid e =>
    show UseInv ((s.emit _).exit pid e)
    rw [exit_eq hi']
    refine (Inv2.again ⟨?_, ?_⟩ _ _).2
    · exact (hi'.without fun q => q.pid == pid).same ⟨rfl, rfl, rfl⟩
    · refine hu.recv (.exit pid e) (es := (failShutdown pid s.shutdowns).2 ++ (s.callers (s.seqIds fun q => q.pid == pid)).map fun c => Ev.error c.1.ipc c.2 .serviceError) ?_ ?_ (useStep_le · · _) ?_
      · show ((s.tr ++ [_]) ++ _) ++ _ = _
        rw [List.append_assoc]; rfl
      · intro x hx
        rcases List.mem_append.mp hx with hx | hx
        · obtain ⟨a, b, c, rfl⟩ := failShutdown_shutdown x hx; exact quiet_shutdown a b c
        · obtain ⟨c, -, rfl⟩ := List.mem_map.mp hx; exact quiet_error _ _ _
      · intro i x c hx hr hcr hst
        refine without_keeps (s := s.emit _) hx hr ?_
        simp only [useStep] at hst
        have := (Option.filter_eq_some_iff.mp hst).2
        simpa using this
  | prepareShutdown p corr ps e =>
    show UseInv ((s.emit _).prepareShutdown p corr ps e)
    have hb := base (fun _ _ => rfl)
    have hp : Inv2 ((s.emit (.recv (.prepareShutdown p corr ps e))).prepared ps e) := by
      have h1 : Inv2 ((s.emit (.recv (.prepareShutdown p corr ps e))).prepareAll ([], [], []) ps).1 :=
        ⟨hb.1.prepareAll _ _, hb.2.keeps (es := []) (by rw [prepareAll_frame]; simp) (by simp) (Keeps.refl_of_seq (by rw [prepareAll_frame]))⟩
      unfold State.prepared
      simp only
      split
      · exact h1
      · apply Inv2.again
        exact ⟨h1.1.same ⟨rfl, rfl, rfl⟩, h1.2.keeps (es := []) (by simp) (by simp) (Keeps.refl_of_seq rfl)⟩
    rw [prepareShutdown_eq]
    simp only
    split <;> split
    · exact hp.2
    · exact hp.2.keeps rfl (by simp [quiet_shutdown]) (Keeps.refl_of_seq rfl)
    · exact hp.2.keeps (es := []) (by simp) (by simp) (Keeps.refl_of_seq rfl)
    · exact hp.2.keeps rfl (by simp [quiet_shutdown]) (Keeps.refl_of_seq rfl)
  | alarm e =>
    show UseInv ((s.emit _).alarm e)
    have hb := base (fun _ _ => rfl)
    rw [alarm_eq]
    have h1 : UseInv ((s.emit (.recv (.alarm e))).alarmPrep e) := hb.2.keeps (es := []) (by simp [State.alarmPrep]) (by simp) (Keeps.refl_of_seq rfl)
    have h2 : ∀ ds : List Entry, UseInv (ds.foldl State.expire ((s.emit (.recv (.alarm e))).alarmPrep e)) := by
      intro ds
      refine expire_ind (P := UseInv) ?_ ds h1
      intro t d ht
      have := expire_cases t d
      generalize t.expire d = t' at this
      cases this with
      | nothing => exact ht
      | lookup l _ => exact ht.keeps rfl (by simp [quiet_timedOut]) (Keeps.refl_of_seq rfl)
      | noCaller _ i x h1 h2 h3 h4 => exact ht.keeps (es := []) (by simp) (by simp) (keeps_modify rfl fun x => ⟨rfl, rfl, .inr rfl⟩)
      | caller _ i x c h1 h2 h3 h4 => exact ht.keeps rfl (by simp [quiet_error, quiet_assassinate]) (keeps_modify rfl fun x => ⟨rfl, rfl, .inr rfl⟩)
    split
    · exact (h2 _).keeps (es := []) (by simp [State.setTimer]) (by simp) (Keeps.refl_of_seq rfl)
    · exact h2 _
  | discovered corr e =>
    show UseInv ((s.emit _).discovered corr e)
    have hb := base (fun _ _ => rfl)
    rw [discovered_eq]
    split
    · exact hb.2
    · split
      · refine (Inv2.lookup ⟨?_, ?_⟩ _ _).2
        · exact hb.1.same ⟨rfl, rfl, rfl⟩
        · exact hb.2.keeps (es := []) (by simp) (by simp) (Keeps.refl_of_seq rfl)
      · split
        · exact hb.2
        · exact hb.2.keeps rfl (by simp [quiet_absent]) (Keeps.refl_of_seq rfl)
  | disassociate t => exact (base (fun _ _ => rfl)).2.keeps (es := []) (by simp [State.handle, State.step]) (by simp) (Keeps.refl_of_seq rfl)
  | undelivered ipc =>
    show UseInv (match (s.emit (.recv (.undelivered ipc))).seqOf ipc with | some i => (s.emit (.recv (.undelivered ipc))).modifySeq i SeqI.free | none => s.emit (.recv (.undelivered ipc)))
    cases hf : (s.emit (.recv (.undelivered ipc))).seqOf ipc with
    | none =>
      refine hu.recv (.undelivered ipc) (es := []) (by simp [State.emit]) (by simp) (useStep_le · · _) ?_
      intro i x c hx hr hcr hst
      exact ⟨x, hx, rfl, hr, .inl rfl⟩
    | some i =>
      obtain ⟨y, hy, hyp⟩ := seqOf_some hf
      refine hu.recv (.undelivered ipc) (es := []) (by simp [State.emit, State.modifySeq]) (by simp) (useStep_le · · _) ?_
      intro j x c hx hr hcr hst
      refine ⟨x, ?_, rfl, hr, .inl rfl⟩
      show Index.get (Index.modify s.seq i _) j = _
      rw [Index.get_modify, if_neg, hx]
      intro e; subst e
      change Index.get s.seq j = some y at hy
      rw [hx] at hy
      simp only [Option.some.injEq] at hy
      subst hy
      simp only [useStep] at hst
      split at hst
      · cases hst
      · rename_i hne; exact hne hyp.symm

theorem Inv2.init (c : Config) : Inv2 (State.init c) :=
  ⟨Inv.init c, AllGood.nil, fun ipc p c h => by cases h⟩

theorem Inv2.run {s : State} (h : Inv2 s) (is : List In) : Inv2 (s.run is) := by
  unfold State.run
  induction is generalizing s with
  | nil => exact h
  | cons i is ih => exact ih (h.step i)

end Casual.Service

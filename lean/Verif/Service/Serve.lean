import Verif.Service.Frame
/-! The callers that wait for a reply are known. -/
namespace Casual.Service

/-- Not about who is served. -/
def SQuiet (e : Ev) : Prop := ∀ ipc b, servedStep ipc b e = b

theorem served_snoc (ipc : Nat) (tr : List Ev) (e : Ev) : served ipc (tr ++ [e]) = servedStep ipc (served ipc tr) e := by
  simp [served]

theorem served_quiet {ipc : Nat} {tr es : List Ev} (h : ∀ e ∈ es, SQuiet e) : served ipc (tr ++ es) = served ipc tr := by
  induction es generalizing tr with
  | nil => simp
  | cons e es ih =>
    rw [show tr ++ e :: es = (tr ++ [e]) ++ es by simp, ih (fun x hx => h x (List.mem_cons_of_mem _ hx)), served_snoc, h e List.mem_cons_self]

/-- Who is served is known as caller. -/
def ServeInv (s : State) : Prop :=
  ∀ ipc t c k, served ipc s.tr = some (t, c, k) → ∃ i x, Index.get s.seq i = some x ∧ x.proc = t ∧ t.ipc = ipc ∧ x.caller = some c ∧ x.corr = some k

/-- Callers stay. -/
def KeepsC (s s' : State) : Prop :=
  ∀ i x c k, Index.get s.seq i = some x → x.caller = some c → x.corr = some k → ∃ x', Index.get s'.seq i = some x' ∧ x'.proc = x.proc ∧ x'.caller = some c ∧ x'.corr = some k

theorem KeepsC.refl_of_seq {s s' : State} (h : s'.seq = s.seq) : KeepsC s s' := by
  intro i x c k hx hr hk
  exact ⟨x, by rw [h]; exact hx, rfl, hr, hk⟩

theorem KeepsC.trans {s s' s'' : State} (h : KeepsC s s') (h' : KeepsC s' s'') : KeepsC s s'' := by
  intro i x c k hx hr hk
  obtain ⟨y, hy, hp, hr', hc⟩ := h i x c k hx hr hk
  obtain ⟨z, hz, hp', hr'', hc'⟩ := h' i y c k hy hr' hc
  exact ⟨z, hz, by rw [hp', hp], hr'', hc'⟩

theorem ServeInv.keeps {s s' : State} (h : ServeInv s) {es : List Ev} (ht : s'.tr = s.tr ++ es) (hq : ∀ e ∈ es, SQuiet e) (hk : KeepsC s s') : ServeInv s' := by
  intro ipc t c k hu
  rw [ht, served_quiet hq] at hu
  obtain ⟨i, x, hx, hp, hi, hr, hc⟩ := h ipc t c k hu
  obtain ⟨x', hx', hp', hr', hc'⟩ := hk i x c k hx hr hc
  exact ⟨i, x', hx', by rw [hp', hp], hi, hr', hc'⟩

/-- Something has happened that can only take callers away. -/
theorem ServeInv.less {s s' : State} (h : ServeInv s) (m : Ev) {es : List Ev} (ht : s'.tr = (s.tr ++ [m]) ++ es) (hq : ∀ e ∈ es, SQuiet e)
    (hle : ∀ ipc b x, servedStep ipc b m = some x → b = some x)
    (hk : ∀ i x c k, Index.get s.seq i = some x → x.caller = some c → x.corr = some k → servedStep x.proc.ipc (some (x.proc, c, k)) m = some (x.proc, c, k) →
      ∃ x', Index.get s'.seq i = some x' ∧ x'.proc = x.proc ∧ x'.caller = some c ∧ x'.corr = some k) : ServeInv s' := by
  intro ipc t c k hu
  rw [ht, served_quiet hq, served_snoc] at hu
  have hu' := hle _ _ _ hu
  obtain ⟨i, x, hx, hp, hi, hr, hc⟩ := h ipc t c k hu'
  subst hp; subst hi
  rw [hu'] at hu
  obtain ⟨x', hx', hp', hr', hc'⟩ := hk i x c k hx hr hc hu
  exact ⟨i, x', hx', hp', rfl, hr', hc'⟩

theorem servedStep_le (ipc : Nat) (b : Option (Proc × Proc × Nat)) (m : In) (x : Proc × Proc × Nat) (h : servedStep ipc b (.recv m) = some x) : b = some x := by
  cases m <;> simp only [servedStep] at h <;> first
    | exact h
    | (split at h <;> first | cases h; done | exact h | exact (Option.filter_eq_some_iff.mp h).1)
    | exact (Option.filter_eq_some_iff.mp h).1

theorem squiet_shutdown (a b : Nat) (c : List Proc) : SQuiet (.shutdown a b c) := fun _ _ => rfl
theorem squiet_error (a : Nat) (b : Option Nat) : SQuiet (.error a b .serviceError) := fun _ _ => by cases b <;> rfl
theorem squiet_assassinate (a : Nat) : SQuiet (.assassinate a) := fun _ _ => rfl
theorem squiet_timedOut (a b : Nat) : SQuiet (.timedOut a b) := fun _ _ => rfl
theorem squiet_discarded (a b : Nat) (c : Bool) : SQuiet (.discarded a b c) := fun _ _ => rfl
theorem squiet_rollback (a : Nat) : SQuiet (.rollback a) := fun _ _ => rfl
theorem squiet_absent (a b c : Nat) : SQuiet (.absent a b c) := fun _ _ => rfl
theorem squiet_discover (a b : Nat) : SQuiet (.discover a b) := fun _ _ => rfl

theorem ServeInv.outcome {s s' : State} (h : ServeInv s) (hi : Inv s) {r : Req} {e : Env} (o : Outcome s r e s') : ServeInv s' := by
  cases o with
  | absent => exact h.keeps rfl (by simp [squiet_absent]) (KeepsC.refl_of_seq rfl)
  | discover =>
    rw [discover_eq]
    split
    · exact h.keeps (es := [.discover r.name r.corr]) rfl (by simp [squiet_discover]) (KeepsC.refl_of_seq rfl)
    · refine h.keeps (es := [.discover r.name r.corr, .absent r.proc.ipc r.corr r.name]) ?_ (by simp [squiet_discover, squiet_absent]) (KeepsC.refl_of_seq rfl)
      show (s.tr ++ [_]) ++ [_] = _
      simp
  | forward => exact h.keeps rfl (by intro e he; rw [List.mem_singleton] at he; subst he; exact fun _ _ => rfl) (KeepsC.refl_of_seq rfl)
  | pending => exact h.keeps (es := []) (by simp) (by simp) (KeepsC.refl_of_seq rfl)
  | con => exact h.keeps rfl (by intro e he; rw [List.mem_singleton] at he; subst he; exact fun _ _ => rfl) (KeepsC.refl_of_seq rfl)
  | seq v i x h1 h2 h3 h4 =>
    intro ipc t c k hu
    change served ipc (s.tr ++ [_]) = _ at hu
    rw [served_snoc] at hu
    simp only [servedStep] at hu
    split at hu
    · rename_i hip
      split at hu
      · cases hu
      · rename_i hno
        simp only [Option.some.injEq, Prod.mk.injEq] at hu
        refine ⟨i, SeqI.reserve r v.name x, ?_, hu.1, by rw [← hu.1]; exact hip, ?_, by rw [← hu.2.2]; rfl⟩
        · show Index.get (Index.modify s.seq i _) i = _
          rw [Index.get_modify, if_pos rfl, h3]; rfl
        · show (if r.noReply then none else some r.proc) = _
          rw [if_neg hno, hu.2.1]
    · rename_i hip
      obtain ⟨j, y, hy, hp, hip', hr, hc⟩ := h _ t c k hu
      refine ⟨j, y, ?_, hp, hip', hr, hc⟩
      show Index.get (Index.modify s.seq i _) j = _
      rw [Index.get_modify, if_neg, hy]
      intro e; subst e
      rw [h3] at hy
      simp only [Option.some.injEq] at hy
      subst hy
      exact hip (by rw [hp]; exact hip')

def Inv5 (s : State) : Prop := Inv s ∧ ServeInv s

theorem Inv5.lookup {s : State} (h : Inv5 s) (r : Req) (e : Env) : Inv5 (s.lookup r e) :=
  ⟨h.1.lookup r e, h.2.outcome h.1 (lookup_outcome h.1 r e)⟩

theorem Inv5.again {s : State} (h : Inv5 s) (ls : List Lookup) (e : Env) : Inv5 (s.again ls e) :=
  again_ind (P := Inv5) (fun _ r h => h.lookup r e) ls h

theorem Inv5.takePending {s : State} (h : Inv5 s) (i : Nat) (e : Env) : Inv5 (s.takePending i e) := by
  rw [takePending_eq]
  split
  · apply Inv5.lookup
    exact ⟨h.1.same ⟨rfl, rfl, rfl⟩, h.2.keeps (es := []) (by simp) (by simp) (KeepsC.refl_of_seq rfl)⟩
  · exact h

theorem keepsC_modify {s s' : State} {i : Nat} {f : SeqI → SeqI} (hq : s'.seq = Index.modify s.seq i f) (hf : ∀ x, (f x).proc = x.proc ∧ (f x).caller = x.caller ∧ (f x).corr = x.corr) : KeepsC s s' := by
  intro j x c k hx hr hk
  rw [hq, Index.get_modify]
  split
  · rename_i e; subst e; rw [hx]
    exact ⟨_, rfl, (hf x).1, by rw [(hf x).2.1]; exact hr, by rw [(hf x).2.2]; exact hk⟩
  · exact ⟨x, hx, rfl, hr, hk⟩

theorem keepsC_seqFor (s : State) (p : Proc) (alias : Nat) : KeepsC s (s.seqFor p alias).2 := by
  intro i x c k hx hr hk
  rcases seqFor_spec (s := s) p alias with ⟨y, -, hy, -, hg⟩ | ⟨-, hy, hg⟩
  · rw [hg]
    split
    · rename_i e; subst e; rw [hx] at hy; cases hy; exact ⟨_, rfl, rfl, hr, hk⟩
    · exact ⟨x, hx, rfl, hr, hk⟩
  · rw [hg]
    split
    · rename_i e; subst e; rw [hx] at hy; cases hy
    · exact ⟨x, hx, rfl, hr, hk⟩

theorem keepsC_addSeqServices (i : Nat) (s : State) (add : List Nat) : KeepsC s (add.foldl (State.addSeqService i) s) := by
  induction add generalizing s with
  | nil => exact KeepsC.refl_of_seq rfl
  | cons n add ih =>
    refine KeepsC.trans ?_ (ih _)
    rw [addSeqService_eq]
    exact keepsC_modify rfl fun x => ⟨rfl, rfl, rfl⟩

theorem Inv5.step {s : State} (h : Inv5 s) (m : In) (hm : ¬ m.leaves) : Inv5 (s.step m) := by
  refine ⟨h.1.step m, ?_⟩
  obtain ⟨hi, hu⟩ := h
  have hi' : Inv (s.emit (.recv m)) := hi.same ⟨rfl, rfl, rfl⟩
  have base : (∀ ipc b, servedStep ipc b (.recv m) = b) → Inv5 (s.emit (.recv m)) := fun hn =>
    ⟨hi', hu.keeps (es := [.recv m]) rfl (by intro e he; rw [List.mem_singleton] at he; subst he; exact hn) (KeepsC.refl_of_seq rfl)⟩
  cases m with
  | advertise p alias add remove e =>
    show ServeInv ((s.emit _).advertise p alias add remove e)
    rw [advertise_eq]
    split
    · rename_i hc
      have hc' : add = [] ∧ remove = [] := by simpa using hc
      exact absurd hc' hm
    · have hb := base (fun _ _ => rfl)
      have hsf : ServeInv ((s.emit (.recv (.advertise p alias add remove e))).seqFor p alias).2 :=
        hb.2.keeps (es := []) (by rw [seqFor_eq]; simp) (by simp) (keepsC_seqFor _ p alias)
      split
      · exact hsf.keeps (es := []) (by simp) (by simp) (KeepsC.refl_of_seq rfl)
      · refine (Inv5.takePending ⟨?_, ?_⟩ _ _).2
        · exact (((hb.1.seqFor p alias).addSeqServices (seqFor_isSome _ p alias) _).removeSeqServices _ _)
        · refine hsf.keeps (es := []) ?_ (by simp) ((keepsC_addSeqServices _ _ _).trans (keepsC_modify (i := (State.seqFor (s.emit (.recv (.advertise p alias add remove e))) p alias).1) rfl fun _ => ⟨rfl, rfl, rfl⟩))
          rw [List.append_nil]
          exact addSeqServices_tr _ _ _
  | cadvertise p alias order add remove e =>
    show ServeInv ((s.emit _).cadvertise p alias order add remove e)
    have hb := base (fun _ _ => rfl)
    rw [cadvertise_eq, takeReady_eq]
    refine (Inv5.again ⟨?_, ?_⟩ _ _).2
    · exact Inv.same (((hb.1.conFor p alias order).addConServices (conFor_isSome _ p alias order) order _).removeConServices _ _) ⟨rfl, rfl, rfl⟩
    · refine hb.2.keeps (es := []) ?_ (by simp) (KeepsC.refl_of_seq ?_)
      · rw [addConServices_frame, conFor_eq]; simp [State.removeConServices]
      · rw [addConServices_frame, conFor_eq]; rfl
  | creset p => exact absurd trivial hm
  | cinstance p alias order =>
    show ServeInv ((s.emit _).cinstance p alias order)
    have hb := base (fun _ _ => rfl)
    unfold State.cinstance
    split
    · exact hb.2
    · exact hb.2.keeps (es := []) (by simp) (by simp) (KeepsC.refl_of_seq rfl)
  | lookup r e => exact ((base (fun _ _ => rfl)).lookup r e).2
  | discard p corr reply =>
    show ServeInv ((s.emit _).discard p corr reply)
    rw [discard_eq]
    split
    · refine hu.less (.recv (.discard p corr reply)) (es := if reply then [.discarded p.ipc corr true] else []) rfl (by cases reply <;> simp [squiet_discarded]) (servedStep_le · · _) ?_
      intro i x c k hx hr hcr hst
      exact ⟨x, hx, rfl, hr, hcr⟩
    · refine hu.less (.recv (.discard p corr reply)) (es := if reply then [.discarded p.ipc corr false] else []) rfl (by cases reply <;> simp [squiet_discarded]) (servedStep_le · · _) ?_
      intro i x c k hx hr hcr hst
      have hne : k ≠ corr := by
        simp only [servedStep] at hst
        have := (Option.filter_eq_some_iff.mp hst).2
        simpa using this
      refine ⟨x, ?_, rfl, hr, hcr⟩
      show Index.get (s.seq.map _) i = _
      rw [Index.get_map, hx]
      simp only [Option.map_some, SeqI.discardCorr, Option.some.injEq]
      rw [if_neg]
      rintro ⟨-, hc⟩
      rw [hcr] at hc; simp only [Option.some.injEq] at hc; exact hne hc
  | ack p corr trid e =>
    show ServeInv ((s.emit _).ack p corr trid e)
    rw [ack_eq]
    obtain ⟨es, ht, hq⟩ := ackPrep_tr (s.emit (.recv (.ack p corr trid e))) p corr trid e
    have hs := ackPrep_same (s.emit (.recv (.ack p corr trid e))) p corr trid e
    have hpi := hi'.same hs
    have hq' : ∀ x ∈ es, SQuiet x := fun x hx => by obtain ⟨y, rfl⟩ := hq x hx; exact squiet_rollback y
    generalize (s.emit (.recv (.ack p corr trid e))).ackPrep p corr trid e = t at ht hs hpi
    have hts : t.seq = s.seq := hs.seq
    have hne : ∀ x c k, servedStep x (some (c, k)) (.recv (.ack p corr trid e)) = some (c, k) → x ≠ p.ipc := by
      intro x c k hst
      simp only [servedStep] at hst
      split at hst
      · cases hst
      · rename_i hne; exact fun h => hne h.symm
    split
    · refine hu.less _ ht hq' (servedStep_le · · _) ?_
      intro i x c k hx hr hcr hst
      exact ⟨x, by rw [hts]; exact hx, rfl, hr, hcr⟩
    · rename_i i hf
      obtain ⟨y, hy, hyp⟩ := seqOf_some hf
      have key : ∀ j x c k, Index.get s.seq j = some x → x.caller = some c → x.corr = some k → servedStep x.proc.ipc (some (x.proc, c, k)) (.recv (.ack p corr trid e)) = some (x.proc, c, k) →
          ∃ x', Index.get (Index.modify t.seq i SeqI.free) j = some x' ∧ x'.proc = x.proc ∧ x'.caller = some c ∧ x'.corr = some k := by
        intro j x c k hx hr hcr hst
        refine ⟨x, ?_, rfl, hr, hcr⟩
        rw [Index.get_modify, if_neg, hts, hx]
        intro e; subst e
        rw [hts, hx] at hy
        simp only [Option.some.injEq] at hy
        subst hy
        exact hne _ _ _ hst hyp
      split
      · refine hu.less _ (es := es ++ (ackShutdown p corr t.shutdowns).2) ?_ ?_ (servedStep_le · · _) key
        · show t.tr ++ _ = _
          rw [ht]; exact List.append_assoc _ _ _
        · intro x hx
          rcases List.mem_append.mp hx with hx | hx
          · exact hq' x hx
          · obtain ⟨a, b, c, rfl⟩ := ackShutdown_shutdown x hx; exact squiet_shutdown a b c
      · refine (Inv5.takePending ⟨?_, ?_⟩ _ _).2
        · exact hpi.free _ rfl rfl rfl
        · exact hu.less _ ht hq' (servedStep_le · · _) key
  | exit pid e =>
    show ServeInv ((s.emit _).exit pid e)
    rw [exit_eq hi']
    refine (Inv5.again ⟨?_, ?_⟩ _ _).2
    · exact (hi'.without fun q => q.pid == pid).same ⟨rfl, rfl, rfl⟩
    · refine hu.less (.recv (.exit pid e)) (es := (failShutdown pid s.shutdowns).2 ++ (s.callers (s.seqIds fun q => q.pid == pid)).map fun c => Ev.error c.1.ipc c.2 .serviceError) ?_ ?_ (servedStep_le · · _) ?_
      · show ((s.tr ++ [_]) ++ _) ++ _ = _
        rw [List.append_assoc]; rfl
      · intro x hx
        rcases List.mem_append.mp hx with hx | hx
        · obtain ⟨a, b, c, rfl⟩ := failShutdown_shutdown x hx; exact squiet_shutdown a b c
        · obtain ⟨c, -, rfl⟩ := List.mem_map.mp hx; exact squiet_error _ _
      · intro i x c k hx hr hcr hst
        simp only [servedStep] at hst
        have := (Option.filter_eq_some_iff.mp hst).2
        refine ⟨x, ?_, rfl, hr, hcr⟩
        show Index.get ((s.emit (.recv (.exit pid e))).without fun q => q.pid == pid).seq i = _
        rw [without_seq, show Index.get (s.emit (.recv (.exit pid e))).seq i = some x from hx]
        have : (x.proc.pid == pid) = false := by simpa using this
        simp [this]
  | prepareShutdown p corr ps e =>
    show ServeInv ((s.emit _).prepareShutdown p corr ps e)
    have hb := base (fun _ _ => rfl)
    have hp : Inv5 ((s.emit (.recv (.prepareShutdown p corr ps e))).prepared ps e) := by
      have h1 : Inv5 ((s.emit (.recv (.prepareShutdown p corr ps e))).prepareAll ([], [], []) ps).1 :=
        ⟨hb.1.prepareAll _ _, hb.2.keeps (es := []) (by rw [prepareAll_frame]; simp) (by simp) (KeepsC.refl_of_seq (by rw [prepareAll_frame]))⟩
      unfold State.prepared
      simp only
      split
      · exact h1
      · apply Inv5.again
        exact ⟨h1.1.same ⟨rfl, rfl, rfl⟩, h1.2.keeps (es := []) (by simp) (by simp) (KeepsC.refl_of_seq rfl)⟩
    rw [prepareShutdown_eq]
    simp only
    split <;> split
    · exact hp.2
    · exact hp.2.keeps rfl (by simp [squiet_shutdown]) (KeepsC.refl_of_seq rfl)
    · exact hp.2.keeps (es := []) (by simp) (by simp) (KeepsC.refl_of_seq rfl)
    · exact hp.2.keeps rfl (by simp [squiet_shutdown]) (KeepsC.refl_of_seq rfl)
  | alarm e =>
    show ServeInv ((s.emit _).alarm e)
    have hb := base (fun _ _ => rfl)
    rw [alarm_eq]
    have h1 : ServeInv ((s.emit (.recv (.alarm e))).alarmPrep e) := hb.2.keeps (es := []) (by simp [State.alarmPrep]) (by simp) (KeepsC.refl_of_seq rfl)
    have h2 : ∀ ds : List Entry, ServeInv (ds.foldl State.expire ((s.emit (.recv (.alarm e))).alarmPrep e)) := by
      intro ds
      refine expire_ind (P := ServeInv) ?_ ds h1
      intro t d ht
      have := expire_cases t d
      generalize t.expire d = t' at this
      cases this with
      | nothing => exact ht
      | lookup l _ => exact ht.keeps rfl (by simp [squiet_timedOut]) (KeepsC.refl_of_seq rfl)
      | noCaller _ i x h1 h2 h3 h4 =>
        refine ht.keeps (es := []) (by simp) (by simp) ?_
        intro j y c k hy hr hk
        refine ⟨y, ?_, rfl, hr, hk⟩
        show Index.get (Index.modify t.seq i _) j = _
        rw [Index.get_modify, if_neg, hy]
        intro e; subst e
        rw [h2] at hy; cases hy
        rw [h4] at hr; cases hr
      | caller _ i x c h1 h2 h3 h4 =>
        refine ht.less (.error c.ipc (some d.corr) .timeout) (es := [.assassinate x.proc.pid]) (by simp) (by simp [squiet_assassinate]) ?_ ?_
        · intro ipc b y hy
          exact (Option.filter_eq_some_iff.mp hy).1
        · intro j y c' k hy hr hk hst
          refine ⟨y, ?_, rfl, hr, hk⟩
          show Index.get (Index.modify t.seq i _) j = _
          rw [Index.get_modify, if_neg, hy]
          intro e; subst e
          rw [h2] at hy; cases hy
          rw [h4] at hr; cases hr
          rw [h3] at hk; cases hk
          simp [servedStep, Option.filter] at hst
    split
    · exact (h2 _).keeps (es := []) (by simp [State.setTimer]) (by simp) (KeepsC.refl_of_seq rfl)
    · exact h2 _
  | discovered corr e =>
    show ServeInv ((s.emit _).discovered corr e)
    have hb := base (fun _ _ => rfl)
    rw [discovered_eq]
    split
    · exact hb.2
    · split
      · refine (Inv5.lookup ⟨?_, ?_⟩ _ _).2
        · exact hb.1.same ⟨rfl, rfl, rfl⟩
        · exact hb.2.keeps (es := []) (by simp) (by simp) (KeepsC.refl_of_seq rfl)
      · split
        · exact hb.2
        · exact hb.2.keeps rfl (by simp [squiet_absent]) (KeepsC.refl_of_seq rfl)
  | disassociate t => exact (base (fun _ _ => rfl)).2.keeps (es := []) (by simp [State.handle, State.step]) (by simp) (KeepsC.refl_of_seq rfl)
  | undelivered ipc => exact absurd trivial hm

theorem Inv5.init (c : Config) : Inv5 (State.init c) := ⟨Inv.init c, fun ipc t c k h => by cases h⟩

theorem Inv5.run {s : State} (h : Inv5 s) (is : List In) (hm : ∀ m ∈ is, ¬ m.leaves) : Inv5 (s.run is) := by
  unfold State.run
  induction is generalizing s with
  | nil => exact h
  | cons i is ih => exact ih (h.step i (hm i List.mem_cons_self)) fun m h' => hm m (List.mem_cons_of_mem _ h')

/-- The callers of the instances that go are told. -/
theorem told {s : State} (h : Inv5 s) (pid : Nat) (e : Env) {ipc : Nat} {t c : Proc} {k : Nat} (hs : served ipc s.tr = some (t, c, k)) (hp : t.pid = pid) :
    ∃ es, (s.step (.exit pid e)).tr = s.tr ++ .recv (.exit pid e) :: es ∧ .error c.ipc (some k) .serviceError ∈ es := by
  obtain ⟨hi, hu⟩ := h
  obtain ⟨i, x, hx, hxp, hipc, hxc, hxk⟩ := hu ipc t c k hs
  have hi' : Inv (s.emit (.recv (.exit pid e))) := hi.same ⟨rfl, rfl, rfl⟩
  have heq : s.step (.exit pid e) = ((s.emit (.recv (.exit pid e))).exitPrep pid).again s.lookups e := exit_eq hi' pid e
  rw [heq]
  have hpi : Inv ((s.emit (.recv (.exit pid e))).exitPrep pid) := (hi'.without fun q => q.pid == pid).same ⟨rfl, rfl, rfl⟩
  obtain ⟨es, he⟩ := (Conf.again hpi s.lookups e).tr
  rw [he]
  refine ⟨(failShutdown pid s.shutdowns).2 ++ (s.callers (s.seqIds fun q => q.pid == pid)).map (fun c => Ev.error c.1.ipc c.2 .serviceError) ++ es, ?_, ?_⟩
  · show (((s.tr ++ [_]) ++ _) ++ _) ++ es = _
    simp
    rfl
  · refine List.mem_append_left _ (List.mem_append_right _ (List.mem_map.mpr ⟨(c, some k), ?_, rfl⟩))
    unfold State.callers
    refine List.mem_filterMap.mpr ⟨i, mem_seqIds.mpr ⟨x, hx, by simp [hxp, hp]⟩, ?_⟩
    simp [hx, hxc, hxk]

end Casual.Service

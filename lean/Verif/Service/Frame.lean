import Verif.Service.Book
/-! What is configured stays; the trace grows. -/
namespace Casual.Service

/-- The configuration stays, and the trace only grows. -/
structure Conf (s s' : State) : Prop where
  restriction : s'.restriction = s.restriction
  fatal : s'.fatal = s.fatal
  tr : ∃ es, s'.tr = s.tr ++ es

theorem Conf.refl (s : State) : Conf s s := ⟨rfl, rfl, [], (List.append_nil _).symm⟩

theorem Conf.trans {s t u : State} (h : Conf s t) (h' : Conf t u) : Conf s u := by
  obtain ⟨es, he⟩ := h.tr
  obtain ⟨es', he'⟩ := h'.tr
  exact ⟨h'.restriction.trans h.restriction, h'.fatal.trans h.fatal, es ++ es', by rw [he', he, List.append_assoc]⟩

theorem Conf.of {s s' : State} (es : List Ev) (h1 : s'.restriction = s.restriction) (h2 : s'.fatal = s.fatal) (h3 : s'.tr = s.tr ++ es) : Conf s s' := ⟨h1, h2, es, h3⟩

theorem Conf.outcome {s s' : State} {r : Req} {e : Env} (o : Outcome s r e s') : Conf s s' := by
  cases o with
  | absent => exact .of [_] rfl rfl rfl
  | discover =>
    rw [discover_eq]
    split
    · exact .of [_] rfl rfl rfl
    · exact .of [.discover r.name r.corr, .absent r.proc.ipc r.corr r.name] rfl rfl (by simp [State.emit])
  | forward => exact .of [_] rfl rfl rfl
  | pending => exact .of [] rfl rfl (by simp)
  | seq => exact .of [_] rfl rfl rfl
  | con => exact .of [_] rfl rfl rfl

theorem Conf.lookup {s : State} (h : Inv s) (r : Req) (e : Env) : Conf s (s.lookup r e) := Conf.outcome (lookup_outcome h r e)

theorem Conf.again {s : State} (h : Inv s) (ls : List Lookup) (e : Env) : Conf s (s.again ls e) := by
  have : Inv (s.again ls e) ∧ Conf s (s.again ls e) := by
    refine again_ind (P := fun t => Inv t ∧ Conf s t) ?_ ls ⟨h, Conf.refl s⟩
    intro t r ht
    exact ⟨ht.1.lookup r e, ht.2.trans (Conf.lookup ht.1 r e)⟩
  exact this.2

theorem Conf.takePending {s : State} (h : Inv s) (i : Nat) (e : Env) : Conf s (s.takePending i e) := by
  rw [takePending_eq]
  split
  · rename_i l _
    refine Conf.trans (t := { s with lookups := s.lookups.eraseP (s.takes i) }) (.of [] rfl rfl (by simp)) (Conf.lookup ?_ _ _)
    exact h.same ⟨rfl, rfl, rfl⟩
  · exact Conf.refl _

theorem Conf.expire (s : State) (d : Entry) : Conf s (s.expire d) := by
  have := expire_cases s d
  generalize s.expire d = s' at this
  cases this with
  | nothing => exact Conf.refl _
  | lookup => exact .of [_] rfl rfl rfl
  | noCaller => exact .of [] rfl rfl (by simp)
  | caller => exact .of [_, _] rfl rfl rfl

theorem Conf.ackPrep (s : State) (p : Proc) (corr : Nat) (t : Option Nat) (e : Env) : Conf s (s.ackPrep p corr t e) := by
  have : ∀ u : State, Conf u (u.notifyTM p t) := by
    intro u
    unfold State.notifyTM
    split
    · exact Conf.refl _
    · split
      · exact .of [_] rfl rfl rfl
      · exact Conf.refl _
  unfold State.ackPrep
  refine Conf.trans ?_ (this _)
  refine .of [] rfl rfl (by simp)

theorem Conf.handle {s : State} (hi' : Inv s) (m : In) : Conf s (s.handle m) := by
  cases m with
  | advertise p alias add remove e =>
    show Conf s (s.advertise p alias add remove e)
    rw [advertise_eq]
    split
    · rw [remove_eq hi']; exact .of [] rfl rfl (by simp [State.without])
    · have hfr := seqFor_eq s p alias
      have hsi := seqFor_isSome s p alias
      have hsf := hi'.seqFor p alias
      generalize s.seqFor p alias = r at hfr hsi hsf ⊢
      obtain ⟨i, t⟩ := r
      dsimp only at hfr hsi hsf ⊢
      have h1 : Conf s t := by rw [hfr]; exact .of [] rfl rfl (by simp)
      split
      · exact h1.trans (.of [] rfl rfl (by simp))
      · refine (h1.trans ?_).trans (Conf.takePending ((hsf.addSeqServices hsi _).removeSeqServices _ _) _ _)
        have hfr2 := addSeqServices_frame i t (add.filter fun n => s.allowed alias n)
        generalize (add.filter fun n => s.allowed alias n).foldl (State.addSeqService i) t = u at hfr2
        exact .of [] (by show u.restriction = _; rw [hfr2]) (by show u.fatal = _; rw [hfr2]) (by show u.tr = _; rw [hfr2]; simp)
  | cadvertise p alias order add remove e =>
    show Conf s (s.cadvertise p alias order add remove e)
    rw [cadvertise_eq, takeReady_eq]
    have hcf := conFor_eq s p alias order
    have hinv := hi'.conFor p alias order
    have hsome := conFor_isSome s p alias order
    generalize s.conFor p alias order = r at hcf hinv hsome ⊢
    obtain ⟨i, t⟩ := r
    dsimp only at hcf hinv hsome ⊢
    have hfr := addConServices_frame i order t (add.filter fun n => s.allowed alias n.1)
    have hinv2 := (hinv.addConServices hsome order (add.filter fun n => s.allowed alias n.1)).removeConServices i remove
    generalize (add.filter fun n => s.allowed alias n.1).foldl (State.addConService i order) t = u at hfr hinv2 ⊢
    refine Conf.trans (t := { (u.removeConServices i remove) with lookups := (u.removeConServices i remove).lookups.filter fun l => !(u.removeConServices i remove).ready l }) ?_ (Conf.again ?_ _ _)
    · exact .of [] (by show u.restriction = _; rw [hfr, hcf]) (by show u.fatal = _; rw [hfr, hcf]) (by show u.tr = _; rw [hfr, hcf]; simp)
    · exact hinv2.same ⟨rfl, rfl, rfl⟩
  | creset p =>
    show Conf s (s.remove fun q => q.ipc == p.ipc).1
    rw [remove_eq hi']; exact .of [] rfl rfl (by simp [State.without])
  | cinstance p alias order =>
    show Conf s (s.cinstance p alias order)
    unfold State.cinstance
    split
    · exact Conf.refl _
    · exact .of [] rfl rfl (by simp)
  | lookup r e => exact Conf.lookup hi' r e
  | discard p corr reply =>
    show Conf s (s.discard p corr reply)
    unfold State.discard
    split
    · split
      · exact .of [_] rfl rfl rfl
      · exact .of [] rfl rfl (by simp)
    · split
      · exact .of [_] rfl rfl rfl
      · exact .of [] rfl rfl (by simp)
  | ack p corr trid e =>
    show Conf s (s.ack p corr trid e)
    rw [ack_eq]
    have h1 := Conf.ackPrep s p corr trid e
    have h2 := hi'.same (ackPrep_same s p corr trid e)
    generalize s.ackPrep p corr trid e = u at h1 h2 ⊢
    split
    · exact h1
    · rename_i i hf
      split
      · exact h1.trans (.of _ rfl rfl rfl)
      · refine (h1.trans (t := u) (u := u.modifySeq i SeqI.free) (.of [] rfl rfl (by simp [State.modifySeq]))).trans (Conf.takePending ?_ _ _)
        exact h2.free i rfl rfl rfl
  | exit pid e =>
    show Conf s (s.exit pid e)
    rw [exit_eq hi']
    refine Conf.trans (t := s.exitPrep pid) (.of _ rfl rfl (List.append_assoc _ _ _)) (Conf.again ?_ _ _)
    exact (hi'.without fun q => q.pid == pid).same ⟨rfl, rfl, rfl⟩
  | prepareShutdown p corr ps e =>
    show Conf s (s.prepareShutdown p corr ps e)
    rw [prepareShutdown_eq]
    have h1 : Conf s (s.prepared ps e) := by
      unfold State.prepared
      have hfr := prepareAll_frame s ([], [], []) ps
      have hin := hi'.prepareAll ([], [], []) ps
      generalize s.prepareAll ([], [], []) ps = a at hfr hin ⊢
      have h2 : Conf s a.1 := by rw [hfr]; exact .of [] rfl rfl (by simp)
      dsimp only
      split
      · exact h2
      · refine h2.trans (Conf.trans (t := { a.1 with lookups := a.1.lookups.filter fun l => l.req.name ∉ a.2.1 }) (.of [] rfl rfl (by simp)) (Conf.again ?_ _ _))
        exact hin.same ⟨rfl, rfl, rfl⟩
    refine h1.trans ?_
    generalize s.prepared ps e = t
    dsimp only
    split <;> split
    · exact Conf.refl _
    · exact .of [_] rfl rfl rfl
    · exact .of [] rfl rfl (by simp)
    · exact .of [_] rfl rfl rfl
  | alarm e =>
    show Conf s (s.alarm e)
    rw [alarm_eq]
    have h' := expire_ind (P := Conf s) (fun _ d h => h.trans (Conf.expire _ d)) (s.deadlines.takeWhile fun d => decide (d.when_ < e.now)) (s := s.alarmPrep e) (.of [] rfl rfl (by simp [State.alarmPrep]))
    split
    · exact h'.trans (.of [] rfl rfl (by simp [State.setTimer]))
    · exact h'
  | discovered corr e =>
    show Conf s (s.discovered corr e)
    rw [discovered_eq]
    split
    · exact Conf.refl _
    · rename_i l hl
      split
      · refine Conf.trans (t := { s with lookups := s.lookups.eraseP fun l => l.req.corr == corr }) (.of [] rfl rfl (by simp)) (Conf.lookup ?_ _ _)
        exact hi'.same ⟨rfl, rfl, rfl⟩
      · split
        · exact Conf.refl _
        · exact .of [_] rfl rfl rfl
  | disassociate t => exact .of [] rfl rfl (by simp [State.handle])
  | undelivered ipc =>
    show Conf s (match s.seqOf ipc with | some i => s.modifySeq i SeqI.free | none => s)
    split
    · exact .of [] rfl rfl (by simp [State.modifySeq])
    · exact Conf.refl _

theorem Conf.step {s : State} (hi : Inv s) (m : In) : Conf s (s.step m) := by
  have hi' : Inv (s.emit (.recv m)) := hi.same ⟨rfl, rfl, rfl⟩
  have h0 : Conf s (s.emit (.recv m)) := .of [_] rfl rfl rfl
  exact h0.trans (Conf.handle hi' m)

theorem Conf.run {s : State} (hi : Inv s) (is : List In) : Conf s (s.run is) := by
  unfold State.run
  induction is generalizing s with
  | nil => exact Conf.refl _
  | cons i is ih => exact (Conf.step hi i).trans (ih (hi.step i))

theorem run_restriction (c : Config) (is : List In) : ((State.init c).run is).restriction = c.restriction := (Conf.run (Inv.init c) is).restriction

end Casual.Service

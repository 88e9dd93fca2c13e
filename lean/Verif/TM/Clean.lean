import Verif.TM.Life
/-!
# Nothing is left of a finished transaction
-/
namespace Casual.TM
open Casual.Code Casual.FanOut

/-- the manager holds no state and no log row of the transaction `g` -/
def NoG (g : Nat) (s : State) : Prop := (∀ t ∈ s.txs, t.g ≠ g) ∧ ∀ x ∈ s.log.current, x.g ≠ g

/-- since the trace was `tr0`: if `g` was removed (or `b`), nothing of it is held -/
def D (g : Nat) (tr0 : List Obs) (b : Prop) (s : State) : Prop :=
  TInv s.txs ∧ ∃ l, s.tr = tr0 ++ l ∧ (b ∨ Obs.removed g ∈ l → NoG g s)

variable {g : Nat} {tr0 : List Obs} {b : Prop}

theorem D.grow {s s' : State} (h : D g tr0 b s) (l : List Obs) (ht : s'.tr = s.tr ++ l) (hr : Obs.removed g ∉ l)
    (hT : TInv s'.txs) (hN : NoG g s → NoG g s') : D g tr0 b s' := by
  obtain ⟨-, l0, h1, h2⟩ := h
  refine ⟨hT, l0 ++ l, by rw [ht, h1]; simp, ?_⟩
  rintro (hb | hm)
  · exact hN (h2 (.inl hb))
  · rcases List.mem_append.mp hm with hm | hm
    · exact hN (h2 (.inr hm))
    · exact absurd hm hr

theorem D.same {s s' : State} (h : D g tr0 b s) (l : List Obs) (ht : s'.tr = s.tr ++ l) (hr : Obs.removed g ∉ l)
    (hx : s'.txs = s.txs) (hl : s'.log.current = s.log.current) : D g tr0 b s' :=
  h.grow l ht hr (by rw [hx]; exact h.1) (by unfold NoG; rw [hx, hl]; exact id)

theorem D.freed {s s' : State} {l : List Obs} (h : D g tr0 b s) (hf : Freed s s' l) : D g tr0 b s' := by
  have hr : Obs.removed g ∉ l := fun hm => hf.only _ hm
  rcases hf.cases with hc | hc
  · exact h.same l hf.tr hr hc.1 (by rw [hc.2.1])
  · refine h.grow l hf.tr hr (by rw [hc.2.2.1]; exact .nil) ?_
    rintro ⟨-, h2⟩
    refine ⟨by rw [hc.2.2.1]; simp, by rw [hc.2.2.2.2]; exact h2⟩

theorem noG_filter {s s' : State} {g' : Nat} (hx : s'.txs = s.txs.filter (fun t => decide (t.g ≠ g')))
    (hl : s'.log.current = s.log.current.filter (fun x => x.g ≠ g')) (h : g' = g ∨ NoG g s) : NoG g s' := by
  unfold NoG
  rw [hx, hl]
  refine ⟨?_, ?_⟩
  · intro t ht
    obtain ⟨h1, h2⟩ := List.mem_filter.mp ht
    rcases h with rfl | h
    · simpa using h2
    · exact h.1 t h1
  · intro x hx
    obtain ⟨h1, h2⟩ := List.mem_filter.mp hx
    rcases h with rfl | h
    · simpa using h2
    · exact h.2 x h1

theorem D.removed {s s' : State} (h : D g tr0 b s) {g' : Nat} {l : List Obs} (ht : s'.tr = s.tr ++ .removed g' :: l)
    (hd : ∀ o ∈ l, ∃ x, o = .disassociate x)
    (hx : s'.txs = s.txs.filter (fun t => decide (t.g ≠ g')))
    (hl : s'.log.current = s.log.current.filter (fun x => x.g ≠ g')) : D g tr0 b s' := by
  have hT : TInv s'.txs := by rw [hx]; exact h.1.filter _
  by_cases hg : g' = g
  · obtain ⟨-, l0, h1, -⟩ := h
    exact ⟨hT, l0 ++ .removed g' :: l, by rw [ht, h1]; simp, fun _ => noG_filter hx hl (.inl hg)⟩
  · refine h.grow _ ht ?_ hT (fun hN => noG_filter hx hl (.inr hN))
    intro hm
    rcases List.mem_cons.mp hm with hm | hm
    · cases hm; exact hg rfl
    · obtain ⟨x, hx⟩ := hd _ hm; cases hx

theorem D.remove {s : State} (h : D g tr0 b s) (g' : Nat) : D g tr0 b (s.remove g') := by
  obtain ⟨l, h1, h2⟩ := remove_tr s g'
  exact h.removed h1 h2 (remove_txs s g') (by rw [remove_log])

theorem D.removeByRange {s : State} (h : D g tr0 b s) (g' : Nat) : D g tr0 b (s.removeByRange g') := by
  obtain ⟨l, h1, h2⟩ := removeByRange_tr s g'
  exact h.removed h1 h2 (removeByRange_txs' s g') (by rw [removeByRange_log])

theorem closed_D' (g : Nat) (tr0 : List Obs) (b : Prop) : ClosedS (· ≠ g) (D g tr0 b) where
  plain := fun s o ho h => h.same [o] rfl (by
    intro hm; simp at hm; subst hm; exact ho) rfl rfl
  prep := fun s _ h => h.same [] (by simp) (by simp) rfl rfl
  com := fun s _ h => h.same [] (by simp) (by simp) rfl rfl
  rol := fun s _ h => h.same [] (by simp) (by simp) rfl rfl
  issue := fun s kind op t rm h => by
    have hc := (issue_core { s with nextCorr := s.nextCorr + 1 } ⟨kind, s.nextCorr, t, rm, op⟩)
    obtain ⟨l, hs, hl⟩ := issue_tr { s with nextCorr := s.nextCorr + 1 } ⟨kind, s.nextCorr, t, rm, op⟩
    refine h.same _ hl ?_ hc.txs (by rw [hc.log])
    intro hm
    rcases List.mem_cons.mp hm with hm | hm
    · cases hm
    · exact hs _ hm
  modify := fun s g' f hf h => by
    refine h.grow [] (by simp [State.modify]) (by simp) (h.1.modify hf) ?_
    rintro ⟨h1, h2⟩
    refine ⟨?_, h2⟩
    intro t ht
    obtain ⟨x, hx, rfl⟩ := List.mem_map.mp ht
    split
    · rw [hf.g]; exact h1 x hx
    · exact h1 x hx
  ensure := fun s t hne h => by
    refine h.grow [] ?_ (by simp) (h.1.ensure t) ?_
    · unfold State.ensure; split <;> simp
    · rintro ⟨h1, h2⟩
      refine ⟨?_, ?_⟩
      · unfold State.ensure
        split
        · exact h1
        · intro x hx
          rcases List.mem_append.mp hx with hx | hx
          · exact h1 x hx
          · simp at hx; subst hx; exact hne
      · unfold State.ensure; split <;> exact h2
  remove := fun s g' h => h.remove g'
  done := fun s to a g' _ h =>
    (h.same [.answer to a] rfl (by simp) rfl rfl : D g tr0 b (s.emit (.answer to a))).remove g'
  doneByRange := fun s to a g' _ _ h =>
    (h.same [.answer to a] rfl (by simp) rfl rfl : D g tr0 b (s.emit (.answer to a))).removeByRange g'
  queue := fun s _ _ h => h.same [] (by simp) (by simp) rfl rfl
  persist := fun s h => h.same _ rfl (by simp) rfl rfl
  logTx := fun s g' h => by
    rcases logTx_cases s g' with ⟨-, e⟩ | ⟨t, -, l, hf⟩ | ⟨t, hfd, e⟩
    · rw [e]; exact h
    · exact h.freed hf
    · rw [e]
      have htm : t ∈ s.txs := List.mem_of_find?_eq_some hfd
      refine h.grow [.logged _ _] rfl (by simp) h.1 ?_
      rintro ⟨h1, h2⟩
      refine ⟨h1, ?_⟩
      intro x hx
      rcases List.mem_append.mp hx with hx | hx
      · exact h2 x hx
      · obtain ⟨br, hb, rfl⟩ := List.mem_map.mp hx
        rw [(h.1.good t htm).g br hb]
        exact h1 t htm
  halt := fun s h => h.freed (halt_freed s)
  ext := fun s _ _ h => h.same [] (by simp) (by simp) rfl rfl
  inbox := fun s _ h => h.same [] (by simp) (by simp) rfl rfl
  replied := fun s r h => by
    obtain ⟨l, hf⟩ := replied_freed (s.emit (.got r)) r.rm r.pid
    exact D.freed (h.same [.got r] rfl (by simp) rfl rfl : D g tr0 b (s.emit (.got r))) hf

theorem closed_D (g : Nat) (tr0 : List Obs) (b : Prop) : Closed (· ≠ g) (D g tr0 b) := (closed_D' g tr0 b).closed

/-! ### a rollback request removes its own transaction only -/

theorem remove_only (s : State) (g' : Nat) : ∃ l, (s.remove g').tr = s.tr ++ l ∧
    ∀ g, Obs.removed g ∈ l → g = g' := by
  obtain ⟨l, h1, h2⟩ := remove_tr s g'
  refine ⟨_, h1, ?_⟩
  intro g hm
  rcases List.mem_cons.mp hm with hm | hm
  · cases hm; rfl
  · obtain ⟨x, hx⟩ := h2 _ hm; cases hx

theorem runRollback_only (s : State) (f : Fired Rep Int KFinal) : ∃ l, (runRollback s f).tr = s.tr ++ l ∧
    ∀ g, Obs.removed g ∈ l → g = f.callback.origin.xid.g := by
  have key : ∀ o, (∀ g, o ≠ Obs.removed g) → ∃ l, ((s.emit o).remove f.callback.origin.xid.g).tr = s.tr ++ l ∧
      ∀ g, Obs.removed g ∈ l → g = f.callback.origin.xid.g := by
    intro o ho
    obtain ⟨l, h1, h2⟩ := remove_only (s.emit o) f.callback.origin.xid.g
    refine ⟨o :: l, by rw [h1]; simp [State.emit], ?_⟩
    intro g hm
    rcases List.mem_cons.mp hm with hm | hm
    · exact absurd hm.symm (ho g)
    · exact h2 g hm
  unfold runRollback
  dsimp only
  split
  · split
    · exact key _ (by simp)
    · exact ⟨[_], rfl, by simp⟩
  · exact key _ (by simp)

theorem rollbackRequest_removed (s : State) (p : Proc) (c : Nat) (t : Trid) (i : List Int) (hne : t.xid.g ≠ g) :
    ∃ l, (rollbackRequest s p c t i).tr = s.tr ++ l ∧ Obs.removed g ∉ l := by
  have hip : (s.involvePurge t i).tr = s.tr := by
    show (s.ensure t).tr = s.tr
    unfold State.ensure; split <;> rfl
  unfold rollbackRequest
  dsimp only
  split
  · exact ⟨[], by simpa using hip, by simp⟩
  rename_i tx _
  unfold State.startRollback
  dsimp only
  generalize hs1 : (s.involvePurge t i).modify t.xid.g (fun t => { t.setStage .rollback with owner := p }) = s1
  have h1 : s1.tr = s.tr := by rw [← hs1]; exact hip
  obtain ⟨l2, h2, h2i, -⟩ := issueAll_tr s1 .rollback false tx.targets
  have hl2 : Obs.removed g ∉ l2 := by
    intro hm
    rcases h2i _ hm with hm | ⟨r, hm⟩
    · exact hm
    · cases hm
  generalize (s1.issueAll .rollback false tx.targets) = sr at h2 ⊢
  obtain ⟨s2, reqs⟩ := sr
  dsimp only at h2 ⊢
  unfold State.regRollback
  dsimp only
  rcases register_entries s2.rol (toPending reqs) ⟨.rollback, t, ⟨p, c, 0⟩, .read_only⟩ with ⟨-, he⟩ | ⟨-, -, he⟩
  · rw [he]
    simp only [fireAll, List.foldl_cons, List.foldl_nil]
    split
    · exact ⟨l2 ++ [.fanout .rollback .rollback t ⟨p, c, 0⟩ reqs], by simp [State.emit, h2, h1], by simp [hl2]⟩
    · obtain ⟨l3, h3, h3r⟩ := runRollback_only ({ s2 with rol := s2.rol }.emit (.fanout .rollback .rollback t ⟨p, c, 0⟩ reqs))
        (newEntry s2.rol.next (toPending reqs) ⟨.rollback, t, ⟨p, c, 0⟩, .read_only⟩).fire
      refine ⟨l2 ++ .fanout .rollback .rollback t ⟨p, c, 0⟩ reqs :: l3, ?_, ?_⟩
      · rw [h3]; simp [State.emit, h2, h1]
      · intro hm
        simp only [List.mem_append, List.mem_cons, hl2, false_or] at hm
        rcases hm with hm | hm
        · cases hm
        · exact hne (h3r g hm).symm
  · rw [he]
    refine ⟨l2 ++ [.fanout .rollback .rollback t ⟨p, c, 0⟩ reqs], by simp [fireAll, State.emit, h2, h1], by simp [hl2]⟩

/-- the loop of rollbacks at the exit of a process: each transaction at most once -/
theorem exitLoop_D (ts : List Trid) (hnd : (ts.map (fun t => t.xid.g)).Nodup) {s : State} (h : D g tr0 b s)
    (hb : ¬ b) (hl : ∀ t ∈ ts, t.xid.g = g → ∃ l, s.tr = tr0 ++ l ∧ Obs.removed g ∉ l) :
    D g tr0 b (ts.foldl (fun s t => if s.halted then s else rollbackRequest s s.self 0 t []) s) := by
  induction ts generalizing s with
  | nil => exact h
  | cons t ts ih =>
    rw [List.foldl_cons]
    simp only [List.map_cons, List.nodup_cons] at hnd
    by_cases hh : s.halted
    · rw [if_pos hh]
      exact ih hnd.2 h (fun x hx => hl x (by simp [hx]))
    · rw [if_neg hh]
      by_cases hg : t.xid.g = g
      · obtain ⟨l, h1, h2⟩ := hl t (by simp) hg
        refine ih hnd.2 ?_ ?_
        · apply (closed_D g tr0 b).rollbackRequest'
          refine ⟨(h.1.ensure t).modify (.involvePurge t [] rfl), l, ?_, ?_⟩
          · rw [← h1]
            show (s.ensure t).tr = s.tr
            unfold State.ensure; split <;> rfl
          · rintro (hb' | hm)
            · exact absurd hb' hb
            · exact absurd hm h2
        · intro x hx hxg
          exact absurd (List.mem_map.mpr ⟨x, hx, hxg.trans hg.symm⟩) hnd.1
      · refine ih hnd.2 ((closed_D g tr0 b).rollbackRequest h _ _ _ _ hg) ?_
        intro x hx hxg
        obtain ⟨l, h1, h2⟩ := hl x (by simp [hx]) hxg
        obtain ⟨l', h1', h2'⟩ := rollbackRequest_removed (g := g) s s.self 0 t [] hg
        exact ⟨l ++ l', by rw [h1', h1]; simp, by simp [h2, h2']⟩

theorem owned_trids {txs : List Tx} (h : TInv txs) (pid : Nat) :
    ((txs.filterMap (fun t => t.ownedBy pid)).map (fun t => t.xid.g)).Nodup ∧
    ∀ x ∈ txs.filterMap (fun t => t.ownedBy pid), ∃ t ∈ txs, t.g = x.xid.g := by
  have key : ∀ t ∈ txs, ∀ x, t.ownedBy pid = some x → x.xid.g = t.g := by
    intro t ht x hx
    unfold Tx.ownedBy at hx
    split at hx
    · cases hx
    · rename_i br hb
      split at hx
      · cases hx
        exact (h.good t ht).g br (List.mem_of_getLast? hb)
      · cases hx
  refine ⟨?_, ?_⟩
  · have hs : ((txs.filterMap (fun t => t.ownedBy pid)).map (fun t => t.xid.g)).Sublist (txs.map (·.g)) := by
      have hu := h.uniq
      clear h hu
      induction txs with
      | nil => simp
      | cons a txs ih =>
        have ih := ih (fun t ht => key t (by simp [ht]))
        cases ho : a.ownedBy pid with
        | none => simp only [List.filterMap_cons, ho, List.map_cons]; exact ih.cons _
        | some x =>
          simp only [List.filterMap_cons, ho, List.map_cons]
          rw [key a (by simp) x ho]
          exact ih.cons_cons _
    exact h.uniq.sublist hs
  · intro x hx
    obtain ⟨t, ht, ho⟩ := List.mem_filterMap.mp hx
    exact ⟨t, ht, (key t ht x ho).symm⟩

theorem exit_D {s : State} (hJ : J s) (pid : Nat) (h : D g tr0 b s) (hb : b → NoG g s) :
    D g tr0 b (exitHandler s pid) := by
  by_cases hbb : b
  · have hN := hb hbb
    have C := closed_D g tr0 b
    refine C.exitHandler ?_ h hJ pid ?_
    · intro s' h' t ht br hbr
      rw [(h'.1.good t ht).g br hbr]
      obtain ⟨-, l, -, h2⟩ := h'
      exact (h2 (.inl hbb)).1 t ht
    · intro ps _
      exact h.same [] (by simp) (by simp) rfl rfl
  · have C := closed_D g tr0 b
    unfold exitHandler
    split
    · exact h.same [] (by simp) (by simp) rfl rfl
    · dsimp only
      have h1 := (Closed.foldl (P := fun s => D g tr0 b s ∧ J s) (f := fun (s : State) (e : Ext) => s.failedRm e.id)
        (s.externals.filter (fun e => decide (e.proc.pid = pid)))
        (fun s e _ hs => ⟨Closed.failedRm C hs.1 hs.2 e.id, (failedRm_ok hs.2 e.id).1⟩) ⟨h, hJ⟩).1
      generalize hs1 : (s.externals.filter (fun e => decide (e.proc.pid = pid))).foldl
        (fun s e => if s.halted then s else s.failedRm e.id) s = s1 at h1
      have h2 := C.ext s1 (s1.externals.filter (fun e => decide (e.proc.pid ≠ pid))) s1.nextExt h1
      obtain ⟨o1, o2⟩ := owned_trids h1.1 pid
      refine exitLoop_D _ o1 h2 hbb ?_
      intro t ht hg
      obtain ⟨tx, htx, htg⟩ := o2 t ht
      obtain ⟨-, l, h3, h4⟩ := h1
      refine ⟨l, h3, fun hm => ?_⟩
      exact (h4 (.inr hm)).1 tx htx (htg.trans hg)

/-- one step: if nothing of `g` was held and the event does not create it, or if `g` is removed in this step,
nothing of it is held afterwards -/
theorem clean_step {s : State} (hJ : J s) (hT : TInv s.txs) (e : Event) (he : e ≠ .crash) (b : Prop)
    (hb : b → NoG g s ∧ g ∉ e.creates) : D g s.tr b (step s e) := by
  have C := closed_D g s.tr b
  have h0 : D g s.tr b (s.emit (.ev e)) := by
    refine ⟨hT, [.ev e], rfl, ?_⟩
    rintro (h | h)
    · exact (hb h).1
    · simp at h
  have hs : D g s.tr b s := ⟨hT, [], by simp, by rintro (h | h); exact (hb h).1; simp at h⟩
  have exit : ∀ pid, e = .exit pid → D g s.tr b (TM.exitHandler (s.emit (.ev e)) pid) := by
    rintro pid rfl
    exact exit_D (hJ.emit (o := .ev _) trivial (by simp)).1 pid h0 (fun h => (hb h).1)
  have env : e.isEnv → D g s.tr b (TM.handle (s.emit (.ev e)) e) := by
    intro he
    obtain ⟨l, hf⟩ := env_freed (s.emit (.ev e)) e he
    exact h0.freed hf
  have base : (∀ x ∈ e.creates, x ≠ g) → D g s.tr b (step s e) := fun hg =>
    C.step hs hJ e (fun _ => h0) hg env exit (fun h => absurd h he)
  by_cases hg : g ∈ e.creates
  · have hnb : ¬ b := fun h => (hb h).2 hg
    -- creation comes first: nothing is removed before
    have start : ∀ t i, t.xid.g = g → D g s.tr b ((s.emit (.ev e)).involvePurge t i) := by
      intro t i ht
      refine ⟨(TInv.ensure (s := s.emit (.ev e)) hT t).modify (.involvePurge t i rfl), [.ev e], ?_, ?_⟩
      · show ((s.emit (.ev e)).ensure t).tr = _
        unfold State.ensure; split <;> rfl
      · rintro (h | h)
        · exact absurd h hnb
        · simp at h
    have only : ∀ s', TInv s'.txs → s'.tr = s.tr ++ [.ev e] → D g s.tr b s' := by
      intro s' h1 h2
      refine ⟨h1, [.ev e], h2, ?_⟩
      rintro (h | h)
      · exact absurd h hnb
      · simp at h
    have hT' : TInv (s.emit (.ev e)).txs := hT
    cases e with
    | commit p c t i =>
      show D g s.tr b (if s.halted then s else _)
      split
      · exact hs
      · exact C.commitRequest' p c t i (start t i (List.mem_singleton.mp hg).symm)
    | rollback p c t i =>
      show D g s.tr b (if s.halted then s else _)
      split
      · exact hs
      · exact C.rollbackRequest' p c t i (start t i (List.mem_singleton.mp hg).symm)
    | involved p t i r =>
      show D g s.tr b (if s.halted then s else _)
      split
      · exact hs
      · refine only _ ((TInv.ensure hT' t).modify (.involve t _ rfl)) ?_
        show ((s.emit _).ensure t).tr = _
        unfold State.ensure; split <;> rfl
    | extInvolved p t =>
      show D g s.tr b (if s.halted then s else _)
      split
      · exact hs
      · dsimp only [handle]
        refine only _ ?_ ?_
        · refine TInv.modify (TInv.ensure ?_ t) (.involve t _ rfl)
          unfold State.extId; split <;> exact hT'
        · show (State.ensure _ t).tr = _
          unfold State.ensure State.extId
          split <;> split <;> rfl
    | inboundBranch p g' b' o =>
      show D g s.tr b (if s.halted then s else _)
      split
      · exact hs
      · refine only _ (TInv.ensure hT' _) ?_
        show ((s.emit _).ensure _).tr = _
        unfold State.ensure; split <;> rfl
    | _ => cases hg
  · exact base (fun x hx => by rintro rfl; exact hg hx)

/-- a step that is taken is recorded first -/
theorem step_tr (s : State) (hJ : J s) (e : Event) (he : e ≠ .crash) (hh : ¬ s.halted) :
    ∃ l, (step s e).tr = s.tr ++ .ev e :: l := by
  have C := closed_rising (s.emit (.ev e))
  have h0 := Rising.refl (s.emit (.ev e))
  have : Rising (s.emit (.ev e)) (handle (s.emit (.ev e)) e) := by
    refine C.handle h0 (hJ.emit (o := .ev e) trivial (by simpa using he)).1 e he (fun _ _ => trivial) ?_ ?_
    · intro he
      obtain ⟨l, hf⟩ := env_freed (s.emit (.ev e)) e he
      exact h0.freed hf
    · rintro pid rfl
      exact C.exitHandler (fun _ _ _ _ _ _ => trivial) h0 (hJ.emit (o := .ev _) trivial (by simp)).1 pid (fun ps _ => h0.same [] (by simp) rfl)
  obtain ⟨l, hl, -⟩ := this
  have hs : step s e = handle (s.emit (.ev e)) e := by
    cases e <;> first | exact absurd rfl he | (show (if s.halted then s else _) = _; rw [if_neg hh])
  exact ⟨l, by rw [hs, hl]; simp [State.emit]⟩

/-- the whole run: after the removal of `g`, until an event that creates it anew (or a crash), nothing of it
is held -/
theorem clean_run (self : Proc) (es : List Event) (g : Nat) :
    ∀ pre post, (run (init self) es).tr = pre ++ .removed g :: post →
      (∀ e, Obs.ev e ∈ post → e ≠ .crash ∧ g ∉ e.creates) → NoG g (run (init self) es) := by
  induction es using snocInd with
  | nil =>
    intro pre post h
    simp [run, init] at h
  | snoc es e ih =>
    intro pre post h hpost
    have hrun : run (init self) (es ++ [e]) = step (run (init self) es) e := by simp [run]
    rw [hrun] at h ⊢
    generalize hs : run (init self) es = s at ih h ⊢
    have hT : TInv s.txs := by rw [← hs]; exact reach_TInv self es
    have hJ : J s := by rw [← hs]; exact reach_J self es
    by_cases hc : e = .crash
    · subst hc
      have h' : s.tr ++ [.ev .crash] = pre ++ .removed g :: post := h
      have : Obs.ev .crash ∈ post := by
        rw [List.append_eq_append_iff] at h'
        rcases h' with ⟨as, -, h2⟩ | ⟨bs, h1, h2⟩
        · cases as with
          | nil => simp at h2
          | cons a as => simp at h2
        · cases bs with
          | nil => simp at h2
          | cons b bs => simp at h2; rw [h2.2]; simp
      exact absurd rfl (hpost _ this).1
    · -- where is the removal?
      obtain ⟨-, l, hl, -⟩ := clean_step (g := g) hJ hT e hc False (by simp)
      rw [hl] at h
      rw [List.append_eq_append_iff] at h
      rcases h with ⟨as, h1, h2⟩ | ⟨bs, h1, h2⟩
      · obtain ⟨-, l', hl', hN⟩ := clean_step (g := g) hJ hT e hc False (by simp)
        have : l' = l := by rw [hl] at hl'; exact (List.append_cancel_left hl').symm
        subst this
        exact hN (.inr (by rw [h2]; simp))
      · cases bs with
        | nil =>
          obtain ⟨-, l', hl', hN⟩ := clean_step (g := g) hJ hT e hc False (by simp)
          have : l' = l := by rw [hl] at hl'; exact (List.append_cancel_left hl').symm
          subst this
          exact hN (.inr (by simp at h2; rw [← h2]; simp))
        | cons x bs =>
          simp only [List.cons_append, List.cons.injEq] at h2
          obtain ⟨rfl, h2⟩ := h2
          have hNs : NoG g s := ih pre bs h1 (fun e' he' => hpost e' (by rw [h2]; simp [he']))
          by_cases hh : s.halted
          · have : step s e = s := by
              cases e <;> first | exact absurd rfl hc | (show (if s.halted then s else _) = s; rw [if_pos hh])
            rw [this]; exact hNs
          · have hev : Obs.ev e ∈ l := by
              obtain ⟨l', hl'⟩ := step_tr s hJ e hc hh
              rw [hl] at hl'
              rw [List.append_cancel_left hl']
              simp
            obtain ⟨-, l', hl', hN⟩ := clean_step (g := g) hJ hT e hc True
              (fun _ => ⟨hNs, (hpost e (by rw [h2]; simp [hev])).2⟩)
            exact hN (.inl trivial)

end Casual.TM

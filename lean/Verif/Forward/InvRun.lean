import Verif.Forward.InvStep
/-! The invariants hold in every history. -/
namespace Casual.Forward

theorem inv_assign {s : State} {c name q p r} {l : Look} {f : Fwd} (h : Inv s) (hlog : .queueAt c name q p r ∈ s.log)
    (hl : s.lookups.find? (·.corr == c) = some l) (hf : f ∈ s.fwds) (he : f.id = l.id) :
    Inv (({ s with lookups := s.lookups.eraseP (·.corr == c) } : State).set l.id fun _ => assign name q p r f) := by
  have hs : (s.lookups.eraseP (·.corr == c)).Sublist s.lookups := List.eraseP_sublist
  have h' : Inv { s with lookups := s.lookups.eraseP (·.corr == c) } :=
    ⟨h.alive, h.down, h.F, h.W, h.R,
     ⟨List.Nodup.sublist (hs.map _) h.L.nodup, fun l hl => h.L.lt l (hs.subset hl), fun l hl => h.L.ex l (hs.subset hl)⟩⟩
  have hn := ids_nodup h.F.ids
  have hsame : ∀ g ∈ s.fwds, g.id = l.id → g = f := fun g hg e => eq_of_nodup_map hn hg hf (e.trans he.symm)
  have hma : ∀ x, Match f x → Match (assign name q p r f) x := by
    intro x ⟨m1, m2, m3, m4, m5, m6⟩
    refine ⟨m1, m2, ?_, ?_, m5, m6⟩
    · show (if _ then _ else _ : Source).name = _
      split
      · exact m3
      · exact m3
    · rw [← m4]
      show (f.dest.map _).map _ = _
      cases f.dest with
      | none => rfl
      | some d =>
        simp only [Option.map_some, Option.some.injEq]
        split <;> rfl
  have hto : Told f.source s.log → Told (assign name q p r f).source s.log := by
    intro ht
    show Told (if f.source.name = name ∧ r = false then _ else _ : Source) s.log
    split
    · next e => exact fun _ => ⟨c, by show Obs.queueAt c f.source.name q p false ∈ s.log; rw [e.1, ← e.2]; exact hlog⟩
    · exact ht
  refine ⟨h.alive, h.down, ?_, h.W, ?_, ?_⟩
  · exact set_F h'.F fun g hg e => by
      rw [hsame g hg e]; exact ⟨rfl, hma, rfl, hto⟩
  · exact set_R h'.R fun g hg e => by
      rw [hsame g hg e]; exact ⟨rfl, rfl, rfl, rfl, rfl⟩
  · exact set_L h'.L fun g hg e => by
      rw [hsame g hg e]; rfl

theorem inv_queueAt {s : State} {c name q p r} (h : Inv s) : Inv (queueAt c name q p r (emit (.queueAt c name q p r) s)) := by
  have h := inv_emit (o := .queueAt c name q p r) h rfl rfl
  have hlog : .queueAt c name q p r ∈ (emit (.queueAt c name q p r) s).log := List.mem_cons_self ..
  generalize emit (.queueAt c name q p r) s = s at h hlog
  unfold queueAt
  cases hl : s.lookups.find? (·.corr == c) with
  | none => exact h
  | some l =>
    dsimp only
    have hs : (s.lookups.eraseP (·.corr == c)).Sublist s.lookups := List.eraseP_sublist
    have hlm := List.mem_of_find?_eq_some hl
    split
    · exact ⟨h.alive, h.down, h.F, h.W, h.R,
       ⟨List.Nodup.sublist (hs.map _) h.L.nodup, fun l hl => h.L.lt l (hs.subset hl), fun l hl => h.L.ex l (hs.subset hl)⟩⟩
    · have hn := ids_nodup h.F.ids
      obtain ⟨f, hf, he⟩ := h.L.ex l hlm
      have hg : ({ s with lookups := s.lookups.eraseP (·.corr == c) } : State).get l.id = some f := by
        rw [← he]; exact get_of_mem (s := { s with lookups := s.lookups.eraseP (·.corr == c) }) hn hf
      rw [hg]
      dsimp only
      have hset := inv_assign h hlog hl hf he
      split
      · refine inv_start hset ⟨assign name q p r f, ?_, rfl⟩
        simp only [State.set, List.mem_map]
        exact ⟨f, hf, by rw [if_pos he]⟩
      · exact hset

theorem inv_queueDropped {s : State} {c r} (h : Inv s) : Inv (queueDropped c r (emit (.queueDropped c r) s)) := by
  have h := inv_emit (o := .queueDropped c r) h rfl rfl
  generalize emit (.queueDropped c r) s = s at h
  unfold queueDropped
  split
  · exact h
  · have hs : (s.lookups.eraseP (·.corr == c)).Sublist s.lookups := List.eraseP_sublist
    exact ⟨h.alive, h.down, h.F, h.W, h.R,
       ⟨List.Nodup.sublist (hs.map _) h.L.nodup, fun l hl => h.L.lt l (hs.subset hl), fun l hl => h.L.ex l (hs.subset hl)⟩⟩

theorem stage_dequeue {x : Flow} (h : (x.stage == Stage.dequeue) = true) : phaseOf x = .asked x.id x.trid := by
  unfold phaseOf; rw [beq_iff_eq.mp h]

theorem svc_none {f : Fwd} {x : Conf} (h : Match f x) (hs : f.service = none) : ∃ n, x.target = .queue n ∧ ∃ d, f.dest = some d ∧ d.name = n := by
  obtain ⟨_, h2, _, h4, _⟩ := h
  rw [hs] at h2
  cases ht : x.target with
  | service v r => rw [ht] at h2; cases h2
  | queue n =>
    refine ⟨n, rfl, ?_⟩
    rw [ht] at h4
    cases hd : f.dest with
    | none => rw [hd] at h4; cases h4
    | some d => rw [hd] at h4; exact ⟨d, rfl, Option.some.inj h4⟩

theorem inv_got {s : State} {c m} (h : Inv s) : Inv (got c m (emit (.got c m) s)) := by
  unfold got
  cases ht : take c (· == .dequeue) (emit (.got c m) s) with
  | none =>
    refine inv_ignored h rfl rfl rfl ht ?_
    intro y hy
    unfold phaseOf
    cases hst : y.stage <;> first | rfl | (rw [hst] at hy; cases hy; done)
  | some r =>
    obtain ⟨x, s'⟩ := r
    dsimp only
    obtain ⟨a, b, hs, hs', hc, hx⟩ := take_some ht
    have hph := stage_dequeue hx
    have hd : s'.down = s.down := by rw [hs']; rfl
    have hfw : s'.fwds = s.fwds := by rw [hs']; rfl
    cases m with
    | none =>
      refine inv_move h rfl rfl ht (by rw [← hc]; rfl) rfl rfl ?_ (by intro e; cases e)
      rw [hph]; simp [hear, say, phaseOf]
    | some m =>
      dsimp only
      by_cases hdn : s.down = true
      · rw [if_pos (hd.trans hdn)]
        refine inv_move h rfl rfl ht (by rw [← hc]; rfl) rfl rfl ?_ (by intro e; cases e)
        rw [hph]; simp [hear, say, phaseOf, ← h.down, hdn]
      · rw [if_neg (by rw [hd]; exact hdn)]
        have hdn' : isDown s.log = false := by rw [← h.down]; simpa using hdn
        obtain ⟨f, hf, he, _⟩ := h.R.ex x (by rw [show s.flows = _ from hs]; exact List.mem_append_right _ (List.mem_cons_self ..))
        have hg : s'.get x.id = some f := by
          rw [← he]; exact get_of_mem (by rw [hfw]; exact ids_nodup h.F.ids) (by rw [hfw]; exact hf)
        rw [hg]
        dsimp only
        obtain ⟨y, hy, hm⟩ := h.F.conf f hf
        cases hsv : f.service with
        | some v =>
          dsimp only
          refine inv_move h rfl rfl ht (by rw [← hc]; rfl) rfl rfl ?_ (fun _ => ⟨f, hf, he, by rw [hsv]; rfl⟩)
          have hv : y.target.svc = some v := by rw [← hm.2.1]; exact hsv
          rw [hph]
          simp [hear, hdn', say, phaseOf, confOf, ← he, hy, hv]
        | none =>
          obtain ⟨n, hn, d, hd, hdn2⟩ := svc_none hm hsv
          rw [hd]
          dsimp only
          refine inv_move h rfl rfl ht (by rw [← hc]; rfl) rfl rfl ?_ (by intro e; cases e)
          rw [hph]
          simp [hear, hdn', say, phaseOf, confOf, ← he, hy, hn, hdn2, hm.2.2.2.2.1]

theorem inv_forgetRequest {s : State} {c} (h : Inv s) : Inv (forgetRequest c (emit (.forgetRequest c) s)) := by
  unfold forgetRequest
  cases ht : take c (· == .dequeue) (emit (.forgetRequest c) s) with
  | none =>
    refine inv_ignored h rfl rfl rfl ht ?_
    intro y hy
    unfold phaseOf
    cases hst : y.stage <;> first | rfl | (rw [hst] at hy; cases hy; done)
  | some r =>
    obtain ⟨x, s'⟩ := r
    obtain ⟨a, b, hs, hs', hc, hx⟩ := take_some ht
    exact (inv_finish (g := id) h rfl rfl ht (by rw [stage_dequeue hx]; rfl)
      (fun f => ⟨rfl, rfl, rfl, rfl, rfl, rfl, rfl, rfl, fun _ => rfl⟩) (fun _ => rfl) rfl
          (fun f => by simp [isCommitted, Nat.add_comm]) (fun f => by simp [isRolledBack, Nat.add_comm])).1

theorem inv_forgotten {s : State} {c d} (h : Inv s) : Inv (forgotten c d (emit (.forgotten c d) s)) := by
  unfold forgotten
  split
  · next hd =>
    subst hd
    cases ht : take c (· == .dequeue) (emit (.forgotten c true) s) with
    | none =>
      refine inv_ignored h rfl rfl rfl ht ?_
      intro y hy
      unfold phaseOf
      cases hst : y.stage <;> first | rfl | (rw [hst] at hy; cases hy; done)
    | some r =>
      obtain ⟨x, s'⟩ := r
      obtain ⟨a, b, hs, hs', hc, hx⟩ := take_some ht
      obtain ⟨h1, h2⟩ := inv_finish (g := id) h rfl rfl ht (by rw [stage_dequeue hx]; rfl)
        (fun f => ⟨rfl, rfl, rfl, rfl, rfl, rfl, rfl, rfl, fun _ => rfl⟩) (fun _ => rfl) rfl
          (fun f => by simp [isCommitted, Nat.add_comm]) (fun f => by simp [isRolledBack, Nat.add_comm])
      exact inv_next h1 h2
  · next hd =>
    have : d = false := by simpa using hd
    subst this
    refine ⟨h.alive, ?_, h.F.plain rfl, ?_, h.R.still (still_heard rfl (by cases walk c s.log <;> rfl)), h.L⟩
    · show s.down = _; rw [emit, isDown_plain rfl]; exact h.down
    · apply W_ignore h.W _ rfl
      intro c' hc'
      simp only [walk, hc', if_true]
      cases walk c' s.log <;> rfl

theorem inv_found {s : State} {c p} (h : Inv s) : Inv (found c p (emit (.found c p) s)) := by
  unfold found
  cases ht : take c isLookup (emit (.found c p) s) with
  | none =>
    refine inv_ignored h rfl rfl rfl ht ?_
    intro y hy
    unfold phaseOf
    cases hst : y.stage <;> first | rfl | (rw [hst] at hy; cases hy; done)
  | some r =>
    obtain ⟨x, s'⟩ := r
    dsimp only
    obtain ⟨a, b, hs, hs', hc, hx⟩ := take_some ht
    obtain ⟨f, hf, he, hsv⟩ := h.R.ex x (by rw [show s.flows = _ from hs]; exact List.mem_append_right _ (List.mem_cons_self ..))
    cases hst : x.stage with
    | lookup m =>
      have hph : phaseOf x = .looking x.id x.trid m := by unfold phaseOf; rw [hst]
      have hsv := hsv (by rw [hst]; rfl)
      cases p with
      | some p =>
        refine inv_move h rfl rfl ht (by rw [← hc]; rfl) rfl rfl ?_ (fun _ => ⟨f, hf, he, hsv⟩)
        rw [hph]; simp [hear, say, phaseOf]
      | none =>
        refine inv_move h rfl rfl ht (by rw [← hc]; rfl) rfl rfl ?_ (by intro e; cases e)
        rw [hph]; simp [hear, say, phaseOf]
    | _ => rw [hst] at hx; cases hx

theorem inv_dropped {s : State} {c} (h : Inv s) : Inv (dropped c (emit (.dropped c) s)) := by
  unfold dropped
  cases ht : take c (· == .discard) (emit (.dropped c) s) with
  | none =>
    refine inv_ignored h rfl rfl rfl ht ?_
    intro y hy
    unfold phaseOf
    cases hst : y.stage <;> first | rfl | (rw [hst] at hy; cases hy; done)
  | some r =>
    obtain ⟨x, s'⟩ := r
    dsimp only
    obtain ⟨a, b, hs, hs', hc, hx⟩ := take_some ht
    have hph : phaseOf x = .dropping x.id x.trid := by unfold phaseOf; rw [beq_iff_eq.mp hx]
    refine inv_move h rfl rfl ht (by rw [← hc]; rfl) rfl rfl ?_ (by intro e; cases e)
    rw [hph]; simp [hear, say, phaseOf]

theorem inv_replied {s : State} {c ok m} (h : Inv s) : Inv (replied c ok m (emit (.replied c ok m) s)) := by
  unfold replied
  cases ht : take c isCall (emit (.replied c ok m) s) with
  | none =>
    refine inv_ignored h rfl rfl rfl ht ?_
    intro y hy
    unfold phaseOf
    cases hst : y.stage <;> first | rfl | (rw [hst] at hy; cases hy; done)
  | some r =>
    obtain ⟨x, s'⟩ := r
    dsimp only
    obtain ⟨a, b, hs, hs', hc, hx⟩ := take_some ht
    obtain ⟨f, hf, he, hsv⟩ := h.R.ex x (by rw [show s.flows = _ from hs]; exact List.mem_append_right _ (List.mem_cons_self ..))
    have hfw : s'.fwds = s.fwds := by rw [hs']; rfl
    have hg : s'.get x.id = some f := by
      rw [← he]; exact get_of_mem (by rw [hfw]; exact ids_nodup h.F.ids) (by rw [hfw]; exact hf)
    rw [hg]
    dsimp only
    obtain ⟨y, hy, hm⟩ := h.F.conf f hf
    cases hst : x.stage with
    | call p =>
      have hph : phaseOf x = .calling x.id x.trid := by unfold phaseOf; rw [hst]
      have hsv := hsv (by rw [hst]; rfl)
      have hyv : y.target.svc.isSome = true := by rw [← hm.2.1]; exact hsv
      cases ok with
      | true =>
        rw [if_pos rfl]
        cases hd : f.dest with
        | none =>
          have hyd : y.target.dest = none := by rw [← hm.2.2.2.1, hd]; rfl
          refine inv_move h rfl rfl ht (by rw [← hc]; rfl) rfl rfl ?_ (by intro e; cases e)
          rw [hph]
          simp [hear, say, phaseOf, confOf, ← he, hy, hyv, hyd]
        | some d =>
          have hyd : y.target.dest = some d.name := by rw [← hm.2.2.2.1, hd]; rfl
          refine inv_move h rfl rfl ht (by rw [← hc]; rfl) rfl rfl ?_ (by intro e; cases e)
          rw [hph]
          simp [hear, say, phaseOf, confOf, ← he, hy, hyv, hyd, hm.2.2.2.2.1]
      | false =>
        rw [if_neg (by simp)]
        refine inv_move h rfl rfl ht (by rw [← hc]; rfl) rfl rfl ?_ (by intro e; cases e)
        rw [hph]; simp [hear, say, phaseOf]
    | _ => rw [hst] at hx; cases hx

theorem kept_invalidate : Kept Fwd.invalidate := by
  intro f
  refine ⟨rfl, rfl, rfl, rfl, ?_, rfl, rfl, rfl, fun h => by simp [Fwd.invalidate, Source.invalidate, Source.ok] at h⟩
  show (f.dest.map _).map _ = _
  cases f.dest <;> rfl

theorem inv_acked {s : State} {c ok} (h : Inv s) : Inv (acked c ok (emit (.acked c ok) s)) := by
  unfold acked
  cases ht : take c (· == .enqueue) (emit (.acked c ok) s) with
  | none =>
    refine inv_ignored h rfl rfl rfl ht ?_
    intro y hy
    unfold phaseOf
    cases hst : y.stage <;> first | rfl | (rw [hst] at hy; cases hy; done)
  | some r =>
    obtain ⟨x, s'⟩ := r
    dsimp only
    obtain ⟨a, b, hs, hs', hc, hx⟩ := take_some ht
    have hph : phaseOf x = .storing x.id x.trid := by unfold phaseOf; rw [beq_iff_eq.mp hx]
    cases ok with
    | true =>
      rw [if_pos rfl]
      refine inv_move h rfl rfl ht (by rw [← hc]; rfl) rfl rfl ?_ (by intro e; cases e)
      rw [hph]; simp [hear, say, phaseOf]
    | false =>
      rw [if_neg (by simp)]
      obtain ⟨f, hf, he, _⟩ := h.R.ex x (by rw [show s.flows = _ from hs]; exact List.mem_append_right _ (List.mem_cons_self ..))
      have hfw : s'.fwds = s.fwds := by rw [hs']; rfl
      have hg : s'.get x.id = some f := by
        rw [← he]; exact get_of_mem (by rw [hfw]; exact ids_nodup h.F.ids) (by rw [hfw]; exact hf)
      rw [hg]
      dsimp only
      show Inv ((rollback x s').set x.id Fwd.invalidate)
      refine inv_set ?_ kept_invalidate (fun _ => ⟨rfl, rfl, rfl⟩)
      refine inv_move h rfl rfl ht (by rw [← hc]; rfl) rfl rfl ?_ (by intro e; cases e)
      rw [hph]; simp [hear, say, phaseOf]

theorem inv_rolledBack {s : State} {c ok} (h : Inv s) : Inv (rolledBack c (emit (.rolledBack c ok) s)) := by
  unfold rolledBack
  cases ht : take c (· == .rollback) (emit (.rolledBack c ok) s) with
  | none =>
    refine inv_ignored h rfl rfl rfl ht ?_
    intro y hy
    unfold phaseOf
    cases hst : y.stage <;> first | rfl | (rw [hst] at hy; cases hy; done)
  | some r =>
    obtain ⟨x, s'⟩ := r
    obtain ⟨a, b, hs, hs', hc, hx⟩ := take_some ht
    have hph : phaseOf x = .rolling x.id x.trid := by unfold phaseOf; rw [beq_iff_eq.mp hx]
    obtain ⟨h1, h2⟩ := inv_finish (g := fun f => { f with rollbacks := f.rollbacks + 1 }) h rfl rfl ht (by rw [hph]; rfl)
      (fun f => ⟨rfl, rfl, rfl, rfl, rfl, rfl, rfl, rfl, fun _ => rfl⟩) (fun _ => rfl) rfl
          (fun f => by simp [isCommitted, Nat.add_comm]) (fun f => by simp [isRolledBack, Nat.add_comm])
    exact inv_next h1 h2

theorem inv_committed {s : State} {c e} (h : Inv s) : Inv (committed c e (emit (.committed c e) s)) := by
  unfold committed
  split
  · next he =>
    subst he
    refine ⟨h.alive, ?_, h.F.plain rfl, ?_, h.R.still (still_heard rfl (by cases walk c s.log <;> rfl)), h.L⟩
    · show s.down = _; rw [emit, isDown_plain rfl]; exact h.down
    · apply W_ignore h.W _ rfl
      intro c' hc'
      simp only [walk, hc', if_true]
      cases walk c' s.log <;> rfl
  · next he =>
    cases ht : take c (· == .commit) (emit (.committed c e) s) with
    | none =>
      refine inv_ignored h rfl rfl rfl ht ?_
      intro y hy
      unfold phaseOf
      cases hst : y.stage <;> first | rfl | (rw [hst] at hy; cases hy; done)
    | some r =>
      obtain ⟨x, s'⟩ := r
      obtain ⟨a, b, hs, hs', hc, hx⟩ := take_some ht
      have hph : phaseOf x = .committing x.id x.trid := by unfold phaseOf; rw [beq_iff_eq.mp hx]
      obtain ⟨h1, h2⟩ := inv_finish (g := fun f => { f with commits := f.commits + 1 }) h rfl rfl ht
        (by rw [hph]; cases e <;> first | rfl | exact absurd rfl he)
        (fun f => ⟨rfl, rfl, rfl, rfl, rfl, rfl, rfl, rfl, fun _ => rfl⟩) (fun _ => rfl) rfl
          (fun f => by simp [isCommitted, Nat.add_comm]) (fun f => by simp [isRolledBack, Nat.add_comm])
      exact inv_next h1 h2

theorem inv_undelivered {s : State} {c} (h : Inv s) : Inv (undelivered c s) := by
  unfold undelivered
  cases ht : take c (· == .dequeue) s with
  | some r =>
    obtain ⟨x, s'⟩ := r
    dsimp only
    obtain ⟨a, b, hs, rfl, rfl, hx⟩ := take_some ht
    have hW := h.W
    have hR := h.R
    rw [hs] at hW hR
    refine ⟨h.alive, ?_, h.F.plain rfl, ?_, ?_, h.L⟩
    · show s.down = isDown (_ :: s.log)
      rw [isDown_plain rfl]; exact h.down
    · refine W_drop hW ?_ ?_
      · intro d hd
        exact walk_skip (by simp only [heard]; intro e; exact hd (Option.some.inj e).symm) (by simp [said])
      · show walk x.corr (.undelivered x.corr :: s.log) = _
        simp only [walk, heard, if_true]
        rw [hW.here x (List.mem_append_right _ (List.mem_cons_self ..)), stage_dequeue hx]
        rfl
    · have htal := tally_here (o := .undelivered x.corr) h.W (by rw [hs]; exact List.mem_append_right _ (List.mem_cons_self ..)) rfl
        (by rw [stage_dequeue hx]; rfl)
      refine ⟨?_, ?_, ?_, ?_, ?_⟩
      · intro y hy
        apply hR.ex
        rcases List.mem_append.mp hy with hy | hy
        · exact List.mem_append_left _ hy
        · exact List.mem_append_right _ (List.mem_cons_of_mem _ hy)
      · intro f hf
        have := hR.run f hf
        show _ = cnt f.id (a ++ b) + lostOf f.id (.undelivered x.corr :: s.log)
        rw [(htal _).1]
        by_cases hc : x.id = f.id
        · rw [cnt_pos hc] at this; rw [if_pos ⟨hc, rfl⟩]; omega
        · rw [cnt_neg hc] at this; rw [if_neg (fun e => hc e.1)]; omega
      · intro f hf
        show _ = commitsOf f.id (.undelivered x.corr :: s.log)
        rw [(htal _).2.1, if_neg (by simp [isCommitted]), hR.com f hf]; omega
      · intro f hf
        show _ = rollbacksOf f.id (.undelivered x.corr :: s.log)
        rw [(htal _).2.2, if_neg (by simp [isRolledBack]), hR.rol f hf]; omega
      · intro j hj
        obtain ⟨f, hf, he, _⟩ := hR.ex x (List.mem_append_right _ (List.mem_cons_self ..))
        have hne : x.id ≠ j := fun e => hj f hf (he.trans e)
        show lostOf j (.undelivered x.corr :: s.log) = 0 ∧ commitsOf j (.undelivered x.corr :: s.log) = 0 ∧ rollbacksOf j (.undelivered x.corr :: s.log) = 0
        obtain ⟨t1, t2, t3⟩ := htal j
        rw [t1, t2, t3, if_neg (fun e => hne e.1), if_neg (fun e => hne e.1), if_neg (fun e => hne e.1)]
        simpa using hR.new j hj
  | none =>
    dsimp only
    cases ht2 : take c (· == .enqueue) s with
    | none => exact h
    | some r =>
      obtain ⟨x, s'⟩ := r
      dsimp only
      cases hg : s.get x.id with
      | none => exact h
      | some f =>
        dsimp only
        split
        · obtain ⟨a, b, hs, hs', hc, hx⟩ := take_some ht2
          have hph : phaseOf x = .storing x.id x.trid := by unfold phaseOf; rw [beq_iff_eq.mp hx]
          refine inv_move h (o := .undelivered c) (c := c) (p := (· == .enqueue)) (s' := emit (.undelivered c) s') rfl rfl ?_
            (by rw [← hc]; rfl) rfl rfl ?_ (by intro e; cases e)
          · rw [take_emit, ht2]; rfl
          · rw [hph]; simp [hear, say, phaseOf]
        · exact h

theorem inv_own {s : State} {xs : List Nat} (h : Inv s) : Inv { s with own := xs } :=
  ⟨h.alive, h.down, h.F, h.W, h.R, h.L⟩

theorem inv_bury {s : State} {p : Nat} {f : Fwd} (h : Inv s) : Inv (bury p f s) := by
  unfold bury
  dsimp only
  split
  · have h1 := inv_emits (g := fun l : Look => .dropQueue l.corr) (fun _ => rfl) (fun _ => rfl)
      (s.lookups.filter (·.id == f.id)) h
    generalize (s.lookups.filter (·.id == f.id)).foldl (fun s l => emit (.dropQueue l.corr) s) s = s1 at h1
    have h2 := inv_emits (g := fun x : Flow => .forget x.corr f.source.process) (fun _ => rfl) (fun _ => rfl)
      (s1.flows.filter fun x => x.id == f.id && x.stage == .dequeue) h1
    generalize (s1.flows.filter fun x => x.id == f.id && x.stage == .dequeue).foldl
      (fun s x => emit (.forget x.corr f.source.process) s) s1 = s2 at h2
    split
    · apply inv_own
      refine inv_set h2 ?_ (fun _ => ⟨rfl, rfl, rfl⟩)
      intro f
      refine ⟨rfl, rfl, rfl, rfl, ?_, rfl, rfl, rfl, fun _ => rfl⟩
      show (f.dest.map _).map _ = _
      cases f.dest <;> rfl
    · exact h2
  · exact h

theorem inv_exited {s : State} {p : Nat} (h : Inv s) : Inv (exited p s) := by
  unfold exited
  generalize queues s ++ services s = fs
  induction fs generalizing s with
  | nil => exact h
  | cons f fs ih => exact ih (inv_bury h)

theorem inv_apply {s : State} (e : Event) (h : Inv s) : Inv (apply e s) := by
  cases e with
  | update xs pref => exact inv_update h
  | shutdown pref => exact inv_shutdown h
  | exited p => exact inv_exited (inv_emit h rfl rfl)
  | queueAt c n q p r => exact inv_queueAt h
  | queueDropped c r => exact inv_queueDropped h
  | got c m => exact inv_got h
  | forgetRequest c => exact inv_forgetRequest h
  | forgotten c d => exact inv_forgotten h
  | found c p => exact inv_found h
  | dropped c => exact inv_dropped h
  | replied c ok m => exact inv_replied h
  | acked c ok => exact inv_acked h
  | own i =>
    simp only [apply]
    cases s.own[i]? with
    | none => exact h
    | some c => exact inv_acked (inv_own h)
  | rolledBack c ok => exact inv_rolledBack h
  | committed c e => exact inv_committed h
  | undelivered c => exact inv_undelivered h

theorem inv_init : Inv {} :=
  ⟨rfl, rfl, ⟨rfl, (by intro f hf; cases hf), (by intro f hf; cases hf), (by intro i x hx; cases hx), (by intro f hf; cases hf)⟩,
   ⟨List.nodup_nil, (by intro f hf; cases hf), (by intro f hf; cases hf), fun _ _ => Or.inl rfl, fun _ _ => rfl⟩,
   ⟨(by intro f hf; cases hf), (by intro f hf; cases hf), (by intro f hf; cases hf), (by intro f hf; cases hf), fun _ _ => ⟨rfl, rfl, rfl⟩⟩,
   ⟨List.nodup_nil, (by intro f hf; cases hf), (by intro f hf; cases hf)⟩⟩

theorem run_snoc (es : List Event) (e : Event) : run (es ++ [e]) = step (run es) e := by
  simp [run, List.foldl_append]

theorem inv_run (es : List Event) : Inv (run es) := by
  induction es using Casual.snocInd with
  | nil => exact inv_init
  | snoc es e ih =>
    rw [run_snoc, step, if_neg (by rw [ih.alive]; simp)]
    exact inv_apply e ih

theorem run_step (es : List Event) (e : Event) : run (es ++ [e]) = apply e (run es) := by
  rw [run_snoc, step, if_neg (by rw [(inv_run es).alive]; simp)]

end Casual.Forward

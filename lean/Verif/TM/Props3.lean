import Verif.TM.Props2
/-!
# Properties of the transaction manager, third part: died owners, and properties that do not hold
-/
namespace Casual.TM
open Casual.Code Casual.FanOut Sample

/-! ## C13: the owner dies -/

/-- nothing changes for transactions other than `g` -/
def Others (g : Nat) (s s' : State) : Prop := ∀ t : Tx, t.g ≠ g → (t ∈ s'.txs ↔ t ∈ s.txs)

theorem Others.refl (g : Nat) (s : State) : Others g s s := fun _ _ => Iff.rfl
theorem Others.trans {g : Nat} {a b c : State} (h : Others g a b) (k : Others g b c) : Others g a c :=
  fun t ht => (k t ht).trans (h t ht)
theorem Others.eq {g : Nat} {a b : State} (h : b.txs = a.txs) : Others g a b := fun t _ => by rw [h]

theorem Others.modify {g : Nat} (s : State) (f : Tx → Tx) (hf : ∀ t, (f t).g = t.g) : Others g s (s.modify g f) := by
  intro t ht
  unfold State.modify
  simp only [List.mem_map]
  constructor
  · rintro ⟨a, ha, he⟩
    split at he
    · rename_i h; subst he; rw [hf] at ht; exact absurd h ht
    · subst he; exact ha
  · intro h; exact ⟨t, h, by rw [if_neg ht]⟩

theorem Others.ensure (s : State) (t : Trid) : Others t.xid.g s (s.ensure t) := by
  intro x hx
  unfold State.ensure
  split
  · exact Iff.rfl
  · simp only [List.mem_append, List.mem_singleton]
    constructor
    · rintro (h | rfl)
      · exact h
      · exact absurd rfl hx
    · exact .inl

theorem Others.remove (g : Nat) (s : State) : Others g s (s.remove g) := by
  intro t ht
  rw [remove_txs]
  simp [ht]

theorem Others.held {g : Nat} {a b : State} (h : Others g a b) {g' : Nat} (hg : g' ≠ g) (x : Xid) (rm : Int) :
    Held b g' x rm ↔ Held a g' x rm := by
  unfold Held
  constructor
  · rintro ⟨t, ht, e, k⟩; exact ⟨t, (h t (by rw [e]; exact hg)).mp ht, e, k⟩
  · rintro ⟨t, ht, e, k⟩; exact ⟨t, (h t (by rw [e]; exact hg)).mpr ht, e, k⟩

theorem remove_halted (s : State) (g : Nat) : (s.remove g).halted = s.halted := by
  unfold State.remove; dsimp only; split <;> rfl

theorem requests_append (a b : List Obs) : requests (a ++ b) = requests a ++ requests b := by
  unfold requests; rw [List.filterMap_append]

theorem rollbackRequest_effect {s : State} (hT : TInv s.txs) (p : Proc) (c : Nat) (trid : Trid) :
    ∃ l, (rollbackRequest s p c trid []).tr = s.tr ++ l ∧
      (∀ k x rm op, (k, x, rm, op) ∈ requests l ↔ k = .rollback ∧ op = false ∧ Held s trid.xid.g x rm) ∧
      Others trid.xid.g s (rollbackRequest s p c trid []) ∧
      TInv (rollbackRequest s p c trid []).txs ∧
      (rollbackRequest s p c trid []).halted = s.halted := by
  have hT' : TInv (rollbackRequest s p c trid []).txs := closed_TInv.rollbackRequest hT _ _ _ _ trivial
  obtain ⟨t, hf, hgood, hpair, -⟩ := involvePurge_find hT trid []
  have htr := involvePurge_tr s trid []
  have ho : Others trid.xid.g s (s.involvePurge trid []) :=
    (Others.ensure s trid).trans (Others.modify _ _ (fun _ => rfl))
  have hh : (s.involvePurge trid []).halted = s.halted := by
    show (s.ensure trid).halted = _
    unfold State.ensure; split <;> rfl
  revert hT'
  unfold rollbackRequest
  dsimp only
  rw [hf]
  dsimp only
  generalize s.involvePurge trid [] = s1 at *
  have ho2 := ho.trans (Others.modify (g := trid.xid.g) s1 (fun t => { t.setStage .rollback with owner := p }) (fun _ => rfl))
  have htr2 : (s1.modify trid.xid.g (fun t => { t.setStage .rollback with owner := p })).tr = s.tr := htr
  have hh2 : (s1.modify trid.xid.g (fun t => { t.setStage .rollback with owner := p })).halted = s.halted := hh
  generalize s1.modify trid.xid.g (fun t => { t.setStage .rollback with owner := p }) = s2 at *
  intro hT'
  have mem : ∀ l, requests l = t.targets.map (fun x => (.rollback, x.1.xid, x.2, false)) →
      ∀ k x rm op, (k, x, rm, op) ∈ requests l ↔ k = .rollback ∧ op = false ∧ Held s trid.xid.g x rm := by
    intro l hl k x rm op
    rw [hl]
    have hx := hpair x rm
    simp only [List.not_mem_nil, and_false, or_false] at hx
    rw [← hx, ← mem_targets]
    simp only [List.mem_map, Prod.mk.injEq]
    constructor
    · rintro ⟨q, hq, rfl, h1, h2, rfl⟩; exact ⟨rfl, rfl, q, hq, h1, h2⟩
    · rintro ⟨rfl, rfl, q, hq, h1, h2⟩; exact ⟨q, hq, rfl, h1, h2, rfl⟩
  suffices H : ∃ l, (s2.startRollback t ⟨.rollback, trid, ⟨p, c, 0⟩, .read_only⟩).tr = s.tr ++ l ∧
      requests l = t.targets.map (fun x => (.rollback, x.1.xid, x.2, false)) ∧
      Others trid.xid.g s2 (s2.startRollback t ⟨.rollback, trid, ⟨p, c, 0⟩, .read_only⟩) ∧
      (s2.startRollback t ⟨.rollback, trid, ⟨p, c, 0⟩, .read_only⟩).halted = s2.halted by
    obtain ⟨l, h1, h2, h3, h4⟩ := H
    exact ⟨l, h1, mem l h2, ho2.trans h3, hT', h4.trans hh2⟩
  clear hT' mem
  obtain ⟨o, h1, h2, h3⟩ := issueAll_tr s2 .rollback false t.targets
  have hq := issueAll_targets s2 .rollback false t.targets
  have hcore := issueAll_core s2 .rollback false t.targets
  unfold State.startRollback State.regRollback
  dsimp only
  generalize (s2.issueAll .rollback false t.targets).1 = s3 at *
  generalize (s2.issueAll .rollback false t.targets).2 = reqs at *
  have ho3 : Others trid.xid.g s2 s3 := Others.eq hcore.txs
  have hh3 : s3.halted = s2.halted := hcore.halted
  have reqsO : requests o = t.targets.map (fun x => (.rollback, x.1.xid, x.2, false)) := by
    rw [requests_eq, h3]; simp [Function.comp_def]
  rcases register_entries s3.rol (toPending reqs) ⟨.rollback, trid, ⟨p, c, 0⟩, .read_only⟩ with ⟨hn, he⟩ | ⟨-, -, he⟩
  · rw [he]
    simp only [fireAll, List.foldl_cons, List.foldl_nil]
    by_cases hhal : s3.halted = true
    · rw [if_pos (by exact hhal)]
      refine ⟨o ++ [.fanout .rollback .rollback trid ⟨p, c, 0⟩ reqs], by simp [State.emit, h1, htr2], ?_, ho3, hh3⟩
      rw [requests_append, reqsO]; simp [requests]
    · rw [if_neg (by exact hhal)]
      have key : ∀ (s4 : State) (f : Fired Rep Int KFinal), f.callback.origin = trid →
          ∃ l, (runRollback s4 f).tr = s4.tr ++ l ∧ requests l = [] ∧ Others trid.xid.g s4 (runRollback s4 f) ∧
            (runRollback s4 f).halted = s4.halted := by
        intro s4 f hfo
        have rem : ∀ o : Obs, requests [o] = [] → ∃ l, ((s4.emit o).remove trid.xid.g).tr = s4.tr ++ l ∧ requests l = [] ∧
            Others trid.xid.g s4 ((s4.emit o).remove trid.xid.g) ∧ ((s4.emit o).remove trid.xid.g).halted = s4.halted := by
          intro o ho
          have h1 : ∃ l, ((s4.emit o).remove trid.xid.g).tr = (s4.emit o).tr ++ l ∧ requests l = [] := by
            unfold State.remove
            dsimp only
            split
            · exact ⟨_, rfl, rfl⟩
            · exact ⟨_, rfl, rfl⟩
          obtain ⟨l, a, b⟩ := h1
          refine ⟨[o] ++ l, by rw [a]; simp [State.emit], by rw [requests_append, ho, b]; rfl, ?_, by rw [remove_halted]; rfl⟩
          exact Others.trans (b := s4.emit o) (Others.eq rfl) (Others.remove _ _)
        unfold runRollback
        dsimp only
        rw [hfo]
        split
        · split
          · exact rem _ rfl
          · exact ⟨[_], rfl, rfl, Others.eq rfl, rfl⟩
        · exact rem _ rfl
      obtain ⟨l, a, b, d, e⟩ := key ({ s3 with rol := s3.rol }.emit (.fanout .rollback .rollback trid ⟨p, c, 0⟩ reqs))
        (newEntry s3.rol.next (toPending reqs) ⟨.rollback, trid, ⟨p, c, 0⟩, .read_only⟩).fire rfl
      refine ⟨o ++ .fanout .rollback .rollback trid ⟨p, c, 0⟩ reqs :: l, ?_, ?_, ?_, ?_⟩
      · rw [a]; simp [State.emit, h1, htr2]
      · rw [requests_append, reqsO]
        unfold requests at b ⊢
        simp [List.filterMap_cons, b]
      · exact (ho3.trans (Others.eq rfl)).trans d
      · rw [e]; exact hh3
  · rw [he]
    refine ⟨o ++ [.fanout .rollback .rollback trid ⟨p, c, 0⟩ reqs], by simp [fireAll, State.emit, h1, htr2], ?_, ho3, hh3⟩
    rw [requests_append, reqsO]; simp [requests]

theorem exitLoop_effect (ts : List Trid) (hnd : (ts.map (fun t => t.xid.g)).Nodup) {s : State} (hT : TInv s.txs)
    (hup : s.halted = false) :
    ∃ l, (ts.foldl (fun s t => if s.halted then s else rollbackRequest s s.self 0 t []) s).tr = s.tr ++ l ∧
      ∀ k x rm op, (k, x, rm, op) ∈ requests l ↔ k = .rollback ∧ op = false ∧ ∃ t ∈ ts, Held s t.xid.g x rm := by
  induction ts generalizing s with
  | nil => exact ⟨[], by simp, by simp [requests]⟩
  | cons t ts ih =>
    rw [List.foldl_cons, if_neg (by simp [hup])]
    simp only [List.map_cons, List.nodup_cons] at hnd
    obtain ⟨l, h1, h2, h3, h4, h5⟩ := rollbackRequest_effect hT s.self 0 t
    obtain ⟨l', h1', h2'⟩ := ih hnd.2 h4 (h5.trans hup)
    refine ⟨l ++ l', by rw [h1', h1]; simp, ?_⟩
    intro k x rm op
    rw [requests_append, List.mem_append, h2, h2']
    have hne : ∀ t' ∈ ts, t'.xid.g ≠ t.xid.g := fun t' ht' e => hnd.1 (List.mem_map.mpr ⟨t', ht', e⟩)
    constructor
    · rintro (⟨a, b, c⟩ | ⟨a, b, t', ht', c⟩)
      · exact ⟨a, b, t, by simp, c⟩
      · exact ⟨a, b, t', by simp [ht'], (h3.held (hne t' ht') x rm).mp c⟩
    · rintro ⟨a, b, t', ht', c⟩
      rcases List.mem_cons.mp ht' with rfl | ht'
      · exact .inl ⟨a, b, c⟩
      · exact .inr ⟨a, b, t', ht', (h3.held (hne t' ht') x rm).mpr c⟩

/-- the transaction is owned by the process: it started the transaction's last branch -/
def OwnedBy (t : Tx) (pid : Nat) : Prop := ∃ b, t.branches.getLast? = some b ∧ b.trid.owner = pid

/-- What the exit of a process does (in any reachable state of a manager that is up, the process not being itself a
resource): rollback is requested of exactly the resources of the transactions it owns, on the branches they take part
in, and nothing else is requested of anybody. -/
theorem died_owner_rolled_back_partial (self : Proc) (es : List Event) (pid : Nat)
    (hup : (run (init self) es).halted = false)
    (hin : ∀ p ∈ (run (init self) es).proxies, ∀ i ∈ p.insts, i.pid ≠ pid)
    (hex : ∀ e ∈ (run (init self) es).externals, e.proc.pid ≠ pid) :
    ∃ l, trace self (es ++ [.exit pid]) = trace self es ++ l ∧
      ∀ k x rm op, (k, x, rm, op) ∈ requests l ↔
        k = .rollback ∧ op = false ∧ ∃ t ∈ (run (init self) es).txs, OwnedBy t pid ∧ HasPair t.branches x rm := by
  have hT := reach_TInv self es
  have hrun : trace self (es ++ [.exit pid]) = (exitHandler ((run (init self) es).emit (.ev (.exit pid))) pid).tr := by
    unfold trace
    rw [show run (init self) (es ++ [.exit pid]) = step (run (init self) es) (.exit pid) by simp [run]]
    show State.tr (if (run (init self) es).halted then _ else _) = _
    rw [hup]
    rfl
  rw [hrun]
  show ∃ l, _ = (run (init self) es).tr ++ _ ∧ _
  generalize run (init self) es = s at *
  have hrem : ∀ ps : List Proxy, (∀ p ∈ ps, ∀ i ∈ p.insts, i.pid ≠ pid) → removeInst pid ps = none := by
    intro ps
    induction ps with
    | nil => intro _; rfl
    | cons p ps ih =>
      intro h
      unfold removeInst
      rw [if_neg, ih (fun q hq => h q (by simp [hq]))]
      · rfl
      · simp only [List.any_eq_true, decide_eq_true_eq, not_exists, not_and]
        exact fun i hi => h p (by simp) i hi
  have hnone : s.externals.filter (fun e => decide (e.proc.pid = pid)) = [] := by
    rw [List.filter_eq_nil_iff]; intro e he; simpa using hex e he
  unfold exitHandler
  rw [hrem (s.emit (.ev (.exit pid))).proxies hin]
  dsimp only
  rw [show (s.emit (.ev (.exit pid))).externals.filter (fun e => decide (e.proc.pid = pid)) = [] from hnone]
  simp only [List.foldl_nil]
  obtain ⟨o1, -⟩ := owned_trids hT pid
  obtain ⟨l, h1, h2⟩ := exitLoop_effect (s.txs.filterMap (fun t => t.ownedBy pid)) o1
    (s := { s.emit (.ev (.exit pid)) with externals := (s.emit (.ev (.exit pid))).externals.filter (fun e => decide (e.proc.pid ≠ pid)) })
    hT hup
  refine ⟨.ev (.exit pid) :: l, ?_, ?_⟩
  · exact h1.trans (by simp [State.emit])
  · intro k x rm op
    have : requests (.ev (.exit pid) :: l) = requests l := rfl
    rw [this, h2]
    have key : (∃ t ∈ s.txs.filterMap (fun t => t.ownedBy pid), Held s t.xid.g x rm) ↔
        ∃ t ∈ s.txs, OwnedBy t pid ∧ HasPair t.branches x rm := by
      constructor
      · rintro ⟨tr, htr, t', ht', hg, hp⟩
        obtain ⟨t, ht, ho⟩ := List.mem_filterMap.mp htr
        have howned : OwnedBy t pid ∧ tr.xid.g = t.g := by
          unfold Tx.ownedBy at ho
          split at ho
          · cases ho
          · rename_i b hb
            split at ho
            · rename_i hpid
              cases ho
              exact ⟨⟨b, hb, hpid⟩, (hT.good t ht).g b (List.mem_of_getLast? hb)⟩
            · cases ho
        have : t' = t := eq_of_nodup_map (f := fun t : Tx => t.g) hT.uniq ht' ht (hg.trans howned.2)
        subst this
        exact ⟨t', ht', howned.1, hp⟩
      · rintro ⟨t, ht, ⟨b, hb, hpid⟩, hp⟩
        refine ⟨b.trid, List.mem_filterMap.mpr ⟨t, ht, ?_⟩, t, ht, ((hT.good t ht).g b (List.mem_of_getLast? hb)).symm, hp⟩
        unfold Tx.ownedBy
        rw [hb]
        exact if_pos hpid
    constructor
    · rintro ⟨a, b, c⟩; exact ⟨a, b, key.mp c⟩
    · rintro ⟨a, b, c⟩; exact ⟨a, b, key.mpr c⟩

namespace Sample
/-- the application does some work with resources 1 and 2, and dies -/
def died : List Event := up ++ [.involved app t9 [1, 2] false, .exit 5]
/-- it dies while its commit is being prepared -/
def diedInPrepare : List Event := up ++ [.commit app 7 t9 [1, 2], .exit 5,
  .reply ⟨.prepare, 1, t9, 1, .ok, 11⟩, .reply ⟨.prepare, 2, t9, 2, .ok, 12⟩]
end Sample

example : (run (init me) (up ++ [.involved app t9 [1, 2] false])).halted = false ∧
    requests (trace me died) = [(.rollback, ⟨9, 1⟩, 1, false), (.rollback, ⟨9, 1⟩, 2, false)] := by decide +kernel

/-- The full claim is false: when the owner dies while its commit is in the prepare phase, the manager requests
rollback and then, when the prepare answers arrive, commit - of the same resources on the same branch. -/
theorem rollback_then_commit_refuted :
    ∃ self es, HonestReplies (trace self es) ∧ ∃ pre mid post q1 q2, trace self es = pre ++ Obs.issued q1 :: (mid ++ Obs.issued q2 :: post) ∧
      q1.kind = .rollback ∧ q2.kind = .commit ∧ q1.trid = q2.trid ∧ q1.rm = q2.rm ∧ Obs.removed q1.trid.xid.g ∉ mid := by
  refine ⟨me, diedInPrepare, honest_of (by decide +kernel), (trace me diedInPrepare).take 11, ((trace me diedInPrepare).drop 12).take 9, (trace me diedInPrepare).drop 22,
    ⟨.rollback, 3, t9, 1, false⟩, ⟨.commit, 5, t9, 1, false⟩, by decide +kernel, rfl, rfl, rfl, rfl, by decide +kernel⟩

end Casual.TM

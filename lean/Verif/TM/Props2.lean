import Verif.TM.Props
/-!
# Properties of the transaction manager, second part: commit requests, balance, stages, wire, clean up, died owners
-/
namespace Casual.TM
open Casual.Code Casual.FanOut Sample

/-! ## C06: one phase exactly for one resource -/

theorem involveBranch_pair {trid : Trid} {l : List Int} {bs : List Branch} (hu : (bs.map (·.trid.xid)).Nodup)
    {x : Xid} {rm : Int} (h : HasPair (involveBranch trid l bs) x rm) :
    HasPair bs x rm ∨ (x = trid.xid ∧ rm ∈ l) := by
  unfold involveBranch at h
  split at h
  · have : ∀ bs : List Branch, HasPair (modBranch trid.xid (fun b => { b with resources := appendUnique l b.resources }) bs) x rm →
        HasPair bs x rm ∨ (x = trid.xid ∧ rm ∈ l) := by
      intro bs
      induction bs with
      | nil => exact fun h => .inl h
      | cons b bs ih =>
        intro h
        unfold modBranch at h
        split at h
        · rename_i hx
          obtain ⟨c, hc, h1, h2⟩ := h
          rcases List.mem_cons.mp hc with rfl | hc
          · rcases mem_appendUnique.mp h2 with h2 | h2
            · exact .inl ⟨b, by simp, h1, h2⟩
            · exact .inr ⟨h1.symm.trans hx, h2⟩
          · exact .inl ⟨c, by simp [hc], h1, h2⟩
        · obtain ⟨c, hc, h1, h2⟩ := h
          rcases List.mem_cons.mp hc with rfl | hc
          · exact .inl ⟨c, by simp, h1, h2⟩
          · rcases ih ⟨c, hc, h1, h2⟩ with ⟨d, hd, h3⟩ | h3
            · exact .inl ⟨d, by simp [hd], h3⟩
            · exact .inr h3
    exact this bs h
  · obtain ⟨b, hb, h1, h2⟩ := h
    rcases List.mem_append.mp hb with hb | hb
    · exact .inl ⟨b, hb, h1, h2⟩
    · simp at hb; subst hb
      refine .inr ⟨h1.symm, ?_⟩
      rcases mem_appendUnique.mp h2 with h | h
      · cases h
      · exact h

theorem involveBranch_new {trid : Trid} {l : List Int} {bs : List Branch} {rm : Int} (h : rm ∈ l) :
    HasPair (involveBranch trid l bs) trid.xid rm := by
  unfold involveBranch
  split
  · rename_i ha
    obtain ⟨b, hb, hx⟩ := List.any_eq_true.mp ha
    revert hb
    induction bs with
    | nil => intro hb; cases hb
    | cons c bs ih =>
      intro hb
      unfold modBranch
      split
      · rename_i hc
        exact ⟨{ c with resources := appendUnique l c.resources }, by simp, hc, mem_appendUnique.mpr (.inr h)⟩
      · rename_i hc
        rcases List.mem_cons.mp hb with rfl | hb
        · simp at hx; exact absurd hx hc
        · obtain ⟨d, hd, h3⟩ := ih (List.any_eq_true.mpr ⟨b, hb, hx⟩) hb
          exact ⟨d, by simp [hd], h3⟩
  · exact ⟨⟨trid, appendUnique l []⟩, by simp, rfl, mem_appendUnique.mpr (.inr h)⟩

theorem mem_targets {t : Tx} {x : Xid} {rm : Int} :
    (x, rm) ∈ t.targets.map (fun p => (p.1.xid, p.2)) ↔ HasPair t.branches x rm := by
  constructor
  · intro h
    obtain ⟨p, hp, he⟩ := List.mem_map.mp h
    cases he
    exact targets_pair hp
  · rintro ⟨b, hb, rfl, hr⟩
    refine List.mem_map.mpr ⟨(b.trid, rm), ?_, rfl⟩
    unfold Tx.targets
    exact List.mem_flatMap.mpr ⟨b, hb, List.mem_map.mpr ⟨rm, hr, rfl⟩⟩

theorem targets_nodup {t : Tx} (h : TxGood t) : (t.targets.map (fun p => (p.1.xid, p.2))).Nodup := by
  obtain ⟨-, hu, hr⟩ := h
  unfold Tx.targets
  revert hu hr
  induction t.branches with
  | nil => intro _ _; simp
  | cons b bs ih =>
    intro hu hr
    rw [List.flatMap_cons, List.map_append, List.nodup_append]
    rw [List.map_cons, List.nodup_cons] at hu
    refine ⟨?_, ih hu.2 (fun c hc => hr c (by simp [hc])), ?_⟩
    · rw [List.map_map]
      have := hr b (by simp)
      exact List.pairwise_map.mpr (this.imp (fun hne he => hne (by simpa using he)))
    · intro p hp q hq he
      subst he
      obtain ⟨p1, h1, rfl⟩ := List.mem_map.mp hp
      obtain ⟨r, -, rfl⟩ := List.mem_map.mp h1
      obtain ⟨q1, h2, he⟩ := List.mem_map.mp hq
      obtain ⟨c, hc, h3⟩ := List.mem_flatMap.mp h2
      obtain ⟨r', -, rfl⟩ := List.mem_map.mp h3
      simp only [Prod.mk.injEq] at he
      exact hu.1 (List.mem_map.mpr ⟨c, hc, he.1⟩)

theorem resourceCount_eq (t : Tx) : t.resourceCount = t.targets.length := by
  unfold Tx.resourceCount Tx.targets
  rw [List.length_flatMap]
  simp

/-- the requests made in these observations: (kind, branch, resource, one-phase) -/
def requests (l : List Obs) : List (Kind × Xid × Int × Bool) :=
  l.filterMap (fun o => match o with | .issued r => some (r.kind, r.trid.xid, r.rm, r.onePhase) | _ => none)

theorem requests_eq (l : List Obs) :
    requests l = ((l.filterMap issued?).map Req.core).map (fun x => (x.1, x.2.1.xid, x.2.2.1, x.2.2.2)) := by
  unfold requests
  rw [List.map_filterMap, List.map_filterMap]
  congr 1
  funext o
  cases o <;> rfl

theorem ensure_tr (s : State) (t : Trid) : (s.ensure t).tr = s.tr := by
  unfold State.ensure; split <;> rfl

theorem involvePurge_tr (s : State) (t : Trid) (i : List Int) : (s.involvePurge t i).tr = s.tr := ensure_tr s t

/-- the transaction after the involved resources of a commit or rollback request have been added -/
theorem involvePurge_find {s : State} (hT : TInv s.txs) (trid : Trid) (inv : List Int) :
    ∃ t, (s.involvePurge trid inv).find trid.xid.g = some t ∧ TxGood t ∧
      (∀ x rm, HasPair t.branches x rm ↔ Held s trid.xid.g x rm ∨ (x = trid.xid ∧ rm ∈ inv)) ∧
      ((∃ t0 ∈ s.txs, t0.g = trid.xid.g ∧ t.stage = t0.stage ∧ t.owner = t0.owner) ∨
        (t.stage = .involved ∧ ∀ t0 ∈ s.txs, t0.g ≠ trid.xid.g)) := by
  have hT2 : TInv (s.involvePurge trid inv).txs := (hT.ensure trid).modify (.involvePurge trid inv rfl)
  obtain ⟨t, ht⟩ := Option.ne_none_iff_exists'.mp (find_involvePurge s trid inv)
  refine ⟨t, ht, hT2.good t (find_mem ht).1, ?_⟩
  obtain ⟨hm, hg⟩ := find_mem ht
  obtain ⟨t1, ht1, he⟩ := List.mem_map.mp (show t ∈ (s.ensure trid).txs.map _ from hm)
  have hg1 : t1.g = trid.xid.g := by
    by_cases h : t1.g = trid.xid.g
    · exact h
    · rw [if_neg h] at he; subst he; exact hg
  rw [if_pos hg1] at he
  subst he
  have hT1 := hT.ensure trid
  have pairs : ∀ x rm, HasPair (Tx.purge { t1 with branches := involveBranch trid inv t1.branches }).branches x rm ↔
      HasPair t1.branches x rm ∨ (x = trid.xid ∧ rm ∈ inv) := by
    intro x rm
    constructor
    · rintro ⟨b, hb, h1⟩
      exact involveBranch_pair (hT1.good t1 ht1).uniq ⟨b, (List.mem_filter.mp hb).1, h1⟩
    · rintro (h | ⟨rfl, h⟩)
      · exact (h.involve _ _).purge
      · exact (involveBranch_new h).purge
  by_cases hex : s.txs.any (fun t => decide (t.g = trid.xid.g)) = true
  · have hs : s.ensure trid = s := by unfold State.ensure; rw [if_pos hex]
    rw [hs] at ht1
    refine ⟨?_, .inl ⟨t1, ht1, hg1, rfl, rfl⟩⟩
    intro x rm
    rw [pairs]
    constructor
    · rintro (h | h)
      · exact .inl ⟨t1, ht1, hg1, h⟩
      · exact .inr h
    · rintro (⟨t2, h2, hg2, h⟩ | h)
      · have : t2 = t1 := eq_of_nodup_map (f := fun t : Tx => t.g) hT.uniq h2 ht1 (hg2.trans hg1.symm)
        subst this
        exact .inl h
      · exact .inr h
  · have hno : ∀ t0 ∈ s.txs, t0.g ≠ trid.xid.g := by
      intro t0 h0 he
      exact hex (List.any_eq_true.mpr ⟨t0, h0, by simpa using he⟩)
    have hs : (s.ensure trid).txs = s.txs ++ [Tx.new trid] := by unfold State.ensure; rw [if_neg hex]
    rw [hs] at ht1
    have ht1' : t1 = Tx.new trid := by
      rcases List.mem_append.mp ht1 with h | h
      · exact absurd hg1 (hno t1 h)
      · simpa using h
    subst ht1'
    refine ⟨?_, .inr ⟨rfl, hno⟩⟩
    intro x rm
    rw [pairs]
    constructor
    · rintro (⟨b, hb, -, h⟩ | h)
      · simp [Tx.new] at hb; subst hb; cases h
      · exact .inr h
    · rintro (⟨t2, h2, hg2, -⟩ | h)
      · exact absurd hg2 (hno t2 h2)
      · exact .inr h

theorem startCommit_tr (s : State) (t : Tx) (op : Bool) (k : KFinal) (h : t.targets ≠ []) :
    ∃ l, (s.startCommit t op k).tr = s.tr ++ l ∧ requests l = t.targets.map (fun x => (.commit, x.1.xid, x.2, op)) := by
  obtain ⟨o, h1, h2, h3⟩ := issueAll_tr s .commit op t.targets
  have hq := issueAll_targets s .commit op t.targets
  unfold State.startCommit State.regCommit
  dsimp only
  generalize (s.issueAll .commit op t.targets).1 = s1 at h1
  generalize (s.issueAll .commit op t.targets).2 = reqs at hq
  rcases register_entries s1.com (toPending reqs) k with ⟨hn, -⟩ | ⟨-, -, h4⟩
  · exfalso
    have : reqs = [] := by simpa [toPending] using hn
    subst this
    exact h (by simpa using hq.symm)
  · refine ⟨o ++ [.fanout .commit k.rtype k.origin k.dest reqs], ?_, ?_⟩
    · rw [h4]
      show s1.tr ++ [_] = _
      rw [h1]; simp
    · rw [requests_eq, List.filterMap_append, List.map_append, h3]
      simp [issued?, Function.comp_def]

theorem startPrepare_tr (s : State) (t : Tx) (k : KPrepare) (h : t.targets ≠ []) :
    ∃ l, (s.startPrepare t k).tr = s.tr ++ l ∧ requests l = t.targets.map (fun x => (.prepare, x.1.xid, x.2, false)) := by
  obtain ⟨o, h1, h2, h3⟩ := issueAll_tr s .prepare false t.targets
  have hq := issueAll_targets s .prepare false t.targets
  unfold State.startPrepare State.regPrepare
  dsimp only
  generalize (s.issueAll .prepare false t.targets).1 = s1 at h1
  generalize (s.issueAll .prepare false t.targets).2 = reqs at hq
  rcases register_entries s1.prep (toPending reqs) k with ⟨hn, -⟩ | ⟨-, -, h4⟩
  · exfalso
    have : reqs = [] := by simpa [toPending] using hn
    subst this
    exact h (by simpa using hq.symm)
  · refine ⟨o ++ [.fanout .prepare k.rtype k.origin k.dest reqs], ?_, ?_⟩
    · rw [h4]
      show s1.tr ++ [_] = _
      rw [h1]; simp
    · rw [requests_eq, List.filterMap_append, List.map_append, h3]
      simp [issued?, Function.comp_def]

/-- The (branch, resource) pairs a transaction consists of are those known before and those the request itself brings.
On a commit request for a transaction that has not been touched by another one: none - ok at once and the
transaction is finished; one - exactly one request, commit with one-phase; more - exactly one prepare request for
each, and nothing else. (`run self es` is any reachable state of a manager that is up.) -/
theorem one_phase_iff_one (self : Proc) (es : List Event) (p : Proc) (c : Nat) (trid : Trid) (inv : List Int)
    (hup : (run (init self) es).halted = false)
    (hst : ∀ t ∈ (run (init self) es).txs, t.g = trid.xid.g → t.stage = .involved)
    (pairs : List (Xid × Int)) (hn : pairs.Nodup)
    (hp : ∀ x rm, (x, rm) ∈ pairs ↔ Held (run (init self) es) trid.xid.g x rm ∨ (x = trid.xid ∧ rm ∈ inv)) :
    ∃ l, trace self (es ++ [.commit p c trid inv]) = trace self es ++ Obs.ev (.commit p c trid inv) :: l ∧
      (pairs = [] → ∃ d, l = [.answer p ⟨.commit, c, trid.xid.g, 0, .tx .ok, some .commit⟩, .removed trid.xid.g, .disassociate d]) ∧
      (∀ x rm, pairs = [(x, rm)] → requests l = [(.commit, x, rm, true)]) ∧
      (2 ≤ pairs.length → List.Perm (requests l) (pairs.map (fun q => (.prepare, q.1, q.2, false)))) := by
  have hrun : trace self (es ++ [.commit p c trid inv]) =
      (commitRequest ((run (init self) es).emit (.ev (.commit p c trid inv))) p c trid inv).tr := by
    unfold trace
    rw [show run (init self) (es ++ [.commit p c trid inv]) = step (run (init self) es) (.commit p c trid inv) by simp [run]]
    show State.tr (if (run (init self) es).halted then _ else _) = _
    rw [hup]
    rfl
  rw [hrun]
  have hT := reach_TInv self es
  show ∃ l, _ = (run (init self) es).tr ++ _ ∧ _
  generalize run (init self) es = s at *
  obtain ⟨t, hf, hgood, hpair, hstage⟩ := involvePurge_find (s := s.emit (.ev (.commit p c trid inv))) hT trid inv
  have htr : ((s.emit (.ev (.commit p c trid inv))).involvePurge trid inv).tr = s.tr ++ [.ev (.commit p c trid inv)] :=
    involvePurge_tr _ _ _
  have hstg : t.stage = .involved := by
    rcases hstage with ⟨t0, h0, hg, hs, -⟩ | ⟨h, -⟩
    · rw [hs]; exact hst t0 h0 hg
    · exact h
  have hperm : List.Perm (t.targets.map (fun p => (p.1.xid, p.2))) pairs := by
    rw [List.perm_ext_iff_of_nodup (targets_nodup hgood) hn]
    rintro ⟨x, rm⟩
    rw [mem_targets, hpair, hp]
    rfl
  have hlen : t.targets.length = pairs.length := by simpa using hperm.length_eq
  unfold commitRequest
  dsimp only
  rw [hf]
  dsimp only
  rw [if_neg (by rw [hstg]; simp), resourceCount_eq]
  have hfm := find_modify hf (fun t => { t with owner := p }) (fun _ => rfl)
  generalize (s.emit (.ev (.commit p c trid inv))).involvePurge trid inv = s1 at *
  split
  · rename_i h0
    refine ⟨[.answer p ⟨.commit, c, trid.xid.g, 0, .tx .ok, some .commit⟩, .removed trid.xid.g,
      .disassociate (nextAfter trid.xid.g (s1.modify trid.xid.g (fun t => { t with owner := p })).txs)], ?_, ?_, ?_, ?_⟩
    · unfold State.removeByRange
      dsimp only
      rw [if_pos]
      · simp [State.emit, State.modify, htr]
      · obtain ⟨hm, hg⟩ := find_mem hfm
        exact List.any_eq_true.mpr ⟨_, hm, by simpa using hg⟩
    · exact fun _ => ⟨_, rfl⟩
    · rintro x rm rfl; simp [h0] at hlen
    · intro h2; omega
  · rename_i h1
    have hne : t.targets ≠ [] := by intro e; rw [e] at h1; simp at h1
    obtain ⟨l, a, b⟩ := startCommit_tr ((s1.modify trid.xid.g (fun t => { t with owner := p })).modify trid.xid.g (Tx.setStage .commit))
      t true ⟨.commit, trid, ⟨p, c, 0⟩, .read_only⟩ hne
    refine ⟨l, ?_, ?_, ?_, ?_⟩
    · rw [a]
      show s1.tr ++ l = _
      rw [htr]; simp
    · rintro rfl; simp [h1] at hlen
    · rintro x rm rfl
      rw [b]
      have h3 := List.perm_singleton.mp hperm
      obtain ⟨y, hy⟩ := List.length_eq_one_iff.mp h1
      rw [hy] at h3 ⊢
      simp at h3
      simp [h3]
    · intro h2; omega
  · rename_i h0 h1
    have h0' : t.targets.length ≠ 0 := fun e => h0 e
    have h1' : t.targets.length ≠ 1 := fun e => h1 e
    have hne : t.targets ≠ [] := by intro e; rw [e] at h0'; simp at h0'
    obtain ⟨l, a, b⟩ := startPrepare_tr ((s1.modify trid.xid.g (fun t => { t with owner := p })).modify trid.xid.g (Tx.setStage .prepare))
      t ⟨.commit, trid, ⟨p, c, 0⟩⟩ hne
    refine ⟨l, ?_, ?_, ?_, ?_⟩
    · rw [a]
      show s1.tr ++ l = _
      rw [htr]; simp
    · rintro rfl; simp at hlen; exact absurd hlen hne
    · rintro x rm rfl; exact absurd hlen h1'
    · intro _
      rw [b]
      have := hperm.map (fun q => (Kind.prepare, q.1, q.2, false))
      simpa [List.map_map, Function.comp_def] using this

example : (run (init me) up).halted = false ∧ (run (init me) up).txs = [] ∧
    requests (trace me (up ++ [.commit app 7 t9 [2, 1, 2]])) = [(.prepare, ⟨9, 1⟩, 2, false), (.prepare, ⟨9, 1⟩, 1, false)] ∧
    requests (trace me (up ++ [.commit app 7 t9 [2, 2]])) = [(.commit, ⟨9, 1⟩, 2, true)] := by decide +kernel

/-! ## C09: answers -/

/-- never more final answers than requests: for each requester (not the manager itself), correlation and type of request -/
theorem answers_le_requests (self : Proc) (es : List Event) (rt : RType) (p : Proc) (c : Nat) (hp : p ≠ self) :
    (trace self es).countP (isFinalAnswer rt p c) ≤ (trace self es).countP (isRequest rt p c) := by
  have h := reach_bal self es rt p c hp
  have h1 := h.le
  have h2 := openN_nonneg (rt := rt) (p := p) (c := c) (run (init self) es)
  rw [bal_eq] at h1
  unfold trace
  omega

/-- exactly one final answer for each request, when the manager has no unfinished fan-out and no collected reply for it,
and has neither halted nor crashed; unless its prepare phase found the transaction gone -/
theorem answered_once_partial (self : Proc) (es : List Event) (rt : RType) (p : Proc) (c : Nat) (hp : p ≠ self)
    (hs : Smooth (trace self es))
    (hprep : ∀ e ∈ (run (init self) es).prep.entries, e.callback.dest.proc ≠ p)
    (hcom : ∀ e ∈ (run (init self) es).com.entries, e.callback.dest.proc ≠ p)
    (hrol : ∀ e ∈ (run (init self) es).rol.entries, e.callback.dest.proc ≠ p)
    (hrep : ∀ x ∈ (run (init self) es).replies, x.1 ≠ p) :
    (trace self es).countP (isFinalAnswer rt p c) + (trace self es).countP (isIgnored rt p c) =
      (trace self es).countP (isRequest rt p c) := by
  have h := (reach_bal self es rt p c hp).eq hs
  rw [bal_eq] at h
  have h0 : openN rt p c (run (init self) es) = 0 := by
    unfold openN openCount
    rw [List.countP_eq_zero.mpr, List.countP_eq_zero.mpr, List.countP_eq_zero.mpr, List.countP_eq_zero.mpr]
    · rfl
    · intro x hx; simp [mR, hrep x hx]
    · intro x hx; simp [mF, hrol x hx]
    · intro x hx; simp [mF, hcom x hx]
    · intro x hx; simp [mP, hprep x hx]
  unfold trace
  omega

example : (trace me twoPhase).countP (isRequest .commit app 7) = 1 ∧
    (trace me twoPhase).countP (isFinalAnswer .commit app 7) = 1 ∧ app ≠ me := by decide +kernel

example : Smooth (trace me twoPhase) ∧ (run (init me) twoPhase).prep.entries = [] ∧
    (run (init me) twoPhase).com.entries = [] ∧ (run (init me) twoPhase).replies = [] :=
  ⟨by unfold Smooth; decide +kernel, by decide +kernel, by decide +kernel, by decide +kernel⟩

/-- an application may wait forever: the only resource is external and its device is gone. The error reply of the
failed send has another correlation than the one registered, so that the fan-out never completes. -/
theorem answered_eventually_refuted :
    ∃ self es p c, p ≠ self ∧ Smooth (trace self es) ∧
      (trace self es).countP (isRequest .commit p c) = 1 ∧ (trace self es).countP (isFinalAnswer .commit p c) = 0 ∧
      -- everything asked of a resource has been replied to, and there is nothing left to do for the manager
      (∀ r, Obs.issued r ∈ trace self es → ∃ m, Obs.got m ∈ trace self es ∧ m.corr = r.corr ∧ m.kind = r.kind) ∧
      (run (init self) es).inbox = [] ∧ (run (init self) es).replies = [] := by
  refine ⟨me, [.extInvolved ⟨8, 88⟩ t9, .ipcGone 88, .commit app 7 t9 [], .consume], app, 7, ?_⟩
  refine ⟨by decide, by unfold Smooth; decide +kernel, by decide +kernel, by decide +kernel, ?_, by decide +kernel, by decide +kernel⟩
  have : (trace me [.extInvolved ⟨8, 88⟩ t9, .ipcGone 88, .commit app 7 t9 [], .consume]).filterMap issued? = [⟨.commit, 1, t9, -1, true⟩] := by
    decide +kernel
  intro r hr
  have hm : r ∈ (trace me [.extInvolved ⟨8, 88⟩ t9, .ipcGone 88, .commit app 7 t9 [], .consume]).filterMap issued? :=
    List.mem_filterMap.mpr ⟨_, hr, rfl⟩
  rw [this] at hm
  simp at hm
  subst hm
  exact ⟨⟨.commit, 1, t9, -1, .resource_fail, 0⟩, by decide +kernel, rfl, rfl⟩

/-! ## C10: stages -/

/-- From any reachable state on: as long as a transaction is not finished and the manager runs, it is there and its
stage has not gone down. -/
theorem stage_never_decreases (self : Proc) (es es' : List Event) (t0 : Tx) (h0 : t0 ∈ (run (init self) es).txs) :
    ∃ l, trace self (es ++ es') = trace self es ++ l ∧
      (Obs.removed t0.g ∉ l → Obs.halted ∉ l → Obs.ev .crash ∉ l →
        ∃ t ∈ (run (init self) (es ++ es')).txs, t.g = t0.g ∧ t0.stage.rank ≤ t.stage.rank) := by
  obtain ⟨l, h1, h2⟩ := rising_run (run (init self) es) (reach_J self es) es'
  have hr : run (init self) (es ++ es') = run (run (init self) es) es' := by simp [run]
  refine ⟨l, by unfold trace; rw [hr, h1], ?_⟩
  intro a b c
  rw [hr]
  rcases h2 t0 h0 with (h | h | h) | h
  · exact absurd h a
  · exact absurd h b
  · exact absurd h c
  · exact h

/-- A commit request for a transaction that has left its first stage is refused with a protocol error, and nothing is
sent to anybody else. -/
theorem late_commit_refused (self : Proc) (es : List Event) (p : Proc) (c : Nat) (trid : Trid) (inv : List Int)
    (hup : (run (init self) es).halted = false) (t : Tx) (ht : t ∈ (run (init self) es).txs) (hg : t.g = trid.xid.g)
    (hst : t.stage ≠ .involved) :
    trace self (es ++ [.commit p c trid inv]) =
      trace self es ++ [.ev (.commit p c trid inv), .answer p ⟨.commit, c, trid.xid.g, 0, .tx .protocol, some .commit⟩] := by
  have hrun : trace self (es ++ [.commit p c trid inv]) =
      (commitRequest ((run (init self) es).emit (.ev (.commit p c trid inv))) p c trid inv).tr := by
    unfold trace
    rw [show run (init self) (es ++ [.commit p c trid inv]) = step (run (init self) es) (.commit p c trid inv) by simp [run]]
    show State.tr (if (run (init self) es).halted then _ else _) = _
    rw [hup]
    rfl
  rw [hrun]
  have hT := reach_TInv self es
  show _ = (run (init self) es).tr ++ _
  generalize run (init self) es = s at *
  obtain ⟨t', hf, -, -, hstage⟩ := involvePurge_find (s := s.emit (.ev (.commit p c trid inv))) hT trid inv
  have htr : ((s.emit (.ev (.commit p c trid inv))).involvePurge trid inv).tr = s.tr ++ [.ev (.commit p c trid inv)] :=
    involvePurge_tr _ _ _
  have hstg : t'.stage ≠ .involved := by
    rcases hstage with ⟨t0, h0, hg0, hs, -⟩ | ⟨-, h⟩
    · have : t0 = t := eq_of_nodup_map (f := fun t : Tx => t.g) hT.uniq h0 ht (hg0.trans hg.symm)
      subst this
      rw [hs]; exact hst
    · exact absurd hg (h t ht)
  unfold commitRequest
  dsimp only
  rw [hf]
  dsimp only
  rw [if_pos]
  · show _ ++ [_] = _
    rw [htr]; simp
  · cases h : t'.stage <;> first | exact absurd h hstg | decide

example : (run (init me) (twoPhase.take 5)).halted = false ∧
    ∃ t ∈ (run (init me) (twoPhase.take 5)).txs, t.g = 9 ∧ t.stage ≠ .involved := by decide +kernel

/-! ## C11: requests on the wire -/

/-- A local resource process gets a request only if it owes no answer (it has replied to, or newly announced itself
after, everything sent to it), and only requests that were issued. -/
theorem one_request_at_a_time (self : Proc) (es : List Event) (pre post : List Obs) (r : Req) (p : Proc)
    (h : trace self es = pre ++ Obs.wire r p :: post) :
    Obs.issued r ∈ pre ∧ (0 < r.rm → owes pre r.rm p.pid = false) :=
  (reach_IW self es).wire pre _ post h

/-- each request has its own correlation -/
theorem issued_distinct (self : Proc) (es : List Event) : (((trace self es).filterMap issued?).map (·.corr)).Nodup :=
  (reach_IW self es).corrN

/-- First-in first-out and nothing lost: as long as no device vanishes and the manager neither halts nor crashes, the
requests sent to a local resource are the first ones issued for it, in order; the rest waits, and no instance of the
resource is idle while something waits. -/
theorem sent_in_order_partial (self : Proc) (es : List Event) (rm : Int) (hrm : 0 < rm) (hc : Calm (trace self es)) :
    ∃ waiting, issuedTo rm (trace self es) = sentTo rm (trace self es) ++ waiting ∧
      (waiting ≠ [] → ∀ p ∈ (run (init self) es).proxies, p.id = rm → ∀ i ∈ p.insts, i.state ≠ .idle) := by
  have h := reach_IW self es
  refine ⟨_, (h.fifo hc rm hrm).symm, ?_⟩
  intro hne p hp hid i hi
  obtain ⟨r, hr⟩ := List.exists_mem_of_ne_nil _ hne
  obtain ⟨h1, h2⟩ := List.mem_filter.mp hr
  exact h.wait hc r h1 p hp (hid.trans ((by simpa using h2 : r.rm = rm).symm)) i hi (fun k => k)

example : Obs.wire ⟨.prepare, 1, t9, 1, false⟩ ⟨11, 111⟩ ∈ trace me twoPhase ∧ Calm (trace me twoPhase) := by
  refine ⟨by decide +kernel, ?_, by decide +kernel, by decide +kernel⟩
  intro i h
  have : (trace me twoPhase).all (fun o => match o with | .ev (.ipcGone _) => false | _ => true) = true := by decide +kernel
  have := List.all_eq_true.mp this _ h
  simp at this

/-- a queued request whose instance's device has vanished when it becomes free is gone: nobody gets it and there is no
(emulated) reply either -/
theorem no_request_lost_refuted :
    ∃ self es r, Smooth (trace self es) ∧ Obs.issued r ∈ trace self es ∧ Obs.dropped r ∈ trace self es ∧
      (∀ p, Obs.wire r p ∉ trace self es) ∧ Obs.sendFailed r ∉ trace self es ∧
      (run (init self) es).pending = [] ∧ (run (init self) es).inbox = [] := by
  refine ⟨me, [.spawn 1 11, .ready 1 ⟨11, 111⟩, .commit app 7 t9 [1], .commit app 8 ⟨⟨10, 1⟩, 5⟩ [1], .ipcGone 111,
    .reply ⟨.commit, 1, t9, 1, .ok, 11⟩], ⟨.commit, 2, ⟨⟨10, 1⟩, 5⟩, 1, true⟩, ?_⟩
  refine ⟨by unfold Smooth; decide +kernel, by decide +kernel, by decide +kernel, ?_, by decide +kernel, by decide +kernel, by decide +kernel⟩
  intro p h
  have : (trace me [.spawn 1 11, .ready 1 ⟨11, 111⟩, .commit app 7 t9 [1], .commit app 8 ⟨⟨10, 1⟩, 5⟩ [1], .ipcGone 111,
    .reply ⟨.commit, 1, t9, 1, .ok, 11⟩]).all (fun o => match o with | .wire r _ => r.corr ≠ 2 | _ => true) = true := by decide +kernel
  have := List.all_eq_true.mp this _ h
  simp at this

/-! ## C12: nothing is left -/

/-- a final answer to an application is followed at once by the removal of its transaction -/
theorem final_answer_removes (self : Proc) (es : List Event) (pre post : List Obs) (to : Proc) (a : Answer)
    (h : trace self es = pre ++ Obs.answer to a :: post)
    (hf : (a.rtype = .commit ∧ a.stage ≠ some .prepare ∧ a.status ≠ .tx .protocol) ∨ a.rtype = .rollback) :
    ∃ rest, post = Obs.removed a.g :: rest :=
  (reach_fin self es).adj pre to a post h hf

/-- after the removal, until an event that brings the transaction id anew (or a crash), the manager holds no state and
no log row of it -/
theorem nothing_left (self : Proc) (es : List Event) (g : Nat) (pre post : List Obs)
    (h : trace self es = pre ++ Obs.removed g :: post) (hn : ∀ e, Obs.ev e ∈ post → e ≠ .crash ∧ g ∉ e.creates) :
    (∀ t ∈ (run (init self) es).txs, t.g ≠ g) ∧ ∀ x ∈ (run (init self) es).log.current, x.g ≠ g :=
  clean_run self es g pre post h hn

example : Obs.removed 9 ∈ trace me twoPhase ∧ (trace me twoPhase).getLast? = some (.disassociate (some 9)) := by
  decide +kernel

/-- but the row may be back after a crash: the deletion is not durable when the final answer is given -/
theorem nothing_left_after_crash_refuted :
    ∃ self es to a, Obs.answer to a ∈ trace self es ∧ Final a ∧
      ∃ x ∈ (run (init self) (es ++ [.crash])).log.current, x.g = a.g :=
  ⟨me, twoPhase, app, ⟨.commit, 7, 9, 0, .tx .ok, some .commit⟩, by decide +kernel, .inl ⟨rfl, by simp, by simp⟩,
    ⟨9, 1⟩, by decide +kernel, rfl⟩

end Casual.TM

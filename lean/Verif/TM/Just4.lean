import Verif.TM.Just3
/-!
# The invariant holds in every reachable state
-/
namespace Casual.TM
open Casual.Code Casual.FanOut

abbrev NoX : Nat → Prop := fun _ => False

theorem firePrepare_ok {s : State} (h : J s) {fs : List (Fired Rep Int KPrepare)}
    (hfs : ∀ f ∈ fs, FOk .prepare projP s.tr f ∧ PrepOk f.callback) : Ok NoX s (fireAll runPrepare s fs) :=
  fireAll_ok (P := fun tr f => FOk .prepare projP tr f ∧ PrepOk f.callback)
    (fun _ _ _ h => ⟨h.1.mono, h.2⟩) runPrepare (fun _ _ h hh hf => runPrepare_ok h hh hf.1 hf.2) s h fs hfs

theorem J.regPrepare {s : State} (h : J s) {reqs : List Req} {k : KPrepare} (hk : PrepOk k)
    (hc : Claim s.tr (.fanout .prepare k.rtype k.origin k.dest reqs)) : Ok NoX s (s.regPrepare reqs k) := by
  have h1 := (h.emit hc (by simp)).1
  have hmem : Obs.fanout .prepare k.rtype k.origin k.dest reqs ∈ (s.emit (.fanout .prepare k.rtype k.origin k.dest reqs)).tr := by
    simp [State.emit]
  obtain ⟨hE, hF⟩ := register_ok (p := projP) (k := k) (fun e he => (h1.prepE e he).1) hmem
  have h2 : J ({ s with prep := (s.prep.register (toPending reqs) k).1 }.emit (.fanout .prepare k.rtype k.origin k.dest reqs)) := by
    refine ⟨h1.claims, register_lite _ h1.prepL _ _, h1.comL, h1.rolL, 
      register_once _ _ h1.prepL h1.prepO _ _, h1.comO, h1.rolO, ?_, h1.comE, h1.rolE, h1.txs, h1.replies⟩
    intro e he
    obtain ⟨a, b⟩ := hE e he
    refine ⟨a, ?_⟩
    rcases b with b | b
    · exact (h1.prepE e b).2
    · rw [b]; exact hk
  have h3 : Ok NoX s ({ s with prep := (s.prep.register (toPending reqs) k).1 }.emit (.fanout .prepare k.rtype k.origin k.dest reqs)) :=
    ⟨h2, _, rfl⟩
  refine h3.trans (firePrepare_ok h2 ?_)
  intro f hf
  obtain ⟨a, b⟩ := hF f hf
  exact ⟨a, by rw [b]; exact hk⟩

theorem J.startPrepare {s : State} (h : J s) {t : Tx} {k : KPrepare} (hk : PrepOk k)
    (hg : ∀ x ∈ t.targets, x.1.xid.g = k.origin.xid.g) : Ok NoX s (s.startPrepare t k) := by
  unfold State.startPrepare
  have h1 := JX.issueAll h .prepare false t.targets (by
    intro r hr _ _ hc; rw [hr] at hc; cases hc)
  refine h1.trans (J.regPrepare h1.1 hk ⟨fun q hq => (issueAll_kind _ _ _ _ q hq).1, ?_, ?_⟩)
  · intro _ q hq
    exact hg _ (issueAll_kind _ _ _ _ q hq).2.2
  · intro hc; rcases hc with ⟨hc, _⟩ | ⟨hc, _⟩ <;> cases hc

theorem J.startRollback {s : State} (h : J s) {t : Tx} {k : KFinal} (hk : RolOk k)
    (hr : k.rtype = .rollback ∨ k.rtype = .resRollback) : Ok NoX s (s.startRollback t k) := by
  unfold State.startRollback
  have h1 := JX.issueAll h .rollback false t.targets (by
    intro r hr _ _ hc; rw [hr] at hc; cases hc)
  refine h1.trans (h1.1.regRollback hk ⟨fun q hq => (issueAll_kind _ _ _ _ q hq).1, by simp, ?_⟩)
  intro hc
  exfalso
  rcases hc with ⟨_, hc⟩ | ⟨hc, _⟩
  · rcases hr with hr | hr <;> rw [hr] at hc <;> rcases hc with hc | hc <;> cases hc
  · cases hc

theorem J.startCommit1 {s : State} (h : J s) {t : Tx} {k : KFinal} (hk : ComOk k) 
    (hc : ∀ x ∈ t.targets, ∃ p c trid inv, Obs.ev (.commit p c trid inv) ∈ s.tr ∧ trid.xid.g = x.1.xid.g) :
    Ok NoX s (s.startCommit t true k) := by
  unfold State.startCommit
  have h1 := JX.issueAll h .commit true t.targets (by
    intro r _ hop hr _
    rw [hop]; simp only [if_true]
    exact hc _ hr)
  refine h1.trans (h1.1.regCommit hk ⟨fun q hq => (issueAll_kind _ _ _ _ q hq).1, by simp, ?_⟩)
  intro hcc
  exfalso
  rcases hcc with ⟨hcc, _⟩ | ⟨_, _, q, hq, hop⟩
  · cases hcc
  · rw [(issueAll_kind _ _ _ _ q hq).2.1] at hop; cases hop

theorem J.startCommitUp {s : State} (h : J s) {t : Tx} {k : KFinal} (hk : k.rtype = .resCommit)
    (hc : ∀ x ∈ t.targets, ∀ r : Req, r.trid = x.1 → DecidedUpstream s.tr r) :
    Ok NoX s (s.startCommit t false k) := by
  unfold State.startCommit
  have h1 := JX.issueAll h .commit false t.targets (by
    intro r _ hop hr _
    rw [hop]; simp only [Bool.false_eq_true, if_false]
    exact .inr (hc _ hr _ rfl))
  refine h1.trans (h1.1.regCommit (.inr hk) ⟨fun q hq => (issueAll_kind _ _ _ _ q hq).1, by simp, ?_⟩)
  intro hcc
  exfalso
  rcases hcc with ⟨hcc, _⟩ | ⟨_, hcc, _⟩
  · cases hcc
  · rw [hk] at hcc; cases hcc

/-! ### requests -/

theorem answer_plain {tr : List Obs} {to : Proc} {a : Answer} (h1 : a.status ≠ .tx .ok) (h2 : a.status ≠ .xa .ok)
    (h3 : a.rtype = .commit → a.stage ≠ some .prepare) : Claim tr (.answer to a) := by
  refine ⟨fun _ h => absurd h h2, fun _ h => absurd h h1, fun _ h => absurd h h1, fun _ h => absurd h h2, ?_⟩
  rintro (⟨a, b⟩ | ⟨a, b⟩)
  · exact absurd b (h3 a)
  · exact absurd b h2

theorem J.setStage {s : State} (h : J s) (g : Nat) (st : Stage) (hst : st ≠ .post_prepare) :
    Ok NoX s (s.modify g (Tx.setStage st)) := by
  apply Ok.modify h
  intro t ht hg
  refine ⟨(h.txs t ht).branches, fun hp hx => ?_⟩
  rcases Stage.set_eq_post hp with e | e
  · exact absurd e hst
  · exact (h.txs t ht).post e hx

theorem J.setOwner {s : State} (h : J s) (g : Nat) (p : Proc) :
    Ok NoX s (s.modify g (fun t => { t with owner := p })) := by
  apply Ok.modify h
  intro t ht hg
  exact ⟨(h.txs t ht).branches, (h.txs t ht).post⟩

theorem J.setRollback {s : State} (h : J s) (g : Nat) (p : Proc) :
    Ok NoX s (s.modify g (fun t => { t.setStage .rollback with owner := p })) := by
  apply Ok.modify h
  intro t ht hg
  exact ⟨(h.txs t ht).branches, fun hp => absurd hp (Stage.set_rollback_ne _)⟩

theorem commitRequest_ok {s : State} (h : J s) (p : Proc) (c : Nat) (trid : Trid) (inv : List Int)
    (hev : ∃ p1, s.tr = p1 ++ [Obs.ev (.commit p c trid inv)]) : Ok NoX s (commitRequest s p c trid inv) := by
  unfold commitRequest
  dsimp only
  have h1 := h.involvePurge trid inv
  have hev1 : ∃ p1, (s.involvePurge trid inv).tr = p1 ++ [Obs.ev (.commit p c trid inv)] := by
    have : (s.involvePurge trid inv).tr = s.tr := by
      unfold State.involvePurge State.modify State.ensure; dsimp only; split <;> rfl
    rw [this]; exact hev
  revert h1 hev1
  generalize s.involvePurge trid inv = s1
  intro h1 hev1
  split
  · exact h1
  rename_i t ht
  obtain ⟨htm, htg⟩ := find_mem ht
  split
  · exact h1.trans (h1.1.emit (answer_plain (by simp) (by simp) (by simp)) (by simp))
  have h2 := J.setOwner h1.1 trid.xid.g p
  have hev2 : ∃ p1, (s1.modify trid.xid.g (fun t => { t with owner := p })).tr = p1 ++ [Obs.ev (.commit p c trid inv)] := hev1
  revert h2 hev2
  generalize (s1.modify trid.xid.g (fun t => { t with owner := p })) = s2
  intro h2 hev2
  have h12 := h1.trans h2
  have hgs := targets_g (h1.1.txs t htm)
  split
  · refine h12.trans (Ok.emitRemove' h2.1 ?_ (by simp) _)
    refine ⟨by simp [VoteOk], ?_, by simp [RollbackOk], by simp [ExtCommitOk], by simp [Prepared]⟩
    intro _ _ _
    obtain ⟨p1, hp1⟩ := hev2
    exact .inl ⟨p1, trid, inv, hp1, rfl⟩
  · have h3 := J.setStage h2.1 trid.xid.g .commit (by simp)
    refine (h12.trans h3).trans (J.startCommit1 h3.1 (.inl rfl) ?_)
    intro x hx
    obtain ⟨p1, hp1⟩ := hev2
    exact ⟨p, c, trid, inv, by show _ ∈ s2.tr; rw [hp1]; simp, by rw [hgs x hx, htg]⟩
  · have h3 := J.setStage h2.1 trid.xid.g .prepare (by simp)
    refine (h12.trans h3).trans (J.startPrepare h3.1 (.inl rfl) ?_)
    intro x hx
    rw [hgs x hx, htg]

theorem rollbackRequest_ok {s : State} (h : J s) (p : Proc) (c : Nat) (trid : Trid) (inv : List Int) :
    Ok NoX s (rollbackRequest s p c trid inv) := by
  unfold rollbackRequest
  dsimp only
  have h1 := h.involvePurge trid inv
  revert h1
  generalize s.involvePurge trid inv = s1
  intro h1
  split
  · exact h1
  have h2 := J.setRollback h1.1 trid.xid.g p
  exact (h1.trans h2).trans (J.startRollback h2.1 ⟨by simp, by simp⟩ (.inl rfl))

theorem involvedRequest_ok {s : State} (h : J s) (trid : Trid) (inv : List Int) :
    Ok NoX s (involvedRequest s trid inv) := by
  unfold involvedRequest
  dsimp only
  have h1 := h.ensure trid
  refine h1.trans (Ok.modify h1.1 _ _ ?_)
  intro t ht hg
  exact ⟨involveBranch_g hg.symm (h1.1.txs t ht).branches, (h1.1.txs t ht).post⟩

theorem readOnlyReply_ok {s : State} (h : J s) (rt : RType) (hrt : rt ≠ .commit) (p : Proc) (c g : Nat) (rm : Int) :
    Ok NoX s (s.readOnlyReply rt p c g rm) :=
  h.emit (answer_plain (by simp) (by simp) (fun e => absurd e hrt)) (by simp)

theorem extPrepare_ok {s : State} (h : J s) (p : Proc) (c : Nat) (trid : Trid) (rm : Int) :
    Ok NoX s (extPrepareRequest s p c trid rm) := by
  unfold extPrepareRequest
  dsimp only
  have hro := readOnlyReply_ok h .resPrepare (by simp) p c trid.xid.g rm
  split
  · exact hro
  rename_i t ht
  obtain ⟨htm, htg⟩ := find_mem ht
  split
  · exact hro
  split
  · exact hro.trans (hro.1.removeByRange _)
  · have h3 := J.setStage h trid.xid.g .prepare (by simp)
    refine h3.trans (J.startPrepare h3.1 (.inr (.inr rfl)) ?_)
    intro x hx
    rw [targets_g (h.txs t htm) x hx, htg]

theorem PostOk.before {tr : List Obs} {e : Event} {g : Nat} (h : PostOk (tr ++ [.ev e]) g) : PostOk tr g := by
  obtain ⟨o, d, q, rv, a, b, c1, c2, c3⟩ := h
  have key : ∀ x : Obs, (∀ e, x ≠ .ev e) → x ∈ tr ++ [.ev e] → x ∈ tr := by
    intro x hx hm
    rcases List.mem_append.mp hm with hm | hm
    · exact hm
    · simp at hm; exact absurd hm (hx e)
  refine ⟨o, d, q, rv, key _ (by simp) a, b, fun m hm => ?_, c2, fun x hx => ?_⟩
  · obtain ⟨y1, y2⟩ := c1 m hm
    exact ⟨key _ (by simp) y1, y2⟩
  · exact (c3 x hx).imp id (key _ (by simp))

theorem extCommit_ok {s : State} (h : J s) (p : Proc) (c : Nat) (trid : Trid) (rm : Int) (op : Bool)
    {p1 : List Obs} (hev : s.tr = p1 ++ [Obs.ev (.extCommit p c trid rm op)]) : Ok NoX s (extCommitRequest s p c trid rm) := by
  unfold extCommitRequest
  dsimp only
  have hro := readOnlyReply_ok h .resCommit (by simp) p c trid.xid.g rm
  split
  · exact hro
  rename_i t ht
  obtain ⟨htm, htg⟩ := find_mem ht
  have hgs := targets_g (h.txs t htm)
  split
  · rename_i hpost
    have h3 := J.setStage h trid.xid.g .commit (by simp)
    refine h3.trans (J.startCommitUp h3.1 rfl ?_)
    intro x hx r hr
    have hpo := (h.txs t htm).post hpost (by simp)
    rw [hev] at hpo
    obtain ⟨o, d, q, rv, a, b, e⟩ := hpo.before
    refine ⟨p1, [], p, c, trid, rm, op, hev, ?_, o, d, q, rv, a, ?_, e⟩
    · rw [hr, hgs x hx, htg]
    · rw [b, hr, hgs x hx]
  split
  · have h3 := J.setStage h trid.xid.g .prepare (by simp)
    refine h3.trans (J.startPrepare h3.1 (.inr (.inl rfl)) ?_)
    intro x hx
    rw [hgs x hx, htg]
  · exact hro

theorem extRollback_ok {s : State} (h : J s) (p : Proc) (c : Nat) (trid : Trid) (rm : Int) :
    Ok NoX s (extRollbackRequest s p c trid rm) := by
  unfold extRollbackRequest
  dsimp only
  have hro := readOnlyReply_ok h .resRollback (by simp) p c trid.xid.g rm
  split
  · exact hro
  split
  · exact hro
  · have h2 := J.setRollback h trid.xid.g p
    exact h2.trans (J.startRollback h2.1 ⟨by simp, by simp⟩ (.inr rfl))

/-! ### replies from resources -/

theorem J.same {s s' : State} (h : J s) (h1 : s'.tr = s.tr) (h2 : s'.prep = s.prep) (h3 : s'.com = s.com)
    (h4 : s'.rol = s.rol) (h5 : s'.txs = s.txs) (h6 : s'.replies = s.replies) : Ok NoX s s' :=
  ⟨h.of' (l := []) (by simpa using h1) (by simp) (by simp) h2 h3 h4 h5 h6, [], by simpa using h1⟩

theorem instReady_ok {s : State} (h : J s) (rm : Int) (pid : Nat) : Ok NoX s (s.instReady rm pid) := by
  unfold State.instReady
  split
  · exact Ok.refl h
  split
  · exact Ok.refl h
  rename_i r rest _ _ i _
  dsimp only
  have h1 : Ok NoX s { s with pending := rest } := J.same h rfl rfl rfl rfl rfl rfl
  split
  · exact h1.trans (h1.1.emit trivial (by simp))
  · have h2 := h1.trans (h1.1.emit (o := .wire r ⟨i.pid, i.ipc⟩) trivial (by simp))
    split
    · exact h2.trans (J.same h2.1 rfl rfl rfl rfl rfl rfl)
    · exact h2.trans h2.1.halt

theorem replied_ok {s : State} (h : J s) (rm : Int) (pid : Nat) : Ok NoX s (s.replied rm pid) := by
  unfold State.replied
  split
  · split
    · exact h.halt
    · dsimp only
      refine Ok.trans (J.same h ?_ ?_ ?_ ?_ ?_ ?_) (instReady_ok (J.same h ?_ ?_ ?_ ?_ ?_ ?_).1 _ _) <;> rfl
  · exact Ok.refl h

theorem J.prepReplace {s : State} (h : J s) {o : Out Rep Int KPrepare} (hL : Lite o) (hO : Once (·.corr) o)
    (hE : ∀ e ∈ o.entries, EOk .prepare projP s.tr e ∧ PrepOk e.callback) : Ok NoX s { s with prep := o } :=
  ⟨⟨h.claims, hL, h.comL, h.rolL, hO, h.comO, h.rolO, hE, h.comE, h.rolE, h.txs, h.replies⟩, [], by simp⟩

theorem J.comReplace {s : State} (h : J s) {o : Out Rep Int KFinal} (hL : Lite o) (hO : Once (·.corr) o)
    (hE : ∀ e ∈ o.entries, EOk .commit projF s.tr e ∧ ComOk e.callback) : Ok NoX s { s with com := o } :=
  ⟨⟨h.claims, h.prepL, hL, h.rolL, h.prepO, hO, h.rolO, h.prepE, hE, h.rolE, h.txs, h.replies⟩, [], by simp⟩

theorem J.rolReplace {s : State} (h : J s) {o : Out Rep Int KFinal} (hL : Lite o) (hO : Once (·.corr) o)
    (hE : ∀ e ∈ o.entries, EOk .rollback projF s.tr e ∧ RolOk e.callback) : Ok NoX s { s with rol := o } :=
  ⟨⟨h.claims, h.prepL, h.comL, hL, h.prepO, h.comO, hO, h.prepE, h.comE, hE, h.txs, h.replies⟩, [], by simp⟩

theorem replyHandler_ok {s : State} (h : J s) (r : Rep) : Ok NoX s (replyHandler s r) := by
  unfold replyHandler
  dsimp only
  have h0 := h.emit (o := .got r) trivial (by simp)
  have h1 := h0.trans (replied_ok h0.1 r.rm r.pid)
  have hgot : Obs.got r ∈ ((s.emit (.got r)).replied r.rm r.pid).tr := by
    obtain ⟨l, hl⟩ := (replied_ok h0.1 r.rm r.pid).2
    rw [hl]; simp [State.emit]
  revert h1 hgot
  generalize (s.emit (.got r)).replied r.rm r.pid = s1
  intro h1 hgot
  split
  · exact h1
  split
  · rename_i hk
    obtain ⟨hE, hF⟩ := reply_ok h1.1.prepL h1.1.prepO (fun e he => (h1.1.prepE e he).1) hgot hk
    have h2 := J.prepReplace h1.1 (reply_lite _ _ h1.1.prepL r) (reply_once _ _ h1.1.prepL h1.1.prepO r)
      (fun e he => ⟨(hE e he).1, by
        obtain ⟨_, e0, he0, hc⟩ := hE e he; rw [hc]; exact (h1.1.prepE e0 he0).2⟩)
    refine (h1.trans h2).trans (firePrepare_ok h2.1 ?_)
    intro f hf
    obtain ⟨a, e0, he0, hc⟩ := hF f hf
    exact ⟨a, by rw [hc]; exact (h1.1.prepE e0 he0).2⟩
  · rename_i hk
    obtain ⟨hE, hF⟩ := reply_ok h1.1.comL h1.1.comO (fun e he => (h1.1.comE e he).1) hgot hk
    have h2 := J.comReplace h1.1 (reply_lite _ _ h1.1.comL r) (reply_once _ _ h1.1.comL h1.1.comO r)
      (fun e he => ⟨(hE e he).1, by
        obtain ⟨_, e0, he0, hc⟩ := hE e he; rw [hc]; exact (h1.1.comE e0 he0).2⟩)
    refine (h1.trans h2).trans (fireCommit_ok h2.1 ?_)
    intro f hf
    obtain ⟨a, e0, he0, hc⟩ := hF f hf
    exact ⟨a, by rw [hc]; exact (h1.1.comE e0 he0).2⟩
  · rename_i hk
    obtain ⟨hE, hF⟩ := reply_ok h1.1.rolL h1.1.rolO (fun e he => (h1.1.rolE e he).1) hgot hk
    have h2 := J.rolReplace h1.1 (reply_lite _ _ h1.1.rolL r) (reply_once _ _ h1.1.rolL h1.1.rolO r)
      (fun e he => ⟨(hE e he).1, by
        obtain ⟨_, e0, he0, hc⟩ := hE e he; rw [hc]; exact (h1.1.rolE e0 he0).2⟩)
    refine (h1.trans h2).trans (fireRollback_ok h2.1 ?_)
    intro f hf
    obtain ⟨a, e0, he0, hc⟩ := hF f hf
    exact ⟨a, by rw [hc]; exact (h1.1.rolE e0 he0).2⟩

theorem failPrep_ok {s : State} (h : J s) (rm : Int) (hm : Obs.failed rm ∈ s.tr) :
    Ok NoX s (fireAll runPrepare { s with prep := (s.prep.fail rm).1 } (s.prep.fail rm).2) := by
  obtain ⟨hE, hF⟩ := fail_ok h.prepO (fun e he => (h.prepE e he).1) hm
  have h2 := J.prepReplace h (fail_lite _ h.prepL rm) (fail_once _ _ h.prepO rm)
    (fun e he => ⟨(hE e he).1, by
      obtain ⟨_, e0, he0, hc⟩ := hE e he; rw [hc]; exact (h.prepE e0 he0).2⟩)
  refine h2.trans (firePrepare_ok h2.1 ?_)
  intro f hf
  obtain ⟨a, e0, he0, hc⟩ := hF f hf
  exact ⟨a, by rw [hc]; exact (h.prepE e0 he0).2⟩

theorem failCom_ok {s : State} (h : J s) (rm : Int) (hm : Obs.failed rm ∈ s.tr) :
    Ok NoX s (fireAll runCommit { s with com := (s.com.fail rm).1 } (s.com.fail rm).2) := by
  obtain ⟨hE, hF⟩ := fail_ok h.comO (fun e he => (h.comE e he).1) hm
  have h2 := J.comReplace h (fail_lite _ h.comL rm) (fail_once _ _ h.comO rm)
    (fun e he => ⟨(hE e he).1, by
      obtain ⟨_, e0, he0, hc⟩ := hE e he; rw [hc]; exact (h.comE e0 he0).2⟩)
  refine h2.trans (fireCommit_ok h2.1 ?_)
  intro f hf
  obtain ⟨a, e0, he0, hc⟩ := hF f hf
  exact ⟨a, by rw [hc]; exact (h.comE e0 he0).2⟩

theorem failRol_ok {s : State} (h : J s) (rm : Int) (hm : Obs.failed rm ∈ s.tr) :
    Ok NoX s (fireAll runRollback { s with rol := (s.rol.fail rm).1 } (s.rol.fail rm).2) := by
  obtain ⟨hE, hF⟩ := fail_ok h.rolO (fun e he => (h.rolE e he).1) hm
  have h2 := J.rolReplace h (fail_lite _ h.rolL rm) (fail_once _ _ h.rolO rm)
    (fun e he => ⟨(hE e he).1, by
      obtain ⟨_, e0, he0, hc⟩ := hE e he; rw [hc]; exact (h.rolE e0 he0).2⟩)
  refine h2.trans (fireRollback_ok h2.1 ?_)
  intro f hf
  obtain ⟨a, e0, he0, hc⟩ := hF f hf
  exact ⟨a, by rw [hc]; exact (h.rolE e0 he0).2⟩

theorem Ok.mem {X : Nat → Prop} {s s' : State} (h : Ok X s s') {o : Obs} (ho : o ∈ s.tr) : o ∈ s'.tr := by
  obtain ⟨l, hl⟩ := h.2
  rw [hl]; exact List.mem_append_left _ ho

theorem failedRm_ok {s : State} (h : J s) (rm : Int) : Ok NoX s (s.failedRm rm) := by
  unfold State.failedRm
  dsimp only
  have h0 := h.emit (o := .failed rm) trivial (by simp)
  have hm : Obs.failed rm ∈ (s.emit (.failed rm)).tr := by simp [State.emit]
  have h1 := failPrep_ok h0.1 rm hm
  have h01 := h0.trans h1
  split
  · exact h01
  · have h2 := failCom_ok h1.1 rm (h1.mem hm)
    have h3 := failRol_ok h2.1 rm (h2.mem (h1.mem hm))
    exact (h01.trans h2).trans h3

theorem foldl_ok {A : Type} (f : State → A → State) (hf : ∀ s a, J s → Ok NoX s (f s a)) (l : List A) (s : State)
    (h : J s) : Ok NoX s (l.foldl (fun s a => if s.halted then s else f s a) s) := by
  induction l generalizing s with
  | nil => exact Ok.refl h
  | cons a l ih =>
    rw [List.foldl_cons]
    have h1 : Ok NoX s (if s.halted = true then s else f s a) := by
      split
      · exact Ok.refl h
      · exact hf s a h
    exact h1.trans (ih _ h1.1)

theorem exitHandler_ok {s : State} (h : J s) (pid : Nat) : Ok NoX s (exitHandler s pid) := by
  unfold exitHandler
  split
  · exact J.same h rfl rfl rfl rfl rfl rfl
  · dsimp only
    have h1 := foldl_ok (fun s (e : Ext) => s.failedRm e.id) (fun s e hs => failedRm_ok hs e.id)
      (s.externals.filter (fun e => decide (e.proc.pid = pid))) s h
    revert h1
    generalize (s.externals.filter (fun e => decide (e.proc.pid = pid))).foldl
      (fun s (e : Ext) => if s.halted = true then s else s.failedRm e.id) s = s1
    intro h1
    have h2 := h1.trans (J.same h1.1 (s' := { s1 with externals := s1.externals.filter (fun e => decide (e.proc.pid ≠ pid)) })
      rfl rfl rfl rfl rfl rfl)
    exact h2.trans (foldl_ok (fun s (t : Trid) => rollbackRequest s s.self 0 t [])
      (fun s t hs => rollbackRequest_ok hs _ _ _ _) _ _ h2.1)

theorem destroyedHandler_ok {s : State} (h : J s) (p : Proc) : Ok NoX s (destroyedHandler s p) := by
  unfold destroyedHandler
  split
  · exact Ok.refl h
  · dsimp only
    have h1 := failedRm_ok h (by assumption : Ext).id
    exact h1.trans (J.same h1.1 rfl rfl rfl rfl rfl rfl)

theorem readyHandler_ok {s : State} (h : J s) (rm : Int) (p : Proc) : Ok NoX s (readyHandler s rm p) := by
  unfold readyHandler
  split
  · exact h.halt
  · dsimp only
    refine Ok.trans (J.same h ?_ ?_ ?_ ?_ ?_ ?_) (instReady_ok (J.same h ?_ ?_ ?_ ?_ ?_ ?_).1 _ _) <;> rfl

/-- The events are not crashes: a crash keeps only the trace and the log. -/
theorem restart_ok {s : State} (h : Always Claim s.tr) : Ok NoX s s.restart :=
  ⟨⟨h, lite_empty, lite_empty, lite_empty, once_empty _, once_empty _, once_empty _,
    by simp [State.restart, Out.empty], by simp [State.restart, Out.empty], by simp [State.restart, Out.empty],
    by simp [State.restart], by simp [State.restart]⟩, [], by simp [State.restart]⟩

theorem handle_ok {s : State} (h : J s) (e : Event) {p1 : List Obs} (hev' : s.tr = p1 ++ [Obs.ev e]) :
    Ok NoX s (handle s e) := by
  have hev : Obs.ev e ∈ s.tr := by rw [hev']; simp
  cases e with
  | commit p c t i => exact commitRequest_ok h p c t i ⟨p1, hev'⟩
  | rollback p c t i => exact rollbackRequest_ok h p c t i
  | involved p t i r => exact involvedRequest_ok h t i
  | extInstance p =>
    show Ok NoX s (s.extAdd p)
    unfold State.extAdd
    dsimp only
    split <;> exact J.same h rfl rfl rfl rfl rfl rfl
  | extInvolved p t =>
    show Ok NoX s ((s.extId p).1.involve t [(s.extId p).2])
    have h1 : Ok NoX s (s.extId p).1 := by
      unfold State.extId
      split
      · exact Ok.refl h
      · exact J.same h rfl rfl rfl rfl rfl rfl
    exact h1.trans (h1.1.involve _ _)
  | extPrepare p c t r => exact extPrepare_ok h p c t r
  | extCommit p c t r o => exact extCommit_ok h p c t r o hev'
  | extRollback p c t r => exact extRollback_ok h p c t r
  | reply r => exact replyHandler_ok h r
  | consume =>
    dsimp only [handle]
    split
    · exact Ok.refl h
    · rename_i r rest _
      have h1 : Ok NoX s { s with inbox := rest } := J.same h rfl rfl rfl rfl rfl rfl
      exact h1.trans (replyHandler_ok h1.1 r)
  | ready rm p => exact readyHandler_ok h rm p
  | inboundBranch p g b o => exact h.ensure _
  | exit pid => exact exitHandler_ok h pid
  | destroyed p => exact destroyedHandler_ok h p
  | spawn rm pid =>
    dsimp only [handle]
    split
    · exact Ok.refl h
    · split <;> exact J.same h rfl rfl rfl rfl rfl rfl
  | scaleIn rm pid => exact J.same h rfl rfl rfl rfl rfl rfl
  | ipcGone i => exact J.same h rfl rfl rfl rfl rfl rfl
  | idle =>
    dsimp only [handle]
    split
    · exact Ok.refl h
    · exact h.persist
  | crash => exact restart_ok h.claims

theorem step_ok {s : State} (h : J s) (e : Event) : Ok NoX s (step s e) := by
  have general : ∀ e, e ≠ .crash → Ok NoX s (handle (s.emit (.ev e)) e) := by
    intro e he
    have h1 := h.emit (o := .ev e) trivial (by simpa using he)
    exact h1.trans (handle_ok h1.1 e (p1 := s.tr) rfl)
  have ite : ∀ e, e ≠ .crash → Ok NoX s (if s.halted then s else handle (s.emit (.ev e)) e) := by
    intro e he
    split
    · exact Ok.refl h
    · exact general e he
  cases e with
  | crash =>
    have h1 : Always Claim (s.emit (.ev .crash)).tr := h.claims.append (by simp [Claim])
    have h2 := restart_ok h1
    obtain ⟨a, l, hl⟩ := h2
    exact ⟨a, .ev .crash :: l, by show (s.emit (.ev .crash)).restart.tr = _; rw [hl]; simp [State.emit]⟩
  | _ => exact ite _ (by simp)

theorem init_J (self : Proc) : J (init self) :=
  ⟨by intro pre o post h; simp [init] at h, lite_empty, lite_empty, lite_empty, once_empty _, once_empty _, once_empty _,
    by simp [init, Out.empty], by simp [init, Out.empty], by simp [init, Out.empty], by simp [init], by simp [init]⟩

theorem run_ok {s : State} (h : J s) (es : List Event) : Ok NoX s (run s es) := by
  induction es generalizing s with
  | nil => exact Ok.refl h
  | cons e es ih => exact (step_ok h e).trans (ih (step_ok h e).1)

theorem reach_J (self : Proc) (es : List Event) : J (run (init self) es) := (run_ok (init_J self) es).1

end Casual.TM

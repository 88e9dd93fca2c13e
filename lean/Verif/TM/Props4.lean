import Verif.TM.Props3
import Verif.TM.Forget
/-!
# Properties of the transaction manager, fourth part: found while modelling, most of them false of the code
-/
namespace Casual.TM
open Casual.Code Casual.FanOut Sample

/-! ## C39: others are told to forget exactly the finished transaction -/

namespace Sample
/-- two transactions without resources to commit; the first one is committed -/
def twoEmpty : List Event := [.involved app t9 [] false, .involved app ⟨⟨10, 1⟩, 5⟩ [] false, .commit app 7 t9 []]
end Sample

/-- False: transaction 9 is finished, transaction 10 (still running) is announced as finished. -/
theorem told_to_forget_refuted :
    ∃ self es pre post g g', trace self es = pre ++ Obs.removed g :: Obs.disassociate (some g') :: post ∧ g ≠ g' ∧
      ∃ t ∈ (run (init self) es).txs, t.g = g' :=
  ⟨me, twoEmpty, (trace me twoEmpty).take 4, [], 9, 10, by decide +kernel, by decide, by decide +kernel⟩

/-- What holds: an announcement is made directly after a transaction has been removed; it is right unless the answer
just given said ok or read-only. -/
theorem told_to_forget_partial (self : Proc) (es : List Event) (pre post : List Obs) (d : Option Nat)
    (h : trace self es = pre ++ Obs.disassociate d :: post) :
    ∃ p g, pre = p ++ [.removed g] ∧
      (d = some g ∨ ∃ p' to a, p = p' ++ [.answer to a] ∧ (a.status = .tx .ok ∨ a.status = .xa .read_only)) :=
  reach_forget self es pre _ post h

example : Obs.disassociate (some 9) ∈ trace me mixed ∧ Obs.answer app ⟨.commit, 7, 9, 0, .tx .fail, some .rollback⟩ ∈ trace me mixed := by
  decide +kernel

/-! ## C40: a logged decision is carried out after a restart -/

/-- as long as nothing is queued, and nothing but events of the resources and time happens, nobody is sent anything -/
theorem quiet_run {s : State} (h1 : s.pending = []) (h2 : s.replies = []) (es : List Event) (he : ∀ e ∈ es, e.isEnv ∨ e = .idle)
    (r : Req) (p : Proc) (h : Obs.wire r p ∈ (run s es).tr) : Obs.wire r p ∈ s.tr := by
  have step1 : ∀ (s : State) (e : Event), s.pending = [] → s.replies = [] → (e.isEnv ∨ e = .idle) →
      (step s e).pending = [] ∧ (step s e).replies = [] ∧ (Obs.wire r p ∈ (step s e).tr → Obs.wire r p ∈ s.tr) := by
    intro s e h1 h2 he
    have hi : ∀ (s : State) rm pid, s.pending = [] → s.instReady rm pid = s := by
      intro s rm pid h; unfold State.instReady; rw [h]; rfl
    have hr : ∀ s : State, Obs.wire r p ∈ (s.emit (.ev e)).tr → Obs.wire r p ∈ s.tr := by
      intro s h; simpa [State.emit] using h
    have go : ∀ e' : Event, e' = e → (handle (s.emit (.ev e)) e').pending = [] ∧ (handle (s.emit (.ev e)) e').replies = [] ∧
        (Obs.wire r p ∈ (handle (s.emit (.ev e)) e').tr → Obs.wire r p ∈ s.tr) := by
      intro e' hee
      have he' : e'.isEnv ∨ e' = .idle := by rw [hee]; exact he
      cases e' with
      | ready rm p =>
        dsimp only [handle]
        unfold readyHandler
        split
        · refine ⟨rfl, rfl, ?_⟩
          intro h
          simpa [State.halt, State.emit] using h
        · dsimp only
          rw [hi _ _ _ (by exact h1)]
          exact ⟨h1, h2, hr s⟩
      | spawn rm pid =>
        dsimp only [handle]
        split
        · exact ⟨h1, h2, hr s⟩
        · split <;> exact ⟨h1, h2, hr s⟩
      | scaleIn rm pid => exact ⟨h1, h2, hr s⟩
      | ipcGone i => exact ⟨h1, h2, hr s⟩
      | idle =>
        dsimp only [handle]
        rw [if_pos (by exact h2)]
        exact ⟨h1, h2, hr s⟩
      | _ => rcases he' with h | h <;> cases h
    unfold step
    split
    · rcases he with h | h <;> cases h
    · split
      · exact ⟨h1, h2, fun h => h⟩
      · exact go _ rfl
  induction es generalizing s with
  | nil => exact h
  | cons e es ih =>
    obtain ⟨a, b, c⟩ := step1 s e h1 h2 (he e (by simp))
    exact c (ih a b (fun x hx => he x (by simp [hx])) h)

namespace Sample
/-- resource 1 has another transaction to commit first; the decision for transaction 9 is to commit, resource 2 has been
told, resource 1 not yet; the application has been told that the decision is durable -/
def halfTold : List Event := up ++ [.commit app 7 t9 [1, 2], .commit ⟨6, 66⟩ 8 ⟨⟨10, 1⟩, 6⟩ [1],
    .reply ⟨.prepare, 1, t9, 1, .ok, 11⟩, .reply ⟨.prepare, 2, t9, 2, .ok, 12⟩, .idle]
end Sample

/-- False: the application has been told "prepared" (the decision is durable), resource 2 has been told to commit, the
manager crashes and is restarted with the log intact; whatever resources start and whatever time passes, resource 1 is
never told to commit. -/
theorem decision_carried_out_refuted :
    ∃ self es, (∃ to a, Obs.answer to a ∈ trace self es ∧ Prepared a ∧ a.status = .tx .ok ∧ a.g = 9) ∧
      (∃ r p, Obs.wire r p ∈ trace self es ∧ r.kind = .commit ∧ r.trid = t9 ∧ r.rm = 2) ∧
      (∃ x ∈ (run (init self) (es ++ [.crash])).log.durable, x.g = 9) ∧
      ∀ es', (∀ e ∈ es', e.isEnv ∨ e = .idle) → ∀ r p, Obs.wire r p ∈ trace self (es ++ .crash :: es') →
        r.trid = t9 → r.rm = 1 → r.kind = .prepare := by
  refine ⟨me, halfTold, ⟨app, ⟨.commit, 7, 9, 0, .tx .ok, some .prepare⟩, by decide +kernel, .inl ⟨rfl, rfl⟩, rfl, rfl⟩,
    ⟨⟨.commit, 5, t9, 2, false⟩, ⟨12, 112⟩, by decide +kernel, rfl, rfl, rfl⟩, ⟨⟨9, 1⟩, by decide +kernel, rfl⟩, ?_⟩
  intro es' he r p hw ht hrm
  have hr : run (init me) (halfTold ++ .crash :: es') = run (run (init me) (halfTold ++ [.crash])) es' := by
    simp [run]
  have h1 : Obs.wire r p ∈ trace me (halfTold ++ [.crash]) := by
    unfold trace at hw ⊢
    rw [hr] at hw
    exact quiet_run (by decide +kernel) (by decide +kernel) es' he r p hw
  have : (trace me (halfTold ++ [.crash])).all (fun o => match o with
    | .wire r _ => !(r.trid = t9 && r.rm = 1) || r.kind = .prepare | _ => true) = true := by decide +kernel
  have := List.all_eq_true.mp this _ h1
  simp only [ht, hrm] at this
  simpa using this

/-! ## C41: a resource or a requester cannot take the manager down -/

/-- False: a resource instance dies, its answer arrives after the news of its death: the manager ends. -/
theorem late_reply_harmless_refuted :
    ∃ self es, (trace self es).getLast? = some .halted ∧ HonestReplies (trace self es) :=
  ⟨me, up ++ [.commit app 7 t9 [1, 2], .exit 11, .reply ⟨.prepare, 1, t9, 1, .ok, 11⟩], by decide +kernel,
    honest_of (by decide +kernel)⟩

/-- events of requesters, of configuration and of the environment (not replies, not announcements of resource processes, not the end of a
process or device) -/
def Event.harmless : Event → Prop
  | .commit .. | .rollback .. | .involved .. | .extInstance _ | .extInvolved .. | .extPrepare .. | .extCommit ..
  | .extRollback .. | .inboundBranch .. | .spawn .. | .scaleIn .. | .ipcGone _ | .idle => True
  | _ => False

theorem removeByRange_halted (s : State) (g : Nat) : (s.removeByRange g).halted = s.halted := by
  unfold State.removeByRange; dsimp only; split <;> rfl

theorem fireAll_halted {F : Type} (run : State → F → State) (hr : ∀ s f, (run s f).halted = s.halted) (s : State) (fs : List F) :
    (fireAll run s fs).halted = s.halted := by
  unfold fireAll
  induction fs generalizing s with
  | nil => rfl
  | cons f fs ih =>
    rw [List.foldl_cons, ih]
    split
    · rfl
    · exact hr s f

theorem runCommit_halted (s : State) (f : Fired Rep Int KFinal) : (runCommit s f).halted = s.halted := by
  unfold runCommit; dsimp only; rw [remove_halted]; rfl

theorem runRollback_halted (s : State) (f : Fired Rep Int KFinal) : (runRollback s f).halted = s.halted := by
  unfold runRollback; dsimp only
  split
  · split
    · rw [remove_halted]; rfl
    · rfl
  · rw [remove_halted]; rfl

theorem startCommit_halted (s : State) (t : Tx) (op : Bool) (k : KFinal) : (s.startCommit t op k).halted = s.halted := by
  have hc := (issueAll_core s .commit op t.targets).halted
  unfold State.startCommit State.regCommit
  dsimp only
  rw [fireAll_halted _ runCommit_halted]
  exact hc

theorem startRollback_halted (s : State) (t : Tx) (k : KFinal) : (s.startRollback t k).halted = s.halted := by
  have hc := (issueAll_core s .rollback false t.targets).halted
  unfold State.startRollback State.regRollback
  dsimp only
  rw [fireAll_halted _ runRollback_halted]
  exact hc

theorem runPrepare_empty_halted (s : State) (f : Fired Rep Int KPrepare) (h1 : f.received = []) (h2 : f.outcome = []) :
    (runPrepare s f).halted = s.halted := by
  unfold runPrepare
  dsimp only
  split
  · rfl
  · rw [h1, h2, if_pos (by decide), removeByRange_halted]; rfl

theorem startPrepare_halted (s : State) (t : Tx) (k : KPrepare) : (s.startPrepare t k).halted = s.halted := by
  have hc := (issueAll_core s .prepare false t.targets).halted
  unfold State.startPrepare State.regPrepare
  dsimp only
  generalize (s.issueAll .prepare false t.targets).1 = s1 at hc
  generalize (s.issueAll .prepare false t.targets).2 = reqs
  rcases register_entries s1.prep (toPending reqs) k with ⟨hn, h4⟩ | ⟨-, -, h4⟩
  · rw [h4]
    simp only [fireAll, List.foldl_cons, List.foldl_nil]
    split
    · exact hc
    · rw [runPrepare_empty_halted]
      · exact hc
      · rfl
      · rw [hn]; rfl
  · rw [h4]; exact hc

/-- What holds: no request, whatever it asks for and in whatever state the manager is, ends the manager. -/
theorem requests_never_halt_partial (s : State) (e : Event) (he : e.harmless) (hs : s.halted = false) :
    (step s e).halted = false := by
  have ens : ∀ (s : State) t, (s.ensure t).halted = s.halted := by intro s t; unfold State.ensure; split <;> rfl
  have ip : ∀ (s : State) t i, (s.involvePurge t i).halted = s.halted := fun s t i => ens s t
  have go : ∀ s : State, s.halted = false → (handle s e).halted = false := by
    intro s hs
    cases e with
    | commit p c t i =>
      dsimp only [handle]
      unfold commitRequest
      dsimp only
      split
      · exact (ip s t i).trans hs
      · split
        · exact (ip s t i).trans hs
        · split
          · rw [removeByRange_halted]; exact (ip s t i).trans hs
          · rw [startCommit_halted]; exact (ip s t i).trans hs
          · rw [startPrepare_halted]; exact (ip s t i).trans hs
    | rollback p c t i =>
      dsimp only [handle]
      unfold rollbackRequest
      dsimp only
      split
      · exact (ip s t i).trans hs
      · rw [startRollback_halted]; exact (ip s t i).trans hs
    | involved p t i r => exact (ens s t).trans hs
    | extInstance p =>
      dsimp only [handle]
      unfold State.extAdd
      dsimp only
      split <;> exact hs
    | extInvolved p t =>
      dsimp only [handle]
      refine (ens _ t).trans ?_
      unfold State.extId
      split <;> exact hs
    | extPrepare p c t r =>
      dsimp only [handle]
      unfold extPrepareRequest
      dsimp only
      split
      · exact hs
      · split
        · exact hs
        · split
          · rw [removeByRange_halted]; exact hs
          · rw [startPrepare_halted]; exact hs
    | extCommit p c t r o =>
      dsimp only [handle]
      unfold extCommitRequest
      dsimp only
      split
      · exact hs
      · split
        · rw [startCommit_halted]; exact hs
        · split
          · rw [startPrepare_halted]; exact hs
          · exact hs
    | extRollback p c t r =>
      dsimp only [handle]
      unfold extRollbackRequest
      dsimp only
      split
      · exact hs
      · split
        · exact hs
        · rw [startRollback_halted]; exact hs
    | inboundBranch p g b o => exact (ens s _).trans hs
    | spawn rm pid =>
      dsimp only [handle]
      split
      · exact hs
      · split <;> exact hs
    | scaleIn rm pid => exact hs
    | ipcGone i => exact hs
    | idle =>
      dsimp only [handle]
      split <;> exact hs
    | _ => exact he.elim
  unfold step
  split
  · exact he.elim
  · rw [if_neg (by simp [hs])]
    exact go _ hs

example : Event.harmless (.commit app 7 t9 [1, 2]) ∧ (run (init me) up).halted = false := ⟨trivial, by decide +kernel⟩

/-! ## C42: the "prepared" answer precedes the final one -/

namespace Sample
/-- both phases are over before the manager is idle -/
def quick : List Event := up ++ [.commit app 7 t9 [1, 2], .reply ⟨.prepare, 1, t9, 1, .ok, 11⟩, .reply ⟨.prepare, 2, t9, 2, .ok, 12⟩,
    .reply ⟨.commit, 3, t9, 1, .ok, 11⟩, .reply ⟨.commit, 4, t9, 2, .ok, 12⟩, .idle]
end Sample

/-- False: the "prepared" answer waits to be collected with others while the final answer does not: with quick resources
the application gets the final answer first, and a "prepared" answer for it later. -/
theorem prepared_before_final_refuted :
    ∃ self es pre mid post to a b, trace self es = pre ++ Obs.answer to a :: (mid ++ Obs.answer to b :: post) ∧
      a.corr = b.corr ∧ a.g = b.g ∧ Final a ∧ Prepared b ∧ (trace self es).countP (isRequest .commit to a.corr) = 1 := by
  refine ⟨me, quick, (trace me quick).take 24, [.removed 9, .disassociate (some 9), .ev .idle, .persisted], [], app, ⟨.commit, 7, 9, 0, .tx .ok, some .commit⟩,
    ⟨.commit, 7, 9, 0, .tx .ok, some .prepare⟩, ?_, rfl, rfl, .inl ⟨rfl, by simp, by simp⟩, .inl ⟨rfl, rfl⟩, by decide +kernel⟩
  decide +kernel

/-! ## C43, C44: read-only -/

namespace Sample
/-- upstream asks to prepare; resource 1 votes ok, resource 2 does not know the transaction -/
def halfKnown : List Event := up ++ [.involved ⟨6, 66⟩ t9 [1, 2] false, .extPrepare app 7 t9 5,
  .reply ⟨.prepare, 1, t9, 1, .ok, 11⟩, .reply ⟨.prepare, 2, t9, 2, .invalid_xid, 12⟩, .idle]
/-- the same with a one-phase commit -/
def halfKnownCommit : List Event := up ++ [.involved ⟨6, 66⟩ t9 [1, 2] false, .extCommit app 7 t9 5 true,
  .reply ⟨.prepare, 1, t9, 1, .ok, 11⟩, .reply ⟨.prepare, 2, t9, 2, .invalid_xid, 12⟩,
  .reply ⟨.rollback, 3, t9, 1, .ok, 11⟩, .reply ⟨.rollback, 4, t9, 2, .invalid_xid, 12⟩]
end Sample

/-- False: a resource has prepared, the upstream coordinator is told read-only (so it forgets the transaction), and
nobody tells the resource anything. -/
theorem read_only_vote_refuted :
    ∃ self es to a m, Obs.answer to a ∈ trace self es ∧ a.rtype = .resPrepare ∧ a.status = .xa .read_only ∧
      Obs.got m ∈ trace self es ∧ m.kind = .prepare ∧ m.code = .ok ∧ m.trid.xid.g = a.g ∧
      (∀ q ∈ requests (trace self es), q.1 = .prepare) ∧
      (run (init self) es).prep.entries = [] ∧ (run (init self) es).com.entries = [] ∧
      (run (init self) es).rol.entries = [] ∧ (run (init self) es).inbox = [] ∧ (run (init self) es).replies = [] :=
  ⟨me, halfKnown, app, ⟨.resPrepare, 7, 9, 5, .xa .read_only, none⟩, ⟨.prepare, 1, t9, 1, .ok, 11⟩,
    by decide +kernel, rfl, rfl, by decide +kernel, rfl, rfl, rfl, by decide +kernel, by decide +kernel, by decide +kernel,
    by decide +kernel, by decide +kernel, by decide +kernel⟩

/-- what holds: if no resource says that it does not know the transaction, the combined vote is read-only only if every
vote is read-only and no resource has failed -/
theorem read_only_vote_partial (recv : List Rep) (out : List (Pending Int)) (h : accumulate .prepare recv out .read_only = .read_only) :
    out.any (fun p => p.state = .failed) = false ∧ ∀ m ∈ recv, m.code = .read_only := by
  have h1 : 21 ≤ toOrder (accumulate .prepare recv out .read_only) := by rw [h]; decide
  refine ⟨(accumulate_good h1).1, ?_⟩
  intro m hm
  have := (accumulate_le h1).2 m hm
  rw [h] at this
  exact ro_of_order this

example : accumulate .prepare [⟨.prepare, 1, t9, 1, .read_only, 11⟩] [{ state := .received, corr := 1, id := 1 }] .read_only = .read_only := by decide

/-- False: asked to commit in one phase, a resource votes ok and is then rolled back, and the upstream coordinator is told
read-only, i.e. success. -/
theorem upstream_commit_read_only_refuted :
    ∃ self es to a r p, Obs.answer to a ∈ trace self es ∧ a.rtype = .resCommit ∧ a.status = .xa .read_only ∧
      Obs.wire r p ∈ trace self es ∧ r.kind = .rollback ∧ r.rm = 1 ∧ r.trid.xid.g = a.g ∧
      (∃ m, Obs.got m ∈ trace self es ∧ m.kind = .prepare ∧ m.code = .ok ∧ m.rm = 1 ∧ m.trid = r.trid) ∧
      ∀ q ∈ requests (trace self es), q.1 ≠ .commit :=
  ⟨me, halfKnownCommit, app, ⟨.resCommit, 7, 9, 5, .xa .read_only, none⟩, ⟨.rollback, 3, t9, 1, false⟩, ⟨11, 111⟩,
    by decide +kernel, rfl, rfl, by decide +kernel, rfl, rfl, rfl, ⟨⟨.prepare, 1, t9, 1, .ok, 11⟩, by decide +kernel, rfl, rfl, rfl, rfl⟩,
    by decide +kernel⟩

end Casual.TM

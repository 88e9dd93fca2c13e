import Verif.TM.Frame
import Verif.TM.Spec
import Verif.Util
/-!
# Equations between the trace and the state

* the log is what a replay of the log observations gives;
* the requests issued are, in order, the requests of the fan-outs started.
-/
namespace Casual.TM
open Casual.Code Casual.FanOut

/-- effect of one observation on the log: independent reading of what the log contains -/
def logStep (l : Log) : Obs → Log
  | .logged _ rows => { l with current := l.current ++ rows }
  | .removed g => { l with current := l.current.filter (fun x => x.g ≠ g) }
  | .persisted => { l with durable := l.current }
  | .halted => { l with durable := l.current }
  | .ev .crash => { l with current := l.durable }
  | _ => l

def replay (tr : List Obs) : Log := tr.foldl logStep ⟨[], []⟩

def issuedSeq (tr : List Obs) : List (Kind × Trid × Int × Bool) := (tr.filterMap issued?).map Req.core

def fanoutReqs : Obs → List (Kind × Trid × Int × Bool)
  | .fanout _ _ _ _ reqs => reqs.map Req.core
  | _ => []

def fanoutSeq (tr : List Obs) : List (Kind × Trid × Int × Bool) := tr.flatMap fanoutReqs

/-- whenever a request is issued, all requests of the other kinds issued so far belong to a fan-out already
registered -/
def Ordered (pre : List Obs) : Obs → Prop
  | .issued r => ∃ d, issuedSeq pre = fanoutSeq pre ++ d ∧ ∀ x ∈ d, x.1 = r.kind
  | _ => True

theorem Always.grow {Q : List Obs → Obs → Prop} {tr l : List Obs} (h : Always Q tr)
    (hl : ∀ a o b, l = a ++ o :: b → Q (tr ++ a) o) : Always Q (tr ++ l) := by
  intro pre o post he
  rcases List.append_eq_append_iff.mp he with ⟨a, h1, h2⟩ | ⟨a, h1, h2⟩
  · rw [h1]; exact hl a o post h2
  · cases a with
    | nil =>
      rw [List.append_nil] at h1
      rw [← h1]
      have := hl [] o post (by simpa using h2.symm)
      simpa using this
    | cons x a =>
      rw [List.cons_append, List.cons.injEq] at h2
      obtain ⟨rfl, -⟩ := h2
      exact h pre o a h1

theorem Always.growO {tr l : List Obs} (h : Always Ordered tr) (hl : ∀ o ∈ l, issued? o = none) :
    Always Ordered (tr ++ l) := by
  refine h.grow ?_
  intro a o b he
  have : issued? o = none := hl o (by rw [he]; simp)
  cases o <;> simp_all [Ordered, issued?]

/-- `d`: requests issued whose fan-out is not registered yet -/
structure EX (d : List (Kind × Trid × Int × Bool)) (s : State) : Prop where
  log : s.log = replay s.tr
  seq : issuedSeq s.tr = fanoutSeq s.tr ++ d
  ord : Always Ordered s.tr

abbrev E := EX []

def Neutral (o : Obs) : Prop := (∀ l, logStep l o = l) ∧ issued? o = none ∧ fanoutReqs o = []

variable {d : List (Kind × Trid × Int × Bool)}

theorem replay_append (a b : List Obs) : replay (a ++ b) = b.foldl logStep (replay a) := by
  simp [replay]

theorem issuedSeq_append (a b : List Obs) : issuedSeq (a ++ b) = issuedSeq a ++ issuedSeq b := by
  simp [issuedSeq]

theorem fanoutSeq_append (a b : List Obs) : fanoutSeq (a ++ b) = fanoutSeq a ++ fanoutSeq b := by
  simp [fanoutSeq]

theorem neutral_fold {l : List Obs} (h : ∀ o ∈ l, Neutral o) (x : Log) : l.foldl logStep x = x := by
  induction l generalizing x with
  | nil => rfl
  | cons o l ih =>
    rw [List.foldl_cons, (h o (by simp)).1, ih (fun o ho => h o (by simp [ho]))]

theorem neutral_issued {l : List Obs} (h : ∀ o ∈ l, Neutral o) : issuedSeq l = [] := by
  unfold issuedSeq
  rw [List.map_eq_nil_iff, List.filterMap_eq_nil_iff]
  exact fun o ho => (h o ho).2.1

theorem neutral_fanout {l : List Obs} (h : ∀ o ∈ l, Neutral o) : fanoutSeq l = [] := by
  unfold fanoutSeq
  rw [List.flatMap_eq_nil_iff]
  exact fun o ho => (h o ho).2.2

theorem EX.neutral {s s' : State} (h : EX d s) (hl : s'.log = s.log) {l : List Obs} (ht : s'.tr = s.tr ++ l)
    (hn : ∀ o ∈ l, Neutral o) : EX d s' := by
  refine ⟨by rw [hl, ht, replay_append, neutral_fold hn, h.log], ?_, ht ▸ h.ord.growO (fun o ho => (hn o ho).2.1)⟩
  rw [ht, issuedSeq_append, fanoutSeq_append, neutral_issued hn, neutral_fanout hn]
  simpa using h.seq

theorem EX.same {s s' : State} (h : EX d s) (hl : s'.log = s.log) (ht : s'.tr = s.tr) : EX d s' :=
  h.neutral hl (l := []) (by simpa using ht) (by simp)

theorem EX.emit {s : State} (h : EX d s) {o : Obs} (ho : Neutral o) : EX d (s.emit o) :=
  h.neutral rfl (l := [o]) rfl (by simpa using ho)

theorem neutral_answer (to : Proc) (a : Answer) : Neutral (.answer to a) := ⟨fun _ => rfl, rfl, rfl⟩
theorem neutral_ev {e : Event} (he : e ≠ .crash) : Neutral (.ev e) :=
  ⟨fun l => by cases e <;> first | rfl | exact absurd rfl he, rfl, rfl⟩

/-- an observation with an effect on the log only -/
theorem EX.logObs {s s' : State} (h : EX d s) (o : Obs) {l : List Obs} (ht : s'.tr = s.tr ++ o :: l)
    (hl : s'.log = logStep s.log o) (ho : issued? o = none ∧ fanoutReqs o = []) (hn : ∀ o ∈ l, Neutral o) : EX d s' := by
  refine ⟨?_, ?_, ht ▸ h.ord.growO ?_⟩
  rotate_left 2
  · intro x hx
    rcases List.mem_cons.mp hx with rfl | hx
    · exact ho.1
    · exact (hn x hx).2.1
  · rw [hl, ht, replay_append, List.foldl_cons, neutral_fold hn, h.log]
  · have h1 : issuedSeq (o :: l) = [] := by
      have : o :: l = [o] ++ l := rfl
      rw [this, issuedSeq_append, neutral_issued hn]
      simp [issuedSeq, ho.1]
    have h2 : fanoutSeq (o :: l) = [] := by
      have : o :: l = [o] ++ l := rfl
      rw [this, fanoutSeq_append, neutral_fanout hn]
      simp [fanoutSeq, ho.2]
    rw [ht, issuedSeq_append, fanoutSeq_append, h1, h2]
    simpa using h.seq

theorem EX.halt {s : State} (h : EX d s) : EX d s.halt :=
  h.logObs .halted (l := []) rfl rfl ⟨rfl, rfl⟩ (by simp)

theorem EX.persist {s : State} (h : EX d s) : EX d s.persist :=
  h.logObs .persisted rfl rfl ⟨rfl, rfl⟩ (by
    intro o ho
    obtain ⟨x, _, rfl⟩ := List.mem_map.mp ho
    exact neutral_answer _ _)

theorem neutral_dis (g : Option Nat) : Neutral (.disassociate g) := ⟨fun _ => rfl, rfl, rfl⟩

theorem EX.remove {s : State} (h : EX d s) (g : Nat) : EX d (s.remove g) := by
  unfold State.remove
  dsimp only
  split
  · exact h.logObs (.removed g) rfl rfl ⟨rfl, rfl⟩ (by simpa using neutral_dis _)
  · exact h.logObs (.removed g) (l := []) rfl rfl ⟨rfl, rfl⟩ (by simp)

theorem EX.removeByRange {s : State} (h : EX d s) (g : Nat) : EX d (s.removeByRange g) := by
  unfold State.removeByRange
  dsimp only
  split
  · exact h.logObs (.removed g) rfl rfl ⟨rfl, rfl⟩ (by simpa using neutral_dis _)
  · exact h.logObs (.removed g) (l := []) rfl rfl ⟨rfl, rfl⟩ (by simp)

theorem EX.ensure {s : State} (h : EX d s) (t : Trid) : EX d (s.ensure t) := by
  unfold State.ensure; split
  · exact h
  · exact h.same rfl rfl

theorem EX.modify {s : State} (h : EX d s) (g : Nat) (f : Tx → Tx) : EX d (s.modify g f) := h.same rfl rfl

theorem EX.involve {s : State} (h : EX d s) (t : Trid) (l : List Int) : EX d (s.involve t l) := (h.ensure t).modify _ _
theorem EX.involvePurge {s : State} (h : EX d s) (t : Trid) (l : List Int) : EX d (s.involvePurge t l) := (h.ensure t).modify _ _

theorem EX.persistReply {s : State} (h : EX d s) (to : Proc) (a : Answer) : EX d (s.persistReply to a) := by
  unfold State.persistReply
  dsimp only
  have h1 : EX d { s with replies := s.replies ++ [(to, a)] } := h.same rfl rfl
  split
  · exact h1.persist
  · exact h1

theorem EX.logPrepare {s : State} (h : EX d s) (t : Tx) : EX d (s.logPrepare t) := by
  unfold State.logPrepare
  dsimp only
  split
  · exact h.halt
  · exact h.logObs (.logged t.g _) (l := []) rfl rfl ⟨rfl, rfl⟩ (by simp)

theorem EX.logTx {s : State} (h : EX d s) (g : Nat) : EX d (s.logTx g) := by
  unfold State.logTx; split
  · exact h.logPrepare _
  · exact h

theorem E.runCommit {s : State} (h : E s) (f : Fired Rep Int KFinal) : E (runCommit s f) := by
  unfold TM.runCommit
  exact (h.emit (neutral_answer _ _)).remove _

theorem E.runRollback {s : State} (h : E s) (f : Fired Rep Int KFinal) : E (runRollback s f) := by
  unfold TM.runRollback
  dsimp only
  split
  · have h1 : E (s.emit (.selfRollback f.callback.origin (mkAnswer f.callback.rtype f.callback.origin f.callback.dest
        (accumulate .rollback f.received f.outcome f.callback.code) (some .rollback)).status)) :=
      h.emit ⟨fun _ => rfl, rfl, rfl⟩
    split
    · exact h1.remove _
    · exact h1
  · exact (h.emit (neutral_answer _ _)).remove _

theorem E.fireAll {F : Type} (run : State → F → State) (hrun : ∀ s f, E s → E (run s f)) (s : State) (h : E s)
    (fs : List F) : E (fireAll run s fs) := by
  induction fs generalizing s with
  | nil => exact h
  | cons f fs ih =>
    unfold TM.fireAll
    rw [List.foldl_cons]
    apply ih
    split
    · exact h
    · exact hrun s f h

/-- register the fan-out of the requests just issued -/
theorem EX.fanout {s s' : State} {kind : Kind} {rt : RType} {o : Trid} {dst : Dest} {reqs : List Req}
    (h : EX (reqs.map Req.core) s) (hl : s'.log = s.log) (ht : s'.tr = s.tr ++ [.fanout kind rt o dst reqs]) : E s' := by
  refine ⟨by rw [hl, ht, replay_append]; exact h.log, ?_, ht ▸ h.ord.growO (by simp [issued?])⟩
  rw [ht, issuedSeq_append, fanoutSeq_append, h.seq]
  simp [issuedSeq, fanoutSeq, fanoutReqs, issued?]

theorem E.issueAll {s : State} (h : E s) (kind : Kind) (op : Bool) (l : List (Trid × Int)) :
    EX ((s.issueAll kind op l).2.map Req.core) (s.issueAll kind op l).1 := by
  obtain ⟨o, h1, h2, h3⟩ := issueAll_tr s kind op l
  have hc := issueAll_core s kind op l
  refine ⟨?_, ?_, h1 ▸ h.ord.grow ?_⟩
  rotate_left 2
  · intro a x b he
    cases x with
    | issued r =>
      refine ⟨issuedSeq a, ?_, ?_⟩
      · have : fanoutSeq a = [] := by
          unfold fanoutSeq
          rw [List.flatMap_eq_nil_iff]
          intro x hx
          rcases h2 x (by rw [he]; simp [hx]) with h | ⟨r, rfl⟩
          · cases x <;> simp_all [IsSend, fanoutReqs]
          · rfl
        rw [issuedSeq_append, fanoutSeq_append, h.seq, this]
      · intro x hx
        have hm : ∀ y ∈ (o.filterMap issued?).map Req.core, y.1 = kind := by
          rw [h3]; intro y hy; obtain ⟨z, -, rfl⟩ := List.mem_map.mp hy; rfl
        have h4 : x.1 = kind := hm x (by
          rw [he, List.filterMap_append, List.map_append]; exact List.mem_append_left _ hx)
        have h5 : r.core.1 = kind := hm r.core (List.mem_map_of_mem (by
          rw [he, List.filterMap_append]; exact List.mem_append_right _ (by simp [issued?])))
        rw [h4]; exact h5.symm
    | _ => trivial
  · rw [hc.log, h1, replay_append, h.log]
    have : ∀ (o : List Obs), (∀ x ∈ o, IsSend x ∨ ∃ r, x = .issued r) → ∀ y, o.foldl logStep y = y := by
      intro o
      induction o with
      | nil => intro _ _; rfl
      | cons a o ih =>
        intro ho y
        rw [List.foldl_cons, ih (fun x hx => ho x (by simp [hx]))]
        rcases ho a (by simp) with h | ⟨r, rfl⟩
        · cases a <;> simp_all [IsSend, logStep]
        · rfl
    rw [this o h2]
  · rw [h1, issuedSeq_append, fanoutSeq_append, h.seq, issueAll_reqs]
    have : fanoutSeq o = [] := by
      unfold fanoutSeq
      rw [List.flatMap_eq_nil_iff]
      intro x hx
      rcases h2 x hx with h | ⟨r, rfl⟩
      · cases x <;> simp_all [IsSend, fanoutReqs]
      · rfl
    rw [this]
    simp only [issuedSeq, h3, List.append_nil]

theorem E.regCommit {s : State} {reqs : List Req} (h : EX (reqs.map Req.core) s) (k : KFinal) : E (s.regCommit reqs k) := by
  unfold State.regCommit
  refine E.fireAll _ (fun _ f h => h.runCommit f) _ ?_ _
  exact h.fanout rfl rfl

theorem E.regRollback {s : State} {reqs : List Req} (h : EX (reqs.map Req.core) s) (k : KFinal) : E (s.regRollback reqs k) := by
  unfold State.regRollback
  refine E.fireAll _ (fun _ f h => h.runRollback f) _ ?_ _
  exact h.fanout rfl rfl

theorem E.runPrepare {s : State} (h : E s) (f : Fired Rep Int KPrepare) : E (runPrepare s f) := by
  unfold TM.runPrepare
  dsimp only
  split
  · exact h.emit ⟨fun _ => rfl, rfl, rfl⟩
  have h1 := h.modify f.callback.origin.xid.g (fun t => (t.setStage .post_prepare).purgeReplies
      (f.received.filter (fun r => decide (r.code = .read_only))))
  split
  · exact (h1.emit (neutral_answer _ _)).removeByRange _
  split
  · have h2 := h1.logTx f.callback.origin.xid.g
    split
    · exact h2
    split
    · exact h2.persistReply _ _
    · refine E.regCommit (E.issueAll (EX.modify ?_ _ _) _ _ _) _
      split
      · exact h2.persistReply _ _
      · exact h2
  · split
    · exact h1.emit (neutral_answer _ _)
    · exact E.regRollback (E.issueAll (h1.modify _ _) _ _ _) _

theorem E.regPrepare {s : State} {reqs : List Req} (h : EX (reqs.map Req.core) s) (k : KPrepare) : E (s.regPrepare reqs k) := by
  unfold State.regPrepare
  refine E.fireAll _ (fun _ f h => h.runPrepare f) _ ?_ _
  exact h.fanout rfl rfl

theorem E.startPrepare {s : State} (h : E s) (t : Tx) (k : KPrepare) : E (s.startPrepare t k) :=
  E.regPrepare (h.issueAll _ _ _) _
theorem E.startCommit {s : State} (h : E s) (t : Tx) (op : Bool) (k : KFinal) : E (s.startCommit t op k) :=
  E.regCommit (h.issueAll _ _ _) _
theorem E.startRollback {s : State} (h : E s) (t : Tx) (k : KFinal) : E (s.startRollback t k) :=
  E.regRollback (h.issueAll _ _ _) _

theorem E.commitRequest {s : State} (h : E s) (p c t i) : E (commitRequest s p c t i) := by
  unfold TM.commitRequest
  dsimp only
  have h1 := h.involvePurge t i
  split
  · exact h1
  split
  · exact h1.emit (neutral_answer _ _)
  split
  · exact ((h1.modify _ _).emit (neutral_answer _ _)).removeByRange _
  · exact E.startCommit ((h1.modify _ _).modify _ _) _ _ _
  · exact E.startPrepare ((h1.modify _ _).modify _ _) _ _

theorem E.rollbackRequest {s : State} (h : E s) (p c t i) : E (rollbackRequest s p c t i) := by
  unfold TM.rollbackRequest
  dsimp only
  have h1 := h.involvePurge t i
  split
  · exact h1
  · exact E.startRollback (h1.modify _ _) _ _

theorem E.instReady {s : State} (h : E s) (rm : Int) (pid : Nat) : E (s.instReady rm pid) := by
  unfold State.instReady
  split
  · exact h
  split
  · exact h
  rename_i r rest _ _ i _
  dsimp only
  have h1 : E { s with pending := rest } := h.same rfl rfl
  split
  · exact h1.emit ⟨fun _ => rfl, rfl, rfl⟩
  · have h2 : E ({ s with pending := rest }.emit (.wire r ⟨i.pid, i.ipc⟩)) := h1.emit ⟨fun _ => rfl, rfl, rfl⟩
    split
    · exact h2.same rfl rfl
    · exact h2.halt

theorem E.replied {s : State} (h : E s) (rm : Int) (pid : Nat) : E (s.replied rm pid) := by
  unfold State.replied
  split
  · split
    · exact h.halt
    · refine E.instReady ?_ _ _
      exact h.same rfl rfl
  · exact h

theorem E.replyHandler {s : State} (h : E s) (r : Rep) : E (replyHandler s r) := by
  unfold TM.replyHandler
  dsimp only
  have h1 : E ((s.emit (.got r)).replied r.rm r.pid) := E.replied (h.emit ⟨fun _ => rfl, rfl, rfl⟩) _ _
  split
  · exact h1
  split
  · refine E.fireAll _ (fun _ f h => h.runPrepare f) _ ?_ _
    exact h1.same rfl rfl
  · refine E.fireAll _ (fun _ f h => h.runCommit f) _ ?_ _
    exact h1.same rfl rfl
  · refine E.fireAll _ (fun _ f h => h.runRollback f) _ ?_ _
    exact h1.same rfl rfl

theorem E.failedRm {s : State} (h : E s) (rm : Int) : E (s.failedRm rm) := by
  unfold State.failedRm
  dsimp only
  have h0 : E (s.emit (.failed rm)) := h.emit ⟨fun _ => rfl, rfl, rfl⟩
  have h1 : E (TM.fireAll TM.runPrepare
    { s.emit (.failed rm) with prep := ((s.emit (.failed rm)).prep.fail rm).1 }
    ((s.emit (.failed rm)).prep.fail rm).2) := by
    refine E.fireAll TM.runPrepare (fun _ f h => h.runPrepare f) _ ?_ _
    exact h0.same rfl rfl
  split
  · exact h1
  generalize TM.fireAll TM.runPrepare
    { s.emit (.failed rm) with prep := ((s.emit (.failed rm)).prep.fail rm).1 }
    ((s.emit (.failed rm)).prep.fail rm).2 = s1 at h1 ⊢
  have h2 : E (TM.fireAll TM.runCommit { s1 with com := (s1.com.fail rm).1 } (s1.com.fail rm).2) := by
    refine E.fireAll TM.runCommit (fun _ f h => h.runCommit f) _ ?_ _
    exact h1.same rfl rfl
  generalize TM.fireAll TM.runCommit { s1 with com := (s1.com.fail rm).1 } (s1.com.fail rm).2 = s2 at h2 ⊢
  refine E.fireAll TM.runRollback (fun _ f h => h.runRollback f) _ ?_ _
  exact h2.same rfl rfl

theorem E.foldl {A : Type} (f : State → A → State) (hf : ∀ s a, E s → E (f s a)) (l : List A) (s : State)
    (h : E s) : E (l.foldl (fun s a => if s.halted then s else f s a) s) := by
  induction l generalizing s with
  | nil => exact h
  | cons a l ih =>
    rw [List.foldl_cons]
    apply ih
    split
    · exact h
    · exact hf s a h

theorem E.exitHandler {s : State} (h : E s) (pid : Nat) : E (exitHandler s pid) := by
  unfold TM.exitHandler
  split
  · exact h.same rfl rfl
  · dsimp only
    refine E.foldl (fun s (t : Trid) => TM.rollbackRequest s s.self 0 t []) (fun s t hs => hs.rollbackRequest _ _ _ _) _ _ ?_
    have h1 := E.foldl (fun s (e : Ext) => s.failedRm e.id) (fun s e hs => hs.failedRm e.id)
      (s.externals.filter (fun e => decide (e.proc.pid = pid))) s h
    exact h1.same rfl rfl

theorem E.handle {s : State} (h : E s) (e : Event) (he : e ≠ .crash) : E (handle s e) := by
  cases e with
  | commit p c t i => exact h.commitRequest p c t i
  | rollback p c t i => exact h.rollbackRequest p c t i
  | involved p t i r => exact (h.ensure _).modify _ _
  | extInstance p =>
    dsimp only [TM.handle]
    unfold State.extAdd
    dsimp only
    split <;> exact h.same rfl rfl
  | extInvolved p t =>
    dsimp only [TM.handle]
    refine EX.involve ?_ _ _
    unfold State.extId
    split
    · exact h
    · exact h.same rfl rfl
  | extPrepare p c t r =>
    dsimp only [TM.handle]
    unfold extPrepareRequest
    dsimp only
    split
    · exact h.emit (neutral_answer _ _)
    split
    · exact h.emit (neutral_answer _ _)
    split
    · exact (EX.emit h (neutral_answer _ _)).removeByRange _
    · exact E.startPrepare (h.modify _ _) _ _
  | extCommit p c t r o =>
    dsimp only [TM.handle]
    unfold extCommitRequest
    dsimp only
    split
    · exact h.emit (neutral_answer _ _)
    split
    · exact E.startCommit (h.modify _ _) _ _ _
    split
    · exact E.startPrepare (h.modify _ _) _ _
    · exact h.emit (neutral_answer _ _)
  | extRollback p c t r =>
    dsimp only [TM.handle]
    unfold extRollbackRequest
    dsimp only
    split
    · exact h.emit (neutral_answer _ _)
    split
    · exact h.emit (neutral_answer _ _)
    · exact E.startRollback (h.modify _ _) _ _
  | reply r => exact h.replyHandler r
  | consume =>
    dsimp only [TM.handle]
    split
    · exact h
    · refine E.replyHandler ?_ _
      exact h.same rfl rfl
  | ready rm p =>
    dsimp only [TM.handle]
    unfold readyHandler
    split
    · exact h.halt
    · refine E.instReady ?_ _ _
      exact h.same rfl rfl
  | inboundBranch p g b o => exact h.ensure _
  | exit pid => exact h.exitHandler pid
  | destroyed p =>
    dsimp only [TM.handle]
    unfold destroyedHandler
    split
    · exact h
    · exact EX.same (E.failedRm h _) rfl rfl
  | spawn rm pid =>
    dsimp only [TM.handle]
    split
    · exact h
    · split <;> exact h.same rfl rfl
  | scaleIn rm pid => exact h.same rfl rfl
  | ipcGone i => exact h.same rfl rfl
  | idle =>
    dsimp only [TM.handle]
    split
    · exact h
    · exact h.persist
  | crash => exact absurd rfl he

theorem E.step {s : State} (h : E s) (e : Event) : E (step s e) := by
  have ite : ∀ e, e ≠ .crash → E (if s.halted then s else TM.handle (s.emit (.ev e)) e) := by
    intro e he
    split
    · exact h
    · exact E.handle (h.emit (neutral_ev he)) e he
  cases e with
  | crash => exact h.logObs (.ev .crash) (l := []) rfl rfl ⟨rfl, rfl⟩ (by simp)
  | _ => exact ite _ (by simp)

theorem E.run {s : State} (h : E s) (es : List Event) : E (run s es) := by
  induction es generalizing s with
  | nil => exact h
  | cons e es ih => exact ih (h.step e)

theorem reach_E (self : Proc) (es : List Event) : E (run (init self) es) :=
  E.run ⟨rfl, rfl, fun pre o post h => by simp [init] at h⟩ es

end Casual.TM

import Verif.TM.Frame
import Verif.TM.Just4
import Verif.Util
/-!
# What the handlers are made of

`Closed G P`: the predicate `P` is kept by each of the primitive changes the handlers are made of.
`Closed.step`: then it is kept by every event.  `G` restricts the global ids for which transaction
state may be created.
-/
namespace Casual.TM
open Casual.Code Casual.FanOut

/-- the final answer to an application's commit or rollback request (a commit may be preceded by a
"prepared" answer; a refused request is no answer in this sense) -/
def Final (a : Answer) : Prop :=
  (a.rtype = .commit ∧ a.stage ≠ some .prepare ∧ a.status ≠ .tx .protocol) ∨ a.rtype = .rollback

/-- the answer says ok or read-only -/
def SaysOk (a : Answer) : Prop := a.status = .tx .ok ∨ a.status = .xa .read_only

theorem mkAnswer_ok (rt : RType) (o : Trid) (d : Dest) (st : Option AStage) : SaysOk (mkAnswer rt o d .read_only st) := by
  unfold mkAnswer SaysOk; cases rt <;> first | exact .inl rfl | exact .inr rfl

/-- observations that say nothing about requests on the wire, the log or the transaction table -/
def Plain : Obs → Prop
  | .answer _ a => ¬ Final a
  | .fanout .. | .ignored .. | .selfRollback .. | .failed _ => True
  | _ => False

/-- the start of a prepare phase -/
def IsPrep : Obs → Prop
  | .fanout .prepare .. => True
  | _ => False

/-- the changes made to a transaction, the trace being `tr` -/
inductive TxOp (g : Nat) (tr : List Obs) : (Tx → Tx) → Prop
  | stage (st : Stage) : TxOp g tr (Tx.setStage st)
  | owner (p : Proc) : TxOp g tr (fun t => { t with owner := p })
  | post (rs : List Rep) (h : ∀ r ∈ rs, Obs.got r ∈ tr ∧ r.code = .read_only) : TxOp g tr (fun t => (t.setStage .post_prepare).purgeReplies rs)
  | rollback (p : Proc) : TxOp g tr (fun t => { t.setStage .rollback with owner := p })
  | involve (trid : Trid) (rms : List Int) (h : trid.xid.g = g) :
      TxOp g tr (fun t => { t with branches := involveBranch trid rms t.branches })
  | involvePurge (trid : Trid) (rms : List Int) (h : trid.xid.g = g) :
      TxOp g tr (fun t => Tx.purge { t with branches := involveBranch trid rms t.branches })

structure Closed (G : Nat → Prop) (P : State → Prop) : Prop where
  plain : ∀ s o, Plain o → ¬ IsPrep o → P s → P (s.emit o)
  start : ∀ (s : State) (t : Tx) (k : KPrepare) (reqs : List Req),
    s.find k.origin.xid.g = some t → t.stage = .involved → reqs.map (fun q => (q.trid, q.rm)) = t.targets → P s →
    P (((s.modify k.origin.xid.g (Tx.setStage .prepare)).issueAll .prepare false t.targets).1.emit
      (.fanout .prepare k.rtype k.origin k.dest reqs))
  prep : ∀ s o, P s → P { s with prep := o }
  com : ∀ s o, P s → P { s with com := o }
  rol : ∀ s o, P s → P { s with rol := o }
  issue : ∀ (s : State) kind op t rm, P s →
    P ({ s with nextCorr := s.nextCorr + 1 }.issue ⟨kind, s.nextCorr, t, rm, op⟩).1
  modify : ∀ (s : State) g f, TxOp g s.tr f → P s → P (s.modify g f)
  ensure : ∀ s t, G t.xid.g → P s → P (s.ensure t)
  remove : ∀ s g, P s → P (s.remove g)
  done : ∀ s to a g, (Final a → a.g = g) → P s → P ((s.emit (.answer to a)).remove g)
  doneByRange : ∀ s to a g, (Final a → a.g = g) → SaysOk a → P s → P ((s.emit (.answer to a)).removeByRange g)
  queue : ∀ (s : State) x, ¬ Final x.2 → P s → P { s with replies := s.replies ++ [x] }
  persist : ∀ s, P s → P s.persist
  logTx : ∀ s g, P s → P (s.logTx g)
  halt : ∀ s, P s → P s.halt
  ext : ∀ s x n, P s → P { s with externals := x, nextExt := n }
  inbox : ∀ s x, P s → P { s with inbox := x }
  replied : ∀ s r, P s → P ((s.emit (.got r)).replied r.rm r.pid)

/-- the same with nothing known about the start of a prepare phase -/
structure ClosedS (G : Nat → Prop) (P : State → Prop) : Prop where
  plain : ∀ s o, Plain o → P s → P (s.emit o)
  prep : ∀ s o, P s → P { s with prep := o }
  com : ∀ s o, P s → P { s with com := o }
  rol : ∀ s o, P s → P { s with rol := o }
  issue : ∀ (s : State) kind op t rm, P s →
    P ({ s with nextCorr := s.nextCorr + 1 }.issue ⟨kind, s.nextCorr, t, rm, op⟩).1
  modify : ∀ (s : State) g f, TxOp g s.tr f → P s → P (s.modify g f)
  ensure : ∀ s t, G t.xid.g → P s → P (s.ensure t)
  remove : ∀ s g, P s → P (s.remove g)
  done : ∀ s to a g, (Final a → a.g = g) → P s → P ((s.emit (.answer to a)).remove g)
  doneByRange : ∀ s to a g, (Final a → a.g = g) → SaysOk a → P s → P ((s.emit (.answer to a)).removeByRange g)
  queue : ∀ (s : State) x, ¬ Final x.2 → P s → P { s with replies := s.replies ++ [x] }
  persist : ∀ s, P s → P s.persist
  logTx : ∀ s g, P s → P (s.logTx g)
  halt : ∀ s, P s → P s.halt
  ext : ∀ s x n, P s → P { s with externals := x, nextExt := n }
  inbox : ∀ s x, P s → P { s with inbox := x }
  replied : ∀ s r, P s → P ((s.emit (.got r)).replied r.rm r.pid)

theorem mkAnswer_g (rt : RType) (o : Trid) (d : Dest) (c : Xa) (st : Option AStage) :
    (mkAnswer rt o d c st).g = o.xid.g := by
  unfold mkAnswer; cases rt <;> rfl

theorem mkAnswer_rtype (rt : RType) (o : Trid) (d : Dest) (c : Xa) (st : Option AStage) :
    (mkAnswer rt o d c st).rtype = rt := by
  unfold mkAnswer; cases rt <;> rfl

theorem not_final_of_rtype {a : Answer} (h : a.rtype ≠ .commit) (h' : a.rtype ≠ .rollback) : ¬ Final a := by
  rintro (⟨h1, -⟩ | h1)
  · exact h h1
  · exact h' h1

theorem involved_of_rank {st : Stage} (h : ¬ st.rank > Stage.involved.rank) : st = .involved := by
  cases st <;> simp_all [Stage.rank]

theorem not_final_prepare (o : Trid) (d : Dest) (c : Xa) : ¬ Final (mkAnswer .commit o d c (some .prepare)) := by
  rintro (⟨-, h, -⟩ | h)
  · exact h rfl
  · cases h

theorem start_of {P : State → Prop} (plain : ∀ s o, Plain o → P s → P (s.emit o))
    (issue : ∀ (s : State) kind op t rm, P s →
      P ({ s with nextCorr := s.nextCorr + 1 }.issue ⟨kind, s.nextCorr, t, rm, op⟩).1)
    (modify : ∀ (s : State) g f, TxOp g s.tr f → P s → P (s.modify g f))
    (s : State) (t : Tx) (k : KPrepare) (reqs : List Req)
    (_ : s.find k.origin.xid.g = some t) (_ : t.stage = .involved)
    (_ : reqs.map (fun q => (q.trid, q.rm)) = t.targets) (h : P s) :
    P (((s.modify k.origin.xid.g (Tx.setStage .prepare)).issueAll .prepare false t.targets).1.emit
      (.fanout .prepare k.rtype k.origin k.dest reqs)) := by
  refine plain _ _ trivial ?_
  have h1 := modify s k.origin.xid.g _ (.stage .prepare) h
  generalize s.modify k.origin.xid.g (Tx.setStage .prepare) = s1 at h1
  generalize t.targets = l
  induction l generalizing s1 with
  | nil => exact h1
  | cons x l ih => exact ih _ (issue s1 .prepare false x.1 x.2 h1)

theorem ClosedS.closed {G : Nat → Prop} {P : State → Prop} (C : ClosedS G P) : Closed G P where
  plain := fun s o ho _ h => C.plain s o ho h
  start := start_of C.plain C.issue C.modify
  prep := C.prep
  com := C.com
  rol := C.rol
  issue := C.issue
  modify := C.modify
  ensure := C.ensure
  remove := C.remove
  done := C.done
  doneByRange := C.doneByRange
  queue := C.queue
  persist := C.persist
  logTx := C.logTx
  halt := C.halt
  ext := C.ext
  inbox := C.inbox
  replied := C.replied

namespace Closed
variable {G : Nat → Prop} {P : State → Prop}

theorem issueAll (C : Closed G P) {s : State} (h : P s) (kind : Kind) (op : Bool) (l : List (Trid × Int)) :
    P (s.issueAll kind op l).1 := by
  induction l generalizing s with
  | nil => exact h
  | cons x l ih => exact ih (C.issue s kind op x.1 x.2 h)

theorem fireAll {F : Type} {run : State → F → State} (hrun : ∀ s f, P s → P (run s f)) {s : State} (h : P s)
    (fs : List F) : P (fireAll run s fs) := by
  induction fs generalizing s with
  | nil => exact h
  | cons f fs ih =>
    unfold TM.fireAll
    rw [List.foldl_cons]
    apply ih
    split
    · exact h
    · exact hrun s f h

theorem foldl {A : Type} {f : State → A → State} (l : List A) (hf : ∀ s, ∀ a ∈ l, P s → P (f s a)) {s : State}
    (h : P s) : P (l.foldl (fun s a => if s.halted then s else f s a) s) := by
  induction l generalizing s with
  | nil => exact h
  | cons a l ih =>
    rw [List.foldl_cons]
    apply ih (fun s a ha => hf s a (by simp [ha]))
    split
    · exact h
    · exact hf s a (by simp) h

theorem runCommit (C : Closed G P) (s : State) (f : Fired Rep Int KFinal) (h : P s) : P (runCommit s f) :=
  C.done _ _ _ _ (fun _ => mkAnswer_g ..) h

theorem runRollback (C : Closed G P) (s : State) (f : Fired Rep Int KFinal) (h : P s) : P (runRollback s f) := by
  unfold TM.runRollback
  dsimp only
  split
  · split
    · exact C.remove _ _ (C.plain _ _ trivial (fun k => k) h)
    · exact C.plain _ _ trivial (fun k => k) h
  · exact C.done _ _ _ _ (fun _ => mkAnswer_g ..) h

theorem regCommit (C : Closed G P) {s : State} (h : P s) (reqs : List Req) (k : KFinal) : P (s.regCommit reqs k) := by
  unfold State.regCommit
  refine fireAll C.runCommit (C.plain _ _ ?_ ?_ (C.com _ _ h)) _
  · trivial
  · exact fun k => k

theorem regRollback (C : Closed G P) {s : State} (h : P s) (reqs : List Req) (k : KFinal) : P (s.regRollback reqs k) := by
  unfold State.regRollback
  refine fireAll C.runRollback (C.plain _ _ ?_ ?_ (C.rol _ _ h)) _
  · trivial
  · exact fun k => k

theorem persistReply (C : Closed G P) {s : State} (h : P s) (to : Proc) (a : Answer)
    (ha : ¬ Final a) : P (s.persistReply to a) := by
  unfold State.persistReply
  dsimp only
  split
  · exact C.persist _ (C.queue _ _ ha h)
  · exact C.queue _ _ ha h

theorem runPrepare (C : Closed G P) (s : State) (f : Fired Rep Int KPrepare) (hr : ∀ r ∈ f.received, Obs.got r ∈ s.tr)
    (h : P s) : P (runPrepare s f) := by
  unfold TM.runPrepare
  dsimp only
  split
  · exact C.plain _ _ trivial (fun k => k) h
  have h1 := C.modify _ f.callback.origin.xid.g _
    (.post (f.received.filter (fun r => decide (r.code = .read_only)))
      (fun r h => ⟨hr r (List.mem_filter.mp h).1, by simpa using (List.mem_filter.mp h).2⟩)) h
  split
  · rename_i hc; exact C.doneByRange _ _ _ _ (fun _ => mkAnswer_g ..) (by rw [hc]; exact mkAnswer_ok _ _ _ _) h1
  split
  · have h2 := C.logTx _ f.callback.origin.xid.g h1
    split
    · exact h2
    split
    · rename_i hr
      refine C.persistReply h2 _ _ (not_final_of_rtype ?_ ?_) <;> rw [mkAnswer_rtype, hr] <;> simp
    · refine C.regCommit (C.issueAll (C.modify _ _ _ (.stage _) ?_) _ _ _) _ _
      split
      · rename_i hr
        exact C.persistReply h2 _ _ (by rw [hr]; exact not_final_prepare _ _ _)
      · exact h2
  · split
    · rename_i hr
      refine C.plain _ _ (not_final_of_rtype ?_ ?_) (fun k => k) h1 <;> rw [mkAnswer_rtype, hr] <;> simp
    · exact C.regRollback (C.issueAll (C.modify _ _ _ (.stage _) h1) _ _ _) _ _

theorem firePrepare (C : Closed G P) {s : State} (h : P s) (hJ : J s) {fs : List (Fired Rep Int KPrepare)}
    (hfs : ∀ f ∈ fs, FOk .prepare projP s.tr f ∧ PrepOk f.callback) : P (TM.fireAll TM.runPrepare s fs) := by
  induction fs generalizing s with
  | nil => exact h
  | cons f fs ih =>
    unfold TM.fireAll
    rw [List.foldl_cons]
    split
    · exact ih h hJ (fun f' hf' => hfs f' (by simp [hf']))
    · rename_i hh
      have h1 := hfs f (by simp)
      obtain ⟨reqs, -, -, hrc, -⟩ := h1.1
      have h2 := runPrepare_ok hJ (by simpa using hh) h1.1 h1.2
      obtain ⟨l, hl⟩ := h2.2
      refine ih (C.runPrepare s f (fun r hr => (hrc.1 r hr).1) h) h2.1 ?_
      intro f' hf'
      rw [hl]
      exact ⟨(hfs f' (by simp [hf'])).1.mono, (hfs f' (by simp [hf'])).2⟩

theorem startPrepare (C : Closed G P) {s : State} (h : P s) (t t' : Tx) (k : KPrepare)
    (hf : s.find k.origin.xid.g = some t') (hs : t'.stage = .involved) (ht : t.targets = t'.targets) :
    P ((s.modify k.origin.xid.g (Tx.setStage .prepare)).startPrepare t k) := by
  have hq := issueAll_targets (s.modify k.origin.xid.g (Tx.setStage .prepare)) .prepare false t.targets
  have h1 := C.start s t' k ((s.modify k.origin.xid.g (Tx.setStage .prepare)).issueAll .prepare false t.targets).2 hf hs
    (by rw [← ht]; exact hq) h
  rw [← ht] at h1
  unfold State.startPrepare State.regPrepare
  dsimp only
  generalize ((s.modify k.origin.xid.g (Tx.setStage .prepare)).issueAll .prepare false t.targets).2 = reqs at h1 ⊢
  generalize ((s.modify k.origin.xid.g (Tx.setStage .prepare)).issueAll .prepare false t.targets).1 = s1 at h1 ⊢
  have h2 := C.prep _ (s1.prep.register (toPending reqs) k).1 h1
  rcases register_entries s1.prep (toPending reqs) k with ⟨hn, he⟩ | ⟨hn, -, h3⟩
  · rw [he] at h2 ⊢
    unfold TM.fireAll
    simp only [List.foldl_cons, List.foldl_nil]
    split
    · exact h2
    · exact C.runPrepare _ _ (by simp [newEntry, Entry.fire]) h2
  · rw [h3]
    exact h2

theorem startCommit (C : Closed G P) {s : State} (h : P s) (t : Tx) (op : Bool) (k : KFinal) : P (s.startCommit t op k) :=
  C.regCommit (C.issueAll h _ _ _) _ _
theorem startRollback (C : Closed G P) {s : State} (h : P s) (t : Tx) (k : KFinal) : P (s.startRollback t k) :=
  C.regRollback (C.issueAll h _ _ _) _ _

theorem involvePurge (C : Closed G P) {s : State} (h : P s) (t : Trid) (l : List Int) (hg : G t.xid.g) :
    P (s.involvePurge t l) := C.modify _ _ _ (.involvePurge t l rfl) (C.ensure _ _ hg h)

theorem commitRequest' (C : Closed G P) {s : State} (p : Proc) (c : Nat) (t : Trid) (i : List Int)
    (h1 : P (s.involvePurge t i)) : P (commitRequest s p c t i) := by
  unfold TM.commitRequest
  dsimp only
  split
  · exact h1
  split
  · refine C.plain _ _ ?_ (fun k => k) h1
    rintro (⟨-, -, h⟩ | h)
    · exact h rfl
    · cases h
  have h2 := C.modify _ t.xid.g _ (.owner p) h1
  split
  · exact C.doneByRange _ _ _ _ (fun _ => rfl) (.inl rfl) h2
  · exact C.startCommit (C.modify _ _ _ (.stage _) h2) _ _ _
  · rename_i t0 hf hst _ _ _
    exact C.startPrepare h2 _ _ ⟨.commit, t, ⟨p, c, 0⟩⟩ (find_modify hf _ (fun _ => rfl)) (involved_of_rank hst) rfl

theorem commitRequest (C : Closed G P) {s : State} (h : P s) (p : Proc) (c : Nat) (t : Trid) (i : List Int)
    (hg : G t.xid.g) : P (commitRequest s p c t i) := C.commitRequest' p c t i (C.involvePurge h t i hg)

theorem rollbackRequest' (C : Closed G P) {s : State} (p : Proc) (c : Nat) (t : Trid) (i : List Int)
    (h1 : P (s.involvePurge t i)) : P (rollbackRequest s p c t i) := by
  unfold TM.rollbackRequest
  dsimp only
  split
  · exact h1
  · exact C.startRollback (C.modify _ _ _ (.rollback p) h1) _ _

theorem rollbackRequest (C : Closed G P) {s : State} (h : P s) (p : Proc) (c : Nat) (t : Trid) (i : List Int)
    (hg : G t.xid.g) : P (rollbackRequest s p c t i) := C.rollbackRequest' p c t i (C.involvePurge h t i hg)

theorem readOnly (C : Closed G P) {s : State} (h : P s) (rt : RType) (hr : rt ≠ .commit ∧ rt ≠ .rollback)
    (p : Proc) (c g : Nat) (r : Int) : P (s.readOnlyReply rt p c g r) :=
  C.plain _ _ (not_final_of_rtype hr.1 hr.2) (fun k => k) h

theorem extPrepare (C : Closed G P) {s : State} (h : P s) (p : Proc) (c : Nat) (t : Trid) (r : Int) :
    P (extPrepareRequest s p c t r) := by
  unfold extPrepareRequest
  dsimp only
  split
  · exact C.readOnly h _ (by simp) _ _ _ _
  split
  · exact C.readOnly h _ (by simp) _ _ _ _
  split
  · exact C.doneByRange _ _ _ _ (fun _ => rfl) (.inr rfl) h
  · rename_i x t0 hf hst _
    exact C.startPrepare h _ _ ⟨.resPrepare, t, ⟨p, c, r⟩⟩ hf (involved_of_rank hst) rfl

theorem extCommit (C : Closed G P) {s : State} (h : P s) (p : Proc) (c : Nat) (t : Trid) (r : Int) :
    P (extCommitRequest s p c t r) := by
  unfold extCommitRequest
  dsimp only
  split
  · exact C.readOnly h _ (by simp) _ _ _ _
  split
  · exact C.startCommit (C.modify _ _ _ (.stage _) h) _ _ _
  split
  · rename_i x t0 hf _ hst
    exact C.startPrepare h _ _ ⟨.resCommit, t, ⟨p, c, r⟩⟩ hf hst rfl
  · exact C.readOnly h _ (by simp) _ _ _ _

theorem extRollback (C : Closed G P) {s : State} (h : P s) (p : Proc) (c : Nat) (t : Trid) (r : Int) :
    P (extRollbackRequest s p c t r) := by
  unfold extRollbackRequest
  dsimp only
  split
  · exact C.readOnly h _ (by simp) _ _ _ _
  split
  · exact C.readOnly h _ (by simp) _ _ _ _
  · exact C.startRollback (C.modify _ _ _ (.rollback p) h) _ _

theorem replyHandler (C : Closed G P) {s : State} (h : P s) (hJ : J s) (r : Rep) : P (replyHandler s r) := by
  unfold TM.replyHandler
  dsimp only
  have h1 := C.replied s r h
  have hJ0 := hJ.emit (o := .got r) trivial (by simp)
  have hJ1 := replied_ok hJ0.1 r.rm r.pid
  have hgot : Obs.got r ∈ ((s.emit (.got r)).replied r.rm r.pid).tr := hJ1.mem (by simp [State.emit])
  split
  · exact h1
  split
  · rename_i hk
    obtain ⟨hE, hF⟩ := reply_ok hJ1.1.prepL hJ1.1.prepO (fun e he => (hJ1.1.prepE e he).1) hgot hk
    have h2 := J.prepReplace hJ1.1 (reply_lite _ _ hJ1.1.prepL r) (reply_once _ _ hJ1.1.prepL hJ1.1.prepO r)
      (fun e he => ⟨(hE e he).1, by
        obtain ⟨_, e0, he0, hc⟩ := hE e he; rw [hc]; exact (hJ1.1.prepE e0 he0).2⟩)
    refine C.firePrepare (C.prep _ _ h1) h2.1 ?_
    intro f hf
    obtain ⟨a, e0, he0, hc⟩ := hF f hf
    exact ⟨a, by rw [hc]; exact (hJ1.1.prepE e0 he0).2⟩
  · exact fireAll C.runCommit (C.com _ _ h1) _
  · exact fireAll C.runRollback (C.rol _ _ h1) _

theorem failedRm (C : Closed G P) {s : State} (h : P s) (hJ : J s) (rm : Int) : P (s.failedRm rm) := by
  unfold State.failedRm
  dsimp only
  have h0 := hJ.emit (o := .failed rm) trivial (by simp)
  have hm : Obs.failed rm ∈ (s.emit (.failed rm)).tr := by simp [State.emit]
  obtain ⟨hE, hF⟩ := fail_ok h0.1.prepO (fun e he => (h0.1.prepE e he).1) hm
  have h2 := J.prepReplace h0.1 (fail_lite _ h0.1.prepL rm) (fail_once _ _ h0.1.prepO rm)
    (fun e he => ⟨(hE e he).1, by
      obtain ⟨_, e0, he0, hc⟩ := hE e he; rw [hc]; exact (h0.1.prepE e0 he0).2⟩)
  have h1 := C.firePrepare (C.prep _ ((s.emit (.failed rm)).prep.fail rm).1 (C.plain s (.failed rm) trivial (fun k => k) h))
    h2.1 (fs := ((s.emit (.failed rm)).prep.fail rm).2) (fun f hf => by
      obtain ⟨a, e0, he0, hc⟩ := hF f hf
      exact ⟨a, by rw [hc]; exact (h0.1.prepE e0 he0).2⟩)
  split
  · exact h1
  · refine fireAll C.runRollback (C.rol _ _ ?_) _
    exact fireAll C.runCommit (C.com _ _ h1) _

theorem exitHandler (C : Closed G P) (txsG : ∀ s, P s → ∀ t ∈ s.txs, ∀ b ∈ t.branches, G b.trid.xid.g)
    {s : State} (h : P s) (hJ : J s) (pid : Nat)
    (hrm : ∀ ps, removeInst pid s.proxies = some ps → P { s with proxies := ps }) : P (exitHandler s pid) := by
  unfold TM.exitHandler
  split
  · exact hrm _ (by assumption)
  · dsimp only
    have h1 := (foldl (P := fun s => P s ∧ J s) (f := fun (s : State) (e : Ext) => s.failedRm e.id)
      (s.externals.filter (fun e => decide (e.proc.pid = pid)))
      (fun s e _ hs => ⟨failedRm C hs.1 hs.2 e.id, (failedRm_ok hs.2 e.id).1⟩) ⟨h, hJ⟩).1
    generalize hs1 : (s.externals.filter (fun e => decide (e.proc.pid = pid))).foldl
      (fun s e => if s.halted then s else s.failedRm e.id) s = s1 at h1
    have h2 := C.ext s1 (s1.externals.filter (fun e => decide (e.proc.pid ≠ pid))) s1.nextExt h1
    refine foldl _ ?_ h2
    intro s2 t ht hs2
    obtain ⟨x, hx, ho⟩ := List.mem_filterMap.mp ht
    refine C.rollbackRequest hs2 _ _ _ _ ?_
    unfold Tx.ownedBy at ho
    split at ho
    · cases ho
    · rename_i b hb
      split at ho
      · cases ho
        exact txsG _ h2 x hx b (List.mem_of_getLast? hb)
      · cases ho

end Closed

/-- global ids an event may create transaction state for -/
def Event.creates : Event → List Nat
  | .commit _ _ t _ | .rollback _ _ t _ | .involved _ t _ _ | .extInvolved _ t => [t.xid.g]
  | .inboundBranch _ g _ _ => [g]
  | _ => []

/-- events that change the resource proxies or the environment only -/
def Event.isEnv : Event → Prop
  | .ready .. | .spawn .. | .scaleIn .. | .ipcGone _ => True
  | _ => False

namespace Closed
variable {G : Nat → Prop} {P : State → Prop}

theorem handle (C : Closed G P) {s : State} (h : P s) (hJ : J s) (e : Event) (he : e ≠ .crash)
    (hg : ∀ g ∈ e.creates, G g) (henv : e.isEnv → P (handle s e))
    (hexit : ∀ pid, e = .exit pid → P (TM.exitHandler s pid)) :
    P (handle s e) := by
  cases e with
  | commit p c t i => exact C.commitRequest h p c t i (hg _ (by simp [Event.creates]))
  | rollback p c t i => exact C.rollbackRequest h p c t i (hg _ (by simp [Event.creates]))
  | involved p t i r =>
    exact C.modify _ _ _ (.involve t _ rfl) (C.ensure _ t (hg _ (by simp [Event.creates])) h)
  | extInstance p =>
    dsimp only [TM.handle]
    unfold State.extAdd
    dsimp only
    split <;> exact C.ext _ _ _ h
  | extInvolved p t =>
    dsimp only [TM.handle]
    refine C.modify _ _ _ (.involve t _ rfl) (C.ensure _ t (hg _ (by simp [Event.creates])) ?_)
    unfold State.extId
    split
    · exact h
    · exact C.ext _ _ _ h
  | extPrepare p c t r => exact C.extPrepare h p c t r
  | extCommit p c t r o => exact C.extCommit h p c t r
  | extRollback p c t r => exact C.extRollback h p c t r
  | reply r => exact C.replyHandler h hJ r
  | consume =>
    dsimp only [TM.handle]
    split
    · exact h
    · rename_i r rest _
      exact C.replyHandler (C.inbox _ rest h) (J.same hJ (s' := { s with inbox := rest }) rfl rfl rfl rfl rfl rfl).1 _
  | ready rm p => exact henv trivial
  | inboundBranch p g b o => exact C.ensure _ _ (hg _ (by simp [Event.creates])) h
  | exit pid => exact hexit pid rfl
  | destroyed p =>
    dsimp only [TM.handle]
    unfold destroyedHandler
    split
    · exact h
    · exact C.ext _ _ _ (C.failedRm h hJ _)
  | spawn rm pid => exact henv trivial
  | scaleIn rm pid => exact henv trivial
  | ipcGone i => exact henv trivial
  | idle =>
    dsimp only [TM.handle]
    split
    · exact h
    · exact C.persist _ h
  | crash => exact absurd rfl he

/-- kept by one step -/
theorem step (C : Closed G P) {s : State} (h : P s) (hJ : J s) (e : Event)
    (hev : e ≠ .crash → P (s.emit (.ev e)))
    (hg : ∀ g ∈ e.creates, G g)
    (henv : e.isEnv → P (TM.handle (s.emit (.ev e)) e))
    (hexit : ∀ pid, e = .exit pid → P (TM.exitHandler (s.emit (.ev e)) pid))
    (hcrash : e = .crash → P (TM.handle (s.emit (.ev .crash)) .crash)) :
    P (step s e) := by
  have ite : e ≠ .crash → P (if s.halted then s else TM.handle (s.emit (.ev e)) e) := by
    intro he
    split
    · exact h
    · exact C.handle (hev he) (hJ.emit (o := .ev e) trivial (by simpa using he)).1 e he hg henv hexit
  cases e with
  | crash => exact hcrash rfl
  | _ => exact ite (by simp)

end Closed

/-- an invariant of all runs -/
theorem Closed.run {P : State → Prop} (C : Closed (fun _ => True) P)
    (hev : ∀ s e, e ≠ .crash → P s → P (s.emit (.ev e)))
    (henv : ∀ s e, e.isEnv → P s → P (TM.handle (s.emit (.ev e)) e))
    (hexit : ∀ s pid ps, removeInst pid s.proxies = some ps → P s → P { (s.emit (.ev (.exit pid))) with proxies := ps })
    (hcrash : ∀ s, P s → P (TM.handle (s.emit (.ev .crash)) .crash))
    {s : State} (hJ : J s) (h : P s) (es : List Event) : P (run s es) := by
  induction es generalizing s with
  | nil => exact h
  | cons e es ih =>
    refine ih ((step_ok hJ e).1) (C.step h hJ e (fun he => hev s e he h) (fun _ _ => trivial) (fun he => henv s e he h) ?_ ?_)
    · intro pid he
      subst he
      refine C.exitHandler (fun _ _ _ _ _ _ => trivial) (hev s _ (by simp) h) (hJ.emit (o := .ev (.exit pid)) trivial (by simp)).1 pid ?_
      intro ps hps
      exact hexit s pid ps hps h
    · intro he; exact hcrash s h

end Casual.TM

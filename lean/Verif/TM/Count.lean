import Verif.TM.Clean
import Verif.FanOut.Lite
/-!
# Requests and answers are balanced

For a requester `p` (not the manager itself), a correlation `c` and a kind of request `rt`: the number of requests is the
number of answers plus what is still open (fan-outs and collected replies).
-/
namespace Casual.TM
open Casual.Code Casual.FanOut

/-- a request of type `rt` from `p` with correlation `c` -/
def isRequest (rt : RType) (p : Proc) (c : Nat) : Obs → Bool
  | .ev (.commit q d _ _) => rt = .commit ∧ q = p ∧ d = c
  | .ev (.rollback q d _ _) => rt = .rollback ∧ q = p ∧ d = c
  | .ev (.extPrepare q d _ _) => rt = .resPrepare ∧ q = p ∧ d = c
  | .ev (.extCommit q d _ _ _) => rt = .resCommit ∧ q = p ∧ d = c
  | .ev (.extRollback q d _ _) => rt = .resRollback ∧ q = p ∧ d = c
  | _ => false

/-- an answer other than the "prepared" answer to a commit request -/
def isFinalAnswer (rt : RType) (p : Proc) (c : Nat) : Obs → Bool
  | .answer to a => to = p ∧ a.rtype = rt ∧ a.corr = c ∧ a.stage ≠ some .prepare
  | _ => false

/-- the request is dropped without an answer (handle.cpp:484-492) -/
def isIgnored (rt : RType) (p : Proc) (c : Nat) : Obs → Bool
  | .ignored r d => r = rt ∧ d.proc = p ∧ d.corr = c
  | _ => false

/-- the "prepared" answer to a commit request -/
def isPreparedAnswer (p : Proc) (c : Nat) : Obs → Bool
  | .answer to a => to = p ∧ a.rtype = .commit ∧ a.corr = c ∧ a.stage = some .prepare
  | _ => false

/-- the manager has neither ended by an exception nor crashed -/
def Smooth (tr : List Obs) : Prop := Obs.halted ∉ tr ∧ Obs.ev .crash ∉ tr

/-! weights -/

def bit (b : Bool) : Int := if b then 1 else 0

variable {me : Proc} {rt : RType} {p : Proc} {c : Nat}

def wt (rt : RType) (p : Proc) (c : Nat) (o : Obs) : Int :=
  bit (isRequest rt p c o) - bit (isFinalAnswer rt p c o) - bit (isIgnored rt p c o)

def bal (rt : RType) (p : Proc) (c : Nat) (tr : List Obs) : Int := (tr.map (wt rt p c)).sum

theorem bal_append (a b : List Obs) : bal rt p c (a ++ b) = bal rt p c a + bal rt p c b := by simp [bal]

theorem sum_bit {A : Type} (q : A → Bool) (l : List A) : (l.map (fun x => bit (q x))).sum = (l.countP q : Int) := by
  induction l with
  | nil => rfl
  | cons a l ih =>
    rw [List.map_cons, List.sum_cons, ih, List.countP_cons]
    unfold bit
    split <;> push_cast <;> omega

theorem bal_eq (tr : List Obs) : bal rt p c tr =
    (tr.countP (isRequest rt p c) : Int) - tr.countP (isFinalAnswer rt p c) - tr.countP (isIgnored rt p c) := by
  induction tr with
  | nil => rfl
  | cons o tr ih =>
    have : bal rt p c (o :: tr) = wt rt p c o + bal rt p c tr := by simp [bal]
    rw [this, ih]
    simp only [List.countP_cons, wt, bit]
    split <;> split <;> split <;> push_cast <;> omega

def mP (rt : RType) (p : Proc) (c : Nat) (k : KPrepare) : Bool := k.rtype = rt ∧ k.dest.proc = p ∧ k.dest.corr = c
def mF (rt : RType) (p : Proc) (c : Nat) (k : KFinal) : Bool := k.rtype = rt ∧ k.dest.proc = p ∧ k.dest.corr = c
def mR (rt : RType) (p : Proc) (c : Nat) (x : Proc × Answer) : Bool :=
  x.1 = p ∧ x.2.rtype = rt ∧ x.2.corr = c ∧ x.2.stage ≠ some .prepare

def openN (rt : RType) (p : Proc) (c : Nat) (s : State) : Int :=
  openCount (mP rt p c) s.prep.entries + openCount (mF rt p c) s.com.entries + openCount (mF rt p c) s.rol.entries +
    s.replies.countP (mR rt p c)

structure Bal (me : Proc) (rt : RType) (p : Proc) (c : Nat) (d : Int) (s : State) : Prop where
  pos : 0 ≤ d
  ne : p ≠ me
  slf : s.self = me
  lp : Lite s.prep
  lc : Lite s.com
  lr : Lite s.rol
  hal : s.halted = true → Obs.halted ∈ s.tr
  le : openN rt p c s + d ≤ bal rt p c s.tr
  eq : Smooth s.tr → openN rt p c s + d = bal rt p c s.tr

variable {d : Int}

theorem Smooth.of {a b : List Obs} (h : Smooth (a ++ b)) : Smooth a :=
  ⟨fun k => h.1 (by simp [k]), fun k => h.2 (by simp [k])⟩

/-- observations appended, fan-outs and replies untouched -/
theorem Bal.of {s s' : State} {d' : Int} (h : Bal me rt p c d s) {l : List Obs} (ht : s'.tr = s.tr ++ l)
    (hs : s'.self = s.self) (h1 : s'.prep = s.prep) (h2 : s'.com = s.com) (h3 : s'.rol = s.rol)
    (h4 : s'.replies = s.replies) (h5 : s'.halted = s.halted) (hd : d' = d + bal rt p c l) (hp : 0 ≤ d') :
    Bal me rt p c d' s' := by
  have ho : openN rt p c s' = openN rt p c s := by simp only [openN, h1, h2, h3, h4]
  refine ⟨hp, h.ne, hs.trans h.slf, h1 ▸ h.lp, h2 ▸ h.lc, h3 ▸ h.lr, ?_, ?_, ?_⟩
  · intro k; rw [ht]; exact List.mem_append_left _ (h.hal (h5 ▸ k))
  · rw [ht, bal_append, ho]; have := h.le; omega
  · intro k; rw [ht] at k ⊢; rw [bal_append, ho]; have := h.eq k.of; omega

theorem Bal.same {s s' : State} (h : Bal me rt p c d s) (ht : s'.tr = s.tr)
    (hs : s'.self = s.self) (h1 : s'.prep = s.prep) (h2 : s'.com = s.com) (h3 : s'.rol = s.rol)
    (h4 : s'.replies = s.replies) (h5 : s'.halted = s.halted) : Bal me rt p c d s' :=
  h.of (l := []) (by simpa using ht) hs h1 h2 h3 h4 h5 (by simp [bal]) h.pos

theorem Bal.emit {s : State} {d' : Int} (h : Bal me rt p c d s) (o : Obs) (hd : d' = d + wt rt p c o) (hp : 0 ≤ d') :
    Bal me rt p c d' (s.emit o) :=
  h.of (l := [o]) rfl rfl rfl rfl rfl rfl rfl (by simp [bal, hd]) hp

theorem Bal.emit0 {s : State} (h : Bal me rt p c d s) (o : Obs) (hw : wt rt p c o = 0) :
    Bal me rt p c d (s.emit o) := h.emit o (by omega) h.pos

theorem openN_nonneg (s : State) : 0 ≤ openN rt p c s := by unfold openN; omega

theorem Bal.drop {s : State} (h : Bal me rt p c d s) (hh : s.halted = true) : Bal me rt p c 0 s :=
  ⟨by omega, h.ne, h.slf, h.lp, h.lc, h.lr, h.hal, by have := h.le; have := h.pos; omega,
   fun k => absurd (h.hal hh) k.1⟩

theorem Bal.halt {s : State} (h : Bal me rt p c d s) : Bal me rt p c 0 s.halt := by
  refine ⟨by omega, h.ne, h.slf, lite_empty, lite_empty, lite_empty, fun _ => by simp [State.halt], ?_, ?_⟩
  · have h1 := h.le; have h2 := openN_nonneg (rt := rt) (p := p) (c := c) s; have h3 := h.pos
    have h4 : openN rt p c s.halt = 0 := by simp [openN, State.halt, Out.empty, openCount]
    have h5 : bal rt p c s.halt.tr = bal rt p c s.tr := by
      simp [State.halt, bal, wt, bit, isRequest, isFinalAnswer, isIgnored]
    omega
  · intro k; exact absurd (by simp [State.halt]) k.1

theorem Bal.modify {s : State} (h : Bal me rt p c d s) (g : Nat) (f : Tx → Tx) : Bal me rt p c d (s.modify g f) :=
  h.same rfl rfl rfl rfl rfl rfl rfl

theorem Bal.ensure {s : State} (h : Bal me rt p c d s) (t : Trid) : Bal me rt p c d (s.ensure t) := by
  unfold State.ensure
  split
  · exact h
  · exact h.same rfl rfl rfl rfl rfl rfl rfl

theorem Bal.remove {s : State} (h : Bal me rt p c d s) (g : Nat) : Bal me rt p c d (s.remove g) := by
  unfold State.remove
  dsimp only
  split
  · exact h.of rfl rfl rfl rfl rfl rfl rfl (by simp [bal, wt, bit, isRequest, isFinalAnswer, isIgnored]) h.pos
  · exact h.of rfl rfl rfl rfl rfl rfl rfl (by simp [bal, wt, bit, isRequest, isFinalAnswer, isIgnored]) h.pos

theorem Bal.removeByRange {s : State} (h : Bal me rt p c d s) (g : Nat) : Bal me rt p c d (s.removeByRange g) := by
  unfold State.removeByRange
  dsimp only
  split
  · exact h.of rfl rfl rfl rfl rfl rfl rfl (by simp [bal, wt, bit, isRequest, isFinalAnswer, isIgnored]) h.pos
  · exact h.of rfl rfl rfl rfl rfl rfl rfl (by simp [bal, wt, bit, isRequest, isFinalAnswer, isIgnored]) h.pos

theorem Bal.core {s s' : State} (h : Bal me rt p c d s) (hc : SameCore s s') {l : List Obs} (ht : s'.tr = s.tr ++ l)
    (hl : ∀ o ∈ l, wt rt p c o = 0) : Bal me rt p c d s' := by
  refine h.of ht hc.self hc.prep hc.com hc.rol hc.replies hc.halted ?_ h.pos
  have : bal rt p c l = 0 := by
    unfold bal
    clear ht
    induction l with
    | nil => rfl
    | cons a l ih =>
      rw [List.map_cons, List.sum_cons, hl a (by simp), ih (fun o ho => hl o (by simp [ho]))]; rfl
  omega

theorem Bal.issueAll {s : State} (h : Bal me rt p c d s) (kind : Kind) (op : Bool) (l : List (Trid × Int)) :
    Bal me rt p c d (s.issueAll kind op l).1 := by
  obtain ⟨o, h1, h2, -⟩ := issueAll_tr s kind op l
  refine h.core (issueAll_core _ _ _ _) h1 ?_
  intro x hx
  rcases h2 x hx with h | ⟨r, rfl⟩
  · cases x <;> simp_all [IsSend, wt, bit, isRequest, isFinalAnswer, isIgnored]
  · rfl

theorem Bal.persist {s : State} (h : Bal me rt p c d s) : Bal me rt p c d s.persist := by
  have hb : bal rt p c s.persist.tr = bal rt p c s.tr - (s.replies.countP (mR rt p c) : Int) := by
    have : s.persist.tr = s.tr ++ (.persisted :: s.replies.map (fun p => .answer p.1 p.2)) := rfl
    rw [this, bal_append]
    have : ∀ l : List (Proc × Answer), bal rt p c (l.map (fun p => .answer p.1 p.2)) = -(l.countP (mR rt p c) : Int) := by
      intro l
      rw [bal_eq, List.countP_map, List.countP_map, List.countP_map]
      have h1 : l.countP (isRequest rt p c ∘ fun p => .answer p.1 p.2) = 0 := by
        rw [List.countP_eq_zero]; intro a _; simp [isRequest]
      have h2 : l.countP (isIgnored rt p c ∘ fun p => .answer p.1 p.2) = 0 := by
        rw [List.countP_eq_zero]; intro a _; simp [isIgnored]
      have h3 : (isFinalAnswer rt p c ∘ fun p => .answer p.1 p.2) = mR rt p c := by
        funext a; simp [isFinalAnswer, mR]
      rw [h1, h2, h3]; omega
    have h2 : bal rt p c (.persisted :: s.replies.map (fun p => .answer p.1 p.2)) =
        bal rt p c (s.replies.map (fun p => .answer p.1 p.2)) := by
      simp [bal, wt, bit, isRequest, isFinalAnswer, isIgnored]
    rw [h2, this]; omega
  have ho : openN rt p c s.persist = openN rt p c s - (s.replies.countP (mR rt p c) : Int) := by
    simp [openN, State.persist]
  refine ⟨h.pos, h.ne, h.slf, h.lp, h.lc, h.lr, fun k => List.mem_append_left _ (h.hal k), ?_, ?_⟩
  · have := h.le; omega
  · intro k; have := h.eq (Smooth.of k); omega

theorem Bal.queue {s : State} {d' : Int} (h : Bal me rt p c d s) (x : Proc × Answer) (hd : d' = d - bit (mR rt p c x))
    (hp : 0 ≤ d') : Bal me rt p c d' { s with replies := s.replies ++ [x] } := by
  have ho : openN rt p c { s with replies := s.replies ++ [x] } = openN rt p c s + bit (mR rt p c x) := by
    simp only [openN, List.countP_append, List.countP_singleton, bit]
    split <;> push_cast <;> omega
  refine ⟨hp, h.ne, h.slf, h.lp, h.lc, h.lr, h.hal, ?_, ?_⟩
  · have : openN rt p c s + d ≤ bal rt p c s.tr := h.le
    show _ ≤ bal rt p c s.tr
    omega
  · intro k; have := h.eq k
    show _ = bal rt p c s.tr
    omega

theorem Bal.persistReply {s : State} {d' : Int} (h : Bal me rt p c d s) (to : Proc) (a : Answer)
    (hd : d' = d - bit (mR rt p c (to, a))) (hp : 0 ≤ d') : Bal me rt p c d' (s.persistReply to a) := by
  unfold State.persistReply
  dsimp only
  split
  · exact (h.queue (to, a) hd hp).persist
  · exact h.queue (to, a) hd hp

theorem Bal.logTx {s : State} (h : Bal me rt p c d s) (g : Nat) :
    (s.logTx g).halted = false ∧ Bal me rt p c d (s.logTx g) ∨ (s.logTx g).halted = true ∧ Bal me rt p c 0 (s.logTx g) := by
  by_cases hh : s.halted = true
  · unfold State.logTx
    split
    · unfold State.logPrepare
      dsimp only
      split
      · exact .inr ⟨rfl, h.halt⟩
      · refine .inr ⟨hh, Bal.drop (d := d) ?_ hh⟩
        exact h.of rfl rfl rfl rfl rfl rfl rfl (by simp [bal, wt, bit, isRequest, isFinalAnswer, isIgnored]) h.pos
    · exact .inr ⟨hh, h.drop hh⟩
  · simp only [Bool.not_eq_true] at hh
    unfold State.logTx
    split
    · unfold State.logPrepare
      dsimp only
      split
      · exact .inr ⟨rfl, h.halt⟩
      · refine .inl ⟨hh, ?_⟩
        exact h.of rfl rfl rfl rfl rfl rfl rfl (by simp [bal, wt, bit, isRequest, isFinalAnswer, isIgnored]) h.pos
    · exact .inl ⟨hh, h⟩

theorem mkAnswer_corr (r : RType) (o : Trid) (dd : Dest) (x : Xa) (st : Option AStage) :
    (mkAnswer r o dd x st).corr = dd.corr := by unfold mkAnswer; cases r <;> rfl

theorem mkAnswer_stage (r : RType) (o : Trid) (dd : Dest) (x : Xa) (st : Option AStage) (h : st ≠ some .prepare) :
    (mkAnswer r o dd x st).stage ≠ some .prepare := by unfold mkAnswer; cases r <;> simp [h]

theorem wt_answer (k : KFinal) (x : Xa) (st : Option AStage) (h : st ≠ some .prepare) :
    wt rt p c (.answer k.dest.proc (mkAnswer k.rtype k.origin k.dest x st)) = - bit (mF rt p c k) := by
  have := mkAnswer_stage k.rtype k.origin k.dest x st h
  simp only [wt, isRequest, isFinalAnswer, isIgnored, mkAnswer_corr, mkAnswer_rtype, mF, bit]
  simp [this, and_comm, and_left_comm, and_assoc]

theorem wt_answerP (k : KPrepare) (x : Xa) (st : Option AStage) (h : st ≠ some .prepare) :
    wt rt p c (.answer k.dest.proc (mkAnswer k.rtype k.origin k.dest x st)) = - bit (mP rt p c k) :=
  wt_answer ⟨k.rtype, k.origin, k.dest, x⟩ x st h

theorem Bal.runCommit {s : State} (f : Fired Rep Int KFinal) (hd : 0 ≤ d) (h : Bal me rt p c (d + bit (mF rt p c f.callback)) s) :
    Bal me rt p c d (runCommit s f) := by
  unfold TM.runCommit
  exact (h.emit _ (by rw [wt_answer _ _ _ (by simp)]; omega) hd).remove _

theorem Bal.runRollback {s : State} (f : Fired Rep Int KFinal) (hd : 0 ≤ d) (h : Bal me rt p c (d + bit (mF rt p c f.callback)) s) :
    Bal me rt p c d (runRollback s f) := by
  unfold TM.runRollback
  dsimp only
  split
  · rename_i hs
    have h0 : bit (mF rt p c f.callback) = 0 := by
      have : ¬ (f.callback.dest.proc = p) := by rw [hs, h.slf]; exact fun k => h.ne k.symm
      simp [mF, bit, this]
    have h1 : Bal me rt p c d s := by rw [h0] at h; simpa using h
    have h2 : ∀ st, Bal me rt p c d (s.emit (.selfRollback f.callback.origin st)) := fun st => h1.emit0 _ rfl
    split
    · exact (h2 _).remove _
    · exact h2 _
  · exact (h.emit _ (by rw [wt_answer _ _ _ (by simp)]; omega) hd).remove _

theorem Bal.fireAll {K : Type} {run : State → Fired Rep Int K → State} {q : K → Bool}
    (hrun : ∀ s f d, 0 ≤ d → Bal me rt p c (d + bit (q f.callback)) s → s.halted = false → Bal me rt p c d (run s f))
    {s : State} (fs : List (Fired Rep Int K)) (hd : 0 ≤ d)
    (h : Bal me rt p c (d + firedCount q fs) s) :
    Bal me rt p c d (fireAll run s fs) := by
  induction fs generalizing s with
  | nil =>
    have : (firedCount q ([] : List (Fired Rep Int K)) : Int) = 0 := rfl
    rw [this, Int.add_zero] at h; exact h
  | cons f fs ih =>
    unfold TM.fireAll
    rw [List.foldl_cons]
    apply ih
    have he : (firedCount q (f :: fs) : Int) = firedCount q fs + bit (q f.callback) := by
      simp only [firedCount, List.countP_cons, bit]; split <;> push_cast <;> omega
    split
    · rename_i hh
      have h0 := h.drop hh
      have hb : 0 ≤ bit (q f.callback) := by unfold bit; split <;> omega
      have hl := h.le
      refine ⟨by omega, h0.ne, h0.slf, h0.lp, h0.lc, h0.lr, h0.hal, by omega, fun k => absurd (h0.hal hh) k.1⟩
    · rename_i hh
      refine hrun _ _ _ (by omega) ?_ (by simpa using hh)
      rw [he] at h
      have : d + (firedCount q fs : Int) + bit (q f.callback) = d + (firedCount q fs + bit (q f.callback)) := by omega
      rw [this]; exact h

theorem Bal.fireCommit {s : State} (fs : List (Fired Rep Int KFinal)) (hd : 0 ≤ d)
    (h : Bal me rt p c (d + firedCount (mF rt p c) fs) s) : Bal me rt p c d (TM.fireAll TM.runCommit s fs) :=
  Bal.fireAll (q := mF rt p c) (fun _ f _ hd h _ => h.runCommit f hd) fs hd h

theorem Bal.fireRollback {s : State} (fs : List (Fired Rep Int KFinal)) (hd : 0 ≤ d)
    (h : Bal me rt p c (d + firedCount (mF rt p c) fs) s) : Bal me rt p c d (TM.fireAll TM.runRollback s fs) :=
  Bal.fireAll (q := mF rt p c) (fun _ f _ hd h _ => h.runRollback f hd) fs hd h

/-- replace one of the fan-outs -/
theorem Bal.outs {s : State} {d' : Int} {o1 : Out Rep Int KPrepare} {o2 o3 : Out Rep Int KFinal}
    (h : Bal me rt p c d s) (l1 : Lite o1) (l2 : Lite o2) (l3 : Lite o3) (hp : 0 ≤ d')
    (he : (openCount (mP rt p c) o1.entries + openCount (mF rt p c) o2.entries + openCount (mF rt p c) o3.entries : Int) + d' =
      openCount (mP rt p c) s.prep.entries + openCount (mF rt p c) s.com.entries + openCount (mF rt p c) s.rol.entries + d) :
    Bal me rt p c d' { s with prep := o1, com := o2, rol := o3 } := by
  refine ⟨hp, h.ne, h.slf, l1, l2, l3, h.hal, ?_, ?_⟩
  · have := h.le; simp only [openN] at this ⊢; omega
  · intro k; have := h.eq k; simp only [openN] at this ⊢; omega

theorem bit_eq (b : Bool) : ((if b then 1 else 0 : Nat) : Int) = bit b := by unfold bit; split <;> rfl

theorem Bal.regCommit {s : State} (reqs : List Req) (k : KFinal) (hd : 0 ≤ d)
    (h : Bal me rt p c (d + bit (mF rt p c k)) s) : Bal me rt p c d (s.regCommit reqs k) := by
  unfold State.regCommit
  have hc := register_count (M := Rep) (mF rt p c) s.com (toPending reqs) k
  have hl := register_lite _ h.lc (toPending reqs) k
  have := bit_eq (mF rt p c k)
  generalize s.com.register (toPending reqs) k = x at hc hl
  have h1 := h.outs h.lp hl h.lr (d' := d + firedCount (mF rt p c) x.2) (by omega) (by omega)
  exact Bal.fireCommit _ hd (h1.emit0 _ rfl)

theorem Bal.regRollback {s : State} (reqs : List Req) (k : KFinal) (hd : 0 ≤ d)
    (h : Bal me rt p c (d + bit (mF rt p c k)) s) : Bal me rt p c d (s.regRollback reqs k) := by
  unfold State.regRollback
  have hc := register_count (M := Rep) (mF rt p c) s.rol (toPending reqs) k
  have hl := register_lite _ h.lr (toPending reqs) k
  have := bit_eq (mF rt p c k)
  generalize s.rol.register (toPending reqs) k = x at hc hl
  have h1 := h.outs h.lp h.lc hl (d' := d + firedCount (mF rt p c) x.2) (by omega) (by omega)
  exact Bal.fireRollback _ hd (h1.emit0 _ rfl)

theorem Bal.runPrepare {s : State} (f : Fired Rep Int KPrepare) (hd : 0 ≤ d)
    (h : Bal me rt p c (d + bit (mP rt p c f.callback)) s) :
    Bal me rt p c d (runPrepare s f) := by
  unfold TM.runPrepare
  dsimp only
  split
  · refine h.emit _ ?_ hd
    simp only [wt, isRequest, isFinalAnswer, isIgnored, mP, bit]; simp; omega
  have h1 := h.modify f.callback.origin.xid.g (fun t => (t.setStage .post_prepare).purgeReplies
      (f.received.filter (fun r => decide (r.code = .read_only))))
  have hk : ∀ x, mF rt p c ⟨f.callback.rtype, f.callback.origin, f.callback.dest, x⟩ = mP rt p c f.callback := fun _ => rfl
  split
  · exact (h1.emit _ (by rw [wt_answerP _ _ _ (by simp)]; omega) hd).removeByRange _
  split
  · rcases h1.logTx f.callback.origin.xid.g with ⟨hh, h2⟩ | ⟨hh, h2⟩
    · rw [if_neg (by simp [hh])]
      split
      · refine h2.persistReply _ _ ?_ hd
        have : mR rt p c (f.callback.dest.proc, mkAnswer f.callback.rtype f.callback.origin f.callback.dest
            (accumulate .prepare f.received f.outcome .read_only) none) = mP rt p c f.callback := by
          have := mkAnswer_stage f.callback.rtype f.callback.origin f.callback.dest
            (accumulate .prepare f.received f.outcome .read_only) none (by simp)
          simp only [mR, mP, mkAnswer_corr, mkAnswer_rtype]
          simp [this, and_comm, and_left_comm, and_assoc]
        rw [this]; omega
      · refine Bal.regCommit _ _ hd (Bal.issueAll (Bal.modify ?_ _ _) _ _ _)
        rw [hk]
        split
        · rename_i hr
          refine h2.persistReply _ _ ?_ (by have := h.pos; omega)
          have : mR rt p c (f.callback.dest.proc, mkAnswer f.callback.rtype f.callback.origin f.callback.dest
            (accumulate .prepare f.received f.outcome .read_only) (some .prepare)) = false := by
            rw [hr]; simp [mR, mkAnswer]
          rw [this]; simp [bit]
        · exact h2
    · rw [if_pos hh]
      refine ⟨hd, h2.ne, h2.slf, h2.lp, h2.lc, h2.lr, h2.hal, ?_, fun k => absurd (h2.hal hh) k.1⟩
      have e1 := h2.le
      -- the budget was there before the halt
      have hb : bal rt p c s.tr = bal rt p c ((s.modify f.callback.origin.xid.g (fun t => (t.setStage .post_prepare).purgeReplies
        (f.received.filter (fun r => decide (r.code = .read_only))))).logTx f.callback.origin.xid.g).tr := by
        generalize hs1 : (s.modify f.callback.origin.xid.g (fun t => (t.setStage .post_prepare).purgeReplies
          (f.received.filter (fun r => decide (r.code = .read_only))))) = s1
        have : s1.tr = s.tr := by rw [← hs1]; rfl
        rw [← this]
        unfold State.logTx
        split
        · unfold State.logPrepare
          dsimp only
          split
          · simp [State.halt, bal, wt, bit, isRequest, isFinalAnswer, isIgnored]
          · simp [State.emit, bal, wt, bit, isRequest, isFinalAnswer, isIgnored]
        · rfl
      have ho : openN rt p c ((s.modify f.callback.origin.xid.g (fun t => (t.setStage .post_prepare).purgeReplies
        (f.received.filter (fun r => decide (r.code = .read_only))))).logTx f.callback.origin.xid.g) ≤ openN rt p c s := by
        generalize hs1 : (s.modify f.callback.origin.xid.g (fun t => (t.setStage .post_prepare).purgeReplies
          (f.received.filter (fun r => decide (r.code = .read_only))))) = s1
        have : openN rt p c s1 = openN rt p c s := by rw [← hs1]; rfl
        rw [← this]
        unfold State.logTx
        split
        · unfold State.logPrepare
          dsimp only
          split
          · simp [openN, State.halt, Out.empty, openCount]; omega
          · exact Int.le_refl _
        · exact Int.le_refl _
      have e2 := h.le
      have : 0 ≤ bit (mP rt p c f.callback) := by unfold bit; split <;> omega
      omega
  · split
    · refine h1.emit _ (by rw [wt_answerP _ _ _ (by simp)]; omega) hd
    · exact Bal.regRollback _ _ hd (Bal.issueAll (Bal.modify (by rw [hk]; exact h1) _ _) _ _ _)

theorem Bal.firePrepare {s : State} (fs : List (Fired Rep Int KPrepare)) (hd : 0 ≤ d)
    (h : Bal me rt p c (d + firedCount (mP rt p c) fs) s) : Bal me rt p c d (TM.fireAll TM.runPrepare s fs) :=
  Bal.fireAll (q := mP rt p c) (fun _ f _ hd h _ => h.runPrepare f hd) fs hd h

theorem Bal.regPrepare {s : State} (reqs : List Req) (k : KPrepare) (hd : 0 ≤ d)
    (h : Bal me rt p c (d + bit (mP rt p c k)) s) : Bal me rt p c d (s.regPrepare reqs k) := by
  unfold State.regPrepare
  have hc := register_count (M := Rep) (mP rt p c) s.prep (toPending reqs) k
  have hl := register_lite _ h.lp (toPending reqs) k
  have := bit_eq (mP rt p c k)
  generalize s.prep.register (toPending reqs) k = x at hc hl
  have h1 := h.outs hl h.lc h.lr (d' := d + firedCount (mP rt p c) x.2) (by omega) (by omega)
  exact Bal.firePrepare _ hd (h1.emit0 _ rfl)

theorem Bal.startPrepare {s : State} (t : Tx) (k : KPrepare) (hd : 0 ≤ d)
    (h : Bal me rt p c (d + bit (mP rt p c k)) s) : Bal me rt p c d (s.startPrepare t k) :=
  Bal.regPrepare _ _ hd (h.issueAll _ _ _)
theorem Bal.startCommit {s : State} (t : Tx) (op : Bool) (k : KFinal) (hd : 0 ≤ d)
    (h : Bal me rt p c (d + bit (mF rt p c k)) s) : Bal me rt p c d (s.startCommit t op k) :=
  Bal.regCommit _ _ hd (h.issueAll _ _ _)
theorem Bal.startRollback {s : State} (t : Tx) (k : KFinal) (hd : 0 ≤ d)
    (h : Bal me rt p c (d + bit (mF rt p c k)) s) : Bal me rt p c d (s.startRollback t k) :=
  Bal.regRollback _ _ hd (h.issueAll _ _ _)

theorem find_involvePurge (s : State) (t : Trid) (l : List Int) : (s.involvePurge t l).find t.xid.g ≠ none := by
  unfold State.involvePurge State.find
  rw [Ne, List.find?_eq_none]
  intro h
  have : ∃ x ∈ (s.ensure t).txs, x.g = t.xid.g := by
    unfold State.ensure
    split
    · rename_i h; simpa using h
    · exact ⟨Tx.new t, by simp, rfl⟩
  obtain ⟨x, hx, hg⟩ := this
  refine h _ (List.mem_map_of_mem hx) ?_
  simp [hg, Tx.purge]

theorem Bal.commitRequest {s : State} (q : Proc) (e : Nat) (t : Trid) (i : List Int) (hd : 0 ≤ d)
    (h : Bal me rt p c (d + bit (isRequest rt p c (.ev (.commit q e t i)))) s) :
    Bal me rt p c d (commitRequest s q e t i) := by
  unfold TM.commitRequest
  dsimp only
  have h1 : Bal me rt p c (d + bit (isRequest rt p c (.ev (.commit q e t i)))) (s.involvePurge t i) :=
    (h.ensure t).modify _ _
  have hw : ∀ st, wt rt p c (.answer q ⟨.commit, e, t.xid.g, 0, .tx st, some .commit⟩) =
      - bit (isRequest rt p c (.ev (.commit q e t i))) := by
    intro st
    simp only [wt, isRequest, isFinalAnswer, isIgnored, bit]
    by_cases e1 : rt = .commit <;> by_cases e2 : q = p <;> by_cases e3 : e = c <;> simp [e1, e2, e3]
    all_goals (intro k; exact absurd k.symm e1)
  split
  · rename_i hn; exact absurd hn (find_involvePurge _ _ _)
  split
  · exact h1.emit _ (by rw [hw]; omega) hd
  have h2 := h1.modify t.xid.g (fun t => { t with owner := q })
  have hm : ∀ o x, mF rt p c ⟨.commit, o, ⟨q, e, 0⟩, x⟩ = isRequest rt p c (.ev (.commit q e t i)) := by
    intro o x; simp [mF, isRequest, eq_comm]
  split
  · exact (h2.emit _ (by rw [hw]; omega) hd).removeByRange _
  · exact Bal.startCommit _ _ _ hd (by rw [hm]; exact h2.modify _ _)
  · exact Bal.startPrepare _ _ hd (by
      have : mP rt p c ⟨.commit, t, ⟨q, e, 0⟩⟩ = isRequest rt p c (.ev (.commit q e t i)) := hm t .ok
      rw [this]; exact h2.modify _ _)

theorem Bal.rollbackRequest {s : State} (q : Proc) (e : Nat) (t : Trid) (i : List Int) (hd : 0 ≤ d)
    (h : Bal me rt p c (d + bit (isRequest rt p c (.ev (.rollback q e t i)))) s) :
    Bal me rt p c d (rollbackRequest s q e t i) := by
  unfold TM.rollbackRequest
  dsimp only
  have h1 : Bal me rt p c (d + bit (isRequest rt p c (.ev (.rollback q e t i)))) (s.involvePurge t i) :=
    (h.ensure t).modify _ _
  split
  · rename_i hn; exact absurd hn (find_involvePurge _ _ _)
  · refine Bal.startRollback _ _ hd ?_
    have : mF rt p c ⟨.rollback, t, ⟨q, e, 0⟩, .read_only⟩ = isRequest rt p c (.ev (.rollback q e t i)) := by
      simp [mF, isRequest, eq_comm]
    rw [this]; exact h1.modify _ _

theorem wt_ext (r : RType) (q : Proc) (e g : Nat) (rm : Int) :
    wt rt p c (.answer q ⟨r, e, g, rm, .xa .read_only, none⟩) = - bit (decide (rt = r ∧ q = p ∧ e = c)) := by
  simp only [wt, isRequest, isFinalAnswer, isIgnored, bit]
  by_cases e1 : rt = r <;> by_cases e2 : q = p <;> by_cases e3 : e = c <;> simp [e1, e2, e3]
  intro k; exact absurd k.symm e1

theorem Bal.extPrepare {s : State} (q : Proc) (e : Nat) (t : Trid) (r : Int) (hd : 0 ≤ d)
    (h : Bal me rt p c (d + bit (decide (rt = .resPrepare ∧ q = p ∧ e = c))) s) :
    Bal me rt p c d (extPrepareRequest s q e t r) := by
  unfold extPrepareRequest State.readOnlyReply
  dsimp only
  split
  · exact h.emit _ (by rw [wt_ext]; omega) hd
  split
  · exact h.emit _ (by rw [wt_ext]; omega) hd
  split
  · exact (h.emit _ (by rw [wt_ext]; omega) hd).removeByRange _
  · refine Bal.startPrepare _ _ hd ?_
    have : mP rt p c ⟨.resPrepare, t, ⟨q, e, r⟩⟩ = decide (rt = .resPrepare ∧ q = p ∧ e = c) := by simp [mP, eq_comm]
    rw [this]; exact h.modify _ _

theorem Bal.extCommit {s : State} (q : Proc) (e : Nat) (t : Trid) (r : Int) (hd : 0 ≤ d)
    (h : Bal me rt p c (d + bit (decide (rt = .resCommit ∧ q = p ∧ e = c))) s) :
    Bal me rt p c d (extCommitRequest s q e t r) := by
  unfold extCommitRequest State.readOnlyReply
  dsimp only
  split
  · exact h.emit _ (by rw [wt_ext]; omega) hd
  split
  · refine Bal.startCommit _ _ _ hd ?_
    have : mF rt p c ⟨.resCommit, t, ⟨q, e, r⟩, .read_only⟩ = decide (rt = .resCommit ∧ q = p ∧ e = c) := by simp [mF, eq_comm]
    rw [this]; exact h.modify _ _
  split
  · refine Bal.startPrepare _ _ hd ?_
    have : mP rt p c ⟨.resCommit, t, ⟨q, e, r⟩⟩ = decide (rt = .resCommit ∧ q = p ∧ e = c) := by simp [mP, eq_comm]
    rw [this]; exact h.modify _ _
  · exact h.emit _ (by rw [wt_ext]; omega) hd

theorem Bal.extRollback {s : State} (q : Proc) (e : Nat) (t : Trid) (r : Int) (hd : 0 ≤ d)
    (h : Bal me rt p c (d + bit (decide (rt = .resRollback ∧ q = p ∧ e = c))) s) :
    Bal me rt p c d (extRollbackRequest s q e t r) := by
  unfold extRollbackRequest State.readOnlyReply
  dsimp only
  split
  · exact h.emit _ (by rw [wt_ext]; omega) hd
  split
  · exact h.emit _ (by rw [wt_ext]; omega) hd
  · refine Bal.startRollback _ _ hd ?_
    have : mF rt p c ⟨.resRollback, t, ⟨q, e, r⟩, .read_only⟩ = decide (rt = .resRollback ∧ q = p ∧ e = c) := by simp [mF, eq_comm]
    rw [this]; exact h.modify _ _

abbrev B0 (me : Proc) (rt : RType) (p : Proc) (c : Nat) := Bal me rt p c 0

theorem B0.instReady {s : State} (h : B0 me rt p c s) (rm : Int) (pid : Nat) : B0 me rt p c (s.instReady rm pid) := by
  unfold State.instReady
  split
  · exact h
  split
  · exact h
  rename_i r rest _ _ i _
  dsimp only
  have h1 : B0 me rt p c { s with pending := rest } := Bal.same h rfl rfl rfl rfl rfl rfl rfl
  split
  · exact Bal.emit0 h1 _ rfl
  · have h2 : B0 me rt p c ({ s with pending := rest }.emit (.wire r ⟨i.pid, i.ipc⟩)) := Bal.emit0 h1 _ rfl
    split
    · exact Bal.same h2 rfl rfl rfl rfl rfl rfl rfl
    · exact Bal.halt h2

theorem B0.replied {s : State} (h : B0 me rt p c s) (rm : Int) (pid : Nat) : B0 me rt p c (s.replied rm pid) := by
  unfold State.replied
  split
  · split
    · exact Bal.halt h
    · refine B0.instReady ?_ _ _
      exact Bal.same h rfl rfl rfl rfl rfl rfl rfl
  · exact h

theorem B0.replyHandler {s : State} (h : B0 me rt p c s) (r : Rep) : B0 me rt p c (replyHandler s r) := by
  unfold TM.replyHandler
  dsimp only
  have h1 : B0 me rt p c ((s.emit (.got r)).replied r.rm r.pid) := B0.replied (Bal.emit0 h _ rfl) _ _
  generalize (s.emit (.got r)).replied r.rm r.pid = s1 at h1
  split
  · exact h1
  split
  · have hc := reply_count (fun r : Rep => r.corr) (mP rt p c) s1.prep h1.lp r
    have hl := reply_lite (fun r : Rep => r.corr) _ h1.lp r
    generalize s1.prep.reply (fun r => r.corr) r = x at hc hl
    have h2 := h1.outs hl h1.lc h1.lr (d' := 0 + firedCount (mP rt p c) x.2) (by omega) (by omega)
    exact Bal.firePrepare _ (Int.le_refl _) h2
  · have hc := reply_count (fun r : Rep => r.corr) (mF rt p c) s1.com h1.lc r
    have hl := reply_lite (fun r : Rep => r.corr) _ h1.lc r
    generalize s1.com.reply (fun r => r.corr) r = x at hc hl
    have h2 := h1.outs h1.lp hl h1.lr (d' := 0 + firedCount (mF rt p c) x.2) (by omega) (by omega)
    exact Bal.fireCommit _ (Int.le_refl _) h2
  · have hc := reply_count (fun r : Rep => r.corr) (mF rt p c) s1.rol h1.lr r
    have hl := reply_lite (fun r : Rep => r.corr) _ h1.lr r
    generalize s1.rol.reply (fun r => r.corr) r = x at hc hl
    have h2 := h1.outs h1.lp h1.lc hl (d' := 0 + firedCount (mF rt p c) x.2) (by omega) (by omega)
    exact Bal.fireRollback _ (Int.le_refl _) h2

theorem B0.failedRm {s : State} (h : B0 me rt p c s) (rm : Int) : B0 me rt p c (s.failedRm rm) := by
  unfold State.failedRm
  dsimp only
  have h0 : B0 me rt p c (s.emit (.failed rm)) := Bal.emit0 h _ rfl
  generalize s.emit (.failed rm) = s0 at h0
  have hc := fail_count (M := Rep) (mP rt p c) s0.prep rm
  have hl := fail_lite s0.prep h0.lp rm
  generalize s0.prep.fail rm = x at hc hl
  have h1 : B0 me rt p c (TM.fireAll TM.runPrepare { s0 with prep := x.1 } x.2) := by
    have h2 := h0.outs hl h0.lc h0.lr (d' := 0 + firedCount (mP rt p c) x.2) (by omega) (by omega)
    exact Bal.firePrepare _ (Int.le_refl _) h2
  generalize TM.fireAll TM.runPrepare { s0 with prep := x.1 } x.2 = s1 at h1
  split
  · exact h1
  have hc := fail_count (M := Rep) (mF rt p c) s1.com rm
  have hl := fail_lite s1.com h1.lc rm
  generalize s1.com.fail rm = x at hc hl
  have h2 : B0 me rt p c (TM.fireAll TM.runCommit { s1 with com := x.1 } x.2) := by
    have h2 := h1.outs h1.lp hl h1.lr (d' := 0 + firedCount (mF rt p c) x.2) (by omega) (by omega)
    exact Bal.fireCommit _ (Int.le_refl _) h2
  generalize TM.fireAll TM.runCommit { s1 with com := x.1 } x.2 = s2 at h2
  have hc := fail_count (M := Rep) (mF rt p c) s2.rol rm
  have hl := fail_lite s2.rol h2.lr rm
  generalize s2.rol.fail rm = x at hc hl
  have h3 := h2.outs h2.lp h2.lc hl (d' := 0 + firedCount (mF rt p c) x.2) (by omega) (by omega)
  exact Bal.fireRollback _ (Int.le_refl _) h3

theorem B0.exitHandler {s : State} (h : B0 me rt p c s) (pid : Nat) : B0 me rt p c (exitHandler s pid) := by
  unfold TM.exitHandler
  split
  · exact Bal.same h rfl rfl rfl rfl rfl rfl rfl
  · dsimp only
    refine Closed.foldl (P := B0 me rt p c) (f := fun (s : State) (t : Trid) => TM.rollbackRequest s s.self 0 t []) _ ?_ ?_
    · intro s t _ hs
      refine Bal.rollbackRequest _ _ _ _ (Int.le_refl _) ?_
      have : isRequest rt p c (.ev (.rollback s.self 0 t [])) = false := by
        have : ¬ (s.self = p) := by rw [hs.slf]; exact fun k => hs.ne k.symm
        simp [isRequest, this]
      rw [this]; exact hs
    · have h1 := Closed.foldl (P := B0 me rt p c) (f := fun (s : State) (e : Ext) => s.failedRm e.id)
        (s.externals.filter (fun e => decide (e.proc.pid = pid))) (fun s e _ hs => B0.failedRm hs e.id) h
      exact Bal.same h1 rfl rfl rfl rfl rfl rfl rfl

theorem B0.handle {s : State} (e : Event) (he : e ≠ .crash)
    (h : Bal me rt p c (0 + bit (isRequest rt p c (.ev e))) s) : B0 me rt p c (handle s e) := by
  have z : ∀ {s : State}, Bal me rt p c (0 + bit false) s → B0 me rt p c s := fun h => h
  cases e with
  | commit q e t i => exact Bal.commitRequest q e t i (Int.le_refl _) h
  | rollback q e t i => exact Bal.rollbackRequest q e t i (Int.le_refl _) h
  | involved q t i r => exact Bal.modify (Bal.ensure (z h) t) _ _
  | extInstance q =>
    dsimp only [TM.handle]
    unfold State.extAdd
    dsimp only
    split <;> exact Bal.same (z h) rfl rfl rfl rfl rfl rfl rfl
  | extInvolved q t =>
    dsimp only [TM.handle]
    refine Bal.modify (Bal.ensure ?_ t) _ _
    unfold State.extId
    split
    · exact z h
    · exact Bal.same (z h) rfl rfl rfl rfl rfl rfl rfl
  | extPrepare q e t r => exact Bal.extPrepare q e t r (Int.le_refl _) h
  | extCommit q e t r o => exact Bal.extCommit q e t r (Int.le_refl _) h
  | extRollback q e t r => exact Bal.extRollback q e t r (Int.le_refl _) h
  | reply r => exact B0.replyHandler (z h) r
  | consume =>
    dsimp only [TM.handle]
    split
    · exact z h
    · refine B0.replyHandler ?_ _
      exact Bal.same (z h) rfl rfl rfl rfl rfl rfl rfl
  | ready rm q =>
    dsimp only [TM.handle]
    unfold readyHandler
    split
    · exact Bal.halt (z h)
    · refine B0.instReady ?_ _ _
      exact Bal.same (z h) rfl rfl rfl rfl rfl rfl rfl
  | inboundBranch q g b o => exact Bal.ensure (z h) _
  | exit pid => exact B0.exitHandler (z h) pid
  | destroyed q =>
    dsimp only [TM.handle]
    unfold destroyedHandler
    split
    · exact z h
    · refine Bal.same (d := 0) (B0.failedRm (z h) _) rfl rfl rfl rfl rfl rfl rfl
  | spawn rm pid =>
    dsimp only [TM.handle]
    split
    · exact z h
    split <;> exact Bal.same (z h) rfl rfl rfl rfl rfl rfl rfl
  | scaleIn rm pid => exact Bal.same (z h) rfl rfl rfl rfl rfl rfl rfl
  | ipcGone i => exact Bal.same (z h) rfl rfl rfl rfl rfl rfl rfl
  | idle =>
    dsimp only [TM.handle]
    split
    · exact z h
    · exact Bal.persist (z h)
  | crash => exact absurd rfl he

theorem wt_ev (e : Event) : wt rt p c (.ev e) = bit (isRequest rt p c (.ev e)) := by
  simp [wt, isFinalAnswer, isIgnored, bit]

theorem bit_nonneg (b : Bool) : 0 ≤ bit b := by unfold bit; split <;> omega

theorem B0.step {s : State} (h : B0 me rt p c s) (e : Event) : B0 me rt p c (step s e) := by
  have ite : e ≠ .crash → B0 me rt p c (if s.halted then s else TM.handle (s.emit (.ev e)) e) := by
    intro he
    split
    · exact h
    · exact B0.handle e he (Bal.emit h _ (by rw [wt_ev]) (by have := bit_nonneg (isRequest rt p c (.ev e)); omega))
  cases e with
  | crash =>
    show Bal me rt p c 0 (State.restart (s.emit (.ev .crash)))
    refine ⟨Int.le_refl _, h.ne, h.slf, lite_empty, lite_empty, lite_empty, fun k => (by cases k), ?_,
      fun k => absurd (by simp [State.restart, State.emit]) k.2⟩
    have h1 := h.le; have h2 := openN_nonneg (rt := rt) (p := p) (c := c) s
    have h4 : openN rt p c (State.restart (s.emit (.ev .crash))) = 0 := by simp [openN, State.restart, Out.empty, openCount]
    have h5 : bal rt p c (State.restart (s.emit (.ev .crash))).tr = bal rt p c s.tr := by
      simp [State.restart, State.emit, bal, wt, bit, isRequest, isFinalAnswer, isIgnored]
    omega
  | _ => exact ite (by simp)

theorem reach_bal (me : Proc) (es : List Event) (rt : RType) (p : Proc) (c : Nat) (hp : p ≠ me) :
    B0 me rt p c (run (init me) es) := by
  have : ∀ s, B0 me rt p c s → B0 me rt p c (run s es) := by
    induction es with
    | nil => exact fun _ h => h
    | cons e es ih => exact fun s h => ih _ (h.step e)
  exact this _ ⟨Int.le_refl _, hp, rfl, lite_empty, lite_empty, lite_empty, fun k => (by cases k), Int.le_refl _, fun _ => rfl⟩

end Casual.TM

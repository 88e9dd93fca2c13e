import Verif.Tx.Assoc
/-! The steps of the association invariant. -/
namespace Casual.Tx
open Casual.Code

/-- What the invariant depends on. -/
def sig (t : Tran) : Option Xid × Bool × List Rm := (t.trid, t.suspended, t.involved)

theorem mem_of_sig {ts us : List Tran} (h : us.map sig = ts.map sig) {t : Tran} (ht : t ∈ us) :
    ∃ u ∈ ts, sig u = sig t := by
  have : sig t ∈ ts.map sig := by rw [← h]; exact List.mem_map_of_mem ht
  obtain ⟨u, hu, he⟩ := List.mem_map.mp this
  exact ⟨u, hu, he⟩

theorem Shape.sig {e : Env} {ts us : List Tran} (h : Shape e ts) (hs : us.map Tx.sig = ts.map Tx.sig) :
    Shape e us where
  fix := by
    intro t ht hn r hr
    obtain ⟨u, hu, he⟩ := mem_of_sig hs ht
    simp only [Tx.sig, Prod.mk.injEq] at he
    rw [← he.2.2]
    exact h.fix u hu (by rw [he.1]; exact hn) r hr
  nod := by
    have : ∀ l : List Tran, l.filterMap (·.trid) = (l.map Tx.sig).filterMap (·.1) := by
      intro l; rw [List.filterMap_map]; rfl
    rw [this, hs, ← this]; exact h.nod
  one := by
    have : ∀ l : List Tran, (l.filter (fun t => isOther t.trid)).length =
        ((l.map Tx.sig).filter (fun s => isOther s.1)).length := by
      intro l; rw [List.filter_map, List.length_map]; rfl
    rw [this, hs, ← this]; exact h.one

theorem Low.sig {k : Control} {ts us : List Tran} (h : Low k ts) (hs : us.map Tx.sig = ts.map Tx.sig) :
    Low k us := by
  intro hk t ht
  have hs' : us.tail.map Tx.sig = ts.tail.map Tx.sig := by rw [List.map_tail, hs, List.map_tail]
  obtain ⟨u, hu, he⟩ := mem_of_sig hs' ht
  simp only [Tx.sig, Prod.mk.injEq] at he
  rw [← he.1, ← he.2.1]
  exact h hk u hu

theorem cur_sig {ts us : List Tran} (hs : us.map Tx.sig = ts.map Tx.sig) : cur us = cur ts := by
  cases us with
  | nil =>
    cases ts with
    | nil => rfl
    | cons => simp at hs
  | cons u us =>
    cases ts with
    | nil => simp at hs
    | cons t ts =>
      simp only [List.map_cons, List.cons.injEq, Tx.sig, Prod.mk.injEq] at hs
      unfold cur
      dsimp only
      rw [hs.1.1, hs.1.2.1]

theorem A.sig {e : Env} {c c' : Ctx} (h : A e c) (hs : c'.stack.map Tx.sig = c.stack.map Tx.sig)
    (hc : c'.control = c.control) (hl : ∀ r ∈ e.fixed, ∀ y, active c'.log r y = active c.log r y) : A e c' where
  shape := h.shape.sig hs
  low := by rw [hc]; exact h.low.sig hs
  act := by rw [cur_sig hs]; exact h.act.congr hl

/-- Writing to the current transaction. -/
theorem A.setCurrent {e : Env} {c : Ctx} (h : A e c) {f : Tran → Tran} (h1 : ∀ t, (f t).trid = t.trid)
    (h2 : ∀ t, (f t).suspended = t.suspended) (h3 : ∀ t, ∀ r ∈ t.involved, r ∈ (f t).involved) :
    A e (setCurrent f c) := by
  unfold Tx.setCurrent
  split
  · exact ⟨h.shape, h.low, h.act⟩
  · rename_i t ts hst
    split
    · exact ⟨h.shape, h.low, h.act⟩
    · have hs := h.shape
      have hl := h.low
      have ha := h.act
      rw [hst] at hs hl ha
      refine ⟨hs.head (h1 t) (h3 t), hl, ?_⟩
      have : cur (f t :: ts) = cur (t :: ts) := by unfold cur; dsimp only; rw [h1, h2]
      show ActiveIn e c.log (cur (f t :: ts))
      rw [this]; exact ha

theorem A.emit {e : Env} {c : Ctx} (h : A e c) {ev : Event} (hu : ∀ r ∈ e.fixed, ∀ y, uses r y ev = false) :
    A e (emit ev c) := ⟨h.shape, h.low, h.act.emit hu⟩

theorem A.commit {e : Env} (he : e.Willing) {c : Ctx} (hw : W e c) (h : A e c) (now : Time) :
    A e (commit e now c).1 := by
  unfold Tx.commit
  split
  · exact h
  · rename_i hp
    have hp := Classical.not_not.mp hp
    obtain ⟨_, _, _, x, hx⟩ := commitPre_ok hp
    obtain ⟨t, ts, hst, hsu, hct, htx⟩ := current_some hw.emp hx
    refine A.decide he hw h now hst hsu htx (hw.popCommit hp) ?_
    rw [hct]
    exact no_uses_commitT he t x htx (pop c)

theorem A.rollback {e : Env} (he : e.Willing) {c : Ctx} (hw : W e c) (h : A e c) (now : Time) :
    A e (rollback e now c).1 := by
  unfold Tx.rollback
  split
  · exact h
  · rename_i hp
    have hp := Classical.not_not.mp hp
    obtain ⟨_, x, hx⟩ := rollbackPre_ok hp
    obtain ⟨t, ts, hst, hsu, hct, htx⟩ := current_some hw.emp hx
    refine A.decide he hw h now hst hsu htx (hw.popRollback hp) ?_
    rw [hct]
    exact no_uses_rollbackT he t x htx (pop c)

theorem A.suspend {e : Env} (he : e.Willing) {c : Ctx} (hw : W e c) (h : A e c) :
    A e (suspend e c).1 := by
  have hcur := current_trid (c := c) hw.emp
  unfold Tx.suspend
  split
  · exact h
  · rename_i x hx
    obtain ⟨t, ts, hst, hsu, hct, htx⟩ := current_some hw.emp hx
    dsimp only
    rw [stopAll_willing he]
    rw [if_neg (by simp)]
    rw [setCurrent_head hst hsu]
    have hs := h.shape
    have hl := h.low
    have ha := h.act
    rw [← hcur, hx] at ha
    rw [hst] at hs hl
    refine ⟨hs.head rfl (fun _ hr => hr), hl, ?_⟩
    show ActiveIn e _ none
    refine ha.stop ?_ _
    rw [hct]
    exact hs.fix t List.mem_cons_self (by rw [htx]; simp)

theorem A.resume {e : Env} (he : e.Willing) {c : Ctx} (hw : W e c) (h : A e c) (x : Option Xid) :
    A e (resume e x c).1 := by
  have hcur := current_trid (c := c) hw.emp
  unfold Tx.resume
  split
  · exact h
  split
  · exact h
  rename_i x hn
  split
  · exact h
  split
  · exact h
  rename_i pre t post hsp
  split
  · exact h
  obtain ⟨hrev, htx⟩ := splitAt_some hsp
  have hcn : cur c.stack = none := by
    rw [← hcur]
    cases hh : (current c).trid with
    | none => rfl
    | some y => rw [hh] at hn; simp at hn
  have ha := h.act
  rw [hcn] at ha
  have hall := cur_none_all h.low hcn
  have hperm : c.stack.Perm (t :: (pre ++ post)) :=
    (List.reverse_perm c.stack).symm.trans (by rw [hrev]; exact List.perm_middle)
  have hs := h.shape.perm hperm
  have key : ∀ u : Tran, u.trid = t.trid → u.suspended = false → (∀ r ∈ t.involved, r ∈ u.involved) →
      ∀ log, ActiveIn e log (some x) →
      A e { c with stack := (post ++ pre ++ [u]).reverse, log := log } := by
    intro u h1 h2 h3 log hlog
    have hp : (u :: (pre ++ post)).Perm (post ++ pre ++ [u]).reverse := perm_rot pre post u
    refine ⟨(hs.head h1 h3).perm hp, ?_, ?_⟩
    · intro hk v hv
      simp only [List.reverse_append, List.reverse_cons, List.reverse_nil, List.nil_append,
        List.cons_append, List.tail_cons, List.mem_append, List.mem_reverse] at hv
      refine hall hk v (hperm.mem_iff.mpr (List.mem_cons_of_mem _ ?_))
      exact List.mem_append.mpr hv
    · show ActiveIn e log (cur (post ++ pre ++ [u]).reverse)
      have : cur (post ++ pre ++ [u]).reverse = some x := by
        simp only [List.reverse_append, List.reverse_cons, List.reverse_nil, List.nil_append,
          List.cons_append]
        unfold cur
        dsimp only
        rw [h2, h1, htx]; simp
      rw [this]; exact hlog
  dsimp only
  split
  · rename_i hf
    refine key { t with suspended := false } rfl rfl (fun _ hr => hr) c.log ?_
    intro r hr; rw [hf] at hr; cases hr
  · rw [startAll_willing he]
    rw [if_neg (by simp)]
    refine key (({ t with suspended := false } : Tran).involve e.fixed) rfl rfl
      (fun r hr => mem_involve.mpr (Or.inl hr)) _ ?_
    refine ActiveIn.start ha ?_ (fun _ => .resume)
    intro r hr
    exact List.mem_filter.mpr ⟨mem_involve.mpr (Or.inr hr), by simp [hr]⟩

theorem Shape.single {e : Env} {t : Tran} (h : t.trid ≠ none → ∀ r ∈ e.fixed, r ∈ t.involved) :
    Shape e [t] where
  fix := by
    intro u hu
    rw [List.mem_singleton] at hu
    subst hu; exact h
  nod := by
    rw [List.filterMap_cons]
    split <;> simp
  one := by
    rw [List.filter_cons]
    split <;> simp

theorem A.single {e : Env} {c : Ctx} {t : Tran} (hst : c.stack = [t])
    (h : t.trid ≠ none → ∀ r ∈ e.fixed, r ∈ t.involved) (hs : t.suspended = false)
    (ha : ActiveIn e c.log t.trid) : A e c where
  shape := by rw [hst]; exact Shape.single h
  low := by intro _ u hu; rw [hst] at hu; cases hu
  act := by
    rw [hst]; unfold cur; dsimp only; rw [hs]; exact ha

theorem A.nilAct {e : Env} {c : Ctx} (h : A e c) (hst : c.stack = []) : ActiveIn e c.log none := by
  have := h.act
  rw [hst] at this
  exact this

theorem A.join {e : Env} (he : e.Willing) {c : Ctx} (h : A e c) (hst : c.stack = []) (x : Option Xid) :
    A e (join e x c).1 := by
  have ha := h.nilAct hst
  unfold Tx.join
  split
  · exact A.single (t := {}) (by rw [hst]) (by simp) rfl ha
  · rename_i x
    split
    · rename_i hf
      refine A.single (t := { trid := some x }) (by rw [hst]) (fun _ r hr => by rw [hf] at hr; cases hr) rfl ?_
      intro r hr; rw [hf] at hr; cases hr
    · dsimp only
      rw [accum_starts he x
        (fun r => if r ∈ e.involved (Tx.emit (Event.involve x e.fixed) c).log x then Flag.join else Flag.none)
        (fun _ => true) _ (fun r c => by simp)]
      refine A.single (t := ({ trid := some x } : Tran).involve e.fixed) (by show _ :: c.stack = _; rw [hst])
        (fun _ r hr => mem_involve.mpr (Or.inr hr)) rfl ?_
      refine ActiveIn.start (ha.emit (fun _ _ _ => rfl)) ?_ _
      intro r hr
      exact List.mem_filter.mpr ⟨hr, rfl⟩

theorem A.start {e : Env} (he : e.Willing) {c : Ctx} (h : A e c) (hst : c.stack = []) :
    A e (start e c).1 := by
  have ha := h.nilAct hst
  unfold Tx.start
  dsimp only
  rw [startAll_willing he]
  rw [if_neg (by simp)]
  refine A.single (t := (newTran c.next none).involve e.fixed) (by show _ :: c.stack = _; rw [hst])
    (fun _ r hr => mem_involve.mpr (Or.inr hr)) rfl ?_
  refine ActiveIn.start (x := .mine c.next) (ha.emit (fun _ _ _ => rfl)) ?_ (fun _ => .none)
  intro r hr
  exact List.mem_filter.mpr ⟨mem_involve.mpr (Or.inr hr), by simp [hr]⟩

theorem A.branch {e : Env} (he : e.Willing) {c : Ctx} (h : A e c) (hst : c.stack = []) (n : Nat) :
    A e (branch e n c).1 := by
  have ha := h.nilAct hst
  unfold Tx.branch
  dsimp only
  split
  · rename_i hf
    refine A.single (t := { trid := some (.other n (c.next + 1)) }) (by rw [hst]) (fun _ r hr => by rw [hf] at hr; cases hr) rfl ?_
    intro r hr; rw [hf] at hr; cases hr
  · rw [startAll_willing he]
    refine A.single (t := ({ trid := some (.other n (c.next + 1)) } : Tran).involve e.fixed) (by show _ :: c.stack = _; rw [hst])
      (fun _ r hr => mem_involve.mpr (Or.inr hr)) rfl ?_
    refine ActiveIn.start (x := .other n (c.next + 1)) (ha.emit (fun _ _ _ => rfl)) ?_ (fun _ => .none)
    intro r hr
    exact List.mem_filter.mpr ⟨mem_involve.mpr (Or.inr hr), by simp [hr]⟩

theorem A.call {e : Env} {c : Ctx} (h : A e c) (b : Bool) : A e (call b c) := by
  unfold Tx.call
  dsimp only
  split
  · split
    · exact ⟨h.shape, h.low, h.act⟩
    · refine A.emit ?_ (fun _ _ _ => rfl)
      exact A.setCurrent (c := { c with nextCorr := c.nextCorr + 1, outstanding := c.outstanding ++ [c.nextCorr] })
        ⟨h.shape, h.low, h.act⟩ (fun _ => rfl) (fun _ => rfl) (fun _ _ hr => hr)
  · exact ⟨h.shape, h.low, h.act⟩

theorem A.callFails {e : Env} {c : Ctx} (h : A e c) (b : Bool) : A e (callFails b c) := by
  unfold Tx.callFails
  dsimp only
  split
  · split
    · exact ⟨h.shape, h.low, h.act⟩
    · exact A.setCurrent (c := { c with nextCorr := c.nextCorr + 1 })
        ⟨h.shape, h.low, h.act⟩ (fun _ => rfl) (fun _ => rfl) (fun _ _ hr => hr)
  · exact ⟨h.shape, h.low, h.act⟩

theorem updateFirst_sig (corr st : Nat) (ts : List Tran) :
    (updateFirst corr st ts).map sig = ts.map sig := by
  rcases updateFirst_cases corr st ts with ⟨_, h⟩ | ⟨a, t, b, h1, _, h3⟩
  · rw [h]
  · rw [h3, h1]
    simp [sig, Tran.update, Tran.replied]

theorem reply_sig (corr st : Nat) (c : Ctx) : (reply corr st c).stack.map sig = c.stack.map sig := by
  unfold reply
  split
  · show ((updateFirst corr st c.stack.reverse).reverse).map sig = _
    rw [List.map_reverse, updateFirst_sig, List.map_reverse, List.reverse_reverse]
  · rfl

theorem A.reply {e : Env} {c : Ctx} (h : A e c) (corr st : Nat) : A e (reply corr st c) := by
  refine h.sig (reply_sig corr st c) ?_ ?_
  · unfold Tx.reply; split <;> rfl
  · intro r _ y
    unfold Tx.reply
    split
    · exact active_skip rfl
    · rfl

theorem A.cancel {e : Env} {c : Ctx} (h : A e c) (corr : Nat) : A e (cancel corr c).1 := by
  unfold Tx.cancel
  split
  · exact h
  split
  · exact h
  · exact ⟨h.shape, h.low, h.act.emit (fun _ _ _ => rfl)⟩

theorem A.external {e : Env} {c : Ctx} (h : A e c) : A e (external c) := by
  unfold Tx.external
  split
  · rename_i x _
    exact A.emit (ev := .external x) (h.setCurrent (f := fun t => { t with external := true }) (fun _ => rfl) (fun _ => rfl) (fun _ _ hr => hr)) (fun _ _ _ => rfl)
  · exact h

theorem A.register {e : Env} (hd : e.Disjoint) {c : Ctx} (h : A e c) (r : Rm) :
    A e (register e r c).1 := by
  unfold Tx.register
  split
  · exact h
  rename_i hr
  have hr : r ∈ e.dyn := Classical.not_not.mp hr
  split
  · exact h
  have h1 : A e (Tx.setCurrent (fun t => { t with dynamic := addUnique t.dynamic r }) c) :=
    h.setCurrent (fun _ => rfl) (fun _ => rfl) (fun _ _ hr => hr)
  dsimp only
  split
  · exact h1
  · rename_i x _
    have h2 := h1.emit (ev := .reg r x) (by
      intro r' hr' y
      have : r ≠ r' := fun heq => hd r' hr' (heq ▸ hr)
      simp [uses, this])
    split
    · exact h2
    · have h3 := h2.setCurrent (f := (·.involve [r])) (fun _ => rfl) (fun _ => rfl)
        (fun t s hs => mem_involve.mpr (Or.inl hs))
      split
      · exact h3
      · exact h3.emit (fun _ _ _ => rfl)

theorem A.unregister {e : Env} {c : Ctx} (h : A e c) (r : Rm) : A e (unregister r c).1 := by
  unfold Tx.unregister
  split
  · exact h
  split
  · exact h
  · exact h.setCurrent (f := fun t => { t with dynamic := t.dynamic.erase r }) (fun _ => rfl) (fun _ => rfl) (fun _ _ hr => hr)

/-! `callAndReply` keeps the shape; used between stop and resume. -/

theorem callAndReply_keeps {e : Env} {c : Ctx} (b : Bool) (st : Option Nat) {x : Option Xid}
    (hem : c.empty.trid = none)
    (hs : Shape e c.stack) (hl : Low c.control c.stack) (ha : ActiveIn e c.log x) :
    Shape e (callAndReply b st c).stack ∧ Low (callAndReply b st c).control (callAndReply b st c).stack ∧
    ActiveIn e (callAndReply b st c).log x ∧ (callAndReply b st c).empty.trid = none := by
  have hsig : ∀ f : Tran → Tran, (∀ t, sig (f t) = sig t) → ∀ c : Ctx,
      (Tx.setCurrent f c).stack.map sig = c.stack.map sig := by
    intro f hf c
    unfold Tx.setCurrent
    split
    · rfl
    · rename_i t ts hst
      split
      · rfl
      · show (f t :: ts).map sig = c.stack.map sig
        rw [hst]; simp [hf]
  have hco : ∀ (f : Tran → Tran) (c : Ctx), (Tx.setCurrent f c).control = c.control ∧ (Tx.setCurrent f c).log = c.log := by
    intro f c
    unfold Tx.setCurrent
    split
    · exact ⟨rfl, rfl⟩
    · split <;> exact ⟨rfl, rfl⟩
  have hemp : ∀ (f : Tran → Tran), (∀ t, (f t).trid = t.trid) → ∀ c : Ctx, c.empty.trid = none → (Tx.setCurrent f c).empty.trid = none := by
    intro f hf c h
    unfold Tx.setCurrent
    split
    · show (f c.empty).trid = none; rw [hf]; exact h
    · split
      · show (f c.empty).trid = none; rw [hf]; exact h
      · exact h
  have hcall : (call b c).stack.map sig = c.stack.map sig ∧ (call b c).control = c.control ∧
      (∀ r ∈ e.fixed, ∀ y, active (call b c).log r y = active c.log r y) ∧ (call b c).empty.trid = none := by
    unfold Tx.call
    dsimp only
    split
    · split
      · exact ⟨rfl, rfl, fun _ _ _ => rfl, hem⟩
      · refine ⟨hsig (·.associate c.nextCorr) (fun _ => rfl) _, (hco _ _).1, ?_, hemp (·.associate c.nextCorr) (fun _ => rfl) _ hem⟩
        intro r _ y
        show active (_ :: (Tx.setCurrent _ _).log) r y = _
        rw [(hco _ _).2]
        exact active_skip rfl
    · exact ⟨rfl, rfl, fun _ _ _ => rfl, hem⟩
  have hfin : ∀ c' : Ctx, c'.stack.map sig = c.stack.map sig → c'.control = c.control →
      (∀ r ∈ e.fixed, ∀ y, active c'.log r y = active c.log r y) → c'.empty.trid = none →
      Shape e c'.stack ∧ Low c'.control c'.stack ∧ ActiveIn e c'.log x ∧ c'.empty.trid = none := by
    intro c' h1 h2 h3 h4
    exact ⟨hs.sig h1, by rw [h2]; exact hl.sig h1, ha.congr h3, h4⟩
  unfold callAndReply
  split
  · rename_i st
    refine hfin _ ?_ ?_ ?_ ?_
    · rw [reply_sig]; exact hcall.1
    · unfold Tx.reply; split <;> exact hcall.2.1
    · intro r hr y
      unfold Tx.reply
      split
      · show active (_ :: (call b c).log) r y = _
        rw [active_skip rfl]; exact hcall.2.2.1 r hr y
      · exact hcall.2.2.1 r hr y
    · unfold Tx.reply; split <;> exact hcall.2.2.2
  · unfold Tx.callFails
    dsimp only
    split
    · split
      · exact hfin _ rfl rfl (fun _ _ _ => rfl) hem
      · refine hfin _ (hsig (·.associate c.nextCorr) (fun _ => rfl) _) (hco _ _).1 ?_ (hemp (·.associate c.nextCorr) (fun _ => rfl) _ hem)
        intro r _ y
        rw [(hco _ _).2]
    · exact hfin _ rfl rfl (fun _ _ _ => rfl) hem

theorem A.callAndReply {e : Env} {c : Ctx} (h : A e c) (b : Bool) (st : Option Nat) :
    A e (callAndReply b st c) := by
  unfold Tx.callAndReply
  split
  · exact (h.call b).reply _ _
  · exact h.callFails b

theorem A.sync {e : Env} (he : e.Willing) {c : Ctx} (hw : W e c) (h : A e c) (b : Bool) (st : Option Nat) :
    A e (sync e b st c).1 := by
  have hcur := current_trid (c := c) hw.emp
  unfold Tx.sync
  split
  · rename_i x hx
    obtain ⟨t, ts, hst, hsu, hct, htx⟩ := current_some hw.emp hx
    have h0 : ∃ c0, c0 = (if (current c).involved ≠ [] then Tx.emit (.involve x (current c).involved) c else c) ∧
        c0.stack = c.stack ∧ c0.control = c.control ∧ c0.empty = c.empty ∧ ActiveIn e c0.log (some x) := by
      refine ⟨_, rfl, ?_⟩
      have ha := h.act
      rw [← hcur, hx] at ha
      split
      · exact ⟨rfl, rfl, rfl, ha.emit (fun _ _ _ => rfl)⟩
      · exact ⟨rfl, rfl, rfl, ha⟩
    obtain ⟨c0, hc0, h1, h2, h3, h4⟩ := h0
    rw [← hc0]
    dsimp only
    rw [stopAll_willing he]
    rw [if_neg (by simp)]
    dsimp only
    have hs : Shape e c0.stack := by rw [h1]; exact h.shape
    have hl : Low c0.control c0.stack := by rw [h1, h2]; exact h.low
    have := callAndReply_keeps (e := e) (c := { c0 with log := (((current c).involved.filter (· ∈ e.all)).map fun r => Event.xa (.stop r x .suspend) .ok).reverse ++ c0.log })
      false st (by rw [h3]; exact hw.emp) hs hl (h4.stop (by
        rw [hct]
        exact h.shape.fix t (by rw [hst]; exact List.mem_cons_self) (by rw [htx]; simp)) _)
    obtain ⟨k1, k2, k3, k4⟩ := this
    exact A.resumeCurrent he k4 k1 k2 k3 (fun r hr => hr)
  · exact h.callAndReply _ _

/-! ### finalize -/

theorem finalize_loop {e : Env} (he : e.Willing) (ok : Bool) : ∀ (l : List Tran) (c : Ctx) (k : Tx),
    (∀ t ∈ l, t.trid ≠ none) →
    ∃ log, (accum (commitOrRollback e ok) l (c, k)).1 = { c with log := log } ∧
      ∀ r ∈ e.fixed, ∀ y, active log r y = true →
        active c.log r y = true ∧ ∀ t ∈ l, t.trid = some y → r ∉ t.involved
  | [], c, k, _ => ⟨c.log, rfl, fun r _ y h => ⟨h, by simp⟩⟩
  | t :: l, c, k, hn => by
    unfold accum
    obtain ⟨x, hx⟩ : ∃ x, t.trid = some x := by
      cases h : t.trid with
      | none => exact absurd h (hn t List.mem_cons_self)
      | some x => exact ⟨x, rfl⟩
    have h1 : ∃ evs, (commitOrRollback e ok t c).1 = { c with log := evs ++
        (((t.involved.filter (· ∈ e.all)).map fun r => Event.xa (.stop r x .success) .ok).reverse ++ c.log) } ∧
        ∀ ev ∈ evs, ∀ r y, uses r y ev = false := by
      unfold commitOrRollback
      split
      · exact no_uses_commitT he t x hx c
      · exact no_uses_rollbackT he t x hx c
    obtain ⟨evs, h1, h2⟩ := h1
    obtain ⟨log, h3, h4⟩ := finalize_loop he ok l (commitOrRollback e ok t c).1 (k.add (commitOrRollback e ok t c).2)
      (fun u hu => hn u (List.mem_cons_of_mem _ hu))
    refine ⟨log, by rw [h3, h1], ?_⟩
    intro r hr y hy
    obtain ⟨h5, h6⟩ := h4 r hr y hy
    rw [h1] at h5
    change active (evs ++ _) r y = true at h5
    rw [active_skips (fun ev hev => h2 ev hev r y), active_stops] at h5
    simp only [Bool.and_eq_true, Bool.not_eq_true', Bool.and_eq_false_iff, decide_eq_false_iff_not] at h5
    refine ⟨h5.1, ?_⟩
    intro u hu huy
    rcases List.mem_cons.mp hu with rfl | hu
    · rw [hx] at huy
      cases huy
      rcases h5.2 with h7 | h7
      · exact absurd rfl h7
      · intro hin
        exact h7 (List.mem_filter.mpr ⟨hin, by simp [fixed_all hr]⟩)
    · exact h6 u hu huy

theorem eq_of_le_one {α : Type} {l : List α} (h : l.length ≤ 1) {a b : α} (ha : a ∈ l) (hb : b ∈ l) : a = b := by
  match l, h with
  | [], _ => cases ha
  | [x], _ =>
    rw [List.mem_singleton] at ha hb
    rw [ha, hb]

theorem cur_some {ts : List Tran} {y : Xid} (h : cur ts = some y) :
    ∃ t ∈ ts, t.trid = some y := by
  cases ts with
  | nil => cases h
  | cons t ts =>
    unfold cur at h
    dsimp only at h
    split at h
    · cases h
    · exact ⟨t, List.mem_cons_self, h⟩

theorem A.ofNil {e : Env} {c : Ctx} (hst : c.stack = []) (ha : ActiveIn e c.log none) : A e c where
  shape := by rw [hst]; exact Shape.nil e
  low := by intro _ u hu; rw [hst] at hu; cases hu
  act := by rw [hst]; exact ha

theorem A.finalize {e : Env} (he : e.Willing) {c : Ctx} (h : A e c) (ok : Bool) :
    A e (finalize e ok c).1 := by
  have hloop := finalize_loop he ok ((c.stack.reverse.filter (fun t => t.trid.isSome)).filter (·.own))
    (discardAll c.stack.reverse { c with stack := [] }) .ok (by
      intro t ht
      have := (List.mem_filter.mp (List.mem_filter.mp ht).1).2
      intro hn; rw [hn] at this; cases this)
  obtain ⟨log, h1, h2⟩ := hloop
  have hd : ∀ r y, active (discardAll c.stack.reverse { c with stack := [] }).log r y = active c.log r y := by
    intro r y
    refine active_skips ?_
    intro ev hev
    rw [List.mem_reverse, List.mem_map] at hev
    obtain ⟨_, _, rfl⟩ := hev
    rfl
  have hown : ∀ t ∈ c.stack, t.trid ≠ none → t.own = true →
      t ∈ (c.stack.reverse.filter (fun t => t.trid.isSome)).filter (·.own) := by
    intro t ht hn ho
    refine List.mem_filter.mpr ⟨List.mem_filter.mpr ⟨List.mem_reverse.mpr ht, ?_⟩, ho⟩
    cases hh : t.trid with
    | none => exact absurd hh hn
    | some x => rfl
  have hoth : ∀ t : Tran, t.trid ≠ none → t.own = false → isOther t.trid = true := by
    intro t hn ho
    cases hh : t.trid with
    | none => exact absurd hh hn
    | some x =>
      cases x with
      | mine n => unfold Tran.own at ho; rw [hh] at ho; cases ho
      | other a b => rfl
  -- what is still active after the loop
  have hrest : ∀ r ∈ e.fixed, ∀ y, active log r y = true →
      ∃ t ∈ c.stack, t.trid = some y ∧ t.own = false := by
    intro r hr y hy
    obtain ⟨h3, h4⟩ := h2 r hr y hy
    rw [hd] at h3
    obtain ⟨t, ht, htx⟩ := cur_some ((h.act r hr y).mp h3)
    refine ⟨t, ht, htx, ?_⟩
    cases ho : t.own with
    | false => rfl
    | true =>
      have hnn : t.trid ≠ none := by rw [htx]; simp
      exact absurd (h.shape.fix t ht hnn r hr) (h4 t (hown t ht hnn ho) htx)
  unfold Tx.finalize
  dsimp only
  rw [h1]
  split
  · rename_i hnil
    refine A.ofNil rfl ?_
    intro r hr y
    constructor
    · intro hy
      obtain ⟨t, ht, htx, ho⟩ := hrest r hr y hy
      have : t ∈ (c.stack.reverse.filter (fun t => t.trid.isSome)).filter (fun t => !t.own) := by
        refine List.mem_filter.mpr ⟨List.mem_filter.mpr ⟨List.mem_reverse.mpr ht, by rw [htx]; rfl⟩, by simp [ho]⟩
      rw [hnil] at this; cases this
    · intro hh; cases hh
  · rename_i u l hl
    have hu : u ∈ (c.stack.reverse.filter (fun t => t.trid.isSome)).filter (fun t => !t.own) := by
      rw [hl]; exact List.mem_cons_self
    obtain ⟨hu1, hu2⟩ := List.mem_filter.mp hu
    obtain ⟨hu3, hu4⟩ := List.mem_filter.mp hu1
    have hu3 := List.mem_reverse.mp hu3
    have huo : u.own = false := by simpa using hu2
    split
    · rename_i hn
      rw [hn] at hu4; cases hu4
    · rename_i x hx
      rw [stopAll_willing he]
      refine A.ofNil rfl ?_
      intro r hr y
      constructor
      · intro hy
        change active (_ ++ log) r y = true at hy
        rw [active_stops] at hy
        simp only [Bool.and_eq_true, Bool.not_eq_true', Bool.and_eq_false_iff, decide_eq_false_iff_not] at hy
        obtain ⟨t, ht, htx, ho⟩ := hrest r hr y hy.1
        have hnn : u.trid ≠ none := by rw [hx]; simp
        have : u = t := eq_of_le_one h.shape.one
          (List.mem_filter.mpr ⟨hu3, hoth u hnn huo⟩)
          (List.mem_filter.mpr ⟨ht, hoth t (by rw [htx]; simp) ho⟩)
        subst this
        rw [hx] at htx
        cases htx
        rcases hy.2 with h7 | h7
        · exact absurd rfl h7
        · exact absurd (List.mem_filter.mpr ⟨h.shape.fix u hu3 hnn r hr, by simp [fixed_all hr]⟩) h7
      · intro hh; cases hh

/-! ### histories -/

def Disciplined (c : Ctx) (a : Act) : Prop := EntryFirst c a ∧ KeepsStacked c a

theorem A.step {e : Env} (he : e.Willing) (hd : e.Disjoint) {c : Ctx} (hw : W e c) (h : A e c)
    {a : Act} (ha : Disciplined c a) : A e (step e c a) := by
  cases a with
  | begin now => exact h.begin he hw now
  | commit now => exact h.commit he hw now
  | rollback now => exact h.rollback he hw now
  | suspend => exact h.suspend he hw
  | resume x => exact h.resume he hw x
  | setControl k =>
    refine ⟨h.shape, ?_, h.act⟩
    show Low k c.stack
    intro hk t ht
    by_cases hc : c.control = .stacked
    · rcases ha.2 hc with h1 | h1
      · exact absurd h1 hk
      · exact Or.inr (h1 t (List.mem_of_mem_tail ht))
    · exact h.low hc t ht
  | setReturn l => exact ⟨h.shape, h.low, h.act⟩
  | setTimeout t =>
    show A e (Tx.setTimeout t c).1
    unfold Tx.setTimeout
    split
    · exact h
    · exact ⟨h.shape, h.low, h.act⟩
  | reg r => exact h.register hd r
  | unreg r => exact h.unregister r
  | join n => exact h.join he ha.1 _
  | start => exact h.start he ha.1
  | branch n => exact h.branch he ha.1 n
  | call b => exact h.call b
  | reply corr st => exact h.reply corr st
  | cancel corr => exact h.cancel corr
  | callFails b => exact h.callFails b
  | sync b st => exact h.sync he hw b st
  | external => exact h.external
  | finalize ok => exact h.finalize he ok

theorem A.init (e : Env) : A e {} := A.ofNil rfl (by intro r _ y; simp [active])

theorem A.run {e : Env} (he : e.Willing) (hd : e.Disjoint) (as : List Act)
    (hdis : Along Disciplined e {} as) : A e (run e as) := by
  have : ∀ (as : List Act) (c : Ctx), W e c → A e c → Along Disciplined e c as →
      A e (as.foldl (Tx.step e) c) := by
    intro as
    induction as with
    | nil => intro c _ h _; exact h
    | cons a as ih => intro c hw h hal; exact ih _ (hw.step a) (h.step he hd hw hal.1) hal.2
  exact this as _ (W.init e) (A.init e) hdis

end Casual.Tx

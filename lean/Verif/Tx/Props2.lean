import Verif.Tx.Assoc2
import Verif.Tx.Props
/-!
C79 (the association follows the current transaction), C82 (suspend and resume),
C83 (the end of a service), C86 (what `tx_commit` answers).
-/
namespace Casual.Tx
open Casual.Code

/-! ### C79 -/

/-- The claim, for every behaviour of the resource managers: between two calls, the resources that
are not registered dynamically work within the current transaction, and in no other. -/
def AssociationFollows : Prop :=
  ∀ (e : Env) (as : List Act), e.Disjoint → Along EntryFirst e {} as →
    ∀ r ∈ e.fixed, ∀ x, active (run e as).log r x = true ↔ (current (run e as)).trid = some x

/-- Resource 2 refuses to start the second transaction. -/
def refusing : Env :=
  { okEnv [1, 2] [] with
    xa := fun _ op => match op with
      | .start 2 (.mine 1) _ => .resource_error
      | _ => .ok }

/-- C79 does not hold: (1) when a nested `tx_begin` fails, the outer transaction is still the
current one, but it has been suspended in every resource; (2) also when nothing fails: changing
the control from stacked to unchained within a nested transaction. -/
theorem C79_refuted : ¬ AssociationFollows ∧
    (let c := run refusing [.setControl .stacked, .begin 0, .begin 1]
     (current c).trid = some (.mine 0) ∧ active c.log 1 (.mine 0) = false) ∧
    (let c := run (okEnv [1] []) [.setControl .stacked, .begin 0, .begin 1, .setControl .unchained, .commit 2]
     (current c).trid = some (.mine 0) ∧ active c.log 1 (.mine 0) = false) := by
  refine ⟨?_, by decide +kernel, by decide +kernel⟩
  intro h
  have := (h refusing [.setControl .stacked, .begin 0, .begin 1] (by intro r _ hr; cases hr)
    (by simp [Along, EntryFirst]) 1 (by decide) (.mine 0)).mpr (by decide +kernel)
  revert this
  decide +kernel

/-- C79, what holds: when `xa_start` and `xa_end` succeed, the transaction of a service is joined
or started before anything else, and the control is not switched away from stacked in the middle
of transactions, then in every reachable state the fixed resources are associated with exactly
the current transaction. Nested transactions, chained ones, suspend and resume in any order, calls
with and without transaction and dynamic registration are all included. -/
theorem C79_association_partial (e : Env) (he : e.Willing) (hd : e.Disjoint) (as : List Act)
    (h : Along Disciplined e {} as) (r : Rm) (hr : r ∈ e.fixed) (x : Xid) :
    active (run e as).log r x = true ↔ (current (run e as)).trid = some x := by
  rw [current_trid (W.run e as).emp]
  exact (A.run he hd as h).act r hr x

/-- Non-vacuity: a nested, suspended, resumed and rotated history. -/
example : (okEnv [1, 2] [7]).Willing ∧ (okEnv [1, 2] [7]).Disjoint ∧
    Along Disciplined (okEnv [1, 2] [7]) {} [.join (some 3), .setControl .stacked, .begin 0, .suspend, .begin 1,
      .sync false (some 0), .commit 2] ∧
    (current (run (okEnv [1, 2] [7]) [.join (some 3), .setControl .stacked, .begin 0, .suspend, .begin 1,
      .sync false (some 0), .commit 2])).trid = none ∧
    (current (run (okEnv [1, 2] [7]) [.setControl .stacked, .begin 0, .begin 1, .suspend, .begin 2, .suspend,
      .resume (some (.mine 1)), .commit 3])).trid = some (.mine 0) := by
  refine ⟨fun _ _ _ _ => ⟨rfl, rfl⟩, by intro r hr; revert r hr; decide, ?_, by decide +kernel, by decide +kernel⟩
  simp [Along, Disciplined, EntryFirst, KeepsStacked]

/-! ### C82 -/

theorem foldl_addUnique_of_sub : ∀ {rs l : List Rm}, (∀ r ∈ rs, r ∈ l) → rs.foldl addUnique l = l
  | [], _, _ => rfl
  | r :: rs, l, h => by
    rw [List.foldl_cons]
    have : addUnique l r = l := by unfold addUnique; rw [if_pos (h r List.mem_cons_self)]
    rw [this]
    exact foldl_addUnique_of_sub (fun s hs => h s (List.mem_cons_of_mem _ hs))

theorem involve_of_sub {t : Tran} {rs : List Rm} (h : ∀ r ∈ rs, r ∈ t.involved) : t.involve rs = t := by
  unfold Tran.involve
  rw [foldl_addUnique_of_sub h]

theorem splitAt_none {x : Xid} : ∀ {l : List Tran}, splitAt x l = none → ∀ t ∈ l, t.trid ≠ some x
  | [], _, t, ht => by cases ht
  | u :: l, h, t, ht => by
    unfold splitAt at h
    split at h
    · cases h
    · rename_i hu
      split at h
      · rename_i hn
        rcases List.mem_cons.mp ht with rfl | ht
        · exact hu
        · exact splitAt_none hn t ht
      · cases h

theorem unique_trid {ts : List Tran} (h : (ts.filterMap (·.trid)).Nodup) {t u : Tran} (ht : t ∈ ts) (hu : u ∈ ts)
    {x : Xid} (htx : t.trid = some x) (hux : u.trid = some x) : t = u := by
  induction ts with
  | nil => cases ht
  | cons v vs ih =>
    rw [List.filterMap_cons] at h
    have hmem : ∀ w ∈ vs, w.trid = some x → x ∈ vs.filterMap (·.trid) := fun w hw hwx =>
      List.mem_filterMap.mpr ⟨w, hw, hwx⟩
    rcases List.mem_cons.mp ht with ht1 | ht1 <;> rcases List.mem_cons.mp hu with hu1 | hu1
    · rw [ht1, hu1]
    · rw [← ht1, htx] at h
      exact absurd (hmem u hu1 hux) (List.nodup_cons.mp h).1
    · rw [← hu1, hux] at h
      exact absurd (hmem t ht1 htx) (List.nodup_cons.mp h).1
    · refine ih ?_ ht1 hu1
      split at h
      · exact h
      · exact (List.nodup_cons.mp h).2

/-- `tx_resume` of a suspended transaction outside a transaction. -/
theorem resume_suspended {e : Env} (he : e.Willing) {c : Ctx} (hA : A e c)
    {t : Tran} {x : Xid} (ht : t ∈ c.stack) (htx : t.trid = some x)
    (hsu : t.suspended = true) (h0 : (current c).trid = none) (h1 : (current c).dynamic = []) :
    (resume e (some x) c).2 = .ok ∧
    ∃ pre post, c.stack.reverse = pre ++ t :: post ∧
      (resume e (some x) c).1.stack = { t with suspended := false } :: (post ++ pre).reverse := by
  unfold resume
  dsimp only
  rw [h0, if_neg (by simp), if_neg (by simp [h1])]
  cases hsp : splitAt x c.stack.reverse with
  | none => exact absurd htx (splitAt_none hsp t (List.mem_reverse.mpr ht))
  | some p =>
    obtain ⟨pre, u, post⟩ := p
    obtain ⟨hrev, hux⟩ := splitAt_some hsp
    have hu : u ∈ c.stack := by
      rw [← List.mem_reverse, hrev]; exact List.mem_append_right _ List.mem_cons_self
    have hut : u = t := unique_trid hA.shape.nod hu ht hux htx
    subst hut
    dsimp only
    rw [hsu]
    simp only [Bool.not_true, Bool.false_eq_true, if_false]
    split
    · refine ⟨rfl, pre, post, hrev, ?_⟩
      simp
    · rw [startAll_willing he]
      rw [if_neg (by simp)]
      refine ⟨rfl, pre, post, hrev, ?_⟩
      rw [involve_of_sub (t := { u with suspended := false }) (fun r hr => hA.shape.fix u hu (by rw [hux]; simp) r hr)]
      simp

/-- C82: a suspended transaction can be resumed whenever there is no current one, and it is the
current transaction again, as it was. (Under the conditions of C79.) -/
theorem C82_resume (e : Env) (he : e.Willing) (hd : e.Disjoint) (as : List Act)
    (h : Along Disciplined e {} as) (t : Tran) (x : Xid) (ht : t ∈ (run e as).stack)
    (htx : t.trid = some x) (hsu : t.suspended = true)
    (h0 : (current (run e as)).trid = none) (h1 : (current (run e as)).dynamic = []) :
    (resume e (some x) (run e as)).2 = .ok ∧
    current (resume e (some x) (run e as)).1 = { t with suspended := false } ∧
    (resume e (some x) (run e as)).1.stack.tail.Perm ((run e as).stack.erase t) := by
  obtain ⟨h2, pre, post, h3, h4⟩ := resume_suspended he (A.run he hd as h) ht htx hsu h0 h1
  refine ⟨h2, ?_, ?_⟩
  · unfold current
    rw [h4]
    simp
  · rw [h4]
    have hp : (t :: (pre ++ post)).Perm (run e as).stack := by
      refine List.Perm.trans ?_ (List.reverse_perm (run e as).stack)
      rw [h3]; exact List.perm_middle.symm
    have h5 : ((run e as).stack.erase t).Perm (pre ++ post) := by
      have := (hp.erase t).symm
      rw [List.erase_cons_head] at this
      exact this
    refine List.Perm.trans ?_ h5.symm
    rw [List.tail_cons]
    exact (List.reverse_perm _).trans List.perm_append_comm

/-- C82: `tx_suspend` followed by `tx_resume` gives back the same transactions. -/
theorem C82_round_trip (e : Env) (he : e.Willing) (hd : e.Disjoint) (as : List Act)
    (h : Along Disciplined e {} as) (x : Xid) (h0 : (current (run e as)).trid = some x)
    (h1 : (run e as).empty.dynamic = []) :
    (suspend e (run e as)).2 = (.ok, some x) ∧
    (current (suspend e (run e as)).1).trid = none ∧
    (resume e (some x) (suspend e (run e as)).1).2 = .ok ∧
    (resume e (some x) (suspend e (run e as)).1).1.stack = (run e as).stack := by
  have hw := W.run e as
  have hA := A.run he hd as h
  obtain ⟨t, ts, hst, hsu, hct, htx⟩ := current_some hw.emp h0
  have hs : suspend e (run e as) =
      ({ run e as with
          stack := { t with suspended := true } :: ts
          log := ((t.involved.filter (· ∈ e.all)).map fun r => Event.xa (.stop r x .suspend) .ok).reverse ++ (run e as).log },
        .ok, some x) := by
    unfold suspend
    rw [h0]
    dsimp only
    rw [stopAll_willing he, if_neg (by simp), setCurrent_head hst hsu, hct]
  have hA' := hA.suspend he hw
  have hc : current (suspend e (run e as)).1 = (run e as).empty := by
    rw [hs]; unfold current; simp
  have hem : (current (suspend e (run e as)).1).trid = none := by rw [hc]; exact hw.emp
  refine ⟨by rw [hs], hem, ?_⟩
  have hstk : (suspend e (run e as)).1.stack = { t with suspended := true } :: ts := by rw [hs]
  obtain ⟨h2, pre, post, h3, h4⟩ := resume_suspended he hA' (t := { t with suspended := true }) (x := x)
    (by rw [hstk]; exact List.mem_cons_self) htx rfl hem (by rw [hc]; exact h1)
  refine ⟨h2, ?_⟩
  rw [h4, hst]
  rw [hstk] at h3
  have hnot : ∀ u ∈ post, False := by
    intro u hu
    have hlast := congrArg List.reverse h3
    rw [List.reverse_reverse, List.reverse_append, List.reverse_cons] at hlast
    cases hp : post.reverse with
    | nil => rw [List.reverse_eq_nil_iff.mp hp] at hu; cases hu
    | cons v vs =>
      rw [hp] at hlast
      simp only [List.cons_append, List.cons.injEq] at hlast
      obtain ⟨hv, hts⟩ := hlast
      -- the transaction occurs twice
      have hnd := hA'.shape.nod
      rw [hstk, hts, List.filterMap_cons] at hnd
      have : ({ t with suspended := true } : Tran).trid = some x := htx
      rw [this] at hnd
      refine (List.nodup_cons.mp hnd).1 (List.mem_filterMap.mpr ⟨{ t with suspended := true }, ?_, htx⟩)
      simp [htx]
  have hpost : post = [] := by
    cases post with
    | nil => rfl
    | cons u us => exact (hnot u List.mem_cons_self).elim
  subst hpost
  have hpre : pre = ts.reverse := by
    have : ({ t with suspended := true } :: ts : List Tran).reverse = ts.reverse ++ [{ t with suspended := true }] := by simp
    rw [this] at h3
    exact (List.append_inj_left' h3 (by simp)).symm
  rw [hpre]
  have : ({ ({ t with suspended := true } : Tran) with suspended := false } : Tran) = t := by
    cases t; simp only at hsu; subst hsu; rfl
  simp only [List.nil_append, List.reverse_reverse]
  rw [this]

/-- C82: `tx_resume` of anything that is not a suspended transaction of this process is refused,
and nothing happens; for every behaviour of the resources. -/
theorem C82_refused (e : Env) (c : Ctx) (x : Option Xid)
    (h : ∀ t ∈ c.stack, t.trid = x → t.suspended = false) :
    (resume e x c).1 = c ∧ (resume e x c).2 ≠ .ok := by
  unfold resume
  split
  · exact ⟨rfl, by simp⟩
  split
  · exact ⟨rfl, by simp⟩
  split
  · exact ⟨rfl, by simp⟩
  split
  · exact ⟨rfl, by simp⟩
  rename_i pre t post hsp
  obtain ⟨hrev, htx⟩ := splitAt_some hsp
  have ht : t ∈ c.stack := by
    rw [← List.mem_reverse, hrev]; exact List.mem_append_right _ List.mem_cons_self
  rw [h t ht htx]
  exact ⟨rfl, by simp⟩

/-- Calls that may change a suspended transaction: it is resumed, a reply for it arrives, or the
service ends. -/
def mayTouch (x : Xid) : Act → Bool
  | .resume y => y = some x
  | .reply _ _ => true
  | .sync _ _ => true
  | .finalize _ => true
  | _ => false

theorem setCurrent_keeps {f : Tran → Tran} {c : Ctx} {t : Tran} (ht : t ∈ c.stack) (hs : t.suspended = true) :
    t ∈ (setCurrent f c).stack := by
  unfold setCurrent
  split
  · exact ht
  · rename_i u us hst
    split
    · exact ht
    · rename_i hu
      rw [hst] at ht
      rcases List.mem_cons.mp ht with rfl | ht
      · exact absurd hs hu
      · exact List.mem_cons_of_mem _ ht

theorem stopAll_stack (e : Env) (x f rs c) : (stopAll e x f rs c).1.stack = c.stack :=
  (stack_of_extends (stopAll_extends e x f rs c)).1

theorem startAll_stack (e : Env) (x f a rs c) : (startAll e x f a rs c).1.stack = c.stack :=
  (stack_of_extends (startAll_extends e x f a rs c)).1

theorem beginNew_keeps (e : Env) (now : Time) {c : Ctx} {t : Tran} (ht : t ∈ c.stack) :
    t ∈ (beginNew e now c).1.stack := by
  unfold beginNew
  dsimp only
  have h1 := (stack_of_extends (beginStart_extends e (.mine c.next) e.fixed
    (emit (.began (.mine c.next) ((newTran c.next (deadlineOf now c.timeout)).involve e.fixed).deadline)
      { c with timeout := 0, next := c.next + 1 }))).1
  split
  · refine List.mem_cons_of_mem _ ?_
    rw [h1]; exact ht
  · rw [(stack_of_extends (beginStop_extends e _ _ _)).1, h1]; exact ht

theorem begin_keeps (e : Env) (now : Time) {c : Ctx} {t : Tran} (ht : t ∈ c.stack) :
    t ∈ (begin e now c).1.stack := by
  unfold begin
  split
  · split
    · exact ht
    · dsimp only
      split
      · rw [stopAll_stack]; exact ht
      · refine beginNew_keeps e now ?_
        rw [stopAll_stack]; exact ht
  · split
    · exact ht
    · exact beginNew_keeps e now ht

theorem resumeCurrent_keeps (e : Env) (a : List Rm) {c : Ctx} {t : Tran} (ht : t ∈ c.stack) (hs : t.suspended = true) :
    t ∈ (resumeCurrent e a c).1.stack := by
  unfold resumeCurrent
  split
  · exact ht
  · split
    · exact ht
    · dsimp only
      rw [startAll_stack]
      exact setCurrent_keeps ht hs

theorem continuation_keeps (e : Env) (now : Time) {s : Ctx × Tx} {t : Tran} (ht : t ∈ s.1.stack) (hs : t.suspended = true) :
    t ∈ (continuation e now s).1.stack := by
  unfold continuation
  split
  · exact ht
  · exact begin_keeps e now ht
  · exact resumeCurrent_keeps e _ ht hs

theorem pop_keeps {c : Ctx} {t u : Tran} {ts : List Tran} (hst : c.stack = u :: ts) (hu : u.suspended = false)
    (ht : t ∈ c.stack) (hs : t.suspended = true) : t ∈ (pop c).stack := by
  show t ∈ c.stack.tail
  rw [hst] at ht ⊢
  rcases List.mem_cons.mp ht with rfl | ht
  · rw [hs] at hu; cases hu
  · exact ht

theorem rollback_stack (e : Env) (t c) : (rollbackT e t c).1.stack = c.stack := by
  unfold rollbackT
  split
  · rfl
  · dsimp only
    split
    · exact stopAll_stack _ _ _ _ _
    · split
      · refine accum_ind (P := fun c' => c'.stack = c.stack) ?_ _ _ (stopAll_stack _ _ _ _ _)
        intro r _ c' hc'
        unfold resourceRollback
        split <;> exact hc'
      · exact stopAll_stack _ _ _ _ _

theorem commit_stack (e : Env) (t c) : (commitT e t c).1.stack = c.stack := by
  unfold commitT
  split
  · rfl
  · dsimp only
    split
    · exact stopAll_stack _ _ _ _ _
    · split
      · split
        · exact stopAll_stack _ _ _ _ _
        · unfold resourceCommit
          split <;> exact stopAll_stack _ _ _ _ _
      · exact stopAll_stack _ _ _ _ _

/-- C82: until it is resumed, or a reply arrives, or the service ends, a suspended transaction is
left exactly as it is by every call - beginning, committing and rolling back other transactions
included - whatever the resources and the transaction manager answer. -/
theorem C82_kept (e : Env) (as : List Act) (t : Tran) (x : Xid) (ht : t ∈ (run e as).stack)
    (htx : t.trid = some x) (hs : t.suspended = true) (a : Act) (ha : mayTouch x a = false) :
    t ∈ (step e (run e as) a).stack := by
  have hw := W.run e as
  generalize run e as = c at ht hw ⊢
  cases a <;> try (simp [mayTouch] at ha; done)
  case begin now => exact begin_keeps e now ht
  case commit now =>
    show t ∈ (commit e now c).1.stack
    unfold commit
    split
    · exact ht
    · rename_i hp
      obtain ⟨_, _, _, y, hy⟩ := commitPre_ok (Classical.not_not.mp hp)
      obtain ⟨u, ts, hst, hsu, _, _⟩ := current_some hw.emp hy
      refine continuation_keeps e now ?_ hs
      rw [commit_stack]
      exact pop_keeps hst hsu ht hs
  case rollback now =>
    show t ∈ (rollback e now c).1.stack
    unfold rollback
    split
    · exact ht
    · rename_i hp
      obtain ⟨_, y, hy⟩ := rollbackPre_ok (Classical.not_not.mp hp)
      obtain ⟨u, ts, hst, hsu, _, _⟩ := current_some hw.emp hy
      refine continuation_keeps e now ?_ hs
      rw [rollback_stack]
      exact pop_keeps hst hsu ht hs
  case suspend =>
    show t ∈ (suspend e c).1.stack
    unfold suspend
    split
    · exact ht
    · dsimp only
      split
      · dsimp only; rw [stopAll_stack]; exact setCurrent_keeps ht hs
      · dsimp only; rw [stopAll_stack]; exact setCurrent_keeps ht hs
  case resume y =>
    show t ∈ (resume e y c).1.stack
    unfold resume
    split
    · exact ht
    rename_i y
    split
    · exact ht
    split
    · exact ht
    split
    · exact ht
    rename_i pre u post hsp
    split
    · exact ht
    obtain ⟨hrev, hux⟩ := splitAt_some hsp
    have hne : t ≠ u := by
      intro heq
      rw [heq, hux] at htx
      simp only [mayTouch, decide_eq_false_iff_not] at ha
      exact ha htx
    have hm : t ∈ post ++ pre := by
      rw [← List.mem_reverse, hrev] at ht
      rcases List.mem_append.mp ht with h | h
      · exact List.mem_append_right _ h
      · rcases List.mem_cons.mp h with h | h
        · exact absurd h hne
        · exact List.mem_append_left _ h
    dsimp only
    split
    · show t ∈ (post ++ pre ++ [_]).reverse
      exact List.mem_reverse.mpr (List.mem_append_left _ hm)
    · split
      · dsimp only
        rw [startAll_stack]
        show t ∈ (pre ++ _ :: post).reverse
        rw [List.mem_reverse]
        rcases List.mem_append.mp hm with h | h
        · exact List.mem_append_right _ (List.mem_cons_of_mem _ h)
        · exact List.mem_append_left _ h
      · show t ∈ (post ++ pre ++ [_]).reverse
        exact List.mem_reverse.mpr (List.mem_append_left _ hm)
  case setControl k => exact ht
  case setReturn l => exact ht
  case setTimeout tmo =>
    show t ∈ (setTimeout tmo c).1.stack
    unfold setTimeout
    split <;> exact ht
  case reg r =>
    show t ∈ (register e r c).1.stack
    unfold register
    split
    · exact ht
    split
    · exact ht
    have h1 := setCurrent_keeps (f := fun t => { t with dynamic := addUnique t.dynamic r }) ht hs
    dsimp only
    split
    · exact h1
    · rename_i y _
      split
      · exact h1
      · have h3 := setCurrent_keeps (f := (·.involve [r])) (c := emit (.reg r y) (setCurrent (fun t => { t with dynamic := addUnique t.dynamic r }) c)) h1 hs
        split
        · exact h3
        · exact h3
  case unreg r =>
    show t ∈ (unregister r c).1.stack
    unfold unregister
    split
    · exact ht
    split
    · exact ht
    · exact setCurrent_keeps ht hs
  case join n =>
    show t ∈ (join e _ c).1.stack
    unfold join
    split
    · exact List.mem_cons_of_mem _ ht
    · split
      · exact List.mem_cons_of_mem _ ht
      · refine accum_ind (P := fun c' => t ∈ c'.stack) ?_ _ _ (List.mem_cons_of_mem _ ht)
        intro r _ c' hc'
        exact hc'
  case start =>
    show t ∈ (start e c).1.stack
    unfold start
    dsimp only
    split
    · rw [startAll_stack]; exact ht
    · refine List.mem_cons_of_mem _ ?_
      rw [startAll_stack]; exact ht
  case branch n =>
    show t ∈ (branch e n c).1.stack
    unfold branch
    dsimp only
    split
    · exact List.mem_cons_of_mem _ ht
    · rw [startAll_stack]; exact List.mem_cons_of_mem _ ht
  case call b =>
    show t ∈ (call b c).stack
    unfold call
    dsimp only
    split
    · split
      · exact ht
      · exact setCurrent_keeps (c := { c with nextCorr := c.nextCorr + 1, outstanding := c.outstanding ++ [c.nextCorr] }) ht hs
    · exact ht
  case cancel corr =>
    show t ∈ (cancel corr c).1.stack
    unfold cancel
    split
    · exact ht
    split <;> exact ht
  case callFails b =>
    show t ∈ (callFails b c).stack
    unfold callFails
    dsimp only
    split
    · split
      · exact ht
      · exact setCurrent_keeps (c := { c with nextCorr := c.nextCorr + 1 }) ht hs
    · exact ht
  case external =>
    show t ∈ (external c).stack
    unfold external
    split
    · exact setCurrent_keeps ht hs
    · exact ht

/-- Non-vacuity of C82: two suspended transactions, the older is resumed. -/
example : let c := run (okEnv [1] []) [.begin 0, .suspend, .begin 1, .suspend]
    (∃ t ∈ c.stack, t.trid = some (.mine 0) ∧ t.suspended = true) ∧ (current c).trid = none ∧
    (current c).dynamic = [] ∧ (current (resume (okEnv [1] []) (some (.mine 0)) c).1).trid = some (.mine 0) := by
  decide +kernel

/-! ### C83 -/

/-- C83: whatever the service has done, when it ends no transaction is left in the process. -/
theorem C83_nothing_left (e : Env) (ok : Bool) (as : List Act) :
    (run e (as ++ [.finalize ok])).stack = [] ∧ (current (run e (as ++ [.finalize ok]))).trid = none := by
  have hst : (run e (as ++ [.finalize ok])).stack = [] := by
    unfold run
    rw [List.foldl_append]
    show (finalize e ok (run e as)).1.stack = []
    generalize run e as = c
    have hl : (accum (commitOrRollback e ok)
        ((c.stack.reverse.filter (fun t => t.trid.isSome)).filter (·.own))
        (discardAll c.stack.reverse { c with stack := [] }, .ok)).1.stack = [] := by
      refine accum_ind (P := fun c' => c'.stack = []) ?_ _ _ rfl
      intro t _ c' hc'
      unfold commitOrRollback
      split
      · rw [commit_stack]; exact hc'
      · rw [rollback_stack]; exact hc'
    unfold finalize
    dsimp only
    split
    · exact hl
    · split
      · exact hl
      · rw [stopAll_stack]; exact hl
  refine ⟨hst, ?_⟩
  rw [current_trid (W.run e _).emp, hst]
  rfl

theorem rollback_extends (e : Env) (t : Tran) (c : Ctx) :
    Extends (fun ev => ∀ x, commits x ev = false) c (rollbackT e t c).1 := by
  unfold rollbackT
  split
  · exact Extends.refl c
  · rename_i x _
    dsimp only
    have h1 : Extends (fun ev => ∀ x, commits x ev = false) c (stopAll e x .success t.involved c).1 :=
      (stopAll_extends e x .success t.involved c).mono (by rintro ev ⟨r, k, rfl⟩ y; rfl)
    split
    · exact h1
    · split
      · refine Extends.trans (b := (accum (resourceRollback e x) _ _).1) ?_ (Extends.emit (by intro y; rfl))
        refine h1.trans ?_
        refine accum_extends ?_ _ _
        intro r _ c'
        unfold resourceRollback
        split
        · exact Extends.emit (by intro y; rfl)
        · exact Extends.refl _
      · exact h1.trans (Extends.emit (by intro y; rfl))

/-- C83: a service that fails commits nothing. -/
theorem C83_failed_commits_nothing (e : Env) (c : Ctx) :
    ∃ evs, (finalize e false c).1.log = evs ++ c.log ∧ ∀ ev ∈ evs, ∀ x, commits x ev = false := by
  have hd : Extends (fun ev => ∀ x, commits x ev = false) { c with stack := [] }
      (discardAll c.stack.reverse { c with stack := [] }) := by
    refine ⟨_, ?_, rfl⟩
    intro ev hev x
    rw [List.mem_reverse, List.mem_map] at hev
    obtain ⟨_, _, rfl⟩ := hev
    rfl
  have hl : Extends (fun ev => ∀ x, commits x ev = false) { c with stack := [] }
      (accum (commitOrRollback e false)
        ((c.stack.reverse.filter (fun t => t.trid.isSome)).filter (·.own))
        (discardAll c.stack.reverse { c with stack := [] }, .ok)).1 := by
    refine hd.trans (accum_extends ?_ _ _)
    intro t _ c'
    unfold commitOrRollback
    simp only [Bool.false_and, Bool.false_eq_true, if_false]
    exact rollback_extends e t c'
  have : Extends (fun ev => ∀ x, commits x ev = false) { c with stack := [] } (finalize e false c).1 := by
    unfold finalize
    dsimp only
    split
    · exact hl
    · split
      · exact hl
      · exact hl.trans ((stopAll_extends e _ _ _ _).mono (by rintro ev ⟨r, k, rfl⟩ y; rfl))
  obtain ⟨evs, h1, h2⟩ := this
  exact ⟨evs, by rw [h2], h1⟩

/-- The claim: a service that returns success and whose caller is told that all is well has its
own transactions committed. -/
def SuccessMeansCommitted : Prop :=
  ∀ (e : Env) (as : List Act) (n : Nat), (∃ t ∈ (run e as).stack, t.trid = some (.mine n)) →
    (finalize e true (run e as)).2 = 0 →
    ∃ ev ∈ (finalize e true (run e as)).1.log, commits (.mine n) ev = true

/-- C83 does not hold: a service with its own transaction calls another service, that rolls back;
the transaction is rolled back and the reply says success. -/
theorem C83_refuted : ¬ SuccessMeansCommitted := by
  intro h
  obtain ⟨ev, hev, hc⟩ := h (okEnv [] []) [.start, .sync false (some 1)] 0 (by decide +kernel) (by decide +kernel)
  revert ev
  decide +kernel

theorem ofTx_zero {k : Tx} (h : ofTx k = 0) : k = .ok := by
  cases k <;> first | rfl | (simp [ofTx] at h)

theorem accum_code_ok {α : Type} {f : α → Ctx → Ctx × Tx} : ∀ {l : List α} {s : Ctx × Tx},
    (accum f l s).2 = .ok → s.2 = .ok
  | [], _, h => h
  | a :: l, (c, k), h => by
    unfold accum at h
    have := accum_code_ok h
    exact ((add_ok_iff _ _).mp this).1

theorem commit_ok_event {e : Env} {t : Tran} {c : Ctx} {x : Xid} (hx : t.trid = some x)
    (h : (commitT e t c).2 = .ok) :
    ∃ ev pre, (commitT e t c).1.log = ev :: pre ∧ commits x ev = true ∧
      (∀ rs, ev = .tmCommit x rs → commitAnswer c.logged (e.commit (ev :: pre) x) = .ok) ∧
      (∀ r k, ev = .xa (.commit r x) k → toTx k = .ok) := by
  unfold commitT at h ⊢
  rw [hx] at h ⊢
  dsimp only at h ⊢
  have hlg := (stack_of_extends (stopAll_extends e x .success t.involved c)).2.2.2
  split
  · rename_i hk; rw [if_pos hk] at h; exact absurd h hk
  · rename_i hk
    rw [if_neg hk] at h
    split
    · rename_i hl
      rw [if_pos hl] at h
      split
      · refine ⟨_, _, rfl, by simp [commits], fun rs he => (by cases he), fun r k he => (by cases he)⟩
      · rename_i r l hin
        simp only [hin] at h
        rw [← hin] at h
        unfold resourceCommit at h ⊢
        split
        · rename_i hr
          rw [if_pos hr] at h
          refine ⟨_, _, rfl, by simp [commits], fun rs he => (by cases he), ?_⟩
          intro r' k he
          cases he
          exact h
        · rename_i hr
          rw [if_neg hr] at h; cases h
    · rename_i hl
      rw [if_neg hl] at h
      refine ⟨_, _, rfl, by simp [commits], ?_, fun r k he => (by cases he)⟩
      intro rs he
      cases he
      have : c.logged = (emit (.tmCommit x t.involved) (stopAll e x .success t.involved c).1).logged := by
        obtain ⟨evs, _, h3⟩ := stopAll_extends e x .success t.involved c
        rw [h3]; rfl
      rw [this]
      exact h

theorem finalize_loop_commits {e : Env} : ∀ {l : List Tran} {c : Ctx} {k : Tx},
    (accum (commitOrRollback e true) l (c, k)).2 = .ok →
    ∀ t ∈ l, t.state = 0 → ∀ x, t.trid = some x →
      ∃ ev ∈ (accum (commitOrRollback e true) l (c, k)).1.log, commits x ev = true
  | [], _, _, _, t, ht => by cases ht
  | u :: l, c, k, h, t, ht => by
    intro hs x hx
    unfold accum at h ⊢
    rcases List.mem_cons.mp ht with rfl | ht
    · have hk := ((add_ok_iff _ _).mp (accum_code_ok h)).2
      have hc : commitOrRollback e true t c = commitT e t c := by
        unfold commitOrRollback; rw [hs]; simp
      rw [hc] at hk
      obtain ⟨ev, pre, h1, h2, _⟩ := commit_ok_event hx hk
      refine ⟨ev, ?_, h2⟩
      have hext : Extends (fun _ => True) (commitOrRollback e true t c).1
          (accum (commitOrRollback e true) l ((commitOrRollback e true t c).1, k.add (commitOrRollback e true t c).2)).1 := by
        refine accum_extends ?_ _ _
        intro v _ c'
        unfold commitOrRollback
        split
        · unfold commitT
          split
          · exact Extends.refl _
          · rename_i y _
            dsimp only
            have h1 : Extends (fun _ => True) c' (stopAll e y .success v.involved c').1 :=
              (stopAll_extends e y .success v.involved c').mono (fun _ _ => trivial)
            split
            · exact h1
            · split
              · split
                · exact h1.trans (Extends.emit trivial)
                · unfold resourceCommit
                  split
                  · exact h1.trans (Extends.emit trivial)
                  · exact h1
              · exact h1.trans (Extends.emit trivial)
        · exact (rollback_extends e v c').mono (fun _ _ => trivial)
      obtain ⟨evs, _, h3⟩ := hext
      rw [h3]
      refine List.mem_append_right _ ?_
      rw [hc, h1]
      exact List.mem_cons_self
    · exact finalize_loop_commits h t ht hs x hx

/-- C83, what holds. If the caller of a service is told that all is well (reply state ok):
the service had fetched every reply of calls made within its transactions; the transaction the
service was called in is active (so every reply was ok) and the service succeeded; every
transaction of its own that was active has been committed, with the answer ok. -/
theorem C83_reply_ok_partial (e : Env) (ok : Bool) (as : List Act)
    (h : (finalize e ok (run e as)).2 = 0) :
    (∀ t ∈ (run e as).stack, t.trid ≠ none → t.pending = []) ∧
    (∀ t ∈ (run e as).stack, ∀ n k, t.trid = some (.other n k) →
      (∀ u ∈ (run e as).stack, ∀ n k, u.trid = some (.other n k) → u = t) → t.state = 0 ∧ ok = true) ∧
    (ok = true → ∀ t ∈ (run e as).stack, ∀ n, t.trid = some (.mine n) → t.state = 0 →
      ∃ ev ∈ (finalize e ok (run e as)).1.log, commits (.mine n) ev = true) := by
  generalize run e as = c at h ⊢
  have hpend : (c.stack.reverse.any (fun t => decide (t.pending ≠ []) && t.trid.isSome)) = false →
      ∀ t ∈ c.stack, t.trid ≠ none → t.pending = [] := by
    intro ha t ht hn
    rw [List.any_eq_false] at ha
    have := ha t (List.mem_reverse.mpr ht)
    cases htx : t.trid with
    | none => exact absurd htx hn
    | some x => simpa [htx] using this
  have hmine : ∀ {s : Ctx × Tx}, s = accum (commitOrRollback e true)
        ((c.stack.reverse.filter (fun t => t.trid.isSome)).filter (·.own))
        (discardAll c.stack.reverse { c with stack := [] }, .ok) → s.2 = .ok →
      ∀ t ∈ c.stack, ∀ n, t.trid = some (.mine n) → t.state = 0 →
        ∃ ev ∈ s.1.log, commits (.mine n) ev = true := by
    intro s hs hk t ht n htx hst
    subst hs
    refine finalize_loop_commits hk t ?_ hst _ htx
    refine List.mem_filter.mpr ⟨List.mem_filter.mpr ⟨List.mem_reverse.mpr ht, by rw [htx]; rfl⟩, own_iff.mpr ⟨n, htx⟩⟩
  unfold finalize at h ⊢
  dsimp only at h ⊢
  split at h
  · rename_i hnil
    rw [Nat.max_eq_zero_iff] at h
    obtain ⟨h1, h2⟩ := h
    have h1' : (c.stack.reverse.any (fun t => decide (t.pending ≠ []) && t.trid.isSome)) = false := by
      cases ha : (c.stack.reverse.any (fun t => decide (t.pending ≠ []) && t.trid.isSome)) with
      | false => rfl
      | true => rw [ha] at h1; simp at h1
    refine ⟨hpend h1', ?_, ?_⟩
    · intro t ht n k htx _
      exfalso
      have : t ∈ (c.stack.reverse.filter (fun t => t.trid.isSome)).filter (fun t => !t.own) := by
        refine List.mem_filter.mpr ⟨List.mem_filter.mpr ⟨List.mem_reverse.mpr ht, by rw [htx]; rfl⟩, ?_⟩
        unfold Tran.own; rw [htx]; rfl
      rw [hnil] at this; cases this
    · intro hok
      subst hok
      exact hmine rfl (ofTx_zero h2)
  · rename_i u l hl
    have hu : u ∈ (c.stack.reverse.filter (fun t => t.trid.isSome)).filter (fun t => !t.own) := by
      rw [hl]; exact List.mem_cons_self
    obtain ⟨hu1, hu2⟩ := List.mem_filter.mp hu
    obtain ⟨hu3, hu4⟩ := List.mem_filter.mp hu1
    have hu3 := List.mem_reverse.mp hu3
    cases hux : u.trid with
    | none => rw [hux] at hu4; cases hu4
    | some x =>
      rw [hux] at h
      dsimp only at h ⊢
      rw [Nat.max_eq_zero_iff] at h
      obtain ⟨h1, h2⟩ := h
      have h2' := (add_ok_iff _ _).mp (ofTx_zero h2)
      have h3 : max (if (c.stack.reverse.any (fun t => decide (t.pending ≠ []) && t.trid.isSome)) = true then 3 else 0) (ofTranState u.state) = 0 ∧ ok = true := by
        generalize max (if (c.stack.reverse.any (fun t => decide (t.pending ≠ []) && t.trid.isSome)) = true then 3 else 0) (ofTranState u.state) = m at h1 ⊢
        cases ok with
        | true => simpa using h1
        | false =>
          by_cases hm : m = 0
          · subst hm; simp at h1
          · simp [hm] at h1
      obtain ⟨h3, hok⟩ := h3
      rw [Nat.max_eq_zero_iff] at h3
      have h1' : (c.stack.reverse.any (fun t => decide (t.pending ≠ []) && t.trid.isSome)) = false := by
        cases ha : (c.stack.reverse.any (fun t => decide (t.pending ≠ []) && t.trid.isSome)) with
        | false => rfl
        | true => rw [ha] at h3; simp at h3
      have hust : u.state = 0 := by
        have := h3.2
        unfold ofTranState at this
        split at this
        · assumption
        · cases this
        · cases this
        · cases this
      refine ⟨hpend h1', ?_, ?_⟩
      · intro t ht n k htx huniq
        have huo : ∃ n k, u.trid = some (.other n k) := by
          cases x with
          | mine m => simp only [Tran.own, hux] at hu2; cases hu2
          | other a b => exact ⟨a, b, hux⟩
        obtain ⟨a, b, hab⟩ := huo
        rw [← huniq u hu3 a b hab]
        exact ⟨hust, hok⟩
      · intro _
        subst hok
        intro t ht n htx hst
        obtain ⟨ev, h4, h5⟩ := hmine rfl h2'.1 t ht n htx hst
        refine ⟨ev, ?_, h5⟩
        obtain ⟨evs, _, h6⟩ := stopAll_extends e x .success u.involved
          (accum (commitOrRollback e true) ((c.stack.reverse.filter (fun t => t.trid.isSome)).filter (·.own))
            (discardAll c.stack.reverse { c with stack := [] }, .ok)).1
        rw [h6]
        exact List.mem_append_right _ h4

/-- Non-vacuity of C83: a joined transaction and one of its own, both fine. -/
example : (finalize (okEnv [1] []) true (run (okEnv [1] []) [.join (some 3), .setControl .stacked, .begin 0, .sync false (some 0)])).2 = 0 ∧
    (∃ ev ∈ (finalize (okEnv [1] []) true (run (okEnv [1] []) [.join (some 3), .setControl .stacked, .begin 0, .sync false (some 0)])).1.log,
      commits (.mine 0) ev = true) := by decide +kernel

/-! ### C86 -/

/-- The answer of the transaction manager that counts: with `TX_COMMIT_DECISION_LOGGED` the first
reply (prepare), otherwise the last one; a rollback stage is never ok. -/
def answeredOk (logged : Bool) (a : (Stage × Tx) × Tx) : Prop :=
  (a.1.1 = .prepare ∧ logged = true ∧ a.1.2 = .ok) ∨
  (a.1.1 = .prepare ∧ logged = false ∧ a.2 = .ok) ∨ (a.1.1 = .commit ∧ a.1.2 = .ok)

theorem commitAnswer_ok {l : Bool} {a : (Stage × Tx) × Tx} (h : commitAnswer l a = .ok) : answeredOk l a := by
  unfold commitAnswer at h
  unfold answeredOk
  split at h
  · rename_i hs
    split at h
    · rename_i hl; exact Or.inl ⟨hs, hl, h⟩
    · rename_i hl; exact Or.inr (Or.inl ⟨hs, by simpa using hl, h⟩)
  · rename_i hs; exact Or.inr (Or.inr ⟨hs, h⟩)
  · cases h

theorem begin_log (e : Env) (now : Time) (c : Ctx) : ∃ evs, (begin e now c).1.log = evs ++ c.log := by
  have hn : ∀ c : Ctx, ∃ evs, (beginNew e now c).1.log = evs ++ c.log := by
    intro c
    unfold beginNew
    dsimp only
    obtain ⟨evs, _, h⟩ := beginStart_extends e (.mine c.next) e.fixed
      (emit (.began (.mine c.next) ((newTran c.next (deadlineOf now c.timeout)).involve e.fixed).deadline)
        { c with timeout := 0, next := c.next + 1 })
    have hl : ((beginStart e (.mine c.next) e.fixed
      (emit (.began (.mine c.next) ((newTran c.next (deadlineOf now c.timeout)).involve e.fixed).deadline)
        { c with timeout := 0, next := c.next + 1 }))).1.log = (evs ++ [.began (.mine c.next) ((newTran c.next (deadlineOf now c.timeout)).involve e.fixed).deadline]) ++ c.log := by
      rw [h]; simp [emit]
    split
    · exact ⟨_, hl⟩
    · obtain ⟨evs', _, h'⟩ := beginStop_extends e (.mine c.next)
        (((beginStart e (.mine c.next) e.fixed (emit (.began (.mine c.next) ((newTran c.next (deadlineOf now c.timeout)).involve e.fixed).deadline)
        { c with timeout := 0, next := c.next + 1 })).2.filter (·.2)).map (·.1))
        (beginStart e (.mine c.next) e.fixed (emit (.began (.mine c.next) ((newTran c.next (deadlineOf now c.timeout)).involve e.fixed).deadline)
        { c with timeout := 0, next := c.next + 1 })).1
      rw [h']
      refine ⟨evs' ++ (evs ++ [.began (.mine c.next) ((newTran c.next (deadlineOf now c.timeout)).involve e.fixed).deadline]), ?_⟩
      show evs' ++ _ = _
      rw [hl]; simp
  unfold begin
  split
  · split
    · exact ⟨[], rfl⟩
    · dsimp only
      obtain ⟨evs, _, h⟩ := stopAll_extends e _ .suspend (current c).involved c
      split
      · exact ⟨evs, by rw [h]⟩
      · obtain ⟨evs', h'⟩ := hn (stopAll e _ .suspend (current c).involved c).1
        refine ⟨evs' ++ evs, ?_⟩
        rw [h', h]; simp
  · split
    · exact ⟨[], rfl⟩
    · exact hn c

theorem setCurrent_log (f : Tran → Tran) (c : Ctx) : (setCurrent f c).log = c.log := by
  unfold setCurrent
  split
  · rfl
  · split <;> rfl

theorem continuation_log (e : Env) (now : Time) (s : Ctx × Tx) :
    (∃ evs, (continuation e now s).1.log = evs ++ s.1.log) ∧
    ((continuation e now s).2 = .ok → s.2 = .ok) := by
  unfold continuation
  split
  · exact ⟨⟨[], rfl⟩, id⟩
  · exact ⟨begin_log e now s.1, fun h => ((add_ok_iff _ _).mp h).1⟩
  · refine ⟨?_, fun h => ((add_ok_iff _ _).mp h).1⟩
    unfold resumeCurrent
    split
    · exact ⟨[], rfl⟩
    · split
      · exact ⟨[], rfl⟩
      · dsimp only
        obtain ⟨evs, _, h⟩ := startAll_extends e _ .resume e.all
          (current (setCurrent (·.involve e.all) s.1)).involved (setCurrent (·.involve e.all) s.1)
        refine ⟨evs, ?_⟩
        rw [h]
        show evs ++ (setCurrent _ s.1).log = _
        rw [setCurrent_log]

/-- C86: `tx_commit` answers ok only when the transaction that was current has been committed in
this call: a commit event follows the old log, and the answer to it (of the resource manager, or of
the transaction manager) was ok. In every control mode. -/
theorem C86_ok_means_committed (e : Env) (now : Time) (as : List Act)
    (h : (commit e now (run e as)).2 = .ok) :
    ∃ x ev pre post, (current (run e as)).trid = some x ∧
      (commit e now (run e as)).1.log = post ++ ev :: pre ∧ commits x ev = true ∧
      (∀ ev' ∈ (run e as).log, commits x ev' = false) ∧
      (∀ rs, ev = .tmCommit x rs → answeredOk (run e as).logged (e.commit (ev :: pre) x)) ∧
      (∀ r k, ev = .xa (.commit r x) k → k = .ok ∨ k = .read_only) := by
  have hw := W.run e as
  generalize run e as = c at h hw ⊢
  unfold commit at h ⊢
  split at h
  · rename_i hp; exact absurd h hp
  · rename_i hp
    rw [if_neg hp]
    obtain ⟨ho, _, _, x, hx⟩ := commitPre_ok (Classical.not_not.mp hp)
    obtain ⟨t, ts, hst, hsu, hct, htx⟩ := current_some hw.emp hx
    obtain ⟨⟨post, hpost⟩, hk⟩ := continuation_log e now (commitT e (current c) (pop c))
    obtain ⟨ev, pre, h1, h2, h3, h4⟩ := commit_ok_event hx (hk h)
    refine ⟨x, ev, pre, post, hx, by rw [hpost, h1], h2, ?_, fun rs he => commitAnswer_ok (h3 rs he), ?_⟩
    · obtain ⟨n, hn⟩ := own_iff.mp ho
      rw [hx] at hn
      cases hn
      exact fun ev' hev' => (hw.inv.undec t (by rw [hst]; exact List.mem_cons_self) n htx ev' hev').1
    · intro r k he
      have := h4 r k he
      cases k <;> first | exact Or.inl rfl | exact Or.inr rfl | (exact absurd this (by decide))

/-- The claim: the caller of `tx_commit` is told that the transaction has been committed: the
answer is ok, or says that only the next transaction could not be begun. -/
def CommitTold : Prop :=
  ∀ (e : Env) (now : Time) (as : List Act) (x : Xid),
    (commitPre (current (run e as)) = .ok) → (current (run e as)).trid = some x →
    (commitT e (current (run e as)) (pop (run e as))).2 = .ok →
    (commit e now (run e as)).2 = .ok ∨ (commit e now (run e as)).2 = .no_begin

/-- C86, the converse does not hold: with chained control, when the commit succeeds and a resource
does not start for the next transaction, the answer is `TX_ERROR` (and not `TX_NO_BEGIN`). -/
theorem C86_refuted : ¬ CommitTold := by
  intro h
  have := h refusing 1 [.setControl .chained, .begin 0] (.mine 0) (by decide +kernel) (by decide +kernel) (by decide +kernel)
  revert this
  decide +kernel

/-- C86, what holds of the converse: with unchained control, `tx_commit` answers ok when the commit
is answered ok. -/
theorem C86_unchained_partial (e : Env) (now : Time) (as : List Act)
    (hu : (run e as).control = .unchained) (hp : commitPre (current (run e as)) = .ok)
    (h : (commitT e (current (run e as)) (pop (run e as))).2 = .ok) :
    (commit e now (run e as)).2 = .ok := by
  have hw := W.run e as
  generalize run e as = c at hu hp h hw ⊢
  unfold commit
  rw [if_neg (by simp [hp])]
  have hc : (commitT e (current c) (pop c)).1.control = .unchained := by
    obtain ⟨ho, hs, _, x, hx⟩ := commitPre_ok hp
    obtain ⟨t, ts, hst, hsu, hct, htx⟩ := current_some hw.emp hx
    have hi := hw.inv
    rw [hst] at hi
    rw [hct] at ho hs ⊢
    have := (commitT_inv (c := pop c) hi hw.full ho hs).2.2
    rw [this]; exact hu
  unfold continuation
  rw [hc]
  exact h

/-- Non-vacuity of C86. -/
example : (commit (okEnv [1, 2] []) 1 (run (okEnv [1, 2] []) [.setControl .chained, .begin 0])).2 = .ok := by
  decide +kernel

end Casual.Tx

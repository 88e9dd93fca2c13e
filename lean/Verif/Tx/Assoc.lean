import Verif.Tx.Inv3
/-!
The association between the resources and the transactions, in an environment where `xa_start`
and `xa_end` succeed.
-/
namespace Casual.Tx
open Casual.Code

/-- From the log: the resource is associated with (works within) the transaction: the last thing
that happened between them is a successful `xa_start`, or a registration. -/
def active (log : List Event) (r : Rm) (x : Xid) : Bool :=
  match log.find? (uses r x) with
  | some (.xa (.start _ _ _) k) => k == .ok || k == .read_only
  | some (.reg _ _) => true
  | _ => false

/-- `xa_start` and `xa_end` never fail. -/
def Env.Willing (e : Env) : Prop :=
  ∀ log r x f, e.xa log (.start r x f) = .ok ∧ e.xa log (.stop r x f) = .ok

/-- A resource is either registered dynamically or not. -/
def Env.Disjoint (e : Env) : Prop := ∀ r ∈ e.fixed, r ∉ e.dyn

/-- A service invocation joins, starts or branches its transaction before it does anything
else (middleware/common/source/service/invoke/policy.cpp). -/
def EntryFirst (c : Ctx) : Act → Prop
  | .join _ => c.stack = []
  | .start => c.stack = []
  | .branch _ => c.stack = []
  | _ => True

/-- The control is not switched away from stacked when there are transactions. -/
def KeepsStacked (c : Ctx) : Act → Prop
  | .setControl k => c.control = .stacked → k = .stacked ∨ ∀ t ∈ c.stack, t.trid = none
  | _ => True

/-- The condition holds at every call of the history. -/
def Along (P : Ctx → Act → Prop) (e : Env) : Ctx → List Act → Prop
  | _, [] => True
  | c, a :: as => P c a ∧ Along P e (step e c a) as

/-! ### the log -/

theorem active_cons (ev : Event) (log : List Event) (r : Rm) (x : Xid) :
    active (ev :: log) r x = if uses r x ev then active [ev] r x else active log r x := by
  unfold active
  cases h : uses r x ev <;> simp [List.find?_cons, h]

theorem active_skip {ev : Event} {log : List Event} {r : Rm} {x : Xid} (h : uses r x ev = false) :
    active (ev :: log) r x = active log r x := by
  rw [active_cons, h]; simp

theorem active_skips {evs log : List Event} {r : Rm} {x : Xid}
    (h : ∀ ev ∈ evs, uses r x ev = false) : active (evs ++ log) r x = active log r x := by
  induction evs with
  | nil => rfl
  | cons a l ih =>
    rw [List.cons_append, active_skip (h a List.mem_cons_self),
      ih (fun ev hev => h ev (List.mem_cons_of_mem _ hev))]

theorem active_touched {log : List Event} {r : Rm} {x : Xid} (h : active log r x = true) :
    touched log r x := by
  unfold active at h
  split at h
  · rename_i r' x' f k hf
    refine ⟨_, List.mem_of_find?_eq_some hf, ?_⟩
    have := List.find?_some hf
    exact this
  · rename_i r' x' hf
    refine ⟨_, List.mem_of_find?_eq_some hf, ?_⟩
    have := List.find?_some hf
    exact this
  · cases h

/-- Stop events. -/
theorem active_stops (x : Xid) (f : Flag) (k : Xa) (l : List Rm) (log : List Event) (r : Rm) (y : Xid) :
    active ((l.map fun r => Event.xa (.stop r x f) k).reverse ++ log) r y =
      (active log r y && !(decide (x = y) && decide (r ∈ l))) := by
  induction l using Casual.snocInd with
  | nil => simp
  | snoc l a ih =>
    rw [List.map_append, List.reverse_append]
    simp only [List.map_cons, List.map_nil, List.reverse_cons, List.reverse_nil, List.nil_append,
      List.singleton_append, List.cons_append]
    rw [active_cons]
    by_cases h : a = r ∧ x = y
    · obtain ⟨rfl, rfl⟩ := h
      simp [uses, active]
    · have hu : uses r y (.xa (.stop a x f) k) = false := by
        simp only [uses, Bool.and_eq_false_iff, decide_eq_false_iff_not]
        by_cases h1 : a = r
        · exact Or.inr (fun h2 => h ⟨h1, h2⟩)
        · exact Or.inl h1
      rw [hu]
      simp only [Bool.false_eq_true, if_false, ih]
      congr 2
      by_cases hxy : x = y
      · have : ¬ a = r := fun h1 => h ⟨h1, hxy⟩
        have h' : ¬ r = a := fun h1 => this h1.symm
        simp [hxy, h']
      · simp [hxy]

/-- Successful start events; the flag may depend on the resource. -/
theorem active_starts (x : Xid) (f : Rm → Flag) (l : List Rm) (log : List Event) (r : Rm) (y : Xid) :
    active ((l.map fun r => Event.xa (.start r x (f r)) .ok).reverse ++ log) r y =
      (active log r y || (decide (x = y) && decide (r ∈ l))) := by
  induction l using Casual.snocInd with
  | nil => simp
  | snoc l a ih =>
    rw [List.map_append, List.reverse_append]
    simp only [List.map_cons, List.map_nil, List.reverse_cons, List.reverse_nil, List.nil_append,
      List.singleton_append, List.cons_append]
    rw [active_cons]
    by_cases h : a = r ∧ x = y
    · obtain ⟨rfl, rfl⟩ := h
      simp [uses, active]
    · have hu : uses r y (.xa (.start a x (f a)) .ok) = false := by
        simp only [uses, Bool.and_eq_false_iff, decide_eq_false_iff_not]
        by_cases h1 : a = r
        · exact Or.inr (fun h2 => h ⟨h1, h2⟩)
        · exact Or.inl h1
      rw [hu]
      simp only [Bool.false_eq_true, if_false, ih]
      congr 1
      by_cases hxy : x = y
      · have : ¬ a = r := fun h1 => h ⟨h1, hxy⟩
        have h' : ¬ r = a := fun h1 => this h1.symm
        simp [hxy, h']
      · simp [hxy]

/-! ### the calls in a willing environment -/

theorem add_ok_ok : Tx.ok.add .ok = .ok := by decide
theorem toTx_ok : toTx .ok = .ok := by decide

theorem accum_starts {e : Env} (he : e.Willing) (x : Xid) (f : Rm → Flag) (p : Rm → Bool)
    (g : Rm → Ctx → Ctx × Tx)
    (hg : ∀ r c, g r c = if p r = true then ((doXa e (.start r x (f r)) c).1, toTx (doXa e (.start r x (f r)) c).2) else (c, .ok)) :
    ∀ (rs : List Rm) (c : Ctx), accum g rs (c, .ok) =
      ({ c with log := ((rs.filter p).map fun r => Event.xa (.start r x (f r)) .ok).reverse ++ c.log }, .ok)
  | [], c => by simp [accum]
  | r :: rs, c => by
    unfold accum
    rw [hg]
    cases hp : p r with
    | true =>
      simp only [if_true, doXa, (he _ _ _ _).1, toTx_ok, add_ok_ok]
      rw [accum_starts he x f p g hg rs]
      simp [emit, List.filter_cons, hp]
    | false =>
      simp only [Bool.false_eq_true, if_false, add_ok_ok]
      rw [accum_starts he x f p g hg rs]
      simp [List.filter_cons, hp]

theorem accum_stops {e : Env} (he : e.Willing) (x : Xid) (f : Flag) (p : Rm → Bool)
    (g : Rm → Ctx → Ctx × Tx)
    (hg : ∀ r c, g r c = if p r = true then ((doXa e (.stop r x f) c).1, toTx (doXa e (.stop r x f) c).2) else (c, .ok)) :
    ∀ (rs : List Rm) (c : Ctx), accum g rs (c, .ok) =
      ({ c with log := ((rs.filter p).map fun r => Event.xa (.stop r x f) .ok).reverse ++ c.log }, .ok)
  | [], c => by simp [accum]
  | r :: rs, c => by
    unfold accum
    rw [hg]
    cases hp : p r with
    | true =>
      simp only [if_true, doXa, (he _ _ _ _).2, toTx_ok, add_ok_ok]
      rw [accum_stops he x f p g hg rs]
      simp [emit, List.filter_cons, hp]
    | false =>
      simp only [Bool.false_eq_true, if_false, add_ok_ok]
      rw [accum_stops he x f p g hg rs]
      simp [List.filter_cons, hp]

theorem stopAll_willing {e : Env} (he : e.Willing) (x : Xid) (f : Flag) (rs : List Rm) (c : Ctx) :
    stopAll e x f rs c =
      ({ c with log := ((rs.filter (· ∈ e.all)).map fun r => Event.xa (.stop r x f) .ok).reverse ++ c.log }, .ok) := by
  unfold stopAll
  exact accum_stops he x f (fun r => decide (r ∈ e.all)) _ (fun r c => by simp) rs c

theorem startAll_willing {e : Env} (he : e.Willing) (x : Xid) (f : Flag) (among rs : List Rm) (c : Ctx) :
    startAll e x f among rs c =
      ({ c with log := ((rs.filter (· ∈ among)).map fun r => Event.xa (.start r x f) .ok).reverse ++ c.log }, .ok) := by
  unfold startAll
  exact accum_starts he x (fun _ => f) (fun r => decide (r ∈ among)) _ (fun r c => by simp) rs c

theorem beginStart_willing {e : Env} (he : e.Willing) (x : Xid) : ∀ (rs : List Rm) (c : Ctx),
    beginStart e x rs c =
      ({ c with log := (rs.map fun r => Event.xa (.start r x .none) .ok).reverse ++ c.log },
        rs.map fun r => (r, true))
  | [], c => by simp [beginStart]
  | r :: rs, c => by
    unfold beginStart
    simp only [doXa, (he _ _ _ _).1]
    rw [beginStart_willing he x rs]
    simp [emit]

/-! ### the invariant -/

/-- The current transaction id. -/
def cur : List Tran → Option Xid
  | [] => none
  | t :: _ => if t.suspended then none else t.trid

theorem current_trid {c : Ctx} (h : c.empty.trid = none) : (current c).trid = cur c.stack := by
  unfold current cur
  cases c.stack with
  | nil => exact h
  | cons t ts => dsimp only; split <;> simp_all

def isOther : Option Xid → Bool
  | some (.other _ _) => true
  | _ => false

/-- The shape of the stack. -/
structure Shape (e : Env) (ts : List Tran) : Prop where
  fix : ∀ t ∈ ts, t.trid ≠ none → ∀ r ∈ e.fixed, r ∈ t.involved
  nod : (ts.filterMap (·.trid)).Nodup
  one : (ts.filter (fun t => isOther t.trid)).length ≤ 1

/-- Without stacked control everything below the top is suspended. -/
def Low (k : Control) (ts : List Tran) : Prop :=
  k ≠ .stacked → ∀ t ∈ ts.tail, t.suspended = true ∨ t.trid = none

/-- The fixed resources are active in this transaction and in no other. -/
def ActiveIn (e : Env) (log : List Event) (x : Option Xid) : Prop :=
  ∀ r ∈ e.fixed, ∀ y, active log r y = true ↔ x = some y

structure A (e : Env) (c : Ctx) : Prop where
  shape : Shape e c.stack
  low : Low c.control c.stack
  act : ActiveIn e c.log (cur c.stack)

theorem Shape.tail {e : Env} {t : Tran} {ts : List Tran} (h : Shape e (t :: ts)) : Shape e ts where
  fix := fun u hu => h.fix u (List.mem_cons_of_mem _ hu)
  nod := by
    have := h.nod
    rw [List.filterMap_cons] at this
    split at this
    · exact this
    · exact (List.nodup_cons.mp this).2
  one := by
    have := h.one
    rw [List.filter_cons] at this
    split at this
    · simp only [List.length_cons] at this; omega
    · exact this

theorem Shape.perm {e : Env} {ts us : List Tran} (h : Shape e ts) (hp : ts.Perm us) : Shape e us where
  fix := fun t ht => h.fix t (hp.mem_iff.mpr ht)
  nod := (hp.filterMap _).nodup_iff.mp h.nod
  one := by rw [← (hp.filter _).length_eq]; exact h.one

/-- Only the ids and that the involved resources do not shrink matters. -/
theorem Shape.head {e : Env} {t u : Tran} {ts : List Tran} (h : Shape e (t :: ts))
    (h1 : u.trid = t.trid) (h2 : ∀ r ∈ t.involved, r ∈ u.involved) : Shape e (u :: ts) where
  fix := by
    intro v hv
    rcases List.mem_cons.mp hv with rfl | hv
    · intro hn r hr; exact h2 r (h.fix t List.mem_cons_self (h1 ▸ hn) r hr)
    · exact h.fix v (List.mem_cons_of_mem _ hv)
  nod := by
    have := h.nod
    rw [List.filterMap_cons] at this ⊢
    rw [h1]; exact this
  one := by
    have := h.one
    rw [List.filter_cons] at this ⊢
    rw [h1]; revert this; split <;> simp

theorem Shape.pushMine {e : Env} {ts : List Tran} (h : Shape e ts) {t : Tran} {n : Nat}
    (hn : t.trid = some (.mine n)) (hf : ∀ u ∈ ts, u.trid ≠ some (.mine n))
    (hi : ∀ r ∈ e.fixed, r ∈ t.involved) : Shape e (t :: ts) where
  fix := by
    intro v hv
    rcases List.mem_cons.mp hv with rfl | hv
    · intro _; exact hi
    · exact h.fix v hv
  nod := by
    rw [List.filterMap_cons, hn]
    refine List.nodup_cons.mpr ⟨?_, h.nod⟩
    intro hm
    obtain ⟨u, hu, hx⟩ := List.mem_filterMap.mp hm
    exact hf u hu hx
  one := by
    rw [List.filter_cons, hn]
    exact h.one

theorem Shape.nil (e : Env) : Shape e [] := ⟨by simp, by simp, by simp⟩

theorem ActiveIn.congr {e : Env} {log log' : List Event} {x : Option Xid} (h : ActiveIn e log x)
    (h' : ∀ r ∈ e.fixed, ∀ y, active log' r y = active log r y) : ActiveIn e log' x := by
  intro r hr y
  rw [h' r hr y]; exact h r hr y

theorem ActiveIn.emit {e : Env} {log : List Event} {x : Option Xid} (h : ActiveIn e log x)
    {ev : Event} (h' : ∀ r ∈ e.fixed, ∀ y, uses r y ev = false) : ActiveIn e (ev :: log) x :=
  h.congr fun r hr y => active_skip (h' r hr y)

theorem ActiveIn.skips {e : Env} {log : List Event} {x : Option Xid} (h : ActiveIn e log x)
    {evs : List Event} (h' : ∀ ev ∈ evs, ∀ r ∈ e.fixed, ∀ y, uses r y ev = false) :
    ActiveIn e (evs ++ log) x :=
  h.congr fun r hr y => active_skips (fun ev hev => h' ev hev r hr y)

theorem fixed_all {e : Env} {r : Rm} (h : r ∈ e.fixed) : r ∈ e.all := List.mem_append_right _ h

/-- Stop the current transaction. -/
theorem ActiveIn.stop {e : Env} {log : List Event} {x : Xid} (h : ActiveIn e log (some x))
    {rs : List Rm} (hr : ∀ r ∈ e.fixed, r ∈ rs) (f : Flag) :
    ActiveIn e (((rs.filter (· ∈ e.all)).map fun r => Event.xa (.stop r x f) .ok).reverse ++ log) none := by
  intro r hf y
  rw [active_stops]
  have := h r hf y
  have hm : r ∈ rs.filter (· ∈ e.all) := List.mem_filter.mpr ⟨hr r hf, by simp [fixed_all hf]⟩
  cases hact : active log r y with
  | false => simp
  | true =>
    rw [hact] at this
    have hxy : x = y := by simpa using this.mp rfl
    simp [hxy, hm]

theorem ActiveIn.start {e : Env} {log : List Event} {x : Xid} (h : ActiveIn e log none)
    {rs : List Rm} (hr : ∀ r ∈ e.fixed, r ∈ rs) (f : Rm → Flag) :
    ActiveIn e ((rs.map fun r => Event.xa (.start r x (f r)) .ok).reverse ++ log) (some x) := by
  intro r hf y
  rw [active_starts]
  have := h r hf y
  have hm := hr r hf
  cases hact : active log r y with
  | true => rw [hact] at this; simp at this
  | false => simp [hm]

theorem ActiveIn.stops_none {e : Env} {log : List Event} {x : Xid} (h : ActiveIn e log none)
    (rs : List Rm) (f : Flag) :
    ActiveIn e ((rs.map fun r => Event.xa (.stop r x f) .ok).reverse ++ log) none := by
  intro r hf y
  rw [active_stops]
  have := h r hf y
  cases hact : active log r y with
  | false => simp
  | true => rw [hact] at this; simp at this

/-! ### decisions -/

theorem no_uses_commitT {e : Env} (he : e.Willing) (t : Tran) (x : Xid) (hx : t.trid = some x) (c : Ctx) :
    ∃ evs, (commitT e t c).1 = { c with log := evs ++
      (((t.involved.filter (· ∈ e.all)).map fun r => Event.xa (.stop r x .success) .ok).reverse ++ c.log) } ∧
      ∀ ev ∈ evs, ∀ r y, uses r y ev = false := by
  unfold commitT
  rw [hx]
  dsimp only
  rw [stopAll_willing he]
  dsimp only
  rw [if_neg (by simp)]
  split
  · split
    · exact ⟨[.committed x], rfl, by simp [uses]⟩
    · rename_i r l _
      unfold resourceCommit
      split
      · refine ⟨[.xa (.commit r x) _], rfl, by simp [uses]⟩
      · exact ⟨[], rfl, by simp⟩
  · exact ⟨[.tmCommit x t.involved], rfl, by simp [uses]⟩

theorem rollback_loop {e : Env} {x : Xid} : ∀ (rs : List Rm) (c : Ctx) (k : Tx),
    ∃ evs, (accum (resourceRollback e x) rs (c, k)).1 = { c with log := evs ++ c.log } ∧
      ∀ ev ∈ evs, ∀ r y, uses r y ev = false
  | [], c, k => ⟨[], rfl, by simp⟩
  | r :: rs, c, k => by
    unfold accum
    obtain ⟨evs, h1, h2⟩ := rollback_loop (e := e) (x := x) rs (resourceRollback e x r c).1 (k.add (resourceRollback e x r c).2)
    rw [h1]
    unfold resourceRollback
    split
    · refine ⟨evs ++ [.xa (.rollback r x) (e.xa c.log (.rollback r x))], ?_, ?_⟩
      · simp [doXa, emit]
      · intro ev hev
        rcases List.mem_append.mp hev with hev | hev
        · exact h2 ev hev
        · simp only [List.mem_singleton] at hev
          subst hev
          intro r y; rfl
    · exact ⟨evs, rfl, h2⟩

theorem no_uses_rollbackT {e : Env} (he : e.Willing) (t : Tran) (x : Xid) (hx : t.trid = some x) (c : Ctx) :
    ∃ evs, (rollbackT e t c).1 = { c with log := evs ++
      (((t.involved.filter (· ∈ e.all)).map fun r => Event.xa (.stop r x .success) .ok).reverse ++ c.log) } ∧
      ∀ ev ∈ evs, ∀ r y, uses r y ev = false := by
  unfold rollbackT
  rw [hx]
  dsimp only
  rw [stopAll_willing he]
  dsimp only
  rw [if_neg (by simp)]
  split
  · obtain ⟨evs, h1, h2⟩ := rollback_loop (e := e) (x := x) (uniqueAdj (sortRms (t.involved ++ e.fixed)))
      { c with log := ((t.involved.filter (· ∈ e.all)).map fun r => Event.xa (.stop r x .success) .ok).reverse ++ c.log } .ok
    refine ⟨.rolledBack x :: evs, ?_, ?_⟩
    · dsimp only; rw [h1]; rfl
    · intro ev hev
      rcases List.mem_cons.mp hev with rfl | hev
      · intro r y; rfl
      · exact h2 ev hev
  · exact ⟨[.tmRollback x t.involved], rfl, by simp [uses]⟩

/-! ### begin and resume -/

theorem not_active_fresh {e : Env} {ts : List Tran} {c : Ctx} (h : Inv e ts c) (r : Rm) :
    active c.log r (.mine c.next) = false := by
  cases ha : active c.log r (.mine c.next) with
  | false => rfl
  | true =>
    obtain ⟨ev, hev, ht⟩ := active_touched ha
    exact absurd (h.freshL ev hev _ (Or.inr (Or.inr (Or.inr ⟨r, ht⟩)))) (Nat.lt_irrefl _)

theorem A.beginNew {e : Env} (he : e.Willing) {c : Ctx} (hw : W e c) (now : Time)
    (hs : Shape e c.stack) (hl : c.control ≠ .stacked → ∀ t ∈ c.stack, t.suspended = true ∨ t.trid = none)
    (ha : ActiveIn e c.log none) : A e (beginNew e now c).1 := by
  unfold Tx.beginNew
  dsimp only
  rw [beginStart_willing he]
  dsimp only
  rw [if_pos (by simp)]
  refine ⟨?_, hl, ?_⟩
  · refine hs.pushMine (n := c.next) rfl ?_ ?_
    · intro u hu hx
      exact absurd (hw.inv.freshT u hu _ hx) (Nat.lt_irrefl _)
    · intro r hr; exact mem_involve.mpr (Or.inr hr)
  · refine ActiveIn.start (x := .mine c.next) (f := fun _ => .none) ?_ (fun r hr => hr)
    exact ha.emit (fun r _ y => rfl)

theorem cur_none_all {k : Control} {ts : List Tran} (hl : Low k ts) (hc : cur ts = none)
    (hk : k ≠ .stacked) : ∀ t ∈ ts, t.suspended = true ∨ t.trid = none := by
  intro t ht
  cases ts with
  | nil => cases ht
  | cons u us =>
    rcases List.mem_cons.mp ht with rfl | ht
    · unfold cur at hc
      dsimp only at hc
      split at hc
      · rename_i h; exact Or.inl h
      · exact Or.inr hc
    · exact hl hk t ht

theorem A.begin {e : Env} (he : e.Willing) {c : Ctx} (hw : W e c) (h : A e c) (now : Time) :
    A e (begin e now c).1 := by
  have hcur := current_trid (c := c) hw.emp
  unfold Tx.begin
  split
  · rename_i x hx
    split
    · exact h
    · rename_i hk
      obtain ⟨t, ts, hst, hsu, hct, htx⟩ := current_some hw.emp hx
      have hw' := hw.stop x .suspend (current c).involved
      rw [stopAll_willing he] at hw' ⊢
      dsimp only at hw' ⊢
      rw [if_neg (by simp)]
      refine A.beginNew he hw' now h.shape (fun hk' => absurd (Classical.not_not.mp hk) hk') ?_
      have hact := h.act
      rw [← hcur, hx] at hact
      refine hact.stop ?_ _
      intro r hr
      rw [hct]
      exact h.shape.fix t (by rw [hst]; exact List.mem_cons_self) (by rw [htx]; simp) r hr
  · rename_i hx
    have hx' : cur c.stack = none := by rw [← hcur]; exact hx
    split
    · exact h
    · refine A.beginNew he hw now h.shape (fun hk => cur_none_all h.low hx' hk) ?_
      have := h.act
      rw [hx'] at this
      exact this

/-- Resume the transaction on the top of the stack. -/
theorem A.resumeCurrent {e : Env} (he : e.Willing) {c : Ctx} (hw : c.empty.trid = none)
    (hs : Shape e c.stack) (hl : Low c.control c.stack) (ha : ActiveIn e c.log none)
    {among : List Rm} (hm : ∀ r ∈ e.fixed, r ∈ among) :
    A e (resumeCurrent e among c).1 := by
  have hcur := current_trid (c := c) hw
  unfold Tx.resumeCurrent
  split
  · rename_i hx
    refine ⟨hs, hl, ?_⟩
    rw [← hcur, hx]; exact ha
  · rename_i x hx
    obtain ⟨t, ts, hst, hsu, hct, htx⟩ := current_some hw hx
    split
    · rename_i hempty
      refine ⟨hs, hl, ?_⟩
      intro r hr
      have := hm r hr
      rw [hempty] at this
      cases this
    · dsimp only
      rw [startAll_willing he]
      have hsc : setCurrent (·.involve among) c = { c with stack := t.involve among :: ts } :=
        setCurrent_head hst hsu
      rw [hsc]
      rw [hst] at hs hl
      refine ⟨?_, ?_, ?_⟩
      · exact hs.head rfl (fun r hr => mem_involve.mpr (Or.inl hr))
      · exact hl
      · have hc2 : current { c with stack := t.involve among :: ts } = t.involve among := by
          unfold current
          show (if (t.involve among).suspended = true then _ else _) = _
          have : (t.involve among).suspended = false := hsu
          rw [this]; simp
        have hcu : cur (t.involve among :: ts) = some x := by
          unfold cur
          show (if (t.involve among).suspended = true then _ else (t.involve among).trid) = _
          have h1 : (t.involve among).suspended = false := hsu
          have h2 : (t.involve among).trid = t.trid := rfl
          rw [h1, h2, htx]; simp
        show ActiveIn e _ (cur (t.involve among :: ts))
        rw [hcu, hc2]
        refine ActiveIn.start ha ?_ (fun _ => .resume)
        intro r hr
        refine List.mem_filter.mpr ⟨mem_involve.mpr (Or.inr (hm r hr)), ?_⟩
        simp [hm r hr]

theorem A.continuation {e : Env} (he : e.Willing) {s : Ctx × Tx} (hw : W e s.1)
    (hs : Shape e s.1.stack) (hl : Low s.1.control s.1.stack)
    (hc : s.1.control ≠ .stacked → cur s.1.stack = none) (ha : ActiveIn e s.1.log none) (now : Time) :
    A e (continuation e now s).1 := by
  unfold Tx.continuation
  have hA : s.1.control ≠ .stacked → A e s.1 := by
    intro hk
    refine ⟨hs, hl, ?_⟩
    rw [hc hk]; exact ha
  split
  · rename_i hk; exact hA (by rw [hk]; decide)
  · rename_i hk; exact A.begin he hw (hA (by rw [hk]; decide)) now
  · exact A.resumeCurrent he hw.emp hs hl ha (fun r hr => fixed_all hr)

theorem cur_tail_none {k : Control} {t : Tran} {ts : List Tran} (hl : Low k (t :: ts)) (hk : k ≠ .stacked) :
    cur ts = none := by
  cases ts with
  | nil => rfl
  | cons u us =>
    unfold cur
    dsimp only
    rcases hl hk u List.mem_cons_self with h | h
    · rw [h]; simp
    · rw [h]; simp

theorem Low.tail {k : Control} {t : Tran} {ts : List Tran} (hl : Low k (t :: ts)) : Low k ts := by
  intro hk u hu
  cases ts with
  | nil => cases hu
  | cons v vs => exact hl hk u (List.mem_cons_of_mem _ hu)

theorem A.decide {e : Env} (he : e.Willing) {c : Ctx} (hw : W e c) (h : A e c) (now : Time)
    {t : Tran} {ts : List Tran} {x : Xid} (hst : c.stack = t :: ts) (hsu : t.suspended = false)
    (htx : t.trid = some x) {s : Ctx × Tx} (hW : W e s.1)
    (hs : ∃ evs, s.1 = { pop c with log := evs ++
      (((t.involved.filter (· ∈ e.all)).map fun r => Event.xa (.stop r x .success) .ok).reverse ++ c.log) } ∧
      ∀ ev ∈ evs, ∀ r y, uses r y ev = false) : A e (Tx.continuation e now s).1 := by
  obtain ⟨evs, h1, h2⟩ := hs
  have hst' : s.1.stack = ts := by rw [h1]; show c.stack.tail = ts; rw [hst]; rfl
  have hco : s.1.control = c.control := by rw [h1]; rfl
  have hlg : s.1.log = evs ++ (((t.involved.filter (· ∈ e.all)).map fun r => Event.xa (.stop r x .success) .ok).reverse ++ c.log) := by
    rw [h1]
  have hsh := h.shape
  have hlo := h.low
  have hac := h.act
  have hcx : cur c.stack = some x := by rw [hst]; unfold cur; dsimp only; rw [hsu, htx]; simp
  rw [hcx] at hac
  rw [hst] at hsh hlo
  refine A.continuation he hW ?_ ?_ ?_ ?_ now
  · rw [hst']; exact hsh.tail
  · rw [hst', hco]; exact hlo.tail
  · rw [hst', hco]; exact cur_tail_none hlo
  · rw [hlg]
    refine ActiveIn.skips ?_ (fun ev hev r _ y => h2 ev hev r y)
    refine hac.stop ?_ _
    exact hsh.fix t List.mem_cons_self (by rw [htx]; simp)

theorem W.popCommit {e : Env} {c : Ctx} (h : W e c) (hok : commitPre (current c) = .ok) :
    W e (commitT e (current c) (pop c)).1 := by
  obtain ⟨ho, hs, _, x, hn⟩ := commitPre_ok hok
  obtain ⟨t, ts, hst, hsu, hcur, htx⟩ := current_some h.emp hn
  have hi := h.inv
  rw [hst] at hi
  have hc : pop c = { c with stack := ts } := by unfold pop; rw [hst]; rfl
  rw [hcur, hc]
  rw [hcur] at hs ho
  have := commitT_inv (c := { c with stack := ts }) hi h.full ho hs
  obtain ⟨h1, h2, h3⟩ := this
  refine ⟨?_, h2, ?_⟩
  · have : (commitT e t { c with stack := ts }).1.stack = ts := by rw [h3]
    rw [this]; exact h1
  · rw [h3]; exact h.emp

theorem W.popRollback {e : Env} {c : Ctx} (h : W e c) (hok : rollbackPre (current c) = .ok) :
    W e (rollbackT e (current c) (pop c)).1 := by
  obtain ⟨ho, x, hn⟩ := rollbackPre_ok hok
  obtain ⟨t, ts, hst, hsu, hcur, htx⟩ := current_some h.emp hn
  have hi := h.inv
  rw [hst] at hi
  have hc : pop c = { c with stack := ts } := by unfold pop; rw [hst]; rfl
  rw [hcur, hc]
  rw [hcur] at ho
  have := rollbackT_inv (c := { c with stack := ts }) hi h.full ho
  obtain ⟨h1, h2, h3⟩ := this
  refine ⟨?_, h2, ?_⟩
  · have : (rollbackT e t { c with stack := ts }).1.stack = ts := by rw [h3]
    rw [this]; exact h1
  · rw [h3]; exact h.emp

end Casual.Tx

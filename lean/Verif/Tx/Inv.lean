import Verif.Tx.Spec
import Verif.Code.Props
import Verif.Util
/-! The invariant behind the properties of the transaction context. -/
namespace Casual.Tx
open Casual.Code

/-! ### codes -/

theorem add_ok_iff (a b : Tx) : a.add b = .ok ↔ a = .ok ∧ b = .ok := by
  cases a <;> cases b <;> decide

/-! ### what must hold when an event happens -/

/-- The requirement on an event, given the log before it. -/
def Good : Event → List Event → Prop
  | .tmCommit x rs, pre =>
      (∃ d, Event.began x d ∈ pre) ∧ none? (commits x) pre ∧ none? (rollsBack x) pre ∧
      (∀ r, touched pre r x → r ∈ rs ∧ ended pre r x) ∧
      (∀ corr st, Event.call corr x ∈ pre → Event.replied corr st ∈ pre → st = 0)
  | .xa (.commit r x) _, pre =>
      (∃ d, Event.began x d ∈ pre) ∧ none? (commits x) pre ∧ none? (rollsBack x) pre ∧ none? (leaves x) pre ∧
      (∀ r', touched pre r' x → r' = r ∧ ended pre r' x)
  | .committed x, pre =>
      (∃ d, Event.began x d ∈ pre) ∧ none? (commits x) pre ∧ none? (rollsBack x) pre ∧ none? (leaves x) pre ∧
      (∀ r, ¬ touched pre r x)
  | .tmRollback x rs, pre =>
      (∃ d, Event.began x d ∈ pre) ∧ none? (commits x) pre ∧ none? (rollsBack x) pre ∧
      (∀ r, touched pre r x → r ∈ rs ∧ ended pre r x)
  | .xa (.rollback r x) _, pre =>
      (∃ d, Event.began x d ∈ pre) ∧ none? (commits x) pre ∧ (∀ rs, Event.tmRollback x rs ∉ pre) ∧
      (∀ k, Event.xa (.rollback r x) k ∉ pre) ∧ none? (leaves x) pre ∧
      (∀ r', touched pre r' x → ended pre r' x)
  | _, _ => True

def AllGood : List Event → Prop
  | [] => True
  | ev :: pre => Good ev pre ∧ AllGood pre

theorem AllGood.split {log : List Event} (h : AllGood log) {post : List Event} {ev : Event}
    {pre : List Event} (he : log = post ++ ev :: pre) : Good ev pre := by
  subst he
  induction post with
  | nil => exact h.1
  | cons a l ih => exact ih h.2

/-! ### the invariant -/

def mineOf (t : Tran) : Option Nat :=
  match t.trid with
  | some (.mine n) => some n
  | _ => none

theorem mineOf_some {t : Tran} {n : Nat} : mineOf t = some n ↔ t.trid = some (.mine n) := by
  unfold mineOf
  split
  · rename_i m h; rw [h]; simp
  · rename_i h
    constructor
    · intro h'; cases h'
    · intro h'; exact absurd h' (h n)

theorem own_iff {t : Tran} : t.own = true ↔ ∃ n, t.trid = some (.mine n) := by
  unfold Tran.own
  split
  · rename_i n h; rw [h]; simp
  · rename_i h
    constructor
    · intro h'; cases h'
    · rintro ⟨n, h'⟩; exact absurd h' (h n)

/-- The event is about a transaction, other than by ending a resource. -/
def about (x : Xid) (ev : Event) : Prop :=
  commits x ev = true ∨ rollsBack x ev = true ∨ leaves x ev = true ∨ (∃ r, touches r x ev = true)

structure InvL (e : Env) (ts : List Tran) (next ncorr : Nat) (out : List Nat)
    (log : List Event) : Prop where
  good : AllGood log
  freshT : ∀ t ∈ ts, ∀ n, t.trid = some (.mine n) → n < next
  freshL : ∀ ev ∈ log, ∀ n, about (.mine n) ev → n < next
  mineL : ∀ ev ∈ log, ∀ x, (commits x ev = true ∨ rollsBack x ev = true) →
    ∃ n d, x = .mine n ∧ Event.began x d ∈ log
  nodup : (ts.filterMap mineOf).Nodup
  undec : ∀ t ∈ ts, ∀ n, t.trid = some (.mine n) → ∀ ev ∈ log,
    commits (.mine n) ev = false ∧ rollsBack (.mine n) ev = false
  began : ∀ t ∈ ts, ∀ n, t.trid = some (.mine n) → ∃ d, Event.began (.mine n) d ∈ log
  invol : ∀ t ∈ ts, ∀ n r, t.trid = some (.mine n) → touched log r (.mine n) → r ∈ t.involved
  sub : ∀ t ∈ ts, ∀ r ∈ t.involved, r ∈ e.all
  ext : ∀ t ∈ ts, ∀ n, t.trid = some (.mine n) → ∀ ev ∈ log, leaves (.mine n) ev = true →
    t.external = true
  -- correlations
  freshC : ∀ corr x, Event.call corr x ∈ log → corr < ncorr
  freshR : ∀ corr st, Event.replied corr st ∈ log → corr < ncorr
  freshP : ∀ t ∈ ts, ∀ corr ∈ t.pending, corr < ncorr
  freshO : ∀ corr ∈ out, corr < ncorr
  pend : ∀ t ∈ ts, ∀ n corr, t.trid = some (.mine n) → Event.call corr (.mine n) ∈ log →
    corr ∈ out → corr ∈ t.pending
  pend' : ∀ t ∈ ts, ∀ n corr, t.trid = some (.mine n) → Event.call corr (.mine n) ∈ log →
    corr ∈ t.pending ∨ ∃ st, Event.replied corr st ∈ log
  uniqC : ∀ corr x x', Event.call corr x ∈ log → Event.call corr x' ∈ log → x = x'
  ownC : ∀ t ∈ ts, ∀ corr x, corr ∈ t.pending → Event.call corr x ∈ log → t.trid = some x
  st : ∀ t ∈ ts, ∀ n corr s, t.trid = some (.mine n) → Event.call corr (.mine n) ∈ log →
    Event.replied corr s ∈ log → s ≤ t.state

/-- A transaction rolled back resource by resource is rolled back in every resource that has
been associated with it. -/
def Full (log : List Event) : Prop :=
  ∀ x r k, Event.xa (.rollback r x) k ∈ log → ∀ r', touched log r' x →
    ∃ k', Event.xa (.rollback r' x) k' ∈ log

abbrev Inv (e : Env) (ts : List Tran) (c : Ctx) : Prop :=
  InvL e ts c.next c.nextCorr c.outstanding c.log


theorem touched_cons {ev : Event} {log : List Event} {r : Rm} {x : Xid} :
    touched (ev :: log) r x ↔ touches r x ev = true ∨ touched log r x := by
  simp [touched]

/-- What an event needs for the invariant to survive it. -/
structure Addable (ts : List Tran) (next : Nat) (log : List Event) (ev : Event) : Prop where
  good : Good ev log
  notCall : ∀ corr x, ev ≠ .call corr x
  notReply : ∀ corr s, ev ≠ .replied corr s
  fresh : ∀ n, about (.mine n) ev → n < next
  dec : ∀ x, (commits x ev = true ∨ rollsBack x ev = true) →
    (∃ n d, x = .mine n ∧ Event.began x d ∈ log) ∧ ∀ t ∈ ts, t.trid ≠ some x
  touch : ∀ n r, touches r (.mine n) ev = true → ∀ t ∈ ts, t.trid = some (.mine n) →
    r ∈ t.involved
  leave : ∀ n, leaves (.mine n) ev = true → ∀ t ∈ ts, t.trid = some (.mine n) →
    t.external = true

section
variable {e : Env} {ts : List Tran} {next ncorr : Nat} {out : List Nat} {log : List Event}

theorem InvL.add (h : InvL e ts next ncorr out log) {ev : Event}
    (a : Addable ts next log ev) : InvL e ts next ncorr out (ev :: log) where
  good := ⟨a.good, h.good⟩
  freshT := h.freshT
  freshL := by
    intro ev' hev n hab
    rcases List.mem_cons.mp hev with rfl | hev
    · exact a.fresh n hab
    · exact h.freshL _ hev _ hab
  mineL := by
    intro ev' hev x hx
    rcases List.mem_cons.mp hev with rfl | hev
    · obtain ⟨⟨n, d, h1, h2⟩, _⟩ := a.dec x hx
      exact ⟨n, d, h1, List.mem_cons_of_mem _ h2⟩
    · obtain ⟨n, d, h1, h2⟩ := h.mineL _ hev _ hx
      exact ⟨n, d, h1, List.mem_cons_of_mem _ h2⟩
  nodup := h.nodup
  undec := by
    intro t ht n hn' ev' hev
    rcases List.mem_cons.mp hev with rfl | hev
    · constructor
      · cases hc : commits (.mine n) ev' with
        | false => rfl
        | true => exact absurd hn' ((a.dec _ (Or.inl hc)).2 t ht)
      · cases hc : rollsBack (.mine n) ev' with
        | false => rfl
        | true => exact absurd hn' ((a.dec _ (Or.inr hc)).2 t ht)
    · exact h.undec t ht n hn' _ hev
  began := by
    intro t ht n hn'
    obtain ⟨d, hd⟩ := h.began t ht n hn'
    exact ⟨d, List.mem_cons_of_mem _ hd⟩
  invol := by
    intro t ht n r hn' htc
    rcases touched_cons.mp htc with h1 | h1
    · exact a.touch n r h1 t ht hn'
    · exact h.invol t ht n r hn' h1
  sub := h.sub
  ext := by
    intro t ht n hn' ev' hev hl
    rcases List.mem_cons.mp hev with rfl | hev
    · exact a.leave n hl t ht hn'
    · exact h.ext t ht n hn' _ hev hl
  freshC := by
    intro corr x hm
    rcases List.mem_cons.mp hm with hm | hm
    · exact absurd hm.symm (a.notCall _ _)
    · exact h.freshC _ _ hm
  freshR := by
    intro corr s hm
    rcases List.mem_cons.mp hm with hm | hm
    · exact absurd hm.symm (a.notReply _ _)
    · exact h.freshR _ _ hm
  freshP := h.freshP
  freshO := h.freshO
  pend := by
    intro t ht n corr hn' hm ho
    rcases List.mem_cons.mp hm with hm | hm
    · exact absurd hm.symm (a.notCall _ _)
    · exact h.pend t ht n corr hn' hm ho
  pend' := by
    intro t ht n corr hn' hm
    rcases List.mem_cons.mp hm with hm | hm
    · exact absurd hm.symm (a.notCall _ _)
    · rcases h.pend' t ht n corr hn' hm with h1 | ⟨s, h1⟩
      · exact Or.inl h1
      · exact Or.inr ⟨s, List.mem_cons_of_mem _ h1⟩
  uniqC := by
    intro corr x x' h1 h2
    rcases List.mem_cons.mp h1 with h1 | h1
    · exact absurd h1.symm (a.notCall _ _)
    rcases List.mem_cons.mp h2 with h2 | h2
    · exact absurd h2.symm (a.notCall _ _)
    exact h.uniqC _ _ _ h1 h2
  ownC := by
    intro t ht corr x hp hm
    rcases List.mem_cons.mp hm with hm | hm
    · exact absurd hm.symm (a.notCall _ _)
    · exact h.ownC t ht corr x hp hm
  st := by
    intro t ht n corr s hn' hm hrp
    rcases List.mem_cons.mp hm with hm | hm
    · exact absurd hm.symm (a.notCall _ _)
    rcases List.mem_cons.mp hrp with hrp | hrp
    · exact absurd hrp.symm (a.notReply _ _)
    exact h.st t ht n corr s hn' hm hrp

/-! ### neutral events, association events -/

/-- Events that only end or tell about an association. -/
def neutral : Event → Bool
  | .xa (.stop _ _ _) _ => true
  | .involve _ _ => true
  | .discard _ => true
  | .began _ _ => true
  | .rolledBack _ => true
  | _ => false

theorem Addable.neutral {ev : Event} (hn : neutral ev = true) : Addable ts next log ev := by
  cases ev <;> try (simp [Tx.neutral] at hn; done)
  case xa op k =>
    cases op <;> try (simp [Tx.neutral] at hn; done)
    constructor <;> simp [Good, about, commits, rollsBack, touches, leaves]
  all_goals constructor <;> simp [Good, about, commits, rollsBack, touches, leaves]

theorem Addable.start {r : Rm} {x : Xid} {f : Flag} {k : Xa}
    (hf : ∀ n, x = .mine n → n < next ∧ ∀ t ∈ ts, t.trid = some x → r ∈ t.involved) :
    Addable ts next log (.xa (.start r x f) k) where
  good := trivial
  notCall := by intros; simp
  notReply := by intros; simp
  fresh := by
    intro n h
    simp only [about, commits, rollsBack, leaves, touches, Bool.and_eq_true, decide_eq_true_eq] at h
    obtain h | h | h | ⟨_, _, h⟩ := h
    · cases h
    · cases h
    · cases h
    · exact (hf n h).1
  dec := by intro x h; simp [commits, rollsBack] at h
  touch := by
    intro n r' h t ht htr
    simp only [touches, Bool.and_eq_true, decide_eq_true_eq] at h
    obtain ⟨rfl, h⟩ := h
    exact (hf n h).2 t ht (h ▸ htr)
  leave := by intro n h; simp [leaves] at h

theorem Addable.reg {r : Rm} {x : Xid}
    (hf : ∀ n, x = .mine n → n < next ∧ ∀ t ∈ ts, t.trid = some x → r ∈ t.involved) :
    Addable ts next log (.reg r x) where
  good := trivial
  notCall := by intros; simp
  notReply := by intros; simp
  fresh := by
    intro n h
    simp only [about, commits, rollsBack, leaves, touches, Bool.and_eq_true, decide_eq_true_eq] at h
    obtain h | h | h | ⟨_, _, h⟩ := h
    · cases h
    · cases h
    · cases h
    · exact (hf n h).1
  dec := by intro x h; simp [commits, rollsBack] at h
  touch := by
    intro n r' h t ht htr
    simp only [touches, Bool.and_eq_true, decide_eq_true_eq] at h
    obtain ⟨rfl, h⟩ := h
    exact (hf n h).2 t ht (h ▸ htr)
  leave := by intro n h; simp [leaves] at h

theorem Addable.external {x : Xid}
    (hf : ∀ n, x = .mine n → n < next ∧ ∀ t ∈ ts, t.trid = some x → t.external = true) :
    Addable ts next log (.external x) where
  good := trivial
  notCall := by intros; simp
  notReply := by intros; simp
  fresh := by
    intro n h
    simp only [about, commits, rollsBack, leaves, touches, decide_eq_true_eq] at h
    obtain h | h | h | ⟨_, h⟩ := h
    · cases h
    · cases h
    · exact (hf n h).1
    · cases h
  dec := by intro x h; simp [commits, rollsBack] at h
  touch := by intro n r h; simp [touches] at h
  leave := by
    intro n h t ht htr
    simp only [leaves, decide_eq_true_eq] at h
    exact (hf n h).2 t ht (h ▸ htr)

/-! ### changing the set of live transactions -/

theorem InvL.perm (h : InvL e ts next ncorr out log) {ts' : List Tran} (hp : ts.Perm ts') :
    InvL e ts' next ncorr out log :=
  { h with
    freshT := fun t ht => h.freshT t (hp.mem_iff.mpr ht)
    nodup := (hp.filterMap mineOf).nodup_iff.mp h.nodup
    undec := fun t ht => h.undec t (hp.mem_iff.mpr ht)
    began := fun t ht => h.began t (hp.mem_iff.mpr ht)
    invol := fun t ht => h.invol t (hp.mem_iff.mpr ht)
    sub := fun t ht => h.sub t (hp.mem_iff.mpr ht)
    ext := fun t ht => h.ext t (hp.mem_iff.mpr ht)
    freshP := fun t ht => h.freshP t (hp.mem_iff.mpr ht)
    pend := fun t ht => h.pend t (hp.mem_iff.mpr ht)
    pend' := fun t ht => h.pend' t (hp.mem_iff.mpr ht)
    ownC := fun t ht => h.ownC t (hp.mem_iff.mpr ht)
    st := fun t ht => h.st t (hp.mem_iff.mpr ht) }

theorem InvL.sublist (h : InvL e ts next ncorr out log) {ts' : List Tran} (hp : ts'.Sublist ts) :
    InvL e ts' next ncorr out log :=
  { h with
    freshT := fun t ht => h.freshT t (hp.mem ht)
    nodup := h.nodup.sublist (hp.filterMap mineOf)
    undec := fun t ht => h.undec t (hp.mem ht)
    began := fun t ht => h.began t (hp.mem ht)
    invol := fun t ht => h.invol t (hp.mem ht)
    sub := fun t ht => h.sub t (hp.mem ht)
    ext := fun t ht => h.ext t (hp.mem ht)
    freshP := fun t ht => h.freshP t (hp.mem ht)
    pend := fun t ht => h.pend t (hp.mem ht)
    pend' := fun t ht => h.pend' t (hp.mem ht)
    ownC := fun t ht => h.ownC t (hp.mem ht)
    st := fun t ht => h.st t (hp.mem ht) }

/-- Replace a live transaction by one with the same id that knows at least as much. -/
theorem InvL.replace {t t' : Tran} (h : InvL e (t :: ts) next ncorr out log)
    (h1 : t'.trid = t.trid) (h2 : ∀ r ∈ t.involved, r ∈ t'.involved)
    (h3 : ∀ r ∈ t'.involved, r ∈ e.all) (h4 : t.external = true → t'.external = true)
    (h5 : ∀ corr, corr ∈ t'.pending ↔ corr ∈ t.pending) (h6 : t.state ≤ t'.state) :
    InvL e (t' :: ts) next ncorr out log := by
  have hm : ∀ {P : Tran → Prop}, (P t → P t') → (∀ u ∈ t :: ts, P u) → ∀ u ∈ t' :: ts, P u := by
    intro P hP hall u hu
    rcases List.mem_cons.mp hu with rfl | hu
    · exact hP (hall _ List.mem_cons_self)
    · exact hall _ (List.mem_cons_of_mem _ hu)
  exact
    { h with
      freshT := hm (P := fun t => ∀ n, t.trid = some (.mine n) → n < next) (by rw [h1]; exact id) h.freshT
      nodup := by
        have : mineOf t' = mineOf t := by unfold mineOf; rw [h1]
        have h0 := h.nodup
        rw [List.filterMap_cons] at h0 ⊢
        rw [this]; exact h0
      undec := hm (P := fun t => ∀ n, t.trid = some (.mine n) → ∀ ev ∈ log, commits (.mine n) ev = false ∧ rollsBack (.mine n) ev = false) (by rw [h1]; exact id) h.undec
      began := hm (P := fun t => ∀ n, t.trid = some (.mine n) → ∃ d, Event.began (.mine n) d ∈ log) (by rw [h1]; exact id) h.began
      invol := hm (P := fun t => ∀ n r, t.trid = some (.mine n) → touched log r (.mine n) → r ∈ t.involved)
        (by rw [h1]; exact fun hh n r a b => h2 r (hh n r a b)) h.invol
      sub := hm (P := fun t => ∀ r ∈ t.involved, r ∈ e.all) (fun _ => h3) h.sub
      ext := hm (P := fun t => ∀ n, t.trid = some (.mine n) → ∀ ev ∈ log, leaves (.mine n) ev = true → t.external = true)
        (by rw [h1]; exact fun hh n a ev hev hl => h4 (hh n a ev hev hl)) h.ext
      freshP := hm (P := fun t => ∀ corr ∈ t.pending, corr < ncorr) (fun hh corr hc => hh corr ((h5 corr).mp hc)) h.freshP
      pend := hm (P := fun t => ∀ n corr, t.trid = some (.mine n) → Event.call corr (.mine n) ∈ log → corr ∈ out → corr ∈ t.pending)
        (by rw [h1]; exact fun hh n corr a b c => (h5 corr).mpr (hh n corr a b c)) h.pend
      pend' := hm (P := fun t => ∀ n corr, t.trid = some (.mine n) → Event.call corr (.mine n) ∈ log → corr ∈ t.pending ∨ ∃ st, Event.replied corr st ∈ log)
        (by rw [h1]; exact fun hh n corr a b => (hh n corr a b).imp (h5 corr).mpr id) h.pend'
      ownC := hm (P := fun t => ∀ corr x, corr ∈ t.pending → Event.call corr x ∈ log → t.trid = some x)
        (by rw [h1]; exact fun hh corr x a b => hh corr x ((h5 corr).mp a) b) h.ownC
      st := hm (P := fun t => ∀ n corr s, t.trid = some (.mine n) → Event.call corr (.mine n) ∈ log → Event.replied corr s ∈ log → s ≤ t.state)
        (by rw [h1]; exact fun hh n corr s a b c => Nat.le_trans (hh n corr s a b c) h6) h.st }

/-- A transaction from another process, or none at all. -/
theorem InvL.pushOther {t : Tran} (h : InvL e ts next ncorr out log) (h1 : t.own = false)
    (h3 : ∀ r ∈ t.involved, r ∈ e.all) (h5 : t.pending = []) :
    InvL e (t :: ts) next ncorr out log := by
  have hno : ∀ n, t.trid ≠ some (.mine n) := by
    intro n hn
    rw [own_iff.mpr ⟨n, hn⟩] at h1; cases h1
  have hm : ∀ {P : Tran → Prop}, P t → (∀ u ∈ ts, P u) → ∀ u ∈ t :: ts, P u := by
    intro P hP hall u hu
    rcases List.mem_cons.mp hu with rfl | hu
    · exact hP
    · exact hall _ hu
  exact
    { h with
      freshT := hm (P := fun t => ∀ n, t.trid = some (.mine n) → n < next) (fun n hn => absurd hn (hno n)) h.freshT
      nodup := by
        have : mineOf t = none := by
          cases hh : mineOf t with
          | none => rfl
          | some n => exact absurd (mineOf_some.mp hh) (hno n)
        rw [List.filterMap_cons, this]; exact h.nodup
      undec := hm (P := fun t => ∀ n, t.trid = some (.mine n) → ∀ ev ∈ log, commits (.mine n) ev = false ∧ rollsBack (.mine n) ev = false) (fun n hn => absurd hn (hno n)) h.undec
      began := hm (P := fun t => ∀ n, t.trid = some (.mine n) → ∃ d, Event.began (.mine n) d ∈ log) (fun n hn => absurd hn (hno n)) h.began
      invol := hm (P := fun t => ∀ n r, t.trid = some (.mine n) → touched log r (.mine n) → r ∈ t.involved) (fun n _ hn => absurd hn (hno n)) h.invol
      sub := hm (P := fun t => ∀ r ∈ t.involved, r ∈ e.all) h3 h.sub
      ext := hm (P := fun t => ∀ n, t.trid = some (.mine n) → ∀ ev ∈ log, leaves (.mine n) ev = true → t.external = true) (fun n hn => absurd hn (hno n)) h.ext
      freshP := hm (P := fun t => ∀ corr ∈ t.pending, corr < ncorr) (by rw [h5]; intro c hc; cases hc) h.freshP
      pend := hm (P := fun t => ∀ n corr, t.trid = some (.mine n) → Event.call corr (.mine n) ∈ log → corr ∈ out → corr ∈ t.pending) (fun n _ hn => absurd hn (hno n)) h.pend
      pend' := hm (P := fun t => ∀ n corr, t.trid = some (.mine n) → Event.call corr (.mine n) ∈ log → corr ∈ t.pending ∨ ∃ st, Event.replied corr st ∈ log) (fun n _ hn => absurd hn (hno n)) h.pend'
      ownC := hm (P := fun t => ∀ corr x, corr ∈ t.pending → Event.call corr x ∈ log → t.trid = some x) (by rw [h5]; intro c _ hc; cases hc) h.ownC
      st := hm (P := fun t => ∀ n corr s, t.trid = some (.mine n) → Event.call corr (.mine n) ∈ log → Event.replied corr s ∈ log → s ≤ t.state) (fun n _ _ hn => absurd hn (hno n)) h.st }

theorem InvL.bump (h : InvL e ts next ncorr out log) : InvL e ts (next + 1) ncorr out log :=
  { h with
    freshT := fun t ht n hn => Nat.lt_succ_of_lt (h.freshT t ht n hn)
    freshL := fun ev hev n hn => Nat.lt_succ_of_lt (h.freshL ev hev n hn) }

theorem not_about {x : Xid} {ev : Event} (h : ¬ about x ev) :
    commits x ev = false ∧ rollsBack x ev = false ∧ leaves x ev = false ∧
    ∀ r, touches r x ev = false := by
  simp only [about, not_or, not_exists, Bool.not_eq_true] at h
  exact ⟨h.1, h.2.1, h.2.2.1, h.2.2.2⟩

/-- A new transaction of this process. -/
theorem InvL.pushMine {t : Tran} {d : Option Time} (h : InvL e ts next ncorr out log)
    (h1 : t.trid = some (.mine next))
    (h3 : ∀ r ∈ t.involved, r ∈ e.all) (h5 : t.pending = []) :
    InvL e (t :: ts) (next + 1) ncorr out (.began (.mine next) d :: log) := by
  have hb : InvL e ts (next + 1) ncorr out (.began (.mine next) d :: log) :=
    h.bump.add (Addable.neutral rfl)
  have hfr : ∀ ev ∈ Event.began (.mine next) d :: log, ¬ about (.mine next) ev := by
    intro ev hev hab
    rcases List.mem_cons.mp hev with rfl | hev
    · simp [about, commits, rollsBack, leaves, touches] at hab
    · exact Nat.lt_irrefl _ (h.freshL _ hev _ hab)
  have hn : ∀ n, t.trid = some (.mine n) → n = next := by
    intro n hn; rw [h1] at hn; injection hn with hn; injection hn with hn; exact hn.symm
  have hcall : ∀ corr, Event.call corr (.mine next) ∉ Event.began (.mine next) d :: log := by
    intro corr hc
    exact hfr _ hc (by simp [about, leaves])
  have hm : ∀ {P : Tran → Prop}, P t → (∀ u ∈ ts, P u) → ∀ u ∈ t :: ts, P u := by
    intro P hP hall u hu
    rcases List.mem_cons.mp hu with rfl | hu
    · exact hP
    · exact hall _ hu
  exact
    { hb with
      freshT := hm (P := fun t => ∀ n, t.trid = some (.mine n) → n < next + 1)
        (fun n hh => by rw [hn n hh]; exact Nat.lt_succ_self _) hb.freshT
      nodup := by
        have : mineOf t = some next := mineOf_some.mpr h1
        rw [List.filterMap_cons, this]
        refine List.nodup_cons.mpr ⟨?_, h.nodup⟩
        intro hmem
        obtain ⟨u, hu, hu'⟩ := List.mem_filterMap.mp hmem
        exact Nat.lt_irrefl _ (h.freshT u hu _ (mineOf_some.mp hu'))
      undec := hm (P := fun t => ∀ n, t.trid = some (.mine n) → ∀ ev ∈ _, commits (.mine n) ev = false ∧ rollsBack (.mine n) ev = false)
        (fun n hh ev hev => by
          rw [hn n hh]
          have := not_about (hfr ev hev)
          exact ⟨this.1, this.2.1⟩) hb.undec
      began := hm (P := fun t => ∀ n, t.trid = some (.mine n) → ∃ d', Event.began (.mine n) d' ∈ _)
        (fun n hh => by rw [hn n hh]; exact ⟨d, List.mem_cons_self⟩) hb.began
      invol := hm (P := fun t => ∀ n r, t.trid = some (.mine n) → touched _ r (.mine n) → r ∈ t.involved)
        (fun n r hh ht => by
          rw [hn n hh] at ht
          obtain ⟨ev, hev, ht⟩ := ht
          have := (not_about (hfr ev hev)).2.2.2 r
          rw [this] at ht; cases ht) hb.invol
      sub := hm (P := fun t => ∀ r ∈ t.involved, r ∈ e.all) h3 hb.sub
      ext := hm (P := fun t => ∀ n, t.trid = some (.mine n) → ∀ ev ∈ _, leaves (.mine n) ev = true → t.external = true)
        (fun n hh ev hev hl => by
          rw [hn n hh] at hl
          rw [(not_about (hfr ev hev)).2.2.1] at hl; cases hl) hb.ext
      freshP := hm (P := fun t => ∀ corr ∈ t.pending, corr < ncorr) (by rw [h5]; intro c hc; cases hc) hb.freshP
      pend := hm (P := fun t => ∀ n corr, t.trid = some (.mine n) → Event.call corr (.mine n) ∈ _ → corr ∈ out → corr ∈ t.pending)
        (fun n corr hh hc => by rw [hn n hh] at hc; exact absurd hc (hcall corr)) hb.pend
      pend' := hm (P := fun t => ∀ n corr, t.trid = some (.mine n) → Event.call corr (.mine n) ∈ _ → corr ∈ t.pending ∨ ∃ st, Event.replied corr st ∈ _)
        (fun n corr hh hc => by rw [hn n hh] at hc; exact absurd hc (hcall corr)) hb.pend'
      ownC := hm (P := fun t => ∀ corr x, corr ∈ t.pending → Event.call corr x ∈ _ → t.trid = some x) (by rw [h5]; intro c _ hc; cases hc) hb.ownC
      st := hm (P := fun t => ∀ n corr s, t.trid = some (.mine n) → Event.call corr (.mine n) ∈ _ → Event.replied corr s ∈ _ → s ≤ t.state)
        (fun n corr _ hh hc => by rw [hn n hh] at hc; exact absurd hc (hcall corr)) hb.st }

theorem eq_of_trid {t u : Tran} (h : InvL e ts next ncorr out log) (ht : t ∈ ts) (hu : u ∈ ts)
    {n : Nat} (h1 : t.trid = some (.mine n)) (h2 : u.trid = some (.mine n)) : t = u := by
  have hnd := h.nodup
  clear h
  induction ts with
  | nil => cases ht
  | cons a l ih =>
    rcases List.mem_cons.mp ht with rfl | ht' <;> rcases List.mem_cons.mp hu with rfl | hu'
    · rfl
    · exfalso
      rw [List.filterMap_cons, mineOf_some.mpr h1] at hnd
      exact (List.nodup_cons.mp hnd).1 (List.mem_filterMap.mpr ⟨u, hu', mineOf_some.mpr h2⟩)
    · exfalso
      rw [List.filterMap_cons, mineOf_some.mpr h2] at hnd
      exact (List.nodup_cons.mp hnd).1 (List.mem_filterMap.mpr ⟨t, ht', mineOf_some.mpr h1⟩)
    · exact ih ht' hu' (hnd.sublist ((List.sublist_cons_self a l).filterMap mineOf))

/-- The head and the rest have different ids. -/
theorem InvL.head_ne {t : Tran} (h : InvL e (t :: ts) next ncorr out log) {n : Nat}
    (h1 : t.trid = some (.mine n)) : ∀ u ∈ ts, u.trid ≠ some (.mine n) := by
  intro u hu h2
  have hnd := h.nodup
  rw [List.filterMap_cons, mineOf_some.mpr h1] at hnd
  exact (List.nodup_cons.mp hnd).1 (List.mem_filterMap.mpr ⟨u, hu, mineOf_some.mpr h2⟩)

end
end Casual.Tx

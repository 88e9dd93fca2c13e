import Verif.Tx.Props2
/-!
C85: no transaction begun by the process is forgotten.
-/
namespace Casual.Tx
open Casual.Code

/-- A decision about `x` has been carried out or asked for: a commit, a rollback request to the
transaction manager, a rollback in a resource manager, or a local rollback (which has no event
of its own when there are no resources). -/
def decided (log : List Event) (x : Xid) : Prop :=
  ∃ ev ∈ log, commits x ev = true ∨ rollsBack x ev = true ∨ ev = .rolledBack x

def onStack (x : Xid) (c : Ctx) : Prop := ∃ t ∈ c.stack, t.trid = some x

/-- From `c` to `c'` no transaction of this process is lost. -/
def Carry (c c' : Ctx) : Prop :=
  ∃ evs, c'.log = evs ++ c.log ∧
    (∀ x d, Event.began x d ∈ evs → ∃ n, x = .mine n ∧ (onStack x c' ∨ decided c'.log x)) ∧
    (∀ n, onStack (.mine n) c → onStack (.mine n) c' ∨ decided c'.log (.mine n))

theorem decided_mono {log evs : List Event} {x : Xid} (h : decided log x) : decided (evs ++ log) x := by
  obtain ⟨ev, h1, h2⟩ := h
  exact ⟨ev, List.mem_append_right _ h1, h2⟩

theorem Carry.refl (c : Ctx) : Carry c c := ⟨[], rfl, by simp, fun _ h => Or.inl h⟩

theorem Carry.trans {a b c : Ctx} (h1 : Carry a b) (h2 : Carry b c) : Carry a c := by
  obtain ⟨e1, l1, b1, s1⟩ := h1
  obtain ⟨e2, l2, b2, s2⟩ := h2
  refine ⟨e2 ++ e1, by rw [l2, l1, List.append_assoc], ?_, ?_⟩
  · intro x d hm
    rcases List.mem_append.mp hm with hm | hm
    · exact b2 x d hm
    · obtain ⟨n, rfl, h⟩ := b1 x d hm
      refine ⟨n, rfl, ?_⟩
      rcases h with h | h
      · exact s2 n h
      · exact Or.inr (by rw [l2]; exact decided_mono h)
  · intro n hn
    rcases s1 n hn with h | h
    · exact s2 n h
    · exact Or.inr (by rw [l2]; exact decided_mono h)

/-- Nothing is begun, nothing leaves the stack. -/
theorem Carry.same {c c' : Ctx} {evs : List Event} (hl : c'.log = evs ++ c.log)
    (hb : ∀ x d, Event.began x d ∉ evs) (hs : ∀ n, onStack (.mine n) c → onStack (.mine n) c') : Carry c c' :=
  ⟨evs, hl, fun x d hm => absurd hm (hb x d), fun n h => Or.inl (hs n h)⟩

theorem Carry.emit {c : Ctx} {ev : Event} (h : ∀ x d, ev ≠ .began x d) : Carry c (emit ev c) :=
  Carry.same (evs := [ev]) rfl (fun x d hm => by rw [List.mem_singleton] at hm; exact h x d hm.symm) (fun _ h => h)

theorem Carry.ofExtends {c c' : Ctx} {p : Event → Prop} (h : Extends p c c')
    (hp : ∀ x d, ¬ p (.began x d)) : Carry c c' := by
  obtain ⟨evs, h1, h2⟩ := h
  rw [h2]
  exact Carry.same rfl (fun x d hm => hp x d (h1 _ hm)) (fun _ h => h)

theorem Carry.stop (e : Env) (x f rs c) : Carry c (stopAll e x f rs c).1 :=
  Carry.ofExtends (stopAll_extends e x f rs c) (by rintro y d ⟨r, k, he⟩; cases he)

theorem Carry.startAll (e : Env) (x f a rs c) : Carry c (startAll e x f a rs c).1 :=
  Carry.ofExtends (startAll_extends e x f a rs c) (by rintro y d ⟨r, f, k, _, he⟩; cases he)

theorem Carry.setCurrent {c : Ctx} {f : Tran → Tran} (hf : ∀ t, (f t).trid = t.trid) :
    Carry c (setCurrent f c) := by
  refine Carry.same (evs := []) (by rw [setCurrent_log]; rfl) (by simp) ?_
  rintro n ⟨t, ht, htx⟩
  unfold Tx.setCurrent
  split
  · exact ⟨t, ht, htx⟩
  · rename_i u us hst
    split
    · exact ⟨t, ht, htx⟩
    · rw [hst] at ht
      rcases List.mem_cons.mp ht with rfl | ht
      · exact ⟨f t, List.mem_cons_self, by rw [hf]; exact htx⟩
      · exact ⟨t, List.mem_cons_of_mem _ ht, htx⟩

/-- Fields the notion does not depend on. -/
theorem Carry.fields {c c' : Ctx} (h1 : c'.stack = c.stack) (h2 : c'.log = c.log) : Carry c c' :=
  Carry.same (evs := []) (by rw [h2]; rfl) (by simp) (fun n ⟨t, ht, htx⟩ => ⟨t, by rw [h1]; exact ht, htx⟩)

theorem Carry.push {c c' : Ctx} {t : Tran} (h1 : c'.stack = t :: c.stack) (h2 : c'.log = c.log) : Carry c c' :=
  Carry.same (evs := []) (by rw [h2]; rfl) (by simp)
    (fun n ⟨u, hu, hux⟩ => ⟨u, by rw [h1]; exact List.mem_cons_of_mem _ hu, hux⟩)

/-- A new transaction. -/
theorem Carry.new {c c' : Ctx} {t : Tran} {n : Nat} {d : Option Time} {evs : List Event}
    (h1 : c'.stack = t :: c.stack) (ht : t.trid = some (.mine n))
    (h2 : c'.log = evs ++ .began (.mine n) d :: c.log) (h3 : ∀ x d, Event.began x d ∉ evs) : Carry c c' := by
  refine ⟨evs ++ [.began (.mine n) d], by rw [h2]; simp, ?_, ?_⟩
  · intro x d' hm
    rcases List.mem_append.mp hm with hm | hm
    · exact absurd hm (h3 x d')
    · rw [List.mem_singleton] at hm
      cases hm
      exact ⟨n, rfl, Or.inl ⟨t, by rw [h1]; exact List.mem_cons_self, ht⟩⟩
  · rintro m ⟨u, hu, hux⟩
    exact Or.inl ⟨u, by rw [h1]; exact List.mem_cons_of_mem _ hu, hux⟩

theorem began_not_xa {l : List Rm} {g : Rm → Op} (x : Xid) (d : Option Time) :
    Event.began x d ∉ (l.map fun r => Event.xa (g r) .ok).reverse := by
  intro hm
  rw [List.mem_reverse, List.mem_map] at hm
  obtain ⟨_, _, he⟩ := hm
  cases he

theorem Carry.beginNew {e : Env} (he : e.Willing) (now : Time) (c : Ctx) : Carry c (beginNew e now c).1 := by
  unfold Tx.beginNew
  dsimp only
  rw [beginStart_willing he, if_pos (by simp)]
  refine Carry.new (n := c.next) (t := (newTran c.next (deadlineOf now c.timeout)).involve e.fixed) rfl rfl
    (evs := (e.fixed.map fun r => Event.xa (.start r (.mine c.next) .none) .ok).reverse) rfl
    (fun x d => began_not_xa x d)

theorem Carry.begin {e : Env} (he : e.Willing) (now : Time) (c : Ctx) : Carry c (begin e now c).1 := by
  unfold Tx.begin
  split
  · split
    · exact Carry.refl c
    · dsimp only
      split
      · exact Carry.stop _ _ _ _ _
      · exact (Carry.stop _ _ _ _ _).trans (Carry.beginNew he now _)
  · split
    · exact Carry.refl c
    · exact Carry.beginNew he now c

theorem Carry.resumeCurrent (e : Env) (a : List Rm) (c : Ctx) : Carry c (resumeCurrent e a c).1 := by
  unfold Tx.resumeCurrent
  split
  · exact Carry.refl c
  · split
    · exact Carry.refl c
    · exact (Carry.setCurrent (f := (·.involve a)) (fun _ => rfl)).trans (Carry.startAll _ _ _ _ _ _)

theorem Carry.continuation {e : Env} (he : e.Willing) (now : Time) (s : Ctx × Tx) :
    Carry s.1 (continuation e now s).1 := by
  unfold Tx.continuation
  split
  · exact Carry.refl _
  · exact Carry.begin he now _
  · exact Carry.resumeCurrent _ _ _

/-! ### the decisions -/

theorem commitT_extends (e : Env) (t : Tran) (c : Ctx) :
    Extends (fun ev => ∀ x d, ev ≠ .began x d) c (commitT e t c).1 := by
  unfold commitT
  split
  · exact Extends.refl c
  · rename_i x _
    dsimp only
    have h1 : Extends (fun ev => ∀ x d, ev ≠ Event.began x d) c (stopAll e x .success t.involved c).1 :=
      (stopAll_extends e x .success t.involved c).mono (by rintro ev ⟨r, k, rfl⟩ y d he; cases he)
    split
    · exact h1
    · split
      · split
        · exact h1.trans (Extends.emit (by intro y d he; cases he))
        · unfold resourceCommit
          split
          · exact h1.trans (Extends.emit (by intro y d he; cases he))
          · exact h1
      · exact h1.trans (Extends.emit (by intro y d he; cases he))

theorem rollbackT_extends (e : Env) (t : Tran) (c : Ctx) :
    Extends (fun ev => ∀ x d, ev ≠ .began x d) c (rollbackT e t c).1 := by
  unfold rollbackT
  split
  · exact Extends.refl c
  · rename_i x _
    dsimp only
    have h1 : Extends (fun ev => ∀ x d, ev ≠ Event.began x d) c (stopAll e x .success t.involved c).1 :=
      (stopAll_extends e x .success t.involved c).mono (by rintro ev ⟨r, k, rfl⟩ y d he; cases he)
    split
    · exact h1
    · split
      · refine Extends.trans (b := (accum (resourceRollback e x) _ _).1) ?_ (Extends.emit (by intro y d he; cases he))
        refine h1.trans (accum_extends ?_ _ _)
        intro r _ c'
        unfold resourceRollback
        split
        · exact Extends.emit (by intro y d he; cases he)
        · exact Extends.refl _
      · exact h1.trans (Extends.emit (by intro y d he; cases he))

theorem commitT_decides {e : Env} (he : e.Willing) {t : Tran} {x : Xid} (hx : t.trid = some x)
    (hsub : ∀ r ∈ t.involved, r ∈ e.all) (c : Ctx) : decided (commitT e t c).1.log x := by
  unfold commitT
  rw [hx]
  dsimp only
  rw [stopAll_willing he, if_neg (by simp)]
  split
  · split
    · exact ⟨_, List.mem_cons_self, Or.inl (by simp [commits])⟩
    · rename_i r l hin
      unfold resourceCommit
      rw [if_pos (hsub r (by rw [hin]; exact List.mem_cons_self))]
      exact ⟨_, List.mem_cons_self, Or.inl (by simp [commits])⟩
  · exact ⟨_, List.mem_cons_self, Or.inl (by simp [commits])⟩

theorem rollbackT_decides {e : Env} (he : e.Willing) {t : Tran} {x : Xid} (hx : t.trid = some x)
    (c : Ctx) : decided (rollbackT e t c).1.log x := by
  unfold rollbackT
  rw [hx]
  dsimp only
  rw [stopAll_willing he, if_neg (by simp)]
  split
  · exact ⟨_, List.mem_cons_self, Or.inr (Or.inr rfl)⟩
  · exact ⟨_, List.mem_cons_self, Or.inr (Or.inl (by simp [rollsBack]))⟩

/-- The current transaction leaves the stack and is decided. -/
theorem Carry.popDecided {c c' : Ctx} {t : Tran} {ts : List Tran} {x : Xid} (hst : c.stack = t :: ts)
    (hx : t.trid = some x) (hc : Extends (fun ev => ∀ x d, ev ≠ .began x d) (pop c) c')
    (hd : decided c'.log x) : Carry c c' := by
  obtain ⟨evs, h1, h2⟩ := hc
  have hst' : c'.stack = ts := by rw [h2]; show c.stack.tail = ts; rw [hst]; rfl
  refine ⟨evs, by rw [h2]; rfl, fun y d hm => absurd rfl (h1 _ hm y d), ?_⟩
  rintro n ⟨u, hu, hux⟩
  rw [hst] at hu
  rcases List.mem_cons.mp hu with rfl | hu
  · rw [hx] at hux; cases hux
    exact Or.inr hd
  · exact Or.inl ⟨u, by rw [hst']; exact hu, hux⟩

theorem Carry.commit {e : Env} (he : e.Willing) {c : Ctx} (hw : W e c) (now : Time) :
    Carry c (commit e now c).1 := by
  unfold Tx.commit
  split
  · exact Carry.refl c
  · rename_i hp
    obtain ⟨_, _, _, x, hx⟩ := commitPre_ok (Classical.not_not.mp hp)
    obtain ⟨t, ts, hst, hsu, hct, htx⟩ := current_some hw.emp hx
    refine Carry.trans ?_ (Carry.continuation he now _)
    rw [hct]
    exact Carry.popDecided hst htx (commitT_extends e t (pop c))
      (commitT_decides he htx (hw.inv.sub t (by rw [hst]; exact List.mem_cons_self)) _)

theorem Carry.rollback {e : Env} (he : e.Willing) {c : Ctx} (hw : W e c) (now : Time) :
    Carry c (rollback e now c).1 := by
  unfold Tx.rollback
  split
  · exact Carry.refl c
  · rename_i hp
    obtain ⟨_, x, hx⟩ := rollbackPre_ok (Classical.not_not.mp hp)
    obtain ⟨t, ts, hst, hsu, hct, htx⟩ := current_some hw.emp hx
    refine Carry.trans ?_ (Carry.continuation he now _)
    rw [hct]
    exact Carry.popDecided hst htx (rollbackT_extends e t (pop c)) (rollbackT_decides he htx _)

theorem finalize_decides {e : Env} (he : e.Willing) (ok : Bool) : ∀ (l : List Tran) (c : Ctx) (k : Tx),
    (∀ t ∈ l, ∀ r ∈ t.involved, r ∈ e.all) →
    Extends (fun ev => ∀ x d, ev ≠ .began x d) c (accum (commitOrRollback e ok) l (c, k)).1 ∧
    ∀ t ∈ l, ∀ x, t.trid = some x → decided (accum (commitOrRollback e ok) l (c, k)).1.log x
  | [], c, k, _ => ⟨Extends.refl c, by simp⟩
  | t :: l, c, k, hs => by
    unfold accum
    have h1 : Extends (fun ev => ∀ x d, ev ≠ .began x d) c (commitOrRollback e ok t c).1 := by
      unfold commitOrRollback
      split
      · exact commitT_extends e t c
      · exact rollbackT_extends e t c
    obtain ⟨h2, h3⟩ := finalize_decides he ok l (commitOrRollback e ok t c).1 (k.add (commitOrRollback e ok t c).2)
      (fun u hu => hs u (List.mem_cons_of_mem _ hu))
    refine ⟨h1.trans h2, ?_⟩
    intro u hu x hx
    rcases List.mem_cons.mp hu with rfl | hu
    · have hd : decided (commitOrRollback e ok u c).1.log x := by
        unfold commitOrRollback
        split
        · exact commitT_decides he hx (hs u List.mem_cons_self) c
        · exact rollbackT_decides he hx c
      obtain ⟨evs, _, h4⟩ := h2
      rw [h4]
      exact decided_mono hd
    · exact h3 u hu x hx

theorem Carry.finalize {e : Env} (he : e.Willing) {c : Ctx} (hw : W e c) (ok : Bool) :
    Carry c (finalize e ok c).1 := by
  have hl := finalize_decides he ok ((c.stack.reverse.filter (fun t => t.trid.isSome)).filter (·.own))
    (discardAll c.stack.reverse { c with stack := [] }) .ok (by
      intro t ht
      exact hw.inv.sub t (List.mem_reverse.mp (List.mem_filter.mp (List.mem_filter.mp ht).1).1))
  obtain ⟨h1, h2⟩ := hl
  have hd : Extends (fun ev => ∀ x d, ev ≠ Event.began x d) { c with stack := [] }
      (discardAll c.stack.reverse { c with stack := [] }) := by
    refine ⟨_, ?_, rfl⟩
    intro ev hev x d he
    rw [List.mem_reverse, List.mem_map] at hev
    obtain ⟨_, _, h⟩ := hev
    rw [← h] at he; cases he
  have h3 := hd.trans h1
  have hc : Carry c (accum (commitOrRollback e ok)
        ((c.stack.reverse.filter (fun t => t.trid.isSome)).filter (·.own))
        (discardAll c.stack.reverse { c with stack := [] }, .ok)).1 := by
    obtain ⟨evs, h4, h5⟩ := h3
    refine ⟨evs, by rw [h5], fun y d hm => absurd rfl (h4 _ hm y d), ?_⟩
    rintro n ⟨t, ht, htx⟩
    right
    refine h2 t ?_ _ htx
    exact List.mem_filter.mpr ⟨List.mem_filter.mpr ⟨List.mem_reverse.mpr ht, by rw [htx]; rfl⟩, own_iff.mpr ⟨n, htx⟩⟩
  unfold Tx.finalize
  dsimp only
  split
  · exact hc
  · split
    · exact hc
    · exact hc.trans (Carry.stop _ _ _ _ _)

/-! ### the rest -/

theorem Carry.call (b : Bool) (c : Ctx) : Carry c (call b c) := by
  unfold Tx.call
  dsimp only
  have h0 : Carry c { c with nextCorr := c.nextCorr + 1, outstanding := c.outstanding ++ [c.nextCorr] } :=
    Carry.fields rfl rfl
  split
  · split
    · exact h0
    · rename_i x _ _
      exact (h0.trans (Carry.setCurrent (f := (·.associate c.nextCorr)) (fun _ => rfl))).trans (Carry.emit (ev := .call c.nextCorr x) (by intro x d h; cases h))
  · exact h0

theorem Carry.callFails (b : Bool) (c : Ctx) : Carry c (callFails b c) := by
  unfold Tx.callFails
  dsimp only
  have h0 : Carry c { c with nextCorr := c.nextCorr + 1 } := Carry.fields rfl rfl
  split
  · split
    · exact h0
    · exact h0.trans (Carry.setCurrent (f := (·.associate c.nextCorr)) (fun _ => rfl))
  · exact h0

theorem Carry.reply (corr st : Nat) (c : Ctx) : Carry c (reply corr st c) := by
  have hsig := reply_sig corr st c
  have hs : ∀ n, onStack (.mine n) c → onStack (.mine n) (Tx.reply corr st c) := by
    rintro n ⟨t, ht, htx⟩
    obtain ⟨u, hu, he⟩ := mem_of_sig hsig.symm ht
    simp only [sig, Prod.mk.injEq] at he
    exact ⟨u, hu, by rw [he.1]; exact htx⟩
  by_cases hc : corr ∈ c.outstanding
  · refine Carry.same (evs := [.replied corr st]) ?_ (by simp) hs
    unfold Tx.reply
    rw [if_pos hc]; rfl
  · refine Carry.same (evs := []) ?_ (by simp) hs
    unfold Tx.reply
    rw [if_neg hc]; rfl

theorem Carry.callAndReply (b : Bool) (st : Option Nat) (c : Ctx) : Carry c (callAndReply b st c) := by
  unfold Tx.callAndReply
  split
  · exact (Carry.call b c).trans (Carry.reply _ _ _)
  · exact Carry.callFails b c

theorem Carry.step {e : Env} (he : e.Willing) {c : Ctx} (hw : W e c) (a : Act) : Carry c (step e c a) := by
  cases a with
  | begin now => exact Carry.begin he now c
  | commit now => exact Carry.commit he hw now
  | rollback now => exact Carry.rollback he hw now
  | suspend =>
    show Carry c (Tx.suspend e c).1
    unfold Tx.suspend
    split
    · exact Carry.refl c
    · rename_i x _
      dsimp only
      have : Carry c (stopAll e x .suspend (current c).involved (Tx.setCurrent (fun t => { t with suspended := true }) c)).1 :=
        (Carry.setCurrent (f := fun t => { t with suspended := true }) (fun _ => rfl)).trans (Carry.stop e x .suspend (current c).involved _)
      split <;> exact this
  | resume x =>
    show Carry c (Tx.resume e x c).1
    unfold Tx.resume
    split
    · exact Carry.refl c
    split
    · exact Carry.refl c
    split
    · exact Carry.refl c
    split
    · exact Carry.refl c
    rename_i x _ _ _ pre t post hsp
    split
    · exact Carry.refl c
    obtain ⟨hrev, htx⟩ := splitAt_some hsp
    have hst : ∀ u : Tran, u ∈ c.stack → u = t ∨ u ∈ post ++ pre := by
      intro u hu
      rw [← List.mem_reverse, hrev] at hu
      rcases List.mem_append.mp hu with h | h
      · exact Or.inr (List.mem_append_right _ h)
      · rcases List.mem_cons.mp h with h | h
        · exact Or.inl h
        · exact Or.inr (List.mem_append_left _ h)
    have hstk : ∀ (v : Tran) (l : List Tran), v.trid = t.trid → (∀ u, u = v ∨ u ∈ post ++ pre → u ∈ l) →
        ∀ n, onStack (.mine n) c → ∃ u ∈ l, u.trid = some (.mine n) := by
      rintro v l hv hl n ⟨u, hu, hux⟩
      rcases hst u hu with rfl | h
      · exact ⟨v, hl v (Or.inl rfl), by rw [hv]; exact hux⟩
      · exact ⟨u, hl u (Or.inr h), hux⟩
    have hrot : ∀ v u : Tran, u = v ∨ u ∈ post ++ pre → u ∈ (post ++ pre ++ [v]).reverse := by
      intro v u h
      rw [List.mem_reverse]
      rcases h with rfl | h
      · exact List.mem_append_right _ (List.mem_singleton.mpr rfl)
      · exact List.mem_append_left _ h
    have hmid : ∀ v u : Tran, u = v ∨ u ∈ post ++ pre → u ∈ (pre ++ v :: post).reverse := by
      intro v u h
      rw [List.mem_reverse]
      rcases h with rfl | h
      · exact List.mem_append_right _ List.mem_cons_self
      · rcases List.mem_append.mp h with h | h
        · exact List.mem_append_right _ (List.mem_cons_of_mem _ h)
        · exact List.mem_append_left _ h
    dsimp only
    split
    · exact Carry.same (evs := []) rfl (by simp) (hstk { t with suspended := false } _ rfl (hrot _))
    · obtain ⟨evs, h1, h2⟩ := startAll_extends e x .resume e.fixed
        (({ t with suspended := false } : Tran).involve e.fixed).involved
        { c with stack := (pre ++ ({ t with suspended := false } : Tran).involve e.fixed :: post).reverse }
      have hb : ∀ x d, Event.began x d ∉ evs := by
        intro x d hm
        obtain ⟨_, _, _, _, h⟩ := h1 _ hm
        cases h
      split
      · rw [h2]
        exact Carry.same (evs := evs) rfl hb (hstk (({ t with suspended := false } : Tran).involve e.fixed) _ rfl (hmid _))
      · rw [h2]
        exact Carry.same (evs := evs) rfl hb (hstk (({ t with suspended := false } : Tran).involve e.fixed) _ rfl (hrot _))
  | setControl k => exact Carry.fields rfl rfl
  | setReturn l => exact Carry.fields rfl rfl
  | setTimeout t =>
    show Carry c (Tx.setTimeout t c).1
    unfold Tx.setTimeout
    split
    · exact Carry.refl c
    · exact Carry.fields rfl rfl
  | reg r =>
    show Carry c (register e r c).1
    unfold register
    split
    · exact Carry.refl c
    split
    · exact Carry.refl c
    have h1 : Carry c (Tx.setCurrent (fun t => { t with dynamic := addUnique t.dynamic r }) c) :=
      Carry.setCurrent (fun _ => rfl)
    dsimp only
    split
    · exact h1
    · rename_i x _
      have h2 := h1.trans (Carry.emit (ev := .reg r x) (by intro y d h; cases h))
      split
      · exact h2
      · have h3 := h2.trans (Carry.setCurrent (f := (·.involve [r])) (fun _ => rfl))
        split
        · exact h3
        · exact h3.trans (Carry.emit (by intro y d h; cases h))
  | unreg r =>
    show Carry c (unregister r c).1
    unfold unregister
    split
    · exact Carry.refl c
    split
    · exact Carry.refl c
    · exact Carry.setCurrent (f := fun t => { t with dynamic := t.dynamic.erase r }) (fun _ => rfl)
  | join n =>
    show Carry c (Tx.join e _ c).1
    unfold Tx.join
    split
    · exact Carry.push rfl rfl
    · rename_i x _
      split
      · exact Carry.push rfl rfl
      · dsimp only
        rw [accum_starts he x
          (fun r => if r ∈ e.involved (Tx.emit (Event.involve x e.fixed) c).log x then Flag.join else Flag.none)
          (fun _ => true) _ (fun r c => by simp)]
        refine Carry.same (evs := _ ++ [.involve x e.fixed]) (by simp [Tx.emit]; rfl) ?_
          (fun n ⟨u, hu, hux⟩ => ⟨u, List.mem_cons_of_mem _ hu, hux⟩)
        intro y d hm
        rcases List.mem_append.mp hm with hm | hm
        · rw [List.mem_reverse, List.mem_map] at hm
          obtain ⟨_, _, h⟩ := hm
          cases h
        · rw [List.mem_singleton] at hm; cases hm
  | start =>
    show Carry c (Tx.start e c).1
    unfold Tx.start
    dsimp only
    rw [startAll_willing he, if_neg (by simp)]
    exact Carry.new (n := c.next) (d := none) (t := (newTran c.next none).involve e.fixed) rfl rfl rfl
      (fun x d => began_not_xa x d)
  | branch n =>
    show Carry c (Tx.branch e n c).1
    unfold Tx.branch
    dsimp only
    split
    · exact Carry.push rfl rfl
    · refine Carry.trans ?_ (Carry.startAll _ _ _ _ _ _)
      refine Carry.trans ?_ (Carry.emit (by intro y d h; cases h))
      exact Carry.push rfl rfl
  | call b => exact Carry.call b c
  | reply corr st => exact Carry.reply corr st c
  | cancel corr =>
    show Carry c (Tx.cancel corr c).1
    unfold Tx.cancel
    split
    · exact Carry.refl c
    split
    · exact Carry.refl c
    · exact Carry.same (evs := [.discard corr]) rfl (by simp) (fun _ h => h)
  | callFails b => exact Carry.callFails b c
  | sync b st =>
    show Carry c (Tx.sync e b st c).1
    unfold Tx.sync
    split
    · rename_i x _
      have h0 : Carry c (if (current c).involved ≠ [] then Tx.emit (.involve x (current c).involved) c else c) := by
        split
        · exact Carry.emit (by intro y d h; cases h)
        · exact Carry.refl c
      generalize (if (current c).involved ≠ [] then Tx.emit (.involve x (current c).involved) c else c) = c0 at h0 ⊢
      dsimp only
      have h1 := h0.trans (Carry.stop e x .suspend (current c).involved c0)
      split
      · exact h1
      · exact (h1.trans (Carry.callAndReply _ _ _)).trans (Carry.resumeCurrent _ _ _)
    · exact Carry.callAndReply _ _ _
  | external =>
    show Carry c (Tx.external c)
    unfold Tx.external
    split
    · exact (Carry.setCurrent (f := fun t => { t with external := true }) (fun _ => rfl)).trans (Carry.emit (by intro y d h; cases h))
    · exact Carry.refl c
  | finalize ok => exact Carry.finalize he hw ok

/-- The claim, for every behaviour of the resource managers: a transaction this process has begun
is still there, or a decision has been made. -/
def NotForgotten : Prop :=
  ∀ (e : Env) (as : List Act) (x : Xid) (d : Option Time), Event.began x d ∈ (run e as).log →
    onStack x (run e as) ∨ decided (run e as).log x

/-- `xa_end` tells that resource 1 has rolled back its branch. -/
def rbEnv : Env :=
  { okEnv [1, 2] [] with
    xa := fun _ op => match op with
      | .stop 1 _ .success => .rollback_deadlock
      | _ => .ok }

/-- C85 does not hold: when `xa_end` fails in `tx_commit` (or `tx_rollback`) the transaction is
removed, but neither the resource managers nor the transaction manager are told: the work
done in resource 2 is neither committed nor rolled back. -/
theorem C85_refuted : ¬ NotForgotten ∧
    (let c := run rbEnv [.begin 0, .rollback 1]
     c.stack = [] ∧ ∀ ev ∈ c.log, rollsBack (.mine 0) ev = false ∧ commits (.mine 0) ev = false ∧ ev ≠ .rolledBack (.mine 0)) := by
  refine ⟨?_, by decide +kernel⟩
  intro h
  rcases h rbEnv [.begin 0, .commit 1] (.mine 0) none (by decide +kernel) with ⟨t, ht, _⟩ | h
  · have : (run rbEnv [.begin 0, .commit 1]).stack = [] := by decide +kernel
    rw [this] at ht; cases ht
  · obtain ⟨ev, hev, h⟩ := h
    have : ∀ ev ∈ (run rbEnv [.begin 0, .commit 1]).log, ¬ (commits (.mine 0) ev = true ∨ rollsBack (.mine 0) ev = true ∨ ev = .rolledBack (.mine 0)) := by
      decide +kernel
    exact this ev hev h

/-- C85, what holds: when `xa_start` and `xa_end` succeed, every transaction this process has begun
is still in the context, or has been decided. For every history. -/
theorem C85_not_forgotten_partial (e : Env) (he : e.Willing) (as : List Act) (x : Xid) (d : Option Time)
    (h : Event.began x d ∈ (run e as).log) : onStack x (run e as) ∨ decided (run e as).log x := by
  have key : ∀ (as : List Act) (c : Ctx), W e c → Carry c (as.foldl (step e) c) := by
    intro as
    induction as with
    | nil => intro c _; exact Carry.refl c
    | cons a as ih => intro c hw; exact (Carry.step he hw a).trans (ih _ (hw.step a))
  obtain ⟨evs, h1, h2, _⟩ := key as {} (W.init e)
  have : Event.began x d ∈ evs := by
    unfold run at h
    rw [h1] at h
    simpa using h
  obtain ⟨n, _, h3⟩ := h2 x d this
  exact h3

/-- C85, at the end of a service: everything it has begun is decided. -/
theorem C85_service_end_partial (e : Env) (he : e.Willing) (as : List Act) (ok : Bool) (x : Xid) (d : Option Time)
    (h : Event.began x d ∈ (run e (as ++ [.finalize ok])).log) : decided (run e (as ++ [.finalize ok])).log x := by
  rcases C85_not_forgotten_partial e he _ x d h with ⟨t, ht, _⟩ | h
  · rw [(C83_nothing_left e ok as).1] at ht; cases ht
  · exact h

/-- Non-vacuity: a started and a nested transaction. -/
example : Event.began (.mine 1) none ∈ (run (okEnv [1] []) [.start, .setControl .stacked, .begin 0, .finalize false]).log ∧
    Event.rolledBack (.mine 1) ∈ (run (okEnv [1] []) [.start, .setControl .stacked, .begin 0, .finalize false]).log := by
  decide +kernel

end Casual.Tx

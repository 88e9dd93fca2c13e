import Verif.Tx.Props3
/-!
C88: a transaction whose calls have all been answered ok can be committed.
-/
namespace Casual.Tx
open Casual.Code

/-- Every pending correlation of a transaction of this process is a call that has been made in it
and not been answered; and if it is not active, a call in it has been answered with something else
than ok. -/
def Justified (log : List Event) (t : Tran) : Prop :=
  ∀ n, t.trid = some (.mine n) →
    (∀ corr ∈ t.pending, Event.call corr (.mine n) ∈ log ∧ ∀ st, Event.replied corr st ∉ log) ∧
    (t.state ≠ 0 → ∃ corr st, Event.call corr (.mine n) ∈ log ∧ Event.replied corr st ∈ log ∧ st ≠ 0)

def AllJustified (c : Ctx) : Prop := ∀ t ∈ c.stack, Justified c.log t

/-- From `c` to `c'` no reply is received, and every transaction is an old one with the same state
and the same pending calls, or one without any. -/
def Calm (c c' : Ctx) : Prop :=
  ∃ evs, c'.log = evs ++ c.log ∧ (∀ corr st, Event.replied corr st ∉ evs) ∧
    ∀ t ∈ c'.stack, (∃ u ∈ c.stack, t.trid = u.trid ∧ t.pending = u.pending ∧ t.state = u.state) ∨
      (t.pending = [] ∧ t.state = 0)

theorem Calm.keeps {c c' : Ctx} (h : Calm c c') (hj : AllJustified c) : AllJustified c' := by
  obtain ⟨evs, hl, hr, hs⟩ := h
  intro t ht n hn
  rcases hs t ht with ⟨u, hu, h1, h2, h3⟩ | ⟨h1, h2⟩
  · obtain ⟨a, b⟩ := hj u hu n (by rw [← h1]; exact hn)
    constructor
    · intro corr hc
      rw [h2] at hc
      obtain ⟨a1, a2⟩ := a corr hc
      rw [hl]
      refine ⟨List.mem_append_right _ a1, ?_⟩
      intro st hm
      rcases List.mem_append.mp hm with hm | hm
      · exact hr corr st hm
      · exact a2 st hm
    · intro hne
      rw [h3] at hne
      obtain ⟨corr, st, b1, b2, b3⟩ := b hne
      rw [hl]
      exact ⟨corr, st, List.mem_append_right _ b1, List.mem_append_right _ b2, b3⟩
  · exact ⟨by rw [h1]; simp, fun h => absurd h2 h⟩

theorem Calm.refl (c : Ctx) : Calm c c := ⟨[], rfl, by simp, fun t ht => Or.inl ⟨t, ht, rfl, rfl, rfl⟩⟩

theorem Calm.trans {a b c : Ctx} (h1 : Calm a b) (h2 : Calm b c) : Calm a c := by
  obtain ⟨e1, l1, r1, s1⟩ := h1
  obtain ⟨e2, l2, r2, s2⟩ := h2
  refine ⟨e2 ++ e1, by rw [l2, l1, List.append_assoc], ?_, ?_⟩
  · intro corr st hm
    rcases List.mem_append.mp hm with hm | hm
    · exact r2 corr st hm
    · exact r1 corr st hm
  · intro t ht
    rcases s2 t ht with ⟨u, hu, h1, h2, h3⟩ | h
    · rcases s1 u hu with ⟨v, hv, k1, k2, k3⟩ | ⟨k1, k2⟩
      · exact Or.inl ⟨v, hv, by rw [h1, k1], by rw [h2, k2], by rw [h3, k3]⟩
      · exact Or.inr ⟨by rw [h2, k1], by rw [h3, k2]⟩
    · exact Or.inr h

/-- The same transactions, only events added. -/
theorem Calm.same {c c' : Ctx} {evs : List Event} (hl : c'.log = evs ++ c.log)
    (hr : ∀ corr st, Event.replied corr st ∉ evs) (hs : ∀ t ∈ c'.stack, t ∈ c.stack) : Calm c c' :=
  ⟨evs, hl, hr, fun t ht => Or.inl ⟨t, hs t ht, rfl, rfl, rfl⟩⟩

theorem Calm.emit {c : Ctx} {ev : Event} (h : ∀ corr st, ev ≠ .replied corr st) : Calm c (emit ev c) :=
  Calm.same (evs := [ev]) rfl (fun x d hm => by rw [List.mem_singleton] at hm; exact h x d hm.symm) (fun _ h => h)

theorem Calm.ofExtends {c c' : Ctx} {p : Event → Prop} (h : Extends p c c')
    (hp : ∀ corr st, ¬ p (.replied corr st)) : Calm c c' := by
  obtain ⟨evs, h1, h2⟩ := h
  rw [h2]
  exact Calm.same rfl (fun x d hm => hp x d (h1 _ hm)) (fun _ h => h)

theorem Calm.stop (e : Env) (x f rs c) : Calm c (stopAll e x f rs c).1 :=
  Calm.ofExtends (stopAll_extends e x f rs c) (by rintro y d ⟨r, k, he⟩; cases he)

theorem Calm.startAll (e : Env) (x f a rs c) : Calm c (startAll e x f a rs c).1 :=
  Calm.ofExtends (startAll_extends e x f a rs c) (by rintro y d ⟨r, f, k, _, he⟩; cases he)

theorem Calm.setCurrent {c : Ctx} {f : Tran → Tran}
    (hf : ∀ t, (f t).trid = t.trid ∧ (f t).pending = t.pending ∧ (f t).state = t.state) :
    Calm c (setCurrent f c) := by
  refine ⟨[], by rw [setCurrent_log]; rfl, by simp, ?_⟩
  intro t ht
  unfold Tx.setCurrent at ht
  split at ht
  · exact Or.inl ⟨t, ht, rfl, rfl, rfl⟩
  · rename_i u us hst
    split at ht
    · exact Or.inl ⟨t, ht, rfl, rfl, rfl⟩
    · rcases List.mem_cons.mp ht with rfl | ht
      · exact Or.inl ⟨u, by rw [hst]; exact List.mem_cons_self, (hf u).1, (hf u).2.1, (hf u).2.2⟩
      · exact Or.inl ⟨t, by rw [hst]; exact List.mem_cons_of_mem _ ht, rfl, rfl, rfl⟩

theorem Calm.push {c c' : Ctx} {t : Tran} {evs : List Event} (h1 : c'.stack = t :: c.stack)
    (h2 : c'.log = evs ++ c.log) (h3 : ∀ corr st, Event.replied corr st ∉ evs)
    (hp : t.pending = []) (hst : t.state = 0) : Calm c c' := by
  refine ⟨evs, h2, h3, ?_⟩
  intro u hu
  rw [h1] at hu
  rcases List.mem_cons.mp hu with rfl | hu
  · exact Or.inr ⟨hp, hst⟩
  · exact Or.inl ⟨u, hu, rfl, rfl, rfl⟩

theorem involve_pending (t : Tran) (rs : List Rm) : (t.involve rs).pending = t.pending ∧
    (t.involve rs).state = t.state ∧ (t.involve rs).trid = t.trid := ⟨rfl, rfl, rfl⟩

theorem Calm.beginNew (e : Env) (now : Time) (c : Ctx) : Calm c (beginNew e now c).1 := by
  unfold Tx.beginNew
  dsimp only
  obtain ⟨evs, h1, h2⟩ := beginStart_extends e (.mine c.next) e.fixed
    (Tx.emit (.began (.mine c.next) ((newTran c.next (deadlineOf now c.timeout)).involve e.fixed).deadline)
      { c with timeout := 0, next := c.next + 1 })
  have hr : ∀ corr st, Event.replied corr st ∉ evs ++ [Event.began (.mine c.next) ((newTran c.next (deadlineOf now c.timeout)).involve e.fixed).deadline] := by
    intro corr st hm
    rcases List.mem_append.mp hm with hm | hm
    · obtain ⟨r, f, k, _, he⟩ := h1 _ hm; cases he
    · rw [List.mem_singleton] at hm; cases hm
  split
  · rw [h2]
    exact Calm.push (evs := evs ++ [_]) rfl (by simp [Tx.emit]) hr rfl rfl
  · refine Calm.trans (b := (beginStart e (.mine c.next) e.fixed _).1) ?_
      (Calm.ofExtends (beginStop_extends e _ _ _) (by rintro y d ⟨r, k, he⟩; cases he))
    rw [h2]
    exact Calm.same (evs := evs ++ [_]) (by simp [Tx.emit]) hr (fun _ h => h)

theorem Calm.begin (e : Env) (now : Time) (c : Ctx) : Calm c (begin e now c).1 := by
  unfold Tx.begin
  split
  · split
    · exact Calm.refl c
    · dsimp only
      split
      · exact Calm.stop _ _ _ _ _
      · exact (Calm.stop _ _ _ _ _).trans (Calm.beginNew e now _)
  · split
    · exact Calm.refl c
    · exact Calm.beginNew e now c

theorem Calm.resumeCurrent (e : Env) (a : List Rm) (c : Ctx) : Calm c (resumeCurrent e a c).1 := by
  unfold Tx.resumeCurrent
  split
  · exact Calm.refl c
  · split
    · exact Calm.refl c
    · exact (Calm.setCurrent (f := (·.involve a)) (fun _ => ⟨rfl, rfl, rfl⟩)).trans (Calm.startAll _ _ _ _ _ _)

theorem Calm.continuation (e : Env) (now : Time) (s : Ctx × Tx) : Calm s.1 (continuation e now s).1 := by
  unfold Tx.continuation
  split
  · exact Calm.refl _
  · exact Calm.begin e now _
  · exact Calm.resumeCurrent _ _ _

theorem commitT_calm (e : Env) (t : Tran) (c : Ctx) :
    Extends (fun ev => ∀ corr st, ev ≠ .replied corr st) c (commitT e t c).1 := by
  unfold commitT
  split
  · exact Extends.refl c
  · rename_i x _
    dsimp only
    have h1 : Extends (fun ev => ∀ x d, ev ≠ Event.replied x d) c (stopAll e x .success t.involved c).1 :=
      (stopAll_extends e x .success t.involved c).mono (by rintro ev ⟨r, k, rfl⟩ y d he; cases he)
    split
    · exact h1
    · split
      · split
        · exact h1.trans (Extends.emit (by intro y d he; cases he))
        · unfold resourceCommit
          split
          · exact h1.trans (Extends.emit (by intro y d he; cases he))
          · exact h1
      · exact h1.trans (Extends.emit (by intro y d he; cases he))

theorem rollbackT_calm (e : Env) (t : Tran) (c : Ctx) :
    Extends (fun ev => ∀ corr st, ev ≠ .replied corr st) c (rollbackT e t c).1 := by
  unfold rollbackT
  split
  · exact Extends.refl c
  · rename_i x _
    dsimp only
    have h1 : Extends (fun ev => ∀ x d, ev ≠ Event.replied x d) c (stopAll e x .success t.involved c).1 :=
      (stopAll_extends e x .success t.involved c).mono (by rintro ev ⟨r, k, rfl⟩ y d he; cases he)
    split
    · exact h1
    · split
      · refine Extends.trans (b := (accum (resourceRollback e x) _ _).1) ?_ (Extends.emit (by intro y d he; cases he))
        refine h1.trans (accum_extends ?_ _ _)
        intro r _ c'
        unfold resourceRollback
        split
        · exact Extends.emit (by intro y d he; cases he)
        · exact Extends.refl _
      · exact h1.trans (Extends.emit (by intro y d he; cases he))

theorem Calm.pop (c : Ctx) : Calm c (pop c) :=
  Calm.same (evs := []) rfl (by simp) (fun _ h => List.mem_of_mem_tail h)

theorem Calm.nil {c c' : Ctx} {p : Event → Prop} (h : Extends p { c with stack := [] } c')
    (hp : ∀ corr st, ¬ p (.replied corr st)) : Calm c c' := by
  obtain ⟨evs, h1, h2⟩ := h
  rw [h2]
  exact Calm.same (evs := evs) rfl (fun x d hm => hp x d (h1 _ hm)) (by intro t ht; cases ht)

theorem Calm.finalize (e : Env) (ok : Bool) (c : Ctx) : Calm c (finalize e ok c).1 := by
  have hd : Extends (fun ev => ∀ corr st, ev ≠ Event.replied corr st) { c with stack := [] }
      (discardAll c.stack.reverse { c with stack := [] }) := by
    refine ⟨_, ?_, rfl⟩
    intro ev hev x d he
    rw [List.mem_reverse, List.mem_map] at hev
    obtain ⟨_, _, h⟩ := hev
    rw [← h] at he; cases he
  have hl : Extends (fun ev => ∀ corr st, ev ≠ Event.replied corr st) { c with stack := [] }
      (accum (commitOrRollback e ok) ((c.stack.reverse.filter (fun t => t.trid.isSome)).filter (·.own))
        (discardAll c.stack.reverse { c with stack := [] }, .ok)).1 := by
    refine hd.trans (accum_extends ?_ _ _)
    intro t _ c'
    unfold commitOrRollback
    split
    · exact commitT_calm e t c'
    · exact rollbackT_calm e t c'
  have hc := Calm.nil hl (fun corr st h => h corr st rfl)
  unfold Tx.finalize
  dsimp only
  split
  · exact hc
  · split
    · exact hc
    · exact hc.trans (Calm.stop _ _ _ _ _)

/-! ### calls and replies -/

theorem call_justified {e : Env} {c : Ctx} (hw : W e c) (hj : AllJustified c) (b : Bool) : AllJustified (call b c) := by
  unfold Tx.call
  dsimp only
  split
  · rename_i x hx
    split
    · exact hj
    · obtain ⟨t, ts, hst, hsu, hct, htx⟩ := current_some hw.emp hx
      have hs : (Tx.setCurrent (·.associate c.nextCorr) { c with nextCorr := c.nextCorr + 1, outstanding := c.outstanding ++ [c.nextCorr] }).stack
          = t.associate c.nextCorr :: ts := by
        unfold Tx.setCurrent
        rw [hst]
        simp [hsu]
      intro u hu n hn
      have hu : u ∈ (Tx.setCurrent (·.associate c.nextCorr) { c with nextCorr := c.nextCorr + 1, outstanding := c.outstanding ++ [c.nextCorr] }).stack := hu
      rw [hs] at hu
      show (∀ corr ∈ u.pending, _ ∈ Event.call c.nextCorr x :: (Tx.setCurrent _ _).log ∧ _) ∧ (_ → _)
      rw [show (Tx.emit (.call c.nextCorr x) (Tx.setCurrent (·.associate c.nextCorr) { c with nextCorr := c.nextCorr + 1, outstanding := c.outstanding ++ [c.nextCorr] })).log
        = .call c.nextCorr x :: c.log from by show _ :: _ = _; rw [setCurrent_log], setCurrent_log]
      have old : ∀ v ∈ c.stack, v.trid = some (.mine n) →
          (∀ corr ∈ v.pending, Event.call corr (.mine n) ∈ Event.call c.nextCorr x :: c.log ∧
            ∀ st, Event.replied corr st ∉ Event.call c.nextCorr x :: c.log) ∧
          (v.state ≠ 0 → ∃ corr st, Event.call corr (.mine n) ∈ Event.call c.nextCorr x :: c.log ∧
            Event.replied corr st ∈ Event.call c.nextCorr x :: c.log ∧ st ≠ 0) := by
        intro v hv hvn
        obtain ⟨a, b⟩ := hj v hv n hvn
        refine ⟨fun corr hc => ⟨List.mem_cons_of_mem _ (a corr hc).1, fun st hm => ?_⟩, fun h => ?_⟩
        · rcases List.mem_cons.mp hm with h | h
          · cases h
          · exact (a corr hc).2 st h
        · obtain ⟨corr, st, b1, b2, b3⟩ := b h
          exact ⟨corr, st, List.mem_cons_of_mem _ b1, List.mem_cons_of_mem _ b2, b3⟩
      rcases List.mem_cons.mp hu with rfl | hu
      · have htn : t.trid = some (.mine n) := hn
        obtain ⟨o1, o2⟩ := old t (by rw [hst]; exact List.mem_cons_self) htn
        refine ⟨?_, o2⟩
        intro corr hc
        have hc : corr ∈ t.pending ++ [c.nextCorr] := hc
        rcases List.mem_append.mp hc with hc | hc
        · exact o1 corr hc
        · rw [List.mem_singleton] at hc
          subst hc
          rw [htx] at htn
          cases htn
          refine ⟨List.mem_cons_self, ?_⟩
          intro st hm
          rcases List.mem_cons.mp hm with h | h
          · cases h
          · exact absurd (hw.inv.freshR _ _ h) (Nat.lt_irrefl _)
      · exact old u (by rw [hst]; exact List.mem_cons_of_mem _ hu) hn
  · exact hj

theorem mem_updateFirst {corr st : Nat} {v : Tran} : ∀ {l : List Tran}, v ∈ updateFirst corr st l →
    (v ∈ l ∧ (corr ∉ v.pending ∨ ∃ u ∈ l, corr ∈ u.pending ∧ ∃ a b, l = a ++ u :: b ∧ v ∈ b)) ∨
    ∃ u ∈ l, corr ∈ u.pending ∧ v = u.update corr st
  | [], h => by cases h
  | t :: ts, h => by
    unfold updateFirst at h
    split at h
    · rename_i ht
      rcases List.mem_cons.mp h with rfl | h
      · exact Or.inr ⟨t, List.mem_cons_self, ht, rfl⟩
      · exact Or.inl ⟨List.mem_cons_of_mem _ h, Or.inr ⟨t, List.mem_cons_self, ht, [], ts, rfl, h⟩⟩
    · rename_i ht
      rcases List.mem_cons.mp h with rfl | h
      · exact Or.inl ⟨List.mem_cons_self, Or.inl ht⟩
      · rcases mem_updateFirst h with ⟨h1, h2⟩ | ⟨u, h1, h2⟩
        · refine Or.inl ⟨List.mem_cons_of_mem _ h1, ?_⟩
          rcases h2 with h2 | ⟨u, hu, hc, a, b, hab, hb⟩
          · exact Or.inl h2
          · exact Or.inr ⟨u, List.mem_cons_of_mem _ hu, hc, t :: a, b, by rw [hab]; rfl, hb⟩
        · exact Or.inr ⟨u, List.mem_cons_of_mem _ h1, h2⟩

theorem reply_justified {e : Env} {c : Ctx} (hw : W e c) (hj : AllJustified c) (corr st : Nat) :
    AllJustified (reply corr st c) := by
  unfold Tx.reply
  split
  · intro v hv n hn
    have hv : v ∈ updateFirst corr st c.stack.reverse := List.mem_reverse.mp hv
    have hnd : (c.stack.reverse.filterMap mineOf).Nodup := by
      rw [List.filterMap_reverse]; exact (List.reverse_perm _).nodup_iff.mpr hw.inv.nodup
    show (∀ corr' ∈ v.pending, _ ∈ Event.replied corr st :: c.log ∧ ∀ st', Event.replied corr' st' ∉ Event.replied corr st :: c.log) ∧
      (v.state ≠ 0 → ∃ corr' st', Event.call corr' (.mine n) ∈ Event.replied corr st :: c.log ∧
        Event.replied corr' st' ∈ Event.replied corr st :: c.log ∧ st' ≠ 0)
    rcases mem_updateFirst hv with ⟨h1, h2⟩ | ⟨u, hu, huc, rfl⟩
    · obtain ⟨a, b⟩ := hj v (List.mem_reverse.mp h1) n hn
      have hne : corr ∉ v.pending := by
        rcases h2 with h2 | ⟨u, hu, huc, p, q, hpq, hq⟩
        · exact h2
        · intro hvc
          have hun := hw.inv.ownC u (List.mem_reverse.mp hu) corr (.mine n) huc (a corr hvc).1
          rw [hpq, List.filterMap_append, List.filterMap_cons_some (b := n) (by simp [mineOf, hun])] at hnd
          have := (List.nodup_append.mp hnd).2.1
          rw [List.nodup_cons] at this
          exact this.1 (List.mem_filterMap.mpr ⟨v, hq, by simp [mineOf, hn]⟩)
      refine ⟨fun corr' hc => ⟨List.mem_cons_of_mem _ (a corr' hc).1, fun st' hm => ?_⟩, fun h => ?_⟩
      · rcases List.mem_cons.mp hm with h | h
        · cases h; exact hne hc
        · exact (a corr' hc).2 st' h
      · obtain ⟨corr', st', b1, b2, b3⟩ := b h
        exact ⟨corr', st', List.mem_cons_of_mem _ b1, List.mem_cons_of_mem _ b2, b3⟩
    · have hun : u.trid = some (.mine n) := hn
      obtain ⟨a, b⟩ := hj u (List.mem_reverse.mp hu) n hun
      constructor
      · intro corr' hc
        have hc : corr' ∈ u.pending.filter (· ≠ corr) := hc
        obtain ⟨hc1, hc2⟩ := List.mem_filter.mp hc
        refine ⟨List.mem_cons_of_mem _ (a corr' hc1).1, ?_⟩
        intro st' hm
        rcases List.mem_cons.mp hm with h | h
        · cases h; simp at hc2
        · exact (a corr' hc1).2 st' h
      · intro hne
        by_cases hs : u.state < st
        · exact ⟨corr, st, List.mem_cons_of_mem _ (a corr huc).1, List.mem_cons_self, by omega⟩
        · have hs' : (u.update corr st).state = u.state := by
            show (if u.state < st then st else u.state) = _
            rw [if_neg hs]
          rw [hs'] at hne
          obtain ⟨corr', st', b1, b2, b3⟩ := b hne
          exact ⟨corr', st', List.mem_cons_of_mem _ b1, List.mem_cons_of_mem _ b2, b3⟩
  · exact hj

/-- The calls that fail when the request is to be sent, within a transaction. -/
def failsToSend : Act → Bool
  | .callFails false => true
  | .sync false none => true
  | _ => false

theorem step_justified {e : Env} {c : Ctx} (hw : W e c) (hj : AllJustified c) (a : Act)
    (ha : failsToSend a = false) : AllJustified (step e c a) := by
  cases a with
  | begin now => exact (Calm.begin e now c).keeps hj
  | commit now =>
    refine Calm.keeps ?_ hj
    show Calm c (Tx.commit e now c).1
    unfold Tx.commit
    split
    · exact Calm.refl c
    · exact ((Calm.pop c).trans (Calm.ofExtends (commitT_calm e _ _) (fun x y h => h x y rfl))).trans
        (Calm.continuation e now _)
  | rollback now =>
    refine Calm.keeps ?_ hj
    show Calm c (Tx.rollback e now c).1
    unfold Tx.rollback
    split
    · exact Calm.refl c
    · exact ((Calm.pop c).trans (Calm.ofExtends (rollbackT_calm e _ _) (fun x y h => h x y rfl))).trans
        (Calm.continuation e now _)
  | suspend =>
    refine Calm.keeps ?_ hj
    show Calm c (Tx.suspend e c).1
    unfold Tx.suspend
    split
    · exact Calm.refl c
    · rename_i x _
      dsimp only
      have : Calm c (stopAll e x .suspend (current c).involved (Tx.setCurrent (fun t => { t with suspended := true }) c)).1 :=
        (Calm.setCurrent (f := fun t => { t with suspended := true }) (fun _ => ⟨rfl, rfl, rfl⟩)).trans (Calm.stop e x .suspend (current c).involved _)
      split <;> exact this
  | resume x =>
    refine Calm.keeps ?_ hj
    show Calm c (Tx.resume e x c).1
    unfold Tx.resume
    split
    · exact Calm.refl c
    split
    · exact Calm.refl c
    split
    · exact Calm.refl c
    split
    · exact Calm.refl c
    rename_i x _ _ _ pre t post hsp
    split
    · exact Calm.refl c
    obtain ⟨hrev, htx⟩ := splitAt_some hsp
    have hin : ∀ u, u = t ∨ u ∈ post ∨ u ∈ pre → u ∈ c.stack := by
      intro u hu
      rw [← List.mem_reverse, hrev]
      rcases hu with rfl | h | h
      · exact List.mem_append_right _ List.mem_cons_self
      · exact List.mem_append_right _ (List.mem_cons_of_mem _ h)
      · exact List.mem_append_left _ h
    have hstk : ∀ (v : Tran) (l : List Tran), v.trid = t.trid ∧ v.pending = t.pending ∧ v.state = t.state →
        (∀ u ∈ l, u = v ∨ u ∈ post ∨ u ∈ pre) →
        ∀ u ∈ l, (∃ w ∈ c.stack, u.trid = w.trid ∧ u.pending = w.pending ∧ u.state = w.state) ∨ (u.pending = [] ∧ u.state = 0) := by
      intro v l hv hl u hu
      rcases hl u hu with rfl | h
      · exact Or.inl ⟨t, hin t (Or.inl rfl), hv⟩
      · exact Or.inl ⟨u, hin u (Or.inr h), rfl, rfl, rfl⟩
    have hrot : ∀ v : Tran, ∀ u ∈ (post ++ pre ++ [v]).reverse, u = v ∨ u ∈ post ∨ u ∈ pre := by
      intro v u h
      rw [List.mem_reverse] at h
      rcases List.mem_append.mp h with h | h
      · exact Or.inr (List.mem_append.mp h)
      · exact Or.inl (List.mem_singleton.mp h)
    have hmid : ∀ v : Tran, ∀ u ∈ (pre ++ v :: post).reverse, u = v ∨ u ∈ post ∨ u ∈ pre := by
      intro v u h
      rw [List.mem_reverse] at h
      rcases List.mem_append.mp h with h | h
      · exact Or.inr (Or.inr h)
      · rcases List.mem_cons.mp h with h | h
        · exact Or.inl h
        · exact Or.inr (Or.inl h)
    dsimp only
    split
    · exact ⟨[], rfl, by simp, hstk { t with suspended := false } _ ⟨rfl, rfl, rfl⟩ (hrot _)⟩
    · obtain ⟨evs, h1, h2⟩ := startAll_extends e x .resume e.fixed
        (({ t with suspended := false } : Tran).involve e.fixed).involved
        { c with stack := (pre ++ ({ t with suspended := false } : Tran).involve e.fixed :: post).reverse }
      have hb : ∀ x d, Event.replied x d ∉ evs := by
        intro x d hm
        obtain ⟨_, _, _, _, h⟩ := h1 _ hm
        cases h
      split
      · rw [h2]
        exact ⟨evs, rfl, hb, hstk (({ t with suspended := false } : Tran).involve e.fixed) _ ⟨rfl, rfl, rfl⟩ (hmid _)⟩
      · rw [h2]
        exact ⟨evs, rfl, hb, hstk (({ t with suspended := false } : Tran).involve e.fixed) _ ⟨rfl, rfl, rfl⟩ (hrot _)⟩
  | setControl k => exact hj
  | setReturn l => exact hj
  | setTimeout t =>
    show AllJustified (Tx.setTimeout t c).1
    unfold Tx.setTimeout
    split <;> exact hj
  | reg r =>
    refine Calm.keeps ?_ hj
    show Calm c (register e r c).1
    unfold register
    split
    · exact Calm.refl c
    split
    · exact Calm.refl c
    have h1 : Calm c (Tx.setCurrent (fun t => { t with dynamic := addUnique t.dynamic r }) c) :=
      Calm.setCurrent (fun _ => ⟨rfl, rfl, rfl⟩)
    dsimp only
    split
    · exact h1
    · rename_i x _
      have h2 := h1.trans (Calm.emit (ev := .reg r x) (by intro y d h; cases h))
      split
      · exact h2
      · have h3 := h2.trans (Calm.setCurrent (f := (·.involve [r])) (fun _ => ⟨rfl, rfl, rfl⟩))
        split
        · exact h3
        · exact h3.trans (Calm.emit (by intro y d h; cases h))
  | unreg r =>
    refine Calm.keeps ?_ hj
    show Calm c (unregister r c).1
    unfold unregister
    split
    · exact Calm.refl c
    split
    · exact Calm.refl c
    · exact Calm.setCurrent (f := fun t => { t with dynamic := t.dynamic.erase r }) (fun _ => ⟨rfl, rfl, rfl⟩)
  | join n =>
    refine Calm.keeps ?_ hj
    show Calm c (Tx.join e _ c).1
    unfold Tx.join
    split
    · exact Calm.push (evs := []) rfl rfl (by simp) rfl rfl
    · rename_i x _
      split
      · exact Calm.push (evs := []) rfl rfl (by simp) rfl rfl
      · dsimp only
        refine Calm.trans ?_ (Calm.ofExtends (p := fun ev => ∀ corr st, ev ≠ .replied corr st)
          (accum_extends (fun r _ c' => ?_) _ _) (fun x y h => h x y rfl))
        · exact Calm.push (evs := [.involve x e.fixed]) rfl rfl (by simp) rfl rfl
        · exact Extends.emit (by intro y d h; cases h)
  | start =>
    refine Calm.keeps ?_ hj
    show Calm c (Tx.start e c).1
    unfold Tx.start
    dsimp only
    obtain ⟨evs, h1, h2⟩ := startAll_extends e (.mine c.next) .none e.fixed
      ((newTran c.next none).involve e.fixed).involved
      (Tx.emit (.began (.mine c.next) none) { c with next := c.next + 1 })
    have hr : ∀ corr st, Event.replied corr st ∉ evs ++ [Event.began (.mine c.next) none] := by
      intro corr st hm
      rcases List.mem_append.mp hm with hm | hm
      · obtain ⟨r, f, k, _, he⟩ := h1 _ hm; cases he
      · rw [List.mem_singleton] at hm; cases hm
    split
    · rw [h2]
      exact Calm.same (evs := evs ++ [_]) (by simp [Tx.emit]) hr (fun _ h => h)
    · rw [h2]
      exact Calm.push (evs := evs ++ [_]) rfl (by simp [Tx.emit]) hr rfl rfl
  | branch n =>
    refine Calm.keeps ?_ hj
    show Calm c (Tx.branch e n c).1
    unfold Tx.branch
    dsimp only
    split
    · exact Calm.push (evs := []) rfl rfl (by simp) rfl rfl
    · refine Calm.trans ?_ (Calm.startAll _ _ _ _ _ _)
      refine Calm.trans ?_ (Calm.emit (by intro y d h; cases h))
      exact Calm.push (evs := []) rfl rfl (by simp) rfl rfl
  | call b => exact call_justified hw hj b
  | reply corr st => exact reply_justified hw hj corr st
  | cancel corr =>
    refine Calm.keeps ?_ hj
    show Calm c (Tx.cancel corr c).1
    unfold Tx.cancel
    split
    · exact Calm.refl c
    split
    · exact Calm.refl c
    · exact Calm.same (evs := [.discard corr]) rfl (by simp) (fun _ h => h)
  | callFails b =>
    cases b with
    | false => cases ha
    | true =>
      show AllJustified (Tx.callFails true c)
      unfold Tx.callFails
      dsimp only
      split
      · exact hj
      · exact hj
  | sync b st =>
    have key : ∀ {c : Ctx}, W e c → AllJustified c → ∀ b st, (b = true ∨ st ≠ none) →
        AllJustified (callAndReply b st c) := by
      intro c hw hj b st hb
      unfold Tx.callAndReply
      split
      · rename_i s
        exact reply_justified (hw.call b) (call_justified hw hj b) _ _
      · rcases hb with rfl | hb
        · unfold Tx.callFails
          dsimp only
          split <;> exact hj
        · exact absurd rfl hb
    show AllJustified (Tx.sync e b st c).1
    unfold Tx.sync
    split
    · rename_i x hx
      have hw0 : W e (if (current c).involved ≠ [] then Tx.emit (.involve x (current c).involved) c else c) := by
        split
        · exact hw.emit rfl
        · exact hw
      have h0 : Calm c (if (current c).involved ≠ [] then Tx.emit (.involve x (current c).involved) c else c) := by
        split
        · exact Calm.emit (by intro y d h; cases h)
        · exact Calm.refl c
      generalize (if (current c).involved ≠ [] then Tx.emit (.involve x (current c).involved) c else c) = c0 at h0 hw0 ⊢
      dsimp only
      have h1 := h0.trans (Calm.stop e x .suspend (current c).involved c0)
      split
      · exact h1.keeps hj
      · refine (Calm.resumeCurrent e e.fixed _).keeps ?_
        refine key (hw0.stop x .suspend _) (h1.keeps hj) false st (Or.inr ?_)
        rintro rfl
        cases ha
    · exact key hw hj true st (Or.inl rfl)
  | external =>
    refine Calm.keeps ?_ hj
    show Calm c (Tx.external c)
    unfold Tx.external
    split
    · exact (Calm.setCurrent (f := fun t => { t with external := true }) (fun _ => ⟨rfl, rfl, rfl⟩)).trans (Calm.emit (by intro y d h; cases h))
    · exact Calm.refl c
  | finalize ok => exact (Calm.finalize e ok c).keeps hj

/-! ### C88 -/

/-- The claim: when every call that has been sent within the current transaction - begun by this
process - has been answered ok, the preconditions of `tx_commit` are met: a decision is made. -/
def Committable : Prop :=
  ∀ (e : Env) (as : List Act) (n : Nat) (now : Time), e.Willing → (current (run e as)).trid = some (.mine n) →
    (∀ corr, Event.call corr (.mine n) ∈ (run e as).log →
      (∃ st, Event.replied corr st ∈ (run e as).log) ∧ ∀ st, Event.replied corr st ∈ (run e as).log → st = 0) →
    decided (commit e now (run e as)).1.log (.mine n)

/-- C88 does not hold: a `tpacall` (or `tpcall`) that fails when the request is sent leaves the
transaction with a reply to wait for, that never comes: it can not be committed. Even when the
program has handled the error, and every request that was sent has been answered. -/
theorem C88_refuted : ¬ Committable ∧
    (commit (okEnv [1] []) 1 (run (okEnv [1] []) [.begin 0, .sync false none])).2 = .protocol := by
  refine ⟨?_, by decide +kernel⟩
  intro h
  obtain ⟨ev, hev, hd⟩ := h (okEnv [] []) [.begin 0, .callFails false] 0 1 (fun _ _ _ _ => ⟨rfl, rfl⟩) (by decide +kernel)
    (by
      intro corr hm
      exfalso
      have : (run (okEnv [] []) [.begin 0, .callFails false]).log = [.began (.mine 0) none] := by decide +kernel
      rw [this] at hm
      simp at hm)
  have : ∀ ev ∈ (commit (okEnv [] []) 1 (run (okEnv [] []) [.begin 0, .callFails false])).1.log,
      ¬ (commits (.mine 0) ev = true ∨ rollsBack (.mine 0) ev = true ∨ ev = .rolledBack (.mine 0)) := by
    decide +kernel
  exact this ev hev hd

/-- C88, what holds: the claim, for every history in which no call within a transaction fails to be
sent. -/
theorem C88_committable_partial (e : Env) (he : e.Willing) (as : List Act) (n : Nat) (now : Time)
    (hs : ∀ a ∈ as, failsToSend a = false)
    (hx : (current (run e as)).trid = some (.mine n))
    (hr : ∀ corr, Event.call corr (.mine n) ∈ (run e as).log →
      (∃ st, Event.replied corr st ∈ (run e as).log) ∧ ∀ st, Event.replied corr st ∈ (run e as).log → st = 0) :
    ∃ ev ∈ (commit e now (run e as)).1.log, commits (.mine n) ev = true := by
  have hj : AllJustified (run e as) := by
    suffices ∀ (as : List Act) (c : Ctx), W e c → AllJustified c → (∀ a ∈ as, failsToSend a = false) →
        AllJustified (as.foldl (step e) c) from this as {} (W.init e) (by intro t ht; cases ht) hs
    intro as
    induction as with
    | nil => intro c _ h _; exact h
    | cons a as ih =>
      intro c hw h hs
      exact ih _ (hw.step a) (step_justified hw h a (hs a List.mem_cons_self)) (fun b hb => hs b (List.mem_cons_of_mem _ hb))
  have hw := W.run e as
  generalize run e as = c at hx hr hj hw ⊢
  obtain ⟨t, ts, hst, hsu, hct, htx⟩ := current_some hw.emp hx
  have hmem : t ∈ c.stack := by rw [hst]; exact List.mem_cons_self
  obtain ⟨j1, j2⟩ := hj t hmem n htx
  have hp : t.pending = [] := by
    cases hpe : t.pending with
    | nil => rfl
    | cons q l =>
      obtain ⟨a1, a2⟩ := j1 q (by rw [hpe]; exact List.mem_cons_self)
      obtain ⟨⟨st, h1⟩, _⟩ := hr q a1
      exact absurd h1 (a2 st)
  have hs0 : t.state = 0 := by
    cases hz : decide (t.state = 0) with
    | true => exact of_decide_eq_true hz
    | false =>
      obtain ⟨corr, st, h1, h2, h3⟩ := j2 (of_decide_eq_false hz)
      exact absurd ((hr corr h1).2 st h2) h3
  have ho : t.own = true := own_iff.mpr ⟨n, htx⟩
  have hpre : commitPre (current c) = .ok := by
    rw [hct]
    unfold commitPre
    simp [htx, ho, hs0, hp]
  unfold commit
  rw [if_neg (by simp [hpre]), hct]
  have hd : ∃ ev ∈ (commitT e t (pop c)).1.log, commits (.mine n) ev = true := by
    unfold commitT
    rw [htx]
    dsimp only
    rw [stopAll_willing he, if_neg (by simp)]
    split
    · split
      · exact ⟨_, List.mem_cons_self, by simp [commits]⟩
      · rename_i r l hin
        unfold resourceCommit
        rw [if_pos (hw.inv.sub t hmem r (by rw [hin]; exact List.mem_cons_self))]
        exact ⟨_, List.mem_cons_self, by simp [commits]⟩
    · exact ⟨_, List.mem_cons_self, by simp [commits]⟩
  obtain ⟨ev, h1, h2⟩ := hd
  obtain ⟨evs, h3, _⟩ := Calm.continuation e now (commitT e t (pop c))
  exact ⟨ev, by rw [h3]; exact List.mem_append_right _ h1, h2⟩

/-- A call without the transaction that fails, one within it that is answered ok, and a suspended
transaction. -/
example : let e := okEnv [1] []
    let as := [Act.begin 0, .suspend, .begin 1, .callFails true, .sync false (some 0)]
    (current (run e as)).trid = some (.mine 1) ∧ (∀ a ∈ as, failsToSend a = false) ∧
    Event.call 1 (.mine 1) ∈ (run e as).log ∧ Event.replied 1 0 ∈ (run e as).log := by decide +kernel

end Casual.Tx

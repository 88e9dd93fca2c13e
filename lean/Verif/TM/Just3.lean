import Verif.TM.Just2
/-!
# The invariant is preserved by every handler (continued)
-/
namespace Casual.TM
open Casual.Code Casual.FanOut

theorem TOk.weaken {X Y : Nat → Prop} {tr : List Obs} {t : Tx} (h : TOk X tr t) (hxy : ∀ g, X g → Y g) : TOk Y tr t :=
  ⟨h.branches, fun hp hx => h.post hp (fun h => hx (hxy _ h))⟩

theorem JX.weaken {X Y : Nat → Prop} {s : State} (h : JX X s) (hxy : ∀ g, X g → Y g) : JX Y s :=
  ⟨h.claims, h.prepL, h.comL, h.rolL, h.prepO, h.comO, h.rolO, h.prepE, h.comE, h.rolE,
    fun t ht => (h.txs t ht).weaken hxy, h.replies⟩

theorem JX.tighten {X : Nat → Prop} {s : State} (h : JX X s)
    (ht : ∀ t ∈ s.txs, t.stage = .post_prepare → ¬ X t.g) : J s :=
  ⟨h.claims, h.prepL, h.comL, h.rolL, h.prepO, h.comO, h.rolO, h.prepE, h.comE, h.rolE,
    fun t hm => ⟨(h.txs t hm).branches, fun hp _ => (h.txs t hm).post hp (ht t hm hp)⟩, h.replies⟩

theorem Ok.tighten {X : Nat → Prop} {s s' : State} (h : Ok X s s')
    (ht : ∀ t ∈ s'.txs, t.stage = .post_prepare → ¬ X t.g) : Ok (fun _ => False) s s' :=
  ⟨h.1.tighten ht, h.2⟩

theorem find_modify {s : State} {g : Nat} {t : Tx} (h : s.find g = some t) (f : Tx → Tx) (hf : ∀ t, (f t).g = t.g) :
    (s.modify g f).find g = some (f t) := by
  unfold State.find State.modify at *
  dsimp only
  revert h
  induction s.txs with
  | nil => simp
  | cons x xs ih =>
    intro h
    rw [List.find?_cons] at h
    rw [List.map_cons, List.find?_cons]
    by_cases hx : x.g = g
    · rw [if_pos hx]
      simp only [hf, hx, decide_true] at h ⊢
      cases h; rfl
    · rw [if_neg hx]
      simp only [hx, decide_false] at h ⊢
      exact ih h

theorem purgeReplies_g (t : Tx) (rs : List Rep) : (t.purgeReplies rs).g = t.g := rfl
theorem purgeReplies_stage (t : Tx) (rs : List Rep) : (t.purgeReplies rs).stage = t.stage := rfl
theorem setStage_g (st : Stage) (t : Tx) : (t.setStage st).g = t.g := rfl

theorem Stage.set_eq_post {a w : Stage} (h : a.set w = .post_prepare) : w = .post_prepare ∨ a = .post_prepare := by
  unfold Stage.set at h
  split at h
  · exact .inl h
  · exact .inr h

theorem Stage.set_commit_ne (a : Stage) : a.set .commit ≠ .post_prepare := by cases a <;> decide
theorem Stage.set_rollback_ne (a : Stage) : a.set .rollback ≠ .post_prepare := by cases a <;> decide
theorem Stage.set_prepare_post {a : Stage} (h : a.set .prepare = .post_prepare) : a = .post_prepare := by
  cases a <;> revert h <;> decide

theorem persistReply_txs (s : State) (to : Proc) (a : Answer) : (s.persistReply to a).txs = s.txs := by
  unfold State.persistReply; dsimp only; split <;> rfl

theorem removeByRange_txs (s : State) (g : Nat) : ∀ t ∈ (s.removeByRange g).txs, t.g ≠ g := by
  unfold State.removeByRange
  dsimp only
  split
  · intro t ht; simpa using (List.mem_filter.mp ht).2
  · rename_i h
    intro t ht hg
    exact h (List.any_eq_true.mpr ⟨t, ht, by simpa using hg⟩)

theorem runPrepare_ok {s : State} (h : J s) (hnh : s.halted = false) {f : Fired Rep Int KPrepare} (hf : FOk .prepare projP s.tr f)
    (hk : PrepOk f.callback) : Ok (fun _ => False) s (runPrepare s f) := by
  unfold runPrepare
  dsimp only
  split
  · exact h.emit trivial (by simp)
  rename_i t0 hfind
  let X : Nat → Prop := fun x => x = f.callback.origin.xid.g ∧ f.callback.rtype ≠ .resPrepare
  have hX : ∀ x, X x ↔ (x = f.callback.origin.xid.g ∧ f.callback.rtype ≠ .resPrepare) := fun _ => Iff.rfl
  -- after the stage is set and read-only resources are purged
  have hs1 : Ok X s (s.modify f.callback.origin.xid.g (fun t => (t.setStage .post_prepare).purgeReplies
      (f.received.filter (fun r => decide (r.code = .read_only))))) := by
    apply Ok.modify (h.weaken (by simp))
    intro t ht hg
    apply TOk.purgeReplies
    refine ⟨(h.txs t ht).branches, fun hp hx => ?_⟩
    have hrt : f.callback.rtype = .resPrepare := by
      by_cases hrt : f.callback.rtype = .resPrepare
      · exact hrt
      · exact absurd ⟨hg, hrt⟩ hx
    obtain ⟨reqs, h1, h2, h3, h4⟩ := hf
    refine ⟨f.callback.origin, f.callback.dest, reqs, f.received, ?_, hg.symm, h3⟩
    simpa [projP, hrt] using h1
  have hfind1 := find_modify hfind (fun t => (t.setStage .post_prepare).purgeReplies
      (f.received.filter (fun r => decide (r.code = .read_only)))) (fun t => rfl)
  have htr1 : (s.modify f.callback.origin.xid.g (fun t => (t.setStage .post_prepare).purgeReplies
      (f.received.filter (fun r => decide (r.code = .read_only))))).tr = s.tr := rfl
  have hh1 : (s.modify f.callback.origin.xid.g (fun t => (t.setStage .post_prepare).purgeReplies
      (f.received.filter (fun r => decide (r.code = .read_only))))).halted = false := hnh
  revert hs1 hfind1 htr1 hh1
  generalize s.modify f.callback.origin.xid.g (fun t => (t.setStage .post_prepare).purgeReplies
      (f.received.filter (fun r => decide (r.code = .read_only)))) = s1
  generalize ((t0.setStage .post_prepare).purgeReplies
      (f.received.filter (fun r => decide (r.code = .read_only)))) = t1
  intro hs1 hfind1 htr1 hh1
  obtain ⟨reqs, hfan, h2, h3, h4⟩ := hf
  -- what ok or read-only means
  have acc : 22 ≤ toOrder (accumulate .prepare f.received f.outcome .read_only) → AllGood reqs f.received Vote := by
    intro hge
    have hge' : 21 ≤ toOrder (accumulate .prepare f.received f.outcome .read_only) := by omega
    refine ⟨h4 (accumulate_good hge').1, fun m hm => vote_of_order ?_⟩
    have := (accumulate_le hge').2 m hm
    omega
  split
  · -- read only
    rename_i hro
    have hge : 21 ≤ toOrder (accumulate .prepare f.received f.outcome .read_only) := by rw [hro]; decide
    have hall : ∀ m ∈ f.received, m.code = .read_only := by
      intro m hm
      apply ro_of_order
      have := (accumulate_le hge).2 m hm
      rw [hro] at this
      exact this
    obtain ⟨m1, m2, m3, m4⟩ := mkAnswer_fields f.callback.rtype f.callback.origin f.callback.dest
      (accumulate .prepare f.received f.outcome .read_only) (some .commit)
    refine (hs1.trans (Ok.emitRemove' hs1.1 ?_ (by simp) _)).tighten ?_
    · rw [htr1]
      refine ⟨?_, ?_, ?_, ?_, ?_⟩
      · intro a b
        have := mkAnswer_xa_ok b
        rw [hro] at this; cases this
      · intro a b c
        rw [m1] at a
        right; left
        refine ⟨_, _, reqs, f.received, rfl, m2.symm, m3.symm, ?_, h3, h4 (accumulate_good hge).1, hall⟩
        simpa [projP, a] using hfan
      · intro a b
        rw [m1] at a; rcases hk with hk | hk | hk <;> rw [hk] at a <;> cases a
      · intro a b
        have := mkAnswer_xa_ok b
        rw [hro] at this; cases this
      · intro hp
        exfalso
        rcases hp with ⟨a, b⟩ | ⟨a, b⟩
        · rw [m1] at a; rw [m4 a] at b; cases b
        · have := mkAnswer_xa_ok b
          rw [hro] at this; cases this
    · intro t ht hp hx
      exact removeByRange_txs _ _ t ht hx.1
  split
  · -- ok
    rename_i hnro hok
    have hgood := acc (by rw [hok]; decide)
    obtain ⟨ht1, hg1⟩ := find_mem hfind1
    obtain ⟨hl, hl', hl''⟩ := hs1.1.logPrepare ht1
    have hs2 := hs1.trans hl
    have he : s1.logTx f.callback.origin.xid.g = s1.logPrepare t1 := by
      unfold State.logTx; rw [hfind1]
    revert hl' hs2 hl hl''
    rw [← he]
    generalize s1.logTx f.callback.origin.xid.g = s2
    intro hl hl' hl'' hs2
    split
    · rename_i hh
      refine hs2.tighten ?_
      -- the manager is down: nothing left
      rw [hl'' hh1 hh]
      simp
    rename_i hh
    obtain ⟨htx2, rows, htr2⟩ := hl' (by simpa using hh)
    rw [hg1, htr1] at htr2
    have hrep : ∀ st, (f.callback.rtype = .resPrepare ∨ (f.callback.rtype = .commit ∧ st = some .prepare)) →
        RepOk s2.tr f.callback.dest.proc (mkAnswer f.callback.rtype f.callback.origin f.callback.dest
          (accumulate .prepare f.received f.outcome .read_only) st) := by
      intro st hst
      obtain ⟨m1, m2, m3, m4⟩ := mkAnswer_fields f.callback.rtype f.callback.origin f.callback.dest
        (accumulate .prepare f.received f.outcome .read_only) st
      refine ⟨?_, ?_, rows, s.tr, [], by rw [htr2, m3], by simp⟩
      · rw [htr2]
        apply VoteOk.mono
        intro a b
        rw [m1] at a
        refine ⟨f.callback.origin, f.callback.dest, reqs, f.received, ⟨?_, h3, hgood⟩, rfl, m2.symm, m3.symm⟩
        simpa [projP, a] using hfan
      · rcases hst with hst | ⟨a, b⟩
        · right; rw [m1]; refine ⟨hst, ?_⟩
          rw [hok, hst]; rfl
        · left; rw [m1]; exact ⟨a, by rw [m4 a, b]⟩
    split
    · rename_i hrt
      refine (hs2.trans (hs2.1.persistReply (hrep none (.inl hrt)))).tighten ?_
      intro t ht hp hx
      exact hx.2 hrt
    · rename_i hrt
      have hs3 : Ok X s (if f.callback.rtype = .commit then s2.persistReply f.callback.dest.proc
          (mkAnswer f.callback.rtype f.callback.origin f.callback.dest
            (accumulate .prepare f.received f.outcome .read_only) (some .prepare)) else s2) := by
        split
        · rename_i hc; exact hs2.trans (hs2.1.persistReply (hrep _ (.inr ⟨hc, rfl⟩)))
        · exact hs2
      have hpre3 : ∃ l, (if f.callback.rtype = .commit then s2.persistReply f.callback.dest.proc
          (mkAnswer f.callback.rtype f.callback.origin f.callback.dest
            (accumulate .prepare f.received f.outcome .read_only) (some .prepare)) else s2).tr = s.tr ++ .logged f.callback.origin.xid.g rows :: l := by
        split
        · rename_i hc
          obtain ⟨l, hl⟩ := (hs2.1.persistReply (hrep _ (.inr ⟨hc, rfl⟩))).2
          exact ⟨l, by rw [hl, htr2]; simp⟩
        · exact ⟨[], by rw [htr2]⟩
      revert hs3 hpre3
      generalize (if f.callback.rtype = .commit then s2.persistReply f.callback.dest.proc
          (mkAnswer f.callback.rtype f.callback.origin f.callback.dest
            (accumulate .prepare f.received f.outcome .read_only) (some .prepare)) else s2) = s3
      intro hs3 hpre3
      obtain ⟨l3, hl3⟩ := hpre3
      have hs4 : Ok (fun _ => False) s (s3.modify f.callback.origin.xid.g (Tx.setStage .commit)) := by
        refine (hs3.trans (Ok.modify hs3.1 _ _ ?_)).tighten ?_
        · intro t ht hg
          exact ⟨(hs3.1.txs t ht).branches, fun hp => absurd hp (Stage.set_commit_ne _)⟩
        · intro t ht hp hx
          obtain ⟨y, hy, rfl⟩ := List.mem_map.mp ht
          split at hp
          · exact Stage.set_commit_ne _ hp
          · rename_i hne; rw [if_neg hne] at hx; exact hne hx.1
      have htr4 : (s3.modify f.callback.origin.xid.g (Tx.setStage .commit)).tr = s3.tr := rfl
      revert hs4 htr4
      generalize s3.modify f.callback.origin.xid.g (Tx.setStage .commit) = s4
      intro hs4 htr4
      rw [hl3] at htr4
      have hs5 := hs4.1.issueAll .commit false ((f.received.filter (fun r => decide (r.code ≠ .read_only))).map (fun r => (r.trid, r.rm))) (by
        intro r _ hop hr
        intro _
        rw [hop]
        simp only [Bool.false_eq_true, if_false]
        left
        obtain ⟨m, hm, he⟩ := List.mem_map.mp hr
        obtain ⟨hm, hne⟩ := List.mem_filter.mp hm
        simp only [Prod.mk.injEq] at he
        refine ⟨f.callback.rtype, f.callback.origin, f.callback.dest, reqs, f.received, ⟨?_, ?_, hgood⟩,
          ⟨m, hm, ?_, he.1, he.2⟩, rows, by rw [htr4]; simp⟩
        · rw [htr4]; exact List.mem_append_left _ hfan
        · rw [htr4]; exact h3.mono
        · rcases hgood.2 m hm with h | h
          · exact h
          · simp [h] at hne)
      refine (hs4.trans hs5).trans (hs5.1.regCommit ?_ ?_)
      · rcases hk with hk | hk | hk
        · exact .inl hk
        · exact .inr hk
        · exact absurd hk hrt
      · refine ⟨fun q hq => (issueAll_kind _ _ _ _ q hq).1, by simp, ?_⟩
        intro hc
        rcases hc with ⟨hc, _⟩ | ⟨_, hrtc, _⟩
        · cases hc
        · obtain ⟨l5, hl5⟩ := hs5.2
          refine ⟨reqs, f.received, ?_, ?_, issueAll_targets _ _ _ _⟩
          · rw [hl5, htr4, List.append_assoc]; exact List.mem_append_left _ hfan
          · rw [hl5, htr4, List.append_assoc]; exact h3.mono
  · -- not ok
    rename_i hnro hnok
    split
    · rename_i hrt
      obtain ⟨m1, m2, m3, m4⟩ := mkAnswer_fields f.callback.rtype f.callback.origin f.callback.dest
        (accumulate .prepare f.received f.outcome .read_only) none
      refine (hs1.trans (hs1.1.emit ?_ (by simp))).tighten (fun t ht hp hx => hx.2 hrt)
      refine ⟨?_, ?_, ?_, ?_, ?_⟩
      · intro a b; exact absurd (mkAnswer_xa_ok b) hnok
      · intro a; rw [m1, hrt] at a; cases a
      · intro a; rw [m1, hrt] at a; cases a
      · intro a; rw [m1, hrt] at a; cases a
      · intro hp
        rcases hp with ⟨a, b⟩ | ⟨a, b⟩
        · rw [m1, hrt] at a; cases a
        · exact absurd (mkAnswer_xa_ok b) hnok
    · rename_i hrt
      have hs4 : Ok (fun _ => False) s (s1.modify f.callback.origin.xid.g (Tx.setStage .rollback)) := by
        refine (hs1.trans (Ok.modify hs1.1 _ _ ?_)).tighten ?_
        · intro t ht hg
          exact ⟨(hs1.1.txs t ht).branches, fun hp => absurd hp (Stage.set_rollback_ne _)⟩
        · intro t ht hp hx
          obtain ⟨y, hy, rfl⟩ := List.mem_map.mp ht
          split at hp
          · exact Stage.set_rollback_ne _ hp
          · rename_i hne; rw [if_neg hne] at hx; exact hne hx.1
      have htr4 : (s1.modify f.callback.origin.xid.g (Tx.setStage .rollback)).tr = s.tr := htr1
      revert hs4 htr4
      generalize s1.modify f.callback.origin.xid.g (Tx.setStage .rollback) = s4
      intro hs4 htr4
      have hs5 := hs4.1.issueAll .rollback false ((f.received.filter (fun r => decide (r.code ≠ .read_only))).map (fun r => (r.trid, r.rm))) (by
        intro r hrk _ _ hc
        rw [hrk] at hc; cases hc)
      refine (hs4.trans hs5).trans (hs5.1.regRollback ⟨hrt, fun _ => ⟨hnok, hnro⟩⟩ ?_)
      refine ⟨fun q hq => (issueAll_kind _ _ _ _ q hq).1, by simp, ?_⟩
      intro _
      obtain ⟨l5, hl5⟩ := hs5.2
      refine ⟨reqs, f.received, ?_, ?_, issueAll_targets _ _ _ _⟩
      · rw [hl5, htr4]; exact List.mem_append_left _ hfan
      · rw [hl5, htr4]; exact h3.mono

end Casual.TM

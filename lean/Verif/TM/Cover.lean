import Verif.TM.Single
import Verif.TM.Eqn
/-!
# What is logged covers the resources asked to prepare
-/
namespace Casual.TM
open Casual.Code Casual.FanOut

/-- the transaction `g` has not been finished, and the manager has run without interruption -/
def Fresh (g : Nat) (tr : List Obs) : Prop := Obs.removed g ∉ tr ∧ Obs.halted ∉ tr ∧ Obs.ev .crash ∉ tr

theorem Fresh.prefix {g : Nat} {a b : List Obs} (h : Fresh g (a ++ b)) : Fresh g a := by
  unfold Fresh at *; simp_all

/-- this resource was asked to prepare on this branch, on behalf of transaction `g` -/
def Asked (g : Nat) (tr : List Obs) (x : Xid) (rm : Int) : Prop :=
  ∃ rt o d reqs, Obs.fanout .prepare rt o d reqs ∈ tr ∧ o.xid.g = g ∧ ∃ q ∈ reqs, q.trid.xid = x ∧ q.rm = rm

/-- a read-only vote for this branch and resource has come -/
def SaidReadOnly (tr : List Obs) (x : Xid) (rm : Int) : Prop :=
  ∃ m, Obs.got m ∈ tr ∧ m.code = .read_only ∧ m.trid.xid = x ∧ m.rm = rm

/-- the log record written has the branch of every resource asked that has not voted read-only -/
def CoverLog (pre : List Obs) : Obs → Prop
  | .logged g rows => Fresh g pre → ∀ x rm, Asked g pre x rm → x ∈ rows ∨ SaidReadOnly pre x rm
  | _ => True

def HasPair (bs : List Branch) (x : Xid) (rm : Int) : Prop := ∃ b ∈ bs, b.trid.xid = x ∧ rm ∈ b.resources

theorem HasPair.mod {bs : List Branch} {x y : Xid} {rm : Int} {f : Branch → Branch} (h : HasPair bs x rm)
    (hf : ∀ b, (f b).trid = b.trid) (hr : x = y → ∀ b : Branch, rm ∈ b.resources → rm ∈ (f b).resources) :
    HasPair (modBranch y f bs) x rm := by
  induction bs with
  | nil => exact h
  | cons b bs ih =>
    obtain ⟨c, hc, h1, h2⟩ := h
    unfold modBranch
    split
    · rename_i hy
      rcases List.mem_cons.mp hc with rfl | hc
      · exact ⟨f c, by simp, by rw [hf]; exact h1, hr (h1.symm.trans hy) c h2⟩
      · exact ⟨c, by simp [hc], h1, h2⟩
    · rcases List.mem_cons.mp hc with rfl | hc
      · exact ⟨c, by simp, h1, h2⟩
      · obtain ⟨d, hd, h3⟩ := ih ⟨c, hc, h1, h2⟩
        exact ⟨d, by simp [hd], h3⟩

theorem HasPair.purge {bs : List Branch} {x : Xid} {rm : Int} (h : HasPair bs x rm) :
    HasPair (bs.filter (fun b => decide (b.resources ≠ []))) x rm := by
  obtain ⟨b, hb, h1, h2⟩ := h
  refine ⟨b, List.mem_filter.mpr ⟨hb, ?_⟩, h1, h2⟩
  simp; rintro e; rw [e] at h2; cases h2

theorem HasPair.involve {bs : List Branch} {x : Xid} {rm : Int} (h : HasPair bs x rm) (t : Trid) (l : List Int) :
    HasPair (involveBranch t l bs) x rm := by
  unfold involveBranch
  split
  · exact h.mod (fun _ => rfl) (fun _ b hb => mem_appendUnique.mpr (.inl hb))
  · obtain ⟨b, hb, h1⟩ := h
    exact ⟨b, by simp [hb], h1⟩

theorem TxOp.pair {g : Nat} {tr : List Obs} {f : Tx → Tx} (h : TxOp g tr f) {t : Tx} {x : Xid} {rm : Int}
    (hp : HasPair t.branches x rm) : HasPair (f t).branches x rm ∨ SaidReadOnly tr x rm := by
  cases h with
  | stage st => exact .inl hp
  | owner p => exact .inl hp
  | rollback p => exact .inl hp
  | involve trid rms h => exact .inl (hp.involve _ _)
  | involvePurge trid rms h => exact .inl (hp.involve _ _).purge
  | post rs hrs =>
    by_cases hex : ∃ r ∈ rs, r.trid.xid = x ∧ r.rm = rm
    · obtain ⟨r, hr, h1, h2⟩ := hex
      exact .inr ⟨r, (hrs r hr).1, (hrs r hr).2, h1, h2⟩
    · left
      refine HasPair.purge ?_
      dsimp only
      have : ∀ (rs : List Rep) (bs : List Branch), (¬ ∃ r ∈ rs, r.trid.xid = x ∧ r.rm = rm) → HasPair bs x rm →
          HasPair (rs.foldl (fun bs r => modBranch r.trid.xid
            (fun b => { b with resources := b.resources.filter (fun x => decide (x ≠ r.rm)) }) bs) bs) x rm := by
        intro rs
        induction rs with
        | nil => exact fun _ _ h => h
        | cons r rs ih =>
          intro bs hn h
          rw [List.foldl_cons]
          refine ih _ (fun ⟨r', hr', h'⟩ => hn ⟨r', by simp [hr'], h'⟩) (h.mod (fun _ => rfl) ?_)
          intro he b hb
          refine List.mem_filter.mpr ⟨hb, ?_⟩
          simp
          rintro rfl
          exact hn ⟨r, by simp, he.symm, rfl⟩
      exact this rs _ hex hp

def Held (s : State) (g : Nat) (x : Xid) (rm : Int) : Prop := ∃ t ∈ s.txs, t.g = g ∧ HasPair t.branches x rm

structure Cov (s : State) : Prop where
  inv : TInv s.txs
  cover : ∀ g, Fresh g s.tr → ∀ x rm, Asked g s.tr x rm → Held s g x rm ∨ SaidReadOnly s.tr x rm
  logs : Always CoverLog s.tr

theorem SaidReadOnly.mono {a b : List Obs} {x rm} (h : SaidReadOnly a x rm) : SaidReadOnly (a ++ b) x rm := by
  obtain ⟨m, h1, h2⟩ := h
  exact ⟨m, by simp [h1], h2⟩

theorem Asked.split {g : Nat} {a l : List Obs} {x rm} (hl : ∀ o ∈ l, ¬ IsPrep o) (h : Asked g (a ++ l) x rm) :
    Asked g a x rm := by
  obtain ⟨rt, o, d, reqs, h1, h2⟩ := h
  rcases List.mem_append.mp h1 with h1 | h1
  · exact ⟨rt, o, d, reqs, h1, h2⟩
  · exact absurd trivial (hl _ h1)

def NotLog (o : Obs) : Prop := ∀ g rows, o ≠ .logged g rows

theorem Cov.grow {s s' : State} (h : Cov s) (l : List Obs) (ht : s'.tr = s.tr ++ l) (hl : ∀ o ∈ l, ¬ IsPrep o)
    (hg : ∀ o ∈ l, NotLog o) (hT : TInv s'.txs)
    (hx : ∀ g, Fresh g s'.tr → ∀ x rm, Held s g x rm → Held s' g x rm ∨ SaidReadOnly s'.tr x rm) : Cov s' := by
  refine ⟨hT, ?_, ?_⟩
  · intro g hf x rm ha
    have hf' := hf
    rw [ht] at ha hf'
    rcases h.cover g hf'.prefix x rm (ha.split hl) with h1 | h1
    · exact hx g hf x rm h1
    · right; rw [ht]; exact h1.mono
  · rw [ht]
    refine h.logs.grow ?_
    intro a o b he
    have : NotLog o := hg o (by rw [he]; simp)
    cases o <;> first | trivial | exact absurd rfl (this _ _)

theorem Cov.same {s s' : State} (h : Cov s) (l : List Obs) (ht : s'.tr = s.tr ++ l) (hl : ∀ o ∈ l, ¬ IsPrep o)
    (hg : ∀ o ∈ l, NotLog o) (hx : s'.txs = s.txs) : Cov s' :=
  h.grow l ht hl hg (hx ▸ h.inv) (fun g _ x rm ⟨t, h1, h2⟩ => .inl ⟨t, hx ▸ h1, h2⟩)

theorem Cov.removed {s s' : State} (h : Cov s) {g : Nat} {l : List Obs} (ht : s'.tr = s.tr ++ .removed g :: l)
    (hl : ∀ o ∈ l, ∃ x, o = .disassociate x) (hx : s'.txs = s.txs.filter (fun t => decide (t.g ≠ g))) : Cov s' := by
  have hl' : ∀ o ∈ Obs.removed g :: l, ¬ IsPrep o ∧ NotLog o := by
    intro o ho
    rcases List.mem_cons.mp ho with rfl | ho
    · exact ⟨fun k => k, fun _ _ => by simp⟩
    · obtain ⟨x, rfl⟩ := hl o ho
      exact ⟨fun k => k, fun _ _ => by simp⟩
  refine h.grow _ ht (fun o ho => (hl' o ho).1) (fun o ho => (hl' o ho).2) (hx ▸ h.inv.filter _) ?_
  rintro g' hf x rm ⟨t, h1, h2, h3⟩
  refine .inl ⟨t, ?_, h2, h3⟩
  rw [hx]
  refine List.mem_filter.mpr ⟨h1, ?_⟩
  simp
  rintro rfl
  rw [ht, ← h2] at hf
  exact hf.1 (by simp)

theorem Cov.freed {s s' : State} {l : List Obs} (h : Cov s) (hf : Freed s s' l) : Cov s' := by
  obtain ⟨h1, h2, h3⟩ := hf
  have hl : ∀ o ∈ l, ¬ IsPrep o := fun o ho => freed_not_prep (h2 o ho)
  have hg : ∀ o ∈ l, NotLog o := by
    intro o ho g rows e
    have := h2 o ho
    rw [e] at this; exact this
  rcases h3 with ⟨h3, -⟩ | ⟨hm, -, h3, -⟩
  · exact h.same l h1 hl hg h3
  · refine h.grow l h1 hl hg (by rw [h3]; exact .nil) ?_
    intro g hfr
    rw [h1] at hfr
    exact absurd (by simp [hm]) hfr.2.1

theorem Cov.removeX {s : State} (h : Cov s) (g : Nat) : Cov (s.remove g) := by
  obtain ⟨l, h1, h2⟩ := remove_tr s g
  exact h.removed h1 h2 (remove_txs s g)

theorem Cov.removeByRangeX {s : State} (h : Cov s) (g : Nat) : Cov (s.removeByRange g) := by
  obtain ⟨l, h1, h2⟩ := removeByRange_tr s g
  exact h.removed h1 h2 (removeByRange_txs' s g)

theorem send_off {o : Obs} (h : IsSend o) : ¬ IsPrep o ∧ NotLog o := by
  cases o <;> simp_all [IsSend, IsPrep, NotLog]

theorem targets_pair {t : Tx} {tr : Trid} {rm : Int} (h : (tr, rm) ∈ t.targets) : HasPair t.branches tr.xid rm := by
  unfold Tx.targets at h
  obtain ⟨b, hb, hx⟩ := List.mem_flatMap.mp h
  obtain ⟨r, hr, he⟩ := List.mem_map.mp hx
  cases he
  exact ⟨b, hb, rfl, hr⟩

theorem closed_Cov : Closed (fun _ => True) Cov where
  plain := fun s o hpl hp h => h.same [o] rfl (by simpa using hp)
    (by intro x hx; simp at hx; subst hx; intro g rows e; rw [e] at hpl; exact hpl) rfl
  start := fun s t k reqs hf hst hreq h => by
    have hc := issueAll_core (s.modify k.origin.xid.g (Tx.setStage .prepare)) .prepare false t.targets
    obtain ⟨o, h1, h2, -⟩ := issueAll_tr (s.modify k.origin.xid.g (Tx.setStage .prepare)) .prepare false t.targets
    have hT : TInv (s.modify k.origin.xid.g (Tx.setStage .prepare)).txs := h.inv.modify (.stage _)
    have ho : ∀ x ∈ o, ¬ IsPrep x ∧ NotLog x := by
      intro x hx
      rcases h2 x hx with h | ⟨r, rfl⟩
      · exact send_off h
      · exact ⟨fun k => k, fun _ _ => by simp⟩
    obtain ⟨hm, hg⟩ := find_mem hf
    have hH : ∀ g x rm, Held s g x rm → Held (((s.modify k.origin.xid.g (Tx.setStage .prepare)).issueAll .prepare false t.targets).1) g x rm := by
      rintro g x rm ⟨t, h1, h2, h3⟩
      refine ⟨if t.g = k.origin.xid.g then t.setStage .prepare else t, ?_, ?_, ?_⟩
      · rw [hc.txs]; exact List.mem_map.mpr ⟨t, h1, rfl⟩
      · split <;> exact h2
      · split <;> exact h3
    have hM : Cov (((s.modify k.origin.xid.g (Tx.setStage .prepare)).issueAll .prepare false t.targets).1) :=
      h.grow o h1 (fun x hx => (ho x hx).1) (fun x hx => (ho x hx).2) (by rw [hc.txs]; exact hT)
        (fun g _ x rm hh => .inl (hH g x rm hh))
    generalize ((s.modify k.origin.xid.g (Tx.setStage .prepare)).issueAll .prepare false t.targets).1 = s1 at hM hH
    refine ⟨hM.inv, ?_, ?_⟩
    · intro g hfr x rm ha
      obtain ⟨rt, o, d, rq, a1, a2, q, hq, hqx, hqr⟩ := ha
      rcases List.mem_append.mp a1 with a1 | a1
      · rcases hM.cover g (Fresh.prefix (b := [_]) hfr) x rm ⟨rt, o, d, rq, a1, a2, q, hq, hqx, hqr⟩ with h | h
        · exact .inl h
        · exact .inr h.mono
      · simp at a1
        obtain ⟨rfl, rfl, rfl, rfl⟩ := a1
        left
        have : (q.trid, q.rm) ∈ t.targets := by
          rw [← hreq]; exact List.mem_map.mpr ⟨q, hq, rfl⟩
        obtain ⟨t', b1, b2, b3⟩ := hH g x rm ⟨t, hm, hg.trans a2, hqx ▸ hqr ▸ targets_pair this⟩
        exact ⟨t', b1, b2, b3⟩
    · exact hM.logs.snoc trivial
  prep := fun s _ h => h.same [] (by simp) (by simp) (by simp) rfl
  com := fun s _ h => h.same [] (by simp) (by simp) (by simp) rfl
  rol := fun s _ h => h.same [] (by simp) (by simp) (by simp) rfl
  issue := fun s kind op t rm h => by
    have hc := (issue_core { s with nextCorr := s.nextCorr + 1 } ⟨kind, s.nextCorr, t, rm, op⟩)
    obtain ⟨l, hs, hl⟩ := issue_tr { s with nextCorr := s.nextCorr + 1 } ⟨kind, s.nextCorr, t, rm, op⟩
    have ho : ∀ o ∈ Obs.issued ⟨kind, s.nextCorr, t, rm, op⟩ :: l, ¬ IsPrep o ∧ NotLog o := by
      intro o ho
      rcases List.mem_cons.mp ho with rfl | ho
      · exact ⟨fun k => k, fun _ _ => by simp⟩
      · exact send_off (hs o ho)
    exact h.same _ hl (fun o h => (ho o h).1) (fun o h => (ho o h).2) hc.txs
  modify := fun s g f hf h => by
    refine h.grow [] (by simp [State.modify]) (by simp) (by simp) (h.inv.modify hf) ?_
    rintro g' _ x rm ⟨t, h1, h2, h3⟩
    have hmem : (if t.g = g then f t else t) ∈ (s.modify g f).txs := List.mem_map.mpr ⟨t, h1, rfl⟩
    by_cases hg : t.g = g
    · rw [if_pos hg] at hmem
      rcases hf.pair h3 with h4 | h4
      · exact .inl ⟨_, hmem, (hf.g t).trans h2, h4⟩
      · exact .inr h4
    · rw [if_neg hg] at hmem
      exact .inl ⟨_, hmem, h2, h3⟩
  ensure := fun s t _ h => by
    refine h.grow [] ?_ (by simp) (by simp) (h.inv.ensure t) ?_
    · unfold State.ensure; split <;> simp
    · rintro g _ x rm ⟨y, h1, h2⟩
      refine .inl ⟨y, ?_, h2⟩
      unfold State.ensure; split <;> simp [h1]
  remove := fun s g h => h.removeX g
  done := fun s to a g _ h => (h.same [.answer to a] rfl (by simp [IsPrep]) (by simp [NotLog]) rfl : Cov (s.emit (.answer to a))).removeX g
  doneByRange := fun s to a g _ _ h =>
    (h.same [.answer to a] rfl (by simp [IsPrep]) (by simp [NotLog]) rfl : Cov (s.emit (.answer to a))).removeByRangeX g
  queue := fun s _ _ h => h.same [] (by simp) (by simp) (by simp) rfl
  persist := fun s h => by
    have : ∀ o ∈ Obs.persisted :: s.replies.map (fun p => Obs.answer p.1 p.2), ¬ IsPrep o ∧ NotLog o := by
      intro o ho
      rcases List.mem_cons.mp ho with rfl | ho
      · exact ⟨fun k => k, fun _ _ => by simp⟩
      · obtain ⟨x, -, rfl⟩ := List.mem_map.mp ho
        exact ⟨fun k => k, fun _ _ => by simp⟩
    exact h.same _ rfl (fun o h => (this o h).1) (fun o h => (this o h).2) rfl
  logTx := fun s g h => by
    rcases logTx_cases s g with ⟨-, e⟩ | ⟨t, -, l, hf⟩ | ⟨t, hf, e⟩
    · rw [e]; exact h
    · exact h.freed hf
    · rw [e]
      obtain ⟨hm, hg⟩ := find_mem hf
      refine ⟨h.inv, ?_, ?_⟩
      · intro g' hfr x rm ha
        have hfr' : Fresh g' s.tr := Fresh.prefix (b := [.logged t.g (t.branches.map (fun b => b.trid.xid))]) hfr
        rcases h.cover g' hfr' x rm (Asked.split (l := [.logged t.g (t.branches.map (fun b => b.trid.xid))]) (by simp [IsPrep]) ha) with h1 | h1
        · exact .inl h1
        · exact .inr h1.mono
      · refine h.logs.snoc ?_
        intro hfr x rm ha
        rcases h.cover t.g hfr x rm ha with ⟨t', h1, h2, b, hb, h3, -⟩ | h1
        · left
          have : t' = t := eq_of_nodup_map (f := fun t : Tx => t.g) h.inv.uniq h1 hm h2
          subst this
          exact List.mem_map.mpr ⟨b, hb, h3⟩
        · exact .inr h1
  halt := fun s h => h.freed (halt_freed s)
  ext := fun s _ _ h => h.same [] (by simp) (by simp) (by simp) rfl
  inbox := fun s _ h => h.same [] (by simp) (by simp) (by simp) rfl
  replied := fun s r h => by
    have h1 : Cov (s.emit (.got r)) := h.same [.got r] rfl (by simp [IsPrep]) (by simp [NotLog]) rfl
    obtain ⟨l, hf⟩ := replied_freed (s.emit (.got r)) r.rm r.pid
    exact h1.freed hf

theorem reach_Cov (self : Proc) (es : List Event) : Cov (run (init self) es) := by
  refine closed_Cov.run ?_ ?_ ?_ ?_ (init_J self) ⟨.nil, ?_, ?_⟩ es
  · intro s e _ h; exact h.same [.ev e] rfl (by simp [IsPrep]) (by simp [NotLog]) rfl
  · intro s e he h
    have h1 : Cov (s.emit (.ev e)) := h.same [.ev e] rfl (by simp [IsPrep]) (by simp [NotLog]) rfl
    obtain ⟨l, hf⟩ := env_freed (s.emit (.ev e)) e he
    exact h1.freed hf
  · intro s pid ps _ h; exact h.same [.ev (.exit pid)] rfl (by simp [IsPrep]) (by simp [NotLog]) rfl
  · intro s h
    refine h.grow [.ev .crash] rfl (by simp [IsPrep]) (by simp [NotLog]) .nil ?_
    intro g hf
    exact absurd (by show _ ∈ s.tr ++ [_]; simp) hf.2.2
  · rintro g - x rm ⟨_, _, _, _, h, _⟩; simp [init] at h
  · intro a o b h; simp [init] at h

end Casual.TM

import Verif.TM.Life
/-!
# At most one prepare phase in the life of a transaction
-/
namespace Casual.TM
open Casual.Code Casual.FanOut

/-- prepare phases of transaction `g` since its state was removed last (or the manager started) -/
def prepStep (g : Nat) (n : Nat) : Obs → Nat
  | .fanout .prepare _ o _ _ => if o.xid.g = g then n + 1 else n
  | .removed g' => if g' = g then 0 else n
  | .halted => 0
  | .ev .crash => 0
  | _ => n

def preps (g : Nat) (tr : List Obs) : Nat := tr.foldl (prepStep g) 0

theorem preps_append (g : Nat) (a b : List Obs) : preps g (a ++ b) = b.foldl (prepStep g) (preps g a) := by
  simp [preps]

theorem prepStep_le {g n : Nat} {o : Obs} (h : ¬ IsPrep o) : prepStep g n o ≤ n := by
  unfold prepStep
  split
  · exact absurd trivial h
  · split <;> omega
  · omega
  · omega
  · omega

theorem fold_le {g n : Nat} {l : List Obs} (h : ∀ o ∈ l, ¬ IsPrep o) : l.foldl (prepStep g) n ≤ n := by
  induction l generalizing n with
  | nil => exact Nat.le_refl _
  | cons o l ih =>
    exact Nat.le_trans (ih (fun x hx => h x (by simp [hx]))) (prepStep_le (h o (by simp)))

theorem fold_zero {g n : Nat} {l : List Obs} (h : ∀ o ∈ l, ¬ IsPrep o) {o : Obs} (hm : o ∈ l)
    (ho : ∀ k, prepStep g k o = 0) : l.foldl (prepStep g) n = 0 := by
  obtain ⟨a, b, rfl⟩ := List.append_of_mem hm
  rw [List.foldl_append, List.foldl_cons, ho]
  exact Nat.le_zero.mp (fold_le (fun x hx => h x (by simp [hx])))

structure SP (s : State) : Prop where
  inv : TInv s.txs
  one : ∀ g a b, s.tr = a ++ b → preps g a ≤ 1
  stage : ∀ g, preps g s.tr = 0 ∨ ∃ t ∈ s.txs, t.g = g ∧ 1 ≤ t.stage.rank

theorem one_append {g : Nat} {tr l : List Obs} (h : ∀ a b, tr = a ++ b → preps g a ≤ 1)
    (hl : ∀ x y, l = x ++ y → preps g (tr ++ x) ≤ 1) (a b : List Obs) (he : tr ++ l = a ++ b) : preps g a ≤ 1 := by
  rcases List.append_eq_append_iff.mp he with ⟨x, h1, h2⟩ | ⟨x, h1, h2⟩
  · rw [h1]; exact hl x b h2
  · exact h a x h1

/-- nothing is prepared, the table grows -/
theorem SP.grow {s s' : State} (h : SP s) (l : List Obs) (ht : s'.tr = s.tr ++ l) (hl : ∀ o ∈ l, ¬ IsPrep o)
    (hT : TInv s'.txs)
    (hx : ∀ t ∈ s.txs, l.foldl (prepStep t.g) (preps t.g s.tr) = 0 ∨
      ∃ t' ∈ s'.txs, t'.g = t.g ∧ t.stage.rank ≤ t'.stage.rank) : SP s' := by
  refine ⟨hT, ?_, ?_⟩
  · intro g a b he
    rw [ht] at he
    exact one_append (h.one g) (fun x y hxy => by
      rw [preps_append]
      exact Nat.le_trans (fold_le (fun o ho => hl o (by rw [hxy]; simp [ho]))) (h.one g s.tr [] (by simp))) a b he
  · intro g
    rw [ht, preps_append]
    rcases h.stage g with h0 | ⟨t, hm, hg, hr⟩
    · left; have := fold_le (g := g) (n := preps g s.tr) hl; omega
    · subst hg
      rcases hx t hm with hx | ⟨t', h1, h2, h3⟩
      · exact .inl hx
      · exact .inr ⟨t', h1, h2, by omega⟩

theorem SP.same {s s' : State} (h : SP s) (l : List Obs) (ht : s'.tr = s.tr ++ l) (hl : ∀ o ∈ l, ¬ IsPrep o)
    (hx : s'.txs = s.txs) : SP s' :=
  h.grow l ht hl (hx ▸ h.inv) (fun t ht => .inr ⟨t, hx ▸ ht, rfl, Nat.le_refl _⟩)

theorem SP.removed {s s' : State} (h : SP s) {g : Nat} {l : List Obs} (ht : s'.tr = s.tr ++ .removed g :: l)
    (hl : ∀ o ∈ l, ¬ IsPrep o) (hx : s'.txs = s.txs.filter (fun t => decide (t.g ≠ g))) : SP s' := by
  have hl' : ∀ o ∈ Obs.removed g :: l, ¬ IsPrep o := by
    intro o ho
    rcases List.mem_cons.mp ho with rfl | ho
    · exact fun k => k
    · exact hl o ho
  refine h.grow _ ht hl' (hx ▸ h.inv.filter _) ?_
  intro t hm
  by_cases hg : t.g = g
  · left
    exact fold_zero hl' (o := .removed g) (by simp) (fun k => by simp [prepStep, hg])
  · exact .inr ⟨t, by rw [hx]; simp [hm, hg], rfl, Nat.le_refl _⟩

theorem freed_not_prep {o : Obs} (h : IsFree o) : ¬ IsPrep o := by
  cases o <;> simp_all [IsFree, IsPrep]

theorem SP.freed {s s' : State} {l : List Obs} (h : SP s) (hf : Freed s s' l) : SP s' := by
  obtain ⟨h1, h2, h3⟩ := hf
  have hl : ∀ o ∈ l, ¬ IsPrep o := fun o ho => freed_not_prep (h2 o ho)
  rcases h3 with ⟨h3, -⟩ | ⟨hm, -, h3, -⟩
  · exact h.same l h1 hl h3
  · refine h.grow l h1 hl (by rw [h3]; exact .nil) ?_
    intro t _
    exact .inl (fold_zero hl hm (fun k => rfl))

theorem SP.removeX {s : State} (h : SP s) (g : Nat) : SP (s.remove g) := by
  obtain ⟨l, h1, h2⟩ := remove_tr s g
  refine h.removed h1 ?_ (remove_txs s g)
  intro o ho
  have := h2 o ho
  cases o <;> simp_all [IsPrep]

theorem SP.removeByRangeX {s : State} (h : SP s) (g : Nat) : SP (s.removeByRange g) := by
  obtain ⟨l, h1, h2⟩ := removeByRange_tr s g
  refine h.removed h1 ?_ (removeByRange_txs' s g)
  intro o ho
  have := h2 o ho
  cases o <;> simp_all [IsPrep]

theorem closed_SP : Closed (fun _ => True) SP where
  plain := fun s o _ hp h => h.same [o] rfl (by simpa using hp) rfl
  start := fun s t k reqs hf hst _ h => by
    generalize t.targets = l
    have hc := issueAll_core (s.modify k.origin.xid.g (Tx.setStage .prepare)) .prepare false l
    obtain ⟨o, h1, h2, -⟩ := issueAll_tr (s.modify k.origin.xid.g (Tx.setStage .prepare)) .prepare false l
    have hT : TInv (s.modify k.origin.xid.g (Tx.setStage .prepare)).txs := h.inv.modify (.stage _)
    have ho : ∀ x ∈ o, ¬ IsPrep x := by
      intro x hx
      rcases h2 x hx with h | ⟨r, rfl⟩
      · cases x <;> simp_all [IsSend, IsPrep]
      · exact fun k => k
    have hM : SP (((s.modify k.origin.xid.g (Tx.setStage .prepare)).issueAll .prepare false l).1) := by
      refine h.grow o h1 ho (by rw [hc.txs]; exact hT) ?_
      intro x hx
      refine .inr ⟨if x.g = k.origin.xid.g then x.setStage .prepare else x, ?_, ?_, ?_⟩
      · rw [hc.txs]; exact List.mem_map.mpr ⟨x, hx, rfl⟩
      · split <;> rfl
      · split
        · exact Stage.rank_set _ _
        · exact Nat.le_refl _
    obtain ⟨hm, hg⟩ := find_mem hf
    have h0 : preps k.origin.xid.g s.tr = 0 := by
      rcases h.stage k.origin.xid.g with h0 | ⟨t', hm', hg', hr⟩
      · exact h0
      · have : t' = t := eq_of_nodup_map (f := fun t : Tx => t.g) h.inv.uniq hm' hm (by rw [hg', hg])
        subst this
        rw [hst] at hr; simp [Stage.rank] at hr
    have h0' : preps k.origin.xid.g ((s.modify k.origin.xid.g (Tx.setStage .prepare)).issueAll .prepare false l).1.tr = 0 := by
      rw [h1, preps_append]
      have : preps k.origin.xid.g (s.modify k.origin.xid.g (Tx.setStage .prepare)).tr = 0 := h0
      rw [this]
      exact Nat.le_zero.mp (fold_le ho)
    refine ⟨hM.inv, ?_, ?_⟩
    · intro g
      refine one_append (hM.one g) ?_
      intro x y hxy
      cases x with
      | nil => rw [List.append_nil]; exact hM.one g _ [] (by simp)
      | cons z x =>
        simp only [List.cons_append, List.cons.injEq] at hxy
        obtain ⟨rfl, hxy⟩ := hxy
        have : x = [] := by
          cases x with
          | nil => rfl
          | cons _ _ => simp at hxy
        subst this
        rw [preps_append]
        simp only [List.foldl_cons, List.foldl_nil, prepStep]
        split
        · rename_i he; subst he; omega
        · exact hM.one g _ [] (by simp)
    · intro g
      show preps g (_ ++ [_]) = 0 ∨ _
      rw [preps_append]
      simp only [List.foldl_cons, List.foldl_nil, prepStep]
      split
      · rename_i he; subst he
        refine .inr ⟨t.setStage .prepare, ?_, hg, ?_⟩
        · show _ ∈ ((s.modify k.origin.xid.g (Tx.setStage .prepare)).issueAll .prepare false l).1.txs
          rw [hc.txs]
          exact List.mem_map.mpr ⟨t, hm, by rw [if_pos hg]⟩
        · simp [Tx.setStage, hst, Stage.set, Stage.rank]
      · exact hM.stage g
  prep := fun s _ h => h.same [] (by simp) (by simp) rfl
  com := fun s _ h => h.same [] (by simp) (by simp) rfl
  rol := fun s _ h => h.same [] (by simp) (by simp) rfl
  issue := fun s kind op t rm h => by
    have hc := (issue_core { s with nextCorr := s.nextCorr + 1 } ⟨kind, s.nextCorr, t, rm, op⟩)
    obtain ⟨l, hs, hl⟩ := issue_tr { s with nextCorr := s.nextCorr + 1 } ⟨kind, s.nextCorr, t, rm, op⟩
    refine h.same _ hl ?_ hc.txs
    intro o ho
    rcases List.mem_cons.mp ho with rfl | ho
    · exact fun k => k
    · have := hs o ho
      cases o <;> simp_all [IsSend, IsPrep]
  modify := fun s g f hf h => by
    refine h.grow [] (by simp [State.modify]) (by simp) (h.inv.modify hf) ?_
    intro t ht
    refine .inr ⟨if t.g = g then f t else t, List.mem_map.mpr ⟨t, ht, rfl⟩, ?_, ?_⟩
    · split
      · exact hf.g t
      · rfl
    · split
      · exact hf.rank t
      · exact Nat.le_refl _
  ensure := fun s t _ h => by
    refine h.grow [] ?_ (by simp) (h.inv.ensure t) ?_
    · unfold State.ensure; split <;> simp
    · intro x hx
      refine .inr ⟨x, ?_, rfl, Nat.le_refl _⟩
      unfold State.ensure; split <;> simp [hx]
  remove := fun s g h => h.removeX g
  done := fun s to a g _ h => (h.same [.answer to a] rfl (by simp [IsPrep]) rfl : SP (s.emit (.answer to a))).removeX g
  doneByRange := fun s to a g _ _ h =>
    (h.same [.answer to a] rfl (by simp [IsPrep]) rfl : SP (s.emit (.answer to a))).removeByRangeX g
  queue := fun s _ _ h => h.same [] (by simp) (by simp) rfl
  persist := fun s h => h.same _ rfl (by
    intro o ho
    rcases List.mem_cons.mp ho with rfl | ho
    · exact fun k => k
    · obtain ⟨x, -, rfl⟩ := List.mem_map.mp ho
      exact fun k => k) rfl
  logTx := fun s g h => by
    rcases logTx_cases s g with ⟨-, e⟩ | ⟨t, -, l, hf⟩ | ⟨t, -, e⟩
    · rw [e]; exact h
    · exact h.freed hf
    · rw [e]; exact h.same [.logged t.g (t.branches.map (fun b => b.trid.xid))] rfl (by simp [IsPrep]) rfl
  halt := fun s h => h.freed (halt_freed s)
  ext := fun s _ _ h => h.same [] (by simp) (by simp) rfl
  inbox := fun s _ h => h.same [] (by simp) (by simp) rfl
  replied := fun s r h => by
    have h1 : SP (s.emit (.got r)) := h.same [.got r] rfl (by simp [IsPrep]) rfl
    obtain ⟨l, hf⟩ := replied_freed (s.emit (.got r)) r.rm r.pid
    exact h1.freed hf

theorem reach_SP (self : Proc) (es : List Event) : SP (run (init self) es) := by
  refine closed_SP.run ?_ ?_ ?_ ?_ (init_J self) ⟨.nil, fun g a b h => ?_, fun _ => .inl rfl⟩ es
  · intro s e _ h; exact h.same [.ev e] rfl (by simp [IsPrep]) rfl
  · intro s e he h
    have h1 : SP (s.emit (.ev e)) := h.same [.ev e] rfl (by simp [IsPrep]) rfl
    obtain ⟨l, hf⟩ := env_freed (s.emit (.ev e)) e he
    exact h1.freed hf
  · intro s pid ps _ h; exact h.same [.ev (.exit pid)] rfl (by simp [IsPrep]) rfl
  · intro s h
    refine h.grow [.ev .crash] rfl (by simp [IsPrep]) .nil ?_
    intro t _; exact .inl rfl
  · have : a = [] := (List.append_eq_nil_iff.mp (show a ++ b = [] from h.symm)).1
    subst this; exact Nat.zero_le _

/-- a prepare phase of `g` is started -/
def isPrepOf (g : Nat) : Obs → Bool
  | .fanout .prepare _ o _ _ => o.xid.g = g
  | _ => false

theorem preps_eq_count {g : Nat} {a : List Obs} (h1 : Obs.removed g ∉ a) (h2 : Obs.halted ∉ a) (h3 : Obs.ev .crash ∉ a) :
    preps g a = a.countP (isPrepOf g) := by
  induction a using snocInd with
  | nil => rfl
  | snoc a o ih =>
    rw [preps_append, List.countP_append, ih (by simp_all) (by simp_all) (by simp_all)]
    simp only [List.foldl_cons, List.foldl_nil, List.countP_singleton]
    cases o with
    | fanout k _ o _ _ =>
      cases k with
      | prepare => simp only [prepStep, isPrepOf, decide_eq_true_eq]; split <;> rfl
      | commit => rfl
      | rollback => rfl
    | removed g' =>
      have : g' ≠ g := by rintro rfl; simp at h1
      simp [prepStep, isPrepOf, this]
    | halted => simp at h2
    | ev e =>
      cases e with
      | crash => simp at h3
      | _ => rfl
    | _ => rfl

/-- in the life of a transaction there is at most one prepare phase -/
theorem single_prepare (self : Proc) (es : List Event) (g : Nat) (a b : List Obs) (h : (run (init self) es).tr = a ++ b)
    (h1 : Obs.removed g ∉ a) (h2 : Obs.halted ∉ a) (h3 : Obs.ev .crash ∉ a) : a.countP (isPrepOf g) ≤ 1 := by
  rw [← preps_eq_count h1 h2 h3]
  exact (reach_SP self es).one g a b h

end Casual.TM

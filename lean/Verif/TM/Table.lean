import Verif.TM.Closed
/-!
# The table of transactions: invariant, stages, removal
-/
namespace Casual.TM
open Casual.Code Casual.FanOut

/-! ## Which handlers touch the table -/

theorem instReady_txs (s : State) (rm : Int) (pid : Nat) :
    (s.instReady rm pid).txs = s.txs ∨ (s.instReady rm pid).txs = [] := by
  unfold State.instReady
  split
  · exact .inl rfl
  split
  · exact .inl rfl
  dsimp only
  split
  · exact .inl rfl
  split
  · exact .inl rfl
  · exact .inr rfl

theorem replied_txs (s : State) (rm : Int) (pid : Nat) :
    (s.replied rm pid).txs = s.txs ∨ (s.replied rm pid).txs = [] := by
  unfold State.replied
  split
  · split
    · exact .inr rfl
    · exact instReady_txs _ _ _
  · exact .inl rfl

theorem logTx_txs (s : State) (g : Nat) : (s.logTx g).txs = s.txs ∨ (s.logTx g).txs = [] := by
  unfold State.logTx
  split
  · unfold State.logPrepare
    dsimp only
    split
    · exact .inr rfl
    · exact .inl rfl
  · exact .inl rfl

theorem remove_txs (s : State) (g : Nat) : (s.remove g).txs = s.txs.filter (fun t => decide (t.g ≠ g)) := by
  unfold State.remove
  dsimp only
  split
  · rfl
  · rename_i h
    dsimp only
    symm
    rw [List.filter_eq_self]
    intro t ht
    simp only [List.any_eq_true, decide_eq_true_eq, not_exists, not_and] at h
    simpa using h t ht

theorem removeByRange_txs' (s : State) (g : Nat) : (s.removeByRange g).txs = s.txs.filter (fun t => decide (t.g ≠ g)) := by
  rw [← remove_txs]
  unfold State.remove State.removeByRange
  dsimp only
  split <;> rfl

/-! ## Invariant of the table -/

structure TxGood (t : Tx) : Prop where
  g : ∀ b ∈ t.branches, b.trid.xid.g = t.g
  uniq : (t.branches.map (·.trid.xid)).Nodup
  rms : ∀ b ∈ t.branches, b.resources.Nodup

structure TInv (txs : List Tx) : Prop where
  uniq : (txs.map (·.g)).Nodup
  good : ∀ t ∈ txs, TxGood t

theorem TInv.nil : TInv [] := ⟨by simp, by simp⟩

theorem TInv.filter {txs : List Tx} (h : TInv txs) (p : Tx → Bool) : TInv (txs.filter p) :=
  ⟨h.uniq.sublist (List.filter_sublist.map _), fun t ht => h.good t (List.mem_filter.mp ht).1⟩

theorem TInv.map {txs : List Tx} (h : TInv txs) (f : Tx → Tx) (hg : ∀ t ∈ txs, (f t).g = t.g)
    (hf : ∀ t ∈ txs, TxGood (f t)) : TInv (txs.map f) := by
  refine ⟨?_, ?_⟩
  · have : (txs.map f).map (·.g) = txs.map (·.g) := by
      rw [List.map_map]
      exact List.map_congr_left hg
    rw [this]; exact h.uniq
  · intro t ht
    obtain ⟨x, hx, rfl⟩ := List.mem_map.mp ht
    exact hf x hx

theorem TInv.append {txs : List Tx} (h : TInv txs) {t : Tx} (ht : TxGood t) (hn : ∀ x ∈ txs, x.g ≠ t.g) :
    TInv (txs ++ [t]) := by
  refine ⟨?_, ?_⟩
  · rw [List.map_append, List.nodup_append]
    refine ⟨h.uniq, by simp, ?_⟩
    intro a ha b hb
    obtain ⟨x, hx, rfl⟩ := List.mem_map.mp ha
    simp at hb; subst hb
    exact hn x hx
  · intro x hx
    rcases List.mem_append.mp hx with hx | hx
    · exact h.good x hx
    · simp at hx; subst hx; exact ht

theorem appendUnique_nodup {l out : List Int} (h : out.Nodup) : (appendUnique l out).Nodup := by
  unfold appendUnique
  induction l generalizing out with
  | nil => exact h
  | cons v l ih =>
    rw [List.foldl_cons]
    apply ih
    split
    · exact h
    · rename_i hv
      rw [List.nodup_append]
      refine ⟨h, by simp, ?_⟩
      intro a ha b hb
      simp at hb; subst hb
      rintro rfl
      exact hv ha

theorem mem_appendUnique {l out : List Int} {r : Int} : r ∈ appendUnique l out ↔ r ∈ out ∨ r ∈ l := by
  unfold appendUnique
  induction l generalizing out with
  | nil => simp
  | cons v l ih =>
    rw [List.foldl_cons, ih]
    split
    · rename_i hv; grind
    · grind

theorem modBranch_mem {x : Xid} {f : Branch → Branch} {bs : List Branch} {b : Branch}
    (h : b ∈ modBranch x f bs) : b ∈ bs ∨ ∃ b0 ∈ bs, b0.trid.xid = x ∧ b = f b0 := by
  induction bs with
  | nil => cases h
  | cons a bs ih =>
    unfold modBranch at h
    split at h
    · rename_i ha
      rcases List.mem_cons.mp h with rfl | h
      · exact .inr ⟨a, by simp, ha, rfl⟩
      · exact .inl (by simp [h])
    · rcases List.mem_cons.mp h with rfl | h
      · exact .inl (by simp)
      · rcases ih h with h | ⟨b0, h1, h2⟩
        · exact .inl (by simp [h])
        · exact .inr ⟨b0, by simp [h1], h2⟩

theorem modBranch_trids (x : Xid) (f : Branch → Branch) (hf : ∀ b, (f b).trid = b.trid) (bs : List Branch) :
    (modBranch x f bs).map (·.trid) = bs.map (·.trid) := by
  induction bs with
  | nil => rfl
  | cons b bs ih =>
    unfold modBranch
    split
    · simp [hf]
    · simp [ih]

/-- goodness of a list of branches of the transaction `g` -/
structure BsGood (g : Nat) (bs : List Branch) : Prop where
  g : ∀ b ∈ bs, b.trid.xid.g = g
  uniq : (bs.map (·.trid.xid)).Nodup
  rms : ∀ b ∈ bs, b.resources.Nodup

theorem BsGood.modBranch {g : Nat} {bs : List Branch} (h : BsGood g bs) (x : Xid) {f : Branch → Branch}
    (hf : ∀ b, (f b).trid = b.trid) (hr : ∀ b, b.resources.Nodup → (f b).resources.Nodup) :
    BsGood g (modBranch x f bs) := by
  refine ⟨?_, ?_, ?_⟩
  · intro b hb
    rcases modBranch_mem hb with hb | ⟨b0, hb0, -, rfl⟩
    · exact h.g b hb
    · rw [hf]; exact h.g b0 hb0
  · have : (TM.modBranch x f bs).map (·.trid.xid) = ((TM.modBranch x f bs).map (·.trid)).map (·.xid) := by simp
    rw [this, modBranch_trids x f hf, List.map_map]
    exact h.uniq
  · intro b hb
    rcases modBranch_mem hb with hb | ⟨b0, hb0, -, rfl⟩
    · exact h.rms b hb
    · exact hr _ (h.rms b0 hb0)

theorem BsGood.filter {g : Nat} {bs : List Branch} (h : BsGood g bs) (p : Branch → Bool) : BsGood g (bs.filter p) :=
  ⟨fun b hb => h.g b (List.mem_filter.mp hb).1, h.uniq.sublist (List.filter_sublist.map _),
   fun b hb => h.rms b (List.mem_filter.mp hb).1⟩

theorem BsGood.involve {g : Nat} {bs : List Branch} (h : BsGood g bs) {trid : Trid} (hg : trid.xid.g = g)
    (rms : List Int) : BsGood g (involveBranch trid rms bs) := by
  unfold involveBranch
  split
  · exact h.modBranch _ (fun _ => rfl) (fun _ hb => appendUnique_nodup hb)
  · rename_i hn
    simp only [List.any_eq_true, decide_eq_true_eq, not_exists, not_and] at hn
    refine ⟨?_, ?_, ?_⟩
    · intro b hb
      rcases List.mem_append.mp hb with hb | hb
      · exact h.g b hb
      · simp at hb; subst hb; exact hg
    · rw [List.map_append, List.nodup_append]
      refine ⟨h.uniq, by simp, ?_⟩
      intro a ha b hb
      obtain ⟨x, hx, rfl⟩ := List.mem_map.mp ha
      simp at hb; subst hb
      exact hn x hx
    · intro b hb
      rcases List.mem_append.mp hb with hb | hb
      · exact h.rms b hb
      · simp at hb; subst hb; exact appendUnique_nodup (by simp)

theorem TxGood.iff {t : Tx} : TxGood t ↔ BsGood t.g t.branches :=
  ⟨fun h => ⟨h.g, h.uniq, h.rms⟩, fun h => ⟨h.g, h.uniq, h.rms⟩⟩

theorem BsGood.purgeReplies {g : Nat} {bs : List Branch} (h : BsGood g bs) (rs : List Rep) :
    BsGood g (rs.foldl (fun bs r => TM.modBranch r.trid.xid (fun b => { b with resources := b.resources.filter (fun x => x ≠ r.rm) }) bs) bs) := by
  induction rs generalizing bs with
  | nil => exact h
  | cons r rs ih => exact ih (h.modBranch _ (fun _ => rfl) (fun _ hb => hb.sublist List.filter_sublist))

theorem TxOp.g {g : Nat} {tr : List Obs} {f : Tx → Tx} (h : TxOp g tr f) (t : Tx) : (f t).g = t.g := by cases h <;> rfl

theorem TxOp.good {g : Nat} {tr : List Obs} {f : Tx → Tx} (h : TxOp g tr f) {t : Tx} (ht : TxGood t) (hg : t.g = g) : TxGood (f t) := by
  rw [TxGood.iff] at *
  cases h with
  | stage st => exact ht
  | owner p => exact ht
  | post rs => exact (ht.purgeReplies rs).filter _
  | rollback p => exact ht
  | involve trid rms he => exact ht.involve (he.trans hg.symm) rms
  | involvePurge trid rms he => exact (ht.involve (he.trans hg.symm) rms).filter _

theorem Stage.rank_set (a w : Stage) : a.rank ≤ (a.set w).rank := by
  unfold Stage.set; split <;> omega

theorem TxOp.rank {g : Nat} {tr : List Obs} {f : Tx → Tx} (h : TxOp g tr f) (t : Tx) : t.stage.rank ≤ (f t).stage.rank := by
  cases h
  case stage st => exact Stage.rank_set _ _
  case post rs => exact Stage.rank_set _ _
  case rollback p => exact Stage.rank_set _ _
  all_goals exact Nat.le_refl _

theorem TInv.modify {s : State} (h : TInv s.txs) {g : Nat} {f : Tx → Tx} (hf : TxOp g s.tr f) : TInv (s.modify g f).txs := by
  refine h.map _ ?_ ?_
  · intro t ht; split
    · exact hf.g t
    · rfl
  · intro t ht; split
    · exact hf.good (h.good t ht) (by assumption)
    · exact h.good t ht

theorem TInv.ensure {s : State} (h : TInv s.txs) (t : Trid) : TInv (s.ensure t).txs := by
  unfold State.ensure
  split
  · exact h
  · rename_i hn
    simp only [List.any_eq_true, decide_eq_true_eq, not_exists, not_and] at hn
    refine h.append ?_ hn
    exact ⟨by simp [Tx.new], by simp [Tx.new], by simp [Tx.new]⟩

theorem closed_TInv' : ClosedS (fun _ => True) (fun s => TInv s.txs) where
  plain := fun _ _ _ h => h
  prep := fun _ _ h => h
  com := fun _ _ h => h
  rol := fun _ _ h => h
  issue := fun s kind op t rm h => by
    rw [(issue_core { s with nextCorr := s.nextCorr + 1 } ⟨kind, s.nextCorr, t, rm, op⟩).txs]; exact h
  modify := fun _ _ _ hf h => h.modify hf
  ensure := fun _ t _ h => h.ensure t
  remove := fun s g h => by rw [remove_txs]; exact h.filter _
  done := fun s to a g _ h => by rw [remove_txs]; exact h.filter _
  doneByRange := fun s to a g _ _ h => by rw [removeByRange_txs']; exact h.filter _
  queue := fun _ _ _ h => h
  persist := fun _ h => h
  logTx := fun s g h => by rcases logTx_txs s g with e | e <;> rw [e] <;> first | exact h | exact .nil
  halt := fun _ _ => .nil
  ext := fun _ _ _ h => h
  inbox := fun _ _ h => h
  replied := fun s r h => by
    rcases replied_txs (s.emit (.got r)) r.rm r.pid with e | e <;> rw [e] <;> first | exact h | exact .nil

theorem closed_TInv : Closed (fun _ => True) (fun s => TInv s.txs) := (closed_TInv' ).closed

theorem env_txs (s : State) (e : Event) (he : e.isEnv) :
    (handle s e).txs = s.txs ∨ (handle s e).txs = [] := by
  cases e with
  | ready rm p =>
    dsimp only [handle]
    unfold readyHandler
    split
    · exact .inr rfl
    · exact instReady_txs _ _ _
  | spawn rm pid =>
    dsimp only [handle]
    split
    · exact .inl rfl
    · split <;> exact .inl rfl
  | scaleIn rm pid => exact .inl rfl
  | ipcGone i => exact .inl rfl
  | _ => exact he.elim

theorem reach_TInv (self : Proc) (es : List Event) : TInv (run (init self) es).txs := by
  refine Closed.run (P := fun s => TInv s.txs) closed_TInv (fun _ _ _ h => h) ?_ (fun _ _ _ _ h => h) (fun _ _ => .nil) (init_J self) .nil es
  intro s e he h
  rcases env_txs (s.emit (.ev e)) e he with e | e <;> rw [e] <;> first | exact h | exact .nil

end Casual.TM

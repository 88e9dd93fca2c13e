import Verif.Service.Lookup
/-! The basic invariant is kept by every step. -/
namespace Casual.Service

/-! ## Removal of instances -/

theorem foldl_dropSeq (is : List Nat) (s : State) :
    is.foldl State.dropSeq s = { s with services := s.services.map fun v => { v with seqs := v.seqs.filter fun i => i ∉ is }, seq := is.foldl Index.erase s.seq, disabled := s.disabled.filter fun i => i ∉ is } := by
  induction is generalizing s with
  | nil =>
    have h1 : ∀ l : List Nat, l.filter (fun i => decide (i ∉ ([] : List Nat))) = l := fun l => List.filter_eq_self.mpr (by simp)
    simp only [h1, List.foldl_nil, List.map_id']
  | cons j is ih =>
    rw [List.foldl_cons, ih]
    have h1 : ∀ l : List Nat, (l.filter fun i => decide (i ≠ j)).filter (fun i => decide (i ∉ is)) = l.filter fun i => decide (i ∉ j :: is) := by
      intro l
      rw [List.filter_filter]
      apply List.filter_congr
      intro a _
      simp [Bool.and_comm]
    simp only [State.dropSeq, State.cleanSeq, Svc.removeSeq, List.foldl_cons, List.map_map]
    congr 1
    · apply List.map_congr_left
      intro v _
      simp only [Function.comp, h1]
    · exact h1 _

theorem foldl_dropCon (is : List Nat) (s : State) :
    is.foldl State.dropCon s = { s with services := s.services.map fun v => is.foldl Svc.removeCon v, con := is.foldl Index.erase s.con } := by
  induction is generalizing s with
  | nil => simp
  | cons j is ih =>
    rw [List.foldl_cons, ih]
    simp only [State.dropCon, State.cleanCon, List.foldl_cons, List.map_map]
    congr 1

theorem get_foldl_erase {α : Type} (is : List Nat) (l : List (Option α)) (j : Nat) :
    Index.get (is.foldl Index.erase l) j = if j ∈ is then none else Index.get l j := by
  induction is generalizing l with
  | nil => simp
  | cons i is ih =>
    rw [List.foldl_cons, ih, Index.get_erase]
    by_cases h1 : j ∈ is <;> by_cases h2 : j = i <;> simp [h1, h2]

theorem eraseP_id {l : List ConE} (h : (l.map (·.id)).Nodup) (i : Nat) : l.eraseP (fun c => c.id == i) = l.filter fun c => decide (c.id ≠ i) := by
  induction l with
  | nil => rfl
  | cons a l ih =>
    simp only [List.map_cons, List.nodup_cons] at h
    by_cases e : a.id = i
    · rw [List.eraseP_cons_of_pos (by simp [e]), List.filter_cons_of_neg (by simp [e])]
      rw [List.filter_eq_self.mpr]
      intro b hb
      simp only [decide_eq_true_eq]
      intro hbi
      exact h.1 (List.mem_map.mpr ⟨b, hb, by rw [hbi, e]⟩)
    · rw [List.eraseP_cons_of_neg (by simp [e]), List.filter_cons_of_pos (by simp [e]), ih h.2]

theorem foldl_removeCon (is : List Nat) {v : Svc} (h : (v.cons.map (·.id)).Nodup) :
    is.foldl Svc.removeCon v = { v with cons := v.cons.filter fun c => decide (c.id ∉ is) } := by
  induction is generalizing v with
  | nil =>
    have h1 : v.cons.filter (fun c => decide (c.id ∉ ([] : List Nat))) = v.cons := List.filter_eq_self.mpr (by simp)
    rw [h1]; rfl
  | cons j is ih =>
    have hj : (v.removeCon j).cons = v.cons.filter fun c => decide (c.id ≠ j) := eraseP_id h j
    rw [List.foldl_cons, ih (by rw [hj]; exact List.Nodup.sublist (List.Sublist.map _ List.filter_sublist) h), hj, List.filter_filter]
    unfold Svc.removeCon
    congr 1
    apply List.filter_congr
    intro a _
    simp [Bool.and_comm]

/-- The state after the removal of the instances of the processes `p`. -/
def State.without (s : State) (p : Proc → Bool) : State :=
  { s with
    services := s.services.map fun v => { v with seqs := v.seqs.filter fun i => i ∉ s.seqIds p, cons := v.cons.filter fun c => decide (c.id ∉ s.conIds p) },
    seq := (s.seqIds p).foldl Index.erase s.seq,
    con := (s.conIds p).foldl Index.erase s.con,
    disabled := s.disabled.filter fun i => i ∉ s.seqIds p }

theorem remove_eq {s : State} (h : Inv s) (p : Proc → Bool) : s.remove p = (s.without p, s.callers (s.seqIds p)) := by
  have h1 : (s.conIds p).foldl State.dropCon s = { s with services := s.services.map fun v => { v with cons := v.cons.filter fun c => decide (c.id ∉ s.conIds p) }, con := (s.conIds p).foldl Index.erase s.con } := by
    rw [foldl_dropCon]
    congr 1
    apply List.map_congr_left
    intro v hv
    exact foldl_removeCon _ (h.consNodup v hv)
  unfold State.remove
  rw [h1]
  simp only
  rw [foldl_dropSeq]
  refine Prod.ext ?_ rfl
  simp only [State.without, List.map_map]
  rfl

theorem mem_seqIds {s : State} {p : Proc → Bool} {i : Nat} : i ∈ s.seqIds p ↔ ∃ x, Index.get s.seq i = some x ∧ p x.proc = true := by
  unfold State.seqIds
  rw [List.mem_filter, Index.mem_ids]
  cases Index.get s.seq i <;> simp

theorem mem_conIds {s : State} {p : Proc → Bool} {i : Nat} : i ∈ s.conIds p ↔ ∃ x, Index.get s.con i = some x ∧ p x.proc = true := by
  unfold State.conIds
  rw [List.mem_filter, Index.mem_ids]
  cases Index.get s.con i <;> simp

theorem without_seq {s : State} {p : Proc → Bool} (i : Nat) :
    Index.get (s.without p).seq i = if (Index.get s.seq i).any fun x => p x.proc then none else Index.get s.seq i := by
  show Index.get ((s.seqIds p).foldl Index.erase s.seq) i = _
  rw [get_foldl_erase]
  by_cases h : i ∈ s.seqIds p
  · obtain ⟨x, hx, hp⟩ := mem_seqIds.mp h
    simp [h, hx, hp]
  · rw [if_neg h]
    cases hx : Index.get s.seq i with
    | none => simp
    | some x =>
      have : ¬ p x.proc = true := fun hp => h (mem_seqIds.mpr ⟨x, hx, hp⟩)
      simp [this]

theorem without_con {s : State} {p : Proc → Bool} (i : Nat) :
    Index.get (s.without p).con i = if (Index.get s.con i).any fun x => p x.proc then none else Index.get s.con i := by
  show Index.get ((s.conIds p).foldl Index.erase s.con) i = _
  rw [get_foldl_erase]
  by_cases h : i ∈ s.conIds p
  · obtain ⟨x, hx, hp⟩ := mem_conIds.mp h
    simp [h, hx, hp]
  · rw [if_neg h]
    cases hx : Index.get s.con i with
    | none => simp
    | some x =>
      have : ¬ p x.proc = true := fun hp => h (mem_conIds.mpr ⟨x, hx, hp⟩)
      simp [this]

/-- A change of the state that adds no instances to services. -/
theorem Inv.change {s s' : State} (h : Inv s) {g : Svc → Svc} (hs : s'.services = s.services.map g) (hn : ∀ v, (g v).name = v.name)
    (hseq : ∀ i x', Index.get s'.seq i = some x' → ∃ x, Index.get s.seq i = some x ∧ x'.proc = x.proc ∧ (x'.reserved = none → x'.caller = none ∧ x'.corr = none))
    (hcon : ∀ i x', Index.get s'.con i = some x' → ∃ x, Index.get s.con i = some x ∧ x'.proc = x.proc)
    (hq : ∀ v ∈ s.services, (g v).seqs.Sublist v.seqs)
    (hq' : ∀ v ∈ s.services, ∀ i ∈ (g v).seqs, ∀ x, Index.get s.seq i = some x → ∃ x', Index.get s'.seq i = some x' ∧ (v.name ∈ x.services → v.name ∈ x'.services))
    (hc : ∀ v ∈ s.services, ∀ c ∈ (g v).cons, c ∈ v.cons ∧ ∀ x, Index.get s.con c.id = some x → ∃ x', Index.get s'.con c.id = some x')
    (hc' : ∀ v ∈ s.services, ((g v).cons.map (·.id)).Nodup ∧ Sorted (g v).cons) : Inv s' := by
  obtain ⟨h1, h2, h3, h4, h5, h6, h7, h8, h9⟩ := h
  have mem : ∀ {w}, w ∈ s'.services → ∃ v ∈ s.services, w = g v := by
    intro w hw
    rw [hs] at hw
    obtain ⟨v, hv, rfl⟩ := List.mem_map.mp hw
    exact ⟨v, hv, rfl⟩
  refine ⟨?_, ?_, ?_, ?_, ?_, ?_, ?_, ?_, ?_⟩
  · rw [hs, List.map_map]
    have : ((fun x : Svc => x.name) ∘ g) = fun x => x.name := funext hn
    rw [this]; exact h1
  · intro i j x y hx hy he
    obtain ⟨x', hx', e1, -⟩ := hseq i x hx
    obtain ⟨y', hy', e2, -⟩ := hseq j y hy
    exact h2 i j x' y' hx' hy' (by rw [← e1, ← e2]; exact he)
  · intro i j x y hx hy he
    obtain ⟨x', hx', e1⟩ := hcon i x hx
    obtain ⟨y', hy', e2⟩ := hcon j y hy
    exact h3 i j x' y' hx' hy' (by rw [← e1, ← e2]; exact he)
  · intro w hw i hi
    obtain ⟨v, hv, rfl⟩ := mem hw
    obtain ⟨x, hx, hnm⟩ := h4 v hv i ((hq v hv).subset hi)
    obtain ⟨x', hx', himp⟩ := hq' v hv i hi x hx
    exact ⟨x', hx', by rw [hn]; exact himp hnm⟩
  · intro w hw
    obtain ⟨v, hv, rfl⟩ := mem hw
    exact List.Nodup.sublist (hq v hv) (h5 v hv)
  · intro w hw c hcm
    obtain ⟨v, hv, rfl⟩ := mem hw
    obtain ⟨hm, himp⟩ := hc v hv c hcm
    obtain ⟨x, hx⟩ := h6 v hv c hm
    exact himp x hx
  · intro w hw
    obtain ⟨v, hv, rfl⟩ := mem hw
    exact (hc' v hv).1
  · intro w hw
    obtain ⟨v, hv, rfl⟩ := mem hw
    exact (hc' v hv).2
  · intro i x hx hr
    obtain ⟨-, -, -, h⟩ := hseq i x hx
    exact h hr

theorem Inv.without {s : State} (h : Inv s) (p : Proc → Bool) : Inv (s.without p) := by
  refine h.change rfl (fun _ => rfl) ?_ ?_ ?_ ?_ ?_ ?_
  · intro i x hx
    rw [without_seq] at hx
    split at hx
    · cases hx
    · exact ⟨x, hx, rfl, h.idle i x hx⟩
  · intro i x hx
    rw [without_con] at hx
    split at hx
    · cases hx
    · exact ⟨x, hx, rfl⟩
  · intro v _; exact List.filter_sublist
  · intro v _ i hi x hx
    obtain ⟨-, hi2⟩ := List.mem_filter.mp hi
    refine ⟨x, ?_, id⟩
    rw [without_seq, if_neg, hx]
    intro hp
    rw [hx] at hp
    have : i ∈ s.seqIds p := mem_seqIds.mpr ⟨x, hx, by simpa using hp⟩
    simp [this] at hi2
  · intro v _ c hc
    obtain ⟨hc1, hc2⟩ := List.mem_filter.mp hc
    refine ⟨hc1, fun x hx => ⟨x, ?_⟩⟩
    rw [without_con, if_neg, hx]
    intro hp
    rw [hx] at hp
    have : c.id ∈ s.conIds p := mem_conIds.mpr ⟨x, hx, by simpa using hp⟩
    simp [this] at hc2
  · intro v hv
    exact ⟨List.Nodup.sublist (List.Sublist.map _ List.filter_sublist) (h.consNodup v hv), List.Pairwise.sublist List.filter_sublist (h.sorted v hv)⟩

theorem Inv.remove {s : State} (h : Inv s) (p : Proc → Bool) : Inv (s.remove p).1 := by
  rw [remove_eq h]; exact h.without p

/-! ## Advertise -/

theorem seqOf_some {s : State} {ipc i : Nat} (h : s.seqOf ipc = some i) : ∃ x, Index.get s.seq i = some x ∧ x.proc.ipc = ipc := by
  obtain ⟨x, hx, hp⟩ := Index.find_some h
  exact ⟨x, hx, by simpa using hp⟩

theorem seqOf_none {s : State} {ipc : Nat} (h : s.seqOf ipc = none) {i : Nat} {x : SeqI} (hx : Index.get s.seq i = some x) : x.proc.ipc ≠ ipc := by
  have := Index.find_none h hx
  simpa using this

theorem conOf_some {s : State} {ipc i : Nat} (h : s.conOf ipc = some i) : ∃ x, Index.get s.con i = some x ∧ x.proc.ipc = ipc := by
  obtain ⟨x, hx, hp⟩ := Index.find_some h
  exact ⟨x, hx, by simpa using hp⟩

theorem conOf_none {s : State} {ipc : Nat} (h : s.conOf ipc = none) {i : Nat} {x : ConI} (hx : Index.get s.con i = some x) : x.proc.ipc ≠ ipc := by
  have := Index.find_none h hx
  simpa using this

/-- The instance found or added by an advertise, and the others as they were. -/
theorem seqFor_spec {s : State} (p : Proc) (alias : Nat) :
    (∃ x, s.seqOf p.ipc = some (s.seqFor p alias).1 ∧ Index.get s.seq (s.seqFor p alias).1 = some x ∧ x.proc.ipc = p.ipc ∧
      ∀ j, Index.get (s.seqFor p alias).2.seq j = if j = (s.seqFor p alias).1 then some { x with alias } else Index.get s.seq j) ∨
    (s.seqOf p.ipc = none ∧ Index.get s.seq (s.seqFor p alias).1 = none ∧
      ∀ j, Index.get (s.seqFor p alias).2.seq j = if j = (s.seqFor p alias).1 then some { proc := p, alias, reserved := none, caller := none, corr := none, services := [] } else Index.get s.seq j) := by
  unfold State.seqFor
  cases hf : s.seqOf p.ipc with
  | some i =>
    obtain ⟨x, hx, hp⟩ := seqOf_some hf
    refine .inl ⟨x, rfl, hx, hp, fun j => ?_⟩
    show Index.get (Index.modify s.seq i _) j = _
    rw [Index.get_modify, hx]
    rfl
  | none =>
    refine .inr ⟨rfl, Index.insert_free _ _, fun j => Index.get_insert _ _ j⟩

theorem seqFor_eq (s : State) (p : Proc) (alias : Nat) : (s.seqFor p alias).2 = { s with seq := (s.seqFor p alias).2.seq } := by
  unfold State.seqFor
  split <;> rfl

theorem conFor_eq (s : State) (p : Proc) (alias : Nat) (order : Int) : (s.conFor p alias order).2 = { s with con := (s.conFor p alias order).2.con } := by
  unfold State.conFor
  split <;> rfl

theorem conFor_spec {s : State} (p : Proc) (alias : Nat) (order : Int) :
    (∃ x, s.conOf p.ipc = some (s.conFor p alias order).1 ∧ Index.get s.con (s.conFor p alias order).1 = some x ∧ x.proc.ipc = p.ipc ∧
      ∀ j, Index.get (s.conFor p alias order).2.con j = if j = (s.conFor p alias order).1 then some { x with alias, order } else Index.get s.con j) ∨
    (s.conOf p.ipc = none ∧ Index.get s.con (s.conFor p alias order).1 = none ∧
      ∀ j, Index.get (s.conFor p alias order).2.con j = if j = (s.conFor p alias order).1 then some { proc := p, alias, order } else Index.get s.con j) := by
  unfold State.conFor
  cases hf : s.conOf p.ipc with
  | some i =>
    obtain ⟨x, hx, hp⟩ := conOf_some hf
    refine .inl ⟨x, rfl, hx, hp, fun j => ?_⟩
    show Index.get (Index.modify s.con i _) j = _
    rw [Index.get_modify, hx]
    rfl
  | none =>
    refine .inr ⟨rfl, Index.insert_free _ _, fun j => Index.get_insert _ _ j⟩

theorem Inv.seqFor {s : State} (h : Inv s) (p : Proc) (alias : Nat) : Inv (s.seqFor p alias).2 := by
  obtain ⟨h1, h2, h3, h4, h5, h6, h7, h8, h9⟩ := h
  rw [seqFor_eq]
  rcases seqFor_spec (s := s) p alias with ⟨x, ho, hx, hp, hg⟩ | ⟨ho, hx, hg⟩
  · refine Inv.modifySeq (s := s) ⟨h1, h2, h3, h4, h5, h6, h7, h8, h9⟩ rfl rfl (f := fun j y => if j = (s.seqFor p alias).1 then { y with alias } else y) ?_ ?_ ?_ ?_
    · intro j
      show Index.get (s.seqFor p alias).2.seq j = _
      rw [hg]
      by_cases hj : j = (s.seqFor p alias).1
      · simp only [hj, if_true, hx, Option.map_some]
      · simp only [hj, if_false]
        cases Index.get s.seq j <;> rfl
    · intro j y; (try dsimp only); split <;> rfl
    · intro j y n hn; (try dsimp only); split <;> exact hn
    · intro j y hy; (try dsimp only); split <;> exact h9 j y hy
  · refine ⟨h1, ?_, h3, ?_, h5, h6, h7, h8, ?_⟩
    · intro i j x y hx' hy' he
      change Index.get (s.seqFor p alias).2.seq i = some x at hx'
      change Index.get (s.seqFor p alias).2.seq j = some y at hy'
      rw [hg] at hx' hy'
      split at hx' <;> split at hy'
      · rename_i e1 e2; rw [e1, e2]
      · simp only [Option.some.injEq] at hx'; subst hx'; exact absurd he.symm (seqOf_none ho hy')
      · simp only [Option.some.injEq] at hy'; subst hy'; exact absurd he (seqOf_none ho hx')
      · exact h2 i j x y hx' hy' he
    · intro v hv i hi
      obtain ⟨x, hx', hn⟩ := h4 v hv i hi
      refine ⟨x, ?_, hn⟩
      show Index.get (s.seqFor p alias).2.seq i = _
      rw [hg, if_neg, hx']
      intro e; subst e; rw [hx] at hx'; cases hx'
    · intro i x hx' hr
      change Index.get (s.seqFor p alias).2.seq i = some x at hx'
      rw [hg] at hx'
      split at hx'
      · simp only [Option.some.injEq] at hx'; subst hx'; exact ⟨rfl, rfl⟩
      · exact h9 i x hx' hr

theorem Inv.conFor {s : State} (h : Inv s) (p : Proc) (alias : Nat) (order : Int) : Inv (s.conFor p alias order).2 := by
  obtain ⟨h1, h2, h3, h4, h5, h6, h7, h8, h9⟩ := h
  rw [conFor_eq]
  rcases conFor_spec (s := s) p alias order with ⟨x, ho, hx, hp, hg⟩ | ⟨ho, hx, hg⟩
  · refine ⟨h1, h2, ?_, h4, h5, ?_, h7, h8, h9⟩
    · have : ∀ i y, Index.get (s.conFor p alias order).2.con i = some y → ∃ z, Index.get s.con i = some z ∧ y.proc = z.proc := by
        intro i y hy
        rw [hg] at hy
        split at hy
        · rename_i e; simp only [Option.some.injEq] at hy; subst hy; exact ⟨x, by rw [e]; exact hx, rfl⟩
        · exact ⟨y, hy, rfl⟩
      intro i j y z hy hz he
      obtain ⟨y', hy', e1⟩ := this i y hy
      obtain ⟨z', hz', e2⟩ := this j z hz
      exact h3 i j y' z' hy' hz' (by rw [← e1, ← e2]; exact he)
    · intro v hv c hc
      obtain ⟨y, hy⟩ := h6 v hv c hc
      show ∃ x, Index.get (s.conFor p alias order).2.con c.id = some x
      rw [hg]
      split
      · exact ⟨_, rfl⟩
      · exact ⟨y, hy⟩
  · refine ⟨h1, h2, ?_, h4, h5, ?_, h7, h8, h9⟩
    · intro i j x y hx' hy' he
      change Index.get (s.conFor p alias order).2.con i = some x at hx'
      change Index.get (s.conFor p alias order).2.con j = some y at hy'
      rw [hg] at hx' hy'
      split at hx' <;> split at hy'
      · rename_i e1 e2; rw [e1, e2]
      · simp only [Option.some.injEq] at hx'; subst hx'; exact absurd he.symm (conOf_none ho hy')
      · simp only [Option.some.injEq] at hy'; subst hy'; exact absurd he (conOf_none ho hx')
      · exact h3 i j x y hx' hy' he
    · intro v hv c hc
      obtain ⟨y, hy⟩ := h6 v hv c hc
      show ∃ x, Index.get (s.conFor p alias order).2.con c.id = some x
      rw [hg]
      split
      · exact ⟨_, rfl⟩
      · exact ⟨y, hy⟩

theorem insertSvc_cases (s : State) (n : Nat) (t : Option Int) :
    ((s.svc? n).isSome ∧ s.insertSvc n t = s) ∨
    (s.svc? n = none ∧ s.insertSvc n t = { s with services := s.services ++ [{ name := n, seqs := [], cons := [], timeout := t }] }) := by
  unfold State.insertSvc
  cases h : s.svc? n <;> simp

theorem insertSvc_eq (s : State) (n : Nat) (t : Option Int) : s.insertSvc n t = { s with services := (s.insertSvc n t).services } := by
  rcases insertSvc_cases s n t with ⟨-, e⟩ | ⟨-, e⟩ <;> rw [e]

theorem Inv.insertSvc {s : State} (h : Inv s) (n : Nat) (t : Option Int) : Inv (s.insertSvc n t) := by
  rcases insertSvc_cases s n t with ⟨-, e⟩ | ⟨hn, e⟩
  · rw [e]; exact h
  · rw [e]
    obtain ⟨h1, h2, h3, h4, h5, h6, h7, h8, h9⟩ := h
    have mem : ∀ v ∈ s.services ++ [{ name := n, seqs := [], cons := [], timeout := t }], v ∈ s.services ∨ (v.seqs = [] ∧ v.cons = []) := by
      intro v hv
      rcases List.mem_append.mp hv with h | h
      · exact .inl h
      · rw [List.mem_singleton] at h; subst h; exact .inr ⟨rfl, rfl⟩
    refine ⟨?_, h2, h3, ?_, ?_, ?_, ?_, ?_, h9⟩
    · show ((s.services ++ [_]).map _).Nodup
      rw [List.map_append]
      refine List.nodup_append.mpr ⟨h1, List.pairwise_singleton _ _, ?_⟩
      intro a ha b hb hab
      obtain ⟨v, hv, hva⟩ := List.mem_map.mp ha
      simp only [List.map_cons, List.map_nil, List.mem_singleton] at hb
      exact svc?_none hn hv (by rw [hva, hab, hb])
    all_goals
      intro v hv
      rcases mem v hv with hm | ⟨e1, e2⟩
    · exact h4 v hm
    · simp [e1]
    · exact h5 v hm
    · simp [e1]
    · exact h6 v hm
    · simp [e2]
    · exact h7 v hm
    · simp [e2]
    · exact h8 v hm
    · rw [e2]; exact List.Pairwise.nil

/-- The state after `addSeqService`. -/
theorem addSeqService_eq (i : Nat) (s : State) (n : Nat) :
    State.addSeqService i s n = { s with services := ((s.insertSvc n s.timeout).services.map fun v => if v.name = n then v.addSeq i else v), seq := Index.modify s.seq i fun x => { x with services := x.services ++ [n] } } := by
  unfold State.addSeqService
  rw [insertSvc_eq]
  rfl

theorem addConService_eq (i : Nat) (order : Int) (s : State) (a : Nat × Int × Option Int) :
    State.addConService i order s a = { s with services := ((s.insertSvc a.1 (match a.2.2 with | some d => if d > 0 then some d else none | none => none)).services.map fun v => if v.name = a.1 then v.addCon i order a.2.1 else v) } := by
  unfold State.addConService
  rw [insertSvc_eq]
  rfl

theorem addSeq_name (v : Svc) (i : Nat) : (v.addSeq i).name = v.name := by unfold Svc.addSeq; split <;> rfl
theorem addSeq_cons (v : Svc) (i : Nat) : (v.addSeq i).cons = v.cons := by unfold Svc.addSeq; split <;> rfl
theorem addCon_name (v : Svc) (i : Nat) (o h : Int) : (v.addCon i o h).name = v.name := by unfold Svc.addCon; split <;> rfl
theorem addCon_seqs (v : Svc) (i : Nat) (o h : Int) : (v.addCon i o h).seqs = v.seqs := by unfold Svc.addCon; split <;> rfl

theorem mem_addSeq {v : Svc} {i j : Nat} : j ∈ (v.addSeq i).seqs ↔ j = i ∨ j ∈ v.seqs := by
  unfold Svc.addSeq
  split
  · constructor
    · exact .inr
    · rintro (rfl | h)
      · assumption
      · exact h
  · rw [List.mem_append, List.mem_singleton]; exact Or.comm

theorem mem_addCon {v : Svc} {i : Nat} {o h : Int} {c : ConE} :
    c ∈ (v.addCon i o h).cons ↔ c ∈ v.cons ∨ (i ∉ v.cons.map (·.id) ∧ c = { id := i, order := o, hops := h }) := by
  unfold Svc.addCon
  split
  · simp_all
  · rw [mem_sortCons, List.mem_append, List.mem_singleton]; simp_all

/-- Instances are changed by `f`, services by `g`; what is added to a service is `i`. -/
theorem Inv.addSeqService {s : State} (h : Inv s) {i : Nat} (hi : (Index.get s.seq i).isSome) (n : Nat) : Inv (State.addSeqService i s n) := by
  rw [addSeqService_eq]
  have h' := h.insertSvc n s.timeout
  rw [insertSvc_eq] at h'
  generalize (s.insertSvc n s.timeout).services = ss at h'
  obtain ⟨h1, h2, h3, h4, h5, h6, h7, h8, h9⟩ := h'
  dsimp only at h1 h2 h3 h4 h5 h6 h7 h8 h9
  have get : ∀ j, Index.get (Index.modify s.seq i fun x => { x with services := x.services ++ [n] }) j = (Index.get s.seq j).map fun x => if j = i then { x with services := x.services ++ [n] } else x := by
    intro j
    rw [Index.get_modify]
    split
    · subst ‹j = i›; simp
    · cases Index.get s.seq j <;> simp
  have inv : ∀ {j y}, Index.get (Index.modify s.seq i fun x => { x with services := x.services ++ [n] }) j = some y → ∃ x, Index.get s.seq j = some x ∧ y.proc = x.proc ∧ y.reserved = x.reserved ∧ y.caller = x.caller ∧ y.corr = x.corr ∧ (∀ m ∈ x.services, m ∈ y.services) ∧ (j = i → n ∈ y.services) := by
    intro j y hy
    rw [get] at hy
    cases hx : Index.get s.seq j with
    | none => simp [hx] at hy
    | some x =>
      rw [hx] at hy
      simp only [Option.map_some, Option.some.injEq] at hy
      subst hy
      refine ⟨x, rfl, ?_⟩
      by_cases hj : j = i
      · simp only [hj, if_true]
        simp only [true_and]
        exact ⟨fun m hm => List.mem_append_left _ hm, fun _ => by simp⟩
      · simp only [hj, if_false]
        simp
  have mem : ∀ {w}, w ∈ (ss.map fun v => if v.name = n then v.addSeq i else v) → ∃ v ∈ ss, w.name = v.name ∧ w.cons = v.cons ∧ (w.seqs = v.seqs ∨ (v.name = n ∧ w = v.addSeq i)) := by
    intro w hw
    obtain ⟨v, hv, rfl⟩ := List.mem_map.mp hw
    refine ⟨v, hv, ?_⟩
    split
    · exact ⟨addSeq_name v i, addSeq_cons v i, .inr ⟨‹_›, rfl⟩⟩
    · exact ⟨rfl, rfl, .inl rfl⟩
  refine ⟨?_, ?_, h3, ?_, ?_, ?_, ?_, ?_, ?_⟩
  · show ((ss.map _).map _).Nodup
    rw [List.map_map]
    have : ((fun x : Svc => x.name) ∘ fun v => if v.name = n then v.addSeq i else v) = fun x => x.name := by
      funext v; simp only [Function.comp]; split
      · exact addSeq_name v i
      · rfl
    rw [this]; exact h1
  · intro j k x y hx hy he
    obtain ⟨x', hx', e1, -⟩ := inv hx
    obtain ⟨y', hy', e2, -⟩ := inv hy
    exact h2 j k x' y' hx' hy' (by rw [← e1, ← e2]; exact he)
  · intro w hw j hj
    obtain ⟨v, hv, hn, hc, hq⟩ := mem hw
    have key : j ∈ v.seqs ∨ (j = i ∧ v.name = n) := by
      rcases hq with hq | ⟨hq1, hq2⟩
      · rw [hq] at hj; exact .inl hj
      · rw [hq2] at hj
        rcases mem_addSeq.mp hj with e | e
        · exact .inr ⟨e, hq1⟩
        · exact .inl e
    show ∃ x, Index.get (Index.modify s.seq i _) j = some x ∧ _
    rcases key with hj | ⟨rfl, hvn⟩
    · obtain ⟨x, hx, hxn⟩ := h4 v hv j hj
      have hg := get j
      rw [hx] at hg
      refine ⟨_, hg, ?_⟩
      rw [hn]
      split
      · exact List.mem_append_left _ hxn
      · exact hxn
    · obtain ⟨x, hx⟩ := Option.isSome_iff_exists.mp hi
      have hg := get j
      rw [hx] at hg
      refine ⟨_, hg, ?_⟩
      rw [hn, hvn]
      simp
  · intro w hw
    obtain ⟨v, hv, hn, hc, hq⟩ := mem hw
    rcases hq with hq | ⟨hq1, rfl⟩
    · rw [hq]; exact h5 v hv
    · unfold Svc.addSeq
      split
      · exact h5 v hv
      · exact List.nodup_append.mpr ⟨h5 v hv, List.pairwise_singleton _ _, fun a ha b hb hab => by
          rw [List.mem_singleton] at hb; subst hb; subst hab; exact absurd ha ‹_›⟩
  · intro w hw
    obtain ⟨v, hv, hn, hc, hq⟩ := mem hw
    rw [hc]; exact h6 v hv
  · intro w hw
    obtain ⟨v, hv, hn, hc, hq⟩ := mem hw
    rw [hc]; exact h7 v hv
  · intro w hw
    obtain ⟨v, hv, hn, hc, hq⟩ := mem hw
    rw [hc]; exact h8 v hv
  · intro j y hy hr
    obtain ⟨x, hx, e1, e2, e3, e4, -⟩ := inv hy
    rw [e3, e4]
    exact h9 j x hx (by rw [← e2]; exact hr)

theorem Inv.addConService {s : State} (h : Inv s) {i : Nat} (hi : (Index.get s.con i).isSome) (order : Int) (a : Nat × Int × Option Int) : Inv (State.addConService i order s a) := by
  rw [addConService_eq]
  have h' := h.insertSvc a.1 (match a.2.2 with | some d => if d > 0 then some d else none | none => none)
  rw [insertSvc_eq] at h'
  generalize (s.insertSvc a.1 _).services = ss at h'
  obtain ⟨h1, h2, h3, h4, h5, h6, h7, h8, h9⟩ := h'
  dsimp only at h1 h2 h3 h4 h5 h6 h7 h8 h9
  have mem : ∀ {w}, w ∈ (ss.map fun v => if v.name = a.1 then v.addCon i order a.2.1 else v) → ∃ v ∈ ss, w.name = v.name ∧ w.seqs = v.seqs ∧ (w.cons = v.cons ∨ w.cons = (v.addCon i order a.2.1).cons) := by
    intro w hw
    obtain ⟨v, hv, rfl⟩ := List.mem_map.mp hw
    refine ⟨v, hv, ?_⟩
    split
    · exact ⟨addCon_name _ _ _ _, addCon_seqs _ _ _ _, .inr rfl⟩
    · exact ⟨rfl, rfl, .inl rfl⟩
  refine ⟨?_, h2, h3, ?_, ?_, ?_, ?_, ?_, h9⟩
  · show ((ss.map _).map _).Nodup
    rw [List.map_map]
    have : ((fun x : Svc => x.name) ∘ fun v => if v.name = a.1 then v.addCon i order a.2.1 else v) = fun x => x.name := by
      funext v; simp only [Function.comp]; split
      · exact addCon_name _ _ _ _
      · rfl
    rw [this]; exact h1
  · intro w hw
    obtain ⟨v, hv, hn, hq, hc⟩ := mem hw
    rw [hq, hn]; exact h4 v hv
  · intro w hw
    obtain ⟨v, hv, hn, hq, hc⟩ := mem hw
    rw [hq]; exact h5 v hv
  · intro w hw c hcm
    obtain ⟨v, hv, hn, hq, hc⟩ := mem hw
    rcases hc with hc | hc
    · rw [hc] at hcm; exact h6 v hv c hcm
    · rw [hc, mem_addCon] at hcm
      rcases hcm with hcm | ⟨-, rfl⟩
      · exact h6 v hv c hcm
      · exact Option.isSome_iff_exists.mp hi
  · intro w hw
    obtain ⟨v, hv, hn, hq, hc⟩ := mem hw
    rcases hc with hc | hc
    · rw [hc]; exact h7 v hv
    · rw [hc]
      unfold Svc.addCon
      split
      · exact h7 v hv
      · refine ((sortCons_perm _).map _).nodup_iff.mpr ?_
        rw [List.map_append]
        exact List.nodup_append.mpr ⟨h7 v hv, List.pairwise_singleton _ _, fun b hb c hc hab => by
          simp only [List.map_cons, List.map_nil, List.mem_singleton] at hc
          subst hc; subst hab; exact absurd hb ‹_›⟩
  · intro w hw
    obtain ⟨v, hv, hn, hq, hc⟩ := mem hw
    rcases hc with hc | hc
    · rw [hc]; exact h8 v hv
    · rw [hc]
      unfold Svc.addCon
      split
      · exact h8 v hv
      · exact sorted_sort _

theorem addSeqService_isSome {i : Nat} {s : State} {n j : Nat} : (Index.get (State.addSeqService i s n).seq j).isSome = (Index.get s.seq j).isSome := by
  rw [addSeqService_eq]
  show (Index.get (Index.modify s.seq i _) j).isSome = _
  rw [Index.get_modify]
  split
  · subst ‹j = i›; cases Index.get s.seq j <;> rfl
  · rfl

theorem Inv.addSeqServices {s : State} (h : Inv s) {i : Nat} (hi : (Index.get s.seq i).isSome) (add : List Nat) : Inv (add.foldl (State.addSeqService i) s) := by
  induction add generalizing s with
  | nil => exact h
  | cons n add ih => exact ih (h.addSeqService hi n) (by rw [addSeqService_isSome]; exact hi)

theorem Inv.addConServices {s : State} (h : Inv s) {i : Nat} (hi : (Index.get s.con i).isSome) (order : Int) (add : List (Nat × Int × Option Int)) : Inv (add.foldl (State.addConService i order) s) := by
  induction add generalizing s with
  | nil => exact h
  | cons n add ih => exact ih (h.addConService hi order n) (by rw [addConService_eq]; exact hi)

theorem Inv.removeSeqServices {s : State} (h : Inv s) (i : Nat) (names : List Nat) : Inv (s.removeSeqServices i names) := by
  unfold State.removeSeqServices State.modifySeq
  refine h.change (g := fun v => if v.name ∈ names then v.removeSeq i else v) rfl ?_ ?_ ?_ ?_ ?_ ?_ ?_
  · intro v; (try dsimp only); split <;> rfl
  · intro j y hy
    rw [Index.get_modify] at hy
    (try dsimp only at hy)
    split at hy
    · subst ‹j = i›
      cases hx : Index.get s.seq j with
      | none => simp [hx] at hy
      | some x =>
        rw [hx] at hy
        simp only [Option.map_some, Option.some.injEq] at hy
        subst hy
        exact ⟨x, rfl, rfl, h.idle j x hx⟩
    · exact ⟨y, hy, rfl, h.idle j y hy⟩
  · intro j y hy; exact ⟨y, hy, rfl⟩
  · intro v _; (try dsimp only); split
    · exact List.filter_sublist
    · exact List.Sublist.refl _
  · intro v hv j hj x hx
    rw [Index.get_modify]
    (try dsimp only at hj ⊢)
    by_cases e : j = i
    · subst e
      rw [hx]
      simp only [if_true, Option.map_some, Option.some.injEq]
      refine ⟨_, rfl, fun hn => ?_⟩
      simp only
      split at hj
      · have := (List.mem_filter.mp hj).2; simp at this
      · rename_i hnn
        refine List.mem_filter.mpr ⟨hn, ?_⟩
        simp only [decide_eq_true_eq]
        intro hm
        exact hnn (by simpa using (List.mem_filter.mp hm).2)
    · exact ⟨x, by rw [if_neg e, hx], id⟩
  · intro v _ c hc
    (try dsimp only at hc)
    refine ⟨?_, fun x hx => ⟨x, hx⟩⟩
    split at hc <;> exact hc
  · intro v hv
    (try dsimp only)
    split
    · exact ⟨h.consNodup v hv, h.sorted v hv⟩
    · exact ⟨h.consNodup v hv, h.sorted v hv⟩

theorem Inv.removeConServices {s : State} (h : Inv s) (i : Nat) (names : List Nat) : Inv (s.removeConServices i names) := by
  unfold State.removeConServices
  refine h.change (g := fun v => if v.name ∈ names then v.removeCon i else v) rfl ?_ (fun j x hx => ⟨x, hx, rfl, h.idle j x hx⟩) (fun j x hx => ⟨x, hx, rfl⟩) ?_ ?_ ?_ ?_
  · intro v; (try dsimp only); split <;> rfl
  · intro v _; (try dsimp only); split <;> exact List.Sublist.refl _
  · intro v _ j _ x hx; exact ⟨x, hx, id⟩
  · intro v _ c hc
    (try dsimp only at hc)
    refine ⟨?_, fun x hx => ⟨x, hx⟩⟩
    split at hc
    · exact List.eraseP_sublist.subset hc
    · exact hc
  · intro v hv
    (try dsimp only)
    split
    · exact ⟨List.Nodup.sublist (List.Sublist.map _ List.eraseP_sublist) (h.consNodup v hv), sorted_eraseP _ (h.sorted v hv)⟩
    · exact ⟨h.consNodup v hv, h.sorted v hv⟩

/-- The pending lookup an instance can take. -/
def State.takes (s : State) (i : Nat) (l : Lookup) : Bool :=
  (s.svc? l.req.name).isSome && (Index.get s.seq i).any fun x => decide (l.req.name ∈ x.services)

theorem takePending_eq (s : State) (i : Nat) (e : Env) :
    s.takePending i e = match s.lookups.find? (s.takes i) with
      | some l => { s with lookups := s.lookups.eraseP (s.takes i) }.lookup l.req e
      | none => s := rfl

theorem Inv.takePending {s : State} (h : Inv s) (i : Nat) (e : Env) : Inv (s.takePending i e) := by
  rw [takePending_eq]
  split
  · apply Inv.lookup; exact h.same ⟨rfl, rfl, rfl⟩
  · exact h

theorem advertise_eq (s : State) (p : Proc) (alias : Nat) (add remove : List Nat) (e : Env) :
    s.advertise p alias add remove e =
      if add.isEmpty ∧ remove.isEmpty then (s.remove fun q => q.pid == p.pid).1
      else if (s.seqFor p alias).1 ∈ (s.seqFor p alias).2.disabled then
        { (s.seqFor p alias).2 with disabled := (s.seqFor p alias).2.disabled.erase (s.seqFor p alias).1 }
      else
        ((((add.filter fun n => s.allowed alias n).foldl (State.addSeqService (s.seqFor p alias).1) (s.seqFor p alias).2)).removeSeqServices (s.seqFor p alias).1 remove).takePending (s.seqFor p alias).1 e := rfl

theorem seqFor_isSome (s : State) (p : Proc) (alias : Nat) : (Index.get (s.seqFor p alias).2.seq (s.seqFor p alias).1).isSome := by
  rcases seqFor_spec (s := s) p alias with ⟨x, -, -, -, hg⟩ | ⟨-, -, hg⟩ <;> simp [hg]

theorem conFor_isSome (s : State) (p : Proc) (alias : Nat) (order : Int) : (Index.get (s.conFor p alias order).2.con (s.conFor p alias order).1).isSome := by
  rcases conFor_spec (s := s) p alias order with ⟨x, -, -, -, hg⟩ | ⟨-, -, hg⟩ <;> simp [hg]

theorem Inv.advertise {s : State} (h : Inv s) (p : Proc) (alias : Nat) (add remove : List Nat) (e : Env) : Inv (s.advertise p alias add remove e) := by
  rw [advertise_eq]
  split
  · exact h.remove _
  · split
    · exact (h.seqFor p alias).same ⟨rfl, rfl, rfl⟩
    · exact (((h.seqFor p alias).addSeqServices (seqFor_isSome s p alias) _).removeSeqServices _ _).takePending _ _

theorem cadvertise_eq (s : State) (p : Proc) (alias : Nat) (order : Int) (add : List (Nat × Int × Option Int)) (remove : List Nat) (e : Env) :
    s.cadvertise p alias order add remove e =
      ((((add.filter fun n => s.allowed alias n.1).foldl (State.addConService (s.conFor p alias order).1 order) (s.conFor p alias order).2)).removeConServices (s.conFor p alias order).1 remove).takeReady e := rfl

/-- The pending lookups that can be handled by concurrent instances. -/
def State.ready (s : State) (l : Lookup) : Bool := (s.svc? l.req.name).any fun v => !v.cons.isEmpty && v.seqs.isEmpty

theorem takeReady_eq (s : State) (e : Env) :
    s.takeReady e = { s with lookups := s.lookups.filter fun l => !s.ready l }.again (s.lookups.filter s.ready) e := rfl

theorem Inv.takeReady {s : State} (h : Inv s) (e : Env) : Inv (s.takeReady e) := by
  rw [takeReady_eq]
  apply Inv.again; exact h.same ⟨rfl, rfl, rfl⟩

theorem Inv.cadvertise {s : State} (h : Inv s) (p : Proc) (alias : Nat) (order : Int) (add : List (Nat × Int × Option Int)) (remove : List Nat) (e : Env) : Inv (s.cadvertise p alias order add remove e) := by
  rw [cadvertise_eq]
  exact (((h.conFor p alias order).addConServices (conFor_isSome s p alias order) order _).removeConServices _ _).takeReady e

theorem Inv.cinstance {s : State} (h : Inv s) (p : Proc) (alias : Nat) (order : Int) : Inv (s.cinstance p alias order) := by
  unfold State.cinstance
  split
  · exact h
  · rename_i i hi
    obtain ⟨x, hx, hp⟩ := conOf_some hi
    refine h.change (g := fun v => { v with cons := sortCons v.cons }) rfl (fun _ => rfl) (fun j x hx => ⟨x, hx, rfl, h.idle j x hx⟩) ?_ (fun v _ => List.Sublist.refl _) (fun v _ j _ x hx => ⟨x, hx, id⟩) ?_ ?_
    · intro j y hy
      rw [Index.get_modify] at hy
      split at hy
      · subst ‹j = i›
        rw [hx] at hy
        simp only [Option.map_some, Option.some.injEq] at hy
        subst hy
        exact ⟨x, hx, rfl⟩
      · exact ⟨y, hy, rfl⟩
    · intro v _ c hc
      refine ⟨mem_sortCons.mp hc, fun y hy => ?_⟩
      rw [Index.get_modify]
      split
      · rename_i e; subst e; rw [hx]; exact ⟨_, rfl⟩
      · exact ⟨y, hy⟩
    · intro v hv
      exact ⟨((sortCons_perm _).map _).nodup_iff.mpr (h.consNodup v hv), sorted_sort _⟩

/-! ## The other handlers -/

/-- The reservation of a correlation is given up. -/
def SeqI.discardCorr (corr : Nat) (x : SeqI) : SeqI := if x.reserved.isSome ∧ x.corr = some corr then x.free else x

theorem discard_eq (s : State) (p : Proc) (corr : Nat) (reply : Bool) :
    s.discard p corr reply =
      if s.lookups.any fun l => l.req.corr == corr then
        { s with lookups := s.lookups.eraseP (fun l => l.req.corr == corr), tr := s.tr ++ if reply then [.discarded p.ipc corr true] else [] }
      else { s with seq := s.seq.map fun o => o.map (SeqI.discardCorr corr), tr := s.tr ++ if reply then [.discarded p.ipc corr false] else [] } := by
  unfold State.discard
  cases reply <;> simp [State.emit] <;> rfl

theorem Inv.discard {s : State} (h : Inv s) (p : Proc) (corr : Nat) (reply : Bool) : Inv (s.discard p corr reply) := by
  rw [discard_eq]
  split
  · exact h.same ⟨rfl, rfl, rfl⟩
  · refine h.modifySeq rfl rfl (f := fun _ => SeqI.discardCorr corr) (fun i => Index.get_map _ _ i) ?_ ?_ ?_
    · intro _ x; unfold SeqI.discardCorr; split <;> rfl
    · intro _ x n hn; unfold SeqI.discardCorr; split <;> exact hn
    · intro i x hx
      unfold SeqI.discardCorr
      split
      · exact fun _ => ⟨rfl, rfl⟩
      · exact h.idle i x hx

theorem Inv.free {s s' : State} (h : Inv s) (i : Nat) (hs : s'.services = s.services) (hc : s'.con = s.con) (hq : s'.seq = Index.modify s.seq i SeqI.free) : Inv s' := by
  refine h.modifySeq hs hc (f := fun j x => if j = i then x.free else x) (fun j => ?_) ?_ ?_ ?_
  · rw [hq, Index.get_modify]
    split
    · subst ‹j = i›; rfl
    · simp
  · intro j x; (try dsimp only); split <;> rfl
  · intro j x n hn; (try dsimp only); split <;> exact hn
  · intro j x hx
    (try dsimp only)
    split
    · exact fun _ => ⟨rfl, rfl⟩
    · exact h.idle j x hx

/-- The state when an acknowledgement has been taken off the deadlines, and the transaction manager been told. -/
def State.ackPrep (s : State) (p : Proc) (corr : Nat) (trid : Option Nat) (e : Env) : State :=
  ({ s with
    deadlines := (removeDeadline corr s.deadlines).1,
    timer := (match (removeDeadline corr s.deadlines).2 with | .none => s.timer | .at_ t => some t | .undefined => some e.junk),
    ub := (match (removeDeadline corr s.deadlines).2 with | .undefined => true | _ => s.ub) }).notifyTM p trid

theorem ack_eq (s : State) (p : Proc) (corr : Nat) (trid : Option Nat) (e : Env) :
    s.ack p corr trid e =
      match (s.ackPrep p corr trid e).seqOf p.ipc with
      | none => s.ackPrep p corr trid e
      | some i =>
        if i ∈ (s.ackPrep p corr trid e).disabled then
          { (s.ackPrep p corr trid e).modifySeq i SeqI.free with shutdowns := (ackShutdown p corr (s.ackPrep p corr trid e).shutdowns).1, tr := (s.ackPrep p corr trid e).tr ++ (ackShutdown p corr (s.ackPrep p corr trid e).shutdowns).2 }
        else ((s.ackPrep p corr trid e).modifySeq i SeqI.free).takePending i e := by
  unfold State.ack State.ackPrep
  generalize removeDeadline corr s.deadlines = d
  obtain ⟨ds, n⟩ := d
  cases n <;> rfl

theorem notifyTM_same (s : State) (p : Proc) (t : Option Nat) : Same s (s.notifyTM p t) := by
  unfold State.notifyTM
  split
  · exact ⟨rfl, rfl, rfl⟩
  · split <;> exact ⟨rfl, rfl, rfl⟩

theorem ackPrep_same (s : State) (p : Proc) (corr : Nat) (trid : Option Nat) (e : Env) : Same s (s.ackPrep p corr trid e) := by
  obtain ⟨h1, h2, h3⟩ := notifyTM_same ({ s with
    deadlines := (removeDeadline corr s.deadlines).1,
    timer := (match (removeDeadline corr s.deadlines).2 with | .none => s.timer | .at_ t => some t | .undefined => some e.junk),
    ub := (match (removeDeadline corr s.deadlines).2 with | .undefined => true | _ => s.ub) }) p trid
  exact ⟨h1, h2, h3⟩

theorem Inv.ack {s : State} (h : Inv s) (p : Proc) (corr : Nat) (trid : Option Nat) (e : Env) : Inv (s.ack p corr trid e) := by
  rw [ack_eq]
  have h' := h.same (ackPrep_same s p corr trid e)
  split
  · exact h'
  · split
    · exact h'.free _ rfl rfl rfl
    · apply Inv.takePending; exact h'.free _ rfl rfl rfl

/-- The state when a dead process has been removed, before the pending lookups are tried again. -/
def State.exitPrep (s : State) (pid : Nat) : State :=
  { s.without (fun q => q.pid == pid) with
    shutdowns := (failShutdown pid s.shutdowns).1,
    timeoutInst := s.timeoutInst.filter fun q => q ≠ pid,
    lookups := [],
    tr := (s.tr ++ (failShutdown pid s.shutdowns).2) ++ (s.callers (s.seqIds fun q => q.pid == pid)).map fun c => Ev.error c.1.ipc c.2 .serviceError }

theorem exit_eq {s : State} (h : Inv s) (pid : Nat) (e : Env) : s.exit pid e = (s.exitPrep pid).again s.lookups e := by
  unfold State.exit
  generalize hf : failShutdown pid s.shutdowns = f
  obtain ⟨sh, es⟩ := f
  simp only
  rw [remove_eq (h.same (s' := { s with shutdowns := sh, tr := s.tr ++ es }) ⟨rfl, rfl, rfl⟩)]
  unfold State.exitPrep
  rw [hf]
  rfl

theorem Inv.exit {s : State} (h : Inv s) (pid : Nat) (e : Env) : Inv (s.exit pid e) := by
  rw [exit_eq h]
  apply Inv.again; exact (h.without fun q => q.pid == pid).same ⟨rfl, rfl, rfl⟩

theorem Inv.delist {s s' : State} (h : Inv s) {i : Nat} {p : Nat → Bool} (hs : s'.services = s.services.map fun v => if p v.name then v.removeSeq i else v) (hq : s'.seq = s.seq) (hc : s'.con = s.con) : Inv s' := by
  refine h.change (g := fun v => if p v.name then v.removeSeq i else v) hs ?_ ?_ ?_ ?_ ?_ ?_ ?_
  · intro v; (try dsimp only); split <;> rfl
  · intro j x hx; rw [hq] at hx; exact ⟨x, hx, rfl, h.idle j x hx⟩
  · intro j x hx; rw [hc] at hx; exact ⟨x, hx, rfl⟩
  · intro v _; (try dsimp only); split
    · exact List.filter_sublist
    · exact List.Sublist.refl _
  · intro v _ j _ x hx; exact ⟨x, by rw [hq, hx], id⟩
  · intro v _ c hcm
    refine ⟨?_, fun x hx => ⟨x, by rw [hc, hx]⟩⟩
    (try dsimp only at hcm)
    split at hcm <;> exact hcm
  · intro v hv
    (try dsimp only)
    split
    · exact ⟨h.consNodup v hv, h.sorted v hv⟩
    · exact ⟨h.consNodup v hv, h.sorted v hv⟩

theorem prepareOne_eq (s : State) (r : List Nat × List Nat × List Proc) (p : Proc) :
    (∃ i x, s.seqOf p.ipc = some i ∧ Index.get s.seq i = some x ∧ (s.prepareOne r p).1 = { s with services := s.services.map fun v => if v.name ∈ x.services then v.removeSeq i else v } ∧
      (s.prepareOne r p).2 = (r.1 ++ x.services.filter (fun n => ((s.prepareOne r p).1.svc? n).any fun v => v.seqs.isEmpty && v.cons.isEmpty), r.2.1 ++ [i], r.2.2)) ∨
    (s.seqOf p.ipc = none ∧ s.prepareOne r p = (s, r.1, r.2.1, r.2.2 ++ [p])) := by
  unfold State.prepareOne
  cases hf : s.seqOf p.ipc with
  | none => exact .inr ⟨rfl, rfl⟩
  | some i =>
    obtain ⟨x, hx, -⟩ := seqOf_some hf
    refine .inl ⟨i, x, rfl, hx, ?_, ?_⟩ <;> simp only [hx]

theorem Inv.prepareOne {s : State} (h : Inv s) (r : List Nat × List Nat × List Proc) (p : Proc) : Inv (s.prepareOne r p).1 := by
  rcases prepareOne_eq s r p with ⟨i, x, -, -, e, -⟩ | ⟨-, e⟩
  · rw [e]; exact h.delist (p := fun n => decide (n ∈ x.services)) (i := i) (by simp) rfl rfl
  · rw [e]; exact h

theorem prepareAll_cons (s : State) (r : List Nat × List Nat × List Proc) (p : Proc) (ps : List Proc) :
    s.prepareAll r (p :: ps) = (s.prepareOne r p).1.prepareAll (s.prepareOne r p).2 ps := rfl

theorem Inv.prepareAll {s : State} (h : Inv s) (r : List Nat × List Nat × List Proc) (ps : List Proc) : Inv (s.prepareAll r ps).1 := by
  induction ps generalizing s r with
  | nil => exact h
  | cons p ps ih => rw [prepareAll_cons]; exact ih (h.prepareOne r p) _

theorem prepareAll_frame (s : State) (r : List Nat × List Nat × List Proc) (ps : List Proc) : (s.prepareAll r ps).1 = { s with services := (s.prepareAll r ps).1.services } := by
  induction ps generalizing s r with
  | nil => rfl
  | cons p ps ih =>
    rw [prepareAll_cons, ih]
    rcases prepareOne_eq s r p with ⟨i, x, -, -, e, -⟩ | ⟨-, e⟩ <;> rw [e]

/-- The state when pending lookups of services without instances have been tried again. -/
def State.prepared (s : State) (ps : List Proc) (e : Env) : State :=
  let a := s.prepareAll ([], [], []) ps
  if a.2.1.isEmpty then a.1
  else { a.1 with lookups := a.1.lookups.filter fun l => l.req.name ∉ a.2.1 }.again (a.1.lookups.filter fun l => l.req.name ∈ a.2.1) e

def State.isBusy (s : State) (i : Nat) : Bool := (Index.get s.seq i).any fun x => x.reserved.isSome

theorem prepareShutdown_eq (s : State) (p : Proc) (corr : Nat) (ps : List Proc) (e : Env) :
    s.prepareShutdown p corr ps e =
      let a := s.prepareAll ([], [], []) ps
      let t := s.prepared ps e
      let busy := a.2.2.1.filter fun i => t.isBusy i
      let idle := a.2.2.1.filter fun i => !t.isBusy i
      let u := if idle.isEmpty ∧ a.2.2.2.isEmpty then t else t.emit (.shutdown p.ipc corr (a.2.2.2 ++ idle.filterMap fun i => (Index.get t.seq i).map (·.proc)))
      if busy.isEmpty then u
      else { u with shutdowns := u.shutdowns ++ [{ waiting := busy.filterMap fun i => (Index.get u.seq i).map fun x => (x.corr, x.proc.pid), acked := [], to := p, corr }], disabled := u.disabled ++ busy } := rfl

theorem Inv.prepared {s : State} (h : Inv s) (ps : List Proc) (e : Env) : Inv (s.prepared ps e) := by
  have h1 := h.prepareAll ([], [], []) ps
  unfold State.prepared
  simp only
  split
  · exact h1
  · apply Inv.again; exact h1.same ⟨rfl, rfl, rfl⟩

theorem prepareShutdown_same (s : State) (p : Proc) (corr : Nat) (ps : List Proc) (e : Env) : Same (s.prepared ps e) (s.prepareShutdown p corr ps e) := by
  rw [prepareShutdown_eq]
  simp only
  split <;> split <;> exact ⟨rfl, rfl, rfl⟩

theorem Inv.prepareShutdown {s : State} (h : Inv s) (p : Proc) (corr : Nat) (ps : List Proc) (e : Env) : Inv (s.prepareShutdown p corr ps e) :=
  (h.prepared ps e).same (prepareShutdown_same s p corr ps e)

/-- What the expiry of a deadline leads to. -/
inductive Expiry (s : State) (d : Entry) : State → Prop
  | nothing (h : ∀ l ∈ s.lookups, l.req.corr ≠ d.corr) : Expiry s d s
  | lookup (l : Lookup) (h : s.lookups.find? (fun l => l.req.corr == d.corr) = some l) :
      Expiry s d { s with lookups := s.lookups.eraseP (fun l => l.req.corr == d.corr), tr := s.tr ++ [.timedOut l.req.proc.ipc l.req.corr] }
  | noCaller (h : ∀ l ∈ s.lookups, l.req.corr ≠ d.corr) (i : Nat) (x : SeqI) (h1 : d.target = some i) (h2 : Index.get s.seq i = some x) (h3 : x.corr = some d.corr) (h4 : x.caller = none) :
      Expiry s d { s with seq := Index.modify s.seq i fun x => { x with caller := none, corr := none } }
  | caller (h : ∀ l ∈ s.lookups, l.req.corr ≠ d.corr) (i : Nat) (x : SeqI) (c : Proc) (h1 : d.target = some i) (h2 : Index.get s.seq i = some x) (h3 : x.corr = some d.corr) (h4 : x.caller = some c) :
      Expiry s d { s with seq := Index.modify s.seq i (fun x => { x with caller := none, corr := none }), timeoutInst := s.timeoutInst ++ [x.proc.pid], disabled := s.disabled ++ (if s.fatal then [i] else []), tr := s.tr ++ [.error c.ipc (some d.corr) .timeout, .assassinate x.proc.pid] }

theorem expire_cases (s : State) (d : Entry) : Expiry s d (s.expire d) := by
  unfold State.expire
  cases hl : s.lookups.find? fun l => l.req.corr == d.corr with
  | some l => exact .lookup l hl
  | none =>
    have hno : ∀ l ∈ s.lookups, l.req.corr ≠ d.corr := by
      rw [List.find?_eq_none] at hl
      intro l hm; simpa using hl l hm
    simp only
    split
    · rename_i n i hs ht
      cases hx : Index.get s.seq i with
      | none => exact .nothing hno
      | some x =>
        simp only
        split
        · rename_i hc
          cases hcl : x.caller with
          | none => exact .noCaller hno i x ht hx hc hcl
          | some c =>
            have := Expiry.caller hno i x c ht hx hc hcl
            cases hfat : s.fatal <;> simpa [hfat, State.emit, State.modifySeq] using this
        · exact .nothing hno
    · exact .nothing hno

theorem Inv.timedOut {s s' : State} (h : Inv s) {i : Nat} {x : SeqI} {c : Nat} (hx : Index.get s.seq i = some x) (hc : x.corr = some c)
    (hs : s'.services = s.services) (hcn : s'.con = s.con) (hq : s'.seq = Index.modify s.seq i fun x => { x with caller := none, corr := none }) : Inv s' := by
  refine h.modifySeq hs hcn (f := fun j x => if j = i then { x with caller := none, corr := none } else x) (fun j => ?_) ?_ ?_ ?_
  · rw [hq, Index.get_modify]
    split
    · subst ‹j = i›; rfl
    · simp
  · intro j x; (try dsimp only); split <;> rfl
  · intro j x n hn; (try dsimp only); split <;> exact hn
  · intro j y hy
    (try dsimp only)
    split
    · exact fun _ => ⟨rfl, rfl⟩
    · exact h.idle j y hy

theorem Inv.expire {s : State} (h : Inv s) (d : Entry) : Inv (s.expire d) := by
  have := expire_cases s d
  generalize s.expire d = s' at this
  cases this with
  | nothing => exact h
  | lookup => exact h.same ⟨rfl, rfl, rfl⟩
  | noCaller _ i x h1 h2 h3 h4 => exact h.timedOut h2 h3 rfl rfl rfl
  | caller _ i x c h1 h2 h3 h4 => exact h.timedOut h2 h3 rfl rfl rfl

/-- Induction over the expiry of deadlines. -/
theorem expire_ind {P : State → Prop} (hstep : ∀ s d, P s → P (s.expire d)) (ds : List Entry) {s : State} (h : P s) : P (ds.foldl State.expire s) := by
  induction ds generalizing s with
  | nil => exact h
  | cons d ds ih => exact ih (hstep s d h)

/-- The state of the alarm before deadlines are handled. -/
def State.alarmPrep (s : State) (e : Env) : State :=
  { s with deadlines := s.deadlines.dropWhile (fun d => decide (d.when_ < e.now)), timer := match s.timer with | some t => if t ≤ e.now then none else s.timer | none => none }

theorem alarm_eq (s : State) (e : Env) :
    s.alarm e =
      match (s.deadlines.dropWhile (fun d => decide (d.when_ < e.now))).head? with
      | some d => ((s.deadlines.takeWhile fun d => decide (d.when_ < e.now)).foldl State.expire (s.alarmPrep e)).setTimer d.when_
      | none => (s.deadlines.takeWhile fun d => decide (d.when_ < e.now)).foldl State.expire (s.alarmPrep e) := by
  have ht : s.stopTimer e.now =
      { s with timer := match s.timer with | some t => if t ≤ e.now then none else s.timer | none => none } := by
    unfold State.stopTimer
    obtain ⟨_, _, _, _, _, _, _, _, _, _, _, _, _, tm, _, _⟩ := s
    cases tm with
    | none => rfl
    | some t => simp only; split <;> rfl
  unfold State.alarm
  simp only
  rw [ht]
  simp only [expired, State.alarmPrep]
  cases (s.deadlines.dropWhile (fun d => decide (d.when_ < e.now))) <;> rfl

theorem Inv.alarm {s : State} (h : Inv s) (e : Env) : Inv (s.alarm e) := by
  rw [alarm_eq]
  have h' := expire_ind (P := Inv) (fun _ d h => h.expire d) (s.deadlines.takeWhile fun d => decide (d.when_ < e.now)) (s := s.alarmPrep e) (h.same ⟨rfl, rfl, rfl⟩)
  split
  · exact h'.same ⟨rfl, rfl, rfl⟩
  · exact h'

theorem discovered_eq (s : State) (corr : Nat) (e : Env) :
    s.discovered corr e =
      match s.lookups.find? fun l => l.req.corr == corr with
      | none => s
      | some l =>
        if (s.svc? l.req.name).any fun v => !(v.seqs.isEmpty && v.cons.isEmpty) then
          { s with lookups := s.lookups.eraseP fun l => l.req.corr == corr }.lookup l.req e
        else if l.req.sem = .wait then s
        else { s with lookups := s.lookups.eraseP fun l => l.req.corr == corr }.noEntry l.req := rfl

theorem Inv.discovered {s : State} (h : Inv s) (corr : Nat) (e : Env) : Inv (s.discovered corr e) := by
  rw [discovered_eq]
  split
  · exact h
  · split
    · apply Inv.lookup; exact h.same ⟨rfl, rfl, rfl⟩
    · split
      · exact h
      · exact h.same ⟨rfl, rfl, rfl⟩

theorem Inv.handle {s : State} (h : Inv s) (i : In) : Inv (s.handle i) := by
  cases i with
  | advertise p alias add remove e => exact h.advertise p alias add remove e
  | cadvertise p alias order add remove e => exact h.cadvertise p alias order add remove e
  | creset p => exact h.remove _
  | cinstance p alias order => exact h.cinstance p alias order
  | lookup r e => exact h.lookup r e
  | discard p corr reply => exact h.discard p corr reply
  | ack p corr trid e => exact h.ack p corr trid e
  | exit pid e => exact h.exit pid e
  | prepareShutdown p corr ps e => exact h.prepareShutdown p corr ps e
  | alarm e => exact h.alarm e
  | discovered corr e => exact h.discovered corr e
  | disassociate t => exact h.same ⟨rfl, rfl, rfl⟩
  | undelivered ipc =>
    unfold State.handle
    simp only
    split
    · exact h.free _ rfl rfl rfl
    · exact h

theorem Inv.step {s : State} (h : Inv s) (i : In) : Inv (s.step i) := Inv.handle (s := s.emit (.recv i)) (h.same ⟨rfl, rfl, rfl⟩) i

theorem Inv.init (c : Config) : Inv (State.init c) := by
  refine ⟨List.Pairwise.nil, ?_, ?_, ?_, ?_, ?_, ?_, ?_, ?_⟩ <;> simp [State.init]

theorem Inv.run {s : State} (h : Inv s) (is : List In) : Inv (s.run is) := by
  unfold State.run
  induction is generalizing s with
  | nil => exact h
  | cons i is ih => exact ih (h.step i)

theorem run_snoc (s : State) (is : List In) (i : In) : s.run (is ++ [i]) = (s.run is).step i := by
  simp [State.run]

end Casual.Service

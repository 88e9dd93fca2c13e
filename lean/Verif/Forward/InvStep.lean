import Verif.Forward.Inv
/-! Every step keeps the invariants. -/
namespace Casual.Forward

theorem take_emit {c : Nat} {p : Stage → Bool} {o : Obs} {s : State} :
    take c p (emit o s) = (take c p s).map fun r => (r.1, emit o r.2) := by
  unfold take emit
  dsimp only
  cases s.flows.find? (fun x => x.corr == c && p x.stage) <;> rfl

theorem hear_idle (l o) : hear l .idle o = .idle := by cases o <;> rfl
theorem hear_over (l o) : hear l .over o = .over := by cases o <;> rfl

theorem phaseOf_not_over {x : Flow} : phaseOf x ≠ .over := by
  unfold phaseOf; cases x.stage <;> simp

theorem phaseOf_not_bad {x : Flow} : phaseOf x ≠ .bad := by
  unfold phaseOf; cases x.stage <;> simp

theorem say_over (l : List Obs) (o : Obs) : say l .over o = .bad := by cases o <;> rfl

theorem inv_ignored {s : State} {o : Obs} {c : Nat} {p : Stage → Bool} (h : Inv s) (ho : heard o = some c)
    (hs : said o = none) (hp : plain o = true) (ht : take c p (emit o s) = none)
    (hi : ∀ y : Flow, p y.stage = false → hear s.log (phaseOf y) o = phaseOf y) : Inv (emit o s) := by
  have hstill : Still s.log (o :: s.log) := by
    apply still_heard ho
    by_cases hx : ∃ x ∈ s.flows, x.corr = c
    · obtain ⟨x, hx, rfl⟩ := hx
      rw [h.W.here x hx, Bool.eq_false_iff]
      intro hk
      have := hi x (take_none ht x hx rfl)
      rw [counts_over _ hk] at this
      exact phaseOf_not_over this.symm
    · rcases h.W.gone c (fun x hxm e => hx ⟨x, hxm, e⟩) with e | e <;> rw [e] <;> cases o <;> rfl
  refine ⟨h.alive, ?_, h.F.plain hp, ?_, h.R.still hstill, h.L⟩
  · show s.down = _; rw [emit, isDown_plain hp]; exact h.down
  · apply W_ignore h.W _ hs
    intro d hd
    obtain rfl : c = d := by rw [ho] at hd; exact Option.some.inj hd
    simp only [walk, ho, if_true]
    by_cases hx : ∃ x ∈ s.flows, x.corr = c
    · obtain ⟨x, hx, rfl⟩ := hx
      rw [h.W.here x hx]
      exact hi x (take_none ht x hx rfl)
    · rcases h.W.gone c (fun x hxm e => hx ⟨x, hxm, e⟩) with e | e
      · rw [e, hear_idle]
      · rw [e, hear_over]

/-- The state after something has been heard, and something been said. -/
theorem inv_move {s : State} {o o' : Obs} {c : Nat} {p : Stage → Bool} {x : Flow} {s' : State} {g : Stage} (h : Inv s)
    (ho : heard o = some c) (hp : plain o = true) (ht : take c p (emit o s) = some (x, s'))
    (ho' : said o' = some c) (hh' : heard o' = none) (hp' : plain o' = true)
    (hw : say (o :: s.log) (hear s.log (phaseOf x) o) o' = phaseOf { x with stage := g })
    (hg : svcStage g = true → ∃ f ∈ s.fwds, f.id = x.id ∧ f.service.isSome = true) :
    Inv (move x g o' s') := by
  obtain ⟨a, b, hs, rfl, rfl, hx⟩ := take_some ht
  have hs : s.flows = a ++ x :: b := hs
  have hW := h.W
  have hR := h.R
  rw [hs] at hW hR
  have hstill : Still s.log (o :: s.log) := by
    apply still_heard ho
    rw [hW.here x (List.mem_append_right _ (List.mem_cons_self ..)), Bool.eq_false_iff]
    intro hk
    rw [counts_over _ hk, say_over] at hw
    exact phaseOf_not_bad hw.symm
  refine ⟨h.alive, ?_, (h.F.plain hp).plain hp', ?_, R_move hR (hstill.trans (still_unheard hh')) hg (ids_nodup h.F.ids), h.L⟩
  · show s.down = isDown (o' :: o :: s.log)
    rw [isDown_plain hp', isDown_plain hp]; exact h.down
  · refine W_move hW ?_ ?_
    · intro d hd
      show walk d (o' :: o :: s.log) = _
      rw [walk_skip (by rw [hh']; simp) (by rw [ho']; intro e; exact hd (Option.some.inj e).symm)]
      by_cases hso : said o = some d
      · exfalso; revert ho hso; cases o <;> simp [heard, said]
      · rw [walk_skip (by rw [ho]; intro e; exact hd (Option.some.inj e).symm) hso]
    · show walk x.corr (o' :: o :: s.log) = _
      have h1 : walk x.corr (o :: s.log) = hear s.log (phaseOf x) o := by
        simp only [walk, ho, if_true]
        rw [hW.here x (List.mem_append_right _ (List.mem_cons_self ..))]
      rw [walk, if_neg (by rw [hh']; simp), if_pos ho', h1]
      exact hw

theorem dec_running (f : Fwd) : f.dec.running = f.running - 1 := by
  unfold Fwd.dec; dsimp only; split <;> rfl

theorem dec_commits (f : Fwd) : f.dec.commits = f.commits := by
  unfold Fwd.dec; dsimp only; split <;> rfl

theorem dec_rollbacks (f : Fwd) : f.dec.rollbacks = f.rollbacks := by
  unfold Fwd.dec; dsimp only; split <;> rfl

theorem kept_dec : Kept Fwd.dec := by
  intro f
  unfold Fwd.dec
  dsimp only
  split
  · refine ⟨rfl, rfl, rfl, rfl, ?_, rfl, rfl, rfl, fun h => by simp [Source.ok] at h⟩
    cases f.dest <;> rfl
  · exact ⟨rfl, rfl, rfl, rfl, rfl, rfl, rfl, rfl, fun _ => rfl⟩

theorem kept_comp {g k : Fwd → Fwd} (hg : Kept g) (hk : Kept k) : Kept fun f => g (k f) := by
  intro f
  obtain ⟨a1, a2, a3, a4, a5, a6, a7, a8, a9⟩ := hg (k f)
  obtain ⟨b1, b2, b3, b4, b5, b6, b7, b8, b9⟩ := hk f
  exact ⟨a1.trans b1, a2.trans b2, a3.trans b3, a4.trans b4, a5.trans b5, a6.trans b6, a7.trans b7, a8.trans b8, fun h => by
    have e := a9 h
    rw [e] at h ⊢
    exact b9 h⟩

theorem finish_eq {s : State} {f : Fwd} {g : Fwd → Fwd} (hn : (s.fwds.map (·.id)).Nodup) (hf : f ∈ s.fwds)
    (hr : f.running ≠ 0) : finish f.id g s = s.set f.id fun f => g f.dec := by
  unfold finish
  rw [get_of_mem hn hf]
  simp [hr]

def isCommitted : Obs → Bool
  | .committed _ _ => true
  | _ => false

def isRolledBack : Obs → Bool
  | .rolledBack _ _ => true
  | _ => false

def isUndelivered : Obs → Bool
  | .undelivered _ => true
  | _ => false

theorem tally_here {s : State} {o : Obs} {x : Flow} (hW : InvW s.flows s.fresh s.log) (hx : x ∈ s.flows)
    (ho : heard o = some x.corr) (hw : hear s.log (phaseOf x) o = .over) (i : Nat) :
    lostOf i (o :: s.log) = (if x.id = i ∧ isUndelivered o = true then 1 else 0) + lostOf i s.log ∧
    commitsOf i (o :: s.log) = (if x.id = i ∧ isCommitted o = true then 1 else 0) + commitsOf i s.log ∧
    rollbacksOf i (o :: s.log) = (if x.id = i ∧ isRolledBack o = true then 1 else 0) + rollbacksOf i s.log := by
  simp only [lostOf, commitsOf, rollbacksOf, tally, ho, hW.here x hx]
  unfold phaseOf at hw ⊢
  cases hst : x.stage <;> rw [hst] at hw <;> cases o <;>
    first | (cases hw; done) | (simp [isUndelivered, isCommitted, isRolledBack]; done) | skip
  next e => cases e <;> first | (cases hw; done) | simp [isUndelivered, isCommitted, isRolledBack]

/-- The state after something has been heard, and the flow is over. -/
theorem inv_finish {s : State} {o : Obs} {c : Nat} {p : Stage → Bool} {x : Flow} {s' : State} {g : Fwd → Fwd} (h : Inv s)
    (ho : heard o = some c) (hp : plain o = true) (ht : take c p (emit o s) = some (x, s'))
    (hw : hear s.log (phaseOf x) o = .over) (hk : Kept g) (hr : ∀ f, (g f).running = f.running) (hu : isUndelivered o = false)
    (hgc : ∀ f, (g f).commits = (if isCommitted o = true then 1 else 0) + f.commits)
    (hgr : ∀ f, (g f).rollbacks = (if isRolledBack o = true then 1 else 0) + f.rollbacks) :
    Inv (finish x.id g s') ∧ ∃ f ∈ (finish x.id g s').fwds, f.id = x.id := by
  obtain ⟨a, b, hs, rfl, rfl, hx⟩ := take_some ht
  have hs : s.flows = a ++ x :: b := hs
  have hW := h.W
  have hR := h.R
  rw [hs] at hW hR
  have hn := ids_nodup h.F.ids
  obtain ⟨f, hf, he, _⟩ := hR.ex x (List.mem_append_right _ (List.mem_cons_self ..))
  have hpos : f.running ≠ 0 := by
    have := hR.run f hf
    rw [cnt_pos he.symm] at this
    omega
  have hfin : finish x.id g { emit o s with flows := a ++ b } =
      ({ emit o s with flows := a ++ b } : State).set x.id fun f => g f.dec := by
    rw [← he]; exact finish_eq hn hf hpos
  rw [hfin]
  have hkk := kept_comp hk kept_dec
  have htal := tally_here h.W (by rw [hs]; exact List.mem_append_right _ (List.mem_cons_self ..)) ho hw
  refine ⟨⟨h.alive, ?_, ?_, ?_, ?_, ?_⟩, ?_⟩
  · show s.down = isDown (o :: s.log)
    rw [isDown_plain hp]; exact h.down
  · exact set_F_kept (s := { emit o s with flows := a ++ b }) (h.F.plain hp) hkk
  · refine W_drop hW ?_ ?_
    · intro d hd
      by_cases hso : said o = some d
      · exfalso; revert ho hso; cases o <;> simp [heard, said]
      · exact walk_skip (by rw [ho]; intro e; exact hd (Option.some.inj e).symm) hso
    · show walk x.corr (o :: s.log) = _
      simp only [walk, ho, if_true]
      rw [hW.here x (List.mem_append_right _ (List.mem_cons_self ..))]
      exact hw
  · refine ⟨?_, ?_, ?_, ?_, ?_⟩
    · intro y hy
      have hy : y ∈ a ++ b := hy
      obtain ⟨f', hf', he', hs'⟩ := hR.ex y (by
        rcases List.mem_append.mp hy with hy | hy
        · exact List.mem_append_left _ hy
        · exact List.mem_append_right _ (List.mem_cons_of_mem _ hy))
      refine ⟨if f'.id = x.id then g f'.dec else f', ?_, ?_, ?_⟩
      · simp only [State.set, List.mem_map]; exact ⟨f', hf', rfl⟩
      · split
        · rw [(hkk f').1]; exact he'
        · exact he'
      · split
        · rw [(hkk f').2.2.1]; exact hs'
        · exact hs'
    · intro f' hf'
      obtain ⟨f₀, h0, rfl⟩ := mem_set (s := { emit o s with flows := a ++ b }) hf'
      have h0 : f₀ ∈ s.fwds := h0
      have hr0 := hR.run f₀ h0
      show _ = cnt _ (a ++ b) + lostOf _ (o :: s.log)
      have hl : ∀ i, lostOf i (o :: s.log) = lostOf i s.log := fun i => by rw [(htal i).1, hu]; simp
      rw [hl]
      by_cases hc : f₀.id = x.id
      · rw [if_pos hc, (hkk f₀).1, hr, dec_running]
        rw [cnt_pos hc.symm] at hr0
        omega
      · rw [if_neg hc]
        rw [cnt_neg (fun e => hc e.symm)] at hr0
        omega
    · intro f' hf'
      obtain ⟨f₀, h0, rfl⟩ := mem_set (s := { emit o s with flows := a ++ b }) hf'
      have h0 : f₀ ∈ s.fwds := h0
      show _ = commitsOf _ (o :: s.log)
      rw [(htal _).2.1]
      by_cases hc : f₀.id = x.id
      · rw [if_pos hc, (hkk f₀).1, hgc, dec_commits, hR.com f₀ h0]
        simp [hc]
      · rw [if_neg hc, if_neg (fun e => hc e.1.symm), hR.com f₀ h0]; omega
    · intro f' hf'
      obtain ⟨f₀, h0, rfl⟩ := mem_set (s := { emit o s with flows := a ++ b }) hf'
      have h0 : f₀ ∈ s.fwds := h0
      show _ = rollbacksOf _ (o :: s.log)
      rw [(htal _).2.2]
      by_cases hc : f₀.id = x.id
      · rw [if_pos hc, (hkk f₀).1, hgr, dec_rollbacks, hR.rol f₀ h0]
        simp [hc]
      · rw [if_neg hc, if_neg (fun e => hc e.1.symm), hR.rol f₀ h0]; omega
    · intro j hj
      have hj' : ∀ f ∈ s.fwds, f.id ≠ j := by
        intro f' hf' e
        refine hj (if f'.id = x.id then g f'.dec else f') (by simp only [State.set, List.mem_map]; exact ⟨f', hf', rfl⟩) ?_
        split
        · rw [(hkk f').1]; exact e
        · exact e
      have hne : x.id ≠ j := fun e => hj' f hf (he.trans e)
      show lostOf j (o :: s.log) = 0 ∧ commitsOf j (o :: s.log) = 0 ∧ rollbacksOf j (o :: s.log) = 0
      obtain ⟨t1, t2, t3⟩ := htal j
      rw [t1, t2, t3, if_neg (fun e => hne e.1), if_neg (fun e => hne e.1), if_neg (fun e => hne e.1)]
      simpa using hR.new j hj'
  · exact set_L (s := { emit o s with flows := a ++ b }) h.L fun f _ _ => (hkk f).1
  · refine ⟨g f.dec, ?_, ?_⟩
    · simp only [State.set, List.mem_map]
      exact ⟨f, hf, by rw [if_pos he]⟩
    · rw [(hkk f).1]; exact he

/-! ### Complying -/

/-- One lookup of a service is given up. -/
def dropOne (s : State) (x : Flow) : State :=
  emit (.dropService x.corr) { s with flows := s.flows.filter (fun y => !decide (y = x)) ++ [{ x with stage := .discard }] }

theorem filter_ne {a b : List Flow} {x : Flow} (hn : ((a ++ x :: b).map (·.corr)).Nodup) :
    (a ++ x :: b).filter (fun y => !decide (y = x)) = a ++ b := by
  have hne : ∀ y, y ∈ a ++ b → y ≠ x := by
    intro y hy e
    subst e
    simp only [List.map_append, List.map_cons] at hn
    rw [List.nodup_append] at hn
    obtain ⟨_, h2, h3⟩ := hn
    rw [List.nodup_cons] at h2
    rcases List.mem_append.mp hy with hy | hy
    · exact h3 _ (List.mem_map.mpr ⟨y, hy, rfl⟩) _ (List.mem_cons_self ..) rfl
    · exact h2.1 (List.mem_map.mpr ⟨y, hy, rfl⟩)
  rw [List.filter_append, List.filter_cons]
  simp only [decide_true, Bool.not_true, Bool.false_eq_true, if_false]
  congr 1
  · exact List.filter_eq_self.mpr fun y hy => by simp [hne y (List.mem_append_left _ hy)]
  · exact List.filter_eq_self.mpr fun y hy => by simp [hne y (List.mem_append_right _ hy)]

theorem inv_dropOne {s : State} {x : Flow} (h : Inv s) (hx : x ∈ s.flows) (hl : isLookup x.stage = true) : Inv (dropOne s x) := by
  obtain ⟨a, b, hs⟩ := List.append_of_mem hx
  have hW := h.W
  have hR := h.R
  rw [hs] at hW hR
  have hfl : s.flows.filter (fun y => !decide (y = x)) = a ++ b := by rw [hs]; exact filter_ne hW.nodup
  refine ⟨h.alive, ?_, h.F.plain rfl, ?_, ?_, h.L⟩
  · show s.down = isDown (_ :: s.log)
    rw [isDown_plain rfl]; exact h.down
  · show InvW (s.flows.filter (fun y => !decide (y = x)) ++ [_]) _ _
    rw [hfl]
    refine W_move hW ?_ ?_
    · intro d hd
      exact walk_skip (by simp [heard]) (by simp only [said]; intro e; exact hd (Option.some.inj e).symm)
    · show walk x.corr (.dropService x.corr :: s.log) = _
      simp only [walk, heard, said, if_true]
      rw [if_neg (by simp), hW.here x (List.mem_append_right _ (List.mem_cons_self ..))]
      unfold phaseOf
      cases hst : x.stage with
      | lookup m => rfl
      | _ => rw [hst] at hl; cases hl
  · show InvR s.fwds (s.flows.filter (fun y => !decide (y = x)) ++ [_]) _
    rw [hfl]
    refine R_move hR (still_unheard (o := .dropService x.corr) rfl) ?_ (ids_nodup h.F.ids)
    intro _
    obtain ⟨f, hf, he, hsv⟩ := hR.ex x (List.mem_append_right _ (List.mem_cons_self ..))
    refine ⟨f, hf, he, hsv ?_⟩
    cases hst : x.stage with
    | lookup m => rfl
    | _ => rw [hst] at hl; cases hl

theorem emits_flows {α : Type} (g : α → Obs) (xs : List α) : ∀ s : State,
    xs.foldl (fun s a => emit (g a) s) s = { s with log := (xs.map g).reverse ++ s.log } := by
  induction xs with
  | nil => intro s; rfl
  | cons a xs ih => intro s; rw [List.foldl_cons, ih]; simp [emit]

theorem dropOne_flows {s : State} {x y : Flow} (hy : y ∈ s.flows) (hne : y ≠ x) : y ∈ (dropOne s x).flows := by
  simp only [dropOne, emit, List.mem_append, List.mem_filter]
  exact Or.inl ⟨hy, by simp [hne]⟩

theorem drop_all (ls : List Flow) : ∀ (s : State), (∀ x ∈ ls, isLookup x.stage = true) → ls.Nodup →
    ls.foldl dropOne s =
      { ls.foldl (fun s x => emit (.dropService x.corr) s) s with
        flows := s.flows.filter (fun x => !ls.contains x) ++ ls.map fun x => { x with stage := .discard } } := by
  induction ls with
  | nil =>
    intro s _ _
    have : s.flows.filter (fun _ => true) = s.flows := List.filter_eq_self.mpr fun _ _ => rfl
    simp [this]
  | cons x ls ih =>
    intro s hl hn
    obtain ⟨hx, hn⟩ := List.nodup_cons.mp hn
    rw [List.foldl_cons, ih _ (fun y hy => hl y (List.mem_cons_of_mem _ hy)) hn, List.foldl_cons]
    have h1 : (dropOne s x).flows.filter (fun y => !ls.contains y) =
        s.flows.filter (fun y => !(x :: ls).contains y) ++ [{ x with stage := .discard }] := by
      simp only [dropOne, emit, List.filter_append, List.filter_filter]
      congr 1
      · apply List.filter_congr
        intro y _
        have : (y == x) = decide (y = x) := by by_cases e : y = x <;> simp [e]
        simp only [List.contains_cons, Bool.not_or, this]
        exact Bool.and_comm _ _
      · have : ls.contains { x with stage := .discard } = false := by
          rw [Bool.eq_false_iff]
          intro hc
          have := hl _ (List.mem_cons_of_mem _ (List.contains_iff_mem.mp hc))
          cases this
        rw [List.filter_cons, this]; rfl
    rw [h1, emits_flows, emits_flows]
    simp [dropOne, emit]

theorem inv_dropAll (ls : List Flow) : ∀ (s : State), Inv s → (∀ x ∈ ls, isLookup x.stage = true ∧ x ∈ s.flows) →
    ls.Nodup → Inv (ls.foldl dropOne s) := by
  induction ls with
  | nil => intro s h _ _; exact h
  | cons x ls ih =>
    intro s h hl hn
    obtain ⟨hx, hn⟩ := List.nodup_cons.mp hn
    refine ih _ (inv_dropOne h (hl x (List.mem_cons_self ..)).2 (hl x (List.mem_cons_self ..)).1) ?_ hn
    intro y hy
    obtain ⟨h1, h2⟩ := hl y (List.mem_cons_of_mem _ hy)
    exact ⟨h1, dropOne_flows h2 (fun e => hx (e ▸ hy))⟩

theorem prefer_perm (pref : List Nat) (xs : List Flow) : (prefer pref xs).Perm xs :=
  List.filter_append_perm _ xs

theorem nodup_of_map {α β : Type} {f : α → β} {l : List α} (h : (l.map f).Nodup) : l.Nodup := by
  induction l with
  | nil => exact List.nodup_nil
  | cons a l ih =>
    rw [List.map_cons, List.nodup_cons] at h
    exact List.nodup_cons.mpr ⟨fun hm => h.1 (List.mem_map.mpr ⟨a, hm, rfl⟩), ih h.2⟩

/-- The lookups that are given up. -/
theorem take_prefer {s : State} (h : Inv s) (pref : List Nat) (q : Flow → Bool) (n : Nat) :
    (∀ x ∈ (prefer pref (s.flows.filter q)).take n, x ∈ s.flows ∧ q x = true) ∧ ((prefer pref (s.flows.filter q)).take n).Nodup := by
  constructor
  · intro x hx
    have := (prefer_perm pref _).mem_iff.mp (List.mem_of_mem_take hx)
    exact List.mem_filter.mp this
  · apply List.Nodup.sublist (List.take_sublist ..)
    rw [(prefer_perm pref _).nodup_iff]
    exact List.Nodup.sublist List.filter_sublist (nodup_of_map h.W.nodup)

/-- `cancel`, in steps. -/
theorem cancel_eq {s : State} (h : Inv s) (pref : List Nat) (f : Fwd) :
    let ds := (prefer pref (s.flows.filter fun x => x.id == f.id && x.stage == .dequeue)).take (surplus f)
    cancel pref f s =
      let s' := ds.foldl (fun s x => emit (.forget x.corr f.source.process) s) s
      if f.service.isSome then
        ((prefer pref (s.flows.filter fun x => x.id == f.id && isLookup x.stage)).take (surplus f - ds.length)).foldl dropOne s'
      else s' := by
  intro ds
  unfold cancel
  dsimp only
  split
  · rw [emits_flows]
    dsimp only
    obtain ⟨h1, h2⟩ := take_prefer h pref (fun x => x.id == f.id && isLookup x.stage) (surplus f - ds.length)
    rw [drop_all _ _ (fun x hx => by have := (h1 x hx).2; simp only [Bool.and_eq_true] at this; exact this.2) h2]
    rw [emits_flows, emits_flows]
  · rfl

theorem inv_cancel {s : State} (h : Inv s) (pref : List Nat) (f : Fwd) : Inv (cancel pref f s) := by
  rw [cancel_eq h]
  dsimp only
  have hi := inv_emits (g := fun x : Flow => .forget x.corr f.source.process) (fun _ => rfl) (fun _ => rfl)
    ((prefer pref (s.flows.filter fun x => x.id == f.id && x.stage == .dequeue)).take (surplus f)) h
  split
  · obtain ⟨h1, h2⟩ := take_prefer h pref (fun x => x.id == f.id && isLookup x.stage) (surplus f -
      ((prefer pref (s.flows.filter fun x => x.id == f.id && x.stage == .dequeue)).take (surplus f)).length)
    refine inv_dropAll _ _ hi ?_ h2
    intro x hx
    obtain ⟨h3, h4⟩ := h1 x hx
    simp only [Bool.and_eq_true] at h4
    refine ⟨h4.2, ?_⟩
    rw [emits_flows]
    exact h3
  · exact hi

theorem dropAll_fwds (ls : List Flow) : ∀ s : State, (ls.foldl dropOne s).fwds = s.fwds := by
  induction ls with
  | nil => intro s; rfl
  | cons x ls ih => intro s; rw [List.foldl_cons, ih]; rfl

theorem cancel_fwds (pref : List Nat) (f : Fwd) (s : State) : (cancel pref f s).fwds = s.fwds := by
  unfold cancel
  dsimp only
  split
  · rw [emits_flows, emits_flows]
  · rw [emits_flows]

theorem inv_cancels (pref : List Nat) (fs : List Fwd) : ∀ {s : State}, Inv s →
    Inv (fs.foldl (fun s f => cancel pref f s) s) ∧ (fs.foldl (fun s f => cancel pref f s) s).fwds = s.fwds := by
  induction fs with
  | nil => intro s h; exact ⟨h, rfl⟩
  | cons f fs ih =>
    intro s h
    obtain ⟨h1, h2⟩ := ih (inv_cancel h pref f)
    exact ⟨h1, h2.trans (cancel_fwds pref f s)⟩

theorem lookAgain_fwds (f : Fwd) (s : State) : (lookAgain f s).fwds = s.fwds := by
  unfold lookAgain; split
  · exact askQueues_fwds f s
  · rfl

theorem inv_lookAgains (fs : List Fwd) : ∀ {s : State}, Inv s → (∀ f ∈ fs, f ∈ s.fwds) →
    Inv (fs.foldl (fun s f => lookAgain f s) s) := by
  induction fs with
  | nil => intro s h _; exact h
  | cons f fs ih =>
    intro s h hf
    refine ih ?_ (by intro g hg; rw [lookAgain_fwds]; exact hf g (List.mem_cons_of_mem _ hg))
    show Inv (lookAgain f s)
    unfold lookAgain
    split
    · exact inv_askQueues h ⟨f, hf f (List.mem_cons_self ..), rfl⟩
    · exact h

theorem mem_services {s : State} {f : Fwd} (h : f ∈ services s ++ queues s) : f ∈ s.fwds := by
  rcases List.mem_append.mp h with h | h
  · exact (List.mem_filter.mp h).1
  · exact (List.mem_filter.mp h).1

theorem inv_comply {s : State} (pref : List Nat) (h : Inv s) : Inv (comply pref s) := by
  unfold comply
  dsimp only
  have h1 : Inv (dropLookups s) := inv_emits (g := fun l : Look => .dropQueue l.corr) (fun _ => rfl) (fun _ => rfl) _ h
  obtain ⟨h2, _⟩ := inv_cancels pref (queues (dropLookups s) ++ services (dropLookups s)) h1
  exact inv_lookAgains _ h2 fun f hf => mem_services hf

/-! ### Configuration -/

theorem W_more {flows fresh l} {o : Obs} (h : InvW flows fresh l) (hs : silent o = true) : InvW flows fresh (o :: l) := h.silent hs

theorem inv_addOrUpdate {s : State} {x : Conf} (h : Inv s) : Inv (addOrUpdate x s) := by
  unfold addOrUpdate
  cases hf : s.fwds.find? fun f => f.alias == x.alias && f.service.isSome == x.target.svc.isSome with
  | some f =>
    dsimp only
    have hm := List.mem_of_find?_eq_some hf
    refine ⟨h.alive, ?_, ?_, h.W.silent rfl, ?_, ?_⟩
    · show s.down = isDown (_ :: s.log)
      rw [isDown_cons (by simp)]; exact h.down
    · have hl : (s.set f.id fun f => { f with configured := x.instances }).fwds.length = s.fwds.length := by simp [State.set]
      refine ⟨?_, ?_, ?_, ?_, ?_⟩
      · show (s.set f.id fun f => { f with configured := x.instances }).fwds.map (·.id) = _
        rw [set_ids (s := s) (i := f.id) (g := fun f => { f with configured := x.instances }) (fun _ _ => rfl)]
        show _ = List.range ((s.set f.id fun f => { f with configured := x.instances }).fwds.length)
        rw [hl]; exact h.F.ids
      · intro g hg
        obtain ⟨g₀, h0, rfl⟩ := mem_set (s := s) hg
        obtain ⟨y, hy, hm⟩ := h.F.conf g₀ h0
        refine ⟨y, ?_, ?_⟩
        · show confOf _ s.log = _
          split <;> exact hy
        · split <;> exact hm
      · intro g hg
        obtain ⟨g₀, h0, rfl⟩ := mem_set (s := s) hg
        show instancesOf _ (.instances f.id x.instances :: s.log) = _
        by_cases hi : g₀.id = f.id
        · rw [if_pos hi]
          simp [instancesOf, hi]
        · rw [if_neg hi]
          simp only [instancesOf]
          rw [if_neg (fun e => hi e.symm)]
          exact h.F.inst g₀ h0
      · intro i y hy
        rcases List.mem_cons.mp hy with hy | hy
        · cases hy
        · have := h.F.once i y hy
          exact ⟨by show i < (s.set f.id fun f => { f with configured := x.instances }).fwds.length; rw [hl]; exact this.1, this.2⟩
      · intro g hg
        obtain ⟨g₀, h0, rfl⟩ := mem_set (s := s) hg
        have := (h.F.src g₀ h0).mono (l' := .instances f.id x.instances :: s.log) fun _ => List.mem_cons_of_mem _
        split <;> exact this
    · exact set_R (h.R.still (still_silent rfl)) fun _ _ _ => ⟨rfl, rfl, rfl, rfl, rfl⟩
    · exact set_L h.L fun _ _ _ => rfl
  | none =>
    dsimp only
    have hid : ∀ f ∈ s.fwds, f.id < s.fwds.length := by
      intro f hf
      have : f.id ∈ s.fwds.map (·.id) := List.mem_map.mpr ⟨f, hf, rfl⟩
      rw [h.F.ids] at this
      exact List.mem_range.mp this
    refine ⟨h.alive, ?_, ?_, (h.W.silent rfl).silent rfl, ?_, ?_⟩
    · show s.down = isDown (_ :: _ :: s.log)
      rw [isDown_cons (by simp), isDown_cons (by simp)]; exact h.down
    · refine ⟨?_, ?_, ?_, ?_, ?_⟩
      · simp only [emit, List.map_append, List.map_cons, List.map_nil, List.length_append, List.length_cons, List.length_nil]
        rw [h.F.ids, List.range_succ]
      · intro f hf
        rcases List.mem_append.mp hf with hf | hf
        · obtain ⟨y, hy, hm⟩ := h.F.conf f hf
          refine ⟨y, ?_, hm⟩
          simp only [emit, confOf]
          rw [if_neg (by have := hid f hf; omega)]
          exact hy
        · obtain rfl := List.mem_singleton.mp hf
          refine ⟨x, by simp [emit, confOf], rfl, rfl, rfl, ?_, rfl, rfl⟩
          dsimp only
          cases x.target.dest <;> rfl
      · intro f hf
        rcases List.mem_append.mp hf with hf | hf
        · simp only [emit, instancesOf]
          rw [if_neg (by have := hid f hf; omega)]
          exact h.F.inst f hf
        · obtain rfl := List.mem_singleton.mp hf
          simp [emit, instancesOf]
      · intro i y hy
        simp only [emit, List.length_append, List.length_cons, List.length_nil, confOf]
        rcases List.mem_cons.mp hy with hy | hy
        · cases hy
        · rcases List.mem_cons.mp hy with hy | hy
          · cases hy
            exact ⟨by omega, by simp⟩
          · have := h.F.once i y hy
            exact ⟨by omega, by rw [if_neg (by omega)]; exact this.2⟩
      · intro f hf
        rcases List.mem_append.mp hf with hf | hf
        · exact (h.F.src f hf).mono fun _ ho => List.mem_cons_of_mem _ (List.mem_cons_of_mem _ ho)
        · obtain rfl := List.mem_singleton.mp hf
          intro hs; cases hs
    · have hR := (h.R.still (still_silent (o := .created s.fwds.length x) rfl)).still
        (still_silent (o := .instances s.fwds.length x.instances) rfl)
      have hnew := hR.new s.fwds.length (fun f hf e => Nat.lt_irrefl _ (e ▸ hid f hf))
      refine ⟨?_, ?_, ?_, ?_, ?_⟩
      · intro y hy
        obtain ⟨f, hf, he⟩ := h.R.ex y hy
        exact ⟨f, List.mem_append_left _ hf, he⟩
      · intro f hf
        rcases List.mem_append.mp hf with hf | hf
        · exact hR.run f hf
        · obtain rfl := List.mem_singleton.mp hf
          have : s.flows.filter (fun y => y.id == s.fwds.length) = [] := by
            rw [List.filter_eq_nil_iff]
            intro y hy
            obtain ⟨f, hf, he, _⟩ := h.R.ex y hy
            have := hid f hf
            simp; omega
          have hc : cnt s.fwds.length s.flows = 0 := by simp [cnt, this]
          show 0 = cnt s.fwds.length s.flows + lostOf s.fwds.length (_ :: _ :: s.log)
          rw [hc, hnew.1]
      · intro f hf
        rcases List.mem_append.mp hf with hf | hf
        · exact hR.com f hf
        · obtain rfl := List.mem_singleton.mp hf
          exact hnew.2.1.symm
      · intro f hf
        rcases List.mem_append.mp hf with hf | hf
        · exact hR.rol f hf
        · obtain rfl := List.mem_singleton.mp hf
          exact hnew.2.2.symm
      · intro i hi
        exact hR.new i fun f hf => hi f (List.mem_append_left _ hf)
    · refine ⟨h.L.nodup, h.L.lt, ?_⟩
      intro l hl
      obtain ⟨f, hf, he⟩ := h.L.ex l hl
      exact ⟨f, List.mem_append_left _ hf, he⟩

theorem inv_update {s : State} {xs : List Conf} {pref : List Nat} (h : Inv s) : Inv (update xs pref s) := by
  unfold update
  apply inv_comply
  generalize xs.filter (·.target.svc.isSome) ++ xs.filter (·.target.svc.isNone) = ys
  induction ys generalizing s with
  | nil => exact h
  | cons y ys ih => exact ih (inv_addOrUpdate h)

theorem inv_down {s : State} (h : Inv s) :
    Inv { emit .shutdown s with down := true, fwds := (emit .shutdown s).fwds.map fun f => { f with configured := 0 } } := by
  have hw : ∀ c, walk c (.shutdown :: s.log) = walk c s.log := fun c => walk_silent rfl
  refine ⟨h.alive, ?_, ?_, ?_, ?_, ?_⟩
  · simp [emit, isDown]
  · refine ⟨?_, ?_, ?_, ?_, ?_⟩
    · simp only [emit, List.map_map, List.length_map]
      exact h.F.ids
    · intro f hf
      obtain ⟨f₀, h0, rfl⟩ := List.mem_map.mp hf
      obtain ⟨x, hx, hm⟩ := h.F.conf f₀ h0
      exact ⟨x, hx, hm⟩
    · intro f hf
      obtain ⟨f₀, h0, rfl⟩ := List.mem_map.mp hf
      rfl
    · intro i y hy
      have : Obs.created i y ∈ s.log := by
        rcases List.mem_cons.mp hy with e | hy
        · cases e
        · exact hy
      have := h.F.once i y this
      exact ⟨by simp only [emit, List.length_map]; exact this.1, this.2⟩
    · intro f hf
      obtain ⟨f₀, h0, rfl⟩ := List.mem_map.mp hf
      exact (h.F.src f₀ h0).mono fun _ ho => List.mem_cons_of_mem _ ho
  · exact ⟨h.W.nodup, h.W.lt, fun x hx => (hw _).trans (h.W.here x hx), fun c hc => by
      have := h.W.gone c hc
      rw [← hw c] at this
      exact this, fun c hc => (hw c).trans (h.W.new c hc)⟩
  · have hR := h.R.still (still_silent (o := .shutdown) rfl)
    refine ⟨?_, ?_, ?_, ?_, ?_⟩
    · intro x hx
      obtain ⟨f, hf, he⟩ := h.R.ex x hx
      exact ⟨_, List.mem_map.mpr ⟨f, hf, rfl⟩, he⟩
    · intro f hf
      obtain ⟨f₀, h0, rfl⟩ := List.mem_map.mp hf
      exact hR.run f₀ h0
    · intro f hf
      obtain ⟨f₀, h0, rfl⟩ := List.mem_map.mp hf
      exact hR.com f₀ h0
    · intro f hf
      obtain ⟨f₀, h0, rfl⟩ := List.mem_map.mp hf
      exact hR.rol f₀ h0
    · intro i hi
      exact hR.new i fun f hf => hi { f with configured := 0 } (List.mem_map.mpr ⟨f, hf, rfl⟩)
  · refine ⟨h.L.nodup, h.L.lt, ?_⟩
    intro l hl
    obtain ⟨f, hf, he⟩ := h.L.ex l hl
    exact ⟨_, List.mem_map.mpr ⟨f, hf, rfl⟩, he⟩

theorem inv_shutdown {s : State} {pref : List Nat} (h : Inv s) : Inv (shutdown pref (emit .shutdown s)) :=
  inv_comply pref (inv_down h)

end Casual.Forward

import Verif.DPost.Puts
/-
  Groups that are changed, processes that come, go and are changed.
-/
namespace Casual.DPost

open Casual.ConfModel (DGroup Entity)
open Casual.Config (Change calculate inj_of_nodup)

/-! ### Groups are changed -/

theorem setFirst_eq {gs : List Grp} (h : (names gs).Nodup) (n : String) (f : Grp → Grp) :
    setFirst n f gs = gs.map fun g => if g.name = n then f g else g := by
  induction gs with
  | nil => rfl
  | cons g gs ih =>
    rw [names, List.map_cons, List.nodup_cons] at h
    unfold setFirst
    rw [List.map_cons]
    by_cases e : g.name = n
    · rw [if_pos e, if_pos e]
      congr 1
      refine Eq.trans (List.map_id gs).symm (List.map_congr_left fun x hx => ?_)
      have : x.name ≠ n := fun e' => h.1 (e.trans e'.symm ▸ List.mem_map_of_mem (f := fun g : Grp => g.name) hx)
      rw [if_neg this]
      rfl
    · rw [if_neg e, if_neg e, ih h.2]

/-- The numbers and names of the groups that are not in the list stay. -/
def Keeps (ns : List String) (d d' : Dom) : Prop :=
  ∀ i ∈ ids d.groups, nameOf d.groups i ∉ ns → i ∈ ids d'.groups ∧ nameOf d'.groups i = nameOf d.groups i

theorem nameOf_map {gs : List Grp} (f : Grp → Grp) (hid : ∀ g, (f g).id = g.id) (hn : ∀ g, (f g).name = g.name) (i : Nat) :
    nameOf (gs.map f) i = nameOf gs i := by
  unfold nameOf
  rw [List.find?_map]
  have : ((fun g : Grp => decide (g.id = i)) ∘ f) = fun g => decide (g.id = i) := by
    funext g; simp only [Function.comp, hid]
  rw [this]
  cases gs.find? fun g => decide (g.id = i) with
  | none => rfl
  | some g => simp only [Option.map_some, hn]

theorem view_modifies {d : Dom} (h : W d) (ms : List DGroup) (hdep : ∀ m ∈ ms, ∀ n ∈ m.dependencies, n ∈ names d.groups) :
    (modifyGroups ms d).2 = true ∧ W (modifyGroups ms d).1 ∧
      view (modifyGroups ms d).1 = { view d with groups := puts (·.name) ms (view d).groups } ∧
      (modifyGroups ms d).1.gateway = d.gateway ∧ (modifyGroups ms d).1.tasks = d.tasks ∧
      (modifyGroups ms d).1.failed = d.failed ∧ Keeps [] d (modifyGroups ms d).1 := by
  induction ms generalizing d with
  | nil => exact ⟨rfl, h, rfl, rfl, rfl, rfl, fun i hi _ => ⟨hi, rfl⟩⟩
  | cons m ms ih =>
    obtain ⟨ds, hds⟩ := membership_total (gs := d.groups) (ns := m.dependencies) (hdep m List.mem_cons_self)
    obtain ⟨e1, e2⟩ := membership_some h.idsN hds
    unfold modifyGroups
    rw [hds]
    dsimp only
    rw [setFirst_eq h.namesN]
    let f : Grp → Grp := fun g => if g.name = m.name then { g with deps := ds, note := m.note, enabled := m.enabled } else g
    have hfid : ∀ g, (f g).id = g.id := by intro g; show (ite _ _ _ : Grp).id = _; split <;> rfl
    have hfn : ∀ g, (f g).name = g.name := by intro g; show (ite _ _ _ : Grp).name = _; split <;> rfl
    have hids : ids (d.groups.map f) = ids d.groups := by
      rw [ids, List.map_map]; exact List.map_congr_left fun g _ => hfid g
    have hnm : names (d.groups.map f) = names d.groups := by
      rw [names, List.map_map]; exact List.map_congr_left fun g _ => hfn g
    have hst : ∀ i ∈ ids d.groups, nameOf (d.groups.map f) i = nameOf d.groups i := fun i _ => nameOf_map f hfid hfn i
    have hW : W { d with groups := d.groups.map f } := by
      refine ⟨?_, ?_, ?_, ?_, ?_, ?_⟩
      · dsimp only; rw [hids]; exact h.idsN
      · intro x hx
        obtain ⟨y, hy, rfl⟩ := List.mem_map.1 hx
        rw [hfid]; exact h.lt y hy
      · dsimp only; rw [hnm]; exact h.namesN
      · intro x hx i hi
        dsimp only; rw [hids]
        obtain ⟨y, hy, rfl⟩ := List.mem_map.1 hx
        by_cases e : y.name = m.name
        · have : (f y).deps = ds := by show (ite _ _ _ : Grp).deps = _; rw [if_pos e]
          rw [this] at hi; exact e2 i hi
        · have : (f y).deps = y.deps := by show (ite _ _ _ : Grp).deps = _; rw [if_neg e]
          rw [this] at hi; exact h.deps y hy i hi
      · dsimp only; rw [hids]; exact h.srv
      · dsimp only; rw [hids]; exact h.exe
    have hV : view { d with groups := d.groups.map f } = { view d with groups := put1 (·.name) m (view d).groups } := by
      unfold view
      congr 1
      · unfold put1
        dsimp only
        rw [List.map_map, List.map_map]
        refine List.map_congr_left fun x hx => ?_
        simp only [Function.comp]
        by_cases e : x.name = m.name
        · have : f x = { x with deps := ds, note := m.note, enabled := m.enabled } := if_pos e
          rw [this, if_pos (show (showGroup d.groups x).name = m.name from e)]
          unfold showGroup
          dsimp only
          rw [List.map_congr_left fun i hi => hst i (e2 i hi), e1, e]
        · have : f x = x := if_neg e
          rw [this, if_neg (show (showGroup d.groups x).name ≠ m.name from e)]
          exact showGroup_stable hst (h.deps x hx)
      · exact List.map_congr_left fun x hx => show_stable hst (h.srv x hx)
      · exact List.map_congr_left fun x hx => show_stable hst (h.exe x hx)
    obtain ⟨r1, r2, r3, r4, r5, r6, r7⟩ := ih hW (by
      intro x hx n hn
      dsimp only; rw [hnm]
      exact hdep x (List.mem_cons_of_mem _ hx) n hn)
    refine ⟨r1, r2, ?_, r4, r5, r6, ?_⟩
    · rw [r3, hV]; rfl
    · intro i hi _
      have := r7 i (by dsimp only; rw [hids]; exact hi) (by simp)
      exact ⟨this.1, this.2.trans (hst i hi)⟩

theorem keeps_trans {ns : List String} {a b c : Dom} (h1 : Keeps ns a b) (h2 : Keeps [] b c) : Keeps ns a c := by
  intro i hi hn
  have e1 := h1 i hi hn
  have e2 := h2 i e1.1 (by simp)
  exact ⟨e2.1, e2.2.trans e1.2⟩

theorem keeps_remove {d : Dom} (h : W d) (g : DGroup) : Keeps [g.name] d (removeGroup d g) := by
  intro i hi hn
  unfold removeGroup
  cases hx : idOf d.groups g.name with
  | none => exact ⟨hi, rfl⟩
  | some j =>
    dsimp only
    rw [eraseFirst_eq h.namesN]
    have hne : nameOf d.groups i ≠ g.name := by simpa using hn
    refine ⟨?_, nameOf_removed h.idsN hi hne⟩
    obtain ⟨x, hx, rfl⟩ := mem_ids hi
    rw [nameOf_mem h.idsN hx] at hne
    exact List.mem_map.2 ⟨Grp.leave j x, List.mem_map_of_mem (List.mem_filter.2 ⟨hx, by simpa using hne⟩), rfl⟩

theorem keeps_removes {d : Dom} (h : W d) (gs : List DGroup) : Keeps (gs.map (·.name)) d (gs.foldl removeGroup d) := by
  induction gs generalizing d with
  | nil => exact fun i hi _ => ⟨hi, rfl⟩
  | cons g gs ih =>
    intro i hi hn
    rw [List.map_cons, List.mem_cons, not_or] at hn
    have e1 := keeps_remove h g i hi (by simpa using hn.1)
    have e2 := ih (view_remove h g).1 i e1.1 (by rw [e1.2]; exact hn.2)
    exact ⟨e2.1, e2.2.trans e1.2⟩

theorem keeps_adds (as : List DGroup) (d : Dom) : Keeps [] d (addGroups as d).1 := by
  induction as generalizing d with
  | nil => exact fun i hi _ => ⟨hi, rfl⟩
  | cons a as ih =>
    unfold addGroups
    cases membership d.groups a.dependencies with
    | none => exact fun i hi _ => ⟨hi, rfl⟩
    | some ds =>
      refine keeps_trans (fun i hi _ => ⟨?_, nameOf_added _ hi⟩) (ih _)
      simp only [ids, List.map_append]
      exact List.mem_append.2 (Or.inl hi)

/-! ### Processes -/

/-- A process without groups is a member of `.global`. -/
def withGlobal (e : Entity) : Entity := if e.memberships = [] then { e with memberships := [".global"] } else e

theorem withGlobal_alias (e : Entity) : (withGlobal e).alias = e.alias := by unfold withGlobal; split <;> rfl

theorem makeProc_some {gs : List Grp} (hN : (ids gs).Nodup) {e : Entity} (hm : ∀ n ∈ e.memberships, n ∈ names gs)
    (hg : ".global" ∈ names gs) :
    ∃ p, makeProc gs e = some p ∧ showProc gs p = withGlobal e ∧ (∀ i ∈ p.groups, i ∈ ids gs) ∧ p.settings.alias = e.alias := by
  obtain ⟨ms, hms⟩ := membership_total hm
  obtain ⟨e1, e2⟩ := membership_some hN hms
  unfold makeProc
  rw [hms]
  dsimp only
  by_cases h : ms = []
  · obtain ⟨ks, hks⟩ := membership_total (gs := gs) (ns := [".global"]) (by simpa using hg)
    obtain ⟨e3, e4⟩ := membership_some hN hks
    rw [if_pos h, hks]
    refine ⟨_, rfl, ?_, e4, rfl⟩
    have : e.memberships = [] := by rw [← e1, h]; rfl
    unfold showProc withGlobal
    rw [if_pos this]
    dsimp only
    rw [e3]
  · rw [if_neg h]
    refine ⟨_, rfl, ?_, e2, rfl⟩
    have : e.memberships ≠ [] := by
      intro e0
      rw [e0] at e1
      exact h (List.map_eq_nil_iff.1 e1)
    unfold showProc withGlobal
    rw [if_neg this]
    dsimp only
    rw [e1]

theorem makeProcs_some {gs : List Grp} (hN : (ids gs).Nodup) (es : List Entity) (hm : ∀ e ∈ es, ∀ n ∈ e.memberships, n ∈ names gs)
    (hg : ".global" ∈ names gs) :
    ∃ ps, makeProcs gs es = some ps ∧ ps.map (showProc gs) = es.map withGlobal ∧ (∀ p ∈ ps, ∀ i ∈ p.groups, i ∈ ids gs) ∧
      ps.map (·.settings.alias) = es.map (·.alias) := by
  induction es with
  | nil => exact ⟨[], rfl, rfl, (fun p hp => by cases hp), rfl⟩
  | cons e es ih =>
    obtain ⟨p, h1, h2, h3, h4⟩ := makeProc_some hN (hm e List.mem_cons_self) hg
    obtain ⟨ps, k1, k2, k3, k4⟩ := ih fun x hx => hm x (List.mem_cons_of_mem _ hx)
    refine ⟨p :: ps, by unfold makeProcs; rw [h1, k1], ?_, ?_, ?_⟩
    · rw [List.map_cons, List.map_cons, h2, k2]
    · intro q hq
      rcases List.mem_cons.1 hq with rfl | hq
      · exact h3
      · exact k3 q hq
    · rw [List.map_cons, List.map_cons, h4, k4]

theorem scaleIn_eq {ps : List Proc} (h : (ps.map (·.settings.alias)).Nodup) (a : String) :
    scaleIn a ps = ps.map fun p => if p.settings.alias = a then { p with settings := { p.settings with instances := 0 } } else p := by
  induction ps with
  | nil => rfl
  | cons p ps ih =>
    rw [List.map_cons, List.nodup_cons] at h
    unfold scaleIn
    rw [List.map_cons]
    by_cases e : p.settings.alias = a
    · rw [if_pos e, if_pos e]
      congr 1
      refine Eq.trans (List.map_id ps).symm (List.map_congr_left fun x hx => ?_)
      have : x.settings.alias ≠ a := fun e' => h.1 (e.trans e'.symm ▸ List.mem_map_of_mem (f := fun p : Proc => p.settings.alias) hx)
      rw [if_neg this]
      rfl
    · rw [if_neg e, if_neg e, ih h.2]

theorem scaleIns_eq {ps : List Proc} (h : (ps.map (·.settings.alias)).Nodup) (es : List Entity) :
    es.foldl (fun ps e => scaleIn e.alias ps) ps =
      ps.map fun p => if p.settings.alias ∈ es.map (·.alias) then { p with settings := { p.settings with instances := 0 } } else p := by
  induction es generalizing ps with
  | nil =>
    refine Eq.trans (List.map_id ps).symm (List.map_congr_left fun x hx => ?_)
    simp
  | cons e es ih =>
    show es.foldl _ (scaleIn e.alias ps) = _
    rw [scaleIn_eq h, ih, List.map_map]
    · refine List.map_congr_left fun x _ => ?_
      simp only [Function.comp, List.map_cons, List.mem_cons]
      by_cases e1 : x.settings.alias = e.alias
      · simp only [e1, ↓reduceIte, true_or]
        split <;> rfl
      · simp only [e1, ↓reduceIte, false_or]
    · rw [List.map_map]
      have : ((fun p : Proc => p.settings.alias) ∘ fun p : Proc =>
          if p.settings.alias = e.alias then { p with settings := { p.settings with instances := 0 } } else p) = fun p => p.settings.alias := by
        funext p; simp only [Function.comp]; split <;> rfl
      rw [this]; exact h

theorem gone_eq {ps : List Proc} (h : (ps.map (·.settings.alias)).Nodup) (es : List Entity) :
    eraseGone es (es.foldl (fun ps e => scaleIn e.alias ps) ps) =
      ps.filter fun p => decide (p.settings.alias ∉ es.map (·.alias)) := by
  rw [scaleIns_eq h]
  unfold eraseGone
  clear h
  induction ps with
  | nil => rfl
  | cons p ps ih =>
    rw [List.map_cons]
    by_cases e : p.settings.alias ∈ es.map (·.alias)
    · rw [if_pos e, List.filter_cons_of_neg, List.filter_cons_of_neg (by simpa using e), ih]
      obtain ⟨x, hx, ex⟩ := List.mem_map.1 e
      simp only [decide_true, Bool.true_and, Bool.not_eq_true', Bool.not_eq_false, List.any_eq_true, decide_eq_true_eq]
      exact ⟨x, hx, ex⟩
    · rw [if_neg e, List.filter_cons_of_pos, List.filter_cons_of_pos (by simpa using e), ih]
      rw [Bool.not_eq_true', Bool.and_eq_false_iff]
      refine Or.inr ?_
      rw [List.any_eq_false]
      intro x hx hh
      exact e (List.mem_map.2 ⟨x, hx, by simpa using hh⟩)

theorem replaceFirst_eq {ps : List Proc} (h : (ps.map (·.settings.alias)).Nodup) (a : String) (q : Proc) :
    replaceFirst a q ps = ps.map fun p => if p.settings.alias = a then q else p := by
  induction ps with
  | nil => rfl
  | cons p ps ih =>
    rw [List.map_cons, List.nodup_cons] at h
    unfold replaceFirst
    rw [List.map_cons]
    by_cases e : p.settings.alias = a
    · rw [if_pos e, if_pos e]
      congr 1
      refine Eq.trans (List.map_id ps).symm (List.map_congr_left fun x hx => ?_)
      have : x.settings.alias ≠ a := fun e' => h.1 (e.trans e'.symm ▸ List.mem_map_of_mem (f := fun p : Proc => p.settings.alias) hx)
      rw [if_neg this]
      rfl
    · rw [if_neg e, if_neg e, ih h.2]

theorem modifyProcs_some {gs : List Grp} (hN : (ids gs).Nodup) (hg : ".global" ∈ names gs) (es : List Entity) (ps : List Proc)
    (hm : ∀ e ∈ es, ∀ n ∈ e.memberships, n ∈ names gs) (h : (ps.map (·.settings.alias)).Nodup)
    (hi : ∀ p ∈ ps, ∀ i ∈ p.groups, i ∈ ids gs) :
    ∃ qs, modifyProcs gs es ps = some qs ∧ qs.map (showProc gs) = puts (·.alias) (es.map withGlobal) (ps.map (showProc gs)) ∧
      (∀ p ∈ qs, ∀ i ∈ p.groups, i ∈ ids gs) ∧ qs.map (·.settings.alias) = ps.map (·.settings.alias) := by
  induction es generalizing ps with
  | nil => exact ⟨ps, rfl, rfl, hi, rfl⟩
  | cons e es ih =>
    obtain ⟨q, h1, h2, h3, h4⟩ := makeProc_some hN (hm e List.mem_cons_self) hg
    unfold modifyProcs
    by_cases hp : (ps.any fun p => decide (p.settings.alias = e.alias)) = true
    · rw [if_pos hp, h1]
      dsimp only
      rw [replaceFirst_eq h]
      have hal : (ps.map fun p => if p.settings.alias = e.alias then q else p).map (·.settings.alias) = ps.map (·.settings.alias) := by
        rw [List.map_map]
        refine List.map_congr_left fun x _ => ?_
        simp only [Function.comp]
        split
        · rename_i e'; rw [h4, e']
        · rfl
      obtain ⟨qs, k1, k2, k3, k4⟩ := ih (ps.map fun p => if p.settings.alias = e.alias then q else p)
        (fun x hx => hm x (List.mem_cons_of_mem _ hx)) (by rw [hal]; exact h) (by
          intro p hp
          obtain ⟨x, hx, rfl⟩ := List.mem_map.1 hp
          split
          · exact h3
          · exact hi x hx)
      refine ⟨qs, k1, ?_, k3, k4.trans hal⟩
      rw [k2, List.map_cons]
      show _ = puts _ (es.map withGlobal) (put1 _ (withGlobal e) _)
      congr 1
      unfold put1
      rw [List.map_map, List.map_map]
      refine List.map_congr_left fun x _ => ?_
      simp only [Function.comp, withGlobal_alias]
      by_cases e' : x.settings.alias = e.alias
      · rw [if_pos e', if_pos (show (showProc gs x).alias = e.alias from e'), h2]
      · rw [if_neg e', if_neg (show (showProc gs x).alias ≠ e.alias from e')]
    · rw [if_neg hp]
      obtain ⟨qs, k1, k2, k3, k4⟩ := ih ps (fun x hx => hm x (List.mem_cons_of_mem _ hx)) h hi
      refine ⟨qs, k1, ?_, k3, k4⟩
      rw [k2, List.map_cons]
      show _ = puts _ (es.map withGlobal) (put1 _ (withGlobal e) _)
      congr 1
      unfold put1
      refine Eq.trans (List.map_id _).symm (List.map_congr_left fun x hx => ?_)
      obtain ⟨p, hpp, rfl⟩ := List.mem_map.1 hx
      rw [if_neg]
      · rfl
      · intro e'
        have e' := e'.trans (withGlobal_alias e)
        exact hp (List.any_eq_true.2 ⟨p, hpp, by simpa [showProc] using e'⟩)

end Casual.DPost

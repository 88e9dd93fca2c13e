import Verif.DPost.Seen
/-
  A post, from the groups to the last task.
-/
namespace Casual.DPost

open Casual.ConfModel (DGroup Entity)
open Casual.Config (Change calculate inj_of_nodup mem_added mem_modified mem_removed)

/-- A part of a filtered list comes from a part of the list. -/
theorem filter_split {α : Type} (p : α → Bool) (l : List α) : ∀ (xs : List α) (a : α) (ys : List α), l.filter p = xs ++ a :: ys →
    ∃ us vs, l = us ++ a :: vs ∧ xs = us.filter p := by
  induction l with
  | nil => intro xs a ys h; cases xs <;> cases h
  | cons b l ih =>
    intro xs a ys h
    by_cases hb : p b = true
    · rw [List.filter_cons_of_pos hb] at h
      cases xs with
      | nil =>
        have h := List.cons.inj h
        exact ⟨[], l, by rw [h.1]; rfl, rfl⟩
      | cons x xs =>
        have h := List.cons.inj h
        obtain ⟨us, vs, e1, e2⟩ := ih xs a ys h.2
        exact ⟨b :: us, vs, by rw [e1]; rfl, by rw [List.filter_cons_of_pos hb, ← e2, h.1]⟩
    · rw [List.filter_cons_of_neg hb] at h
      obtain ⟨us, vs, e1, e2⟩ := ih xs a ys h
      exact ⟨b :: us, vs, by rw [e1]; rfl, by rw [List.filter_cons_of_neg hb, ← e2]⟩

section
variable {E : Type} [DecidableEq E]

theorem added_eq (key : E → String) (cur w : List E) : (calculate key cur w).added =
    w.filter fun a => (!(cur.any fun b => decide (a = b)) && !(cur.any fun b => decide (key a = key b))) := by
  unfold calculate Config.intersection
  dsimp only
  rw [List.filter_filter]
  exact List.filter_congr fun a _ => Bool.and_comm _ _

theorem added_sub (key : E → String) (cur w : List E) : ((calculate key cur w).added.map key).Sublist (w.map key) := by
  rw [added_eq]
  exact List.filter_sublist.map key

theorem removed_keys (key : E → String) (cur w : List E) (k : String) :
    k ∈ (calculate key cur w).removed.map key ↔ k ∈ cur.map key ∧ k ∉ w.map key := by
  constructor
  · intro h
    obtain ⟨x, hx, rfl⟩ := List.mem_map.1 h
    have := mem_removed.1 hx
    refine ⟨List.mem_map_of_mem this.1, fun hm => ?_⟩
    obtain ⟨y, hy, e⟩ := List.mem_map.1 hm
    exact this.2 y hy e
  · rintro ⟨h1, h2⟩
    obtain ⟨x, hx, rfl⟩ := List.mem_map.1 h1
    exact List.mem_map_of_mem (mem_removed.2 ⟨hx, fun y hy e => h2 (e ▸ List.mem_map_of_mem hy)⟩)

theorem mem_added_keys (key : E → String) (cur w : List E) (a : E) :
    a ∈ (calculate key cur w).added ↔ a ∈ w ∧ key a ∉ cur.map key := by
  rw [mem_added]
  constructor
  · rintro ⟨h1, h2⟩
    refine ⟨h1, fun hm => ?_⟩
    obtain ⟨y, hy, e⟩ := List.mem_map.1 hm
    exact h2 y hy e
  · rintro ⟨h1, h2⟩
    exact ⟨h1, fun y hy e => h2 (e ▸ List.mem_map_of_mem hy)⟩

end

/-- What is left and what is new. -/
theorem filter_added {E : Type} [DecidableEq E] (key : E → String) (strip fix : E → E) (hs : ∀ x, key (strip x) = key x)
    (hf : ∀ x, key (fix x) = key x) (all cur w : List E) :
    ((all.map strip ++ (calculate key cur w).added.map fix).filter fun x => decide (key x ∉ (calculate key cur w).removed.map key)) =
      ((all.filter fun x => decide (key x ∉ (calculate key cur w).removed.map key)).map strip) ++ (calculate key cur w).added.map fix := by
  rw [List.filter_append, List.filter_map]
  congr 1
  · congr 1
    exact List.filter_congr fun x _ => by simp only [Function.comp, hs]
  · refine List.filter_eq_self.2 fun x hx => ?_
    obtain ⟨y, hy, rfl⟩ := List.mem_map.1 hx
    rw [decide_eq_true_eq, hf, removed_keys]
    exact fun h => h.2 (List.mem_map_of_mem ((mem_added_keys _ _ _ _).1 hy).1)

/-- The groups of a post. -/
theorem groups_land {d : Dom} (hw : W d) (hs : Sys d) {w : Conf} (hS : Sound w) (hO : Ordered ((get d).groups.map (·.name)) w.groups) :
    let c := calculate (·.name) (get d).groups w.groups
    let r := postGroups c d
    let gone := c.removed.map (·.name)
    r.2 = true ∧ W r.1 ∧ Sys r.1 ∧ r.1.tasks = d.tasks ∧ r.1.failed = d.failed ∧
      view r.1 = { groups := after (·.name) (stripG gone) id (view d).groups (get d).groups w.groups
                   servers := (view d).servers.map (stripE gone)
                   executables := (view d).executables.map (stripE gone) } ∧
      (∀ n ∈ gone, dotted n = false) ∧ (∀ n ∈ w.groups.map (·.name), n ∉ gone ∧ n ∈ names r.1.groups) := by
  intro c r gone
  have hgd : ∀ n ∈ gone, dotted n = false := by
    intro n hn
    have := ((removed_keys _ _ _ _).1 hn).1
    rw [get_eq hw hs] at this
    obtain ⟨g, hg, rfl⟩ := List.mem_map.1 this
    simpa using (List.mem_filter.1 hg).2
  have hwg : ∀ n ∈ w.groups.map (·.name), n ∉ gone := fun n hn h => ((removed_keys _ _ _ _).1 h).2 hn
  obtain ⟨hw1, hv1, hg1, ht1, hf1⟩ := view_removes hw c.removed
  have hk1 := keeps_removes hw c.removed
  have hs1 : Sys (c.removed.foldl removeGroup d) := sys_keeps hk1 hgd hg1 hs
  -- the names that are there
  have hnm : ∀ d : Dom, names d.groups = (view d).groups.map (·.name) := by
    intro d; unfold view names; dsimp only; rw [List.map_map]; rfl
  have hcur : ∀ n, n ∈ (get d).groups.map (·.name) → n ∉ gone → n ∈ names (c.removed.foldl removeGroup d).groups := by
    intro n hn hg
    rw [get_eq hw hs] at hn
    obtain ⟨g, hgm, rfl⟩ := List.mem_map.1 hn
    rw [hnm, hv1]
    dsimp only
    rw [List.map_map]
    exact List.mem_map.2 ⟨g, List.mem_filter.2 ⟨(List.mem_filter.1 hgm).1, decide_eq_true hg⟩, rfl⟩
  have hnew : ∀ a ∈ c.added, a.name ∉ names (c.removed.foldl removeGroup d).groups := by
    intro a ha hm
    have ha' := (mem_added_keys _ _ _ _).1 ha
    apply ha'.2
    rw [hnm, hv1] at hm
    dsimp only at hm
    rw [List.map_map] at hm
    obtain ⟨g, hg, e⟩ := List.mem_map.1 hm
    have e : g.name = a.name := e
    rw [get_eq hw hs]
    refine List.mem_map.2 ⟨g, List.mem_filter.2 ⟨(List.mem_filter.1 hg).1, ?_⟩, e⟩
    rw [e, hS.plain a ha'.1]; rfl
  have hdep : ∀ (x y : List DGroup) (a : DGroup), c.added = x ++ a :: y → ∀ n ∈ a.dependencies,
      n ∈ names (c.removed.foldl removeGroup d).groups ∨ n ∈ x.map (·.name) := by
    intro x y a e n hn
    have e' := e
    rw [show c.added = _ from added_eq _ _ _] at e'
    obtain ⟨us, vs, e1, e2⟩ := filter_split _ _ _ _ _ e'
    have haw : a ∈ w.groups := by rw [e1]; simp
    rcases hO us a vs e1 n hn with h | h | h
    · obtain ⟨b, hb, rfl⟩ := List.mem_map.1 h
      have hbw : b ∈ w.groups := by rw [e1]; exact List.mem_append.2 (Or.inl hb)
      by_cases hbc : b.name ∈ (get d).groups.map (·.name)
      · exact Or.inl (hcur _ hbc (hwg _ (List.mem_map_of_mem (f := fun g : DGroup => g.name) hbw)))
      · refine Or.inr (List.mem_map_of_mem (f := fun g : DGroup => g.name) ?_)
        have hba : b ∈ c.added := (mem_added_keys _ _ _ _).2 ⟨hbw, hbc⟩
        rw [show c.added = _ from added_eq _ _ _] at hba
        rw [e2]
        exact List.mem_filter.2 ⟨hb, (List.mem_filter.1 hba).2⟩
    · rcases hS.deps a haw n hn with h' | h'
      · exact Or.inl (hcur _ h (hwg _ h'))
      · exact Or.inl (sys_names hw1 hs1 n h')
    · exact Or.inl (sys_names hw1 hs1 n h)
  obtain ⟨ra, hw2, hv2, hg2, ht2, hf2⟩ := view_adds hw1 c.added ((added_sub _ _ _).nodup hS.groupsN) hnew hdep
  have hk2 := keeps_adds c.added (c.removed.foldl removeGroup d)
  have hs2 : Sys (addGroups c.added (c.removed.foldl removeGroup d)).1 := sys_keeps hk2 (fun n hn => by cases hn) hg2 hs1
  have hall : ∀ n ∈ w.groups.map (·.name), n ∈ names (addGroups c.added (c.removed.foldl removeGroup d)).1.groups := by
    intro n hn
    rw [hnm, hv2]
    dsimp only
    rw [List.map_append, List.mem_append, ← hnm]
    by_cases hc : n ∈ (get d).groups.map (·.name)
    · exact Or.inl (hcur n hc (hwg n hn))
    · obtain ⟨g, hg, rfl⟩ := List.mem_map.1 hn
      exact Or.inr (List.mem_map_of_mem (f := fun g : DGroup => g.name) ((mem_added_keys _ _ _ _).2 ⟨hg, hc⟩))
  obtain ⟨rm, hw3, hv3, hg3, ht3, hf3, hk3⟩ := view_modifies hw2 c.modified (by
    intro m hm n hn
    have hmw := (mem_modified.1 hm).1
    rcases hS.deps m hmw n hn with h | h
    · exact hall n h
    · exact sys_names hw2 hs2 n h)
  have hs3 : Sys (modifyGroups c.modified (addGroups c.added (c.removed.foldl removeGroup d)).1).1 :=
    sys_keeps hk3 (fun n hn => by cases hn) hg3 hs2
  have hr : r = modifyGroups c.modified (addGroups c.added (c.removed.foldl removeGroup d)).1 := by
    show (if (addGroups c.added (c.removed.foldl removeGroup d)).2 then _ else _) = _
    rw [if_pos ra]
  rw [hr]
  refine ⟨rm, hw3, hs3, ht3.trans (ht2.trans ht1), hf3.trans (hf2.trans hf1), ?_, hgd, fun n hn => ⟨hwg n hn, ?_⟩⟩
  · rw [hv3, hv2, hv1]
    congr 1
    unfold after
    dsimp only
    rw [filter_added (fun g : DGroup => g.name) (stripG gone) id (fun _ => rfl) (fun _ => rfl), List.map_id, List.map_id]
  · rw [hnm, hv3]
    dsimp only
    rw [keys_puts, ← hnm]
    exact hall n hn

/-! ### The tasks -/

theorem turn_some {d d' : Dom} {t : Task} {ts : List Task} (h : d.tasks = t :: ts) (ha : act { d with tasks := ts } t = some d') :
    turn d = d' := by
  unfold turn
  rw [h]
  dsimp only
  rw [ha]

/-- The processes, as they are after the tasks. -/
theorem procs_land {gs : List Grp} (hN : (ids gs).Nodup) (hg : ".global" ∈ names gs) (ps : List Proc) (cur w : List Entity)
    (hps : ∀ p ∈ ps, ∀ i ∈ p.groups, i ∈ ids gs)
    (hm : ∀ e ∈ w, ∀ n ∈ e.memberships, n ∈ names gs)
    (hN' : (ps.map (·.settings.alias) ++ (calculate (·.alias) cur w).added.map (·.alias)).Nodup)
    (strip : Entity → Entity) (all : List Entity) (hall : ps.map (showProc gs) = all.map strip) :
    let c := calculate (·.alias) cur w
    ∃ new qs, makeProcs gs c.added = some new ∧
      modifyProcs gs c.modified (eraseGone c.removed (c.removed.foldl (fun ps e => scaleIn e.alias ps) (ps ++ new))) = some qs ∧
      (∀ p ∈ qs, ∀ i ∈ p.groups, i ∈ ids gs) ∧
      qs.map (showProc gs) = after (·.alias) strip withGlobal all cur w := by
  intro c
  obtain ⟨new, h1, h2, h3, h4⟩ := makeProcs_some hN c.added (fun e he => hm e (mem_added.1 he).1) hg
  have hND : ((ps ++ new).map (·.settings.alias)).Nodup := by rw [List.map_append, h4]; exact hN'
  have hin : ∀ p ∈ ps ++ new, ∀ i ∈ p.groups, i ∈ ids gs := by
    intro p hp
    rcases List.mem_append.1 hp with hp | hp
    · exact hps p hp
    · exact h3 p hp
  obtain ⟨qs, k1, k2, k3, -⟩ := modifyProcs_some hN hg c.modified
    ((ps ++ new).filter fun p => decide (p.settings.alias ∉ c.removed.map (·.alias)))
    (fun e he => hm e (mem_modified.1 he).1) ((List.filter_sublist.map _).nodup hND)
    (fun p hp => hin p (List.mem_filter.1 hp).1)
  refine ⟨new, qs, h1, by rw [gone_eq hND]; exact k1, k3, ?_⟩
  rw [k2]
  unfold after
  dsimp only
  congr 1
  rw [← hall, ← h2, ← List.map_append, List.filter_map]
  rfl

end Casual.DPost

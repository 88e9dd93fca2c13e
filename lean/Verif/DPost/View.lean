import Verif.DPost.Model
/-
  The domain as seen by names: what each step of a post does to it.
-/
namespace Casual.DPost

open Casual.ConfModel (DGroup Entity)
open Casual.Config (inj_of_nodup)

/-- The numbers of the groups. -/
abbrev ids (gs : List Grp) : List Nat := gs.map (·.id)

/-- The names of the groups. -/
abbrev names (gs : List Grp) : List String := gs.map (·.name)

/-- Names and numbers are unique, and all numbers are those of groups. -/
structure W (d : Dom) : Prop where
  idsN : (ids d.groups).Nodup
  lt : ∀ g ∈ d.groups, g.id < d.next
  namesN : (names d.groups).Nodup
  deps : ∀ g ∈ d.groups, ∀ i ∈ g.deps, i ∈ ids d.groups
  srv : ∀ p ∈ d.servers, ∀ i ∈ p.groups, i ∈ ids d.groups
  exe : ∀ p ∈ d.executables, ∀ i ∈ p.groups, i ∈ ids d.groups

/-- All groups and processes, by name. -/
def view (d : Dom) : Conf :=
  { groups := d.groups.map (showGroup d.groups)
    servers := d.servers.map (showProc d.groups)
    executables := d.executables.map (showProc d.groups) }

/-! ### Lookups -/

theorem nameOf_mem {gs : List Grp} (h : (ids gs).Nodup) {g : Grp} (hg : g ∈ gs) : nameOf gs g.id = g.name := by
  unfold nameOf
  cases hf : gs.find? (fun x => decide (x.id = g.id)) with
  | none => exact absurd (List.find?_eq_none.1 hf g hg) (by simp)
  | some x =>
    have h1 := List.mem_of_find?_eq_some hf
    have h2 : x.id = g.id := by simpa using List.find?_some hf
    rw [inj_of_nodup (alias := Grp.id) h h1 hg h2]
    rfl

theorem mem_ids {gs : List Grp} {i : Nat} (h : i ∈ ids gs) : ∃ g ∈ gs, g.id = i := List.mem_map.1 h

theorem nameOf_inj {gs : List Grp} (h : (ids gs).Nodup) (hn : (names gs).Nodup) {i j : Nat} (hi : i ∈ ids gs) (hj : j ∈ ids gs)
    (e : nameOf gs i = nameOf gs j) : i = j := by
  obtain ⟨a, ha, rfl⟩ := mem_ids hi
  obtain ⟨b, hb, rfl⟩ := mem_ids hj
  rw [nameOf_mem h ha, nameOf_mem h hb] at e
  rw [inj_of_nodup (alias := Grp.name) hn ha hb e]

theorem nameOf_names {gs : List Grp} (h : (ids gs).Nodup) {i : Nat} (hi : i ∈ ids gs) : nameOf gs i ∈ names gs := by
  obtain ⟨a, ha, rfl⟩ := mem_ids hi
  rw [nameOf_mem h ha]
  exact List.mem_map_of_mem ha

theorem idOf_some {gs : List Grp} {n : String} {i : Nat} (h : idOf gs n = some i) : ∃ g ∈ gs, g.name = n ∧ g.id = i := by
  unfold idOf at h
  cases hf : gs.find? (fun x => decide (x.name = n)) with
  | none => rw [hf] at h; cases h
  | some x =>
    rw [hf] at h
    exact ⟨x, List.mem_of_find?_eq_some hf, by simpa using List.find?_some hf, Option.some.inj h⟩

theorem idOf_none {gs : List Grp} {n : String} (h : idOf gs n = none) : n ∉ names gs := by
  unfold idOf at h
  rw [Option.map_eq_none_iff, List.find?_eq_none] at h
  intro hm
  obtain ⟨g, hg, e⟩ := List.mem_map.1 hm
  exact h g hg (by simpa using e)

theorem idOf_mem {gs : List Grp} {n : String} (h : n ∈ names gs) : ∃ i, idOf gs n = some i := by
  cases hi : idOf gs n with
  | none => exact absurd h (idOf_none hi)
  | some i => exact ⟨i, rfl⟩

theorem membership_some {gs : List Grp} (hN : (ids gs).Nodup) {ns : List String} {is : List Nat} (h : membership gs ns = some is) :
    is.map (nameOf gs) = ns ∧ ∀ i ∈ is, i ∈ ids gs := by
  induction ns generalizing is with
  | nil => cases h; exact ⟨rfl, fun i hi => by cases hi⟩
  | cons n ns ih =>
    unfold membership at h
    cases h1 : idOf gs n with
    | none => rw [h1] at h; cases h
    | some i =>
      cases h2 : membership gs ns with
      | none => rw [h1, h2] at h; cases h
      | some js =>
        rw [h1, h2] at h
        cases h
        obtain ⟨g, hg, e1, e2⟩ := idOf_some h1
        obtain ⟨e3, h3⟩ := ih h2
        refine ⟨?_, ?_⟩
        · rw [List.map_cons, e3, ← e2, nameOf_mem hN hg, e1]
        · intro k hk
          rcases List.mem_cons.1 hk with rfl | hk
          · exact e2 ▸ List.mem_map_of_mem hg
          · exact h3 k hk

theorem membership_total {gs : List Grp} {ns : List String} (h : ∀ n ∈ ns, n ∈ names gs) : ∃ is, membership gs ns = some is := by
  induction ns with
  | nil => exact ⟨[], rfl⟩
  | cons n ns ih =>
    obtain ⟨i, hi⟩ := idOf_mem (h n List.mem_cons_self)
    obtain ⟨is, his⟩ := ih fun m hm => h m (List.mem_cons_of_mem _ hm)
    exact ⟨i :: is, by unfold membership; rw [hi, his]⟩

theorem membership_mem {gs : List Grp} {ns : List String} {is : List Nat} (h : membership gs ns = some is) :
    ∀ n ∈ ns, n ∈ names gs := by
  induction ns generalizing is with
  | nil => intro n hn; cases hn
  | cons n ns ih =>
    unfold membership at h
    cases h1 : idOf gs n with
    | none => rw [h1] at h; cases h
    | some i =>
      cases h2 : membership gs ns with
      | none => rw [h1, h2] at h; cases h
      | some js =>
        intro m hm
        rcases List.mem_cons.1 hm with rfl | hm
        · obtain ⟨g, hg, e, -⟩ := idOf_some h1
          exact e ▸ List.mem_map_of_mem hg
        · exact ih h2 m hm

/-! ### A group is removed -/

/-- Without the names. -/
def stripG (ns : List String) (g : DGroup) : DGroup :=
  { g with dependencies := g.dependencies.filter fun n => decide (n ∉ ns) }

/-- Without the names. -/
def stripE (ns : List String) (e : Entity) : Entity :=
  { e with memberships := e.memberships.filter fun n => decide (n ∉ ns) }

theorem eraseFirst_eq {gs : List Grp} (h : (names gs).Nodup) (n : String) :
    eraseFirst n gs = gs.filter fun g => decide (g.name ≠ n) := by
  induction gs with
  | nil => rfl
  | cons g gs ih =>
    rw [names, List.map_cons, List.nodup_cons] at h
    unfold eraseFirst
    by_cases e : g.name = n
    · rw [if_pos e, List.filter_cons_of_neg (by simpa using e)]
      refine (List.filter_eq_self.2 fun x hx => ?_).symm
      have : x.name ≠ n := fun e' => h.1 (e.trans e'.symm ▸ List.mem_map_of_mem hx)
      simpa using this
    · rw [if_neg e, List.filter_cons_of_pos (by simpa using e), ih h.2]

/-- The names of the numbers that are left are the same. -/
theorem nameOf_removed {gs : List Grp} (h : (ids gs).Nodup) {n : String} {i j : Nat}
    (hj : j ∈ ids gs) (hi : nameOf gs j ≠ n) :
    nameOf ((gs.filter fun g => decide (g.name ≠ n)).map (Grp.leave i)) j = nameOf gs j := by
  obtain ⟨g, hg, rfl⟩ := mem_ids hj
  rw [nameOf_mem h hg] at hi ⊢
  have hN : (ids ((gs.filter fun g => decide (g.name ≠ n)).map (Grp.leave i))).Nodup := by
    rw [ids, List.map_map]
    exact (List.filter_sublist.map Grp.id).nodup h
  have hm : Grp.leave i g ∈ (gs.filter fun g => decide (g.name ≠ n)).map (Grp.leave i) :=
    List.mem_map_of_mem (List.mem_filter.2 ⟨hg, by simpa using hi⟩)
  have := nameOf_mem hN hm
  exact this

theorem leave_names {gs : List Grp} (h : (ids gs).Nodup) (hn : (names gs).Nodup) {n : String} {i : Nat} (hi : idOf gs n = some i)
    {l : List Nat} (hl : ∀ j ∈ l, j ∈ ids gs) :
    (l.filter fun j => decide (j ≠ i)).map (nameOf ((gs.filter fun g => decide (g.name ≠ n)).map (Grp.leave i))) =
      (l.map (nameOf gs)).filter fun m => decide (m ∉ [n]) := by
  obtain ⟨g, hg, e1, e2⟩ := idOf_some hi
  induction l with
  | nil => rfl
  | cons j l ih =>
    have ih' := ih fun k hk => hl k (List.mem_cons_of_mem _ hk)
    have hj := hl j List.mem_cons_self
    by_cases e : j = i
    · rw [List.filter_cons_of_neg (by simpa using e), ih', List.map_cons, List.filter_cons_of_neg]
      rw [e, ← e2, nameOf_mem h hg, e1]
      simp
    · have hne : nameOf gs j ≠ n := by
        intro hx
        apply e
        refine nameOf_inj h hn hj (e2 ▸ List.mem_map_of_mem hg) ?_
        rw [hx, ← e2, nameOf_mem h hg, e1]
      rw [List.filter_cons_of_pos (by simpa using e), List.map_cons, ih', List.map_cons, List.filter_cons_of_pos (by simpa using hne),
        nameOf_removed h hj hne]

theorem view_remove {d : Dom} (h : W d) (g : DGroup) :
    W (removeGroup d g) ∧ view (removeGroup d g) =
      { groups := ((view d).groups.filter fun x => decide (x.name ∉ [g.name])).map (stripG [g.name])
        servers := (view d).servers.map (stripE [g.name])
        executables := (view d).executables.map (stripE [g.name]) } ∧
      (removeGroup d g).next = d.next ∧ (removeGroup d g).gateway = d.gateway ∧ (removeGroup d g).tasks = d.tasks ∧
      (removeGroup d g).failed = d.failed := by
  unfold removeGroup
  cases hi : idOf d.groups g.name with
  | none =>
    have hno := idOf_none hi
    refine ⟨h, ?_, rfl, rfl, rfl, rfl⟩
    have hd : ∀ l : List Nat, (∀ i ∈ l, i ∈ ids d.groups) →
        (l.map (nameOf d.groups)).filter (fun n => decide (n ∉ [g.name])) = l.map (nameOf d.groups) := by
      intro l hl
      refine List.filter_eq_self.2 fun n hn => ?_
      obtain ⟨i, hi, rfl⟩ := List.mem_map.1 hn
      have : nameOf d.groups i ≠ g.name := fun e => hno (e ▸ nameOf_names h.idsN (hl i hi))
      simpa using this
    unfold view
    congr 1
    · dsimp only
      rw [List.filter_eq_self.2, List.map_map]
      · refine List.map_congr_left fun x hx => ?_
        simp only [Function.comp, stripG, showGroup, hd x.deps (h.deps x hx)]
      · intro x hx
        obtain ⟨y, hy, rfl⟩ := List.mem_map.1 hx
        have : y.name ≠ g.name := fun e => hno (e ▸ List.mem_map_of_mem hy)
        simpa [showGroup] using this
    · dsimp only
      rw [List.map_map]
      refine List.map_congr_left fun x hx => ?_
      simp only [Function.comp, stripE, showProc, hd x.groups (h.srv x hx)]
    · dsimp only
      rw [List.map_map]
      refine List.map_congr_left fun x hx => ?_
      simp only [Function.comp, stripE, showProc, hd x.groups (h.exe x hx)]
  | some i =>
    dsimp only
    have hln := fun l hl => leave_names h.idsN h.namesN hi (l := l) hl
    rw [eraseFirst_eq h.namesN]
    have hleft : ∀ j, j ∈ ids d.groups → j ≠ i →
        j ∈ ids ((d.groups.filter fun x => decide (x.name ≠ g.name)).map (Grp.leave i)) := by
      intro j hj hji
      obtain ⟨x, hx, rfl⟩ := mem_ids hj
      refine List.mem_map.2 ⟨Grp.leave i x, List.mem_map_of_mem (List.mem_filter.2 ⟨hx, ?_⟩), rfl⟩
      have : x.name ≠ g.name := by
        intro e
        obtain ⟨y, hy, e1, e2⟩ := idOf_some hi
        exact hji (by rw [← e2, inj_of_nodup (alias := Grp.name) h.namesN hx hy (e.trans e1.symm)])
      simpa using this
    refine ⟨⟨?_, ?_, ?_, ?_, ?_, ?_⟩, ?_, rfl, rfl, rfl, rfl⟩
    · dsimp only
      rw [ids, List.map_map]
      exact (List.filter_sublist.map Grp.id).nodup h.idsN
    · intro x hx
      obtain ⟨y, hy, rfl⟩ := List.mem_map.1 hx
      exact h.lt y (List.mem_filter.1 hy).1
    · dsimp only
      rw [names, List.map_map]
      exact (List.filter_sublist.map Grp.name).nodup h.namesN
    · intro x hx j hj
      obtain ⟨y, hy, rfl⟩ := List.mem_map.1 hx
      have hj' := List.mem_filter.1 hj
      exact hleft j (h.deps y (List.mem_filter.1 hy).1 j hj'.1) (by simpa using hj'.2)
    · intro x hx j hj
      obtain ⟨y, hy, rfl⟩ := List.mem_map.1 hx
      have hj' := List.mem_filter.1 hj
      exact hleft j (h.srv y hy j hj'.1) (by simpa using hj'.2)
    · intro x hx j hj
      obtain ⟨y, hy, rfl⟩ := List.mem_map.1 hx
      have hj' := List.mem_filter.1 hj
      exact hleft j (h.exe y hy j hj'.1) (by simpa using hj'.2)
    · unfold view
      congr 1
      · dsimp only
        rw [List.map_map, List.filter_map, List.map_map]
        have hp : ((fun x : DGroup => decide (x.name ∉ [g.name])) ∘ showGroup d.groups) = fun x => decide (x.name ≠ g.name) := by
          funext x
          simp only [Function.comp, showGroup, List.mem_singleton, ne_eq]
        rw [hp]
        refine List.map_congr_left fun x hx => ?_
        have hx' := (List.mem_filter.1 hx).1
        simp only [Function.comp, showGroup, stripG, Grp.leave]
        rw [hln x.deps (h.deps x hx')]
      · dsimp only
        rw [List.map_map, List.map_map]
        refine List.map_congr_left fun x hx => ?_
        simp only [Function.comp, showProc, stripE, Proc.leave]
        rw [hln x.groups (h.srv x hx)]
      · dsimp only
        rw [List.map_map, List.map_map]
        refine List.map_congr_left fun x hx => ?_
        simp only [Function.comp, showProc, stripE, Proc.leave]
        rw [hln x.groups (h.exe x hx)]

theorem filter_filter_names (a : String) (as l : List String) :
    (l.filter fun n => decide (n ∉ [a])).filter (fun n => decide (n ∉ as)) = l.filter fun n => decide (n ∉ a :: as) := by
  rw [List.filter_filter]
  congr 1
  funext n
  simp [not_or, Bool.and_comm]

theorem view_removes {d : Dom} (h : W d) (gs : List DGroup) :
    W (gs.foldl removeGroup d) ∧ view (gs.foldl removeGroup d) =
      { groups := ((view d).groups.filter fun x => decide (x.name ∉ gs.map (·.name))).map (stripG (gs.map (·.name)))
        servers := (view d).servers.map (stripE (gs.map (·.name)))
        executables := (view d).executables.map (stripE (gs.map (·.name))) } ∧
      (gs.foldl removeGroup d).gateway = d.gateway ∧ (gs.foldl removeGroup d).tasks = d.tasks ∧
      (gs.foldl removeGroup d).failed = d.failed := by
  induction gs generalizing d with
  | nil =>
    refine ⟨h, ?_, rfl, rfl, rfl⟩
    show view d = _
    have hs : ∀ g : DGroup, stripG [] g = g := by intro g; unfold stripG; rw [List.filter_eq_self.2 (by intro a _; simp)]
    have he : ∀ e : Entity, stripE [] e = e := by intro e; unfold stripE; rw [List.filter_eq_self.2 (by intro a _; simp)]
    simp only [List.map_nil]
    rw [show stripG [] = id from funext hs, show stripE [] = id from funext he, List.map_id, List.map_id, List.map_id,
      List.filter_eq_self.2 (by intro a _; simp)]
  | cons g gs ih =>
    obtain ⟨hw, hv, -, h1, h2, h3⟩ := view_remove h g
    obtain ⟨hw', hv', h1', h2', h3'⟩ := ih hw
    refine ⟨hw', ?_, h1'.trans h1, h2'.trans h2, h3'.trans h3⟩
    show view (gs.foldl removeGroup (removeGroup d g)) = _
    rw [hv', hv]
    have hsE : stripE (gs.map (·.name)) ∘ stripE [g.name] = stripE ((g :: gs).map (·.name)) := by
      funext e
      simp only [Function.comp, stripE, List.map_cons]
      rw [filter_filter_names]
    have hsG : stripG (gs.map (·.name)) ∘ stripG [g.name] = stripG ((g :: gs).map (·.name)) := by
      funext e
      simp only [Function.comp, stripG, List.map_cons]
      rw [filter_filter_names]
    simp only [List.map_map, List.filter_map, List.filter_filter]
    rw [hsE, hsG]
    congr 2
    refine List.filter_congr fun x _ => ?_
    simp [stripG, not_or, Bool.and_comm]

/-! ### Groups are added -/

theorem nameOf_added {gs : List Grp} (g : Grp) {i : Nat} (hi : i ∈ ids gs) :
    nameOf (gs ++ [g]) i = nameOf gs i := by
  unfold nameOf
  obtain ⟨x, hx, rfl⟩ := mem_ids hi
  rw [List.find?_append]
  cases hf : gs.find? (fun y => decide (y.id = x.id)) with
  | none => exact absurd (List.find?_eq_none.1 hf x hx) (by simp)
  | some y => rfl

theorem show_stable {gs gs' : List Grp} (h : ∀ i ∈ ids gs, nameOf gs' i = nameOf gs i) {p : Proc} (hp : ∀ i ∈ p.groups, i ∈ ids gs) :
    showProc gs' p = showProc gs p := by
  unfold showProc
  rw [List.map_congr_left fun i hi => h i (hp i hi)]

theorem showGroup_stable {gs gs' : List Grp} (h : ∀ i ∈ ids gs, nameOf gs' i = nameOf gs i) {g : Grp} (hg : ∀ i ∈ g.deps, i ∈ ids gs) :
    showGroup gs' g = showGroup gs g := by
  unfold showGroup
  rw [List.map_congr_left fun i hi => h i (hg i hi)]

theorem view_adds {d : Dom} (h : W d) (as : List DGroup) (ha : (as.map (·.name)).Nodup)
    (hnew : ∀ a ∈ as, a.name ∉ names d.groups)
    (hdep : ∀ (x y : List DGroup) (a : DGroup), as = x ++ a :: y → ∀ n ∈ a.dependencies, n ∈ names d.groups ∨ n ∈ x.map (·.name)) :
    (addGroups as d).2 = true ∧ W (addGroups as d).1 ∧
      view (addGroups as d).1 = { view d with groups := (view d).groups ++ as } ∧
      (addGroups as d).1.gateway = d.gateway ∧ (addGroups as d).1.tasks = d.tasks ∧
      (addGroups as d).1.failed = d.failed := by
  induction as generalizing d with
  | nil => exact ⟨rfl, h, by simp [addGroups], rfl, rfl, rfl⟩
  | cons a as ih =>
    have ha' := List.nodup_cons.1 (List.map_cons ▸ ha)
    obtain ⟨ds, hds⟩ := membership_total (gs := d.groups) (ns := a.dependencies) fun n hn => by
      rcases hdep [] as a rfl n hn with hx | hx
      · exact hx
      · cases hx
    obtain ⟨e1, e2⟩ := membership_some h.idsN hds
    unfold addGroups
    rw [hds]
    dsimp only
    have hst : ∀ i ∈ ids d.groups, nameOf (d.groups ++ [⟨d.next, a.name, a.enabled, ds, a.note⟩]) i = nameOf d.groups i :=
      fun i hi => nameOf_added _ hi
    have hW : W { d with groups := d.groups ++ [⟨d.next, a.name, a.enabled, ds, a.note⟩], next := d.next + 1 } := by
      refine ⟨?_, ?_, ?_, ?_, ?_, ?_⟩
      · simp only [ids, List.map_append, List.map_cons, List.map_nil, List.nodup_append]
        refine ⟨h.idsN, by simp, ?_⟩
        intro i hi j hj e
        obtain ⟨x, hx, rfl⟩ := mem_ids hi
        have := h.lt x hx
        rw [List.mem_singleton.1 hj] at e
        omega
      · intro x hx
        rcases List.mem_append.1 hx with hx | hx
        · exact Nat.lt_succ_of_lt (h.lt x hx)
        · rw [List.mem_singleton.1 hx]; exact Nat.lt_succ_self _
      · simp only [names, List.map_append, List.map_cons, List.map_nil, List.nodup_append]
        refine ⟨h.namesN, by simp, ?_⟩
        intro i hi j hj e
        rw [List.mem_singleton.1 hj] at e
        exact hnew a List.mem_cons_self (e ▸ hi)
      · intro x hx i hi
        simp only [ids, List.map_append]
        refine List.mem_append.2 (Or.inl ?_)
        rcases List.mem_append.1 hx with hx | hx
        · exact h.deps x hx i hi
        · rw [List.mem_singleton.1 hx] at hi; exact e2 i hi
      · intro x hx i hi
        simp only [ids, List.map_append]
        exact List.mem_append.2 (Or.inl (h.srv x hx i hi))
      · intro x hx i hi
        simp only [ids, List.map_append]
        exact List.mem_append.2 (Or.inl (h.exe x hx i hi))
    have hV : view { d with groups := d.groups ++ [⟨d.next, a.name, a.enabled, ds, a.note⟩], next := d.next + 1 } =
        { view d with groups := (view d).groups ++ [a] } := by
      unfold view
      congr 1
      · simp only [List.map_append, List.map_cons, List.map_nil]
        congr 1
        · exact List.map_congr_left fun x hx => showGroup_stable hst (h.deps x hx)
        · have : showGroup (d.groups ++ [⟨d.next, a.name, a.enabled, ds, a.note⟩]) ⟨d.next, a.name, a.enabled, ds, a.note⟩ = a := by
            unfold showGroup
            dsimp only
            rw [List.map_congr_left fun i hi => hst i (e2 i hi), e1]
          rw [this]
      · exact List.map_congr_left fun x hx => show_stable hst (h.srv x hx)
      · exact List.map_congr_left fun x hx => show_stable hst (h.exe x hx)
    obtain ⟨r1, r2, r3, r4, r5, r6⟩ := ih hW ha'.2 (by
      intro b hb hm
      simp only [names, List.map_append, List.map_cons, List.map_nil] at hm
      rcases List.mem_append.1 hm with hm | hm
      · exact hnew b (List.mem_cons_of_mem _ hb) hm
      · exact ha'.1 (List.mem_singleton.1 hm ▸ List.mem_map_of_mem hb)) (by
      intro x y b e n hn
      rcases hdep (a :: x) y b (by rw [e]; rfl) n hn with hx | hx
      · exact Or.inl (by simp only [names, List.map_append]; exact List.mem_append.2 (Or.inl hx))
      · rcases List.mem_cons.1 (List.map_cons ▸ hx) with rfl | hx
        · exact Or.inl (by simp [names])
        · exact Or.inr hx)
    refine ⟨r1, r2, ?_, r4, r5, r6⟩
    rw [r3, hV]
    simp

end Casual.DPost

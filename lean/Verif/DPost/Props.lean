import Verif.DPost.Boot
import Verif.DPost.Refute
/-
  What a user can rely on when configurations are posted.
-/
namespace Casual.DPost

open Casual.ConfModel (DGroup Entity)
open Casual.Config (Change calculate inj_of_nodup mem_added mem_modified mem_removed change_none)

/-- The states of a domain that booted and had any number of configurations posted to it, one at a time, each
of which makes sense and has its groups in order. -/
inductive Reached : Dom → Prop
  | booted {c : Conf} {d : Dom} : Boots c → boot c = some d → Reached d
  | posted {d : Dom} {w : Conf} : Reached d → Sound w → Ordered ((get d).groups.map (·.name)) w.groups →
      Reached (settle (post d w).1)

theorem reached_inv {d : Dom} (h : Reached d) : Inv d := by
  induction h with
  | booted hB hb =>
    obtain ⟨d', h1, h2, -⟩ := boots hB
    rw [h1] at hb
    cases hb
    exact h2
  | posted _ hS hO ih => exact (post_lands ih hS hO).2.1

/-- **C217** (at boot): a domain boots with the configuration and what it says of itself is that
configuration; what is not a member of any group is a member of `.global`. -/
theorem booted_is_had {c : Conf} (h : Boots c) : ∃ d, boot c = some d ∧ Same (get d) (shown c) := by
  obtain ⟨d, h1, -, h2⟩ := boots h
  exact ⟨d, h1, h2⟩

/-- **C217**: after any history, a configuration that makes sense and has its groups in order is accepted,
and when the domain has settled it says of itself exactly that configuration: nothing that was there before is
left and nothing of the configuration is missing. -/
theorem posted_is_had_partial {d : Dom} (h : Reached d) {w : Conf} (hS : Sound w) (hO : Ordered ((get d).groups.map (·.name)) w.groups) :
    (post d w).2 = true ∧ Same (get (settle (post d w).1)) (shown w) := by
  obtain ⟨h1, -, h2⟩ := post_lands (reached_inv h) hS hO
  exact ⟨h1, h2⟩

/-- What was posted before does not matter. -/
theorem history_forgotten {d d' : Dom} (h : Reached d) (h' : Reached d') {w : Conf} (hS : Sound w)
    (hO : Ordered ((get d).groups.map (·.name)) w.groups) (hO' : Ordered ((get d').groups.map (·.name)) w.groups) :
    Same (get (settle (post d w).1)) (get (settle (post d' w).1)) := by
  have h1 := (posted_is_had_partial h hS hO).2
  have h2 := (posted_is_had_partial h' hS hO').2
  exact ⟨h1.groups.trans h2.groups.symm, h1.servers.trans h2.servers.symm, h1.executables.trans h2.executables.symm⟩

/-- **C218** (part): each group listed after the ones it depends on: a domain boots with the
configuration, and a domain that runs, whatever it has, accepts it. -/
theorem boots_posts_partial {c : Conf} (h : Boots c) (hO : Ordered [] c.groups) :
    (boot c).isSome = true ∧ ∀ d, Reached d → (post d c).2 = true := by
  obtain ⟨d, h1, -⟩ := boots h
  refine ⟨by rw [h1]; rfl, fun d hd => (post_lands (reached_inv hd) h.sound ?_).1⟩
  intro xs g ys e n hn
  rcases hO xs g ys e n hn with h | h | h
  · exact Or.inl h
  · cases h
  · exact Or.inr (Or.inr h)

theorem leave_servers (d : Dom) (gs : List DGroup) :
    (gs.foldl removeGroup d).servers.map (·.settings) = d.servers.map (·.settings) ∧
    (gs.foldl removeGroup d).executables.map (·.settings) = d.executables.map (·.settings) ∧
    (gs.foldl removeGroup d).tasks = d.tasks ∧ (gs.foldl removeGroup d).failed = d.failed := by
  induction gs generalizing d with
  | nil => exact ⟨rfl, rfl, rfl, rfl⟩
  | cons g gs ih =>
    obtain ⟨h1, h2, h3, h4⟩ := ih (removeGroup d g)
    have : (removeGroup d g).servers.map (·.settings) = d.servers.map (·.settings) ∧
        (removeGroup d g).executables.map (·.settings) = d.executables.map (·.settings) ∧
        (removeGroup d g).tasks = d.tasks ∧ (removeGroup d g).failed = d.failed := by
      unfold removeGroup
      cases idOf d.groups g.name with
      | none => exact ⟨rfl, rfl, rfl, rfl⟩
      | some i => dsimp only; rw [List.map_map, List.map_map]; exact ⟨rfl, rfl, rfl, rfl⟩
    exact ⟨h1.trans this.1, h2.trans this.2.1, h3.trans this.2.2.1, h4.trans this.2.2.2⟩

theorem adds_servers (gs : List DGroup) (d : Dom) : (addGroups gs d).1.servers = d.servers ∧ (addGroups gs d).1.executables = d.executables ∧
    (addGroups gs d).1.tasks = d.tasks ∧ (addGroups gs d).1.failed = d.failed := by
  induction gs generalizing d with
  | nil => exact ⟨rfl, rfl, rfl, rfl⟩
  | cons g gs ih =>
    unfold addGroups
    cases membership d.groups g.dependencies with
    | none => exact ⟨rfl, rfl, rfl, rfl⟩
    | some ds => exact ih _

theorem modifies_servers (gs : List DGroup) (d : Dom) : (modifyGroups gs d).1.servers = d.servers ∧
    (modifyGroups gs d).1.executables = d.executables ∧ (modifyGroups gs d).1.tasks = d.tasks ∧ (modifyGroups gs d).1.failed = d.failed := by
  induction gs generalizing d with
  | nil => exact ⟨rfl, rfl, rfl, rfl⟩
  | cons g gs ih =>
    unfold modifyGroups
    cases membership d.groups g.dependencies with
    | none => exact ⟨rfl, rfl, rfl, rfl⟩
    | some ds => exact ih _

theorem postGroups_servers (c : Change DGroup) (d : Dom) : (postGroups c d).1.servers.map (·.settings) = d.servers.map (·.settings) ∧
    (postGroups c d).1.executables.map (·.settings) = d.executables.map (·.settings) ∧
    (postGroups c d).1.tasks = d.tasks ∧ (postGroups c d).1.failed = d.failed := by
  obtain ⟨h1, h2, h3, h4⟩ := leave_servers d c.removed
  obtain ⟨k1, k2, k3, k4⟩ := adds_servers c.added (c.removed.foldl removeGroup d)
  unfold postGroups
  dsimp only
  split
  · obtain ⟨l1, l2, l3, l4⟩ := modifies_servers c.modified (addGroups c.added (c.removed.foldl removeGroup d)).1
    rw [l1, l2, l3, l4, k1, k2, k3, k4]
    exact ⟨h1, h2, h3, h4⟩
  · rw [k1, k2, k3, k4]
    exact ⟨h1, h2, h3, h4⟩

/-- **C219** (part): a configuration that is refused, at any time, starts and stops nothing: the
processes and how they are configured are as they were, and there is no more to do than before. -/
theorem refused_effect_partial (d : Dom) (w : Conf) (h : (post d w).2 = false) :
    (post d w).1.servers.map (·.settings) = d.servers.map (·.settings) ∧
    (post d w).1.executables.map (·.settings) = d.executables.map (·.settings) ∧
    (post d w).1.tasks = d.tasks ∧ (post d w).1.failed = d.failed := by
  unfold post at h ⊢
  by_cases hf : d.failed = true
  · rw [if_pos hf]; exact ⟨rfl, rfl, rfl, rfl⟩
  · rw [if_neg hf] at h ⊢
    dsimp only at h ⊢
    split at h
    · cases h
    · rename_i hr
      rw [if_neg hr]
      exact postGroups_servers _ _

/-- **C220** (part): a domain to which sensible configurations are posted, one at a time, does
not go down because of them. -/
theorem stays_up_partial {d : Dom} (h : Reached d) : d.failed = false ∧ d.tasks = [] := ⟨(reached_inv h).failed, (reached_inv h).tasks⟩

/-- **C221** (part): as long as each is posted when the one before is done. -/
theorem one_at_a_time_partial {c : Conf} {d : Dom} (h : Boots c) (hb : boot c = some d) (ws : List Conf)
    (hS : ∀ w ∈ ws, Sound w ∧ Ordered [] w.groups) :
    (ws.foldl (fun d w => settle (post d w).1) d).failed = false ∧
    ∀ w, ws.getLast? = some w → Same (get (ws.foldl (fun d w => settle (post d w).1) d)) (shown w) := by
  have hO : ∀ (d : Dom) {w : Conf}, Ordered [] w.groups → Ordered ((get d).groups.map (·.name)) w.groups := by
    intro d w ho xs g ys e n hn
    rcases ho xs g ys e n hn with h | h | h
    · exact Or.inl h
    · cases h
    · exact Or.inr (Or.inr h)
  have key : ∀ (ws : List Conf) (d : Dom), (∀ w ∈ ws, Sound w ∧ Ordered [] w.groups) → Reached d →
      Reached (ws.foldl (fun d w => settle (post d w).1) d) ∧
      ∀ w, ws.getLast? = some w → Same (get (ws.foldl (fun d w => settle (post d w).1) d)) (shown w) := by
    intro ws
    induction ws with
    | nil => exact fun d _ hd => ⟨hd, fun w hw => by cases hw⟩
    | cons x ws ih =>
      intro d hs hd
      have hx := hs x List.mem_cons_self
      have hd' : Reached (settle (post d x).1) := .posted hd hx.1 (hO d hx.2)
      obtain ⟨h1, h2⟩ := ih _ (fun w hw => hs w (List.mem_cons_of_mem _ hw)) hd'
      refine ⟨h1, fun w hw => ?_⟩
      cases ws with
      | nil =>
        have hw : x = w := by simpa using hw
        subst hw
        exact (posted_is_had_partial hd hx.1 (hO d hx.2)).2
      | cons y ws => exact h2 w (by rw [List.getLast?_cons_cons] at hw; exact hw)
  obtain ⟨h1, h2⟩ := key ws d hS (.booted h hb)
  exact ⟨(stays_up_partial h1).1, h2⟩

theorem names_setFirst (n : String) (f : Grp → Grp) (hf : ∀ g, (f g).name = g.name) (gs : List Grp) :
    names (setFirst n f gs) = names gs := by
  induction gs with
  | nil => rfl
  | cons g gs ih =>
    unfold setFirst
    by_cases e : g.name = n
    · rw [if_pos e]
      show (f g).name :: names gs = _
      rw [hf]
      rfl
    · rw [if_neg e]
      exact congrArg (g.name :: ·) ih

theorem names_modify (ms : List DGroup) (d : Dom) : names (modifyGroups ms d).1.groups = names d.groups := by
  induction ms generalizing d with
  | nil => rfl
  | cons m ms ih =>
    unfold modifyGroups
    cases membership d.groups m.dependencies with
    | none => rfl
    | some ds =>
      refine (ih _).trans ?_
      dsimp only
      exact names_setFirst m.name (fun x => { x with deps := ds, note := m.note, enabled := m.enabled }) (fun _ => rfl) d.groups

theorem modify_there (ms : List DGroup) (d : Dom) (h : (modifyGroups ms d).2 = true) :
    ∀ m ∈ ms, ∀ n ∈ m.dependencies, n ∈ names d.groups := by
  induction ms generalizing d with
  | nil => intro m hm; cases hm
  | cons x ms ih =>
    unfold modifyGroups at h
    cases hd : membership d.groups x.dependencies with
    | none => rw [hd] at h; cases h
    | some ds =>
      rw [hd] at h
      dsimp only at h
      intro m hm n hn
      rcases List.mem_cons.1 hm with rfl | hm
      · exact membership_mem hd n hn
      · have := ih _ h m hm n hn
        dsimp only at this
        rwa [names_setFirst _ (fun y => { y with deps := ds, note := x.note, enabled := x.enabled }) (fun _ => rfl) d.groups] at this

theorem names_add (as : List DGroup) (d : Dom) : ∀ n ∈ names d.groups, n ∈ names (addGroups as d).1.groups := by
  induction as generalizing d with
  | nil => exact fun n hn => hn
  | cons a as ih =>
    intro n hn
    unfold addGroups
    cases hd : membership d.groups a.dependencies with
    | none => exact hn
    | some ds =>
      refine ih _ n ?_
      dsimp only
      rw [names, List.map_append]
      exact List.mem_append.2 (Or.inl hn)

theorem add_there (as : List DGroup) (d : Dom) (h : (addGroups as d).2 = true) :
    ∀ a ∈ as, ∀ n ∈ a.dependencies, n ∈ names (addGroups as d).1.groups := by
  induction as generalizing d with
  | nil => intro a ha; cases ha
  | cons x as ih =>
    unfold addGroups at h ⊢
    cases hd : membership d.groups x.dependencies with
    | none => rw [hd] at h; cases h
    | some ds =>
      rw [hd] at h
      dsimp only at h ⊢
      intro a ha n hn
      rcases List.mem_cons.1 ha with rfl | ha
      · refine names_add _ _ n ?_
        dsimp only
        rw [names, List.map_append]
        exact List.mem_append.2 (Or.inl (membership_mem hd n hn))
      · exact ih _ h a ha n hn

/-- **C222** (part): if a configuration is accepted, at any time, the groups in it that are new or changed only depend
on groups that are there. (It is the ones that are not changed that are not looked at.) -/
theorem dangling_partial (d : Dom) (w : Conf) (h : (post d w).2 = true) :
    ∀ g ∈ w.groups, g ∉ (get d).groups → ∀ n ∈ g.dependencies, n ∈ names (post d w).1.groups := by
  unfold post at h ⊢
  by_cases hf : d.failed = true
  · rw [if_pos hf] at h; cases h
  · rw [if_neg hf] at h ⊢
    dsimp only at h ⊢
    by_cases hr : (postGroups (change (get d) w).groups d).2 = true
    · rw [if_pos hr]
      intro g hg hn n hd
      dsimp only
      unfold postGroups at hr ⊢
      dsimp only at hr ⊢
      by_cases ha : (addGroups (change (get d) w).groups.added ((change (get d) w).groups.removed.foldl removeGroup d)).2 = true
      · rw [if_pos ha] at hr ⊢
        rw [names_modify]
        by_cases hc : ∃ y ∈ (get d).groups, y.name = g.name
        · exact modify_there _ _ hr g (mem_modified.2 ⟨hg, hn, hc⟩) n hd
        · exact add_there _ _ ha g (mem_added.2 ⟨hg, fun y hy e => hc ⟨y, hy, e⟩⟩) n hd
      · rw [if_neg ha] at hr; exact absurd hr ha
    · rw [if_neg hr] at h; exact absurd h hr

/-- **C223** (part): at boot, with any configuration, the gateway's group depends on every other group. -/
theorem gateway_last_partial {c : Conf} {d : Dom} (h : boot c = some d) :
    ∃ gw ∈ d.groups, gw.name = ".casual.gateway" ∧ gw.id = d.gateway ∧ ∀ g ∈ d.groups, g = gw ∨ g.id ∈ gw.deps := by
  unfold boot at h
  cases hb : bootGroups c.groups with
  | none => rw [hb] at h; cases h
  | some gs =>
    rw [hb] at h
    dsimp only at h
    have hg : ∃ l, gs = l ++ [({ id := 5 + (c.groups.filter fun g => !reserved.contains g.name).length, name := ".casual.gateway", deps := l.map (·.id) } : Grp)] := by
      unfold bootGroups at hb
      dsimp only at hb
      split at hb
      · cases hb
      · rename_i l _
        exact ⟨l, (Option.some.inj hb).symm⟩
    obtain ⟨l, rfl⟩ := hg
    split at h
    · cases h
      refine ⟨_, List.mem_append.2 (Or.inr List.mem_cons_self), rfl, rfl, fun g hg => ?_⟩
      rcases List.mem_append.1 hg with hg | hg
      · exact Or.inr (List.mem_map_of_mem hg)
      · exact Or.inl (List.mem_singleton.1 hg)
    · cases h

/-- **C224**: a domain that is asked for its configuration, and is given it back, is not changed at all - whatever
it has. -/
theorem get_posted_nothing (d : Dom) (hf : d.failed = false) (ht : d.tasks = []) :
    (post d (get d)).2 = true ∧ settle (post d (get d)).1 = d := by
  have hc : change (get d) (get d) = ⟨⟨[], [], []⟩, ⟨[], [], []⟩, ⟨[], [], []⟩⟩ := by
    unfold change
    rw [change_none, change_none, change_none]
  have hp : post d (get d) = ({ d with tasks := [.managers, .add (change (get d) (get d)), .down (change (get d) (get d)),
      .gone (change (get d) (get d)), .modify (change (get d) (get d)), .done] }, true) := by
    unfold post
    rw [hf]
    simp only [Bool.false_eq_true, if_false]
    rw [hc]
    simp only [postGroups, addGroups, modifyGroups, List.foldl_nil, if_true, ht, List.nil_append, hf]
  refine ⟨by rw [hp], ?_⟩
  rw [hp, hc]
  show turns 6 _ = d
  rw [turns_some (t := .managers) rfl rfl]
  rw [turns_some (t := .add _) (d' := { d with tasks := [.down ⟨⟨[], [], []⟩, ⟨[], [], []⟩, ⟨[], [], []⟩⟩,
      .gone ⟨⟨[], [], []⟩, ⟨[], [], []⟩, ⟨[], [], []⟩⟩, .modify ⟨⟨[], [], []⟩, ⟨[], [], []⟩, ⟨[], [], []⟩⟩, .done] }) rfl (by
    simp only [act, makeProcs, List.append_nil])]
  rw [turns_some (t := .down _) rfl rfl]
  rw [turns_some (t := .gone _) (d' := { d with tasks := [.modify ⟨⟨[], [], []⟩, ⟨[], [], []⟩, ⟨[], [], []⟩⟩, .done] }) rfl (by
    have : ∀ ps : List Proc, eraseGone [] ps = ps := by
      intro ps
      unfold eraseGone
      refine List.filter_eq_self.2 fun p _ => ?_
      simp
    simp only [act, List.foldl_nil, this])]
  rw [turns_some (t := .modify _) (d' := { d with tasks := [.done] }) rfl (by simp only [act, modifyProcs])]
  rw [turns_some (d := { d with tasks := [.done] }) (t := .done) (ts := []) (d' := { d with tasks := [] }) rfl rfl]
  show ({ d with tasks := [] } : Dom) = d
  rw [← ht]

/-! ### These are not empty -/

/-- Two groups and what is in them. -/
def shop : Conf :=
  { groups := [{ name := "db" }, { name := "web", dependencies := ["db"], note := "the web" }]
    servers := [{ alias := "s1", filename := "a.out", memberships := ["db"], instances := 3 }, { alias := "s2", filename := "b.out" }]
    executables := [{ alias := "e", filename := "c", memberships := ["web"] }] }

/-- Another one: a group is gone, one is new before it, a server is changed and one is new. -/
def shop2 : Conf :=
  { groups := [{ name := "mq" }, { name := "web", dependencies := ["mq"] }]
    servers := [{ alias := "s2", filename := "b.out", memberships := ["web"] }, { alias := "s3", filename := "d.out", memberships := ["mq"] }]
    executables := [] }

theorem ordered_of {b : List String} {w : List DGroup} (h : ∀ k, ∀ g, w[k]? = some g → ∀ n ∈ g.dependencies,
    n ∈ (w.take k).map (·.name) ∨ n ∈ b ∨ n ∈ sysAll) : Ordered b w := by
  intro xs g ys e n hn
  subst e
  have h0 := h xs.length g (by simp) n hn
  rw [List.take_left] at h0
  exact h0

theorem shop_boots : Boots shop := by
  constructor
  · constructor <;> decide +kernel
  · decide +kernel

theorem shop2_sound : Sound shop2 := by constructor <;> decide +kernel

theorem shop2_ordered : Ordered [] shop2.groups := by
  refine ordered_of fun k g hk => ?_
  match k, hk with
  | 0, hk => cases hk; exact fun n hn => by cases hn
  | 1, hk => cases hk; decide +kernel
  | k + 2, hk => cases hk

/-- The domain boots with the first, gets the second, and has the second. -/
example : ∃ d, boot shop = some d ∧ (post d shop2).2 = true ∧ Same (get (settle (post d shop2).1)) (shown shop2) ∧
    (get d).groups.map (·.name) = ["db", "web"] ∧
    (get (settle (post d shop2).1)).servers.map (·.alias) = ["s2", "s3"] ∧
    (get (settle (post d shop2).1)).groups.map (·.name) = ["web", "mq"] := by
  obtain ⟨d, hd, -⟩ := boots shop_boots
  have hO : Ordered ((get d).groups.map (·.name)) shop2.groups := by
    intro xs g ys e n hn
    rcases shop2_ordered xs g ys e n hn with h | h | h
    · exact Or.inl h
    · cases h
    · exact Or.inr (Or.inr h)
  have h := posted_is_had_partial (.booted shop_boots hd) shop2_sound hO
  refine ⟨d, hd, h.1, h.2, ?_⟩
  have : ∃ d', boot shop = some d' ∧ (get d').groups.map (·.name) = ["db", "web"] ∧
      (get (settle (post d' shop2).1)).servers.map (·.alias) = ["s2", "s3"] ∧
      (get (settle (post d' shop2).1)).groups.map (·.name) = ["web", "mq"] := by
    refine ⟨_, by rfl, ?_⟩
    decide +kernel
  obtain ⟨d', h1, h2⟩ := this
  rw [h1] at hd
  cases hd
  exact h2

/-- A group that depends on one that is not there is refused. -/
example : (post bare { groups := [{ name := "a", dependencies := ["nope"] }] }).2 = false := by decide +kernel

end Casual.DPost

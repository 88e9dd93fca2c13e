import Verif.DPost.Lands
/-
  A configuration that fits is accepted, and in the end it is what there is.
-/
namespace Casual.DPost

open Casual.ConfModel (DGroup Entity)
open Casual.Config (Change calculate inj_of_nodup mem_added mem_modified mem_removed)

theorem strip_alias (ns : List String) (e : Entity) : (stripE ns e).alias = e.alias := rfl

theorem userE_strip {ns : List String} (h : ∀ n ∈ ns, dotted n = false) (e : Entity) : userE (stripE ns e) = userE e := by
  unfold userE stripE
  dsimp only
  congr 1
  rw [Bool.eq_iff_iff, List.any_eq_true, List.any_eq_true]
  constructor
  · rintro ⟨n, hn, hs⟩
    exact ⟨n, (List.mem_filter.1 hn).1, hs⟩
  · rintro ⟨n, hn, hs⟩
    refine ⟨n, List.mem_filter.2 ⟨hn, ?_⟩, hs⟩
    rw [decide_eq_true_eq]
    intro hm
    have := sysNames_dotted n (by simpa using hs)
    rw [h n hm] at this
    cases this

theorem plain_not_sys {n : String} (h : dotted n = false) : n ∉ sysAll := by
  intro hm
  have := sysAll_dotted n hm
  rw [h] at this
  cases this

theorem global_not_sys : ".global" ∉ sysNames := by decide +kernel

theorem userE_fix {w : Conf} (hS : Sound w) {e : Entity} (he : e ∈ w.servers) : userE (withGlobal e) = true := by
  unfold userE
  rw [Bool.not_eq_true', List.any_eq_false]
  intro n hn
  unfold withGlobal at hn
  have hno : n ∉ sysNames := by
    split at hn
    · rw [List.mem_singleton.1 hn]; exact global_not_sys
    · rcases hS.servers e he n hn with h | h
      · obtain ⟨g, hg, rfl⟩ := List.mem_map.1 h
        exact fun hm => plain_not_sys (hS.plain g hg) (List.mem_cons_of_mem _ hm)
      · rw [h]; exact global_not_sys
  simpa using hno

theorem strip_closed {ns : List String} {e : Entity} (h : ∀ n ∈ e.memberships, n ∉ ns) : stripE ns e = e := by
  unfold stripE
  rw [List.filter_eq_self.2 fun n hn => decide_eq_true (h n hn)]

theorem withGlobal_ne (e : Entity) : (withGlobal e).memberships ≠ [] := by
  unfold withGlobal
  split
  · exact List.cons_ne_nil _ _
  · assumption

/-- The same things, in some order. -/
theorem perm_of_mem {α : Type} {l l' : List α} (h : l.Nodup) (h' : l'.Nodup) (hm : ∀ x, x ∈ l ↔ x ∈ l') : l.Perm l' :=
  (List.perm_ext_iff_of_nodup h h').2 hm

theorem nodup_of_keys {α β : Type} {f : α → β} {l : List α} (h : (l.map f).Nodup) : l.Nodup := by
  induction l with
  | nil => exact List.nodup_nil
  | cons a l ih =>
    rw [List.map_cons, List.nodup_cons] at h
    exact List.nodup_cons.2 ⟨fun hm => h.1 (List.mem_map_of_mem hm), ih h.2⟩

/-- A process with groups: those of the configuration, or the group for all. -/
def shown (w : Conf) : Conf := { w with servers := w.servers.map withGlobal, executables := w.executables.map withGlobal }

/-- Two configurations are the same apart from the order. -/
structure Same (a b : Conf) : Prop where
  groups : a.groups.Perm b.groups
  servers : a.servers.Perm b.servers
  executables : a.executables.Perm b.executables

theorem turns_some {n : Nat} {d d' : Dom} {t : Task} {ts : List Task} (h : d.tasks = t :: ts)
    (ha : act { d with tasks := ts } t = some d') : turns (n + 1) d = turns n d' := by
  show turns n (turn d) = _
  rw [turn_some h ha]

theorem hall_nodup {d : Dom} (ns : List String) (h : ((view d).servers.map (·.alias)).Nodup) :
    (((view d).servers.map (stripE ns)).map (·.alias)).Nodup := by
  rw [List.map_map]; exact h

theorem post_lands {d : Dom} (hI : Inv d) {w : Conf} (hS : Sound w) (hO : Ordered ((get d).groups.map (·.name)) w.groups) :
    (post d w).2 = true ∧ Inv (settle (post d w).1) ∧ Same (get (settle (post d w).1)) (shown w) := by
  have hget := get_eq hI.w hI.sys
  obtain ⟨r1, r2, r3, r4, r5, r6, r7, r8⟩ := groups_land hI.w hI.sys hS hO
  -- short names
  let gone := (calculate (fun g : DGroup => g.name) (get d).groups w.groups).removed.map (·.name)
  let cS := calculate (fun e : Entity => e.alias) (get d).servers w.servers
  let cE := calculate (fun e : Entity => e.alias) (get d).executables w.executables
  generalize hr : postGroups (calculate (fun g : DGroup => g.name) (get d).groups w.groups) d = r at r1 r2 r3 r4 r5 r6 r8
  have hpost : post d w = ({ r.1 with tasks := r.1.tasks ++ [.managers, .add (change (get d) w), .down (change (get d) w),
      .gone (change (get d) w), .modify (change (get d) w), .done] }, true) := by
    unfold post
    rw [hI.failed]
    simp only [Bool.false_eq_true, if_false]
    have : postGroups (change (get d) w).groups d = r := hr
    rw [this, if_pos r1]
  have hglob : ".global" ∈ names r.1.groups := sys_names r2 r3 _ (by decide +kernel)
  have hsv : r.1.servers.map (showProc r.1.groups) = (view d).servers.map (stripE gone) := congrArg Conf.servers r6
  have hev : r.1.executables.map (showProc r.1.groups) = (view d).executables.map (stripE gone) := congrArg Conf.executables r6
  have hsa : r.1.servers.map (·.settings.alias) = (view d).servers.map (·.alias) := by
    have := congrArg (List.map (fun e : Entity => e.alias)) hsv
    rw [List.map_map, List.map_map] at this
    exact this
  have hea : r.1.executables.map (·.settings.alias) = (view d).executables.map (·.alias) := by
    have := congrArg (List.map (fun e : Entity => e.alias)) hev
    rw [List.map_map, List.map_map] at this
    exact this
  have hgs : (get d).servers = (view d).servers.filter userE := by rw [hget]
  have hge : (get d).executables = (view d).executables.filter fun _ => true := by rw [hget]
  have hgg : (get d).groups = (view d).groups.filter fun g => !dotted g.name := by rw [hget]
  have hSm : ∀ e ∈ w.servers, ∀ n ∈ e.memberships, n ∈ names r.1.groups := by
    intro e he n hn
    rcases hS.servers e he n hn with h | h
    · exact (r8 n h).2
    · rw [h]; exact hglob
  have hEm : ∀ e ∈ w.executables, ∀ n ∈ e.memberships, n ∈ names r.1.groups := by
    intro e he n hn
    rcases hS.executables e he n hn with h | h
    · exact (r8 n h).2
    · exact sys_names r2 r3 n h
  have hnoS : ∀ x ∈ (view d).servers, userE x = false → x.alias ∉ w.servers.map (·.alias) := by
    intro x hx hu hm
    obtain ⟨e, he, ea⟩ := List.mem_map.1 hm
    exact hS.notOwn e he (ea ▸ hI.own x hx hu)
  have hSN : (r.1.servers.map (·.settings.alias) ++ cS.added.map (·.alias)).Nodup := by
    rw [hsa, List.nodup_append]
    refine ⟨hI.srvN, (added_sub _ _ _).nodup hS.serversN, ?_⟩
    intro a ha b hb e
    subst e
    obtain ⟨x, hx, rfl⟩ := List.mem_map.1 ha
    obtain ⟨y, hy, ey⟩ := List.mem_map.1 hb
    have hy' := (mem_added_keys _ _ _ _).1 hy
    cases hu : userE x with
    | true =>
      apply hy'.2
      rw [hgs, ey]
      exact List.mem_map_of_mem (f := fun e : Entity => e.alias) (List.mem_filter.2 ⟨hx, hu⟩)
    | false => exact hnoS x hx hu (ey ▸ List.mem_map_of_mem (f := fun e : Entity => e.alias) hy'.1)
  have hEN : (r.1.executables.map (·.settings.alias) ++ cE.added.map (·.alias)).Nodup := by
    rw [hea, List.nodup_append]
    refine ⟨hI.exeN, (added_sub _ _ _).nodup hS.executablesN, ?_⟩
    intro a ha b hb e
    subst e
    obtain ⟨x, hx, rfl⟩ := List.mem_map.1 ha
    obtain ⟨y, hy, ey⟩ := List.mem_map.1 hb
    have hy' := (mem_added_keys _ _ _ _).1 hy
    apply hy'.2
    rw [hge, ey]
    exact List.mem_map_of_mem (f := fun e : Entity => e.alias) (List.mem_filter.2 ⟨hx, rfl⟩)
  obtain ⟨newS, qS, s1, s2, s3, s4⟩ := procs_land r2.idsN hglob r.1.servers (get d).servers w.servers r2.srv hSm hSN
    (stripE gone) (view d).servers hsv
  obtain ⟨newE, qE, e1, e2, e3, e4⟩ := procs_land r2.idsN hglob r.1.executables (get d).executables w.executables r2.exe hEm hEN
    (stripE gone) (view d).executables hev
  -- the tasks
  have hset : settle (post d w).1 = { r.1 with servers := qS, executables := qE, tasks := [] } := by
    rw [hpost]
    have ht : r.1.tasks = [] := r4.trans hI.tasks
    unfold settle
    rw [ht]
    show turns 6 _ = _
    rw [turns_some (t := .managers) rfl rfl]
    rw [turns_some (t := .add (change (get d) w)) (d' := { r.1 with
        servers := r.1.servers ++ newS
        executables := r.1.executables ++ newE
        tasks := [.down (change (get d) w), .gone (change (get d) w), .modify (change (get d) w), .done] }) rfl (by
      unfold act
      dsimp only
      rw [show makeProcs r.1.groups (change (get d) w).servers.added = some newS from s1,
        show makeProcs r.1.groups (change (get d) w).executables.added = some newE from e1])]
    rw [turns_some (t := .down (change (get d) w)) rfl rfl]
    rw [turns_some (t := .gone (change (get d) w)) rfl rfl]
    have s2' : modifyProcs r.1.groups (change (get d) w).servers.modified (eraseGone (change (get d) w).servers.removed
        ((change (get d) w).servers.removed.foldl (fun ps e => scaleIn e.alias ps) (r.1.servers ++ newS))) = some qS := s2
    have e2' : modifyProcs r.1.groups (change (get d) w).executables.modified (eraseGone (change (get d) w).executables.removed
        ((change (get d) w).executables.removed.foldl (fun ps e => scaleIn e.alias ps) (r.1.executables ++ newE))) = some qE := e2
    rw [turns_some (t := .modify (change (get d) w)) (d' := { r.1 with
        servers := qS
        executables := qE
        tasks := [.done] }) rfl (by
      unfold act
      dsimp only
      rw [s2', e2'])]
    rw [turns_some (t := .done) rfl rfl]
    rfl
  have hview : view (settle (post d w).1) =
      { groups := after (·.name) (stripG gone) id (view d).groups (get d).groups w.groups
        servers := after (·.alias) (stripE gone) withGlobal (view d).servers (get d).servers w.servers
        executables := after (·.alias) (stripE gone) withGlobal (view d).executables (get d).executables w.executables } := by
    rw [hset]
    show Conf.mk _ _ _ = _
    congr 1
    exact congrArg Conf.groups r6
  have hW : W (settle (post d w).1) := by
    rw [hset]
    exact ⟨r2.idsN, r2.lt, r2.namesN, r2.deps, s3, e3⟩
  have hSys : Sys (settle (post d w).1) := by
    rw [hset]
    exact ⟨r3.master, r3.core, r3.transaction, r3.queue, r3.gateway, r3.glob⟩
  have hgoneS : ∀ n ∈ sysAll, n ∉ gone := by
    intro n hn hm
    have := sysAll_dotted n hn
    rw [r7 n hm] at this
    cases this
  -- groups
  have hvn : ((view d).groups.map (·.name)).Nodup := by
    unfold view
    dsimp only
    rw [List.map_map]
    exact hI.w.namesN
  have G := after_wanted (fun g : DGroup => g.name) (stripG gone) id (fun g => !dotted g.name) (view d).groups w.groups hvn hS.groupsN
    (fun _ => rfl) (fun _ => rfl) (fun _ _ => rfl) (fun x hx => by rw [id, hS.plain x hx]; rfl)
    (fun x hx _ => by
      unfold stripG
      rw [List.filter_eq_self.2]
      intro n hn
      refine decide_eq_true ?_
      rcases hS.deps x hx n hn with h | h
      · exact (r8 n h).1
      · exact hgoneS n h)
    (fun _ _ _ => rfl)
    (fun x _ hP hm => by
      obtain ⟨y, hy, e⟩ := List.mem_map.1 hm
      have e : y.name = x.name := e
      rw [← e, hS.plain y hy] at hP
      cases hP)
  have S := after_wanted (fun e : Entity => e.alias) (stripE gone) withGlobal userE (view d).servers w.servers hI.srvN hS.serversN
    (strip_alias gone) withGlobal_alias (fun x _ => userE_strip r7 x) (fun x hx => userE_fix hS hx)
    (fun x hx _ => strip_closed fun n hn => by
      rcases hS.servers x hx n hn with h | h
      · exact (r8 n h).1
      · rw [h]; exact hgoneS _ (by decide +kernel))
    (fun x _ hx => if_neg (hI.srvM x hx)) hnoS
  have E := after_wanted (fun e : Entity => e.alias) (stripE gone) withGlobal (fun _ => true) (view d).executables w.executables
    hI.exeN hS.executablesN
    (strip_alias gone) withGlobal_alias (fun _ _ => rfl) (fun _ _ => rfl)
    (fun x hx _ => strip_closed fun n hn => by
      rcases hS.executables x hx n hn with h | h
      · exact (r8 n h).1
      · exact hgoneS _ h)
    (fun x _ hx => if_neg (hI.exeM x hx)) (fun _ _ h => by cases h)
  rw [← hgg] at G
  rw [← hgs] at S
  rw [← hge] at E
  have hg' := get_eq hW hSys
  refine ⟨by rw [hpost], ⟨hW, hSys, ?_, ?_, ?_, ?_, ?_, by rw [hset], by rw [hset]; exact r5.trans hI.failed⟩, ?_⟩
  · rw [hview]; exact S.2.1
  · rw [hview]; exact E.2.1
  · rw [hview]
    intro e he hu
    obtain ⟨y, hy, hP, rfl⟩ := (S.2.2 e).1 ⟨he, hu⟩
    exact hI.own y hy hP
  · rw [hview]
    intro e he
    cases hu : userE e with
    | true =>
      obtain ⟨y, -, rfl⟩ := List.mem_map.1 ((S.1 e).1 (List.mem_filter.2 ⟨he, hu⟩))
      exact withGlobal_ne y
    | false =>
      intro h0
      unfold userE at hu
      rw [h0] at hu
      cases hu
  · rw [hview]
    intro e he
    obtain ⟨y, -, rfl⟩ := List.mem_map.1 ((E.1 e).1 (List.mem_filter.2 ⟨he, rfl⟩))
    exact withGlobal_ne y
  · rw [hg', hview]
    have hSN' : ((w.servers.map withGlobal).map (·.alias)).Nodup := by
      rw [List.map_map, show (fun e : Entity => e.alias) ∘ withGlobal = fun e => e.alias from funext withGlobal_alias]
      exact hS.serversN
    have hEN' : ((w.executables.map withGlobal).map (·.alias)).Nodup := by
      rw [List.map_map, show (fun e : Entity => e.alias) ∘ withGlobal = fun e => e.alias from funext withGlobal_alias]
      exact hS.executablesN
    refine ⟨perm_of_mem ?_ (nodup_of_keys hS.groupsN) ?_, perm_of_mem ?_ (nodup_of_keys hSN') ?_,
      perm_of_mem ?_ (nodup_of_keys hEN') ?_⟩
    · exact List.filter_sublist.nodup (nodup_of_keys G.2.1)
    · intro x
      refine (G.1 x).trans ?_
      rw [List.map_id]
      rfl
    · exact List.filter_sublist.nodup (nodup_of_keys S.2.1)
    · exact S.1
    · exact List.filter_sublist.nodup (nodup_of_keys E.2.1)
    · exact E.1

end Casual.DPost

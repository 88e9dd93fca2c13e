import Verif.DPost.Settles
/-
  A domain that boots has what it was configured with.
-/
namespace Casual.DPost

open Casual.ConfModel (DGroup Entity)
open Casual.Config (Change calculate inj_of_nodup mem_added mem_modified mem_removed)

theorem addPhase_names (n : Nat) (gs : List DGroup) : (addPhase n gs).map (·.name) = gs.map (·.name) := by
  induction gs generalizing n with
  | nil => rfl
  | cons g gs ih => unfold addPhase; rw [List.map_cons, List.map_cons, ih]

theorem addPhase_mem {n : Nat} {gs : List DGroup} {g : Grp} (h : g ∈ addPhase n gs) :
    n ≤ g.id ∧ g.id < n + gs.length ∧ g.deps = [1] ∧ ∃ c ∈ gs, c.name = g.name ∧ c.enabled = g.enabled ∧ c.note = g.note := by
  induction gs generalizing n with
  | nil => cases h
  | cons c gs ih =>
    unfold addPhase at h
    rcases List.mem_cons.1 h with rfl | h
    · exact ⟨Nat.le_refl _, by simp, rfl, c, List.mem_cons_self, rfl, rfl, rfl⟩
    · obtain ⟨h1, h2, h3, x, hx, h4⟩ := ih h
      exact ⟨by omega, by rw [List.length_cons]; omega, h3, x, List.mem_cons_of_mem _ hx, h4⟩

theorem addPhase_ids (n : Nat) (gs : List DGroup) : ((addPhase n gs).map (·.id)).Nodup := by
  induction gs generalizing n with
  | nil => exact List.nodup_nil
  | cons c gs ih =>
    unfold addPhase
    rw [List.map_cons, List.nodup_cons]
    refine ⟨fun hm => ?_, ih _⟩
    obtain ⟨x, hx, e⟩ := List.mem_map.1 hm
    have := (addPhase_mem hx).1
    have e : x.id = n := e
    omega

theorem setFirst_congr (n : String) (f f' : Grp → Grp) (gs : List Grp) (h : ∀ g ∈ gs, g.name = n → f g = f' g) :
    setFirst n f gs = setFirst n f' gs := by
  induction gs with
  | nil => rfl
  | cons g gs ih =>
    unfold setFirst
    by_cases e : g.name = n
    · rw [if_pos e, if_pos e, h g List.mem_cons_self e]
    · rw [if_neg e, if_neg e, ih fun x hx => h x (List.mem_cons_of_mem _ hx)]

theorem mem_setFirst {n : String} {f : Grp → Grp} {gs : List Grp} {g : Grp} (h : g ∈ setFirst n f gs) :
    g ∈ gs ∨ ∃ x ∈ gs, x.name = n ∧ g = f x := by
  induction gs with
  | nil => cases h
  | cons y gs ih =>
    unfold setFirst at h
    by_cases e : y.name = n
    · rw [if_pos e] at h
      rcases List.mem_cons.1 h with rfl | h
      · exact Or.inr ⟨y, List.mem_cons_self, e, rfl⟩
      · exact Or.inl (List.mem_cons_of_mem _ h)
    · rw [if_neg e] at h
      rcases List.mem_cons.1 h with rfl | h
      · exact Or.inl List.mem_cons_self
      · rcases ih h with h | ⟨x, hx, h⟩
        · exact Or.inl (List.mem_cons_of_mem _ h)
        · exact Or.inr ⟨x, List.mem_cons_of_mem _ hx, h⟩

/-- The dependencies are set in the same way as when a group is modified. -/
theorem depPhase_eq (ms : List DGroup) (d : Dom)
    (h : ∀ m ∈ ms, ∀ g ∈ d.groups, g.name = m.name → g.note = m.note ∧ g.enabled = m.enabled)
    (hok : (modifyGroups ms d).2 = true) : depPhase ms d.groups = some (modifyGroups ms d).1.groups := by
  induction ms generalizing d with
  | nil => rfl
  | cons m ms ih =>
    unfold modifyGroups at hok ⊢
    unfold depPhase
    cases hd : membership d.groups m.dependencies with
    | none => rw [hd] at hok; cases hok
    | some ds =>
      rw [hd] at hok
      dsimp only at hok ⊢
      have he : setFirst m.name (fun x : Grp => { x with deps := ds }) d.groups =
          setFirst m.name (fun x : Grp => { x with deps := ds, note := m.note, enabled := m.enabled }) d.groups := by
        refine setFirst_congr _ _ _ _ fun g hg e => ?_
        have := h m List.mem_cons_self g hg e
        rw [← this.1, ← this.2]
      rw [he]
      refine ih { d with groups := _ } ?_ hok
      intro x hx g hg e
      rcases mem_setFirst hg with hg | ⟨y, hy, e1, rfl⟩
      · exact h x (List.mem_cons_of_mem _ hx) g hg e
      · have h1 := h m List.mem_cons_self y hy e1
        have h2 := h x (List.mem_cons_of_mem _ hx) y hy e
        dsimp only
        exact ⟨h1.1.symm.trans h2.1, h1.2.symm.trans h2.2⟩

theorem ids_setFirst (n : String) (f : Grp → Grp) (hf : ∀ g, (f g).id = g.id) (gs : List Grp) : ids (setFirst n f gs) = ids gs := by
  induction gs with
  | nil => rfl
  | cons g gs ih =>
    unfold setFirst
    by_cases e : g.name = n
    · rw [if_pos e]
      show (f g).id :: ids gs = _
      rw [hf]
      rfl
    · rw [if_neg e]
      exact congrArg (g.id :: ·) ih

theorem ids_modify (ms : List DGroup) (d : Dom) : ids (modifyGroups ms d).1.groups = ids d.groups := by
  induction ms generalizing d with
  | nil => rfl
  | cons m ms ih =>
    unfold modifyGroups
    cases membership d.groups m.dependencies with
    | none => rfl
    | some ds =>
      refine (ih _).trans ?_
      dsimp only
      exact ids_setFirst m.name (fun x => { x with deps := ds, note := m.note, enabled := m.enabled }) (fun _ => rfl) d.groups

theorem reserved_dotted : ∀ n ∈ reserved, dotted n = true := by decide +kernel

theorem firstNames_dotted : ∀ g ∈ firstGroups, dotted g.name = true := by decide +kernel

/-- The domain's own servers, as they are seen. -/
def ownShown : List Entity :=
  [{ alias := "casual-domain-manager", filename := "casual-domain-manager", restart := true, memberships := [".casual.master"] },
   { alias := "casual-domain-discovery", filename := "casual-domain-discovery", restart := true, memberships := [".casual.core"] },
   { alias := "casual-service-manager", filename := "casual-service-manager", restart := true, memberships := [".casual.master"] },
   { alias := "casual-transaction-manager", filename := "casual-transaction-manager", restart := true,
     memberships := [".casual.transaction"] },
   { alias := "casual-queue-manager", filename := "casual-queue-manager", restart := true, memberships := [".casual.queue"] },
   { alias := "casual-gateway-manager", filename := "casual-gateway-manager", restart := true, memberships := [".casual.gateway"] }]

/-- A configuration that a domain can boot with: it makes sense and no group comes after the gateway's. -/
structure Boots (c : Conf) : Prop where
  sound : Sound c
  noGateway : ∀ g ∈ c.groups, ".casual.gateway" ∉ g.dependencies

theorem boots {c : Conf} (h : Boots c) : ∃ d, boot c = some d ∧ Inv d ∧ Same (get d) (shown c) := by
  have hS := h.sound
  have huser : (c.groups.filter fun g => !reserved.contains g.name) = c.groups := by
    refine List.filter_eq_self.2 fun g hg => ?_
    rw [Bool.not_eq_true', List.contains_eq_mem, decide_eq_false_iff_not]
    intro hm
    have := reserved_dotted g.name hm
    rw [hS.plain g hg] at this
    cases this
  -- the groups before the dependencies are there
  let d0 : Dom := { groups := firstGroups ++ addPhase 5 c.groups, servers := [], executables := [], gateway := 5 + c.groups.length, next := 5 + c.groups.length }
  have hm0 : ∀ g ∈ d0.groups, g ∈ firstGroups ∨ g ∈ addPhase 5 c.groups := fun g hg => List.mem_append.1 hg
  have hf : ∀ g ∈ firstGroups, g.id < 5 := by decide +kernel
  have hfd : ∀ g ∈ firstGroups, ∀ i ∈ g.deps, i ∈ ids firstGroups := by decide +kernel
  have hW0 : W d0 := by
    refine ⟨?_, ?_, ?_, ?_, (fun p hp => by cases hp), (fun p hp => by cases hp)⟩
    · show (ids (firstGroups ++ addPhase 5 c.groups)).Nodup
      rw [ids, List.map_append, List.nodup_append]
      refine ⟨by decide +kernel, addPhase_ids _ _, ?_⟩
      intro a ha b hb e
      obtain ⟨x, hx, rfl⟩ := List.mem_map.1 ha
      obtain ⟨y, hy, rfl⟩ := List.mem_map.1 hb
      have h1 := hf x hx
      have h2 := (addPhase_mem hy).1
      omega
    · intro g hg
      show g.id < 5 + c.groups.length
      rcases hm0 g hg with hg | hg
      · have := hf g hg; omega
      · exact (addPhase_mem hg).2.1
    · show (names (firstGroups ++ addPhase 5 c.groups)).Nodup
      rw [names, List.map_append, addPhase_names, List.nodup_append]
      refine ⟨by decide +kernel, hS.groupsN, ?_⟩
      intro a ha b hb e
      obtain ⟨x, hx, rfl⟩ := List.mem_map.1 ha
      obtain ⟨y, hy, e'⟩ := List.mem_map.1 hb
      have h1 := firstNames_dotted x hx
      have h2 := hS.plain y hy
      rw [e', ← e, h1] at h2
      cases h2
    · intro g hg i hi
      show i ∈ ids (firstGroups ++ addPhase 5 c.groups)
      rw [ids, List.map_append]
      refine List.mem_append.2 (Or.inl ?_)
      rcases hm0 g hg with hg | hg
      · exact hfd g hg i hi
      · rw [(addPhase_mem hg).2.2.1, List.mem_singleton] at hi
        rw [hi]; decide +kernel
  have hn0 : names d0.groups = names firstGroups ++ c.groups.map (·.name) := by
    show (firstGroups ++ addPhase 5 c.groups).map (·.name) = _
    rw [List.map_append, addPhase_names]
  have hsysF : ∀ n ∈ sysAll, n ≠ ".casual.gateway" → n ∈ names firstGroups := by decide +kernel
  obtain ⟨m1, m2, m3, -, -, -, m7⟩ := view_modifies hW0 c.groups (by
    intro m hm n hn
    rw [hn0]
    rcases hS.deps m hm n hn with h' | h'
    · exact List.mem_append.2 (Or.inr h')
    · exact List.mem_append.2 (Or.inl (hsysF n h' fun e => h.noGateway m hm (e ▸ hn))))
  have hdp := depPhase_eq c.groups d0 (by
    intro m hm g hg e
    rcases hm0 g hg with hg | hg
    · have h1 := firstNames_dotted g hg
      rw [e, hS.plain m hm] at h1
      cases h1
    · obtain ⟨x, hx, e1, e2, e3⟩ := (addPhase_mem hg).2.2.2
      have := inj_of_nodup hS.groupsN hx hm (e1.trans e)
      subst this
      exact ⟨e3.symm, e2.symm⟩) m1
  have hids := ids_modify c.groups d0
  generalize (modifyGroups c.groups d0).1 = dm at m2 m3 m7 hdp hids
  let gw := 5 + c.groups.length
  let gs := dm.groups ++ [({ id := gw, name := ".casual.gateway", deps := dm.groups.map (·.id) } : Grp)]
  have hbg : bootGroups c.groups = some gs := by
    unfold bootGroups
    dsimp only
    rw [huser, show depPhase c.groups (firstGroups ++ addPhase 5 c.groups) = some dm.groups from hdp]
  -- names and numbers
  have hvg : (view dm).groups = puts (·.name) c.groups (view d0).groups := congrArg Conf.groups m3
  have hnm : names dm.groups = names d0.groups := by
    have h1 : ∀ d : Dom, (view d).groups.map (·.name) = names d.groups := by
      intro d; unfold view names; dsimp only; rw [List.map_map]; rfl
    rw [← h1, ← h1, hvg, keys_puts]
  have hlen : dm.groups.length = 5 + c.groups.length := by
    have := congrArg List.length hnm
    rw [hn0] at this
    simp only [names, List.length_map, List.length_append] at this
    exact this
  have hkeep : ∀ i ∈ ids d0.groups, i ∈ ids dm.groups ∧ nameOf dm.groups i = nameOf d0.groups i := fun i hi => m7 i hi (by simp)
  have hnmem : ∀ n, n ∈ names dm.groups ↔ n ∈ names firstGroups ∨ n ∈ c.groups.map (·.name) := by
    intro n; rw [hnm, hn0, List.mem_append]
  have hgwN : ".casual.gateway" ∉ names dm.groups := by
    rw [hnmem]
    rintro (hx | hx)
    · revert hx; decide +kernel
    · obtain ⟨g, hg, e⟩ := List.mem_map.1 hx
      have := hS.plain g hg
      rw [e] at this
      revert this; decide +kernel
  -- the number of the gateway's group is new: the numbers are those of the first phase
  have hidlt : ∀ i ∈ ids dm.groups, i < gw := by
    intro i hi
    rw [hids] at hi
    obtain ⟨g, hg, rfl⟩ := mem_ids hi
    exact hW0.lt g hg
  let d : Dom := { groups := gs, servers := [], executables := [], gateway := gw, next := gw + 1 }
  have hst : ∀ i ∈ ids dm.groups, nameOf gs i = nameOf dm.groups i := fun i hi => nameOf_added _ hi
  have hidsN : (ids gs).Nodup := by
    rw [ids, List.map_append, List.nodup_append]
    refine ⟨m2.idsN, by simp, ?_⟩
    intro a ha b hb e
    have := hidlt a ha
    simp only [List.map_cons, List.map_nil, List.mem_singleton] at hb
    omega
  have hinl : ∀ i ∈ ids dm.groups, i ∈ ids gs := fun i hi => by
    rw [ids, List.map_append]; exact List.mem_append.2 (Or.inl hi)
  have hgwin : gw ∈ ids gs := by
    rw [ids, List.map_append]; exact List.mem_append.2 (Or.inr (by simp))
  have hWg : ∀ ss es : List Proc, (∀ p ∈ ss, ∀ i ∈ p.groups, i ∈ ids gs) → (∀ p ∈ es, ∀ i ∈ p.groups, i ∈ ids gs) →
      W { d with servers := ss, executables := es } := by
    intro ss es hss hes
    refine ⟨hidsN, ?_, ?_, ?_, hss, hes⟩
    · intro g hg
      rcases List.mem_append.1 hg with hg | hg
      · exact Nat.lt_succ_of_lt (hidlt _ (List.mem_map_of_mem (f := fun g : Grp => g.id) hg))
      · rw [List.mem_singleton.1 hg]; exact Nat.lt_succ_self _
    · show (names gs).Nodup
      rw [names, List.map_append, List.nodup_append]
      refine ⟨m2.namesN, by simp, ?_⟩
      intro a ha b hb e
      subst e
      simp only [List.map_cons, List.map_nil, List.mem_singleton] at hb
      exact hgwN (hb ▸ ha)
    · intro g hg i hi
      rcases List.mem_append.1 hg with hg | hg
      · exact hinl i (m2.deps g hg i hi)
      · rw [List.mem_singleton.1 hg] at hi; exact hinl i hi
  have hsysI : ∀ i, i ∈ ids firstGroups → i ∈ ids gs ∧ nameOf gs i = nameOf firstGroups i := by
    intro i hi
    have h0 : i ∈ ids d0.groups := by
      show i ∈ ids (firstGroups ++ addPhase 5 c.groups)
      rw [ids, List.map_append]
      exact List.mem_append.2 (Or.inl hi)
    have h1 := hkeep i h0
    refine ⟨hinl i h1.1, (hst i h1.1).trans (h1.2.trans ?_)⟩
    show nameOf (firstGroups ++ addPhase 5 c.groups) i = _
    unfold nameOf
    obtain ⟨x, hx, rfl⟩ := mem_ids hi
    rw [List.find?_append]
    cases hfi : firstGroups.find? (fun y => decide (y.id = x.id)) with
    | none => exact absurd (List.find?_eq_none.1 hfi x hx) (by simp)
    | some y => rfl
  have hgwname : nameOf gs gw = ".casual.gateway" := by
    have := nameOf_mem hidsN (g := ({ id := gw, name := ".casual.gateway", deps := dm.groups.map (·.id) } : Grp))
      (List.mem_append.2 (Or.inr List.mem_cons_self))
    exact this
  have hn1 := hsysI 1 (by decide +kernel)
  have hn00 := hsysI 0 (by decide +kernel)
  have hn2 := hsysI 2 (by decide +kernel)
  have hn3 := hsysI 3 (by decide +kernel)
  have hn4 := hsysI 4 (by decide +kernel)
  rw [show nameOf firstGroups 1 = ".casual.master" by decide +kernel] at hn1
  rw [show nameOf firstGroups 0 = ".casual.core" by decide +kernel] at hn00
  rw [show nameOf firstGroups 2 = ".casual.transaction" by decide +kernel] at hn2
  rw [show nameOf firstGroups 3 = ".casual.queue" by decide +kernel] at hn3
  rw [show nameOf firstGroups 4 = ".global" by decide +kernel] at hn4
  have hSysg : ∀ ss es : List Proc, Sys { d with servers := ss, executables := es } := fun ss es =>
    ⟨hn1, hn00, hn2, hn3, ⟨hgwin, hgwname⟩, 4, hn4⟩
  have hsn := sys_names (hWg [] [] (fun p hp => by cases hp) (fun p hp => by cases hp)) (hSysg [] [])
  have hcn : ∀ n ∈ c.groups.map (·.name), n ∈ names gs := by
    intro n hn
    rw [names, List.map_append]
    exact List.mem_append.2 (Or.inl ((hnmem n).2 (Or.inr hn)))
  obtain ⟨ss, s1, s2, s3, s4⟩ := makeProcs_some hidsN c.servers (fun e he n hn => by
    rcases hS.servers e he n hn with h | h
    · exact hcn n h
    · rw [h]; exact hsn _ (by decide +kernel)) (hsn _ (by decide +kernel))
  obtain ⟨es, e1, e2, e3, e4⟩ := makeProcs_some hidsN c.executables (fun e he n hn => by
    rcases hS.executables e he n hn with h | h
    · exact hcn n h
    · exact hsn _ h) (hsn _ (by decide +kernel))
  let ss' := own "casual-domain-manager" 1 :: ss ++ [own "casual-domain-discovery" 0,
    own "casual-service-manager" 1, own "casual-transaction-manager" 2, own "casual-queue-manager" 3, own "casual-gateway-manager" gw]
  have hss' : ∀ p ∈ ss', ∀ i ∈ p.groups, i ∈ ids gs := by
    intro p hp i hi
    rcases List.mem_append.1 hp with hp | hp
    · rcases List.mem_cons.1 hp with rfl | hp
      · rw [List.mem_singleton.1 hi]; exact hn1.1
      · exact s3 p hp i hi
    · simp only [List.mem_cons, List.not_mem_nil, or_false] at hp
      rcases hp with rfl | rfl | rfl | rfl | rfl <;> rw [List.mem_singleton.1 hi]
      · exact hn00.1
      · exact hn1.1
      · exact hn2.1
      · exact hn3.1
      · exact hgwin
  have hboot : boot c = some { d with servers := ss', executables := es } := by
    unfold boot
    rw [hbg]
    dsimp only
    rw [s1, e1]
    dsimp only
    rw [huser]
  have hWf := hWg ss' es hss' e3
  have hSf := hSysg ss' es
  -- the view
  have hvs : (view { d with servers := ss', executables := es }).servers =
      ({ alias := "casual-domain-manager", filename := "casual-domain-manager", restart := true, memberships := [".casual.master"] } : Entity) ::
        c.servers.map withGlobal ++ ownShown.tail := by
    show ss'.map (showProc gs) = _
    rw [← s2]
    simp only [ss', List.map_append, List.map_cons, List.map_nil, own, showProc, hn1.2, hn00.2, hn2.2, hn3.2, hgwname, ownShown,
      List.tail_cons]
  have hve : (view { d with servers := ss', executables := es }).executables = c.executables.map withGlobal := e2
  have hmemS : ∀ e, e ∈ (view { d with servers := ss', executables := es }).servers ↔ e ∈ ownShown ∨ e ∈ c.servers.map withGlobal := by
    intro e
    rw [hvs]
    simp only [ownShown, List.mem_append, List.mem_cons, List.tail_cons]
    constructor
    · rintro ((h | h) | h)
      · exact Or.inl (Or.inl h)
      · exact Or.inr h
      · exact Or.inl (Or.inr h)
    · rintro ((h | h) | h)
      · exact Or.inl (Or.inl h)
      · exact Or.inr h
      · exact Or.inl (Or.inr h)
  have hownU : ∀ e ∈ ownShown, userE e = false ∧ e.alias ∈ ownAliases ∧ e.memberships ≠ [] := by decide +kernel
  have hal : (c.servers.map withGlobal).map (·.alias) = c.servers.map (·.alias) := by
    rw [List.map_map]; exact List.map_congr_left fun e _ => withGlobal_alias e
  have hael : (c.executables.map withGlobal).map (·.alias) = c.executables.map (·.alias) := by
    rw [List.map_map]; exact List.map_congr_left fun e _ => withGlobal_alias e
  have hInv : Inv { d with servers := ss', executables := es } := by
    refine ⟨hWf, hSf, ?_, ?_, ?_, ?_, ?_, rfl, rfl⟩
    · rw [hvs, List.map_append, List.map_cons, hal, List.cons_append, List.nodup_cons, List.nodup_append, List.mem_append]
      refine ⟨?_, hS.serversN, by decide +kernel, ?_⟩
      · rintro (hx | hx)
        · obtain ⟨e, he, ea⟩ := List.mem_map.1 hx
          exact hS.notOwn e he (by rw [ea]; decide +kernel)
        · revert hx; decide +kernel
      · intro a ha b hb e
        subst e
        obtain ⟨e, he, rfl⟩ := List.mem_map.1 ha
        have hsub : ∀ a ∈ ownShown.tail.map (·.alias), a ∈ ownAliases := by decide +kernel
        exact hS.notOwn e he (hsub _ hb)
    · rw [hve, hael]; exact hS.executablesN
    · intro e he hu
      rcases (hmemS e).1 he with he | he
      · exact (hownU e he).2.1
      · obtain ⟨y, hy, rfl⟩ := List.mem_map.1 he
        rw [userE_fix hS hy] at hu
        cases hu
    · intro e he
      rcases (hmemS e).1 he with he | he
      · exact (hownU e he).2.2
      · obtain ⟨y, -, rfl⟩ := List.mem_map.1 he
        exact withGlobal_ne y
    · intro e he
      rw [hve] at he
      obtain ⟨y, -, rfl⟩ := List.mem_map.1 he
      exact withGlobal_ne y
  refine ⟨_, hboot, hInv, ?_⟩
  rw [get_eq hWf hSf]
  -- what is seen
  have hN1 : ((c.servers.map withGlobal).map (·.alias)).Nodup := by rw [hal]; exact hS.serversN
  have hvgs : (view { d with servers := ss', executables := es }).groups.filter (fun g => !dotted g.name) =
      (puts (·.name) c.groups (view d0).groups).filter fun g => !dotted g.name := by
    show (gs.map (showGroup gs)).filter _ = _
    rw [List.map_append, List.filter_append, ← hvg]
    have : ([({ id := gw, name := ".casual.gateway", deps := dm.groups.map (·.id) } : Grp)].map (showGroup gs)).filter
        (fun g => !dotted g.name) = [] := by
      rw [List.filter_eq_nil_iff]
      intro g hg
      rw [List.map_cons, List.map_nil, List.mem_singleton] at hg
      subst hg
      have : dotted ".casual.gateway" = true := by decide +kernel
      simp [showGroup, this]
    rw [this, List.append_nil]
    congr 1
    show dm.groups.map (showGroup gs) = dm.groups.map (showGroup dm.groups)
    exact List.map_congr_left fun g hg => showGroup_stable hst (m2.deps g hg)
  refine ⟨?_, ?_, ?_⟩
  · show (List.filter _ _).Perm c.groups
    rw [hvgs]
    have hk : (puts (fun g : DGroup => g.name) c.groups (view d0).groups).map (·.name) = names d0.groups := by
      rw [keys_puts]
      unfold view names; dsimp only; rw [List.map_map]; rfl
    refine perm_of_mem (List.filter_sublist.nodup (nodup_of_keys (f := fun g : DGroup => g.name) ?_)) (nodup_of_keys hS.groupsN) ?_
    · rw [hk]; exact hW0.namesN
    · intro x
      have hk0 : (view d0).groups.map (fun g : DGroup => g.name) = names d0.groups := by
        unfold view names; dsimp only; rw [List.map_map]; rfl
      rw [List.mem_filter, mem_puts _ _ _ hS.groupsN, hk0, hn0]
      constructor
      · rintro ⟨⟨h1, h2⟩ | ⟨h1, -⟩, h3⟩
        · exfalso
          have hx : x.name ∈ names d0.groups := hk0 ▸ List.mem_map_of_mem (f := fun g : DGroup => g.name) h1
          rw [hn0] at hx
          rcases List.mem_append.1 hx with hx | hx
          · obtain ⟨g, hg, e⟩ := List.mem_map.1 hx
            have h4 := firstNames_dotted g hg
            rw [e] at h4
            rw [h4] at h3
            cases h3
          · obtain ⟨g, hg, e⟩ := List.mem_map.1 hx
            exact h2 g hg e
        · exact h1
      · intro hx
        exact ⟨Or.inr ⟨hx, List.mem_append.2 (Or.inr (List.mem_map_of_mem (f := fun g : DGroup => g.name) hx))⟩, by rw [hS.plain x hx]; rfl⟩
  · show (List.filter _ _).Perm (c.servers.map withGlobal)
    refine perm_of_mem (List.filter_sublist.nodup (nodup_of_keys hInv.srvN)) (nodup_of_keys hN1) ?_
    intro x
    rw [List.mem_filter, hmemS]
    constructor
    · rintro ⟨h1 | h1, h2⟩
      · rw [(hownU x h1).1] at h2; cases h2
      · exact h1
    · intro hx
      refine ⟨Or.inr hx, ?_⟩
      obtain ⟨y, hy, rfl⟩ := List.mem_map.1 hx
      exact userE_fix hS hy
  · show (List.filter _ _).Perm (c.executables.map withGlobal)
    rw [hve, List.filter_eq_self.2 fun _ _ => rfl]

end Casual.DPost

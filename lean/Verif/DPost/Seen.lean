import Verif.DPost.Steps
/-
  What is seen of a domain, and when a configuration fits.
-/
namespace Casual.DPost

open Casual.ConfModel (DGroup Entity)
open Casual.Config (Change calculate inj_of_nodup mem_added mem_modified mem_removed)

/-- The groups of the domain itself; servers in them are not seen. -/
def sysNames : List String := [".casual.master", ".casual.core", ".casual.transaction", ".casual.queue", ".casual.gateway"]

/-- And the group that processes are members of if they are not members of any. -/
def sysAll : List String := ".global" :: sysNames

/-- The domain's own servers. -/
def ownAliases : List String := ["casual-domain-manager", "casual-domain-discovery", "casual-service-manager",
  "casual-transaction-manager", "casual-queue-manager", "casual-gateway-manager"]

/-- A server that is seen: not in any of the domain's own groups. -/
def userE (e : Entity) : Bool := !(e.memberships.any fun n => decide (n ∈ sysNames))

/-- A configuration that makes sense on its own: names and aliases are unique, no name begins with `.`, what
is referred to is there, servers are not in the domain's own groups and are not called as its own
servers. -/
structure Sound (w : Conf) : Prop where
  groupsN : (w.groups.map (·.name)).Nodup
  plain : ∀ g ∈ w.groups, dotted g.name = false
  deps : ∀ g ∈ w.groups, ∀ n ∈ g.dependencies, n ∈ w.groups.map (·.name) ∨ n ∈ sysAll
  serversN : (w.servers.map (·.alias)).Nodup
  executablesN : (w.executables.map (·.alias)).Nodup
  servers : ∀ e ∈ w.servers, ∀ n ∈ e.memberships, n ∈ w.groups.map (·.name) ∨ n = ".global"
  executables : ∀ e ∈ w.executables, ∀ n ∈ e.memberships, n ∈ w.groups.map (·.name) ∨ n ∈ sysAll
  notOwn : ∀ e ∈ w.servers, e.alias ∉ ownAliases

/-- Each group comes after the ones it depends on, unless they are there already. -/
def Ordered (before : List String) (w : List DGroup) : Prop :=
  ∀ (xs : List DGroup) (g : DGroup) (ys : List DGroup), w = xs ++ g :: ys →
    ∀ n ∈ g.dependencies, n ∈ xs.map (·.name) ∨ n ∈ before ∨ n ∈ sysAll

/-- The domain's own groups are where they were. -/
structure Sys (d : Dom) : Prop where
  master : 1 ∈ ids d.groups ∧ nameOf d.groups 1 = ".casual.master"
  core : 0 ∈ ids d.groups ∧ nameOf d.groups 0 = ".casual.core"
  transaction : 2 ∈ ids d.groups ∧ nameOf d.groups 2 = ".casual.transaction"
  queue : 3 ∈ ids d.groups ∧ nameOf d.groups 3 = ".casual.queue"
  gateway : d.gateway ∈ ids d.groups ∧ nameOf d.groups d.gateway = ".casual.gateway"
  glob : ∃ i ∈ ids d.groups, nameOf d.groups i = ".global"

/-- What holds of a domain that has nothing to do. -/
structure Inv (d : Dom) : Prop where
  w : W d
  sys : Sys d
  srvN : ((view d).servers.map (·.alias)).Nodup
  exeN : ((view d).executables.map (·.alias)).Nodup
  own : ∀ e ∈ (view d).servers, userE e = false → e.alias ∈ ownAliases
  srvM : ∀ e ∈ (view d).servers, e.memberships ≠ []
  exeM : ∀ e ∈ (view d).executables, e.memberships ≠ []
  tasks : d.tasks = []
  failed : d.failed = false

theorem sysAll_dotted : ∀ n ∈ sysAll, dotted n = true := by decide +kernel

theorem sysNames_dotted : ∀ n ∈ sysNames, dotted n = true := fun n h => sysAll_dotted n (List.mem_cons_of_mem _ h)

/-- If the names do not begin with `.` the domain's own groups stay. -/
theorem sys_keeps {ns : List String} {d d' : Dom} (hk : Keeps ns d d') (hn : ∀ n ∈ ns, dotted n = false) (hg : d'.gateway = d.gateway)
    (h : Sys d) : Sys d' := by
  have key : ∀ i n, n ∈ sysAll → i ∈ ids d.groups ∧ nameOf d.groups i = n → i ∈ ids d'.groups ∧ nameOf d'.groups i = n := by
    intro i n hs hi
    have := hk i hi.1 (by
      rw [hi.2]
      intro hm
      have := hn n hm
      rw [sysAll_dotted n hs] at this
      cases this)
    exact ⟨this.1, this.2.trans hi.2⟩
  refine ⟨key _ _ (by decide +kernel) h.master, key _ _ (by decide +kernel) h.core, key _ _ (by decide +kernel) h.transaction,
    key _ _ (by decide +kernel) h.queue, ?_, ?_⟩
  · rw [hg]; exact key _ _ (by decide +kernel) h.gateway
  · obtain ⟨i, hi⟩ := h.glob
    exact ⟨i, key _ _ (by decide +kernel) hi⟩

theorem sys_names {d : Dom} (hw : W d) (h : Sys d) : ∀ n ∈ sysAll, n ∈ names d.groups := by
  have key : ∀ i n, i ∈ ids d.groups ∧ nameOf d.groups i = n → n ∈ names d.groups :=
    fun i n hi => hi.2 ▸ nameOf_names hw.idsN hi.1
  intro n hn
  simp only [sysAll, sysNames, List.mem_cons, List.not_mem_nil, or_false] at hn
  rcases hn with rfl | rfl | rfl | rfl | rfl | rfl
  · obtain ⟨i, hi⟩ := h.glob; exact key i _ hi
  · exact key _ _ h.master
  · exact key _ _ h.core
  · exact key _ _ h.transaction
  · exact key _ _ h.queue
  · exact key _ _ h.gateway

theorem reserved_iff {d : Dom} (hw : W d) (h : Sys d) {i : Nat} (hi : i ∈ ids d.groups) :
    i ∈ d.reservedIds ↔ nameOf d.groups i ∈ sysNames := by
  have inj : ∀ {j n}, j ∈ ids d.groups ∧ nameOf d.groups j = n → (i = j ↔ nameOf d.groups i = n) := by
    intro j n hj
    constructor
    · rintro rfl; exact hj.2
    · intro e; exact nameOf_inj hw.idsN hw.namesN hi hj.1 (e.trans hj.2.symm)
  simp only [Dom.reservedIds, sysNames, List.mem_cons, List.not_mem_nil, or_false]
  rw [inj h.master, inj h.core, inj h.transaction, inj h.queue, inj h.gateway]

/-- What `get` tells is what is seen of the whole. -/
theorem get_eq {d : Dom} (hw : W d) (h : Sys d) : get d =
    { groups := (view d).groups.filter fun g => !dotted g.name
      servers := (view d).servers.filter userE
      executables := (view d).executables.filter fun _ => true } := by
  unfold get view
  congr 1
  · dsimp only
    rw [List.filter_map]
    rfl
  · dsimp only
    rw [List.filter_map]
    congr 1
    refine List.filter_congr fun p hp => ?_
    simp only [Function.comp, userE, showProc, List.any_map]
    congr 1
    rw [Bool.eq_iff_iff, List.any_eq_true, List.any_eq_true]
    constructor
    · rintro ⟨i, hi, hr⟩
      exact ⟨i, hi, by simpa using (reserved_iff hw h (hw.srv p hp i hi)).1 (by simpa using hr)⟩
    · rintro ⟨i, hi, hr⟩
      refine ⟨i, hi, ?_⟩
      have := (reserved_iff hw h (hw.srv p hp i hi)).2 (by simpa using hr)
      simpa using this
  · dsimp only
    rw [List.filter_eq_self.2 fun _ _ => rfl]

end Casual.DPost

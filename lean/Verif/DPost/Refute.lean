import Verif.DPost.Model
/-
  What does not hold of configurations that are posted.
-/
namespace Casual.DPost

/-- A domain without anything. -/
def bare : Dom := (boot {}).getD { groups := [], servers := [], executables := [], gateway := 0, next := 0 }

theorem bare_boot : boot {} = some bare := by decide +kernel

/-- Two groups, the first depends on the second. -/
def backwards : Conf := { groups := [{ name := "b", dependencies := ["a"] }, { name := "a" }] }

/-- **C218** (refuted): a domain boots with the configuration, and a domain that runs refuses it: groups
that are added can only depend on those before them. -/
theorem boots_posts_refuted : (boot backwards).isSome = true ∧ (post bare backwards).2 = false := by decide +kernel

/-- **C219** (refuted): and what was there is changed although the configuration was refused: the group
that was to be removed is gone, and the server is not a member of any group. -/
theorem refused_effect_refuted : ∃ d, boot { groups := [{ name := "c" }], servers := [{ alias := "s", memberships := ["c"] }] } = some d ∧
    let r := post d backwards
    r.2 = false ∧ (get d).servers.map (·.memberships) = [["c"]] ∧ (get d).groups.map (·.name) = ["c"] ∧
    (get r.1).servers.map (·.memberships) = [[]] ∧ (get r.1).groups = [] ∧ r.1.tasks = [] := by
  refine ⟨_, by rfl, ?_⟩
  decide +kernel

/-- A server in a group that is not there. -/
def unknownGroup : Conf := { servers := [{ alias := "s", memberships := ["nope"] }] }

/-- **C220** (refuted): no domain boots with the configuration, but a domain that runs accepts it - and
when the server is to be added the whole domain goes down. -/
theorem stays_up_refuted : boot unknownGroup = none ∧ (post bare unknownGroup).2 = true ∧
    (settle (post bare unknownGroup).1).failed = true := by decide +kernel

/-- A group and a server in it. -/
def one : Conf := { groups := [{ name := "a" }], servers := [{ alias := "s", memberships := ["a"] }] }

/-- **C221** (refuted): two posts, each of them of a configuration that a domain can boot with and that can be
posted alone; the second comes before the first is done, and the domain goes down. -/
theorem overlapping_refuted : (boot one).isSome = true ∧
    (settle (post bare one).1).failed = false ∧
    (settle (post (settle (post bare one).1) {}).1).failed = false ∧
    (post (post bare one).1 {}).2 = true ∧
    (settle (post (post bare one).1 {}).1).failed = true := by decide +kernel

/-- **C222** (refuted): a group is removed but a server that is not changed is still said to be a member.
No domain boots with that configuration, but it is accepted and the server is a member of no
group at all. -/
theorem dangling_refuted : ∃ d, boot one = some d ∧
    let wanted : Conf := { one with groups := [] }
    boot wanted = none ∧ (post d wanted).2 = true ∧ (settle (post d wanted).1).failed = false ∧
    (get (settle (post d wanted).1)).servers.map (·.memberships) = [[]] := by
  refine ⟨_, by rfl, ?_⟩
  decide +kernel

/-- And the same for a group that depends on one that is removed. -/
theorem dangling_group_refuted : ∃ d, boot { groups := [{ name := "a" }, { name := "b", dependencies := ["a"] }] } = some d ∧
    let wanted : Conf := { groups := [{ name := "b", dependencies := ["a"] }] }
    boot wanted = none ∧ (post d wanted).2 = true ∧
    (get (settle (post d wanted).1)).groups = [{ name := "b" }] := by
  refine ⟨_, by rfl, ?_⟩
  decide +kernel

/-- The groups that the gateway's group depends on. -/
def gatewayAfter (d : Dom) : List String :=
  ((d.groups.find? fun g => decide (g.id = d.gateway)).map fun g => g.deps.map (nameOf d.groups)).getD []

/-- **C223** (refuted): the gateway comes after every group of the configuration when a domain boots with it,
but not if the group is posted. -/
theorem gateway_last_refuted : ((boot one).map gatewayAfter).getD [] =
      [".casual.core", ".casual.master", ".casual.transaction", ".casual.queue", ".global", "a"] ∧
    (get (settle (post bare one).1)).groups.map (·.name) = ["a"] ∧
    "a" ∉ gatewayAfter (settle (post bare one).1) := by decide +kernel

/-- **C217** (refuted in general): a group with a name that begins with `.` is not seen, and so it is added
again each time it is posted. -/
theorem hidden_group_refuted : let c : Conf := { groups := [{ name := ".x" }] }
    let d := settle (post bare c).1
    (get d).groups = [] ∧ (d.groups.filter fun g => g.name = ".x").length = 1 ∧
    ((settle (post d c).1).groups.filter fun g => g.name = ".x").length = 2 := by decide +kernel

/-- **C217** (refuted in general): and a server in one of the domain's own groups is there once more each time. -/
theorem hidden_server_refuted : let c : Conf := { servers := [{ alias := "s", memberships := [".casual.queue"] }] }
    let d := settle (post bare c).1
    (get d).servers = [] ∧ (d.servers.filter fun p => p.settings.alias = "s").length = 1 ∧
    ((settle (post d c).1).servers.filter fun p => p.settings.alias = "s").length = 2 := by decide +kernel

end Casual.DPost

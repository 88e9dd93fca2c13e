import Verif.DManager.Boot

/-! The sequence of a boot. -/
namespace Casual.DManager

/-- When a process of a batch is spawned in a boot, every server process that has been spawned for
an earlier batch has connected or has exited.  (As long as nobody asks to scale or to shut down,
and no second process of a singleton has connected.) -/
theorem boot_waits_for_earlier (lib : Lib) (hz : ∀ n, lib.spawn n ≠ some 0) (hs : StableSort lib.sort) (u : Setup)
    (hu : (u.entities.map (·.id)).Nodup) (ht : ∀ e ∈ u.entities, ∀ i ∈ e.instances, i.handle.pid = 0 → i.handle = {})
    (is : List Input) (hc : ∀ i ∈ is, i.calm = true) {l1 l2 : List Item} {e : EId} {pid : Pid}
    (hl : ((State.start lib u).run lib is).st.log = l1 ++ .spawned e pid :: l2)
    (hb : .bootDone ∉ l1) (hd : ∀ h x, .denied h x ∉ l1)
    {i j : Nat} {e' : EId} (hij : i < j) (hi : At (u.bootBatches lib) i e') (hj : At (u.bootBatches lib) j e)
    (hk : e'.kind = .server) {a b : List Item} {p : Pid} (hp : l1 = a ++ .spawned e' p :: b) :
    .inp (.exit p) ∈ b ∨ ∃ h x w, .admitted h x w ∈ b ∧ h.pid = p := by
  have h := (booting_run hz (apart_boot hs hu) is _ hc (start_booting hz hs hu ht)).always l1 _ l2 hl
  rcases h with (h | ⟨h', x, h⟩) | h
  · exact absurd h hb
  · exact absurd h (hd h' x)
  · exact h e' ⟨i, j, hij, hi, hj⟩ hk a p b hp

/-- The same, by the dependencies: when a process is spawned in a boot, the server processes it
needs are up (or gone).  Partial: the groups have to be listed after those they depend on. -/
theorem boot_waits_for_dependencies_partial (lib : Lib) (hz : ∀ n, lib.spawn n ≠ some 0) (hs : StableSort lib.sort) (u : Setup)
    (hu : (u.entities.map (·.id)).Nodup) (ht : ∀ e ∈ u.entities, ∀ i ∈ e.instances, i.handle.pid = 0 → i.handle = {})
    (hg : DependenciesFirst u.groups [])
    (is : List Input) (hc : ∀ i ∈ is, i.calm = true) {l1 l2 : List Item} {e e' : Entity} {pid : Pid}
    (hl : ((State.start lib u).run lib is).st.log = l1 ++ .spawned e.id pid :: l2)
    (hb : .bootDone ∉ l1) (hd : ∀ h x, .denied h x ∉ l1)
    (he : e ∈ u.entities) (he' : e' ∈ u.entities)
    (hn : ∀ h ∈ e'.memberships, ∃ g ∈ e.memberships, Needs u.groups g h)
    (hi : ∃ i, At (u.bootBatches lib) i e'.id) (hj : ∃ j, At (u.bootBatches lib) j e.id)
    (hk : e'.id.kind = .server) {a b : List Item} {p : Pid} (hp : l1 = a ++ .spawned e'.id p :: b) :
    .inp (.exit p) ∈ b ∨ ∃ h x w, .admitted h x w ∈ b ∧ h.pid = p := by
  obtain ⟨i, hi⟩ := hi
  obtain ⟨j, hj⟩ := hj
  have hm : ((u.entities.map fun e => (⟨e.id, e.memberships⟩ : Member)).map (·.id)).Nodup := by
    simpa [List.map_map, Function.comp_def] using hu
  have hij : i < j := boot_after_dependencies_partial hs hg (manager := u.manager)
    (ms := u.entities.map fun e : Entity => (⟨e.id, e.memberships⟩ : Member)) hm
    (e := ⟨e.id, e.memberships⟩) (f := ⟨e'.id, e'.memberships⟩)
    (List.mem_map.2 ⟨e, he, rfl⟩) (List.mem_map.2 ⟨e', he', rfl⟩) hn hj hi
  exact boot_waits_for_earlier lib hz hs u hu ht is hc hl hb hd hij hi hj hk hp

/-- A boot of two batches: the second is spawned when both processes of the first have connected. -/
example : (demoRun [demoServer 1 6 false 2, demoServer 2 7 false 1]
      [.own, .connect ⟨100, 1100⟩ 0 false, .connect ⟨101, 1101⟩ 0 false]).st.log =
    [.spawned ⟨.server, 1⟩ 100, .spawned ⟨.server, 1⟩ 101, .inp .own,
      .inp (.connect ⟨100, 1100⟩ 0 false), .admitted ⟨100, 1100⟩ 0 false, .approved ⟨100, 1100⟩ 0,
      .inp (.connect ⟨101, 1101⟩ 0 false), .admitted ⟨101, 1101⟩ 0 false, .scaled [⟨.server, 1⟩], .spawned ⟨.server, 2⟩ 102,
      .approved ⟨101, 1101⟩ 0] := by decide +kernel

example : (demoSetup [demoServer 1 6 false 2, demoServer 2 7 false 1]).bootBatches demoLib =
    [⟨6, [⟨.server, 1⟩]⟩, ⟨7, [⟨.server, 2⟩]⟩] ∧
    ((demoSetup [demoServer 1 6 false 2, demoServer 2 7 false 1]).entities.map (·.id)).Nodup ∧
    (∀ e ∈ (demoSetup [demoServer 1 6 false 2, demoServer 2 7 false 1]).entities, ∀ i ∈ e.instances,
      i.handle.pid = 0 → i.handle = {}) ∧
    (∀ n, demoLib.spawn n ≠ some 0) ∧ StableSort demoLib.sort :=
  ⟨by decide +kernel, by decide +kernel, by decide +kernel, fun n h => by
    simp [demoLib] at h, libstdcxxSort_stable⟩

end Casual.DManager

import Verif.DManager.BootDone
import Verif.DManager.Demo

/-! The end of a boot. -/
namespace Casual.DManager

/-- A boot ends: `bootDone` comes as soon as every server process that has been spawned has
connected or has exited.  Otherwise a process has been denied, or a process of an entity that is
to be restarted has exited.  (As long as nobody asks to scale or to shut down.) -/
theorem boot_completes_partial (lib : Lib) (hs : StableSort lib.sort) (u : Setup) (hu : u.Proper) (hc : u.Clean)
    (is : List Input) (hi : ∀ i ∈ is, i.calm = true ∧ i.notOf u.self.pid)
    (hp : UniquePids u.self.pid ((State.start lib u).run lib is).st.log) :
    .bootDone ∈ ((State.start lib u).run lib is).st.log ∨
    (∃ h x, .denied h x ∈ ((State.start lib u).run lib is).st.log) ∨
    (∃ e p a b, ((State.start lib u).run lib is).st.log = a ++ .spawned e p :: b ∧ .inp (.exit p) ∈ b ∧
      ∃ x ∈ u.entities, x.id = e ∧ x.restart = true) ∨
    (∃ e p a b, ((State.start lib u).run lib is).st.log = a ++ .spawned e p :: b ∧ e.kind = .server ∧ ¬ Met b p) := by
  obtain ⟨tl, ⟨h, _⟩ | ⟨pre, b, post, g, gs, h1, _, _, _, h5, h6⟩⟩ :=
    bootgo_run (lib := lib) (apart_boot hs hu.1) (boot_notMe hs) is _ hi (start_bootgo hs hu hc)
  · rcases h with h | h
    · exact Or.inl h
    · exact Or.inr (Or.inl h)
  · right; right
    have hg := h5.2 hp
    have hO := (sinv_run hs is _ (fun i h => (hi i h).2) (start_sinv hs hu)).1
    generalize hS : (State.start lib u).run lib is = s at *
    by_cases hlost : Lost u.restarts s.st.log
    · left
      obtain ⟨e, p, a, b, q1, q2, q3⟩ := hlost
      exact ⟨e, p, a, b, q1, q2, q3⟩
    · right
      unfold Core.settled at h6
      obtain ⟨id, hid, hx⟩ := List.all_eq_false.1 h6
      cases hf : s.st.find id with
      | none => simp [hf] at hx
      | some x =>
        simp only [hf] at hx
        have hxm : x ∈ s.st.entities := find_mem hf
        have hxi : x.id = id := find_id hf
        have hne : x.id ≠ u.manager := by
          rw [hxi]
          intro he
          exact boot_notMe hs b (by rw [h1]; simp) (he ▸ hid)
        have hin : x.id ∈ members (pre ++ [b]) := by
          rw [hxi]
          exact List.mem_flatMap.2 ⟨b, by simp, hid⟩
        have hx' : x.settled = false := by simpa using hx
        unfold Entity.settled at hx'
        obtain ⟨i, hii, hst⟩ := List.all_eq_false.1 hx'
        rcases hg.going x hxm hne hin i hii with ⟨h7, h8⟩ | ⟨h7, h8⟩
        · have h9 : i.handle.pid ≠ 0 := h8.resolve_right hlost
          have key : x.id.kind = .server ∧ i.handle.ipc = 0 := by
            cases hk : x.id.kind with
            | executable => simp [Inst.state, h7, hk, h9] at hst
            | server =>
              refine ⟨rfl, ?_⟩
              refine Classical.byContradiction fun hz => ?_
              simp [Inst.state, h7, hk, h9, hz, Handle.ok] at hst
          rcases h5.1.held hp x hxm i hii h9 with q | ⟨a, b', q1, q2⟩
          · exfalso
            rcases hO.ent x hxm hne i hii with r | ⟨e, r⟩
            · exact h9 r
            · obtain ⟨a, b', r⟩ := List.append_of_mem r
              exact (hp a _ b' r).2.1 q
          · refine ⟨x.id, i.handle.pid, a, b', q1, key.1, ?_⟩
            rintro (q | ⟨hh, y, w, q3, q4⟩)
            · exact q2 q
            · exact hg.wait x hxm hne i hii h9 key.2 key.1 a b' q1 q2 hh y w q3 q4
        · simp only [Inst.state, h8] at hst
          cases hw : i.wanted <;> cases hk : x.id.kind <;> simp [hw, hk, Handle.ok] at hst h7

/-- Every process that has been spawned for a server has connected, and no process has exited or
been denied: the boot is done. -/
theorem boot_completes (lib : Lib) (hs : StableSort lib.sort) (u : Setup) (hu : u.Proper) (hc : u.Clean)
    (is : List Input) (hi : ∀ i ∈ is, i.calm = true ∧ i.notOf u.self.pid)
    (hp : UniquePids u.self.pid ((State.start lib u).run lib is).st.log)
    (hd : ∀ h x, .denied h x ∉ ((State.start lib u).run lib is).st.log)
    (hx : ∀ p, .inp (.exit p) ∉ ((State.start lib u).run lib is).st.log)
    (ha : ∀ e p a b, ((State.start lib u).run lib is).st.log = a ++ .spawned e p :: b → e.kind = .server →
      ∃ h x w, .admitted h x w ∈ b ∧ h.pid = p) :
    .bootDone ∈ ((State.start lib u).run lib is).st.log := by
  rcases boot_completes_partial lib hs u hu hc is hi hp with h | ⟨h, x, h1⟩ | ⟨e, p, a, b, h1, h2, _⟩ | ⟨e, p, a, b, h1, h2, h3⟩
  · exact h
  · exact absurd h1 (hd h x)
  · exact absurd (by rw [h1]; exact List.mem_append_right _ (List.mem_cons_of_mem _ h2)) (hx p)
  · exact absurd (Or.inr (ha e p a b h1 h2)) h3

/-- Stronger: a boot always ends when every server process has connected or has exited. -/
def BootEnds : Prop := ∀ (lib : Lib) (_ : StableSort lib.sort) (u : Setup) (_ : u.Proper) (_ : u.Clean)
    (is : List Input) (_ : ∀ i ∈ is, i.calm = true ∧ i.notOf u.self.pid)
    (_ : UniquePids u.self.pid ((State.start lib u).run lib is).st.log)
    (_ : ∀ e p a b, ((State.start lib u).run lib is).st.log = a ++ .spawned e p :: b → e.kind = .server → Met b p),
    .bootDone ∈ ((State.start lib u).run lib is).st.log

/-- It does not: a process of an entity that is to be restarted exits before it has connected.  It is
not spawned again in a boot, and the boot waits for it. -/
theorem boot_ends_refuted : ¬ BootEnds := by
  intro h
  have := h demoLib libstdcxxSort_stable (demoSetup [demoServer 1 6 true 1]) ⟨by decide +kernel, by decide +kernel⟩
    ⟨by decide +kernel, by
      intro e he hm
      refine ⟨1, ?_⟩
      revert e
      decide +kernel⟩ [.own, .exit 100, .own] (by
        intro i hi
        rcases List.mem_cons.1 hi with rfl | hi
        · exact ⟨rfl, trivial⟩
        · rcases List.mem_cons.1 hi with rfl | hi
          · exact ⟨rfl, by show (100 : Nat) ≠ 1; decide⟩
          · rcases List.mem_cons.1 hi with rfl | hi
            · exact ⟨rfl, trivial⟩
            · cases hi)
  have hlog : ((State.start demoLib (demoSetup [demoServer 1 6 true 1])).run demoLib [.own, .exit 100, .own]).st.log =
      [.spawned ⟨.server, 1⟩ 100, .inp .own, .inp (.exit 100), .inp .own] := by decide +kernel
  rw [hlog] at this
  refine absurd (this ?_ ?_) (by decide)
  · intro a x b hab
    match a, hab with
    | [], hab =>
      cases hab
      refine ⟨by decide, by decide, ?_⟩
      rintro e ⟨a, b, h1, _⟩
      simp at h1
    | [_], hab => cases hab; trivial
    | [_, _], hab => cases hab; trivial
    | [_, _, _], hab => cases hab; trivial
    | _ :: _ :: _ :: _ :: a, hab => simp at hab
  · intro e p a b hab _
    match a, hab with
    | [], hab => cases hab; exact Or.inl (by decide)
    | [_], hab => cases hab
    | [_, _], hab => cases hab
    | [_, _, _], hab => cases hab
    | _ :: _ :: _ :: _ :: a, hab => simp at hab

/-- A boot of two batches that ends. -/
example : (demoRun [demoServer 1 6 false 1, demoServer 2 7 false 1]
      [.own, .connect ⟨100, 1100⟩ 0 false, .own, .exit 101]).st.log =
    [.spawned ⟨.server, 1⟩ 100, .inp .own, .inp (.connect ⟨100, 1100⟩ 0 false), .admitted ⟨100, 1100⟩ 0 false,
      .scaled [⟨.server, 1⟩], .spawned ⟨.server, 2⟩ 101, .approved ⟨100, 1100⟩ 0, .inp .own, .inp (.exit 101),
      .scaled [⟨.server, 2⟩], .bootDone] ∧ StableSort demoLib.sort ∧
    (demoSetup [demoServer 1 6 false 1, demoServer 2 7 false 1]).Proper ∧
    (demoSetup [demoServer 1 6 false 1, demoServer 2 7 false 1]).Clean :=
  ⟨by decide +kernel, libstdcxxSort_stable, ⟨by decide +kernel, by decide +kernel⟩, by decide +kernel, by
    intro e he hm
    refine ⟨1, ?_⟩
    revert e
    decide +kernel⟩

/-- The pids are those of different processes. -/
example : UniquePids 1 [.spawned ⟨.server, 1⟩ 100, .inp .own, .spawned ⟨.server, 2⟩ 101, .bootDone] := by
  intro a x b hab
  match a, hab with
  | [], hab =>
    cases hab
    refine ⟨by decide, by decide, ?_⟩
    rintro e ⟨a, b, h1, _⟩
    simp at h1
  | [_], hab => cases hab; trivial
  | [_, _], hab =>
    cases hab
    refine ⟨by decide, by decide, ?_⟩
    rintro e ⟨a, b, h1, _⟩
    match a, h1 with
    | [], h1 => cases h1
    | [_], h1 => cases h1
    | _ :: _ :: a, h1 => simp at h1
  | [_, _, _], hab => cases hab; trivial
  | _ :: _ :: _ :: _ :: a, hab => simp at hab

end Casual.DManager

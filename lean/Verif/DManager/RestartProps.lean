import Verif.DManager.ScaleProps
import Verif.DManager.DownSpec

/-! Who is stopped by a request to restart. -/
namespace Casual.DManager

open Casual.Task

/-- What a group of restarts does when it is started: the processes stay as they are, and what is
done to stop a process is done to those of the entities `ids`. -/
structure Restarting (ids : List EId) (c c' : Core) : Prop where
  same : c'.entities.map (fun e => (e.id, e.instances)) = c.entities.map (fun e => (e.id, e.instances))
  log : ∃ ext, c'.log = c.log ++ ext ∧ ∀ x ∈ ext, ∀ p, x.stops p → ∃ e ∈ c.entities, e.id ∈ ids ∧ ∃ i ∈ e.instances, i.handle.pid = p

theorem Restarting.refl (ids : List EId) (c : Core) : Restarting ids c c := ⟨rfl, [], by simp, by simp⟩

theorem stopLast_stops {c : Core} {k : Kind} {hs : List Handle} : (c.stopLast k hs).entities = c.entities ∧
    ∃ ext, (c.stopLast k hs).log = c.log ++ ext ∧ ∀ x ∈ ext, ∀ p, x.stops p → ∃ h ∈ hs, h.pid = p := by
  unfold Core.stopLast
  split
  · exact ⟨rfl, [], by simp, by simp⟩
  · rename_i h hl
    have hm : h ∈ hs := List.mem_of_getLast? hl
    split
    · unfold Core.shutdownProcs
      have : ∀ x : Item, (x = .prepare [h] ∨ x = .prepareOwn [h]) → ∀ p, x.stops p → ∃ h ∈ hs, h.pid = p := by
        rintro x (rfl | rfl) p ⟨h', h1, h2⟩
        · rw [List.mem_singleton.1 h1] at h2
          exact ⟨h, hm, h2⟩
        · rw [List.mem_singleton.1 h1] at h2
          exact ⟨h, hm, h2⟩
      split
      · split
        · exact ⟨rfl, [.prepare [h]], rfl, fun x hx => this x (Or.inl (by simpa using hx))⟩
        · exact ⟨rfl, [.prepareOwn [h]], rfl, fun x hx => this x (Or.inr (by simpa using hx))⟩
      · exact ⟨rfl, [.prepareOwn [h]], rfl, fun x hx => this x (Or.inr (by simpa using hx))⟩
    · refine ⟨rfl, [.terminate h.pid], rfl, ?_⟩
      intro x hx p hp
      have : x = .terminate h.pid := by simpa using hx
      subst this
      exact ⟨h, hm, hp⟩

theorem Restarting.act {lib : Lib} {ids : List EId} {c c' : Core} (h : Restarting ids c c') {a : Act} {b : Body}
    (ha : (∃ id ∈ ids, a = .restart id) ∨ ∃ w, a = .event w) : Restarting ids c (act lib a b c').1 := by
  obtain ⟨h1, ext, h2, h3⟩ := h
  rcases ha with ⟨id, hid, rfl⟩ | ⟨w, rfl⟩
  · unfold DManager.act
    dsimp only
    split
    · exact ⟨h1, ext, h2, h3⟩
    · rename_i e hf
      split
      · exact ⟨h1, ext, h2, h3⟩
      · obtain ⟨q1, ext', q2, q3⟩ := stopLast_stops (c := c'.modify id fun e => { e with restart := true }) (k := id.kind)
          (hs := e.instances.map (·.handle))
        refine ⟨?_, ext ++ ext', by rw [q2]; show c'.log ++ _ = _; rw [h2, List.append_assoc], ?_⟩
        · rw [← h1, q1]
          show (c'.entities.map _).map _ = _
          rw [List.map_map]
          refine List.map_congr_left ?_
          intro x _
          dsimp only [Function.comp]
          split <;> rfl
        · intro x hx p hp
          rcases List.mem_append.1 hx with hx | hx
          · exact h3 x hx p hp
          · obtain ⟨hh, q4, q5⟩ := q3 x hx p hp
            obtain ⟨i, hi, rfl⟩ := List.mem_map.1 q4
            have hmem : (e.id, e.instances) ∈ c'.entities.map (fun e => (e.id, e.instances)) :=
              List.mem_map.2 ⟨e, find_mem hf, rfl⟩
            rw [h1] at hmem
            obtain ⟨y, hy, hye⟩ := List.mem_map.1 hmem
            have hye := Prod.mk.inj hye
            exact ⟨y, hy, by rw [hye.1, find_id hf]; exact hid, i, by rw [hye.2]; exact hi, q5⟩
  · refine ⟨h1, ext ++ [.done w], by simp [DManager.act, Core.say, h2], ?_⟩
    intro x hx p hp
    rcases List.mem_append.1 hx with hx | hx
    · exact h3 x hx p hp
    · have : x = .done w := by simpa using hx
      subst this
      cases hp

theorem Restarting.group {lib : Lib} {ids : List EId} {c : Core} : ∀ {g : List Unit_} {c' : Core}, Restarting ids c c' →
    (∀ u ∈ g, ∀ a, u.action = some a → (∃ id ∈ ids, a = .restart id) ∨ ∃ w, a = .event w) →
    Restarting ids c (groupStart (ops lib) g c').1
  | [], _, h, _ => h
  | u :: us, c', h, hg => by
    have h1 : Restarting ids c (unitStart (ops lib) u c').1 := by
      unfold unitStart
      split
      · rename_i a ha
        exact h.act (hg u List.mem_cons_self a ha)
      · exact h
    have h2 := Restarting.group (lib := lib) (g := us) h1 (fun v hv => hg v (List.mem_cons_of_mem _ hv))
    unfold groupStart
    dsimp only
    split <;> exact h2

theorem Restarting.thenAll {lib : Lib} {ids : List EId} {c : Core} : ∀ (gs : List (List (Act × Body))) {s : State}, Restarting ids c s.st →
    (∀ g ∈ gs, ∀ p ∈ g, (∃ id ∈ ids, p.1 = .restart id) ∨ ∃ w, p.1 = .event w) → Restarting ids c (s.thenAll lib gs).st
  | [], _, h, _ => h
  | g :: gs, s, h, hg => by
    refine Restarting.thenAll (lib := lib) gs (s := s.step (ops lib) (.then_ g)) ?_ (fun g' hg' => hg g' (List.mem_cons_of_mem _ hg'))
    unfold Coord.step coordThen
    dsimp only
    split
    · rename_i hl
      have hc : s.conts = [] := by
        rw [List.length_append] at hl
        exact List.length_eq_zero_iff.1 (by simpa using hl)
      rw [hc]
      simp only [List.nil_append, coordStart]
      have : Restarting ids c (groupStart (ops lib) (mkGroup s.seq g) s.st).1 := by
        refine h.group ?_
        intro u hu a ha
        unfold mkGroup at hu
        obtain ⟨p, hp, rfl⟩ := List.mem_map.1 hu
        have hpm : p.1 ∈ g := by
          obtain ⟨q, i⟩ := p
          exact (List.mem_zipIdx' hp).2 ▸ List.getElem_mem _
        simp only [Option.some.injEq] at ha
        subst ha
        exact hg g List.mem_cons_self p.1 hpm
      split <;> exact this
    · exact h

/-- A request to restart by alias stops processes only of entities with one of the aliases, and of
none that has an untouchable process.  Whatever tasks there are. -/
theorem restart_aliases_scope (lib : Lib) {s : State} (hst : s.stopped = false) {as : List Alias} :
    ∃ ext, (s.input lib (.restartAliases as)).st.log = s.st.log ++ .inp (.restartAliases as) :: ext ∧
      ∀ x ∈ ext, ∀ p, x.stops p → ∃ e ∈ s.st.entities, (∃ i ∈ e.instances, i.handle.pid = p) ∧
        ∃ e' ∈ s.st.entities, e'.id = e.id ∧ e'.alias_ ∈ as ∧ s.st.untouchable e' = false := by
  unfold State.input
  rw [hst]
  simp only [Bool.false_eq_true, if_false]
  dsimp only [State.handle, State.on, State.restart]
  obtain ⟨_, ext, h2, h3⟩ := Restarting.thenAll (lib := lib) (ids := s.st.scalables as) (c := s.st.say [.inp (.restartAliases as)])
    (restartGroups [s.st.scalables as] ++ [[(.event 2, .idle)]]) (s := { s with st := s.st.say [.inp (.restartAliases as)] })
    (Restarting.refl _ _) (by
      intro g hg p hp
      rcases List.mem_append.1 hg with hg | hg
      · obtain ⟨b, hb, rfl⟩ := List.mem_map.1 hg
        obtain ⟨id, hid, rfl⟩ := List.mem_map.1 hp
        rw [List.mem_singleton.1 hb] at hid
        exact Or.inl ⟨id, hid, rfl⟩
      · have := List.mem_singleton.1 hg
        subst this
        exact Or.inr ⟨2, by rw [List.mem_singleton.1 hp]⟩)
  refine ⟨ext, h2.trans (by simp [Core.say]), ?_⟩
  intro x hx p hp
  obtain ⟨e, he, hid, hi⟩ := h3 x hx p hp
  refine ⟨e, he, hi, ?_⟩
  unfold Core.scalables at hid
  have key : ∀ e' ∈ (as.foldr insertUniq []).filterMap s.st.scalable, e' ∈ s.st.entities ∧ e'.alias_ ∈ as ∧ s.st.untouchable e' = false := by
    intro e' he'
    obtain ⟨a, ha, hs⟩ := List.mem_filterMap.1 he'
    have hau : ∀ (l : List Alias) (a b : Alias), b ∈ insertUniq a l → b = a ∨ b ∈ l := by
      intro l
      induction l with
      | nil => intro a b h; exact Or.inl (by simpa [insertUniq] using h)
      | cons c l ih =>
        intro a b h
        unfold insertUniq at h
        split at h
        · exact Or.inr h
        · split at h
          · rcases List.mem_cons.1 h with h | h
            · exact Or.inl h
            · exact Or.inr h
          · rcases List.mem_cons.1 h with h | h
            · exact Or.inr (h ▸ List.mem_cons_self)
            · exact (ih a b h).imp (fun h => h) (List.mem_cons_of_mem _)
    have haa : ∀ l : List Alias, ∀ a, a ∈ l.foldr insertUniq [] → a ∈ l := by
      intro l
      induction l with
      | nil => intro a h; exact h
      | cons b l ih =>
        intro a h
        rcases hau _ _ _ h with rfl | h
        · exact List.mem_cons_self
        · exact List.mem_cons_of_mem _ (ih a h)
    have hby : ∀ k, (s.st.byAlias k a).filter (fun e => !s.st.untouchable e) = some e' →
        e' ∈ s.st.entities ∧ e'.alias_ = a ∧ s.st.untouchable e' = false := by
      intro k h
      cases hb : s.st.byAlias k a with
      | none => rw [hb] at h; cases h
      | some y =>
        rw [hb] at h
        simp only [Option.filter] at h
        split at h
        · rename_i hu
          cases h
          have := List.find?_some hb
          simp only [Bool.and_eq_true, decide_eq_true_eq] at this
          exact ⟨List.mem_of_find?_eq_some hb, this.2, by simpa using hu⟩
        · cases h
    unfold Core.scalable at hs
    split at hs
    · rename_i y hy
      cases hs
      obtain ⟨q1, q2, q3⟩ := hby _ hy
      exact ⟨q1, q2 ▸ haa as a ha, q3⟩
    · obtain ⟨q1, q2, q3⟩ := hby _ hs
      exact ⟨q1, q2 ▸ haa as a ha, q3⟩
  rcases List.mem_append.1 hid with h | h
  · obtain ⟨e', h1, h2⟩ := List.mem_map.1 h
    obtain ⟨q1, q2, q3⟩ := key e' (List.mem_filter.1 h1).1
    exact ⟨e', q1, h2, q2, q3⟩
  · obtain ⟨e', h1, h2⟩ := List.mem_map.1 h
    obtain ⟨q1, q2, q3⟩ := key e' (List.mem_filter.1 h1).1
    exact ⟨e', q1, h2, q2, q3⟩

/-- A request to restart groups stops processes only of the batches of these groups (of all, if none
is given), and only of batches that have something that can be touched.  Partial: in such a batch
also the entities with untouchable processes are restarted. -/
theorem restart_groups_scope_partial (lib : Lib) {s : State} (hst : s.stopped = false) {names : List Gid} :
    ∃ ext, (s.input lib (.restartGroups names)).st.log = s.st.log ++ .inp (.restartGroups names) :: ext ∧
      ∀ x ∈ ext, ∀ p, x.stops p → ∃ e ∈ s.st.entities, (∃ i ∈ e.instances, i.handle.pid = p) ∧
        ∃ b ∈ s.st.stopOrder lib, e.id ∈ b.members ∧ (names = [] ∨ b.group ∈ names) ∧
          ∃ y ∈ s.st.entities, y.id ∈ b.members ∧ s.st.untouchable y = false := by
  unfold State.input
  rw [hst]
  simp only [Bool.false_eq_true, if_false]
  dsimp only [State.handle, State.on, State.restartBatches]
  have hbs : ∀ b ∈ s.st.restartable names (s.st.stopOrder lib), b ∈ s.st.stopOrder lib ∧ (names = [] ∨ b.group ∈ names) ∧
      ∃ y ∈ s.st.entities, y.id ∈ b.members ∧ s.st.untouchable y = false := by
    intro b hb
    unfold Core.restartable at hb
    obtain ⟨h1, h2⟩ := List.mem_filter.1 hb
    refine ⟨?_, ?_, ?_⟩
    · split at h1
      · exact h1
      · exact (List.mem_filter.1 h1).1
    · split at h1
      · rename_i hn
        exact Or.inl (by simpa using hn)
      · exact Or.inr (by simpa using (List.mem_filter.1 h1).2)
    · simp only [Bool.not_eq_true'] at h2
      obtain ⟨id, hid, h3⟩ := List.all_eq_false.1 h2
      cases hf : s.st.find id with
      | none => simp [hf] at h3
      | some y => exact ⟨y, find_mem hf, by rw [find_id hf]; exact hid, by simpa [hf] using h3⟩
  obtain ⟨_, ext, h2, h3⟩ := Restarting.thenAll (lib := lib)
    (ids := (s.st.restartable names (s.st.stopOrder lib)).flatMap (·.members)) (c := s.st.say [.inp (.restartGroups names)])
    (restartGroups ((s.st.restartable names (s.st.stopOrder lib)).map (·.members)) ++ [[(.event 3, .idle)]])
    (s := { s with st := s.st.say [.inp (.restartGroups names)] })
    (Restarting.refl _ _) (by
      intro g hg p hp
      rcases List.mem_append.1 hg with hg | hg
      · obtain ⟨ms, hb, rfl⟩ := List.mem_map.1 hg
        obtain ⟨b, hb', rfl⟩ := List.mem_map.1 hb
        obtain ⟨id, hid, rfl⟩ := List.mem_map.1 hp
        exact Or.inl ⟨id, List.mem_flatMap.2 ⟨b, hb', hid⟩, rfl⟩
      · have := List.mem_singleton.1 hg
        subst this
        exact Or.inr ⟨3, by rw [List.mem_singleton.1 hp]⟩)
  refine ⟨ext, h2.trans (by simp [Core.say]), ?_⟩
  intro x hx p hp
  obtain ⟨e, he, hid, hi⟩ := h3 x hx p hp
  obtain ⟨b, hb, hm⟩ := List.mem_flatMap.1 hid
  obtain ⟨q1, q2, q3⟩ := hbs b hb
  exact ⟨e, he, hi, b, q1, hm, q2, q3⟩

/-- What one would expect: a restart of groups does not stop untouchable processes. -/
def RestartSpares : Prop := ∀ (es : List Entity) (is : List Input) (names : List Gid) (p : Pid),
  let s := demoRun es is
  p ∈ s.st.whitelisted → ∀ x ∈ (s.input demoLib (.restartGroups names)).st.log.drop s.st.log.length, ¬ x.stops p

/-- It does, when the batch of the process has also something that can be touched. -/
theorem restart_spares_refuted : ¬ RestartSpares := by
  intro h
  have h1 := h [demoServer 1 6 false 1, demoServer 2 6 false 1]
    [.own, .own, .connect ⟨100, 1100⟩ 0 true, .connect ⟨101, 1101⟩ 0 false] [6] 100 (by decide +kernel)
  refine h1 (.prepareOwn [⟨100, 1100⟩]) (by decide +kernel) ⟨⟨100, 1100⟩, by decide +kernel, rfl⟩

/-- By alias the untouchable process is left alone; an entity that is not is restarted. -/
example : let s := (demoRun [demoServer 1 6 false 1, demoServer 2 6 false 1]
        [.own, .own, .connect ⟨100, 1100⟩ 0 true, .connect ⟨101, 1101⟩ 0 false])
    s.stopped = false ∧
    (s.input demoLib (.restartAliases [1, 2])).st.log = s.st.log ++ [.inp (.restartAliases [1, 2]), .prepareOwn [⟨101, 1101⟩]] ∧
    (s.input demoLib (.restartGroups [7])).st.log = s.st.log ++ [.inp (.restartGroups [7]), .done 3] := by decide +kernel

end Casual.DManager

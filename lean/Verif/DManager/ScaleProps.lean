import Verif.DManager.BootDone
import Verif.DManager.Demo

/-! What a request to scale does. -/
namespace Casual.DManager

open Casual.Task

/-- The instances of the entity are up: each has a process, and that of a server has connected. -/
def Entity.allUp (e : Entity) : Prop :=
  ∀ i ∈ e.instances, i.wanted = .running ∧ i.handle.pid ≠ 0 ∧ (e.id.kind = .server → i.handle.ipc ≠ 0)

theorem Entity.allUp.state {e : Entity} (h : e.allUp) {i : Inst} (hi : i ∈ e.instances) : i.state e.id.kind = .running := by
  obtain ⟨h1, h2, h3⟩ := h i hi
  unfold Inst.state
  cases hk : e.id.kind with
  | server => simp [h1, h2, h3 hk, Handle.ok]
  | executable => simp [h1, h2]

theorem scalables_one {c : Core} {a : Alias} {e : Entity} (h : c.scalable a = some e) : c.scalables [a] = [e.id] := by
  unfold Core.scalables
  have : [a].foldr insertUniq [] = [a] := rfl
  simp only [this, List.filterMap_cons, h, List.filterMap_nil]
  cases hk : e.id.kind <;> simp [List.filter_cons, hk]

theorem thenAll_scale (lib : Lib) {s : State} (hc : s.conts = []) (ms : List EId) :
    ∃ tail, (tail = [] ∨ tail = [.scaled ms, .done 1]) ∧
      (s.thenAll lib [[(.scale ms, .idle)], [(.event 1, .idle)]]).st.log = (s.st.scaleMembers lib ms).log ++ tail := by
  unfold State.thenAll
  simp only [List.foldl_cons, List.foldl_nil, Coord.step, coordThen, hc, List.nil_append, mkGroup, List.zipIdx_cons, List.zipIdx_nil,
    List.map_cons, List.map_nil, List.length_cons, List.length_nil, Nat.zero_add, if_true, coordStart, groupStart, unitStart, ops]
  cases hs : (s.st.scaleMembers lib ms).settled ms with
  | true =>
    refine ⟨[.scaled ms, .done 1], Or.inr rfl, ?_⟩
    simp [act, hs, Core.say, groupStart, unitStart]
  | false =>
    refine ⟨[], Or.inl rfl, ?_⟩
    simp [act, hs]

theorem find_modify_self {c : Core} (hn : (c.entities.map (·.id)).Nodup) {e : Entity} (he : e ∈ c.entities) {f : Entity → Entity}
    (hf : ∀ e, (f e).id = e.id) : (c.modify e.id f).find e.id = some (f e) := by
  rw [find_modify hf, if_pos rfl, find_unique hn he]
  rfl

theorem scale_log (lib : Lib) {s : State} (hc : s.conts = []) (hst : s.stopped = false) {n : Nat} {e : Entity}
    (hf : s.st.scalable e.alias_ = some e) (hn : (s.st.entities.map (·.id)).Nodup) (he : e ∈ s.st.entities) :
    ∃ tail, (tail = [] ∨ tail = [.scaled [e.id], .done 1]) ∧ ∃ c : Core, c.log = s.st.log ++ [.inp (.scale [(e.alias_, n)])] ∧
      c.singletons = s.st.singletons ∧ c.spawns = s.st.spawns ∧
      (s.input lib (.scale [(e.alias_, n)])).st.log = ((c.scaleIn (e.scale n)).scaleOut lib (e.scale n)).log ++ tail := by
  unfold State.input
  rw [hst]
  simp only [Bool.false_eq_true, if_false]
  dsimp only [State.handle, State.scale, State.on]
  have hs : (s.st.say [.inp (.scale [(e.alias_, n)])]).scalables [e.alias_] = [e.id] := scalables_one hf
  simp only [List.map_cons, List.map_nil, hs, List.foldl_cons, List.foldl_nil]
  obtain ⟨tail, ht, hl⟩ := thenAll_scale lib (s := { s with st := (s.st.say [.inp (.scale [(e.alias_, n)])]).scaleRequested [(e.alias_, n)] e.id })
    hc [e.id]
  refine ⟨tail, ht, (s.st.say [.inp (.scale [(e.alias_, n)])]).scaleRequested [(e.alias_, n)] e.id, rfl, rfl, rfl, hl.trans ?_⟩
  congr 2
  show (Core.scaleInstances lib ((s.st.say [.inp (.scale [(e.alias_, n)])]).scaleRequested [(e.alias_, n)] e.id) e.id) = _
  unfold Core.scaleInstances Core.scaleRequested
  rw [find_modify_self (c := s.st.say [.inp (.scale [(e.alias_, n)])]) hn he]
  · simp only [List.lookup_cons, beq_self_eq_true]
  · intro e
    split
    · unfold Entity.scale; split <;> rfl
    · rfl

theorem series_split {p : Inst → Bool} {is js : List Inst} (h : ∀ i ∈ is, p i = false) (h' : ∀ i ∈ js, p i = true) :
    series p (is ++ js) = (is, js, []) := by
  unfold series
  dsimp only
  have h1 : ∀ i ∈ is, (fun i => !p i) i = true := fun i hi => by simp [h i hi]
  have hj := series_all h'
  unfold series at hj
  dsimp only at hj
  rw [List.takeWhile_append_of_pos h1, List.dropWhile_append_of_pos h1]
  injection hj with j1 j2
  injection j2 with j2 j3
  rw [j1, j2, j3]
  simp

theorem spawnAll_log {lib : Lib} (hsp : ∀ k, (lib.spawn k).isSome) {id : EId} : ∀ (is : List Inst) (n : Nat),
    ∃ ps : List Pid, ps.length = is.length ∧ (spawnAll lib id n is).2.2 = ps.map (.spawned id)
  | [], _ => ⟨[], rfl, rfl⟩
  | i :: is, n => by
    obtain ⟨ps, h1, h2⟩ := spawnAll_log hsp is (n + 1) (id := id)
    obtain ⟨p, hp⟩ := Option.isSome_iff_exists.1 (hsp n)
    refine ⟨p :: ps, by simp [h1], ?_⟩
    unfold spawnAll
    simp only [hp, h2, List.map_cons]

/-- A request for more instances of an entity whose instances are up spawns the difference, for that
entity, and nothing is stopped. -/
theorem scale_out_exact (lib : Lib) (hsp : ∀ k, (lib.spawn k).isSome) {s : State} (hc : s.conts = []) (hst : s.stopped = false)
    {n : Nat} {e : Entity} (hf : s.st.scalable e.alias_ = some e) (hn : (s.st.entities.map (·.id)).Nodup) (he : e ∈ s.st.entities)
    (hen : e.enabled = true) (hup : e.allUp) (hlt : e.instances.length ≤ n) :
    ∃ (ps : List Pid) (tail : List Item), ps.length = n - e.instances.length ∧ (tail = [] ∨ tail = [.scaled [e.id], .done 1]) ∧
      (s.input lib (.scale [(e.alias_, n)])).st.log =
        s.st.log ++ .inp (.scale [(e.alias_, n)]) :: ps.map (.spawned e.id) ++ tail := by
  obtain ⟨tail, ht, c, hcl, _, _, hl⟩ := scale_log lib hc hst (n := n) hf hn he
  rw [hl]
  have hi : (e.scale n).instances = e.instances ++ List.replicate (n - e.instances.length) ({} : Inst) ∧ (e.scale n).id = e.id ∧
      (e.scale n).enabled = e.enabled := by
    unfold Entity.scale
    split
    · refine ⟨?_, rfl, rfl⟩
      simp only [List.map_append, List.map_replicate, hen, keepPhase, if_true]
      congr 1
      conv => rhs; rw [← List.map_id e.instances]
      refine List.map_congr_left ?_
      intro i hi
      obtain ⟨h1, _⟩ := hup i hi
      cases i
      simp only at h1
      subst h1
      rfl
    · have hz : n = e.instances.length := by omega
      refine ⟨?_, rfl, rfl⟩
      subst hz
      have h1 : e.instances.filter (fun i => i.state e.id.kind = .running) = e.instances :=
        List.filter_eq_self.2 fun i hi => by simp [hup.state hi]
      have h2 : e.instances.filter (fun i => i.state e.id.kind ≠ .running) = [] :=
        List.filter_eq_nil_iff.2 fun i hi => by simp [hup.state hi]
      simp only [h1, h2, List.append_nil, List.take_length, List.drop_length, List.map_nil, List.filter_nil, Nat.sub_self,
        List.replicate_zero, hen, keepPhase, if_true]
      conv => rhs; rw [← List.map_id e.instances]
      refine List.map_congr_left ?_
      intro i hi
      obtain ⟨h1, _⟩ := hup i hi
      cases i
      simp only at h1
      subst h1
      rfl
  obtain ⟨h1, h2, h3⟩ := hi
  have hin : c.scaleIn (e.scale n) = c := by
    unfold Core.scaleIn
    have : (e.scale n).shutdownable = [] := by
      unfold Entity.shutdownable
      refine series_none ?_
      rw [h1, h2]
      intro i hi
      rcases List.mem_append.1 hi with hi | hi
      · simp [hup.state hi]
      · rw [(List.mem_replicate.1 hi).2]
        cases e.id.kind <;> decide
    rw [this]
    rfl
  rw [hin]
  have hsp' : (e.scale n).spawnable = (e.instances, List.replicate (n - e.instances.length) ({} : Inst), []) := by
    unfold Entity.spawnable
    rw [if_neg (by rw [h3, hen]; simp), h1, h2]
    refine series_split ?_ ?_
    · intro i hi
      simp [hup.state hi]
    · intro i hi
      rw [(List.mem_replicate.1 hi).2]
      cases e.id.kind <;> decide
  unfold Core.scaleOut
  rw [hsp']
  dsimp only
  cases hz : n - e.instances.length with
  | zero =>
    refine ⟨[], tail, rfl, ht, ?_⟩
    simp [hcl]
  | succ k =>
    obtain ⟨ps, g1, g2⟩ := spawnAll_log hsp (id := (e.scale n).id) (List.replicate (k + 1) ({} : Inst)) c.spawns
    refine ⟨ps, tail, by simpa using g1, ht, ?_⟩
    rw [if_neg (by simp [List.replicate_succ])]
    show (c.log ++ _) ++ tail = _
    rw [g2, hcl, h2]
    simp

/-- What is done to stop the processes, in the given order. -/
def Stopped (k : Kind) (hs : List Handle) (items : List Item) : Prop :=
  match k with
  | .executable => items = hs.map fun h => .terminate h.pid
  | .server => items = [.prepare hs] ∨ items = [.prepareOwn hs]

/-- A request for fewer instances of an entity whose instances are up stops the ones at the end,
the last one first, and nothing is spawned. -/
theorem scale_in_exact (lib : Lib) {s : State} (hc : s.conts = []) (hst : s.stopped = false)
    {n : Nat} {e : Entity} (hf : s.st.scalable e.alias_ = some e) (hn : (s.st.entities.map (·.id)).Nodup) (he : e ∈ s.st.entities)
    (hen : e.enabled = true) (hup : e.allUp) (hlt : n < e.instances.length) :
    ∃ items tail : List Item, Stopped e.id.kind ((e.instances.drop n).reverse.map (·.handle)) items ∧
      (tail = [] ∨ tail = [.scaled [e.id], .done 1]) ∧
      (s.input lib (.scale [(e.alias_, n)])).st.log = s.st.log ++ .inp (.scale [(e.alias_, n)]) :: items ++ tail := by
  obtain ⟨tail, ht, c, hcl, _, _, hl⟩ := scale_log lib hc hst (n := n) hf hn he
  rw [hl]
  have hscale : (e.scale n).instances = e.instances.take n ++ (e.instances.drop n).map (fun i => { i with wanted := .exit }) ∧
      (e.scale n).id = e.id := by
    unfold Entity.scale
    rw [if_neg (by omega)]
    refine ⟨?_, rfl⟩
    have h1 : e.instances.filter (fun i => i.state e.id.kind = .running) = e.instances :=
      List.filter_eq_self.2 fun i hi => by simp [hup.state hi]
    have h2 : e.instances.filter (fun i => i.state e.id.kind ≠ .running) = [] :=
      List.filter_eq_nil_iff.2 fun i hi => by simp [hup.state hi]
    simp only [h1, h2, List.append_nil, hen, keepPhase, if_true]
    congr 1
    · conv => rhs; rw [← List.map_id (e.instances.take n)]
      refine List.map_congr_left ?_
      intro i hi
      obtain ⟨h1, _⟩ := hup i (List.mem_of_mem_take hi)
      cases i
      simp only at h1
      subst h1
      rfl
    · refine List.filter_eq_self.2 ?_
      intro i hi
      obtain ⟨j, hj, rfl⟩ := List.mem_map.1 hi
      obtain ⟨q1, q2, q3⟩ := hup j (List.mem_of_mem_drop hj)
      cases hk : e.id.kind with
      | server => simp [Inst.state, Handle.ok, q2, q3 hk]
      | executable => simp [Inst.state, q2]
  obtain ⟨h1, h2⟩ := hscale
  have hsd : (e.scale n).shutdownable = (e.instances.drop n).map (fun i => { i with wanted := .exit }) := by
    unfold Entity.shutdownable
    rw [h1, h2, series_split]
    · intro i hi
      simp [hup.state (List.mem_of_mem_take hi)]
    · intro i hi
      obtain ⟨j, hj, rfl⟩ := List.mem_map.1 hi
      obtain ⟨q1, q2, q3⟩ := hup j (List.mem_of_mem_drop hj)
      cases hk : e.id.kind with
      | server => simp [Inst.state, Handle.ok, q2, q3 hk]
      | executable => simp [Inst.state, q2]
  have hso : ∀ c : Core, c.scaleOut lib (e.scale n) = c := by
    intro c
    unfold Core.scaleOut
    have : (e.scale n).spawnable.2.1 = [] := by
      unfold Entity.spawnable
      split
      · rfl
      · refine series_none ?_
        rw [h1, h2]
        intro i hi
        rcases List.mem_append.1 hi with hi | hi
        · simp [hup.state (List.mem_of_mem_take hi)]
        · obtain ⟨j, hj, rfl⟩ := List.mem_map.1 hi
          obtain ⟨q1, q2, q3⟩ := hup j (List.mem_of_mem_drop hj)
          cases hk : e.id.kind with
          | server => simp [Inst.state, Handle.ok, q2, q3 hk]
          | executable => simp [Inst.state, q2]
    simp only [this, List.isEmpty_nil, if_true]
  rw [hso]
  unfold Core.scaleIn
  have hhs : ((e.instances.drop n).map (fun i => ({ i with wanted := .exit } : Inst))).reverse.map (·.handle) =
      (e.instances.drop n).reverse.map (·.handle) := by
    rw [← List.map_reverse, List.map_map]
    rfl
  rw [hsd]
  dsimp only
  rw [hhs, h2]
  have hne : ((e.instances.drop n).reverse.map (·.handle)).isEmpty = false := by
    cases hd : e.instances.drop n with
    | nil =>
      have := congrArg List.length hd
      rw [List.length_drop] at this
      simp only [List.length_nil] at this
      omega
    | cons x xs => simp
  rw [hne]
  simp only [Bool.false_eq_true, if_false]
  cases hk : e.id.kind with
  | executable =>
    refine ⟨_, tail, rfl, ht, ?_⟩
    show (c.log ++ _) ++ tail = _
    rw [hcl]
    simp
  | server =>
    dsimp only
    unfold Core.shutdownProcs
    cases hsing : c.singleton serviceManager with
    | none =>
      refine ⟨[.prepareOwn ((e.instances.drop n).reverse.map (·.handle))], tail, Or.inr rfl, ht, ?_⟩
      show (c.log ++ _) ++ tail = _
      rw [hcl]
      simp
    | some h =>
      simp only
      split
      · refine ⟨[.prepare ((e.instances.drop n).reverse.map (·.handle))], tail, Or.inl rfl, ht, ?_⟩
        show (c.log ++ _) ++ tail = _
        rw [hcl]
        simp
      · refine ⟨[.prepareOwn ((e.instances.drop n).reverse.map (·.handle))], tail, Or.inr rfl, ht, ?_⟩
        show (c.log ++ _) ++ tail = _
        rw [hcl]
        simp

theorem removeInst_split {r : Bool} {pid : Pid} : ∀ {is : List Inst}, (∀ i ∈ is, i.wanted = .running) → (∃ i ∈ is, i.handle.pid = pid) →
    ∃ pre post, (∃ i, is = pre ++ i :: post) ∧
      removeInst r pid is = pre ++ { handle := {}, wanted := if r then .running else .exit } :: post
  | [], _, ⟨_, h, _⟩ => by cases h
  | i :: is, hw, ⟨j, hj, hp⟩ => by
    unfold removeInst
    by_cases hi : i.handle.pid = pid
    · refine ⟨[], is, ⟨i, rfl⟩, ?_⟩
      simp [hi, hw i List.mem_cons_self]
    · rw [if_neg hi]
      have hj' : j ∈ is := by
        rcases List.mem_cons.1 hj with rfl | h
        · exact absurd hp hi
        · exact h
      obtain ⟨pre, post, ⟨k, hk⟩, h⟩ := removeInst_split (r := r) (fun x hx => hw x (List.mem_cons_of_mem _ hx)) ⟨j, hj', hp⟩
      exact ⟨i :: pre, post, ⟨k, by rw [hk]; rfl⟩, by rw [h]; rfl⟩

theorem series_gap {p : Inst → Bool} {pre post : List Inst} {i : Inst} (h1 : ∀ j ∈ pre, p j = false) (h2 : p i = true)
    (h3 : ∀ j ∈ post, p j = false) : series p (pre ++ i :: post) = (pre, [i], post) := by
  unfold series
  dsimp only
  have h1' : ∀ i ∈ pre, (fun i => !p i) i = true := fun i hi => by simp [h1 i hi]
  rw [List.takeWhile_append_of_pos h1', List.dropWhile_append_of_pos h1']
  have hd : (i :: post).dropWhile (fun i => !p i) = i :: post := by simp [h2]
  have ht : (i :: post).takeWhile (fun i => !p i) = [] := by simp [h2]
  rw [hd, ht, List.append_nil]
  cases post with
  | nil => simp [h2]
  | cons j js => simp [h2, h3 j List.mem_cons_self]

/-- The process belongs to the entity and to no other. -/
def Core.onlyOf (c : Core) (e : Entity) (p : Pid) : Prop :=
  e ∈ c.entities ∧ e.has p = true ∧ ∀ x ∈ c.entities, x.has p = true → x = e

theorem byPid_only {c : Core} {e : Entity} {p : Pid} (h : c.onlyOf e p) (k : Kind) :
    c.byPid k p = if e.id.kind = k then some e else none := by
  obtain ⟨h1, h2, h3⟩ := h
  cases hb : c.byPid k p with
  | none =>
    rw [if_neg]
    intro hk
    have := List.find?_eq_none.1 hb e h1
    simp [hk, h2] at this
  | some x =>
    have hx := List.find?_some hb
    simp only [Bool.and_eq_true, decide_eq_true_eq] at hx
    have : x = e := h3 x (List.mem_of_find?_eq_some hb) hx.2
    subst this
    rw [if_pos hx.1]

/-- In a domain that is up, with no tasks going on, a process exits: exactly one new process is spawned if the
entity is to be restarted, and none if it is not. -/
theorem exit_restarts_iff (lib : Lib) (hsp : ∀ k, (lib.spawn k).isSome) {s : State} (hc : s.conts = []) (hr : s.st.runlevel = .running)
    (hn : (s.st.entities.map (·.id)).Nodup) {e : Entity} {p : Pid} (hp : p ≠ 0) (ho : s.st.onlyOf e p) (hen : e.enabled = true) (hup : e.allUp) :
    ∃ ps : List Pid, ps.length = (if e.restart then 1 else 0) ∧
      (s.input lib (.exit p)).st.log = s.st.log ++ .inp (.exit p) :: ps.map (.spawned e.id) := by
  have hst : s.stopped = false := by
    unfold State.stopped
    rw [hr]
    rfl
  unfold State.input
  rw [hst]
  simp only [Bool.false_eq_true, if_false]
  dsimp only [State.handle, State.on]
  rw [if_neg hp]
  unfold State.exit State.tasks Coord.step
  dsimp only
  rw [hc]
  simp only [coordMsg]
  have ho' : ((s.st.say [.inp (.exit p)]).forget p).onlyOf e p := ho
  have hwr : ∀ i ∈ e.instances, i.wanted = .running := fun i hi => (hup i hi).1
  have hex : ∃ i ∈ e.instances, i.handle.pid = p := by
    obtain ⟨i, h1, h2⟩ := List.any_eq_true.1 ho.2.1
    exact ⟨i, h1, by simpa using h2⟩
  have hlev : ((s.st.say [.inp (.exit p)]).forget p).runlevel = .running := hr
  cases hre : e.restart with
  | false =>
    refine ⟨[], rfl, ?_⟩
    have hrm : ((s.st.say [.inp (.exit p)]).remove p).2 = none := by
      unfold Core.remove
      dsimp only
      rw [byPid_only ho' .server]
      cases hk : e.id.kind with
      | server =>
        simp only [if_true, hre, Bool.false_and, Bool.false_eq_true, if_false]
        cases hb : Core.byPid _ .executable p with
        | none => simp [hb]
        | some x =>
          exfalso
          have hx := List.find?_some hb
          simp only [Bool.and_eq_true, decide_eq_true_eq] at hx
          obtain ⟨y, hy, hxy⟩ := List.mem_map.1 (List.mem_of_find?_eq_some hb)
          split at hxy
          · rename_i hid
            rw [← hxy] at hx
            simp [hid, hk] at hx
          · rename_i hid
            subst hxy
            exact hid (by rw [ho.2.2 y hy hx.2])
      | executable =>
        simp only [reduceCtorEq, if_false]
        rw [byPid_only ho' .executable]
        simp [hk, hre]
    rw [hrm]
    simp only [remove_log]
    simp [Core.say]
  | true =>
    have hrm : ((s.st.say [.inp (.exit p)]).remove p).2 = some e.id ∧ ((s.st.say [.inp (.exit p)]).remove p).1 =
        ((s.st.say [.inp (.exit p)]).forget p).modify e.id fun e => { e with instances := removeInst e.restart p e.instances } := by
      unfold Core.remove
      dsimp only
      rw [byPid_only ho' .server]
      cases hk : e.id.kind with
      | server =>
        simp [hre, hlev]
      | executable =>
        simp only [reduceCtorEq, if_false]
        rw [byPid_only ho' .executable]
        simp [hk, hre, hlev]
    rw [hrm.1, hrm.2]
    dsimp only
    obtain ⟨pre, post, ⟨i0, hi0⟩, hrem⟩ := removeInst_split (r := e.restart) hwr hex
    unfold Core.scaleInstances
    rw [find_modify_self (c := (s.st.say [.inp (.exit p)]).forget p) hn ho.1
      (f := fun e => { e with instances := removeInst e.restart p e.instances }) (fun _ => rfl)]
    dsimp only
    rw [hrem, hre]
    simp only [if_true]
    have hpre : ∀ j ∈ pre, j.state e.id.kind = .running := fun j hj => hup.state (by rw [hi0]; simp [hj])
    have hpost : ∀ j ∈ post, j.state e.id.kind = .running := fun j hj => hup.state (by rw [hi0]; simp [hj])
    have hin : ∀ (c : Core) (x : Entity), x.id = e.id → x.instances = pre ++ { handle := {}, wanted := .running } :: post →
        c.scaleIn x = c := by
      intro c x hx hxi
      unfold Core.scaleIn
      have : x.shutdownable = [] := by
        unfold Entity.shutdownable
        refine series_none ?_
        rw [hx, hxi]
        intro i hi
        rcases List.mem_append.1 hi with hi | hi
        · simp [hpre i hi]
        · rcases List.mem_cons.1 hi with rfl | hi
          · cases e.id.kind <;> decide
          · simp [hpost i hi]
      rw [this]
      rfl
    rw [hin _ ({ e with restart := true, instances := pre ++ { handle := {}, wanted := .running } :: post } : Entity) rfl rfl]
    have hspn : ({ e with restart := true, instances := pre ++ { handle := {}, wanted := .running } :: post } : Entity).spawnable =
        (pre, [{ handle := {}, wanted := .running }], post) := by
      unfold Entity.spawnable
      rw [if_neg (by simp [hen])]
      refine series_gap ?_ ?_ ?_
      · intro j hj; simp [hpre j hj]
      · cases e.id.kind <;> decide
      · intro j hj; simp [hpost j hj]
    unfold Core.scaleOut
    rw [hspn]
    obtain ⟨ps, g1, g2⟩ := spawnAll_log hsp (id := e.id) [({ handle := {}, wanted := .running } : Inst)] s.st.spawns
    refine ⟨ps, by simpa using g1, ?_⟩
    show (s.st.log ++ [.inp (.exit p)]) ++ (spawnAll lib e.id s.st.spawns [({ handle := {}, wanted := .running } : Inst)]).2.2 = _
    rw [g2]
    simp

/-- A process of an entity that is restarted, and one of an entity that is not. -/
example : (((demoRun [demoServer 1 6 true 1] [.own, .connect ⟨100, 1100⟩ 0 false]).input demoLib (.exit 100)).st.log =
      (demoRun [demoServer 1 6 true 1] [.own, .connect ⟨100, 1100⟩ 0 false]).st.log ++
        [.inp (.exit 100), .spawned ⟨.server, 1⟩ 101]) ∧
    (((demoRun [demoServer 1 6 false 1] [.own, .connect ⟨100, 1100⟩ 0 false]).input demoLib (.exit 100)).st.log =
      (demoRun [demoServer 1 6 false 1] [.own, .connect ⟨100, 1100⟩ 0 false]).st.log ++ [.inp (.exit 100)]) ∧
    (demoRun [demoServer 1 6 true 1] [.own, .connect ⟨100, 1100⟩ 0 false]).conts = [] ∧
    (demoRun [demoServer 1 6 true 1] [.own, .connect ⟨100, 1100⟩ 0 false]).st.runlevel = .running := by decide +kernel

/-- An entity with two processes that are up, to be scaled to four, and to none. -/
example : let s := demoRun [demoServer 1 6 false 2] [.own, .connect ⟨100, 1100⟩ 0 false, .connect ⟨101, 1101⟩ 0 false]
    s.conts = [] ∧ s.stopped = false ∧ (s.st.entities.map (·.id)).Nodup ∧
    (∃ e, s.st.scalable 1 = some e ∧ e ∈ s.st.entities ∧ e.enabled = true ∧ e.alias_ = 1 ∧ e.instances.length = 2 ∧
      ∀ i ∈ e.instances, i.wanted = .running ∧ i.handle.pid ≠ 0 ∧ i.handle.ipc ≠ 0) ∧
    (s.input demoLib (.scale [(1, 4)])).st.log = s.st.log ++
      [.inp (.scale [(1, 4)]), .spawned ⟨.server, 1⟩ 102, .spawned ⟨.server, 1⟩ 103] ∧
    (s.input demoLib (.scale [(1, 0)])).st.log = s.st.log ++
      [.inp (.scale [(1, 0)]), .prepareOwn [⟨101, 1101⟩, ⟨100, 1100⟩]] := by
  refine ⟨by decide +kernel, by decide +kernel, by decide +kernel,
    ⟨(demoServer 1 6 false 2).scale 0 |> fun e => { e with instances := [{ handle := ⟨100, 1100⟩ }, { handle := ⟨101, 1101⟩ }] }, ?_⟩,
    by decide +kernel, by decide +kernel⟩
  decide +kernel

/-- A check of the history: every process has connected or has exited. -/
def metAll : List Item → Bool
  | [] => true
  | x :: b => (match x with
      | .spawned _ p => b.any fun
        | .inp (.exit q) => decide (q = p)
        | .admitted h _ _ => decide (h.pid = p)
        | _ => false
      | _ => true) && metAll b

theorem metAll_met : ∀ {log : List Item}, metAll log = true → ∀ {e p a b}, log = a ++ .spawned e p :: b → Met b p
  | [], _, e, p, a, b, h => by simp at h
  | x :: log, hm, e, p, a, b, h => by
    unfold metAll at hm
    obtain ⟨h1, h2⟩ := Bool.and_eq_true_iff.1 hm
    cases a with
    | nil =>
      injection h with h3 h4
      subst h3 h4
      obtain ⟨y, hy, h5⟩ := List.any_eq_true.1 h1
      split at h5
      · rename_i q
        have : q = p := by simpa using h5
        subst this
        exact Or.inl hy
      · rename_i h' x w
        exact Or.inr ⟨h', x, w, hy, by simpa using h5⟩
      · cases h5
    | cons z a =>
      injection h with _ h4
      exact metAll_met h2 h4

/-- What one would expect: when nothing is going on in the domain, and every process that has been
spawned has connected or has exited, there are as many processes of the entity as was asked for. -/
def ScaleReaches : Prop := ∀ (es : List Entity) (is : List Input) (a : Alias) (n : Nat) (e : Entity),
  let s := demoRun es (is ++ [.scale [(a, n)]] )
  ∀ (js : List Input), (∀ j ∈ js, ∃ h, j = .connect h 0 false ∨ j = .own) →
    e ∈ (s.run demoLib js).st.entities → e.alias_ = a → (s.run demoLib js).st.own = [] →
    (∀ p a b, (s.run demoLib js).st.log = a ++ .spawned e.id p :: b → Met b p) →
    (e.instances.filter fun i => i.handle.pid ≠ 0).length = n

/-- It is not so: where a process has exited there is a gap, and only the first of the gaps is
filled. -/
theorem scale_reaches_refuted : ¬ ScaleReaches := by
  intro h
  have := h [demoServer 1 6 false 2] [.own, .connect ⟨100, 1100⟩ 0 false, .connect ⟨101, 1101⟩ 0 false, .exit 100] 1 3
    ({ (demoServer 1 6 false 2) with instances := [{ handle := ⟨102, 1102⟩ }, { handle := ⟨101, 1101⟩ }, {}] })
    [.own, .connect ⟨102, 1102⟩ 0 false]
    (by
      intro j hj
      rcases List.mem_cons.1 hj with rfl | hj
      · exact ⟨{}, Or.inr rfl⟩
      · rcases List.mem_cons.1 hj with rfl | hj
        · exact ⟨⟨102, 1102⟩, Or.inl rfl⟩
        · cases hj)
    (by decide +kernel) (by decide +kernel) (by decide +kernel)
  refine absurd (this ?_) (by decide +kernel)
  intro p a b hab
  exact metAll_met (by decide +kernel) hab

end Casual.DManager

import Verif.DManager.StopProps

/-! Nothing is spawned in a shutdown. -/
namespace Casual.DManager

open Casual.Task

/-- The inputs that may come in a shutdown: all but a request to scale. -/
def Input.noScale : Input → Bool
  | .scale _ => false
  | _ => true

/-- All are to exit, but the domain manager itself, and nothing has been spawned since `L`. -/
structure NInv (m : EId) (pm : Pid) (L : List Item) (c : Core) : Prop where
  level : 2 ≤ c.runlevel.toNat
  all : ∀ x ∈ c.entities, ∀ i ∈ x.instances, if x.id = m then i.handle.pid = pm else i.wanted = .exit
  log : ∃ l, c.log = L ++ l ∧ ∀ e p, .spawned e p ∉ l

section
variable {m : EId} {pm : Pid} {L : List Item}

theorem NInv.say {c c' : Core} (h : NInv m pm L c) {ext : List Item} (he : c'.entities = c.entities) (hr : c'.runlevel = c.runlevel)
    (hl : c'.log = c.log ++ ext) (hx : ∀ e p, .spawned e p ∉ ext) : NInv m pm L c' := by
  refine ⟨by rw [hr]; exact h.level, by rw [he]; exact h.all, ?_⟩
  obtain ⟨l, h1, h2⟩ := h.log
  refine ⟨l ++ ext, by rw [hl, h1, List.append_assoc], ?_⟩
  intro e p hm
  rcases List.mem_append.1 hm with hm | hm
  · exact h2 e p hm
  · exact hx e p hm

theorem NInv.entities {c c' : Core} (h : NInv m pm L c) (hr : c'.runlevel = c.runlevel) (hl : c'.log = c.log)
    (he : ∀ x ∈ c'.entities, ∀ i ∈ x.instances, if x.id = m then i.handle.pid = pm else i.wanted = .exit) : NInv m pm L c' :=
  ⟨by rw [hr]; exact h.level, he, by rw [hl]; exact h.log⟩

theorem NInv.modify {c : Core} (h : NInv m pm L c) (id : EId) (f : Entity → Entity) (hid : ∀ e, (f e).id = e.id)
    (hi : ∀ x ∈ c.entities, x.id = id → ∀ i ∈ (f x).instances, i ∈ x.instances) : NInv m pm L (c.modify id f) := by
  refine h.entities rfl rfl ?_
  intro x hx i hix
  obtain ⟨y, hy, rfl⟩ := List.mem_map.1 hx
  split at hix
  · rename_i hc
    rw [if_pos hc]
    rw [hid]
    exact h.all y hy i (hi y hy hc i hix)
  · rename_i hc
    rw [if_neg hc]
    exact h.all y hy i hix

theorem NInv.shutdownProcs {c : Core} (h : NInv m pm L c) (hs : List Handle) : NInv m pm L (c.shutdownProcs hs) := by
  unfold Core.shutdownProcs
  split
  · split
    · exact h.say (ext := [_]) rfl rfl rfl (by simp)
    · exact h.say (ext := [_]) rfl rfl rfl (by simp)
  · exact h.say (ext := [_]) rfl rfl rfl (by simp)

theorem NInv.scaleIn {c : Core} (h : NInv m pm L c) (e : Entity) : NInv m pm L (c.scaleIn e) := by
  unfold Core.scaleIn
  dsimp only
  split
  · exact h
  · split
    · exact h.say (ext := _) rfl rfl rfl (by simp)
    · exact h.shutdownProcs _

theorem series_none {p : Inst → Bool} {is : List Inst} (h : ∀ i ∈ is, p i = false) : (series p is).2.1 = [] := by
  unfold series
  dsimp only
  have : is.dropWhile (fun i => !p i) = [] := by
    clear * - h
    induction is with
    | nil => rfl
    | cons i is ih =>
      rw [List.dropWhile_cons, h i List.mem_cons_self]
      exact ih (fun j hj => h j (List.mem_cons_of_mem _ hj))
  rw [this]
  rfl

theorem NInv.spawnable {c : Core} (h : NInv m pm L c) (hpm : pm ≠ 0) {e : Entity} (he : e ∈ c.entities) : e.spawnable.2.1 = [] := by
  unfold Entity.spawnable
  split
  · rfl
  · refine series_none ?_
    intro i hi
    have := h.all e he i hi
    simp only [decide_eq_false_iff_not]
    intro hs
    split at this
    · have h0 : i.handle.pid ≠ 0 := by rw [this]; exact hpm
      unfold Inst.state at hs
      cases hw : i.wanted <;> cases hk : e.id.kind <;> cases ho : i.handle.ok <;> simp [hw, hk, ho, h0] at hs
    · unfold Inst.state at hs
      cases hk : e.id.kind <;> cases ho : i.handle.ok <;> by_cases h0 : i.handle.pid = 0 <;> simp [this, hk, ho, h0] at hs

theorem NInv.scaleInstances {lib : Lib} {c : Core} (h : NInv m pm L c) (hpm : pm ≠ 0) (id : EId) :
    NInv m pm L (c.scaleInstances lib id) := by
  unfold Core.scaleInstances
  split
  · rename_i e hf
    unfold Core.scaleOut
    dsimp only
    rw [h.spawnable hpm (find_mem hf)]
    exact h.scaleIn e
  · exact h

theorem NInv.scaleMembers {lib : Lib} (hpm : pm ≠ 0) : ∀ (ms : List EId) {c : Core}, NInv m pm L c → NInv m pm L (c.scaleMembers lib ms)
  | [], _, h => h
  | id :: ms, _, h => NInv.scaleMembers hpm ms (h.scaleInstances hpm id)

theorem NInv.stopLast {c : Core} (h : NInv m pm L c) (k : Kind) (hs : List Handle) : NInv m pm L (c.stopLast k hs) := by
  unfold Core.stopLast
  split
  · exact h
  · split
    · exact h.shutdownProcs _
    · exact h.say (ext := [_]) rfl rfl rfl (by simp)

theorem NInv.restartDone {c : Core} (h : NInv m pm L c) (id : EId) (o : Bool) : NInv m pm L (c.restartDone id o) := by
  unfold Core.restartDone
  exact (h.modify id (fun e => { e with restart := o }) (fun _ => rfl) (fun _ _ _ i hi => hi)).say (ext := [_]) rfl rfl rfl (by simp)

theorem nospawn_keeps (lib : Lib) (hpm : pm ≠ 0) : Keeps (ops lib) (fun c c' => NInv m pm L c → NInv m pm L c') where
  refl := fun _ h => h
  trans := fun h1 h2 h => h2 (h1 h)
  act := by
    intro a b s h
    show NInv m pm L (DManager.act lib a b s).1
    unfold DManager.act
    split
    · dsimp only
      split
      · exact (NInv.scaleMembers hpm _ h).say (ext := [_]) rfl rfl rfl (by simp)
      · exact NInv.scaleMembers hpm _ h
    · obtain ⟨l, h1, h2⟩ := h.log
      refine ⟨Nat.le_trans h.level (raise_le s.runlevel .running), h.all, l ++ [.bootDone], by simp [Core.say, h1], ?_⟩
      intro e p hm
      rcases List.mem_append.1 hm with hm | hm
      · exact h2 e p hm
      · simp at hm
    · exact h.say (ext := [_]) rfl rfl rfl (by simp)
    · split
      · exact h
      · dsimp only
        split
        · exact h
        · exact (h.modify _ (fun e => { e with restart := true }) (fun _ => rfl) (fun _ _ _ i hi => hi)).stopLast _ _
  handle := by
    intro b msg f hf s h
    have fg : ∀ id o ps fr pid, NInv m pm L (freshGone id o ps fr pid s).1 := by
      intro id o ps fr pid
      unfold freshGone
      split
      · dsimp only
        split
        · exact h.restartDone id o
        · exact h.stopLast .server ps
      · exact h
    have hf' : DManager.handle b msg = some f := hf
    unfold DManager.handle at hf'
    split at hf'
    · cases hf'
    · cases hf'
      dsimp only
      split
      · exact h.say (ext := [_]) rfl rfl rfl (by simp)
      · exact h
    · split at hf'
      · cases hf'; exact fg _ _ _ _ _
      · cases hf'; dsimp only; split <;> exact h
      · cases hf'; exact fg _ _ _ _ _
      · cases hf'; exact h
      · cases hf'
        dsimp only
        split
        · split
          · split
            · exact h.restartDone _ _
            · exact h.stopLast .executable _
          · exact h
        · exact h
      · cases hf'

theorem NInv.tasks {lib : Lib} (hpm : pm ≠ 0) {s : State} (h : NInv m pm L s.st) (msg : Msg) : NInv m pm L (s.tasks lib msg).st :=
  (nospawn_keeps lib hpm).coordMsg msg s.conts s.st h

theorem NInv.thenAll {lib : Lib} (hpm : pm ≠ 0) : ∀ (gs : List (List (Act × Body))) {s : State}, NInv m pm L s.st →
    NInv m pm L (s.thenAll lib gs).st
  | [], _, h => h
  | g :: gs, s, h => NInv.thenAll hpm gs (s := s.step (ops lib) (.then_ g)) ((nospawn_keeps lib hpm).coordThen _ s.conts s.st h)

theorem NInv.shutdown {lib : Lib} (hpm : pm ≠ 0) {s : State} (hm : s.st.manager = m)
    (hme : ∀ x ∈ s.st.entities, x.id = m → ∀ i ∈ x.instances, i.handle.pid = pm)
    (hl : ∃ l, s.st.log = L ++ l ∧ ∀ e p, .spawned e p ∉ l) : NInv m pm L (s.shutdown lib).st := by
  unfold State.shutdown
  dsimp only
  refine NInv.thenAll hpm _ ?_
  dsimp only [State.on, Coord.step]
  refine ⟨raise_ge s.st.runlevel .shutdown, ?_, hl⟩
  intro x hx i hi
  obtain ⟨e, he, rfl⟩ := List.mem_map.1 hx
  split at hi
  · rename_i hc
    rw [if_pos hc, if_pos (hc.trans hm)]
    exact hme e he (hc.trans hm) i hi
  · rename_i hc
    rw [if_neg hc, scale_id, if_neg (fun h => hc (h.trans hm.symm))]
    obtain ⟨j, _, rfl, _⟩ := (scale_zero e).1 hi
    rfl

theorem NInv.remove {c : Core} (ho : OInv m pm c) (h : NInv m pm L c) {pid : Pid} (hp : pid ≠ pm) : NInv m pm L (c.remove pid).1 := by
  have ho0 : OInv m pm (c.forget pid) := by
    refine ⟨ho.mgr, ?_, ho.me, ho.ent, ho.own, ho.items⟩
    exact List.mem_filter.2 ⟨ho.listed, by simpa using hp.symm⟩
  have h0 : NInv m pm L (c.forget pid) := ⟨h.level, h.all, h.log⟩
  have gone : ∀ (c : Core), OInv m pm c → NInv m pm L c → ∀ k e, c.byPid k pid = some e →
      NInv m pm L (c.modify e.id fun e => { e with instances := removeInst e.restart pid e.instances }) := by
    intro c ho h k e hb
    obtain ⟨h1, h2⟩ := byPid_notMe ho hp hb
    refine h.modify e.id _ (fun _ => rfl) ?_
    intro x hx hxe i hi
    refine removeInst_sub ?_ hi
    intro j hj
    have := h.all x hx j hj
    rw [if_neg (by rw [hxe]; exact h2)] at this
    exact this
  unfold Core.remove
  generalize c.forget pid = c0 at h0 ho0
  have second : ∀ c1 : Core, OInv m pm c1 → NInv m pm L c1 → NInv m pm L
      (match (match c1.byPid .executable pid with
        | some e => (c1.modify e.id fun e => { e with instances := removeInst e.restart pid e.instances },
            if e.restart && decide (c1.runlevel = Runlevel.running) then some e.id else none)
        | none => (c1, none) : Core × Option EId).2 with
      | some id => ((match c1.byPid .executable pid with
        | some e => (c1.modify e.id fun e => { e with instances := removeInst e.restart pid e.instances },
            if e.restart && decide (c1.runlevel = Runlevel.running) then some e.id else none)
        | none => (c1, none) : Core × Option EId).1, some id)
      | none => ({ (match c1.byPid .executable pid with
        | some e => (c1.modify e.id fun e => { e with instances := removeInst e.restart pid e.instances },
            if e.restart && decide (c1.runlevel = Runlevel.running) then some e.id else none)
        | none => (c1, none) : Core × Option EId).1 with grandchildren := eraseProc pid (match c1.byPid .executable pid with
        | some e => (c1.modify e.id fun e => { e with instances := removeInst e.restart pid e.instances },
            if e.restart && decide (c1.runlevel = Runlevel.running) then some e.id else none)
        | none => (c1, none) : Core × Option EId).1.grandchildren }, none) : Core × Option EId).1 := by
    intro c1 ho1 h1
    have key : NInv m pm L (match c1.byPid .executable pid with
        | some e => (c1.modify e.id fun e => { e with instances := removeInst e.restart pid e.instances },
            if e.restart && decide (c1.runlevel = Runlevel.running) then some e.id else none)
        | none => (c1, none) : Core × Option EId).1 := by
      cases hb : c1.byPid .executable pid with
      | none => exact h1
      | some e => exact gone c1 ho1 h1 _ e hb
    split
    · exact key
    · exact ⟨key.level, key.all, key.log⟩
  dsimp only
  cases hb : c0.byPid .server pid with
  | none => exact second c0 ho0 h0
  | some e =>
    dsimp only
    have hg := gone c0 ho0 h0 _ e hb
    split
    · exact hg
    · refine second _ ?_ hg
      have := ho0.dropIn .server hp
      unfold Core.dropIn at this
      rw [hb] at this
      exact this

theorem nospawn_input {lib : Lib} (hpm : pm ≠ 0) {s : State} (hs : SInv m pm s) (h : NInv m pm L s.st) (i : Input) (hn : i.notOf pm)
    (hi : i.noScale = true) : NInv m pm L (s.input lib i).st := by
  unfold State.input
  split
  · exact h
  · have h1 : NInv m pm L (s.on fun c => c.say [.inp i]).st := h.say (ext := [.inp i]) rfl rfl rfl (by simp)
    have hs1 : OInv m pm (s.on fun c => c.say [.inp i]).st :=
      hs.1.mild (ext := [.inp i]) rfl rfl rfl rfl rfl (by simp [Item.harmless])
    have down : ∀ s' : State, s'.st.manager = s.st.manager → s'.st.entities = s.st.entities →
        s'.st.log = s.st.log ++ [.inp i] → NInv m pm L (s'.shutdown lib).st := by
      intro s' e1 e2 e3
      refine NInv.shutdown hpm (e1.trans hs.1.mgr) ?_ ?_
      · rw [e2]
        intro x hx hm
        exact (hs.1.me x hx hm).2
      · rw [e3]
        exact h1.log
    cases i with
    | own =>
      dsimp only [State.handle]
      unfold State.own
      split
      · exact h1
      · rename_i mm ms hown
        have h2 : NInv m pm L ((s.on fun c => c.say [.inp .own]).on fun c => { c with own := ms }).st := ⟨h1.level, h1.all, h1.log⟩
        dsimp only
        split
        · exact h2.tasks hpm _
        · refine h2.say (ext := _) rfl rfl rfl ?_
          intro e p hm
          obtain ⟨x, _, hx⟩ := List.mem_map.1 hm
          split at hx <;> cases hx
    | exit pid =>
      dsimp only [State.handle]
      split
      · exact h1
      · have h2 := NInv.remove hs1 h1 (pid := pid) hn
        unfold State.exit
        dsimp only
        refine NInv.tasks hpm ?_ _
        dsimp only
        split
        · exact h2.scaleInstances hpm _
        · exact h2
    | connect a x w =>
      dsimp only [State.handle]
      split
      · unfold State.connect
        rw [if_pos (show Runlevel.running.toNat < (s.on fun c => c.say [.inp (.connect a x w)]).st.runlevel.toNat from Nat.lt_of_lt_of_le (by decide) h.level)]
        exact h1.say (ext := [_]) rfl rfl rfl (by simp)
      · exact h1
    | prepareReply ps =>
      refine h1.say (ext := _) rfl rfl rfl ?_
      intro e p hm
      obtain ⟨x, _, hx⟩ := List.mem_map.1 hm
      split at hx <;> cases hx
    | lookup l =>
      dsimp only [State.handle, State.on]
      unfold Core.lookup
      split
      · rename_i items ha
        refine h1.say (ext := items) rfl rfl rfl ?_
        intro e p hm
        unfold Core.answer at ha
        split at ha
        · split at ha
          · cases ha; simp at hm
          · split at ha
            · cases ha; simp at hm
            · cases ha
        · split at ha
          · dsimp only at ha
            split at ha
            · cases ha; simp at hm
            · cases ha
          · cases ha; simp at hm
      · exact ⟨h1.level, h1.all, h1.log⟩
    | scale as => cases hi
    | restartAliases as => exact h1.thenAll hpm _
    | restartGroups as => exact h1.thenAll hpm _
    | shutdown => exact down _ rfl rfl rfl
    | fatal =>
      dsimp only [State.handle]
      split
      · exact down _ rfl rfl rfl
      · exact h1
    | assassinate t k =>
      dsimp only [State.handle, State.on]
      unfold Core.assassinate
      split
      · exact h1
      · split
        · exact h1
        · exact h1.say (ext := [_]) rfl rfl rfl (by simp)

theorem nospawn_run {lib : Lib} (hst : StableSort lib.sort) (hpm : pm ≠ 0) : ∀ (is : List Input) (s : State),
    (∀ i ∈ is, i.notOf pm ∧ i.noScale = true) → SInv m pm s → NInv m pm L s.st → NInv m pm L (s.run lib is).st
  | [], _, _, _, h => h
  | i :: is, s, hi, hs, h =>
    have h1 := hi i List.mem_cons_self
    nospawn_run hst hpm is _ (fun j hj => hi j (List.mem_cons_of_mem _ hj)) (sinv_input hst hs i h1.1) (nospawn_input hpm hs h i h1.1 h1.2)

end

/-- When a shutdown has been asked for - whatever the domain was doing - nothing is spawned any more.  Partial: unless somebody asks to
scale. -/
theorem no_spawn_in_shutdown_partial (lib : Lib) (hst : StableSort lib.sort) (u : Setup) (hu : u.Proper) (hpm : u.self.pid ≠ 0)
    (is js : List Input) (hi : ∀ i ∈ is, i.notOf u.self.pid) (hj : ∀ j ∈ js, j.notOf u.self.pid ∧ j.noScale = true)
    {l1 l2 : List Item} {e : EId} {p : Pid}
    (hl : ((State.start lib u).run lib (is ++ .shutdown :: js)).st.log = l1 ++ .spawned e p :: l2) :
    ((State.start lib u).run lib is).stopped = true ∨ ∃ l, ((State.start lib u).run lib is).st.log = l1 ++ .spawned e p :: l := by
  have hs := sinv_run (m := u.manager) hst is _ hi (start_sinv hst hu)
  cases hstop : ((State.start lib u).run lib is).stopped with
  | true => exact Or.inl rfl
  | false =>
    right
    have hr : (State.start lib u).run lib (is ++ .shutdown :: js) =
        (((State.start lib u).run lib is).input lib .shutdown).run lib js := by
      simp [State.run]
    have h0 : NInv u.manager u.self.pid ((State.start lib u).run lib is).st.log (((State.start lib u).run lib is).input lib .shutdown).st := by
      unfold State.input
      rw [hstop]
      refine NInv.shutdown hpm hs.1.mgr (fun x hx hm => (hs.1.me x hx hm).2) ⟨[.inp .shutdown], rfl, by simp⟩
    have h1 := nospawn_run hst hpm js _ hj (sinv_input hst hs .shutdown trivial) h0
    obtain ⟨l, h2, h3⟩ := h1.log
    rw [hr, h2] at hl
    rcases split_append hl with ⟨b, h4, _⟩ | ⟨a', h4, _⟩
    · exact ⟨b, h4⟩
    · exact absurd (by rw [h4]; simp) (h3 e p)

/-- The full property, for any inputs. -/
def NoSpawnInShutdown : Prop :=
  ∀ (lib : Lib) (u : Setup) (is js : List Input), Sane lib u (is ++ .shutdown :: js) →
    (∀ i ∈ is ++ .shutdown :: js, i.notOf u.self.pid) → ((State.start lib u).run lib is).stopped = false →
    ∃ l, ((State.start lib u).run lib (is ++ .shutdown :: js)).st.log = ((State.start lib u).run lib is).st.log ++ l ∧
      ∀ e p, .spawned e p ∉ l

/-- It does not hold: a request to scale is taken in a shutdown, and when the shutdown has reached its end
processes are spawned. -/
theorem scale_in_shutdown_refuted : ¬ NoSpawnInShutdown := by
  intro h
  obtain ⟨l, h1, h2⟩ := h demoLib (demoSetup [demoServer 1 6 false 1, demoServer 2 7 false 1])
    [.own, .connect ⟨100, 1100⟩ 0 false, .own, .connect ⟨101, 1101⟩ 0 false] [.scale [(1, 2)], .own, .exit 101]
    ⟨libstdcxxSort_stable, ⟨by decide +kernel, by decide +kernel⟩, unique_of_nodup (by decide +kernel) (by decide +kernel)⟩
    (by simp [Input.notOf, demoSetup]) (by decide +kernel)
  have hx : ((State.start demoLib (demoSetup [demoServer 1 6 false 1, demoServer 2 7 false 1])).run demoLib
      ([.own, .connect ⟨100, 1100⟩ 0 false, .own, .connect ⟨101, 1101⟩ 0 false] ++ .shutdown :: [.scale [(1, 2)], .own, .exit 101])).st.log =
      ((State.start demoLib (demoSetup [demoServer 1 6 false 1, demoServer 2 7 false 1])).run demoLib
        [.own, .connect ⟨100, 1100⟩ 0 false, .own, .connect ⟨101, 1101⟩ 0 false]).st.log ++
      [.inp .shutdown, .prepareOwn [⟨101, 1101⟩], .inp (.scale [(1, 2)]), .inp .own, .shutdownReq ⟨101, 1101⟩, .inp (.exit 101),
        .scaled [⟨.server, 2⟩], .spawned ⟨.server, 1⟩ 102] := by decide +kernel
  rw [hx] at h1
  have := List.append_cancel_left h1
  exact h2 ⟨.server, 1⟩ 102 (by rw [← this]; simp)

end Casual.DManager

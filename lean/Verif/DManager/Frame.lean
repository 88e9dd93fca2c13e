import Verif.DManager.Model
import Verif.Task.Rel

/-! What the tasks, and scaling, leave alone. -/
namespace Casual.DManager

open Casual.Task

/-- The items that tasks bring. -/
def Item.ofTask : Item → Bool
  | .spawned .. | .spawnFailed _ | .terminate _ | .prepare _ | .prepareOwn _ | .scaled _ | .restarted _
  | .bootDone | .done _ => true
  | _ => false

/-- What tasks leave alone. -/
structure Frame (c c' : Core) : Prop where
  singletons : c'.singletons = c.singletons
  whitelisted : c'.whitelisted = c.whitelisted
  grandchildren : c'.grandchildren = c.grandchildren
  lookups : c'.lookups = c.lookups
  groups : c'.groups = c.groups
  manager : c'.manager = c.manager
  level : c.runlevel.toNat ≤ c'.runlevel.toNat
  log : ∃ ext, c'.log = c.log ++ ext ∧ ∀ i ∈ ext, i.ofTask = true

theorem Frame.refl (c : Core) : Frame c c :=
  ⟨rfl, rfl, rfl, rfl, rfl, rfl, Nat.le_refl _, [], by simp, by simp⟩

theorem Frame.trans {a b c : Core} (h1 : Frame a b) (h2 : Frame b c) : Frame a c := by
  obtain ⟨e1, h3, h4⟩ := h1.log
  obtain ⟨e2, h5, h6⟩ := h2.log
  refine ⟨h2.singletons.trans h1.singletons, h2.whitelisted.trans h1.whitelisted, h2.grandchildren.trans h1.grandchildren,
    h2.lookups.trans h1.lookups, h2.groups.trans h1.groups, h2.manager.trans h1.manager, Nat.le_trans h1.level h2.level,
    e1 ++ e2, by rw [h5, h3, List.append_assoc], ?_⟩
  intro i hi
  rcases List.mem_append.1 hi with hi | hi
  · exact h4 i hi
  · exact h6 i hi

theorem Frame.say (c : Core) {items : List Item} (h : ∀ i ∈ items, i.ofTask = true) : Frame c (c.say items) :=
  ⟨rfl, rfl, rfl, rfl, rfl, rfl, Nat.le_refl _, items, rfl, h⟩

theorem Frame.modify (c : Core) (id : EId) (f : Entity → Entity) : Frame c (c.modify id f) :=
  ⟨rfl, rfl, rfl, rfl, rfl, rfl, Nat.le_refl _, [], by simp [Core.modify], by simp⟩

theorem Frame.shutdownProcs (c : Core) (hs : List Handle) : Frame c (c.shutdownProcs hs) := by
  unfold Core.shutdownProcs
  split
  · split
    · exact Frame.say c (by simp [Item.ofTask])
    · exact ⟨rfl, rfl, rfl, rfl, rfl, rfl, Nat.le_refl _, [.prepareOwn hs], rfl, by simp [Item.ofTask]⟩
  · exact ⟨rfl, rfl, rfl, rfl, rfl, rfl, Nat.le_refl _, [.prepareOwn hs], rfl, by simp [Item.ofTask]⟩

theorem Frame.scaleIn (c : Core) (e : Entity) : Frame c (c.scaleIn e) := by
  unfold Core.scaleIn
  dsimp only
  split
  · exact .refl c
  · split
    · refine Frame.say c ?_
      intro i hi
      obtain ⟨h, _, rfl⟩ := List.mem_map.1 hi
      rfl
    · exact .shutdownProcs c _

theorem spawnAll_items (lib : Lib) (e : EId) : ∀ (is : List Inst) (n : Nat), ∀ i ∈ (spawnAll lib e n is).2.2, i.ofTask = true
  | [], _, i, hi => by simp [spawnAll] at hi
  | x :: xs, n, i, hi => by
    have ih := spawnAll_items lib e xs (n + 1)
    unfold spawnAll at hi
    dsimp only at hi
    split at hi
    · rcases List.mem_cons.1 hi with rfl | hi
      · rfl
      · exact ih i hi
    · rcases List.mem_cons.1 hi with rfl | hi
      · rfl
      · exact ih i hi

theorem Frame.scaleOut (lib : Lib) (c : Core) (e : Entity) : Frame c (c.scaleOut lib e) := by
  unfold Core.scaleOut
  dsimp only
  split
  · exact .refl c
  · exact ⟨rfl, rfl, rfl, rfl, rfl, rfl, Nat.le_refl _, _, rfl, spawnAll_items lib e.id _ _⟩

theorem Frame.scaleInstances (lib : Lib) (c : Core) (id : EId) : Frame c (c.scaleInstances lib id) := by
  unfold Core.scaleInstances
  split
  · exact (Frame.scaleIn c _).trans (.scaleOut lib _ _)
  · exact .refl c

theorem Frame.scaleMembers (lib : Lib) : ∀ (ms : List EId) (c : Core), Frame c (c.scaleMembers lib ms)
  | [], c => .refl c
  | id :: ms, c => (Frame.scaleInstances lib c id).trans (Frame.scaleMembers lib ms _)

theorem Frame.stopLast (c : Core) (k : Kind) (hs : List Handle) : Frame c (c.stopLast k hs) := by
  unfold Core.stopLast
  split
  · exact .refl c
  · split
    · exact .shutdownProcs c _
    · exact Frame.say c (by simp [Item.ofTask])

theorem Frame.restartDone (c : Core) (id : EId) (o : Bool) : Frame c (c.restartDone id o) :=
  (Frame.modify c id _).trans (Frame.say _ (by simp [Item.ofTask]))

theorem raise_le (a b : Runlevel) : a.toNat ≤ (a.raise b).toNat := by
  unfold Runlevel.raise; split <;> omega

theorem raise_ge (a b : Runlevel) : b.toNat ≤ (a.raise b).toNat := by
  unfold Runlevel.raise; split <;> omega

theorem Frame.act (lib : Lib) (a : Act) (b : Body) (c : Core) : Frame c (act lib a b c).1 := by
  unfold DManager.act
  split
  · dsimp only
    split
    · exact (Frame.scaleMembers lib _ c).trans (Frame.say _ (by simp [Item.ofTask]))
    · exact Frame.scaleMembers lib _ c
  · exact ⟨rfl, rfl, rfl, rfl, rfl, rfl, raise_le _ _, [.bootDone], rfl, by simp [Item.ofTask]⟩
  · exact Frame.say c (by simp [Item.ofTask])
  · split
    · exact .refl c
    · dsimp only
      split
      · exact .refl c
      · exact (Frame.modify c _ _).trans (.stopLast _ _ _)

theorem Frame.freshGone (id : EId) (o : Bool) (ps : List Handle) (fr : List Pid) (pid : Pid) (c : Core) :
    Frame c (freshGone id o ps fr pid c).1 := by
  unfold DManager.freshGone
  split
  · dsimp only
    split
    · exact Frame.restartDone c id o
    · exact Frame.stopLast c .server ps
  · exact .refl c

theorem Frame.handle (b : Body) (m : Msg) (h : Core → Core × Body × Dispatch) (hh : DManager.handle b m = some h) (c : Core) :
    Frame c (h c).1 := by
  unfold DManager.handle at hh
  split at hh
  · cases hh
  · cases hh
    dsimp only
    split
    · exact Frame.say c (by simp [Item.ofTask])
    · exact .refl c
  · split at hh
    · cases hh; exact .freshGone _ _ _ _ _ c
    · cases hh
      dsimp only
      split <;> exact .refl c
    · cases hh; exact .freshGone _ _ _ _ _ c
    · cases hh; exact .refl c
    · cases hh
      dsimp only
      split
      · split
        · split
          · exact Frame.restartDone c _ _
          · exact Frame.stopLast c .executable _
        · exact .refl c
      · exact .refl c
    · cases hh

/-- The tasks of the manager keep the frame. -/
theorem frame_keeps (lib : Lib) : Keeps (ops lib) Frame where
  refl := .refl
  trans := .trans
  act := .act lib
  handle := .handle

theorem Frame.tasks (lib : Lib) (s : State) (m : Msg) : Frame s.st (s.tasks lib m).st :=
  (frame_keeps lib).coordMsg m s.conts s.st

theorem Frame.then_ (lib : Lib) (s : State) (g : List (Act × Body)) : Frame s.st (s.step (ops lib) (.then_ g)).st :=
  (frame_keeps lib).coordThen _ s.conts s.st

theorem Frame.thenAll (lib : Lib) : ∀ (gs : List (List (Act × Body))) (s : State), Frame s.st (s.thenAll lib gs).st
  | [], s => .refl s.st
  | g :: gs, s => (Frame.then_ lib s g).trans (Frame.thenAll lib gs _)

theorem Frame.boot (lib : Lib) (s : State) : Frame s.st (s.boot lib).st := Frame.thenAll lib _ s

theorem Frame.entities (c : Core) (f : List Entity → List Entity) : Frame c { c with entities := f c.entities } :=
  ⟨rfl, rfl, rfl, rfl, rfl, rfl, Nat.le_refl _, [], by simp, by simp⟩

theorem Frame.level_ (c : Core) (r : Runlevel) : Frame c { c with runlevel := c.runlevel.raise r } :=
  ⟨rfl, rfl, rfl, rfl, rfl, rfl, raise_le _ _, [], by simp, by simp⟩

theorem Frame.shutdown (lib : Lib) (s : State) : Frame s.st (s.shutdown lib).st := by
  unfold State.shutdown
  dsimp only
  refine Frame.trans ?_ (Frame.thenAll lib _ _)
  refine Frame.trans (Frame.level_ s.st .shutdown) ?_
  exact Frame.entities _ (fun es => es.map fun e => if e.id = s.st.manager then e else e.scale 0)

theorem Frame.scaleRequested (as : List (Alias × Nat)) : ∀ (ids : List EId) (c : Core),
    Frame c (ids.foldl (Core.scaleRequested as) c)
  | [], c => .refl c
  | id :: ids, c => (Frame.modify c id _).trans (Frame.scaleRequested as ids _)

theorem Frame.scale (lib : Lib) (s : State) (as : List (Alias × Nat)) : Frame s.st (s.scale lib as).st := by
  unfold State.scale
  dsimp only
  refine Frame.trans ?_ (Frame.thenAll lib _ _)
  exact Frame.scaleRequested as _ s.st

theorem Frame.restart (lib : Lib) (s : State) (as : List Alias) : Frame s.st (s.restart lib as).st := Frame.thenAll lib _ s

theorem Frame.restartBatches (lib : Lib) (s : State) (as : List Gid) : Frame s.st (s.restartBatches lib as).st :=
  Frame.thenAll lib _ s

theorem Frame.own_ (c : Core) (o : List Own) : Frame c { c with own := o } :=
  ⟨rfl, rfl, rfl, rfl, rfl, rfl, Nat.le_refl _, [], by simp, by simp⟩

end Casual.DManager

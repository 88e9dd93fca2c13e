import Verif.DManager.DownProps
import Verif.Task.Carry

/-! Who is told to stop: the processes the domain manager has spawned. -/
namespace Casual.DManager

open Casual.Task

/-- The domain manager has spawned the process - or there is none. -/
def Owned (log : List Item) (p : Pid) : Prop := p = 0 ∨ ∃ e, .spawned e p ∈ log

def Replied (log : List Item) (p : Pid) : Prop := ∃ hs, .inp (.prepareReply hs) ∈ log ∧ ∃ h ∈ hs, h.pid = p

/-- What is true when something is done to stop a process. -/
def OwnOK (before : List Item) : Item → Prop
  | .terminate p => Owned before p ∨ Replied before p
  | .shutdownReq h => Owned before h.pid ∨ Replied before h.pid
  | .prepare hs => ∀ h ∈ hs, Owned before h.pid
  | .prepareOwn hs => ∀ h ∈ hs, Owned before h.pid
  | _ => True

theorem Owned.append {log : List Item} {p : Pid} (ext : List Item) (h : Owned log p) : Owned (log ++ ext) p := by
  rcases h with h | ⟨e, h⟩
  · exact Or.inl h
  · exact Or.inr ⟨e, List.mem_append_left _ h⟩

theorem Replied.append {log : List Item} {p : Pid} (ext : List Item) (h : Replied log p) : Replied (log ++ ext) p := by
  obtain ⟨hs, h1, h2⟩ := h
  exact ⟨hs, List.mem_append_left _ h1, h2⟩

/-- `m` is the entity of the domain manager itself, and `pm` its pid. -/
structure OInv (m : EId) (pm : Pid) (c : Core) : Prop where
  mgr : c.manager = m
  listed : pm ∈ c.whitelisted
  me : ∀ x ∈ c.entities, x.id = m → x.instances ≠ [] ∧ ∀ i ∈ x.instances, i.handle.pid = pm
  ent : ∀ x ∈ c.entities, x.id ≠ m → ∀ i ∈ x.instances, Owned c.log i.handle.pid
  own : ∀ hs, .prepareReply hs ∈ c.own → ∀ h ∈ hs, Owned c.log h.pid
  items : Always OwnOK c.log

/-- The log only grows. -/
def Grows (c c' : Core) : Prop := ∃ ext, c'.log = c.log ++ ext

theorem Grows.refl (c : Core) : Grows c c := ⟨[], by simp⟩
theorem Grows.trans {a b c : Core} (h1 : Grows a b) (h2 : Grows b c) : Grows a c := by
  obtain ⟨x, h1⟩ := h1
  obtain ⟨y, h2⟩ := h2
  exact ⟨x ++ y, by rw [h2, h1, List.append_assoc]⟩

/-- A unit does not touch the domain manager itself, and remembers owned processes. -/
def UnitOK (m : EId) (c : Core) (u : Unit_) : Prop :=
  (match u.action with
    | some (.scale ms) => m ∉ ms
    | some (.restart id) => id ≠ m
    | _ => True) ∧
  match u.body with
  | .restart id _ ps _ => id ≠ m ∧ ∀ h ∈ ps, Owned c.log h.pid
  | _ => True

section
variable {m : EId} {pm : Pid}

/-- The entities stay, and so does the own queue. -/
theorem OInv.say {c c' : Core} (h : OInv m pm c) {ext : List Item} (hg : c'.manager = c.manager) (hw : c'.whitelisted = c.whitelisted)
    (he : c'.entities = c.entities) (hx : c'.log = c.log ++ ext)
    (ho : ∀ hs, .prepareReply hs ∈ c'.own → .prepareReply hs ∈ c.own ∨ ∀ h ∈ hs, Owned c.log h.pid)
    (hi : ∀ a x b, ext = a ++ x :: b → OwnOK (c.log ++ a) x) : OInv m pm c' := by
  refine ⟨hg.trans h.mgr, hw ▸ h.listed, by rw [he]; exact h.me, ?_, ?_, ?_⟩
  · rw [he, hx]
    intro x hx hm i hi
    exact (h.ent x hx hm i hi).append ext
  · rw [hx]
    intro hs hm hh hmem
    rcases ho hs hm with h1 | h1
    · exact (h.own hs h1 hh hmem).append ext
    · exact (h1 hh hmem).append ext
  · rw [hx]
    exact Always.appendSplit h.items hi

/-- Items that are about something else. -/
def Item.harmless : Item → Bool
  | .terminate _ | .shutdownReq _ | .prepare _ | .prepareOwn _ => false
  | _ => true

theorem harmless_ok {a : Item} (h : a.harmless = true) (log : List Item) : OwnOK log a := by
  cases a <;> first | trivial | cases h

theorem OInv.mild {c c' : Core} (h : OInv m pm c) {ext : List Item} (hg : c'.manager = c.manager) (hw : c'.whitelisted = c.whitelisted)
    (he : c'.entities = c.entities) (hx : c'.log = c.log ++ ext) (ho : c'.own = c.own) (hi : ∀ x ∈ ext, x.harmless = true) :
    OInv m pm c' := by
  refine h.say hg hw he hx (fun hs hm => Or.inl (by rw [ho] at hm; exact hm)) ?_
  intro a x b hxe
  exact harmless_ok (hi x (by rw [hxe]; simp)) _

/-- An entity changes, and it is not the manager's. -/
theorem OInv.modify {c : Core} (h : OInv m pm c) (id : EId) (f : Entity → Entity) (hid : ∀ e, (f e).id = e.id) (hm : id ≠ m)
    (hi : ∀ e ∈ c.entities, e.id = id → ∀ i ∈ (f e).instances, Owned c.log i.handle.pid) : OInv m pm (c.modify id f) := by
  refine ⟨h.mgr, h.listed, ?_, ?_, h.own, h.items⟩
  · intro x hx hxm
    obtain ⟨e, he, rfl⟩ := List.mem_map.1 hx
    split at hxm
    · rename_i h1
      rw [hid] at hxm
      exact absurd (h1.symm.trans hxm) hm
    · rename_i h1
      rw [if_neg h1]
      exact h.me e he hxm
  · intro x hx hxm i hii
    obtain ⟨e, he, rfl⟩ := List.mem_map.1 hx
    split at hii
    · rename_i h1
      exact hi e he h1 i hii
    · rename_i h1
      rw [if_neg h1] at hxm
      exact h.ent e he hxm i hii

theorem removeInst_pid {r : Bool} {pid : Pid} {i : Inst} {is : List Inst} (h : i ∈ removeInst r pid is) :
    i ∈ is ∨ i.handle.pid = 0 := by
  rcases removeInst_mem h with h | h
  · exact Or.inl h
  · exact Or.inr (by rw [h])

theorem scale_pid {e : Entity} {n : Nat} {i : Inst} (h : i ∈ (e.scale n).instances) :
    (∃ j ∈ e.instances, j.handle = i.handle) ∨ i.handle.pid = 0 := by
  unfold Entity.scale at h
  split at h
  · dsimp only at h
    obtain ⟨j, hj, rfl⟩ := List.mem_map.1 h
    rcases List.mem_append.1 hj with hj | hj
    · exact Or.inl ⟨j, hj, rfl⟩
    · rw [(List.mem_replicate.1 hj).2]
      exact Or.inr rfl
  · dsimp only at h
    have sorted : ∀ j, j ∈ e.instances.filter (fun i => i.state e.id.kind = .running) ++
        e.instances.filter (fun i => i.state e.id.kind ≠ .running) → j ∈ e.instances := by
      intro j hj
      rcases List.mem_append.1 hj with hj | hj <;> exact (List.mem_filter.1 hj).1
    rcases List.mem_append.1 h with h | h
    · obtain ⟨j, hj, rfl⟩ := List.mem_map.1 h
      exact Or.inl ⟨j, sorted j (List.mem_of_mem_take hj), rfl⟩
    · obtain ⟨j, hj, rfl⟩ := List.mem_map.1 (List.mem_filter.1 h).1
      exact Or.inl ⟨j, sorted j (List.mem_of_mem_drop hj), rfl⟩

/-! ### Stopping -/

theorem OInv.shutdownProcs {c : Core} (h : OInv m pm c) {hs : List Handle} (ho : ∀ x ∈ hs, Owned c.log x.pid) :
    OInv m pm (c.shutdownProcs hs) ∧ Grows c (c.shutdownProcs hs) := by
  have split1 : ∀ {q y : Item} {a z : List Item}, [q] = a ++ y :: z → a = [] ∧ y = q := by
    intro q y a z hh
    cases a with
    | nil => simp at hh; exact ⟨rfl, hh.1.symm⟩
    | cons _ _ => simp at hh
  have own : OInv m pm (({ c with own := c.own ++ [.prepareReply hs] } : Core).say [.prepareOwn hs]) := by
    refine h.say (ext := [.prepareOwn hs]) rfl rfl rfl rfl ?_ ?_
    · intro hs' hm
      rcases List.mem_append.1 hm with hm | hm
      · exact Or.inl hm
      · right
        simp at hm
        subst hm
        exact ho
    · intro a x b hx
      obtain ⟨rfl, rfl⟩ := split1 hx
      rw [List.append_nil]
      exact ho
  unfold Core.shutdownProcs
  split
  · split
    · refine ⟨h.say (ext := [.prepare hs]) rfl rfl rfl rfl (fun _ h => Or.inl h) ?_, _, rfl⟩
      intro a x b hx
      obtain ⟨rfl, rfl⟩ := split1 hx
      rw [List.append_nil]
      exact ho
    · exact ⟨own, _, rfl⟩
  · exact ⟨own, _, rfl⟩

theorem OInv.terminates {c : Core} (h : OInv m pm c) {hs : List Handle} (ho : ∀ x ∈ hs, Owned c.log x.pid) :
    OInv m pm (c.say (hs.map fun h => .terminate h.pid)) := by
  refine h.say (ext := hs.map fun h => .terminate h.pid) rfl rfl rfl rfl (fun _ h => Or.inl h) ?_
  intro a x b hx
  have hm : x ∈ hs.map fun h => Item.terminate h.pid := by rw [hx]; simp
  obtain ⟨y, hy, rfl⟩ := List.mem_map.1 hm
  exact Or.inl ((ho y hy).append a)

theorem OInv.scaleIn {c : Core} (h : OInv m pm c) {e : Entity} (he : e ∈ c.entities) (hm : e.id ≠ m) :
    OInv m pm (c.scaleIn e) := by
  have ho : ∀ x ∈ e.shutdownable.reverse.map (·.handle), Owned c.log x.pid := by
    intro x hx
    obtain ⟨i, hi, rfl⟩ := List.mem_map.1 hx
    refine h.ent e he hm i ?_
    rw [List.mem_reverse] at hi
    unfold Entity.shutdownable at hi
    rw [← series_append (fun i => i.state e.id.kind = .scaleIn) e.instances]
    simp [hi]
  unfold Core.scaleIn
  dsimp only
  split
  · exact h
  · split
    · exact h.terminates ho
    · exact (h.shutdownProcs ho).1

theorem OInv.scaleOut {lib : Lib} {c : Core} (h : OInv m pm c) {e : Entity} (he : e ∈ c.entities) (hm : e.id ≠ m) :
    OInv m pm (c.scaleOut lib e) := by
  unfold Core.scaleOut
  dsimp only
  split
  · exact h
  · have hapart := spawnable_append e
    generalize e.spawnable = s at *
    have hpid : ∀ i ∈ s.1 ++ (spawnAll lib e.id c.spawns s.2.1).1 ++ s.2.2,
        Owned (c.log ++ (spawnAll lib e.id c.spawns s.2.1).2.2) i.handle.pid := by
      intro i hi
      have old : i ∈ e.instances → Owned (c.log ++ (spawnAll lib e.id c.spawns s.2.1).2.2) i.handle.pid := fun hi =>
        (h.ent e he hm i hi).append _
      simp only [List.mem_append] at hi
      rcases hi with (hi | hi) | hi
      · exact old (by rw [← hapart]; simp [hi])
      · obtain ⟨j, hj, ⟨p, k, h1, h2, h3⟩ | h2⟩ := spawnAll_inst hi
        · rw [h2]
          exact Or.inr ⟨e.id, List.mem_append_right _ h3⟩
        · rw [h2]
          exact (h.ent e he hm j (by rw [← hapart]; simp [hj])).append _
      · exact old (by rw [← hapart]; simp [hi])
    refine ⟨h.mgr, h.listed, ?_, ?_, ?_, ?_⟩
    · intro x hx hxm
      obtain ⟨y, hy, rfl⟩ := List.mem_map.1 hx
      split at hxm
      · rename_i h1
        exact absurd (h1.symm.trans hxm) hm
      · rename_i h1
        rw [if_neg h1]
        exact h.me y hy hxm
    · intro x hx hxm i hi
      obtain ⟨y, hy, rfl⟩ := List.mem_map.1 hx
      split at hi
      · exact hpid i hi
      · rename_i h1
        rw [if_neg h1] at hxm
        exact (h.ent y hy hxm i hi).append _
    · intro hs hin hh hmem
      rcases List.mem_append.1 hin with hin | hin
      · exact (h.own hs hin hh hmem).append _
      · simp at hin
    · refine Always.appendSplit h.items ?_
      intro a x b hx
      have : x ∈ (spawnAll lib e.id c.spawns s.2.1).2.2 := by rw [hx]; simp
      rcases spawnAll_item this with h1 | ⟨_, h1, _⟩ <;> rw [h1] <;> trivial

theorem OInv.scaleInstances {lib : Lib} {c : Core} (h : OInv m pm c) {id : EId} (hm : id ≠ m) : OInv m pm (c.scaleInstances lib id) := by
  unfold Core.scaleInstances
  split
  · rename_i e hf
    have hid := find_id hf
    have he := find_mem hf
    refine (h.scaleIn he (by rw [hid]; exact hm)).scaleOut ?_ (by rw [hid]; exact hm)
    rw [scaleIn_entities]
    exact he
  · exact h

theorem OInv.scaleMembers {lib : Lib} : ∀ (ms : List EId) {c : Core}, m ∉ ms → OInv m pm c → OInv m pm (c.scaleMembers lib ms)
  | [], _, _, h => h
  | id :: ms, c, hm, h => by
    simp only [List.mem_cons, not_or] at hm
    exact OInv.scaleMembers ms hm.2 (c := c.scaleInstances lib id) (h.scaleInstances (fun hc => hm.1 hc.symm))

theorem OInv.stopLast {c : Core} (h : OInv m pm c) (k : Kind) {hs : List Handle} (ho : ∀ x ∈ hs, Owned c.log x.pid) :
    OInv m pm (c.stopLast k hs) := by
  unfold Core.stopLast
  split
  · exact h
  · rename_i x hx
    have hxo := ho x (List.mem_of_getLast? hx)
    split
    · exact (h.shutdownProcs (by simpa using hxo)).1
    · exact h.terminates (hs := [x]) (by simpa using hxo)

theorem OInv.restart {c : Core} (h : OInv m pm c) (id : EId) (o : Bool) (hm : id ≠ m) :
    OInv m pm (c.modify id fun e => { e with restart := o }) :=
  h.modify id _ (fun _ => rfl) hm (fun e he hid i hi => h.ent e he (by rw [hid]; exact hm) i hi)

theorem OInv.restartDone {c : Core} (h : OInv m pm c) (id : EId) (o : Bool) (hm : id ≠ m) : OInv m pm (c.restartDone id o) := by
  unfold Core.restartDone
  exact (h.restart id o hm).mild (ext := [.restarted id]) rfl rfl rfl rfl rfl (by simp [Item.harmless])

theorem grows_frame {c c' : Core} (h : Frame c c') : Grows c c' := by
  obtain ⟨ext, h, _⟩ := h.log
  exact ⟨ext, h⟩

theorem eraseProc_mem {pid : Pid} {h : Handle} : ∀ {hs : List Handle}, h ∈ eraseProc pid hs → h ∈ hs
  | [], hm => hm
  | x :: hs, hm => by
    unfold eraseProc at hm
    split at hm
    · exact List.mem_cons_of_mem _ hm
    · rcases List.mem_cons.1 hm with rfl | hm
      · exact List.mem_cons_self
      · exact List.mem_cons_of_mem _ (eraseProc_mem hm)

theorem own_carry (lib : Lib) : Carry (ops lib) Grows (OInv m pm) (UnitOK m) where
  refl := Grows.refl
  trans := Grows.trans
  frame := by
    rintro s s' u ⟨ext, hx⟩ ⟨h1, h2⟩
    refine ⟨h1, ?_⟩
    split
    · rename_i hb
      rw [hb] at h2
      exact ⟨h2.1, fun h hm => by rw [hx]; exact (h2.2 h hm).append ext⟩
    · trivial
  act := by
    intro s u a ha hi hu
    refine ⟨?_, grows_frame (Frame.act lib a u.body s), ?_⟩
    · have h1 := hu.1
      rw [ha] at h1
      show OInv m pm (DManager.act lib a u.body s).1
      unfold DManager.act
      split
      · dsimp only
        split
        · exact (OInv.scaleMembers _ h1 hi).mild (ext := [_]) rfl rfl rfl rfl rfl (by simp [Item.harmless])
        · exact OInv.scaleMembers _ h1 hi
      · exact hi.mild (ext := [.bootDone]) rfl rfl rfl rfl rfl (by simp [Item.harmless])
      · exact hi.mild (ext := [_]) rfl rfl rfl rfl rfl (by simp [Item.harmless])
      · split
        · exact hi
        · rename_i e hf
          dsimp only
          split
          · exact hi
          · refine (hi.restart _ true h1).stopLast _ ?_
            intro x hx
            obtain ⟨i, hii, rfl⟩ := List.mem_map.1 hx
            exact hi.ent e (find_mem hf) (by rw [find_id hf]; exact h1) i hii
    · have h1 := hu.1
      rw [ha] at h1
      refine ⟨trivial, ?_⟩
      show match (DManager.act lib a u.body s).2.1 with
        | .restart id _ ps _ => id ≠ m ∧ ∀ h ∈ ps, Owned (DManager.act lib a u.body s).1.log h.pid
        | _ => True
      have keep : ∀ c' : Core, Grows s c' → match u.body with
          | .restart id _ ps _ => id ≠ m ∧ ∀ h ∈ ps, Owned c'.log h.pid
          | _ => True := by
        rintro c' ⟨ext, hx⟩
        have h2 := hu.2
        split
        · rename_i hb
          rw [hb] at h2
          exact ⟨h2.1, fun h hm => by rw [hx]; exact (h2.2 h hm).append ext⟩
        · trivial
      have hg := grows_frame (Frame.act lib a u.body s)
      cases a with
      | scale ms =>
        unfold DManager.act
        dsimp only
        cases hs : (s.scaleMembers lib ms).settled ms <;> simp
      | bootDone => exact keep _ hg
      | event w => exact keep _ hg
      | restart id =>
        unfold DManager.act at hg ⊢
        dsimp only at hg ⊢
        cases hf : s.find id with
        | none => exact keep s (Grows.refl s)
        | some e =>
          rw [hf] at hg
          dsimp only at hg ⊢
          cases hemp : (e.instances.map (·.handle)).isEmpty with
          | true => simp only [if_true]; exact keep s (Grows.refl s)
          | false =>
            rw [hemp] at hg
            simp only [Bool.false_eq_true, if_false] at hg ⊢
            refine ⟨h1, ?_⟩
            intro x hx
            obtain ⟨ext, hext⟩ := hg
            rw [hext]
            obtain ⟨i, hii, rfl⟩ := List.mem_map.1 hx
            exact (hi.ent e (find_mem hf) (by rw [find_id hf]; exact h1) i hii).append ext
  handle := by
    intro s u msg h hh hi hu
    refine ⟨?_, grows_frame (Frame.handle _ _ _ hh s), hu.1, ?_⟩
    all_goals
      have h2 := hu.2
      have hh' : DManager.handle u.body msg = some h := hh
      unfold DManager.handle at hh'
    · split at hh'
      · cases hh'
      · cases hh'
        dsimp only
        split
        · exact hi.mild (ext := [_]) rfl rfl rfl rfl rfl (by simp [Item.harmless])
        · exact hi
      · rename_i id o ps fr hb
        rw [hb] at h2
        have fg : ∀ ps' pid, (∀ x ∈ ps', Owned s.log x.pid) → OInv m pm (freshGone id o ps' fr pid s).1 := by
          intro ps' pid hps
          unfold freshGone
          split
          · dsimp only
            split
            · exact hi.restartDone id o h2.1
            · exact hi.stopLast .server hps
          · exact hi
        split at hh'
        · cases hh'; exact fg _ _ (fun x hx => h2.2 x (eraseProc_mem hx))
        · cases hh'
          dsimp only
          split <;> exact hi
        · cases hh'; exact fg _ _ h2.2
        · cases hh'; exact hi
        · cases hh'
          dsimp only
          split
          · split
            · split
              · exact hi.restartDone id o h2.1
              · exact hi.stopLast .executable h2.2
            · exact hi
          · exact hi
        · cases hh'
    · have hg := grows_frame (Frame.handle _ _ _ hh s)
      dsimp only
      split at hh'
      · cases hh'
      · cases hh'
        rename_i es _
        cases hs : s.settled es <;> simp [hs]
      · rename_i id o ps fr hb
        rw [hb] at h2
        obtain ⟨ext, hext⟩ := hg
        have own : ∀ ps' : List Handle, (∀ x ∈ ps', x ∈ ps) → ∀ x ∈ ps', Owned (h s).1.log x.pid := by
          intro ps' hsub x hx
          rw [hext]
          exact (h2.2 x (hsub x hx)).append ext
        have fg : ∀ ps' pid, (∀ x ∈ ps', x ∈ ps) → h = freshGone id o ps' fr pid → match (h s).2.1 with
            | .restart id _ ps _ => id ≠ m ∧ ∀ x ∈ ps, Owned (h s).1.log x.pid
            | _ => True := by
          intro ps' pid hsub he
          have key : ∃ fr', (h s).2.1 = .restart id o ps' fr' := by
            rw [he]
            unfold freshGone
            split
            · dsimp only
              split
              · exact ⟨_, rfl⟩
              · exact ⟨_, rfl⟩
            · exact ⟨_, rfl⟩
          obtain ⟨fr', hk⟩ := key
          rw [hk]
          exact ⟨h2.1, own ps' hsub⟩
        split at hh'
        · cases hh'; exact fg _ _ (fun x hx => eraseProc_mem hx) rfl
        · cases hh'
          cases hf : s.find id with
          | none =>
            simp only [hf] at own ⊢
            exact ⟨h2.1, own _ (fun _ h => h)⟩
          | some e =>
            simp only [hf] at own ⊢
            exact ⟨h2.1, own _ (fun _ h => h)⟩
        · cases hh'; exact fg _ _ (fun _ h => h) rfl
        · cases hh'
          exact ⟨h2.1, fun x hx => h2.2 x (eraseProc_mem hx)⟩
        · cases hh'
          dsimp only at own ⊢
          cases hf : s.find id with
          | none => exact ⟨h2.1, h2.2⟩
          | some e =>
            simp only [hf] at own
            dsimp only
            cases hal : decide (e.alias_ = ‹Alias›) with
            | false =>
              simp only [decide_eq_false_iff_not] at hal
              simp only [hal, if_false]
              exact ⟨h2.1, h2.2⟩
            | true =>
              simp only [decide_eq_true_eq] at hal
              simp only [hal, if_true] at own ⊢
              cases hemp : ps.isEmpty with
              | true =>
                rw [hemp] at own
                simp only [if_true] at own ⊢
                exact ⟨h2.1, own ps (fun _ h => h)⟩
              | false =>
                rw [hemp] at own
                simp only [Bool.false_eq_true, if_false] at own ⊢
                exact ⟨h2.1, own ps (fun _ h => h)⟩
        · cases hh'

/-! ### The inputs -/

/-- The state, and the units of the coordinator. -/
def SInv (m : EId) (pm : Pid) (s : State) : Prop := OInv m pm s.st ∧ ∀ g ∈ s.conts, ∀ u ∈ g, UnitOK m s.st u

theorem SInv.tasks {lib : Lib} {s : State} (h : SInv m pm s) (msg : Msg) : SInv m pm (s.tasks lib msg) := by
  obtain ⟨h1, _, h2⟩ := (own_carry lib).msg msg h.1 h.2
  exact ⟨h1, h2⟩

theorem SInv.thenAll {lib : Lib} : ∀ (gs : List (List (Act × Body))) {s : State}, SInv m pm s →
    (∀ g ∈ gs, ∀ p ∈ g, p.2 = .idle ∧ match p.1 with
      | .scale ms => m ∉ ms
      | .restart id => id ≠ m
      | _ => True) → SInv m pm (s.thenAll lib gs)
  | [], _, h, _ => h
  | g :: gs, s, h, hg => by
    obtain ⟨h1, _, h2⟩ := (own_carry (m := m) (pm := pm) lib).then_ g (c := s) h.1 (by
      intro p hp id
      obtain ⟨h3, h4⟩ := hg g List.mem_cons_self p hp
      refine ⟨?_, by rw [h3]; trivial⟩
      dsimp only
      obtain ⟨a, b⟩ := p
      cases a <;> first | trivial | exact h4) h.2
    exact SInv.thenAll gs (s := s.step (ops lib) (.then_ g)) ⟨h1, h2⟩ (fun g' hg' => hg g' (List.mem_cons_of_mem _ hg'))

/-- The state changes, the tasks do not. -/
theorem SInv.on {s s' : State} (h : SInv m pm s) (hc : ∀ g ∈ s'.conts, g ∈ s.conts) (hg : Grows s.st s'.st) (hi : OInv m pm s'.st) :
    SInv m pm s' := by
  refine ⟨hi, ?_⟩
  intro g hgm u hu
  obtain ⟨ext, hx⟩ := hg
  obtain ⟨h1, h2⟩ := h.2 g (hc g hgm) u hu
  refine ⟨h1, ?_⟩
  split
  · rename_i hb
    rw [hb] at h2
    exact ⟨h2.1, fun x hm => by rw [hx]; exact (h2.2 x hm).append ext⟩
  · trivial

theorem byPid_notMe {c : Core} (h : OInv m pm c) {k : Kind} {pid : Pid} {e : Entity} (hp : pid ≠ pm) (hb : c.byPid k pid = some e) :
    e ∈ c.entities ∧ e.id ≠ m := by
  obtain ⟨h1, _, h3⟩ := byPid_some hb
  refine ⟨h1, fun hm => ?_⟩
  obtain ⟨i, hi, h4⟩ := count_pos.1 h3
  exact hp (h4.symm.trans ((h.me e h1 hm).2 i hi))

theorem OInv.dropIn {c : Core} (h : OInv m pm c) (k : Kind) {pid : Pid} (hp : pid ≠ pm) : OInv m pm (c.dropIn k pid) := by
  unfold Core.dropIn
  split
  · rename_i e hb
    obtain ⟨h1, h2⟩ := byPid_notMe h hp hb
    refine h.modify e.id _ (fun _ => rfl) h2 ?_
    intro x hx hid i hi
    rcases removeInst_pid hi with h3 | h3
    · exact h.ent x hx (by rw [hid]; exact h2) i h3
    · exact Or.inl h3
  · exact h

theorem OInv.remove {c : Core} (h : OInv m pm c) {pid : Pid} (hp : pid ≠ pm) :
    OInv m pm (c.remove pid).1 ∧ ∀ id, (c.remove pid).2 = some id → id ≠ m := by
  have h0 : OInv m pm (c.forget pid) := by
    refine ⟨h.mgr, ?_, h.me, h.ent, h.own, h.items⟩
    exact List.mem_filter.2 ⟨h.listed, by simpa using hp.symm⟩
  unfold Core.remove
  generalize c.forget pid = c0 at h0
  have modify : ∀ (c : Core) (k : Kind) (e : Entity), OInv m pm c → c.byPid k pid = some e →
      OInv m pm (c.modify e.id fun e => { e with instances := removeInst e.restart pid e.instances }) := by
    intro c k e h hb
    have := h.dropIn k hp
    unfold Core.dropIn at this
    rw [hb] at this
    exact this
  have second : ∀ c1 : Core, OInv m pm c1 → ∀ r : Core × Option EId,
      r = (match c1.byPid .executable pid with
        | some e => (c1.modify e.id fun e => { e with instances := removeInst e.restart pid e.instances },
            if e.restart && decide (c1.runlevel = Runlevel.running) then some e.id else none)
        | none => (c1, none)) → OInv m pm r.1 ∧ ∀ id, r.2 = some id → id ≠ m := by
    intro c1 h1 r hr
    cases hx : c1.byPid .executable pid with
    | none =>
      simp only [hx] at hr
      subst hr
      exact ⟨h1, fun id hid => by cases hid⟩
    | some e =>
      simp only [hx] at hr
      subst hr
      refine ⟨modify c1 _ e h1 hx, ?_⟩
      intro id hid
      dsimp only at hid
      split at hid
      · cases hid
        exact (byPid_notMe h1 hp hx).2
      · cases hid
  have fin : ∀ c1 : Core, OInv m pm c1 → ∀ r : Core × Option EId,
      r = (match c1.byPid .executable pid with
        | some e => (c1.modify e.id fun e => { e with instances := removeInst e.restart pid e.instances },
            if e.restart && decide (c1.runlevel = Runlevel.running) then some e.id else none)
        | none => (c1, none)) →
      OInv m pm (match r.2 with
        | some id => (r.1, some id)
        | none => (({ r.1 with grandchildren := eraseProc pid r.1.grandchildren } : Core), none)).1 ∧
      ∀ id, (match r.2 with
        | some id => (r.1, some id)
        | none => (({ r.1 with grandchildren := eraseProc pid r.1.grandchildren } : Core), (none : Option EId))).2 = some id → id ≠ m := by
    intro c1 h1 r hr
    obtain ⟨h2, h3⟩ := second c1 h1 r hr
    cases hr2 : r.2 with
    | none =>
      refine ⟨?_, fun id hid => by cases hid⟩
      exact ⟨h2.mgr, h2.listed, h2.me, h2.ent, h2.own, h2.items⟩
    | some id =>
      refine ⟨h2, ?_⟩
      intro id' hid'
      cases hid'
      exact h3 id hr2
  cases hs : c0.byPid .server pid with
  | none =>
    simp only [hs]
    exact fin c0 h0 _ rfl
  | some e =>
    simp only [hs]
    cases hr : (e.restart && decide (c0.runlevel = Runlevel.running)) with
    | true =>
      simp only [if_true]
      refine ⟨modify c0 _ e h0 hs, ?_⟩
      intro id hid
      cases hid
      exact (byPid_notMe h0 hp hs).2
    | false =>
      simp only [Bool.false_eq_true, if_false]
      exact fin _ (modify c0 _ e h0 hs) _ rfl

theorem OInv.prepared {c : Core} (h : OInv m pm c) {hs : List Handle} (ho : ∀ x ∈ hs, Owned c.log x.pid ∨ Replied c.log x.pid) :
    OInv m pm (c.prepared hs) := by
  refine h.say (ext := hs.map fun h => if h.ipc ≠ 0 then .shutdownReq h else .terminate h.pid) rfl rfl rfl rfl (fun _ h => Or.inl h) ?_
  intro a x b hx
  have hm : x ∈ hs.map fun h => if h.ipc ≠ 0 then Item.shutdownReq h else .terminate h.pid := by rw [hx]; simp
  obtain ⟨y, hy, rfl⟩ := List.mem_map.1 hm
  have := (ho y hy).imp (Owned.append a) (Replied.append a)
  split <;> exact this

theorem scalables_notMe {c : Core} (h : OInv m pm c) (as : List Alias) : m ∉ c.scalables as := by
  have key : ∀ a e, c.scalable a = some e → e.id ≠ m := by
    intro a e he hm
    have found : ∀ k, (c.byAlias k a).filter (fun e => !c.untouchable e) = some e → False := by
      intro k hk
      obtain ⟨h1, h2⟩ := Option.filter_eq_some_iff.1 hk
      have h3 : e ∈ c.entities := List.mem_of_find?_eq_some h1
      have hu : c.untouchable e = true := by
        unfold Core.untouchable
        refine List.any_eq_true.2 ⟨pm, h.listed, ?_⟩
        unfold Entity.has
        obtain ⟨h4, h5⟩ := h.me e h3 hm
        cases hi : e.instances with
        | nil => exact absurd hi h4
        | cons i is =>
          simp only [List.any_cons, Bool.or_eq_true, decide_eq_true_eq]
          exact Or.inl (h5 i (by rw [hi]; exact List.mem_cons_self))
      rw [hu] at h2
      cases h2
    unfold Core.scalable at he
    split at he
    · rename_i e' h1
      cases he
      exact found _ h1
    · exact found _ he
  intro hm
  unfold Core.scalables at hm
  dsimp only at hm
  have : ∃ e ∈ (as.foldr insertUniq []).filterMap c.scalable, e.id = m := by
    rcases List.mem_append.1 hm with hm | hm
    · obtain ⟨e, he, h1⟩ := List.mem_map.1 hm
      exact ⟨e, (List.mem_filter.1 he).1, h1⟩
    · obtain ⟨e, he, h1⟩ := List.mem_map.1 hm
      exact ⟨e, (List.mem_filter.1 he).1, h1⟩
  obtain ⟨e, he, h1⟩ := this
  obtain ⟨a, _, h2⟩ := List.mem_filterMap.1 he
  exact key a e h2 h1

theorem order_notMe {sort : List Group → List Group} (hs : StableSort sort) {groups : List Group} {ms : List Member} {b : Batch}
    (hb : b ∈ shutdownOrder sort groups ms m) : m ∉ b.members := by
  intro he
  have hp := shutdown_each_once hs groups ms m
  have h1 : m ∈ (shutdownOrder sort groups ms m).flatMap (·.members) := List.mem_flatMap.2 ⟨b, hb, he⟩
  obtain ⟨x, hx, h2⟩ := List.mem_map.1 (hp.mem_iff.1 h1)
  have := (List.mem_filter.1 hx).2
  simp only [Bool.and_eq_true, decide_eq_true_eq] at this
  exact this.1 h2

theorem OInv.scaleRequested (as : List (Alias × Nat)) : ∀ (ids : List EId) {c : Core}, m ∉ ids → OInv m pm c →
    OInv m pm (ids.foldl (Core.scaleRequested as) c)
  | [], _, _, h => h
  | id :: ids, c, hm, h => by
    simp only [List.mem_cons, not_or] at hm
    refine OInv.scaleRequested as ids hm.2 (c := c.scaleRequested as id) ?_
    unfold Core.scaleRequested
    have hne : id ≠ m := fun hc => hm.1 hc.symm
    refine h.modify id _ ?_ hne ?_
    · intro e; split
      · exact scale_id e _
      · rfl
    · intro e he hid i hi
      have old : ∀ j ∈ e.instances, Owned c.log j.handle.pid := h.ent e he (by rw [hid]; exact hne)
      split at hi
      · rcases scale_pid hi with ⟨j, hj, h1⟩ | h1
        · rw [← h1]; exact old j hj
        · exact Or.inl h1
      · exact old i hi

theorem OInv.adjust {c : Core} (h : OInv m pm c) {pid : Pid} (hp : pid ≠ pm) : OInv m pm (c.adjust pid) := by
  have key : ∀ k e, c.byPid k pid = some e →
      OInv m pm (c.modify e.id fun e => ({ e with instances := removeInst e.restart pid e.instances } : Entity).scale 1) := by
    intro k e hb
    obtain ⟨h1, h2⟩ := byPid_notMe h hp hb
    refine h.modify e.id _ (fun e => scale_id _ _) h2 ?_
    intro x hx hid i hi
    rcases scale_pid hi with ⟨j, hj, h3⟩ | h3
    · rw [← h3]
      rcases removeInst_pid hj with h4 | h4
      · exact h.ent x hx (by rw [hid]; exact h2) j h4
      · exact Or.inl h4
    · exact Or.inl h3
  unfold Core.adjust
  split
  · rename_i e hb; exact key _ e hb
  · split
    · rename_i e hb; exact key _ e hb
    · exact h

/-- The domain manager does not hear of itself. -/
def Input.notOf (pm : Pid) : Input → Prop
  | .exit p => p ≠ pm
  | .connect h _ _ => h.pid ≠ pm
  | _ => True

theorem SInv.shutdown {lib : Lib} (hs : StableSort lib.sort) {s : State} (h : SInv m pm s) : SInv m pm (s.shutdown lib) := by
  unfold State.shutdown
  dsimp only
  have hsc : ∀ s' : State, SInv m pm s' →
      SInv m pm (s'.thenAll lib (scaleGroups (shutdownOrder lib.sort s'.st.groups s'.st.members s'.st.manager) ++ [[(.event 0, .idle)]])) := by
    intro s' h'
    refine h'.thenAll _ ?_
    intro g hg p hp
    rcases List.mem_append.1 hg with hg | hg
    · obtain ⟨b, hb, rfl⟩ := List.mem_map.1 hg
      have : p = (.scale b.members, .idle) := by simpa using hp
      subst this
      refine ⟨rfl, ?_⟩
      rw [h'.1.mgr] at hb
      exact order_notMe hs hb
    · have h1 : g = [(.event 0, .idle)] := by simpa using hg
      subst h1
      have : p = (.event 0, .idle) := by simpa using hp
      subst this
      exact ⟨rfl, trivial⟩
  refine hsc _ ?_
  refine h.on ?_ ⟨[], by simp [State.on, Coord.step]⟩ ?_
  · intro g hg
    exact List.mem_of_mem_take hg
  · refine ⟨h.1.mgr, h.1.listed, ?_, ?_, h.1.own, h.1.items⟩
    · intro x hx hxm
      obtain ⟨e, he, rfl⟩ := List.mem_map.1 hx
      have hmg : s.st.manager = m := h.1.mgr
      split at hxm
      · rename_i h1
        rw [if_pos h1]
        exact h.1.me e he hxm
      · rename_i h1
        rw [scale_id] at hxm
        exact absurd (hxm.trans hmg.symm) h1
    · intro x hx hxm i hi
      obtain ⟨e, he, rfl⟩ := List.mem_map.1 hx
      have hmg : s.st.manager = m := h.1.mgr
      split at hi
      · rename_i h1
        rw [if_pos h1] at hxm
        exact absurd (h1.trans hmg) hxm
      · rename_i h1
        have hne : e.id ≠ m := fun hc => h1 (hc.trans hmg.symm)
        rcases scale_pid hi with ⟨j, hj, h3⟩ | h3
        · rw [← h3]
          exact h.1.ent e he hne j hj
        · exact Or.inl h3

theorem sinv_input {lib : Lib} (hs : StableSort lib.sort) {s : State} (h : SInv m pm s) (i : Input) (hn : i.notOf pm) :
    SInv m pm (s.input lib i) := by
  unfold State.input
  split
  · exact h
  · have h1 : SInv m pm (s.on fun c => c.say [.inp i]) := by
      refine h.on (fun _ h => h) ⟨[.inp i], rfl⟩ ?_
      exact h.1.mild (ext := [.inp i]) rfl rfl rfl rfl rfl (by simp [Item.harmless])
    cases i with
    | own =>
      dsimp only [State.handle]
      unfold State.own
      split
      · exact h1
      · rename_i mm ms hown
        have hown' : s.st.own = mm :: ms := hown
        have h2 : SInv m pm ((s.on fun c => c.say [.inp .own]).on fun c => { c with own := ms }) := by
          refine h1.on (fun _ h => h) ⟨[], by simp [State.on]⟩ ?_
          refine h1.1.say (ext := []) rfl rfl rfl (by simp [State.on]) ?_ ?_
          · intro hs hm
            left
            show _ ∈ s.st.own
            rw [hown']
            exact List.mem_cons_of_mem _ hm
          · intro a x b hx
            simp at hx
        dsimp only
        split
        · exact h2.tasks _
        · rename_i hs'
          refine h2.on (fun _ h => h) ⟨_, rfl⟩ ?_
          refine h2.1.prepared ?_
          intro x hx
          left
          exact (h.1.own hs' (by rw [hown']; exact List.mem_cons_self) x hx).append _
    | exit pid =>
      dsimp only [State.handle]
      split
      · exact h1
      · obtain ⟨h2, h3⟩ := h1.1.remove hn
        have hl := remove_log (s.st.say [.inp (.exit pid)]) pid
        unfold State.exit
        dsimp only
        refine SInv.tasks ?_ _
        refine h1.on (fun _ h => h) ?_ ?_
        · dsimp only [State.on] at h3 ⊢
          split
          · obtain ⟨ext, hx⟩ := grows_frame (Frame.scaleInstances lib ((s.st.say [.inp (.exit pid)]).remove pid).1 ‹EId›)
            exact ⟨ext, by rw [hx, hl]⟩
          · exact ⟨[], by rw [hl]; simp⟩
        · dsimp only [State.on] at h2 h3 ⊢
          split
          · rename_i id hid
            exact h2.scaleInstances (h3 id hid)
          · exact h2
    | connect a x w =>
      dsimp only [State.handle]
      split
      · unfold State.connect
        split
        · refine h1.on (fun _ h => h) ⟨_, rfl⟩ ?_
          exact h1.1.mild (ext := [_]) rfl rfl rfl rfl rfl (by simp [Item.harmless])
        · split
          · refine h1.on (fun _ h => h) ?_ ?_
            · refine Grows.trans (b := (s.st.say [.inp (.connect a x w)]).adjust a.pid) ⟨[], ?_⟩ ⟨[.denied a x], rfl⟩
              rw [List.append_nil]
              unfold Core.adjust
              split
              · rfl
              · split <;> rfl
            · exact (h1.1.adjust hn).mild (ext := [_]) rfl rfl rfl rfl rfl (by simp [Item.harmless])
          · dsimp only
            have h2 : OInv m pm (({ s.st.say [.inp (.connect a x w)] with
                  singletons := if x ≠ 0 then s.st.singletons ++ [(x, a)] else s.st.singletons
                  whitelisted := if w then s.st.whitelisted ++ [a.pid] else s.st.whitelisted } : Core).say [.admitted a x w]) := by
              have h3 := h1.1
              have h4 : OInv m pm ((s.st.say [.inp (.connect a x w)]).say [.admitted a x w]) :=
                h3.mild (ext := [.admitted a x w]) rfl rfl rfl rfl rfl (by simp [Item.harmless])
              refine ⟨h4.mgr, ?_, h4.me, h4.ent, h4.own, h4.items⟩
              show pm ∈ if w then s.st.whitelisted ++ [a.pid] else s.st.whitelisted
              split
              · exact List.mem_append_left _ h.1.listed
              · exact h.1.listed
            have h5 : SInv m pm ((s.on fun c => c.say [.inp (.connect a x w)]).on fun c => ({ c with
                  singletons := if x ≠ 0 then c.singletons ++ [(x, a)] else c.singletons
                  whitelisted := if w then c.whitelisted ++ [a.pid] else c.whitelisted } : Core).say [.admitted a x w]) :=
              h1.on (fun _ h => h) ⟨[.admitted a x w], rfl⟩ h2
            have fin : ∀ s' : State, SInv m pm s' → SInv m pm (s'.on fun c => c.say [.approved a x]) := by
              intro s' h'
              refine h'.on (fun _ h => h) ⟨_, rfl⟩ ?_
              exact h'.1.mild (ext := [_]) rfl rfl rfl rfl rfl (by simp [Item.harmless])
            refine fin _ ?_
            unfold State.connected
            refine SInv.tasks ?_ _
            have rt : ∀ c : Core, OInv m pm c → OInv m pm c.retry := by
              intro c hg
              refine hg.mild (ext := c.lookups.flatMap fun l => (c.answer l).getD []) rfl rfl rfl rfl rfl ?_
              intro y hy
              obtain ⟨l, _, hy⟩ := List.mem_flatMap.1 hy
              unfold Core.answer at hy
              split at hy
              · split at hy
                · simp at hy; subst hy; rfl
                · split at hy
                  · simp at hy; subst hy; rfl
                  · simp at hy
              · split at hy
                · dsimp only at hy
                  split at hy
                  · simp at hy; subst hy; rfl
                  · simp at hy
                · simp at hy
            refine h5.on (fun _ h => h) ?_ ?_
            · dsimp only [State.on]
              have key : ∀ c : Core, Grows c (match c.byPid .server a.pid with
                  | some e => c.modify e.id (fun e => {e with instances := connectInst a e.instances})
                  | none => { c with grandchildren := c.grandchildren ++ [a] }).retry := by
                intro c
                cases hb : c.byPid .server a.pid with
                | none => exact ⟨_, rfl⟩
                | some e => exact ⟨_, rfl⟩
              exact key _
            · dsimp only [State.on]
              refine rt _ ?_
              split
              · rename_i e hb
                obtain ⟨q1, q2⟩ := byPid_notMe h2 hn hb
                refine h2.modify e.id _ (fun _ => rfl) q2 ?_
                intro y hy hid i hi
                have key : ∀ is : List Inst, (∀ i ∈ is, Owned (s.st.log ++ [.inp (.connect a x w)] ++ [.admitted a x w]) i.handle.pid) →
                    ∀ i ∈ connectInst a is, Owned (s.st.log ++ [.inp (.connect a x w)] ++ [.admitted a x w]) i.handle.pid := by
                  intro is his i hi
                  have hc : 0 < count (connectInst a is) i.handle.pid := count_pos.2 ⟨i, hi, rfl⟩
                  rw [count_connect] at hc
                  obtain ⟨j, hj, hj'⟩ := count_pos.1 hc
                  rw [← hj']
                  exact his j hj
                exact key y.instances (h2.ent y hy (by rw [hid]; exact q2)) i hi
              · exact ⟨h2.mgr, h2.listed, h2.me, h2.ent, h2.own, h2.items⟩
      · exact h1
    | prepareReply hs' =>
      refine h1.on (fun _ h => h) ⟨_, rfl⟩ ?_
      refine h1.1.prepared ?_
      intro x hx
      right
      exact ⟨hs', List.mem_append_right _ List.mem_cons_self, x, hx, rfl⟩
    | lookup l =>
      obtain ⟨ext, q1, q2⟩ := lookup_mild (s.st.say [.inp (.lookup l)]) l
      have q3 : ∀ c : Core, (c.lookup l).entities = c.entities ∧ (c.lookup l).manager = c.manager ∧
          (c.lookup l).whitelisted = c.whitelisted ∧ (c.lookup l).own = c.own := by
        intro c; unfold Core.lookup; split <;> exact ⟨rfl, rfl, rfl, rfl⟩
      refine h1.on (fun _ h => h) ⟨ext, q1⟩ ?_
      refine h1.1.mild (ext := ext) (q3 _).2.1 (q3 _).2.2.1 (q3 _).1 q1 (q3 _).2.2.2 ?_
      intro y hy
      have := (q2 y hy).2
      cases y <;> first | rfl | exact absurd rfl (this _) | skip
      all_goals
        rename_i hs'
        unfold Core.lookup at q1
        split at q1
        · rename_i items ha
          have : items = ext := by simpa [Core.say] using q1
          subst this
          unfold Core.answer at ha
          split at ha
          · split at ha
            · cases ha; simp at hy
            · split at ha
              · cases ha; simp at hy
              · cases ha
          · split at ha
            · dsimp only at ha
              split at ha
              · cases ha; simp at hy
              · cases ha
            · cases ha; simp at hy
        · have : ext = [] := by simpa using q1
          subst this
          cases hy
    | scale as =>
      dsimp only [State.handle]
      unfold State.scale
      dsimp only
      have hne := scalables_notMe h1.1 (as.map (·.1))
      refine SInv.thenAll _ ?_ ?_
      · refine h1.on (fun _ h => h) ?_ (OInv.scaleRequested as _ hne h1.1)
        exact grows_frame (Frame.scaleRequested as _ _)
      · intro g hg p hp
        have : g = [(.scale ((s.on fun c => c.say [.inp (.scale as)]).st.scalables (as.map (·.1))), .idle)] ∨ g = [(.event 1, .idle)] := by
          simpa using hg
        rcases this with rfl | rfl
        · have : p = (.scale ((s.on fun c => c.say [.inp (.scale as)]).st.scalables (as.map (·.1))), .idle) := by simpa using hp
          subst this
          exact ⟨rfl, hne⟩
        · have : p = (.event 1, .idle) := by simpa using hp
          subst this
          exact ⟨rfl, trivial⟩
    | restartAliases as =>
      dsimp only [State.handle]
      have hne := scalables_notMe h1.1 as
      refine h1.thenAll _ ?_
      intro g hg p hp
      rcases List.mem_append.1 hg with hg | hg
      · obtain ⟨b, hb, rfl⟩ := List.mem_map.1 hg
        obtain ⟨id, hid, rfl⟩ := List.mem_map.1 hp
        refine ⟨rfl, ?_⟩
        intro hc
        have : b = (s.on fun c => c.say [.inp (.restartAliases as)]).st.scalables as := by simpa using hb
        subst this
        exact hne (hc ▸ hid)
      · have : g = [(.event 2, .idle)] := by simpa using hg
        subst this
        have : p = (.event 2, .idle) := by simpa using hp
        subst this
        exact ⟨rfl, trivial⟩
    | restartGroups as =>
      dsimp only [State.handle]
      refine h1.thenAll _ ?_
      intro g hg p hp
      rcases List.mem_append.1 hg with hg | hg
      · obtain ⟨b, hb, rfl⟩ := List.mem_map.1 hg
        obtain ⟨id, hid, rfl⟩ := List.mem_map.1 hp
        refine ⟨rfl, ?_⟩
        intro hc
        obtain ⟨bt, hbt, rfl⟩ := List.mem_map.1 hb
        have hbt' : bt ∈ shutdownOrder lib.sort (s.on fun c => c.say [.inp (.restartGroups as)]).st.groups
            (s.on fun c => c.say [.inp (.restartGroups as)]).st.members (s.on fun c => c.say [.inp (.restartGroups as)]).st.manager := by
          unfold Core.restartable at hbt
          dsimp only at hbt
          have := (List.mem_filter.1 hbt).1
          split at this
          · exact this
          · exact (List.mem_filter.1 this).1
        rw [h1.1.mgr] at hbt'
        exact order_notMe hs hbt' (hc ▸ hid)
      · have : g = [(.event 3, .idle)] := by simpa using hg
        subst this
        have : p = (.event 3, .idle) := by simpa using hp
        subst this
        exact ⟨rfl, trivial⟩
    | shutdown => exact SInv.shutdown hs h1
    | fatal =>
      dsimp only [State.handle]
      split
      · refine SInv.shutdown hs ?_
        refine h1.on (fun _ h => h) ⟨[], by simp [State.on]⟩ ?_
        exact ⟨h1.1.mgr, h1.1.listed, h1.1.me, h1.1.ent, h1.1.own, h1.1.items⟩
      · exact h1
    | assassinate t k =>
      dsimp only [State.handle]
      refine h1.on (fun _ h => h) ?_ ?_
      · dsimp only [State.on]
        unfold Core.assassinate
        split
        · exact Grows.refl _
        · split
          · exact Grows.refl _
          · exact ⟨_, rfl⟩
      · dsimp only [State.on]
        unfold Core.assassinate
        split
        · exact h1.1
        · split
          · exact h1.1
          · exact h1.1.mild (ext := [_]) rfl rfl rfl rfl rfl (by simp [Item.harmless])

theorem sinv_run {lib : Lib} (hs : StableSort lib.sort) : ∀ (is : List Input) (s : State), (∀ i ∈ is, i.notOf pm) → SInv m pm s →
    SInv m pm (s.run lib is)
  | [], _, _, h => h
  | i :: is, _, hn, h =>
    sinv_run hs is _ (fun j hj => hn j (List.mem_cons_of_mem _ hj)) (sinv_input hs h i (hn i List.mem_cons_self))

end

theorem start_sinv {lib : Lib} (hs : StableSort lib.sort) {u : Setup} (hu : u.Proper) :
    SInv u.manager u.self.pid (State.start lib u) := by
  unfold State.start State.boot
  refine SInv.thenAll _ ?_ ?_
  · refine ⟨⟨rfl, by simp, ?_, ?_, ?_, Always.nil _⟩, by simp⟩
    · intro x hx hm
      have := hu.2 x hx
      rw [if_pos hm] at this
      rw [this]
      refine ⟨by simp, ?_⟩
      intro i hi
      have : i = { handle := u.self } := by simpa using hi
      rw [this]
    · intro x hx hm i hi
      have := hu.2 x hx
      rw [if_neg hm] at this
      left
      rw [this i hi]
    · intro hs hm; cases hm
  · intro g hg p hp
    rcases List.mem_append.1 hg with hg | hg
    · obtain ⟨b, hb, rfl⟩ := List.mem_map.1 hg
      have : p = (.scale b.members, .idle) := by simpa using hp
      subst this
      refine ⟨rfl, ?_⟩
      have hb' : b ∈ shutdownOrder lib.sort u.groups (u.entities.map fun e => (⟨e.id, e.memberships⟩ : Member)) u.manager :=
        List.mem_reverse.2 hb
      exact order_notMe hs hb'
    · have h1 : g = [(.bootDone, .idle)] := by simpa using hg
      subst h1
      have : p = (.bootDone, .idle) := by simpa using hp
      subst this
      exact ⟨rfl, trivial⟩

end Casual.DManager

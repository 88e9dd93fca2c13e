import Verif.DManager.PidsSpec
import Verif.DManager.Boot

/-! The processes of the entities are alive, and each is there once. -/
namespace Casual.DManager

open Casual.Task

/-- How many times the pid is among the instances. -/
def count (is : List Inst) (p : Pid) : Nat := is.countP fun i => i.handle.pid = p

def occ (es : List Entity) (p : Pid) : Nat := (es.map fun e => count e.instances p).sum

theorem Alive.append {log ext : List Item} {e : EId} {p : Pid} (h : Alive log e p) (hn : .inp (.exit p) ∉ ext) :
    Alive (log ++ ext) e p := by
  obtain ⟨a, b, h1, h2⟩ := h
  refine ⟨a, b ++ ext, by rw [h1]; simp, ?_⟩
  simp only [List.mem_append, not_or]
  exact ⟨h2, hn⟩

/-! ### Counting -/

theorem count_append (a b : List Inst) (p : Pid) : count (a ++ b) p = count a p + count b p := List.countP_append

theorem count_cons (i : Inst) (is : List Inst) (p : Pid) :
    count (i :: is) p = count is p + if i.handle.pid = p then 1 else 0 := by
  unfold count
  rw [List.countP_cons]
  simp

theorem count_pos {is : List Inst} {p : Pid} : 0 < count is p ↔ ∃ i ∈ is, i.handle.pid = p := by
  unfold count
  rw [List.countP_pos_iff]
  simp

theorem count_map {is : List Inst} {f : Inst → Inst} (hf : ∀ i, (f i).handle = i.handle) (p : Pid) :
    count (is.map f) p = count is p := by
  unfold count
  rw [List.countP_map]
  congr 1
  funext i
  simp [hf]

theorem count_filter (is : List Inst) (q : Inst → Bool) (p : Pid) : count (is.filter q) p ≤ count is p :=
  List.filter_sublist.countP_le

theorem count_split (is : List Inst) (q : Inst → Bool) (p : Pid) :
    count (is.filter q) p + count (is.filter fun i => !q i) p = count is p := by
  induction is with
  | nil => rfl
  | cons i is ih =>
    rw [List.filter_cons, List.filter_cons]
    cases q i <;> simp [count_cons, ← ih] <;> omega

theorem count_scale (e : Entity) (n : Nat) {p : Pid} (hp : p ≠ 0) : count (e.scale n).instances p ≤ count e.instances p := by
  unfold Entity.scale
  dsimp only
  split
  · dsimp only
    rw [count_map (f := fun i : Inst => { i with wanted := keepPhase e.enabled }) (fun _ => rfl), count_append]
    have : count (List.replicate (n - e.instances.length) ({} : Inst)) p = 0 := by
      refine Nat.eq_zero_of_not_pos fun h => ?_
      obtain ⟨i, hi, h1⟩ := count_pos.1 h
      rw [(List.mem_replicate.1 hi).2] at h1
      exact hp h1.symm
    omega
  · dsimp only
    rw [count_append, count_map (f := fun i : Inst => { i with wanted := keepPhase e.enabled }) (fun _ => rfl)]
    have h1 := count_filter ((List.drop n (e.instances.filter (fun i => i.state e.id.kind = .running) ++
      e.instances.filter (fun i => i.state e.id.kind ≠ .running))).map fun i => { i with wanted := .exit })
      (fun i => i.state e.id.kind ≠ .exit) p
    rw [count_map (f := fun i : Inst => { i with wanted := Phase.exit }) (fun _ => rfl)] at h1
    have h2 := count_append (List.take n (e.instances.filter (fun i => i.state e.id.kind = .running) ++
      e.instances.filter (fun i => i.state e.id.kind ≠ .running))) (List.drop n (e.instances.filter (fun i => i.state e.id.kind = .running) ++
      e.instances.filter (fun i => i.state e.id.kind ≠ .running))) p
    rw [List.take_append_drop, count_append] at h2
    have h3 := count_split e.instances (fun i => i.state e.id.kind = .running) p
    have h4 : (fun i : Inst => !decide (i.state e.id.kind = .running)) = fun i => decide (i.state e.id.kind ≠ .running) := by
      funext i; simp
    rw [h4] at h3
    omega

theorem count_remove (r : Bool) (pid : Pid) {p : Pid} (hp : p ≠ 0) : ∀ is : List Inst, count (removeInst r pid is) p ≤ count is p
  | [] => Nat.le_refl _
  | i :: is => by
    unfold removeInst
    split
    · split
      · rw [count_cons]; omega
      all_goals
        rw [count_cons, count_cons]
        have : ¬ (0 : Nat) = p := fun h => hp h.symm
        simp [this]
    · rw [count_cons, count_cons]
      have := count_remove r pid hp is
      omega

theorem count_removed (r : Bool) {p : Pid} (hp : p ≠ 0) : ∀ is : List Inst, 0 < count is p →
    count (removeInst r p is) p + 1 ≤ count is p
  | [], h => by simp [count] at h
  | i :: is, h => by
    unfold removeInst
    split
    · rename_i hi
      split
      · rw [count_cons, if_pos hi]
      all_goals
        rw [count_cons, count_cons, if_pos hi]
        have : ¬ (0 : Nat) = p := fun h => hp h.symm
        simp [this]
    · rename_i hi
      rw [count_cons, if_neg hi] at h
      rw [count_cons, count_cons, if_neg hi]
      have := count_removed r hp is (by omega)
      omega

theorem count_connect (h : Handle) (p : Pid) : ∀ is : List Inst, count (connectInst h is) p = count is p
  | [] => rfl
  | i :: is => by
    unfold connectInst
    split
    · rename_i hi
      rw [count_cons, count_cons]
      simp [hi]
    · rw [count_cons, count_cons, count_connect h p is]

theorem occ_cons (e : Entity) (es : List Entity) (p : Pid) : occ (e :: es) p = count e.instances p + occ es p := rfl

theorem occ_map {f : Entity → Entity} {p : Pid} : ∀ (es : List Entity), (∀ e ∈ es, count (f e).instances p ≤ count e.instances p) →
    occ (es.map f) p ≤ occ es p
  | [], _ => Nat.le_refl _
  | e :: es, h => by
    rw [List.map_cons, occ_cons, occ_cons]
    have := h e List.mem_cons_self
    have := occ_map es (fun x hx => h x (List.mem_cons_of_mem _ hx))
    omega

theorem occ_map_lt {f : Entity → Entity} {p : Pid} : ∀ (es : List Entity), (∀ e ∈ es, count (f e).instances p ≤ count e.instances p) →
    (∃ e ∈ es, count (f e).instances p + 1 ≤ count e.instances p) → occ (es.map f) p + 1 ≤ occ es p
  | [], _, ⟨e, he, _⟩ => by cases he
  | e :: es, h, ⟨x, hx, h1⟩ => by
    rw [List.map_cons, occ_cons, occ_cons]
    have h2 := h e List.mem_cons_self
    have h3 := occ_map es (fun x hx => h x (List.mem_cons_of_mem _ hx))
    rcases List.mem_cons.1 hx with rfl | hx
    · omega
    · have := occ_map_lt es (fun x hx => h x (List.mem_cons_of_mem _ hx)) ⟨x, hx, h1⟩
      omega

theorem occ_zero {es : List Entity} {p : Pid} (h : ∀ e ∈ es, count e.instances p = 0) : occ es p = 0 := by
  induction es with
  | nil => rfl
  | cons e es ih =>
    rw [occ_cons, h e List.mem_cons_self, ih fun x hx => h x (List.mem_cons_of_mem _ hx)]

theorem occ_mem {es : List Entity} {p : Pid} {e : Entity} (he : e ∈ es) : count e.instances p ≤ occ es p := by
  induction es with
  | nil => cases he
  | cons x es ih =>
    rw [occ_cons]
    rcases List.mem_cons.1 he with rfl | he
    · omega
    · have := ih he; omega

/-! ### The invariant -/

structure UInv (pm : Pid) (c : Core) : Prop where
  ids : (c.entities.map (·.id)).Nodup
  once : UniquePids pm c.log → ∀ p, p ≠ 0 → occ c.entities p ≤ 1
  held : UniquePids pm c.log → ∀ e ∈ c.entities, ∀ i ∈ e.instances, i.handle.pid ≠ 0 →
    i.handle.pid = pm ∨ Alive c.log e.id i.handle.pid

/-- Items that are neither spawns nor exits. -/
def Item.still : Item → Bool
  | .spawned .. => false
  | .inp (.exit _) => false
  | _ => true

theorem UInv.quiet {pm : Pid} {c c' : Core} (h : UInv pm c) (he : c'.entities = c.entities)
    (hx : ∃ ext, c'.log = c.log ++ ext ∧ ∀ i ∈ ext, i.still = true) : UInv pm c' := by
  obtain ⟨ext, hx, hn⟩ := hx
  refine ⟨by rw [he]; exact h.ids, ?_, ?_⟩
  · intro hu
    rw [he]
    exact h.once (hx ▸ hu).prefix
  · intro hu e hm i hi hp
    rw [he] at hm
    rcases h.held (hx ▸ hu).prefix e hm i hi hp with h1 | h1
    · exact Or.inl h1
    · right
      rw [hx]
      refine h1.append ?_
      intro hc
      have := hn _ hc
      cases this

theorem UInv.shrink {pm : Pid} {c c' : Core} (h : UInv pm c) (f : Entity → Entity) (he : c'.entities = c.entities.map f)
    (hlog : c'.log = c.log) (hid : ∀ e, (f e).id = e.id)
    (hc : ∀ e p, p ≠ 0 → count (f e).instances p ≤ count e.instances p) : UInv pm c' := by
  refine ⟨?_, ?_, ?_⟩
  · rw [he, List.map_map]
    have : (fun e : Entity => e.id) ∘ f = fun e => e.id := by funext e; exact hid e
    rw [this]
    exact h.ids
  · intro hu p hp
    rw [hlog] at hu
    rw [he]
    exact Nat.le_trans (occ_map _ fun e _ => hc e p hp) (h.once hu p hp)
  · intro hu e hm i hi hp
    rw [hlog] at hu ⊢
    rw [he] at hm
    obtain ⟨e0, h0, rfl⟩ := List.mem_map.1 hm
    have h1 : 0 < count e0.instances i.handle.pid :=
      Nat.lt_of_lt_of_le (count_pos.2 ⟨i, hi, rfl⟩) (hc e0 _ hp)
    obtain ⟨j, hj, h2⟩ := count_pos.1 h1
    have := h.held hu e0 h0 j hj (by rw [h2]; exact hp)
    rw [h2] at this
    rw [hid]
    exact this

theorem UInv.modify {pm : Pid} {c : Core} (h : UInv pm c) (id : EId) (f : Entity → Entity) (hid : ∀ e, (f e).id = e.id)
    (hc : ∀ e p, p ≠ 0 → count (f e).instances p ≤ count e.instances p) : UInv pm (c.modify id f) := by
  refine h.shrink (fun e => if e.id = id then f e else e) rfl rfl ?_ ?_
  · intro e; split
    · exact hid e
    · rfl
  · intro e p hp; split
    · exact hc e p hp
    · exact Nat.le_refl _

/-- The new pids. -/
theorem spawnAll_unique {lib : Lib} {id : EId} {pm : Pid} : ∀ (is : List Inst) (n : Nat) (log : List Item),
    UniquePids pm (log ++ (spawnAll lib id n is).2.2) → ∀ p,
      (spawnAll lib id n is).2.1.count p ≤ 1 ∧
      (p ∈ (spawnAll lib id n is).2.1 → p ≠ 0 ∧ p ≠ pm ∧ (∀ e, ¬ Alive log e p) ∧ Alive (log ++ (spawnAll lib id n is).2.2) id p)
  | [], _, log, _, p => by simp [spawnAll]
  | i :: is, n, log, hu, p => by
    unfold spawnAll at hu ⊢
    dsimp only at hu ⊢
    cases hs : lib.spawn n with
    | none =>
      rw [hs] at hu
      dsimp only at hu ⊢
      have e : log ++ .spawnFailed id :: (spawnAll lib id (n + 1) is).2.2 =
        (log ++ [.spawnFailed id]) ++ (spawnAll lib id (n + 1) is).2.2 := by simp
      rw [e] at hu ⊢
      obtain ⟨h1, h2⟩ := spawnAll_unique is (n + 1) _ hu p
      refine ⟨h1, fun hp => ?_⟩
      obtain ⟨h3, h4, h5, h6⟩ := h2 hp
      refine ⟨h3, h4, ?_, h6⟩
      intro e' ha
      exact h5 e' (ha.append (by simp))
    | some pid =>
      rw [hs] at hu
      dsimp only at hu ⊢
      have e : log ++ .spawned id pid :: (spawnAll lib id (n + 1) is).2.2 =
        (log ++ [.spawned id pid]) ++ (spawnAll lib id (n + 1) is).2.2 := by simp
      have hpid := hu log (.spawned id pid) (spawnAll lib id (n + 1) is).2.2 rfl
      rw [e] at hu ⊢
      obtain ⟨h1, h2⟩ := spawnAll_unique is (n + 1) _ hu p
      have hal : Alive (log ++ [.spawned id pid]) id pid := ⟨log, [], rfl, by simp⟩
      rw [List.count_cons]
      by_cases hp : pid = p
      · subst hp
        have hnot : pid ∉ (spawnAll lib id (n + 1) is).2.1 := fun hm => (h2 hm).2.2.1 id hal
        rw [List.count_eq_zero.2 hnot]
        refine ⟨by simp, fun _ => ⟨hpid.1, hpid.2.1, hpid.2.2, hal.append ?_⟩⟩
        intro hc
        rcases spawnAll_item hc with h | ⟨_, h, _⟩ <;> cases h
      · simp only [beq_iff_eq, hp, if_false, Nat.add_zero]
        refine ⟨h1, fun hm => ?_⟩
        rcases List.mem_cons.1 hm with rfl | hm
        · exact absurd rfl hp
        · obtain ⟨h3, h4, h5, h6⟩ := h2 hm
          refine ⟨h3, h4, ?_, h6⟩
          intro e' ha
          exact h5 e' (ha.append (by simp))

theorem spawnAll_count {lib : Lib} {id : EId} {p : Pid} (hp : p ≠ 0) : ∀ (is : List Inst) (n : Nat), (∀ i ∈ is, i.handle.pid = 0) →
    count (spawnAll lib id n is).1 p = (spawnAll lib id n is).2.1.count p
  | [], _, _ => rfl
  | i :: is, n, h0 => by
    have ih := spawnAll_count (lib := lib) (id := id) hp is (n + 1) (fun x hx => h0 x (List.mem_cons_of_mem _ hx))
    unfold spawnAll
    dsimp only
    cases hs : lib.spawn n with
    | none =>
      dsimp only
      rw [count_cons, ih]
      have : ¬ (0 : Nat) = p := fun h => hp h.symm
      simp [h0 i List.mem_cons_self, this]
    | some pid =>
      dsimp only
      rw [count_cons, ih, List.count_cons]
      simp

theorem find_mem {c : Core} {id : EId} {e : Entity} (h : c.find id = some e) : e ∈ c.entities := List.mem_of_find?_eq_some h

theorem find_unique {c : Core} (hn : (c.entities.map (·.id)).Nodup) {e : Entity} (he : e ∈ c.entities) : c.find e.id = some e := by
  unfold Core.find
  generalize c.entities = es at hn he
  induction es with
  | nil => cases he
  | cons x xs ih =>
    rw [List.map_cons, List.nodup_cons] at hn
    rw [List.find?_cons]
    rcases List.mem_cons.1 he with rfl | he
    · simp
    · have : ¬ x.id = e.id := fun hc => hn.1 (hc ▸ List.mem_map.2 ⟨e, he, rfl⟩)
      simp only [this, decide_false]
      exact ih hn.2 he

theorem occ_set {e : Entity} {is : List Inst} {p : Pid} {k : Nat} (hk : count is p ≤ count e.instances p + k) :
    ∀ (es : List Entity), (es.map (·.id)).Nodup → e ∈ es →
    occ (es.map fun x => if x.id = e.id then { x with instances := is } else x) p ≤ occ es p + k
  | [], _, h => by cases h
  | x :: es, hn, h => by
    rw [List.map_cons, List.nodup_cons] at hn
    rw [List.map_cons, occ_cons, occ_cons]
    rcases List.mem_cons.1 h with rfl | h
    · have : es.map (fun x => if x.id = e.id then { x with instances := is } else x) = es := by
        refine (List.map_congr_left ?_).trans (List.map_id _)
        intro y hy
        have : ¬ y.id = e.id := fun hc => hn.1 (hc ▸ List.mem_map.2 ⟨y, hy, rfl⟩)
        rw [if_neg this]; rfl
      rw [this, if_pos rfl]
      dsimp only
      omega
    · have hx : ¬ x.id = e.id := fun hc => hn.1 (hc ▸ List.mem_map.2 ⟨e, h, rfl⟩)
      rw [if_neg hx]
      have := occ_set hk es hn.2 h
      omega

theorem UInv.scaleOut {pm : Pid} {lib : Lib} {c : Core} (h : UInv pm c) {e : Entity} (hf : c.find e.id = some e) :
    UInv pm (c.scaleOut lib e) := by
  unfold Core.scaleOut
  dsimp only
  split
  · exact h
  · have hapart := spawnable_append e
    have hmid : ∀ i ∈ e.spawnable.2.1, i.handle.pid = 0 := fun i hi => (scaleOut_state (spawnable_mid hi)).2
    have he := find_mem hf
    generalize e.spawnable = s at *
    have hcount : ∀ p, p ≠ 0 → count (s.1 ++ (spawnAll lib e.id c.spawns s.2.1).1 ++ s.2.2) p ≤
        count e.instances p + (spawnAll lib e.id c.spawns s.2.1).2.1.count p := by
      intro p hp
      rw [count_append, count_append, spawnAll_count hp s.2.1 c.spawns hmid, ← hapart, count_append, count_append]
      omega
    refine ⟨?_, ?_, ?_⟩
    · dsimp only [Core.say, Core.modify]
      rw [List.map_map]
      refine (List.map_congr_left ?_ : _ = c.entities.map (·.id)) ▸ h.ids
      intro x _
      dsimp only [Function.comp]
      split <;> rfl
    · intro hu p hp
      have hu' : UniquePids pm (c.log ++ (spawnAll lib e.id c.spawns s.2.1).2.2) := hu
      have h1 := occ_set (hcount p hp) c.entities h.ids he
      have h2 := h.once hu'.prefix p hp
      obtain ⟨h3, h4⟩ := spawnAll_unique s.2.1 c.spawns c.log hu' p
      refine Nat.le_trans h1 ?_
      by_cases hz : (spawnAll lib e.id c.spawns s.2.1).2.1.count p = 0
      · omega
      · have hm : p ∈ (spawnAll lib e.id c.spawns s.2.1).2.1 := List.count_pos_iff.1 (Nat.pos_of_ne_zero hz)
        obtain ⟨_, h5, h6, _⟩ := h4 hm
        have : occ c.entities p = 0 := by
          refine occ_zero ?_
          intro x hx
          refine Nat.eq_zero_of_not_pos fun hpos => ?_
          obtain ⟨i, hi, hip⟩ := count_pos.1 hpos
          rcases h.held hu'.prefix x hx i hi (by rw [hip]; exact hp) with h7 | h7
          · exact h5 (hip ▸ h7)
          · exact h6 x.id (hip ▸ h7)
        omega
    · intro hu x hx i hi hp
      have hu' : UniquePids pm (c.log ++ (spawnAll lib e.id c.spawns s.2.1).2.2) := hu
      have grow : ∀ y ∈ c.entities, ∀ j ∈ y.instances, j.handle.pid ≠ 0 → j.handle.pid = pm ∨
          Alive (c.log ++ (spawnAll lib e.id c.spawns s.2.1).2.2) y.id j.handle.pid := by
        intro y hy j hj hjp
        refine (h.held hu'.prefix y hy j hj hjp).imp (fun h => h) (fun ha => ha.append ?_)
        intro hc
        rcases spawnAll_item hc with h | ⟨_, h, _⟩ <;> cases h
      obtain ⟨y, hy, hxy⟩ := List.mem_map.1 hx
      by_cases hid : y.id = e.id
      · rw [if_pos hid] at hxy
        subst hxy
        dsimp only at hi ⊢
        have heq : y = e := by
          have := find_unique h.ids hy
          rw [hid, hf] at this
          cases this; rfl
        subst heq
        simp only [List.mem_append] at hi
        rcases hi with (hi | hi) | hi
        · exact grow y he i (by rw [← hapart]; simp [hi]) hp
        · have hpos : 0 < count (spawnAll lib y.id c.spawns s.2.1).1 i.handle.pid := count_pos.2 ⟨i, hi, rfl⟩
          rw [spawnAll_count hp s.2.1 c.spawns hmid] at hpos
          exact Or.inr ((spawnAll_unique s.2.1 c.spawns c.log hu' _).2 (List.count_pos_iff.1 hpos)).2.2.2
        · exact grow y he i (by rw [← hapart]; simp [hi]) hp
      · rw [if_neg hid] at hxy
        subst hxy
        exact grow y hy i hi hp

theorem still_of_task {i : Item} (h : i.ofTask = true) (hn : i.isSpawn = false) : i.still = true := by
  cases i <;> simp_all [Item.ofTask, Item.isSpawn, Item.still]

theorem UInv.scaleIn {pm : Pid} {c : Core} (h : UInv pm c) (e : Entity) : UInv pm (c.scaleIn e) := by
  refine h.quiet (scaleIn_entities c e) ?_
  obtain ⟨ext, h1, h2⟩ := scaleIn_log c e
  obtain ⟨ext', h3, h4⟩ := (Frame.scaleIn c e).log
  have : ext' = ext := by rw [h1] at h3; simpa using h3.symm
  subst this
  exact ⟨ext', h1, fun i hi => still_of_task (h4 i hi) (h2 i hi)⟩

theorem UInv.scaleInstances {pm : Pid} {lib : Lib} {c : Core} (h : UInv pm c) (id : EId) : UInv pm (c.scaleInstances lib id) := by
  unfold Core.scaleInstances
  split
  · rename_i e hf
    refine (h.scaleIn e).scaleOut ?_
    unfold Core.find
    rw [scaleIn_entities, find_id hf]
    exact hf
  · exact h

theorem UInv.scaleMembers {pm : Pid} {lib : Lib} : ∀ (ms : List EId) {c : Core}, UInv pm c → UInv pm (c.scaleMembers lib ms)
  | [], _, h => h
  | id :: ms, _, h => UInv.scaleMembers ms (h.scaleInstances id)

theorem UInv.say {pm : Pid} {c : Core} (h : UInv pm c) {items : List Item} (hs : ∀ i ∈ items, i.still = true) : UInv pm (c.say items) :=
  h.quiet rfl ⟨items, rfl, hs⟩

theorem UInv.shutdownProcs {pm : Pid} {c : Core} (h : UInv pm c) (hs : List Handle) : UInv pm (c.shutdownProcs hs) := by
  unfold Core.shutdownProcs
  split
  · split
    · exact h.say (by simp [Item.still])
    · exact h.quiet rfl ⟨_, rfl, by simp [Item.still]⟩
  · exact h.quiet rfl ⟨_, rfl, by simp [Item.still]⟩

theorem UInv.stopLast {pm : Pid} {c : Core} (h : UInv pm c) (k : Kind) (hs : List Handle) : UInv pm (c.stopLast k hs) := by
  unfold Core.stopLast
  split
  · exact h
  · split
    · exact h.shutdownProcs _
    · exact h.say (by simp [Item.still])

theorem UInv.restartDone {pm : Pid} {c : Core} (h : UInv pm c) (id : EId) (o : Bool) : UInv pm (c.restartDone id o) := by
  unfold Core.restartDone
  exact UInv.say (h.modify id (fun e => { e with restart := o }) (fun _ => rfl) (fun _ _ _ => Nat.le_refl _)) (by simp [Item.still])

theorem UInv.act {pm : Pid} {lib : Lib} {c : Core} (h : UInv pm c) (a : Act) (b : Body) : UInv pm (act lib a b c).1 := by
  unfold DManager.act
  split
  · dsimp only
    split
    · exact (h.scaleMembers _).say (by simp [Item.still])
    · exact h.scaleMembers _
  · exact UInv.quiet h rfl ⟨_, rfl, by simp [Item.still]⟩
  · exact h.say (by simp [Item.still])
  · split
    · exact h
    · dsimp only
      split
      · exact h
      · exact UInv.stopLast (h.modify _ (fun e => { e with restart := true }) (fun _ => rfl) (fun _ _ _ => Nat.le_refl _)) _ _

theorem UInv.freshGone {pm : Pid} {c : Core} (h : UInv pm c) (id : EId) (o : Bool) (ps : List Handle) (fr : List Pid) (pid : Pid) :
    UInv pm (freshGone id o ps fr pid c).1 := by
  unfold DManager.freshGone
  split
  · dsimp only
    split
    · exact h.restartDone id o
    · exact h.stopLast .server ps
  · exact h

theorem UInv.handle {pm : Pid} (b : Body) (m : Msg) (f : Core → Core × Body × Dispatch) (hh : DManager.handle b m = some f)
    {c : Core} (h : UInv pm c) : UInv pm (f c).1 := by
  unfold DManager.handle at hh
  split at hh
  · cases hh
  · cases hh
    dsimp only
    split
    · exact h.say (by simp [Item.still])
    · exact h
  · split at hh
    · cases hh; exact h.freshGone _ _ _ _ _
    · cases hh
      dsimp only
      split <;> exact h
    · cases hh; exact h.freshGone _ _ _ _ _
    · cases hh; exact h
    · cases hh
      dsimp only
      split
      · split
        · split
          · exact h.restartDone _ _
          · exact h.stopLast .executable _
        · exact h
      · exact h
    · cases hh

theorem uinv_keeps (lib : Lib) (pm : Pid) : Keeps (ops lib) (fun c c' => UInv pm c → UInv pm c') where
  refl := fun _ h => h
  trans := fun h1 h2 h => h2 (h1 h)
  act := fun a b _ h => h.act a b
  handle := fun b m f hf _ h => UInv.handle b m f hf h

theorem UInv.tasks {pm : Pid} {lib : Lib} {s : State} (h : UInv pm s.st) (m : Msg) : UInv pm (s.tasks lib m).st :=
  (uinv_keeps lib pm).coordMsg m s.conts s.st h

theorem UInv.thenAll {pm : Pid} {lib : Lib} : ∀ (gs : List (List (Act × Body))) {s : State}, UInv pm s.st → UInv pm (s.thenAll lib gs).st
  | [], _, h => h
  | _ :: gs, s, h => UInv.thenAll gs ((uinv_keeps lib pm).coordThen _ s.conts s.st h)

/-! ### Exits -/

theorem byPid_some {c : Core} {k : Kind} {pid : Pid} {e : Entity} (h : c.byPid k pid = some e) :
    e ∈ c.entities ∧ e.id.kind = k ∧ 0 < count e.instances pid := by
  have h1 := List.find?_some h
  simp only [Bool.and_eq_true, decide_eq_true_eq] at h1
  refine ⟨List.mem_of_find?_eq_some h, h1.1, ?_⟩
  have h2 := h1.2
  unfold Entity.has at h2
  rw [List.any_eq_true] at h2
  obtain ⟨i, hi, h3⟩ := h2
  exact count_pos.2 ⟨i, hi, by simpa using h3⟩

theorem byPid_none {c : Core} {k : Kind} {pid : Pid} (h : c.byPid k pid = none) :
    ∀ e ∈ c.entities, e.id.kind = k → count e.instances pid = 0 := by
  intro e he hk
  have h1 := List.find?_eq_none.1 h e he
  simp only [Bool.and_eq_true, decide_eq_true_eq, not_and] at h1
  have h2 := h1 hk
  refine Nat.eq_zero_of_not_pos fun hp => h2 ?_
  obtain ⟨i, hi, h3⟩ := count_pos.1 hp
  unfold Entity.has
  rw [List.any_eq_true]
  exact ⟨i, hi, by simpa using h3⟩

theorem dropIn_entities (c : Core) (k : Kind) (pid : Pid) : ∃ f : Entity → Entity, (c.dropIn k pid).entities = c.entities.map f ∧
    (∀ e, (f e).id = e.id) ∧ (∀ e p, p ≠ 0 → count (f e).instances p ≤ count e.instances p) ∧
    (∀ e, f e = e ∨ f e = { e with instances := removeInst e.restart pid e.instances }) := by
  unfold Core.dropIn
  split
  · rename_i e0 _
    refine ⟨fun e => if e.id = e0.id then { e with instances := removeInst e.restart pid e.instances } else e, rfl, ?_, ?_, ?_⟩
    · intro e; dsimp only; split <;> rfl
    · intro e p hp; dsimp only; split
      · exact count_remove _ _ hp _
      · exact Nat.le_refl _
    · intro e; dsimp only; split
      · exact Or.inr rfl
      · exact Or.inl rfl
  · exact ⟨fun e => e, by simp, fun _ => rfl, fun _ _ _ => Nat.le_refl _, fun _ => Or.inl rfl⟩

/-- When there is at most one, it is dropped. -/
theorem dropIn_gone {c : Core} {pid : Pid} (hp : pid ≠ 0) (h1 : occ c.entities pid ≤ 1) {k : Kind} {e : Entity}
    (he : c.byPid k pid = some e) : occ (c.dropIn k pid).entities pid = 0 := by
  obtain ⟨h2, _, h3⟩ := byPid_some he
  unfold Core.dropIn
  rw [he]
  dsimp only [Core.modify]
  have := occ_map_lt (f := fun x => if x.id = e.id then { x with instances := removeInst x.restart pid x.instances } else x)
    (p := pid) c.entities ?_ ?_
  · omega
  · intro x _; split
    · exact count_remove _ _ hp _
    · exact Nat.le_refl _
  · exact ⟨e, h2, by rw [if_pos rfl]; exact count_removed _ hp _ h3⟩

theorem dropIn_both {c : Core} {pid : Pid} (hp : pid ≠ 0) (h1 : occ c.entities pid ≤ 1) :
    occ ((c.dropIn .server pid).dropIn .executable pid).entities pid = 0 := by
  obtain ⟨f, hf, hid, hc, _⟩ := dropIn_entities c .server pid
  have h2 : occ (c.dropIn .server pid).entities pid ≤ 1 := by
    rw [hf]; exact Nat.le_trans (occ_map _ fun e _ => hc e pid hp) h1
  obtain ⟨f', hf', _, hc', _⟩ := dropIn_entities (c.dropIn .server pid) .executable pid
  have h3 : occ ((c.dropIn .server pid).dropIn .executable pid).entities pid ≤ occ (c.dropIn .server pid).entities pid := by
    rw [hf']; exact occ_map _ fun e _ => hc' e pid hp
  cases hs : c.byPid .server pid with
  | some e => have := dropIn_gone hp h1 hs; omega
  | none =>
    cases hx : (c.dropIn .server pid).byPid .executable pid with
    | some e => exact dropIn_gone hp h2 hx
    | none =>
      have h4 : occ (c.dropIn .server pid).entities pid = 0 := by
        refine occ_zero ?_
        intro e he
        cases hk : e.id.kind with
        | executable => exact byPid_none hx e he hk
        | server =>
          rw [hf] at he
          obtain ⟨e0, h0, rfl⟩ := List.mem_map.1 he
          have h5 := byPid_none hs e0 h0 (by rw [← hid]; exact hk)
          have h6 := hc e0 pid hp
          omega
      omega

/-- What the removal of a process does to the entities. -/
theorem remove_entities (c : Core) (pid : Pid) : ∃ f : Entity → Entity, (c.remove pid).1.entities = c.entities.map f ∧
    (∀ e, (f e).id = e.id) ∧ (∀ e p, p ≠ 0 → count (f e).instances p ≤ count e.instances p) ∧
    (pid ≠ 0 → occ c.entities pid ≤ 1 → occ (c.remove pid).1.entities pid = 0) := by
  have h0 : (c.forget pid).entities = c.entities := rfl
  have key : (∃ e, (c.forget pid).byPid .server pid = some e ∧ (c.remove pid).1 = (c.forget pid).dropIn .server pid) ∨
      (c.remove pid).1.entities = (((c.forget pid).dropIn .server pid).dropIn .executable pid).entities := by
    unfold Core.remove
    generalize c.forget pid = c0
    have hc2 : ∀ c1 : Core, (match (match c1.byPid .executable pid with
        | some e => (c1.modify e.id fun e => { e with instances := removeInst e.restart pid e.instances },
            if e.restart && decide (c1.runlevel = Runlevel.running) then some e.id else none)
        | none => (c1, none) : Core × Option EId).2 with
        | some id => ((match c1.byPid .executable pid with
            | some e => (c1.modify e.id fun e => { e with instances := removeInst e.restart pid e.instances },
                if e.restart && decide (c1.runlevel = Runlevel.running) then some e.id else none)
            | none => (c1, none) : Core × Option EId).1, some id)
        | none => (({ (match c1.byPid .executable pid with
            | some e => (c1.modify e.id fun e => { e with instances := removeInst e.restart pid e.instances },
                if e.restart && decide (c1.runlevel = Runlevel.running) then some e.id else none)
            | none => (c1, none) : Core × Option EId).1 with
            grandchildren := eraseProc pid (match c1.byPid .executable pid with
            | some e => (c1.modify e.id fun e => { e with instances := removeInst e.restart pid e.instances },
                if e.restart && decide (c1.runlevel = Runlevel.running) then some e.id else none)
            | none => (c1, none) : Core × Option EId).1.grandchildren } : Core), (none : Option EId))).1.entities =
        (c1.dropIn .executable pid).entities := by
      intro c1
      unfold Core.dropIn
      cases hx : c1.byPid .executable pid with
      | none => rfl
      | some e =>
        dsimp only
        split <;> rfl
    cases hs : c0.byPid .server pid with
    | none =>
      have e1 : c0.dropIn .server pid = c0 := by unfold Core.dropIn; rw [hs]
      right
      rw [e1]
      simp only [hs]
      exact hc2 c0
    | some e =>
      have e1 : c0.dropIn .server pid = c0.modify e.id fun e => { e with instances := removeInst e.restart pid e.instances } := by
        unfold Core.dropIn; rw [hs]
      simp only [hs]
      cases hr : (e.restart && decide (c0.runlevel = Runlevel.running)) with
      | true =>
        left
        refine ⟨e, rfl, ?_⟩
        rw [e1]
        rfl
      | false =>
        right
        rw [e1]
        exact hc2 _
  obtain ⟨f, hf, hid, hc, _⟩ := dropIn_entities (c.forget pid) .server pid
  rcases key with ⟨e, hs, hk⟩ | hk
  · refine ⟨f, by rw [hk, hf, h0], hid, hc, ?_⟩
    intro hp h1
    rw [hk]
    exact dropIn_gone (c := c.forget pid) hp h1 hs
  · obtain ⟨f', hf', hid', hc', _⟩ := dropIn_entities ((c.forget pid).dropIn .server pid) .executable pid
    refine ⟨fun e => f' (f e), by rw [hk, hf', hf, h0, List.map_map]; rfl, fun e => by rw [hid', hid], ?_, ?_⟩
    · intro e p hp
      exact Nat.le_trans (hc' _ p hp) (hc e p hp)
    · intro hp h1
      rw [hk]
      exact dropIn_both (c := c.forget pid) hp h1

theorem UInv.remove {pm : Pid} {c : Core} {pid : Pid} (hp : pid ≠ 0) (h : UInv pm c) :
    UInv pm ((c.say [.inp (.exit pid)]).remove pid).1 := by
  obtain ⟨f, hf, hid, hc, hg⟩ := remove_entities (c.say [.inp (.exit pid)]) pid
  have hl := remove_log (c.say [.inp (.exit pid)]) pid
  have hu' : UniquePids pm ((c.say [.inp (.exit pid)]).remove pid).1.log → UniquePids pm c.log := by
    intro hu
    rw [hl] at hu
    exact Always.prefix (ext := [.inp (.exit pid)]) hu
  refine ⟨?_, ?_, ?_⟩
  · rw [hf, List.map_map]
    have : (fun e : Entity => e.id) ∘ f = fun e => e.id := by funext e; exact hid e
    rw [this]
    exact h.ids
  · intro hu p hp
    rw [hf]
    exact Nat.le_trans (occ_map _ fun e _ => hc e p hp) (h.once (hu' hu) p hp)
  · intro hu e hm i hi hip
    have hgone := hg hp (h.once (hu' hu) pid hp)
    have hne : i.handle.pid ≠ pid := by
      intro he
      have h1 : 0 < count e.instances pid := count_pos.2 ⟨i, hi, he⟩
      have h2 := occ_mem (p := pid) hm
      omega
    rw [hf] at hm
    obtain ⟨e0, h0, rfl⟩ := List.mem_map.1 hm
    have h1 : 0 < count e0.instances i.handle.pid :=
      Nat.lt_of_lt_of_le (count_pos.2 ⟨i, hi, rfl⟩) (hc e0 _ hip)
    obtain ⟨j, hj, h2⟩ := count_pos.1 h1
    have h3 := h.held (hu' hu) e0 h0 j hj (by rw [h2]; exact hip)
    rw [h2] at h3
    rw [hid, hl]
    refine h3.imp (fun h => h) (fun ha => ha.append ?_)
    simp only [List.mem_singleton, Item.inp.injEq, Input.exit.injEq]
    exact hne

/-! ### The inputs -/

theorem still_not_spawn {ext : List Item} (h1 : ∀ i ∈ ext, i.isSpawn = false) (h2 : ∀ i ∈ ext, i.isInp = false) :
    ∀ i ∈ ext, i.still = true := by
  intro i hi
  have h3 := h1 i hi
  have h4 := h2 i hi
  cases i <;> simp_all [Item.isSpawn, Item.isInp, Item.still]

theorem prepared_still (c : Core) (hs : List Handle) : ∃ ext, (c.prepared hs).log = c.log ++ ext ∧ ∀ i ∈ ext, i.still = true := by
  refine ⟨_, rfl, ?_⟩
  intro i hi
  obtain ⟨h, _, rfl⟩ := List.mem_map.1 hi
  split <;> rfl

theorem retry_still (c : Core) : ∃ ext, c.retry.log = c.log ++ ext ∧ ∀ i ∈ ext, i.still = true := by
  obtain ⟨ext, h1, h2⟩ := retry_quiet c
  obtain ⟨ext', h3, h4⟩ := Outs.retry c
  have : ext' = ext := by rw [h1] at h3; simpa using h3.symm
  subst this
  exact ⟨ext', h1, still_not_spawn h2 h4⟩

theorem lookup_still (c : Core) (l : Lookup) : ∃ ext, (c.lookup l).log = c.log ++ ext ∧ ∀ i ∈ ext, i.still = true := by
  obtain ⟨ext, h1, h2⟩ := lookup_quiet c l
  refine ⟨ext, h1, ?_⟩
  refine still_not_spawn h2 ?_
  unfold Core.lookup at h1
  split at h1
  · rename_i items ha
    have : items = ext := by simpa [Core.say] using h1
    subst this
    exact answer_outs ha
  · have : ext = [] := by simpa using h1
    subst this
    simp

theorem UInv.shutdown {pm : Pid} {lib : Lib} {s : State} (h : UInv pm s.st) : UInv pm (s.shutdown lib).st := by
  unfold State.shutdown
  dsimp only
  refine UInv.thenAll _ ?_
  dsimp only [State.on, Coord.step]
  refine h.shrink (fun e => if e.id = s.st.manager then e else e.scale 0) rfl rfl ?_ ?_
  · intro e; split
    · rfl
    · unfold Entity.scale; dsimp only; split <;> rfl
  · intro e p hp; split
    · exact Nat.le_refl _
    · exact count_scale e 0 hp

theorem scale_id (e : Entity) (n : Nat) : (e.scale n).id = e.id := by
  unfold Entity.scale; dsimp only; split <;> rfl

theorem UInv.scaleRequested {pm : Pid} (as : List (Alias × Nat)) : ∀ (ids : List EId) {c : Core}, UInv pm c →
    UInv pm (ids.foldl (Core.scaleRequested as) c)
  | [], _, h => h
  | id :: ids, c, h => by
    refine UInv.scaleRequested as ids (c := c.scaleRequested as id) ?_
    unfold Core.scaleRequested
    refine h.modify id _ ?_ ?_
    · intro e; split
      · exact scale_id e _
      · rfl
    · intro e p hp; split
      · exact count_scale e _ hp
      · exact Nat.le_refl _

theorem UInv.adjust {pm : Pid} {c : Core} (h : UInv pm c) (pid : Pid) : UInv pm (c.adjust pid) := by
  have key : ∀ id, UInv pm (c.modify id fun e => ({ e with instances := removeInst e.restart pid e.instances } : Entity).scale 1) := by
    intro id
    refine h.modify id _ (fun e => scale_id _ _) ?_
    intro e p hp
    exact Nat.le_trans (count_scale _ 1 hp) (count_remove _ _ hp _)
  unfold Core.adjust
  split
  · exact key _
  · split
    · exact key _
    · exact h

theorem uinv_input {pm : Pid} {lib : Lib} {s : State} (h : UInv pm s.st) (i : Input) : UInv pm (s.input lib i).st := by
  unfold State.input
  split
  · exact h
  · have inp : (∀ p, i = .exit p → False) → UInv pm (s.on fun c => c.say [.inp i]).st := by
      intro hi
      refine UInv.say h ?_
      intro x hx
      have : x = .inp i := by simpa using hx
      subst this
      cases i <;> try rfl
      exact absurd rfl (fun e => hi _ e)
    cases i with
    | own =>
      have h1 := inp (by simp)
      dsimp only [State.handle]
      unfold State.own
      split
      · exact h1
      · dsimp only
        split
        · refine UInv.tasks ?_ _
          exact UInv.quiet h1 rfl ⟨[], by simp [State.on], by simp⟩
        · exact UInv.quiet h1 rfl (prepared_still _ _)
    | exit pid =>
      dsimp only [State.handle]
      split
      · rename_i hz
        subst hz
        -- the null process
        refine ⟨h.ids, fun hu => h.once (Always.prefix (ext := [.inp (.exit 0)]) hu), ?_⟩
        intro hu e he i hi hp
        refine (h.held (Always.prefix (ext := [.inp (.exit 0)]) hu) e he i hi hp).imp (fun h => h) (fun ha => ha.append ?_)
        simp only [List.mem_singleton, Item.inp.injEq, Input.exit.injEq]
        exact hp
      · rename_i hp
        have h1 := h.remove hp
        unfold State.exit
        dsimp only
        refine UInv.tasks ?_ _
        dsimp only [State.on]
        split
        · exact h1.scaleInstances _
        · exact h1
    | connect a x w =>
      have h1 := inp (by simp)
      dsimp only [State.handle]
      split
      · unfold State.connect
        split
        · exact UInv.say h1 (by simp [Item.still])
        · split
          · exact UInv.say (h1.adjust _) (by simp [Item.still])
          · dsimp only
            refine UInv.say ?_ (by simp [Item.still])
            unfold State.connected
            refine UInv.tasks ?_ _
            dsimp only [State.on]
            refine (fun (c : Core) (hg : UInv pm c) => (hg.quiet rfl (retry_still c) : UInv pm c.retry)) _ ?_
            have h2 : UInv pm (({ s.st.say [.inp (.connect a x w)] with
                  singletons := if x ≠ 0 then s.st.singletons ++ [(x, a)] else s.st.singletons
                  whitelisted := if w then s.st.whitelisted ++ [a.pid] else s.st.whitelisted } : Core).say [.admitted a x w]) :=
              UInv.quiet h1 rfl ⟨_, rfl, by simp [Item.still]⟩
            split
            · exact h2.modify _ _ (fun _ => rfl) (fun e p _ => Nat.le_of_eq (count_connect a p e.instances))
            · exact h2.quiet rfl ⟨[], by simp [Core.say], by simp⟩
      · exact h1
    | prepareReply hs => exact UInv.quiet (inp (by simp)) rfl (prepared_still _ _)
    | lookup l =>
      refine UInv.quiet (inp (by simp)) ?_ (lookup_still _ _)
      dsimp only [State.handle, State.on]
      unfold Core.lookup
      split <;> rfl
    | scale as =>
      have h1 := inp (by simp)
      dsimp only [State.handle]
      unfold State.scale
      dsimp only
      refine UInv.thenAll _ ?_
      exact UInv.scaleRequested as _ h1
    | restartAliases as => exact UInv.thenAll _ (inp (by simp))
    | restartGroups as => exact UInv.thenAll _ (inp (by simp))
    | shutdown => exact UInv.shutdown (inp (by simp))
    | fatal =>
      have h1 := inp (by simp)
      dsimp only [State.handle]
      split
      · refine UInv.shutdown ?_
        exact UInv.quiet h1 rfl ⟨[], by simp [State.on], by simp⟩
      · exact h1
    | assassinate t k =>
      have h1 := inp (by simp)
      dsimp only [State.handle, State.on]
      unfold Core.assassinate
      split
      · exact h1
      · split
        · exact h1
        · exact UInv.say h1 (by simp [Item.still])

theorem uinv_run {pm : Pid} (lib : Lib) : ∀ (is : List Input) (s : State), UInv pm s.st → UInv pm (s.run lib is).st
  | [], _, h => h
  | i :: is, _, h => uinv_run lib is _ (uinv_input h i)

/-- How a domain has to start: one instance for the manager itself, and no other processes. -/
def Setup.Proper (u : Setup) : Prop :=
  (u.entities.map (·.id)).Nodup ∧
    ∀ e ∈ u.entities, if e.id = u.manager then e.instances = [{ handle := u.self }] else ∀ i ∈ e.instances, i.handle = {}

theorem init_uinv {u : Setup} (hu : u.Proper) {c : Core} (hc : c.entities = u.entities) : UInv u.self.pid c := by
  refine ⟨by rw [hc]; exact hu.1, ?_, ?_⟩
  all_goals rw [hc]
  · intro _ p hp
    have key : ∀ es : List Entity, (es.map (·.id)).Nodup →
        (∀ e ∈ es, if e.id = u.manager then e.instances = [{ handle := u.self }] else ∀ i ∈ e.instances, i.handle = {}) →
        occ es p ≤ 1 ∧ ((∀ e ∈ es, e.id ≠ u.manager) → occ es p = 0) := by
      intro es
      induction es with
      | nil => intro _ _; exact ⟨Nat.zero_le _, fun _ => rfl⟩
      | cons e es ih =>
        intro hn he
        rw [List.map_cons, List.nodup_cons] at hn
        obtain ⟨h1, h2⟩ := ih hn.2 (fun x hx => he x (List.mem_cons_of_mem _ hx))
        rw [occ_cons]
        have h3 := he e List.mem_cons_self
        by_cases hm : e.id = u.manager
        · rw [if_pos hm] at h3
          have h4 := h2 (fun x hx hc => hn.1 (List.mem_map.2 ⟨x, hx, by rw [hc, hm]⟩))
          refine ⟨?_, fun ha => absurd hm (ha e List.mem_cons_self)⟩
          rw [h3, h4, count_cons]
          simp only [count, List.countP_nil]
          split <;> omega
        · rw [if_neg hm] at h3
          have h4 : count e.instances p = 0 := by
            refine Nat.eq_zero_of_not_pos fun hpos => ?_
            obtain ⟨i, hi, h5⟩ := count_pos.1 hpos
            rw [h3 i hi] at h5
            exact hp h5.symm
          exact ⟨by omega, fun ha => by rw [h4, h2 (fun x hx => ha x (List.mem_cons_of_mem _ hx))]⟩
    exact (key u.entities hu.1 hu.2).1
  · intro _ e he i hi hp
    left
    have := hu.2 e he
    split at this
    · rw [this] at hi
      have : i = { handle := u.self } := by simpa using hi
      rw [this]
    · rw [this i hi] at hp
      exact absurd rfl hp

theorem start_uinv (lib : Lib) {u : Setup} (hu : u.Proper) : UInv u.self.pid (State.start lib u).st := by
  unfold State.start State.boot
  exact UInv.thenAll _ (init_uinv hu rfl)

end Casual.DManager

import Verif.DManager.BootSpec
import Verif.DManager.Stage
import Verif.DManager.ConnectProps
import Verif.DManager.OrderProps

/-! The boot: a batch is started when those before it are done. -/
namespace Casual.DManager

open Casual.Task

/-! ### Entities -/

theorem find_id {c : Core} {id : EId} {e : Entity} (h : c.find id = some e) : e.id = id := by
  have := List.find?_some h
  simpa using this

theorem find_modify {c : Core} {id j : EId} {f : Entity → Entity} (hf : ∀ e, (f e).id = e.id) :
    (c.modify id f).find j = if j = id then (c.find j).map f else c.find j := by
  unfold Core.find Core.modify
  dsimp only
  induction c.entities with
  | nil => simp
  | cons e es ih =>
    rw [List.map_cons, List.find?_cons, List.find?_cons]
    by_cases hj : e.id = j
    · subst hj
      by_cases hi : e.id = id
      · simp [hi, hf]
      · simp [hi]
    · have : ((if e.id = id then f e else e).id = j) = False := by
        split
        · rw [hf]; simpa using hj
        · simpa using hj
      simp only [this, hj, decide_false]
      exact ih

theorem series_append (p : Inst → Bool) (is : List Inst) : (series p is).1 ++ (series p is).2.1 ++ (series p is).2.2 = is := by
  simp [series, List.append_assoc]

theorem series_mid {p : Inst → Bool} {is : List Inst} {i : Inst} (h : i ∈ (series p is).2.1) : p i = true := by
  unfold series at h
  dsimp only at h
  have key : ∀ l : List Inst, i ∈ l.takeWhile p → p i = true := by
    intro l
    induction l with
    | nil => intro h; simp at h
    | cons a l ih =>
      intro h
      rw [List.takeWhile_cons] at h
      split at h
      · rcases List.mem_cons.1 h with rfl | h
        · assumption
        · exact ih h
      · simp at h
  exact key _ h

theorem spawnable_append (e : Entity) : e.spawnable.1 ++ e.spawnable.2.1 ++ e.spawnable.2.2 = e.instances := by
  unfold Entity.spawnable
  split
  · simp
  · exact series_append _ _

theorem spawnable_mid {e : Entity} {i : Inst} (h : i ∈ e.spawnable.2.1) : i.state e.id.kind = .scaleOut := by
  unfold Entity.spawnable at h
  split at h
  · cases h
  · simpa using series_mid h

theorem scaleOut_state {k : Kind} {i : Inst} (h : i.state k = .scaleOut) : i.wanted = .running ∧ i.handle.pid = 0 := by
  unfold Inst.state at h
  cases hw : i.wanted <;> cases k <;> simp [hw] at h
  · refine ⟨rfl, ?_⟩
    refine Classical.byContradiction fun hp => ?_
    rw [if_neg hp] at h
    split at h <;> cases h
  · refine ⟨rfl, ?_⟩
    refine Classical.byContradiction fun hp => ?_
    rw [if_neg hp] at h
    cases h
  all_goals
    split at h <;> cases h

theorem scaleIn_entities (c : Core) (e : Entity) : (c.scaleIn e).entities = c.entities := by
  unfold Core.scaleIn
  dsimp only
  split
  · rfl
  · split
    · rfl
    · unfold Core.shutdownProcs
      split
      · split <;> rfl
      · rfl

/-- Items that are not spawns. -/
def Item.isSpawn : Item → Bool
  | .spawned .. => true
  | _ => false

theorem scaleIn_log (c : Core) (e : Entity) : ∃ ext, (c.scaleIn e).log = c.log ++ ext ∧ ∀ i ∈ ext, i.isSpawn = false := by
  unfold Core.scaleIn
  dsimp only
  split
  · exact ⟨[], by simp, by simp⟩
  · split
    · refine ⟨_, rfl, ?_⟩
      intro i hi
      obtain ⟨h, _, rfl⟩ := List.mem_map.1 hi
      rfl
    · unfold Core.shutdownProcs
      split
      · split
        · exact ⟨_, rfl, by simp [Item.isSpawn]⟩
        · exact ⟨_, rfl, by simp [Item.isSpawn]⟩
      · exact ⟨_, rfl, by simp [Item.isSpawn]⟩

theorem scaleIn_level (c : Core) (e : Entity) : (c.scaleIn e).runlevel = c.runlevel := by
  unfold Core.scaleIn
  dsimp only
  split
  · rfl
  · split
    · rfl
    · unfold Core.shutdownProcs
      split
      · split <;> rfl
      · rfl

theorem scaleIn_spawns (c : Core) (e : Entity) : (c.scaleIn e).spawns = c.spawns := by
  unfold Core.scaleIn
  dsimp only
  split
  · rfl
  · split
    · rfl
    · unfold Core.shutdownProcs
      split
      · split <;> rfl
      · rfl

/-- What spawning does to the instances and the log. -/
theorem spawnAll_item {lib : Lib} {id : EId} : ∀ {is : List Inst} {n : Nat} {x : Item}, x ∈ (spawnAll lib id n is).2.2 →
    x = .spawnFailed id ∨ ∃ p, x = .spawned id p ∧ (∃ k, lib.spawn k = some p) ∧
      ∃ i ∈ is, { i with handle := { i.handle with pid := p } } ∈ (spawnAll lib id n is).1
  | [], _, _, h => by simp [spawnAll] at h
  | i :: is, n, x, h => by
    unfold spawnAll at h ⊢
    dsimp only at h ⊢
    split at h
    · rename_i pid hp
      rcases List.mem_cons.1 h with rfl | h
      · exact Or.inr ⟨pid, rfl, ⟨n, hp⟩, i, List.mem_cons_self, List.mem_cons_self⟩
      · rcases spawnAll_item h with h | ⟨p, h1, h2, j, h3, h4⟩
        · exact Or.inl h
        · exact Or.inr ⟨p, h1, h2, j, List.mem_cons_of_mem _ h3, List.mem_cons_of_mem _ h4⟩
    · rcases List.mem_cons.1 h with rfl | h
      · exact Or.inl rfl
      · rcases spawnAll_item h with h | ⟨p, h1, h2, j, h3, h4⟩
        · exact Or.inl h
        · exact Or.inr ⟨p, h1, h2, j, List.mem_cons_of_mem _ h3, List.mem_cons_of_mem _ h4⟩

theorem spawnAll_inst {lib : Lib} {id : EId} : ∀ {is : List Inst} {n : Nat} {j : Inst}, j ∈ (spawnAll lib id n is).1 →
    ∃ i ∈ is, (∃ p k, lib.spawn k = some p ∧ j = { i with handle := { i.handle with pid := p } } ∧
      .spawned id p ∈ (spawnAll lib id n is).2.2) ∨ j = { i with wanted := .error }
  | [], _, _, h => by simp [spawnAll] at h
  | i :: is, n, x, h => by
    unfold spawnAll at h ⊢
    dsimp only at h ⊢
    split at h
    · rename_i pid hp
      rcases List.mem_cons.1 h with rfl | h
      · exact ⟨i, List.mem_cons_self, Or.inl ⟨pid, n, hp, rfl, List.mem_cons_self⟩⟩
      · obtain ⟨j, h1, h2⟩ := spawnAll_inst h
        refine ⟨j, List.mem_cons_of_mem _ h1, h2.imp ?_ (fun h => h)⟩
        rintro ⟨p, k, h3, h4, h5⟩
        exact ⟨p, k, h3, h4, List.mem_cons_of_mem _ h5⟩
    · rcases List.mem_cons.1 h with rfl | h
      · exact ⟨i, List.mem_cons_self, Or.inr rfl⟩
      · obtain ⟨j, h1, h2⟩ := spawnAll_inst h
        refine ⟨j, List.mem_cons_of_mem _ h1, h2.imp ?_ (fun h => h)⟩
        rintro ⟨p, k, h3, h4, h5⟩
        exact ⟨p, k, h3, h4, List.mem_cons_of_mem _ h5⟩

theorem mem_removeInst {r : Bool} {pid : Pid} {i : Inst} (hi : i.handle.pid ≠ pid) : ∀ {is : List Inst}, i ∈ is →
    i ∈ removeInst r pid is
  | j :: is, h => by
    unfold removeInst
    split
    · have : i ∈ is := by
        rcases List.mem_cons.1 h with rfl | h
        · exact absurd ‹_› hi
        · exact h
      split
      · exact this
      all_goals exact List.mem_cons_of_mem _ this
    · rcases List.mem_cons.1 h with rfl | h
      · exact List.mem_cons_self
      · exact List.mem_cons_of_mem _ (mem_removeInst hi h)

theorem removeInst_mem {r : Bool} {pid : Pid} {i : Inst} : ∀ {is : List Inst}, i ∈ removeInst r pid is →
    i ∈ is ∨ i.handle = {}
  | [], h => by simp [removeInst] at h
  | j :: is, h => by
    unfold removeInst at h
    split at h
    · split at h
      · exact Or.inl (List.mem_cons_of_mem _ h)
      all_goals
        rcases List.mem_cons.1 h with rfl | h
        · exact Or.inr rfl
        · exact Or.inl (List.mem_cons_of_mem _ h)
    · rcases List.mem_cons.1 h with rfl | h
      · exact Or.inl List.mem_cons_self
      · exact (removeInst_mem h).imp (List.mem_cons_of_mem _) id

theorem mem_connectInst {h : Handle} {i : Inst} (hi : i.handle.pid ≠ h.pid) : ∀ {is : List Inst}, i ∈ is →
    i ∈ connectInst h is
  | j :: is, hm => by
    unfold connectInst
    split
    · rcases List.mem_cons.1 hm with rfl | hm
      · exact absurd ‹_› hi
      · exact List.mem_cons_of_mem _ hm
    · rcases List.mem_cons.1 hm with rfl | hm
      · exact List.mem_cons_self
      · exact List.mem_cons_of_mem _ (mem_connectInst hi hm)

theorem connectInst_mem {h : Handle} {i : Inst} : ∀ {is : List Inst}, i ∈ connectInst h is → i ∈ is ∨ i.handle = h
  | [], hm => by simp [connectInst] at hm
  | j :: is, hm => by
    unfold connectInst at hm
    split at hm
    · rcases List.mem_cons.1 hm with rfl | hm
      · exact Or.inr rfl
      · exact Or.inl (List.mem_cons_of_mem _ hm)
    · rcases List.mem_cons.1 hm with rfl | hm
      · exact Or.inl List.mem_cons_self
      · exact (connectInst_mem hm).imp (List.mem_cons_of_mem _) id

/-! ### The invariant -/

/-- The boot is over, or it is disturbed by a second process of a singleton. -/
def Over (log : List Item) : Prop := .bootDone ∈ log ∨ ∃ h x, .denied h x ∈ log

/-- `e'` is in a batch before the one of `e`. -/
def Earlier (bs : List Batch) (e' e : EId) : Prop := ∃ i j, i < j ∧ At bs i e' ∧ At bs j e

/-- What is true when a process is spawned. -/
def SeqOK (bs : List Batch) (before : List Item) : Item → Prop
  | .spawned e _ => Over before ∨ ∀ e', Earlier bs e' e → e'.kind = .server →
      ∀ a p b, before = a ++ .spawned e' p :: b → Met b p
  | _ => True

/-- A server process that has been spawned and has not connected. -/
def Waiting (c : Core) (e : EId) (p : Pid) : Prop :=
  ∃ ent, c.find e = some ent ∧ ∃ i ∈ ent.instances, i.handle = ⟨p, 0⟩ ∧ i.wanted = .running

/-- When some batches are done. -/
structure BGood (bs : List Batch) (pre : List Batch) (c : Core) : Prop where
  always : Always (SeqOK bs) c.log
  level : c.runlevel = .startup
  track : ∀ e p a b, c.log = a ++ .spawned e p :: b → e.kind = .server → p ≠ 0 ∧ (Met b p ∨ Waiting c e p)
  clear : ∀ b ∈ pre, ∀ id ∈ b.members, id.kind = .server → ∀ ent, c.find id = some ent → ∀ i ∈ ent.instances, i.state .server ≠ .spawned
  tidy : ∀ id ent, c.find id = some ent → ∀ i ∈ ent.instances, i.handle.pid = 0 → i.handle = {}

theorem Met.append {b : List Item} {p : Pid} (ext : List Item) (h : Met b p) : Met (b ++ ext) p := by
  rcases h with h | ⟨h, x, w, h1, h2⟩
  · exact Or.inl (List.mem_append_left _ h)
  · exact Or.inr ⟨h, x, w, List.mem_append_left _ h1, h2⟩

theorem Over.append {log : List Item} (ext : List Item) (h : Over log) : Over (log ++ ext) := by
  rcases h with h | ⟨h, x, h1⟩
  · exact Or.inl (List.mem_append_left _ h)
  · exact Or.inr ⟨h, x, List.mem_append_left _ h1⟩

/-- An item of what is appended, or of what was. -/
theorem split_append {log ext a b : List Item} {x : Item} (h : log ++ ext = a ++ x :: b) :
    (∃ b', log = a ++ x :: b' ∧ b = b' ++ ext) ∨ ∃ a', ext = a' ++ x :: b ∧ a = log ++ a' := by
  rcases List.append_eq_append_iff.1 h with ⟨m, h1, h2⟩ | ⟨m, h1, h2⟩
  · exact Or.inr ⟨m, h2, h1⟩
  · cases m with
    | nil => exact Or.inr ⟨[], by simpa using h2.symm, by simpa using h1.symm⟩
    | cons y m =>
      simp only [List.cons_append, List.cons.injEq] at h2
      obtain ⟨rfl, rfl⟩ := h2
      exact Or.inl ⟨m, h1, rfl⟩

/-- Nothing is spawned, and the entities are the same. -/
theorem BGood.quiet {bs pre : List Batch} {c c' : Core} (h : BGood bs pre c) (he : c'.entities = c.entities)
    (hl : c'.runlevel = c.runlevel) (hx : ∃ ext, c'.log = c.log ++ ext ∧ ∀ i ∈ ext, i.isSpawn = false) : BGood bs pre c' := by
  obtain ⟨ext, hx, hn⟩ := hx
  have hf : ∀ id, c'.find id = c.find id := fun id => by unfold Core.find; rw [he]
  refine ⟨?_, by rw [hl]; exact h.level, ?_, ?_, ?_⟩
  · rw [hx]
    refine h.always.append ext ?_
    intro i hi l
    have := hn i hi
    cases i <;> simp_all [Item.isSpawn, SeqOK]
  · intro e p a b hs hk
    rw [hx] at hs
    rcases split_append hs with ⟨b', h1, rfl⟩ | ⟨a', h1, _⟩
    · have := h.track e p a b' h1 hk
      refine ⟨this.1, this.2.imp (Met.append ext) ?_⟩
      rintro ⟨ent, h2, h3⟩
      exact ⟨ent, by rw [hf]; exact h2, h3⟩
    · have := hn (.spawned e p) (by rw [h1]; simp)
      cases this
  · intro b hb id hid hk ent he
    exact h.clear b hb id hid hk ent (hf id ▸ he)
  · intro id ent he
    exact h.tidy id ent (hf id ▸ he)

/-- An entity changes, what waits still does or has been met. -/
theorem BGood.modify {bs pre : List Batch} {c : Core} (h : BGood bs pre c) (id : EId) (f : Entity → Entity)
    (hid : ∀ e, (f e).id = e.id) (gone : Pid)
    (hm : ∀ a p b, c.log = a ++ .spawned id p :: b → p = gone → Met b p)
    (hk : ∀ e, ∀ i ∈ e.instances, i.handle.pid ≠ gone → i ∈ (f e).instances)
    (hn : ∀ e, ∀ i ∈ (f e).instances, i ∈ e.instances ∨ i.handle = {} ∨ i.handle.ok = true) : BGood bs pre (c.modify id f) := by
  have hf : ∀ j, (c.modify id f).find j = if j = id then (c.find j).map f else c.find j := fun j => find_modify hid
  refine ⟨h.always, h.level, ?_, ?_, ?_⟩
  · intro e p a b hs hk'
    have := h.track e p a b hs hk'
    refine ⟨this.1, ?_⟩
    rcases this.2 with h1 | ⟨ent, h1, i, h2, h3, h4⟩
    · exact Or.inl h1
    · by_cases hj : e = id
      · subst hj
        by_cases hp : p = gone
        · exact Or.inl (hm a p b hs hp)
        · refine Or.inr ⟨f ent, by rw [hf, if_pos rfl, h1]; rfl, i, hk ent i h2 (by rw [h3]; exact hp), h3, h4⟩
      · exact Or.inr ⟨ent, by rw [hf, if_neg hj]; exact h1, i, h2, h3, h4⟩
  · intro b hb j hj hsrv ent he i hi
    rw [hf] at he
    split at he
    · cases hc : c.find j with
      | none => rw [hc] at he; cases he
      | some e0 =>
        rw [hc] at he
        cases he
        rcases hn e0 i hi with h1 | h1 | h1
        · exact h.clear b hb j hj hsrv e0 hc i h1
        · unfold Inst.state
          rw [h1]
          dsimp only
          split
          · simp [Handle.ok]
          · simp [Handle.ok]
          · simp [Handle.ok]
          · simp
        · unfold Inst.state
          simp only [h1]
          split
          · simp
          · simp
          · simp
          · simp
    · exact h.clear b hb j hj hsrv ent he i hi
  · intro j ent he i hi hp
    rw [hf] at he
    split at he
    · cases hc : c.find j with
      | none => rw [hc] at he; cases he
      | some e0 =>
        rw [hc] at he
        cases he
        rcases hn e0 i hi with h1 | h1 | h1
        · exact h.tidy j e0 hc i h1 hp
        · exact h1
        · simp [Handle.ok, hp] at h1
    · exact h.tidy j ent he i hi hp

/-- Each entity is in one batch. -/
def Apart (bs : List Batch) : Prop := (bs.flatMap (·.members)).Nodup

theorem apart_at {bs : List Batch} (h : Apart bs) : ∀ {i j : Nat} {e : EId}, At bs i e → At bs j e → i = j := by
  unfold Apart at h
  induction bs with
  | nil => rintro i j e ⟨b, hb, _⟩; simp at hb
  | cons b0 bs ih =>
    rw [List.flatMap_cons, List.nodup_append] at h
    obtain ⟨_, h2, h3⟩ := h
    rintro i j e ⟨b, hb, he⟩ ⟨b', hb', he'⟩
    have inn : ∀ {k : Nat} {b : Batch}, bs[k]? = some b → e ∈ b.members → e ∈ bs.flatMap (·.members) := fun hk hm =>
      List.mem_flatMap.2 ⟨_, List.mem_of_getElem? hk, hm⟩
    cases i with
    | zero =>
      cases j with
      | zero => rfl
      | succ j =>
        simp at hb hb'
        subst hb
        exact absurd rfl (h3 e he e (inn hb' he'))
    | succ i =>
      cases j with
      | zero =>
        simp at hb hb'
        subst hb'
        exact absurd rfl (h3 e he' e (inn hb he))
      | succ j =>
        simp at hb hb'
        rw [ih h2 ⟨b, hb, he⟩ ⟨b', hb', he'⟩]

theorem at_mid {bs pre post : List Batch} {b : Batch} (hb : bs = pre ++ b :: post) {e : EId} (he : e ∈ b.members) :
    At bs pre.length e := ⟨b, by rw [hb]; simp, he⟩

theorem earlier_pre {bs pre post : List Batch} {b : Batch} (ha : Apart bs) (hb : bs = pre ++ b :: post) {e e' : EId}
    (he : e ∈ b.members) (h : Earlier bs e' e) : e' ≠ e ∧ ∃ b' ∈ pre, e' ∈ b'.members := by
  obtain ⟨i, j, hij, hi, hj⟩ := h
  have := apart_at ha hj (at_mid hb he)
  subst this
  constructor
  · rintro rfl
    exact absurd (apart_at ha hi hj) (by omega)
  · obtain ⟨b', h1, h2⟩ := hi
    refine ⟨b', ?_, h2⟩
    rw [hb, List.getElem?_append_left hij] at h1
    exact List.mem_of_getElem? h1

theorem waiting_spawned {i : Inst} {p : Pid} (hp : p ≠ 0) (h1 : i.handle = ⟨p, 0⟩) (h2 : i.wanted = .running) :
    i.state .server = .spawned := by
  unfold Inst.state
  rw [h1, h2]
  simp [Handle.ok, hp]

/-- What spawning does. -/
theorem scaleOut_facts (lib : Lib) (c : Core) (e : Entity) : c.scaleOut lib e = c ∨
    ((∀ j, (c.scaleOut lib e).find j = if j = e.id then (c.find j).map (fun x => { x with
        instances := e.spawnable.1 ++ (spawnAll lib e.id c.spawns e.spawnable.2.1).1 ++ e.spawnable.2.2 }) else c.find j) ∧
      (c.scaleOut lib e).log = c.log ++ (spawnAll lib e.id c.spawns e.spawnable.2.1).2.2 ∧
      (c.scaleOut lib e).runlevel = c.runlevel) := by
  unfold Core.scaleOut
  dsimp only
  split
  · exact Or.inl rfl
  · exact Or.inr ⟨fun j => find_modify (c := c) (fun _ => rfl), rfl, rfl⟩

theorem Always.appendSplit {P : List Item → Item → Prop} {log ext : List Item} (h : Always P log)
    (he : ∀ l1 x l2, ext = l1 ++ x :: l2 → P (log ++ l1) x) : Always P (log ++ ext) := by
  intro l1 a l2 hl
  rcases split_append hl with ⟨b', h1, _⟩ | ⟨a', h1, h2⟩
  · exact h l1 a b' h1
  · rw [h2]; exact he a' a l2 h1

/-- Processes of an entity of the batch are spawned. -/
theorem BGood.scaleOut {lib : Lib} (hz : ∀ n, lib.spawn n ≠ some 0) {bs pre post : List Batch} {b : Batch} (ha : Apart bs)
    (hb : bs = pre ++ b :: post) {c : Core} (h : BGood bs pre c) {e : Entity} (he : e.id ∈ b.members)
    (hf : c.find e.id = some e) : BGood bs pre (c.scaleOut lib e) := by
  rcases scaleOut_facts lib c e with h0 | ⟨hfind, hlog, hlev⟩
  · rw [h0]; exact h
  · have hapart := spawnable_append e
    have hmid : ∀ i ∈ e.spawnable.2.1, i.wanted = .running ∧ i.handle.pid = 0 := fun i hi => scaleOut_state (spawnable_mid hi)
    have hsub : ∀ i ∈ e.spawnable.2.1, i ∈ e.instances := fun i hi => by rw [← hapart]; simp [hi]
    generalize c.scaleOut lib e = c' at *
    generalize e.spawnable = s at *
    -- what is spawned
    have hitem : ∀ x ∈ (spawnAll lib e.id c.spawns s.2.1).2.2, ∀ e' p, x = .spawned e' p → e' = e.id := by
      intro x hx e' p hxe
      rcases spawnAll_item hx with h1 | ⟨p', h1, _⟩
      · rw [h1] at hxe; cases hxe
      · rw [h1] at hxe; cases hxe; rfl
    refine ⟨?_, by rw [hlev]; exact h.level, ?_, ?_, ?_⟩
    · rw [hlog]
      refine Always.appendSplit h.always ?_
      intro l1 x l2 hx
      cases x <;> try trivial
      rename_i e1 p1
      right
      intro e' hearly hk a p bb hbefore
      have h1 : e1 = e.id := hitem _ (by rw [hx]; simp) e1 p1 rfl
      subst h1
      obtain ⟨hne, b', hb', hm⟩ := earlier_pre ha hb he hearly
      rcases split_append hbefore with ⟨b'', h2, rfl⟩ | ⟨a', h2, _⟩
      · rcases h.track e' p a b'' h2 hk with ⟨hp, h3 | ⟨ent, h3, i, h4, h5, h6⟩⟩
        · exact h3.append _
        · exact absurd (waiting_spawned hp h5 h6) (h.clear b' hb' e' hm hk ent h3 i h4)
      · exact absurd (hitem (.spawned e' p) (by rw [hx, h2]; simp) e' p rfl) hne
    · intro e' p a bb hs' hk
      rw [hlog] at hs'
      rcases split_append hs' with ⟨b'', h2, rfl⟩ | ⟨a', h2, _⟩
      · rcases h.track e' p a b'' h2 hk with ⟨hp, h3 | ⟨ent, h3, i, h4, h5, h6⟩⟩
        · exact ⟨hp, Or.inl (h3.append _)⟩
        · refine ⟨hp, Or.inr ?_⟩
          by_cases hj : e' = e.id
          · subst hj
            rw [hf] at h3
            cases h3
            refine ⟨_, by rw [hfind, if_pos rfl, hf]; rfl, i, ?_, h5, h6⟩
            rw [← hapart] at h4
            simp only [List.mem_append] at h4 ⊢
            rcases h4 with (h4 | h4) | h4
            · exact Or.inl (Or.inl h4)
            · exact absurd (hmid i h4).2 (by rw [h5]; exact hp)
            · exact Or.inr h4
          · exact ⟨ent, by rw [hfind, if_neg hj]; exact h3, i, h4, h5, h6⟩
      · have hx : (.spawned e' p : Item) ∈ (spawnAll lib e.id c.spawns s.2.1).2.2 := by rw [h2]; simp
        rcases spawnAll_item hx with h3 | ⟨p', h3, ⟨k, hk'⟩, i, h4, h5⟩
        · cases h3
        · cases h3
          have hp : p ≠ 0 := fun h0 => hz k (by rw [hk', h0])
          refine ⟨hp, Or.inr ⟨_, by rw [hfind, if_pos rfl, hf]; rfl, { i with handle := { i.handle with pid := p } }, ?_, ?_, (hmid i h4).1⟩⟩
          · simp only [List.mem_append]
            exact Or.inl (Or.inr h5)
          · have := h.tidy e.id e hf i (hsub i h4) (hmid i h4).2
            rw [this]
    · intro b' hb' id hid hsrv ent hent i hi
      rw [hfind] at hent
      split at hent
      · rename_i hj
        exfalso
        subst hj
        have : At bs pre.length e.id := at_mid hb he
        obtain ⟨k, hk⟩ := List.getElem?_of_mem hb'
        have hlt : k < pre.length := (List.getElem?_eq_some_iff.1 hk).1
        have h2 : At bs k e.id := ⟨b', by rw [hb, List.getElem?_append_left hlt]; exact hk, hid⟩
        have := apart_at ha h2 this
        omega
      · exact h.clear b' hb' id hid hsrv ent hent i hi
    · intro id ent hent i hi hp
      rw [hfind] at hent
      split at hent
      · rename_i hj
        subst hj
        rw [hf] at hent
        cases hent
        simp only [List.mem_append] at hi
        have old : i ∈ e.instances → i.handle = {} := fun h1 => h.tidy e.id e hf i h1 hp
        rcases hi with (hi | hi) | hi
        · exact old (by rw [← hapart]; simp [hi])
        · obtain ⟨j, hj, ⟨p, k, h1, h2, _⟩ | h2⟩ := spawnAll_inst hi
          · rw [h2] at hp
            dsimp only at hp
            exact absurd (by rw [h1, hp]) (hz k)
          · rw [h2] at hp ⊢
            exact h.tidy e.id e hf j (hsub j hj) hp
        · exact old (by rw [← hapart]; simp [hi])
      · exact h.tidy id ent hent i hi hp

theorem BGood.scaleInstances {lib : Lib} (hz : ∀ n, lib.spawn n ≠ some 0) {bs pre post : List Batch} {b : Batch} (ha : Apart bs)
    (hb : bs = pre ++ b :: post) {c : Core} (h : BGood bs pre c) {id : EId} (he : id ∈ b.members) :
    BGood bs pre (c.scaleInstances lib id) := by
  unfold Core.scaleInstances
  split
  · rename_i e hf
    have hid := find_id hf
    subst hid
    have h1 : BGood bs pre (c.scaleIn e) := h.quiet (scaleIn_entities c e) (scaleIn_level c e) (scaleIn_log c e)
    refine h1.scaleOut hz ha hb he ?_
    unfold Core.find
    rw [scaleIn_entities]
    exact hf
  · exact h

theorem BGood.scaleMembers {lib : Lib} (hz : ∀ n, lib.spawn n ≠ some 0) {bs pre post : List Batch} {b : Batch} (ha : Apart bs)
    (hb : bs = pre ++ b :: post) : ∀ (ms : List EId) {c : Core}, (∀ id ∈ ms, id ∈ b.members) → BGood bs pre c →
    BGood bs pre (c.scaleMembers lib ms)
  | [], _, _, h => h
  | id :: ms, _, hm, h =>
    BGood.scaleMembers hz ha hb ms (fun j hj => hm j (List.mem_cons_of_mem _ hj))
      (h.scaleInstances hz ha hb (hm id List.mem_cons_self))

theorem settled_clear {c : Core} {ms : List EId} (h : c.settled ms = true) : ∀ id ∈ ms, ∀ ent, c.find id = some ent →
    ∀ i ∈ ent.instances, i.state ent.id.kind ≠ .spawned ∧ i.state ent.id.kind ≠ .scaleOut ∧ i.state ent.id.kind ≠ .scaleIn := by
  intro id hid ent he i hi
  have h1 := List.all_eq_true.1 h id hid
  rw [he] at h1
  have h2 := List.all_eq_true.1 h1 i hi
  refine ⟨?_, ?_, ?_⟩ <;>
  · intro hs
    rw [hs] at h2
    cases h2

/-! ### The stages -/

/-- What is kept when the boot is over. -/
def BOver (bs : List Batch) (c : Core) : Prop := Over c.log ∧ Always (SeqOK bs) c.log

theorem BOver.ext {bs : List Batch} {c c' : Core} (h : BOver bs c) (hx : ∃ ext, c'.log = c.log ++ ext) : BOver bs c' := by
  obtain ⟨ext, hx⟩ := hx
  refine ⟨by rw [hx]; exact h.1.append ext, ?_⟩
  rw [hx]
  refine Always.appendSplit h.2 ?_
  intro l1 x l2 _
  cases x <;> try trivial
  exact Or.inl (h.1.append l1)

theorem BGood.next {bs pre post : List Batch} {b : Batch} (hb : bs = pre ++ b :: post) {c : Core} (h : BGood bs pre c)
    (hs : c.settled b.members = true) : BGood bs (pre ++ [b]) (c.say [.scaled b.members]) := by
  have h1 : BGood bs pre (c.say [.scaled b.members]) := h.quiet rfl rfl ⟨_, rfl, by simp [Item.isSpawn]⟩
  refine ⟨h1.always, h1.level, h1.track, ?_, h1.tidy⟩
  intro b' hb' id hid hsrv ent he i hi
  rcases List.mem_append.1 hb' with hb' | hb'
  · exact h1.clear b' hb' id hid hsrv ent he i hi
  · have : b' = b := by simpa using hb'
    subst this
    have hc := (settled_clear hs id hid ent he i hi).1
    rw [find_id he, hsrv] at hc
    exact hc

theorem boot_seq {lib : Lib} (hz : ∀ n, lib.spawn n ≠ some 0) {bs : List Batch} (ha : Apart bs) :
    Seq lib bs .bootDone (BGood bs) (fun pre _ c => BGood bs pre c) (BOver bs) where
  start := fun hb h => h.scaleMembers hz ha hb _ (fun _ h => h)
  finish := fun hb h hs => h.next hb hs
  ends := by
    intro c h
    refine ⟨Or.inl (List.mem_append_right _ List.mem_cons_self), ?_⟩
    exact h.always.snoc trivial
  abort := rfl
  over := fun f h => h.ext (f.log.imp fun _ h => h.1)

/-! ### The inputs -/

/-- The instance with the pid is removed from the first entity of the kind that has one. -/
def Core.dropIn (c : Core) (k : Kind) (pid : Pid) : Core :=
  match c.byPid k pid with
  | some e => c.modify e.id fun e => { e with instances := removeInst e.restart pid e.instances }
  | none => c

theorem dropIn_level (c : Core) (k : Kind) (pid : Pid) : (c.dropIn k pid).runlevel = c.runlevel := by
  unfold Core.dropIn; split <;> rfl

theorem dropIn_log (c : Core) (k : Kind) (pid : Pid) : (c.dropIn k pid).log = c.log := by
  unfold Core.dropIn; split <;> rfl

/-- Nothing is restarted when the domain is not up. -/
theorem remove_eq (c : Core) (pid : Pid) (hl : c.runlevel ≠ .running) :
    c.remove pid = ({ ((c.forget pid).dropIn .server pid).dropIn .executable pid with
      grandchildren := eraseProc pid (((c.forget pid).dropIn .server pid).dropIn .executable pid).grandchildren }, none) := by
  have hl0 : (c.forget pid).runlevel ≠ .running := hl
  unfold Core.remove
  generalize c.forget pid = c0 at hl0
  cases hs : c0.byPid .server pid with
  | none =>
    have e1 : c0.dropIn .server pid = c0 := by unfold Core.dropIn; rw [hs]
    rw [e1]
    cases hx : c0.byPid .executable pid with
    | none =>
      have e2 : c0.dropIn .executable pid = c0 := by unfold Core.dropIn; rw [hx]
      rw [e2]
      simp only [hs, hx]
    | some e =>
      have e2 : c0.dropIn .executable pid = c0.modify e.id fun e => { e with instances := removeInst e.restart pid e.instances } := by
        unfold Core.dropIn; rw [hx]
      rw [e2]
      simp only [hs, hx, hl0, decide_false, Bool.and_false, Bool.false_eq_true, if_false]
  | some e =>
    have e1 : c0.dropIn .server pid = c0.modify e.id fun e => { e with instances := removeInst e.restart pid e.instances } := by
      unfold Core.dropIn; rw [hs]
    have hl1 : (c0.dropIn .server pid).runlevel ≠ .running := by rw [dropIn_level]; exact hl0
    simp only [hs, hl0, decide_false, Bool.and_false, Bool.false_eq_true, if_false]
    rw [← e1]
    generalize c0.dropIn .server pid = c1 at hl1
    cases hx : c1.byPid .executable pid with
    | none =>
      have e2 : c1.dropIn .executable pid = c1 := by unfold Core.dropIn; rw [hx]
      rw [e2]
    | some e =>
      have e2 : c1.dropIn .executable pid = c1.modify e.id fun e => { e with instances := removeInst e.restart pid e.instances } := by
        unfold Core.dropIn; rw [hx]
      rw [e2]
      simp only [hl1, decide_false, Bool.and_false, Bool.false_eq_true, if_false]

theorem remove_startup {bs pre : List Batch} {c : Core} (h : BGood bs pre c) (pid : Pid)
    (hm : ∀ e a p b, c.log = a ++ .spawned e p :: b → p = pid → Met b p) :
    BGood bs pre (c.remove pid).1 ∧ (c.remove pid).2 = none := by
  have rem : ∀ (c : Core) (k : Kind), BGood bs pre c → (∀ e a p b, c.log = a ++ .spawned e p :: b → p = pid → Met b p) →
      BGood bs pre (c.dropIn k pid) := by
    intro c k h hm
    unfold Core.dropIn
    split
    · rename_i e _
      refine h.modify e.id _ (fun _ => rfl) pid (fun a p b => hm e.id a p b) ?_ ?_
      · intro e i hi hp
        exact mem_removeInst hp hi
      · intro e i hi
        rcases removeInst_mem hi with h1 | h1
        · exact Or.inl h1
        · exact Or.inr (Or.inl h1)
    · exact h
  have h0 : BGood bs pre (c.forget pid) := h.quiet rfl rfl ⟨[], by simp [Core.forget], by simp⟩
  rw [remove_eq c pid (by rw [h.level]; simp)]
  refine ⟨?_, rfl⟩
  refine BGood.quiet (rem _ _ (rem _ _ h0 hm) ?_) rfl rfl ⟨[], by simp, by simp⟩
  rw [dropIn_log]
  exact hm

theorem outs_quiet {ext : List Item} (h : ∀ i ∈ ext, i.isInp = true ∨ i.neutral = true ∧ i.ofTask = false) :
    ∀ i ∈ ext, i.isSpawn = false := by
  intro i hi
  cases i <;> try rfl
  rcases h _ hi with h | h
  · cases h
  · simp [Item.ofTask] at h

theorem retry_quiet (c : Core) : ∃ ext, c.retry.log = c.log ++ ext ∧ ∀ i ∈ ext, i.isSpawn = false := by
  refine ⟨_, rfl, ?_⟩
  intro i hi
  obtain ⟨l, _, hi⟩ := List.mem_flatMap.1 hi
  unfold Core.answer at hi
  split at hi
  · split at hi
    · simp at hi; subst hi; rfl
    · split at hi
      · simp at hi; subst hi; rfl
      · simp at hi
  · split at hi
    · dsimp only at hi
      split at hi
      · simp at hi; subst hi; rfl
      · simp at hi
    · simp at hi

theorem lookup_quiet (c : Core) (l : Lookup) : ∃ ext, (c.lookup l).log = c.log ++ ext ∧ ∀ i ∈ ext, i.isSpawn = false := by
  unfold Core.lookup
  split
  · rename_i items ha
    refine ⟨items, rfl, ?_⟩
    intro i hi
    unfold Core.answer at ha
    split at ha
    · split at ha
      · cases ha; simp at hi; subst hi; rfl
      · split at ha
        · cases ha; simp at hi; subst hi; rfl
        · cases ha
    · split at ha
      · dsimp only at ha
        split at ha
        · cases ha; simp at hi; subst hi; rfl
        · cases ha
      · cases ha; simp at hi
  · exact ⟨[], by simp, by simp⟩

theorem prepared_quiet (c : Core) (hs : List Handle) : ∃ ext, (c.prepared hs).log = c.log ++ ext ∧ ∀ i ∈ ext, i.isSpawn = false := by
  refine ⟨_, rfl, ?_⟩
  intro i hi
  obtain ⟨h, _, rfl⟩ := List.mem_map.1 hi
  split <;> rfl

/-- The boot is going on. -/
def Booting (bs : List Batch) (s : State) : Prop :=
  ∃ tl, Conf bs .bootDone (fun pre _ c => BGood bs pre c) (BOver bs) tl s.conts s.st

theorem settled_congr {c c' : Core} (h : c'.entities = c.entities) (ms : List EId) : c'.settled ms = c.settled ms := by
  unfold Core.settled Core.find
  rw [h]

theorem booting_input {lib : Lib} (hz : ∀ n, lib.spawn n ≠ some 0) {bs : List Batch} (ha : Apart bs) {s : State} (i : Input)
    (hi : i.calm = true) (h : Booting bs s) : Booting bs (s.input lib i) := by
  have k := boot_seq hz ha
  cases hst : s.stopped with
  | true => rw [input_stopped lib s i hst]; exact h
  | false =>
    obtain ⟨tl, ⟨h, _⟩ | ⟨pre, b, post, g, gs, h1, h2, h3, h4, h5, h6⟩⟩ := h
    · obtain ⟨ext, hx, _⟩ := input_outs lib s i hst
      exact ⟨[[]], Or.inl ⟨h.ext ⟨_, hx⟩, by simp⟩⟩
    · have hs1 : BGood bs pre (s.st.say [.inp i]) := h5.quiet rfl rfl ⟨_, rfl, by simp [Item.isSpawn]⟩
      -- nothing but the log
      have still : ∀ s' : State, s'.conts = s.conts → s'.st.entities = s.st.entities → BGood bs pre s'.st → Booting bs s' := by
        intro s' e1 e2 hg
        exact ⟨tl, Or.inr ⟨pre, b, post, g, gs, h1, by rw [e1]; exact h2, h3, h4, hg, by rw [settled_congr e2]; exact h6⟩⟩
      -- a message
      have msg : ∀ (s' : State) (m : Msg), s'.conts = s.conts → BGood bs pre s'.st → Booting bs (s'.tasks lib m) := by
        intro s' m e1 hg
        exact ⟨tl, conf_tasks k m h1 (e1.trans h2) h3 h4 hg⟩
      have hconf : Booting bs (s.on fun c => c.say [.inp i]) := still _ rfl rfl hs1
      have e0 : s.input lib i = (s.on fun c => c.say [.inp i]).handle lib i := by
        unfold State.input; rw [hst]; rfl
      rw [e0]
      cases i with
      | own =>
        dsimp only [State.handle]
        unfold State.own
        split
        · exact hconf
        · dsimp only
          split
          · exact msg _ _ rfl (hs1.quiet rfl rfl ⟨[], by simp [State.on], by simp⟩)
          · refine still _ rfl rfl (BGood.quiet (c := s.st.say [.inp .own]) hs1 rfl rfl ?_)
            exact prepared_quiet (({ (s.st.say [.inp .own]) with own := _ }) : Core) _
      | exit pid =>
        dsimp only [State.handle]
        split
        · exact hconf
        · unfold State.exit
          have hr := remove_startup (c := s.st.say [.inp (.exit pid)]) hs1 pid (by
            intro e a p b' hl hp
            subst hp
            rcases split_append (show s.st.log ++ [.inp (.exit p)] = _ from hl) with ⟨b'', _, rfl⟩ | ⟨a', h7, _⟩
            · exact Or.inl (by simp)
            · exfalso
              cases a' with
              | nil => simp at h7
              | cons _ _ => simp at h7)
          dsimp only [State.on]
          rw [hr.2]
          exact msg _ _ rfl hr.1
      | connect h x w =>
        dsimp only [State.handle]
        split
        · rename_i hok
          unfold State.connect
          split
          · exact ⟨[[]], Or.inl ⟨BOver.ext (c := { s.st with log := s.st.log ++ [.inp (.connect h x w), .denied h x] })
              ⟨Or.inr ⟨h, x, by simp⟩, by
                rw [show s.st.log ++ [.inp (.connect h x w), .denied h x] =
                  (s.st.log ++ [.inp (.connect h x w)]) ++ [.denied h x] by simp]
                exact hs1.always.snoc trivial⟩ ⟨[], by simp [State.on, Core.say]⟩, by simp⟩⟩
          · split
            · refine ⟨[[]], Or.inl ⟨BOver.ext (c := { s.st with log := s.st.log ++ [.inp (.connect h x w), .denied h x] })
                ⟨Or.inr ⟨h, x, by simp⟩, by
                  rw [show s.st.log ++ [.inp (.connect h x w), .denied h x] =
                    (s.st.log ++ [.inp (.connect h x w)]) ++ [.denied h x] by simp]
                  exact hs1.always.snoc trivial⟩ ⟨[], ?_⟩, by simp⟩⟩
              dsimp only [State.on, Core.say]
              unfold Core.adjust
              split
              · simp [Core.modify]
              · split <;> simp [Core.modify]
            · dsimp only
              have h7 : BGood bs pre (({ s.st.say [.inp (.connect h x w)] with
                  singletons := if x ≠ 0 then s.st.singletons ++ [(x, h)] else s.st.singletons
                  whitelisted := if w then s.st.whitelisted ++ [h.pid] else s.st.whitelisted } : Core).say [.admitted h x w]) :=
                hs1.quiet rfl rfl ⟨_, rfl, by simp [Item.isSpawn]⟩
              have hmet : ∀ e a p b', (s.st.log ++ [.inp (.connect h x w)]) ++ [.admitted h x w] = a ++ .spawned e p :: b' →
                  p = h.pid → Met b' p := by
                intro e a p b' hl hp
                subst hp
                rcases split_append hl with ⟨b'', _, rfl⟩ | ⟨a', h8, _⟩
                · exact Or.inr ⟨h, x, w, by simp, rfl⟩
                · exfalso
                  cases a' with
                  | nil => simp at h8
                  | cons _ _ => simp at h8
              have fin : ∀ s' : State, Booting bs s' → Booting bs (s'.on fun c => c.say [.approved h x]) := by
                rintro s' ⟨tl', ⟨h, ht⟩ | ⟨pre, b, post, g, gs, h1, h2, h3, h4, h5, h6⟩⟩
                · exact ⟨tl', Or.inl ⟨h.ext ⟨_, rfl⟩, ht⟩⟩
                · exact ⟨tl', Or.inr ⟨pre, b, post, g, gs, h1, h2, h3, h4, h5.quiet rfl rfl ⟨_, rfl, by simp [Item.isSpawn]⟩, h6⟩⟩
              refine fin _ ?_
              unfold State.connected
              refine msg _ _ rfl ?_
              dsimp only [State.on]
              refine (fun (c : Core) (hg : BGood bs pre c) => (hg.quiet rfl rfl (retry_quiet c) : BGood bs pre c.retry)) _ ?_
              split
              · refine h7.modify _ _ (fun _ => rfl) h.pid (fun a p b' => hmet _ a p b') ?_ ?_
                · intro e i hi hp
                  exact mem_connectInst hp hi
                · intro e i hi
                  rcases connectInst_mem hi with h8 | h8
                  · exact Or.inl h8
                  · exact Or.inr (Or.inr (by rw [h8]; exact hok))
              · exact h7.quiet rfl rfl ⟨[], by simp [Core.say], by simp⟩
        · exact hconf
      | prepareReply hs => exact still _ rfl rfl (hs1.quiet rfl rfl (prepared_quiet _ _))
      | lookup l =>
        refine still _ rfl ?_ (hs1.quiet ?_ ?_ (lookup_quiet _ _))
        all_goals
          dsimp only [State.handle, State.on]
          unfold Core.lookup
          split <;> rfl
      | scale as => cases hi
      | restartAliases as =>
        obtain ⟨tl', h⟩ := hconf
        exact conf_thenAll k _ h
      | restartGroups as =>
        obtain ⟨tl', h⟩ := hconf
        exact conf_thenAll k _ h
      | shutdown => cases hi
      | fatal => cases hi
      | assassinate t c =>
        refine still _ rfl ?_ (hs1.quiet ?_ ?_ ?_)
        · dsimp only [State.handle, State.on]
          unfold Core.assassinate
          split
          · rfl
          · split <;> rfl
        · dsimp only [State.handle, State.on]
          unfold Core.assassinate
          split
          · rfl
          · split <;> rfl
        · dsimp only [State.handle, State.on]
          unfold Core.assassinate
          split
          · rfl
          · split <;> rfl
        · dsimp only [State.handle, State.on]
          unfold Core.assassinate
          split
          · exact ⟨[], by simp, by simp⟩
          · split
            · exact ⟨[], by simp, by simp⟩
            · exact ⟨_, rfl, by simp [Item.isSpawn]⟩

theorem booting_run {lib : Lib} (hz : ∀ n, lib.spawn n ≠ some 0) {bs : List Batch} (ha : Apart bs) : ∀ (is : List Input) (s : State),
    (∀ i ∈ is, i.calm = true) → Booting bs s → Booting bs (s.run lib is)
  | [], _, _, h => h
  | i :: is, s, hc, h =>
    booting_run hz ha is _ (fun j hj => hc j (List.mem_cons_of_mem _ hj))
      (booting_input hz ha i (hc i List.mem_cons_self) h)

theorem Booting.always {bs : List Batch} {s : State} (h : Booting bs s) : Always (SeqOK bs) s.st.log := by
  obtain ⟨tl, ⟨h, _⟩ | ⟨pre, b, post, g, gs, h1, h2, h3, h4, h5, h6⟩⟩ := h
  · exact h.2
  · exact h5.always

theorem apart_boot {lib : Lib} (hs : StableSort lib.sort) {u : Setup} (hu : (u.entities.map (·.id)).Nodup) :
    Apart (u.bootBatches lib) := by
  unfold Apart Setup.bootBatches
  refine (boot_each_once hs _ _ _).nodup_iff.2 ?_
  refine List.Nodup.sublist (List.Sublist.map _ List.filter_sublist) ?_
  simpa [List.map_map, Function.comp_def] using hu

theorem start_booting {lib : Lib} (hz : ∀ n, lib.spawn n ≠ some 0) (hs : StableSort lib.sort) {u : Setup}
    (hu : (u.entities.map (·.id)).Nodup) (ht : ∀ e ∈ u.entities, ∀ i ∈ e.instances, i.handle.pid = 0 → i.handle = {}) :
    Booting (u.bootBatches lib) (State.start lib u) := by
  refine ⟨[], ?_⟩
  unfold State.start State.boot
  refine conf_start (boot_seq hz (apart_boot hs hu)) rfl ?_
  refine ⟨Always.nil _, rfl, ?_, ?_, ?_⟩
  · intro e p a b h; simp at h
  · intro b hb; simp at hb
  · intro id ent he i hi
    exact ht ent (List.mem_of_find?_eq_some he) i hi

end Casual.DManager

import Verif.DManager.NoSpawn

/-! A boot comes to its end. -/
namespace Casual.DManager

open Casual.Task

/-- A process has exited, and the entity is to be restarted. -/
def Lost (Rs : EId → Prop) (log : List Item) : Prop :=
  ∃ e p a b, log = a ++ .spawned e p :: b ∧ .inp (.exit p) ∈ b ∧ Rs e

theorem Lost.append {Rs : EId → Prop} {log : List Item} (ext : List Item) (h : Lost Rs log) : Lost Rs (log ++ ext) := by
  obtain ⟨e, p, a, b, h1, h2, h3⟩ := h
  exact ⟨e, p, a, b ++ ext, by rw [h1]; simp, List.mem_append_left _ h2, h3⟩

/-- The entities of the batches that have been started, `S`, and the others. -/
structure BGo (m : EId) (Rs : EId → Prop) (S : List EId) (c : Core) : Prop where
  level : c.runlevel = .startup
  rst : ∀ x ∈ c.entities, x.id ≠ m → x.restart = true → Rs x.id
  fresh : ∀ x ∈ c.entities, x.id ≠ m → x.id ∉ S → ∀ i ∈ x.instances, i = { wanted := keepPhase x.enabled }
  going : ∀ x ∈ c.entities, x.id ≠ m → x.id ∈ S → ∀ i ∈ x.instances,
    (i.wanted = .running ∧ (i.handle.pid ≠ 0 ∨ Lost Rs c.log)) ∨ (i.wanted ≠ .running ∧ i.handle = {})
  wait : ∀ x ∈ c.entities, x.id ≠ m → ∀ i ∈ x.instances, i.handle.pid ≠ 0 → i.handle.ipc = 0 → x.id.kind = .server →
    ∀ a b, c.log = a ++ .spawned x.id i.handle.pid :: b → .inp (.exit i.handle.pid) ∉ b → ∀ h y w, .admitted h y w ∈ b →
      h.pid ≠ i.handle.pid

section
variable {m : EId} {pm : Pid} {Rs : EId → Prop}

/-- Nothing is spawned: instances stay, get connected, or end. -/
theorem BGo.step {S : List EId} {c c' : Core} (h : BGo m Rs S c) {ext : List Item} (hl : c'.runlevel = c.runlevel)
    (hx : c'.log = c.log ++ ext) (hs : ∀ e p, .spawned e p ∉ ext)
    (he : ∀ x' ∈ c'.entities, x'.id ≠ m → ∃ x ∈ c.entities, x.id = x'.id ∧ x'.restart = x.restart ∧ x'.enabled = x.enabled ∧
      ∀ i' ∈ x'.instances, i' ∈ x.instances ∨
        (∃ i ∈ x.instances, i.handle.pid = i'.handle.pid ∧ i.handle.pid ≠ 0 ∧ i.wanted = i'.wanted ∧ i'.handle.ipc ≠ 0) ∨
        (i'.handle = {} ∧ (∃ i ∈ x.instances, i.handle.pid ≠ 0) ∧ (i'.wanted = .running → Lost Rs c'.log)))
    (ha : ∀ h y w, .admitted h y w ∈ ext → ∀ x' ∈ c'.entities, x'.id ≠ m → x'.id.kind = .server → ∀ i' ∈ x'.instances,
      i'.handle.pid = h.pid → i'.handle.ipc ≠ 0) : BGo m Rs S c' := by
  refine ⟨hl.trans h.level, ?_, ?_, ?_, ?_⟩
  · intro x' hx' hm hr
    obtain ⟨x, h1, h2, h3, _⟩ := he x' hx' hm
    rw [← h2]
    exact h.rst x h1 (by rw [h2]; exact hm) (by rw [← h3]; exact hr)
  · intro x' hx' hm hn i' hi'
    obtain ⟨x, h1, h2, _, h4, h5⟩ := he x' hx' hm
    have hf := h.fresh x h1 (by rw [h2]; exact hm) (by rw [h2]; exact hn)
    rw [h4]
    rcases h5 i' hi' with h6 | ⟨i, h6, _, h7, _⟩ | ⟨_, ⟨i, h6, h7⟩, _⟩
    · exact hf i' h6
    · rw [hf i h6] at h7; exact absurd rfl h7
    · rw [hf i h6] at h7; exact absurd rfl h7
  · intro x' hx' hm hS i' hi'
    obtain ⟨x, h1, h2, _, _, h5⟩ := he x' hx' hm
    have hf := h.going x h1 (by rw [h2]; exact hm) (by rw [h2]; exact hS)
    rcases h5 i' hi' with h6 | ⟨i, h6, h7, h8, h9, _⟩ | ⟨h6, _, h7⟩
    · rcases hf i' h6 with ⟨h7, h8⟩ | h7
      · refine Or.inl ⟨h7, h8.imp (fun h => h) ?_⟩
        intro hb
        rw [hx]
        exact hb.append ext
      · exact Or.inr h7
    · rcases hf i h6 with ⟨h10, _⟩ | ⟨_, h10⟩
      · exact Or.inl ⟨h9 ▸ h10, Or.inl (by rw [← h7]; exact h8)⟩
      · rw [h10] at h8; exact absurd rfl h8
    · by_cases hw : i'.wanted = .running
      · exact Or.inl ⟨hw, Or.inr (h7 hw)⟩
      · exact Or.inr ⟨hw, h6⟩
  · intro x' hx' hm i' hi' hp h0 hk a b hlog hex hh y w hmem heq
    obtain ⟨x, h1, h2, _, _, h5⟩ := he x' hx' hm
    rw [hx] at hlog
    rcases split_append hlog with ⟨b', h6, rfl⟩ | ⟨a', h6, _⟩
    · rcases List.mem_append.1 hmem with h7 | h7
      · rcases h5 i' hi' with h8 | ⟨i, _, _, _, _, h9⟩ | ⟨h8, _⟩
        · refine h.wait x h1 (by rw [h2]; exact hm) i' h8 hp h0 (by rw [h2]; exact hk) a b' (by rw [h2]; exact h6) ?_ hh y w h7 heq
          intro hc
          exact hex (List.mem_append_left _ hc)
        · exact h9 h0
        · rw [h8] at hp; exact hp rfl
      · exact ha hh y w h7 x' hx' hm hk i' hi' heq.symm h0
    · exact hs x'.id i'.handle.pid (by rw [h6]; simp)

/-- Only the log, and nothing in it that matters. -/
theorem BGo.quiet {S : List EId} {c c' : Core} (h : BGo m Rs S c) {ext : List Item} (he : c'.entities = c.entities)
    (hl : c'.runlevel = c.runlevel) (hx : c'.log = c.log ++ ext) (hs : ∀ e p, .spawned e p ∉ ext)
    (ha : ∀ h y w, .admitted h y w ∉ ext) : BGo m Rs S c' := by
  refine h.step hl hx hs ?_ (fun h y w hm => absurd hm (ha h y w))
  intro x hx' _
  exact ⟨x, he ▸ hx', rfl, rfl, rfl, fun i hi => Or.inl hi⟩

theorem fresh_shutdownable {e : Entity} (h : ∀ i ∈ e.instances, i = { wanted := keepPhase e.enabled }) : e.shutdownable = [] := by
  unfold Entity.shutdownable
  refine series_none ?_
  intro i hi
  rw [h i hi]
  cases e.enabled <;> cases e.id.kind <;> decide

theorem scaleIn_fresh {c : Core} {e : Entity} (h : ∀ i ∈ e.instances, i = { wanted := keepPhase e.enabled }) : c.scaleIn e = c := by
  unfold Core.scaleIn
  rw [fresh_shutdownable h]
  rfl

theorem series_all {p : Inst → Bool} {is : List Inst} (h : ∀ i ∈ is, p i = true) : series p is = ([], is, []) := by
  unfold series
  dsimp only
  have h1 : is.takeWhile (fun i => !p i) = [] := by
    cases is with
    | nil => rfl
    | cons i is => rw [List.takeWhile_cons, h i List.mem_cons_self]; rfl
  have h2 : is.dropWhile (fun i => !p i) = is := by
    cases is with
    | nil => rfl
    | cons i is => rw [List.dropWhile_cons, h i List.mem_cons_self]; rfl
  rw [h1, h2]
  have h3 : is.takeWhile p = is := by
    clear * - h
    induction is with
    | nil => rfl
    | cons i is ih =>
      rw [List.takeWhile_cons, h i List.mem_cons_self]
      exact congrArg _ (ih fun j hj => h j (List.mem_cons_of_mem _ hj))
  have h4 : is.dropWhile p = [] := by
    clear * - h
    induction is with
    | nil => rfl
    | cons i is ih =>
      rw [List.dropWhile_cons, h i List.mem_cons_self]
      exact ih fun j hj => h j (List.mem_cons_of_mem _ hj)
  rw [h3, h4]

theorem fresh_spawnable {e : Entity} (h : ∀ i ∈ e.instances, i = { wanted := keepPhase e.enabled }) :
    (e.enabled = true ∧ e.spawnable = ([], e.instances, [])) ∨ (e.enabled = false ∧ e.spawnable.2.1 = []) := by
  cases he : e.enabled with
  | true =>
    refine Or.inl ⟨rfl, ?_⟩
    unfold Entity.spawnable
    rw [if_neg (by simp [he])]
    refine series_all ?_
    intro i hi
    rw [h i hi, he]
    cases e.id.kind <;> decide
  | false =>
    refine Or.inr ⟨rfl, ?_⟩
    unfold Entity.spawnable
    split
    · rfl
    · refine series_none ?_
      intro i hi
      rw [h i hi, he]
      cases e.id.kind <;> decide

theorem spawnAll_only {lib : Lib} {id : EId} {is : List Inst} {n : Nat} {x : Item} (h : x ∈ (spawnAll lib id n is).2.2) :
    x = .spawnFailed id ∨ ∃ p, x = .spawned id p := by
  rcases spawnAll_item h with h | ⟨p, h, _⟩
  · exact Or.inl h
  · exact Or.inr ⟨p, h⟩

/-- What is done when the batch is started, for one of its entities. -/
theorem BGo.scaleOut {lib : Lib} {S : List EId} {c : Core} (h : BGo m Rs S c) (hn : (c.entities.map (·.id)).Nodup) {e : Entity}
    (hm : e.id ≠ m) (hS : e.id ∉ S) (hf : c.find e.id = some e) (hu : UniquePids pm (c.scaleOut lib e).log)
    (hheld : ∀ x ∈ c.entities, ∀ i ∈ x.instances, i.handle.pid ≠ 0 → i.handle.pid = pm ∨ Alive c.log x.id i.handle.pid) :
    BGo m Rs (e.id :: S) (c.scaleOut lib e) := by
  have he : e ∈ c.entities := find_mem hf
  have hfr := h.fresh e he hm hS
  have one : ∀ x ∈ c.entities, x.id = e.id → x = e := by
    intro x hx hid
    have h1 := find_unique hn hx
    rw [hid, hf] at h1
    exact (Option.some.inj h1).symm
  rcases fresh_spawnable hfr with ⟨hen, hsp⟩ | ⟨hen, hsp⟩
  · by_cases hnil : e.instances = []
    · have h0 : c.scaleOut lib e = c := by
        unfold Core.scaleOut
        dsimp only
        rw [hsp, hnil]
        rfl
      rw [h0]
      refine ⟨h.level, h.rst, ?_, ?_, h.wait⟩
      · intro x hx hxm hxS
        exact h.fresh x hx hxm (fun hc => hxS (List.mem_cons_of_mem _ hc))
      · intro x hx hxm hxS i hi
        rcases List.mem_cons.1 hxS with h1 | h1
        · rw [one x hx h1, hnil] at hi
          cases hi
        · exact h.going x hx hxm h1 i hi
    · have hlog : (c.scaleOut lib e).log = c.log ++ (spawnAll lib e.id c.spawns e.instances).2.2 := by
        unfold Core.scaleOut
        dsimp only
        rw [hsp]
        dsimp only
        rw [if_neg (by simpa using hnil)]
        rfl
      have hent : (c.scaleOut lib e).entities = c.entities.map fun x => if x.id = e.id then
          { x with instances := (spawnAll lib e.id c.spawns e.instances).1 } else x := by
        unfold Core.scaleOut
        dsimp only
        rw [hsp]
        dsimp only
        rw [if_neg (by simpa using hnil)]
        simp [Core.modify, Core.say]
      have hlev : (c.scaleOut lib e).runlevel = c.runlevel := by
        unfold Core.scaleOut
        dsimp only
        split <;> rfl
      rw [hlog] at hu
      refine ⟨hlev.trans h.level, ?_, ?_, ?_, ?_⟩
      · rw [hent]
        intro x' hx' hxm hr
        obtain ⟨x, hx, rfl⟩ := List.mem_map.1 hx'
        split at hr
        · rename_i hc
          rw [if_pos hc] at hxm ⊢
          exact h.rst x hx hxm hr
        · rename_i hc
          rw [if_neg hc] at hxm ⊢
          exact h.rst x hx hxm hr
      · rw [hent]
        intro x' hx' hxm hxS
        obtain ⟨x, hx, rfl⟩ := List.mem_map.1 hx'
        split at hxS
        · rename_i hc
          exact absurd (by rw [← hc]; exact List.mem_cons_self) hxS
        · rename_i hc
          rw [if_neg hc] at hxm ⊢
          exact h.fresh x hx hxm (fun hc => hxS (List.mem_cons_of_mem _ hc))
      · rw [hent, hlog]
        intro x' hx' hxm hxS i hi
        obtain ⟨x, hx, rfl⟩ := List.mem_map.1 hx'
        split at hi
        · rename_i hc
          obtain ⟨j, hj, h2⟩ := spawnAll_inst hi
          rw [hfr j hj] at h2
          rcases h2 with ⟨p, k, h3, rfl, h4⟩ | rfl
          · refine Or.inl ⟨by simp [keepPhase, hen], Or.inl ?_⟩
            dsimp only
            obtain ⟨a, b, hab⟩ := List.append_of_mem h4
            have := hu (c.log ++ a) (.spawned e.id p) b (by rw [hab]; simp)
            exact this.1
          · exact Or.inr ⟨by simp, rfl⟩
        · rename_i hc
          rw [if_neg hc] at hxm hxS
          rcases List.mem_cons.1 hxS with h1 | h1
          · exact absurd h1 hc
          · rcases h.going x hx hxm h1 i hi with ⟨h2, h3⟩ | h2
            · exact Or.inl ⟨h2, h3.imp (fun h => h) (fun h => h.append _)⟩
            · exact Or.inr h2
      · rw [hent, hlog]
        intro x' hx' hxm i hi hp h0 hk a b hab hex hh y w hmem heq
        have noadm : ∀ h y w, Item.admitted h y w ∉ (spawnAll lib e.id c.spawns e.instances).2.2 := by
          intro h y w hc
          rcases spawnAll_only hc with h | ⟨p, h⟩ <;> cases h
        rcases split_append hab with ⟨b', h1, rfl⟩ | ⟨a', h1, _⟩
        · rcases List.mem_append.1 hmem with h2 | h2
          · obtain ⟨x, hx, hxx⟩ := List.mem_map.1 hx'
            have hal : Alive c.log x'.id i.handle.pid := ⟨a, b', h1, fun hc => hex (List.mem_append_left _ hc)⟩
            split at hxx
            · rename_i hc
              subst hxx
              obtain ⟨j, hj, h3⟩ := spawnAll_inst hi
              rw [hfr j hj] at h3
              rcases h3 with ⟨p, k, _, rfl, h4⟩ | rfl
              · obtain ⟨a2, b2, hab2⟩ := List.append_of_mem h4
                have := (hu (c.log ++ a2) (.spawned e.id p) b2 (by rw [hab2]; simp)).2.2 x.id
                refine this (Alive.append hal ?_)
                intro hc
                rcases spawnAll_only (show Item.inp (.exit p) ∈ _ from hab2 ▸ List.mem_append_left _ hc) with h | ⟨_, h⟩ <;> cases h
              · exact hp rfl
            · subst hxx
              exact h.wait x hx hxm i hi hp h0 hk a b' h1 (fun hc => hex (List.mem_append_left _ hc)) hh y w h2 heq
          · exact noadm hh y w h2
        · refine noadm hh y w ?_
          rw [h1]
          exact List.mem_append_right _ (List.mem_cons_of_mem _ hmem)
  · have h0 : c.scaleOut lib e = c := by
      unfold Core.scaleOut
      dsimp only
      rw [hsp]
      rfl
    rw [h0]
    refine ⟨h.level, h.rst, ?_, ?_, h.wait⟩
    · intro x hx hxm hxS
      exact h.fresh x hx hxm (fun hc => hxS (List.mem_cons_of_mem _ hc))
    · intro x hx hxm hxS i hi
      rcases List.mem_cons.1 hxS with h1 | h1
      · rw [one x hx h1] at hi
        rw [hfr i hi, hen]
        exact Or.inr ⟨by simp [keepPhase], rfl⟩
      · exact h.going x hx hxm h1 i hi

/-- With what goes with it. -/
def BWith (m : EId) (pm : Pid) (Rs : EId → Prop) (S : List EId) (c : Core) : Prop :=
  UInv pm c ∧ (UniquePids pm c.log → BGo m Rs S c)

theorem BGo.congr {S S' : List EId} {c : Core} (h : BGo m Rs S c) (hs : ∀ e, e ∈ S ↔ e ∈ S') : BGo m Rs S' c :=
  ⟨h.level, h.rst, fun x hx hm hn => h.fresh x hx hm (fun hc => hn ((hs _).1 hc)),
    fun x hx hm hn => h.going x hx hm ((hs _).2 hn), h.wait⟩

theorem BWith.scaleInstances {lib : Lib} {S : List EId} {c : Core} (h : BWith m pm Rs S c) {id : EId} (hm : id ≠ m) (hS : id ∉ S) :
    BWith m pm Rs (id :: S) (c.scaleInstances lib id) := by
  refine ⟨h.1.scaleInstances id, ?_⟩
  intro hu
  obtain ⟨ext, hx, _⟩ := (Frame.scaleInstances lib c id).log
  have hu0 : UniquePids pm c.log := (hx ▸ hu).prefix
  have hb := h.2 hu0
  unfold Core.scaleInstances at hu ⊢
  cases hf : c.find id with
  | none =>
    simp only [hf] at hu ⊢
    refine ⟨hb.level, hb.rst, ?_, ?_, hb.wait⟩
    · intro x hx hxm hxS
      exact hb.fresh x hx hxm (fun hc => hxS (List.mem_cons_of_mem _ hc))
    · intro x hx hxm hxS i hi
      rcases List.mem_cons.1 hxS with h1 | h1
      · have := List.find?_eq_none.1 hf x hx
        simp [h1] at this
      · exact hb.going x hx hxm h1 i hi
  | some e =>
    simp only [hf] at hu ⊢
    have hid := find_id hf
    subst hid
    have hfr := hb.fresh e (find_mem hf) hm hS
    rw [scaleIn_fresh hfr] at hu ⊢
    exact hb.scaleOut h.1.ids hm hS hf hu (h.1.held hu0)

theorem BWith.scaleMembers {lib : Lib} : ∀ (ms : List EId) {S : List EId} {c : Core}, BWith m pm Rs S c → m ∉ ms → ms.Nodup →
    (∀ e ∈ ms, e ∉ S) → BWith m pm Rs (ms.reverse ++ S) (c.scaleMembers lib ms)
  | [], _, _, h, _, _, _ => h
  | id :: ms, S, c, h, hm, hn, hS => by
    rw [List.nodup_cons] at hn
    have h1 := h.scaleInstances (lib := lib) (id := id) (fun hc => hm (hc ▸ List.mem_cons_self)) (hS id List.mem_cons_self)
    have := BWith.scaleMembers (lib := lib) ms h1 (fun hc => hm (List.mem_cons_of_mem _ hc)) hn.2 (by
      intro e he hc
      rcases List.mem_cons.1 hc with rfl | hc
      · exact hn.1 he
      · exact hS e (List.mem_cons_of_mem _ he) hc)
    rw [List.reverse_cons, List.append_assoc]
    exact this

theorem BWith.quiet {S : List EId} {c c' : Core} (h : BWith m pm Rs S c) (he : c'.entities = c.entities)
    (hl : c'.runlevel = c.runlevel) {ext : List Item} (hx : c'.log = c.log ++ ext) (hs : ∀ i ∈ ext, i.still = true)
    (ha : ∀ h y w, .admitted h y w ∉ ext) : BWith m pm Rs S c' := by
  refine ⟨h.1.quiet he ⟨ext, hx, hs⟩, ?_⟩
  intro hu
  refine (h.2 (hx ▸ hu).prefix).quiet he hl hx ?_ ha
  intro e p hc
  have := hs _ hc
  cases this

def members (bs : List Batch) : List EId := bs.flatMap (·.members)

theorem boot_done_seq {lib : Lib} {bs : List Batch} (ha : Apart bs) (hbm : ∀ b ∈ bs, m ∉ b.members) :
    Seq lib bs .bootDone (fun pre c => BWith m pm Rs (members pre) c) (fun pre b c => BWith m pm Rs (members (pre ++ [b])) c)
      (fun c => Over c.log) where
  start := by
    intro pre b post c hb h
    have hnd : b.members.Nodup ∧ ∀ e ∈ b.members, e ∉ members pre := by
      unfold Apart at ha
      rw [hb, List.flatMap_append, List.flatMap_cons, List.nodup_append] at ha
      obtain ⟨_, h2, h3⟩ := ha
      refine ⟨(List.nodup_append.1 h2).1, ?_⟩
      intro e he hc
      exact h3 e hc e (List.mem_append_left _ he) rfl
    have h1 := h.scaleMembers (lib := lib) b.members (hbm b (by rw [hb]; simp)) hnd.1 hnd.2
    refine ⟨h1.1, fun hu => (h1.2 hu).congr ?_⟩
    intro e
    simp only [members, List.flatMap_append, List.flatMap_cons, List.flatMap_nil, List.append_nil, List.mem_append, List.mem_reverse]
    exact Or.comm
  finish := by
    intro pre b post c hb h hs
    exact h.quiet rfl rfl (ext := [.scaled b.members]) rfl (by simp [Item.still]) (by simp)
  ends := by
    intro c h
    exact Or.inl (List.mem_append_right _ List.mem_cons_self)
  abort := rfl
  over := by
    intro c c' f h
    obtain ⟨ext, hx, _⟩ := f.log
    rw [hx]
    exact h.append ext

theorem dropInst_mem {r : Bool} {pid : Pid} {i' : Inst} : ∀ {is : List Inst}, i' ∈ removeInst r pid is →
    i' ∈ is ∨ (i'.handle = {} ∧ (∃ i ∈ is, i.handle.pid = pid) ∧ (i'.wanted = .running → r = true))
  | [], h => by simp [removeInst] at h
  | j :: is, h => by
    unfold removeInst at h
    split at h
    · rename_i hj
      split at h
      · exact Or.inl (List.mem_cons_of_mem _ h)
      · rcases List.mem_cons.1 h with rfl | h
        · refine Or.inr ⟨rfl, ⟨j, List.mem_cons_self, hj⟩, ?_⟩
          intro hw
          cases r
          · cases hw
          · rfl
        · exact Or.inl (List.mem_cons_of_mem _ h)
      · rename_i hw
        rcases List.mem_cons.1 h with rfl | h
        · refine Or.inr ⟨rfl, ⟨j, List.mem_cons_self, hj⟩, ?_⟩
          intro hw'
          rw [hw] at hw'; cases hw'
        · exact Or.inl (List.mem_cons_of_mem _ h)
      · rename_i hw
        rcases List.mem_cons.1 h with rfl | h
        · refine Or.inr ⟨rfl, ⟨j, List.mem_cons_self, hj⟩, ?_⟩
          intro hw'
          rw [hw] at hw'; cases hw'
        · exact Or.inl (List.mem_cons_of_mem _ h)
    · rcases List.mem_cons.1 h with rfl | h
      · exact Or.inl List.mem_cons_self
      · rcases dropInst_mem h with h | ⟨h1, ⟨i, h2, h3⟩, h4⟩
        · exact Or.inl (List.mem_cons_of_mem _ h)
        · exact Or.inr ⟨h1, ⟨i, List.mem_cons_of_mem _ h2, h3⟩, h4⟩

theorem dropIn_mem {c : Core} {k : Kind} {pid : Pid} {x' : Entity} (h : x' ∈ (c.dropIn k pid).entities) :
    ∃ x ∈ c.entities, x.id = x'.id ∧ x'.restart = x.restart ∧ x'.enabled = x.enabled ∧
      ∀ i' ∈ x'.instances, i' ∈ x.instances ∨
        (i'.handle = {} ∧ (∃ i ∈ x.instances, i.handle.pid = pid) ∧ (i'.wanted = .running → x.restart = true)) := by
  unfold Core.dropIn at h
  split at h
  · obtain ⟨x, hx, rfl⟩ := List.mem_map.1 h
    refine ⟨x, hx, ?_⟩
    split
    · refine ⟨rfl, rfl, rfl, fun i' hi' => dropInst_mem hi'⟩
    · exact ⟨rfl, rfl, rfl, fun i hi => Or.inl hi⟩
  · exact ⟨x', h, rfl, rfl, rfl, fun i hi => Or.inl hi⟩

theorem connectInst_only {h : Handle} {i' : Inst} (hp : i'.handle.pid = h.pid) : ∀ {is : List Inst}, count is h.pid ≤ 1 →
    i' ∈ connectInst h is → i'.handle = h
  | [], _, hm => by simp [connectInst] at hm
  | j :: is, hc, hm => by
    rw [count_cons] at hc
    unfold connectInst at hm
    split at hm
    · rename_i hj
      rw [if_pos hj] at hc
      rcases List.mem_cons.1 hm with rfl | hm
      · rfl
      · have : 0 < count is h.pid := count_pos.2 ⟨i', hm, hp⟩
        omega
    · rename_i hj
      rcases List.mem_cons.1 hm with rfl | hm
      · exact absurd hp hj
      · exact connectInst_only hp (by omega) hm

theorem connectInst_from {h : Handle} (hok : h.ok = true) {i' : Inst} : ∀ {is : List Inst}, i' ∈ connectInst h is →
    i' ∈ is ∨ ∃ i ∈ is, i.handle.pid = i'.handle.pid ∧ i.handle.pid ≠ 0 ∧ i.wanted = i'.wanted ∧ i'.handle.ipc ≠ 0
  | [], hm => by simp [connectInst] at hm
  | j :: is, hm => by
    have hok' : h.pid ≠ 0 ∧ h.ipc ≠ 0 := by simpa [Handle.ok] using hok
    unfold connectInst at hm
    split at hm
    · rename_i hj
      rcases List.mem_cons.1 hm with rfl | hm
      · exact Or.inr ⟨j, List.mem_cons_self, hj, by rw [hj]; exact hok'.1, rfl, hok'.2⟩
      · exact Or.inl (List.mem_cons_of_mem _ hm)
    · rcases List.mem_cons.1 hm with rfl | hm
      · exact Or.inl List.mem_cons_self
      · rcases connectInst_from hok hm with h1 | ⟨i, h1, h2⟩
        · exact Or.inl (List.mem_cons_of_mem _ h1)
        · exact Or.inr ⟨i, List.mem_cons_of_mem _ h1, h2⟩

/-- The boot is going on, or is over. -/
def BootGo (m : EId) (pm : Pid) (Rs : EId → Prop) (bs : List Batch) (s : State) : Prop :=
  ∃ tl, Conf bs .bootDone (fun pre b c => BWith m pm Rs (members (pre ++ [b])) c) (fun c => Over c.log) tl s.conts s.st

theorem bootgo_input {lib : Lib} {bs : List Batch} (ha : Apart bs) (hbm : ∀ b ∈ bs, m ∉ b.members) {s : State} (i : Input)
    (hi : i.calm = true) (hn : i.notOf pm) (h : BootGo m pm Rs bs s) : BootGo m pm Rs bs (s.input lib i) := by
  have k := boot_done_seq (lib := lib) (pm := pm) (Rs := Rs) ha hbm
  cases hst : s.stopped with
  | true => rw [input_stopped lib s i hst]; exact h
  | false =>
    obtain ⟨tl, ⟨h, _⟩ | ⟨pre, b, post, g, gs, h1, h2, h3, h4, h5, h6⟩⟩ := h
    · obtain ⟨ext, hx, _⟩ := input_outs lib s i hst
      refine ⟨[[]], Or.inl ⟨?_, by simp⟩⟩
      show Over (s.input lib i).st.log
      rw [hx]
      exact h.append (.inp i :: ext)
    · have still : ∀ s' : State, s'.conts = s.conts → s'.st.entities = s.st.entities →
          BWith m pm Rs (members (pre ++ [b])) s'.st → BootGo m pm Rs bs s' := by
        intro s' e1 e2 hg
        exact ⟨tl, Or.inr ⟨pre, b, post, g, gs, h1, by rw [e1]; exact h2, h3, h4, hg, by rw [settled_congr e2]; exact h6⟩⟩
      have msg : ∀ (s' : State) (msg : Msg), s'.conts = s.conts → BWith m pm Rs (members (pre ++ [b])) s'.st →
          BootGo m pm Rs bs (s'.tasks lib msg) := by
        intro s' msg e1 hg
        exact ⟨tl, conf_tasks k msg h1 (e1.trans h2) h3 h4 hg⟩
      have e0 : s.input lib i = (s.on fun c => c.say [.inp i]).handle lib i := by
        unfold State.input; rw [hst]; rfl
      have inp : (∀ p, i = .exit p → False) → BWith m pm Rs (members (pre ++ [b])) (s.on fun c => c.say [.inp i]).st := by
        intro hne
        refine h5.quiet rfl rfl (ext := [.inp i]) rfl ?_ (by simp)
        intro x hx
        have : x = .inp i := by simpa using hx
        subst this
        cases i <;> try rfl
        exact absurd rfl (fun e => hne _ e)
      have over : ∀ s' : State, (∃ hh x, .denied hh x ∈ s'.st.log) → BootGo m pm Rs bs s' := by
        intro s' hd
        exact ⟨[[]], Or.inl ⟨Or.inr hd, by simp⟩⟩
      rw [e0]
      cases i with
      | own =>
        have hs1 := inp (by simp)
        dsimp only [State.handle]
        unfold State.own
        split
        · exact still _ rfl rfl hs1
        · dsimp only
          split
          · exact msg _ _ rfl (hs1.quiet rfl rfl (ext := []) (by simp [State.on]) (by simp) (by simp))
          · obtain ⟨ext, q1, q2⟩ := prepared_still (({ (s.st.say [.inp .own]) with own := ‹List Own› }) : Core) ‹List Handle›
            refine still _ rfl rfl (BWith.quiet (c := s.st.say [.inp .own]) hs1 rfl rfl (ext := ext) q1 q2 ?_)
            intro hh y w hm
            have : (.admitted hh y w : Item) ∈ (‹List Handle›).map (fun h : Handle => if h.ipc ≠ 0 then Item.shutdownReq h else .terminate h.pid) := by
              have := List.append_cancel_left (show (s.st.say [.inp .own]).log ++ _ = (s.st.say [.inp .own]).log ++ ext from q1)
              rw [← this] at hm
              exact hm
            obtain ⟨x, _, hx⟩ := List.mem_map.1 this
            split at hx <;> cases hx
      | exit pid =>
        dsimp only [State.handle]
        split
        · rename_i hz
          subst hz
          refine still _ rfl rfl ⟨?_, ?_⟩
          · have := uinv_input (lib := lib) h5.1 (.exit 0)
            rw [e0] at this
            exact this
          · intro hu
            exact (h5.2 (Always.prefix (ext := [.inp (.exit 0)]) hu)).quiet rfl rfl (ext := [.inp (.exit 0)]) rfl (by simp) (by simp)
        · rename_i hz
          unfold State.exit
          have hrl : ((s.st.say [.inp (.exit pid)]).remove pid).1.log = s.st.log ++ [.inp (.exit pid)] := remove_log _ pid
          have hUr := h5.1.remove hz
          by_cases hup : UniquePids pm (s.st.log ++ [.inp (.exit pid)])
          · have hg := h5.2 hup.prefix
            have hlev : (s.st.say [.inp (.exit pid)]).runlevel ≠ .running := by
              show s.st.runlevel ≠ .running
              rw [hg.level]; simp
            have hre := remove_eq (s.st.say [.inp (.exit pid)]) pid hlev
            have hr2 : ((s.st.say [.inp (.exit pid)]).remove pid).2 = none := by rw [hre]
            dsimp only [State.on]
            rw [hr2]
            refine msg _ _ rfl ⟨hUr, ?_⟩
            intro _
            have lost : ∀ x ∈ s.st.entities, x.id ≠ m → x.restart = true → (∃ i ∈ x.instances, i.handle.pid = pid) →
                Lost Rs (s.st.log ++ [.inp (.exit pid)]) := by
              rintro x hx hm hr ⟨j, hj, rfl⟩
              rcases h5.1.held hup.prefix x hx j hj hz with q | ⟨a, b', q, _⟩
              · exact absurd q hn
              · exact ⟨x.id, j.handle.pid, a, b' ++ [.inp (.exit j.handle.pid)], by rw [q]; simp, by simp, hg.rst x hx hm hr⟩
            refine hg.step (ext := [.inp (.exit pid)]) ?_ hrl (by simp) ?_ (by simp)
            · rw [hre]
              show (((s.st.say [.inp (.exit pid)]).forget pid).dropIn .server pid |>.dropIn .executable pid).runlevel = _
              rw [dropIn_level, dropIn_level]
              rfl
            · intro x2 hx2 hm2
              rw [hrl]
              rw [hre] at hx2
              obtain ⟨x1, hx1, q1, q2, q3, q4⟩ := dropIn_mem (show x2 ∈ ((((s.st.say [.inp (.exit pid)]).forget pid).dropIn .server pid).dropIn
                .executable pid).entities from hx2)
              obtain ⟨x, hx, r1, r2, r3, r4⟩ := dropIn_mem hx1
              have hm : x.id ≠ m := by rw [r1, q1]; exact hm2
              refine ⟨x, hx, r1.trans q1, q2.trans r2, q3.trans r3, ?_⟩
              have first : ∀ i1 ∈ x1.instances, i1 ∈ x.instances ∨ (i1.handle = {} ∧ (∃ i ∈ x.instances, i.handle.pid ≠ 0) ∧
                  (i1.wanted = .running → Lost Rs (s.st.log ++ [.inp (.exit pid)]))) := by
                intro i1 hi1
                rcases r4 i1 hi1 with w1 | ⟨w1, w2, w3⟩
                · exact Or.inl w1
                · refine Or.inr ⟨w1, ?_, fun hw => lost x hx hm (w3 hw) w2⟩
                  obtain ⟨i, w4, w5⟩ := w2
                  exact ⟨i, w4, by rw [w5]; exact hz⟩
              intro i2 hi2
              rcases q4 i2 hi2 with w1 | ⟨w1, ⟨i1, w2, w3⟩, w4⟩
              · rcases first i2 w1 with w | w
                · exact Or.inl w
                · exact Or.inr (Or.inr w)
              · refine Or.inr (Or.inr ?_)
                rcases first i1 w2 with w | ⟨w, _⟩
                · exact ⟨w1, ⟨i1, w, by rw [w3]; exact hz⟩, fun hw => lost x hx hm (by rw [← r2]; exact w4 hw) ⟨i1, w, w3⟩⟩
                · rw [w] at w3
                  exact absurd w3.symm hz
          · -- the pids are not unique: nothing to show
            have hc : ∀ c : Core, c.log = s.st.log ++ [.inp (.exit pid)] → UInv pm c → BWith m pm Rs (members (pre ++ [b])) c := by
              intro c hl hu
              exact ⟨hu, fun q => absurd (hl ▸ q) hup⟩
            dsimp only [State.on]
            refine msg _ _ rfl ?_
            dsimp only
            split
            · rename_i id _
              refine ⟨hUr.scaleInstances id, ?_⟩
              intro q
              obtain ⟨ext, hx, _⟩ := (Frame.scaleInstances lib ((s.st.say [.inp (.exit pid)]).remove pid).1 id).log
              rw [hx, hrl] at q
              exact absurd q.prefix hup
            · exact hc _ hrl hUr
      | connect hd x w =>
        have hs1 := inp (by simp)
        dsimp only [State.handle]
        split
        · rename_i hok
          have hok' : hd.pid ≠ 0 ∧ hd.ipc ≠ 0 := by simpa [Handle.ok] using hok
          unfold State.connect
          split
          · exact over _ ⟨hd, x, by simp [State.on, Core.say]⟩
          · split
            · exact over _ ⟨hd, x, by simp [State.on, Core.say]⟩
            · dsimp only
              have fin : ∀ s' : State, BootGo m pm Rs bs s' → BootGo m pm Rs bs (s'.on fun c => c.say [.approved hd x]) := by
                rintro s' ⟨tl', ⟨h, ht⟩ | ⟨pre, b, post, g, gs, h1, h2, h3, h4, h5, h6⟩⟩
                · exact ⟨tl', Or.inl ⟨h.append [.approved hd x], ht⟩⟩
                · exact ⟨tl', Or.inr ⟨pre, b, post, g, gs, h1, h2, h3, h4,
                    h5.quiet rfl rfl (ext := [.approved hd x]) rfl (by simp [Item.still]) (by simp), h6⟩⟩
              refine fin _ ?_
              unfold State.connected
              refine msg _ _ rfl ?_
              dsimp only [State.on]
              have rt : ∀ c : Core, BWith m pm Rs (members (pre ++ [b])) c → BWith m pm Rs (members (pre ++ [b])) c.retry := by
                intro c hg
                obtain ⟨ext, q1, q2⟩ := retry_still c
                refine hg.quiet rfl rfl (ext := c.lookups.flatMap fun l => (c.answer l).getD []) rfl ?_ ?_
                · have : ext = c.lookups.flatMap fun l => (c.answer l).getD [] := List.append_cancel_left (q1.symm : c.log ++ ext = c.log ++ _)
                  rw [← this]
                  exact q2
                · intro hh y w' hm
                  obtain ⟨l, _, hy⟩ := List.mem_flatMap.1 hm
                  unfold Core.answer at hy
                  split at hy
                  · split at hy
                    · simp at hy
                    · split at hy
                      · simp at hy
                      · simp at hy
                  · split at hy
                    · dsimp only at hy
                      split at hy
                      · simp at hy
                      · simp at hy
                    · simp at hy
              refine rt _ ?_
              have hU2 : UInv pm (({ s.st.say [.inp (.connect hd x w)] with
                  singletons := if x ≠ 0 then s.st.singletons ++ [(x, hd)] else s.st.singletons
                  whitelisted := if w then s.st.whitelisted ++ [hd.pid] else s.st.whitelisted } : Core).say [.admitted hd x w]) :=
                UInv.quiet hs1.1 rfl ⟨[.admitted hd x w], rfl, by simp [Item.still]⟩
              split
              · rename_i e hb
                have hb' : s.st.byPid .server hd.pid = some e := hb
                refine ⟨hU2.modify _ _ (fun _ => rfl) (fun e p _ => Nat.le_of_eq (count_connect hd p e.instances)), ?_⟩
                intro hu
                have hup : UniquePids pm (s.st.log ++ ([.inp (.connect hd x w)] ++ [.admitted hd x w])) := by
                  rw [← List.append_assoc]; exact hu
                have hg := h5.2 hup.prefix
                have honce := h5.1.once hup.prefix hd.pid hok'.1
                obtain ⟨b1, b2, b3⟩ := byPid_some hb'
                refine hg.step (ext := [Item.inp (Input.connect hd x w)] ++ [Item.admitted hd x w]) rfl (List.append_assoc s.st.log [.inp (.connect hd x w)] [.admitted hd x w]) (by simp) ?_ ?_
                · intro x' hx' _
                  obtain ⟨y, hy, rfl⟩ := List.mem_map.1 hx'
                  refine ⟨y, hy, ?_⟩
                  split
                  · refine ⟨rfl, rfl, rfl, ?_⟩
                    intro i' hi'
                    rcases connectInst_from hok hi' with q | q
                    · exact Or.inl q
                    · exact Or.inr (Or.inl q)
                  · exact ⟨rfl, rfl, rfl, fun i hi => Or.inl hi⟩
                · intro hh y' w' hm x' hx' hxm hk i' hi' hpid
                  have : hh = hd := by
                    rcases List.mem_append.1 hm with q | q
                    · simp at q
                    · simp at q; exact q.1
                  subst this
                  obtain ⟨y, hy, rfl⟩ := List.mem_map.1 hx'
                  split at hi'
                  · have hc : count y.instances hh.pid ≤ 1 := Nat.le_trans (occ_mem hy) honce
                    rw [connectInst_only hpid hc hi']
                    exact hok'.2
                  · rename_i hne
                    have : y = e := occ_unique honce hy b1 (count_pos.2 ⟨i', hi', hpid⟩) b3
                    exact absurd (by rw [this]) hne
              · rename_i hb
                have hb' : s.st.byPid .server hd.pid = none := hb
                refine ⟨hU2.quiet rfl ⟨[], by simp [Core.say], by simp⟩, ?_⟩
                intro hu
                have hup : UniquePids pm (s.st.log ++ ([.inp (.connect hd x w)] ++ [.admitted hd x w])) := by
                  rw [← List.append_assoc]; exact hu
                have hg := h5.2 hup.prefix
                refine hg.step (ext := [Item.inp (Input.connect hd x w)] ++ [Item.admitted hd x w]) rfl (List.append_assoc s.st.log [.inp (.connect hd x w)] [.admitted hd x w]) (by simp) ?_ ?_
                · intro x' hx' _
                  exact ⟨x', hx', rfl, rfl, rfl, fun i hi => Or.inl hi⟩
                · intro hh y' w' hm x' hx' hxm hk i' hi' hpid
                  have : hh = hd := by
                    rcases List.mem_append.1 hm with q | q
                    · simp at q
                    · simp at q; exact q.1
                  subst this
                  have := List.find?_eq_none.1 hb' x' hx'
                  simp only [hk, decide_true, Bool.true_and, Entity.has, List.any_eq_true, decide_eq_true_eq] at this
                  exact absurd ⟨i', hi', hpid⟩ this
        · exact still _ rfl rfl hs1
      | prepareReply hs =>
        have hs1 := inp (by simp)
        refine still _ rfl rfl (hs1.quiet rfl rfl (ext := hs.map fun h => if h.ipc ≠ 0 then .shutdownReq h else .terminate h.pid) rfl ?_ ?_)
        · intro x hx
          obtain ⟨y, _, rfl⟩ := List.mem_map.1 hx
          split <;> rfl
        · intro hh y w hm
          obtain ⟨x, _, hx⟩ := List.mem_map.1 hm
          split at hx <;> cases hx
      | lookup l =>
        have hs1 := inp (by simp)
        obtain ⟨ext, q1, q2⟩ := lookup_still (s.st.say [.inp (.lookup l)]) l
        have hent : ((s.st.say [.inp (.lookup l)]).lookup l).entities = s.st.entities := by
          unfold Core.lookup
          split <;> rfl
        have hlev : ((s.st.say [.inp (.lookup l)]).lookup l).runlevel = s.st.runlevel := by
          unfold Core.lookup
          split <;> rfl
        refine still _ rfl hent (hs1.quiet hent hlev (ext := ext) q1 q2 ?_)
        intro hh y w hm
        unfold Core.lookup at q1
        split at q1
        · rename_i items hans
          have : items = ext := List.append_cancel_left (q1 : (s.st.say [.inp (.lookup l)]).log ++ items = _)
          subst this
          unfold Core.answer at hans
          split at hans
          · split at hans
            · cases hans; simp at hm
            · split at hans
              · cases hans; simp at hm
              · cases hans
          · split at hans
            · dsimp only at hans
              split at hans
              · cases hans; simp at hm
              · cases hans
            · cases hans; simp at hm
        · have : ext = [] := by simpa using q1
          subst this
          cases hm
      | scale as => cases hi
      | restartAliases as =>
        obtain ⟨tl', h⟩ := still (s.on fun c => c.say [.inp (.restartAliases as)]) rfl rfl (inp (by simp))
        exact conf_thenAll k _ h
      | restartGroups as =>
        obtain ⟨tl', h⟩ := still (s.on fun c => c.say [.inp (.restartGroups as)]) rfl rfl (inp (by simp))
        exact conf_thenAll k _ h
      | shutdown => cases hi
      | fatal => cases hi
      | assassinate t c =>
        have hs1 := inp (by simp)
        dsimp only [State.handle, State.on]
        unfold Core.assassinate
        split
        · exact still _ rfl rfl hs1
        · split
          · exact still _ rfl rfl hs1
          · exact still _ rfl rfl (hs1.quiet rfl rfl (ext := [_]) rfl (by simp [Item.still]) (by simp))

theorem bootgo_run {lib : Lib} {bs : List Batch} (ha : Apart bs) (hbm : ∀ b ∈ bs, m ∉ b.members) : ∀ (is : List Input) (s : State),
    (∀ i ∈ is, i.calm = true ∧ i.notOf pm) → BootGo m pm Rs bs s → BootGo m pm Rs bs (s.run lib is)
  | [], _, _, h => h
  | i :: is, s, hc, h =>
    bootgo_run ha hbm is _ (fun j hj => hc j (List.mem_cons_of_mem _ hj))
      (bootgo_input ha hbm i (hc i List.mem_cons_self).1 (hc i List.mem_cons_self).2 h)

end

/-- Entities that are to be restarted. -/
def Setup.restarts (u : Setup) (e : EId) : Prop := ∃ x ∈ u.entities, x.id = e ∧ x.restart = true

theorem boot_notMe {lib : Lib} (hs : StableSort lib.sort) {u : Setup} : ∀ b ∈ u.bootBatches lib, u.manager ∉ b.members := by
  intro b hb he
  have hp := boot_each_once hs u.groups (u.entities.map fun e => ⟨e.id, e.memberships⟩) u.manager
  have h1 : u.manager ∈ (u.bootBatches lib).flatMap (·.members) := List.mem_flatMap.2 ⟨b, hb, he⟩
  obtain ⟨x, hx, h2⟩ := List.mem_map.1 (hp.mem_iff.1 h1)
  have := (List.mem_filter.1 hx).2
  simp only [Bool.and_eq_true, decide_eq_true_eq] at this
  exact this.1 h2

theorem start_bootgo {lib : Lib} (hs : StableSort lib.sort) {u : Setup} (hu : u.Proper) (hc : u.Clean) :
    BootGo u.manager u.self.pid u.restarts (u.bootBatches lib) (State.start lib u) := by
  refine ⟨[], ?_⟩
  unfold State.start State.boot
  refine conf_start (boot_done_seq (apart_boot hs hu.1) (boot_notMe hs)) rfl ⟨?_, fun _ => ⟨rfl, ?_, ?_, ?_, ?_⟩⟩
  · exact init_uinv hu rfl
  · intro x hx hm hr
    exact ⟨x, hx, rfl, hr⟩
  · intro x hx hm _ i hi
    obtain ⟨n, hn⟩ := hc.2 x hx hm
    rw [hn] at hi
    exact (List.mem_replicate.1 hi).2
  · intro x hx hm hS
    simp [members] at hS
  · intro x hx hm i hi hp
    obtain ⟨n, hn⟩ := hc.2 x hx hm
    rw [hn] at hi
    rw [(List.mem_replicate.1 hi).2] at hp
    exact absurd rfl hp

end Casual.DManager

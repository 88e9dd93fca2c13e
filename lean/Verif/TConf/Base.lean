import Verif.TConf.Coord
/-
  What the actions, the handlers and the events do to the instances.
-/
namespace Casual.TConf
open Casual.Task

/-- The pids of a resource, and whether they have been asked to stop. -/
def Proxy.view (p : Proxy) : List (Nat × Bool) := p.insts.map fun i => (i.pid, decide (i.state = .shutdown))

/-- The same for all resources. -/
def State.view (st : State) : List (Nat × Bool) := st.proxies.flatMap Proxy.view

/-- The ids of the resources differ. -/
def Ids (st : State) : Prop := (st.proxies.map (·.id)).Nodup ∧ ∀ p ∈ st.proxies, p.id < st.nextId

theorem find_split {st : State} (h : Ids st) {id : Nat} {p : Proxy} (hf : st.find id = some p) :
    ∃ l r, st.proxies = l ++ p :: r ∧ p.id = id ∧ (∀ q ∈ l, q.id ≠ id) ∧ (∀ q ∈ r, q.id ≠ id) := by
  unfold State.find at hf
  obtain ⟨hp, l, r, e, hl⟩ := List.find?_eq_some_iff_append.1 hf
  have hid : p.id = id := by simpa using hp
  refine ⟨l, r, e, hid, fun q hq => by simpa using hl q hq, fun q hq e2 => ?_⟩
  have h1 := h.1
  rw [e, List.map_append, List.map_cons] at h1
  have h2 := (List.nodup_append.1 h1).2.1
  exact (List.nodup_cons.1 h2).1 (List.mem_map.2 ⟨q, hq, e2.trans hid.symm⟩)

theorem change_split {st : State} {id : Nat} {p : Proxy} {l r : List Proxy} (e : st.proxies = l ++ p :: r) (hid : p.id = id) (hl : ∀ q ∈ l, q.id ≠ id) (hr : ∀ q ∈ r, q.id ≠ id) (f : Proxy → Proxy) :
    (st.change id f).proxies = l ++ f p :: r := by
  unfold State.change
  dsimp only
  rw [e, List.map_append, List.map_cons, if_pos hid]
  congr 1
  · exact (List.map_congr_left (fun q hq => if_neg (hl q hq))).trans (List.map_id _)
  · congr 1
    exact (List.map_congr_left (fun q hq => if_neg (hr q hq))).trans (List.map_id _)

theorem change_none {st : State} {id : Nat} (h : st.find id = none) (f : Proxy → Proxy) : (st.change id f) = st := by
  unfold State.change
  have : st.proxies.map (fun p => if p.id = id then f p else p) = st.proxies := by
    refine (List.map_congr_left (fun q hq => if_neg ?_)).trans (List.map_id _)
    unfold State.find at h
    simpa using List.find?_eq_none.1 h q hq
  rw [this]

theorem view_change {st : State} (h : Ids st) {id : Nat} {p : Proxy} (hf : st.find id = some p) (f : Proxy → Proxy) :
    ∃ A B, st.view = A ++ p.view ++ B ∧ (st.change id f).view = A ++ (f p).view ++ B := by
  obtain ⟨l, r, e, hid, hl, hr⟩ := find_split h hf
  refine ⟨l.flatMap Proxy.view, r.flatMap Proxy.view, ?_, ?_⟩
  · unfold State.view; rw [e]; simp
  · unfold State.view; rw [change_split e hid hl hr]; simp

theorem change_ids {st : State} {f : Proxy → Proxy} (id : Nat) (hf : ∀ p, (f p).id = p.id) : (st.change id f).proxies.map (·.id) = st.proxies.map (·.id) := by
  unfold State.change
  rw [List.map_map]
  apply List.map_congr_left
  intro p _
  dsimp only [Function.comp]
  split
  · exact hf p
  · rfl

theorem ids_of {st st' : State} (e : st'.proxies.map (·.id) = st.proxies.map (·.id)) (hn : st.nextId ≤ st'.nextId) (h : Ids st) : Ids st' := by
  refine ⟨e ▸ h.1, fun p hp => ?_⟩
  have : p.id ∈ st.proxies.map (·.id) := e ▸ List.mem_map_of_mem hp
  obtain ⟨q, hq, e2⟩ := List.mem_map.1 this
  have := h.2 q hq
  omega

theorem find_mem {st : State} {id : Nat} {p : Proxy} (hf : st.find id = some p) : p ∈ st.proxies ∧ p.id = id := by
  unfold State.find at hf
  exact ⟨List.mem_of_find?_eq_some hf, by simpa using List.find?_some hf⟩

theorem find_of {st : State} (h : Ids st) {p : Proxy} (hp : p ∈ st.proxies) : st.find p.id = some p := by
  cases hf : st.find p.id with
  | none =>
    unfold State.find at hf
    exact absurd (List.find?_eq_none.1 hf p hp) (by simp)
  | some q =>
    obtain ⟨l, r, e, hid, hl, hr⟩ := find_split h hf
    rw [e] at hp
    rcases List.mem_append.1 hp with hp | hp
    · exact absurd rfl (hl p hp)
    · rcases List.mem_cons.1 hp with rfl | hp
      · rfl
      · exact absurd rfl (hr p hp)

/-- What is the same after something. -/
structure Same (st st' : State) : Prop where
  sent : st'.sent = st.sent
  pid : st'.nextPid = st.nextPid
  view : st'.view.Perm st.view
  ids : Ids st → Ids st'

theorem Same.refl (st : State) : Same st st := ⟨rfl, rfl, .refl _, id⟩

theorem Same.trans {a b c : State} (h1 : Same a b) (h2 : Same b c) : Same a c :=
  ⟨h2.sent.trans h1.sent, h2.pid.trans h1.pid, h2.view.trans h1.view, fun h => h2.ids (h1.ids h)⟩

theorem change_same {st : State} (id : Nat) {f : Proxy → Proxy} (hi : ∀ p, (f p).id = p.id) (hv : ∀ p, (f p).view.Perm p.view) : Same st (st.change id f) := by
  refine ⟨rfl, rfl, ?_, ids_of (change_ids id hi) (Nat.le_refl _)⟩
  unfold State.view State.change
  dsimp only
  induction st.proxies with
  | nil => exact .refl _
  | cons p ps ih =>
    rw [List.map_cons, List.flatMap_cons, List.flatMap_cons]
    refine List.Perm.append ?_ ih
    split
    · exact hv p
    · exact .refl _

theorem partitioned_view (p : Proxy) : p.partitioned.view.Perm p.view := by
  unfold Proxy.partitioned Proxy.view
  dsimp only
  exact List.Perm.map _ (List.filter_append_perm Inst.running p.insts)

/-! ### Processes that are spawned -/

theorem spawn_spec (st : State) (p : Proxy) :
    (spawn st p).1.proxies = st.proxies ∧ (spawn st p).1.sent = st.sent ∧ (spawn st p).1.nextId = st.nextId ∧ (spawn st p).1.keys = st.keys ∧ (spawn st p).1.undef = st.undef
    ∧ (spawn st p).1.alias = st.alias
    ∧ ((∃ pid, (spawn st p).2 = some pid ∧ pid = st.nextPid ∧ (spawn st p).1.nextPid = st.nextPid + 1) ∨ ((spawn st p).2 = none ∧ (spawn st p).1.nextPid = st.nextPid)) := by
  unfold spawn
  split
  · exact ⟨rfl, rfl, rfl, rfl, rfl, rfl, .inr ⟨rfl, rfl⟩⟩
  · split
    · exact ⟨rfl, rfl, rfl, rfl, rfl, rfl, .inr ⟨rfl, rfl⟩⟩
    · exact ⟨rfl, rfl, rfl, rfl, rfl, rfl, .inl ⟨_, rfl, rfl, rfl⟩⟩

theorem spawns_spec (p : Proxy) : ∀ (n : Nat) (st : State),
    (spawns p n st).1.proxies = st.proxies ∧ (spawns p n st).1.sent = st.sent ∧ (spawns p n st).1.nextId = st.nextId ∧ (spawns p n st).1.keys = st.keys ∧ (spawns p n st).1.undef = st.undef
    ∧ (spawns p n st).1.alias = st.alias
    ∧ st.nextPid ≤ (spawns p n st).1.nextPid ∧ (spawns p n st).2.Nodup ∧ ∀ pid ∈ (spawns p n st).2, st.nextPid ≤ pid ∧ pid < (spawns p n st).1.nextPid := by
  intro n
  induction n with
  | zero => intro st; exact ⟨rfl, rfl, rfl, rfl, rfl, rfl, Nat.le_refl _, List.nodup_nil, by intro pid h; cases h⟩
  | succ n ih =>
    intro st
    unfold spawns
    dsimp only
    obtain ⟨a1, a2, a3, a4, a5, a6, a7⟩ := spawn_spec st p
    obtain ⟨b1, b2, b3, b4, b5, b6, b7, b8, b9⟩ := ih (spawn st p).1
    refine ⟨b1.trans a1, b2.trans a2, b3.trans a3, b4.trans a4, b5.trans a5, b6.trans a6, ?_, ?_, ?_⟩
    · rcases a7 with ⟨_, _, _, e⟩ | ⟨_, e⟩ <;> omega
    · rcases a7 with ⟨pid, e1, e2, e3⟩ | ⟨e1, _⟩
      · rw [e1]
        refine List.nodup_cons.2 ⟨fun hm => ?_, b8⟩
        have := (b9 pid hm).1
        omega
      · rw [e1]; exact b8
    · intro pid hm
      rcases a7 with ⟨pid', e1, e2, e3⟩ | ⟨e1, e3⟩
      · rw [e1] at hm
        rcases List.mem_cons.1 hm with rfl | hm
        · omega
        · have := b9 pid hm
          omega
      · rw [e1] at hm
        have := b9 pid hm
        omega

/-! ### Removal -/

theorem eraseP_flat (q : Proxy → Bool) (hq : ∀ p, q p = true → p.view = []) (ps : List Proxy) : (ps.eraseP q).flatMap Proxy.view = ps.flatMap Proxy.view := by
  induction ps with
  | nil => rfl
  | cons p ps ih =>
    rw [List.eraseP_cons]
    cases h : q p with
    | true => rw [List.flatMap_cons, hq p h]; rfl
    | false =>
      show List.flatMap Proxy.view (p :: List.eraseP q ps) = _
      rw [List.flatMap_cons, List.flatMap_cons, ih]

theorem removeAll_same : ∀ (ids : List Nat) (st : State), Same st (removeAll ids st) := by
  intro ids
  induction ids with
  | nil => intro st; exact Same.refl st
  | cons id ids ih =>
    intro st
    refine Same.trans ?_ (ih _)
    refine ⟨rfl, rfl, ?_, fun h => ⟨?_, fun p hp => ?_⟩⟩
    · unfold State.view
      dsimp only
      rw [eraseP_flat]
      intro p hp
      simp only [Bool.and_eq_true, List.isEmpty_iff] at hp
      unfold Proxy.view
      rw [hp.2]; rfl
    · exact (List.Sublist.map _ List.eraseP_sublist).nodup h.1
    · exact h.2 p (List.eraseP_sublist.subset hp)

/-! ### A property that scaling and configuration does not matter for -/

/-- An answer to an update. -/
def Act.isReply : Act → Bool
  | .reply _ => true
  | _ => false

/-- What `conform` does is of no importance to `J`. -/
structure Indifferent (J : State → List Act → Prop) (okA : Act → Prop) (okB : Body → Prop) : Prop where
  same : ∀ st st' W, Same st st' → J st W → J st' W
  more : ∀ st W us, (∀ a ∈ us, a.isReply = false) → J st W → J st (W ++ us)
  okA : ∀ a, a.isReply = false → okA a
  okB : ∀ b, okB b

variable {J : State → List Act → Prop} {okA : Act → Prop} {okB : Body → Prop}

theorem push_other (hk : Kept J okA okB) (hi : Indifferent J okA okB) {c : Mgr} {us : List (Act × Body)} (h : GoodM J okA okB c) (hu : ∀ x ∈ us, x.1.isReply = false) : GoodM J okA okB (c.push us) :=
  push_good hk (hi.more _ _ _ (by intro a ha; obtain ⟨x, hx, rfl⟩ := List.mem_map.1 ha; exact hu x hx) h.holds) h.units h.front (fun x hx => ⟨hi.okA _ (hu x hx), hi.okB _⟩)

theorem on_same (hi : Indifferent J okA okB) {c : Mgr} {f : State → State} (h : GoodM J okA okB c) (hf : Same c.st (f c.st)) : GoodM J okA okB (c.on f) :=
  on_good h (fun W hj => hi.same _ _ W hf hj)

theorem scale_other (st : State) (id : Nat) : ∀ x ∈ scale st id, x.1.isReply = false := by
  unfold scale
  split
  · intro x hx; cases hx
  · split
    · intro x hx; rw [List.mem_singleton.1 hx]; rfl
    · split
      · intro x hx; rw [List.mem_singleton.1 hx]; rfl
      · intro x hx; cases hx

theorem scales_other {α} (st : State) (xs : List α) (f : α → Nat) : ∀ x ∈ xs.flatMap (fun a => scale st (f a)), x.1.isReply = false := by
  intro x hx
  obtain ⟨a, _, h⟩ := List.mem_flatMap.1 hx
  exact scale_other st _ x h

theorem added_same (st : State) (rs : List Res) :
    Same st { st with proxies := st.proxies ++ (rs.zip ((List.range rs.length).map (st.nextId + ·))).map (fun p => ({ id := p.2, conf := p.1 } : Proxy)), nextId := st.nextId + rs.length } := by
  have hids : ((rs.zip ((List.range rs.length).map (st.nextId + ·))).map (fun p => ({ id := p.2, conf := p.1 } : Proxy))).map (·.id) = (List.range rs.length).map (st.nextId + ·) := by
    rw [List.map_map]
    exact List.map_snd_zip (by simp)
  refine ⟨rfl, rfl, ?_, fun h => ⟨?_, fun p hp => ?_⟩⟩
  · unfold State.view
    dsimp only
    rw [List.flatMap_append]
    have : ((rs.zip ((List.range rs.length).map (st.nextId + ·))).map (fun p => ({ id := p.2, conf := p.1 } : Proxy))).flatMap Proxy.view = [] := by
      rw [List.flatMap_eq_nil_iff]
      intro p hp
      obtain ⟨x, _, rfl⟩ := List.mem_map.1 hp
      rfl
    rw [this, List.append_nil]
  · dsimp only
    rw [List.map_append, hids]
    refine List.nodup_append.2 ⟨h.1, ?_, ?_⟩
    · rw [List.Nodup, List.pairwise_map]
      exact List.nodup_range.imp (fun hne e => hne (by omega))
    · intro a ha b hb e
      obtain ⟨p, hp, rfl⟩ := List.mem_map.1 ha
      obtain ⟨k, _, rfl⟩ := List.mem_map.1 hb
      have := h.2 p hp
      omega
  · dsimp only at hp ⊢
    rcases List.mem_append.1 hp with hp | hp
    · have := h.2 p hp; omega
    · have : p.id ∈ (List.range rs.length).map (st.nextId + ·) := hids ▸ List.mem_map_of_mem hp
      obtain ⟨k, hk, e⟩ := List.mem_map.1 this
      have := List.mem_range.1 hk
      omega

theorem added_good (hk : Kept J okA okB) (hi : Indifferent J okA okB) {c : Mgr} (rs : List Res) (h : GoodM J okA okB c) : GoodM J okA okB (added c rs) := by
  unfold added
  dsimp only
  refine push_other hk hi (on_same hi h (added_same _ _)) ?_
  exact scales_other _ _ id

theorem contexts_same : ∀ (rs : List Res) (st : State), Same st (contexts rs st).1 := by
  intro rs
  induction rs with
  | nil => intro st; exact Same.refl st
  | cons r rs ih =>
    intro st
    unfold contexts
    split
    · exact ih st
    · rename_i p _
      dsimp only
      refine Same.trans ?_ (ih _)
      have h1 : Same st (st.change p.id fun p => { p with conf := r }) := change_same p.id (fun _ => rfl) (fun _ => .refl _)
      split
      · exact ⟨h1.sent, h1.pid, h1.view, h1.ids⟩
      · exact h1

theorem modified_good (hk : Kept J okA okB) (hi : Indifferent J okA okB) {c : Mgr} (rs : List Res) (h : GoodM J okA okB c) : GoodM J okA okB (modified c rs) := by
  unfold modified
  dsimp only
  have h1 : GoodM J okA okB (c.on fun _ => (contexts rs c.st).1) := on_same hi h (contexts_same rs c.st)
  have h2 : GoodM J okA okB (if ((contexts rs c.st).2.flatMap fun x => scale (c.on fun _ => (contexts rs c.st).1).st x.1) = [] then (c.on fun _ => (contexts rs c.st).1)
      else (c.on fun _ => (contexts rs c.st).1).push ((contexts rs c.st).2.flatMap fun x => scale (c.on fun _ => (contexts rs c.st).1).st x.1)) := by
    split
    · exact h1
    · exact push_other hk hi h1 (scales_other _ _ (fun y : Nat × List Nat => y.1))
  split
  · exact h2
  · refine push_other hk hi h2 ?_
    intro x hx
    obtain ⟨y, _, e⟩ := List.mem_filterMap.1 hx
    split at e
    · cases e
    · rw [← Option.some.inj e]; rfl

theorem zeros_same : ∀ (ids : List Nat) (st : State), Same st (ids.foldl (fun st id => st.change id fun p => { p with conf := { p.conf with instances := 0 } }) st) := by
  intro ids
  induction ids with
  | nil => intro st; exact Same.refl st
  | cons id ids ih => intro st; exact Same.trans (change_same (f := fun p => { p with conf := { p.conf with instances := 0 } }) id (fun _ => rfl) (fun _ => .refl _)) (ih _)

theorem removed_good (hk : Kept J okA okB) (hi : Indifferent J okA okB) {c : Mgr} (rs : List Res) (h : GoodM J okA okB c) : GoodM J okA okB (removed c rs) := by
  unfold removed
  dsimp only
  have h1 := on_same (c := c) (f := fun st => (rs.filterMap fun r => (c.st.named r.name).map (·.id)).foldl (fun st id => st.change id fun p => { p with conf := { p.conf with instances := 0 } }) st) hi h (zeros_same (rs.filterMap fun r => (c.st.named r.name).map (·.id)) c.st)
  split
  · exact h1
  · refine push_other hk hi (push_other hk hi h1 (scales_other _ _ id)) ?_
    intro x hx
    rw [List.mem_singleton.1 hx]; rfl

theorem conform_good (hk : Kept J okA okB) (hi : Indifferent J okA okB) {c : Mgr} (m : Model) (h : GoodM J okA okB c) : GoodM J okA okB (conform c m) := by
  unfold conform
  dsimp only
  have h1 : GoodM J okA okB (if (Casual.Config.calculate Res.name (c.st.proxies.map (·.conf)) m.resources).added = [] then c else added c (Casual.Config.calculate Res.name (c.st.proxies.map (·.conf)) m.resources).added) := by
    split
    · exact h
    · exact added_good hk hi _ h
  generalize (if (Casual.Config.calculate Res.name (c.st.proxies.map (·.conf)) m.resources).added = [] then c else added c (Casual.Config.calculate Res.name (c.st.proxies.map (·.conf)) m.resources).added) = c1 at h1 ⊢
  have h2 : GoodM J okA okB (if (Casual.Config.calculate Res.name (c.st.proxies.map (·.conf)) m.resources).modified = [] then c1 else modified c1 (Casual.Config.calculate Res.name (c.st.proxies.map (·.conf)) m.resources).modified) := by
    split
    · exact h1
    · exact modified_good hk hi _ h1
  generalize (if (Casual.Config.calculate Res.name (c.st.proxies.map (·.conf)) m.resources).modified = [] then c1 else modified c1 (Casual.Config.calculate Res.name (c.st.proxies.map (·.conf)) m.resources).modified) = c2 at h2 ⊢
  have h3 : GoodM J okA okB (if (Casual.Config.calculate Res.name (c.st.proxies.map (·.conf)) m.resources).removed = [] then c2 else removed c2 (Casual.Config.calculate Res.name (c.st.proxies.map (·.conf)) m.resources).removed) := by
    split
    · exact h2
    · exact removed_good hk hi _ h2
  split
  · exact h3
  · refine push_other hk hi h3 ?_
    intro x hx
    rw [List.mem_singleton.1 hx]; rfl

end Casual.TConf

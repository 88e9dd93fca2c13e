import Verif.ConfModel.Model
import Verif.ConfModel.Keyed
/-
  Properties of the set operations on configurations.
-/
namespace Casual.ConfModel

/-- Specification: the first with the name. -/
def named {α : Type} (name : α → String) (k : String) (l : List α) : Option α := l.find? fun x => decide (name x = k)

/-- Specification: the last with the name. -/
def lastNamed {α : Type} (name : α → String) (k : String) (l : List α) : Option α := named name k l.reverse

theorem findKey_nameKey {α : Type} (name : α → String) {k : String} (hk : k ≠ "") (l : List α) :
    findKey (nameKey name) k l = named name k l := by
  unfold findKey named nameKey
  congr 1
  funext x
  by_cases h : name x = ""
  · simp [h, Ne.symm hk]
  · simp [h]

theorem named_replace {α : Type} (name : α → String) {k : String} (hk : k ≠ "") (s t : List α) :
    named name k (replace (equalName name) s t) = (lastNamed name k s).or (named name k t) := by
  rw [← findKey_nameKey name hk, findKey_replace (keyed_name name), findKey_nameKey name hk, findKey_nameKey name hk]
  unfold lastNamed
  cases named name k s.reverse <;> rfl

theorem named_replace_key {α : Type} (name : α → String) (k : String) (s t : List α) :
    named name k (replace (equalKey name) s t) = (lastNamed name k s).or (named name k t) := by
  have e : ∀ l, findKey (fun x => some (name x)) k l = named name k l := by
    intro l
    unfold findKey named
    congr 1
    funext x
    simp
  rw [← e, findKey_replace (keyed_key name), e, e]
  unfold lastNamed
  cases named name k s.reverse <;> rfl

/-- **C203**: in the union the entity of the right configuration is the one that counts, the
one of the left if there is none: for resources, groups, servers, executables, service
restrictions and the resources of servers. -/
theorem union_precedence (l r : Model) (k : String) (hk : k ≠ "") :
    named (·.key) k (l.union r).system.resources = (lastNamed (·.key) k r.system.resources).or (named (·.key) k l.system.resources) ∧
    named (·.name) k (l.union r).domain.groups = (lastNamed (·.name) k r.domain.groups).or (named (·.name) k l.domain.groups) ∧
    named (·.alias) k (l.union r).domain.servers = (lastNamed (·.alias) k r.domain.servers).or (named (·.alias) k l.domain.servers) ∧
    named (·.alias) k (l.union r).domain.executables =
      (lastNamed (·.alias) k r.domain.executables).or (named (·.alias) k l.domain.executables) ∧
    named (·.name) k (l.union r).transaction.resources =
      (lastNamed (·.name) k r.transaction.resources).or (named (·.name) k l.transaction.resources) ∧
    named (·.alias) k (l.union r).transaction.mappings =
      (lastNamed (·.alias) k r.transaction.mappings).or (named (·.alias) k l.transaction.mappings) ∧
    named (·.name) k (l.union r).service.services = (lastNamed (·.name) k r.service.services).or (named (·.name) k l.service.services) ∧
    named (·.alias) k (l.union r).service.restriction =
      (lastNamed (·.alias) k r.service.restriction).or (named (·.alias) k l.service.restriction) :=
  ⟨named_replace_key _ k _ _, named_replace _ hk _ _, named_replace _ hk _ _, named_replace _ hk _ _,
    named_replace _ hk _ _, named_replace _ hk _ _, named_replace _ hk _ _, named_replace _ hk _ _⟩

/-- **C203**: the same for an environment variable, and for the values that are not in lists:
what the right configuration says counts, if it says anything. -/
theorem union_values (l r : Model) :
    (∀ k : List Char, (l.union r).domain.environment.variables.find? (fun v => decide (v.name = k)) =
      (r.domain.environment.variables.reverse.find? fun v => decide (v.name = k)).or
        (l.domain.environment.variables.find? fun v => decide (v.name = k))) ∧
    ((l.union r).domain.name = if r.domain.name = "" then l.domain.name else r.domain.name) ∧
    ((l.union r).transaction.log = if r.transaction.log = "" then l.transaction.log else r.transaction.log) ∧
    ((l.union r).queue.note = if r.queue.note = "" then l.queue.note else r.queue.note) ∧
    ((l.union r).service.global.timeout.duration = r.service.global.timeout.duration.or l.service.global.timeout.duration) ∧
    ((l.union r).service.global.timeout.contract = r.service.global.timeout.contract.or l.service.global.timeout.contract) := by
  refine ⟨fun k => ?_, rfl, rfl, rfl, ?_, ?_⟩
  · have e : ∀ vs : List Variable, vs.find? (fun v => decide (v.name = k)) = findKey (fun x => some (Variable.name x)) k vs := by
      intro vs
      unfold findKey
      congr 1
      funext x
      simp
    rw [e, e, e]
    show findKey _ k (replace (equalKey _) _ _) = _
    rw [findKey_replace (keyed_key _)]
    cases findKey (fun x => some (Variable.name x)) k r.domain.environment.variables.reverse <;> rfl
  · show coalesceO _ _ = _
    cases r.service.global.timeout.duration <;> rfl
  · show coalesceO _ _ = _
    cases r.service.global.timeout.contract <;> rfl

/-- The entities of a list that have a name have different ones. -/
def Distinct {α : Type} (name : α → String) (l : List α) : Prop := (l.filterMap (nameKey name)).Nodup

theorem named_update {α : Type} (name : α → String) {f : α → α → α} (hf : ∀ a b, name (f a b) = name a) {k : String}
    (hk : k ≠ "") (s t : List α) (hs : Distinct name s) :
    named name k (update (equalName name) f s t) =
      match named name k s, named name k t with
      | some y, some x => some (f x y)
      | some y, none => some y
      | none, o => o := by
  have hkk : KeepsKey (equalName name) (nameKey name) f := by
    intro a b hc
    have h1 := (((keyed_name name).iff a b).1 hc).1
    have h2 : nameKey name (f a b) = nameKey name a := by unfold nameKey; rw [hf]
    exact h2.trans h1
  rw [← findKey_nameKey name hk, findKey_update (keyed_name name) hkk k s t hs, findKey_nameKey name hk, findKey_nameKey name hk]
  cases named name k s <;> cases named name k t <;> rfl

/-- **C203** (partial): a queue group of both configurations has, in the union, the queues of
the right configuration, and those of the left that the right does not name. A forward group
has the forwards in the same way. -/
theorem union_queues_partial (l r : Model) (g : String) (hg : g ≠ "") :
    (∀ a b, named (·.alias) g l.queue.groups = some a → named (·.alias) g r.queue.groups = some b →
      Distinct (·.alias) r.queue.groups → ∃ c, named (·.alias) g (l.union r).queue.groups = some c ∧
        ∀ q, q ≠ "" → named (·.name) q c.queues = (lastNamed (·.name) q b.queues).or (named (·.name) q a.queues)) ∧
    (∀ a b, named (·.alias) g l.queue.forwards = some a → named (·.alias) g r.queue.forwards = some b →
      Distinct (·.alias) r.queue.forwards → ∃ c, named (·.alias) g (l.union r).queue.forwards = some c ∧
        ∀ q, q ≠ "" → named (·.alias) q c.services = (lastNamed (·.alias) q b.services).or (named (·.alias) q a.services) ∧
          named (·.alias) q c.queues = (lastNamed (·.alias) q b.queues).or (named (·.alias) q a.queues)) := by
  refine ⟨fun a b ha hb hd => ⟨a.union b, ?_, fun q hq => named_replace _ hq _ _⟩,
    fun a b ha hb hd => ⟨a.union b, ?_, fun q hq => ⟨named_replace _ hq _ _, named_replace _ hq _ _⟩⟩⟩
  · show named _ g (update _ _ _ _) = _
    rw [named_update (f := QGroup.union) _ (fun _ _ => rfl) hg _ _ hd, hb, ha]
  · show named _ g (update _ _ _ _) = _
    rw [named_update (f := FGroup.union) _ (fun _ _ => rfl) hg _ _ hd, hb, ha]

/-- **C203** is refuted: the directory, the queue base and the capacity of a queue group, ... -/
theorem union_queue_group_refuted :
    ¬ ∀ (l r : Model) (g : String) (b : QGroup), named (·.alias) g r.queue.groups = some b →
      ∃ c, named (·.alias) g (l.union r).queue.groups = some c ∧
        (b.capacity ≠ none → c.capacity = b.capacity) ∧ (b.directory ≠ "" → c.directory = b.directory) ∧
        (b.queuebase ≠ "" → c.queuebase = b.queuebase) := by
  intro h
  obtain ⟨c, h1, h2, -⟩ := h { queue := { groups := [{ alias := "g", capacity := some 100 }] } }
    { queue := { groups := [{ alias := "g", capacity := some 50 }] } } "g" { alias := "g", capacity := some 50 } (by decide)
  cases h1
  exact absurd (h2 (by decide)) (by decide)

/-- ... the order of an outbound group and the groups its connections are members of, ... -/
theorem union_outbound_refuted :
    ¬ ∀ (l r : Model) (g : String) (b : OutGroup), named (·.alias) g r.gateway.outbound = some b →
      ∃ c, named (·.alias) g (l.union r).gateway.outbound = some c ∧ c.order = b.order ∧
        ∀ x ∈ b.connections, x.memberships ≠ [] → ∃ y ∈ c.connections, y.address = x.address ∧ y.memberships = x.memberships := by
  intro h
  obtain ⟨c, h1, h2, -⟩ := h { gateway := { outbound := [{ alias := "g", order := 1 }] } }
    { gateway := { outbound := [{ alias := "g", order := 2 }] } } "g" { alias := "g", order := 2 } (by decide)
  cases h1
  exact absurd h2 (by decide)

/-- (also if the order is the same) -/
theorem union_outbound_memberships_refuted :
    ¬ ∀ (l r : Model) (g : String) (b : OutGroup), named (·.alias) g r.gateway.outbound = some b →
      ∃ c, named (·.alias) g (l.union r).gateway.outbound = some c ∧
        ∀ x ∈ b.connections, x.memberships ≠ [] → ∃ y ∈ c.connections, y.address = x.address ∧ y.memberships = x.memberships := by
  intro h
  obtain ⟨c, h1, h2⟩ := h
    { gateway := { outbound := [{ alias := "g", connections := [{ address := "a:1" }] }] } }
    { gateway := { outbound := [{ alias := "g", connections := [{ address := "a:1", memberships := ["m"] }] }] } } "g"
    { alias := "g", connections := [{ address := "a:1", memberships := ["m"] }] } (by decide)
  cases h1
  exact absurd (h2 { address := "a:1", memberships := ["m"] } (by decide) (by decide)) (by decide)

/-- ... the memberships of an inbound connection and of a forward group. -/
theorem union_memberships_refuted :
    (¬ ∀ (l r : Model) (g : String) (b : InGroup), named (·.alias) g r.gateway.inbound = some b →
      ∃ c, named (·.alias) g (l.union r).gateway.inbound = some c ∧
        ∀ x ∈ b.connections, x.memberships ≠ [] → ∃ y ∈ c.connections, y.address = x.address ∧ y.memberships = x.memberships) ∧
    (¬ ∀ (l r : Model) (g : String) (b : FGroup), named (·.alias) g r.queue.forwards = some b →
      ∃ c, named (·.alias) g (l.union r).queue.forwards = some c ∧ (b.memberships ≠ [] → c.memberships = b.memberships)) := by
  constructor
  · intro h
    obtain ⟨c, h1, h2⟩ := h
      { gateway := { inbound := [{ alias := "g", connections := [{ address := "a:1" }] }] } }
      { gateway := { inbound := [{ alias := "g", connections := [{ address := "a:1", memberships := ["m"] }] }] } } "g"
      { alias := "g", connections := [{ address := "a:1", memberships := ["m"] }] } (by decide)
    cases h1
    exact absurd (h2 { address := "a:1", memberships := ["m"] } (by decide) (by decide)) (by decide)
  · intro h
    obtain ⟨c, h1, h2⟩ := h { queue := { forwards := [{ alias := "g" }] } }
      { queue := { forwards := [{ alias := "g", memberships := ["m"] }] } } "g" { alias := "g", memberships := ["m"] } (by decide)
    cases h1
    exact absurd (h2 (by decide)) (by decide)

/-- **C204**: nothing is lost in the union: what has no name is kept, from both, and what has
a name that the right configuration does not use. -/
theorem union_keeps (l r : Model) :
    (∀ s, s ∈ l.domain.servers → (∀ t ∈ r.domain.servers, t.alias = s.alias → s.alias = "") → s ∈ (l.union r).domain.servers) ∧
    (∀ s, s ∈ l.domain.executables → (∀ t ∈ r.domain.executables, t.alias = s.alias → s.alias = "") →
      s ∈ (l.union r).domain.executables) ∧
    (∀ s, s ∈ l.domain.groups → (∀ t ∈ r.domain.groups, t.name = s.name → s.name = "") → s ∈ (l.union r).domain.groups) ∧
    (∀ s, s ∈ l.service.services → (∀ t ∈ r.service.services, t.name = s.name → s.name = "") → s ∈ (l.union r).service.services) ∧
    (∀ s, s ∈ l.service.restriction → (∀ t ∈ r.service.restriction, t.alias = s.alias → s.alias = "") →
      s ∈ (l.union r).service.restriction) ∧
    (∀ s, s ∈ l.transaction.resources → (∀ t ∈ r.transaction.resources, t.name = s.name → s.name = "") →
      s ∈ (l.union r).transaction.resources) ∧
    (∀ s, s ∈ l.transaction.mappings → (∀ t ∈ r.transaction.mappings, t.alias = s.alias → s.alias = "") →
      s ∈ (l.union r).transaction.mappings) ∧
    (∀ s, s ∈ l.queue.groups → (∀ t ∈ r.queue.groups, t.alias = s.alias → s.alias = "") → s ∈ (l.union r).queue.groups) ∧
    (∀ s, s ∈ l.queue.forwards → (∀ t ∈ r.queue.forwards, t.alias = s.alias → s.alias = "") → s ∈ (l.union r).queue.forwards) ∧
    (∀ s, s ∈ l.gateway.inbound → (∀ t ∈ r.gateway.inbound, t.alias = s.alias → s.alias = "") → s ∈ (l.union r).gateway.inbound) ∧
    (∀ s, s ∈ l.gateway.outbound → (∀ t ∈ r.gateway.outbound, t.alias = s.alias → s.alias = "") → s ∈ (l.union r).gateway.outbound) := by
  have nm : ∀ {α : Type} (name : α → String) (f : α → α → α) (a b : List α) (s : α), s ∈ a →
      (∀ t ∈ b, name t = name s → name s = "") → s ∈ update (equalName name) f b a := by
    intro α name f a b s hs h
    refine mem_update_other (keyed_name name) hs fun v hv e => ?_
    unfold nameKey at e ⊢
    by_cases hn : name v = ""
    · rw [if_pos hn]
    · rw [if_neg hn] at e
      split at e
      · cases e
      · rename_i hs'
        exact absurd (h v hv (Option.some.inj e).symm) hs'
  have bt : ∀ {α : Type} (name : α → String) (conn : α → Connect) (f : α → α → α) (a b : List α) (s : α), s ∈ a →
      (∀ t ∈ b, name t = name s → name s = "") → s ∈ update (equalBoth name conn) f b a := by
    intro α name conn f a b s hs h
    refine mem_update_other (keyed_both name conn) hs fun v hv e => ?_
    unfold bothKey at e ⊢
    by_cases hn : name v = ""
    · rw [if_pos hn]
    · rw [if_neg hn] at e
      split at e
      · cases e
      · rename_i hs'
        exact absurd (h v hv (Prod.mk.inj (Option.some.inj e)).1.symm) hs'
  exact ⟨nm _ _ _ _, nm _ _ _ _, nm _ _ _ _, nm _ _ _ _, nm _ _ _ _, nm _ _ _ _, nm _ _ _ _, nm _ _ _ _, nm _ _ _ _,
    bt _ _ _ _ _, bt _ _ _ _ _⟩

/-- **C204**: and everything without a name is there from the right configuration too. -/
theorem union_unnamed (l r : Model) :
    (∀ s, s.alias = "" → (s ∈ (l.union r).domain.servers ↔ s ∈ l.domain.servers ∨ s ∈ r.domain.servers)) ∧
    (∀ s, s.alias = "" → (s ∈ (l.union r).domain.executables ↔ s ∈ l.domain.executables ∨ s ∈ r.domain.executables)) ∧
    (∀ s, s.alias = "" → (s ∈ (l.union r).queue.groups ↔ s ∈ l.queue.groups ∨ s ∈ r.queue.groups)) ∧
    (∀ s, s.alias = "" → (s ∈ (l.union r).queue.forwards ↔ s ∈ l.queue.forwards ∨ s ∈ r.queue.forwards)) ∧
    (∀ s, s.alias = "" → (s ∈ (l.union r).gateway.inbound ↔ s ∈ l.gateway.inbound ∨ s ∈ r.gateway.inbound)) ∧
    (∀ s, s.alias = "" → (s ∈ (l.union r).gateway.outbound ↔ s ∈ l.gateway.outbound ∨ s ∈ r.gateway.outbound)) := by
  have gen : ∀ {α κ : Type} [DecidableEq κ] {cmp : α → α → Bool} {key : α → Option κ} (_ : Keyed cmp key) {f : α → α → α}
      (_ : KeepsKey cmp key f) (a b : List α) (s : α), key s = none → (s ∈ update cmp f b a ↔ s ∈ a ∨ s ∈ b) := by
    intro α κ _ cmp key hk f hf a b s hs
    have := unnamed_update hk hf b a
    have h1 : s ∈ (update cmp f b a).filter (fun x => (key x).isNone) ↔ s ∈ update cmp f b a := by
      rw [List.mem_filter]; simp [hs]
    rw [← h1, this, List.mem_append, List.mem_filter, List.mem_filter]
    simp [hs]
  have nm : ∀ {α : Type} (name : α → String) (s : α), name s = "" → nameKey name s = none := by
    intro α name s h; unfold nameKey; rw [if_pos h]
  have bt : ∀ {α : Type} (name : α → String) (conn : α → Connect) (s : α), name s = "" → bothKey name conn s = none := by
    intro α name conn s h; unfold bothKey; rw [if_pos h]
  refine ⟨fun s h => gen (keyed_name _) (fun _ _ _ => rfl) _ _ s (nm _ s h),
    fun s h => gen (keyed_name _) (fun _ _ _ => rfl) _ _ s (nm _ s h),
    fun s h => gen (f := QGroup.union) (keyed_name QGroup.alias) (fun a b hc => ((keyed_name QGroup.alias).iff a b).1 hc |>.1) _ _ s (nm _ s h),
    fun s h => gen (f := FGroup.union) (keyed_name FGroup.alias) (fun a b hc => ((keyed_name FGroup.alias).iff a b).1 hc |>.1) _ _ s (nm _ s h),
    fun s h => gen (keyed_both _ _) (fun a b hc => ?_) _ _ s (bt _ _ s h),
    fun s h => gen (keyed_both _ _) (fun a b hc => ?_) _ _ s (bt _ _ s h)⟩
  · have e := ((keyed_both (fun x : InGroup => x.alias) (fun x => x.connect)).iff a b).1 hc
    have e1 := e.1
    unfold bothKey at e1 ⊢
    show (if a.alias = "" then none else some (a.alias, b.connect)) = _
    by_cases h1 : a.alias = "" <;> by_cases h2 : b.alias = "" <;> simp_all
  · have e := ((keyed_both (fun x : OutGroup => x.alias) (fun x => x.connect)).iff a b).1 hc
    have e1 := e.1
    unfold bothKey at e1 ⊢
    show (if a.alias = "" then none else some (a.alias, b.connect)) = _
    by_cases h1 : a.alias = "" <;> by_cases h2 : b.alias = "" <;> simp_all

/-- Two configurations with a group of queues in common, and what they are together. -/
example : ({ queue := { groups := [{ alias := "g", queues := [{ name := "a" }, { name := "b" }] }, {}] } } : Model).union
    { queue := { groups := [{ alias := "g", queues := [{ name := "b", retryCount := 3 }, { name := "c" }] }, {}] } } =
    { queue := { groups := [{ alias := "g", queues := [{ name := "a" }, { name := "b", retryCount := 3 }, { name := "c" }] }, {}, {}] } } := by
  decide +kernel

end Casual.ConfModel

import Verif.ConfModel.AliasProps
/-
  Properties of `configuration::normalize`: what a domain works with, given the
  configuration that was read.
-/
namespace Casual.ConfModel

/-- All aliases of a forward group: its own and those of its forwards. -/
def FGroup.aliases (g : FGroup) : List String :=
  g.alias :: (g.services.map (·.alias) ++ g.queues.map (·.alias))

theorem normForward_unique (g : FGroup) (s : AState) (hc : Counted s.count) :
    Counted (normForward s g).1.count ∧ used (normForward s g).1.count = used s.count ++ (normForward s g).2.aliases ∧
    (normForward s g).2.aliases.Nodup ∧ ∀ a ∈ (normForward s g).2.aliases, a ∉ used s.count := by
  obtain ⟨e2, e1⟩ := mutate_eq s "forward" g.alias
  obtain ⟨a1, a2, a3, -⟩ := addIndex_spec (a := base "forward" g.alias) hc
  rw [← e1] at a1
  rw [← e1, ← e2] at a2
  rw [← e2] at a3
  obtain ⟨b1, b2, b3, b4⟩ := mutateAll_unique (get := fun f : FService => f.alias)
    (set := fun (f : FService) a => { f with alias := a }) (prospect := (·.source)) (fun _ _ => rfl) g.services _ a1
  obtain ⟨c1, c2, c3, c4⟩ := mutateAll_unique (get := fun f : FQueue => f.alias)
    (set := fun (f : FQueue) a => { f with alias := a }) (prospect := (·.source)) (fun _ _ => rfl) g.queues _ b1
  refine ⟨c1, ?_, ?_, ?_⟩
  · show used (mutateAll _ _ _ _ _).1.count = _
    rw [c2, b2, a2]
    simp [FGroup.aliases, normForward]
  · show (_ :: _).Nodup
    simp only [normForward]
    rw [List.nodup_cons, List.nodup_append]
    refine ⟨fun h => ?_, b3, c3, fun a ha b hb e => ?_⟩
    · rcases List.mem_append.1 h with h | h
      · exact b4 _ h (by rw [a2]; exact List.mem_append.2 (Or.inr (List.mem_singleton.2 rfl)))
      · exact c4 _ h (by rw [b2, a2]; exact List.mem_append.2 (Or.inl (List.mem_append.2 (Or.inr (List.mem_singleton.2 rfl)))))
    · subst e
      exact c4 _ hb (by rw [b2]; exact List.mem_append.2 (Or.inr ha))
  · intro a ha hu
    simp only [FGroup.aliases, normForward] at ha
    rcases List.mem_cons.1 ha with rfl | ha
    · exact a3 hu
    · rcases List.mem_append.1 ha with h | h
      · exact b4 _ h (by rw [a2]; exact List.mem_append.2 (Or.inl hu))
      · exact c4 _ h (by rw [b2, a2]; exact List.mem_append.2 (Or.inl (List.mem_append.2 (Or.inl hu))))

theorem normForwards_unique (l : List FGroup) (s : AState) (hc : Counted s.count) :
    ((normForwards s l).2.flatMap FGroup.aliases).Nodup ∧
    ∀ a ∈ (normForwards s l).2.flatMap FGroup.aliases, a ∉ used s.count := by
  induction l generalizing s with
  | nil => exact ⟨List.nodup_nil, fun a h => by cases h⟩
  | cons g gs ih =>
    obtain ⟨a1, a2, a3, a4⟩ := normForward_unique g s hc
    obtain ⟨i1, i2⟩ := ih _ a1
    simp only [normForwards, List.flatMap_cons]
    refine ⟨List.nodup_append.2 ⟨a3, i1, fun a ha b hb e => ?_⟩, fun a ha => ?_⟩
    · subst e
      exact i2 a hb (by rw [a2]; exact List.mem_append.2 (Or.inr ha))
    · rcases List.mem_append.1 ha with h | h
      · exact a4 a h
      · exact fun hu => i2 a h (by rw [a2]; exact List.mem_append.2 (Or.inl hu))

/-- What a configuration is after `normalize`. -/
theorem normalize_some {m n : Model} (h : normalize m = some n) :
    let ex := normEntities {} m.domain.executables
    let sv := normEntities ex.1 m.domain.servers
    let fw := normForwards { sv.1 with count := [] } m.queue.forwards
    let ib := normInbound { fw.1 with count := [] } m.gateway.inbound
    let ob := normOutbound ib.1 m.gateway.outbound
    ∃ restriction mappings,
      resolveAll (·.alias) (fun (r : Restricted) a => { r with alias := a }) ob.1.placeholders m.service.restriction = some restriction ∧
      resolveAll (·.alias) (fun (r : Mapping) a => { r with alias := a }) ob.1.placeholders m.transaction.mappings = some mappings ∧
      n = { m with
        domain := { m.domain with
          servers := sv.2.map (enableEntity m.domain.groups)
          executables := ex.2.map (enableEntity m.domain.groups) }
        transaction := { m.transaction with mappings := mappings }
        service := { m.service with restriction := restriction }
        queue := { m.queue with forwards := fw.2 }
        gateway := {
          inbound := ib.2.map (enableInbound m.domain.groups)
          outbound := ob.2.map (enableOutbound m.domain.groups) } } := by
  intro ex sv fw ib ob
  unfold normalize at h
  simp only at h
  split at h
  · rename_i r q hr hq
    exact ⟨r, q, hr, hq, (Option.some.inj h).symm⟩
  · cases h

theorem aliases_enableEntity (gs : List DGroup) (l : List Entity) :
    (l.map (enableEntity gs)).map (·.alias) = l.map (·.alias) := by
  rw [List.map_map]; rfl

theorem normEntities_append (s : AState) (a b : List Entity) :
    (normEntities s (a ++ b)).2 = (normEntities s a).2 ++ (normEntities (normEntities s a).1 b).2 ∧
    (normEntities s (a ++ b)).1 = (normEntities (normEntities s a).1 b).1 := by
  unfold normEntities
  induction a generalizing s with
  | nil => exact ⟨rfl, rfl⟩
  | cons x xs ih =>
    obtain ⟨i1, i2⟩ := ih (mutate s x.filename x.alias).1
    simp only [List.cons_append, mutateAll]
    exact ⟨by rw [i1], i2⟩

theorem counted_nil : Counted [] := fun _ h => by cases h

/-- **C200**: no two processes of a domain, no two forwards, no two gateway groups have the
same alias. -/
theorem aliases_unique (m n : Model) (h : normalize m = some n) :
    ((n.domain.executables ++ n.domain.servers).map (·.alias)).Nodup ∧
    (n.queue.forwards.flatMap FGroup.aliases).Nodup ∧
    (n.gateway.inbound.map (·.alias) ++ n.gateway.outbound.map (·.alias)).Nodup := by
  obtain ⟨r, q, -, -, rfl⟩ := normalize_some h
  refine ⟨?_, ?_, ?_⟩
  · rw [List.map_append, aliases_enableEntity, aliases_enableEntity, ← List.map_append]
    rw [← (normEntities_append _ _ _).1]
    exact (mutateAll_unique (fun _ _ => rfl) _ _ counted_nil).2.2.1
  · exact (normForwards_unique _ _ counted_nil).1
  · have a := mutateAll_unique (get := fun g : InGroup => g.alias) (set := fun g a => { g with alias := a })
      (prospect := fun g => if g.connect = .reversed then "reverse.inbound" else "inbound") (fun _ _ => rfl) m.gateway.inbound
      { (normForwards { (normEntities (normEntities {} m.domain.executables).1 m.domain.servers).1 with count := [] } m.queue.forwards).1
        with count := [] } counted_nil
    have b := mutateAll_unique (get := fun g : OutGroup => g.alias) (set := fun g a => { g with alias := a })
      (prospect := fun g => if g.connect = .reversed then "reverse.outbound" else "outbound") (fun _ _ => rfl) m.gateway.outbound
      _ a.1
    simp only [List.map_map]
    refine List.nodup_append.2 ⟨a.2.2.1, b.2.2.1, fun x hx y hy e => ?_⟩
    subst e
    refine b.2.2.2 x hy ?_
    rw [a.2.1]
    exact List.mem_append.2 (Or.inr hx)

/-- What `normalize` may change of an entity is taken away. -/
def Entity.rest (e : Entity) : Entity := { e with alias := "", enabled := true }

/-- **C200**: nothing else of a server or executable is changed, none is lost or added, and
the alias is the configured one, or the name of the file if there is none, possibly with
something appended. -/
theorem entities_kept (m n : Model) (h : normalize m = some n) :
    n.domain.servers.map Entity.rest = m.domain.servers.map Entity.rest ∧
    n.domain.executables.map Entity.rest = m.domain.executables.map Entity.rest ∧
    (∀ p ∈ m.domain.servers.zip n.domain.servers,
      ∃ t, p.2.alias = (if p.1.alias = "" ∨ isPlaceholder p.1.alias = true then p.1.filename else p.1.alias) ++ t) ∧
    (∀ p ∈ m.domain.executables.zip n.domain.executables,
      ∃ t, p.2.alias = (if p.1.alias = "" ∨ isPlaceholder p.1.alias = true then p.1.filename else p.1.alias) ++ t) := by
  obtain ⟨r, q, -, -, rfl⟩ := normalize_some h
  have hr : ∀ (gs : List DGroup) (l : List Entity), (l.map (enableEntity gs)).map Entity.rest = l.map Entity.rest := by
    intro gs l; rw [List.map_map]; rfl
  have hz : ∀ (s : AState) (_ : Counted s.count) (gs : List DGroup) (l : List Entity),
      ∀ p ∈ l.zip ((normEntities s l).2.map (enableEntity gs)),
        ∃ t, p.2.alias = (if p.1.alias = "" ∨ isPlaceholder p.1.alias = true then p.1.filename else p.1.alias) ++ t := by
    intro s hs gs l p hp
    rw [List.zip_map_right] at hp
    obtain ⟨p', hp', rfl⟩ := List.mem_map.1 hp
    obtain ⟨t, ht⟩ := mutateAll_prefix (get := Entity.alias) (set := fun (e : Entity) a => { e with alias := a })
      (prospect := (·.filename)) l s hs p' hp'
    refine ⟨t, ?_⟩
    show p'.2.alias = _
    rw [ht]
    rfl
  refine ⟨?_, ?_, ?_, ?_⟩
  · show (((normEntities _ _).2).map _).map _ = _
    rw [hr]; exact mutateAll_strip (get := Entity.alias) (set := fun (e : Entity) a => { e with alias := a })
      (prospect := Entity.filename) Entity.rest (fun _ _ => rfl) _ _
  · show (((normEntities _ _).2).map _).map _ = _
    rw [hr]; exact mutateAll_strip (get := Entity.alias) (set := fun (e : Entity) a => { e with alias := a })
      (prospect := Entity.filename) Entity.rest (fun _ _ => rfl) _ _
  · exact hz _ (mutateAll_unique (fun _ _ => rfl) _ _ counted_nil).1 _ _
  · exact hz _ counted_nil _ _

/-- The name that is configured: the alias, or the name of the file. -/
def Entity.base (e : Entity) : String :=
  if e.alias = "" ∨ isPlaceholder e.alias = true then e.filename else e.alias

/-- **C201** (partial): if the configured names are all different they are the aliases. -/
theorem aliases_kept_partial (m n : Model) (h : normalize m = some n)
    (hd : ((m.domain.executables ++ m.domain.servers).map Entity.base).Nodup) :
    n.domain.executables.map (·.alias) = m.domain.executables.map Entity.base ∧
    n.domain.servers.map (·.alias) = m.domain.servers.map Entity.base := by
  obtain ⟨r, q, -, -, rfl⟩ := normalize_some h
  rw [List.map_append, List.nodup_append] at hd
  have a := mutateAll_kept (get := Entity.alias) (set := fun (e : Entity) a => { e with alias := a })
    (prospect := (·.filename)) m.domain.executables {} hd.1 (fun _ _ => List.not_mem_nil)
  have b := mutateAll_kept (get := Entity.alias) (set := fun (e : Entity) a => { e with alias := a })
    (prospect := (·.filename)) m.domain.servers (normEntities {} m.domain.executables).1 hd.2.1 (by
      intro x hx hu
      rw [show used (normEntities {} m.domain.executables).1.count = _ from a.2] at hu
      have hu : base x.filename x.alias ∈ m.domain.executables.map Entity.base := by
        rw [show used ({} : AState).count = [] from rfl, List.nil_append] at hu
        exact hu
      exact hd.2.2 _ hu _ (List.mem_map.2 ⟨x, hx, rfl⟩) rfl)
  refine ⟨?_, ?_⟩
  · rw [aliases_enableEntity, show (normEntities {} m.domain.executables).2 = _ from a.1, List.map_map]
    rfl
  · rw [aliases_enableEntity, show (normEntities (normEntities {} m.domain.executables).1 m.domain.servers).2 = _ from b.1, List.map_map]
    rfl

/-- **C199**: after `normalize` a server, an executable and a connection of the gateway is
enabled exactly if no group it depends on is disabled - whatever it was before. -/
theorem normalize_enabled (m n : Model) (h : normalize m = some n) :
    n.domain.groups = m.domain.groups ∧
    (∀ e ∈ n.domain.servers ++ n.domain.executables,
      (e.enabled = true ↔ ∀ g, DependsOn n.domain.groups e.memberships g → g.enabled = true)) ∧
    (∀ g ∈ n.gateway.inbound, ∀ c ∈ g.connections,
      (c.enabled = true ↔ ∀ g, DependsOn n.domain.groups c.memberships g → g.enabled = true)) ∧
    (∀ g ∈ n.gateway.outbound, ∀ c ∈ g.connections,
      (c.enabled = true ↔ ∀ g, DependsOn n.domain.groups c.memberships g → g.enabled = true)) := by
  obtain ⟨r, q, -, -, rfl⟩ := normalize_some h
  refine ⟨rfl, ?_, ?_, ?_⟩
  · intro e he
    rcases List.mem_append.1 he with he | he
    · obtain ⟨x, -, rfl⟩ := List.mem_map.1 he
      exact enabled_iff ..
    · obtain ⟨x, -, rfl⟩ := List.mem_map.1 he
      exact enabled_iff ..
  · intro g hg c hc
    obtain ⟨x, -, rfl⟩ := List.mem_map.1 hg
    obtain ⟨y, -, rfl⟩ := List.mem_map.1 hc
    exact enabled_iff ..
  · intro g hg c hc
    obtain ⟨x, -, rfl⟩ := List.mem_map.1 hg
    obtain ⟨y, -, rfl⟩ := List.mem_map.1 hc
    exact enabled_iff ..

/-- Specification: what is configured for the server `i` - a service restriction `j`, the
resources `k` - is afterwards that of the same server. -/
def Follows (m n : Model) (i : Nat) : Prop :=
  ∀ s, m.domain.servers[i]? = some s → ∃ s', n.domain.servers[i]? = some s' ∧
    (∀ (j : Nat) (r : Restricted), m.service.restriction[j]? = some r → r.alias = s.alias →
      n.service.restriction[j]? = some { r with alias := s'.alias }) ∧
    (∀ (j : Nat) (q : Mapping), m.transaction.mappings[j]? = some q → q.alias = s.alias →
      n.transaction.mappings[j]? = some { q with alias := s'.alias })

theorem stands_final {m : Model} {p x : String}
    (h : stands (normEntities (normEntities {} m.domain.executables).1 m.domain.servers).1.placeholders p = some x) :
    stands (normOutbound (normInbound { (normForwards { (normEntities (normEntities {} m.domain.executables).1 m.domain.servers).1
      with count := [] } m.queue.forwards).1 with count := [] } m.gateway.inbound).1 m.gateway.outbound).1.placeholders p = some x :=
  stands_mutateAll (stands_mutateAll (stands_normForwards
    (s := { (normEntities (normEntities {} m.domain.executables).1 m.domain.servers).1 with count := [] }) h))

/-- **C202**: the restrictions and resources of a server without an alias of its own (it has a
placeholder that nobody else has) are those of that server afterwards. -/
theorem placeholder_follows (m n : Model) (h : normalize m = some n) (i : Nat)
    (pre post : List Entity) (s : Entity) (hs : m.domain.servers = pre ++ s :: post) (hi : pre.length = i)
    (hp : isPlaceholder s.alias = true)
    (hu : ∀ e ∈ m.domain.executables ++ pre, e.alias ≠ s.alias) : Follows m n i := by
  obtain ⟨r, q, hr, hq, rfl⟩ := normalize_some h
  intro s0 h0
  have : s0 = s := by
    rw [hs, ← hi] at h0
    simpa using h0.symm
  subst this
  obtain ⟨y, hy, hst⟩ := mutateAll_stands (get := Entity.alias) (set := fun (e : Entity) a => { e with alias := a })
    (prospect := (·.filename)) (fun _ _ => rfl) m.domain.servers (normEntities {} m.domain.executables).1 s0.alias hp
    (stands_mutateAll_none rfl fun e he => hu e (List.mem_append.2 (Or.inl he)))
    pre post s0 hs rfl fun e he => hu e (List.mem_append.2 (Or.inr he))
  rw [hi] at hy
  refine ⟨enableEntity m.domain.groups y, ?_, ?_, ?_⟩
  · show ((normEntities _ _).2.map _)[i]? = _
    rw [List.getElem?_map]
    rw [show (normEntities (normEntities {} m.domain.executables).1 m.domain.servers).2[i]? = some y from hy]
    rfl
  · intro j x hx e
    obtain ⟨a, ha, hk⟩ := (resolveAll_spec hr).2 j x hx
    rw [e] at ha
    unfold resolve at ha
    rw [if_pos hp] at ha
    have := (stands_final hst).symm.trans ha
    cases this
    exact hk
  · intro j x hx e
    obtain ⟨a, ha, hk⟩ := (resolveAll_spec hq).2 j x hx
    rw [e] at ha
    unfold resolve at ha
    rw [if_pos hp] at ha
    have := (stands_final hst).symm.trans ha
    cases this
    exact hk

/-- **C202** (partial): with an alias of its own they are, if the configured names are all
different. -/
theorem explicit_follows_partial (m n : Model) (h : normalize m = some n)
    (hd : ((m.domain.executables ++ m.domain.servers).map Entity.base).Nodup)
    (i : Nat) (s : Entity) (hs : m.domain.servers[i]? = some s) (hp : isPlaceholder s.alias = false) (hne : s.alias ≠ "") :
    Follows m n i := by
  have hk := (aliases_kept_partial m n h hd).2
  have hlen : n.domain.servers.length = m.domain.servers.length := by
    have := congrArg List.length hk
    simpa using this
  obtain ⟨r, q, hr, hq, rfl⟩ := normalize_some h
  intro s0 h0
  have : s0 = s := by rw [hs] at h0; exact (Option.some.inj h0).symm
  subst this
  have hlt : i < m.domain.servers.length := by
    rcases Nat.lt_or_ge i m.domain.servers.length with h | h
    · exact h
    · rw [List.getElem?_eq_none h] at hs; cases hs
  obtain ⟨s', hs'⟩ : ∃ s', ((normEntities (normEntities {} m.domain.executables).1 m.domain.servers).2.map
      (enableEntity m.domain.groups))[i]? = some s' := ⟨_, List.getElem?_eq_getElem (by rw [← hlen] at hlt; exact hlt)⟩
  have ha : s'.alias = s0.alias := by
    have := congrArg (fun l => l[i]?) hk
    simp only [List.getElem?_map] at this
    rw [hs, ← List.getElem?_map, hs'] at this
    simp only [Option.map_some, Option.some.injEq] at this
    rw [this]
    unfold Entity.base
    rw [if_neg]
    rintro (h | h)
    · exact hne h
    · rw [hp] at h; cases h
  refine ⟨s', hs', ?_, ?_⟩
  · intro j x hx e
    obtain ⟨a, ha', hk⟩ := (resolveAll_spec hr).2 j x hx
    rw [e] at ha'
    unfold resolve at ha'
    rw [hp, if_neg Bool.false_ne_true] at ha'
    cases ha'
    rw [ha]
    exact hk
  · intro j x hx e
    obtain ⟨a, ha', hk⟩ := (resolveAll_spec hq).2 j x hx
    rw [e] at ha'
    unfold resolve at ha'
    rw [hp, if_neg Bool.false_ne_true] at ha'
    cases ha'
    rw [ha]
    exact hk

/-- **C202**: `normalize` succeeds if every placeholder in use is that of a server or executable. -/
theorem normalize_total (m : Model)
    (hr : ∀ r ∈ m.service.restriction, isPlaceholder r.alias = true →
      ∃ e ∈ m.domain.executables ++ m.domain.servers, e.alias = r.alias)
    (hq : ∀ q ∈ m.transaction.mappings, isPlaceholder q.alias = true →
      ∃ e ∈ m.domain.executables ++ m.domain.servers, e.alias = q.alias) : ∃ n, normalize m = some n := by
  have key : ∀ p, isPlaceholder p = true → (∃ e ∈ m.domain.executables ++ m.domain.servers, e.alias = p) →
      stands (normEntities (normEntities {} m.domain.executables).1 m.domain.servers).1.placeholders p ≠ none := by
    intro p hp ⟨e, he, ee⟩
    rw [← (normEntities_append {} m.domain.executables m.domain.servers).2]
    generalize hl : m.domain.executables ++ m.domain.servers = l at he
    -- the first entity with this placeholder
    have : ∃ pre x post, l = pre ++ x :: post ∧ x.alias = p ∧ ∀ y ∈ pre, y.alias ≠ p := by
      clear hl
      induction l with
      | nil => cases he
      | cons z zs ih =>
        by_cases hz : z.alias = p
        · exact ⟨[], z, zs, rfl, hz, fun y hy => by cases hy⟩
        · rcases List.mem_cons.1 he with rfl | he
          · exact absurd ee hz
          · obtain ⟨pre, x, post, h1, h2, h3⟩ := ih he
            refine ⟨z :: pre, x, post, by rw [h1]; rfl, h2, fun y hy => ?_⟩
            rcases List.mem_cons.1 hy with rfl | hy
            · exact hz
            · exact h3 y hy
    obtain ⟨pre, x, post, h1, h2, h3⟩ := this
    obtain ⟨y, -, hst⟩ := mutateAll_stands (get := Entity.alias) (set := fun (e : Entity) a => { e with alias := a })
      (prospect := (·.filename)) (fun _ _ => rfl) l {} p hp rfl pre post x h1 h2 h3
    intro hn
    rw [show stands (normEntities {} l).1.placeholders p = _ from hst] at hn
    cases hn
  have fin : ∀ p, isPlaceholder p = true → (∃ e ∈ m.domain.executables ++ m.domain.servers, e.alias = p) →
      stands (normOutbound (normInbound { (normForwards { (normEntities (normEntities {} m.domain.executables).1 m.domain.servers).1
      with count := [] } m.queue.forwards).1 with count := [] } m.gateway.inbound).1 m.gateway.outbound).1.placeholders p ≠ none := by
    intro p hp he
    obtain ⟨x, hx⟩ := Option.ne_none_iff_exists'.1 (key p hp he)
    rw [stands_final hx]
    exact Option.some_ne_none x
  obtain ⟨r, hr⟩ := resolveAll_total (get := Restricted.alias) (set := fun (r : Restricted) a => { r with alias := a })
    (fun x hx hp => fin _ hp (hr x hx hp))
  obtain ⟨q, hq⟩ := resolveAll_total (get := Mapping.alias) (set := fun (r : Mapping) a => { r with alias := a })
    (fun x hx hp => fin _ hp (hq x hx hp))
  exact ⟨_, by
    unfold normalize
    simp only
    rw [hr, hq]⟩

/-! ### What does not hold -/

/-- An executable without an alias whose file has the name that is the alias of a server. -/
def clash : Model :=
  { domain := {
      executables := [{ dir := "/opt/bin", filename := "accounts" }]
      servers := [{ alias := "accounts", dir := "/opt/srv", filename := "accounts-server" }] }
    service := { restriction := [{ alias := "accounts", services := ["account/.*"] }] }
    transaction := { mappings := [{ alias := "accounts", resources := ["db"] }] } }

theorem clash_normalized :
    (normalize clash).map (fun n => (n.domain.executables.map (·.alias), n.domain.servers.map (·.alias),
      n.service.restriction.map (·.alias), n.transaction.mappings.map (·.alias))) =
    some (["accounts"], ["accounts.2"], ["accounts"], ["accounts"]) := by decide +kernel

/-- **C201** is refuted: an alias that is configured, and that no other entity has, is not kept. -/
theorem alias_kept_refuted :
    ¬ ∀ m n : Model, normalize m = some n → ∀ (i : Nat) (s : Entity), m.domain.servers[i]? = some s → s.alias ≠ "" →
      (∀ e ∈ m.domain.executables, e.alias ≠ s.alias) → (∀ j e, m.domain.servers[j]? = some e → j ≠ i → e.alias ≠ s.alias) →
      (n.domain.servers[i]?).map (·.alias) = some s.alias := by
  intro h
  have hc := clash_normalized
  cases hn : normalize clash with
  | none => rw [hn] at hc; cases hc
  | some n =>
    rw [hn] at hc
    simp only [Option.map_some, Option.some.injEq, Prod.mk.injEq] at hc
    have := h clash n hn 0 _ rfl (by decide) (by decide) (by
      intro j e he hj
      cases j with
      | zero => exact absurd rfl hj
      | succ j => simp [clash] at he)
    rw [← List.getElem?_map, hc.2.1] at this
    exact absurd this (by decide)

/-- **C202** is refuted: the service restriction and the resources of that server are given
to another process, and the server has none. -/
theorem follows_refuted :
    ¬ ∀ m n : Model, normalize m = some n → ∀ i : Nat, (∀ e ∈ m.domain.executables ++ m.domain.servers, ∀ f ∈ m.domain.executables ++ m.domain.servers,
      e.alias = f.alias → e = f) → Follows m n i := by
  intro h
  have hc := clash_normalized
  cases hn : normalize clash with
  | none => rw [hn] at hc; cases hc
  | some n =>
    rw [hn] at hc
    simp only [Option.map_some, Option.some.injEq, Prod.mk.injEq] at hc
    obtain ⟨s', h1, h2, -⟩ := h clash n hn 0 (by decide) _ rfl
    have hr := h2 0 _ rfl rfl
    have ha : s'.alias = "accounts.2" := by
      have := congrArg (fun l => l[0]?) hc.2.1
      simp only [List.getElem?_map, h1] at this
      simpa using this
    have hb := congrArg (fun l => l[0]?) hc.2.2.1
    simp only [List.getElem?_map, hr, ha] at hb
    exact absurd hb (by decide)

/-- A configuration that meets the hypotheses: two servers without aliases from the same file. -/
example : (normalize {
    domain := {
      groups := [{ name := "g", enabled := false }]
      servers := [{ alias := "alias-placeholder-0123456789abcdef0123456789abcdef", filename := "s" },
        { alias := "alias-placeholder-0123456789abcdef0123456789abcdee", filename := "s", memberships := ["g"] }] }
    service := { restriction := [{ alias := "alias-placeholder-0123456789abcdef0123456789abcdee", services := ["x"] }] }
    queue := { forwards := [{ services := [{ source := "q" }], queues := [{ source := "q" }] }, {}] }
    gateway := { inbound := [{ connect := .regular }, { connect := .reversed }], outbound := [{ alias := "inbound" }] } }).map
    (fun n => (n.domain.servers.map fun s => (s.alias, s.enabled), n.service.restriction.map (·.alias),
      n.queue.forwards.flatMap FGroup.aliases, n.gateway.inbound.map (·.alias), n.gateway.outbound.map (·.alias))) =
    some ([("s", true), ("s.2", false)], ["s.2"], ["forward", "q", "q.2", "forward.2"], ["inbound", "reverse.inbound"], ["inbound.2"]) := by
  decide +kernel

end Casual.ConfModel

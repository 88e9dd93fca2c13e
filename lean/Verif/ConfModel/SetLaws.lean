import Verif.ConfModel.SetProps
/-
  Laws of the set operations on configurations.
-/
namespace Casual.ConfModel

/-- Specification: all have a name, and no two the same. -/
def WellNamed {α κ : Type} [DecidableEq κ] (name : α → κ) (empty : Option κ) (l : List α) : Prop :=
  (∀ x ∈ l, some (name x) ≠ empty) ∧ (l.map name).Nodup

instance {α κ : Type} [DecidableEq κ] (name : α → κ) (empty : Option κ) (l : List α) : Decidable (WellNamed name empty l) :=
  inferInstanceAs (Decidable (_ ∧ _))

/-- Specification: everything that is configured has a name, and no two of a kind the same. -/
def AllNamed (m : Model) : Prop :=
  WellNamed (·.key) none m.system.resources ∧
  WellNamed Variable.name none m.domain.environment.variables ∧
  WellNamed DGroup.name (some "") m.domain.groups ∧
  WellNamed Entity.alias (some "") m.domain.servers ∧
  WellNamed Entity.alias (some "") m.domain.executables ∧
  WellNamed Resource.name (some "") m.transaction.resources ∧
  WellNamed Mapping.alias (some "") m.transaction.mappings ∧
  WellNamed Service.name (some "") m.service.services ∧
  WellNamed Restricted.alias (some "") m.service.restriction ∧
  WellNamed QGroup.alias (some "") m.queue.groups ∧
  (∀ g ∈ m.queue.groups, WellNamed Queue.name (some "") g.queues) ∧
  WellNamed FGroup.alias (some "") m.queue.forwards ∧
  (∀ g ∈ m.queue.forwards, WellNamed FService.alias (some "") g.services ∧ WellNamed FQueue.alias (some "") g.queues) ∧
  WellNamed InGroup.alias (some "") m.gateway.inbound ∧
  (∀ g ∈ m.gateway.inbound, WellNamed InConnection.address none g.connections) ∧
  WellNamed OutGroup.alias (some "") m.gateway.outbound ∧
  (∀ g ∈ m.gateway.outbound, WellNamed OutConnection.address none g.connections)

theorem nodup_some {α : Type} {l : List α} (h : l.Nodup) : (l.map some).Nodup :=
  List.Pairwise.map some (fun _ _ hne e => hne (Option.some.inj e)) h

theorem nodup_of_map {α β : Type} (g : α → β) {l : List α} (h : (l.map g).Nodup) : l.Nodup :=
  List.Pairwise.of_map g (fun _ _ hne e => hne (by rw [e])) h

section
variable {α κ : Type} [DecidableEq κ]

theorem self_name {name : α → String} {f : α → α → α} {l : List α} (h : WellNamed name (some "") l)
    (hf : ∀ x ∈ l, f x x = x) : update (equalName name) f l l = l := by
  have hn : ∀ x ∈ l, name x ≠ "" := fun x hx e => h.1 x hx (by rw [e])
  refine update_self (keyed_name name) l ?_ (fun x hx => ?_) hf
  · have : l.map (nameKey name) = (l.map name).map some := by
      rw [List.map_map]
      exact List.map_congr_left fun x hx => by unfold nameKey; rw [if_neg (hn x hx)]; rfl
    rw [this]
    exact nodup_some h.2
  · unfold nameKey
    rw [if_neg (hn x hx)]
    exact Option.some_ne_none _

theorem self_key {key : α → κ} {f : α → α → α} {l : List α} (h : WellNamed key none l)
    (hf : ∀ x ∈ l, f x x = x) : update (equalKey key) f l l = l := by
  refine update_self (keyed_key key) l ?_ (fun x _ => Option.some_ne_none _) hf
  have : l.map (fun x => some (key x)) = (l.map key).map some := by rw [List.map_map]; rfl
  rw [this]
  exact nodup_some h.2

theorem self_both {name : α → String} {conn : α → κ} {f : α → α → α} {l : List α} (h : WellNamed name (some "") l)
    (hf : ∀ x ∈ l, f x x = x) : update (equalBoth name conn) f l l = l := by
  have hn : ∀ x ∈ l, name x ≠ "" := fun x hx e => h.1 x hx (by rw [e])
  refine update_self (keyed_both name conn) l ?_ (fun x hx => ?_) hf
  · have e : (l.map (bothKey name conn)).map (fun o => o.map Prod.fst) = (l.map name).map some := by
      rw [List.map_map, List.map_map]
      exact List.map_congr_left fun x hx => by
        show Option.map _ (bothKey name conn x) = some (name x)
        unfold bothKey; rw [if_neg (hn x hx)]; rfl
    exact nodup_of_map (fun o => o.map Prod.fst) (e ▸ nodup_some h.2)
  · unfold bothKey
    rw [if_neg (hn x hx)]
    exact Option.some_ne_none _

end

theorem coalesceO_self {α : Type} (a : Option α) : coalesceO a a = a := by cases a <;> rfl

/-- **C205**: to add a configuration to itself changes nothing, if all in it is named: the same
file twice means what it means once. -/
theorem union_self (m : Model) (h : AllNamed m) : m.union m = m := by
  obtain ⟨h1, h2, h3, h4, h5, h6, h7, h8, h9, h10, h11, h12, h13, h14, h15, h16, h17⟩ := h
  obtain ⟨sys, dom, tra, ser, que, gat⟩ := m
  simp only [Model.union, Model.mk.injEq]
  refine ⟨?_, ?_, ?_, ?_, ?_, ?_⟩
  · show System.mk _ = _
    rw [show replace (equalKey SysResource.key) sys.resources sys.resources = sys.resources from self_key h1 fun _ _ => rfl]
  · show Domain.mk _ (Environment.mk _) _ _ _ = _
    rw [coalesce_self,
      show replace (equalKey Variable.name) dom.environment.variables dom.environment.variables = dom.environment.variables from
        self_key h2 fun _ _ => rfl,
      show replace (equalName DGroup.name) dom.groups dom.groups = dom.groups from self_name h3 fun _ _ => rfl,
      show replace (equalName Entity.alias) dom.servers dom.servers = dom.servers from self_name h4 fun _ _ => rfl,
      show replace (equalName Entity.alias) dom.executables dom.executables = dom.executables from self_name h5 fun _ _ => rfl]
  · show Transaction.mk _ _ _ = _
    rw [coalesce_self,
      show replace (equalName Resource.name) tra.resources tra.resources = tra.resources from self_name h6 fun _ _ => rfl,
      show replace (equalName Mapping.alias) tra.mappings tra.mappings = tra.mappings from self_name h7 fun _ _ => rfl]
  · show Services.mk (Global.mk (Timeout.mk _ _) _) _ _ = _
    rw [coalesceO_self, coalesceO_self,
      show replace (equalName Service.name) ser.services ser.services = ser.services from self_name h8 fun _ _ => rfl,
      show replace (equalName Restricted.alias) ser.restriction ser.restriction = ser.restriction from self_name h9 fun _ _ => rfl]
  · show Queues.mk _ _ _ = _
    rw [coalesce_self,
      show update (equalName QGroup.alias) QGroup.union que.groups que.groups = que.groups from
        self_name h10 fun g hg => by
          show QGroup.mk _ _ _ _ _ _ = _
          rw [coalesce_self, show replace (equalName Queue.name) g.queues g.queues = g.queues from
            self_name (h11 g hg) fun _ _ => rfl],
      show update (equalName FGroup.alias) FGroup.union que.forwards que.forwards = que.forwards from
        self_name h12 fun g hg => by
          show FGroup.mk _ _ _ _ _ = _
          rw [coalesce_self,
            show replace (equalName FService.alias) g.services g.services = g.services from
              self_name (h13 g hg).1 fun _ _ => rfl,
            show replace (equalName FQueue.alias) g.queues g.queues = g.queues from
              self_name (h13 g hg).2 fun _ _ => rfl]]
  · show Gateway.mk _ _ = _
    rw [show update (equalBoth InGroup.alias InGroup.connect) InGroup.union gat.inbound gat.inbound = gat.inbound from
        self_both h14 fun g hg => by
          show InGroup.mk _ _ _ _ _ _ = _
          rw [coalesce_self, show update (equalKey InConnection.address) InConnection.union g.connections g.connections =
            g.connections from self_key (h15 g hg) fun c _ => by
              show InConnection.mk _ _ _ _ _ = _
              rw [coalesce_self]],
      show update (equalBoth OutGroup.alias OutGroup.connect) OutGroup.union gat.outbound gat.outbound = gat.outbound from
        self_both h16 fun g hg => by
          show OutGroup.mk _ _ _ _ _ = _
          rw [coalesce_self, show update (equalKey OutConnection.address) OutConnection.union g.connections g.connections =
            g.connections from self_key (h17 g hg) fun c _ => by
              show OutConnection.mk _ _ _ _ _ _ = _
              rw [coalesce_self, appendUnique_self, appendUnique_self]]]

/-- A configuration that meets the hypothesis. -/
example : AllNamed {
    domain := { groups := [{ name := "g" }, { name := "h" }], servers := [{ alias := "a", memberships := ["g"] }, { alias := "b" }] }
    queue := { groups := [{ alias := "q", queues := [{ name := "x" }, { name := "y" }] }] }
    gateway := { outbound := [{ alias := "o", connections := [{ address := "h:1", services := ["s", "s"] }, { address := "h:2" }] }] } } := by
  refine ⟨?_, ?_, ?_, ?_, ?_, ?_, ?_, ?_, ?_, ?_, ?_, ?_, ?_, ?_, ?_, ?_, ?_⟩ <;> decide +kernel

/-- **C205**: without names it is not so: an executable without an alias is there twice. -/
theorem union_self_unnamed :
    ({ domain := { executables := [{ filename := "x" }] } } : Model).union { domain := { executables := [{ filename := "x" }] } } =
      { domain := { executables := [{ filename := "x" }, { filename := "x" }] } } := by decide +kernel

/-! ### Grouping -/

/-- Specification: no name is given twice to things of the same kind. What has no name does not
count. -/
def NoDuplicates (m : Model) : Prop :=
  (m.system.resources.map SysResource.key).Nodup ∧
  (m.domain.environment.variables.map Variable.name).Nodup ∧
  Distinct DGroup.name m.domain.groups ∧
  Distinct Entity.alias m.domain.servers ∧
  Distinct Entity.alias m.domain.executables ∧
  Distinct Resource.name m.transaction.resources ∧
  Distinct Mapping.alias m.transaction.mappings ∧
  Distinct Service.name m.service.services ∧
  Distinct Restricted.alias m.service.restriction ∧
  Distinct QGroup.alias m.queue.groups ∧
  (∀ g ∈ m.queue.groups, Distinct Queue.name g.queues) ∧
  Distinct FGroup.alias m.queue.forwards ∧
  (∀ g ∈ m.queue.forwards, Distinct FService.alias g.services ∧ Distinct FQueue.alias g.queues) ∧
  Distinct InGroup.alias m.gateway.inbound ∧
  (∀ g ∈ m.gateway.inbound, (g.connections.map InConnection.address).Nodup) ∧
  Distinct OutGroup.alias m.gateway.outbound ∧
  (∀ g ∈ m.gateway.outbound, (g.connections.map OutConnection.address).Nodup)

section
variable {α κ : Type} [DecidableEq κ]

theorem keys_some {key : α → κ} {l : List α} : l.filterMap (fun x => some (key x)) = l.map key := by
  induction l with
  | nil => rfl
  | cons x xs ih => rw [List.filterMap_cons, ih]; rfl

theorem distinct_both {name : α → String} {conn : α → κ} {l : List α} (h : Distinct name l) :
    (l.filterMap (bothKey name conn)).Nodup := by
  unfold Distinct at h
  have e : l.filterMap (nameKey name) = (l.filterMap (bothKey name conn)).map Prod.fst := by
    rw [List.map_filterMap]
    congr 1
    funext x
    unfold nameKey bothKey
    split <;> rfl
  rw [e] at h
  exact nodup_of_map Prod.fst h

theorem keeps_name {name : α → String} {f : α → α → α} (hf : ∀ a b, name (f a b) = name a) :
    KeepsKey (equalName name) (nameKey name) f := by
  intro a b hc
  have h1 := (((keyed_name name).iff a b).1 hc).1
  have h2 : nameKey name (f a b) = nameKey name a := by unfold nameKey; rw [hf]
  exact h2.trans h1

theorem keeps_key {key : α → κ} {f : α → α → α} (hf : ∀ a b, key (f a b) = key a) :
    KeepsKey (equalKey key) (fun x => some (key x)) f := by
  intro a b hc
  have h1 := (((keyed_key key).iff a b).1 hc).1
  show some (key (f a b)) = some (key b)
  rw [hf]; exact h1

theorem keeps_both {name : α → String} {conn : α → κ} {f : α → α → α} (hf : ∀ a b, name (f a b) = name a)
    (hc : ∀ a b, conn (f a b) = conn b) : KeepsKey (equalBoth name conn) (bothKey name conn) f := by
  intro a b h
  have h1 := (((keyed_both name conn).iff a b).1 h).1
  unfold bothKey at *
  rw [hf, hc]
  by_cases ha : name a = "" <;> by_cases hb : name b = "" <;> simp_all

end

theorem QGroup.union_assoc (x y z : QGroup) (h : Distinct Queue.name y.queues) :
    (x.union y).union z = x.union (y.union z) := by
  show QGroup.mk _ _ _ _ _ _ = QGroup.mk _ _ _ _ _ _
  congr 1
  · exact coalesce_assoc _ _ _
  · exact replace_assoc (keyed_name _) _ _ _ h

theorem FGroup.union_assoc (x y z : FGroup) (h : Distinct FService.alias y.services ∧ Distinct FQueue.alias y.queues) :
    (x.union y).union z = x.union (y.union z) := by
  show FGroup.mk _ _ _ _ _ = FGroup.mk _ _ _ _ _
  congr 1
  · exact replace_assoc (keyed_name _) _ _ _ h.1
  · exact replace_assoc (keyed_name _) _ _ _ h.2
  · exact coalesce_assoc _ _ _

theorem InConnection.union_assoc (x y z : InConnection) : (x.union y).union z = x.union (y.union z) := by
  show InConnection.mk _ _ _ _ _ = InConnection.mk _ _ _ _ _
  congr 1
  exact coalesce_assoc _ _ _

theorem OutConnection.union_assoc (x y z : OutConnection) : (x.union y).union z = x.union (y.union z) := by
  show OutConnection.mk _ _ _ _ _ _ = OutConnection.mk _ _ _ _ _ _
  congr 1
  · exact appendUnique_assoc _ _ _
  · exact appendUnique_assoc _ _ _
  · exact coalesce_assoc _ _ _

theorem InGroup.union_assoc (x y z : InGroup) (h : (y.connections.map InConnection.address).Nodup) :
    (x.union y).union z = x.union (y.union z) := by
  show InGroup.mk _ _ _ _ _ _ = InGroup.mk _ _ _ _ _ _
  congr 1
  · exact update_assoc (keyed_key _) (keeps_key (key := InConnection.address) (f := InConnection.union) fun _ _ => rfl) (fun _ => True) (fun x y z _ => InConnection.union_assoc x y z)
      (fun _ _ _ => trivial) _ _ _ (by rw [keys_some]; exact h) (fun _ _ => trivial) fun _ _ => trivial
  · exact coalesce_assoc _ _ _

theorem OutGroup.union_assoc (x y z : OutGroup) (h : (y.connections.map OutConnection.address).Nodup) :
    (x.union y).union z = x.union (y.union z) := by
  show OutGroup.mk _ _ _ _ _ = OutGroup.mk _ _ _ _ _
  congr 1
  · exact update_assoc (keyed_key _) (keeps_key (key := OutConnection.address) (f := OutConnection.union) fun _ _ => rfl) (fun _ => True) (fun x y z _ => OutConnection.union_assoc x y z)
      (fun _ _ _ => trivial) _ _ _ (by rw [keys_some]; exact h) (fun _ _ => trivial) fun _ _ => trivial
  · exact coalesce_assoc _ _ _

theorem nodup_key_update {α κ : Type} [DecidableEq κ] {key : α → κ} {f : α → α → α} (hf : ∀ a b, key (f a b) = key a)
    (s t : List α) (ht : (t.map key).Nodup) : ((update (equalKey key) f s t).map key).Nodup := by
  have := keys_update (keyed_key key) (keeps_key hf) s t (by rw [keys_some]; exact ht)
  rwa [keys_some] at this

theorem nodup_key_replace {α κ : Type} [DecidableEq κ] {key : α → κ}
    (s t : List α) (ht : (t.map key).Nodup) : ((replace (equalKey key) s t).map key).Nodup := by
  have := keys_update (keyed_key key) (f := fun _ v => v) (fun _ _ _ => rfl) s t (by rw [keys_some]; exact ht)
  rwa [keys_some] at this

theorem distinct_replace {α : Type} {name : α → String} (s t : List α) (ht : Distinct name t) :
    Distinct name (replace (equalName name) s t) :=
  keys_update (keyed_name name) (fun _ _ _ => rfl) s t ht

theorem distinct_update {α : Type} {name : α → String} {f : α → α → α} (hf : ∀ a b, name (f a b) = name a) (s t : List α)
    (ht : Distinct name t) : Distinct name (update (equalName name) f s t) :=
  keys_update (keyed_name name) (keeps_name hf) s t ht

theorem coalesceO_assoc {α : Type} (a b c : Option α) : coalesceO c (coalesceO b a) = coalesceO (coalesceO c b) a := by
  cases c <;> rfl

/-- **C206**: it does not matter how configurations are grouped when they are put together, if
no name is given twice within one of them. -/
theorem union_assoc (a b c : Model) (hb : NoDuplicates b) (hc : NoDuplicates c) :
    (a.union b).union c = a.union (b.union c) := by
  obtain ⟨h1, h2, h3, h4, h5, h6, h7, h8, h9, h10, h11, h12, h13, h14, h15, h16, h17⟩ := hb
  obtain ⟨-, -, -, -, -, -, -, -, -, -, c11, -, c13, -, c15, -, c17⟩ := hc
  show Model.mk _ _ _ _ _ _ = Model.mk _ _ _ _ _ _
  congr 1
  · show System.mk _ = System.mk _
    congr 1
    exact replace_assoc (keyed_key _) _ _ _ (by rw [keys_some]; exact h1)
  · show Domain.mk _ (Environment.mk _) _ _ _ = Domain.mk _ (Environment.mk _) _ _ _
    congr 1
    · exact coalesce_assoc _ _ _
    · congr 1
      exact replace_assoc (keyed_key _) _ _ _ (by rw [keys_some]; exact h2)
    · exact replace_assoc (keyed_name _) _ _ _ h3
    · exact replace_assoc (keyed_name _) _ _ _ h4
    · exact replace_assoc (keyed_name _) _ _ _ h5
  · show Transaction.mk _ _ _ = Transaction.mk _ _ _
    congr 1
    · exact coalesce_assoc _ _ _
    · exact replace_assoc (keyed_name _) _ _ _ h6
    · exact replace_assoc (keyed_name _) _ _ _ h7
  · show Services.mk (Global.mk (Timeout.mk _ _) _) _ _ = Services.mk (Global.mk (Timeout.mk _ _) _) _ _
    congr 1
    · show Global.mk (Timeout.mk _ _) a.service.global.note = Global.mk (Timeout.mk _ _) a.service.global.note
      congr 2
      · exact coalesceO_assoc _ _ _
      · exact coalesceO_assoc _ _ _
    · exact replace_assoc (keyed_name _) _ _ _ h8
    · exact replace_assoc (keyed_name _) _ _ _ h9
  · show Queues.mk _ _ _ = Queues.mk _ _ _
    congr 1
    · exact update_assoc (keyed_name _) (keeps_name (f := QGroup.union) fun _ _ => rfl) (fun g => Distinct Queue.name g.queues)
        QGroup.union_assoc (fun y z h => distinct_replace _ _ h) _ _ _ h10 h11 c11
    · exact update_assoc (keyed_name _) (keeps_name (f := FGroup.union) fun _ _ => rfl)
        (fun g => Distinct FService.alias g.services ∧ Distinct FQueue.alias g.queues)
        FGroup.union_assoc (fun y z h => ⟨distinct_replace _ _ h.1, distinct_replace _ _ h.2⟩) _ _ _ h12 h13 c13
    · exact coalesce_assoc _ _ _
  · show Gateway.mk _ _ = Gateway.mk _ _
    congr 1
    · exact update_assoc (keyed_both _ _) (keeps_both (f := InGroup.union) (fun _ _ => rfl) fun _ _ => rfl)
        (fun g => (g.connections.map InConnection.address).Nodup)
        InGroup.union_assoc (fun y z h => nodup_key_update (f := InConnection.union) (fun _ _ => rfl) _ _ h) _ _ _ (distinct_both h14) h15 c15
    · exact update_assoc (keyed_both _ _) (keeps_both (f := OutGroup.union) (fun _ _ => rfl) fun _ _ => rfl)
        (fun g => (g.connections.map OutConnection.address).Nodup)
        OutGroup.union_assoc (fun y z h => nodup_key_update (f := OutConnection.union) (fun _ _ => rfl) _ _ h) _ _ _ (distinct_both h16) h17 c17

/-- Configurations that meet the hypotheses, and that have things in common. -/
example : NoDuplicates {
    service := { services := [{ name := "s" }, { name := "t", note := "b" }] }
    queue := { groups := [{ alias := "q", queues := [{ name := "x" }] }, { queues := [{ name := "x" }] }, {}] } } := by
  unfold NoDuplicates Distinct
  refine ⟨?_, ?_, ?_, ?_, ?_, ?_, ?_, ?_, ?_, ?_, ?_, ?_, ?_, ?_, ?_, ?_, ?_⟩ <;> decide +kernel

/-- **C206**: with a name given twice in the second of three configurations it matters: put
together first with the first, the third counts; with the third, the second does. -/
theorem union_assoc_duplicates : ∃ a b c : Model,
    named Service.name "s" ((a.union b).union c).service.services = some { name := "s", note := "c" } ∧
    named Service.name "s" (a.union (b.union c)).service.services = some { name := "s", note := "b" } :=
  ⟨{}, { service := { services := [{ name := "s" }, { name := "s", note := "b" }] } },
    { service := { services := [{ name := "s", note := "c" }] } }, by decide +kernel, by decide +kernel⟩

/-! ### Difference and intersection -/

/-- Specification: `k` is what `l` has and `r` does not name. -/
def Without {α : Type} (name : α → String) (l r k : List α) : Prop :=
  k.Sublist l ∧ ∀ x, x ∈ k ↔ x ∈ l ∧ ¬ (name x ≠ "" ∧ ∃ y ∈ r, name y = name x)

/-- Specification: `k` is what `l` has and `r` names too. -/
def Common {α : Type} (name : α → String) (l r k : List α) : Prop :=
  k.Sublist l ∧ ∀ x, x ∈ k ↔ x ∈ l ∧ name x ≠ "" ∧ ∃ y ∈ r, name y = name x

theorem any_name {α : Type} (name : α → String) (r : List α) (x : α) :
    r.any (equalName name x) = true ↔ name x ≠ "" ∧ ∃ y ∈ r, name y = name x := by
  rw [List.any_eq_true]
  constructor
  · rintro ⟨y, hy, h⟩
    unfold equalName at h
    split at h
    · cases h
    · rename_i hn
      have e : name x = name y := by simpa using h
      exact ⟨fun h0 => hn ⟨h0, e ▸ h0⟩, y, hy, e.symm⟩
  · rintro ⟨h0, y, hy, e⟩
    refine ⟨y, hy, ?_⟩
    unfold equalName
    rw [if_neg fun h => h0 h.1]
    simpa using e.symm

theorem without_remove {α : Type} (name : α → String) (l r : List α) : Without name l r (remove (equalName name) r l) := by
  refine ⟨List.filter_sublist, fun x => ?_⟩
  unfold remove
  rw [List.mem_filter, ← any_name name r x]
  simp

theorem common_intersect {α : Type} (name : α → String) (l r : List α) : Common name l r (intersect (equalName name) r l) := by
  refine ⟨List.filter_sublist, fun x => ?_⟩
  unfold intersect
  rw [List.mem_filter, any_name name r x]

/-- **C207** (partial): the difference is what the left has and the right does not name, in the
same order. -/
theorem difference_partial (l r : Model) :
    Without DGroup.name l.domain.groups r.domain.groups (l.difference r).domain.groups ∧
    Without Entity.alias l.domain.servers r.domain.servers (l.difference r).domain.servers ∧
    Without Entity.alias l.domain.executables r.domain.executables (l.difference r).domain.executables ∧
    Without Resource.name l.transaction.resources r.transaction.resources (l.difference r).transaction.resources ∧
    Without Mapping.alias l.transaction.mappings r.transaction.mappings (l.difference r).transaction.mappings ∧
    Without Service.name l.service.services r.service.services (l.difference r).service.services ∧
    Without QGroup.alias l.queue.groups r.queue.groups (l.difference r).queue.groups ∧
    Without FGroup.alias l.queue.forwards r.queue.forwards (l.difference r).queue.forwards :=
  ⟨without_remove _ _ _, without_remove _ _ _, without_remove _ _ _, without_remove _ _ _, without_remove _ _ _,
    without_remove _ _ _, without_remove _ _ _, without_remove _ _ _⟩

/-- **C207** (partial): the intersection is what the left has and the right names too. -/
theorem intersection_partial (l r : Model) :
    Common DGroup.name l.domain.groups r.domain.groups (l.intersection r).domain.groups ∧
    Common Entity.alias l.domain.servers r.domain.servers (l.intersection r).domain.servers ∧
    Common Entity.alias l.domain.executables r.domain.executables (l.intersection r).domain.executables ∧
    Common Resource.name l.transaction.resources r.transaction.resources (l.intersection r).transaction.resources ∧
    Common Mapping.alias l.transaction.mappings r.transaction.mappings (l.intersection r).transaction.mappings ∧
    Common Service.name l.service.services r.service.services (l.intersection r).service.services ∧
    Common QGroup.alias l.queue.groups r.queue.groups (l.intersection r).queue.groups ∧
    Common FGroup.alias l.queue.forwards r.queue.forwards (l.intersection r).queue.forwards :=
  ⟨common_intersect _ _ _, common_intersect _ _ _, common_intersect _ _ _, common_intersect _ _ _, common_intersect _ _ _,
    common_intersect _ _ _, common_intersect _ _ _, common_intersect _ _ _⟩

/-- **C207** (partial): of system resources and variables by key and name, of connection groups
by alias and direction. -/
theorem difference_keyed_partial (l r : Model) :
    (∀ x, x ∈ (l.difference r).system.resources ↔ x ∈ l.system.resources ∧ ∀ y ∈ r.system.resources, y.key ≠ x.key) ∧
    (∀ x, x ∈ (l.difference r).domain.environment.variables ↔
      x ∈ l.domain.environment.variables ∧ ∀ y ∈ r.domain.environment.variables, y.name ≠ x.name) ∧
    (∀ x, x ∈ (l.difference r).gateway.inbound ↔ x ∈ l.gateway.inbound ∧
      ¬ (x.alias ≠ "" ∧ ∃ y ∈ r.gateway.inbound, y.alias = x.alias ∧ y.connect = x.connect)) ∧
    (∀ x, x ∈ (l.difference r).gateway.outbound ↔ x ∈ l.gateway.outbound ∧
      ¬ (x.alias ≠ "" ∧ ∃ y ∈ r.gateway.outbound, y.alias = x.alias ∧ y.connect = x.connect)) := by
  have key : ∀ {α κ : Type} [DecidableEq κ] (k : α → κ) (a b : List α) (x : α),
      x ∈ remove (equalKey k) b a ↔ x ∈ a ∧ ∀ y ∈ b, k y ≠ k x := by
    intro α κ _ k a b x
    unfold remove
    rw [List.mem_filter]
    simp only [Bool.not_eq_true', List.any_eq_false, equalKey, decide_eq_true_eq]
    exact ⟨fun ⟨h1, h2⟩ => ⟨h1, fun y hy e => h2 y hy e.symm⟩, fun ⟨h1, h2⟩ => ⟨h1, fun y hy e => h2 y hy e.symm⟩⟩
  have both : ∀ {α κ : Type} [DecidableEq κ] (n : α → String) (k : α → κ) (a b : List α) (x : α),
      x ∈ remove (equalBoth n k) b a ↔ x ∈ a ∧ ¬ (n x ≠ "" ∧ ∃ y ∈ b, n y = n x ∧ k y = k x) := by
    intro α κ _ n k a b x
    unfold remove
    rw [List.mem_filter]
    have : b.any (equalBoth n k x) = true ↔ n x ≠ "" ∧ ∃ y ∈ b, n y = n x ∧ k y = k x := by
      rw [List.any_eq_true]
      constructor
      · rintro ⟨y, hy, h⟩
        obtain ⟨e, e0⟩ := ((keyed_both n k).iff x y).1 h
        unfold bothKey at e e0
        by_cases hx : n x = "" <;> by_cases hy' : n y = "" <;> simp_all
        exact ⟨y, hy, rfl, rfl⟩
      · rintro ⟨h0, y, hy, e1, e2⟩
        refine ⟨y, hy, ((keyed_both n k).iff x y).2 ?_⟩
        unfold bothKey
        rw [e1, e2, if_neg h0]
        exact ⟨rfl, Option.some_ne_none _⟩
    rw [← this]
    simp
  exact ⟨key _ _ _, key _ _ _, both _ _ _ _, both _ _ _ _⟩

/-- **C207** is refuted for the restrictions of servers: they stay in the difference, and in the
intersection. -/
theorem difference_restriction_refuted :
    ¬ ∀ (l r : Model), Without Restricted.alias l.service.restriction r.service.restriction (l.difference r).service.restriction ∧
      Common Restricted.alias l.service.restriction r.service.restriction (l.intersection r).service.restriction := by
  intro h
  have := (h { service := { restriction := [{ alias := "a", services := ["s"] }] } } {}).2.2 { alias := "a", services := ["s"] }
  exact absurd (this.1 (by decide)).2.2 (by rintro ⟨y, hy, -⟩; cases hy)

/-- The difference and the intersection of two configurations. -/
example : let l : Model := { service := { services := [{ name := "s" }, { name := "t" }, { name := "" }] } }
    let r : Model := { service := { services := [{ name := "t", note := "other" }, { name := "" }] } }
    (l.difference r).service.services = [{ name := "s" }, { name := "" }] ∧ (l.intersection r).service.services = [{ name := "t" }] := by
  decide +kernel

end Casual.ConfModel

import Verif.ConfModel.User
import Verif.ConfModel.NormProps
import Verif.ConfModel.SetLaws
/-
  Properties of reading configuration files and of posting configuration.
-/
namespace Casual.ConfModel

/-! ### Defaults -/

theorem placeholders_map {β : Type} (g : UEntity → β) (hg : ∀ e a, g { e with alias := a } = g e) (fresh : Nat → String)
    (l : List UEntity) (n : Nat) : (placeholders fresh n l).2.map g = l.map g := by
  induction l generalizing n with
  | nil => rfl
  | cons e es ih =>
    unfold placeholders
    split
    · simp only [List.map_cons, ih, hg]
    · simp only [List.map_cons, ih]

/-- Specification: what is configured for a process, or else the default, or else the default of
the default. -/
def settings (d : Option UEntityDefault) (e : UEntity) : Int × List String × Environment × Bool :=
  (e.instances.getD ((d.map (·.instances)).getD 1),
   (e.memberships.or (d.bind (·.memberships))).getD [],
   (e.environment.or (d.bind (·.environment))).getD {},
   e.restart.getD ((d.map (·.restart)).getD false))

theorem coalesceO_or {α : Type} (a b : Option α) : coalesceO a b = a.or b := by cases a <;> rfl

theorem settings_transform (d : Option UEntityDefault) (l : List UEntity) :
    ((match d with | some x => l.map (UEntity.withDefault x) | none => l).map UEntity.transform).map
      (fun e : Entity => (e.instances, e.memberships, e.environment, e.restart)) = l.map (settings d) := by
  cases d with
  | none =>
    rw [List.map_map]
    refine List.map_congr_left fun e _ => ?_
    simp only [Function.comp, UEntity.transform, settings, Option.map_none, Option.bind_none, Option.or_none, Option.getD_none]
  | some x =>
    rw [List.map_map, List.map_map]
    refine List.map_congr_left fun e _ => ?_
    simp only [Function.comp, UEntity.transform, UEntity.withDefault, settings, Option.map_some, Option.bind_some,
      Option.getD_some, coalesceO_or]

theorem transform_some {f : UModel} {m : Model} (h : transform f = some m) :
    ∃ t s, transformTransaction f = some t ∧ transformService f = some s ∧
      m = { domain := transformDomain f, transaction := t, service := s } := by
  unfold transform at h
  split at h
  · rename_i t s h1 h2
    exact ⟨t, s, h1, h2, (Option.some.inj h).symm⟩
  · cases h

/-- **C208**: the defaults of a file are used for the servers and executables of the file, where
nothing else is said. -/
theorem entity_defaults (fresh : Nat → String) (n : Nat) (f : UModel) (m : Model)
    (h : transform (f.normalize fresh n).2 = some m) :
    m.domain.servers.map (fun e : Entity => (e.instances, e.memberships, e.environment, e.restart)) =
      f.servers.map (settings (f.defaults.bind (·.server))) ∧
    m.domain.executables.map (fun e : Entity => (e.instances, e.memberships, e.environment, e.restart)) =
      f.executables.map (settings (f.defaults.bind (·.executable))) := by
  obtain ⟨t, s, -, -, rfl⟩ := transform_some h
  have key : ∀ (d : Option UEntityDefault) (k : Nat) (l : List UEntity),
      ((match d with | some x => (placeholders fresh k l).2.map (UEntity.withDefault x) | none => (placeholders fresh k l).2).map
        UEntity.transform).map (fun e : Entity => (e.instances, e.memberships, e.environment, e.restart)) = l.map (settings d) := by
    intro d k l
    rw [settings_transform d, placeholders_map (settings d) fun _ _ => rfl]
  unfold UModel.normalize
  cases hd : f.defaults with
  | none => exact ⟨key none _ _, key none _ _⟩
  | some d => exact ⟨key d.server _ _, key d.executable _ _⟩

/-- Specification: the timeout of a service: what is configured, or else the default. -/
def serviceSettings (d : Option UServiceDefault) (s : UService) : String × Option Int × Option String × Option String :=
  (s.name,
   ((s.execution.bind (·.duration)).or s.timeout).or ((d.bind (·.timeout)).or ((d.bind (·.execution)).bind (·.duration))),
   (s.execution.bind (·.contract)).or ((d.bind (·.execution)).bind (·.contract)),
   s.visibility.or (d.bind (·.visibility)))

/-- **C208**: and the same for services. -/
theorem service_defaults (fresh : Nat → String) (n : Nat) (f : UModel) (m : Model)
    (h : transform (f.normalize fresh n).2 = some m) :
    m.service.services.map (fun s => (s.name, s.timeout.duration, s.timeout.contract, s.visibility)) =
      f.services.map (serviceSettings (f.defaults.bind (·.service))) := by
  obtain ⟨t, s, -, hs, rfl⟩ := transform_some h
  unfold transformService at hs
  split at hs
  · cases hs
  · have e := Option.some.inj hs
    rw [← e]
    simp only [List.map_map]
    unfold UModel.normalize
    cases hd : f.defaults with
    | none =>
      simp only [List.map_map]
      refine List.map_congr_left fun x _ => ?_
      obtain ⟨name, note, ex, routes, vis, tmo⟩ := x
      cases tmo with
      | none => cases ex <;> simp [UService.legacy, UExecution.transform, coalesceO, serviceSettings]
      | some q =>
        cases ex with
        | none => simp [UService.legacy, UExecution.transform, coalesceO, serviceSettings]
        | some ex =>
          obtain ⟨du, co⟩ := ex
          cases du <;> simp [UService.legacy, UExecution.transform, coalesceO, serviceSettings]
    | some d =>
      cases hds : d.service with
      | none =>
        simp only [List.map_map, Option.map_none, hds]
        refine List.map_congr_left fun x _ => ?_
        obtain ⟨name, note, ex, routes, vis, tmo⟩ := x
        cases tmo with
        | none => cases ex <;> simp [UService.legacy, UExecution.transform, coalesceO, serviceSettings, hds]
        | some q =>
          cases ex with
          | none => simp [UService.legacy, UExecution.transform, coalesceO, serviceSettings, hds]
          | some ex =>
            obtain ⟨du, co⟩ := ex
            cases du <;> simp [UService.legacy, UExecution.transform, coalesceO, serviceSettings, hds]
      | some ds =>
        simp only [List.map_map, Option.map_some, hds]
        refine List.map_congr_left fun x _ => ?_
        obtain ⟨name, note, ex, routes, vis, tmo⟩ := x
        obtain ⟨de, dv, dt⟩ := ds
        cases tmo with
        | none =>
          cases ex with
          | none => cases de <;> cases dt <;> simp [UService.legacy, UServiceDefault.legacy, UService.withDefault, UExecution.transform, coalesceO_or, serviceSettings, hds]
          | some ex => cases de <;> cases dt <;> simp [UService.legacy, UServiceDefault.legacy, UService.withDefault, UExecution.transform, coalesceO_or, serviceSettings, hds]
        | some q =>
          cases ex with
          | none => cases de <;> cases dt <;> simp [UService.legacy, UServiceDefault.legacy, UService.withDefault, UExecution.transform, coalesceO_or, serviceSettings, hds]
          | some ex =>
            obtain ⟨du, co⟩ := ex
            cases du <;> cases de <;> cases dt <;> simp [UService.legacy, UServiceDefault.legacy, UService.withDefault, UExecution.transform, coalesceO_or, serviceSettings, hds]

/-- **C209** (partial): the instances and the key of a resource are what is configured, or else
the default for resources, if there is such a section. -/
theorem resource_defaults_partial (fresh : Nat → String) (n : Nat) (f : UModel) (m : Model) (t : UTransaction) (d : UResourceDefault)
    (ht : f.transaction = some t) (hd : t.defaults = some d) (h : transform (f.normalize fresh n).2 = some m) :
    m.transaction.resources.map (fun r => (r.name, r.key, r.instances)) =
      t.resources.map fun r => (r.name, (r.key.or d.key).getD "", (r.instances.or d.instances).getD 0) := by
  obtain ⟨tr, s, h1, -, rfl⟩ := transform_some h
  have e : (f.normalize fresh n).2.transaction = some t.normalize := by
    unfold UModel.normalize
    cases f.defaults with
    | none => show f.transaction.map _ = _; rw [ht]; rfl
    | some d => show f.transaction.map _ = _; rw [ht]; rfl
  unfold transformTransaction at h1
  rw [e] at h1
  simp only at h1
  split at h1
  · cases h1
  · have := Option.some.inj h1
    rw [← this]
    unfold UTransaction.normalize
    rw [hd]
    simp only [List.map_map]
    refine List.map_congr_left fun r _ => ?_
    simp [Function.comp, coalesceO_or]

/-- **C209** is refuted: without such a section a resource for which no number of instances is
configured has 0 instances, and not the 1 of the documentation. -/
theorem resource_instances_refuted :
    ¬ ∀ (fresh : Nat → String) (f : UModel) (m : Model) (t : UTransaction), f.transaction = some t → load fresh [f] = some m →
      ∀ r ∈ t.resources, r.instances = none → (t.defaults.bind (·.instances)) = none →
        ∃ x ∈ m.transaction.resources, x.name = r.name ∧ x.instances = 1 := by
  intro h
  obtain ⟨x, hx, -, e⟩ := h (fun _ => "") { transaction := some { resources := [{ name := "db" }] } }
    { transaction := { resources := [{ name := "db", instances := 0 }] } }
    { resources := [{ name := "db" }] } rfl (by decide +kernel) { name := "db" } (by decide) rfl rfl
  rcases List.mem_singleton.1 hx with rfl
  exact absurd e (by decide)

/-! ### Validation -/

/-- **C210** (partial): no configuration that is loaded has a negative number of instances, for
servers, executables, resources and service forwards. -/
theorem load_instances_partial (fresh : Nat → String) (files : List UModel) (m : Model) (h : load fresh files = some m) :
    (∀ e ∈ m.domain.servers ++ m.domain.executables, 0 ≤ e.instances) ∧ (∀ r ∈ m.transaction.resources, 0 ≤ r.instances) ∧
    (∀ g ∈ m.queue.forwards, ∀ s ∈ g.services, 0 ≤ s.instances) := by
  unfold load at h
  split at h
  · cases h
  · split at h
    · cases h
    · split at h
      · rename_i r hn hv
        cases h
        unfold validate at hv
        simp only [Bool.and_eq_true, List.all_eq_true, decide_eq_true_eq] at hv
        obtain ⟨⟨⟨h1, h2⟩, h3⟩, h4⟩ := hv
        exact ⟨fun e he => (List.mem_append.1 he).elim (h1 e) (h2 e), h3, h4⟩
      · cases h

/-- **C210** is refuted: the check lets a negative number of instances of a queue forward
through, ... -/
theorem validate_forward_refuted :
    ¬ ∀ m : Model, validate m = true → ∀ g ∈ m.queue.forwards, ∀ q ∈ g.queues, 0 ≤ q.instances := by
  intro h
  exact absurd (h { queue := { forwards := [{ queues := [{ instances := -1 }] }] } } (by decide)
    { queues := [{ instances := -1 }] } (by decide) { instances := -1 } (by decide)) (by decide)

/-- ... and a configuration that is posted is not checked at all. -/
theorem posted_instances_refuted :
    ¬ ∀ (f : UModel) (m : Model), posted f = some m → ∀ e ∈ m.domain.servers, 0 ≤ e.instances := by
  intro h
  exact absurd (h { servers := [{ alias := some "a", filename := "a", instances := some (-1) }] }
    { domain := { servers := [{ alias := "a", filename := "a", instances := -1 }] } } (by decide +kernel)
    { alias := "a", filename := "a", instances := -1 } (by decide)) (by decide)

/-! ### Files and posts -/

theorem upsert_none {α κ : Type} [DecidableEq κ] {cmp : α → α → Bool} {key : α → Option κ} {f : α → α → α} (hk : Keyed cmp key)
    {v : α} {l : List α} (h : ∀ x ∈ l, key x = key v → key v = none) : upsert cmp f v l = l ++ [v] := by
  by_cases hv : key v = none
  · exact upsert_unnamed hk hv l
  · exact upsert_absent hk fun x hx e => hv (h x hx e)

theorem update_disjoint {α κ : Type} [DecidableEq κ] {cmp : α → α → Bool} {key : α → Option κ} {f : α → α → α} (hk : Keyed cmp key)
    (s t : List α) (h : ((t ++ s).filterMap key).Nodup) : update cmp f s t = t ++ s := by
  induction s generalizing t with
  | nil => rw [List.append_nil]; rfl
  | cons v s ih =>
    show update cmp f s (upsert cmp f v t) = _
    have hu : upsert cmp f v t = t ++ [v] := by
      refine upsert_none hk fun x hx e => ?_
      cases hv : key v with
      | none => rfl
      | some k =>
        rw [List.filterMap_append, List.filterMap_cons, hv, List.nodup_append] at h
        exact absurd rfl (h.2.2 k (List.mem_filterMap.2 ⟨x, hx, e.trans hv⟩) k List.mem_cons_self)
    rw [hu, ih (t ++ [v]) (by simpa using h)]
    simp

theorem replace_disjoint_name {α : Type} {name : α → String} {s t : List α} (h : Distinct name (t ++ s)) :
    replace (equalName name) s t = t ++ s := update_disjoint (keyed_name name) s t h

theorem replace_disjoint_key {α κ : Type} [DecidableEq κ] {key : α → κ} {s t : List α} (h : ((t ++ s).map key).Nodup) :
    replace (equalKey key) s t = t ++ s := update_disjoint (keyed_key key) s t (by rw [keys_some]; exact h)

/-- Specification: no name is used twice in the file. -/
def UModel.NoDuplicates (f : UModel) : Prop :=
  (((f.environment.getD {}).variables).map Variable.name).Nodup ∧
  (f.groups.map (·.name)).Nodup ∧ (f.servers.map (·.alias)).Nodup ∧ (f.executables.map (·.alias)).Nodup ∧
  (f.services.map (·.name)).Nodup ∧ (((f.transaction.map (·.resources)).getD []).map (·.name)).Nodup

/-- Specification: all is said: every server and executable has an alias, and there is nothing in
sections for defaults, nor in the deprecated `timeout`. -/
def UModel.Explicit (f : UModel) : Prop :=
  f.defaults = none ∧ (∀ t, f.transaction = some t → t.defaults = none) ∧
  (∀ e ∈ f.servers ++ f.executables, e.alias.getD "" ≠ "") ∧ (∀ s ∈ f.services, s.timeout = none)

theorem placeholders_id {fresh : Nat → String} {n : Nat} {l : List UEntity} (h : ∀ e ∈ l, e.alias.getD "" ≠ "") :
    placeholders fresh n l = (n, l) := by
  induction l with
  | nil => rfl
  | cons e es ih =>
    unfold placeholders
    rw [if_neg (h e List.mem_cons_self), ih fun x hx => h x (List.mem_cons_of_mem _ hx)]

theorem normalize_explicit {f : UModel} (h : f.Explicit) (fresh : Nat → String) (n : Nat) : f.normalize fresh n = (n, f) := by
  obtain ⟨h1, h2, h3, h4⟩ := h
  unfold UModel.normalize
  rw [h1, placeholders_id fun e he => h3 e (List.mem_append.2 (Or.inr he))]
  simp only
  rw [placeholders_id fun e he => h3 e (List.mem_append.2 (Or.inl he))]
  have e1 : f.services.map UService.legacy = f.services := by
    have : ∀ l : List UService, (∀ s ∈ l, s.timeout = none) → l.map UService.legacy = l := by
      intro l
      induction l with
      | nil => intro _; rfl
      | cons s l ih =>
        intro hl
        rw [List.map_cons, ih fun x hx => hl x (List.mem_cons_of_mem _ hx)]
        unfold UService.legacy
        rw [hl s List.mem_cons_self]
    exact this _ h4
  have e2 : f.transaction.map UTransaction.normalize = f.transaction := by
    cases ht : f.transaction with
    | none => rfl
    | some t =>
      show some t.normalize = some t
      unfold UTransaction.normalize
      rw [h2 t ht]
  rw [e1, e2]
  obtain ⟨a, b, c, d, e, g, i, j, k⟩ := f
  simp only at h1
  subst h1
  rfl

theorem distinct_of_nodup {α : Type} {name : α → String} {l : List α} (h : (l.map name).Nodup) : Distinct name l := by
  unfold Distinct
  have : (l.filterMap (nameKey name)).Sublist ((l.map name).map some |>.filterMap id) := by
    rw [List.map_map, List.filterMap_map]
    induction l with
    | nil => exact List.Sublist.refl _
    | cons x xs ih =>
      have ih := ih (List.nodup_cons.1 h).2
      rw [List.filterMap_cons, List.filterMap_cons]
      show List.Sublist _ (name x :: _)
      unfold nameKey
      split
      · rename_i hx
        split at hx
        · exact List.Sublist.cons _ ih
        · cases hx
      · rename_i hx
        split at hx
        · cases hx
        · cases hx; exact List.Sublist.cons_cons _ ih
  refine this.nodup ?_
  rw [List.filterMap_map]
  have e : ∀ l : List String, l.filterMap (id ∘ some) = l := by
    intro l
    induction l with
    | nil => rfl
    | cons x xs ih => rw [List.filterMap_cons]; show x :: _ = _; rw [ih]
  rw [e]
  exact h

theorem nodup_addMapping (a : String) (rs : List String) (ms : List Mapping) (h : (ms.map (·.alias)).Nodup) :
    ((addMapping a rs ms).map (·.alias)).Nodup := by
  unfold addMapping
  split
  · exact h
  · split
    · have hk := keys_upsert (keyed_key Mapping.alias)
        (f := fun m v => { m with resources := appendUnique v.resources m.resources })
        (keeps_key (key := Mapping.alias) fun _ _ => rfl) { alias := a, resources := rs } ms (by rw [keys_some]; exact h)
      have := hk.1
      rw [keys_some] at this
      exact this
    · rename_i hn
      rw [List.map_append, List.nodup_append]
      refine ⟨h, by simp, fun x hx y hy e => hn ?_⟩
      obtain ⟨m, hm, em⟩ := List.mem_map.1 hx
      rcases List.mem_singleton.1 hy with rfl
      exact List.any_eq_true.2 ⟨m, hm, by simpa using em.trans e⟩

theorem nodup_serverMappings (gs : List UGroup) (ss : List UEntity) (ms r : List Mapping) (h : (ms.map (·.alias)).Nodup)
    (hr : serverMappings gs ss ms = some r) : (r.map (·.alias)).Nodup := by
  induction ss generalizing ms with
  | nil => cases hr; exact h
  | cons s ss ih =>
    unfold serverMappings at hr
    split at hr
    · cases hr
    · exact ih _ (nodup_addMapping _ _ _ (nodup_addMapping _ _ _ h)) hr

theorem restrictions_sublist {ss : List UEntity} {r : List Restricted} (h : serverRestrictions ss = some r) :
    ((r.map (fun x => some x.alias)).Sublist (ss.map (·.alias))) := by
  induction ss generalizing r with
  | nil => cases h; exact List.Sublist.refl _
  | cons s ss ih =>
    unfold serverRestrictions at h
    split at h
    · exact List.Sublist.cons _ (ih h)
    · split at h
      · rename_i a q ha hq
        cases h
        rw [List.map_cons, List.map_cons, ha]
        exact List.Sublist.cons_cons _ (ih hq)
      · cases h

theorem nodup_getD {l : List (Option String)} (h : l.Nodup) (hn : ∀ x ∈ l, x.getD "" ≠ "") : (l.map (·.getD "")).Nodup := by
  induction l with
  | nil => exact List.nodup_nil
  | cons x xs ih =>
    obtain ⟨h1, h2⟩ := List.nodup_cons.1 h
    refine List.nodup_cons.2 ⟨fun hx => ?_, ih h2 fun y hy => hn y (List.mem_cons_of_mem _ hy)⟩
    obtain ⟨y, hy, e⟩ := List.mem_map.1 hx
    have hx0 := hn x List.mem_cons_self
    have hy0 := hn y (List.mem_cons_of_mem _ hy)
    cases x with
    | none => exact hx0 rfl
    | some a =>
      cases y with
      | none => exact hy0 rfl
      | some b => exact h1 (by rw [show a = b from e.symm]; exact hy)

theorem transform_distinct {f : UModel} {m : Model} (h : transform f = some m) (hd : f.NoDuplicates)
    (ha : ∀ e ∈ f.servers ++ f.executables, e.alias.getD "" ≠ "") : NoDuplicates m := by
  obtain ⟨t, s, h1, h2, rfl⟩ := transform_some h
  obtain ⟨d1, d2, d3, d4, d5, d6⟩ := hd
  have nil : ∀ {α : Type} {name : α → String}, Distinct name [] := fun {_ _} => List.nodup_nil
  refine ⟨List.nodup_nil, d1, ?_, ?_, ?_, ?_, ?_, ?_, ?_, nil, (fun g h => by cases h),
    nil, (fun g h => by cases h), nil, (fun g h => by cases h),
    nil, (fun g h => by cases h)⟩
  · refine distinct_of_nodup ?_
    show ((f.groups.map _).map _).Nodup
    rw [List.map_map]; exact d2
  · refine distinct_of_nodup ?_
    show ((f.servers.map _).map _).Nodup
    rw [List.map_map]
    have := nodup_getD d3 (by
      intro x hx
      obtain ⟨e, he, rfl⟩ := List.mem_map.1 hx
      exact ha e (List.mem_append.2 (Or.inl he)))
    rw [List.map_map] at this
    exact this
  · refine distinct_of_nodup ?_
    show ((f.executables.map _).map _).Nodup
    rw [List.map_map]
    have := nodup_getD d4 (by
      intro x hx
      obtain ⟨e, he, rfl⟩ := List.mem_map.1 hx
      exact ha e (List.mem_append.2 (Or.inr he)))
    rw [List.map_map] at this
    exact this
  · unfold transformTransaction at h1
    split at h1
    · cases h1; exact nil
    · rename_i tr htr
      split at h1
      · cases h1
      · cases h1
        refine distinct_of_nodup ?_
        show ((tr.resources.map _).map _).Nodup
        rw [List.map_map]
        rw [htr] at d6
        exact d6
  · unfold transformTransaction at h1
    split at h1
    · cases h1; exact nil
    · split at h1
      · cases h1
      · rename_i ms hms
        cases h1
        exact distinct_of_nodup (nodup_serverMappings f.groups f.servers [] ms List.nodup_nil hms)
  · unfold transformService at h2
    split at h2
    · cases h2
    · cases h2
      refine distinct_of_nodup ?_
      show ((f.services.map _).map _).Nodup
      rw [List.map_map]; exact d5
  · unfold transformService at h2
    split at h2
    · cases h2
    · rename_i r hr
      cases h2
      refine distinct_of_nodup ?_
      have := (restrictions_sublist hr).nodup d3
      exact nodup_of_map some (by rw [List.map_map]; exact this)

theorem empty_union {m : Model} (h : NoDuplicates m) (hg : m.service.global.note = "") : (({} : Model).union m) = m := by
  obtain ⟨h1, h2, h3, h4, h5, h6, h7, h8, h9, h10, -, h12, -, h14, -, h16, -⟩ := h
  obtain ⟨sys, dom, tra, ser, que, gat⟩ := m
  simp only [Model.union, Model.mk.injEq]
  have co : ∀ a : String, coalesce a "" = a := by intro a; unfold coalesce; split <;> simp_all
  have oo : ∀ {α : Type} (a : Option α), coalesceO a none = a := by intro α a; cases a <;> rfl
  refine ⟨?_, ?_, ?_, ?_, ?_, ?_⟩
  · show System.mk (replace _ sys.resources []) = _
    rw [replace_disjoint_key (t := []) h1]; rfl
  · show Domain.mk _ (Environment.mk (replace _ dom.environment.variables [])) (replace _ dom.groups []) (replace _ dom.servers [])
      (replace _ dom.executables []) = _
    rw [replace_disjoint_key (t := []) h2, replace_disjoint_name (t := []) h3, replace_disjoint_name (t := []) h4,
      replace_disjoint_name (t := []) h5, co]
    rfl
  · show Transaction.mk _ (replace _ tra.resources []) (replace _ tra.mappings []) = _
    rw [replace_disjoint_name (t := []) h6, replace_disjoint_name (t := []) h7, co]; rfl
  · show Services.mk (Global.mk (Timeout.mk _ _) "") (replace _ ser.services []) (replace _ ser.restriction []) = _
    rw [replace_disjoint_name (t := []) h8, replace_disjoint_name (t := []) h9, oo, oo, ← hg]; rfl
  · show Queues.mk (update _ _ que.groups []) (update _ _ que.forwards []) _ = _
    rw [update_disjoint (keyed_name _) _ [] h10, update_disjoint (keyed_name _) _ [] h12, co]; rfl
  · show Gateway.mk (update _ _ gat.inbound []) (update _ _ gat.outbound []) = _
    rw [update_disjoint (keyed_both _ _) _ [] (distinct_both h14), update_disjoint (keyed_both _ _) _ [] (distinct_both h16)]; rfl

/-- **C211** (partial): a configuration that is posted means the same as a file with it, if
everything in it is explicit, and no name is used twice; except that a file is checked. -/
theorem posted_as_loaded_partial (fresh : Nat → String) (f : UModel) (he : f.Explicit) (hd : f.NoDuplicates) :
    load fresh [f] = (posted f).filter validate := by
  unfold load posted accumulate
  rw [normalize_explicit he]
  simp only
  cases ht : transform f with
  | none => rfl
  | some m =>
    simp only [accumulate]
    rw [empty_union (transform_distinct ht hd he.2.2.1)]
    · cases normalize m with
      | none => rfl
      | some r =>
        show (if validate r = true then some r else none) = _
        by_cases hv : validate r = true <;> simp [hv, Option.filter]
    · obtain ⟨t, s, -, h2, rfl⟩ := transform_some ht
      unfold transformService at h2
      split at h2
      · cases h2
      · cases h2; rfl

/-- **C211** is refuted: the defaults that are posted are not used, ... -/
theorem posted_defaults_refuted :
    ¬ ∀ (fresh : Nat → String) (f : UModel) (m : Model), f.NoDuplicates → (∀ e ∈ f.servers ++ f.executables, e.alias.getD "" ≠ "") →
      load fresh [f] = some m → posted f = some m := by
  intro h
  have := h (fun _ => "") { defaults := some { server := some { instances := 5 } }, servers := [{ alias := some "a", filename := "a" }] }
    { domain := { servers := [{ alias := "a", filename := "a", instances := 5 }] } }
    ⟨by decide, by decide, by decide, by decide, by decide, by decide⟩ (by decide) (by decide +kernel)
  exact absurd this (by decide +kernel)

/-- ... and a server without an alias can not be posted together with resources. -/
theorem posted_alias_refuted :
    ∃ f : UModel, posted f = none ∧ f.NoDuplicates ∧ f.defaults = none ∧
      (∀ fresh : Nat → String, (∀ n, isPlaceholder (fresh n) = true) → ∃ m, load fresh [f] = some m) := by
  refine ⟨{ servers := [{ filename := "a" }], transaction := some {} }, by decide +kernel,
    ⟨by decide, by decide, by decide, by decide, by decide, by decide⟩, rfl, fun fresh hf => ?_⟩
  have e : accumulate fresh 0 {} [{ servers := [{ filename := "a" }], transaction := some {} }] =
      some { domain := { servers := [{ alias := fresh 0, filename := "a" }] } } := rfl
  obtain ⟨n, hn⟩ := normalize_total { domain := { servers := [{ alias := fresh 0, filename := "a" }] } }
    (fun r hr => by cases hr) (fun r hr => by cases hr)
  refine ⟨n, ?_⟩
  unfold load
  rw [e]
  simp only [hn]
  rw [if_pos]
  unfold normalize at hn
  simp only [resolveAll] at hn
  cases hn
  simp only [normEntities, mutateAll, mutate, normForwards, List.map_cons, List.map_nil, enableEntity]
  split <;> rfl

/-! ### More than one file -/

/-- Specification: two files as one. -/
def UModel.append (f g : UModel) : UModel :=
  { name := g.name.or f.name
    environment := match f.environment, g.environment with
      | some a, some b => some { variables := a.variables ++ b.variables }
      | a, none => a
      | none, b => b
    transaction := match f.transaction, g.transaction with
      | some a, some b => some { defaults := b.defaults.or a.defaults, log := if b.log = "" then a.log else b.log, resources := a.resources ++ b.resources }
      | a, none => a
      | none, b => b
    groups := f.groups ++ g.groups
    servers := f.servers ++ g.servers
    executables := f.executables ++ g.executables
    services := f.services ++ g.services
    globalService := g.globalService.or f.globalService }

/-- **C212** (partial): groups, servers and executables can be split between files: two files
mean the same as one with all of it, if all is explicit and no name is used twice. -/
theorem split_domain_partial (fresh : Nat → String) (n : Nat) (f g : UModel) (m r : Model) (hf : f.Explicit) (hg : g.Explicit)
    (hd : (f.append g).NoDuplicates) (hn : g.name ≠ some "")
    (h2 : accumulate fresh n {} [f, g] = some m) (h1 : transform (f.append g) = some r) : m.domain = r.domain := by
  unfold accumulate at h2
  rw [normalize_explicit hf] at h2
  simp only at h2
  cases hft : transform f with
  | none => rw [hft] at h2; cases h2
  | some mf =>
    rw [hft] at h2
    unfold accumulate at h2
    rw [normalize_explicit hg] at h2
    simp only at h2
    cases hgt : transform g with
    | none => rw [hgt] at h2; cases h2
    | some mg =>
      rw [hgt] at h2
      unfold accumulate at h2
      cases h2
      obtain ⟨-, -, -, -, rfl⟩ := transform_some hft
      obtain ⟨-, -, -, -, rfl⟩ := transform_some hgt
      obtain ⟨-, -, -, -, rfl⟩ := transform_some h1
      obtain ⟨d1, d2, d3, d4, d5, d6⟩ := hd
      have ha := hf.2.2.1
      have hb := hg.2.2.1
      have dg : Distinct DGroup.name ((transformDomain f).groups ++ (transformDomain g).groups) := by
        refine distinct_of_nodup ?_
        show ((f.groups.map _ ++ g.groups.map _).map _).Nodup
        rw [← List.map_append, List.map_map]; exact d2
      have dent : ∀ a b : List UEntity, ((a ++ b).map (·.alias)).Nodup → (∀ e ∈ a ++ b, e.alias.getD "" ≠ "") →
          Distinct Entity.alias (a.map UEntity.transform ++ b.map UEntity.transform) := by
        intro a b hab hne
        refine distinct_of_nodup ?_
        rw [← List.map_append, List.map_map]
        have := nodup_getD hab (by
          intro x hx
          obtain ⟨e, he, rfl⟩ := List.mem_map.1 hx
          exact hne e he)
        rw [List.map_map] at this
        exact this
      have ds := dent f.servers g.servers d3 fun e he => (List.mem_append.1 he).elim
        (fun h => ha e (List.mem_append.2 (Or.inl h))) fun h => hb e (List.mem_append.2 (Or.inl h))
      have dx := dent f.executables g.executables d4 fun e he => (List.mem_append.1 he).elim
        (fun h => ha e (List.mem_append.2 (Or.inr h))) fun h => hb e (List.mem_append.2 (Or.inr h))
      have left : ∀ {α : Type} {name : α → String} {a b : List α}, Distinct name (a ++ b) →
          replace (equalName name) b (replace (equalName name) a []) = a ++ b := by
        intro α name a b h
        have h1 : Distinct name ([] ++ a) := by
          unfold Distinct at h ⊢
          rw [List.filterMap_append, List.nodup_append] at h
          exact h.1
        rw [replace_disjoint_name h1]
        exact replace_disjoint_name h
      have leftk : ∀ {α κ : Type} [DecidableEq κ] {key : α → κ} {a b : List α}, ((a ++ b).map key).Nodup →
          replace (equalKey key) b (replace (equalKey key) a []) = a ++ b := by
        intro α κ _ key a b h
        have h1 : (([] ++ a).map key).Nodup := by
          rw [List.map_append, List.nodup_append] at h
          exact h.1
        rw [replace_disjoint_key h1]
        exact replace_disjoint_key h
      show Domain.mk (coalesce (g.name.getD "") (coalesce (f.name.getD "") "")) (Environment.mk (replace (equalKey Variable.name)
          (g.environment.getD {}).variables (replace (equalKey Variable.name) (f.environment.getD {}).variables [])))
        (replace (equalName DGroup.name) (transformDomain g).groups (replace (equalName DGroup.name) (transformDomain f).groups []))
        (replace (equalName Entity.alias) (g.servers.map UEntity.transform)
          (replace (equalName Entity.alias) (f.servers.map UEntity.transform) []))
        (replace (equalName Entity.alias) (g.executables.map UEntity.transform)
          (replace (equalName Entity.alias) (f.executables.map UEntity.transform) [])) = _
      rw [left dg, left ds, left dx]
      show _ = Domain.mk _ _ _ _ _
      congr 1
      · show _ = (g.name.or f.name).getD ""
        unfold coalesce
        cases hgn : g.name with
        | none => simp
        | some a =>
          have : a ≠ "" := fun e => hn (by rw [hgn, e])
          simp [this]
      · have hv : ((f.append g).environment.getD {}).variables =
            (f.environment.getD {}).variables ++ (g.environment.getD {}).variables := by
          unfold UModel.append
          cases f.environment <;> cases g.environment <;> simp
        have e : (transformDomain (f.append g)).environment = Environment.mk (((f.append g).environment.getD {}).variables) := by
          show (f.append g).environment.getD {} = _
          cases (f.append g).environment.getD {} ; rfl
        rw [hv] at d1
        refine Eq.trans ?_ e.symm
        rw [hv]
        congr 1
        exact leftk d1
      · show _ = (f.groups ++ g.groups).map _
        rw [List.map_append]; rfl
      · show _ = (f.servers ++ g.servers).map _
        rw [List.map_append]
      · show _ = (f.executables ++ g.executables).map _
        rw [List.map_append]

/-- **C212** is refuted: a server has no resources if the section for transactions is in another
file, ... -/
theorem split_transaction_refuted :
    ¬ ∀ (fresh : Nat → String) (f g : UModel) (m r : Model), f.Explicit → g.Explicit → (f.append g).NoDuplicates →
      load fresh [f, g] = some m → load fresh [f.append g] = some r → m.transaction.mappings = r.transaction.mappings := by
  intro h
  have := h (fun _ => "") { servers := [{ alias := some "a", filename := "a", resources := some ["db"] }] }
    { transaction := some { resources := [{ name := "db", instances := some 1 }] } }
    { domain := { servers := [{ alias := "a", filename := "a" }] }
      transaction := { resources := [{ name := "db" }] } }
    { domain := { servers := [{ alias := "a", filename := "a" }] }
      transaction := { resources := [{ name := "db" }], mappings := [{ alias := "a", resources := ["db"] }] } }
    ⟨rfl, by decide, by decide, by decide⟩ ⟨rfl, by simp, by decide, by decide⟩
    ⟨by decide, by decide, by decide, by decide, by decide, by decide⟩ (by decide +kernel) (by decide +kernel)
  exact absurd this (by decide)

/-- ... and not those of a group it is a member of that is in another file. -/
theorem split_group_refuted :
    ¬ ∀ (fresh : Nat → String) (f g : UModel) (m r : Model), f.Explicit → g.Explicit → (f.append g).NoDuplicates →
      f.transaction ≠ none → g.transaction ≠ none →
      load fresh [f, g] = some m → load fresh [f.append g] = some r → m.transaction.mappings = r.transaction.mappings := by
  intro h
  have := h (fun _ => "")
    { servers := [{ alias := some "a", filename := "a", memberships := some ["g"] }], transaction := some {} }
    { groups := [{ name := "g", resources := some ["db"] }], transaction := some { resources := [{ name := "db", instances := some 1 }] } }
    { domain := { servers := [{ alias := "a", filename := "a", memberships := ["g"] }], groups := [{ name := "g" }] }
      transaction := { resources := [{ name := "db" }] } }
    { domain := { servers := [{ alias := "a", filename := "a", memberships := ["g"] }], groups := [{ name := "g" }] }
      transaction := { resources := [{ name := "db" }], mappings := [{ alias := "a", resources := ["db"] }] } }
    ⟨rfl, by simp, by decide, by decide⟩ ⟨rfl, by simp, by decide, by decide⟩
    ⟨by decide, by decide, by decide, by decide, by decide, by decide⟩ (by decide) (by decide) (by decide +kernel) (by decide +kernel)
  exact absurd this (by decide)

theorem accumulate_append (fresh : Nat → String) (fs : List UModel) (f : UModel) (n : Nat) (m r : Model)
    (h : accumulate fresh n m (fs ++ [f]) = some r) :
    ∃ k p t, accumulate fresh n m fs = some p ∧ transform (f.normalize fresh k).2 = some t ∧ r = p.union t := by
  induction fs generalizing n m with
  | nil =>
    rw [List.nil_append] at h
    unfold accumulate at h
    simp only at h
    cases ht : transform (f.normalize fresh n).2 with
    | none => rw [ht] at h; cases h
    | some t =>
      rw [ht] at h
      unfold accumulate at h
      cases h
      exact ⟨n, m, t, rfl, ht, rfl⟩
  | cons g fs ih =>
    rw [List.cons_append] at h
    unfold accumulate at h ⊢
    simp only at h ⊢
    cases ht : transform (g.normalize fresh n).2 with
    | none => rw [ht] at h; cases h
    | some t =>
      rw [ht] at h
      exact ih _ _ h

theorem last_named {α : Type} {name : α → String} {k : String} {l : List α} (hd : (l.map name).Nodup) {x : α} (hx : x ∈ l)
    (hk : name x = k) : lastNamed name k l = some x := by
  unfold lastNamed named
  have : ∀ y ∈ l, name y = k → y = x := by
    intro y hy e
    induction l with
    | nil => cases hy
    | cons z zs ih =>
      obtain ⟨h1, h2⟩ := List.nodup_cons.1 hd
      rcases List.mem_cons.1 hx with hxz | hxz
      · rcases List.mem_cons.1 hy with hyz | hyz
        · rw [hxz, hyz]
        · exact absurd (List.mem_map.2 ⟨y, hyz, e.trans (hk.symm.trans (by rw [hxz]))⟩) h1
      · rcases List.mem_cons.1 hy with hyz | hyz
        · exact absurd (List.mem_map.2 ⟨x, hxz, hk.trans (e.symm.trans (by rw [hyz]))⟩) h1
        · exact ih h2 hxz hyz
  cases h : l.reverse.find? fun y => decide (name y = k) with
  | none =>
    have := List.find?_eq_none.1 h x (by simpa using hx)
    simp [hk] at this
  | some y =>
    have h1 := List.mem_of_find?_eq_some h
    have h2 := List.find?_some h
    rw [this y (by simpa using h1) (by simpa using h2)]

/-- **C213** (partial): what the last file says about a server counts, for everything that is said
about the process; the services it is restricted to are those of the last file if there are some. -/
theorem redefined_partial (fresh : Nat → String) (fs : List UModel) (f : UModel) (s : UEntity) (a : String) (r : Model)
    (h : accumulate fresh 0 {} (fs ++ [f]) = some r) (he : f.Explicit) (hd : (f.servers.map (·.alias)).Nodup)
    (hs : s ∈ f.servers) (ha : s.alias = some a) :
    named Entity.alias a r.domain.servers = some s.transform ∧
    (s.restrictions.getD [] ≠ [] →
      named Restricted.alias a r.service.restriction = some { alias := a, services := s.restrictions.getD [] }) := by
  obtain ⟨k, p, t, h1, h2, rfl⟩ := accumulate_append fresh fs f 0 {} r h
  rw [normalize_explicit he] at h2
  obtain ⟨tt, ts, h3, h4, rfl⟩ := transform_some h2
  have hne : a ≠ "" := by
    have := he.2.2.1 s (List.mem_append.2 (Or.inl hs))
    rw [ha] at this
    exact this
  have hu := union_precedence p { domain := transformDomain f, transaction := tt, service := ts } a hne
  refine ⟨?_, fun hr => ?_⟩
  · refine hu.2.2.1.trans ?_
    have hn : ((f.servers.map UEntity.transform).map Entity.alias).Nodup := by
      rw [List.map_map]
      have := nodup_getD hd (by
        intro x hx
        obtain ⟨e, h, rfl⟩ := List.mem_map.1 hx
        exact he.2.2.1 e (List.mem_append.2 (Or.inl h)))
      rw [List.map_map] at this
      exact this
    have hl : lastNamed Entity.alias a (f.servers.map UEntity.transform) = some s.transform :=
      last_named hn (List.mem_map.2 ⟨s, hs, rfl⟩) (by unfold UEntity.transform; rw [ha]; rfl)
    show (lastNamed Entity.alias a (f.servers.map UEntity.transform)).or _ = _
    rw [hl]
    rfl
  · refine hu.2.2.2.2.2.2.2.trans ?_
    unfold transformService at h4
    split at h4
    · cases h4
    · rename_i rs hrs
      cases h4
      have hm : (⟨a, s.restrictions.getD []⟩ : Restricted) ∈ rs := by
        have hrs' : serverRestrictions f.servers = some rs := hrs
        clear h h2 h3 hu hd he h1 hrs
        revert hs hrs'
        generalize f.servers = l
        intro hs hrs
        induction l generalizing rs with
        | nil => cases hs
        | cons x xs ih =>
          unfold serverRestrictions at hrs
          rcases List.mem_cons.1 hs with rfl | hs
          · rw [if_neg hr, ha] at hrs
            split at hrs
            · rename_i q hq e
              cases hrs
              cases hq
              exact List.mem_cons_self
            · cases hrs
          · split at hrs
            · exact ih _ hs hrs
            · split at hrs
              · rename_i q hq
                cases hrs
                exact List.mem_cons_of_mem _ (ih _ hs hq)
              · cases hrs
      have hn : (rs.map Restricted.alias).Nodup :=
        nodup_of_map some (by rw [List.map_map]; exact (restrictions_sublist hrs).nodup hd)
      have hl : lastNamed Restricted.alias a rs = some ⟨a, s.restrictions.getD []⟩ := last_named hn hm rfl
      show (lastNamed Restricted.alias a rs).or _ = _
      rw [hl]
      rfl

/-- **C213** is refuted: a server that is configured again, in a later file, without
restrictions and resources still has those of the earlier file. -/
theorem redefined_refuted :
    ¬ ∀ (fresh : Nat → String) (f g : UModel) (m : Model) (s : UEntity) (a : String), f.Explicit → g.Explicit →
      f.NoDuplicates → g.NoDuplicates → load fresh [f, g] = some m → s ∈ g.servers → s.alias = some a →
      s.restrictions = none → s.resources = none → s.memberships = none →
      (∀ r ∈ m.service.restriction, r.alias ≠ a) ∧ (∀ r ∈ m.transaction.mappings, r.alias ≠ a) := by
  intro h
  have := (h (fun _ => "")
    { servers := [{ alias := some "a", filename := "a", restrictions := some ["x"], resources := some ["db"] }]
      transaction := some { resources := [{ name := "db", instances := some 1 }] } }
    { servers := [{ alias := some "a", filename := "b" }], transaction := some {} }
    { domain := { servers := [{ alias := "a", filename := "b" }] }
      transaction := { resources := [{ name := "db" }], mappings := [{ alias := "a", resources := ["db"] }] }
      service := { restriction := [{ alias := "a", services := ["x"] }] } }
    { alias := some "a", filename := "b" } "a"
    ⟨rfl, by simp, by decide, by decide⟩ ⟨rfl, by simp, by decide, by decide⟩
    ⟨by decide, by decide, by decide, by decide, by decide, by decide⟩
    ⟨by decide, by decide, by decide, by decide, by decide, by decide⟩ (by decide +kernel) (by decide) rfl rfl rfl rfl).1
  exact absurd rfl (this { alias := "a", services := ["x"] } (by decide))

/-- A file that meets the hypotheses of these theorems, and what it becomes. -/
example : load (fun _ => "") [
    { groups := [{ name := "g", resources := some ["db2", "db"] }]
      servers := [{ alias := some "a", filename := "a", memberships := some ["g"], resources := some ["db"], restrictions := some ["x"] }]
      services := [{ name := "s", execution := some { contract := some "kill" } }]
      defaults := some { server := some { instances := 2 }, service := some { execution := some { duration := some 5 } } }
      transaction := some { defaults := some { key := some "k" }, resources := [{ name := "db" }, { name := "db2", instances := some 3 }] } }] =
    some {
      domain := { groups := [{ name := "g" }], servers := [{ alias := "a", filename := "a", instances := 2, memberships := ["g"] }] }
      service := { services := [{ name := "s", timeout := { duration := some 5, contract := some "kill" } }], restriction := [{ alias := "a", services := ["x"] }] }
      transaction := { resources := [{ name := "db", key := "k" }, { name := "db2", key := "k", instances := 3 }], mappings := [{ alias := "a", resources := ["db", "db2"] }] } } := by
  decide +kernel

end Casual.ConfModel

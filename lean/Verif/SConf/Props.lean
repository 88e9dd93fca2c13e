import Verif.SConf.Maps
/-
  What the configuration at boot leads to.
-/
namespace Casual.SConf

/-! ### Specification -/

/-- The names that lead to a service: its routes if it is configured with any, otherwise its own name. -/
def names (cs : List Conf) (o : Nat) : List Nat :=
  match cs.find? (·.name == o) with
  | some c => if c.routes = [] then [o] else c.routes
  | none => [o]

/-- The timeout of a service: what is configured for it, and what is configured for all. -/
def limit (m : Model) (o : Nat) : Timeout :=
  match m.services.find? (·.name == o) with
  | some c =>
    { duration := match c.timeout.duration with | some d => some d | none => m.timeout.duration
      contract := match c.timeout.contract with | some d => some d | none => m.timeout.contract }
  | none => m.timeout

/-- The services that servers have advertised. -/
def offered (es : List Ev) : List Nat := es.filterMap fun e => match e with | .advertise _ n _ _ => some n | _ => none

/-- There are services with these names, and no more. -/
def IsKnown (m : Model) (es : List Ev) (o : Nat) : Prop := (∃ c ∈ m.services, c.name = o) ∨ o ∈ offered es

/-- Each service is configured once, and no name is used twice: as a route of a service and as the name or a route of another one. -/
structure Tidy (m : Model) (P : Nat → Prop) : Prop where
  once : (m.services.map Conf.name).Nodup
  apart : ∀ o o', P o → P o' → o ≠ o' → ∀ n, n ∈ o :: names m.services o → n ∉ names m.services o'

/-! ### Proof -/

theorem names_ne (cs : List Conf) (o : Nat) : names cs o ≠ [] := by
  unfold names
  split
  · split
    · simp
    · assumption
  · simp

/-- The names lead to the services, and nowhere else. -/
structure Inv (m : Model) (P : Nat → Prop) (K : Nat → Prop) (st : State) : Prop where
  to : ∀ n id, get st.lookup n = some id → ∃ s, st.at id = some s ∧ n ∈ names m.services s.name
  of : ∀ id s, st.at id = some s → P s.name ∧ ∀ n ∈ names m.services s.name, get st.lookup n = some id
  known : ∀ o, K o ↔ ∃ id s, st.at id = some s ∧ s.name = o
  limits : ∀ id s, st.at id = some s → s.timeout = limit m s.name
  shown : ∀ id s, st.at id = some s → ∀ c ∈ m.services, c.name = s.name → ∀ v, c.visibility = some v → s.visibility = some v
  global : st.timeout = m.timeout
  routes : st.routes = routesOf m.services

theorem Inv.uniq {m : Model} {P K : Nat → Prop} {st : State} (h : Inv m P K st) {i j : Nat} {s t : Service} (hi : st.at i = some s) (hj : st.at j = some t) (e : s.name = t.name) : i = j := by
  obtain ⟨n, hn⟩ := List.exists_mem_of_ne_nil _ (names_ne m.services s.name)
  have h1 := (h.of i s hi).2 n hn
  have h2 := (h.of j t hj).2 n (e ▸ hn)
  rw [h1] at h2
  exact Option.some.inj h2

/-- The name of a service, and its names, lead to no other. -/
theorem Inv.same {m : Model} {P K : Nat → Prop} {st : State} (ht : Tidy m P) (h : Inv m P K st) {o n id : Nat} (ho : P o) (hn : n ∈ o :: names m.services o) (hg : get st.lookup n = some id) :
    ∃ s, st.at id = some s ∧ s.name = o := by
  obtain ⟨s, hs, hm⟩ := h.to n id hg
  refine ⟨s, hs, ?_⟩
  by_cases e : s.name = o
  · exact e
  · exact absurd hm (ht.apart o s.name ho (h.of id s hs).1 (fun x => e x.symm) n hn)

/-- What an insert does. -/
structure Ins (st st' : State) (id : Nat) (s : Service) : Prop where
  here : ∃ x, st'.at id = some x ∧ x.name = s.name ∧ (st.at id = some x ∨ (x = s ∧ st.at id = none ∧ ∀ j t, st.at j = some t → t.name ≠ s.name))
  else_ : ∀ j, j ≠ id → st'.at j = st.at j

theorem insert_new {m : Model} {P K : Nat → Prop} {st : State} (ht : Tidy m P) (h : Inv m P K st) {s : Service} (ho : P s.name) (hnew : ∀ j t, st.at j = some t → t.name ≠ s.name)
    (hl : s.timeout = limit m s.name) (hv : ∀ c ∈ m.services, c.name = s.name → ∀ v, c.visibility = some v → s.visibility = some v) {l : List (Nat × Nat)}
    (hg : ∀ n, get l n = if n ∈ names m.services s.name then some (insertTable st.table s).2 else get st.lookup n) :
    Inv m P (fun o => K o ∨ o = s.name) { st with table := (insertTable st.table s).1, lookup := l }
    ∧ Ins st { st with table := (insertTable st.table s).1, lookup := l } (insertTable st.table s).2 s := by
  obtain ⟨a1, a2, a3⟩ := at_insert st s l
  have hcase : ∀ j t, State.at { st with table := (insertTable st.table s).1, lookup := l } j = some t → (j = (insertTable st.table s).2 ∧ t = s) ∨ (j ≠ (insertTable st.table s).2 ∧ st.at j = some t) := by
    intro j t hj
    by_cases e : j = (insertTable st.table s).2
    · rw [e, a1] at hj
      exact .inl ⟨e, (Option.some.inj hj).symm⟩
    · rw [a3 j e] at hj
      exact .inr ⟨e, hj⟩
  refine ⟨⟨?_, ?_, ?_, ?_, ?_, h.global, h.routes⟩, ⟨⟨s, a1, rfl, .inr ⟨rfl, a2, hnew⟩⟩, a3⟩⟩
  · intro n id hn
    have hn : get l n = some id := hn
    rw [hg] at hn
    by_cases e : n ∈ names m.services s.name
    · rw [if_pos e] at hn
      rw [← Option.some.inj hn]
      exact ⟨s, a1, e⟩
    · rw [if_neg e] at hn
      obtain ⟨t, ht, hm⟩ := h.to n id hn
      have : id ≠ (insertTable st.table s).2 := by
        intro e2
        rw [e2, a2] at ht
        cases ht
      exact ⟨t, (a3 id this).trans ht, hm⟩
  · intro id t hi
    show _ ∧ ∀ n ∈ names m.services t.name, get l n = some id
    rcases hcase id t hi with ⟨e1, e2⟩ | ⟨e1, e2⟩
    · rw [e2]
      refine ⟨ho, fun n hn => ?_⟩
      rw [hg, if_pos hn, e1]
    · refine ⟨(h.of id t e2).1, fun n hn => ?_⟩
      have h2 := (h.of id t e2).2 n hn
      rw [hg]
      by_cases e : n ∈ names m.services s.name
      · exact absurd hn (ht.apart s.name t.name ho (h.of id t e2).1 (fun x => hnew id t e2 x.symm) n (List.mem_cons_of_mem _ e))
      · rw [if_neg e]; exact h2
  · intro o
    constructor
    · rintro (hk | rfl)
      · obtain ⟨id, t, h1, h2⟩ := (h.known o).1 hk
        have : id ≠ (insertTable st.table s).2 := by
          intro e2
          rw [e2, a2] at h1
          cases h1
        exact ⟨id, t, (a3 id this).trans h1, h2⟩
      · exact ⟨_, s, a1, rfl⟩
    · rintro ⟨id, t, h1, h2⟩
      rcases hcase id t h1 with ⟨_, e2⟩ | ⟨_, e2⟩
      · exact .inr (by rw [← h2, e2])
      · exact .inl ((h.known o).2 ⟨id, t, e2, h2⟩)
  · intro id t hi
    rcases hcase id t hi with ⟨_, e2⟩ | ⟨_, e2⟩
    · rw [e2]; exact hl
    · exact h.limits id t e2
  · intro id t hi
    rcases hcase id t hi with ⟨_, e2⟩ | ⟨_, e2⟩
    · rw [e2]; exact hv
    · exact h.shown id t e2

theorem Inv.weaken {m : Model} {P K K' : Nat → Prop} {st : State} (h : Inv m P K st) (hk : ∀ o, K o ↔ K' o) : Inv m P K' st :=
  ⟨h.to, h.of, fun o => (hk o).symm.trans (h.known o), h.limits, h.shown, h.global, h.routes⟩

theorem Inv.relook {m : Model} {P K : Nat → Prop} {st : State} (h : Inv m P K st) {l : List (Nat × Nat)} (hl : ∀ n, get l n = get st.lookup n) :
    Inv m P K { st with lookup := l } :=
  ⟨fun n id hn => h.to n id ((hl n).symm.trans hn), fun id s hs => ⟨(h.of id s hs).1, fun n hn => (hl n).trans ((h.of id s hs).2 n hn)⟩, h.known, h.limits, h.shown, h.global, h.routes⟩

/-- An insert of a service without routes. -/
theorem insert_inv {m : Model} {P K : Nat → Prop} {st : State} (ht : Tidy m P) (h : Inv m P K st) {s : Service} (ho : P s.name) (hn : names m.services s.name = [s.name])
    (hl : (∀ j t, st.at j = some t → t.name ≠ s.name) → s.timeout = limit m s.name)
    (hv : (∀ j t, st.at j = some t → t.name ≠ s.name) → ∀ c ∈ m.services, c.name = s.name → ∀ v, c.visibility = some v → s.visibility = some v) :
    Inv m P (fun o => K o ∨ o = s.name) (insert st s).1 ∧ Ins st (insert st s).1 (insert st s).2 s := by
  unfold insert
  cases hg : get st.lookup s.name with
  | some id =>
    obtain ⟨x, hx, he⟩ := h.same ht ho (List.mem_cons_self ..) hg
    refine ⟨h.weaken fun o => ⟨.inl, ?_⟩, ⟨x, hx, he, .inl hx⟩, fun _ _ => rfl⟩
    rintro (hk | rfl)
    · exact hk
    · exact (h.known _).2 ⟨id, x, hx, he⟩
  | none =>
    have hnew : ∀ j t, st.at j = some t → t.name ≠ s.name := by
      intro j t hj e
      have := (h.of j t hj).2 s.name (by rw [e, hn]; exact List.mem_singleton.2 rfl)
      rw [hg] at this
      cases this
    dsimp only
    refine insert_new ht h ho hnew (hl hnew) (hv hnew) ?_
    intro n
    rw [get_put, hn]
    simp

/-- An insert of a service with routes. -/
theorem insertRoutes_inv {m : Model} {P K : Nat → Prop} {st : State} (ht : Tidy m P) (h : Inv m P K st) {s : Service} (ho : P s.name) {routes : List Nat} (hn : names m.services s.name = routes)
    (hl : (∀ j t, st.at j = some t → t.name ≠ s.name) → s.timeout = limit m s.name)
    (hv : (∀ j t, st.at j = some t → t.name ≠ s.name) → ∀ c ∈ m.services, c.name = s.name → ∀ v, c.visibility = some v → s.visibility = some v) :
    Inv m P (fun o => K o ∨ o = s.name) (insertRoutes st s routes).1 ∧ Ins st (insertRoutes st s routes).1 (insertRoutes st s routes).2 s := by
  have hold : ∀ n id, n ∈ s.name :: routes → get st.lookup n = some id →
      Inv m P (fun o => K o ∨ o = s.name) { st with lookup := putAll st.lookup routes id } ∧ Ins st { st with lookup := putAll st.lookup routes id } id s := by
    intro n id hm hg
    obtain ⟨x, hx, he⟩ := h.same ht ho (by rw [hn]; exact hm) hg
    refine ⟨(h.weaken fun o => ⟨.inl, ?_⟩).relook ?_, ⟨x, hx, he, .inl hx⟩, fun _ _ => rfl⟩
    · rintro (hk | rfl)
      · exact hk
      · exact (h.known _).2 ⟨id, x, hx, he⟩
    · intro k
      rw [get_putAll]
      split
      · rename_i hk
        exact ((h.of id x hx).2 k (by rw [he, hn]; exact hk)).symm
      · rfl
  unfold insertRoutes
  cases hg : get st.lookup s.name with
  | some id => exact hold _ _ (List.mem_cons_self ..) hg
  | none =>
    dsimp only
    cases hr : routes.findSome? (get st.lookup) with
    | some id =>
      obtain ⟨n, hm, hg⟩ := List.exists_of_findSome?_eq_some hr
      exact hold n id (List.mem_cons_of_mem _ hm) hg
    | none =>
      have hnew : ∀ j t, st.at j = some t → t.name ≠ s.name := by
        intro j t hj e
        obtain ⟨n, hm⟩ := List.exists_mem_of_ne_nil _ (names_ne m.services s.name)
        have h1 := (h.of j t hj).2 n (by rw [e]; exact hm)
        have h2 := List.findSome?_eq_none_iff.1 hr n (hn ▸ hm)
        rw [h1] at h2
        cases h2
      dsimp only
      refine insert_new ht h ho hnew (hl hnew) (hv hnew) ?_
      intro n
      rw [get_putAll, hn]

/-- Something else than the name, the timeout and the configured visibility is changed. -/
theorem change_inv {m : Model} {P K : Nat → Prop} {st : State} (h : Inv m P K st) {st' : State} (f : Nat → Service → Service) (hf : ∀ j, st'.at j = (st.at j).map (f j))
    (hname : ∀ j s, (f j s).name = s.name) (htime : ∀ j s, (f j s).timeout = s.timeout) (hvis : ∀ j s v, s.visibility = some v → (f j s).visibility = some v)
    (hl : st'.lookup = st.lookup) (ht : st'.timeout = st.timeout) (hr : st'.routes = st.routes) : Inv m P K st' := by
  have hsome : ∀ j t, st'.at j = some t → ∃ s, st.at j = some s ∧ t = f j s := by
    intro j t hj
    rw [hf] at hj
    cases hs : st.at j with
    | none => rw [hs] at hj; cases hj
    | some s => rw [hs] at hj; exact ⟨s, rfl, (Option.some.inj hj).symm⟩
  refine ⟨?_, ?_, ?_, ?_, ?_, ht.trans h.global, hr.trans h.routes⟩
  · intro n id hn
    rw [hl] at hn
    obtain ⟨s, hs, hm⟩ := h.to n id hn
    exact ⟨f id s, by rw [hf, hs]; rfl, by rw [hname]; exact hm⟩
  · intro id t hj
    obtain ⟨s, hs, rfl⟩ := hsome id t hj
    rw [hname, hl]
    exact h.of id s hs
  · intro o
    rw [h.known]
    constructor
    · rintro ⟨id, s, hs, e⟩
      exact ⟨id, f id s, by rw [hf, hs]; rfl, by rw [hname]; exact e⟩
    · rintro ⟨id, t, hj, e⟩
      obtain ⟨s, hs, rfl⟩ := hsome id t hj
      exact ⟨id, s, hs, by rw [← hname id s]; exact e⟩
  · intro id t hj
    obtain ⟨s, hs, rfl⟩ := hsome id t hj
    rw [hname, htime]
    exact h.limits id s hs
  · intro id t hj c hc e v hv
    obtain ⟨s, hs, rfl⟩ := hsome id t hj
    rw [hname] at e
    exact hvis id s v (h.shown id s hs c hc e v hv)

theorem change1_inv {m : Model} {P K : Nat → Prop} {st : State} (h : Inv m P K st) (id : Nat) (f : Service → Service) (hname : ∀ s, (f s).name = s.name)
    (htime : ∀ s, (f s).timeout = s.timeout) (hvis : ∀ s v, s.visibility = some v → (f s).visibility = some v) : Inv m P K (st.change id f) := by
  refine change_inv h (fun j s => if j = id then f s else s) ?_ ?_ ?_ ?_ rfl rfl rfl
  · intro j
    rw [at_change]
    split <;> simp
  · intro j s; split
    · exact hname s
    · rfl
  · intro j s; split
    · exact htime s
    · rfl
  · intro j s w hw; split
    · exact hvis s w hw
    · exact hw

/-! ### The routes of a configuration -/

theorem routesOf_fold (cs : List Conf) (acc : List (Nat × List Nat)) (o : Nat) :
    get (cs.foldl (fun m c => if c.routes = [] then m else if m.any (·.1 == c.name) then m else m ++ [(c.name, c.routes)]) acc) o
      = (get acc o).or ((cs.find? fun c => c.name == o && !c.routes.isEmpty).map Conf.routes) := by
  induction cs generalizing acc with
  | nil => simp
  | cons c cs ih =>
    rw [List.foldl_cons, ih, List.find?_cons]
    by_cases h1 : c.routes = []
    · rw [if_pos h1]
      simp [h1]
    · rw [if_neg h1]
      have h1' : c.routes.isEmpty = false := by simpa using h1
      by_cases h2 : acc.any (·.1 == c.name) = true
      · rw [if_pos h2]
        by_cases h3 : c.name = o
        · have : get acc o ≠ none := by
            intro e
            rw [get_none, ← h3, h2] at e
            cases e
          cases hg : get acc o with
          | none => exact absurd hg this
          | some x => simp
        · have h3' : (c.name == o) = false := by simpa using h3
          rw [h3', Bool.false_and]
      · rw [if_neg h2, get_append, get_cons, get_nil]
        by_cases h3 : c.name = o
        · have : get acc o = none := by
            rw [get_none, ← h3]
            exact Bool.eq_false_iff.2 h2
          simp [this, h3, h1']
        · have h3' : (c.name == o) = false := by simpa using h3
          rw [h3', Bool.false_and, if_neg h3, Option.or_none]

/-- With each service once, the routes are those that are configured. -/
theorem routesOf_get {cs : List Conf} (h : (cs.map Conf.name).Nodup) (o : Nat) :
    get (routesOf cs) o = match cs.find? (·.name == o) with | some c => if c.routes = [] then none else some c.routes | none => none := by
  unfold routesOf
  rw [routesOf_fold, get_nil, Option.none_or]
  induction cs with
  | nil => rfl
  | cons c cs ih =>
    rw [List.map_cons, List.nodup_cons] at h
    rw [List.find?_cons, List.find?_cons]
    by_cases h3 : c.name = o
    · have h3' : (c.name == o) = true := by simpa using h3
      simp only [h3', Bool.true_and]
      by_cases h1 : c.routes = []
      · have hnone : cs.find? (fun c => c.name == o && !c.routes.isEmpty) = none := by
          rw [List.find?_eq_none]
          intro x hx e
          have : x.name = o := by
            have := (Bool.and_eq_true_iff.1 e).1
            simpa using this
          exact h.1 (List.mem_map.2 ⟨x, hx, this.trans h3.symm⟩)
        simp [h1, hnone]
      · have h1' : c.routes.isEmpty = false := by simpa using h1
        simp [h1', h1]
    · have h3' : (c.name == o) = false := by simpa using h3
      simp only [h3', Bool.false_and]
      exact ih h.2

theorem find_name {cs : List Conf} (h : (cs.map Conf.name).Nodup) {c : Conf} (hc : c ∈ cs) : cs.find? (·.name == c.name) = some c := by
  induction cs with
  | nil => cases hc
  | cons d cs ih =>
    rw [List.map_cons, List.nodup_cons] at h
    rw [List.find?_cons]
    rcases List.mem_cons.1 hc with rfl | hc
    · simp
    · have : (d.name == c.name) = false := by
        simp only [beq_eq_false_iff_ne]
        intro e
        exact h.1 (List.mem_map.2 ⟨c, hc, e.symm⟩)
      rw [this]
      exact ih h.2 hc

theorem union_limit (m : Model) {c : Conf} (h : m.services.find? (·.name == c.name) = some c) : m.timeout.union c.timeout = limit m c.name := by
  unfold limit Timeout.union
  rw [h]
  dsimp only
  cases c.timeout.duration <;> cases c.timeout.contract <;> rfl

/-- One service of the configuration is added, at boot. -/
theorem add_inv {m : Model} {P K : Nat → Prop} {st : State} (ht : Tidy m P) (h : Inv m P K st) {c : Conf} (hc : c ∈ m.services) (ho : P c.name) :
    Inv m P (fun o => K o ∨ o = c.name) (add st c) := by
  have hf := find_name ht.once hc
  have hlim : st.timeout.union c.timeout = limit m c.name := by rw [h.global]; exact union_limit m hf
  have hvis : ∀ d ∈ m.services, d.name = c.name → ∀ v, d.visibility = some v → c.visibility = some v := by
    intro d hd e v hv
    have := find_name ht.once hd
    rw [e, hf] at this
    rw [Option.some.inj this]; exact hv
  unfold add
  dsimp only
  split
  · rename_i hr
    refine (insert_inv (s := { name := c.name, timeout := st.timeout.union c.timeout, visibility := c.visibility }) ht h ho ?_ (fun _ => hlim) (fun _ => hvis)).1
    unfold names
    rw [hf]
    dsimp only
    rw [if_pos hr]
  · rename_i hr
    refine (insertRoutes_inv (s := { name := c.name, timeout := st.timeout.union c.timeout, visibility := c.visibility }) ht h ho ?_ (fun _ => hlim) (fun _ => hvis)).1
    unfold names
    rw [hf]
    dsimp only
    rw [if_neg hr]

theorem boot_eq (m : Model) : boot m = m.services.foldl add { timeout := m.timeout, routes := routesOf m.services } := by
  have h1 : (Casual.Config.calculate Conf.name [] m.services).removed = [] := rfl
  have h2 : (Casual.Config.calculate Conf.name [] m.services).modified = [] := by
    simp [Casual.Config.calculate, Casual.Config.intersection]
  have h3 : (Casual.Config.calculate Conf.name [] m.services).added = m.services := by
    simp [Casual.Config.calculate, Casual.Config.intersection]
  unfold boot conform
  dsimp only
  rw [h1, h2, h3]
  rfl

theorem boot_inv {m : Model} {P : Nat → Prop} (ht : Tidy m P) (hP : ∀ c ∈ m.services, P c.name) : Inv m P (fun o => ∃ c ∈ m.services, c.name = o) (boot m) := by
  rw [boot_eq]
  have main : ∀ (cs : List Conf) (st : State) (K : Nat → Prop), (∀ c ∈ cs, c ∈ m.services) → Inv m P K st →
      Inv m P (fun o => K o ∨ ∃ c ∈ cs, c.name = o) (cs.foldl add st) := by
    intro cs
    induction cs with
    | nil => intro st K _ h; exact h.weaken fun o => by simp
    | cons c cs ih =>
      intro st K hc h
      have h1 := add_inv ht h (hc c (by simp)) (hP c (hc c (by simp)))
      refine (ih _ _ (fun d hd => hc d (by simp [hd])) h1).weaken fun o => ?_
      simp only [List.mem_cons, exists_eq_or_imp]
      constructor
      · rintro ((h | h) | h)
        · exact .inl h
        · exact .inr (.inl h.symm)
        · exact .inr (.inr h)
      · rintro (h | h | h)
        · exact .inl (.inl h)
        · exact .inl (.inr h.symm)
        · exact .inr h
  have hat : ∀ id : Nat, State.at { timeout := m.timeout, routes := routesOf m.services } id = none := by intro id; rfl
  refine (main m.services { timeout := m.timeout, routes := routesOf m.services } (fun _ => False) (fun _ h => h) ⟨?_, ?_, ?_, ?_, ?_, rfl, rfl⟩).weaken fun o => by simp
  · intro n id h; cases h
  · intro id s h; rw [hat] at h; cases h
  · intro o
    refine ⟨False.elim, ?_⟩
    rintro ⟨id, s, h, _⟩
    rw [hat] at h; cases h
  · intro id s h; rw [hat] at h; cases h
  · intro id s h; rw [hat] at h; cases h

/-- A server advertises a service. -/
theorem advertise_inv {m : Model} {P K : Nat → Prop} {st : State} (ht : Tidy m P) (h : Inv m P K st) (hK : ∀ c ∈ m.services, K c.name) (inst : Nat) {o : Nat} (v : Option Nat) (a : Bool) (ho : P o) :
    Inv m P (fun k => K k ∨ k = o) (advertise st inst o v a) := by
  have hconf : (∀ j t, st.at j = some t → t.name ≠ o) → ∀ c ∈ m.services, c.name ≠ o := by
    intro hnew c hc e
    obtain ⟨id, s, hs, e2⟩ := (h.known _).1 (hK c hc)
    exact hnew id s hs (e2.trans e)
  have hlim : (∀ j t, st.at j = some t → t.name ≠ o) → st.timeout = limit m o := by
    intro hnew
    unfold limit
    have : m.services.find? (·.name == o) = none := by
      rw [List.find?_eq_none]
      intro c hc e
      exact hconf hnew c hc (by simpa using e)
    rw [this, h.global]
  have hroutes := h.routes
  have key : Inv m P (fun k => K k ∨ k = o) (match get st.routes o with
    | some routes => insertRoutes st { name := o, timeout := st.timeout, visibility := v, admin := a } routes
    | none => insert st { name := o, timeout := st.timeout, visibility := v, admin := a }).1 := by
    rw [hroutes, routesOf_get ht.once]
    cases hf : m.services.find? (·.name == o) with
    | none =>
      dsimp only
      refine (insert_inv (s := { name := o, timeout := st.timeout, visibility := v, admin := a }) ht h ho ?_ hlim fun hnew c hc e => absurd e (hconf hnew c hc)).1
      unfold names
      rw [hf]
    | some c =>
      by_cases hr : c.routes = []
      · dsimp only
        rw [if_pos hr]
        refine (insert_inv (s := { name := o, timeout := st.timeout, visibility := v, admin := a }) ht h ho ?_ hlim fun hnew c hc e => absurd e (hconf hnew c hc)).1
        unfold names
        rw [hf]
        dsimp only
        rw [if_pos hr]
      · dsimp only
        rw [if_neg hr]
        refine (insertRoutes_inv (s := { name := o, timeout := st.timeout, visibility := v, admin := a }) ht h ho ?_ hlim fun hnew c hc e => absurd e (hconf hnew c hc)).1
        unfold names
        rw [hf]
        dsimp only
        rw [if_neg hr]
  unfold advertise
  refine change1_inv key _ _ (fun s => rfl) (fun s => rfl) ?_
  intro s w hw
  dsimp only
  rw [hw]
  rfl

theorem run_inv {m : Model} {P : Nat → Prop} (ht : Tidy m P) (es : List Ev) : ∀ (st : State) (K : Nat → Prop), (∀ o ∈ offered es, P o) → (∀ c ∈ m.services, K c.name) → Inv m P K st →
    Inv m P (fun o => K o ∨ o ∈ offered es) (run st es) := by
  induction es with
  | nil => intro st K _ _ h; exact h.weaken fun o => by simp [offered]
  | cons e es ih =>
    intro st K hP hK h
    have hun : ∀ (f : Service → Service), (∀ s, (f s).name = s.name) → (∀ s, (f s).timeout = s.timeout) → (∀ s, (f s).visibility = s.visibility) →
        Inv m P K { st with table := st.table.map (Option.map f) } := by
      intro f h1 h2 h3
      exact change_inv h (fun _ => f) (at_map st f) (fun _ => h1) (fun _ => h2) (fun _ s v hv => (h3 s).trans hv) rfl rfl rfl
    cases e with
    | advertise i n v a =>
      have hn : n ∈ offered (.advertise i n v a :: es) := by simp [offered]
      have h1 := advertise_inv ht h hK i v a (hP n hn)
      refine (ih _ _ (fun o ho => hP o ?_) (fun c hc => .inl (hK c hc)) h1).weaken fun o => ?_
      · simp only [offered, List.filterMap_cons, List.mem_cons]
        exact .inr ho
      · simp only [offered, List.filterMap_cons, List.mem_cons]
        rw [or_assoc]
    | unadvertise i n => exact ih _ _ hP hK (hun _ (fun s => by split <;> rfl) (fun s => by split <;> rfl) (fun s => by split <;> rfl))
    | gone i => exact ih _ _ hP hK (hun _ (fun s => rfl) (fun s => rfl) (fun s => rfl))

theorem all_inv {m : Model} {es : List Ev} (ht : Tidy m (IsKnown m es)) : Inv m (IsKnown m es) (IsKnown m es) (run (boot m) es) :=
  run_inv ht es (boot m) _ (fun _ ho => .inr ho) (fun c hc => ⟨c, hc, rfl⟩) (boot_inv ht fun c hc => .inl ⟨c, hc, rfl⟩)

/-- After boot, whichever servers come and go: a name leads to a service exactly if the service is configured or has been advertised, and the name is one of
its routes; or its own name, if it has no routes. -/
theorem names_partial (m : Model) (es : List Ev) (ht : Tidy m (IsKnown m es)) (n o : Nat) :
    resolve (run (boot m) es) n = some o ↔ IsKnown m es o ∧ n ∈ names m.services o := by
  have h := all_inv ht
  unfold resolve
  rw [h.known]
  constructor
  · intro hr
    cases hg : get (run (boot m) es).lookup n with
    | none => rw [hg] at hr; cases hr
    | some id =>
      obtain ⟨s, hs, hm⟩ := h.to n id hg
      rw [hg] at hr
      simp only [Option.bind_some, hs, Option.map_some] at hr
      have hr := Option.some.inj hr
      exact ⟨⟨id, s, hs, hr⟩, hr ▸ hm⟩
  · rintro ⟨⟨id, s, hs, rfl⟩, hm⟩
    rw [(h.of id s hs).2 n hm]
    simp [hs]

/-- After boot, whichever servers come and go: each service has the timeout and the visibility that are configured for it. -/
theorem limits_partial (m : Model) (es : List Ev) (ht : Tidy m (IsKnown m es)) (s : Service) (hs : some s ∈ (run (boot m) es).table) :
    s.timeout = limit m s.name ∧ ∀ c ∈ m.services, c.name = s.name → ∀ v, c.visibility = some v → s.visibility = some v := by
  have h := all_inv ht
  obtain ⟨id, hi⟩ := mem_table.1 hs
  exact ⟨h.limits id s hi, h.shown id s hi⟩

end Casual.SConf

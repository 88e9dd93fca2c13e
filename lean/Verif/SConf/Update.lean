import Verif.SConf.Props
/-
  Updates of the configuration, and what is told about it.
-/
namespace Casual.SConf

/-! ### What is told -/

/-- The names of what is told come from the routes, or from services that exist. -/
theorem tell1_names {st : State} {X : Nat → Prop} (hX : ∀ id s, st.at id = some s → X s.name) (ids : List Nat) : ∀ cs : List Conf, (∀ c ∈ cs, X c.name) → ∀ c ∈ ids.foldl (tell1 st) cs, X c.name := by
  induction ids with
  | nil => intro cs h; exact h
  | cons id ids ih =>
    intro cs h
    rw [List.foldl_cons]
    refine ih _ ?_
    intro c hc
    unfold tell1 at hc
    split at hc
    · exact h c hc
    · rename_i s hs
      split at hc
      · exact h c hc
      · split at hc
        · exact h c hc
        · split at hc
          · rename_i i hi
            obtain ⟨k, hk⟩ := List.mem_iff_getElem?.1 hc
            rw [List.getElem?_modify] at hk
            cases hx : cs[k]? with
            | none => rw [hx] at hk; cases hk
            | some d =>
              rw [hx] at hk
              have hk := Option.some.inj hk
              have hd := h d (List.mem_of_getElem? hx)
              rw [← hk]
              split <;> exact hd
          · rcases List.mem_append.1 hc with hc | hc
            · exact h c hc
            · rw [List.mem_singleton.1 hc]
              exact hX id s hs

/-- Each service is told once. -/
theorem tell1_once {st : State} (ids : List Nat) : ∀ cs : List Conf, (cs.map Conf.name).Nodup → ((ids.foldl (tell1 st) cs).map Conf.name).Nodup := by
  induction ids with
  | nil => intro cs h; exact h
  | cons id ids ih =>
    intro cs h
    rw [List.foldl_cons]
    refine ih _ ?_
    unfold tell1
    split
    · exact h
    · rename_i s hs
      split
      · exact h
      · split
        · exact h
        · split
          · rename_i i hi
            have : (cs.modify i fun c => { c with timeout := s.timeout }).map Conf.name = cs.map Conf.name := by
              apply List.ext_getElem?
              intro k
              rw [List.getElem?_map, List.getElem?_map, List.getElem?_modify]
              cases cs[k]? with
              | none => rfl
              | some d =>
                show some _ = some _
                split <;> rfl
            rw [this]
            exact h
          · rename_i hn
            rw [List.map_append, List.nodup_append]
            refine ⟨h, by simp, ?_⟩
            intro a ha b hb e
            have hb : b = s.name := by simpa using hb
            obtain ⟨c, hc, rfl⟩ := List.mem_map.1 ha
            rw [List.findIdx?_eq_none_iff] at hn
            have := hn c hc
            simp only [beq_eq_false_iff_ne] at this
            exact this (e.trans hb)

theorem routesOf_once (cs : List Conf) : ∀ acc : List (Nat × List Nat), (acc.map (·.1)).Nodup →
    ((cs.foldl (fun m c => if c.routes = [] then m else if m.any (·.1 == c.name) then m else m ++ [(c.name, c.routes)]) acc).map (·.1)).Nodup := by
  induction cs with
  | nil => intro acc h; exact h
  | cons c cs ih =>
    intro acc h
    rw [List.foldl_cons]
    refine ih _ ?_
    split
    · exact h
    · split
      · exact h
      · rename_i hn
        rw [List.map_append, List.nodup_append]
        refine ⟨h, by simp, ?_⟩
        intro a ha b hb e
        have hb : b = c.name := by simpa using hb
        obtain ⟨p, hp, rfl⟩ := List.mem_map.1 ha
        exact hn (List.any_eq_true.2 ⟨p, hp, by simpa using e.trans hb⟩)

theorem get_mem {α} {m : List (Nat × α)} {p : Nat × α} (h : p ∈ m) : get m p.1 ≠ none := by
  rw [Ne, get_none]
  intro e
  rw [List.any_eq_false] at e
  exact e p h (by simp)

/-! ### An update is answered -/

/-- There is a service with this name. -/
def Has (st : State) (o : Nat) : Prop := ∃ id s, st.at id = some s ∧ s.name = o

theorem origin_has {st : State} {o : Nat} (h : Has st o) : ∃ id s, origin st o = some id ∧ st.at id = some s ∧ s.name = o := by
  cases ho : origin st o with
  | none =>
    obtain ⟨id, s, hs, e⟩ := h
    exact absurd e (origin_none ho id s hs)
  | some id =>
    obtain ⟨s, hs, e⟩ := origin_some ho
    exact ⟨id, s, rfl, hs, e⟩

theorem at_erase (st : State) (id j : Nat) (h : j ≠ id) : (erase st id).at j = st.at j := by
  unfold erase State.at
  dsimp only
  rw [List.getElem?_set_ne (fun e => h e.symm)]

theorem remove_has {st : State} {c : Conf} (h : Has st c.name) : ∃ st', remove st c = some st' ∧ ∀ o, o ≠ c.name → Has st o → Has st' o := by
  obtain ⟨id, s, h1, h2, h3⟩ := origin_has h
  unfold remove
  rw [h1]
  dsimp only
  rw [h2]
  dsimp only
  have hne : ∀ o, o ≠ c.name → ∀ j t, st.at j = some t → t.name = o → j ≠ id := by
    intro o ho j t ht e hj
    rw [hj, h2] at ht
    exact ho (by rw [← e, ← Option.some.inj ht, h3])
  split
  · refine ⟨_, rfl, ?_⟩
    rintro o ho ⟨j, t, ht, e⟩
    exact ⟨j, t, (at_erase st id j (hne o ho j t ht e)).trans ht, e⟩
  · refine ⟨_, rfl, ?_⟩
    rintro o ho ⟨j, t, ht, e⟩
    refine ⟨j, t, ?_, e⟩
    show (st.change id _).at j = some t
    rw [at_change, if_neg (hne o ho j t ht e)]
    exact ht

theorem change_has {st : State} {id : Nat} {f : Service → Service} (hf : ∀ s, (f s).name = s.name) {o : Nat} (h : Has st o) : Has (st.change id f) o := by
  obtain ⟨j, t, ht, e⟩ := h
  by_cases hj : j = id
  · exact ⟨j, f t, by rw [at_change, if_pos hj, ht]; rfl, (hf t).trans e⟩
  · exact ⟨j, t, by rw [at_change, if_neg hj, ht], e⟩

theorem modify_has {st : State} {c : Conf} (h : Has st c.name) : ∃ st', modify st c = some st' ∧ ∀ o, Has st o → Has st' o := by
  obtain ⟨id, s, h1, h2, h3⟩ := origin_has h
  unfold modify
  rw [h1]
  dsimp only
  refine ⟨_, rfl, fun o ho => ?_⟩
  have : Has (st.change id fun s => { s with timeout := c.timeout, visibility := c.visibility }) o :=
    change_has (f := fun s => { s with timeout := c.timeout, visibility := c.visibility }) (fun _ => rfl) ho
  split
  · exact this
  · exact this

theorem table_has (st : State) (s : Service) (l : List (Nat × Nat)) {o : Nat} (h : Has st o) : Has { st with table := (insertTable st.table s).1, lookup := l } o := by
  obtain ⟨_, a2, a3⟩ := at_insert st s l
  obtain ⟨j, t, ht, e⟩ := h
  have : j ≠ (insertTable st.table s).2 := by
    intro hj
    rw [hj, a2] at ht
    cases ht
  exact ⟨j, t, (a3 j this).trans ht, e⟩

theorem add_has {st : State} {c : Conf} {o : Nat} (h : Has st o) : Has (add st c) o := by
  unfold add
  dsimp only
  split
  · unfold insert
    split
    · exact h
    · exact table_has _ _ _ h
  · unfold insertRoutes
    split
    · exact h
    · split
      · exact h
      · exact table_has _ _ _ h

theorem adds_has (cs : List Conf) {o : Nat} : ∀ {st : State}, Has st o → Has (cs.foldl add st) o := by
  induction cs with
  | nil => intro st h; exact h
  | cons c cs ih => intro st h; exact ih (add_has h)

theorem removes_has (cs : List Conf) : ∀ (st : State), (cs.map Conf.name).Nodup → (∀ c ∈ cs, Has st c.name) →
    ∃ st', each remove cs st = (st', true) ∧ ∀ o, (∀ c ∈ cs, c.name ≠ o) → Has st o → Has st' o := by
  induction cs with
  | nil => intro st _ _; exact ⟨st, rfl, fun _ _ h => h⟩
  | cons c cs ih =>
    intro st hn h
    rw [List.map_cons, List.nodup_cons] at hn
    obtain ⟨s1, h1, h2⟩ := remove_has (h c (by simp))
    obtain ⟨s2, h3, h4⟩ := ih s1 hn.2 fun d hd => h2 d.name (fun e => hn.1 (List.mem_map.2 ⟨d, hd, e⟩)) (h d (by simp [hd]))
    refine ⟨s2, ?_, fun o ho hh => h4 o (fun d hd => ho d (by simp [hd])) (h2 o (fun e => ho c (by simp) e.symm) hh)⟩
    unfold each
    rw [h1]
    exact h3

theorem modifies_has (cs : List Conf) : ∀ (st : State), (∀ c ∈ cs, Has st c.name) → (each modify cs st).2 = true := by
  induction cs with
  | nil => intro st _; rfl
  | cons c cs ih =>
    intro st h
    obtain ⟨s1, h1, h2⟩ := modify_has (h c (by simp))
    unfold each
    rw [h1]
    exact ih s1 fun d hd => h2 _ (h d (by simp [hd]))

/-- What is told when all that has routes exists. -/
theorem tell_has {st : State} (h : ∀ p ∈ st.routes, Has st p.1) : ∀ c ∈ (tell st).services, Has st c.name := by
  refine tell1_names (X := Has st) (fun id s hs => ⟨id, s, hs, rfl⟩) _ _ ?_
  intro c hc
  obtain ⟨p, hp, rfl⟩ := List.mem_map.1 hc
  exact h p hp

theorem tell_once {st : State} (h : (st.routes.map (·.1)).Nodup) : ((tell st).services.map Conf.name).Nodup := by
  refine tell1_once _ _ ?_
  rw [List.map_map]
  exact h

/-- An update is answered, if all services with routes exist. -/
theorem update_answered {st : State} (h : ∀ p ∈ st.routes, Has st p.1) (hn : (st.routes.map (·.1)).Nodup) (m : Model) : (update st m).2 = true := by
  unfold update conform
  dsimp only
  have hcur := tell_has h
  have honce := tell_once hn
  generalize (tell st).services = current at hcur honce
  have hrem : ∀ c ∈ (Casual.Config.calculate Conf.name current m.services).removed, c ∈ current ∧ ∀ d ∈ m.services, c.name ≠ d.name := by
    intro c hc
    unfold Casual.Config.calculate Casual.Config.intersection at hc
    dsimp only at hc
    obtain ⟨h1, h2⟩ := List.mem_filter.1 hc
    refine ⟨h1, fun d hd e => ?_⟩
    simp only [Bool.not_eq_true', List.any_eq_false, decide_eq_true_eq] at h2
    exact h2 d hd e
  have hmod : ∀ c ∈ (Casual.Config.calculate Conf.name current m.services).modified, c ∈ m.services ∧ ∃ d ∈ current, c.name = d.name := by
    intro c hc
    unfold Casual.Config.calculate Casual.Config.intersection at hc
    dsimp only at hc
    obtain ⟨h1, h2⟩ := List.mem_filter.1 hc
    refine ⟨(List.mem_filter.1 h1).1, ?_⟩
    obtain ⟨d, hd, e⟩ := List.any_eq_true.1 h2
    exact ⟨d, hd, by simpa using e⟩
  have hsub : ((Casual.Config.calculate Conf.name current m.services).removed.map Conf.name).Nodup := by
    refine honce.sublist (List.Sublist.map _ ?_)
    unfold Casual.Config.calculate Casual.Config.intersection
    exact List.filter_sublist
  obtain ⟨s2, h3, h4⟩ := removes_has _ { st with timeout := m.timeout, routes := routesOf m.services } hsub fun c hc => hcur c (hrem c hc).1
  rw [h3]
  dsimp only
  refine modifies_has _ _ ?_
  intro c hc
  obtain ⟨hm, d, hd, e⟩ := hmod c hc
  refine adds_has _ (h4 _ ?_ ?_)
  · intro r hr e2
    exact (hrem r hr).2 c hm e2
  · rw [e]
    exact hcur d hd

/-- After boot, whichever servers come and go, an update to any configuration is answered. -/
theorem answered_partial (m : Model) (es : List Ev) (ht : Tidy m (IsKnown m es)) (m' : Model) : (update (run (boot m) es) m').2 = true := by
  have h := all_inv ht
  refine update_answered ?_ ?_ m'
  · rw [h.routes]
    intro p hp
    have h1 := get_mem hp
    rw [routesOf_get ht.once] at h1
    refine (h.known _).1 (.inl ?_)
    cases hf : m.services.find? (·.name == p.1) with
    | none => rw [hf] at h1; exact absurd rfl h1
    | some c => exact ⟨c, List.mem_of_find?_eq_some hf, by simpa using List.find?_some hf⟩
  · rw [h.routes]
    exact routesOf_once _ [] List.nodup_nil

/-! ### What has changed takes effect -/

/-- The service is here, and nowhere else. -/
def Here (st : State) (o id : Nat) (s : Service) : Prop := st.at id = some s ∧ s.name = o ∧ ∀ j t, st.at j = some t → t.name = o → j = id

theorem here_change {st : State} {o id k : Nat} {s : Service} (h : Here st o id s) (hk : k ≠ id) {f : Service → Service} (hf : ∀ s, (f s).name = s.name) : Here (st.change k f) o id s := by
  refine ⟨by rw [at_change, if_neg (fun e => hk e.symm)]; exact h.1, h.2.1, ?_⟩
  intro j t hj e
  rw [at_change] at hj
  split at hj
  · cases hx : st.at j with
    | none => rw [hx] at hj; cases hj
    | some x =>
      rw [hx] at hj
      have := Option.some.inj hj
      exact h.2.2 j x hx (by rw [← hf x, this]; exact e)
  · exact h.2.2 j t hj e

theorem remove_here {st st' : State} {c : Conf} {o id : Nat} {s : Service} (h : Here st o id s) (hne : c.name ≠ o) (hr : remove st c = some st') : Here st' o id s := by
  unfold remove at hr
  cases ho : origin st c.name with
  | none => rw [ho] at hr; cases hr
  | some k =>
    rw [ho] at hr
    obtain ⟨x, hx, e⟩ := origin_some ho
    have hk : k ≠ id := by
      intro ek
      rw [ek, h.1] at hx
      exact hne (by rw [← e, ← Option.some.inj hx, h.2.1])
    dsimp only at hr
    rw [hx] at hr
    dsimp only at hr
    split at hr
    · rw [← Option.some.inj hr]
      refine ⟨(at_erase st k id (fun e => hk e.symm)).trans h.1, h.2.1, ?_⟩
      intro j t hj e2
      by_cases hjk : j = k
      · rw [hjk] at hj
        unfold erase State.at at hj
        dsimp only at hj
        have hl : k < st.table.length := by
          unfold State.at at hx
          by_cases hl : k < st.table.length
          · exact hl
          · rw [List.getElem?_eq_none (by omega)] at hx; cases hx
        rw [List.getElem?_set_self hl] at hj
        cases hj
      · exact h.2.2 j t ((at_erase st k j hjk).symm.trans hj) e2
    · rw [← Option.some.inj hr]
      exact here_change h hk (fun _ => rfl)

theorem insert_here {st : State} {o id : Nat} {s x : Service} (h : Here st o id s) (hne : x.name ≠ o) (l : List (Nat × Nat)) :
    Here { st with table := (insertTable st.table x).1, lookup := l } o id s := by
  obtain ⟨a1, a2, a3⟩ := at_insert st x l
  have hk : id ≠ (insertTable st.table x).2 := by
    intro e
    have := h.1
    rw [e, a2] at this
    cases this
  refine ⟨(a3 id hk).trans h.1, h.2.1, ?_⟩
  intro j t hj e
  by_cases hjk : j = (insertTable st.table x).2
  · rw [hjk, a1] at hj
    exact absurd (by rw [Option.some.inj hj]; exact e) hne
  · exact h.2.2 j t ((a3 j hjk).symm.trans hj) e

theorem add_here {st : State} {c : Conf} {o id : Nat} {s : Service} (h : Here st o id s) (hne : c.name ≠ o) : Here (add st c) o id s := by
  unfold add
  dsimp only
  split
  · unfold insert
    split
    · exact h
    · exact insert_here h hne _
  · unfold insertRoutes
    split
    · exact h
    · split
      · exact h
      · exact insert_here h hne _

theorem modify_other {st st' : State} {c : Conf} {o id : Nat} {s : Service} (h : Here st o id s) (hne : c.name ≠ o) (hr : modify st c = some st') :
    Here st' o id s ∧ ∀ n, n ∉ c.name :: c.routes → get st.lookup n = some id → get st'.lookup n = some id := by
  unfold modify at hr
  cases ho : origin st c.name with
  | none => rw [ho] at hr; cases hr
  | some k =>
    rw [ho] at hr
    obtain ⟨x, hx, e⟩ := origin_some ho
    have hk : k ≠ id := by
      intro ek
      rw [ek, h.1] at hx
      exact hne (by rw [← e, ← Option.some.inj hx, h.2.1])
    have h2 : Here (st.change k fun s => { s with timeout := c.timeout, visibility := c.visibility }) o id s := here_change h hk (fun _ => rfl)
    rw [← Option.some.inj hr]
    split
    · refine ⟨h2, fun n hn hg => ?_⟩
      show get (put (unname st.lookup k) c.name k) n = some id
      rw [get_put, if_neg (fun e => hn (by simp [e]))]
      exact get_unname hg (fun e => hk e.symm)
    · refine ⟨h2, fun n hn hg => ?_⟩
      show get (putAll (unname st.lookup k) c.routes k) n = some id
      rw [get_putAll, if_neg (fun e => hn (by simp [e]))]
      exact get_unname hg (fun e => hk e.symm)

theorem modify_this {st st' : State} {c : Conf} {id : Nat} {s : Service} (h : Here st c.name id s) (hr : modify st c = some st') :
    Here st' c.name id { s with timeout := c.timeout, visibility := c.visibility } ∧ ∀ n, n ∈ (if c.routes = [] then [c.name] else c.routes) → get st'.lookup n = some id := by
  unfold modify at hr
  cases ho : origin st c.name with
  | none => rw [ho] at hr; cases hr
  | some k =>
    rw [ho] at hr
    obtain ⟨x, hx, e⟩ := origin_some ho
    have hk : k = id := h.2.2 k x hx e
    subst hk
    have h2 : Here (st.change k fun s => { s with timeout := c.timeout, visibility := c.visibility }) c.name k { s with timeout := c.timeout, visibility := c.visibility } := by
      refine ⟨by rw [at_change, if_pos rfl, h.1]; rfl, h.2.1, ?_⟩
      intro j t hj e
      rw [at_change] at hj
      split at hj
      · assumption
      · exact h.2.2 j t hj e
    rw [← Option.some.inj hr]
    split
    · refine ⟨h2, fun n hn => ?_⟩
      show get (put (unname st.lookup k) c.name k) n = some k
      rw [get_put, if_pos (List.mem_singleton.1 hn)]
    · refine ⟨h2, fun n hn => ?_⟩
      show get (putAll (unname st.lookup k) c.routes k) n = some k
      rw [get_putAll, if_pos hn]

theorem removes_here (cs : List Conf) {o id : Nat} {s : Service} : ∀ {st st' : State}, Here st o id s → (∀ c ∈ cs, c.name ≠ o) → each remove cs st = (st', true) → Here st' o id s := by
  induction cs with
  | nil => intro st st' h _ he; cases he; exact h
  | cons c cs ih =>
    intro st st' h hc he
    unfold each at he
    cases hr : remove st c with
    | none => rw [hr] at he; cases he
    | some s1 =>
      rw [hr] at he
      exact ih (remove_here h (hc c (by simp)) hr) (fun d hd => hc d (by simp [hd])) he

theorem adds_here (cs : List Conf) {o id : Nat} {s : Service} : ∀ {st : State}, Here st o id s → (∀ c ∈ cs, c.name ≠ o) → Here (cs.foldl add st) o id s := by
  induction cs with
  | nil => intro st h _; exact h
  | cons c cs ih => intro st h hc; exact ih (add_here h (hc c (by simp))) fun d hd => hc d (by simp [hd])

theorem modifies_other (cs : List Conf) {o id : Nat} {s : Service} {ns : List Nat} : ∀ {st st' : State}, Here st o id s → (∀ c ∈ cs, c.name ≠ o ∧ ∀ n ∈ ns, n ∉ c.name :: c.routes) →
    each modify cs st = (st', true) → Here st' o id s ∧ ∀ n ∈ ns, get st.lookup n = some id → get st'.lookup n = some id := by
  induction cs with
  | nil => intro st st' h _ he; cases he; exact ⟨h, fun _ _ h => h⟩
  | cons c cs ih =>
    intro st st' h hc he
    unfold each at he
    cases hr : modify st c with
    | none => rw [hr] at he; cases he
    | some s1 =>
      rw [hr] at he
      obtain ⟨h1, h2⟩ := hc c (by simp)
      obtain ⟨h3, h4⟩ := modify_other h h1 hr
      obtain ⟨h5, h6⟩ := ih h3 (fun d hd => hc d (by simp [hd])) he
      exact ⟨h5, fun n hn hg => h6 n hn (h4 n (h2 n hn) hg)⟩

theorem modifies_this (cs : List Conf) {c : Conf} {id : Nat} {s : Service} (hm : c ∈ cs) (hn : (cs.map Conf.name).Nodup)
    (hd : ∀ d ∈ cs, d.name ≠ c.name → ∀ n ∈ (if c.routes = [] then [c.name] else c.routes), n ∉ d.name :: d.routes) : ∀ {st st' : State}, Here st c.name id s → each modify cs st = (st', true) →
    Here st' c.name id { s with timeout := c.timeout, visibility := c.visibility } ∧ ∀ n ∈ (if c.routes = [] then [c.name] else c.routes), get st'.lookup n = some id := by
  induction cs with
  | nil => cases hm
  | cons d cs ih =>
    intro st st' h he
    rw [List.map_cons, List.nodup_cons] at hn
    unfold each at he
    cases hr : modify st d with
    | none => rw [hr] at he; cases he
    | some s1 =>
      rw [hr] at he
      have hdn : ∀ e ∈ cs, e.name ≠ d.name := fun e he2 e3 => hn.1 (List.mem_map.2 ⟨e, he2, e3⟩)
      rcases List.mem_cons.1 hm with rfl | hm
      · obtain ⟨h1, h2⟩ := modify_this h hr
        obtain ⟨h3, h4⟩ := modifies_other cs h1 (fun e he2 => ⟨hdn e he2, hd e (by simp [he2]) (hdn e he2)⟩) he
        exact ⟨h3, fun n hn2 => h4 n hn2 (h2 n hn2)⟩
      · exact ih hm hn.2 (fun e he2 => hd e (by simp [he2])) (modify_other h (fun e => hdn c hm e.symm) hr).1 he

/-- A service that is told, and that is told differently from what is wanted, is as wanted after an update that is answered: its timeout (without what is configured for
all), its visibility, and the names that lead to it, if no other service that is wanted has them. -/
theorem update_modified_partial (st : State) (m : Model) (hn : (m.services.map Conf.name).Nodup) (c : Conf) (hc : c ∈ m.services) (id : Nat) (s : Service) (hs : Here st c.name id s)
    (htold : ∃ d ∈ (tell st).services, d.name = c.name) (hdiff : c ∉ (tell st).services)
    (hnames : ∀ d ∈ m.services, d.name ≠ c.name → ∀ n ∈ (if c.routes = [] then [c.name] else c.routes), n ∉ d.name :: d.routes) (ha : (update st m).2 = true) :
    ∃ t, some t ∈ (update st m).1.table ∧ t.name = c.name ∧ t.timeout = c.timeout ∧ t.visibility = c.visibility ∧ t.instances = s.instances
      ∧ ∀ n ∈ (if c.routes = [] then [c.name] else c.routes), resolve (update st m).1 n = some c.name := by
  unfold update conform at ha ⊢
  dsimp only at ha ⊢
  generalize (tell st).services = current at htold hdiff ha ⊢
  have hmod : c ∈ (Casual.Config.calculate Conf.name current m.services).modified := by
    unfold Casual.Config.calculate Casual.Config.intersection
    dsimp only
    rw [List.mem_filter, List.mem_filter]
    obtain ⟨d, hd, e⟩ := htold
    refine ⟨⟨hc, ?_⟩, ?_⟩
    · simp only [Bool.not_eq_true', List.any_eq_false, decide_eq_true_eq]
      intro x hx e
      exact hdiff (e ▸ hx)
    · exact List.any_eq_true.2 ⟨d, hd, by simpa using e.symm⟩
  have hrem : ∀ d ∈ (Casual.Config.calculate Conf.name current m.services).removed, d.name ≠ c.name := by
    intro d hd e
    unfold Casual.Config.calculate Casual.Config.intersection at hd
    dsimp only at hd
    have h2 := (List.mem_filter.1 hd).2
    simp only [Bool.not_eq_true', List.any_eq_false, decide_eq_true_eq] at h2
    exact h2 c hc e
  have hadd : ∀ d ∈ (Casual.Config.calculate Conf.name current m.services).added, d.name ≠ c.name := by
    intro d hd e
    unfold Casual.Config.calculate Casual.Config.intersection at hd
    dsimp only at hd
    have h2 := (List.mem_filter.1 hd).2
    simp only [Bool.not_eq_true', List.any_eq_false, decide_eq_true_eq] at h2
    obtain ⟨x, hx, e2⟩ := htold
    exact h2 x hx (e.trans e2.symm)
  have hsub : List.Sublist (Casual.Config.calculate Conf.name current m.services).modified m.services := by
    unfold Casual.Config.calculate Casual.Config.intersection
    exact List.filter_sublist.trans List.filter_sublist
  have hs0 : Here { st with timeout := m.timeout, routes := routesOf m.services } c.name id s := hs
  cases h1 : each remove (Casual.Config.calculate Conf.name current m.services).removed { st with timeout := m.timeout, routes := routesOf m.services } with
  | mk s1 b =>
    rw [h1] at ha
    cases b with
    | false => cases ha
    | true =>
      dsimp only at ha ⊢
      have h2 := adds_here _ (removes_here _ hs0 hrem h1) hadd
      cases h3 : each modify (Casual.Config.calculate Conf.name current m.services).modified ((Casual.Config.calculate Conf.name current m.services).added.foldl add s1) with
      | mk s2 b =>
        rw [h3] at ha
        have hb : b = true := ha
        subst hb
        obtain ⟨h4, h5⟩ := modifies_this _ hmod (hn.sublist (List.Sublist.map _ hsub)) (fun d hd => hnames d (hsub.subset hd)) h2 h3
        refine ⟨_, mem_table.2 ⟨id, h4.1⟩, h4.2.1, rfl, rfl, rfl, fun n hn2 => ?_⟩
        unfold resolve
        dsimp only
        rw [h5 n hn2]
        simp only [Option.bind_some, h4.1, Option.map_some]
        exact congrArg some h4.2.1

/-- The routes that are told after an update are those that were posted, however it ends. -/
theorem routes_told (st : State) (m : Model) (hn : (m.services.map Conf.name).Nodup) (o : Nat) :
    get (update st m).1.routes o = match m.services.find? (·.name == o) with | some c => if c.routes = [] then none else some c.routes | none => none := by
  have hrem : ∀ (cs : List Conf) (st : State), (each remove cs st).1.routes = st.routes := by
    intro cs
    induction cs with
    | nil => intro st; rfl
    | cons c cs ih =>
      intro st
      unfold each
      split
      · rfl
      · rename_i s1 hr
        rw [ih]
        unfold remove at hr
        split at hr
        · cases hr
        · split at hr
          · cases hr
          · split at hr
            · rw [← Option.some.inj hr]; rfl
            · rw [← Option.some.inj hr]; rfl
  have hadd : ∀ (cs : List Conf) (st : State), (cs.foldl add st).routes = st.routes := by
    intro cs
    induction cs with
    | nil => intro st; rfl
    | cons c cs ih =>
      intro st
      rw [List.foldl_cons, ih]
      unfold add
      dsimp only
      split
      · unfold insert; split <;> rfl
      · unfold insertRoutes
        split
        · rfl
        · split <;> rfl
  have hmod : ∀ (cs : List Conf) (st : State), (each modify cs st).1.routes = st.routes := by
    intro cs
    induction cs with
    | nil => intro st; rfl
    | cons c cs ih =>
      intro st
      unfold each
      split
      · rfl
      · rename_i s1 hr
        rw [ih]
        unfold modify at hr
        split at hr
        · cases hr
        · rw [← Option.some.inj hr]
          split <;> rfl
  have : (update st m).1.routes = routesOf m.services := by
    unfold update conform
    dsimp only
    have h1 := hrem (Casual.Config.calculate Conf.name (tell st).services m.services).removed { st with timeout := m.timeout, routes := routesOf m.services }
    split
    · rename_i h; rw [h] at h1; exact h1
    · rename_i h
      rw [h] at h1
      rw [hmod, hadd]
      exact h1
  rw [this, routesOf_get hn]
  cases m.services.find? (·.name == o) <;> rfl

/-! ### Examples, and what is not so -/

/-- A configuration: a service with a route, one without, and a timeout for all. -/
def someModel : Model := { timeout := { duration := some 30 }, services := [{ name := 1, routes := [2, 3], visibility := some 1 }, { name := 5, timeout := { duration := some 10 } }] }

/-- The hypotheses are met. -/
example : Tidy someModel (IsKnown someModel [.advertise 9 1 none false, .advertise 8 7 none false]) ∧ resolve (run (boot someModel) [.advertise 9 1 none false, .advertise 8 7 none false]) 3 = some 1 := by
  refine ⟨⟨by decide, ?_⟩, by decide⟩
  have hk : ∀ o, IsKnown someModel [.advertise 9 1 none false, .advertise 8 7 none false] o → o = 1 ∨ o = 5 ∨ o = 7 := by
    rintro o (⟨c, hc, rfl⟩ | h)
    · simp only [someModel, List.mem_cons, List.not_mem_nil, or_false] at hc
      rcases hc with rfl | rfl <;> simp
    · simp only [offered, List.filterMap_cons, List.filterMap_nil, List.mem_cons, List.not_mem_nil, or_false] at h
      rcases h with rfl | rfl <;> simp
  intro o o' ho ho'
  rcases hk o ho with rfl | rfl | rfl <;> rcases hk o' ho' with rfl | rfl | rfl <;> decide

/-- The hypotheses of `update_modified_partial` are met: the timeout of a service, and its routes, are changed. -/
example : (update (boot someModel) { services := [{ name := 1, routes := [2, 4], timeout := { duration := some 7 } }] }).2 = true
    ∧ resolve (update (boot someModel) { services := [{ name := 1, routes := [2, 4], timeout := { duration := some 7 } }] }).1 4 = some 1
    ∧ Here (boot someModel) 1 0 { name := 1, timeout := { duration := some 30 }, visibility := some 1 }
    ∧ (tell (boot someModel)).services = [{ name := 1, routes := [2, 3], timeout := { duration := some 30 } }, { name := 5, timeout := { duration := some 10 } }] := by
  refine ⟨by decide, by decide, ⟨by decide, by decide, ?_⟩, by decide⟩
  intro j t hj e
  have hb : (boot someModel).table = [some { name := 1, timeout := { duration := some 30 }, visibility := some 1 }, some { name := 5, timeout := { duration := some 10 } }] := by decide
  unfold State.at at hj
  rw [hb] at hj
  match j, hj with
  | 0, _ => rfl
  | 1, hj =>
    have := Option.some.inj hj
    rw [← this] at e
    cases e
  | j + 2, hj => simp at hj

/-- Routes from the name of a service that has routes itself: calls to 2 go to 1, and calls to 3 should go to 2. But they go to 1, and there is no service 2. -/
theorem chain_refuted : resolve (boot { services := [{ name := 1, routes := [2] }, { name := 2, routes := [3] }] }) 3 = some 1 := by decide

/-- A service that is there already, without timeout, does not get the one that is posted. -/
theorem update_timeout_refuted :
    (update (run (boot {}) [.advertise 9 1 none false]) { services := [{ name := 1, timeout := { duration := some 5 } }] }) =
      ({ table := [some { name := 1, instances := [9], timeout := {} }], lookup := [(1, 0)] }, true) := by decide

/-- The same configuration is posted again: the service with routes had the timeout that is configured for all, and now it has none. -/
theorem same_again_refuted :
    (boot { timeout := { duration := some 30 }, services := [{ name := 1, routes := [2] }] }).table = [some { name := 1, timeout := { duration := some 30 } }]
    ∧ (update (boot { timeout := { duration := some 30 }, services := [{ name := 1, routes := [2] }] }) { timeout := { duration := some 30 }, services := [{ name := 1, routes := [2] }] }).1.table
      = [some { name := 1, timeout := {} }] := by decide

/-- The same for a service that is not configured: it had the timeout that is configured for all, and now it has none. -/
theorem unconfigured_refuted :
    (run (boot { timeout := { duration := some 30 } }) [.advertise 9 1 none false]).table = [some { name := 1, instances := [9], timeout := { duration := some 30 } }]
    ∧ (update (run (boot { timeout := { duration := some 30 } }) [.advertise 9 1 none false]) { timeout := { duration := some 30 } }).1.table = [some { name := 1, instances := [9], timeout := {} }] := by decide

/-- A route is moved to a new service: it leads nowhere, and the new service, with its timeout, is lost. -/
theorem moved_route_refuted :
    resolve (update (boot { services := [{ name := 1, routes := [2, 3] }] }) { services := [{ name := 1, routes := [2] }, { name := 4, routes := [3], timeout := { duration := some 5 } }] }).1 3 = none
    ∧ (update (boot { services := [{ name := 1, routes := [2, 3] }] }) { services := [{ name := 1, routes := [2] }, { name := 4, routes := [3], timeout := { duration := some 5 } }] }).1.table
      = [some { name := 1 }] := by decide

/-- The name of another service is used as a route: when that is taken away the update fails, and there is no reply. -/
theorem update_stuck_refuted : (update (boot { services := [{ name := 1 }, { name := 2, routes := [1] }] }) { services := [{ name := 1 }] }).2 = false := by decide

/-- Services without routes and timeouts are not told, visibility is not, and what is configured for all is told for each. -/
theorem told_refuted :
    tell (boot { timeout := { duration := some 30 }, services := [{ name := 1, routes := [2], visibility := some 1 }] })
      = { timeout := { duration := some 30 }, services := [{ name := 1, routes := [2], timeout := { duration := some 30 } }] }
    ∧ tell (boot { services := [{ name := 1, visibility := some 1 }] }) = {} := by decide

end Casual.SConf

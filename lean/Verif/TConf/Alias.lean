import Verif.TConf.Scaled
/-
  Servers get the resources of their alias, as long as no resource is taken away.
-/
namespace Casual.TConf
open Casual.Task

/-! ### Specification -/

/-- No resource is taken away. -/
def keeps (c : Mgr) : Ev → Prop
  | .update _ m => ∀ p ∈ c.st.proxies, ∃ r ∈ m.resources, r.name = p.conf.name
  | .shutdown => False
  | _ => True

/-- All events are such. -/
def Keeps : Mgr → List Ev → Prop
  | _, [] => True
  | c, e :: es => keeps c e ∧ Keeps (step c e) es

/-! ### Proof -/

/-- The resources that are mapped are there. -/
def Mapped (st : State) (_ : List Act) : Prop := ∀ a ∈ st.alias, ∀ id ∈ a.2, id ∈ st.proxies.map (·.id)

/-- Not a removal. -/
def Act.stays : Act → Prop
  | .remove _ => False
  | _ => True

/-- The mappings are as before, and no resource is gone. -/
def Grown (a b : State) : Prop := b.alias = a.alias ∧ ∀ id ∈ a.proxies.map (·.id), id ∈ b.proxies.map (·.id)

theorem Grown.refl (a : State) : Grown a a := ⟨rfl, fun _ h => h⟩

theorem Grown.trans {a b c : State} (h1 : Grown a b) (h2 : Grown b c) : Grown a c := ⟨h2.1.trans h1.1, fun _ h => h2.2 _ (h1.2 _ h)⟩

theorem Mapped.grown {a b : State} {W W' : List Act} (h : Mapped a W) (hg : Grown a b) : Mapped b W' := fun x hx id hid => hg.2 id (h x (hg.1 ▸ hx) id hid)

theorem change_grown {st : State} (id : Nat) {f : Proxy → Proxy} (hf : ∀ p, (f p).id = p.id) : Grown st (st.change id f) := ⟨rfl, fun x hx => by rw [change_ids id hf]; exact hx⟩

theorem stop_grown (st : State) (id pid : Nat) : Grown st (stop st id pid) := by
  unfold stop
  exact ⟨rfl, (change_grown (f := fun p => { p with insts := p.insts.map fun i => if i.pid = pid then i.set .shutdown else i }) id fun _ => rfl).2⟩

theorem stops_grown (id : Nat) : ∀ (pids : List Nat) (st : State), Grown st (pids.foldl (fun st pid => stop st id pid) st) := by
  intro pids
  induction pids with
  | nil => intro st; exact .refl st
  | cons pid pids ih => intro st; exact (stop_grown st id pid).trans (ih _)

theorem spawn_grown (st : State) (p : Proxy) : Grown st (spawn st p).1 := by
  have h := spawn_spec st p
  exact ⟨h.2.2.2.2.2.1, fun id hid => by rw [h.1]; exact hid⟩

theorem spawns_grown (p : Proxy) (n : Nat) (st : State) : Grown st (spawns p n st).1 := by
  have h := spawns_spec p n st
  exact ⟨h.2.2.2.2.2.1, fun id hid => by rw [h.1]; exact hid⟩

theorem scaleIn_grown (id : Nat) (b : Body) (st : State) : Grown st (scaleIn id b st).1 := by
  unfold scaleIn
  split
  · exact .refl st
  · dsimp only
    split
    · exact change_grown id fun _ => rfl
    · exact (change_grown (f := Proxy.partitioned) id fun _ => rfl).trans (stops_grown id _ _)

theorem scaleOut_grown (id : Nat) (b : Body) (st : State) : Grown st (scaleOut id b st).1 := by
  unfold scaleOut
  split
  · exact .refl st
  · rename_i p _
    have h := spawns_grown p (p.conf.instances - p.running) st
    split
    · rename_i e; rw [e] at h; exact h
    · rename_i e; rw [e] at h; exact h.trans (change_grown id fun _ => rfl)

theorem restart_grown (id : Nat) (b : Body) (st : State) : Grown st (restart id b st).1 := by
  unfold restart
  split
  · split
    · exact .refl st
    · exact stop_grown st id _
  · exact .refl st

theorem restartExit_grown (id : Nat) (rs ss : List Nat) (pid : Nat) (st : State) : Grown st (restartExit id rs ss pid st).1 := by
  unfold restartExit
  split
  · exact .refl st
  · dsimp only
    split
    · exact .refl st
    · split
      · exact .refl st
      · rename_i p _
        split
        · exact .refl st
        · have h := spawn_grown st p
          split
          · rename_i e; rw [e] at h; exact h.trans (change_grown id fun _ => rfl)
          · rename_i e; rw [e] at h; exact h

theorem restartReady_grown (id : Nat) (rs ss : List Nat) (pid : Nat) (st : State) : Grown st (restartReady id rs ss pid st).1 := by
  unfold restartReady
  split
  · exact .refl st
  · dsimp only
    split
    · exact .refl st
    · split
      · exact .refl st
      · split
        · exact .refl st
        · exact stop_grown st id _

theorem emplace_mem {m : List (Nat × List Nat)} {k : Nat} {v : List Nat} {x : Nat × List Nat} (h : x ∈ emplace m k v) : x ∈ m ∨ x = (k, v) := by
  unfold emplace at h
  split at h
  · exact .inl h
  · rcases List.mem_append.1 h with h | h
    · exact .inl (List.takeWhile_sublist _ |>.subset h)
    · rcases List.mem_cons.1 h with h | h
      · exact .inr h
      · exact .inl (List.dropWhile_sublist _ |>.subset h)

theorem setMappings_mapped (wanted : List (Nat × List Nat)) (st : State) (W : List Act) : Mapped (setMappings wanted st) W := by
  have : ∀ (ws : List (Nat × List Nat)) (m : List (Nat × List Nat)), (∀ a ∈ m, ∀ id ∈ a.2, id ∈ st.proxies.map (·.id)) →
      ∀ a ∈ ws.foldl (fun m c => emplace m c.1 (c.2.filterMap fun n => (st.named n).map (·.id))) m, ∀ id ∈ a.2, id ∈ st.proxies.map (·.id) := by
    intro ws
    induction ws with
    | nil => intro m h; exact h
    | cons w ws ih =>
      intro m h
      refine ih _ fun a ha id hid => ?_
      rcases emplace_mem ha with ha | rfl
      · exact h a ha id hid
      · obtain ⟨n, _, e⟩ := List.mem_filterMap.1 hid
        obtain ⟨p, hp, rfl⟩ := Option.map_eq_some_iff.1 e
        unfold State.named at hp
        exact List.mem_map_of_mem (List.mem_of_find?_eq_some hp)
  exact this wanted [] (fun a ha => by cases ha)

theorem mapped_kept : Kept Mapped Act.stays (fun _ => True) := by
  refine ⟨fun a b st W ha _ h => ⟨?_, trivial⟩, fun b m f st W _ e h => ⟨?_, trivial⟩⟩
  · cases a with
    | scaleIn id => exact h.grown (scaleIn_grown id b st)
    | scaleOut id => exact h.grown (scaleOut_grown id b st)
    | restart id => exact h.grown (restart_grown id b st)
    | remove ids => cases ha
    | mappings w => exact setMappings_mapped w st W
    | reply k => exact h
  · unfold handle at e
    split at e <;> first | (cases e; done) | skip
    all_goals rw [← Option.some.inj e]
    · exact h
    · exact h
    · exact h
    · exact h.grown (restartExit_grown ..)
    · exact h.grown (restartReady_grown ..)

theorem mapped_push {c : Mgr} {us : List (Act × Body)} (h : GoodM Mapped Act.stays (fun _ => True) c) (hu : ∀ x ∈ us, x.1.stays) : GoodM Mapped Act.stays (fun _ => True) (c.push us) :=
  push_good mapped_kept h.holds h.units h.front fun x hx => ⟨hu x hx, trivial⟩

theorem mapped_on {c : Mgr} {f : State → State} (h : GoodM Mapped Act.stays (fun _ => True) c) (hf : Grown c.st (f c.st)) : GoodM Mapped Act.stays (fun _ => True) (c.on f) :=
  on_good h fun _ hj => hj.grown hf

theorem scale_stays (st : State) (id : Nat) : ∀ x ∈ scale st id, x.1.stays := by
  unfold scale
  split
  · intro x hx; cases hx
  · split
    · intro x hx; rw [List.mem_singleton.1 hx]; trivial
    · split
      · intro x hx; rw [List.mem_singleton.1 hx]; trivial
      · intro x hx; cases hx

theorem scales_stay {α} (st : State) (xs : List α) (f : α → Nat) : ∀ x ∈ xs.flatMap (fun a => scale st (f a)), x.1.stays := by
  intro x hx
  obtain ⟨a, _, h⟩ := List.mem_flatMap.1 hx
  exact scale_stays st _ x h

theorem contexts_grown : ∀ (rs : List Res) (st : State), Grown st (contexts rs st).1 := by
  intro rs
  induction rs with
  | nil => intro st; exact .refl st
  | cons r rs ih =>
    intro st
    unfold contexts
    split
    · exact ih st
    · rename_i p _
      dsimp only
      refine Grown.trans ?_ (ih _)
      have h1 : Grown st (st.change p.id fun p => { p with conf := r }) := change_grown p.id (fun _ => rfl)
      split
      · exact ⟨h1.1, h1.2⟩
      · exact h1

theorem added_mapped {c : Mgr} (rs : List Res) (h : GoodM Mapped Act.stays (fun _ => True) c) : GoodM Mapped Act.stays (fun _ => True) (added c rs) := by
  unfold added
  dsimp only
  refine mapped_push (mapped_on h ⟨rfl, fun id hid => ?_⟩) (scales_stay _ _ id)
  dsimp only
  rw [List.map_append]
  exact List.mem_append_left _ hid

theorem modified_mapped {c : Mgr} (rs : List Res) (h : GoodM Mapped Act.stays (fun _ => True) c) : GoodM Mapped Act.stays (fun _ => True) (modified c rs) := by
  unfold modified
  dsimp only
  have h1 : GoodM Mapped Act.stays (fun _ => True) (c.on fun _ => (contexts rs c.st).1) := mapped_on h (contexts_grown rs c.st)
  have h2 : GoodM Mapped Act.stays (fun _ => True) (if ((contexts rs c.st).2.flatMap fun x => scale (c.on fun _ => (contexts rs c.st).1).st x.1) = [] then (c.on fun _ => (contexts rs c.st).1)
      else (c.on fun _ => (contexts rs c.st).1).push ((contexts rs c.st).2.flatMap fun x => scale (c.on fun _ => (contexts rs c.st).1).st x.1)) := by
    split
    · exact h1
    · exact mapped_push h1 (scales_stay _ _ (fun y : Nat × List Nat => y.1))
  split
  · exact h2
  · refine mapped_push h2 ?_
    intro x hx
    obtain ⟨y, _, e⟩ := List.mem_filterMap.1 hx
    split at e
    · cases e
    · rw [← Option.some.inj e]; trivial

theorem conform_mapped {c : Mgr} (m : Model) (h : GoodM Mapped Act.stays (fun _ => True) c) (hm : ∀ p ∈ c.st.proxies, ∃ r ∈ m.resources, r.name = p.conf.name) :
    GoodM Mapped Act.stays (fun _ => True) (conform c m) := by
  have hrem : (Casual.Config.calculate Res.name (c.st.proxies.map (·.conf)) m.resources).removed = [] := by
    unfold Casual.Config.calculate Casual.Config.intersection
    dsimp only
    rw [List.filter_eq_nil_iff]
    intro r hr
    obtain ⟨p, hp, rfl⟩ := List.mem_map.1 hr
    obtain ⟨x, hx, e⟩ := hm p hp
    have hin : x ∈ m.resources := hx
    simp only [Bool.not_eq_true', List.any_eq_false, decide_eq_true_eq, Classical.not_forall]
    exact ⟨x, hin, fun h => h e.symm⟩
  unfold conform
  dsimp only
  rw [hrem]
  simp only [if_true]
  have h1 : GoodM Mapped Act.stays (fun _ => True) (if (Casual.Config.calculate Res.name (c.st.proxies.map (·.conf)) m.resources).added = [] then c else added c (Casual.Config.calculate Res.name (c.st.proxies.map (·.conf)) m.resources).added) := by
    split
    · exact h
    · exact added_mapped _ h
  generalize (if (Casual.Config.calculate Res.name (c.st.proxies.map (·.conf)) m.resources).added = [] then c else added c (Casual.Config.calculate Res.name (c.st.proxies.map (·.conf)) m.resources).added) = c1 at h1 ⊢
  have h3 : GoodM Mapped Act.stays (fun _ => True) (if (Casual.Config.calculate Res.name (c.st.proxies.map (·.conf)) m.resources).modified = [] then c1 else modified c1 (Casual.Config.calculate Res.name (c.st.proxies.map (·.conf)) m.resources).modified) := by
    split
    · exact h1
    · exact modified_mapped _ h1
  split
  · exact h3
  · refine mapped_push h3 ?_
    intro x hx
    rw [List.mem_singleton.1 hx]
    trivial

theorem step_mapped {c : Mgr} (e : Ev) (h : GoodM Mapped Act.stays (fun _ => True) c) (hq : keeps c e) : GoodM Mapped Act.stays (fun _ => True) (step c e) := by
  unfold step
  split
  · exact h
  · cases e with
    | exit pid =>
      refine onExit_good mapped_kept pid h fun W hj => hj.grown (a := c.st) ⟨rfl, fun id hid => ?_⟩
      dsimp only
      rw [List.map_map]
      exact hid
    | ask id pid =>
      show GoodM _ _ _ (onAsk c id pid)
      unfold onAsk
      split
      · exact mapped_on h ⟨rfl, fun _ h => h⟩
      · exact mapped_on h (change_grown id fun _ => rfl)
    | ready id pid =>
      show GoodM _ _ _ (onReady c id pid)
      unfold onReady
      dsimp only
      have h1 := msg_good mapped_kept (.ready pid) h
      split
      · exact mapped_on h1 (change_grown id fun _ => rfl)
      · exact mapped_on h1 ⟨rfl, fun _ h => h⟩
    | update k m =>
      refine mapped_push (conform_mapped m h hq) ?_
      intro x hx
      rw [List.mem_singleton.1 hx]
      trivial
    | alias a ns =>
      show GoodM _ _ _ (onAlias c a ns)
      unfold onAlias
      split
      · exact mapped_on h ⟨rfl, fun _ h => h⟩
      · exact mapped_on h ⟨rfl, fun _ h => h⟩
    | shutdown => cases hq

theorem run_mapped (keys : List Nat) (fails : List Bool) (m : Model) (es : List Ev) (hq : Keeps (boot keys fails m) es) :
    GoodM Mapped Act.stays (fun _ => True) (run (boot keys fails m) es) := by
  have h0 : GoodM Mapped Act.stays (fun _ => True) (boot keys fails m) := by
    unfold boot
    refine conform_mapped m ⟨?_, ?_, ?_⟩ ?_
    · intro p hp; cases hp
    · intro p hp; cases hp
    · intro p hp; cases hp
    · intro p hp; cases hp
  have : ∀ (es : List Ev) (c : Mgr), GoodM Mapped Act.stays (fun _ => True) c → Keeps c es → GoodM Mapped Act.stays (fun _ => True) (run c es) := by
    intro es
    induction es with
    | nil => intro c h _; exact h
    | cons e es ih => intro c h hq; exact ih _ (step_mapped e h hq.1) hq.2
  exact this es _ h0 hq

/-- As long as no resource is taken away, there is an answer for each server: the resources that it names, those that its alias is mapped to, and no others. -/
theorem alias_partial (keys : List Nat) (fails : List Bool) (m : Model) (es : List Ev) (hq : Keeps (boot keys fails m) es) (a : Nat) (names : List Nat) :
    ∃ ids, (run (boot keys fails m) es).st.aliasReply a names = some ids
      ∧ ∀ id, id ∈ ids ↔ (∃ p ∈ (run (boot keys fails m) es).st.proxies, p.id = id ∧ p.conf.name ∈ names)
          ∨ ∃ ms, (run (boot keys fails m) es).st.alias.find? (·.1 == a) = some ms ∧ id ∈ ms.2 := by
  have h := (run_mapped keys fails m es hq).holds
  generalize (run (boot keys fails m) es).st = st at h ⊢
  have hn : ∀ id, id ∈ (st.proxies.filter fun p => p.conf.name ∈ names).map (·.id) ↔ ∃ p ∈ st.proxies, p.id = id ∧ p.conf.name ∈ names := by
    intro id
    rw [List.mem_map]
    constructor
    · rintro ⟨p, hp, e⟩
      obtain ⟨h1, h2⟩ := List.mem_filter.1 hp
      exact ⟨p, h1, e, by simpa using h2⟩
    · rintro ⟨p, hp, e, h2⟩
      exact ⟨p, List.mem_filter.2 ⟨hp, by simpa using h2⟩, e⟩
  unfold State.aliasReply
  dsimp only
  cases hf : st.alias.find? (·.1 == a) with
  | none =>
    refine ⟨_, rfl, fun id => ?_⟩
    rw [hn]
    exact ⟨.inl, fun h => h.elim (fun h => h) (fun ⟨ms, e, _⟩ => by cases e)⟩
  | some x =>
    have hall : (x.2.all fun id => (st.find id).isSome) = true := by
      rw [List.all_eq_true]
      intro id hid
      obtain ⟨p, hp, e⟩ := List.mem_map.1 (h x (List.mem_of_find?_eq_some hf) id hid)
      unfold State.find
      rw [List.find?_isSome]
      exact ⟨p, hp, by simp [e]⟩
    refine ⟨(st.proxies.filter fun p => p.conf.name ∈ names).map (·.id) ++ x.2, ?_, fun id => ?_⟩
    · show (if _ then _ else _) = _
      rw [hall]; rfl
    · rw [List.mem_append, hn]
      constructor
      · rintro (h | h)
        · exact .inl h
        · exact .inr ⟨x, rfl, h⟩
      · rintro (h | ⟨ms, e, h⟩)
        · exact .inl h
        · cases e; exact .inr h

/-! ### What the mappings are -/

theorem find_emplace (m : List (Nat × List Nat)) (k : Nat) (v : List Nat) (a : Nat) :
    (emplace m k v).find? (·.1 == a) = (m.find? (·.1 == a)).or (if k = a then some (k, v) else none) := by
  unfold emplace
  split
  · rename_i h
    by_cases e : k = a
    · subst e
      have : (m.find? (·.1 == k)).isSome := by
        rw [List.find?_isSome]
        simpa using h
      rw [if_pos rfl]
      cases hf : m.find? (·.1 == k) with
      | none => rw [hf] at this; cases this
      | some x => rfl
    · rw [if_neg e, Option.or_none]
  · rename_i h
    have hm : m.find? (·.1 == a) = ((m.takeWhile (·.1 < k)).find? (·.1 == a)).or ((m.dropWhile (·.1 < k)).find? (·.1 == a)) := by
      rw [← List.find?_append, List.takeWhile_append_dropWhile]
    rw [List.find?_append, List.find?_cons, hm]
    by_cases e : k = a
    · subst e
      have hnone : m.find? (·.1 == k) = none := by
        rw [List.find?_eq_none]
        intro x hx hc
        exact h (List.any_eq_true.2 ⟨x, hx, hc⟩)
      rw [hm, Option.or_eq_none_iff] at hnone
      rw [hnone.1, hnone.2]
      simp
    · have hb : (k == a) = false := by simp [e]
      simp [e, hb]

/-- When mappings have been set, each alias leads to the resources that it says, those that are there. -/
theorem mapping_set (wanted : List (Nat × List Nat)) (st : State) (a : Nat) :
    ((setMappings wanted st).alias.find? (·.1 == a)).map (·.2) = (wanted.find? (·.1 == a)).map fun w => w.2.filterMap fun n => (st.named n).map (·.id) := by
  have : ∀ (ws : List (Nat × List Nat)) (m : List (Nat × List Nat)),
      ((ws.foldl (fun m c => emplace m c.1 (c.2.filterMap fun n => (st.named n).map (·.id))) m).find? (·.1 == a)).map (·.2)
        = ((m.find? (·.1 == a)).map (·.2)).or ((ws.find? (·.1 == a)).map fun w => w.2.filterMap fun n => (st.named n).map (·.id)) := by
    intro ws
    induction ws with
    | nil => intro m; simp
    | cons w ws ih =>
      intro m
      rw [List.foldl_cons, ih, find_emplace, List.find?_cons]
      by_cases e : w.1 = a
      · subst e
        cases m.find? (·.1 == w.1) <;> simp
      · have : (w.1 == a) = false := by simp [e]
        rw [this, if_neg e, Option.or_none]
  exact (this wanted []).trans (by simp)

end Casual.TConf

import Verif.Discovery.SpecMissing
import Verif.Discovery.Proper

/-!
  What the operations on contents do to what is wanted and what there is (for C149).
-/
namespace Casual.Discovery

theorem has_add {a b : Offer} {t : Thing} : (a.add b).has t ↔ a.has t ∨ b.has t := by
  cases t with
  | service n =>
    constructor
    · rintro ⟨x, hx, e⟩
      exact (mem_offer_services hx).elim (fun h => Or.inl ⟨x, h, e⟩) (fun h => Or.inr ⟨x, h, e⟩)
    · rintro (⟨x, hx, e⟩ | ⟨x, hx, e⟩)
      · exact ⟨x, appendUnique_target hx, e⟩
      · obtain ⟨y, hy, e'⟩ := appendUnique_source (target := a.services) same_svc hx
        exact ⟨y, hy, e'.trans e⟩
  | queue n =>
    constructor
    · rintro ⟨x, hx, e⟩
      exact (mem_offer_queues hx).elim (fun h => Or.inl ⟨x, h, e⟩) (fun h => Or.inr ⟨x, h, e⟩)
    · rintro (⟨x, hx, e⟩ | ⟨x, hx, e⟩)
      · exact ⟨x, appendUnique_target hx, e⟩
      · obtain ⟨y, hy, e'⟩ := appendUnique_source (target := a.queues) same_que hx
        have : y = x := e'
        exact ⟨y, hy, by rw [this]; exact e⟩

theorem not_has_empty {t : Thing} : ¬ ({} : Offer).has t := by
  cases t <;> (rintro ⟨x, hx, _⟩; cases hx)

theorem has_foldl {t : Thing} : ∀ (l : List Offer) (o : Offer), (l.foldl Offer.add o).has t ↔ o.has t ∨ ∃ x ∈ l, x.has t
  | [], o => by simp
  | x :: xs, o => by
    rw [List.foldl_cons, has_foldl, has_add]
    constructor
    · rintro ((h | h) | ⟨y, hy, h⟩)
      · exact Or.inl h
      · exact Or.inr ⟨x, List.mem_cons_self .., h⟩
      · exact Or.inr ⟨y, List.mem_cons_of_mem _ hy, h⟩
    · rintro (h | ⟨y, hy, h⟩)
      · exact Or.inl (Or.inl h)
      · rcases List.mem_cons.mp hy with e | hy
        · exact Or.inl (Or.inr (e ▸ h))
        · exact Or.inr ⟨y, hy, h⟩

theorem included_iff {w : Want} {o : Offer} : w.includedIn o = true ↔ ∀ t, w.wants t → o.has t := by
  unfold Want.includedIn
  rw [Bool.and_eq_true, List.all_eq_true, List.all_eq_true]
  constructor
  · rintro ⟨h1, h2⟩ t ht
    cases t with
    | service n =>
      obtain ⟨x, hx, e⟩ := List.any_eq_true.mp (h1 n ht)
      exact ⟨x, hx, eq_of_beq e⟩
    | queue n =>
      obtain ⟨x, hx, e⟩ := List.any_eq_true.mp (h2 n ht)
      exact ⟨x, hx, eq_of_beq e⟩
  · intro h
    refine ⟨fun n hn => ?_, fun n hn => ?_⟩
    · obtain ⟨x, hx, e⟩ := h (.service n) hn
      exact List.any_eq_true.mpr ⟨x, hx, by rw [e]; exact BEq.refl _⟩
    · obtain ⟨x, hx, e⟩ := h (.queue n) hn
      exact List.any_eq_true.mpr ⟨x, hx, by rw [e]; exact BEq.refl _⟩

theorem wants_diff {w : Want} {o : Offer} {t : Thing} (h : w.wants t) (hn : ¬ o.has t) : (w.diff o).wants t := by
  cases t with
  | service n =>
    refine List.mem_filter.mpr ⟨h, ?_⟩
    cases ha : o.services.any (·.name == n)
    · rfl
    · obtain ⟨x, hx, e⟩ := List.any_eq_true.mp ha
      exact absurd ⟨x, hx, eq_of_beq e⟩ hn
  | queue n =>
    refine List.mem_filter.mpr ⟨h, ?_⟩
    cases ha : o.queues.any (·.name == n)
    · rfl
    · obtain ⟨x, hx, e⟩ := List.any_eq_true.mp ha
      exact absurd ⟨x, hx, eq_of_beq e⟩ hn

theorem wants_any {w : Want} {t : Thing} (h : w.wants t) : w.any = true := by
  unfold Want.any
  cases t with
  | service n =>
    cases hs : w.services with
    | nil => exact absurd (hs ▸ h : n ∈ []) (by simp)
    | cons x xs => rfl
  | queue n =>
    cases hs : w.queues with
    | nil => exact absurd (hs ▸ h : n ∈ []) (by simp)
    | cons x xs => simp

theorem wants_foldl {α : Type} (f : α → Want) {t : Thing} (l : List α) (w : Want) :
    (l.foldl (fun w x => w.add (f x)) w).wants t ↔ w.wants t ∨ ∃ x ∈ l, (f x).wants t := by
  cases t with
  | service n => exact mem_foldl_add_services f l w
  | queue n => exact mem_foldl_add_queues f l w

theorem has_answer {o : Offer} {w : Want} {t : Thing} (h : w.wants t) (ho : o.has t) : (o.answer w).has t := by
  cases t with
  | service n =>
    obtain ⟨x, hx, e⟩ := ho
    have : (o.services.find? (·.name == n)).isSome = true := List.find?_isSome.mpr ⟨x, hx, by rw [e]; exact BEq.refl _⟩
    obtain ⟨y, hy⟩ := Option.isSome_iff_exists.mp this
    exact ⟨y, List.mem_filterMap.mpr ⟨n, h, hy⟩, by simpa using List.find?_some hy⟩
  | queue n =>
    obtain ⟨x, hx, e⟩ := ho
    have : (o.queues.find? (·.name == n)).isSome = true := List.find?_isSome.mpr ⟨x, hx, by rw [e]; exact BEq.refl _⟩
    obtain ⟨y, hy⟩ := Option.isSome_iff_exists.mp this
    exact ⟨y, List.mem_filterMap.mpr ⟨n, h, hy⟩, by simpa using List.find?_some hy⟩

/-! ### The tables -/

/-- The tables are those of the configuration. -/
structure Tables (c : List SvcCfg) (s : State) : Prop where
  origin : ∀ n, s.originOf n = originUnder c n
  routes : ∀ n, (s.toRoutes.find? (·.1 == n)).map (·.2) = (c.reverse.find? (fun x => x.name == n)).map (·.routes)

theorem find_assign {β : Type} (m : List (Name × β)) (k : Name) (v : β) (n : Name) :
    ((assign m k v).find? (·.1 == n)).map (·.2) = if k = n then some v else (m.find? (·.1 == n)).map (·.2) := by
  unfold assign
  rw [List.find?_append]
  by_cases h : k = n
  · rw [if_pos h]
    have : (m.filter fun p => !(p.1 == k)).find? (·.1 == n) = none := by
      rw [List.find?_eq_none]
      intro x hx e
      have := (List.mem_filter.mp hx).2
      rw [h] at this
      rw [e] at this
      cases this
    rw [this]
    simp [h]
  · rw [if_neg h]
    have h1 : ((m.filter fun p => !(p.1 == k)).find? (·.1 == n)) = m.find? (·.1 == n) := by
      rw [List.find?_filter]
      congr 1
      funext x
      by_cases e : x.1 = n
      · have : ¬ x.1 = k := fun e' => h (e'.symm.trans e)
        simp [e, this]
        exact fun e => h e.symm
      · simp [e]
    have h2 : List.find? (fun x => x.1 == n) [(k, v)] = none := by
      rw [List.find?_cons_of_neg (by simpa using h)]
      rfl
    rw [h1, h2]
    simp

theorem find_assign_foldl (k : Name) (n : Name) : ∀ (l : List Name) (m : List (Name × Name)),
    ((l.foldl (fun m route => assign m route k) m).find? (·.1 == n)).map (·.2) = if n ∈ l then some k else (m.find? (·.1 == n)).map (·.2)
  | [], m => by simp
  | r :: rs, m => by
    rw [List.foldl_cons, find_assign_foldl k n rs, find_assign]
    by_cases h1 : n ∈ rs
    · simp [h1]
    · by_cases h2 : r = n
      · simp [h2]
      · have : ¬ n = r := fun e => h2 e.symm
        simp [h1, h2, this]

theorem configure_find (n : Name) : ∀ (l : List SvcCfg) (s : State),
    let t := l.foldl (fun s (x : SvcCfg) =>
      { s with
        toRoutes := assign s.toRoutes x.name x.routes
        toOrigin := x.routes.foldl (fun m route => assign m route x.name) s.toOrigin }) s
    (t.toOrigin.find? (·.1 == n)).map (·.2) = ((l.reverse.find? (fun x => x.routes.contains n)).map (·.name)).or ((s.toOrigin.find? (·.1 == n)).map (·.2)) ∧
    (t.toRoutes.find? (·.1 == n)).map (·.2) = ((l.reverse.find? (fun x => x.name == n)).map (·.routes)).or ((s.toRoutes.find? (·.1 == n)).map (·.2))
  | [], s => by simp
  | x :: xs, s => by
    obtain ⟨h1, h2⟩ := configure_find n xs { s with
        toRoutes := assign s.toRoutes x.name x.routes
        toOrigin := x.routes.foldl (fun m route => assign m route x.name) s.toOrigin }
    dsimp only at h1 h2 ⊢
    rw [List.foldl_cons]
    refine ⟨h1.trans ?_, h2.trans ?_⟩
    · rw [find_assign_foldl, List.reverse_cons, List.find?_append]
      cases xs.reverse.find? (fun x => x.routes.contains n) with
      | some y => simp
      | none =>
        by_cases h : n ∈ x.routes <;> simp [h]
    · rw [find_assign, List.reverse_cons, List.find?_append]
      cases xs.reverse.find? (fun x => x.name == n) with
      | some y => simp
      | none =>
        by_cases h : x.name = n <;> simp [h]

theorem tables_configure (s : State) (c : List SvcCfg) : Tables c (s.configure c) := by
  have h := fun n => configure_find n c { s with toRoutes := [], toOrigin := [] }
  refine ⟨fun n => ?_, fun n => ?_⟩
  · have := (h n).1
    unfold State.originOf originUnder
    unfold State.configure
    dsimp only at this
    generalize (List.foldl _ _ c : State) = t at this ⊢
    cases h1 : List.find? (fun x => x.1 == n) t.toOrigin <;> cases h2 : c.reverse.find? (fun x => x.routes.contains n) <;> rw [h1, h2] at this <;> simp at this
    exact this
  · have := (h n).2
    dsimp only at this
    exact this.trans (by simp)

theorem Tables.same {c : List SvcCfg} {s t : State} (h : Tables c s) (h1 : t.toOrigin = s.toOrigin) (h2 : t.toRoutes = s.toRoutes) : Tables c t := by
  refine ⟨fun n => ?_, fun n => ?_⟩
  · rw [← h.origin n]
    unfold State.originOf
    rw [h1]
  · rw [h2]; exact h.routes n

theorem wants_normalize {c : List SvcCfg} {s : State} (h : Tables c s) {w : Want} {t : Thing} (hw : w.wants t) : (s.normalize w).wants (t.outside c) := by
  cases t with
  | service n => exact mem_normalize_services.mpr ⟨n, hw, (h.origin n).symm⟩
  | queue n => exact mem_normalize_queues.mpr hw

theorem gives_has {c : List SvcCfg} {s : State} (h : Tables c s) {o : Offer} {t : Thing} (hg : o.gives c t) : (s.normalizeReply o).has t := by
  cases t with
  | queue n => exact hg
  | service n =>
    obtain ⟨x, hx, hn⟩ := hg
    have hr := h.routes x.name
    have : ∃ z ∈ o.services.flatMap (fun x =>
      match s.toRoutes.find? (·.1 == x.name) with
      | some p => p.2.map fun route => { x with name := route }
      | none => [x]), z.name = n := by
      unfold namesUnder at hn
      cases hf : c.reverse.find? (fun y => y.name == x.name) with
      | none =>
        rw [hf] at hn hr
        simp at hr
        refine ⟨x, List.mem_flatMap.mpr ⟨x, hx, ?_⟩, (List.mem_singleton.mp hn).symm⟩
        rw [show s.toRoutes.find? (·.1 == x.name) = none by rw [List.find?_eq_none]; intro y hy; simp; exact hr _ _ hy]
        exact List.mem_singleton.mpr rfl
      | some y =>
        rw [hf] at hn hr
        obtain ⟨p, hp, e⟩ := Option.map_eq_some_iff.mp hr
        refine ⟨{ x with name := n }, List.mem_flatMap.mpr ⟨x, hx, ?_⟩, rfl⟩
        rw [hp]
        exact List.mem_map.mpr ⟨n, by rw [e]; exact hn, rfl⟩
    obtain ⟨z, hz, e⟩ := this
    obtain ⟨y, hy, e'⟩ := sortUnique_key same_svc hz
    exact ⟨y, hy, e'.trans e⟩

end Casual.Discovery

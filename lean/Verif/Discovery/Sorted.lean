import Verif.Discovery.Spec

/-!
  Facts of the sorted sets.
-/
namespace Casual.Discovery

section
variable {α : Type} {le : α → α → Bool}

theorem mem_insertBy {x z : α} : ∀ {l : List α}, z ∈ insertBy le x l ↔ z = x ∨ z ∈ l
  | [] => by simp [insertBy]
  | y :: ys => by
    unfold insertBy
    split
    · simp
    · rw [List.mem_cons, mem_insertBy, List.mem_cons]
      constructor
      · rintro (h | h | h)
        · exact Or.inr (Or.inl h)
        · exact Or.inl h
        · exact Or.inr (Or.inr h)
      · rintro (h | h | h)
        · exact Or.inr (Or.inl h)
        · exact Or.inl h
        · exact Or.inr (Or.inr h)

theorem mem_sortBy {z : α} : ∀ {l : List α}, z ∈ sortBy le l ↔ z ∈ l
  | [] => by simp [sortBy]
  | y :: ys => by
    show z ∈ insertBy le y (sortBy le ys) ↔ _
    rw [mem_insertBy, mem_sortBy, List.mem_cons]

theorem mem_uniqueBy {z : α} : ∀ {l : List α}, z ∈ uniqueBy le l → z ∈ l
  | [], h => by cases h
  | x :: xs, h => by
    unfold uniqueBy at h
    split at h
    · rw [List.mem_singleton.mp h]; exact List.mem_cons_self ..
    · rename_i y ys hy
      have tail : ∀ z ∈ y :: ys, z ∈ x :: xs := fun z hz => List.mem_cons_of_mem _ (mem_uniqueBy (by rw [hy]; exact hz))
      split at h
      · rcases List.mem_cons.mp h with h | h
        · rw [h]; exact List.mem_cons_self ..
        · exact tail z (List.mem_cons_of_mem _ h)
      · rcases List.mem_cons.mp h with h | h
        · rw [h]; exact List.mem_cons_self ..
        · exact tail z h

/-- Everything has a representative. -/
theorem uniqueBy_key {β : Type} {K : α → β} (hK : ∀ a b, same le a b = true ↔ K a = K b) {z : α} : ∀ {l : List α}, z ∈ l →
    ∃ y ∈ uniqueBy le l, K y = K z
  | [], h => by cases h
  | x :: xs, h => by
    unfold uniqueBy
    rcases List.mem_cons.mp h with h | h
    · subst h
      split
      · exact ⟨z, List.mem_cons_self .., rfl⟩
      · split <;> exact ⟨z, List.mem_cons_self .., rfl⟩
    · obtain ⟨y, hy, e⟩ := uniqueBy_key hK h
      split
      · rename_i hn
        rw [hn] at hy
        cases hy
      · rename_i y' ys hn
        rw [hn] at hy
        split
        · rename_i hs
          rcases List.mem_cons.mp hy with hy | hy
          · exact ⟨x, List.mem_cons_self .., by rw [(hK _ _).mp hs, ← hy, e]⟩
          · exact ⟨y, List.mem_cons_of_mem _ hy, e⟩
        · exact ⟨y, List.mem_cons_of_mem _ hy, e⟩

theorem mem_sortUnique {z : α} {l : List α} (h : z ∈ sortUnique le l) : z ∈ l := mem_sortBy.mp (mem_uniqueBy h)

theorem sortUnique_key {β : Type} {K : α → β} (hK : ∀ a b, same le a b = true ↔ K a = K b) {z : α} {l : List α} (h : z ∈ l) :
    ∃ y ∈ sortUnique le l, K y = K z := uniqueBy_key hK (mem_sortBy.mpr h)

theorem mem_appendUnique {z : α} {source target : List α} (h : z ∈ appendUnique le source target) : z ∈ source ∨ z ∈ target := by
  rcases List.mem_append.mp (mem_sortBy.mp h) with h | h
  · exact Or.inr h
  · exact Or.inl (List.mem_filter.mp (mem_sortBy.mp (mem_uniqueBy h))).1

theorem appendUnique_target {z : α} {source target : List α} (h : z ∈ target) : z ∈ appendUnique le source target :=
  mem_sortBy.mpr (List.mem_append.mpr (Or.inl h))

theorem appendUnique_source {β : Type} {K : α → β} (hK : ∀ a b, same le a b = true ↔ K a = K b) {z : α} {source target : List α} (h : z ∈ source) :
    ∃ y ∈ appendUnique le source target, K y = K z := by
  by_cases ht : (target.any (same le z)) = true
  · obtain ⟨y, hy, e⟩ := List.any_eq_true.mp ht
    exact ⟨y, appendUnique_target hy, ((hK _ _).mp e).symm⟩
  · obtain ⟨y, hy, e⟩ := uniqueBy_key hK (mem_sortBy (le := le) (z := z) (l := source.filter fun x => !target.any (same le x)) |>.mpr
      (List.mem_filter.mpr ⟨h, by simpa using ht⟩))
    exact ⟨y, mem_sortBy.mpr (List.mem_append.mpr (Or.inr hy)), e⟩

end

theorem same_name (a b : Name) : same nameLe a b = true ↔ id a = id b := by
  unfold same nameLe
  simp only [Bool.and_eq_true, decide_eq_true_eq, id]
  exact ⟨fun h => Nat.le_antisymm h.1 h.2, fun h => ⟨Nat.le_of_eq h, Nat.le_of_eq h.symm⟩⟩

theorem same_svc (a b : Svc) : same svcLe a b = true ↔ a.name = b.name := same_name a.name b.name

theorem same_que (a b : Que) : same queLe a b = true ↔ id a = id b := by
  unfold same queLe
  simp only [Bool.and_eq_true, Bool.or_eq_true, decide_eq_true_eq, id]
  constructor
  · rintro ⟨h1, h2⟩
    have key : a.name = b.name ∧ a.info = b.info := by
      rcases h1 with h1 | ⟨h1, h3⟩
      · rcases h2 with h2 | ⟨h2, _⟩
        · exact absurd (Nat.lt_trans h1 h2) (Nat.lt_irrefl _)
        · rw [h2] at h1; exact absurd h1 (Nat.lt_irrefl _)
      · rcases h2 with h2 | ⟨_, h4⟩
        · rw [h1] at h2; exact absurd h2 (Nat.lt_irrefl _)
        · exact ⟨h1, Nat.le_antisymm h3 h4⟩
    cases a; cases b
    simp only [Que.mk.injEq]
    exact key
  · intro h
    subst h
    exact ⟨Or.inr ⟨rfl, Nat.le_refl _⟩, Or.inr ⟨rfl, Nat.le_refl _⟩⟩

theorem mem_name_sortUnique {z : Name} {l : List Name} : z ∈ sortUnique nameLe l ↔ z ∈ l := by
  refine ⟨mem_sortUnique, fun h => ?_⟩
  obtain ⟨y, hy, e⟩ := sortUnique_key same_name h
  have : y = z := e
  rw [← this]
  exact hy

theorem mem_name_append {z : Name} {source target : List Name} : z ∈ appendUnique nameLe source target ↔ z ∈ source ∨ z ∈ target := by
  refine ⟨mem_appendUnique, fun h => ?_⟩
  rcases h with h | h
  · obtain ⟨y, hy, e⟩ := appendUnique_source same_name (target := target) h
    have : y = z := e
    rw [← this]
    exact hy
  · exact appendUnique_target h

/-! ### Names are sorted, each once -/

theorem insertBy_asc {x : Name} : ∀ {l : List Name}, l.Pairwise (fun a b => a ≤ b) → (insertBy nameLe x l).Pairwise (fun a b => a ≤ b)
  | [], _ => by simp [insertBy]
  | y :: ys, h => by
    unfold insertBy
    obtain ⟨h1, h2⟩ := List.pairwise_cons.mp h
    split
    · rename_i hxy
      have hxy : x ≤ y := by simpa [nameLe] using hxy
      refine List.pairwise_cons.mpr ⟨?_, h⟩
      intro z hz
      rcases List.mem_cons.mp hz with hz | hz
      · rw [hz]; exact hxy
      · exact Nat.le_trans hxy (h1 z hz)
    · rename_i hxy
      have hxy : y ≤ x := by
        have : ¬ x ≤ y := by simpa [nameLe] using hxy
        exact Nat.le_of_lt (Nat.lt_of_not_le this)
      refine List.pairwise_cons.mpr ⟨?_, insertBy_asc h2⟩
      intro z hz
      rcases mem_insertBy.mp hz with hz | hz
      · rw [hz]; exact hxy
      · exact h1 z hz

theorem sortBy_asc : ∀ (l : List Name), (sortBy nameLe l).Pairwise (fun a b => a ≤ b)
  | [] => List.Pairwise.nil
  | x :: xs => insertBy_asc (sortBy_asc xs)

theorem uniqueBy_asc : ∀ {l : List Name}, l.Pairwise (fun a b => a ≤ b) → Asc (uniqueBy nameLe l)
  | [], _ => List.Pairwise.nil
  | x :: xs, h => by
    obtain ⟨h1, h2⟩ := List.pairwise_cons.mp h
    have ih := uniqueBy_asc h2
    unfold uniqueBy
    split
    · exact List.pairwise_singleton _ _
    · rename_i y ys hy
      rw [hy] at ih
      obtain ⟨i1, i2⟩ := List.pairwise_cons.mp ih
      have hxy : x ≤ y := h1 y (mem_uniqueBy (by rw [hy]; exact List.mem_cons_self ..))
      split
      · rename_i hs
        have : x = y := (same_name x y).mp hs
        rw [this]
        exact ih
      · rename_i hs
        have hne : x ≠ y := fun e => hs ((same_name x y).mpr e)
        have hlt : x < y := Nat.lt_of_le_of_ne hxy hne
        refine List.pairwise_cons.mpr ⟨?_, ih⟩
        intro z hz
        rcases List.mem_cons.mp hz with hz | hz
        · rw [hz]; exact hlt
        · exact Nat.lt_trans hlt (i1 z hz)

theorem sortUnique_asc (l : List Name) : Asc (sortUnique nameLe l) := uniqueBy_asc (sortBy_asc l)

theorem insertBy_nodup {x : Name} : ∀ {l : List Name}, x ∉ l → l.Nodup → (insertBy nameLe x l).Nodup
  | [], _, _ => by simp [insertBy]
  | y :: ys, hx, h => by
    unfold insertBy
    obtain ⟨h1, h2⟩ := List.nodup_cons.mp h
    split
    · exact List.nodup_cons.mpr ⟨hx, h⟩
    · refine List.nodup_cons.mpr ⟨?_, insertBy_nodup (fun hm => hx (List.mem_cons_of_mem _ hm)) h2⟩
      intro hm
      rcases mem_insertBy.mp hm with e | hm
      · exact hx (by rw [e]; exact List.mem_cons_self ..)
      · exact h1 hm

theorem sortBy_nodup : ∀ {l : List Name}, l.Nodup → (sortBy nameLe l).Nodup
  | [], _ => List.nodup_nil
  | x :: xs, h => by
    obtain ⟨h1, h2⟩ := List.nodup_cons.mp h
    exact insertBy_nodup (fun hm => h1 (mem_sortBy.mp hm)) (sortBy_nodup h2)

theorem asc_nodup {l : List Name} (h : Asc l) : l.Nodup := h.imp (fun hab => Nat.ne_of_lt hab)

theorem asc_of_nodup {l : List Name} (h : l.Pairwise (fun a b => a ≤ b)) (hn : l.Nodup) : Asc l := by
  refine List.Pairwise.imp (R := fun a b => a ≤ b ∧ a ≠ b) (fun h => Nat.lt_of_le_of_ne h.1 h.2) ?_
  exact List.pairwise_and_iff.mpr ⟨h, hn⟩

theorem appendUnique_asc {source target : List Name} (h : Asc target) : Asc (appendUnique nameLe source target) := by
  refine asc_of_nodup (sortBy_asc _) (sortBy_nodup ?_)
  refine List.nodup_append.mpr ⟨asc_nodup h, asc_nodup (uniqueBy_asc (sortBy_asc _)), ?_⟩
  intro a ha b hb e
  have hb := (List.mem_filter.mp (mem_sortBy.mp (mem_uniqueBy hb))).2
  have : (target.any (same nameLe b)) = true := List.any_eq_true.mpr ⟨a, ha, (same_name b a).mpr e.symm⟩
  rw [this] at hb
  cases hb

/-! ### Contents -/

theorem Want.add_asc {a b : Want} (h : a.Asc) : (a.add b).Asc := ⟨appendUnique_asc h.1, appendUnique_asc h.2⟩

theorem normalize_asc (s : State) (w : Want) : (s.normalize w).Asc := ⟨sortUnique_asc _, sortUnique_asc _⟩

theorem mem_add_services {a b : Want} {n : Name} : n ∈ (a.add b).services ↔ n ∈ a.services ∨ n ∈ b.services := by
  show n ∈ appendUnique nameLe _ _ ↔ _
  rw [mem_name_append]
  exact Or.comm

theorem mem_add_queues {a b : Want} {n : Name} : n ∈ (a.add b).queues ↔ n ∈ a.queues ∨ n ∈ b.queues := by
  show n ∈ appendUnique nameLe _ _ ↔ _
  rw [mem_name_append]
  exact Or.comm

theorem mem_foldl_add_services {α : Type} (f : α → Want) {n : Name} : ∀ (l : List α) (w : Want),
    n ∈ (l.foldl (fun w x => w.add (f x)) w).services ↔ n ∈ w.services ∨ ∃ x ∈ l, n ∈ (f x).services
  | [], w => by simp
  | x :: xs, w => by
    rw [List.foldl_cons, mem_foldl_add_services f xs, mem_add_services]
    constructor
    · rintro ((h | h) | ⟨y, hy, h⟩)
      · exact Or.inl h
      · exact Or.inr ⟨x, List.mem_cons_self .., h⟩
      · exact Or.inr ⟨y, List.mem_cons_of_mem _ hy, h⟩
    · rintro (h | ⟨y, hy, h⟩)
      · exact Or.inl (Or.inl h)
      · rcases List.mem_cons.mp hy with e | hy
        · rw [e] at h; exact Or.inl (Or.inr h)
        · exact Or.inr ⟨y, hy, h⟩

theorem mem_foldl_add_queues {α : Type} (f : α → Want) {n : Name} : ∀ (l : List α) (w : Want),
    n ∈ (l.foldl (fun w x => w.add (f x)) w).queues ↔ n ∈ w.queues ∨ ∃ x ∈ l, n ∈ (f x).queues
  | [], w => by simp
  | x :: xs, w => by
    rw [List.foldl_cons, mem_foldl_add_queues f xs, mem_add_queues]
    constructor
    · rintro ((h | h) | ⟨y, hy, h⟩)
      · exact Or.inl h
      · exact Or.inr ⟨x, List.mem_cons_self .., h⟩
      · exact Or.inr ⟨y, List.mem_cons_of_mem _ hy, h⟩
    · rintro (h | ⟨y, hy, h⟩)
      · exact Or.inl (Or.inl h)
      · rcases List.mem_cons.mp hy with e | hy
        · rw [e] at h; exact Or.inl (Or.inr h)
        · exact Or.inr ⟨y, hy, h⟩

/-- What a service is called outside. -/
def State.originOf (s : State) (n : Name) : Name :=
  match s.toOrigin.find? (·.1 == n) with
  | some p => p.2
  | none => n

theorem mem_normalize_services {s : State} {w : Want} {n : Name} : n ∈ (s.normalize w).services ↔ ∃ m ∈ w.services, n = s.originOf m := by
  show n ∈ sortUnique nameLe _ ↔ _
  rw [mem_name_sortUnique, List.mem_map]
  constructor
  · rintro ⟨m, hm, e⟩
    exact ⟨m, hm, e.symm⟩
  · rintro ⟨m, hm, e⟩
    exact ⟨m, hm, e.symm⟩

theorem mem_normalize_queues {s : State} {w : Want} {n : Name} : n ∈ (s.normalize w).queues ↔ n ∈ w.queues := mem_name_sortUnique

theorem mem_offer_services {a b : Offer} {x : Svc} (h : x ∈ (a.add b).services) : x ∈ a.services ∨ x ∈ b.services := (mem_appendUnique h).symm
theorem mem_offer_queues {a b : Offer} {x : Que} (h : x ∈ (a.add b).queues) : x ∈ a.queues ∨ x ∈ b.queues := (mem_appendUnique h).symm

theorem mem_foldl_offer_services {x : Svc} : ∀ (l : List Offer) (o : Offer), x ∈ (l.foldl Offer.add o).services → x ∈ o.services ∨ ∃ y ∈ l, x ∈ y.services
  | [], _, h => Or.inl h
  | y :: ys, o, h => by
    rcases mem_foldl_offer_services ys _ h with h | ⟨z, hz, h⟩
    · rcases mem_offer_services h with h | h
      · exact Or.inl h
      · exact Or.inr ⟨y, List.mem_cons_self .., h⟩
    · exact Or.inr ⟨z, List.mem_cons_of_mem _ hz, h⟩

theorem mem_foldl_offer_queues {x : Que} : ∀ (l : List Offer) (o : Offer), x ∈ (l.foldl Offer.add o).queues → x ∈ o.queues ∨ ∃ y ∈ l, x ∈ y.queues
  | [], _, h => Or.inl h
  | y :: ys, o, h => by
    rcases mem_foldl_offer_queues ys _ h with h | ⟨z, hz, h⟩
    · rcases mem_offer_queues h with h | h
      · exact Or.inl h
      · exact Or.inr ⟨y, List.mem_cons_self .., h⟩
    · exact Or.inr ⟨z, List.mem_cons_of_mem _ hz, h⟩

end Casual.Discovery

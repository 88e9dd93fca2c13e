import Verif.ConfModel.Group
/-
  Property: an entity is enabled exactly if none of the groups it depends on, directly or
  through other groups, is disabled.
-/
namespace Casual.ConfModel

/-- Specification: a configured group that somebody with these memberships depends on. -/
inductive DependsOn (groups : List DGroup) (memberships : List String) : DGroup → Prop
  | member {g : DGroup} (h : g ∈ groups) (m : g.name ∈ memberships) : DependsOn groups memberships g
  | dependency {g h : DGroup} (d : DependsOn groups memberships g) (k : h ∈ groups)
      (m : h.name ∈ g.dependencies) : DependsOn groups memberships h

theorem mem_appendUnique {α : Type} [DecidableEq α] (range output : List α) (x : α) :
    x ∈ appendUnique range output ↔ x ∈ output ∨ x ∈ range := by
  unfold appendUnique
  induction range generalizing output with
  | nil => simp
  | cons a l ih =>
    rw [List.foldl_cons, ih]
    split
    · rename_i h
      obtain ⟨o, ho, e⟩ := List.any_eq_true.1 h
      have e : o = a := by simpa using e
      subst e
      constructor
      · rintro (h | h)
        · exact Or.inl h
        · exact Or.inr (List.mem_cons_of_mem _ h)
      · rintro (h | h)
        · exact Or.inl h
        · rcases List.mem_cons.1 h with rfl | h
          · exact Or.inl ho
          · exact Or.inr h
    · simp [or_assoc]

theorem mem_transitive_fold (gs : List DGroup) (acc : List String) (x : String) :
    x ∈ gs.foldl (fun result g => appendUnique g.dependencies result) acc ↔
      x ∈ acc ∨ ∃ g ∈ gs, x ∈ g.dependencies := by
  induction gs generalizing acc with
  | nil => simp
  | cons a l ih =>
    rw [List.foldl_cons, ih, mem_appendUnique]
    simp [or_assoc]

theorem mem_transitive (gs : List DGroup) (x : String) :
    x ∈ transitive gs ↔ ∃ g ∈ gs, x ∈ g.dependencies := by
  unfold transitive
  rw [mem_transitive_fold]
  simp

theorem mem_members {ms : List String} {gs : List DGroup} {g : DGroup} :
    g ∈ members ms gs ↔ g ∈ gs ∧ g.name ∈ ms := by
  simp [members, List.mem_filter]

theorem mem_others {ms : List String} {gs : List DGroup} {g : DGroup} :
    g ∈ others ms gs ↔ g ∈ gs ∧ g.name ∉ ms := by
  unfold others
  rw [List.mem_filter]
  simp only [Bool.not_eq_true', List.any_eq_false, decide_eq_true_eq]
  constructor
  · rintro ⟨h, k⟩
    exact ⟨h, fun e => k _ e rfl⟩
  · rintro ⟨h, k⟩
    exact ⟨h, fun x hx e => k (e ▸ hx)⟩

theorem dependsOn_split (gs : List DGroup) (ms : List String) (g : DGroup) :
    DependsOn gs ms g ↔ g ∈ members ms gs ∨ DependsOn (others ms gs) (transitive (members ms gs)) g := by
  constructor
  · intro h
    induction h with
    | member h m => exact Or.inl (mem_members.2 ⟨h, m⟩)
    | @dependency g h d k m ih =>
      by_cases hm : h.name ∈ ms
      · exact Or.inl (mem_members.2 ⟨k, hm⟩)
      · refine Or.inr ?_
        have ho : h ∈ others ms gs := mem_others.2 ⟨k, hm⟩
        rcases ih with ih | ih
        · exact .member ho ((mem_transitive ..).2 ⟨g, ih, m⟩)
        · exact .dependency ih ho m
  · rintro (h | h)
    · exact .member (mem_members.1 h).1 (mem_members.1 h).2
    · induction h with
      | @member g h m =>
        obtain ⟨d, hd, hx⟩ := (mem_transitive ..).1 m
        exact .dependency (.member (mem_members.1 hd).1 (mem_members.1 hd).2) (mem_others.1 h).1 hx
      | dependency d k m ih => exact .dependency ih (mem_others.1 k).1 m

/-- **C199**: enabled if and only if nothing one depends on is disabled. -/
theorem enabled_iff (groups : List DGroup) (memberships : List String) :
    Coordinator.enabled groups memberships = true ↔ ∀ g, DependsOn groups memberships g → g.enabled = true := by
  unfold Coordinator.enabled
  induction memberships, groups using groupsEnabled.induct with
  | case1 ms gs h =>
    unfold groupsEnabled
    rw [if_pos h]
    refine ⟨fun _ g d => ?_, fun _ => rfl⟩
    exfalso
    rcases h with rfl | rfl
    · induction d with
      | member h m => cases m
      | dependency d k m ih => exact ih
    · cases d with
      | member h m => cases h
      | dependency d k m => cases k
  | case2 ms gs h hd =>
    unfold groupsEnabled
    rw [if_neg h, if_pos hd]
    refine ⟨fun e => (by cases e), fun k => ?_⟩
    obtain ⟨g, hg, e⟩ := List.any_eq_true.1 hd
    have := k g (.member (mem_members.1 hg).1 (mem_members.1 hg).2)
    rw [this] at e
    cases e
  | case3 ms gs h hd ih =>
    unfold groupsEnabled
    rw [if_neg h, if_neg hd, ih]
    constructor
    · intro k g d
      rcases (dependsOn_split ..).1 d with d | d
      · cases he : g.enabled with
        | true => rfl
        | false => exact absurd (List.any_eq_true.2 ⟨g, d, by rw [he]; rfl⟩) hd
      · exact k g d
    · intro k g d
      exact k g ((dependsOn_split ..).2 (Or.inr d))

/-- **C199**: the order in which groups are configured does not matter. -/
theorem enabled_order (groups groups' : List DGroup) (memberships : List String)
    (h : ∀ g, g ∈ groups ↔ g ∈ groups') :
    Coordinator.enabled groups memberships = Coordinator.enabled groups' memberships := by
  have aux : ∀ {a b : List DGroup}, (∀ g, g ∈ a ↔ g ∈ b) → ∀ g, DependsOn a memberships g → DependsOn b memberships g := by
    intro a b k g d
    induction d with
    | member h m => exact .member ((k _).1 h) m
    | dependency d h m ih => exact .dependency ih ((k _).1 h) m
  rw [Bool.eq_iff_iff, enabled_iff, enabled_iff]
  exact ⟨fun k g d => k g (aux (fun g => (h g).symm) g d), fun k g d => k g (aux h g d)⟩

/-- A chain with a cycle: the disabled group is found two steps away, the cycle is no problem. -/
example : Coordinator.enabled
    [{ name := "a", dependencies := ["b"] }, { name := "b", dependencies := ["a", "c"] },
     { name := "c", enabled := false }, { name := "d", dependencies := ["b", "nowhere"] }, { name := "e" }] ["d"] = false ∧
  Coordinator.enabled
    [{ name := "a", dependencies := ["b"] }, { name := "b", dependencies := ["a"] }, { name := "c", enabled := false }] ["a"] = true := by
  decide +kernel

end Casual.ConfModel

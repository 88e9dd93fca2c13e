import Verif.Config.Change

/-! The change between two configurations says what to do, and no more (C123). -/
namespace Casual.Config

variable {E K : Type} [DecidableEq E] [DecidableEq K]

/-- What one does with a change: drop the entities that are removed, put the modified
ones in the place of those with the same alias, and append the added ones. -/
def applyChange (alias : E → K) (current : List E) (c : Change E) : List E :=
  ((current.filter fun e => !(c.removed.any fun r => decide (alias r = alias e))).map fun e =>
    (c.modified.find? fun m => decide (alias m = alias e)).getD e) ++ c.added

theorem mem_added {alias : E → K} {current wanted : List E} {e : E} :
    e ∈ (calculate alias current wanted).added ↔ e ∈ wanted ∧ ∀ x ∈ current, alias x ≠ alias e := by
  unfold calculate intersection
  simp only [List.mem_filter, Bool.not_eq_true', List.any_eq_false, decide_eq_true_eq]
  constructor
  · rintro ⟨⟨h1, _⟩, h3⟩
    exact ⟨h1, fun x hx he => h3 x hx he.symm⟩
  · rintro ⟨h1, h2⟩
    exact ⟨⟨h1, fun x hx he => h2 x hx (by rw [he])⟩, fun x hx he => h2 x hx he.symm⟩

theorem mem_modified {alias : E → K} {current wanted : List E} {e : E} :
    e ∈ (calculate alias current wanted).modified ↔ e ∈ wanted ∧ e ∉ current ∧ ∃ x ∈ current, alias x = alias e := by
  unfold calculate intersection
  simp only [List.mem_filter, Bool.not_eq_true', List.any_eq_false, List.any_eq_true, decide_eq_true_eq]
  constructor
  · rintro ⟨⟨h1, h2⟩, x, hx, he⟩
    exact ⟨h1, fun hm => h2 e hm rfl, x, hx, he.symm⟩
  · rintro ⟨h1, h2, x, hx, he⟩
    exact ⟨⟨h1, fun y hy he => h2 (he ▸ hy)⟩, x, hx, he.symm⟩

theorem mem_removed {alias : E → K} {current wanted : List E} {e : E} :
    e ∈ (calculate alias current wanted).removed ↔ e ∈ current ∧ ∀ x ∈ wanted, alias x ≠ alias e := by
  unfold calculate intersection
  simp only [List.mem_filter, Bool.not_eq_true', List.any_eq_false, decide_eq_true_eq]
  constructor
  · rintro ⟨h1, h3⟩
    exact ⟨h1, fun x hx he => h3 x hx he.symm⟩
  · rintro ⟨h1, h2⟩
    exact ⟨h1, fun x hx he => h2 x hx he.symm⟩

/-- The three parts, exactly: added is what is wanted under an alias that is not there,
modified what is wanted, is not there as it is, but something with its alias is, and
removed what is there under an alias that is not wanted. -/
theorem change_calculate (alias : E → K) (current wanted : List E) (e : E) :
    (e ∈ (calculate alias current wanted).added ↔ e ∈ wanted ∧ ∀ x ∈ current, alias x ≠ alias e) ∧
    (e ∈ (calculate alias current wanted).modified ↔ e ∈ wanted ∧ e ∉ current ∧ ∃ x ∈ current, alias x = alias e) ∧
    (e ∈ (calculate alias current wanted).removed ↔ e ∈ current ∧ ∀ x ∈ wanted, alias x ≠ alias e) :=
  ⟨mem_added, mem_modified, mem_removed⟩

theorem inj_of_nodup {alias : E → K} : ∀ {l : List E}, (l.map alias).Nodup → ∀ {a b}, a ∈ l → b ∈ l → alias a = alias b → a = b
  | [], _, a, b, ha, _, _ => by cases ha
  | x :: xs, h, a, b, ha, hb, he => by
    rw [List.map_cons, List.nodup_cons] at h
    rcases List.mem_cons.mp ha with rfl | ha
    · rcases List.mem_cons.mp hb with rfl | hb
      · rfl
      · exact (h.1 (List.mem_map.mpr ⟨b, hb, he.symm⟩)).elim
    · rcases List.mem_cons.mp hb with rfl | hb
      · rename_i ha2 _; first | exact (h.1 (List.mem_map.mpr ⟨a, ha2, he⟩)).elim | exact (h.1 (List.mem_map.mpr ⟨a, by assumption, he⟩)).elim
      · exact inj_of_nodup h.2 ha hb he

/-- The entry that takes the place of a kept one has the same alias. -/
theorem replaced_alias {alias : E → K} (ms : List E) (e : E) :
    alias ((ms.find? fun m => decide (alias m = alias e)).getD e) = alias e := by
  cases h : ms.find? fun m => decide (alias m = alias e) with
  | none => rfl
  | some m => simpa using List.find?_some h

/-- To do what the change says gives what is wanted: nothing else, nothing less and
nothing twice - whatever the two configurations are, if no alias is used twice in one. -/
theorem change_gives_wanted (alias : E → K) (current wanted : List E)
    (hc : (current.map alias).Nodup) (hw : (wanted.map alias).Nodup) :
    (∀ e, e ∈ applyChange alias current (calculate alias current wanted) ↔ e ∈ wanted) ∧
    ((applyChange alias current (calculate alias current wanted)).map alias).Nodup := by
  constructor
  · intro e
    unfold applyChange
    rw [List.mem_append, List.mem_map, mem_added]
    constructor
    · rintro (⟨x, hx, rfl⟩ | h)
      · rw [List.mem_filter] at hx
        obtain ⟨hx, hr⟩ := hx
        rw [Bool.not_eq_true', List.any_eq_false] at hr
        cases hf : (calculate alias current wanted).modified.find? fun m => decide (alias m = alias x) with
        | some m => exact (mem_modified.mp (List.mem_of_find?_eq_some hf)).1
        | none =>
          rw [List.find?_eq_none] at hf
          show x ∈ wanted
          -- its alias is wanted, and what is wanted is not modified
          have : ∃ y ∈ wanted, alias y = alias x := by
            apply Classical.byContradiction
            intro hn
            have hm : x ∈ (calculate alias current wanted).removed :=
              mem_removed.mpr ⟨hx, fun y hy he => hn ⟨y, hy, he⟩⟩
            exact hr x hm (by simp)
          obtain ⟨y, hy, he⟩ := this
          by_cases hyc : y ∈ current
          · exact inj_of_nodup hc hyc hx he ▸ hy
          · exact absurd (by simpa using he) (hf y (mem_modified.mpr ⟨hy, hyc, x, hx, he.symm⟩))
      · exact h.1
    · intro h
      by_cases hn : ∃ x ∈ current, alias x = alias e
      · obtain ⟨x, hx, he⟩ := hn
        refine Or.inl ⟨x, ?_, ?_⟩
        · rw [List.mem_filter]
          refine ⟨hx, ?_⟩
          rw [Bool.not_eq_true', List.any_eq_false]
          intro r hr hra
          exact (mem_removed.mp hr).2 e h (by rw [of_decide_eq_true hra, he])
        · cases hf : (calculate alias current wanted).modified.find? fun m => decide (alias m = alias x) with
          | some m =>
            have := List.find?_some hf
            exact inj_of_nodup hw (mem_modified.mp (List.mem_of_find?_eq_some hf)).1 h
              ((of_decide_eq_true this).trans he)
          | none =>
            rw [List.find?_eq_none] at hf
            show x = e
            by_cases hec : e ∈ current
            · exact inj_of_nodup hc hx hec he
            · exact absurd (by simpa using he.symm) (hf e (mem_modified.mpr ⟨h, hec, x, hx, he⟩))
      · exact Or.inr ⟨h, fun x hx he => hn ⟨x, hx, he⟩⟩
  · unfold applyChange
    rw [List.map_append, List.nodup_append]
    refine ⟨?_, ?_, ?_⟩
    · rw [List.map_map]
      have : (alias ∘ fun e => ((calculate alias current wanted).modified.find? fun m => decide (alias m = alias e)).getD e) = alias := by
        funext e
        exact replaced_alias _ e
      rw [this]
      exact hc.sublist (List.filter_sublist.map alias)
    · have : ((calculate alias current wanted).added.map alias).Sublist (wanted.map alias) := by
        unfold calculate intersection
        exact (List.filter_sublist.trans List.filter_sublist).map alias
      exact hw.sublist this
    · intro a ha b hb hab
      rw [List.map_map] at ha
      obtain ⟨x, hx, rfl⟩ := List.mem_map.mp ha
      obtain ⟨y, hy, rfl⟩ := List.mem_map.mp hb
      have hx' := (List.mem_filter.mp hx).1
      refine (mem_added.mp hy).2 x hx' ?_
      rw [← hab]
      exact (replaced_alias _ x).symm

/-- No unnecessary work: when nothing is to be done nothing is said to be. -/
theorem change_none (alias : E → K) (l : List E) : calculate alias l l = { added := [], modified := [], removed := [] } := by
  have h1 : (calculate alias l l).added = [] := by
    rw [List.eq_nil_iff_forall_not_mem]
    intro e he
    exact (mem_added.mp he).2 e (mem_added.mp he).1 rfl
  have h2 : (calculate alias l l).modified = [] := by
    rw [List.eq_nil_iff_forall_not_mem]
    intro e he
    exact (mem_modified.mp he).2.1 (mem_modified.mp he).1
  have h3 : (calculate alias l l).removed = [] := by
    rw [List.eq_nil_iff_forall_not_mem]
    intro e he
    exact (mem_removed.mp he).2 e (mem_removed.mp he).1 rfl
  cases h : calculate alias l l
  rw [h] at h1 h2 h3
  dsimp only at h1 h2 h3
  rw [h1, h2, h3]

/-- One of each: `("b", 2)` is removed, `("c", 3)` modified, `("d", 4)` added, `("a", 1)` as before. -/
example : calculate Prod.fst [("a", 1), ("b", 2), ("c", 2)] [("c", 3), ("d", 4), ("a", 1)] =
    { added := [("d", 4)], modified := [("c", 3)], removed := [("b", 2)] } := by decide +kernel

example : applyChange Prod.fst [("a", 1), ("b", 2), ("c", 2)]
    (calculate Prod.fst [("a", 1), ("b", 2), ("c", 2)] [("c", 3), ("d", 4), ("a", 1)]) =
    [("a", 1), ("c", 3), ("d", 4)] := by decide +kernel

end Casual.Config

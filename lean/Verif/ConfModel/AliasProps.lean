import Verif.ConfModel.Alias
import Verif.ConfModel.GroupProps
/-
  Properties of the normalization of a configuration: aliases are unique, implicit aliases
  are resolved wherever they are used, what is enabled.
-/
namespace Casual.ConfModel

/-! ### Counting -/

/-- The aliases that have been used. -/
def used (count : List (String × Nat)) : List String := count.map (·.1)

/-- Every alias in the map has been counted. -/
def Counted (count : List (String × Nat)) : Prop := ∀ p ∈ count, p.2 ≠ 0

theorem countOf_absent {count : List (String × Nat)} {a : String} (h : a ∉ used count) : countOf count a = 0 := by
  unfold countOf
  have : count.find? (fun p => decide (p.1 = a)) = none := by
    rw [List.find?_eq_none]
    intro p hp
    have : p.1 ≠ a := fun e => h (List.mem_map.2 ⟨p, hp, e⟩)
    simpa using this
  rw [this]

theorem countOf_present {count : List (String × Nat)} (hc : Counted count) {a : String} (h : a ∈ used count) :
    countOf count a ≠ 0 := by
  obtain ⟨p, hp, e⟩ := List.mem_map.1 h
  unfold countOf
  split
  · rename_i q hq
    exact hc q (List.mem_of_find?_eq_some hq)
  · rename_i hn
    exact absurd (by simpa using e) (List.find?_eq_none.1 hn p hp)

theorem used_countSet_present {count : List (String × Nat)} {a : String} {n : Nat} (h : a ∈ used count) :
    used (countSet count a n) = used count := by
  obtain ⟨p, hp, e⟩ := List.mem_map.1 h
  unfold countSet
  rw [if_pos (List.any_eq_true.2 ⟨p, hp, by simpa using e⟩)]
  unfold used
  rw [List.map_map]
  apply List.map_congr_left
  intro q _
  simp only [Function.comp]
  split <;> rfl

theorem countSet_absent {count : List (String × Nat)} {a : String} {n : Nat} (h : a ∉ used count) :
    countSet count a n = count ++ [(a, n)] := by
  unfold countSet
  rw [if_neg]
  intro k
  obtain ⟨p, hp, e⟩ := List.any_eq_true.1 k
  exact h (List.mem_map.2 ⟨p, hp, by simpa using e⟩)

theorem Counted.set {count : List (String × Nat)} (hc : Counted count) {a : String} {n : Nat} (hn : n ≠ 0) :
    Counted (countSet count a n) := by
  unfold countSet
  split
  · intro p hp
    obtain ⟨q, hq, rfl⟩ := List.mem_map.1 hp
    split
    · exact hn
    · exact hc q hq
  · intro p hp
    rcases List.mem_append.1 hp with hp | hp
    · exact hc p hp
    · cases List.mem_singleton.1 hp
      exact hn

theorem addIndex_absent {count : List (String × Nat)} {a : String} (h : a ∉ used count) :
    addIndex count a = (count ++ [(a, 1)], a) := by
  unfold addIndex
  simp only [countOf_absent h, Nat.zero_add, ↓reduceIte, countSet_absent h]

theorem addIndex_spec {count : List (String × Nat)} {a : String} (hc : Counted count) :
    Counted (addIndex count a).1 ∧ used (addIndex count a).1 = used count ++ [(addIndex count a).2] ∧
      (addIndex count a).2 ∉ used count ∧ ∃ t, (addIndex count a).2 = a ++ t := by
  induction count, a using addIndex.induct with
  | case1 count a n h =>
    have h0 : countOf count a = 0 := by simp only [n] at h; omega
    have ha : a ∉ used count := fun k => countOf_present hc k h0
    rw [addIndex_absent ha]
    refine ⟨?_, ?_, ha, "", ?_⟩
    · intro p hp
      rcases List.mem_append.1 hp with hp | hp
      · exact hc p hp
      · cases List.mem_singleton.1 hp
        exact Nat.one_ne_zero
    · simp [used]
    · simp
  | case2 count a n count' h ih =>
    have h0 : countOf count a ≠ 0 := by simp only [n] at h; omega
    have ha : a ∈ used count := by
      obtain ⟨p, hp, e⟩ := countOf_pos h0
      exact List.mem_map.2 ⟨p, hp, e⟩
    have hn : n ≠ 0 := by simp only [n]; omega
    obtain ⟨i1, i2, i3, t, i4⟩ := ih (hc.set hn)
    have e : addIndex count a = addIndex count' (a ++ "." ++ Nat.repr n) := by
      rw [addIndex]
      exact if_neg h
    rw [e]
    have hu : used count' = used count := used_countSet_present ha
    rw [hu] at i2 i3
    refine ⟨i1, i2, i3, "." ++ Nat.repr n ++ t, ?_⟩
    rw [i4]
    simp [String.append_assoc]

/-- The name an alias is made of. -/
def base (prospect alias : String) : String := if alias = "" ∨ isPlaceholder alias = true then prospect else alias

theorem mutate_eq (s : AState) (prospect alias : String) :
    (mutate s prospect alias).2 = (addIndex s.count (base prospect alias)).2 ∧
    (mutate s prospect alias).1.count = (addIndex s.count (base prospect alias)).1 := by
  unfold mutate base
  by_cases h : alias = ""
  · simp [h]
  · by_cases hp : isPlaceholder alias = true
    · simp [h, hp]
    · simp [h, hp]

section all
variable {α : Type} {get : α → String} {set : α → String → α} {prospect : α → String}

theorem mutateAll_unique (hg : ∀ x a, get (set x a) = a) (l : List α) (s : AState) (hc : Counted s.count) :
    Counted (mutateAll get set prospect s l).1.count ∧
    used (mutateAll get set prospect s l).1.count = used s.count ++ (mutateAll get set prospect s l).2.map get ∧
    ((mutateAll get set prospect s l).2.map get).Nodup ∧
    ∀ a ∈ (mutateAll get set prospect s l).2.map get, a ∉ used s.count := by
  induction l generalizing s with
  | nil => exact ⟨hc, by simp [mutateAll], List.nodup_nil, fun a h => by cases h⟩
  | cons x xs ih =>
    obtain ⟨e2, e1⟩ := mutate_eq s (prospect x) (get x)
    obtain ⟨a1, a2, a3, -⟩ := addIndex_spec (a := base (prospect x) (get x)) hc
    rw [← e1] at a1
    rw [← e1, ← e2] at a2
    rw [← e2] at a3
    obtain ⟨i1, i2, i3, i4⟩ := ih (mutate s (prospect x) (get x)).1 a1
    simp only [mutateAll, List.map_cons, hg]
    refine ⟨i1, ?_, ?_, ?_⟩
    · rw [i2, a2]
      simp
    · rw [List.nodup_cons]
      refine ⟨fun h => ?_, i3⟩
      have := i4 _ h
      rw [a2] at this
      exact this (List.mem_append.2 (Or.inr (List.mem_singleton.2 rfl)))
    · intro a ha
      rcases List.mem_cons.1 ha with rfl | ha
      · exact a3
      · have := i4 a ha
        rw [a2] at this
        exact fun h => this (List.mem_append.2 (Or.inl h))

/-- If the names the aliases are made of are different, and not used yet, they are the aliases. -/
theorem mutateAll_kept (l : List α) (s : AState)
    (hn : (l.map fun x => base (prospect x) (get x)).Nodup)
    (hf : ∀ x ∈ l, base (prospect x) (get x) ∉ used s.count) :
    (mutateAll get set prospect s l).2 = l.map (fun x => set x (base (prospect x) (get x))) ∧
    used (mutateAll get set prospect s l).1.count = used s.count ++ l.map (fun x => base (prospect x) (get x)) := by
  induction l generalizing s with
  | nil => exact ⟨rfl, by simp [mutateAll]⟩
  | cons x xs ih =>
    obtain ⟨e2, e1⟩ := mutate_eq s (prospect x) (get x)
    have ha := addIndex_absent (hf x List.mem_cons_self)
    rw [ha] at e1 e2
    simp only [List.map_cons, List.nodup_cons] at hn
    have hu : used (mutate s (prospect x) (get x)).1.count = used s.count ++ [base (prospect x) (get x)] := by
      rw [e1]; simp [used]
    obtain ⟨i1, i2⟩ := ih (mutate s (prospect x) (get x)).1 hn.2 (by
      intro y hy
      rw [hu]
      intro h
      rcases List.mem_append.1 h with h | h
      · exact hf y (List.mem_cons_of_mem _ hy) h
      · exact hn.1 (List.mem_map.2 ⟨y, hy, List.mem_singleton.1 h⟩))
    simp only [mutateAll, List.map_cons]
    rw [i1, i2, hu, e2]
    exact ⟨rfl, by simp⟩

theorem mutateAll_prefix (l : List α) (s : AState) (hc : Counted s.count) :
    ∀ p ∈ l.zip (mutateAll get set prospect s l).2, ∃ t, p.2 = set p.1 (base (prospect p.1) (get p.1) ++ t) := by
  induction l generalizing s with
  | nil => intro p hp; cases hp
  | cons x xs ih =>
    obtain ⟨e2, e1⟩ := mutate_eq s (prospect x) (get x)
    obtain ⟨a1, a2, a3, t, a4⟩ := addIndex_spec (a := base (prospect x) (get x)) hc
    rw [← e1] at a1
    simp only [mutateAll, List.zip_cons_cons]
    intro p hp
    rcases List.mem_cons.1 hp with rfl | hp
    · exact ⟨t, by simp only [e2, a4]⟩
    · exact ih _ a1 p hp

theorem mutateAll_strip {β : Type} (f : α → β) (hf : ∀ x a, f (set x a) = f x) (l : List α) (s : AState) :
    (mutateAll get set prospect s l).2.map f = l.map f := by
  induction l generalizing s with
  | nil => rfl
  | cons x xs ih => simp only [mutateAll, List.map_cons, hf, ih]

/-! ### Placeholders -/

/-- What a placeholder stands for. -/
def stands (m : List (String × String)) (p : String) : Option String :=
  (m.find? fun q => decide (q.1 = p)).map (·.2)

theorem stands_emplace (m : List (String × String)) (k v p : String) :
    stands (emplace m k v) p = match stands m p with | some x => some x | none => if p = k then some v else none := by
  unfold emplace
  split
  · rename_i h
    obtain ⟨q, hq, e⟩ := List.any_eq_true.1 h
    cases hs : stands m p with
    | some x => rfl
    | none =>
      simp only
      rw [if_neg]
      rintro rfl
      unfold stands at hs
      rw [Option.map_eq_none_iff, List.find?_eq_none] at hs
      exact hs q hq e
  · unfold stands
    rw [List.find?_append]
    cases hf : m.find? (fun q => decide (q.1 = p)) with
    | some x => rfl
    | none =>
      simp only [Option.none_or, Option.map_none, List.find?_cons, List.find?_nil]
      by_cases hk : p = k
      · subst hk
        simp
      · rw [if_neg hk]
        have : decide (k = p) = false := by simpa using fun e => hk e.symm
        rw [this]
        rfl

theorem stands_mutate {s : AState} {p x : String} (a b : String) (h : stands s.placeholders p = some x) :
    stands (mutate s a b).1.placeholders p = some x := by
  unfold mutate
  split
  · exact h
  · split
    · show stands (emplace _ _ _) p = some x
      rw [stands_emplace, h]
    · exact h

theorem stands_mutateAll {l : List α} {s : AState} {p x : String} (h : stands s.placeholders p = some x) :
    stands (mutateAll get set prospect s l).1.placeholders p = some x := by
  induction l generalizing s with
  | nil => exact h
  | cons y ys ih => exact ih (stands_mutate _ _ h)

theorem stands_mutate_none {s : AState} {p : String} {a b : String} (h : stands s.placeholders p = none) (hb : b ≠ p) :
    stands (mutate s a b).1.placeholders p = none := by
  unfold mutate
  split
  · exact h
  · split
    · show stands (emplace _ _ _) p = none
      rw [stands_emplace, h]
      simp only
      rw [if_neg fun e => hb e.symm]
    · exact h

theorem stands_mutateAll_none {l : List α} {s : AState} {p : String} (h : stands s.placeholders p = none)
    (hb : ∀ x ∈ l, get x ≠ p) : stands (mutateAll get set prospect s l).1.placeholders p = none := by
  induction l generalizing s with
  | nil => exact h
  | cons y ys ih =>
    exact ih (stands_mutate_none h (hb y List.mem_cons_self)) fun x hx => hb x (List.mem_cons_of_mem _ hx)

theorem isPlaceholder_ne_nil {p : String} (h : isPlaceholder p = true) : p ≠ "" := by
  rintro rfl
  exact absurd h (by decide +kernel)

/-- A placeholder stands for the alias that its entity gets. -/
theorem mutateAll_stands (hg : ∀ x a, get (set x a) = a) (l : List α) (s : AState)
    (p : String) (hp : isPlaceholder p = true) (h0 : stands s.placeholders p = none)
    (pre post : List α) (x : α) (hl : l = pre ++ x :: post) (hx : get x = p) (hpre : ∀ y ∈ pre, get y ≠ p) :
    ∃ y, (mutateAll get set prospect s l).2[pre.length]? = some y ∧
      stands (mutateAll get set prospect s l).1.placeholders p = some (get y) := by
  subst hl
  induction pre generalizing s with
  | nil =>
    refine ⟨set x (mutate s (prospect x) (get x)).2, by simp [mutateAll], ?_⟩
    simp only [List.nil_append, mutateAll, hg]
    apply stands_mutateAll
    rw [hx]
    unfold mutate
    rw [if_neg (isPlaceholder_ne_nil hp), if_pos hp]
    show stands (emplace _ _ _) p = _
    rw [stands_emplace, h0]
    simp
  | cons z zs ih =>
    obtain ⟨y, hy, hs⟩ := ih (mutate s (prospect z) (get z)).1
      (stands_mutate_none h0 (hpre z List.mem_cons_self)) fun y hy => hpre y (List.mem_cons_of_mem _ hy)
    exact ⟨y, by simpa [mutateAll] using hy, by simpa [mutateAll] using hs⟩

theorem resolveAll_spec {m : List (String × String)} {l r : List α} (h : resolveAll get set m l = some r) :
    r.length = l.length ∧ ∀ (i : Nat) (x : α), l[i]? = some x → ∃ a, resolve m (get x) = some a ∧ r[i]? = some (set x a) := by
  induction l generalizing r with
  | nil => cases h; exact ⟨rfl, fun i x hx => by simp at hx⟩
  | cons x xs ih =>
    simp only [resolveAll] at h
    split at h
    · rename_i a r' ha hr
      cases h
      obtain ⟨i1, i2⟩ := ih hr
      refine ⟨by simp [i1], fun i y hy => ?_⟩
      cases i with
      | zero =>
        simp only [List.getElem?_cons_zero, Option.some.injEq] at hy
        subst hy
        exact ⟨a, ha, by simp⟩
      | succ i =>
        simp only [List.getElem?_cons_succ] at hy
        obtain ⟨b, hb, k⟩ := i2 i y hy
        exact ⟨b, hb, by simpa using k⟩
    · cases h

theorem resolveAll_total {m : List (String × String)} {l : List α}
    (h : ∀ x ∈ l, isPlaceholder (get x) = true → stands m (get x) ≠ none) : ∃ r, resolveAll get set m l = some r := by
  induction l with
  | nil => exact ⟨[], rfl⟩
  | cons x xs ih =>
    obtain ⟨r, hr⟩ := ih fun y hy => h y (List.mem_cons_of_mem _ hy)
    have : ∃ a, resolve m (get x) = some a := by
      unfold resolve
      split
      · rename_i hp
        have := h x List.mem_cons_self hp
        exact Option.ne_none_iff_exists'.1 this
      · exact ⟨_, rfl⟩
    obtain ⟨a, ha⟩ := this
    exact ⟨set x a :: r, by simp only [resolveAll, ha, hr]⟩

end all

theorem stands_normForward {s : AState} {g : FGroup} {p x : String} (h : stands s.placeholders p = some x) :
    stands (normForward s g).1.placeholders p = some x :=
  stands_mutateAll (stands_mutateAll (stands_mutate _ _ h))

theorem stands_normForwards {s : AState} {l : List FGroup} {p x : String} (h : stands s.placeholders p = some x) :
    stands (normForwards s l).1.placeholders p = some x := by
  induction l generalizing s with
  | nil => exact h
  | cons g gs ih => exact ih (stands_normForward h)

end Casual.ConfModel

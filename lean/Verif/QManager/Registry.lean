import Verif.QManager.Frame

/-! The registry of queues, as a function from names to providers. -/
namespace Casual.QManager

/-- The providers of a name. -/
def look (qs : List (Name × List Inst)) (n : Name) : List Inst :=
  match qs.find? (·.1 == n) with
  | some p => p.2
  | none => []

theorem instances_eq (c : Core) (n : Name) : c.instances n = look c.queues n := rfl

/-- Distinct names, and no name without providers. -/
structure Shape (qs : List (Name × List Inst)) : Prop where
  keys : (qs.map (·.1)).Nodup
  some : ∀ q ∈ qs, q.2 ≠ []

theorem look_of_mem {qs : List (Name × List Inst)} (h : Shape qs) {q : Name × List Inst} (hq : q ∈ qs) : look qs q.1 = q.2 := by
  obtain ⟨hk, _⟩ := h
  unfold look
  induction qs with
  | nil => cases hq
  | cons x xs ih =>
    rw [List.map_cons, List.nodup_cons] at hk
    rw [List.find?_cons]
    rcases List.mem_cons.mp hq with rfl | hq'
    · simp
    · have : x.1 ≠ q.1 := fun he => hk.1 (he ▸ List.mem_map.mpr ⟨q, hq', rfl⟩)
      have hb : (x.1 == q.1) = false := by simpa using this
      rw [hb]
      exact ih hq' hk.2 (fun q hq => by rename_i hs; exact hs q (List.mem_cons_of_mem _ hq))

theorem look_of_not_mem {qs : List (Name × List Inst)} {n : Name} (h : n ∉ qs.map (·.1)) : look qs n = [] := by
  unfold look
  have : qs.find? (·.1 == n) = none := by
    rw [List.find?_eq_none]
    intro q hq
    have : q.1 ≠ n := fun he => h (he ▸ List.mem_map.mpr ⟨q, hq, rfl⟩)
    simpa using this
  rw [this]

theorem look_mem {qs : List (Name × List Inst)} {n : Name} (h : look qs n ≠ []) : (n, look qs n) ∈ qs := by
  unfold look at *
  cases hf : qs.find? (·.1 == n) with
  | none => rw [hf] at h; exact absurd rfl h
  | some p =>
    have h1 := List.mem_of_find?_eq_some hf
    have h2 := List.find?_some hf
    have : p.1 = n := by simpa using h2
    subst this
    exact h1

theorem look_eq_nil_iff {qs : List (Name × List Inst)} (h : Shape qs) {n : Name} : look qs n = [] ↔ n ∉ qs.map (·.1) := by
  constructor
  · intro he hm
    obtain ⟨q, hq, rfl⟩ := List.mem_map.mp hm
    rw [look_of_mem h hq] at he
    exact h.some q hq he
  · exact look_of_not_mem

/-! ### Sorting -/

theorem mem_insertByOrder {i j : Inst} : ∀ {l : List Inst}, j ∈ insertByOrder i l ↔ j = i ∨ j ∈ l
  | [] => by simp [insertByOrder]
  | x :: xs => by
    unfold insertByOrder
    split
    · simp
    · rw [List.mem_cons, mem_insertByOrder, List.mem_cons]
      constructor
      · rintro (h | h | h)
        · exact Or.inr (Or.inl h)
        · exact Or.inl h
        · exact Or.inr (Or.inr h)
      · rintro (h | h | h)
        · exact Or.inr (Or.inl h)
        · exact Or.inl h
        · exact Or.inr (Or.inr h)

theorem mem_foldl_insert {j : Inst} : ∀ (l acc : List Inst),
    j ∈ l.foldl (fun acc i => insertByOrder i acc) acc ↔ j ∈ l ∨ j ∈ acc
  | [], acc => by simp
  | x :: xs, acc => by
    rw [List.foldl_cons, mem_foldl_insert xs, mem_insertByOrder, List.mem_cons]
    constructor
    · rintro (h | h | h)
      · exact Or.inl (Or.inr h)
      · exact Or.inl (Or.inl h)
      · exact Or.inr h
    · rintro ((h | h) | h)
      · exact Or.inr (Or.inl h)
      · exact Or.inl h
      · exact Or.inr (Or.inr h)

theorem mem_sortByOrder {j : Inst} {l : List Inst} : j ∈ sortByOrder l ↔ j ∈ l := by
  unfold sortByOrder
  rw [mem_foldl_insert]
  simp

def Sorted (l : List Inst) : Prop := l.Pairwise fun a b => a.order ≤ b.order

theorem sorted_insert {i : Inst} : ∀ {l : List Inst}, Sorted l → Sorted (insertByOrder i l)
  | [], _ => by simp [insertByOrder, Sorted]
  | x :: xs, h => by
    unfold Sorted at h
    rw [List.pairwise_cons] at h
    unfold insertByOrder
    split
    · rename_i hlt
      unfold Sorted
      rw [List.pairwise_cons]
      refine ⟨?_, List.pairwise_cons.mpr h⟩
      intro b hb
      rcases List.mem_cons.mp hb with rfl | hb
      · omega
      · have := h.1 b hb; omega
    · rename_i hlt
      unfold Sorted
      rw [List.pairwise_cons]
      refine ⟨?_, sorted_insert h.2⟩
      intro b hb
      rcases mem_insertByOrder.mp hb with rfl | hb
      · omega
      · exact h.1 b hb

theorem sorted_sort (l : List Inst) : Sorted (sortByOrder l) := by
  unfold sortByOrder
  have : ∀ (l acc : List Inst), Sorted acc → Sorted (l.foldl (fun acc i => insertByOrder i acc) acc) := by
    intro l
    induction l with
    | nil => intro acc h; exact h
    | cons x xs ih => intro acc h; exact ih _ (sorted_insert h)
  exact this l [] List.Pairwise.nil

theorem sort_ne_nil {l : List Inst} (h : l ≠ []) : sortByOrder l ≠ [] := by
  obtain ⟨x, hx⟩ := List.exists_mem_of_ne_nil _ h
  intro he
  have : x ∈ sortByOrder l := mem_sortByOrder.mpr hx
  rw [he] at this; cases this

/-! ### The operations -/

theorem addInst_keys (qs : List (Name × List Inst)) (n : Name) (i : Inst) :
    (addInst qs n i).map (·.1) = if n ∈ qs.map (·.1) then qs.map (·.1) else qs.map (·.1) ++ [n] := by
  unfold addInst
  have hiff : qs.any (·.1 == n) = true ↔ n ∈ qs.map (·.1) := by
    rw [List.any_eq_true, List.mem_map]
    constructor
    · rintro ⟨q, hq, he⟩; exact ⟨q, hq, by simpa using he⟩
    · rintro ⟨q, hq, he⟩; exact ⟨q, hq, by simpa using he⟩
  by_cases h : n ∈ qs.map (·.1)
  · rw [if_pos (hiff.mpr h), if_pos h, List.map_map]
    apply List.map_congr_left
    intro q _
    dsimp only [Function.comp]
    split <;> rfl
  · rw [if_neg (fun hc => h (hiff.mp hc)), if_neg h, List.map_append]; rfl

theorem addInst_shape {qs : List (Name × List Inst)} (h : Shape qs) (n : Name) (i : Inst) : Shape (addInst qs n i) := by
  refine ⟨?_, ?_⟩
  · rw [addInst_keys]
    split
    · exact h.keys
    · rename_i hn
      rw [List.nodup_append]
      refine ⟨h.keys, by simp, ?_⟩
      intro a ha b hb hab
      rw [List.mem_singleton] at hb
      subst hab; subst hb; exact hn ha
  · unfold addInst
    split
    · intro q hq
      obtain ⟨r, hr, rfl⟩ := List.mem_map.mp hq
      split
      · exact sort_ne_nil (by simp)
      · exact h.some r hr
    · intro q hq
      rcases List.mem_append.mp hq with hq | hq
      · exact h.some q hq
      · rw [List.mem_singleton] at hq
        subst hq
        exact sort_ne_nil (by simp)

theorem look_addInst {qs : List (Name × List Inst)} (h : Shape qs) (n m : Name) (i : Inst) :
    look (addInst qs n i) m = if m = n then sortByOrder (look qs n ++ [i]) else look qs m := by
  have hs := addInst_shape h n i
  by_cases hmn : m = n
  · rw [if_pos hmn]
    subst hmn
    by_cases hk : m ∈ qs.map (·.1)
    · obtain ⟨q, hq, rfl⟩ := List.mem_map.mp hk
      have hany : qs.any (·.1 == q.1) = true := List.any_eq_true.mpr ⟨q, hq, by simp⟩
      have : (q.1, sortByOrder (q.2 ++ [i])) ∈ addInst qs q.1 i := by
        unfold addInst
        rw [if_pos hany]
        exact List.mem_map.mpr ⟨q, hq, by simp⟩
      rw [look_of_mem h hq]
      exact look_of_mem hs this
    · have hany : ¬ qs.any (·.1 == m) = true := fun hc => by
        obtain ⟨q, hq, he⟩ := List.any_eq_true.mp hc
        exact hk (List.mem_map.mpr ⟨q, hq, by simpa using he⟩)
      have : (m, sortByOrder [i]) ∈ addInst qs m i := by
        unfold addInst
        rw [if_neg hany]
        exact List.mem_append.mpr (Or.inr (List.mem_singleton.mpr rfl))
      rw [look_of_not_mem hk]
      exact look_of_mem hs this
  · rw [if_neg hmn]
    by_cases hk : m ∈ qs.map (·.1)
    · obtain ⟨q, hq, rfl⟩ := List.mem_map.mp hk
      rw [look_of_mem h hq]
      have : q ∈ addInst qs n i := by
        unfold addInst
        split
        · exact List.mem_map.mpr ⟨q, hq, by rw [if_neg (by simpa using hmn)]⟩
        · exact List.mem_append.mpr (Or.inl hq)
      exact look_of_mem hs this
    · rw [look_of_not_mem hk]
      apply look_of_not_mem
      rw [addInst_keys]
      split
      · exact hk
      · rw [List.mem_append, List.mem_singleton]
        rintro (h | h)
        · exact hk h
        · exact hmn h

theorem filter_keys_nodup {qs : List (Name × List Inst)} (h : (qs.map (·.1)).Nodup) (p : Name × List Inst → Bool) :
    ((qs.filter p).map (·.1)).Nodup :=
  h.sublist (List.Sublist.map _ List.filter_sublist)

theorem removeInsts_shape {qs : List (Name × List Inst)} (h : Shape qs) (p : Inst → Bool) : Shape (removeInsts qs p) := by
  unfold removeInsts
  refine ⟨?_, ?_⟩
  · apply filter_keys_nodup
    rw [List.map_map]
    exact h.keys
  · intro q hq
    have := (List.mem_filter.mp hq).2
    intro he
    rw [he] at this
    cases this

theorem look_removeInsts {qs : List (Name × List Inst)} (h : Shape qs) (p : Inst → Bool) (m : Name) :
    look (removeInsts qs p) m = (look qs m).filter fun i => !p i := by
  have hs := removeInsts_shape h p
  by_cases hk : m ∈ qs.map (·.1)
  · obtain ⟨q, hq, rfl⟩ := List.mem_map.mp hk
    rw [look_of_mem h hq]
    by_cases he : q.2.filter (fun i => !p i) = []
    · rw [he]
      apply look_of_not_mem
      intro hm
      obtain ⟨r, hr, hre⟩ := List.mem_map.mp hm
      unfold removeInsts at hr
      obtain ⟨hr1, hr2⟩ := List.mem_filter.mp hr
      obtain ⟨q', hq', rfl⟩ := List.mem_map.mp hr1
      have hqq : q' = q := by
        have h1 := look_of_mem h hq'
        have h2 := look_of_mem h hq
        rw [show q'.1 = q.1 from hre] at h1
        have : q'.2 = q.2 := h1.symm.trans h2
        exact Prod.ext hre this
      rw [hqq] at hr2
      simp [he] at hr2
    · have : (q.1, q.2.filter fun i => !p i) ∈ removeInsts qs p := by
        unfold removeInsts
        refine List.mem_filter.mpr ⟨List.mem_map.mpr ⟨q, hq, rfl⟩, ?_⟩
        cases hx : q.2.filter fun i => !p i with
        | nil => exact absurd hx he
        | cons => rfl
      exact look_of_mem hs this
  · rw [look_of_not_mem hk, List.filter_nil]
    apply look_of_not_mem
    intro hm
    obtain ⟨r, hr, rfl⟩ := List.mem_map.mp hm
    unfold removeInsts at hr
    obtain ⟨q', hq', rfl⟩ := List.mem_map.mp (List.mem_filter.mp hr).1
    exact hk (List.mem_map.mpr ⟨q', hq', rfl⟩)

theorem removeName_shape {qs : List (Name × List Inst)} (h : Shape qs) (n : Name) (ipc : Ipc) : Shape (removeName qs n ipc) := by
  unfold removeName
  refine ⟨?_, ?_⟩
  · apply filter_keys_nodup
    rw [List.map_map]
    have : ((fun q : Name × List Inst => q.1) ∘ fun q : Name × List Inst =>
        if q.1 == n then (q.1, q.2.filter fun i => !(i.process.ipc == ipc)) else q) = fun q => q.1 := by
      funext q
      dsimp only [Function.comp]
      split <;> rfl
    rw [this]
    exact h.keys
  · intro q hq
    obtain ⟨h1, h2⟩ := List.mem_filter.mp hq
    obtain ⟨r, hr, rfl⟩ := List.mem_map.mp h1
    intro he
    split at he <;> rename_i hn
    · rw [if_pos hn] at h2
      dsimp only at h2 he
      rw [he, hn] at h2
      cases h2
    · exact h.some r hr he

theorem look_removeName {qs : List (Name × List Inst)} (h : Shape qs) (n : Name) (ipc : Ipc) (m : Name) :
    look (removeName qs n ipc) m =
      if m = n then (look qs n).filter fun i => !(i.process.ipc == ipc) else look qs m := by
  have hs := removeName_shape h n ipc
  have hin : ∀ q ∈ removeName qs n ipc, ∃ q' ∈ qs, q.1 = q'.1 ∧
      q.2 = (if q'.1 = n then q'.2.filter fun i => !(i.process.ipc == ipc) else q'.2) := by
    intro q hq
    unfold removeName at hq
    obtain ⟨q', hq', rfl⟩ := List.mem_map.mp (List.mem_filter.mp hq).1
    refine ⟨q', hq', ?_⟩
    by_cases hn : q'.1 = n
    · rw [if_pos (by simpa using hn), if_pos hn]; exact ⟨rfl, rfl⟩
    · rw [if_neg (by simpa using hn), if_neg hn]; exact ⟨rfl, rfl⟩
  by_cases hk : m ∈ qs.map (·.1)
  · obtain ⟨q, hq, rfl⟩ := List.mem_map.mp hk
    by_cases hn : q.1 = n
    · rw [if_pos hn, ← hn, look_of_mem h hq]
      by_cases he : q.2.filter (fun i => !(i.process.ipc == ipc)) = []
      · rw [he]
        apply look_of_not_mem
        intro hm
        obtain ⟨r, hr, hre⟩ := List.mem_map.mp hm
        rw [hn] at hr
        obtain ⟨q', hq', h1, h2⟩ := hin r hr
        have hqq : q' = q := by
          have e1 := look_of_mem h hq'
          have e2 := look_of_mem h hq
          rw [show q'.1 = q.1 from h1.symm.trans hre] at e1
          exact Prod.ext (h1.symm.trans hre) (e1.symm.trans e2)
        subst hqq
        rw [if_pos hn] at h2
        exact hs.some r (by rw [hn] at *; exact hr) (h2.trans he)
      · have : (q.1, q.2.filter fun i => !(i.process.ipc == ipc)) ∈ removeName qs q.1 ipc := by
          unfold removeName
          refine List.mem_filter.mpr ⟨List.mem_map.mpr ⟨q, hq, by rw [if_pos (by simp)]⟩, ?_⟩
          cases hx : q.2.filter fun i => !(i.process.ipc == ipc) with
          | nil => exact absurd hx he
          | cons => simp
        rw [hn] at this ⊢
        exact look_of_mem hs this
    · rw [if_neg hn, look_of_mem h hq]
      have : q ∈ removeName qs n ipc := by
        unfold removeName
        refine List.mem_filter.mpr ⟨List.mem_map.mpr ⟨q, hq, by rw [if_neg (by simpa using hn)]⟩, ?_⟩
        have : (q.1 == n) = false := by simpa using hn
        rw [this]; rfl
      exact look_of_mem hs this
  · have h0 : look (removeName qs n ipc) m = [] := by
      apply look_of_not_mem
      intro hm
      obtain ⟨r, hr, rfl⟩ := List.mem_map.mp hm
      obtain ⟨q', hq', h1, _⟩ := hin r hr
      exact hk (List.mem_map.mpr ⟨q', hq', h1.symm⟩)
    rw [h0]
    split
    · rename_i hmn
      subst hmn
      rw [look_of_not_mem hk]; rfl
    · rw [look_of_not_mem hk]

theorem mapInsts_shape {qs : List (Name × List Inst)} (h : Shape qs) (f : List Inst → List Inst) (hf : ∀ l, l ≠ [] → f l ≠ []) :
    Shape (qs.map fun q => (q.1, f q.2)) := by
  refine ⟨?_, ?_⟩
  · rw [List.map_map]; exact h.keys
  · intro q hq
    obtain ⟨r, hr, rfl⟩ := List.mem_map.mp hq
    exact hf _ (h.some r hr)

theorem look_mapInsts {qs : List (Name × List Inst)} (h : Shape qs) (f : List Inst → List Inst) (hf : ∀ l, l ≠ [] → f l ≠ [])
    (hn : f [] = []) (m : Name) : look (qs.map fun q => (q.1, f q.2)) m = f (look qs m) := by
  have hs := mapInsts_shape h f hf
  by_cases hk : m ∈ qs.map (·.1)
  · obtain ⟨q, hq, rfl⟩ := List.mem_map.mp hk
    rw [look_of_mem h hq]
    have : (q.1, f q.2) ∈ qs.map fun q => (q.1, f q.2) := List.mem_map.mpr ⟨q, hq, rfl⟩
    exact look_of_mem hs this
  · rw [look_of_not_mem hk, hn]
    apply look_of_not_mem
    rw [List.map_map]
    exact hk

theorem updateFirst_ne_nil {α : Type} {p : α → Bool} {f : α → α} : ∀ {l : List α}, l ≠ [] → updateFirst p f l ≠ []
  | [], h => absurd rfl h
  | x :: xs, _ => by unfold updateFirst; split <;> exact List.cons_ne_nil _ _

/-- Every element comes from one of the old list, changed by `f` (when it satisfied `p`) or
not. -/
theorem mem_updateFirst {α : Type} {p : α → Bool} {f : α → α} {y : α} : ∀ {l : List α}, y ∈ updateFirst p f l →
    y ∈ l ∨ ∃ x ∈ l, p x = true ∧ y = f x
  | [], h => by cases h
  | x :: xs, h => by
    unfold updateFirst at h
    split at h
    · rename_i hp
      rcases List.mem_cons.mp h with rfl | h
      · exact Or.inr ⟨x, List.mem_cons_self, hp, rfl⟩
      · exact Or.inl (List.mem_cons_of_mem _ h)
    · rcases List.mem_cons.mp h with rfl | h
      · exact Or.inl List.mem_cons_self
      · rcases mem_updateFirst h with h | ⟨z, hz, hp, hy⟩
        · exact Or.inl (List.mem_cons_of_mem _ h)
        · exact Or.inr ⟨z, List.mem_cons_of_mem _ hz, hp, hy⟩

/-- Every old element is there still, changed by `f` or not. -/
theorem updateFirst_kept {α : Type} {p : α → Bool} {f : α → α} {x : α} : ∀ {l : List α}, x ∈ l →
    x ∈ updateFirst p f l ∨ (p x = true ∧ f x ∈ updateFirst p f l)
  | [], h => by cases h
  | z :: zs, h => by
    unfold updateFirst
    split
    · rename_i hp
      rcases List.mem_cons.mp h with rfl | h
      · exact Or.inr ⟨hp, List.mem_cons_self⟩
      · exact Or.inl (List.mem_cons_of_mem _ h)
    · rcases List.mem_cons.mp h with rfl | h
      · exact Or.inl List.mem_cons_self
      · rcases updateFirst_kept h with h | ⟨hp, h⟩
        · exact Or.inl (List.mem_cons_of_mem _ h)
        · exact Or.inr ⟨hp, List.mem_cons_of_mem _ h⟩

/-! ### The updates -/

/-- Adding the queues one by one. -/
theorem addAll_spec {α : Type} (nm : α → Name) (mk : α → Inst) : ∀ (l : List α) (qs : List (Name × List Inst)), Shape qs →
    Shape (l.foldl (fun qs x => addInst qs (nm x) (mk x)) qs) ∧
    ∀ m j, j ∈ look (l.foldl (fun qs x => addInst qs (nm x) (mk x)) qs) m ↔
      j ∈ look qs m ∨ ∃ x ∈ l, nm x = m ∧ mk x = j
  | [], qs, h => ⟨h, fun m j => by simp⟩
  | x :: xs, qs, h => by
    obtain ⟨h1, h2⟩ := addAll_spec nm mk xs (addInst qs (nm x) (mk x)) (addInst_shape h _ _)
    refine ⟨h1, ?_⟩
    intro m j
    rw [List.foldl_cons, h2 m j, look_addInst h]
    split
    · rename_i hm
      subst hm
      rw [mem_sortByOrder, List.mem_append, List.mem_singleton]
      constructor
      · rintro ((h | h) | ⟨y, hy, h⟩)
        · exact Or.inl h
        · exact Or.inr ⟨x, List.mem_cons_self, rfl, h.symm⟩
        · exact Or.inr ⟨y, List.mem_cons_of_mem _ hy, h⟩
      · rintro (h | ⟨y, hy, h⟩)
        · exact Or.inl (Or.inl h)
        · rcases List.mem_cons.mp hy with rfl | hy
          · exact Or.inl (Or.inr h.2.symm)
          · exact Or.inr ⟨y, hy, h⟩
    · rename_i hm
      constructor
      · rintro (h | ⟨y, hy, h⟩)
        · exact Or.inl h
        · exact Or.inr ⟨y, List.mem_cons_of_mem _ hy, h⟩
      · rintro (h | ⟨y, hy, h⟩)
        · exact Or.inl h
        · rcases List.mem_cons.mp hy with rfl | hy
          · exact absurd h.1.symm hm
          · exact Or.inr ⟨y, hy, h⟩

/-- Each name is sorted. -/
def AllSorted (qs : List (Name × List Inst)) : Prop := ∀ n, Sorted (look qs n)

theorem addAll_sorted {α : Type} (nm : α → Name) (mk : α → Inst) : ∀ (l : List α) (qs : List (Name × List Inst)), Shape qs →
    AllSorted qs → AllSorted (l.foldl (fun qs x => addInst qs (nm x) (mk x)) qs)
  | [], _, _, hs => hs
  | x :: xs, qs, h, hs => by
    refine addAll_sorted nm mk xs _ (addInst_shape h _ _) ?_
    intro n
    rw [look_addInst h]
    split
    · exact sorted_sort _
    · exact hs n

theorem removeAll_spec (ipc : Ipc) : ∀ (l : List Name) (qs : List (Name × List Inst)), Shape qs →
    Shape (l.foldl (fun qs n => removeName qs n ipc) qs) ∧
    ∀ m, look (l.foldl (fun qs n => removeName qs n ipc) qs) m =
      if m ∈ l then (look qs m).filter (fun i => !(i.process.ipc == ipc)) else look qs m
  | [], qs, h => ⟨h, fun m => by simp⟩
  | x :: xs, qs, h => by
    obtain ⟨h1, h2⟩ := removeAll_spec ipc xs (removeName qs x ipc) (removeName_shape h _ _)
    refine ⟨h1, ?_⟩
    intro m
    rw [List.foldl_cons, h2 m, look_removeName h]
    by_cases hx : m = x
    · subst hx
      rw [if_pos rfl, if_pos List.mem_cons_self]
      split
      · rw [List.filter_filter]
        apply List.filter_congr
        intro i _
        rw [Bool.and_self]
      · rfl
    · rw [if_neg hx]
      by_cases hm : m ∈ xs
      · rw [if_pos hm, if_pos (List.mem_cons_of_mem _ hm)]
      · rw [if_neg hm, if_neg]
        intro hc
        rcases List.mem_cons.mp hc with h | h
        · exact hx h
        · exact hm h

theorem sorted_filter {l : List Inst} (h : Sorted l) (p : Inst → Bool) : Sorted (l.filter p) := by
  unfold Sorted at *
  exact h.sublist List.filter_sublist

/-- The provider a queue group adds. -/
def groupInst (g : Entity GroupCfg) (q : Name × Int) : Inst :=
  { process := g.process, queue := q.2, order := 0, enable := enableOf g.configuration q.1 }

/-- The provider an advertise adds. -/
def remoteInst (a : Advertise) (q : QueueCfg) : Inst :=
  { process := a.process, queue := remoteQueueId, order := a.order + 1, enable := q.enable }

/-- The registry after a configuration reply of a group. -/
theorem updateGroup_spec {c : Core} (h : Shape c.queues) (p : Handle) (qs : List (Name × Int)) :
    Shape (c.updateGroup p qs).queues ∧
    (AllSorted c.queues → AllSorted (c.updateGroup p qs).queues) ∧
    ∀ m j, j ∈ look (c.updateGroup p qs).queues m ↔
      (j ∈ look c.queues m ∧ j.process.pid ≠ p.pid) ∨
      ∃ g, c.groups.find? (·.process.pid == p.pid) = some g ∧ (m, j.queue) ∈ qs ∧
        j = groupInst g (m, j.queue) := by
  have hr := removeInsts_shape h (fun i => i.process.pid == p.pid)
  have hl : ∀ m j, j ∈ look (removeInsts c.queues (fun i => i.process.pid == p.pid)) m ↔
      j ∈ look c.queues m ∧ j.process.pid ≠ p.pid := by
    intro m j
    rw [look_removeInsts h, List.mem_filter]
    simp
  have hso : AllSorted c.queues → AllSorted (removeInsts c.queues (fun i => i.process.pid == p.pid)) := by
    intro hs n
    rw [look_removeInsts h]
    exact sorted_filter (hs n) _
  unfold Core.updateGroup
  dsimp only
  have hg : (c.removeQueuesPid p.pid).groups = c.groups := rfl
  rw [hg]
  cases hf : c.groups.find? (·.process.pid == p.pid) with
  | none =>
    dsimp only
    refine ⟨hr, hso, ?_⟩
    intro m j
    show j ∈ look (removeInsts c.queues (fun i => i.process.pid == p.pid)) m ↔ _
    rw [hl m j]
    constructor
    · intro h; exact Or.inl h
    · rintro (h | ⟨g, hg, _⟩)
      · exact h
      · cases hg
  | some g =>
    dsimp only
    obtain ⟨h1, h2⟩ := addAll_spec (fun q : Name × Int => q.1) (groupInst g) qs _ hr
    refine ⟨h1, ?_, ?_⟩
    · intro hs
      exact addAll_sorted (fun q : Name × Int => q.1) (groupInst g) qs _ hr (hso hs)
    · intro m j
      refine (h2 m j).trans ?_
      rw [hl m j]
      constructor
      · rintro (h | ⟨q, hq, rfl, rfl⟩)
        · exact Or.inl h
        · exact Or.inr ⟨g, rfl, hq, rfl⟩
      · rintro (h | ⟨g', hg', hq, he⟩)
        · exact Or.inl h
        · injection hg' with hg'
          subst hg'
          exact Or.inr ⟨(m, j.queue), hq, rfl, he.symm⟩

/-- The registry after an advertise. -/
theorem updateAdvertise_shape {c : Core} (h : Shape c.queues) (a : Advertise) :
    Shape (c.updateAdvertise a).queues ∧ (AllSorted c.queues → AllSorted (c.updateAdvertise a).queues) := by
  unfold Core.updateAdvertise
  split
  · refine ⟨removeInsts_shape h _, ?_⟩
    intro hs n
    show Sorted (look (removeInsts c.queues _) n)
    rw [look_removeInsts h]
    exact sorted_filter (hs n) _
  · split
    · exact ⟨h, id⟩
    · have hf : ∀ l : List Inst, l ≠ [] → sortByOrder (updateFirst (·.process.ipc == a.process.ipc)
          (fun i => { i with order := a.order + 1 }) l) ≠ [] := fun l hl => sort_ne_nil (updateFirst_ne_nil hl)
      refine ⟨mapInsts_shape h _ hf, ?_⟩
      intro hs n
      dsimp only
      rw [look_mapInsts h _ hf rfl]
      exact sorted_sort _
  · dsimp only
    obtain ⟨h1, _⟩ := addAll_spec (fun q : QueueCfg => q.name) (remoteInst a) a.add c.queues h
    obtain ⟨h2, h3⟩ := removeAll_spec a.process.ipc a.remove _ h1
    refine ⟨h2, ?_⟩
    intro hs n
    show Sorted (look (a.remove.foldl (fun qs n => removeName qs n a.process.ipc)
      (a.add.foldl (fun qs (x : QueueCfg) => addInst qs x.name (remoteInst a x)) c.queues)) n)
    rw [h3]
    have := addAll_sorted (fun q : QueueCfg => q.name) (remoteInst a) a.add c.queues h hs n
    split
    · exact sorted_filter this _
    · exact this

theorem look_reset {c : Core} (h : Shape c.queues) {a : Advertise} (hd : a.directive = .reset) (m : Name) (j : Inst) :
    j ∈ look (c.updateAdvertise a).queues m ↔ j ∈ look c.queues m ∧ j.process.ipc ≠ a.process.ipc := by
  unfold Core.updateAdvertise
  rw [hd]
  show j ∈ look (removeInsts c.queues _) m ↔ _
  rw [look_removeInsts h, List.mem_filter]
  simp

theorem look_update {c : Core} (h : Shape c.queues) {a : Advertise} (hd : a.directive = .update) (m : Name) (j : Inst) :
    j ∈ look (c.updateAdvertise a).queues m ↔
      (j ∈ look c.queues m ∨ ∃ q ∈ a.add, q.name = m ∧
        remoteInst a q = j) ∧
      (m ∈ a.remove → j.process.ipc ≠ a.process.ipc) := by
  unfold Core.updateAdvertise
  rw [hd]
  dsimp only
  obtain ⟨h1, h4⟩ := addAll_spec (fun q : QueueCfg => q.name) (remoteInst a) a.add c.queues h
  obtain ⟨h2, h3⟩ := removeAll_spec a.process.ipc a.remove _ h1
  show j ∈ look (a.remove.foldl (fun qs n => removeName qs n a.process.ipc)
      (a.add.foldl (fun qs (x : QueueCfg) => addInst qs x.name (remoteInst a x)) c.queues)) m ↔ _
  rw [h3]
  split
  · rename_i hm
    rw [List.mem_filter, h4 m j]
    simp [hm]
  · rename_i hm
    rw [h4 m j]
    constructor
    · intro hx; exact ⟨hx, fun hc => absurd hc hm⟩
    · intro hx; exact hx.1

/-- After a change of the order of a remote: the same providers, but for the order. -/
theorem look_instance {c : Core} (h : Shape c.queues) {a : Advertise} (hd : a.directive = .instance) (m : Name) :
    (∀ j ∈ look (c.updateAdvertise a).queues m, ∃ i ∈ look c.queues m, j.process = i.process ∧ j.queue = i.queue ∧
      j.enable = i.enable ∧ (j.order = i.order ∨ (j.order = a.order + 1 ∧ a.process.ipc = i.process.ipc))) ∧
    (∀ i ∈ look c.queues m, ∃ j ∈ look (c.updateAdvertise a).queues m, j.process = i.process ∧ j.queue = i.queue ∧
      j.enable = i.enable ∧ (a.process.ipc ≠ i.process.ipc → j.order = i.order) ∧ (0 < i.order → 0 < j.order)) := by
  unfold Core.updateAdvertise
  rw [hd]
  dsimp only
  split
  · exact ⟨fun j hj => ⟨j, hj, rfl, rfl, rfl, Or.inl rfl⟩, fun i hi => ⟨i, hi, rfl, rfl, rfl, fun _ => rfl, id⟩⟩
  · have hf : ∀ l : List Inst, l ≠ [] → sortByOrder (updateFirst (·.process.ipc == a.process.ipc)
          (fun i => { i with order := a.order + 1 }) l) ≠ [] := fun l hl => sort_ne_nil (updateFirst_ne_nil hl)
    dsimp only
    rw [look_mapInsts h _ hf rfl]
    refine ⟨?_, ?_⟩
    · intro j hj
      rw [mem_sortByOrder] at hj
      rcases mem_updateFirst hj with hj | ⟨x, hx, hp, rfl⟩
      · exact ⟨j, hj, rfl, rfl, rfl, Or.inl rfl⟩
      · exact ⟨x, hx, rfl, rfl, rfl, Or.inr ⟨rfl, (by simpa using hp : x.process.ipc = a.process.ipc).symm⟩⟩
    · intro i hi
      rcases updateFirst_kept (p := fun x : Inst => x.process.ipc == a.process.ipc)
        (f := fun i => { i with order := a.order + 1 }) hi with hk | ⟨hp, hk⟩
      · exact ⟨i, mem_sortByOrder.mpr hk, rfl, rfl, rfl, fun _ => rfl, id⟩
      · exact ⟨_, mem_sortByOrder.mpr hk, rfl, rfl, rfl,
          fun hne => absurd (by simpa using hp : i.process.ipc = a.process.ipc).symm hne, fun _ => Nat.succ_pos _⟩

end Casual.QManager

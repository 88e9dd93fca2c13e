import Verif.SConf.Model
/-
  Maps and tables.
-/
namespace Casual.SConf

theorem get_nil {α} (k : Nat) : get ([] : List (Nat × α)) k = none := rfl

theorem get_cons {α} (p : Nat × α) (m : List (Nat × α)) (k : Nat) : get (p :: m) k = if p.1 = k then some p.2 else get m k := by
  unfold get
  rw [List.find?_cons]
  by_cases h : p.1 = k
  · have : (p.1 == k) = true := by simpa using h
    rw [this, if_pos h]; rfl
  · have : (p.1 == k) = false := by simpa using h
    rw [this, if_neg h]

theorem get_append {α} (a b : List (Nat × α)) (k : Nat) : get (a ++ b) k = (get a k).or (get b k) := by
  induction a with
  | nil => simp [get_nil]
  | cons p a ih =>
    rw [List.cons_append, get_cons, get_cons, ih]
    split <;> simp

theorem get_none {α} (m : List (Nat × α)) (k : Nat) : get m k = none ↔ m.any (·.1 == k) = false := by
  unfold get
  rw [Option.map_eq_none_iff, List.find?_eq_none, List.any_eq_false]

theorem get_put {α} (m : List (Nat × α)) (k n : Nat) (v : α) : get (put m k v) n = if n = k then some v else get m n := by
  unfold put
  split
  · rename_i h
    induction m with
    | nil => simp at h
    | cons p m ih =>
      rw [List.map_cons, get_cons, get_cons]
      by_cases hp : p.1 = k
      · have e : (p.1 == k) = true := by simpa using hp
        rw [if_pos e]
        by_cases hn : n = k
        · rw [if_pos hn.symm, if_pos hn]
        · have h1 : ¬ k = n := fun e => hn e.symm
          have h2 : ¬ p.1 = n := fun e => hn (e.symm.trans hp)
          rw [if_neg h1, if_neg hn, if_neg h2]
          by_cases hm : m.any (·.1 == k) = true
          · rw [ih hm, if_neg hn]
          · have : m.map (fun p => if p.1 == k then (k, v) else p) = m := by
              rw [List.map_congr_left (g := id)]
              · simp
              · intro q hq
                have : ¬ (q.1 == k) = true := fun e => hm (List.any_eq_true.2 ⟨q, hq, e⟩)
                rw [if_neg this]; rfl
            rw [this]
      · have e : ¬ (p.1 == k) = true := by simpa using hp
        rw [if_neg e]
        have hm : m.any (·.1 == k) = true := by
          rw [List.any_cons] at h
          simpa [hp] using h
        rw [ih hm]
        by_cases hn : n = k
        · subst hn; simp [hp]
        · rw [if_neg hn, if_neg hn]
  · rename_i h
    have h : get m k = none := (get_none m k).2 (Bool.not_eq_true _ ▸ h)
    rw [get_append, get_cons, get_nil]
    by_cases hn : n = k
    · rw [hn, h]; simp
    · rw [if_neg (fun e => hn e.symm), if_neg hn]; simp

theorem get_putAll (names : List Nat) (m : List (Nat × Nat)) (id n : Nat) : get (putAll m names id) n = if n ∈ names then some id else get m n := by
  unfold putAll
  induction names generalizing m with
  | nil => simp
  | cons k names ih =>
    rw [List.foldl_cons, ih, get_put]
    by_cases h1 : n ∈ names
    · simp [h1]
    · by_cases h2 : n = k
      · simp [h2]
      · simp [h1, h2]

theorem get_unname {m : List (Nat × Nat)} {n i id : Nat} (h : get m n = some i) (hi : i ≠ id) : get (unname m id) n = some i := by
  unfold unname
  induction m with
  | nil => cases h
  | cons p m ih =>
    rw [get_cons] at h
    by_cases hp : p.1 = n
    · rw [if_pos hp] at h
      have h := Option.some.inj h
      rw [List.filter_cons_of_pos (by simp [h, hi]), get_cons, if_pos hp, h]
    · rw [if_neg hp] at h
      by_cases hq : p.2 = id
      · rw [List.filter_cons_of_neg (by simp [hq])]; exact ih h
      · rw [List.filter_cons_of_pos (by simp [hq]), get_cons, if_neg hp]; exact ih h

theorem at_insert (st : State) (s : Service) (l : List (Nat × Nat)) :
    State.at { st with table := (insertTable st.table s).1, lookup := l } (insertTable st.table s).2 = some s
    ∧ st.at (insertTable st.table s).2 = none
    ∧ ∀ j, j ≠ (insertTable st.table s).2 → State.at { st with table := (insertTable st.table s).1, lookup := l } j = st.at j := by
  unfold insertTable State.at
  cases h : st.table.findIdx? (·.isNone) with
  | some i =>
    obtain ⟨hi, hn, _⟩ := List.findIdx?_eq_some_iff_getElem.1 h
    dsimp only
    refine ⟨?_, ?_, ?_⟩
    · rw [List.getElem?_set_self hi]; rfl
    · rw [List.getElem?_eq_getElem hi]
      simpa using hn
    · intro j hj
      rw [List.getElem?_set_ne (fun e => hj e.symm)]
  | none =>
    dsimp only
    refine ⟨?_, ?_, ?_⟩
    · simp
    · simp
    · intro j hj
      by_cases hl : j < st.table.length
      · rw [List.getElem?_append_left hl]
      · rw [List.getElem?_eq_none (by simp; omega), List.getElem?_eq_none (by omega)]

theorem at_change (st : State) (id j : Nat) (f : Service → Service) : (st.change id f).at j = if j = id then (st.at j).map f else st.at j := by
  unfold State.change State.at
  dsimp only
  rw [List.getElem?_modify]
  cases h : st.table[j]? with
  | none => simp
  | some x =>
    by_cases e : id = j
    · simp [e]
    · have : j ≠ id := fun h => e h.symm
      simp [e, this]

theorem at_map (st : State) (f : Service → Service) (j : Nat) : State.at { st with table := st.table.map (Option.map f) } j = (st.at j).map f := by
  unfold State.at
  dsimp only
  rw [List.getElem?_map]
  cases h : st.table[j]? with
  | none => rfl
  | some x => rfl

theorem origin_some {st : State} {n id : Nat} (h : origin st n = some id) : ∃ s, st.at id = some s ∧ s.name = n := by
  unfold origin at h
  obtain ⟨hi, hn, _⟩ := List.findIdx?_eq_some_iff_getElem.1 h
  unfold State.at
  rw [List.getElem?_eq_getElem hi]
  cases hx : st.table[id] with
  | none => rw [hx] at hn; simp at hn
  | some s =>
    rw [hx] at hn
    exact ⟨s, rfl, by simpa using hn⟩

theorem origin_none {st : State} {n : Nat} (h : origin st n = none) (id : Nat) (s : Service) (hs : st.at id = some s) : s.name ≠ n := by
  unfold origin at h
  rw [List.findIdx?_eq_none_iff] at h
  unfold State.at at hs
  cases hx : st.table[id]? with
  | none => rw [hx] at hs; cases hs
  | some x =>
    rw [hx] at hs
    cases x with
    | none => cases hs
    | some t =>
      have ht : t = s := Option.some.inj hs
      have := h (some t) (List.mem_of_getElem? hx)
      rw [ht] at this
      simpa using this

theorem mem_table {st : State} {s : Service} : some s ∈ st.table ↔ ∃ id, st.at id = some s := by
  constructor
  · intro h
    obtain ⟨i, hi⟩ := List.mem_iff_getElem?.1 h
    exact ⟨i, by unfold State.at; rw [hi]; rfl⟩
  · rintro ⟨i, hi⟩
    unfold State.at at hi
    cases hx : st.table[i]? with
    | none => rw [hx] at hi; cases hi
    | some x =>
      rw [hx] at hi
      have : x = some s := hi
      rw [← this]
      exact List.mem_of_getElem? hx

end Casual.SConf

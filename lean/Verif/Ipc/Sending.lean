import Verif.Ipc.Streams
/-! What the sends put on the wire. -/
namespace Casual.Ipc

theorem frags_drop {n : Nat} {m : Msg} {j : Nat} (hj : j < m.count n) : (m.frags n).drop j = m.part n (j * n) :: (m.frags n).drop (j + 1) := by
  rw [List.drop_eq_getElem_cons (by rw [frags_length]; exact hj)]
  congr 1
  simp [Msg.frags]

theorem part_ends {n : Nat} (hn : 0 < n) {m : Msg} {j : Nat} (hj : j < m.count n) :
    (j * n + (m.part n (j * n)).payload.length = m.payload.length ↔ j + 1 = m.count n) ∧
    (j + 1 < m.count n → j * n + (m.part n (j * n)).payload.length = (j + 1) * n) := by
  have h1 := (@lt_count n hn m j).mp hj
  have h2 := @lt_count n hn m (j + 1)
  rw [part_length]
  have hm : (j + 1) * n = j * n + n := by rw [Nat.add_mul, Nat.one_mul]
  rw [hm] at h2 ⊢
  have h3 : j * n ≤ m.payload.length := by
    rcases h1 with h | h
    · subst h; omega
    · omega
  constructor
  · constructor
    · intro h
      have : ¬ (j + 1 < m.count n) := fun h' => by rcases h2.mp h' with h'' | h'' <;> omega
      omega
    · intro h
      have : ¬ (j * n + n < m.payload.length) := fun h' => by have := h2.mpr (.inr h'); omega
      omega
  · intro h
    rcases h2.mp h with h'' | h'' <;> omega

theorem sendFrom_spec {n : Nat} (hn : 0 < n) {m : Msg} : ∀ {rs : List Res} {j : Nat}, j < m.count n →
    ∃ k, j + k ≤ m.count n ∧ (sendFrom n m (j * n) rs).1 = ((m.frags n).drop j).take k ∧ ((sendFrom n m (j * n) rs).2.1 = .done ↔ j + k = m.count n)
  | [], j, hj => ⟨0, by omega, by simp [sendFrom], by simp [sendFrom]; omega⟩
  | .full :: rs, j, hj => ⟨0, by omega, by simp [sendFrom], by simp [sendFrom]; omega⟩
  | .error :: rs, j, hj => ⟨0, by omega, by simp [sendFrom], by simp [sendFrom]; omega⟩
  | .ok :: rs, j, hj => by
    obtain ⟨h1, h2⟩ := part_ends hn hj
    unfold sendFrom
    split
    · rename_i he
      refine ⟨1, by omega, ?_, ?_⟩
      · rw [frags_drop hj]; rfl
      · simp [h1.mp he]
    · rename_i he
      have hj' : j + 1 < m.count n := by
        have : ¬ j + 1 = m.count n := fun h => he (h1.mpr h)
        omega
      obtain ⟨k, h3, h4, h5⟩ := sendFrom_spec (rs := rs) hn hj'
      rw [h2 hj']
      dsimp only
      refine ⟨k + 1, by omega, ?_, ?_⟩
      · rw [frags_drop hj, List.take_succ_cons, h4]
      · rw [h5]; omega

/-- The offset after `j` datagrams. -/
def off (n : Nat) (m : Msg) (j : Nat) : Nat := min (j * n) m.payload.length

theorem left_off {n : Nat} (hn : 0 < n) {m : Msg} (hne : m.payload ≠ []) {j : Nat} (hj : j ≤ m.count n) :
    (Send.left n ⟨m, off n m j⟩ = 0 ↔ j = m.count n) ∧ (j < m.count n → off n m j + Send.left n ⟨m, off n m j⟩ = off n m (j + 1) ∧ off n m j = j * n) := by
  have hl : 0 < m.payload.length := List.length_pos_iff.mpr hne
  have h1 := @lt_count n hn m j
  have hm : (j + 1) * n = j * n + n := by rw [Nat.add_mul, Nat.one_mul]
  have hlt : j < m.count n ↔ j * n < m.payload.length := by
    rw [h1]
    constructor
    · rintro (rfl | h)
      · omega
      · exact h
    · exact .inr
  unfold Send.left off
  dsimp only
  rw [hm]
  generalize j * n = o at *
  constructor
  · constructor
    · intro h
      split at h
      · by_cases h' : j < m.count n
        · have := hlt.mp h'; omega
        · omega
      · omega
    · intro h
      have : ¬ o < m.payload.length := fun h' => by have := hlt.mpr h'; omega
      rw [if_pos (by omega)]; omega
  · intro h
    have := hlt.mp h
    split <;> omega

theorem partial_spec {n : Nat} (hn : 0 < n) {m : Msg} (hne : m.payload ≠ []) : ∀ {rs : List Res} {j : Nat}, j ≤ m.count n →
    ∃ k, j + k ≤ m.count n ∧ (partialSend n ⟨m, off n m j⟩ rs).1 = ((m.frags n).drop j).take k ∧
      (partialSend n ⟨m, off n m j⟩ rs).2.1 = ⟨m, off n m (j + k)⟩ ∧ ((partialSend n ⟨m, off n m j⟩ rs).2.2.1 = .done ↔ j + k = m.count n)
  | [], j, hj => by
    have h := (left_off hn hne hj).1
    refine ⟨0, by omega, ?_, ?_, ?_⟩
    · unfold partialSend; split <;> simp
    · unfold partialSend; split <;> rfl
    · unfold partialSend
      split
      · rename_i h'; simp [h.mp h']
      · rename_i h'
        have : ¬ j = m.count n := fun e => h' (h.mpr e)
        simp [this]
  | r :: rs, j, hj => by
    have h := left_off hn hne hj
    by_cases hd : Send.left n ⟨m, off n m j⟩ = 0
    · refine ⟨0, by omega, ?_, ?_, ?_⟩
      · unfold partialSend; rw [if_pos hd]; simp
      · unfold partialSend; rw [if_pos hd]; rfl
      · unfold partialSend; rw [if_pos hd]; simp [h.1.mp hd]
    · have hj' : j < m.count n := by
        have : ¬ j = m.count n := fun e => hd (h.1.mpr e)
        omega
      cases r with
      | full =>
        refine ⟨0, by omega, ?_, ?_, ?_⟩
        · unfold partialSend; rw [if_neg hd]; simp
        · unfold partialSend; rw [if_neg hd]; rfl
        · unfold partialSend; rw [if_neg hd]; simp; omega
      | error =>
        refine ⟨0, by omega, ?_, ?_, ?_⟩
        · unfold partialSend; rw [if_neg hd]; simp
        · unfold partialSend; rw [if_neg hd]; rfl
        · unfold partialSend; rw [if_neg hd]; simp; omega
      | ok =>
        obtain ⟨k, h1, h2, h3, h4⟩ := partial_spec hn hne (rs := rs) (j := j + 1) (by omega)
        have ho := (h.2 hj').1
        have ho2 := (h.2 hj').2
        unfold partialSend
        rw [if_neg hd]
        dsimp only
        rw [ho, ho2]
        refine ⟨k + 1, by omega, ?_, ?_, ?_⟩
        · rw [h2, frags_drop hj', List.take_succ_cons]
        · rw [h3]; congr 2; omega
        · rw [h4]; omega

end Casual.Ipc

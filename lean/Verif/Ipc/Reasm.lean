import Verif.Ipc.Spec
/-! Reassembly of the datagrams of one sender. -/
namespace Casual.Ipc

/-- The state of a message of which `j` datagrams have been received. -/
def live (n : Nat) (m : Msg) (j : Nat) : Complete :=
  { type := m.type, corr := m.corr, payload := m.payload.take (j * n) ++ List.replicate (m.payload.length - j * n) 0, offset := min (j * n) m.payload.length }

theorem live_length {n m j} : (live n m j).payload.length = m.payload.length := by
  simp only [live, List.length_append, List.length_take, List.length_replicate]; omega

theorem live_key {n m j} : (live n m j).key = m.key := rfl

theorem count_pos {n : Nat} (hn : 0 < n) (m : Msg) : 0 < m.count n := by
  unfold Msg.count
  split
  · omega
  · exact Nat.div_pos (by omega) hn

theorem lt_count {n : Nat} (hn : 0 < n) {m : Msg} {j : Nat} : j < m.count n ↔ j = 0 ∨ j * n < m.payload.length := by
  unfold Msg.count
  split
  · rename_i h
    rw [h]
    constructor
    · intro h; exact .inl (by omega)
    · rintro (h | h)
      · omega
      · exact absurd h (Nat.not_lt_zero _)
  · rename_i h
    rw [Nat.lt_div_iff_mul_lt hn]
    constructor
    · intro h'; right; omega
    · rintro (rfl | h')
      · omega
      · omega

theorem live_complete {n : Nat} (hn : 0 < n) {m : Msg} {j : Nat} (hj : 0 < j) : (live n m j).complete = decide (m.count n ≤ j) := by
  have h1 := @lt_count n hn m j
  rw [Complete.complete, live_length]
  simp only [live]
  by_cases h : m.count n ≤ j
  · simp only [h, decide_true, beq_iff_eq]
    have : ¬ j * n < m.payload.length := fun h' => by have := h1.mpr (.inr h'); omega
    omega
  · simp only [h, decide_false, beq_eq_false_iff_ne, ne_eq]
    rcases h1.mp (by omega) with h' | h' <;> omega

theorem live_count {n : Nat} (hn : 0 < n) (m : Msg) : live n m (m.count n) = m.complete := by
  have h : ¬ (m.count n) * n < m.payload.length := fun h' => by
    have := (@lt_count n hn m (m.count n)).mpr (.inr h'); omega
  simp only [live, Msg.complete, Complete.mk.injEq, true_and]
  constructor
  · rw [List.take_of_length_le (by omega), show m.payload.length - m.count n * n = 0 by omega]; simp
  · omega

theorem part_length {n m j} : (Msg.part n m j).payload.length = min n (m.payload.length - j) := by
  simp [Msg.part]

/-- The next datagram. -/
theorem add_next {n : Nat} (hn : 0 < n) {m : Msg} {j : Nat} (hj : j < m.count n) : (live n m j).add (m.part n (j * n)) = some (live n m (j + 1)) := by
  have hle : j * n ≤ m.payload.length := by
    rcases (lt_count hn).mp hj with h | h
    · subst h; omega
    · omega
  have hoff : (m.part n (j * n)).offset = j * n := rfl
  have hlo : (live n m j).offset = j * n := by simp only [live]; omega
  unfold Complete.add
  rw [hoff, hlo, if_neg (by omega), if_neg (by omega), live_length, part_length, if_neg (by omega)]
  simp only [live, Option.some.injEq, Complete.mk.injEq, true_and]
  have hm : (j + 1) * n = j * n + n := by rw [Nat.add_mul, Nat.one_mul]
  rw [hm]
  generalize j * n = o at *
  constructor
  · simp only [Msg.part]
    rw [List.take_append_of_le_length (by simp; omega), List.take_take, Nat.min_self, List.drop_append]
    rw [List.drop_eq_nil_of_le (as := List.take o m.payload) (by simp only [List.length_take]; omega), List.nil_append, List.drop_replicate, List.take_add]
    congr 2
    simp only [List.length_take]
    omega
  · omega

/-- A datagram that has been received before. -/
theorem add_old {n : Nat} {m : Msg} {i j : Nat} (hn : 0 < n) (hij : i < j) (hi : i * n < m.payload.length) : (live n m j).add (m.part n (i * n)) = some (live n m j) := by
  unfold Complete.add
  rw [if_pos]
  show i * n < min (j * n) m.payload.length
  have : i * n < j * n := Nat.mul_lt_mul_of_pos_right hij hn
  omega

theorem start_first {n : Nat} (hn : 0 < n) {m : Msg} : (m.part n 0).start = some (live n m 1) := by
  have := add_next hn (count_pos hn m)
  simpa [live, Frag.start, Msg.part] using this

/-- No message with the key is incomplete. -/
def Free (k : Nat × Nat) (c : List Complete) : Prop := ∀ x ∈ c, x.complete = false → x.key ≠ k

theorem takes_iff {f : Frag} {c : Complete} : c.takes f = true ↔ c.complete = false ∧ c.key = f.key := by
  simp only [Complete.takes, Complete.key, Frag.key, Bool.and_eq_true, Bool.not_eq_true', beq_iff_eq, Prod.mk.injEq, and_assoc]
  constructor
  · rintro ⟨a, b, c⟩; exact ⟨a, b.symm, c.symm⟩
  · rintro ⟨a, b, c⟩; exact ⟨a, b.symm, c.symm⟩

theorem findIdx_free {f : Frag} {c : List Complete} (h : Free f.key c) : c.findIdx? (Complete.takes f) = none := by
  rw [List.findIdx?_eq_none_iff]
  intro x hx
  cases hb : x.takes f with
  | false => rfl
  | true => exact absurd (takes_iff.mp hb).2 (h x hx (takes_iff.mp hb).1)

theorem recv_new {f : Frag} {c : List Complete} (h : Free f.key c) : recv c f = f.start.map fun x => (c ++ [x], c.length) := by
  unfold recv; rw [findIdx_free h]

theorem recv_last {f : Frag} {c : List Complete} {x : Complete} (h : Free f.key c) (hx : x.takes f = true) : recv (c ++ [x]) f = (x.add f).map fun y => (c ++ [y], c.length) := by
  unfold recv
  have : (c ++ [x]).findIdx? (Complete.takes f) = some c.length := by
    rw [List.findIdx?_append, findIdx_free h]
    simp [List.findIdx?_cons, hx]
  rw [this]
  simp

/-- Datagrams are received, each of them for the message that is the last one. -/
inductive Last : List Complete → List Frag → List Complete → Prop
  | nil (c) : Last c [] c
  | cons {c f c₁ i w c'} (hr : recv c f = some (c₁, i)) (hi : i + 1 = c₁.length) (hl : Last c₁ w c') : Last c (f :: w) c'

theorem Last.append {c w c' v c''} (h : Last c w c') (h' : Last c' v c'') : Last c (w ++ v) c'' := by
  induction h with
  | nil c => exact h'
  | cons hr hi _ ih => exact .cons hr hi (ih h')

/-- Nothing, or the message of which `j` datagrams have been received. -/
def st (n : Nat) (c : List Complete) (m : Msg) (j : Nat) : List Complete := if j = 0 then c else c ++ [live n m j]

theorem last_one {n : Nat} (hn : 0 < n) {c : List Complete} {m : Msg} (hf : Free m.key c) {i j : Nat} (hi : i ≤ j) (hj : j < m.count n) :
    Last (st n c m j) [m.part n (i * n)] (st n c m (max j (i + 1))) := by
  have hk : (m.part n (i * n)).key = m.key := rfl
  by_cases h0 : j = 0
  · subst h0
    have : i = 0 := by omega
    subst this
    have := recv_new (f := m.part n (0 * n)) (c := c) (by rw [hk]; exact hf)
    rw [Nat.zero_mul, start_first hn] at this
    refine .cons (i := c.length) (c₁ := c ++ [live n m 1]) ?_ (by simp) ?_
    · simpa [st] using this
    · exact .nil _
  · have hc : (live n m j).complete = false := by rw [live_complete hn (by omega)]; simp; omega
    have hl := recv_last (f := m.part n (i * n)) (c := c) (x := live n m j) (by rw [hk]; exact hf) (takes_iff.mpr ⟨hc, rfl⟩)
    have hst : st n c m j = c ++ [live n m j] := if_neg h0
    rw [hst]
    by_cases hij : i < j
    · have hlt : i * n < m.payload.length := by
        rcases (lt_count hn).mp hj with h | h
        · omega
        · exact Nat.lt_trans (Nat.mul_lt_mul_of_pos_right hij hn) h
      rw [add_old hn hij hlt] at hl
      refine .cons hl (by simp) ?_
      rw [show max j (i + 1) = j by omega, hst]
      exact .nil _
    · have : i = j := by omega
      subst this
      rw [add_next hn hj] at hl
      refine .cons hl (by simp) ?_
      rw [show max i (i + 1) = i + 1 by omega, show st n c m (i + 1) = c ++ [live n m (i + 1)] from if_neg (by omega)]
      exact .nil _

/-- An attempt. -/
theorem last_try {n : Nat} (hn : 0 < n) {c : List Complete} {m : Msg} (hf : Free m.key c) {k j : Nat} (hk : k ≤ m.count n) (hj : j < m.count n) :
    Last (st n c m j) ((m.frags n).take k) (st n c m (max j k)) := by
  have hfr : (m.frags n).take k = (List.range k).map fun j => m.part n (j * n) := by
    rw [Msg.frags, ← List.map_take, List.take_range, Nat.min_eq_left hk]
  rw [hfr]
  clear hfr
  induction k with
  | zero => simpa using Last.nil _
  | succ k ih =>
    rw [List.range_succ, List.map_append]
    refine (ih (by omega)).append ?_
    have := last_one hn hf (i := k) (j := max j k) (by omega) (by omega)
    rwa [show max (max j k) (k + 1) = max j (k + 1) by omega] at this

theorem frags_length {n m} : (Msg.frags n m).length = m.count n := by simp [Msg.frags]

theorem last_whole {n : Nat} (hn : 0 < n) {c : List Complete} {m : Msg} (hf : Free m.key c) {j : Nat} (hj : j < m.count n) :
    Last (st n c m j) (m.frags n) (c ++ [m.complete]) := by
  have := last_try hn hf (Nat.le_refl (m.count n)) hj
  rw [List.take_of_length_le (by rw [frags_length]; exact Nat.le_refl _), show max j (m.count n) = m.count n by omega,
    show st n c m (m.count n) = c ++ [live n m (m.count n)] from if_neg (by have := count_pos hn m; omega), live_count hn] at this
  exact this

/-- What an item leaves. -/
theorem last_item {n : Nat} (hn : 0 < n) {c : List Complete} {it : Item} (hf : Free it.msg.key c) (ht : ∀ k ∈ it.tries, k < it.msg.count n) :
    (it.done = true → Last c (it.frags n) (c ++ [it.msg.complete])) ∧
    (it.done = false → ∃ j, j < it.msg.count n ∧ Last c (it.frags n) (st n c it.msg j)) := by
  have hgen : ∀ (ts : List Nat), (∀ k ∈ ts, k < it.msg.count n) → ∀ j, j < it.msg.count n →
      ∃ j', j' < it.msg.count n ∧ Last (st n c it.msg j) (ts.flatMap fun k => (it.msg.frags n).take k) (st n c it.msg j') := by
    intro ts
    induction ts with
    | nil => intro _ j hj; exact ⟨j, hj, .nil _⟩
    | cons k ts ih =>
      intro h j hj
      have hk := h k (by simp)
      obtain ⟨j', h1, h2⟩ := ih (fun k hk => h k (by simp [hk])) (max j k) (by omega)
      refine ⟨j', h1, ?_⟩
      rw [List.flatMap_cons]
      exact (last_try hn hf (by omega) hj).append h2
  obtain ⟨j, hj, hl⟩ := hgen it.tries ht 0 (count_pos hn _)
  have hl : Last c (it.tries.flatMap fun k => (it.msg.frags n).take k) (st n c it.msg j) := hl
  constructor
  · intro hd
    rw [Item.frags, if_pos hd]
    exact hl.append (last_whole hn hf hj)
  · intro hd
    refine ⟨j, hj, ?_⟩
    rw [Item.frags, if_neg (by simp [hd]), List.append_nil]
    exact hl

def completed (c : List Complete) : List Msg := (c.filter (·.complete)).map (·.msg)

theorem completed_append (a b : List Complete) : completed (a ++ b) = completed a ++ completed b := by simp [completed]

theorem complete_complete (m : Msg) : m.complete.complete = true := by simp [Complete.complete, Msg.complete]

theorem complete_msg (m : Msg) : m.complete.msg = m := rfl

/-- What a sender's datagrams leave. -/
theorem last_stream {n : Nat} (hn : 0 < n) : ∀ (l : List Item) (_ : Proper n l) (c : List Complete) (_ : ∀ it ∈ l, Free it.msg.key c),
    ∃ c', Last c (stream n l) c' ∧ completed c' = completed c ++ whole l
  | [], _, c, _ => ⟨c, .nil _, by simp [whole]⟩
  | it :: l, hp, c, hf => by
    have hp2 := List.pairwise_cons.mp hp.2
    have hp' : Proper n l := ⟨fun i hi => hp.1 i (by simp [hi]), hp2.2⟩
    have h1 := last_item hn (hf it (by simp)) (hp.1 it (by simp))
    rw [show stream n (it :: l) = it.frags n ++ stream n l from List.flatMap_cons ..]
    cases hd : it.done with
    | true =>
      obtain ⟨c', h2, h3⟩ := last_stream hn l hp' (c ++ [it.msg.complete]) (by
        intro i hi x hx hxc
        rcases List.mem_append.mp hx with hx | hx
        · exact hf i (by simp [hi]) x hx hxc
        · simp only [List.mem_singleton] at hx
          subst hx
          rw [complete_complete] at hxc; cases hxc)
      refine ⟨c', (h1.1 hd).append h2, ?_⟩
      rw [h3, completed_append]
      simp [completed, complete_complete, whole, hd, complete_msg]
    | false =>
      obtain ⟨j, hj, hl⟩ := h1.2 hd
      obtain ⟨c', h2, h3⟩ := last_stream hn l hp' (st n c it.msg j) (by
        intro i hi x hx hxc
        unfold st at hx
        split at hx
        · exact hf i (by simp [hi]) x hx hxc
        · rcases List.mem_append.mp hx with hx | hx
          · exact hf i (by simp [hi]) x hx hxc
          · simp only [List.mem_singleton] at hx
            subst hx
            exact hp2.1 i hi hd)
      refine ⟨c', hl.append h2, ?_⟩
      rw [h3]
      have : completed (st n c it.msg j) = completed c := by
        unfold st
        split
        · rfl
        · rename_i h0
          rw [completed_append]
          simp only [completed]
          have : (live n it.msg j).complete = false := by rw [live_complete hn (by omega)]; simp; omega
          simp [this]
      rw [this]
      simp [whole, hd]

end Casual.Ipc

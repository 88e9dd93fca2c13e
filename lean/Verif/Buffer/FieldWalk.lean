import Verif.Buffer.FieldReads
/-!
# Iteration over a field buffer
-/
namespace Casual.Buffer.Field
open Casual.Data

/-- `casual_field_next` again and again from a position until it fails: the positions it gave and the code at the end. -/
inductive Walk (s : State) : Int → Int → List (Int × Int) → Code → Prop
  | stop (id ix : Int) (h : (next s id ix).1 ≠ .success) : Walk s id ix [] (next s id ix).1
  | step (id ix id' ix' : Int) (l : List (Int × Int)) (c : Code) (h : next s id ix = (.success, id', ix')) (hw : Walk s id' ix' l c) :
      Walk s id ix ((id', ix') :: l) c

theorem walk_det {s : State} {id ix : Int} {l l' : List (Int × Int)} {c c' : Code} (h : Walk s id ix l c) (h' : Walk s id ix l' c') : l = l' ∧ c = c' := by
  induction h generalizing l' c' with
  | stop id ix hn =>
    cases h' with
    | stop => exact ⟨rfl, rfl⟩
    | step _ _ _ _ _ _ he => rw [he] at hn; exact absurd rfl hn
  | step id ix id' ix' l c he _ ih =>
    cases h' with
    | stop _ _ hn => rw [he] at hn; exact absurd rfl hn
    | step _ _ _ _ _ _ he2 hw =>
      rw [he] at he2; cases he2
      obtain ⟨h1, h2⟩ := ih hw
      exact ⟨by rw [h1], h2⟩

/-- From `i` on, `n` occurrences. -/
def upTo (id : Int) : Nat → Int → List (Int × Int)
  | 0, _ => []
  | n + 1, i => (id, i) :: upTo id n (i + 1)

/-- All positions of an index. -/
def positions (ix : Index) : List (Int × Int) := ix.flatMap fun f => upTo f.1 f.2.length 0

theorem mem_upTo {id : Int} {n : Nat} {i : Int} {p : Int × Int} : p ∈ upTo id n i ↔ p.1 = id ∧ i ≤ p.2 ∧ p.2 < i + n := by
  induction n generalizing i with
  | zero => simp [upTo]
  | succ n ih =>
    simp only [upTo, List.mem_cons, ih]
    constructor
    · rintro (h | h)
      · subst h; simp; omega
      · omega
    · rintro ⟨h1, h2, h3⟩
      by_cases he : p.2 = i
      · exact .inl (Prod.ext h1 he)
      · exact .inr ⟨h1, by omega, by omega⟩

/-- Before: by id, then by occurrence. -/
def Before (a b : Int × Int) : Prop := a.1 < b.1 ∨ (a.1 = b.1 ∧ a.2 < b.2)

theorem sorted_upTo (id : Int) (n : Nat) (i : Int) : (upTo id n i).Pairwise Before := by
  induction n generalizing i with
  | zero => simp [upTo]
  | succ n ih =>
    simp only [upTo]
    refine List.pairwise_cons.mpr ⟨?_, ih _⟩
    intro p hp
    have := mem_upTo.mp hp
    exact .inr ⟨this.1.symm, by simp; omega⟩

theorem sorted_positions {ix : Index} (h : ix.Pairwise (fun a b => a.1 < b.1)) : (positions ix).Pairwise Before := by
  induction ix with
  | nil => simp [positions]
  | cons f ix ih =>
    have h' := List.pairwise_cons.mp h
    have : positions (f :: ix) = upTo f.1 f.2.length 0 ++ positions ix := rfl
    rw [this]
    refine List.pairwise_append.mpr ⟨sorted_upTo _ _ _, ih h'.2, ?_⟩
    intro a ha b hb
    have h1 := mem_upTo.mp ha
    simp only [positions, List.mem_flatMap] at hb
    obtain ⟨g, hg, hb⟩ := hb
    have h2 := mem_upTo.mp hb
    have h3 := h'.1 g hg
    exact .inl (by omega)

theorem dropWhile_key {pre rest : Index} {id : Int} {l : List Int} (h : (pre ++ (id, l) :: rest).Pairwise (fun a b => a.1 < b.1)) :
    (pre ++ (id, l) :: rest).dropWhile (fun f => f.1 ≠ id) = (id, l) :: rest := by
  induction pre with
  | nil => simp
  | cons f pre ih =>
    have h' := List.pairwise_cons.mp h
    have hlt := h'.1 (id, l) (by simp)
    have hne : f.1 ≠ id := by simp at hlt; omega
    simp only [List.cons_append, List.dropWhile_cons, ne_eq, hne, not_false_eq_true, decide_true, ↓reduceIte]
    exact ih h'.2

/-- What is left of the walk at a position. -/
theorem walk_from {s : State} (hs : s.index.Pairwise (fun a b => a.1 < b.1)) (hz : ∀ f ∈ s.index, f.1 ≠ 0) (hne : ∀ f ∈ s.index, f.2 ≠ [])
    (rest : Index) : ∀ (pre : Index) (id : Int) (l : List Int), s.index = pre ++ (id, l) :: rest → ∀ (n : Nat) (i : Int), 0 ≤ i → (i + 1 + n = l.length) →
      Walk s id i (upTo id n (i + 1) ++ positions rest) .outOfBounds := by
  induction rest with
  | nil =>
    intro pre id l hx n
    have hdw : s.index.dropWhile (fun f => f.1 ≠ id) = [(id, l)] := by rw [hx]; exact dropWhile_key (hx ▸ hs)
    have hid : id ≠ 0 := hz (id, l) (by rw [hx]; simp)
    induction n with
    | zero =>
      intro i h0 hi
      have hn : next s id i = (.outOfBounds, id, i + 1) := by
        unfold next
        rw [if_neg hid]
        simp only [hdw]
        rw [if_neg (by omega)]
      have : Walk s id i [] (next s id i).1 := .stop _ _ (by rw [hn]; simp)
      rw [hn] at this
      exact this
    | succ n ih =>
      intro i h0 hi
      have hn : next s id i = (.success, id, i + 1) := by
        unfold next
        rw [if_neg hid]
        simp only [hdw]
        rw [if_pos (by omega)]
      exact .step _ _ _ _ _ _ hn (ih (i + 1) (by omega) (by omega))
  | cons g rest ih =>
    intro pre id l hx n
    obtain ⟨k, m⟩ := g
    have hdw : s.index.dropWhile (fun f => f.1 ≠ id) = (id, l) :: (k, m) :: rest := by rw [hx]; exact dropWhile_key (hx ▸ hs)
    have hid : id ≠ 0 := hz (id, l) (by rw [hx]; simp)
    have hm : m ≠ [] := hne (k, m) (by rw [hx]; simp)
    have hml : 0 < m.length := List.length_pos_iff.mpr hm
    induction n with
    | zero =>
      intro i h0 hi
      have hn : next s id i = (.success, k, 0) := by
        unfold next
        rw [if_neg hid]
        simp only [hdw]
        rw [if_neg (by omega)]
      have hrest := ih (pre ++ [(id, l)]) k m (by rw [hx]; simp) (m.length - 1) 0 (by omega) (by omega)
      have hpos : positions ((k, m) :: rest) = (k, 0) :: (upTo k (m.length - 1) (0 + 1) ++ positions rest) := by
        have : m.length = (m.length - 1) + 1 := by omega
        show upTo k m.length 0 ++ positions rest = _
        rw [this]
        rfl
      simp only [upTo, List.nil_append, hpos]
      exact .step _ _ _ _ _ _ hn hrest
    | succ n ih2 =>
      intro i h0 hi
      have hn : next s id i = (.success, id, i + 1) := by
        unfold next
        rw [if_neg hid]
        simp only [hdw]
        rw [if_pos (by omega)]
      exact .step _ _ _ _ _ _ hn (ih2 (i + 1) (by omega) (by omega))

theorem walk_all {s : State} (hs : s.index.Ok) (hz : ∀ f ∈ s.index, f.1 ≠ 0) (i : Int) : Walk s 0 i (positions s.index) .outOfBounds := by
  cases hx : s.index with
  | nil =>
    have hn : next s 0 i = (.outOfBounds, 0, i) := by unfold next; rw [hx]; rfl
    have : Walk s 0 i [] (next s 0 i).1 := .stop _ _ (by rw [hn]; simp)
    rw [hn] at this
    exact this
  | cons g rest =>
    obtain ⟨k, m⟩ := g
    have hm : m ≠ [] := hs.2 (k, m) (by rw [hx]; simp)
    have hml : 0 < m.length := List.length_pos_iff.mpr hm
    have hn : next s 0 i = (.success, k, 0) := by unfold next; rw [hx]; rfl
    have hpos : positions ((k, m) :: rest) = (k, 0) :: (upTo k (m.length - 1) (0 + 1) ++ positions rest) := by
      have : m.length = (m.length - 1) + 1 := by omega
      show upTo k m.length 0 ++ positions rest = _
      rw [this]
      rfl
    rw [hpos]
    exact .step _ _ _ _ _ _ hn (walk_from hs.1 hz hs.2 rest [] k m (by rw [hx]; rfl) (m.length - 1) 0 (by omega) (by omega))

theorem mem_positions {s : State} {fs : Fields} (hr : Rep s fs) (p : Int × Int) : p ∈ positions s.index ↔ 0 ≤ p.2 ∧ p.2 < (occs p.1 fs).length := by
  simp only [positions, List.mem_flatMap]
  constructor
  · rintro ⟨f, hf, hp⟩
    obtain ⟨h1, h2, h3⟩ := mem_upTo.mp hp
    have hl := Index.mem_look hr.ok hf
    rw [hr.look] at hl
    have := congrArg List.length hl
    rw [offs_length] at this
    rw [h1]; omega
  · rintro ⟨h1, h2⟩
    have hlen : (s.index.look p.1).length = (occs p.1 fs).length := by rw [hr.look, offs_length]
    have hne : s.index.look p.1 ≠ [] := by
      intro he; rw [he] at hlen; simp at hlen; omega
    exact ⟨_, Index.look_mem hne, mem_upTo.mpr ⟨rfl, h1, by simp only; omega⟩⟩

end Casual.Buffer.Field

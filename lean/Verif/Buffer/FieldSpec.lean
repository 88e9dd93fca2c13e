import Verif.Buffer.Field
/-!
# What a field buffer is to its user

A list of fields, each an id and a value. An occurrence of an id is a position among the fields with that id. Independent of the memory and the index.
-/
namespace Casual.Buffer.Field
open Casual.Data

/-- The content of a buffer: ids and values, in the order added. -/
abbrev Content (α : Type) := List (Int × α)

/-- The content of a buffer with encoded values. -/
abbrev Fields := Content (List Byte)

variable {α : Type}

/-- The values of an id, by occurrence. -/
def occs (id : Int) (fs : Content α) : List α := (fs.filter (·.1 = id)).map (·.2)

/-- The `n`th occurrence of an id replaced. -/
def setNth (id : Int) (b : α) : Nat → Content α → Content α
  | _, [] => []
  | n, (i, x) :: fs =>
    if i = id then
      match n with
      | 0 => (i, b) :: fs
      | n + 1 => (i, x) :: setNth id b n fs
    else (i, x) :: setNth id b n fs

/-- The `n`th occurrence of an id removed. -/
def removeNth (id : Int) : Nat → Content α → Content α
  | _, [] => []
  | n, (i, x) :: fs =>
    if i = id then
      match n with
      | 0 => fs
      | n + 1 => (i, x) :: removeNth id n fs
    else (i, x) :: removeNth id n fs

/-- One field as bytes: id and size as 8 bytes each, most significant first, and the value. -/
def record (f : Int × List Byte) : List Byte := (bytesLE 8 (ofLong f.1)).reverse ++ (bytesLE 8 f.2.length).reverse ++ f.2

/-- The bytes of a buffer with this content. -/
def flat (fs : Fields) : List Byte := fs.flatMap record

/-- A `long`. -/
def IsLong (i : Int) : Prop := -9223372036854775808 ≤ i ∧ i < 9223372036854775808

theorem occs_setNth_same (id : Int) (b : α) (n : Nat) (fs : Content α) : occs id (setNth id b n fs) = (occs id fs).set n b := by
  induction fs generalizing n with
  | nil => simp [setNth, occs]
  | cons f fs ih =>
    obtain ⟨i, x⟩ := f
    by_cases hi : i = id
    · cases n with
      | zero => simp [setNth, occs, hi]
      | succ n => simp only [setNth, hi, ↓reduceIte]; have := ih n; simp_all [occs]
    · simp only [setNth, hi, ↓reduceIte]; have := ih n; simp_all [occs]

theorem occs_setNth_other {id j : Int} (hj : j ≠ id) (b : α) (n : Nat) (fs : Content α) : occs j (setNth id b n fs) = occs j fs := by
  induction fs generalizing n with
  | nil => simp [setNth, occs]
  | cons f fs ih =>
    obtain ⟨i, x⟩ := f
    by_cases hi : i = id
    · subst hi
      cases n with
      | zero => simp [setNth, occs, Ne.symm hj]
      | succ n =>
        simp only [setNth, ↓reduceIte]; have := ih n
        simp only [occs, List.filter_cons] at this ⊢
        split <;> simp_all
    · simp only [setNth, hi, ↓reduceIte]; have := ih n
      simp only [occs, List.filter_cons] at this ⊢
      split <;> simp_all

theorem occs_removeNth_same (id : Int) (n : Nat) (fs : Content α) : occs id (removeNth id n fs) = (occs id fs).eraseIdx n := by
  induction fs generalizing n with
  | nil => simp [removeNth, occs]
  | cons f fs ih =>
    obtain ⟨i, x⟩ := f
    by_cases hi : i = id
    · cases n with
      | zero => simp [removeNth, occs, hi]
      | succ n => simp only [removeNth, hi, ↓reduceIte]; have := ih n; simp_all [occs]
    · simp only [removeNth, hi, ↓reduceIte]; have := ih n; simp_all [occs]

theorem occs_removeNth_other {id j : Int} (hj : j ≠ id) (n : Nat) (fs : Content α) : occs j (removeNth id n fs) = occs j fs := by
  induction fs generalizing n with
  | nil => simp [removeNth, occs]
  | cons f fs ih =>
    obtain ⟨i, x⟩ := f
    by_cases hi : i = id
    · subst hi
      cases n with
      | zero => simp [removeNth, occs, Ne.symm hj]
      | succ n =>
        simp only [removeNth, ↓reduceIte]; have := ih n
        simp only [occs, List.filter_cons] at this ⊢
        split <;> simp_all
    · simp only [removeNth, hi, ↓reduceIte]; have := ih n
      simp only [occs, List.filter_cons] at this ⊢
      split <;> simp_all

theorem occs_append (id : Int) (a b : Content α) : occs id (a ++ b) = occs id a ++ occs id b := by simp [occs]

/-- An occurrence is somewhere. -/
theorem occs_split {id : Int} {n : Nat} {fs : Content α} {x : α} (h : (occs id fs)[n]? = some x) :
    ∃ pre post, fs = pre ++ (id, x) :: post ∧ (occs id pre).length = n := by
  induction fs generalizing n with
  | nil => simp [occs] at h
  | cons f fs ih =>
    obtain ⟨i, y⟩ := f
    by_cases hi : i = id
    · subst hi
      cases n with
      | zero => simp [occs] at h; subst h; exact ⟨[], fs, rfl, rfl⟩
      | succ n =>
        have h' : (occs i fs)[n]? = some x := by simpa [occs] using h
        obtain ⟨pre, post, he, hl⟩ := ih h'
        refine ⟨(i, y) :: pre, post, by simp [he], ?_⟩
        simp only [occs] at hl ⊢
        simp [hl]
    · have h' : (occs id fs)[n]? = some x := by simpa [occs, hi] using h
      obtain ⟨pre, post, he, hl⟩ := ih h'
      refine ⟨(i, y) :: pre, post, by simp [he], ?_⟩
      simp only [occs] at hl ⊢
      simp [hi, hl]

theorem setNth_split {id : Int} (b x : α) (pre post : Content α) :
    setNth id b (occs id pre).length (pre ++ (id, x) :: post) = pre ++ (id, b) :: post := by
  induction pre with
  | nil => simp [setNth, occs]
  | cons f pre ih =>
    obtain ⟨i, y⟩ := f
    by_cases hi : i = id
    · subst hi
      simp only [occs, List.length_map] at ih ⊢
      simp [setNth, ih]
    · simp only [occs, List.length_map] at ih ⊢
      simp [setNth, hi, ih]

theorem removeNth_split {id : Int} (x : α) (pre post : Content α) :
    removeNth id (occs id pre).length (pre ++ (id, x) :: post) = pre ++ post := by
  induction pre with
  | nil => simp [removeNth, occs]
  | cons f pre ih =>
    obtain ⟨i, y⟩ := f
    by_cases hi : i = id
    · subst hi
      simp only [occs, List.length_map] at ih ⊢
      simp [removeNth, ih]
    · simp only [occs, List.length_map] at ih ⊢
      simp [removeNth, hi, ih]

@[simp] theorem record_length (f : Int × List Byte) : (record f).length = 16 + f.2.length := by simp [record]; omega

theorem flat_append (a b : Fields) : flat (a ++ b) = flat a ++ flat b := by simp [flat]

end Casual.Buffer.Field

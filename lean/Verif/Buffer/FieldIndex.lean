import Verif.Buffer.FieldSpec
/-!
# The index of a field buffer
-/
namespace Casual.Buffer.Field
open Casual.Data

/-- Keys strictly increasing and no key without offsets. -/
def Index.Ok (ix : Index) : Prop := ix.Pairwise (fun a b => a.1 < b.1) ∧ ∀ f ∈ ix, f.2 ≠ []

namespace Index

theorem look_of_lt {ix : Index} {id : Int} (h : ∀ f ∈ ix, id < f.1) : ix.look id = [] := by
  induction ix with
  | nil => rfl
  | cons f ix ih =>
    obtain ⟨k, l⟩ := f
    have h1 := h (k, l) (by simp)
    have : ¬ k = id := by simp at h1; omega
    simp only [look, this, ↓reduceIte]
    exact ih fun f hf => h f (by simp [hf])

theorem mem_push {ix : Index} {id o : Int} {f : Int × List Int} (h : f ∈ ix.push id o) : f.1 = id ∨ ∃ g ∈ ix, g.1 = f.1 := by
  induction ix with
  | nil => simp [push] at h; subst h; simp
  | cons g ix ih =>
    obtain ⟨k, l⟩ := g
    simp only [push] at h
    split at h
    · rcases List.mem_cons.mp h with h | h
      · subst h; simp
      · exact .inr ⟨f, h, rfl⟩
    · split at h
      · rename_i hk
        rcases List.mem_cons.mp h with h | h
        · subst h; simp [hk]
        · exact .inr ⟨f, by simp [h], rfl⟩
      · rcases List.mem_cons.mp h with h | h
        · subst h; exact .inr ⟨(k, l), by simp, rfl⟩
        · rcases ih h with h | ⟨g, hg, he⟩
          · exact .inl h
          · exact .inr ⟨g, by simp [hg], he⟩

theorem ok_push {ix : Index} (h : ix.Ok) (id o : Int) : (ix.push id o).Ok := by
  induction ix with
  | nil => simp [push, Ok]
  | cons g ix ih =>
    obtain ⟨k, l⟩ := g
    obtain ⟨hp, hn⟩ := h
    have hp' := List.pairwise_cons.mp hp
    have ih' := ih ⟨hp'.2, fun f hf => hn f (by simp [hf])⟩
    simp only [push]
    split
    · rename_i hk
      refine ⟨List.pairwise_cons.mpr ⟨?_, hp⟩, ?_⟩
      · intro f hf
        rcases List.mem_cons.mp hf with hf | hf
        · subst hf; exact hk
        · have := hp'.1 f hf; simp at this ⊢; omega
      · intro f hf
        rcases List.mem_cons.mp hf with hf | hf
        · subst hf; simp
        · exact hn f hf
    · split
      · refine ⟨List.pairwise_cons.mpr ⟨hp'.1, hp'.2⟩, ?_⟩
        intro f hf
        rcases List.mem_cons.mp hf with hf | hf
        · subst hf; simp
        · exact hn f (by simp [hf])
      · refine ⟨List.pairwise_cons.mpr ⟨?_, ih'.1⟩, ?_⟩
        · intro f hf
          rcases mem_push hf with hf | ⟨g, hg, he⟩
          · rw [hf]; simp; omega
          · have := hp'.1 g hg; rw [he] at this; exact this
        · intro f hf
          rcases List.mem_cons.mp hf with hf | hf
          · subst hf; exact hn _ (by simp)
          · exact ih'.2 f hf

theorem look_push {ix : Index} (h : ix.Ok) (id o j : Int) : (ix.push id o).look j = if j = id then ix.look id ++ [o] else ix.look j := by
  induction ix with
  | nil =>
    by_cases hj : j = id
    · simp [push, look, hj]
    · simp [push, look, hj, Ne.symm hj]
  | cons g ix ih =>
    obtain ⟨k, l⟩ := g
    obtain ⟨hp, hn⟩ := h
    have hp' := List.pairwise_cons.mp hp
    have ih' := ih ⟨hp'.2, fun f hf => hn f (by simp [hf])⟩
    simp only [push]
    split
    · rename_i hk
      have hne : ¬ k = id := by omega
      have h0 : look ix id = [] := look_of_lt fun f hf => by have := hp'.1 f hf; simp at this; omega
      by_cases hj : j = id
      · subst hj; simp [look, hne, h0]
      · have : ¬ id = j := fun h => hj h.symm
        simp [look, hj, this]
    · split
      · rename_i hk
        subst hk
        by_cases hj : j = id
        · subst hj; simp [look]
        · have : ¬ id = j := fun h => hj h.symm
          simp [look, hj, this]
      · rename_i h1 h2
        have hne : ¬ k = id := fun h => h2 h.symm
        simp only [look, ih']
        by_cases hj : j = id
        · subst hj; simp [hne]
        · simp [hj]

theorem keys_shift (ix : Index) (o d : Int) : (ix.shift o d).map (·.1) = ix.map (·.1) := by
  simp [shift, Function.comp_def]

theorem look_shift (ix : Index) (o d id : Int) : (ix.shift o d).look id = (ix.look id).map fun x => if x > o then x + d else x := by
  induction ix with
  | nil => rfl
  | cons g ix ih =>
    obtain ⟨k, l⟩ := g
    by_cases hk : k = id
    · simp [shift, look, hk]
    · have : (shift ix o d) = ix.map fun (k, l) => (k, l.map fun x => if x > o then x + d else x) := rfl
      simp only [shift, List.map_cons, look, hk, ↓reduceIte]
      rw [← this, ih]

theorem ok_shift {ix : Index} (h : ix.Ok) (o d : Int) : (ix.shift o d).Ok := by
  obtain ⟨hp, hn⟩ := h
  refine ⟨?_, ?_⟩
  · simp only [shift]; rw [List.pairwise_map]; exact hp.imp fun h => h
  · intro f hf
    simp only [shift, List.mem_map] at hf
    obtain ⟨g, hg, rfl⟩ := hf
    simpa using hn g hg

theorem mem_drop {ix : Index} {id : Int} {n : Nat} {f : Int × List Int} (h : f ∈ ix.drop id n) : ∃ g ∈ ix, g.1 = f.1 := by
  induction ix with
  | nil => simp [drop] at h
  | cons g ix ih =>
    obtain ⟨k, l⟩ := g
    simp only [drop] at h
    split at h
    · split at h
      · exact ⟨f, by simp [h], rfl⟩
      · rcases List.mem_cons.mp h with h | h
        · subst h; exact ⟨(k, l), by simp, rfl⟩
        · exact ⟨f, by simp [h], rfl⟩
    · rcases List.mem_cons.mp h with h | h
      · subst h; exact ⟨(k, l), by simp, rfl⟩
      · obtain ⟨g, hg, he⟩ := ih h
        exact ⟨g, by simp [hg], he⟩

theorem ok_drop {ix : Index} (h : ix.Ok) (id : Int) (n : Nat) : (ix.drop id n).Ok := by
  induction ix with
  | nil => exact h
  | cons g ix ih =>
    obtain ⟨k, l⟩ := g
    obtain ⟨hp, hn⟩ := h
    have hp' := List.pairwise_cons.mp hp
    have hix : Ok ix := ⟨hp'.2, fun f hf => hn f (by simp [hf])⟩
    have ih' := ih hix
    simp only [drop]
    split
    · split
      · exact hix
      · rename_i hne
        refine ⟨List.pairwise_cons.mpr ⟨hp'.1, hp'.2⟩, ?_⟩
        intro f hf
        rcases List.mem_cons.mp hf with hf | hf
        · subst hf; exact hne
        · exact hix.2 f hf
    · refine ⟨List.pairwise_cons.mpr ⟨?_, ih'.1⟩, ?_⟩
      · intro f hf
        obtain ⟨g, hg, he⟩ := mem_drop hf
        have := hp'.1 g hg; rw [he] at this; exact this
      · intro f hf
        rcases List.mem_cons.mp hf with hf | hf
        · subst hf; exact hn _ (by simp)
        · exact ih'.2 f hf

theorem look_drop {ix : Index} (h : ix.Ok) (id : Int) (n : Nat) (j : Int) :
    (ix.drop id n).look j = if j = id then (ix.look id).eraseIdx n else ix.look j := by
  induction ix with
  | nil => simp [drop, look]
  | cons g ix ih =>
    obtain ⟨k, l⟩ := g
    obtain ⟨hp, hn⟩ := h
    have hp' := List.pairwise_cons.mp hp
    have hix : Ok ix := ⟨hp'.2, fun f hf => hn f (by simp [hf])⟩
    have ih' := ih hix
    simp only [drop]
    split
    · rename_i hk
      subst hk
      have h0 : look ix k = [] := look_of_lt fun f hf => hp'.1 f hf
      split
      · rename_i he
        by_cases hj : j = k
        · subst hj; simp [look, h0, he]
        · have : ¬ k = j := fun h => hj h.symm
          simp [look, hj, this]
      · by_cases hj : j = k
        · subst hj; simp [look]
        · have : ¬ k = j := fun h => hj h.symm
          simp [look, hj, this]
    · rename_i hne
      simp only [look, ih', hne, ↓reduceIte]
      by_cases hj : j = id
      · subst hj; simp [hne]
      · simp [hj]

theorem mem_look {ix : Index} (h : ix.Ok) {f : Int × List Int} (hf : f ∈ ix) : ix.look f.1 = f.2 := by
  induction ix with
  | nil => simp at hf
  | cons g ix ih =>
    obtain ⟨k, l⟩ := g
    obtain ⟨hp, hn⟩ := h
    have hp' := List.pairwise_cons.mp hp
    rcases List.mem_cons.mp hf with hf | hf
    · subst hf; simp [look]
    · have := hp'.1 f hf
      have hne : ¬ k = f.1 := by simp at this; omega
      simp only [look, hne, ↓reduceIte]
      exact ih ⟨hp'.2, fun f hf => hn f (by simp [hf])⟩ hf

theorem look_mem {ix : Index} {id : Int} (h : ix.look id ≠ []) : (id, ix.look id) ∈ ix := by
  induction ix with
  | nil => simp [look] at h
  | cons g ix ih =>
    obtain ⟨k, l⟩ := g
    by_cases hk : k = id
    · simp [look, hk]
    · simp only [look, hk, ↓reduceIte] at h ⊢
      exact List.mem_cons_of_mem _ (ih h)

end Index
end Casual.Buffer.Field

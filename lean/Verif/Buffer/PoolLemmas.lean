import Verif.Buffer.Pool
/-!
# What the calls do to the buffers that are held
-/
namespace Casual.Buffer.Pool
open Casual.Data Casual.Buffer.Field

/-- All buffers, with the kind of their pool. -/
def held (ps : Holder) : List (Kind × Block) := ps.flatMap fun p => p.blocks.map fun b => (p.kind, b)

/-- The buffer of a handle. -/
def Holds (ps : Holder) (h : Nat) (k : Kind) (b : Block) : Prop := (k, b) ∈ held ps ∧ b.addr = h

/-- There is no buffer with this handle. -/
def Unknown (ps : Holder) (h : Nat) : Prop := ∀ e ∈ held ps, e.2.addr ≠ h

/-- An address that can be allocated. -/
def Fresh (ps : Holder) (a : Nat) : Prop := a ≠ 0 ∧ Unknown ps a

/-- Buffers have different handles. -/
def Distinct (ps : Holder) : Prop := (held ps).Pairwise fun e e' => e.2.addr = e'.2.addr → e.2.addr = 0

theorem held_cons (p : Pool) (ps : Holder) : held (p :: ps) = p.blocks.map (fun b => (p.kind, b)) ++ held ps := by simp [held]

theorem split_first (h : Nat) (bs : List Block) (hb : bs.any (·.addr == h)) : ∃ l b r, bs = l ++ b :: r ∧ b.addr = h ∧ ∀ x ∈ l, x.addr ≠ h := by
  induction bs with
  | nil => simp at hb
  | cons x bs ih =>
    by_cases hx : x.addr = h
    · exact ⟨[], x, bs, rfl, hx, by simp⟩
    · have : bs.any (·.addr == h) := by simpa [hx] using hb
      obtain ⟨l, b, r, e, e1, e2⟩ := ih this
      refine ⟨x :: l, b, r, by rw [e]; rfl, e1, ?_⟩
      intro y hy
      rcases List.mem_cons.mp hy with rfl | hy
      · exact hx
      · exact e2 y hy

theorem find_split {h : Nat} {l : List Block} {b : Block} {r : List Block} (hb : b.addr = h) (hl : ∀ x ∈ l, x.addr ≠ h) : (l ++ b :: r).find? (·.addr == h) = some b := by
  rw [List.find?_append]
  have : l.find? (·.addr == h) = none := by
    rw [List.find?_eq_none]
    intro x hx
    simpa using hl x hx
  rw [this]
  simp [hb]

theorem held_at {h : Nat} {ps : Holder} (F : Kind → List Block → List Block) (G : Kind → Block → List Block)
    (hF : ∀ k l b r, (∀ x ∈ l, x.addr ≠ h) → b.addr = h → F k (l ++ b :: r) = l ++ G k b ++ r) (hany : ps.any (Pool.has h)) :
    ∃ l k b r, held ps = l ++ (k, b) :: r ∧ b.addr = h ∧ (∀ e ∈ l, e.2.addr ≠ h) ∧ lookup ps h = some (k, b) ∧
      held (modifyFirst (Pool.has h) (fun p => { p with blocks := F p.kind p.blocks }) ps) = l ++ (G k b).map (fun c => (k, c)) ++ r := by
  induction ps with
  | nil => simp at hany
  | cons p ps ih =>
    by_cases hp : p.has h
    · obtain ⟨l, b, r, e, e1, e2⟩ := split_first h p.blocks hp
      refine ⟨l.map (fun c => (p.kind, c)), p.kind, b, r.map (fun c => (p.kind, c)) ++ held ps, ?_, e1, ?_, ?_, ?_⟩
      · rw [held_cons, e]; simp
      · intro x hx
        obtain ⟨y, hy, rfl⟩ := List.mem_map.mp hx
        exact e2 y hy
      · unfold lookup
        rw [List.find?_cons_of_pos hp]
        simp only [e, find_split e1 e2, Option.map_some]
      · simp only [modifyFirst, hp, ↓reduceIte]
        rw [held_cons, e, hF _ _ _ _ e2 e1]
        simp
    · have hany' : ps.any (Pool.has h) := by simpa [hp] using hany
      obtain ⟨l, k, b, r, e, e1, e2, e3, e4⟩ := ih hany'
      refine ⟨p.blocks.map (fun c => (p.kind, c)) ++ l, k, b, r, ?_, e1, ?_, ?_, ?_⟩
      · rw [held_cons, e]; simp
      · intro x hx
        rcases List.mem_append.mp hx with hx | hx
        · obtain ⟨y, hy, rfl⟩ := List.mem_map.mp hx
          intro hy'
          apply hp
          unfold Pool.has
          exact List.any_eq_true.mpr ⟨y, hy, by simpa using hy'⟩
        · exact e2 x hx
      · rw [← e3]
        unfold lookup
        rw [List.find?_cons_of_neg hp]
      · simp only [modifyFirst, hp, Bool.false_eq_true, ↓reduceIte]
        rw [held_cons, e4]
        simp

theorem any_has (ps : Holder) (h : Nat) : ps.any (Pool.has h) = true ↔ ∃ e ∈ held ps, e.2.addr = h := by
  constructor
  · intro hs
    obtain ⟨p, hp, hh⟩ := List.any_eq_true.mp hs
    obtain ⟨b, hb, e⟩ := List.any_eq_true.mp hh
    exact ⟨(p.kind, b), List.mem_flatMap.mpr ⟨p, hp, List.mem_map.mpr ⟨b, hb, rfl⟩⟩, by simpa using e⟩
  · rintro ⟨e, he, rfl⟩
    obtain ⟨p, hp, hh⟩ := List.mem_flatMap.mp he
    obtain ⟨b, hb, rfl⟩ := List.mem_map.mp hh
    exact List.any_eq_true.mpr ⟨p, hp, List.any_eq_true.mpr ⟨b, hb, by simp⟩⟩

theorem any_unknown {ps : Holder} {h : Nat} (hu : Unknown ps h) : ps.any (Pool.has h) = false := by
  rw [Bool.eq_false_iff]
  intro hs
  obtain ⟨e, he, e1⟩ := (any_has ps h).mp hs
  exact hu e he e1

theorem lookup_unknown {ps : Holder} {h : Nat} (hu : Unknown ps h) : lookup ps h = none := by
  unfold lookup
  have : ps.find? (Pool.has h) = none := by
    rw [List.find?_eq_none]
    intro p hp hs
    have := any_unknown hu
    rw [Bool.eq_false_iff] at this
    exact this (List.any_eq_true.mpr ⟨p, hp, hs⟩)
  rw [this]

theorem unique {ps : Holder} (hd : Distinct ps) {e e' : Kind × Block} (he : e ∈ held ps) (he' : e' ∈ held ps) (ha : e.2.addr = e'.2.addr) (h0 : e.2.addr ≠ 0) : e = e' := by
  unfold Distinct at hd
  revert hd he he'
  generalize held ps = xs
  intro hd he he'
  induction xs with
  | nil => cases he
  | cons x xs ih =>
    rw [List.pairwise_cons] at hd
    rcases List.mem_cons.mp he with h | h <;> rcases List.mem_cons.mp he' with h' | h'
    · rw [h, h']
    · rw [h] at ha h0 
      exact absurd (hd.1 _ h' ha) h0
    · rw [h'] at ha
      have := hd.1 _ h ha.symm
      rw [← ha] at this
      exact absurd this h0
    · exact ih hd.2 h h'

theorem lookup_holds {ps : Holder} (hd : Distinct ps) {h : Nat} (h0 : h ≠ 0) {k : Kind} {b : Block} (hh : Holds ps h k b) : lookup ps h = some (k, b) := by
  have hany : ps.any (Pool.has h) := (any_has ps h).mpr ⟨_, hh.1, hh.2⟩
  obtain ⟨l, k', b', r, e, e1, _, e3, _⟩ := held_at (fun _ bs => removeFirst h bs) (fun _ _ => []) (by
    intro _ l b r hl hb
    induction l with
    | nil => simp [removeFirst, hb]
    | cons x l ih =>
      have hx : x.addr ≠ h := hl x (by simp)
      have := ih fun y hy => hl y (by simp [hy])
      simp only [List.append_assoc, List.nil_append] at this
      simp [removeFirst, hx, this]) hany
  have : (k, b) = (k', b') := unique hd hh.1 (by rw [e]; simp) (by show b.addr = b'.addr; rw [hh.2, e1]) (by show b.addr ≠ 0; rw [hh.2]; exact h0)
  rw [e3, this]

theorem modify_split (h : Nat) (g : Block → Block) (l : List Block) (b : Block) (r : List Block) (hl : ∀ x ∈ l, x.addr ≠ h) (hb : b.addr = h) :
    modifyFirst (·.addr == h) g (l ++ b :: r) = l ++ [g b] ++ r := by
  induction l with
  | nil => simp [modifyFirst, hb]
  | cons x l ih =>
    have hx : x.addr ≠ h := hl x (by simp)
    have := ih fun y hy => hl y (by simp [hy])
    simp only [List.append_assoc, List.cons_append, List.nil_append] at this
    simp [modifyFirst, hx, this]

theorem erase_split (h : Nat) (l : List Block) (b : Block) (r : List Block) (hl : ∀ x ∈ l, x.addr ≠ h) (hb : b.addr = h) :
    eraseFirst h (l ++ b :: r) = l ++ (if b.inbound then [b] else []) ++ r := by
  induction l with
  | nil => simp only [eraseFirst, hb, List.nil_append, beq_self_eq_true, ↓reduceIte]; split <;> rfl
  | cons x l ih =>
    have hx : x.addr ≠ h := hl x (by simp)
    have := ih fun y hy => hl y (by simp [hy])
    simp only [List.append_assoc] at this
    simp [eraseFirst, hx, this]

theorem remove_split (h : Nat) (l : List Block) (b : Block) (r : List Block) (hl : ∀ x ∈ l, x.addr ≠ h) (hb : b.addr = h) :
    removeFirst h (l ++ b :: r) = l ++ [] ++ r := by
  induction l with
  | nil => simp [removeFirst, hb]
  | cons x l ih =>
    have hx : x.addr ≠ h := hl x (by simp)
    have := ih fun y hy => hl y (by simp [hy])
    simp only [List.append_assoc, List.nil_append] at this
    simp [removeFirst, hx, this]

/-- A new buffer. -/
theorem held_push (t : String) (B : Pool → Block) (ps : Holder) (hany : ps.any (Pool.manages t)) :
    ∃ l r p, ps.find? (Pool.manages t) = some p ∧ held ps = l ++ r ∧
      held (modifyFirst (Pool.manages t) (fun p => { p with blocks := p.blocks ++ [B p] }) ps) = l ++ (p.kind, B p) :: r := by
  induction ps with
  | nil => simp at hany
  | cons p ps ih =>
    by_cases hp : p.manages t
    · refine ⟨p.blocks.map (fun c => (p.kind, c)), held ps, p, by rw [List.find?_cons_of_pos hp], held_cons p ps, ?_⟩
      simp only [modifyFirst, hp, ↓reduceIte]
      rw [held_cons]; simp
    · have hany' : ps.any (Pool.manages t) := by simpa [hp] using hany
      obtain ⟨l, r, q, e, e1, e2⟩ := ih hany'
      refine ⟨p.blocks.map (fun c => (p.kind, c)) ++ l, r, q, by rw [List.find?_cons_of_neg hp]; exact e, ?_, ?_⟩
      · rw [held_cons, e1]; simp
      · simp only [modifyFirst, hp, Bool.false_eq_true, ↓reduceIte]
        rw [held_cons, e2]; simp

theorem held_clear (ps : Holder) : held (clear ps) = (held ps).filter fun e => !e.2.inbound := by
  induction ps with
  | nil => rfl
  | cons p ps ih =>
    have : clear (p :: ps) = { p with blocks := p.blocks.filter fun b => !b.inbound } :: clear ps := rfl
    rw [this, held_cons, held_cons, ih, List.filter_append, List.filter_map]
    rfl

theorem modify_self {α : Type} (p : α → Bool) (f : α → α) (l : List α) (hf : ∀ x, p x → f x = x) : modifyFirst p f l = l := by
  induction l with
  | nil => rfl
  | cons x l ih =>
    simp only [modifyFirst]
    split
    · rw [hf x (by assumption)]
    · rw [ih]

/-! The pools of the process, what they are and which types they manage, stay as they are. -/

/-- Kinds and types. -/
def shape (ps : Holder) : List (Kind × List String) := ps.map fun p => (p.kind, p.types)

theorem shape_modify (q : Pool → Bool) (f : Pool → Pool) (hf : ∀ p, (f p).kind = p.kind ∧ (f p).types = p.types) (ps : Holder) : shape (modifyFirst q f ps) = shape ps := by
  induction ps with
  | nil => rfl
  | cons p ps ih =>
    simp only [modifyFirst]
    split
    · simp [shape, (hf p).1, (hf p).2]
    · have : shape (p :: modifyFirst q f ps) = (p.kind, p.types) :: shape (modifyFirst q f ps) := rfl
      rw [this, ih]; rfl

theorem manages_shape {ps ps' : Holder} (h : shape ps = shape ps') (t : String) : ps.any (Pool.manages t) = ps'.any (Pool.manages t) ∧
    (ps.find? (Pool.manages t)).map Pool.kind = (ps'.find? (Pool.manages t)).map Pool.kind := by
  induction ps generalizing ps' with
  | nil =>
    cases ps' with
    | nil => exact ⟨rfl, rfl⟩
    | cons p ps' => simp [shape] at h
  | cons p ps ih =>
    cases ps' with
    | nil => simp [shape] at h
    | cons p' ps' =>
      simp only [shape, List.map_cons, List.cons.injEq, Prod.mk.injEq] at h
      obtain ⟨⟨hk, ht⟩, hr⟩ := h
      have hm : p.manages t = p'.manages t := by unfold Pool.manages; rw [ht]
      obtain ⟨i1, i2⟩ := ih hr
      constructor
      · rw [List.any_cons, List.any_cons, hm, i1]
      · rw [List.find?_cons, List.find?_cons, hm]
        cases p'.manages t
        · exact i2
        · simp [hk]

end Casual.Buffer.Pool

import Verif.Data.Xid
/-! # Properties of transaction ids: C32, C33, and C70 -/
namespace Casual.Data

/-! ## Lemmas: `memcmp` is the lexicographic order -/

def lex : List Byte → List Byte → Ordering
  | [], [] => .eq
  | [], _ :: _ => .lt
  | _ :: _, [] => .gt
  | a :: l, b :: r => if a < b then .lt else if b < a then .gt else lex l r

theorem memcmp_lex (n : Nat) (a b : List Byte) (ha : n ≤ a.length) (hb : n ≤ b.length) : memcmp n a b = lex (a.take n) (b.take n) := by
  induction n generalizing a b with
  | zero => simp [memcmp, lex]
  | succ n ih =>
    match a, b with
    | [], _ => simp at ha
    | _ :: _, [] => simp at hb
    | x :: a, y :: b =>
      simp only [List.length_cons] at ha hb
      simp only [memcmp, List.take_succ_cons, lex, ih a b (by omega) (by omega)]

theorem lex_eq {a b : List Byte} : lex a b = .eq ↔ a = b := by
  fun_induction lex a b with
  | case1 => simp
  | case2 => simp
  | case3 => simp
  | case4 a l b r h => simp; intro h'; subst h'; exact absurd h (Nat.lt_irrefl _)
  | case5 a l b r h h' => simp; intro h''; subst h''; exact absurd h' (Nat.lt_irrefl _)
  | case6 a l b r h h' ih =>
    rw [ih]
    have : a = b := Fin.ext (Nat.le_antisymm (Nat.not_lt.mp h') (Nat.not_lt.mp h))
    simp [this]

theorem lex_refl (a : List Byte) : lex a a = .eq := lex_eq.mpr rfl

theorem lex_swap (a b : List Byte) : lex b a = (lex a b).swap := by
  fun_induction lex a b with
  | case1 => rfl
  | case2 => rfl
  | case3 => rfl
  | case4 a l b r h => simp [lex, h, Nat.lt_asymm, show ¬ b < a from Nat.lt_asymm h]
  | case5 a l b r h h' => simp [lex, h']
  | case6 a l b r h h' ih => simp [lex, h, h', ih]

theorem lex_trans {a b c : List Byte} (h1 : lex a b = .lt) (h2 : lex b c = .lt) : lex a c = .lt := by
  induction a generalizing b c with
  | nil =>
    match b, c, h1, h2 with
    | _ :: _, _ :: _, _, _ => rfl
    | [], _, h1, _ => cases h1
    | _ :: _, [], _, h2 => cases h2
  | cons x a ih =>
    match b, c, h1, h2 with
    | [], _, h1, _ => cases h1
    | _ :: _, [], _, h2 => cases h2
    | y :: b, z :: c, h1, h2 =>
      simp only [lex] at h1 h2 ⊢
      by_cases hxy : x < y
      · by_cases hyz : y < z
        · rw [if_pos (show x < z from Nat.lt_trans hxy hyz)]
        · rw [if_neg hyz] at h2
          by_cases hzy : z < y
          · rw [if_pos hzy] at h2; cases h2
          · have : y = z := Fin.ext (Nat.le_antisymm (Nat.not_lt.mp hzy) (Nat.not_lt.mp hyz))
            rw [if_pos (this ▸ hxy)]
      · rw [if_neg hxy] at h1
        by_cases hyx : y < x
        · rw [if_pos hyx] at h1; cases h1
        · have : x = y := Fin.ext (Nat.le_antisymm (Nat.not_lt.mp hyx) (Nat.not_lt.mp hxy))
          subst this
          rw [if_neg hyx] at h1
          by_cases hyz : x < z
          · rw [if_pos hyz]
          · rw [if_neg hyz] at h2 ⊢
            by_cases hzy : z < x
            · rw [if_pos hzy] at h2; cases h2
            · rw [if_neg hzy] at h2 ⊢
              exact ih h1 h2

theorem lex_append {p q : List Byte} (h : p.length = q.length) (a b : List Byte) : lex (p ++ a) (q ++ b) = (lex p q).then (lex a b) := by
  induction p generalizing q with
  | nil =>
    match q, h with
    | [], _ => rfl
  | cons x p ih =>
    match q, h with
    | y :: q, h =>
      simp only [List.length_cons, Nat.add_right_cancel_iff] at h
      simp only [List.cons_append, lex, ih h]
      split
      · rfl
      · split
        · rfl
        · rfl

/-- The bytes that are compared. -/
def Xid.head (h : Host) (x : Xid) : List Byte := mem h 8 x.format ++ mem h 8 x.gtrid ++ mem h 8 x.bqual
def Xid.key (h : Host) (x : Xid) : List Byte := x.head h ++ x.bytes

theorem head_length (h : Host) (x : Xid) : (x.head h).length = 24 := by simp [Xid.head]

theorem small64 {n : Nat} (h : n ≤ 64) : n < 256 ^ 8 := Nat.lt_of_le_of_lt h (by decide)

theorem head_inj {h : Host} {a b : Xid} (ha : a.Valid) (hb : b.Valid) (he : a.head h = b.head h) : a.format = b.format ∧ a.gtrid = b.gtrid ∧ a.bqual = b.bqual := by
  unfold Xid.head at he
  obtain ⟨h1, h2⟩ := List.append_inj he (by simp)
  obtain ⟨h3, h4⟩ := List.append_inj h1 (by simp)
  exact ⟨mem_inj ha.format hb.format h3, mem_inj (small64 ha.gtrid) (small64 hb.gtrid) h4, mem_inj (small64 ha.bqual) (small64 hb.bqual) h2⟩

theorem compared {h : Host} {a b : Xid} (ha : a.Valid) (hb : b.Valid) : memcmp a.used (a.image h) (b.image h) = lex (a.key h) (b.key h) := by
  have hm := ha.gtrid
  have hm' := ha.bqual
  have hu : a.used = 24 + (a.gtrid + a.bqual) := by unfold Xid.used; omega
  have hia : a.image h = a.head h ++ a.data := rfl
  have hib : b.image h = b.head h ++ b.data := rfl
  have hla := head_length h a
  have hlb := head_length h b
  have hda := ha.data
  have hdb := hb.data
  have ht : ∀ x : Xid, (x.head h).length = 24 → (x.head h ++ x.data).take (24 + (a.gtrid + a.bqual)) = x.head h ++ x.data.take (a.gtrid + a.bqual) := by
    intro x hx
    rw [List.take_append, hx, List.take_of_length_le (by omega)]
    congr 2
    omega
  rw [memcmp_lex _ _ _ (by rw [hia, List.length_append]; omega) (by rw [hib, List.length_append]; omega), hu, hia, hib, ht a hla, ht b hlb]
  unfold Xid.key
  rw [lex_append (by omega), lex_append (by omega)]
  cases hl : lex (a.head h) (b.head h) with
  | lt => rfl
  | gt => rfl
  | eq =>
    obtain ⟨-, h2, h3⟩ := head_inj ha hb (lex_eq.mp hl)
    show lex _ _ = lex _ _
    unfold Xid.bytes
    rw [h2, h3]

theorem global_length {x : Xid} (hx : x.Valid) : x.global.length = x.gtrid := by
  have := hx.gtrid; have := hx.data
  simp [Xid.global]; omega

theorem branch_length {x : Xid} (hx : x.Valid) : x.branchPart.length = x.bqual := by
  have := hx.gtrid; have := hx.bqual; have := hx.data
  simp [Xid.branchPart]; omega

theorem bytes_eq (x : Xid) : x.bytes = x.global ++ x.branchPart := by
  unfold Xid.bytes Xid.global Xid.branchPart
  rw [List.take_add]

/-! ## C32: ids compare correctly -/

/-- The same transaction branch: both null, or the same format, global part and branch part. -/
def Xid.Same (a b : Xid) : Prop := (a.format = fNull ∧ b.format = fNull) ∨ (a.format = b.format ∧ a.global = b.global ∧ a.branchPart = b.branchPart)

/-- Ids are equal if they stand for the same branch, whatever is in the part of the data that is not used. -/
theorem C32_eq (h : Host) (a b : Xid) (ha : a.Valid) (hb : b.Valid) : a.eq h b = true ↔ a.Same b := by
  unfold Xid.eq Xid.Same
  split
  · rename_i hf
    simp only [Bool.false_eq_true, false_iff, not_or, not_and]
    exact ⟨fun h1 h2 => hf (by rw [h1, h2]), fun h1 => absurd h1 hf⟩
  · rename_i hf
    have hf : a.format = b.format := Decidable.not_not.mp hf
    split
    · rename_i hn
      simp only [true_iff]
      exact .inl ⟨hn, by rw [← hf]; exact hn⟩
    · rename_i hn
      rw [compared ha hb, beq_iff_eq, lex_eq]
      constructor
      · intro he
        obtain ⟨h1, h2⟩ := List.append_inj he (by rw [head_length, head_length])
        obtain ⟨-, h3, h4⟩ := head_inj ha hb h1
        rw [bytes_eq, bytes_eq] at h2
        obtain ⟨h5, h6⟩ := List.append_inj h2 (by rw [global_length ha, global_length hb, h3])
        exact .inr ⟨hf, h5, h6⟩
      · rintro (⟨h1, -⟩ | ⟨-, h1, h2⟩)
        · exact absurd h1 hn
        · have h3 := global_length ha
          have h4 := branch_length ha
          rw [h1, global_length hb] at h3
          rw [h2, branch_length hb] at h4
          unfold Xid.key Xid.head
          rw [bytes_eq, bytes_eq, hf, h1, h2, h3, h4]

theorem signed64_inj {a b : Nat} (ha : a < 256 ^ 8) (hb : b < 256 ^ 8) (h : signed64 a = signed64 b) : a = b := by
  have h1 : (256 : Nat) ^ 8 = 2 ^ 64 := by decide
  rw [h1] at ha hb
  unfold signed64 at h
  split at h <;> split at h <;> omega

theorem lt_iff {h : Host} {a b : Xid} (ha : a.Valid) (hb : b.Valid) :
    a.lt h b = true ↔ signed64 a.format < signed64 b.format ∨ (a.format = b.format ∧ a.format ≠ fNull ∧ lex (a.key h) (b.key h) = .lt) := by
  unfold Xid.lt
  split
  · rename_i hf
    simp only [decide_eq_true_eq]
    constructor
    · exact .inl
    · rintro (h1 | ⟨h1, -⟩)
      · exact h1
      · exact absurd h1 hf
  · rename_i hf
    have hf : a.format = b.format := Decidable.not_not.mp hf
    split
    · rename_i hn
      simp only [Bool.false_eq_true, false_iff, not_or, not_and]
      exact ⟨by rw [hf]; omega, fun _ h1 => absurd hn h1⟩
    · rename_i hn
      rw [compared ha hb, beq_iff_eq]
      constructor
      · exact fun h1 => .inr ⟨hf, hn, h1⟩
      · rintro (h1 | ⟨-, -, h1⟩)
        · rw [hf] at h1; omega
        · exact h1

theorem eq_iff {h : Host} {a b : Xid} (ha : a.Valid) (hb : b.Valid) : a.eq h b = true ↔ a.format = b.format ∧ (a.format = fNull ∨ lex (a.key h) (b.key h) = .eq) := by
  unfold Xid.eq
  split
  · rename_i hf
    simp only [Bool.false_eq_true, false_iff, not_and]
    exact fun h1 => absurd h1 hf
  · rename_i hf
    have hf : a.format = b.format := Decidable.not_not.mp hf
    split
    · rename_i hn; exact ⟨fun _ => ⟨hf, .inl hn⟩, fun _ => rfl⟩
    · rename_i hn
      rw [compared ha hb, beq_iff_eq]
      exact ⟨fun h1 => ⟨hf, .inr h1⟩, fun ⟨_, h1⟩ => h1.resolve_left hn⟩

/-- The order is strict: no id is before itself, and if one is before another that is before a third then it is before the third. -/
theorem C32_strict (h : Host) (a b c : Xid) (ha : a.Valid) (hb : b.Valid) (hc : c.Valid) :
    a.lt h a = false ∧ (a.lt h b = true → b.lt h c = true → a.lt h c = true) := by
  constructor
  · cases hx : a.lt h a with
    | false => rfl
    | true =>
      rcases (lt_iff ha ha).mp hx with h1 | ⟨-, -, h1⟩
      · omega
      · rw [lex_refl] at h1; cases h1
  · rw [lt_iff ha hb, lt_iff hb hc, lt_iff ha hc]
    rintro (h1 | ⟨h1, h1', h1''⟩) (h2 | ⟨h2, h2', h2''⟩)
    · exact .inl (Int.lt_trans h1 h2)
    · left; rw [← h2]; exact h1
    · left; rw [h1]; exact h2
    · exact .inr ⟨by rw [h1, h2], h1', lex_trans h1'' h2''⟩

/-- Of two ids exactly one of: the one is before the other, they stand for the same branch, the other is before the one. So ids that stand for the same branch
have the same place in the order. -/
theorem C32_order (h : Host) (a b : Xid) (ha : a.Valid) (hb : b.Valid) :
    (a.lt h b = true ∧ ¬ a.Same b ∧ b.lt h a = false) ∨ (a.lt h b = false ∧ a.Same b ∧ b.lt h a = false) ∨ (a.lt h b = false ∧ ¬ a.Same b ∧ b.lt h a = true) := by
  have hfa := @signed64_inj a.format b.format ha.format hb.format
  rw [← C32_eq h a b ha hb]
  have key : ∀ {x : Bool} {P : Prop}, (x = true ↔ P) → ¬ P → x = false := by
    intro x P h1 h2
    cases x with
    | false => rfl
    | true => exact absurd (h1.mp rfl) h2
  rcases Int.lt_trichotomy (signed64 a.format) (signed64 b.format) with h1 | h1 | h1
  · have hne : a.format ≠ b.format := fun e => by rw [e] at h1; omega
    refine .inl ⟨(lt_iff ha hb).mpr (.inl h1), ?_, key (lt_iff hb ha) ?_⟩
    · rw [eq_iff ha hb]; exact fun e => hne e.1
    · rintro (h2 | h2)
      · omega
      · exact hne h2.1.symm
  · have hf := hfa h1
    have hsw := lex_swap (a.key h) (b.key h)
    by_cases hn : a.format = fNull
    · refine .inr (.inl ⟨key (lt_iff ha hb) ?_, ?_, key (lt_iff hb ha) ?_⟩)
      · rintro (h2 | h2)
        · omega
        · exact h2.2.1 hn
      · rw [eq_iff ha hb]; exact ⟨hf, .inl hn⟩
      · rintro (h2 | h2)
        · omega
        · exact h2.2.1 (by rw [← hf]; exact hn)
    · have hn' : b.format ≠ fNull := by rw [← hf]; exact hn
      cases hl : lex (a.key h) (b.key h) with
      | lt =>
        rw [hl] at hsw
        refine .inl ⟨(lt_iff ha hb).mpr (.inr ⟨hf, hn, hl⟩), ?_, key (lt_iff hb ha) ?_⟩
        · rw [eq_iff ha hb, hl]
          rintro ⟨-, h2 | h2⟩
          · exact hn h2
          · cases h2
        · rintro (h2 | h2)
          · omega
          · rw [hsw] at h2; exact absurd h2.2.2 (by decide)
      | eq =>
        rw [hl] at hsw
        refine .inr (.inl ⟨key (lt_iff ha hb) ?_, (eq_iff ha hb).mpr ⟨hf, .inr hl⟩, key (lt_iff hb ha) ?_⟩)
        · rintro (h2 | h2)
          · omega
          · rw [hl] at h2; exact absurd h2.2.2 (by decide)
        · rintro (h2 | h2)
          · omega
          · rw [hsw] at h2; exact absurd h2.2.2 (by decide)
      | gt =>
        rw [hl] at hsw
        refine .inr (.inr ⟨key (lt_iff ha hb) ?_, ?_, (lt_iff hb ha).mpr (.inr ⟨hf.symm, hn', hsw⟩)⟩)
        · rintro (h2 | h2)
          · omega
          · rw [hl] at h2; exact absurd h2.2.2 (by decide)
        · rw [eq_iff ha hb, hl]
          rintro ⟨-, h2 | h2⟩
          · exact hn h2
          · cases h2
  · have hne : a.format ≠ b.format := fun e => by rw [e] at h1; omega
    refine .inr (.inr ⟨key (lt_iff ha hb) ?_, ?_, (lt_iff hb ha).mpr (.inl h1)⟩)
    · rintro (h2 | h2)
      · omega
      · exact hne h2.1
    · rw [eq_iff ha hb]; exact fun e => hne e.1

/-- Equality is an equivalence. -/
theorem C32_equivalence (h : Host) (a b c : Xid) (ha : a.Valid) (hb : b.Valid) (hc : c.Valid) :
    a.eq h a = true ∧ (a.eq h b = true → b.eq h a = true) ∧ (a.eq h b = true → b.eq h c = true → a.eq h c = true) := by
  rw [C32_eq h a a ha ha, C32_eq h a b ha hb, C32_eq h b a hb ha, C32_eq h b c hb hc, C32_eq h a c ha hc]
  unfold Xid.Same
  refine ⟨.inr ⟨rfl, rfl, rfl⟩, ?_, ?_⟩
  · rintro (⟨h1, h2⟩ | ⟨h1, h2, h3⟩)
    · exact .inl ⟨h2, h1⟩
    · exact .inr ⟨h1.symm, h2.symm, h3.symm⟩
  · rintro (⟨h1, h2⟩ | ⟨h1, h2, h3⟩) (⟨h4, h5⟩ | ⟨h4, h5, h6⟩)
    · exact .inl ⟨h1, h5⟩
    · exact .inl ⟨h1, by rw [← h4]; exact h2⟩
    · exact .inl ⟨by rw [h1]; exact h4, h5⟩
    · exact .inr ⟨h1.trans h4, h2.trans h5, h3.trans h6⟩

/-! ## C33: branches -/

theorem copyTo_eq {data bs : List Byte} {i : Nat} (h : i + bs.length ≤ data.length) : copyTo data i bs = some (data.take i ++ bs ++ data.drop (i + bs.length)) := by
  simp [copyTo, h]

/-- A branch of an id has the same global part, the new uuid as branch part, is a valid id (nothing has been written beyond the data), and is not the id
it is a branch of, if the uuid is new. -/
theorem C33_branch (x : Xid) (hx : x.Valid) (hn : x.isNull = false) (uuid : List Byte) (hu : uuid.length = 16) :
    ∃ y, x.branch uuid = some y ∧ y.Valid ∧ y.isNull = false ∧ y.global = x.global ∧ y.branchPart = uuid ∧ y.format = fBranch ∧
      ∀ h : Host, (uuid ≠ x.branchPart → x.eq h y = false) := by
  have hg := hx.gtrid
  have hd := hx.data
  have hc := copyTo_eq (data := x.data) (bs := uuid) (i := x.gtrid) (by omega)
  have hv : Xid.Valid { x with format := fBranch, data := x.data.take x.gtrid ++ uuid ++ x.data.drop (x.gtrid + uuid.length), bqual := uuid.length } :=
    ⟨show fBranch < 256 ^ 8 by decide, hg, by show uuid.length ≤ 64; omega, by simp; omega⟩
  have hgl : (x.data.take x.gtrid).length = x.gtrid := by simp; omega
  refine ⟨_, by unfold Xid.branch; rw [hn, hc]; rfl, hv, (by show (fBranch == fNull) = false; decide), ?_, ?_, rfl, ?_⟩
  · show (x.data.take x.gtrid ++ uuid ++ _).take x.gtrid = x.data.take x.gtrid
    rw [List.append_assoc, List.take_append, hgl]
    simp [List.take_take]
  · show ((x.data.take x.gtrid ++ uuid ++ _).drop x.gtrid).take uuid.length = uuid
    rw [List.append_assoc, List.drop_append, hgl]
    simp
  · intro h hne
    cases he : Xid.eq h x { x with format := fBranch, data := x.data.take x.gtrid ++ uuid ++ x.data.drop (x.gtrid + uuid.length), bqual := uuid.length } with
    | false => rfl
    | true =>
      rcases (C32_eq h _ _ hx hv).mp he with ⟨-, h2⟩ | ⟨-, -, h3⟩
      · exact absurd h2 (show ¬ fBranch = fNull by decide)
      · exfalso
        apply hne
        rw [h3]
        show uuid = ((x.data.take x.gtrid ++ uuid ++ _).drop x.gtrid).take uuid.length
        rw [List.append_assoc, List.drop_append, hgl]
        simp

/-- A branch of the null id is the null id. -/
theorem C33_null (x : Xid) (hn : x.isNull = true) (uuid : List Byte) : x.branch uuid = some Xid.null := by
  simp [Xid.branch, hn]

/-- An id made of a global part (of at most 64 bytes) and a uuid. -/
theorem C33_create (g uuid : List Byte) (hg : g.length ≤ 64) (hu : uuid.length = 16) :
    ∃ y, casualXid g uuid = some y ∧ y.Valid ∧ y.isNull = false ∧ y.global = g ∧ y.branchPart = uuid := by
  unfold casualXid
  rw [copyTo_eq (by show 0 + g.length ≤ (List.replicate 128 (0 : Byte)).length; simp; omega)]
  simp only [Option.bind_some]
  have hl : ∀ d : List Byte, d = Xid.null.data.take 0 ++ g ++ Xid.null.data.drop (0 + g.length) → d.length = 128 := by
    rintro d rfl; simp [Xid.null]; omega
  have hgd : Xid.null.data.take 0 ++ g ++ Xid.null.data.drop (0 + g.length) = g ++ Xid.null.data.drop g.length := by simp
  generalize hd : Xid.null.data.take 0 ++ g ++ Xid.null.data.drop (0 + g.length) = d at hgd hl
  have hl := hl d rfl
  rw [copyTo_eq (by omega)]
  have htg : d.take g.length = g := by rw [hgd]; simp
  refine ⟨_, rfl, ⟨(by decide : fCasual < 256 ^ 8), hg, by show uuid.length ≤ 64; omega, by simp; omega⟩, (by show (fCasual == fNull) = false; decide), ?_, ?_⟩
  · show (d.take g.length ++ uuid ++ _).take g.length = g
    rw [htg, List.append_assoc]
    simp
  · show ((d.take g.length ++ uuid ++ _).drop g.length).take uuid.length = uuid
    rw [htg, List.append_assoc, List.drop_append]
    simp

/-! ## C70: equal ids have equal hashes -/

/-- Refuted: null ids are equal, but have the hash of whatever their lengths and data say. -/
theorem C70_hash_refuted : ¬ ∀ (f : List Byte → Nat) (h : Host) (a b : Xid), a.Valid → b.Valid → a.eq h b = true → a.hash f = b.hash f := by
  intro h
  have := h List.length .little Xid.null { Xid.null with gtrid := 1 } ⟨by decide +kernel, by decide, by decide, by decide +kernel⟩ ⟨by decide +kernel, by decide, by decide, by decide +kernel⟩ (by decide +kernel)
  revert this
  decide +kernel

/-- Ids that are not null. -/
theorem C70_hash_partial (f : List Byte → Nat) (h : Host) (a b : Xid) (ha : a.Valid) (hb : b.Valid) (hn : a.isNull = false) (he : a.eq h b = true) : a.hash f = b.hash f := by
  rcases (C32_eq h a b ha hb).mp he with ⟨h1, -⟩ | ⟨-, h2, h3⟩
  · simp [Xid.isNull, h1] at hn
  · simp only [Xid.hash, bytes_eq, h2, h3]

/-! ## Cases -/

/-- Two ids of the same branch, with different bytes in the part that is not used. -/
def exXid (rest : Byte) : Xid := { format := 42, gtrid := 2, bqual := 1, data := [1, 2, 3] ++ List.replicate 125 rest }

theorem exXid_valid (r : Byte) : (exXid r).Valid := ⟨(by decide : 42 < 256 ^ 8), (by decide : 2 ≤ 64), (by decide : 1 ≤ 64), by simp [exXid]⟩

example : (exXid 0).eq .little (exXid 9) = true ∧ (exXid 0).Same (exXid 9) ∧ (exXid 0).isNull = false := by
  refine ⟨by decide +kernel, .inr ⟨rfl, rfl, rfl⟩, rfl⟩
-- one that is different: a longer global part; lengths are compared first
example : (exXid 0).lt .little { exXid 0 with gtrid := 3, bqual := 0 } = true ∧ (exXid 0).eq .little { exXid 0 with gtrid := 3, bqual := 0 } = false := by decide +kernel
example : (((exXid 0).branch (List.replicate 16 7)).map fun y => (y.global, y.branchPart, y.bqual)) = some ([1, 2], List.replicate 16 7, 16) := by decide +kernel

end Casual.Data

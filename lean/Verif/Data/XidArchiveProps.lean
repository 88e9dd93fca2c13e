import Verif.Data.XidArchive
import Verif.Data.XidProps
import Verif.Data.SerializeProps
/-!
# Transaction ids sent and received

C72: an id that is sent is the id that is received. C74: whatever the bytes, reading an id does not write outside of it (refuted: the lengths are not
checked), and the id that was read has a content within its data.
-/
namespace Casual.Data

theorem signed64_small {n : Nat} (h : n ≤ 64) : signed64 n = n := by
  unfold signed64; rw [if_pos (by omega)]

theorem getNum_lt {p : Policy} {h : Host} {w n : Nat} {bs r : List Byte} (hg : getNum p h w bs = some (n, r)) : n < 256 ^ w := by
  unfold getNum getBytes at hg
  by_cases hl : w ≤ bs.length
  · rw [if_pos hl] at hg
    have hlen : (bs.take w).length = w := by simp; omega
    have hm : ofMem h (bs.take w) < 256 ^ w := by have := ofMem_lt h (bs.take w); rwa [hlen] at this
    cases p with
    | native => simp only [Option.map_some, Option.some.injEq, Prod.mk.injEq] at hg; rw [← hg.1]; exact hm
    | network =>
      simp only [Option.map_some, Option.some.injEq, Prod.mk.injEq] at hg
      rw [← hg.1]
      cases h with
      | little => exact bswap_lt w _
      | big => exact hm
  · rw [if_neg hl] at hg; cases hg

theorem readData_ok {α : Type} {l old r : List Byte} (h : l.length ≤ old.length) (f : List Byte → List Byte → Rd α) :
    readData l.length old (l ++ r) f = f (l ++ old.drop l.length) r := by
  unfold readData
  rw [if_neg (by simp), if_neg (by omega)]
  simp

/-- An id that is sent, and received into an id with whatever content: the same id. (If it is null only that it is null is sent.) -/
theorem C72_xid (p : Policy) (h1 h2 : Host) (ha : Agree p h1 h2) (x old : Xid) (hx : x.Valid) (ho : old.Valid) (rest : List Byte) :
    ∃ y, readXid p h2 old (writeXid p h1 x ++ rest) = .ok y rest ∧ y.Valid ∧ x.Same y := by
  unfold readXid writeXid
  rw [List.append_assoc, getNum_putNum ha hx.format]
  simp only [Rd.andThen]
  by_cases hn : x.format = fNull
  · rw [if_pos hn, if_pos (show x.isNull = true by simp [Xid.isNull, hn])]
    exact ⟨_, rfl, ⟨hx.format, ho.gtrid, ho.bqual, ho.data⟩, .inl ⟨hn, hn⟩⟩
  · have hg := hx.gtrid
    have hb := hx.bqual
    have hd := hx.data
    rw [if_neg hn, if_neg (show ¬ x.isNull = true by simp [Xid.isNull, hn]), List.append_assoc, List.append_assoc]
    rw [getNum_putNum ha (by omega)]
    simp only
    rw [getNum_putNum ha (by omega)]
    simp only
    rw [signed64_small hg, signed64_small hb, if_neg (by omega)]
    have hl : x.bytes.length = x.gtrid + x.bqual := by simp [Xid.bytes]; omega
    have hs : ((x.gtrid : Int) + (x.bqual : Int)).toNat = x.bytes.length := by omega
    rw [hs, readData_ok (by rw [hl, ho.data]; omega)]
    refine ⟨_, rfl, ⟨hx.format, hg, hb, by have := ho.data; simp; omega⟩, .inr ⟨rfl, ?_, ?_⟩⟩
    · show x.data.take x.gtrid = (x.bytes ++ _).take x.gtrid
      rw [List.take_append_of_le_length (by omega), Xid.bytes, List.take_take, Nat.min_eq_left (by omega)]
    · show (x.data.drop x.gtrid).take x.bqual = ((x.bytes ++ _).drop x.gtrid).take x.bqual
      rw [List.drop_append_of_le_length (by omega), List.take_append_of_le_length (by simp; omega), Xid.bytes, List.drop_take, List.take_take]
      simp

/-- The same for the id of a global transaction. -/
theorem C72_gtrid (p : Policy) (h1 h2 : Host) (ha : Agree p h1 h2) (g old : Gtrid) (hg : g.Valid) (ho : old.Valid) (rest : List Byte) :
    ∃ y, readGtrid p h2 old (writeGtrid p h1 g ++ rest) = .ok y rest ∧ y.Valid ∧ y.range = g.range := by
  have h1' := hg.size
  have h2' := hg.data
  have h3' := ho.data
  unfold readGtrid writeGtrid
  rw [List.append_assoc, getNum_putNum ha (by omega)]
  simp only [Rd.andThen]
  have hl : (g.data.take g.size).length = g.size := by simp; omega
  have := readData_ok (α := Gtrid) (l := g.data.take g.size) (old := old.data) (r := rest) (by omega) (fun d r => .ok { size := g.size, data := d } r)
  rw [hl] at this
  rw [this]
  refine ⟨_, rfl, ⟨h1', by simp; omega⟩, ?_⟩
  show (g.data.take g.size ++ _).take g.size = g.data.take g.size
  rw [List.take_append_of_le_length (by omega), List.take_take, Nat.min_self]

/-! ## C74 -/

/-- Refuted: 152 bytes from the wire, with lengths of 100 and 100, are written over a data area of 128. -/
theorem C74_xid_refuted : ¬ ∀ (p : Policy) (h : Host) (old : Xid) (bs : List Byte), old.Valid → readXid p h old bs ≠ .corrupt := by
  intro h
  refine h .network .little Xid.null (putNum .network .little 8 42 ++ putNum .network .little 8 100 ++ putNum .network .little 8 100 ++ List.replicate 200 0)
    ⟨by decide +kernel, by decide, by decide, by decide +kernel⟩ (by decide +kernel)

/-- Refuted: no bytes are written outside, but the lengths are not those of an id; the global part is beyond the data. -/
theorem C74_lengths_refuted : ¬ ∀ (p : Policy) (h : Host) (old : Xid) (bs : List Byte) (x : Xid) (r : List Byte), old.Valid → readXid p h old bs = .ok x r → x.gtrid ≤ x.data.length := by
  intro h
  have := h .network .little Xid.null (putNum .network .little 8 42 ++ putNum .network .little 8 1000 ++ putNum .network .little 8 (2 ^ 64 - 1000)) 
    { format := 42, gtrid := 1000, bqual := 2 ^ 64 - 1000, data := List.replicate 128 0 } [] ⟨by decide +kernel, by decide, by decide, by decide +kernel⟩ (by decide +kernel)
  revert this
  decide +kernel

/-- Refuted: a size of 255 for 64 bytes. -/
theorem C74_gtrid_refuted : ¬ ∀ (p : Policy) (h : Host) (old : Gtrid) (bs : List Byte), old.Valid → readGtrid p h old bs ≠ .corrupt := by
  intro h
  exact h .network .little { size := 0, data := List.replicate 64 0 } (putNum .network .little 1 255 ++ List.replicate 255 0) ⟨by decide, by decide +kernel⟩ (by decide +kernel)

/-- If the lengths on the wire are those of an id then nothing is written outside, and what is read is a valid id, whatever the bytes are. -/
theorem C74_xid_partial (p : Policy) (h : Host) (old : Xid) (ho : old.Valid) (bs : List Byte)
    (hlen : ∀ f r1 g r2 b r3, getNum p h 8 bs = some (f, r1) → getNum p h 8 r1 = some (g, r2) → getNum p h 8 r2 = some (b, r3) → g ≤ 64 ∧ b ≤ 64) :
    readXid p h old bs = .stops ∨ ∃ x r, readXid p h old bs = .ok x r ∧ x.Valid := by
  unfold readXid
  cases h1 : getNum p h 8 bs with
  | none => exact .inl rfl
  | some y =>
    obtain ⟨f, r1⟩ := y
    have hf := getNum_lt h1
    simp only [Rd.andThen]
    by_cases hn : f = fNull
    · rw [if_pos hn]
      exact .inr ⟨_, _, rfl, ⟨hf, ho.gtrid, ho.bqual, ho.data⟩⟩
    · rw [if_neg hn]
      cases h2 : getNum p h 8 r1 with
      | none => exact .inl rfl
      | some y =>
        obtain ⟨g, r2⟩ := y
        simp only
        cases h3 : getNum p h 8 r2 with
        | none => exact .inl rfl
        | some y =>
          obtain ⟨b, r3⟩ := y
          obtain ⟨hg, hb⟩ := hlen f r1 g r2 b r3 h1 h2 h3
          simp only
          rw [signed64_small hg, signed64_small hb, if_neg (by omega)]
          have hd := ho.data
          unfold readData
          by_cases hl : r3.length < ((g : Int) + (b : Int)).toNat
          · rw [if_pos hl]; exact .inl rfl
          · rw [if_neg hl, if_neg (by omega)]
            exact .inr ⟨_, _, rfl, ⟨hf, hg, hb, by simp; omega⟩⟩

/-- If the size on the wire is at most 64. -/
theorem C74_gtrid_partial (p : Policy) (h : Host) (old : Gtrid) (ho : old.Valid) (bs : List Byte) (hlen : ∀ n r, getNum p h 1 bs = some (n, r) → n ≤ 64) :
    readGtrid p h old bs = .stops ∨ ∃ x r, readGtrid p h old bs = .ok x r ∧ x.Valid := by
  unfold readGtrid
  cases h1 : getNum p h 1 bs with
  | none => exact .inl rfl
  | some y =>
    obtain ⟨n, r⟩ := y
    have hn := hlen n r h1
    have hd := ho.data
    simp only [Rd.andThen]
    unfold readData
    by_cases hl : r.length < n
    · rw [if_pos hl]; exact .inl rfl
    · rw [if_neg hl, if_neg (by omega)]
      exact .inr ⟨_, _, rfl, ⟨hn, by simp; omega⟩⟩

/-! ## Cases -/

example : ∃ y, readXid .network .big Xid.null (writeXid .network .little (exXid 5)) = .ok y [] ∧ y.global = [1, 2] ∧ y.branchPart = [3] ∧ y ≠ exXid 5 :=
  ⟨exXid 0, by decide +kernel, by decide +kernel, by decide +kernel, by decide +kernel⟩
-- null received over an id: null, with the lengths of that id, and its hash (see C70)
example : readXid .network .big (exXid 5) (writeXid .network .little Xid.null) = .ok { exXid 5 with format := fNull } [] ∧
    Xid.eq .big { exXid 5 with format := fNull } Xid.null = true ∧ Xid.hash List.length { exXid 5 with format := fNull } = 3 ∧ Xid.hash List.length Xid.null = 0 := by decide +kernel
example : readXid .native .little Xid.null (List.replicate 24 0) = .ok { Xid.null with format := 0 } [] ∧ readXid .native .little Xid.null (List.replicate 23 0) = .stops := by decide +kernel

end Casual.Data

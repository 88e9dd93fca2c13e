import Verif.Data.Hex
/-! # Properties of the hexadecimal text and of the text of global transaction ids: C35, C34 -/
namespace Casual.Data

/-! ## C35 -/

theorem hex_byte : ∀ b : Byte, Fin.ofNat 256 (hexValue (Fin.ofNat 256 (hexDigit (b.val / 16))) * 16 + hexValue (Fin.ofNat 256 (hexDigit (b.val % 16)))) = b := by
  decide +kernel

theorem hex_isDigit : ∀ b : Byte, isHexDigit (Fin.ofNat 256 (hexDigit (b.val / 16))) = true ∧ isHexDigit (Fin.ofNat 256 (hexDigit (b.val % 16))) = true := by
  decide +kernel

theorem hex_value : ∀ c : Byte, isHexDigit c = true → hexValue c < 16 ∧ Fin.ofNat 256 (hexDigit (hexValue c)) = c := by
  decide +kernel

theorem hexEncode_length (l : List Byte) : (hexEncode l).length = 2 * l.length := by
  induction l with
  | nil => rfl
  | cons b l ih => simp only [hexEncode, List.length_cons, ih]; omega

/-- **C35**: what has been encoded is decoded to the same bytes. -/
theorem C35_roundtrip (l : List Byte) : hexDecode (hexEncode l) = some l := by
  unfold hexDecode
  rw [hexEncode_length, if_pos (by omega)]
  congr 1
  induction l with
  | nil => rfl
  | cons b l ih => simp only [hexEncode, hexLoop, ih, hex_byte b]

/-- The text has two characters `0-9a-f` for each byte. -/
theorem C35_text (l : List Byte) : (hexEncode l).length = 2 * l.length ∧ ∀ c ∈ hexEncode l, isHexDigit c = true := by
  refine ⟨hexEncode_length l, ?_⟩
  induction l with
  | nil => intro c hc; cases hc
  | cons b l ih =>
    intro c hc
    simp only [hexEncode, List.mem_cons] at hc
    rcases hc with rfl | rfl | hc
    · exact (hex_isDigit b).1
    · exact (hex_isDigit b).2
    · exact ih c hc

/-- A text of an even number of characters `0-9a-f` is the text of exactly the bytes it is decoded to. -/
theorem C35_decode (s : List Byte) (h : ∀ c ∈ s, isHexDigit c = true) (he : s.length % 2 = 0) : ∃ l, hexDecode s = some l ∧ hexEncode l = s := by
  refine ⟨hexLoop s, by simp [hexDecode, he], ?_⟩
  fun_induction hexLoop s with
  | case1 a b l ih =>
    have ha := hex_value a (h a (by simp))
    have hb := hex_value b (h b (by simp))
    have h0 : hexValue a * 16 + hexValue b < 256 := by omega
    have h1 : (Fin.ofNat 256 (hexValue a * 16 + hexValue b)).val = hexValue a * 16 + hexValue b := Nat.mod_eq_of_lt h0
    have h2 : (hexValue a * 16 + hexValue b) / 16 = hexValue a := by omega
    have h3 : (hexValue a * 16 + hexValue b) % 16 = hexValue b := by omega
    simp only [hexEncode, h1, h2, h3, ha.2, hb.2]
    rw [ih (fun c hc => h c (by simp [hc])) (by simp only [List.length_cons] at he; omega)]
  | case2 s hs =>
    match s, hs, he with
    | [], _, _ => rfl
    | [a], _, he => simp at he
    | a :: b :: l, hs, _ => exact absurd rfl (hs a b l)

/-- Upper case digits, and characters that are no digits. -/
def isUpperHex (c : Byte) : Bool := 65 ≤ c.val && c.val ≤ 70
def lower (c : Byte) : Byte := if isUpperHex c then Fin.ofNat 256 (c.val + 32) else c

/-- Refuted: digits in upper case are not read as in lower case (`AB` is read as 0x12). -/
theorem C35_upper_refuted : ¬ ∀ s : List Byte, (∀ c ∈ s, isHexDigit c ∨ isUpperHex c) → hexDecode s = hexDecode (s.map lower) := by
  intro h
  have := h [65, 66] (by decide +kernel)
  revert this
  decide +kernel

/-- Refuted: characters that are no digits at all are not rejected (`zz`). -/
theorem C35_reject_refuted : ¬ ∀ (s l : List Byte), hexDecode s = some l → ∀ c ∈ s, isHexDigit c ∨ isUpperHex c := by
  intro h
  have := h [122, 122] [0x33] (by decide +kernel) 122 (by decide +kernel)
  revert this
  decide +kernel

-- "c0ffee"
example : hexEncode [0xc0, 0xff, 0xee] = [99, 48, 102, 102, 101, 101] ∧ hexDecode [99, 48, 102, 102, 101, 101] = some [0xc0, 0xff, 0xee] := by decide +kernel

/-! ## C34 -/

/-- Refuted: an id of 33 bytes is written, but the process ends when the text is read. -/
theorem C34_gtrid_refuted : ¬ ∀ g : List Byte, 1 ≤ g.length → g.length ≤ 64 → gtridRead (gtridWrite g) = .ok g := by
  intro h
  have := h (List.replicate 33 7) (by decide) (by decide)
  revert this
  decide +kernel

/-- The text of an id of 1 to 32 bytes is read as the id. -/
theorem C34_gtrid_partial (g : List Byte) (h1 : 1 ≤ g.length) (h2 : g.length ≤ 32) : gtridRead (gtridWrite g) = .ok g := by
  have hl : (hexEncode g).length = 2 * g.length := hexEncode_length g
  have hall : (hexEncode g).all isHexDigit = true := List.all_eq_true.mpr (C35_text g).2
  unfold gtridRead gtridWrite
  rw [if_neg, if_neg (by omega), if_pos (by omega), C35_roundtrip]
  rintro (h | h)
  · rw [h] at hl; simp at hl; omega
  · rw [hall] at h; cases h

/-- What is read has been written so: only `0-9a-f`, and at most 32 bytes. -/
theorem C34_read (s g : List Byte) (h : gtridRead s = .ok g) : gtridWrite g = s ∧ 1 ≤ g.length ∧ g.length ≤ 32 := by
  unfold gtridRead at h
  split at h
  · cases h
  · rename_i h1
    split at h
    · cases h
    · rename_i h2
      split at h
      · rename_i h3
        obtain ⟨l, hl, he⟩ := C35_decode s (fun c hc => by
          have : s.all isHexDigit = true := by
            cases ha : s.all isHexDigit with
            | true => rfl
            | false => exact absurd (.inr ha) h1
          exact List.all_eq_true.mp this c hc) (by omega)
        rw [hl] at h
        cases h
        refine ⟨he, ?_⟩
        have hlen := hexEncode_length g
        rw [he] at hlen
        have : s ≠ [] := fun hs => h1 (.inl hs)
        have : 0 < s.length := by
          cases s with
          | nil => exact absurd rfl this
          | cons => simp
        omega
      · cases h

example : gtridRead (gtridWrite (List.replicate 32 0xab)) = .ok (List.replicate 32 0xab) := by decide +kernel

end Casual.Data

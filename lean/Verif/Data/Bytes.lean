/-!
# Bytes, and numbers in memory

Values of arithmetic types are bit patterns, natural numbers below `256 ^ w` for a type of `w` bytes; if the type is signed or not is a
matter of how the pattern is read. The host is little or big endian.
-/
namespace Casual.Data

/-- A byte (`std::byte`, or `char` as `unsigned char`). -/
abbrev Byte := Fin 256

inductive Host | little | big
  deriving DecidableEq, Repr

/-- The `w` bytes of a number, least significant first. -/
def bytesLE : Nat → Nat → List Byte
  | 0, _ => []
  | w + 1, n => ⟨n % 256, Nat.mod_lt _ (by decide)⟩ :: bytesLE w (n / 256)

/-- The number with these bytes, least significant first. -/
def ofLE : List Byte → Nat
  | [] => 0
  | b :: l => b.val + 256 * ofLE l

/-- The bytes of a number in the memory of the host. -/
def mem (h : Host) (w n : Nat) : List Byte :=
  match h with
  | .little => bytesLE w n
  | .big => (bytesLE w n).reverse

/-- The number in the memory of the host. -/
def ofMem (h : Host) (l : List Byte) : Nat :=
  match h with
  | .little => ofLE l
  | .big => ofLE l.reverse

/-- `__bswap_16`, `__bswap_32`, `__bswap_64`: the bytes in reverse order. -/
def bswap (w n : Nat) : Nat := ofLE (bytesLE w n).reverse

/-- `HTOBE16`, `HTOBE32`, `HTOBE64` and `BE16TOH`, ..., `middleware/common/source/network/byteorder.cpp:33-58` (one byte types are passed
through, `include/common/network/byteorder.h:33-38`; that is the same, there is nothing to swap). -/
def hton (h : Host) (w n : Nat) : Nat :=
  match h with
  | .little => bswap w n
  | .big => n

@[simp] theorem bytesLE_length (w n : Nat) : (bytesLE w n).length = w := by
  induction w generalizing n with
  | zero => rfl
  | succ w ih => simp [bytesLE, ih]

theorem ofLE_bytesLE (w n : Nat) (h : n < 256 ^ w) : ofLE (bytesLE w n) = n := by
  induction w generalizing n with
  | zero => simp at h; subst h; rfl
  | succ w ih =>
    have : n / 256 < 256 ^ w := by rw [Nat.div_lt_iff_lt_mul (by decide)]; rw [Nat.pow_succ] at h; exact h
    simp only [bytesLE, ofLE, ih _ this]
    omega

theorem ofLE_lt (l : List Byte) : ofLE l < 256 ^ l.length := by
  induction l with
  | nil => simp [ofLE]
  | cons b l ih =>
    simp only [ofLE, List.length_cons, Nat.pow_succ]
    have := b.isLt
    omega

theorem bytesLE_ofLE (l : List Byte) : bytesLE l.length (ofLE l) = l := by
  induction l with
  | nil => rfl
  | cons b l ih =>
    have hb := b.isLt
    have h1 : (b.val + 256 * ofLE l) % 256 = b.val := by omega
    have h2 : (b.val + 256 * ofLE l) / 256 = ofLE l := by omega
    simp only [List.length_cons, ofLE, bytesLE, h1, h2, ih]

theorem bytesLE_inj {w a b : Nat} (ha : a < 256 ^ w) (hb : b < 256 ^ w) (h : bytesLE w a = bytesLE w b) : a = b := by
  rw [← ofLE_bytesLE w a ha, ← ofLE_bytesLE w b hb, h]

@[simp] theorem mem_length (h : Host) (w n : Nat) : (mem h w n).length = w := by cases h <;> simp [mem]

theorem ofMem_mem (h : Host) {w n : Nat} (hn : n < 256 ^ w) : ofMem h (mem h w n) = n := by
  cases h <;> simp [mem, ofMem, ofLE_bytesLE w n hn]

theorem ofMem_lt (h : Host) (l : List Byte) : ofMem h l < 256 ^ l.length := by
  cases h
  · exact ofLE_lt l
  · have := ofLE_lt l.reverse; rw [List.length_reverse] at this; exact this

theorem mem_inj {h : Host} {w a b : Nat} (ha : a < 256 ^ w) (hb : b < 256 ^ w) (he : mem h w a = mem h w b) : a = b := by
  rw [← ofMem_mem h ha, ← ofMem_mem h hb, he]

theorem bswap_lt (w n : Nat) : bswap w n < 256 ^ w := by
  have := ofLE_lt (bytesLE w n).reverse
  rw [List.length_reverse, bytesLE_length] at this
  exact this

theorem bytesLE_bswap (w n : Nat) : bytesLE w (bswap w n) = (bytesLE w n).reverse := by
  have := bytesLE_ofLE (bytesLE w n).reverse
  rw [List.length_reverse, bytesLE_length] at this
  exact this

theorem bswap_bswap {w n : Nat} (h : n < 256 ^ w) : bswap w (bswap w n) = n := by
  unfold bswap
  have := bytesLE_bswap w n
  unfold bswap at this
  rw [this, List.reverse_reverse, ofLE_bytesLE w n h]

/-- What a number looks like in memory after the conversion: most significant byte first, whatever the host. -/
theorem mem_hton (h : Host) (w n : Nat) : mem h w (hton h w n) = (bytesLE w n).reverse := by
  cases h
  · exact bytesLE_bswap w n
  · rfl

theorem hton_ofMem (h : Host) {w n : Nat} (hn : n < 256 ^ w) : hton h w (ofMem h (bytesLE w n).reverse) = n := by
  cases h
  · show bswap w (bswap w n) = n
    exact bswap_bswap hn
  · show ofLE (bytesLE w n).reverse.reverse = n
    rw [List.reverse_reverse, ofLE_bytesLE w n hn]

end Casual.Data

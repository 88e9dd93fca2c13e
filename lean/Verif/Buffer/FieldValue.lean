import Verif.Buffer.FieldProps
/-!
# Untyped access to field buffers, and sizes
-/
namespace Casual.Buffer.Field
open Casual.Data

/-- The bytes of a value as the host has it: what `casual_field_get_value` writes. Strings with their NUL. -/
def Val.host (h : Host) : Val → List Byte
  | .short n => mem h 2 n | .long n => mem h 8 n | .char n => mem h 1 n | .float n => mem h 4 n | .double n => mem h 8 n
  | .string s => cstr s ++ [0] | .binary b => b

theorem host_length (h : Host) (v : Val) : (v.host h).length = v.size := by cases v <;> simp [Val.host, Val.size]

theorem getValue_has (h : Host) {s : State} {c : Content Val} (hc : Has s c) {id occ : Int} (h0 : 0 ≤ occ) {v : Val} (hv : (occs id c)[occ.toNat]? = some v) (cnt : Int) :
    getValue h s id occ cnt = if cnt < v.size then (.code .invalidArgument, cnt) else (.ok (v.host h), (v.size : Int)) := by
  obtain ⟨pre, post, he, ha⟩ := at_has_some hc (by omega) hv
  have hc' := hc
  rw [he] at hc'
  have hty := (hc'.typed (id, v) (by simp)).1
  simp only at hty
  have hsz : rdLong h s.data ((flat (raw pre)).length + sizeOffset) = some (v.size : Int) := by
    have hr := hc'.rep
    rw [raw_split rfl] at hr
    have := size_split h hr
    rw [bytes_length] at this
    exact this
  obtain ⟨a, hd, ho⟩ := value_split hc'
  have hg : ∀ k : Kind, k.type = typeOf id → get h s id occ k = .ok v.norm := by
    intro k hk
    rw [get_has h hc]
    unfold reads
    rw [if_neg (by simp [hk]), if_neg (by omega), hv]
  unfold getValue
  rw [← hty]
  cases v with
  | string t =>
    simp only [Val.type, kindOf, ha, hsz]
    have hrd : rd s.data (((flat (raw pre)).length : Int) + dataOffset) (Val.string t).size = some (cstr t ++ [0]) := by
      exact rd_at (b := (Val.string t).bytes .little) hd ho (bytes_length _ _).symm
    by_cases hl : cnt < (Val.string t).size
    · rw [if_pos hl, if_pos hl]
    · rw [if_neg hl, if_neg hl, if_pos (by omega), Int.toNat_natCast, hrd]; rfl
  | binary b =>
    simp only [Val.type, kindOf, ha, hsz]
    have hrd : rd s.data (((flat (raw pre)).length : Int) + dataOffset) (Val.binary b).size = some b := by
      exact rd_at (b := (Val.binary b).bytes .little) hd ho (bytes_length _ _).symm
    by_cases hl : cnt < (Val.binary b).size
    · rw [if_pos hl, if_pos hl]
    · rw [if_neg hl, if_neg hl, if_pos (by omega), Int.toNat_natCast, hrd]; rfl
  | short n => have := hg .short hty; simp only [Val.type, kindOf, plainSize, this]; rfl
  | long n => have := hg .long hty; simp only [Val.type, kindOf, plainSize, this]; rfl
  | char n => have := hg .char hty; simp only [Val.type, kindOf, plainSize, this]; rfl
  | float n => have := hg .float hty; simp only [Val.type, kindOf, plainSize, this]; rfl
  | double n => have := hg .double hty; simp only [Val.type, kindOf, plainSize, this]; rfl

/-- **C175.** After any sequence of calls, `casual_field_get_value` of an occurrence that there is writes the value (strings with their NUL) and its size, if the caller has room for it, and
no more than that; otherwise it fails, writes nothing and leaves the count as it was. `casual_field_explore_value` tells the same size. -/
theorem C175_get_value (h : Host) {lim : Nat} (hlim : lim < 9223372036854775808) (ks : List Call) (hk : ∀ k ∈ ks, k.long) (hroom : Room lim [] ks)
    {cs : List Code} {s : State} (hr : Runs h lim ⟨[], []⟩ ks cs s) {id occ : Int} (h0 : 0 ≤ occ) {v : Val} (hv : (occs id (meaning [] ks).2)[occ.toNat]? = some v) (cnt : Int) :
    exploreValue h s id occ = .ok (v.host h).length ∧
    (((v.host h).length : Int) ≤ cnt → getValue h s id occ cnt = (.ok (v.host h), ((v.host h).length : Int))) ∧
    (cnt < (v.host h).length → getValue h s id occ cnt = (.code .invalidArgument, cnt)) := by
  obtain ⟨s0, hr0, hh⟩ := runs_has h hlim ks hk has_nil hroom
  obtain ⟨_, e⟩ := runs_det h lim hr hr0
  subst e
  rw [host_length]
  refine ⟨?_, ?_, ?_⟩
  · rw [explore_has h hh, if_neg (by omega), hv]
  · intro hl; rw [getValue_has h hh h0 hv, if_neg (by omega)]
  · intro hl; rw [getValue_has h hh h0 hv, if_pos hl]

/-- **C175.** A successful add takes what `casual_field_minimum_need` says at least, and exactly that for the empty value of the type. -/
theorem C175_minimum_need (id : Int) (v : Val) (hv : v.type = typeOf id) :
    ∃ m z, minimumNeed id = some m ∧ empty id = some z ∧ need [(id, z)] = m ∧ m ≤ need [(id, v)] := by
  obtain ⟨z, hz, hs⟩ := zero_some v
  have hm : minimumNeed id = some (16 + z.size) := by
    unfold minimumNeed
    rw [← hv]
    cases v <;> simp only [Val.type] at hz ⊢ <;> cases hz <;> rfl
  refine ⟨16 + z.size, z, hm, ?_, ?_, ?_⟩
  · rw [empty_zero, ← hv, hz]
  · simp [need]
  · simp only [need, List.map_cons, List.map_nil, List.sum_cons, List.sum_nil]; omega

example : (occs 0xC000001 (meaning [] demo).2)[(0 : Int).toNat]? = some (.string [68, 69, 70]) := by decide +kernel

/-- **C175, refuted.** `casual_field_get_value` that fails leaves the count of the caller as it was: for a number that there is not the count has been set to its size before the value is looked for. -/
theorem C175_count_refuted (h : Host) : ∃ s id occ, ∃ cnt cnt' : Int, Has s [] ∧ getValue h s id occ cnt = (.code .outOfBounds, cnt') ∧ cnt' ≠ cnt :=
  ⟨⟨[], []⟩, 0x2000001, 0, 100, 2, has_nil, by cases h <;> decide +kernel, by decide⟩

end Casual.Buffer.Field

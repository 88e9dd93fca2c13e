import Verif.Buffer.FieldCalls
/-!
# Buffers from memory
-/
namespace Casual.Buffer.Field
open Casual.Data

theorem rd_some_len {data : List Byte} {o : Int} {w : Nat} {l : List Byte} (h : rd data o w = some l) : l.length = w := by
  unfold rd at h
  split at h
  · rename_i hb
    cases h
    simp only [List.length_take, List.length_drop]; omega
  · cases h

theorem rdLong_none {h : Host} {data : List Byte} {o : Int} (hn : rd data o 16 = none) (ho : 0 ≤ o) : rdLong h data (o + sizeOffset) = none := by
  unfold rdLong
  have : rd data (o + sizeOffset) 8 = none := by
    unfold rd at hn ⊢
    split at hn
    · cases hn
    · rw [if_neg (by simp only [sizeOffset]; omega)]
  rw [this]; rfl

/-- The loop has one outcome at most. (An offset is never negative at a header that is read.) -/
theorem scan_det (h : Host) (data : List Byte) {c : Int} {ix : Index} {a b : Parsed} (ha : Scan h data c ix a) (hb : Scan h data c ix b) : a = b := by
  induction ha generalizing b with
  | stop c ix hc =>
    cases hb with
    | stop => rfl
    | beyond _ _ h1 => omega
    | outside _ _ h1 => omega
    | next _ _ _ _ _ h1 => omega
  | beyond c ix hc =>
    cases hb with
    | stop _ _ h1 => omega
    | beyond => rfl
    | outside _ _ h1 => omega
    | next _ _ _ _ _ h1 => omega
  | outside c ix hc hr =>
    cases hb with
    | stop _ _ h1 => omega
    | beyond _ _ h1 => omega
    | outside => rfl
    | next _ _ item size _ h1 h2 h3 =>
      exfalso
      have h0 : 0 ≤ c := by
        unfold rdLong rd at h2
        split at h2
        · rename_i hb; exact hb.1
        · cases h2
      rw [rdLong_none hr h0] at h3
      cases h3
  | next c ix item size out hc hi hs _ ih =>
    cases hb with
    | stop _ _ h1 => omega
    | beyond _ _ h1 => omega
    | outside _ _ h1 h2 =>
      exfalso
      have h0 : 0 ≤ c := by
        unfold rdLong rd at hi
        split at hi
        · rename_i hb; exact hb.1
        · cases hi
      rw [rdLong_none h2 h0] at hs
      cases hs
    | next _ _ item' size' _ h1 h2 h3 h4 =>
      rw [hi] at h2; cases h2
      rw [hs] at h3; cases h3
      exact ih h4

/-- The loop on the bytes of fields. -/
theorem scan_flat (h : Host) (pre post : Fields) {ix : Index} (hok : ix.Ok) (hl : ∀ id, ix.look id = offs id 0 pre)
    (hids : ∀ f ∈ pre ++ post, IsLong f.1) (hlen : (flat (pre ++ post)).length < 9223372036854775808) :
    ∃ ix', Scan h (flat (pre ++ post)) (flat pre).length ix (.ok ix') ∧ Rep ⟨flat (pre ++ post), ix'⟩ (pre ++ post) := by
  induction post generalizing pre ix with
  | nil =>
    refine ⟨ix, .stop _ _ (by simp), ?_⟩
    exact ⟨rfl, hok, by simpa using hl, hids, hlen⟩
  | cons f post ih =>
    obtain ⟨id, x⟩ := f
    have hs := len_split (fs := pre ++ (id, x) :: post) rfl
    have hre : pre ++ (id, x) :: post = (pre ++ [(id, x)]) ++ post := by simp
    have hd : flat (pre ++ (id, x) :: post) = flat pre ++ (bytesLE 8 (ofLong id)).reverse ++ (bytesLE 8 (ofLong (x.length : Int))).reverse ++ x ++ flat post := by
      rw [flat_append, ofLong_nat (by omega)]; simp [flat, record, List.append_assoc]
    have hsnoc : ((flat (pre ++ [(id, x)])).length : Int) = (flat pre).length + (dataOffset + x.length) := by
      rw [flat_append]; simp [flat, dataOffset]
    obtain ⟨ix', hsc, hr⟩ := ih (pre ++ [(id, x)]) (ix := ix.push id (flat pre).length) (Index.ok_push hok _ _) (by
      intro j
      rw [Index.look_push hok, offs_append, hl, hl]
      by_cases hj : j = id
      · subst hj; simp [offs]
      · have : ¬ id = j := fun h => hj h.symm
        simp [offs, hj, this]) (by rw [← hre]; exact hids) (by rw [← hre]; exact hlen)
    rw [← hre] at hsc hr
    refine ⟨ix', ?_, hr⟩
    rw [hsnoc] at hsc
    refine .next _ _ id x.length _ (by omega) ?_ ?_ hsc
    · refine rdLong_at h (a := flat pre) (c := (bytesLE 8 (ofLong (x.length : Int))).reverse ++ x ++ flat post) (hids (id, x) (by simp)) ?_ rfl
      rw [hd]; simp [List.append_assoc]
    · refine rdLong_at h (a := flat pre ++ (bytesLE 8 (ofLong id)).reverse) (c := x ++ flat post) ⟨by omega, by omega⟩ ?_ ?_
      · rw [hd]; simp [List.append_assoc]
      · simp [sizeOffset]

/-- A buffer constructed from the memory of a buffer with some content has that content. -/
theorem constructs_flat (h : Host) {fs : Fields} (hids : ∀ f ∈ fs, IsLong f.1) (hlen : (flat fs).length < 9223372036854775808) :
    ∃ ix, Constructs h (flat fs) (.ok ix) ∧ Rep ⟨flat fs, ix⟩ fs :=
  scan_flat h [] fs (ix := []) ⟨by simp, by simp⟩ (fun _ => rfl) hids hlen

/-! ## Arbitrary memory -/

/-- The offsets where the loop looks for a header. -/
inductive Header (h : Host) (data : List Byte) : Int → Prop
  | first : Header h data 0
  | next (c size : Int) (hc : Header h data c) (hl : c < data.length) (hs : rdLong h data (c + sizeOffset) = some size) : Header h data (c + (dataOffset + size))

theorem dec_be (h : Host) (l : List Byte) : dec h l = ofLE l.reverse := by
  unfold dec
  cases h
  · show bswap l.length (ofLE l) = _
    unfold bswap
    rw [bytesLE_ofLE]
  · rfl

theorem ofLong_toLong {n : Nat} (h : n < 18446744073709551616) : ofLong (toLong n) = n := by
  unfold ofLong toLong; split <;> omega

theorem toLong_long {n : Nat} (h : n < 18446744073709551616) : IsLong (toLong n) := by
  unfold IsLong toLong; split <;> omega

theorem bytes_dec (h : Host) {l : List Byte} (hl : l.length = 8) : (bytesLE 8 (ofLong (toLong (dec h l)))).reverse = l ∧ IsLong (toLong (dec h l)) := by
  have hlt : dec h l < 18446744073709551616 := by
    rw [dec_be]
    have := ofLE_lt l.reverse
    rw [List.length_reverse, hl] at this
    omega
  refine ⟨?_, toLong_long hlt⟩
  rw [ofLong_toLong hlt, dec_be]
  have := bytesLE_ofLE l.reverse
  rw [List.length_reverse, hl] at this
  rw [this, List.reverse_reverse]

theorem scan_any (h : Host) (data : List Byte) (hlen : data.length < 9223372036854775808)
    (hpos : ∀ c size, Header h data c → rdLong h data (c + sizeOffset) = some size → 0 ≤ size) (n : Nat) :
    ∀ (fs : Fields) (rest : List Byte) (ix : Index), data = flat fs ++ rest → rest.length ≤ n → ix.Ok → (∀ id, ix.look id = offs id 0 fs) →
      (∀ f ∈ fs, IsLong f.1) → Header h data (flat fs).length →
      ∃ out, Scan h data (flat fs).length ix out ∧ ∀ ix', out = .ok ix' → ∃ fs', Rep ⟨data, ix'⟩ fs' := by
  induction n with
  | zero =>
    intro fs rest ix hd hr hok hl hids _
    have : rest = [] := List.eq_nil_of_length_eq_zero (by omega)
    subst this
    simp only [List.append_nil] at hd
    subst hd
    refine ⟨.ok ix, .stop _ _ rfl, ?_⟩
    intro ix' he; cases he
    exact ⟨fs, rfl, hok, hl, hids, hlen⟩
  | succ n ih =>
    intro fs rest ix hd hr hok hl hids hh
    have hdl : data.length = (flat fs).length + rest.length := by rw [hd, List.length_append]
    by_cases h0 : rest = []
    · subst h0
      simp only [List.append_nil] at hd
      subst hd
      refine ⟨.ok ix, .stop _ _ rfl, ?_⟩
      intro ix' he; cases he
      exact ⟨fs, rfl, hok, hl, hids, hlen⟩
    · have h1 : 0 < rest.length := List.length_pos_iff.mpr h0
      by_cases h16 : rest.length < 16
      · refine ⟨.wild, .outside _ _ (by omega) ?_, by intro ix' he; cases he⟩
        unfold rd
        rw [if_neg (by omega)]
      · have hi : rd data (flat fs).length 8 = some (rest.take 8) := by
          refine rd_at (a := flat fs) (c := rest.drop 8) ?_ rfl (by simp; omega)
          rw [List.append_assoc, List.take_append_drop]; exact hd
        have hs : rd data ((flat fs).length + sizeOffset) 8 = some ((rest.drop 8).take 8) := by
          refine rd_at (a := flat fs ++ rest.take 8) (c := rest.drop 16) ?_ (by simp [sizeOffset]; omega) (by simp; omega)
          have : (rest.drop 8).take 8 ++ rest.drop 16 = rest.drop 8 := by
            have := List.take_append_drop 8 (rest.drop 8)
            rw [List.drop_drop] at this
            exact this
          rw [List.append_assoc, this, List.append_assoc, List.take_append_drop]; exact hd
        have hi' : rdLong h data (flat fs).length = some (toLong (dec h (rest.take 8))) := by unfold rdLong; rw [hi]; rfl
        have hs' : rdLong h data ((flat fs).length + sizeOffset) = some (toLong (dec h ((rest.drop 8).take 8))) := by unfold rdLong; rw [hs]; rfl
        have bi := bytes_dec h (l := rest.take 8) (by simp; omega)
        have bs := bytes_dec h (l := (rest.drop 8).take 8) (by simp; omega)
        have hsz := hpos _ _ hh hs'
        have hnext := Header.next (h := h) _ _ hh (by omega) hs'
        generalize toLong (dec h (rest.take 8)) = item at *
        generalize toLong (dec h ((rest.drop 8).take 8)) = size at *
        by_cases hfit : size + 16 ≤ rest.length
        · have hx : (((rest.drop 16).take size.toNat).length : Int) = size := by
            simp only [List.length_take, List.length_drop]; omega
          have hrec : record (item, (rest.drop 16).take size.toNat) = rest.take (16 + size.toNat) := by
            unfold record
            have e1 : (bytesLE 8 ((rest.drop 16).take size.toNat).length).reverse = (rest.drop 8).take 8 := by
              rw [← bs.1]
              have : ofLong size = ((rest.drop 16).take size.toNat).length := by
                have h2 := ofLong_nat (n := ((rest.drop 16).take size.toNat).length) (by simp only [List.length_take, List.length_drop]; omega)
                rw [hx] at h2; exact h2
              rw [this]
            simp only [bi.1, e1]
            have t1 : rest.take (16 + size.toNat) = rest.take 16 ++ (rest.drop 16).take size.toNat := List.take_add
            have t2 : rest.take 16 = rest.take 8 ++ (rest.drop 8).take 8 := List.take_add (i := 8) (j := 8)
            rw [t1, t2]
          have hflat : flat (fs ++ [(item, (rest.drop 16).take size.toNat)]) = flat fs ++ rest.take (16 + size.toNat) := by
            rw [flat_append]; simp only [flat, List.flatMap_cons, List.flatMap_nil, List.append_nil, hrec]
          have hfl : ((flat (fs ++ [(item, (rest.drop 16).take size.toNat)])).length : Int) = (flat fs).length + (dataOffset + size) := by
            rw [hflat]; simp only [List.length_append, List.length_take, dataOffset]; omega
          obtain ⟨out, hsc, hout⟩ := ih (fs ++ [(item, (rest.drop 16).take size.toNat)]) (rest.drop (16 + size.toNat)) (ix.push item (flat fs).length) (by
              rw [hflat, List.append_assoc, List.take_append_drop]; exact hd) (by simp only [List.length_drop]; omega) (Index.ok_push hok _ _) (by
              intro j
              rw [Index.look_push hok, offs_append, hl, hl]
              by_cases hj : j = item
              · subst hj; simp [offs]
              · have : ¬ item = j := fun h => hj h.symm
                simp [offs, hj, this]) (by
              intro f hf
              rcases List.mem_append.mp hf with hf | hf
              · exact hids f hf
              · simp at hf; subst hf; exact bi.2) (by rw [hfl]; exact hnext)
          refine ⟨out, ?_, hout⟩
          rw [hfl] at hsc
          exact .next _ _ item size _ (by omega) hi' hs' hsc
        · refine ⟨.invalid, .next _ _ item size _ (by omega) hi' hs' (.beyond _ _ (by simp only [dataOffset]; omega)), by intro ix' he; cases he⟩

end Casual.Buffer.Field

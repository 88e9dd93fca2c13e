import Verif.Buffer.FieldIndex
/-!
# The memory and the index represent the fields
-/
namespace Casual.Buffer.Field
open Casual.Data

/-- Where the occurrences of an id are, in memory that starts at `b`. -/
def offs (id : Int) : Int → Fields → List Int
  | _, [] => []
  | b, f :: fs => if f.1 = id then b :: offs id (b + (16 + f.2.length)) fs else offs id (b + (16 + f.2.length)) fs

/-- The buffer has the content `fs`. -/
structure Rep (s : State) (fs : Fields) : Prop where
  data : s.data = flat fs
  ok : s.index.Ok
  look : ∀ id, s.index.look id = offs id 0 fs
  ids : ∀ f ∈ fs, IsLong f.1
  len : (flat fs).length < 9223372036854775808

theorem enc_eq (h : Host) (w n : Nat) : enc h w n = (bytesLE w n).reverse := mem_hton h w n

theorem dec_eq (h : Host) {w n : Nat} (hn : n < 256 ^ w) : dec h (bytesLE w n).reverse = n := by
  unfold dec
  rw [List.length_reverse, bytesLE_length]
  exact hton_ofMem h hn

theorem ofLong_lt (i : Int) : ofLong i < 256 ^ 8 := by unfold ofLong; omega

theorem toLong_ofLong {i : Int} (h : IsLong i) : toLong (ofLong i) = i := by
  unfold toLong ofLong
  obtain ⟨h1, h2⟩ := h
  split <;> omega

theorem ofLong_nat {n : Nat} (h : n < 9223372036854775808) : ofLong n = n := by unfold ofLong; omega

theorem rd_mid (a b c : List Byte) : rd (a ++ b ++ c) a.length b.length = some b := by
  unfold rd
  have : (0 : Int) ≤ (a.length : Int) ∧ (a.length : Int) + (b.length : Nat) ≤ ((a ++ b ++ c).length : Int) := by
    simp only [List.length_append]; omega
  rw [if_pos this]
  simp [List.append_assoc]

theorem rd_at {data a b c : List Byte} {o : Int} {w : Nat} (hd : data = a ++ b ++ c) (ho : o = a.length) (hw : w = b.length) : rd data o w = some b := by
  subst hd ho hw; exact rd_mid a b c

theorem rdLong_at (h : Host) {data a c : List Byte} {o : Int} {i : Int} (hi : IsLong i) (hd : data = a ++ (bytesLE 8 (ofLong i)).reverse ++ c) (ho : o = a.length) :
    rdLong h data o = some i := by
  unfold rdLong
  rw [rd_at (w := 8) hd ho (by simp)]
  simp only [Option.map_some, Option.some.injEq]
  rw [dec_eq h (ofLong_lt i), toLong_ofLong hi]

theorem offs_append (id b : Int) (x y : Fields) : offs id b (x ++ y) = offs id b x ++ offs id (b + (flat x).length) y := by
  induction x generalizing b with
  | nil => simp [offs, flat]
  | cons f x ih =>
    have hl : b + ((flat (f :: x)).length : Int) = b + (16 + f.2.length) + (flat x).length := by
      simp only [flat, List.flatMap_cons, List.length_append, record_length]; omega
    simp only [List.cons_append, offs, ih, hl]
    split <;> simp

theorem offs_shift (id b d : Int) (x : Fields) : offs id (b + d) x = (offs id b x).map (· + d) := by
  induction x generalizing b with
  | nil => rfl
  | cons f x ih =>
    have : b + d + (16 + (f.2.length : Int)) = b + (16 + f.2.length) + d := by omega
    simp only [offs, this, ih]
    split <;> simp

theorem offs_ge {id b : Int} {x : Fields} {o : Int} (h : o ∈ offs id b x) : b ≤ o := by
  induction x generalizing b with
  | nil => simp [offs] at h
  | cons f x ih =>
    simp only [offs] at h
    split at h
    · rcases List.mem_cons.mp h with h | h
      · omega
      · have := ih h; omega
    · have := ih h; omega

theorem offs_lt {id b : Int} {x : Fields} {o : Int} (h : o ∈ offs id b x) : o < b + (flat x).length := by
  induction x generalizing b with
  | nil => simp [offs] at h
  | cons f x ih =>
    have hl : ((flat (f :: x)).length : Int) = (16 + f.2.length) + (flat x).length := by
      simp only [flat, List.flatMap_cons, List.length_append, record_length]; omega
    rw [hl]
    simp only [offs] at h
    split at h
    · rcases List.mem_cons.mp h with h | h
      · omega
      · have := ih h; omega
    · have := ih h; omega

theorem offs_length (id b : Int) (x : Fields) : (offs id b x).length = (occs id x).length := by
  induction x generalizing b with
  | nil => rfl
  | cons f x ih =>
    by_cases hf : f.1 = id
    · have := ih (b + (16 + f.2.length))
      simp only [occs] at this ⊢
      simp [offs, hf, this]
    · have := ih (b + (16 + f.2.length))
      simp only [occs] at this ⊢
      simp [offs, hf, this]

/-- The offset of the `n`th occurrence. -/
theorem offs_split {id : Int} (x : List Byte) (pre post : Fields) :
    (offs id 0 (pre ++ (id, x) :: post))[(occs id pre).length]? = some ((flat pre).length : Int) := by
  rw [offs_append]
  have : (occs id pre).length = (offs id 0 pre).length := (offs_length id 0 pre).symm
  rw [this, List.getElem?_append_right (Nat.le_refl _)]
  simp [offs]

theorem at_none {s : State} {fs : Fields} (hr : Rep s fs) {id occ : Int} (h : occ < 0 ∨ (occs id fs).length ≤ occ) : s.at id occ = none := by
  unfold State.at at'
  split
  · rw [hr.look, List.getElem?_eq_none_iff, offs_length]; omega
  · rfl

theorem at_split {s : State} {pre post : Fields} {id : Int} {x : List Byte} (hr : Rep s (pre ++ (id, x) :: post)) :
    s.at id (occs id pre).length = some ((flat pre).length : Int) := by
  unfold State.at at'
  rw [if_pos (by omega), hr.look]
  exact offs_split x pre post

/-- Which occurrence is asked for: none, or the one at a position. -/
theorem occ_cases (id occ : Int) (fs : Fields) :
    (occ < 0 ∨ (occs id fs).length ≤ occ) ∨ ∃ pre x post, fs = pre ++ (id, x) :: post ∧ occ = (occs id pre).length := by
  by_cases h : occ < 0 ∨ ((occs id fs).length : Int) ≤ occ
  · exact .inl h
  · have hn : occ.toNat < (occs id fs).length := by omega
    have hs : (occs id fs)[occ.toNat]? = some (occs id fs)[occ.toNat] := List.getElem?_eq_getElem hn
    obtain ⟨pre, post, he, hl⟩ := occs_split hs
    exact .inr ⟨pre, _, post, he, by omega⟩

theorem len_split {fs pre post : Fields} {id : Int} {x : List Byte} (he : fs = pre ++ (id, x) :: post) :
    (flat fs).length = (flat pre).length + (16 + x.length) + (flat post).length := by
  subst he
  rw [flat_append]
  simp only [flat, List.flatMap_cons, List.length_append, record_length]; omega

theorem data_split {s : State} {pre post : Fields} {id : Int} {x : List Byte} (hr : Rep s (pre ++ (id, x) :: post)) :
    s.data = flat pre ++ (bytesLE 8 (ofLong id)).reverse ++ (bytesLE 8 (ofLong (x.length : Int))).reverse ++ x ++ flat post := by
  have hl := len_split (fs := pre ++ (id, x) :: post) rfl
  have := hr.len
  rw [hr.data, flat_append, ofLong_nat (by omega)]
  simp [flat, record, List.append_assoc]

theorem size_split (h : Host) {s : State} {pre post : Fields} {id : Int} {x : List Byte} (hr : Rep s (pre ++ (id, x) :: post)) :
    rdLong h s.data ((flat pre).length + sizeOffset) = some (x.length : Int) := by
  have hl := len_split (fs := pre ++ (id, x) :: post) rfl
  have := hr.len
  refine rdLong_at h (a := flat pre ++ (bytesLE 8 (ofLong id)).reverse) (c := x ++ flat post) ⟨by omega, by omega⟩ ?_ ?_
  · rw [data_split hr]; simp [List.append_assoc]
  · simp [sizeOffset]

/-! ## Operations -/

theorem record_enc (h : Host) {id : Int} {b : List Byte} (hb : b.length < 9223372036854775808) :
    enc h 8 (ofLong id) ++ enc h 8 (ofLong (b.length : Int)) ++ b = record (id, b) := by
  rw [enc_eq, enc_eq, ofLong_nat hb]; rfl

/-- `add` appends, or there is no room and nothing changes. -/
theorem append_rep (h : Host) {lim : Nat} (hlim : lim < 9223372036854775808) {s : State} {fs : Fields} (hr : Rep s fs) {id : Int} (hid : IsLong id) (b : List Byte) :
    ∃ c s', append h lim s id b = some (c, s') ∧
      ((c = .success ∧ Rep s' (fs ++ [(id, b)]) ∧ (flat (fs ++ [(id, b)])).length ≤ lim) ∨ (c = .outOfMemory ∧ s' = s ∧ lim < (flat (fs ++ [(id, b)])).length)) := by
  have hlen : (flat (fs ++ [(id, b)])).length = (flat fs).length + (16 + b.length) := by
    rw [flat_append]; simp only [flat, List.flatMap_cons, List.flatMap_nil, List.length_append, record_length, List.length_nil]; omega
  have hdl : (s.data ++ enc h 8 (ofLong id) ++ enc h 8 (ofLong (b.length : Int)) ++ b).length = (flat fs).length + (16 + b.length) := by
    rw [hr.data, enc_eq, enc_eq]; simp only [List.length_append, List.length_reverse, bytesLE_length]; omega
  unfold append
  simp only [hdl]
  split
  · rename_i hle
    refine ⟨_, _, rfl, .inl ⟨rfl, ?_, by omega⟩⟩
    refine ⟨?_, Index.ok_push hr.ok _ _, ?_, ?_, by omega⟩
    · have hd := hr.data
      show s.data ++ enc h 8 (ofLong id) ++ enc h 8 (ofLong (b.length : Int)) ++ b = _
      rw [hd, flat_append]
      have := record_enc h (id := id) (b := b) (by omega)
      simp only [flat, List.flatMap_cons, List.flatMap_nil, List.append_nil, ← this, List.append_assoc]
    · intro j
      show (s.index.push id s.data.length).look j = _
      rw [Index.look_push hr.ok, offs_append, hr.look, hr.look, hr.data]
      by_cases hj : j = id
      · subst hj; simp [offs]
      · have : ¬ id = j := fun h => hj h.symm
        simp [offs, hj, this]
    · intro f hf
      rcases List.mem_append.mp hf with hf | hf
      · exact hr.ids f hf
      · simp at hf; subst hf; exact hid
  · exact ⟨_, _, rfl, .inr ⟨rfl, rfl, by omega⟩⟩

theorem shift_offs {pre post : Fields} {id j : Int} {x : List Byte} (d : Int) :
    (offs j 0 (pre ++ (id, x) :: post)).map (fun y => if y > ((flat pre).length : Int) then y + d else y)
      = offs j 0 pre ++ ((if id = j then [((flat pre).length : Int)] else []) ++ offs j ((flat pre).length + (16 + x.length) + d) post) := by
  have h1 : (offs j 0 pre).map (fun y => if y > ((flat pre).length : Int) then y + d else y) = offs j 0 pre := by
    have : ∀ y ∈ offs j 0 pre, (fun y => if y > ((flat pre).length : Int) then y + d else y) y = y := by
      intro y hy
      have := offs_lt hy
      simp only
      rw [if_neg (by omega)]
    rw [List.map_congr_left this]; simp
  have h2 : (offs j ((flat pre).length + (16 + x.length)) post).map (fun y => if y > ((flat pre).length : Int) then y + d else y)
      = (offs j ((flat pre).length + (16 + x.length)) post).map (· + d) := by
    refine List.map_congr_left ?_
    intro y hy
    have := offs_ge hy
    rw [if_pos (by omega)]
  rw [offs_append, List.map_append, h1]
  congr 1
  simp only [offs]
  split
  · rename_i hj
    simp only [List.map_cons, Int.zero_add]
    rw [if_neg (by omega), h2, offs_shift _ _ d]
    rfl
  · simp only [Int.zero_add, List.nil_append]
    rw [h2, offs_shift _ _ d]

/-- `set` replaces. -/
theorem change_split (h : Host) {lim : Nat} (hlim : lim < 9223372036854775808) {s : State} {pre post : Fields} {id : Int} {x : List Byte}
    (hr : Rep s (pre ++ (id, x) :: post)) (b : List Byte) (hfit : (flat (pre ++ (id, b) :: post)).length ≤ lim) :
    ∃ s', change h lim s id (occs id pre).length b = some (.success, s') ∧ Rep s' (pre ++ (id, b) :: post) := by
  have hl := len_split (fs := pre ++ (id, x) :: post) rfl
  have hl' := len_split (fs := pre ++ (id, b) :: post) rfl
  have hlen := hr.len
  have hd := data_split hr
  have hdl : s.data.length = (flat pre).length + (16 + x.length) + (flat post).length := by rw [hr.data]; exact hl
  have hbefore : s.data.take ((flat pre).length + dataOffset : Int).toNat
      = flat pre ++ (bytesLE 8 (ofLong id)).reverse ++ (bytesLE 8 (ofLong (x.length : Int))).reverse := by
    rw [hd, List.append_assoc _ x, List.take_append_of_le_length]
    · rw [List.take_of_length_le]; simp [dataOffset]; omega
    · simp [dataOffset]
  have hafter : s.data.drop ((flat pre).length + dataOffset + x.length : Int).toNat = flat post := by
    rw [hd, List.drop_append, List.drop_eq_nil_of_le (by simp [dataOffset]; omega)]
    have : ((flat pre).length + dataOffset + x.length : Int).toNat
        - (flat pre ++ (bytesLE 8 (ofLong id)).reverse ++ (bytesLE 8 (ofLong (x.length : Int))).reverse ++ x).length = 0 := by
      simp [dataOffset]; omega
    rw [this]; rfl
  unfold change
  rw [at_split hr]
  simp only [size_split h hr]
  rw [if_pos (by simp [dataOffset]; omega)]
  simp only [hbefore, hafter]
  have hnl : (flat pre ++ (bytesLE 8 (ofLong id)).reverse ++ (bytesLE 8 (ofLong (x.length : Int))).reverse ++ b ++ flat post).length ≤ lim := by
    simp only [List.length_append, List.length_reverse, bytesLE_length]; omega
  rw [if_pos hnl]
  refine ⟨_, rfl, ?_, Index.ok_shift hr.ok _ _, ?_, ?_, by omega⟩
  · show (flat pre ++ (bytesLE 8 (ofLong id)).reverse ++ (bytesLE 8 (ofLong (x.length : Int))).reverse ++ b ++ flat post).take _ ++ _ ++ _ = _
    have ht : (flat pre ++ (bytesLE 8 (ofLong id)).reverse ++ (bytesLE 8 (ofLong (x.length : Int))).reverse ++ b ++ flat post).take ((flat pre).length + sizeOffset : Int).toNat
        = flat pre ++ (bytesLE 8 (ofLong id)).reverse := by
      rw [List.append_assoc, List.append_assoc, List.take_append_of_le_length]
      · rw [List.take_of_length_le]; simp [sizeOffset]; omega
      · simp [sizeOffset]
    have hdr : (flat pre ++ (bytesLE 8 (ofLong id)).reverse ++ (bytesLE 8 (ofLong (x.length : Int))).reverse ++ b ++ flat post).drop ((flat pre).length + dataOffset : Int).toNat
        = b ++ flat post := by
      rw [List.append_assoc _ b, List.drop_append, List.drop_eq_nil_of_le (by simp [dataOffset]; omega)]
      have : ((flat pre).length + dataOffset : Int).toNat
          - (flat pre ++ (bytesLE 8 (ofLong id)).reverse ++ (bytesLE 8 (ofLong (x.length : Int))).reverse).length = 0 := by
        simp [dataOffset]
      rw [this]; rfl
    rw [ht, hdr, enc_eq, ofLong_nat (by omega), flat_append]
    simp [flat, record, List.append_assoc]
  · intro j
    show (s.index.shift _ _).look j = _
    rw [Index.look_shift, hr.look, shift_offs, offs_append]
    simp only [offs, Int.zero_add]
    have : ((flat pre).length : Int) + (16 + x.length) + (b.length - x.length) = (flat pre).length + (16 + b.length) := by omega
    rw [this]
    split <;> simp
  · intro f hf
    rcases List.mem_append.mp hf with hf | hf
    · exact hr.ids f (by simp [hf])
    · rcases List.mem_cons.mp hf with hf | hf
      · subst hf; exact hr.ids (id, x) (by simp)
      · exact hr.ids f (by simp [hf])

theorem change_none (h : Host) (lim : Nat) {s : State} {fs : Fields} (hr : Rep s fs) {id occ : Int} (ho : occ < 0 ∨ (occs id fs).length ≤ occ) (b : List Byte) :
    change h lim s id occ b = some (.outOfBounds, s) := by
  unfold change; rw [at_none hr ho]

/-- `remove` removes. -/
theorem remove_split (h : Host) {s : State} {pre post : Fields} {id : Int} {x : List Byte} (hr : Rep s (pre ++ (id, x) :: post)) :
    ∃ s', remove h s id (occs id pre).length = some (.success, s') ∧ Rep s' (pre ++ post) := by
  have hl := len_split (fs := pre ++ (id, x) :: post) rfl
  have hl' : (flat (pre ++ post)).length = (flat pre).length + (flat post).length := by rw [flat_append]; simp
  have hlen := hr.len
  have hd := data_split hr
  have hdl : s.data.length = (flat pre).length + (16 + x.length) + (flat post).length := by rw [hr.data]; exact hl
  have hbefore : s.data.take ((flat pre).length : Int).toNat = flat pre := by
    rw [hd]; simp [List.append_assoc]
  have hafter : s.data.drop ((flat pre).length + dataOffset + x.length : Int).toNat = flat post := by
    rw [hd, List.drop_append, List.drop_eq_nil_of_le (by simp [dataOffset]; omega)]
    have : ((flat pre).length + dataOffset + x.length : Int).toNat
        - (flat pre ++ (bytesLE 8 (ofLong id)).reverse ++ (bytesLE 8 (ofLong (x.length : Int))).reverse ++ x).length = 0 := by
      simp [dataOffset]; omega
    rw [this]; rfl
  unfold remove
  rw [at_split hr]
  simp only [size_split h hr]
  rw [if_pos (by simp [dataOffset]; omega)]
  simp only [hbefore, hafter]
  refine ⟨_, rfl, ?_, Index.ok_shift (Index.ok_drop hr.ok _ _) _ _, ?_, ?_, by omega⟩
  · rw [flat_append]
  · intro j
    show ((s.index.drop id _).shift _ _).look j = _
    rw [Index.look_shift, Index.look_drop hr.ok]
    have hz : ((flat pre).length : Int) + (16 + x.length) + (0 - dataOffset - x.length) = (flat pre).length := by simp [dataOffset]; omega
    by_cases hj : j = id
    · subst hj
      rw [if_pos rfl, hr.look]
      have he : (offs j 0 (pre ++ (j, x) :: post)).eraseIdx ((occs j pre).length : Int).toNat
          = offs j 0 pre ++ offs j ((flat pre).length + (16 + x.length)) post := by
        rw [offs_append]
        have : ((occs j pre).length : Int).toNat = (offs j 0 pre).length := by rw [offs_length]; rfl
        rw [this, List.eraseIdx_append_of_length_le (Nat.le_refl _)]
        simp [offs]
      have hs := shift_offs (pre := pre) (post := post) (id := j + 1) (j := j) (x := x) (0 - dataOffset - x.length)
      rw [if_neg (by omega), hz] at hs
      rw [he, offs_append]
      rw [offs_append] at hs
      simp only [offs, Int.zero_add] at hs
      rw [if_neg (by omega)] at hs
      simpa using hs
    · rw [if_neg hj, hr.look, shift_offs, if_neg (fun h => hj h.symm), hz, offs_append]
      simp
  · intro f hf
    rcases List.mem_append.mp hf with hf | hf
    · exact hr.ids f (by simp [hf])
    · exact hr.ids f (by simp [hf])

theorem remove_none (h : Host) {s : State} {fs : Fields} (hr : Rep s fs) {id occ : Int} (ho : occ < 0 ∨ (occs id fs).length ≤ occ) :
    remove h s id occ = some (.outOfBounds, s) := by
  unfold remove; rw [at_none hr ho]

theorem rep_nil : Rep ⟨[], []⟩ [] := ⟨rfl, ⟨by simp, by simp⟩, fun _ => rfl, by simp, by simp [flat]⟩

end Casual.Buffer.Field

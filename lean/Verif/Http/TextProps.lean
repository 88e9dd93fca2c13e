import Verif.Http.Text
/-
  Result codes, numbers, buffer types, base64 and header fields: what goes in comes out.
-/
namespace Casual.Http

/-! ### Base64 -/

theorem dec_enc_fin : ∀ i : Fin 64, dec (enc i.val) = some i.val := by decide +kernel

theorem dec_enc {i : Nat} (h : i < 64) : dec (enc i) = some i := dec_enc_fin ⟨i, h⟩

theorem enc_ne_fin : ∀ i : Fin 64, enc i.val ≠ pad ∧ enc i.val ≠ 0 := by decide +kernel

theorem enc_ne {i : Nat} (h : i < 64) : enc i ≠ pad ∧ enc i ≠ 0 := enc_ne_fin ⟨i, h⟩

theorem ofNat_eq {n : Nat} {b : Byte} (h : n = b.val) : Fin.ofNat 256 n = b := by
  apply Fin.ext
  show n % 256 = b.val
  have := b.isLt
  omega

theorem decode64_full {a b c d : Byte} {r : List Byte} {x y z w : Nat} (ha : dec a = some x) (hb : dec b = some y)
    (hc : dec c = some z) (hd : dec d = some w) (ha0 : a ≠ 0) (hcp : c ≠ pad) (hdp : d ≠ pad) :
    decode64 (a :: b :: c :: d :: r) = (decode64 r).map fun l =>
      Fin.ofNat 256 (x * 4 + y / 16) :: Fin.ofNat 256 (y % 16 * 16 + z / 4) :: Fin.ofNat 256 (z % 4 * 64 + w) :: l := by
  rw [decode64, if_neg ha0]
  simp only [ha, hb, hc, hd, if_neg hcp, if_neg hdp]

theorem decode64_encode64 (l : List Byte) : decode64 (encode64 l ++ [0]) = some l := by
  match l with
  | [] => decide +kernel
  | [a] =>
    have ha := a.isLt
    have h1 : a.val / 4 < 64 := by omega
    have h2 : a.val % 4 * 16 < 64 := by omega
    show decode64 (enc (a.val / 4) :: enc (a.val % 4 * 16) :: pad :: pad :: [0]) = _
    rw [decode64, if_neg (enc_ne h1).2]
    simp only [dec_enc h1, dec_enc h2, if_true]
    rw [if_pos ⟨trivial, rfl⟩, ofNat_eq (b := a) (by omega)]
  | [a, b] =>
    have ha := a.isLt
    have hb := b.isLt
    have h1 : a.val / 4 < 64 := by omega
    have h2 : a.val % 4 * 16 + b.val / 16 < 64 := by omega
    have h3 : b.val % 16 * 4 < 64 := by omega
    show decode64 (enc (a.val / 4) :: enc (a.val % 4 * 16 + b.val / 16) :: enc (b.val % 16 * 4) :: pad :: [0]) = _
    rw [decode64, if_neg (enc_ne h1).2]
    simp only [dec_enc h1, dec_enc h2, dec_enc h3, if_neg (enc_ne h3).1, if_true]
    rw [if_pos (show ([0] : List Byte).head?.getD 0 = 0 from rfl), ofNat_eq (b := a) (by omega), ofNat_eq (b := b) (by omega)]
  | a :: b :: c :: r =>
    have ha := a.isLt
    have hb := b.isLt
    have hc := c.isLt
    have h1 : a.val / 4 < 64 := by omega
    have h2 : a.val % 4 * 16 + b.val / 16 < 64 := by omega
    have h3 : b.val % 16 * 4 + c.val / 64 < 64 := by omega
    have h4 : c.val % 64 < 64 := by omega
    show decode64 (enc (a.val / 4) :: enc (a.val % 4 * 16 + b.val / 16) :: enc (b.val % 16 * 4 + c.val / 64)
      :: enc (c.val % 64) :: (encode64 r ++ [0])) = _
    rw [decode64_full (dec_enc h1) (dec_enc h2) (dec_enc h3) (dec_enc h4) (enc_ne h1).2 (enc_ne h3).1 (enc_ne h4).1,
      decode64_encode64 r, ofNat_eq (b := a) (by omega), ofNat_eq (b := b) (by omega), ofNat_eq (b := c) (by omega)]
    rfl

/-- The encoded data is exactly as long as `capacity::encoded` says, which the library needs.
`middleware/common/include/common/transcode.h:46-49`. -/
theorem encode64_length (l : List Byte) : (encode64 l).length = (l.length + 2) / 3 * 4 := by
  match l with
  | [] => rfl
  | [a] => simp [encode64]
  | [a, b] => simp [encode64]
  | a :: b :: c :: r =>
    show (encode64 r).length + 4 = (r.length + 3 + 2) / 3 * 4
    rw [encode64_length r]
    omega

/-- A buffer that is made ready for the wire, and taken from it, is what it was
(a `NULL` buffer has no data). -/
theorem wire_round_trip (p : Payload) (h : p.type = nullType → p.data = []) : fromWire (toWire p) = some p := by
  unfold toWire
  by_cases h1 : isPlain p.type = true
  · rw [if_pos h1]; unfold fromWire; rw [if_pos h1]
  · rw [if_neg h1]
    by_cases h2 : p.type = nullType
    · rw [if_pos h2]; unfold fromWire
      rw [if_neg h1, if_pos h2]
      have := h h2
      cases p; simp_all
    · rw [if_neg h2]; unfold fromWire
      rw [if_neg h1, if_neg h2]
      simp only [decode64_encode64]
      cases p; rfl

example : fromWire (toWire { type := "CFIELD/".toList, data := [1, 2, 3, 255] }) = some { type := "CFIELD/".toList, data := [1, 2, 3, 255] } := by
  decide +kernel

/-! ### Codes -/

theorem codes_back : ∀ p ∈ codes, parseCode p.2 = p.1 ∧ describe p.1 = p.2 ∧ p.2 ≠ [] := by decide +kernel

/-- Every result code but `absent` comes out as it went in. -/
theorem code_round_trip (p : Int × Text) (h : p ∈ codes) : parseCode (describe p.1) = p.1 := by
  rw [(codes_back p h).2.1]; exact (codes_back p h).1

/-- A result that is not known is never a success: it is `TPEPROTO`. -/
theorem code_unknown (t : Text) (h : t ≠ []) (hn : ∀ p ∈ codes, p.2 ≠ t) : parseCode t = 9 := by
  unfold parseCode
  rw [if_neg h]
  have : codes.find? (·.2 == t) = none := by
    rw [List.find?_eq_none]
    intro p hp
    simpa using hn p hp
  rw [this]
  rfl

example : parseCode "TPEFOO".toList = 9 := by decide +kernel

/-- No user code is 0. -/
theorem user_absent : parseUser [] = some 0 := by decide +kernel

/-! ### Numbers -/

theorem digit_val : ∀ n : Fin 10, (digit n.val).toNat - 48 = n.val ∧ isDigit (digit n.val) = true ∧ digit n.val ≠ '-'
    ∧ isSpace (digit n.val) = false := by decide +kernel

theorem digitsVal_append (a b : Text) : digitsVal (a ++ b) = b.foldl (fun acc c => acc * 10 + (c.toNat - 48)) (digitsVal a) := by
  unfold digitsVal; rw [List.foldl_append]

theorem showNat_val (n : Nat) : digitsVal (showNat n) = n ∧ (∀ c ∈ showNat n, isDigit c = true ∧ c ≠ '-' ∧ isSpace c = false) ∧ showNat n ≠ [] := by
  induction n using Nat.strongRecOn with
  | ind n ih =>
    unfold showNat
    by_cases h : n < 10
    · rw [if_pos h]
      have := digit_val ⟨n, h⟩
      refine ⟨?_, ?_, by simp⟩
      · show 0 * 10 + ((digit n).toNat - 48) = n
        have := this.1
        simp only at this
        omega
      · intro c hc
        rcases List.mem_singleton.1 hc with rfl
        exact this.2
    · rw [if_neg h]
      obtain ⟨h1, h2, h3⟩ := ih (n / 10) (by omega)
      have := digit_val ⟨n % 10, by omega⟩
      refine ⟨?_, ?_, by simp⟩
      · rw [digitsVal_append, h1]
        show n / 10 * 10 + ((digit (n % 10)).toNat - 48) = n
        have := this.1
        simp only at this
        omega
      · intro c hc
        rcases List.mem_append.1 hc with hc | hc
        · exact h2 c hc
        · rcases List.mem_singleton.1 hc with rfl
          exact this.2

theorem takeWhile_all {α} {p : α → Bool} {l : List α} (h : ∀ c ∈ l, p c = true) : l.takeWhile p = l := by
  induction l with
  | nil => rfl
  | cons a l ih =>
    rw [List.takeWhile_cons, if_pos (h a List.mem_cons_self), ih fun c hc => h c (List.mem_cons_of_mem _ hc)]

/-- A number that is written as text comes out as it went in. -/
theorem long_round_trip (n : Int) (h : isLong n) : parseLong (showLong n) = some n := by
  obtain ⟨h1, h2, h3⟩ := showNat_val n.natAbs
  have htw : (showNat n.natAbs).takeWhile isDigit = showNat n.natAbs := takeWhile_all fun c hc => (h2 c hc).1
  unfold showLong parseLong
  by_cases hn : n < 0
  · rw [if_pos hn]
    simp only [List.head?_cons, List.drop_succ_cons, List.drop_zero, beq_self_eq_true, if_true]
    rw [htw, if_neg h3, h1]
    have e : (-(n.natAbs : Int)) = n := by omega
    rw [e, if_pos h]
  · rw [if_neg hn]
    have hh : ((showNat n.natAbs).head? == some '-') = false := by
      cases hs : showNat n.natAbs with
      | nil => exact absurd hs h3
      | cons c cs =>
        have := (h2 c (by rw [hs]; exact List.mem_cons_self)).2.1
        simp [this]
    simp only [hh]
    simp only [Bool.false_eq_true, if_false]
    rw [htw, if_neg h3, h1]
    have e : ((n.natAbs : Int)) = n := by omega
    rw [e, if_pos h]

theorem showLong_ne (n : Int) : showLong n ≠ [] := by
  unfold showLong
  split
  · simp
  · exact (showNat_val _).2.2

theorem user_round_trip (n : Int) (h : isLong n) : parseUser (showLong n) = some n := by
  unfold parseUser; rw [if_neg (showLong_ne n), long_round_trip n h]

example : parseUser (showLong (-42)) = some (-42) ∧ isLong (-42) := by decide +kernel

/-! ### Buffer types -/

theorem contents_back : ∀ p ∈ contents, fromBuffer p.1 = p.2 ∧ toBuffer p.2 = p.1 ∧ p.2.all (fun c => !isSpace c) = true
    ∧ p.2.all (· != ':') = true := by decide +kernel

theorem contents_generic : ∀ p ∈ contents, genericPrefix.isPrefixOf p.2 = false := by decide +kernel

theorem fromBuffer_ne (t : Text) : fromBuffer t ≠ [] := by
  unfold fromBuffer
  split
  · rename_i p h
    have := contents_back p (List.mem_of_find?_eq_some h)
    intro e
    rw [e] at this
    have : toBuffer [] = p.1 := this.2.1
    have h3 : ∀ p ∈ contents, p.2 ≠ [] := by decide +kernel
    exact h3 p (List.mem_of_find?_eq_some h) e
  · intro e
    have := (List.append_eq_nil_iff.1 e).1
    exact absurd this (by decide +kernel)

theorem isPrefixOf_append (a b : Text) : a.isPrefixOf (a ++ b) = true := by
  rw [List.isPrefixOf_iff_prefix]; exact ⟨b, rfl⟩

/-- Every buffer type comes out of the content type it is given. -/
theorem type_round_trip (t : Text) : toBuffer (fromBuffer t) = t := by
  cases h : contents.find? (·.1 == t) with
  | some p =>
    have hm := List.mem_of_find?_eq_some h
    have ht : p.1 = t := by have := List.find?_some h; simpa using this
    have hb := contents_back p hm
    rw [← ht, hb.1, hb.2.1]
  | none =>
    have hf : fromBuffer t = genericPrefix ++ t := by unfold fromBuffer; rw [h]
    rw [hf]
    have hn : contents.find? (·.2 == genericPrefix ++ t) = none := by
      rw [List.find?_eq_none]
      intro p hp e
      have e : p.2 = genericPrefix ++ t := by simpa using e
      have := contents_generic p hp
      rw [e, isPrefixOf_append] at this
      exact absurd this (by decide)
    unfold toBuffer
    rw [hn]
    simp only [isPrefixOf_append, if_true, List.drop_left]

/-! ### Fields -/

/-- Text without white space. -/
def Dense (t : Text) : Prop := ∀ c ∈ t, isSpace c = false

/-- Text that can be the name of a field. -/
def NameLike (t : Text) : Prop := Dense t ∧ ':' ∉ t

theorem field_append (a b : Text) : field (a ++ b) = field a ++ field b := List.filter_append ..

theorem field_dense {t : Text} (h : Dense t) : field t = t := by
  unfold field
  rw [List.filter_eq_self]
  intro c hc
  rw [h c hc]; rfl

theorem dense_field (t : Text) : Dense (field t) := by
  intro c hc
  have := (List.mem_filter.1 hc).2
  simpa using this

theorem colon_field (t : Text) : field (':' :: t) = ':' :: field t := by
  unfold field; rw [List.filter_cons]; rw [if_pos (by decide +kernel)]

theorem takeWhile_ne {n r : Text} (h : ':' ∉ n) : (n ++ ':' :: r).takeWhile (· != ':') = n := by
  induction n with
  | nil => simp
  | cons c n ih =>
    have hc : c ≠ ':' := fun e => h (e ▸ List.mem_cons_self)
    rw [List.cons_append, List.takeWhile_cons, if_pos (by simp [hc]), ih fun hm => h (List.mem_cons_of_mem _ hm)]

theorem dropWhile_ne {n r : Text} (h : ':' ∉ n) : (n ++ ':' :: r).dropWhile (· != ':') = ':' :: r := by
  induction n with
  | nil => simp
  | cons c n ih =>
    have hc : c ≠ ':' := fun e => h (e ▸ List.mem_cons_self)
    rw [List.cons_append, List.dropWhile_cons, if_pos (by simp [hc]), ih fun hm => h (List.mem_cons_of_mem _ hm)]

theorem fname_mk {n v : Text} (h : ':' ∉ n) : fname (mkField n v) = field n := by
  unfold mkField fname
  rw [field_append, colon_field, takeWhile_ne]
  exact fun hm => h (List.mem_filter.1 hm).1

theorem fvalue_mk {n v : Text} (h : ':' ∉ n) : fvalue (mkField n v) = field v := by
  unfold mkField fvalue
  rw [field_append, colon_field, dropWhile_ne]
  · rfl
  · exact fun hm => h (List.mem_filter.1 hm).1

/-- A field without white space, and without `:` in its name, is what was given. -/
theorem field_kept {n v : Text} (hn : NameLike n) (hv : Dense v) : fname (mkField n v) = n ∧ fvalue (mkField n v) = v := by
  rw [fname_mk hn.2, fvalue_mk hn.2, field_dense hn.1, field_dense hv]; exact ⟨rfl, rfl⟩

example : NameLike "casual-result-code".toList ∧ Dense "a:b".toList := by
  constructor
  · constructor
    · unfold Dense; decide +kernel
    · decide +kernel
  · unfold Dense; decide +kernel

theorem ffind_add (fs : List Text) (f : Text) (n : Text) :
    ffind (fadd fs f) n = if fname f = n then some f else ffind fs n := by
  induction fs with
  | nil =>
    unfold fadd ffind
    by_cases h : fname f = n
    · simp [h]
    · simp [h]
  | cons g gs ih =>
    unfold fadd
    by_cases hg : fname g = fname f
    · rw [if_pos (by simpa using hg)]
      unfold ffind
      by_cases h : fname f = n
      · simp [h]
      · have hg' : fname g ≠ n := fun e => h (hg ▸ e)
        simp [h, hg']
    · rw [if_neg (by simpa using hg)]
      unfold ffind at ih ⊢
      by_cases h : fname f = n
      · have hg' : fname g ≠ n := fun e => hg (e.trans h.symm)
        rw [if_pos h] at ih ⊢
        simp [hg', ih]
      · rw [if_neg h] at ih ⊢
        rw [List.find?_cons, List.find?_cons, ih]

end Casual.Http

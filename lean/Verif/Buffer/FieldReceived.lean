import Verif.Buffer.FieldProps
/-!
# Field buffers from elsewhere, and failures
-/
namespace Casual.Buffer.Field
open Casual.Data

/-! ## C170: memory that is not a field buffer -/

/-- **C170, refuted.** Memory that is received (or given to `casual_field_copy_memory`) is either accepted or rejected. A single byte makes the header be read outside of
the memory. -/
theorem C170_short_memory_refuted (h : Host) : ¬ ∀ data : List Byte, ∃ out, Constructs h data out ∧ out ≠ .wild := by
  intro hall
  obtain ⟨out, ho, hne⟩ := hall [0]
  have hw : Constructs h [0] .wild := .outside 0 [] (by decide) (by decide)
  exact hne (scan_det h _ ho hw)

/-- A field with the size -16. -/
def looping : List Byte := (bytesLE 8 1).reverse ++ (bytesLE 8 (ofLong (-16))).reverse

/-- **C170, refuted.** A size of -16 and the construction does not end. -/
theorem C170_endless_refuted (h : Host) : ∃ data : List Byte, data.length = 16 ∧ ∀ out, ¬ Constructs h data out := by
  refine ⟨looping, by decide +kernel, ?_⟩
  have hs : rdLong h looping (0 + sizeOffset) = some (-16) := by cases h <;> decide +kernel
  have hl : (looping.length : Int) = 16 := by decide +kernel
  have key : ∀ c ix out, Scan h looping c ix out → c = 0 → False := by
    intro c ix out hsc
    induction hsc with
    | stop c ix hc => intro h0; rw [hl] at hc; omega
    | beyond c ix hc => intro h0; rw [hl] at hc; omega
    | outside c ix hc hr => intro h0; subst h0; revert hr; cases h <;> decide +kernel
    | next c ix item size out hc hi hsz _ ih =>
      intro h0
      subst h0
      rw [hs] at hsz
      cases hsz
      exact ih (by decide)
  intro out ho
  exact key _ _ _ ho rfl

/-- **C170, what holds.** If no size that is met is negative the construction ends, and memory that is accepted is that of a list of fields: all reads, counts and changes are
those of that list. -/
theorem C170_accepted_partial (h : Host) (data : List Byte) (hlen : data.length < 9223372036854775808)
    (hpos : ∀ c size, Header h data c → rdLong h data (c + sizeOffset) = some size → 0 ≤ size) :
    ∃ out, Constructs h data out ∧ ∀ ix, out = .ok ix → ∃ fs, data = flat fs ∧ Rep ⟨data, ix⟩ fs ∧ ∀ id, count ⟨data, ix⟩ id = (occs id fs).length := by
  obtain ⟨out, hs, hout⟩ := scan_any h data hlen hpos data.length [] data [] rfl (Nat.le_refl _) ⟨by simp, by simp⟩ (fun _ => rfl) (by simp) .first
  refine ⟨out, hs, ?_⟩
  intro ix he
  obtain ⟨fs, hr⟩ := hout ix he
  refine ⟨fs, hr.data, hr, ?_⟩
  intro id
  unfold count
  rw [hr.look, offs_length]

/-- **C170, what holds.** The end of the memory is checked: memory whose last field is cut off within its value is rejected. -/
theorem C170_truncated_partial (h : Host) (fs : Fields) (id : Int) (x y : List Byte) (hids : ∀ f ∈ fs ++ [(id, x ++ y)], IsLong f.1) (hy : y ≠ [])
    (hlen : (flat (fs ++ [(id, x ++ y)])).length < 9223372036854775808) :
    ∀ out, Constructs h (flat fs ++ (bytesLE 8 (ofLong id)).reverse ++ (bytesLE 8 (x ++ y).length).reverse ++ x) out ↔ out = .invalid := by
  have hyl : 0 < y.length := List.length_pos_iff.mpr hy
  have hxy : (x ++ y).length < 9223372036854775808 := by
    have := len_split (fs := fs ++ [(id, x ++ y)]) (pre := fs) (post := []) rfl; omega
  -- the loop over the whole fields before the last
  have go : ∀ (post pre : Fields) (ix : Index), pre ++ post = fs → ∃ ix',
      (∀ out, Scan h (flat fs ++ (bytesLE 8 (ofLong id)).reverse ++ (bytesLE 8 (x ++ y).length).reverse ++ x) (flat fs).length ix' out →
        Scan h (flat fs ++ (bytesLE 8 (ofLong id)).reverse ++ (bytesLE 8 (x ++ y).length).reverse ++ x) (flat pre).length ix out) := by
    intro post
    induction post with
    | nil =>
      intro pre ix he
      simp only [List.append_nil] at he
      subst he
      exact ⟨ix, fun _ h => h⟩
    | cons f post ih =>
      obtain ⟨j, z⟩ := f
      intro pre ix he
      obtain ⟨ix', hix⟩ := ih (pre ++ [(j, z)]) (ix.push j (flat pre).length) (by rw [← he]; simp)
      refine ⟨ix', fun out ho => ?_⟩
      have hl := len_split (fs := fs) (pre := pre) (post := post) he.symm
      have hsub : (flat fs).length ≤ (flat (fs ++ [(id, x ++ y)])).length := by rw [flat_append, List.length_append]; omega
      have hd : flat fs = flat pre ++ (bytesLE 8 (ofLong j)).reverse ++ (bytesLE 8 (ofLong (z.length : Int))).reverse ++ z ++ flat post := by
        rw [← he, flat_append, ofLong_nat (by omega)]; simp [flat, record, List.append_assoc]
      have hsnoc : ((flat (pre ++ [(j, z)])).length : Int) = (flat pre).length + (dataOffset + z.length) := by
        rw [flat_append]; simp [flat, dataOffset]
      have hn := hix out ho
      rw [hsnoc] at hn
      refine .next _ _ j z.length _ (by simp only [List.length_append]; omega) ?_ ?_ hn
      · refine rdLong_at h (a := flat pre) (c := (bytesLE 8 (ofLong (z.length : Int))).reverse ++ z ++ flat post ++ (bytesLE 8 (ofLong id)).reverse ++ (bytesLE 8 (x ++ y).length).reverse ++ x)
          (hids (j, z) (by rw [← he]; simp)) ?_ rfl
        rw [hd]; simp only [List.append_assoc]
      · refine rdLong_at h (a := flat pre ++ (bytesLE 8 (ofLong j)).reverse) (c := z ++ flat post ++ (bytesLE 8 (ofLong id)).reverse ++ (bytesLE 8 (x ++ y).length).reverse ++ x)
          ⟨by omega, by omega⟩ ?_ ?_
        · rw [hd]; simp only [List.append_assoc]
        · simp [sizeOffset]
  obtain ⟨ix', hix⟩ := go fs [] [] rfl
  have hinv : Constructs h (flat fs ++ (bytesLE 8 (ofLong id)).reverse ++ (bytesLE 8 (x ++ y).length).reverse ++ x) .invalid := by
    refine hix .invalid (.next _ _ id (x ++ y).length _ ?_ ?_ ?_ (.beyond _ _ ?_))
    · simp only [List.length_append, List.length_reverse, bytesLE_length]; omega
    · refine rdLong_at h (a := flat fs) (c := (bytesLE 8 (x ++ y).length).reverse ++ x) (hids (id, x ++ y) (by simp)) ?_ rfl
      simp only [List.append_assoc]
    · refine rdLong_at h (a := flat fs ++ (bytesLE 8 (ofLong id)).reverse) (c := x) ⟨by omega, by omega⟩ ?_ ?_
      · rw [ofLong_nat hxy]
      · simp [sizeOffset]
    · simp only [List.length_append, List.length_reverse, bytesLE_length, dataOffset]; omega
  intro out
  exact ⟨fun ho => scan_det h _ ho hinv, fun ho => ho ▸ hinv⟩

example : ∃ fs : Fields, ∃ id x y, (∀ f ∈ fs ++ [(id, x ++ y)], IsLong f.1) ∧ y ≠ [] ∧ (flat (fs ++ [(id, x ++ y)])).length < 9223372036854775808 ∧ fs ≠ [] :=
  ⟨[(0xE000001, [1, 2])], 0xC000001, [65], [0], by intro f hf; simp at hf; rcases hf with h | h <;> subst h <;> simp [IsLong], by simp, by decide +kernel, by simp⟩

/-! ## C171: a call that fails changes nothing -/

/-- A binary and a short after it, and memory for no more than that. -/
def full : State := ⟨flat [(0xE000001, [1, 2]), (0x2000001, [0, 7])], [(0x2000001, [18]), (0xE000001, [0])]⟩

/-- **C171, refuted.** A call that does not succeed leaves the buffer as it was. `casual_field_set_binary` that runs out of memory has already erased the old value, but not changed
its size in the buffer, nor the index: the short after it can not be read any more, and the old value has become other bytes. -/
theorem C171_set_fails_refuted (h : Host) : ∃ lim s v c s', Has s [(0xE000001, .binary [1, 2]), (0x2000001, .short 7)] ∧
    set h lim s 0xE000001 0 v = some (c, s') ∧ c ≠ .success ∧
    get h s 0x2000001 0 .short = .ok (.short 7) ∧ get h s' 0x2000001 0 .short = .wild ∧ get h s' 0xE000001 0 .binary = .ok (.binary [0, 0]) := by
  refine ⟨40, full, .binary [1, 2, 3, 4, 5, 6, 7], .outOfMemory, ⟨flat [(0xE000001, [1, 2]), (0x2000001, [0, 7])] |>.eraseIdx 16 |>.eraseIdx 16, full.index⟩, ?_, ?_, by decide, ?_, ?_, ?_⟩
  · refine ⟨⟨by decide +kernel, ?_, ?_, ?_, by decide +kernel⟩, ?_⟩
    · refine ⟨by decide +kernel, ?_⟩
      intro f hf
      simp only [full, List.mem_cons, List.not_mem_nil, or_false] at hf
      rcases hf with hf | hf <;> subst hf <;> simp
    · intro id
      by_cases h1 : id = 0x2000001
      · subst h1; decide +kernel
      · by_cases h2 : id = 0xE000001
        · subst h2; decide +kernel
        · have h1' : ¬ 0x2000001 = id := fun h => h1 h.symm
          have h2' : ¬ 0xE000001 = id := fun h => h2 h.symm
          simp [full, Index.look, raw, offs, h1', h2']
    · intro f hf
      simp only [raw, List.map_cons, List.map_nil, List.mem_cons, List.not_mem_nil, or_false] at hf
      rcases hf with hf | hf <;> subst hf <;> simp [IsLong]
    · intro f hf
      simp only [List.mem_cons, List.not_mem_nil, or_false] at hf
      rcases hf with hf | hf <;> subst hf <;> exact ⟨by decide, by simp [IsLong]⟩
  · cases h <;> decide +kernel
  · cases h <;> decide +kernel
  · cases h <;> decide +kernel
  · cases h <;> decide +kernel

/-- **C171, what holds.** For every buffer, however received: a call of add (whatever the reason it fails), a removal, and a set that fails for another reason than memory leaves the
buffer as it was if it fails. -/
theorem C171_fails_partial (h : Host) (lim : Nat) (s : State) :
    (∀ id v c s', add h lim s id v = some (c, s') → c ≠ .success → s' = s) ∧
    (∀ id c s', addEmpty h lim s id = some (c, s') → c ≠ .success → s' = s) ∧
    (∀ id occ c s', cut h s id occ = some (c, s') → c ≠ .success → s' = s) ∧
    (∀ id occ v c s', set h lim s id occ v = some (c, s') → c ≠ .success → c ≠ .outOfMemory → s' = s) := by
  have hadd : ∀ id v c s', add h lim s id v = some (c, s') → c ≠ .success → s' = s := by
    intro id v c s' he hc
    unfold add append at he
    split at he
    · cases he; rfl
    · simp only at he
      split at he
      · cases he; exact absurd rfl hc
      · cases he; rfl
  refine ⟨hadd, ?_, ?_, ?_⟩
  · intro id c s' he hc
    unfold addEmpty at he
    split at he
    · exact hadd _ _ _ _ he hc
    · cases he; rfl
  · intro id occ c s' he hc
    unfold cut remove at he
    split at he
    · cases he; rfl
    · split at he
      · cases he; rfl
      · split at he
        · cases he
        · split at he
          · cases he; exact absurd rfl hc
          · cases he
  · intro id occ v c s' he hc hm
    unfold set change at he
    split at he
    · cases he; rfl
    · split at he
      · cases he; rfl
      · split at he
        · cases he
        · split at he
          · simp only at he
            split at he
            · cases he; exact absurd rfl hc
            · cases he; exact absurd rfl hm
          · cases he

/-! ## C172: removing an id -/

/-- A buffer as received: one field with a negative id. -/
def negative : State := ⟨flat [(-1, [])], [(-1, [0])]⟩

/-- **C172, refuted.** After `casual_field_remove_id` has returned success there is no field with the id. A received buffer can have a field with a negative id; it is not removed and the
call returns success. -/
theorem C172_remove_id_refuted (h : Host) : ∃ s s', Constructs h s.data (.ok s.index) ∧ removeId h s (-1) = some (.success, s') ∧ occurrencesOf s' (-1) = .ok 1 := by
  refine ⟨negative, negative, ?_, by cases h <;> decide +kernel, rfl⟩
  refine .next 0 [] (-1) 0 _ (by decide +kernel) (by cases h <;> decide +kernel) (by cases h <;> decide +kernel) ?_
  exact .stop _ _ (by decide +kernel)

/-- **C172, what holds.** For every list of fields with typed values (all that is made by calls): the id is gone and all other fields are as they were. -/
theorem C172_remove_id_partial (h : Host) {s : State} {c : Content Val} (hc : Has s c) (id : Int) :
    ∃ s', removeId h s id = some (.success, s') ∧ count s' id = 0 ∧ ∀ j occ k, j ≠ id → get h s' j occ k = get h s j occ k := by
  obtain ⟨s', he, hh⟩ := removeId_has h hc id
  refine ⟨s', he, ?_, ?_⟩
  · rw [count_has hh]
    simp [occs, List.filter_filter]
  · intro j occ k hj
    rw [get_has h hh, get_has h hc]
    have : occs j (c.filter (·.1 ≠ id)) = occs j c := by
      simp only [occs, List.filter_filter]
      congr 1
      refine List.filter_congr ?_
      intro f _
      by_cases hf : f.1 = j
      · simp [hf, hj]
      · simp [hf]
    simp only [reads, this]

/-! ## C173: iteration over received buffers -/

/-- A buffer as received: one field with id 0. -/
def noId : State := ⟨flat [(0, [])], [(0, [0])]⟩

/-- **C173, refuted.** Iteration over any buffer that is accepted comes to an end. A field with id 0 (`CASUAL_FIELD_NO_ID`) makes it start over and over. -/
theorem C173_iteration_refuted (h : Host) : ∃ s, Constructs h s.data (.ok s.index) ∧ ∀ i l c, ¬ Walk s 0 i l c := by
  refine ⟨noId, ?_, ?_⟩
  · refine .next 0 [] 0 0 _ (by decide +kernel) (by cases h <;> decide +kernel) (by cases h <;> decide +kernel) ?_
    exact .stop _ _ (by decide +kernel)
  · have hn : ∀ i, next noId 0 i = (.success, 0, 0) := fun i => rfl
    have key : ∀ id i l c, Walk noId id i l c → id = 0 → False := by
      intro id i l c hw
      induction hw with
      | stop id i hs => intro h0; subst h0; rw [hn] at hs; exact hs rfl
      | step id i id' i' l c he _ ih => intro h0; subst h0; rw [hn] at he; cases he; exact ih rfl
    intro i l c hw
    exact key _ _ _ _ hw rfl

/-- **C173, what holds.** Iteration over a buffer of fields, none of which has id 0: each occurrence of each id once. -/
theorem C173_iteration_partial {s : State} {fs : Fields} (hr : Rep s fs) (hz : ∀ f ∈ fs, f.1 ≠ 0) (i : Int) :
    ∃ l, Walk s 0 i l .outOfBounds ∧ l.Pairwise Before ∧ ∀ id occ, (id, occ) ∈ l ↔ 0 ≤ occ ∧ occ < (occs id fs).length := by
  refine ⟨positions s.index, walk_all hr.ok ?_ i, sorted_positions hr.ok.1, fun id occ => mem_positions hr (id, occ)⟩
  intro f hf he
  have hl := Index.mem_look hr.ok hf
  rw [hr.look] at hl
  have hlen := congrArg List.length hl
  rw [offs_length] at hlen
  have hpos : 0 < (occs f.1 fs).length := by rw [hlen]; exact List.length_pos_iff.mpr (hr.ok.2 f hf)
  obtain ⟨y, hy⟩ := List.exists_mem_of_length_pos hpos
  simp only [occs, List.mem_map, List.mem_filter] at hy
  obtain ⟨g, ⟨hg, hge⟩, _⟩ := hy
  simp at hge
  exact hz g hg (by omega)

/-! ## C174: reading received buffers -/

/-- A buffer as received: a short of no bytes. -/
def small : State := ⟨flat [(0x2000001, [])], [(0x2000001, [0])]⟩

/-- **C174, refuted.** Reads of a buffer that is accepted are within its memory. The size of a number is not checked. -/
theorem C174_reads_refuted (h : Host) : ∃ s, Constructs h s.data (.ok s.index) ∧ get h s 0x2000001 0 .short = .wild := by
  refine ⟨small, ?_, by cases h <;> decide +kernel⟩
  refine .next 0 [] 0x2000001 0 _ (by decide +kernel) (by cases h <;> decide +kernel) (by cases h <;> decide +kernel) ?_
  exact .stop _ _ (by decide +kernel)

/-- Enough bytes for the type of the id: the size of a number, a NUL in a string. -/
def Enough (id : Int) (x : List Byte) : Prop :=
  match typeOf id with
  | 1 => 2 ≤ x.length | 2 => 8 ≤ x.length | 3 => 1 ≤ x.length | 4 => 4 ≤ x.length | 5 => 8 ≤ x.length | 6 => (0 : Byte) ∈ x | _ => True

theorem rd_within {data : List Byte} {o : Int} {w : Nat} (h0 : 0 ≤ o) (h1 : o + w ≤ data.length) : ∃ l, rd data o w = some l := by
  unfold rd; rw [if_pos ⟨h0, h1⟩]; exact ⟨_, rfl⟩

/-- **C174, what holds.** Reads of a buffer of fields, each with enough bytes for the type of its id, are within the memory. -/
theorem C174_reads_partial (h : Host) {s : State} {fs : Fields} (hr : Rep s fs) (hen : ∀ f ∈ fs, Enough f.1 f.2) (id occ : Int) (k : Kind) :
    get h s id occ k ≠ .wild := by
  unfold get
  split
  · simp
  · rename_i hk
    have hk : k.type = typeOf id := Classical.byContradiction hk
    rcases occ_cases id occ fs with hn | ⟨pre, x, post, he, hocc⟩
    · rw [at_none hr hn]; simp
    · subst he hocc
      have hx := hen (id, x) (by simp)
      simp only [Enough, ← hk] at hx
      have hl := len_split (fs := pre ++ (id, x) :: post) rfl
      have hdl : s.data.length = (flat pre).length + (16 + x.length) + (flat post).length := by rw [hr.data]; exact hl
      rw [at_split hr]
      have num : ∀ w, w ≤ x.length → ∃ l, rd s.data (((flat pre).length : Int) + dataOffset) w = some l :=
        fun w hw => rd_within (by simp [dataOffset]; omega) (by simp only [dataOffset]; omega)
      simp only
      cases k with
      | short => obtain ⟨l, e⟩ := num 2 hx; simp [select, rdNum, e, Got.of]
      | long => obtain ⟨l, e⟩ := num 8 hx; simp [select, rdNum, e, Got.of]
      | char => obtain ⟨l, e⟩ := num 1 hx; simp [select, rdNum, e, Got.of]
      | float => obtain ⟨l, e⟩ := num 4 hx; simp [select, rdNum, e, Got.of]
      | double => obtain ⟨l, e⟩ := num 8 hx; simp [select, rdNum, e, Got.of]
      | string =>
        have hm : (0 : Byte) ∈ s.data.drop (((flat pre).length : Int) + dataOffset).toNat := by
          have hdrop : s.data.drop (((flat pre).length : Int) + dataOffset).toNat = x ++ flat post := by
            rw [data_split hr, List.append_assoc _ x, List.drop_append, List.drop_eq_nil_of_le (by simp [dataOffset]; omega)]
            have : (((flat pre).length : Int) + dataOffset).toNat
                - (flat pre ++ (bytesLE 8 (ofLong id)).reverse ++ (bytesLE 8 (ofLong (x.length : Int))).reverse).length = 0 := by
              simp [dataOffset]
            rw [this]; rfl
          rw [hdrop]
          have hx' : (0 : Byte) ∈ x := hx
          exact List.mem_append_left _ hx'
        simp only [select, rdStr]
        rw [if_pos ⟨by simp [dataOffset]; omega, hm⟩]
        simp [Got.of]
      | binary =>
        obtain ⟨l, e⟩ := num x.length (Nat.le_refl _)
        simp only [select, size_split h hr, Int.toNat_natCast, e]
        rw [if_pos (by omega)]
        simp [Got.of]

example : ∃ s fs, Rep s fs ∧ (∀ f ∈ fs, Enough f.1 f.2) ∧ fs.length = 1 :=
  ⟨⟨flat [(0x2000001, [0, 7])], [(0x2000001, [0])]⟩, [(0x2000001, [0, 7])],
   ⟨rfl, ⟨by simp, by simp⟩, by
      intro id
      by_cases h : id = 0x2000001
      · subst h; rfl
      · have h' : ¬ 0x2000001 = id := fun e => h e.symm
        simp [Index.look, offs, h'],
    by simp [IsLong], by decide +kernel⟩, by intro f hf; simp at hf; subst hf; show 2 ≤ 2; omega, rfl⟩

end Casual.Buffer.Field

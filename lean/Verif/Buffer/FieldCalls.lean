import Verif.Buffer.FieldRep
/-!
# Calls on a field buffer, and what they mean for its content
-/
namespace Casual.Buffer.Field
open Casual.Data

/-- A value as its type has it: the string ends at the NUL. -/
def Val.norm : Val → Val
  | .string s => .string (cstr s)
  | v => v

/-- Bytes a value takes in a buffer. -/
def Val.size : Val → Nat
  | .short _ => 2 | .long _ => 8 | .char _ => 1 | .float _ => 4 | .double _ => 8 | .string s => (cstr s).length + 1 | .binary b => b.length

/-- Bytes that content takes. -/
def need (c : Content Val) : Nat := (c.map fun f => 16 + f.2.size).sum

/-- The type of each value is that of its id. -/
def Typed (c : Content Val) : Prop := ∀ f ∈ c, f.2.type = typeOf f.1 ∧ IsLong f.1

/-- The calls that change a buffer. -/
inductive Call
  | add (id : Int) (v : Val)
  | addEmpty (id : Int)
  | set (id occ : Int) (v : Val)
  | put (id ix : Int) (v : Val)
  | remove (id occ : Int)
  | removeId (id : Int)
  | removeAll
  deriving DecidableEq, Repr

/-- The id that a call is about is a `long`. -/
def Call.long : Call → Prop
  | .add id _ | .addEmpty id | .set id _ _ | .put id _ _ | .remove id _ | .removeId id => IsLong id
  | .removeAll => True

/-- The value with nothing in it of each type. -/
def zero (type : Int) : Option Val :=
  [Val.short 0, .long 0, .char 0, .float 0, .double 0, .string [], .binary []].find? (·.type = type)

/-- What a call means: code and content after, if there is memory enough. -/
def Call.means (c : Content Val) : Call → Code × Content Val
  | .add id v => if v.type = typeOf id then (.success, c ++ [(id, v)]) else (.invalidArgument, c)
  | .addEmpty id => match zero (typeOf id) with
    | some v => (.success, c ++ [(id, v)])
    | none => (.invalidArgument, c)
  | .set id occ v =>
    if v.type ≠ typeOf id then (.invalidArgument, c)
    else if 0 ≤ occ ∧ occ < (occs id c).length then (.success, setNth id v occ.toNat c)
    else (.outOfBounds, c)
  | .put id ix v =>
    if v.type ≠ typeOf id then (.invalidArgument, c)
    else if ix < 0 then (.success, c ++ [(id, v)])
    else if ix < (occs id c).length then (.success, setNth id v ix.toNat c)
    else match zero (typeOf id) with
      | some z => (.success, c ++ List.replicate (ix.toNat - (occs id c).length) (id, z) ++ [(id, v)])
      | none => (.invalidArgument, c)
  | .remove id occ =>
    if id ≤ 0 then (.invalidArgument, c)
    else if 0 ≤ occ ∧ occ < (occs id c).length then (.success, removeNth id occ.toNat c)
    else (.outOfBounds, c)
  | .removeId id => (.success, c.filter (·.1 ≠ id))
  | .removeAll => (.success, [])

/-- The call on the buffer. -/
inductive Exec (h : Host) (lim : Nat) (s : State) : Call → Result → Prop
  | add (id : Int) (v : Val) : Exec h lim s (.add id v) (add h lim s id v)
  | addEmpty (id : Int) : Exec h lim s (.addEmpty id) (addEmpty h lim s id)
  | set (id occ : Int) (v : Val) : Exec h lim s (.set id occ v) (set h lim s id occ v)
  | put (id ix : Int) (v : Val) (r : Result) (hp : Put h lim id ix v s r) : Exec h lim s (.put id ix v) r
  | remove (id occ : Int) : Exec h lim s (.remove id occ) (cut h s id occ)
  | removeId (id : Int) : Exec h lim s (.removeId id) (removeId h s id)
  | removeAll : Exec h lim s .removeAll (removeAll s)

/-- Content with encoded values. -/
def raw (c : Content Val) : Fields := c.map fun f => (f.1, f.2.bytes .little)

theorem bytes_host (h : Host) (v : Val) : v.bytes h = v.bytes .little := by cases v <;> simp only [Val.bytes, enc_eq]

theorem bytes_length (h : Host) (v : Val) : (v.bytes h).length = v.size := by cases v <;> simp [Val.bytes, enc_eq, Val.size]

theorem raw_append (a b : Content Val) : raw (a ++ b) = raw a ++ raw b := by simp [raw]

theorem flat_raw_length (c : Content Val) : (flat (raw c)).length = need c := by
  induction c with
  | nil => rfl
  | cons f c ih =>
    have : flat (raw (f :: c)) = record (f.1, f.2.bytes .little) ++ flat (raw c) := rfl
    rw [this, List.length_append, ih, record_length, bytes_length]
    simp [need]

theorem occs_raw (id : Int) (c : Content Val) : occs id (raw c) = (occs id c).map (Val.bytes .little) := by
  induction c with
  | nil => rfl
  | cons f c ih =>
    have hr : raw (f :: c) = (f.1, f.2.bytes .little) :: raw c := rfl
    rw [hr]
    simp only [occs] at ih ⊢
    by_cases hf : f.1 = id
    · simp only [List.filter_cons, hf, decide_true, ↓reduceIte, List.map_cons, ih]
    · simp only [List.filter_cons, hf, decide_false, Bool.false_eq_true, ↓reduceIte, ih]

theorem setNth_raw (id : Int) (v : Val) (n : Nat) (c : Content Val) : setNth id (v.bytes .little) n (raw c) = raw (setNth id v n c) := by
  induction c generalizing n with
  | nil => rfl
  | cons f c ih =>
    obtain ⟨i, x⟩ := f
    have hr : raw ((i, x) :: c) = (i, x.bytes .little) :: raw c := rfl
    rw [hr]
    by_cases hi : i = id
    · cases n with
      | zero => simp [setNth, hi, raw]
      | succ n => have := ih n; simp only [setNth, hi, ↓reduceIte, this]; rfl
    · have := ih n; simp only [setNth, hi, ↓reduceIte, this]; rfl

theorem removeNth_raw (id : Int) (n : Nat) (c : Content Val) : removeNth id n (raw c) = raw (removeNth id n c) := by
  induction c generalizing n with
  | nil => rfl
  | cons f c ih =>
    obtain ⟨i, x⟩ := f
    have hr : raw ((i, x) :: c) = (i, x.bytes .little) :: raw c := rfl
    rw [hr]
    by_cases hi : i = id
    · cases n with
      | zero => simp [removeNth, hi]
      | succ n => have := ih n; simp only [removeNth, hi, ↓reduceIte, this]; rfl
    · have := ih n; simp only [removeNth, hi, ↓reduceIte, this]; rfl

theorem mem_setNth {α : Type} {id : Int} {v : α} {n : Nat} {c : Content α} {f : Int × α} (h : f ∈ setNth id v n c) : f ∈ c ∨ f = (id, v) := by
  induction c generalizing n with
  | nil => simp [setNth] at h
  | cons g c ih =>
    obtain ⟨i, x⟩ := g
    by_cases hi : i = id
    · cases n with
      | zero =>
        simp only [setNth, hi, ↓reduceIte] at h
        rcases List.mem_cons.mp h with h | h
        · exact .inr h
        · exact .inl (by simp [h])
      | succ n =>
        simp only [setNth, hi, ↓reduceIte] at h
        rcases List.mem_cons.mp h with h | h
        · exact .inl (by simp [h, hi])
        · rcases ih h with h | h
          · exact .inl (by simp [h])
          · exact .inr h
    · simp only [setNth, hi, ↓reduceIte] at h
      rcases List.mem_cons.mp h with h | h
      · exact .inl (by simp [h])
      · rcases ih h with h | h
        · exact .inl (by simp [h])
        · exact .inr h

theorem mem_removeNth {α : Type} {id : Int} {n : Nat} {c : Content α} {f : Int × α} (h : f ∈ removeNth id n c) : f ∈ c := by
  induction c generalizing n with
  | nil => simp [removeNth] at h
  | cons g c ih =>
    obtain ⟨i, x⟩ := g
    by_cases hi : i = id
    · cases n with
      | zero => simp only [removeNth, hi, ↓reduceIte] at h; simp [h]
      | succ n =>
        simp only [removeNth, hi, ↓reduceIte] at h
        rcases List.mem_cons.mp h with h | h
        · simp [h, hi]
        · simp [ih h]
    · simp only [removeNth, hi, ↓reduceIte] at h
      rcases List.mem_cons.mp h with h | h
      · simp [h]
      · simp [ih h]

theorem type_range (v : Val) : 1 ≤ v.type ∧ v.type ≤ 7 := by cases v <;> simp [Val.type]

theorem empty_zero (id : Int) : empty id = zero (typeOf id) := by
  unfold empty
  generalize typeOf id = t
  by_cases h : 1 ≤ t ∧ t ≤ 7
  · have : t = 1 ∨ t = 2 ∨ t = 3 ∨ t = 4 ∨ t = 5 ∨ t = 6 ∨ t = 7 := by omega
    rcases this with h | h | h | h | h | h | h <;> subst h <;> rfl
  · have hz : zero t = none := by
      simp only [zero, List.find?_eq_none]
      intro v _ he
      have := type_range v
      simp at he; omega
    rw [hz]
    split <;> first | rfl | (exfalso; apply h; constructor <;> decide)

theorem zero_type {t : Int} {v : Val} (h : zero t = some v) : v.type = t := by
  have := List.find?_some h
  simpa using this

theorem zero_some (v : Val) : ∃ z, zero v.type = some z ∧ z.size ≤ v.size := by
  cases v <;> exact ⟨_, rfl, by simp [Val.size, cstr]⟩

/-- Content and its invariants. -/
structure Has (s : State) (c : Content Val) : Prop where
  rep : Rep s (raw c)
  typed : Typed c

theorem has_nil : Has ⟨[], []⟩ [] := ⟨rep_nil, by simp [Typed]⟩

theorem add_has (h : Host) {lim : Nat} (hlim : lim < 9223372036854775808) {s : State} {c : Content Val} (hc : Has s c) {id : Int} (hid : IsLong id) {v : Val}
    (hv : v.type = typeOf id) (hroom : need (c ++ [(id, v)]) ≤ lim) : ∃ s', add h lim s id v = some (.success, s') ∧ Has s' (c ++ [(id, v)]) := by
  obtain ⟨k, s', he, hcase⟩ := append_rep h hlim hc.rep hid (v.bytes h)
  have hraw : raw c ++ [(id, v.bytes h)] = raw (c ++ [(id, v)]) := by rw [raw_append, bytes_host]; rfl
  rw [hraw, flat_raw_length] at hcase
  unfold add
  rw [if_neg (by simp [hv]), he]
  rcases hcase with ⟨hk, hrep, _⟩ | ⟨_, _, hlt⟩
  · subst hk
    refine ⟨s', rfl, hrep, ?_⟩
    intro f hf
    rcases List.mem_append.mp hf with hf | hf
    · exact hc.typed f hf
    · simp at hf; subst hf; exact ⟨hv, hid⟩
  · omega

theorem set_has (h : Host) {lim : Nat} (hlim : lim < 9223372036854775808) {s : State} {c : Content Val} (hc : Has s c) {id occ : Int} {v : Val}
    (hv : v.type = typeOf id) (ho : 0 ≤ occ ∧ occ < (occs id c).length) (hroom : need (setNth id v occ.toNat c) ≤ lim) :
    ∃ s', set h lim s id occ v = some (.success, s') ∧ Has s' (setNth id v occ.toNat c) := by
  have hlen : (occs id (raw c)).length = (occs id c).length := by rw [occs_raw, List.length_map]
  rcases occ_cases id occ (raw c) with hn | ⟨pre, x, post, he, hocc⟩
  · omega
  · have hset : setNth id (v.bytes .little) occ.toNat (raw c) = pre ++ (id, v.bytes .little) :: post := by
      rw [he, hocc]; exact setNth_split _ _ _ _
    rw [setNth_raw] at hset
    have hrep := hc.rep
    rw [he] at hrep
    obtain ⟨s', hs, hr'⟩ := change_split h hlim hrep (v.bytes .little) (by rw [← hset, flat_raw_length]; exact hroom)
    unfold set
    rw [if_neg (by simp [hv]), hocc, bytes_host]
    refine ⟨s', hs, ?_, ?_⟩
    · rw [← hocc, hset]; exact hr'
    · intro f hf
      rcases mem_setNth hf with hf | hf
      · exact hc.typed f hf
      · subst hf
        have : (id, x) ∈ raw c := by rw [he]; simp
        exact ⟨hv, hc.rep.ids _ this⟩

theorem set_none (h : Host) (lim : Nat) {s : State} {c : Content Val} (hc : Has s c) {id occ : Int} {v : Val}
    (hv : v.type = typeOf id) (ho : ¬ (0 ≤ occ ∧ occ < (occs id c).length)) : set h lim s id occ v = some (.outOfBounds, s) := by
  have hlen : (occs id (raw c)).length = (occs id c).length := by rw [occs_raw, List.length_map]
  unfold set
  rw [if_neg (by simp [hv])]
  exact change_none h lim hc.rep (by omega) _

theorem cut_has (h : Host) {s : State} {c : Content Val} (hc : Has s c) {id occ : Int} (hid : 0 < id) (ho : 0 ≤ occ ∧ occ < (occs id c).length) :
    ∃ s', cut h s id occ = some (.success, s') ∧ Has s' (removeNth id occ.toNat c) := by
  have hlen : (occs id (raw c)).length = (occs id c).length := by rw [occs_raw, List.length_map]
  rcases occ_cases id occ (raw c) with hn | ⟨pre, x, post, he, hocc⟩
  · omega
  · have hrm : removeNth id occ.toNat (raw c) = pre ++ post := by
      rw [he, hocc]; exact removeNth_split _ _ _
    rw [removeNth_raw] at hrm
    have hrep := hc.rep
    rw [he] at hrep
    obtain ⟨s', hs, hr'⟩ := remove_split h hrep
    unfold cut
    rw [if_neg (by omega), hocc]
    refine ⟨s', hs, ?_, ?_⟩
    · rw [← hocc, hrm]; exact hr'
    · intro f hf; exact hc.typed f (mem_removeNth hf)

/-- The positive ids of typed content. -/
theorem typed_pos {c : Content Val} (hc : Typed c) {f : Int × Val} (hf : f ∈ c) : 0 < f.1 := by
  have h1 := (hc f hf).1
  have h2 := type_range f.2
  rw [h1] at h2
  apply Classical.byContradiction
  intro hn
  have : typeOf f.1 ≤ 0 := by
    unfold typeOf base
    have := Int.tdiv_nonneg (a := -f.1) (b := 0x2000000) (by omega) (by omega)
    rw [Int.neg_tdiv] at this
    omega
  omega

theorem filter_removeNth {α : Type} (id : Int) (n : Nat) (c : Content α) : (removeNth id n c).filter (·.1 ≠ id) = c.filter (·.1 ≠ id) := by
  induction c generalizing n with
  | nil => rfl
  | cons g c ih =>
    obtain ⟨i, x⟩ := g
    by_cases hi : i = id
    · cases n with
      | zero => simp [removeNth, hi]
      | succ n => have := ih n; simp only [removeNth, hi, ↓reduceIte, List.filter_cons, this]
    · have := ih n; simp only [removeNth, hi, ↓reduceIte, List.filter_cons, this]

theorem cutLast_has (h : Host) {id : Int} (n : Nat) {s : State} {c : Content Val} (hc : Has s c) (hn : (occs id c).length = n) :
    ∃ s', cutLast h id n s = some s' ∧ Has s' (c.filter (·.1 ≠ id)) := by
  induction n generalizing s c with
  | zero =>
    have : c.filter (·.1 ≠ id) = c := by
      rw [List.filter_eq_self]
      intro f hf
      simp only [decide_eq_true_eq]
      intro he
      have : f.2 ∈ occs id c := by simp only [occs, List.mem_map, List.mem_filter]; exact ⟨f, ⟨hf, by simp [he]⟩, rfl⟩
      rw [List.eq_nil_of_length_eq_zero hn] at this
      simp at this
    rw [this]
    exact ⟨s, rfl, hc⟩
  | succ n ih =>
    have hpos : 0 < id := by
      have : 0 < (occs id c).length := by omega
      obtain ⟨y, hy⟩ := List.exists_mem_of_length_pos this
      simp only [occs, List.mem_map, List.mem_filter] at hy
      obtain ⟨f, ⟨hf, he⟩, _⟩ := hy
      have := typed_pos hc.typed hf
      simp at he; omega
    obtain ⟨s', hs, hh⟩ := cut_has h hc (id := id) (occ := (n : Int)) hpos (by omega)
    have hlen : (occs id (removeNth id (n : Int).toNat c)).length = n := by
      rw [occs_removeNth_same, List.length_eraseIdx, Int.toNat_natCast, if_pos (by omega)]; omega
    obtain ⟨s'', hs', hh'⟩ := ih hh hlen
    rw [filter_removeNth] at hh'
    exact ⟨s'', by simp only [cutLast, hs]; exact hs', hh'⟩

theorem count_has {s : State} {c : Content Val} (hc : Has s c) (id : Int) : count s id = (occs id c).length := by
  unfold count; rw [hc.rep.look, offs_length, occs_raw, List.length_map]

theorem removeId_has (h : Host) {s : State} {c : Content Val} (hc : Has s c) (id : Int) :
    ∃ s', removeId h s id = some (.success, s') ∧ Has s' (c.filter (·.1 ≠ id)) := by
  obtain ⟨s', hs, hh⟩ := cutLast_has h (count s id) hc (count_has hc id).symm
  exact ⟨s', by simp [removeId, hs], hh⟩

theorem occs_replicate {α : Type} (id : Int) (n : Nat) (z : α) : occs id (List.replicate n (id, z)) = List.replicate n z := by
  induction n with
  | zero => rfl
  | succ n ih => simp only [occs] at ih ⊢; simp [List.replicate_succ]

theorem need_append (a b : Content Val) : need (a ++ b) = need a + need b := by simp [need]

/-- Putting beyond the end: the empty values come one at a time, the value replaces the last of them. -/
theorem put_has (h : Host) {lim : Nat} (hlim : lim < 9223372036854775808) {id : Int} (hid : IsLong id) {v z : Val} (hv : v.type = typeOf id)
    (hz : zero (typeOf id) = some z) (ix : Nat) (k : Nat) {s : State} {c : Content Val} (hc : Has s c) (hk : (occs id c).length + k = ix)
    (hroom : need (c ++ List.replicate k (id, z) ++ [(id, v)]) ≤ lim) :
    (∃ s', Put h lim id ix v s (some (.success, s')) ∧ Has s' (c ++ List.replicate k (id, z) ++ [(id, v)])) := by
  have hzt := zero_type hz
  have hzs : z.size ≤ v.size := by
    obtain ⟨z', h1, h2⟩ := zero_some v
    rw [hv, hz] at h1; cases h1; exact h2
  have hn1 : need [(id, v)] = 16 + v.size := by simp [need]
  have hn2 : need [(id, z)] = 16 + z.size := by simp [need]
  induction k generalizing s c with
  | zero =>
    have hb := set_none h lim hc (id := id) (occ := (ix : Int)) hv (by omega)
    obtain ⟨s1, ha, hh⟩ := add_has h hlim hc hid hzt (by
      simp only [List.replicate_zero, List.append_nil] at hroom
      rw [need_append] at hroom ⊢; omega)
    have hset : setNth id v ix (c ++ [(id, z)]) = c ++ [(id, v)] := by
      have := setNth_split (id := id) v z c []
      have hi : (occs id c).length = ix := by omega
      rw [hi] at this; exact this
    have hl : (occs id (c ++ [(id, z)])).length = ix + 1 := by
      rw [occs_append, List.length_append]; simp only [occs] at hk ⊢; simp at hk ⊢; omega
    obtain ⟨s2, hs2, hh2⟩ := set_has h hlim hh (id := id) (occ := (ix : Int)) (v := v) hv (by omega) (by
      simp only [List.replicate_zero, List.append_nil] at hroom
      rw [Int.toNat_natCast, hset]; exact hroom)
    rw [Int.toNat_natCast, hset] at hh2
    refine ⟨s2, .again s s s1 _ (by omega) hb (by unfold addEmpty; rw [empty_zero, hz]; exact ha) ?_, by simpa using hh2⟩
    rw [← hs2]
    exact .set s1 (by omega) (by rw [hs2]; simp)
  | succ k ih =>
    have hb := set_none h lim hc (id := id) (occ := (ix : Int)) hv (by omega)
    have hre : c ++ List.replicate (k + 1) (id, z) ++ [(id, v)] = (c ++ [(id, z)]) ++ List.replicate k (id, z) ++ [(id, v)] := by
      simp [List.replicate_succ]
    obtain ⟨s1, ha, hh⟩ := add_has h hlim hc hid hzt (by
      rw [hre, List.append_assoc, need_append] at hroom; omega)
    have hl : (occs id (c ++ [(id, z)])).length + k = ix := by
      rw [occs_append, List.length_append]; simp only [occs] at hk ⊢; simp at hk ⊢; omega
    obtain ⟨s2, hp, hh2⟩ := ih hh hl (by rw [← hre]; exact hroom)
    rw [hre]
    exact ⟨s2, .again s s s1 _ (by omega) hb (by unfold addEmpty; rw [empty_zero, hz]; exact ha) hp, hh2⟩

/-- `Put` is a function. -/
theorem put_det (h : Host) (lim : Nat) {id ix : Int} {v : Val} {s : State} {r r' : Result} (hp : Put h lim id ix v s r) (hq : Put h lim id ix v s r') : r = r' := by
  induction hp generalizing r' with
  | add s hi =>
    cases hq with
    | add => rfl
    | set _ h1 => exact absurd hi h1
    | stuck _ _ h1 => exact absurd hi h1
    | again _ _ _ _ h1 => exact absurd hi h1
  | set s hi hs =>
    cases hq with
    | add _ h1 => exact absurd h1 hi
    | set => rfl
    | stuck _ s' _ h2 => exact absurd h2 (hs s')
    | again _ s' _ _ _ h2 => exact absurd h2 (hs s')
  | stuck s s' hi hs he =>
    cases hq with
    | add _ h1 => exact absurd h1 hi
    | set _ _ h2 => exact absurd hs (h2 s')
    | stuck _ s1 _ h2 h3 => rw [hs] at h2; cases h2; rfl
    | again _ s1 s2 _ _ h2 h3 => rw [hs] at h2; cases h2; exact absurd h3 (he s2)
  | again s s' s'' r hi hs he _ ih =>
    cases hq with
    | add _ h1 => exact absurd h1 hi
    | set _ _ h2 => exact absurd hs (h2 s')
    | stuck _ s1 _ h2 h3 => rw [hs] at h2; cases h2; exact absurd he (h3 s'')
    | again _ s1 s2 _ _ h2 h3 h4 => rw [hs] at h2; cases h2; rw [he] at h3; cases h3; exact ih h4

/-- A call does what it means. -/
theorem exec_has (h : Host) {lim : Nat} (hlim : lim < 9223372036854775808) {s : State} {c : Content Val} (hc : Has s c) {k : Call} (hk : k.long)
    (hroom : need (k.means c).2 ≤ lim) : ∃ s', Exec h lim s k (some ((k.means c).1, s')) ∧ Has s' (k.means c).2 := by
  cases k with
  | add id v =>
    by_cases hv : v.type = typeOf id
    · simp only [Call.means, hv, ↓reduceIte] at hroom ⊢
      obtain ⟨s', ha, hh⟩ := add_has h hlim hc hk hv hroom
      exact ⟨s', ha ▸ Exec.add id v, hh⟩
    · simp only [Call.means, hv, ↓reduceIte]
      have : add h lim s id v = some (.invalidArgument, s) := by unfold add; rw [if_pos hv]
      exact ⟨s, this ▸ Exec.add id v, hc⟩
  | addEmpty id =>
    cases hz : zero (typeOf id) with
    | none =>
      simp only [Call.means, hz]
      have : addEmpty h lim s id = some (.invalidArgument, s) := by unfold addEmpty; rw [empty_zero, hz]
      exact ⟨s, this ▸ Exec.addEmpty id, hc⟩
    | some z =>
      simp only [Call.means, hz] at hroom ⊢
      obtain ⟨s', ha, hh⟩ := add_has h hlim hc hk (zero_type hz) hroom
      have : addEmpty h lim s id = some (.success, s') := by unfold addEmpty; rw [empty_zero, hz]; exact ha
      exact ⟨s', this ▸ Exec.addEmpty id, hh⟩
  | set id occ v =>
    by_cases hv : v.type = typeOf id
    · by_cases ho : 0 ≤ occ ∧ occ < (occs id c).length
      · simp only [Call.means, hv, ne_eq, not_true_eq_false, ↓reduceIte, ho, and_self] at hroom ⊢
        obtain ⟨s', ha, hh⟩ := set_has h hlim hc hv ho hroom
        exact ⟨s', ha ▸ Exec.set id occ v, hh⟩
      · simp only [Call.means, hv, ne_eq, not_true_eq_false, ↓reduceIte, ho]
        have := set_none h lim hc hv ho
        exact ⟨s, this ▸ Exec.set id occ v, hc⟩
    · simp only [Call.means, ne_eq, hv, not_false_eq_true, ↓reduceIte]
      have : set h lim s id occ v = some (.invalidArgument, s) := by unfold set; rw [if_pos hv]
      exact ⟨s, this ▸ Exec.set id occ v, hc⟩
  | put id ix v =>
    by_cases hv : v.type = typeOf id
    · by_cases hi : ix < 0
      · simp only [Call.means, hv, ne_eq, not_true_eq_false, ↓reduceIte, hi] at hroom ⊢
        obtain ⟨s', ha, hh⟩ := add_has h hlim hc hk hv hroom
        exact ⟨s', .put id ix v _ (ha ▸ Put.add s hi), hh⟩
      · by_cases hl : ix < (occs id c).length
        · simp only [Call.means, hv, ne_eq, not_true_eq_false, ↓reduceIte, hi, hl] at hroom ⊢
          obtain ⟨s', ha, hh⟩ := set_has h hlim hc hv ⟨by omega, hl⟩ hroom
          exact ⟨s', .put id ix v _ (ha ▸ Put.set s hi (by rw [ha]; simp)), hh⟩
        · obtain ⟨z, hz, _⟩ := zero_some v
          rw [hv] at hz
          simp only [Call.means, hv, ne_eq, not_true_eq_false, ↓reduceIte, hi, hl, hz] at hroom ⊢
          have hix : ((ix.toNat : Nat) : Int) = ix := by omega
          obtain ⟨s', hp, hh⟩ := put_has h hlim hk hv hz ix.toNat (ix.toNat - (occs id c).length) hc (by omega) hroom
          rw [hix] at hp
          exact ⟨s', .put id ix v _ hp, hh⟩
    · simp only [Call.means, ne_eq, hv, not_false_eq_true, ↓reduceIte]
      by_cases hi : ix < 0
      · have : add h lim s id v = some (.invalidArgument, s) := by unfold add; rw [if_pos hv]
        exact ⟨s, .put id ix v _ (this ▸ Put.add s hi), hc⟩
      · have : set h lim s id ix v = some (.invalidArgument, s) := by unfold set; rw [if_pos hv]
        exact ⟨s, .put id ix v _ (this ▸ Put.set s hi (by rw [this]; simp)), hc⟩
  | remove id occ =>
    by_cases hi : id ≤ 0
    · simp only [Call.means, hi, ↓reduceIte]
      have : cut h s id occ = some (.invalidArgument, s) := by unfold cut; rw [if_pos (by omega)]
      exact ⟨s, this ▸ Exec.remove id occ, hc⟩
    · by_cases ho : 0 ≤ occ ∧ occ < (occs id c).length
      · simp only [Call.means, hi, ↓reduceIte, ho, and_self]
        obtain ⟨s', ha, hh⟩ := cut_has h hc (id := id) (by omega) ho
        exact ⟨s', ha ▸ Exec.remove id occ, hh⟩
      · simp only [Call.means, hi, ↓reduceIte, ho]
        have hlen : (occs id (raw c)).length = (occs id c).length := by rw [occs_raw, List.length_map]
        have : cut h s id occ = some (.outOfBounds, s) := by
          unfold cut; rw [if_neg (by omega)]; exact remove_none h hc.rep (by omega)
        exact ⟨s, this ▸ Exec.remove id occ, hc⟩
  | removeId id =>
    obtain ⟨s', ha, hh⟩ := removeId_has h hc id
    exact ⟨s', ha ▸ Exec.removeId id, hh⟩
  | removeAll => exact ⟨⟨[], []⟩, Exec.removeAll, has_nil⟩

theorem exec_det (h : Host) (lim : Nat) {s : State} {k : Call} {r r' : Result} (hp : Exec h lim s k r) (hq : Exec h lim s k r') : r = r' := by
  cases hp with
  | put id ix v r hp => cases hq with | put _ _ _ _ hq => exact put_det h lim hp hq
  | _ => cases hq; rfl

end Casual.Buffer.Field

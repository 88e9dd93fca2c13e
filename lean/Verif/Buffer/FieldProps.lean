import Verif.Buffer.FieldScan
import Verif.Buffer.FieldWalk
/-!
# Properties of field buffers
-/
namespace Casual.Buffer.Field
open Casual.Data

/-! ## C167: a field buffer is a list of fields -/

/-- A sequence of calls: the codes that they return and the buffer after. -/
inductive Runs (h : Host) (lim : Nat) : State → List Call → List Code → State → Prop
  | nil (s : State) : Runs h lim s [] [] s
  | cons (s s' s'' : State) (k : Call) (ks : List Call) (c : Code) (cs : List Code)
      (he : Exec h lim s k (some (c, s'))) (hr : Runs h lim s' ks cs s'') : Runs h lim s (k :: ks) (c :: cs) s''

/-- What a sequence of calls means. -/
def meaning : Content Val → List Call → List Code × Content Val
  | c, [] => ([], c)
  | c, k :: ks => ((k.means c).1 :: (meaning (k.means c).2 ks).1, (meaning (k.means c).2 ks).2)

/-- There is memory for the content after each of the calls. -/
def Room (lim : Nat) : Content Val → List Call → Prop
  | _, [] => True
  | c, k :: ks => need (k.means c).2 ≤ lim ∧ Room lim (k.means c).2 ks

theorem runs_has (h : Host) {lim : Nat} (hlim : lim < 9223372036854775808) (ks : List Call) (hk : ∀ k ∈ ks, k.long) {s : State} {c : Content Val} (hc : Has s c)
    (hroom : Room lim c ks) : ∃ s', Runs h lim s ks (meaning c ks).1 s' ∧ Has s' (meaning c ks).2 := by
  induction ks generalizing s c with
  | nil => exact ⟨s, .nil s, hc⟩
  | cons k ks ih =>
    obtain ⟨s1, he, hh⟩ := exec_has h hlim hc (hk k (by simp)) hroom.1
    obtain ⟨s2, hr, hh2⟩ := ih (fun k hk' => hk k (by simp [hk'])) hh hroom.2
    exact ⟨s2, .cons _ _ _ _ _ _ _ he hr, hh2⟩

theorem runs_det (h : Host) (lim : Nat) {ks : List Call} {s s1 s2 : State} {c1 c2 : List Code} (h1 : Runs h lim s ks c1 s1) (h2 : Runs h lim s ks c2 s2) :
    c1 = c2 ∧ s1 = s2 := by
  induction h1 generalizing c2 s2 with
  | nil s => cases h2; exact ⟨rfl, rfl⟩
  | cons s s' s'' k ks c cs he _ ih =>
    cases h2 with
    | cons _ _ _ _ _ _ _ he2 hr2 =>
      have := exec_det h lim he he2
      cases this
      obtain ⟨e1, e2⟩ := ih hr2
      exact ⟨by rw [e1], e2⟩

/-- **C167.** On a new buffer, any sequence of add, set, put and remove calls returns the codes and leaves the content that the same calls on a list of fields give:
add appends, set replaces the given occurrence, put fills up with empty values, remove removes the given occurrence, and all else stays as it was and where it was. And this is
what is read: each `get` gives the value of the list (or out of bounds, or invalid argument for another type than that of the id), and the counts are those of the list. -/
theorem C167_field_calls (h : Host) {lim : Nat} (hlim : lim < 9223372036854775808) (ks : List Call) (hk : ∀ k ∈ ks, k.long) (hroom : Room lim [] ks) :
    ∃ s, Runs h lim ⟨[], []⟩ ks (meaning [] ks).1 s ∧ (∀ cs s', Runs h lim ⟨[], []⟩ ks cs s' → cs = (meaning [] ks).1 ∧ s' = s) ∧
      (∀ id occ k, get h s id occ k = reads (meaning [] ks).2 id occ k) ∧
      (∀ id, id ≠ 0 → occurrencesOf s id = .ok (occs id (meaning [] ks).2).length) ∧
      occurrences s = (meaning [] ks).2.length := by
  obtain ⟨s, hr, hh⟩ := runs_has h hlim ks hk has_nil hroom
  refine ⟨s, hr, ?_, get_has h hh, ?_, occurrences_has hh⟩
  · intro cs s' hr'
    obtain ⟨e1, e2⟩ := runs_det h lim hr' hr
    exact ⟨e1, e2⟩
  · intro id hid
    unfold occurrencesOf
    rw [if_pos hid, count_has hh]

/-- Some calls on two ids (a string and a short), with failures. -/
def demo : List Call :=
  [.add 0xC000001 (.string [65, 66]), .add 0x2000001 (.short 7), .add 0xC000001 (.string [67]), .set 0xC000001 0 (.string [68, 69, 70]), .set 0xC000001 2 (.string []),
   .add 0x2000001 (.string [65]), .put 0x2000001 3 (.short 9), .remove 0xC000001 1, .remove 5 0, .removeId 0x2000002]

example : Room 1000 [] demo ∧ (∀ k ∈ demo, k.long) ∧ meaning [] demo =
    ([.success, .success, .success, .success, .outOfBounds, .invalidArgument, .success, .success, .outOfBounds, .success],
     [(0xC000001, .string [68, 69, 70]), (0x2000001, .short 7), (0x2000001, .short 0), (0x2000001, .short 0), (0x2000001, .short 9)]) := by
  refine ⟨?_, ?_, by decide +kernel⟩
  · simp only [demo, Room]; decide +kernel
  · intro k hk
    simp only [demo, List.mem_cons, List.not_mem_nil, or_false] at hk
    rcases hk with h | h | h | h | h | h | h | h | h | h <;> subst h <;> simp [Call.long, IsLong]

/-! ### What the calls on lists mean, in terms of occurrences -/

/-- **C167.** Set replaces one occurrence of one id. -/
theorem C167_set_one {α : Type} (id : Int) (v : α) (n : Nat) (c : Content α) :
    occs id (setNth id v n c) = (occs id c).set n v ∧ (∀ j, j ≠ id → occs j (setNth id v n c) = occs j c) ∧ (setNth id v n c).map (·.1) = c.map (·.1) := by
  refine ⟨occs_setNth_same id v n c, fun j hj => occs_setNth_other hj v n c, ?_⟩
  induction c generalizing n with
  | nil => rfl
  | cons f c ih =>
    obtain ⟨i, x⟩ := f
    by_cases hi : i = id
    · cases n with
      | zero => simp [setNth, hi]
      | succ n => simp only [setNth, hi, ↓reduceIte, List.map_cons, ih]
    · simp only [setNth, hi, ↓reduceIte, List.map_cons, ih]

/-- **C167.** Remove removes one occurrence of one id. -/
theorem C167_remove_one {α : Type} (id : Int) (n : Nat) (c : Content α) :
    occs id (removeNth id n c) = (occs id c).eraseIdx n ∧ (∀ j, j ≠ id → occs j (removeNth id n c) = occs j c) ∧ (removeNth id n c).Sublist c := by
  refine ⟨occs_removeNth_same id n c, fun j hj => occs_removeNth_other hj n c, ?_⟩
  induction c generalizing n with
  | nil => exact .slnil
  | cons f c ih =>
    obtain ⟨i, x⟩ := f
    by_cases hi : i = id
    · cases n with
      | zero => simp only [removeNth, hi, ↓reduceIte]; exact .cons _ (List.Sublist.refl _)
      | succ n => simp only [removeNth, hi, ↓reduceIte]; exact .cons_cons _ (ih n)
    · simp only [removeNth, hi, ↓reduceIte]; exact .cons_cons _ (ih n)

/-! ## C168: what is sent is received -/

/-- **C168.** A buffer that results from any sequence of calls, sent and received by a process on a host of either endianness, is accepted there, and read there it has
the same content. A buffer that is copied, by `casual_field_copy_buffer` or `casual_field_copy_memory`, has the same content too. -/
theorem C168_sent_received (h h' : Host) {lim : Nat} (hlim : lim < 9223372036854775808) (ks : List Call) (hk : ∀ k ∈ ks, k.long) (hroom : Room lim [] ks)
    {cs : List Code} {s : State} (hr : Runs h lim ⟨[], []⟩ ks cs s) :
    ∃ ix, (∀ out, Constructs h' s.data out ↔ out = .ok ix) ∧ (∀ id occ k, get h' ⟨s.data, ix⟩ id occ k = reads (meaning [] ks).2 id occ k) ∧
      (∀ t, CopyMemory h' t s.data (some (.success, ⟨s.data, ix⟩))) ∧ (∀ t, copyBuffer t s = some (.success, s)) := by
  obtain ⟨s0, hr0, hh⟩ := runs_has h hlim ks hk has_nil hroom
  obtain ⟨_, e⟩ := runs_det h lim hr hr0
  subst e
  obtain ⟨ix, hcons, hrep⟩ := constructs_flat h' hh.rep.ids hh.rep.len
  rw [← hh.rep.data] at hcons hrep
  refine ⟨ix, fun out => ⟨fun ho => scan_det h' _ ho hcons, fun ho => ho ▸ hcons⟩, ?_, fun t => .ok ix hcons, fun t => rfl⟩
  exact get_has h' ⟨hrep, hh.typed⟩

/-! ## C169: iteration -/

/-- **C169.** After any sequence of calls, `casual_field_next` from `CASUAL_FIELD_NO_ID` until it fails gives each occurrence of each id exactly once, by id and then by
occurrence, and then fails with out of bounds. -/
theorem C169_iteration (h : Host) {lim : Nat} (hlim : lim < 9223372036854775808) (ks : List Call) (hk : ∀ k ∈ ks, k.long) (hroom : Room lim [] ks)
    {cs : List Code} {s : State} (hr : Runs h lim ⟨[], []⟩ ks cs s) (i : Int) :
    ∃ l, (∀ l' c, Walk s 0 i l' c ↔ l' = l ∧ c = .outOfBounds) ∧ l.Pairwise Before ∧
      ∀ id occ, (id, occ) ∈ l ↔ 0 ≤ occ ∧ occ < (occs id (meaning [] ks).2).length := by
  obtain ⟨s0, hr0, hh⟩ := runs_has h hlim ks hk has_nil hroom
  obtain ⟨_, e⟩ := runs_det h lim hr hr0
  subst e
  have hz : ∀ f ∈ s.index, f.1 ≠ 0 := by
    intro f hf he
    have hl := Index.mem_look hh.rep.ok hf
    rw [hh.rep.look] at hl
    have hlen := congrArg List.length hl
    rw [offs_length, occs_raw, List.length_map] at hlen
    have hpos : 0 < (occs f.1 (meaning [] ks).2).length := by
      rw [hlen]; exact List.length_pos_iff.mpr (hh.rep.ok.2 f hf)
    obtain ⟨y, hy⟩ := List.exists_mem_of_length_pos hpos
    simp only [occs, List.mem_map, List.mem_filter] at hy
    obtain ⟨g, ⟨hg, hge⟩, _⟩ := hy
    have := typed_pos hh.typed hg
    simp at hge; omega
  have hw := walk_all hh.rep.ok hz i
  refine ⟨positions s.index, ?_, sorted_positions hh.rep.ok.1, ?_⟩
  · intro l' c
    constructor
    · intro h'
      exact walk_det h' hw
    · rintro ⟨h1, h2⟩; subst h1 h2; exact hw
  · intro id occ
    have := mem_positions hh.rep (id, occ)
    simp only [occs_raw, List.length_map] at this
    exact this

end Casual.Buffer.Field

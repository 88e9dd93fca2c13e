import Verif.Buffer.Order
/-!
# Properties of order, string and octet buffers
-/
namespace Casual.Buffer.Order
open Casual.Data Casual.Buffer.Field

/-- The memory of a buffer with these values. -/
def flat (vs : List Val) : List Byte := vs.flatMap (Val.bytes .little)

theorem bytes_host (h : Host) (v : Val) : v.bytes h = v.bytes .little := by cases v <;> simp only [Val.bytes, enc_eq]

theorem getNum_at (h : Host) {a b c : List Byte} {s : State} (hd : s.data = a ++ b ++ c) (hc : s.cursor = a.length) {w n : Nat} (hn : n < 256 ^ w)
    (hb : b = enc .little w n) (f : Nat → Val) : getNum h s w f = (.ok (f n), ⟨s.data, (a ++ b).length⟩, true) := by
  have hl : b.length = w := by rw [hb, enc_eq]; simp
  unfold getNum
  rw [if_neg (by rw [hd, hc]; simp only [List.length_append]; omega), rd_at (w := w) hd hc hl.symm]
  have hde : dec h b = n := by rw [hb, enc_eq, dec_eq h hn]
  simp only [hde, hc, List.length_append, hl, Int.natCast_add]

/-- The next value, with the function of its type. -/
theorem get_at (h : Host) {a c : List Byte} {s : State} {v : Val} (hd : s.data = a ++ v.bytes .little ++ c) (hc : s.cursor = a.length) (hlen : s.data.length < 9223372036854775808) :
    get h s v.kind = (.ok v.norm, ⟨s.data, (a ++ v.bytes .little).length⟩, true) := by
  cases v with
  | bool n =>
    have := getNum_at h hd hc (w := 1) (n := n) (by have := n.isLt; omega) rfl (fun n => .bool (num _ n (by decide)))
    simp only [num_self] at this; exact this
  | char n =>
    have := getNum_at h hd hc (w := 1) (n := n) (by have := n.isLt; omega) rfl (fun n => .char (num _ n (by decide)))
    simp only [num_self] at this; exact this
  | short n =>
    have := getNum_at h hd hc (w := 2) (n := n) (by have := n.isLt; omega) rfl (fun n => .short (num _ n (by decide)))
    simp only [num_self] at this; exact this
  | long n =>
    have := getNum_at h hd hc (w := 8) (n := n) (by have := n.isLt; omega) rfl (fun n => .long (num _ n (by decide)))
    simp only [num_self] at this; exact this
  | float n =>
    have := getNum_at h hd hc (w := 4) (n := n) (by have := n.isLt; omega) rfl (fun n => .float (num _ n (by decide)))
    simp only [num_self] at this; exact this
  | double n =>
    have := getNum_at h hd hc (w := 8) (n := n) (by have := n.isLt; omega) rfl (fun n => .double (num _ n (by decide)))
    simp only [num_self] at this; exact this
  | string t =>
    have hdrop : s.data.drop s.cursor.toNat = cstr t ++ 0 :: c := by rw [hd, hc]; simp [Val.bytes, List.append_assoc]
    have hr : rdStr s.data s.cursor = some (cstr t) := by
      unfold rdStr
      rw [hdrop, if_pos ⟨by omega, by simp⟩, cstr_nul]
    simp only [get, Val.kind]
    rw [hr]
    simp only [Val.norm, Val.bytes, hc, List.length_append, List.length_cons, List.length_nil]
    congr 3
  | binary b =>
    have hb : b.length < 9223372036854775808 := by rw [hd] at hlen; simp only [Val.bytes, List.length_append] at hlen; omega
    have hr : rdLong h s.data s.cursor = some (b.length : Int) := by
      refine rdLong_at h (a := a) (c := b ++ c) ⟨by omega, by omega⟩ ?_ hc
      rw [hd]; simp [Val.bytes, enc_eq, List.append_assoc]
    have hrd : rd s.data (s.cursor + 8) b.length = some b := by
      refine rd_at (a := a ++ (bytesLE 8 (ofLong (b.length : Int))).reverse) (c := c) ?_ ?_ rfl
      · rw [hd]; simp [Val.bytes, enc_eq, List.append_assoc]
      · rw [hc]; simp
    have hle : ¬ s.cursor + (8 + (b.length : Int)) > s.data.length := by
      rw [hd, hc]; simp only [Val.bytes, enc_eq, List.length_append, List.length_reverse, bytesLE_length]; omega
    simp only [get, Val.kind, hr, hle, ↓reduceIte, Int.toNat_natCast, hrd]
    rw [if_pos (by omega)]
    simp only [Option.map_some, Got.of, Val.norm, hc, Val.bytes, enc_eq, List.length_append, List.length_reverse, bytesLE_length]
    congr 3

/-! ## C176 -/

/-- Calls on an order buffer; `next` is the get function for the type of the value that is next, if there is one, `again` is get-prepare, and `recycle` is add-prepare and get-prepare. -/
inductive Call | add (v : Val) | next | again | recycle
  deriving DecidableEq, Repr

/-- What the calls mean: the values, how many have been read, and what is read. -/
def meaning : List Val → Nat → List Call → List Val × Nat × List Val
  | vs, n, [] => (vs, n, [])
  | vs, n, .add v :: ks => meaning (vs ++ [v]) n ks
  | vs, _, .again :: ks => meaning vs 0 ks
  | _, _, .recycle :: ks => meaning [] 0 ks
  | vs, n, .next :: ks => match vs[n]? with
    | some v => ((meaning vs (n + 1) ks).1, (meaning vs (n + 1) ks).2.1, v.norm :: (meaning vs (n + 1) ks).2.2)
    | none => meaning vs n ks

/-- The calls on the buffer, the get function chosen as by the values added. -/
def run (h : Host) : State → List Val → Nat → List Call → State × List (Got Val × Bool)
  | s, _, _, [] => (s, [])
  | s, vs, n, .add v :: ks => run h (add h s v) (vs ++ [v]) n ks
  | s, vs, _, .again :: ks => run h (getPrepare s) vs 0 ks
  | s, _, _, .recycle :: ks => run h (getPrepare (addPrepare s)) [] 0 ks
  | s, vs, n, .next :: ks => match vs[n]? with
    | some v => ((run h (get h s v.kind).2.1 vs (n + 1) ks).1, ((get h s v.kind).1, (get h s v.kind).2.2) :: (run h (get h s v.kind).2.1 vs (n + 1) ks).2)
    | none => run h s vs n ks

/-- All values that are added. -/
def added : List Call → List Val
  | [] => []
  | .add v :: ks => v :: added ks
  | _ :: ks => added ks

theorem flat_append (a b : List Val) : flat (a ++ b) = flat a ++ flat b := by simp [flat]

theorem run_meaning (h : Host) (ks : List Call) : ∀ (s : State) (vs : List Val) (n : Nat), s.data = flat vs → s.cursor = (flat (vs.take n)).length → n ≤ vs.length →
    (flat (vs ++ added ks)).length < 9223372036854775808 → (run h s vs n ks).2 = (meaning vs n ks).2.2.map fun v => (.ok v, true) := by
  induction ks with
  | nil => intro s vs n _ _ _ _; rfl
  | cons k ks ih =>
    intro s vs n hd hc hn hlen
    cases k with
    | add v =>
      have hsplit : vs ++ added (.add v :: ks) = (vs ++ [v]) ++ added ks := by simp [added]
      rw [hsplit] at hlen
      refine ih (add h s v) (vs ++ [v]) n ?_ ?_ (by simp; omega) hlen
      · show s.data ++ v.bytes h = _
        rw [hd, flat_append, bytes_host]; simp [flat]
      · show s.cursor = _
        rw [hc]
        rw [List.take_append_of_le_length hn]
    | again => exact ih (getPrepare s) vs 0 hd (by simp [getPrepare, flat]) (by omega) hlen
    | recycle =>
      refine ih (getPrepare (addPrepare s)) [] 0 rfl (by simp [getPrepare, flat]) (by simp) ?_
      rw [flat_append, List.length_append] at hlen
      simp only [List.nil_append, added] at hlen ⊢; omega
    | next =>
      simp only [run, meaning]
      cases hv : vs[n]? with
      | none => exact ih s vs n hd hc hn hlen
      | some v =>
        have hn : n < vs.length := (List.getElem?_eq_some_iff.mp hv).1
        have hsp : flat vs = flat (vs.take n) ++ v.bytes .little ++ flat (vs.drop (n + 1)) := by
          have e : vs = vs.take n ++ v :: vs.drop (n + 1) := by
            have := List.take_append_drop n vs
            rw [List.drop_eq_getElem_cons hn] at this
            have hg := (List.getElem?_eq_some_iff.mp hv).2
            rw [hg] at this; exact this.symm
          conv => lhs; rw [e]
          rw [flat_append]
          simp [flat, List.append_assoc]
        have hl : s.data.length < 9223372036854775808 := by
          rw [hd]; rw [flat_append, List.length_append] at hlen; omega
        have hg := get_at h (s := s) (v := v) (a := flat (vs.take n)) (c := flat (vs.drop (n + 1))) (hd.trans hsp) hc hl
        simp only [hg, List.map_cons]
        congr 1
        refine ih _ vs (n + 1) hd ?_ (by omega) hlen
        show (((flat (vs.take n) ++ v.bytes .little).length : Nat) : Int) = _
        rw [List.take_add_one, hv, flat_append]
        simp [flat]

/-- **C176.** On a new order buffer, however adding, getting, starting over (`casual_order_get_prepare`) and recycling (both prepare functions) are interleaved: each get, with the function
for the type that was added, gives the next value in the order added, and reads only memory of the buffer. -/
theorem C176_order (h : Host) (ks : List Call) (hlen : (flat (added ks)).length < 9223372036854775808) :
    (run h ⟨[], 0⟩ [] 0 ks).2 = (meaning [] 0 ks).2.2.map fun v => (.ok v, true) :=
  run_meaning h ks ⟨[], 0⟩ [] 0 rfl rfl (by simp) (by simpa using hlen)

/-- The values of the calls, all of them added and then all of them read. -/
theorem meaning_all (vs : List Val) : ∀ n, n ≤ vs.length → (meaning vs n (List.replicate (vs.length - n) .next)).2.2 = (vs.drop n).map Val.norm := by
  intro n hn
  generalize hm : vs.length - n = m
  induction m generalizing n with
  | zero => rw [List.drop_of_length_le (by omega)]; rfl
  | succ m ih =>
    have hlt : n < vs.length := by omega
    have hv : vs[n]? = some vs[n] := List.getElem?_eq_getElem hlt
    simp only [List.replicate_succ, meaning, hv]
    rw [ih (n + 1) (by omega) (by omega), List.drop_eq_getElem_cons hlt]
    rfl

/-- **C176.** What is sent is received: memory with values added on one host, got on another. -/
theorem C176_sent (h h' : Host) (vs : List Val) (hlen : (flat vs).length < 9223372036854775808) :
    (run h' ⟨(vs.foldl (add h) ⟨[], 0⟩).data, 0⟩ vs 0 (List.replicate vs.length .next)).2 = vs.map fun v => (.ok v.norm, true) := by
  have hd : ∀ (vs : List Val) (s : State), (vs.foldl (add h) s).data = s.data ++ flat vs := by
    intro vs
    induction vs with
    | nil => intro s; simp [flat]
    | cons v vs ih => intro s; rw [List.foldl_cons, ih]; simp [add, flat, bytes_host]
  have hm := meaning_all vs 0 (by omega)
  have hadd : added (List.replicate vs.length Call.next) = [] := by
    generalize vs.length = m
    induction m with
    | zero => rfl
    | succ m ih => rw [List.replicate_succ]; exact ih
  rw [run_meaning h' _ _ vs 0 (by rw [hd]; rfl) (by simp [flat]) (by omega) (by rw [hadd]; simpa using hlen)]
  simp only [Nat.sub_zero] at hm
  rw [hm]
  simp

example : (meaning [] 0 [.add (.string [65, 66]), .next, .add (.long 7), .add (.binary [1, 2]), .next, .again, .next, .recycle, .add (.bool 1), .next]).2.2
    = [.string [65, 66], .long 7, .string [65, 66], .bool 1] := by decide +kernel

/-! ## C177: the end of the buffer -/

/-- **C177, refuted.** A get beyond the end of the buffer is answered with out of bounds and reads nothing outside of it. The value is read first and the bounds are checked after that; for a
string or a binary what comes of that is undefined. -/
theorem C177_beyond_refuted (h : Host) : ∃ s : State, s.data = [] ∧ s.cursor = 0 ∧ (get h s .long).1 = .code .outOfBounds ∧ (get h s .long).2.2 = false ∧
    (get h s .string).1 = .wild ∧ (get h s .binary).1 = .wild :=
  ⟨⟨[], 0⟩, rfl, rfl, by cases h <;> decide +kernel, by cases h <;> decide +kernel, by cases h <;> decide +kernel, by cases h <;> decide +kernel⟩

/-- Received memory: a binary with a negative size. -/
def backwards : List Byte := (bytesLE 8 (ofLong (-20))).reverse

/-- **C177, refuted.** The size of a binary in received memory is not checked to be positive: the cursor moves to before the buffer, and the next get reads there. -/
theorem C177_backwards_refuted (h : Host) : (get h ⟨backwards, 0⟩ .binary).2.1.cursor = -12 ∧ (get h (get h ⟨backwards, 0⟩ .binary).2.1 .char).1 = .wild := by
  constructor <;> cases h <;> decide +kernel

/-- The bytes of numbers. -/
def Kind.width : Kind → Nat
  | .bool => 1 | .char => 1 | .short => 2 | .long => 8 | .float => 4 | .double => 8 | _ => 0

/-- **C177, what holds.** A get of a number: if there are bytes enough it succeeds and moves the cursor by that, otherwise it is out of bounds and the buffer is as it was. -/
theorem C177_numbers_partial (h : Host) (s : State) (k : Kind) (hk : k ≠ .string ∧ k ≠ .binary) (h0 : 0 ≤ s.cursor) :
    (s.cursor + k.width ≤ s.data.length → ∃ v, get h s k = (.ok v, ⟨s.data, s.cursor + k.width⟩, true)) ∧
    (s.data.length < s.cursor + k.width → (get h s k).1 = .code .outOfBounds ∧ (get h s k).2.1 = s) := by
  have key : ∀ (w : Nat) (f : Nat → Val), (s.cursor + w ≤ s.data.length → ∃ v, getNum h s w f = (.ok v, ⟨s.data, s.cursor + w⟩, true)) ∧
      (s.data.length < s.cursor + w → (getNum h s w f).1 = .code .outOfBounds ∧ (getNum h s w f).2.1 = s) := by
    intro w f
    constructor
    · intro hw
      unfold getNum rd
      rw [if_neg (by omega), if_pos ⟨h0, hw⟩]
      exact ⟨_, rfl⟩
    · intro hw
      unfold getNum
      rw [if_pos (by omega)]
      exact ⟨rfl, rfl⟩
  cases k with
  | string => exact absurd rfl hk.1
  | binary => exact absurd rfl hk.2
  | bool => exact key 1 fun n => .bool (num _ n (by decide))
  | char => exact key 1 fun n => .char (num _ n (by decide))
  | short => exact key 2 fun n => .short (num _ n (by decide))
  | long => exact key 8 fun n => .long (num _ n (by decide))
  | float => exact key 4 fun n => .float (num _ n (by decide))
  | double => exact key 8 fun n => .double (num _ n (by decide))

/-- **C177, what holds.** A get of a binary whose size is within the buffer and not negative: with that many bytes after it, these are given and the cursor is after them, otherwise it is out of bounds
and the buffer is as it was. A get of a string that ends within the buffer gives it, and the cursor is after its NUL. -/
theorem C177_binary_partial (h : Host) (s : State) (h0 : 0 ≤ s.cursor) :
    (∀ size, rdLong h s.data s.cursor = some size → 0 ≤ size →
      (s.cursor + 8 + size ≤ s.data.length → get h s .binary = (.ok (.binary ((s.data.drop (s.cursor + 8).toNat).take size.toNat)), ⟨s.data, s.cursor + 8 + size⟩, true)) ∧
      (s.data.length < s.cursor + 8 + size → get h s .binary = (.code .outOfBounds, s, true))) ∧
    (∀ t r, s.data.drop s.cursor.toNat = t ++ 0 :: r → 0 ∉ t → get h s .string = (.ok (.string t), ⟨s.data, s.cursor + t.length + 1⟩, true)) := by
  constructor
  · intro size hr hs
    constructor
    · intro hw
      have hrd : rd s.data (s.cursor + 8) size.toNat = some ((s.data.drop (s.cursor + 8).toNat).take size.toNat) := by
        unfold rd; exact if_pos ⟨by omega, by omega⟩
      simp only [get]
      rw [hr]
      simp only
      rw [if_neg (by omega), if_pos hs, hrd, Int.add_assoc]
      rfl
    · intro hw
      simp only [get]
      rw [hr]
      simp only
      rw [if_pos (by omega)]
  · intro t r hd hn
    have hc : cstr (t ++ 0 :: r) = t := by
      unfold cstr
      clear hd
      induction t with
      | nil => simp
      | cons x t ih =>
        have hx : x ≠ 0 := fun e => hn (by simp [e])
        rw [List.cons_append, List.takeWhile_cons_of_pos (by simpa using hx), ih fun hm => hn (List.mem_cons_of_mem _ hm)]
    have hr : rdStr s.data s.cursor = some t := by
      unfold rdStr
      rw [hd, if_pos ⟨h0, by simp⟩, hc]
    simp only [get]
    rw [hr]
    simp only [Int.add_assoc]

example : rdLong .little (enc .little 8 3 ++ [1, 2]) 0 = some 3 ∧ get .little ⟨enc .little 8 3 ++ [1, 2], 0⟩ .binary = (.code .outOfBounds, ⟨enc .little 8 3 ++ [1, 2], 0⟩, true) ∧
    (get .little ⟨enc .little 8 2 ++ [1, 2], 0⟩ .binary).1 = .ok (.binary [1, 2]) := by decide +kernel

end Casual.Buffer.Order

namespace Casual.Buffer.Str
open Casual.Data Casual.Buffer.Field

/-! ## C178: string buffers -/

theorem zero_not_mem_cstr (v : List Byte) : (0 : Byte) ∉ cstr v := by
  unfold cstr
  induction v with
  | nil => simp
  | cons a v ih =>
    rw [List.takeWhile_cons]
    split
    · rename_i ha
      intro hm
      rcases List.mem_cons.mp hm with h | h
      · subst h; simp at ha
      · exact ih h
    · simp

theorem idxOf_nul (l : List Byte) (h : (0 : Byte) ∉ l) : (l ++ [0]).idxOf? 0 = some l.length := by
  induction l with
  | nil => rfl
  | cons a l ih =>
    have ha : (a == (0 : Byte)) = false := by
      simp only [beq_eq_false_iff_ne]; intro e; exact h (by simp [e])
    rw [List.cons_append, List.idxOf?_cons, ha, ih (fun hm => h (List.mem_cons_of_mem _ hm))]
    rfl

theorem rdStr_cstr (v r : List Byte) : rdStr (cstr v ++ 0 :: r) 0 = some (cstr v) := by
  unfold rdStr
  have : (cstr v ++ 0 :: r).drop (0 : Int).toNat = cstr v ++ 0 :: r := rfl
  rw [this, if_pos ⟨by omega, by simp⟩, cstr_nul]

/-- **C178.** A string that is set is what is got, whatever was in the buffer; sent, exactly the string with its NUL goes out; and the receiver, caller or service, gets the same string. -/
theorem C178_string (data value : List Byte) : get (set data value) = .ok (cstr value) ∧ sent (set data value) = .ok (cstr value ++ [0]) ∧
    explore (set data value) = .ok ((cstr value).length + 1, (cstr value).length + 1) ∧
    ∀ m, sent (set data value) = .ok m → insert m = .ok m ∧ adopt m = .ok m ∧ get m = .ok (cstr value) := by
  have hr : rdStr (set data value) 0 = some (cstr value) := rdStr_cstr value []
  have ht : transport (set data value) = .ok ((cstr value).length + 1) := by unfold transport; rw [hr]; rfl
  have hs : sent (set data value) = .ok (cstr value ++ [0]) := by
    unfold sent; rw [ht]
    simp only [set]
    rw [List.take_of_length_le (by simp)]
  refine ⟨by unfold get; rw [hr]; rfl, hs, ?_, ?_⟩
  · unfold explore
    have hi : (set data value).idxOf? 0 = some (cstr value).length := by
      exact idxOf_nul _ (zero_not_mem_cstr value)
    rw [hi]
    simp [set]
  · intro m hm
    rw [hs] at hm
    cases hm
    have hr' : rdStr (cstr value ++ [0]) 0 = some (cstr value) := rdStr_cstr value []
    refine ⟨?_, rfl, by unfold get; rw [hr']; rfl⟩
    unfold insert transport
    rw [hr']
    rfl

/-- **C178.** A buffer that is reallocated has a string in it that ends within it: the one that was, as far as there is room for it. -/
theorem C178_reallocate (data : List Byte) (size : Nat) : ∃ t, get (reallocate data size) = .ok t ∧ t.length < (if size = 0 then 1 else size) ∧
    (∀ i (hi : i < t.length), data[i]? = some t[i]) := by
  generalize hn : (if size = 0 then 1 else size) = n
  have hn0 : 0 < n := by subst hn; split <;> omega
  have hlen : (reallocate data size).length = n := by
    unfold reallocate
    simp only [hn, List.length_set, List.length_take, List.length_append, List.length_replicate]; omega
  have hz : (0 : Byte) ∈ reallocate data size := by
    unfold reallocate
    simp only [hn]
    refine List.mem_set ?_ _
    simp only [List.length_take, List.length_append, List.length_replicate]; omega
  have hr : rdStr (reallocate data size) 0 = some (cstr (reallocate data size)) := by
    unfold rdStr
    have : (reallocate data size).drop (0 : Int).toNat = reallocate data size := rfl
    rw [this, if_pos ⟨by omega, hz⟩]
  have hpre : cstr (reallocate data size) <+: reallocate data size := List.takeWhile_prefix _
  have hlt : (cstr (reallocate data size)).length < n := by
    have hle := hpre.length_le
    rw [hlen] at hle
    rcases Nat.lt_or_ge (cstr (reallocate data size)).length n with h | h
    · exact h
    · exfalso
      have he := hpre.eq_of_length (by omega)
      rw [← he] at hz
      exact zero_not_mem_cstr _ hz
  refine ⟨_, by unfold get; rw [hr]; rfl, hlt, ?_⟩
  intro i hi
  have hne : (cstr (reallocate data size))[i] ≠ 0 := by
    intro e
    have hm := List.getElem_mem hi
    rw [e] at hm
    exact zero_not_mem_cstr _ hm
  have hg : (cstr (reallocate data size))[i] = (reallocate data size)[i]'(by omega) := hpre.getElem hi
  have hg2 : (reallocate data size)[i]? = some (cstr (reallocate data size))[i] := by
    rw [hg]; exact List.getElem?_eq_getElem _
  generalize (cstr (reallocate data size))[i] = x at hg2 hne ⊢
  have hset : (((data ++ List.replicate (n - data.length) 0).take n).set (n - 1) 0)[i]? = some x := by
    rw [← hg2]; unfold reallocate; simp only [hn]
  rw [List.getElem?_set] at hset
  split at hset
  · rename_i he
    split at hset
    · exact absurd (Option.some.inj hset).symm hne
    · cases hset
  · rw [List.getElem?_take] at hset
    split at hset
    · rcases Nat.lt_or_ge i data.length with hd | hd
      · rw [List.getElem?_append_left hd] at hset; exact hset
      · exfalso
        rw [List.getElem?_append_right hd, List.getElem?_replicate] at hset
        split at hset
        · exact hne (Option.some.inj hset).symm
        · cases hset
    · cases hset

/-- **C178, refuted.** A buffer without a NUL, filled by its user or received by a service, is recognised. The check comes after `strlen`, which reads on beyond the memory; and what a service is
called with is not checked at all. -/
theorem C178_unterminated_refuted : ∃ data : List Byte, adopt data = .ok data ∧ get data = .wild ∧ transport data = .wild ∧ insert data = .wild :=
  ⟨[65, 66], rfl, by decide +kernel, by decide +kernel, by decide +kernel⟩

end Casual.Buffer.Str

namespace Casual.Buffer.Octet
open Casual.Data Casual.Buffer.Field

/-- **C179.** What is set in an octet buffer is what is got and what is sent, whatever size the sender gives; a negative size is refused. -/
theorem C179_octet (data value : List Byte) : set data value value.length = .ok value ∧ (∀ user, sent value user = get value) ∧ get value = value ∧
    ∀ size, size < 0 → set data value size = .code .invalidArgument := by
  refine ⟨?_, fun _ => rfl, rfl, ?_⟩
  · unfold set
    have hr : rd value 0 value.length = some value := rd_at (a := []) (c := []) (by simp) rfl rfl
    rw [if_neg (by omega), Int.toNat_natCast, hr]
    rfl
  · intro size hs; unfold set; rw [if_pos hs]

end Casual.Buffer.Octet

import Verif.Buffer.FieldCalls
/-!
# Reading a field buffer
-/
namespace Casual.Buffer.Field
open Casual.Data

/-- What a read of content gives. -/
def reads (c : Content Val) (id occ : Int) (k : Kind) : Got Val :=
  if k.type ≠ typeOf id then .code .invalidArgument
  else if occ < 0 then .code .outOfBounds
  else match (occs id c)[occ.toNat]? with
    | some v => .ok v.norm
    | none => .code .outOfBounds

theorem cstr_nul (s r : List Byte) : cstr (cstr s ++ 0 :: r) = cstr s := by
  unfold cstr
  induction s with
  | nil => simp
  | cons a s ih =>
    by_cases ha : a = 0
    · subst ha; simp
    · simp only [List.takeWhile_cons, ne_eq, ha, not_false_eq_true, decide_true, ↓reduceIte, List.cons_append]
      have := ih
      simp only [ne_eq] at this
      rw [this]

theorem raw_split {c pre post : Content Val} {id : Int} {v : Val} (he : c = pre ++ (id, v) :: post) :
    raw c = raw pre ++ (id, v.bytes .little) :: raw post := by subst he; rw [raw_append]; rfl

/-- The value of an occurrence in memory. -/
theorem value_split {s : State} {pre post : Content Val} {id : Int} {v : Val} (hc : Has s (pre ++ (id, v) :: post)) :
    ∃ a, s.data = a ++ v.bytes .little ++ flat (raw post) ∧ ((flat (raw pre)).length : Int) + dataOffset = a.length := by
  have hr := hc.rep
  rw [raw_split rfl] at hr
  refine ⟨flat (raw pre) ++ (bytesLE 8 (ofLong id)).reverse ++ (bytesLE 8 (ofLong ((v.bytes .little).length : Int))).reverse, ?_, ?_⟩
  · rw [data_split hr]
  · simp [dataOffset]

theorem num_of (h : Host) {s : State} {pre post : Content Val} {id : Int} {v : Val} (hc : Has s (pre ++ (id, v) :: post)) {w n : Nat} (hn : n < 256 ^ w)
    (hv : v.bytes .little = enc .little w n) : rdNum h s.data ((flat (raw pre)).length + dataOffset) w = some n := by
  obtain ⟨a, hd, ho⟩ := value_split hc
  unfold rdNum
  rw [rd_at (w := w) hd ho (by rw [hv, enc_eq]; simp), hv, enc_eq]
  simp [dec_eq h hn]

theorem num_self {m : Nat} (n : Fin m) (hm : 0 < m) : num m n hm = n := by
  unfold num
  exact Fin.ext (Nat.mod_eq_of_lt n.isLt)

theorem select_has (h : Host) {s : State} {pre post : Content Val} {id : Int} {v : Val} (hc : Has s (pre ++ (id, v) :: post)) {k : Kind} (hk : k.type = v.type) :
    select h s (flat (raw pre)).length k = some v.norm := by
  obtain ⟨a, hd, ho⟩ := value_split hc
  have hsz : rdLong h s.data ((flat (raw pre)).length + sizeOffset) = some ((v.bytes .little).length : Int) := by
    have hr := hc.rep
    rw [raw_split rfl] at hr
    exact size_split h hr
  cases v with
  | short n =>
    cases k <;> simp [Kind.type, Val.type] at hk
    have := num_of h hc (w := 2) (n := n) (by have := n.isLt; omega) rfl
    simp only [select, this, Option.map_some, num_self, Val.norm]
  | long n =>
    cases k <;> simp [Kind.type, Val.type] at hk
    have := num_of h hc (w := 8) (n := n) (by have := n.isLt; omega) rfl
    simp only [select, this, Option.map_some, num_self, Val.norm]
  | char n =>
    cases k <;> simp [Kind.type, Val.type] at hk
    have := num_of h hc (w := 1) (n := n) (by have := n.isLt; omega) rfl
    simp only [select, this, Option.map_some, num_self, Val.norm]
  | float n =>
    cases k <;> simp [Kind.type, Val.type] at hk
    have := num_of h hc (w := 4) (n := n) (by have := n.isLt; omega) rfl
    simp only [select, this, Option.map_some, num_self, Val.norm]
  | double n =>
    cases k <;> simp [Kind.type, Val.type] at hk
    have := num_of h hc (w := 8) (n := n) (by have := n.isLt; omega) rfl
    simp only [select, this, Option.map_some, num_self, Val.norm]
  | string t =>
    cases k <;> simp [Kind.type, Val.type] at hk
    have hdrop : s.data.drop (((flat (raw pre)).length : Int) + dataOffset).toNat = cstr t ++ 0 :: flat (raw post) := by
      rw [ho, hd]; simp [Val.bytes, List.append_assoc]
    simp only [select, rdStr, hdrop, Val.norm]
    rw [if_pos ⟨by simp [dataOffset]; omega, by simp⟩, cstr_nul]
    rfl
  | binary b =>
    cases k <;> simp [Kind.type, Val.type] at hk
    simp only [select, hsz]
    rw [if_pos (by omega), Int.toNat_natCast, rd_at (w := ((Val.binary b).bytes .little).length) hd ho rfl]
    rfl

theorem at_has {s : State} {pre post : Content Val} {id : Int} {v : Val} (hc : Has s (pre ++ (id, v) :: post)) :
    s.at id (occs id pre).length = some ((flat (raw pre)).length : Int) := by
  have hr := hc.rep
  rw [raw_split rfl] at hr
  have := at_split hr
  rw [occs_raw, List.length_map] at this
  exact this

theorem at_has_none {s : State} {c : Content Val} (hc : Has s c) {id occ : Int} (h : occ < 0 ∨ (occs id c)[occ.toNat]? = none) : s.at id occ = none := by
  refine at_none hc.rep ?_
  rw [occs_raw, List.length_map]
  rcases h with h | h
  · exact .inl h
  · rw [List.getElem?_eq_none_iff] at h; omega

theorem at_has_some {s : State} {c : Content Val} (hc : Has s c) {id occ : Int} (h0 : ¬ occ < 0) {v : Val} (hv : (occs id c)[occ.toNat]? = some v) :
    ∃ pre post, c = pre ++ (id, v) :: post ∧ s.at id occ = some ((flat (raw pre)).length : Int) := by
  obtain ⟨pre, post, he, hl⟩ := occs_split hv
  refine ⟨pre, post, he, ?_⟩
  subst he
  have := at_has hc
  rw [hl] at this
  have ho : ((occ.toNat : Nat) : Int) = occ := by omega
  rw [ho] at this
  exact this

theorem get_has (h : Host) {s : State} {c : Content Val} (hc : Has s c) (id occ : Int) (k : Kind) : get h s id occ k = reads c id occ k := by
  unfold get reads
  split
  · rfl
  · rename_i hk
    by_cases h0 : occ < 0
    · rw [if_pos h0, at_has_none hc (.inl h0)]
    · rw [if_neg h0]
      cases hv : (occs id c)[occ.toNat]? with
      | none => rw [at_has_none hc (.inr hv)]
      | some v =>
        obtain ⟨pre, post, he, ha⟩ := at_has_some hc h0 hv
        subst he
        have hty := (hc.typed (id, v) (by simp)).1
        have : k.type = v.type := by
          apply Classical.byContradiction; intro hne; apply hk; rw [← hty]; exact hne
        simp only [ha, select_has h hc this, Got.of]

/-- The size of a value. -/
theorem explore_has (h : Host) {s : State} {c : Content Val} (hc : Has s c) (id occ : Int) :
    exploreValue h s id occ = if occ < 0 then .code .outOfBounds else
      match (occs id c)[occ.toNat]? with
      | some v => .ok v.size
      | none => .code .outOfBounds := by
  unfold exploreValue
  by_cases h0 : occ < 0
  · rw [if_pos h0, at_has_none hc (.inl h0)]
  · rw [if_neg h0]
    cases hv : (occs id c)[occ.toNat]? with
    | none => rw [at_has_none hc (.inr hv)]
    | some v =>
      obtain ⟨pre, post, he, ha⟩ := at_has_some hc h0 hv
      subst he
      have hr := hc.rep
      rw [raw_split rfl] at hr
      have := size_split h hr
      rw [bytes_length] at this
      simp only [ha, this, Got.of]

theorem length_split_key (k : Int) (fs : Fields) : fs.length = (occs k fs).length + (fs.filter (·.1 ≠ k)).length := by
  induction fs with
  | nil => rfl
  | cons f fs ih =>
    by_cases hf : f.1 = k
    · simp only [occs] at ih ⊢; simp [hf] at ih ⊢; omega
    · simp only [occs] at ih ⊢; simp [hf] at ih ⊢; omega

theorem occs_filter_ne {k j : Int} (hj : j ≠ k) (fs : Fields) : occs j (fs.filter (·.1 ≠ k)) = occs j fs := by
  simp only [occs, List.filter_filter]
  congr 1
  refine List.filter_congr ?_
  intro f _
  by_cases hf : f.1 = j
  · simp [hf, hj]
  · simp [hf]

theorem sum_lengths {ix : Index} (hp : ix.Pairwise (fun a b => a.1 < b.1)) {fs : Fields} (hl : ∀ f ∈ ix, f.2.length = (occs f.1 fs).length)
    (hk : ∀ g ∈ fs, ∃ f ∈ ix, f.1 = g.1) : (ix.map fun f => f.2.length).sum = fs.length := by
  induction ix generalizing fs with
  | nil =>
    cases fs with
    | nil => rfl
    | cons g fs => obtain ⟨f, hf, _⟩ := hk g (by simp); simp at hf
  | cons f ix ih =>
    have hp' := List.pairwise_cons.mp hp
    have := ih hp'.2 (fs := fs.filter (·.1 ≠ f.1)) (by
      intro g hg
      have hlt := hp'.1 g hg
      rw [occs_filter_ne (by omega)]
      exact hl g (by simp [hg])) (by
      intro g hg
      obtain ⟨hg1, hg2⟩ := List.mem_filter.mp hg
      obtain ⟨e, he, hee⟩ := hk g hg1
      rcases List.mem_cons.mp he with he | he
      · subst he; simp at hg2; exact absurd hee.symm hg2
      · exact ⟨e, he, hee⟩)
    rw [List.map_cons, List.sum_cons, this, hl f (by simp)]
    exact (length_split_key f.1 fs).symm

theorem foldl_sum (ix : Index) (n : Nat) : ix.foldl (fun n f => n + f.2.length) n = n + (ix.map fun f => f.2.length).sum := by
  induction ix generalizing n with
  | nil => simp
  | cons f ix ih => simp only [List.foldl_cons, ih, List.map_cons, List.sum_cons]; omega

theorem occurrences_has {s : State} {c : Content Val} (hc : Has s c) : occurrences s = c.length := by
  unfold occurrences
  rw [foldl_sum, Nat.zero_add, sum_lengths hc.rep.ok.1 (fs := raw c)]
  · simp [raw]
  · intro f hf
    rw [← Index.mem_look hc.rep.ok hf, hc.rep.look, offs_length]
  · intro g hg
    have hne : s.index.look g.1 ≠ [] := by
      intro he
      have := congrArg List.length he
      rw [hc.rep.look, offs_length] at this
      have hm : g.2 ∈ occs g.1 (raw c) := by simp only [occs, List.mem_map, List.mem_filter]; exact ⟨g, ⟨hg, by simp⟩, rfl⟩
      rw [List.eq_nil_of_length_eq_zero this] at hm
      simp at hm
    exact ⟨_, Index.look_mem hne, rfl⟩

end Casual.Buffer.Field

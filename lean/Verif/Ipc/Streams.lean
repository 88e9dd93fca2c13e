import Verif.Ipc.Device
/-! Many senders, one receiver. -/
namespace Casual.Ipc

theorem frags_key {n : Nat} {m : Msg} {f : Frag} (h : f ∈ m.frags n) : f.key = m.key := by
  simp only [Msg.frags, List.mem_map] at h
  obtain ⟨j, -, rfl⟩ := h
  rfl

theorem item_key {n : Nat} {i : Item} {f : Frag} (h : f ∈ i.frags n) : f.key = i.msg.key := by
  simp only [Item.frags, List.mem_append, List.mem_flatMap] at h
  rcases h with ⟨k, -, h⟩ | h
  · exact frags_key (List.mem_of_mem_take h)
  · split at h
    · exact frags_key h
    · cases h

theorem stream_key {n : Nat} {l : List Item} {f : Frag} (h : f ∈ stream n l) : ∃ i ∈ l, f.key = i.msg.key := by
  simp only [stream, List.mem_flatMap] at h
  obtain ⟨i, hi, hf⟩ := h
  exact ⟨i, hi, item_key hf⟩

theorem fsel_item {K} {n : Nat} (i : Item) : fsel K (i.frags n) = if K i.msg.key then i.frags n else [] := by
  unfold fsel
  split
  · rename_i h
    exact List.filter_eq_self.mpr fun f hf => by rw [item_key hf]; exact h
  · rename_i h
    exact List.filter_eq_nil_iff.mpr fun f hf => by rw [item_key hf]; exact h

theorem fsel_stream {K} {n : Nat} (l : List Item) : fsel K (stream n l) = stream n (l.filter fun i => K i.msg.key) := by
  induction l with
  | nil => rfl
  | cons i l ih =>
    have h1 : fsel K (stream n (i :: l)) = fsel K (i.frags n) ++ fsel K (stream n l) := by
      unfold fsel stream; rw [List.flatMap_cons, List.filter_append]
    rw [h1, fsel_item, ih, List.filter_cons]
    split
    · unfold stream; rw [List.flatMap_cons]
    · rfl

theorem Proper.filter {n : Nat} {l : List Item} (h : Proper n l) (p : Item → Bool) : Proper n (l.filter p) :=
  ⟨fun i hi => h.1 i (List.mem_filter.mp hi).1, h.2.filter p⟩

theorem whole_filter {K} (l : List Item) : whole (l.filter fun i => K i.msg.key) = only K (whole l) := by
  unfold whole only
  rw [List.filter_map, List.filter_filter, List.filter_filter]
  congr 1
  apply List.filter_congr
  intro i _
  simp only [Function.comp]
  rw [Bool.and_comm]

/-- The keys a sender uses. -/
def keys (l : List Item) : Nat × Nat → Bool := fun k => l.any fun i => i.msg.key == k

theorem keys_iff {l : List Item} {k : Nat × Nat} : keys l k = true ↔ ∃ i ∈ l, i.msg.key = k := by simp [keys]

theorem mem_of_interleaves {n senders w} (h : Interleaves n senders w) {x : Nat × Frag} (hx : x ∈ w) : ∃ i ∈ senders x.1, x.2.key = i.msg.key := by
  apply stream_key (n := n)
  rw [← h x.1]
  exact List.mem_map.mpr ⟨x, List.mem_filter.mpr ⟨hx, by simp⟩, rfl⟩

theorem fsel_interleaves {n senders w K s} (h : Interleaves n senders w) (ha : Apart senders) (hK : ∀ k, K k = true → ∃ i ∈ senders s, i.msg.key = k) :
    fsel K (w.map (·.2)) = stream n ((senders s).filter fun i => K i.msg.key) := by
  rw [← fsel_stream, ← h s]
  unfold fsel
  rw [List.filter_map, List.filter_map, List.filter_filter]
  congr 1
  apply List.filter_congr
  intro x hx
  simp only [Function.comp]
  cases hk : K x.2.key with
  | false => simp
  | true =>
    obtain ⟨i, hi, hik⟩ := hK _ hk
    obtain ⟨j, hj, hjk⟩ := mem_of_interleaves h hx
    have := ha s x.1 i hi j hj (by rw [hik, hjk])
    simp [this]

theorem good_init {n : Nat} (hn : 0 < n) {senders w K s} (hp : Proper n (senders s)) (h : Interleaves n senders w) (ha : Apart senders)
    (hK : ∀ k, K k = true → ∃ i ∈ senders s, i.msg.key = k) : Good K [] (w.map (·.2)) (only K (whole (senders s))) := by
  obtain ⟨c', h1, h2⟩ := last_stream hn _ (hp.filter fun i => K i.msg.key) [] (fun _ _ x hx => by cases hx)
  rw [whole_filter] at h2
  refine ⟨c', ?_, h2⟩
  rw [fsel_interleaves h ha hK]
  exact h1

theorem DI.init {n : Nat} (hn : 0 < n) {senders w K s os} (hp : ∀ s, Proper n (senders s)) (ha : Apart senders) (h : Interleaves n senders w)
    (ho : arrivals os = w.map (·.2)) (hK : ∀ k, K k = true → ∃ i ∈ senders s, i.msg.key = k) :
    DI (fun s => keys (senders s)) K Dev.init (arrivals os) (only K (whole (senders s))) := by
  have he : Dev.init.wire ++ arrivals os = w.map (·.2) := by rw [ho]; rfl
  refine ⟨?_, fun s => ?_, ?_, fun c hc => by cases hc⟩
  · rw [he]
    intro f hf
    obtain ⟨x, hx, rfl⟩ := List.mem_map.mp hf
    obtain ⟨i, hi, hk⟩ := mem_of_interleaves h hx
    exact ⟨x.1, keys_iff.mpr ⟨i, hi, hk.symm⟩⟩
  · rw [he]
    exact ⟨_, good_init hn (hp s) h ha fun k hk => keys_iff.mp hk⟩
  · rw [he]
    exact good_init hn (hp s) h ha hK

theorem DI.end_ {S K d T} (h : DI S K d [] T) (hw : d.wire = []) : T = only K (completed d.cache) := by
  obtain ⟨c, hl, hT⟩ := h.main
  rw [hw] at hl
  cases hl
  rw [← hT]
  unfold completed only sel
  rw [List.filter_map, List.filter_filter, List.filter_filter]
  congr 1
  apply List.filter_congr
  intro x _
  simp only [Function.comp]
  rw [Bool.and_comm]
  rfl

end Casual.Ipc

import Verif.Discovery.Full
import Verif.Discovery.Content

/-!
  C149 and C150: what is missing in an answer.
-/
namespace Casual.Discovery

/-- Everything that discovery answers is thorough: `Thorough` of `SpecMissing.lean`. -/
theorem all_answers_thorough (domain : Domain) (services : List SvcCfg) (xs : List (Env × Input)) :
    AllThorough services (State.run domain services xs).log := (run_full domain services xs).right

/-- C149.  A discovery of this domain that is answered without something it asked for, before discovery is told to stop: since the
request came every provider that is registered and can discover was asked for it, and could not be reached, has gone, or has
answered without it. -/
theorem api_missing_is_nowhere (domain : Domain) (services : List SvcCfg) (xs : List (Env × Input)) (before : List Item) (dst : Ipc) (corr : Corr) (o : Offer)
    (h : SentAfter before (.apiReply dst corr o) (State.run domain services xs).log) (hs : Item.inp .shutdown ∉ before) :
    ∃ r, Item.inp (.api r) ∈ before ∧ r.process.ipc = dst ∧ r.corr = corr ∧
      ∀ t, r.content.wants t → ¬ o.has t → Nowhere services before (.api r) t := by
  obtain ⟨after, h⟩ := h
  obtain ⟨r, h1, h2, h3, h4⟩ := all_answers_thorough domain services xs before _ after h
  exact ⟨r, h1, h2, h3, fun t ht hn => (h4 t ht hn).elim (fun h => absurd h hs) id⟩

/-- C149.  The same for another domain: in addition all the providers of this domain that can look up were asked. -/
theorem domain_missing_is_nowhere (domain : Domain) (services : List SvcCfg) (xs : List (Env × Input)) (before : List Item) (dst : Ipc) (corr : Corr) (o : Offer)
    (h : SentAfter before (.reply dst corr o) (State.run domain services xs).log) (hs : Item.inp .shutdown ∉ before) :
    (∃ r, Item.inp (.request true r) ∈ before ∧ r.process.ipc = dst ∧ r.corr = corr ∧
      ∀ t, r.content.wants t → ¬ o.has t → NotHere before .extended r t ∧ Nowhere services before (.request true r) t) ∨
    (∃ r, Item.inp (.request false r) ∈ before ∧ r.process.ipc = dst ∧ r.corr = corr ∧
      ∀ t, r.content.wants t → ¬ o.has t → NotHere before .internal r t) := by
  obtain ⟨after, h⟩ := h
  rcases all_answers_thorough domain services xs before _ after h with ⟨r, h1, h2, h3, h4⟩ | ⟨r, h1, h2, h3, h4⟩
  · exact Or.inl ⟨r, h1, h2, h3, fun t ht hn => (h4 t ht hn).elim (fun h => absurd h hs) id⟩
  · exact Or.inr ⟨r, h1, h2, h3, fun t ht hn => (h4 t ht hn).elim (fun h => absurd h hs) id⟩

/-! ### Services that are configured without routes -/

theorem mem_currentCfg (services : List SvcCfg) : ∀ (log : List Item), currentCfg services log ∈ configurations services log := by
  have : ∀ (log : List Item) (c : List SvcCfg) (all : List (List SvcCfg)), c ∈ all →
      log.foldl currentStep c ∈ all ++ log.flatMap (fun | .inp (.configuration _ _ cs) => [cs] | _ => []) := by
    intro log
    induction log with
    | nil => exact fun c all h => mem_left h
    | cons y ys ih =>
      intro c all h
      rw [List.foldl_cons, List.flatMap_cons, ← List.append_assoc]
      refine ih _ _ ?_
      cases y with
      | inp i =>
        cases i <;> first | exact mem_left h | skip
        exact List.mem_append.mpr (Or.inr (List.mem_singleton.mpr rfl))
      | out o => exact mem_left h
      | lost o => exact mem_left h
  exact fun log => this log services [services] (List.mem_singleton.mpr rfl)

/-- What C150 asks for, of one answer of another domain: a service that no configuration has routes to, nor of, is known under its
name. -/
def KeptUnderItsName (c : List SvcCfg) (n : Name) : Prop := (∀ x ∈ c, n ∉ x.routes ∧ (x.name = n → x.routes = [])) → n ∈ namesUnder c n

/-- C150 does not hold: a service that is configured, without routes (for its timeout, for instance), is discarded from what other
domains answer. -/
theorem configured_without_routes_lost_refuted :
    (∃ c n, ¬ KeptUnderItsName c n) ∧
    (let xs := [(quiet, Input.registration 1 ⟨1, 11⟩ { discover := true }), (quiet, .api ⟨7, ⟨9, 19⟩, { services := [5] }⟩),
        (quiet, .reply 0 { services := [{ name := 5 }] })]
     Item.out (.apiReply 19 7 {}) ∈ (State.run 0 [{ name := 5, routes := [] }] xs).log ∧
     Item.out (.apiReply 19 7 { services := [{ name := 5 }] }) ∈ (State.run 0 [] xs).log) := by
  refine ⟨⟨[{ name := 5, routes := [] }], 5, ?_⟩, by decide +kernel⟩
  intro h
  have := h (fun x hx => by rw [List.mem_singleton.mp hx]; exact ⟨by simp, fun _ => rfl⟩)
  revert this
  decide

/-- C150, for services that are not configured at all: they are asked for under their name, and if missing in the answer no provider
has answered with them. -/
theorem unconfigured_missing_partial (domain : Domain) (services : List SvcCfg) (xs : List (Env × Input)) (before : List Item) (dst : Ipc) (corr : Corr) (o : Offer)
    (h : SentAfter before (.apiReply dst corr o) (State.run domain services xs).log) (hs : Item.inp .shutdown ∉ before) (n : Name)
    (hn : ∀ c ∈ configurations services before, ∀ x ∈ c, x.name ≠ n ∧ n ∉ x.routes) :
    ∃ r, Item.inp (.api r) ∈ before ∧ r.process.ipc = dst ∧ r.corr = corr ∧ (n ∈ r.content.services → (∀ x ∈ o.services, x.name ≠ n) →
      ∃ start rest, before = start ++ rest ∧ Item.inp (.api r) ∈ start ∧ ∀ p ∈ registered start, p.abilities.discover = true →
        ∃ c w, n ∈ w.services ∧ (Item.lost (.request p.process c w) ∈ rest ∨ (Item.out (.request p.process c w) ∈ rest ∧
          (Gone rest p.process ∨ ∃ o', Item.inp (.reply c o') ∈ rest ∧ ∀ x ∈ o'.services, x.name ≠ n)))) := by
  obtain ⟨r, h1, h2, h3, h4⟩ := api_missing_is_nowhere domain services xs before dst corr o h hs
  refine ⟨r, h1, h2, h3, fun hw hm => ?_⟩
  obtain ⟨start, rest, e, hi, h⟩ := h4 (.service n) hw (fun ⟨x, hx, e⟩ => hm x hx e)
  refine ⟨start, rest, e, hi, fun p hp hd => ?_⟩
  obtain ⟨c, w, hw, h⟩ := h p hp hd
  have sub : ∀ a b, before = a ++ b → ∀ x ∈ currentCfg services a, x.name ≠ n ∧ n ∉ x.routes := by
    intro a b e x hx
    refine hn _ ?_ x hx
    have := mem_currentCfg services a
    rw [e]
    unfold configurations at *
    rw [List.flatMap_append, ← List.cons_append]
    exact mem_left this
  have ho : originUnder (currentCfg services start) n = n := by
    unfold originUnder
    split
    · rename_i x hx
      have h1 := List.find?_some hx
      have h2 := sub start rest e x (List.mem_reverse.mp (List.mem_of_find?_eq_some hx))
      exact absurd (by simpa using h1) h2.2
    · rfl
  have hw' : n ∈ w.services := by
    have : originUnder (currentCfg services start) n ∈ w.services := hw
    rw [ho] at this
    exact this
  refine ⟨c, w, hw', ?_⟩
  rcases h with h | ⟨h1, h | ⟨pre, o', post, e', h⟩⟩
  · exact Or.inl h
  · exact Or.inr ⟨h1, Or.inl h⟩
  · refine Or.inr ⟨h1, Or.inr ⟨o', by rw [e']; simp, ?_⟩⟩
    intro x hx ex
    refine h ⟨x, hx, ?_⟩
    have : namesUnder (currentCfg services (start ++ pre)) x.name = [x.name] := by
      unfold namesUnder
      split
      · rename_i y hy
        have h1 := List.find?_some hy
        have h2 := sub (start ++ pre) (.inp (.reply c o') :: post) (by rw [e, e', List.append_assoc]) y (List.mem_reverse.mp (List.mem_of_find?_eq_some hy))
        exact absurd ((by simpa using h1 : y.name = x.name).trans ex) h2.1
      · rfl
    rw [this, ex]
    exact List.mem_singleton.mpr rfl

/-! ### A concrete case -/

/-- Three providers: one can not be reached, one goes, one answers without the service. -/
example :
    let part : Env := ⟨fun x => x != 13, fun _ => false⟩
    let xs := [(quiet, Input.registration 1 ⟨1, 11⟩ { discover := true }), (quiet, .registration 2 ⟨2, 12⟩ { discover := true }),
      (quiet, .registration 3 ⟨3, 13⟩ { discover := true }), (part, .api ⟨7, ⟨9, 19⟩, { services := [5, 6] }⟩),
      (quiet, .reply 0 { services := [{ name := 5 }] }), (quiet, .exit 2)]
    let log := (State.run 0 [] xs).log
    Item.lost (.request ⟨3, 13⟩ 2 { services := [5, 6] }) ∈ log ∧ Item.out (.request ⟨2, 12⟩ 1 { services := [5, 6] }) ∈ log ∧
    log.getLast? = some (.out (.apiReply 19 7 { services := [{ name := 5 }] })) ∧ Item.inp .shutdown ∉ log := by
  decide +kernel

end Casual.Discovery

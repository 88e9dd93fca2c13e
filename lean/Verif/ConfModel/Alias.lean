import Verif.ConfModel.Group
/-
  How aliases are given and everything that depends on them is resolved:
  `configuration::alias::normalize`, `configuration/include/configuration/common.h:37-77`,
  `configuration/source/common.cpp:14-45` and `configuration::normalize`,
  `configuration/source/model.cpp:559-643`.
-/
namespace Casual.ConfModel

/-- The characters of `[0-9a-f]`, `common.cpp:22`. -/
def isHex (c : Char) : Bool := ('0' ≤ c && c ≤ '9') || ('a' ≤ c && c ≤ 'f')

/-- `alias::is::placeholder`, `common.cpp:22,36-41`: the whole string matches
`alias-placeholder-[0-9a-f]{32}`. -/
def isPlaceholder (alias : String) : Bool :=
  let l := alias.toList
  decide (l.take 18 = "alias-placeholder-".toList) && decide ((l.drop 18).length = 32) && (l.drop 18).all isHex

/-- `alias::normalize::State`, `common.h:39-48`: two maps. -/
structure AState where
  count : List (String × Nat) := []
  placeholders : List (String × String) := []
deriving DecidableEq, Repr

/-- `count[ alias]` (0 if it is not there), `common.h:64`. -/
def countOf (count : List (String × Nat)) (alias : String) : Nat :=
  match count.find? (fun p => decide (p.1 = alias)) with
  | some p => p.2
  | none => 0

/-- `count[ alias] = n`. -/
def countSet (count : List (String × Nat)) (alias : String) (n : Nat) : List (String × Nat) :=
  if count.any (fun p => decide (p.1 = alias)) then
    count.map fun p => if p.1 = alias then (p.1, n) else p
  else count ++ [(alias, n)]

/-- The longest alias there is a count for: only to see that the loop ends. -/
def maxLen (count : List (String × Nat)) : Nat := count.foldr (fun p n => max p.1.length n) 0

theorem le_maxLen {count : List (String × Nat)} {p : String × Nat} (h : p ∈ count) :
    p.1.length ≤ maxLen count := by
  induction count with
  | nil => cases h
  | cons a l ih =>
    simp only [maxLen, List.foldr_cons]
    rcases List.mem_cons.1 h with rfl | h
    · exact Nat.le_max_left ..
    · exact Nat.le_trans (ih h) (Nat.le_max_right ..)

theorem countOf_pos {count : List (String × Nat)} {alias : String} (h : countOf count alias ≠ 0) :
    ∃ p ∈ count, p.1 = alias := by
  unfold countOf at h
  split at h
  · rename_i p hp
    exact ⟨p, List.mem_of_find?_eq_some hp, by simpa using List.find?_some hp⟩
  · exact absurd rfl h

theorem maxLen_countSet {count : List (String × Nat)} {alias : String} {n : Nat}
    (h : ∃ p ∈ count, p.1 = alias) : maxLen (countSet count alias n) = maxLen count := by
  unfold countSet
  rw [if_pos (by obtain ⟨p, hp, e⟩ := h; exact List.any_eq_true.2 ⟨p, hp, by simp [e]⟩)]
  clear h
  induction count with
  | nil => rfl
  | cons a l ih =>
    simp only [maxLen, List.map_cons, List.foldr_cons] at *
    rw [ih]
    split <;> rfl

/-- The loop of `potentially_add_index`, `common.h:62-74`. -/
def addIndex (count : List (String × Nat)) (alias : String) : List (String × Nat) × String :=
  let n := countOf count alias + 1
  let count' := countSet count alias n
  if n = 1 then (count', alias)
  else addIndex count' (alias ++ "." ++ Nat.repr n)
termination_by maxLen count + 1 - alias.length
decreasing_by
  rename_i h
  have h0 : countOf count alias ≠ 0 := by omega
  obtain ⟨p, hp, e⟩ := countOf_pos h0
  have hle := le_maxLen hp
  rw [maxLen_countSet ⟨p, hp, e⟩]
  simp only [String.length_append]
  have : ".".length = 1 := rfl
  rw [e] at hle
  omega

/-- `placeholders.emplace( placeholder, alias)`: the first one stays. -/
def emplace (m : List (String × String)) (key value : String) : List (String × String) :=
  if m.any (fun p => decide (p.1 = key)) then m else m ++ [(key, value)]

/-- `alias::normalize::mutator`, `common.h:50-77`, on an alias; `prospect` is the name that is
used if there is none. -/
def mutate (s : AState) (prospect alias : String) : AState × String :=
  if alias = "" then
    let r := addIndex s.count prospect
    ({ s with count := r.1 }, r.2)
  else if isPlaceholder alias then
    let r := addIndex s.count prospect
    ({ count := r.1, placeholders := emplace s.placeholders alias r.2 }, r.2)
  else
    let r := addIndex s.count alias
    ({ s with count := r.1 }, r.2)

/-- `algorithm::for_each( range, normalizer)`. -/
def mutateAll {α : Type} (get : α → String) (set : α → String → α) (prospect : α → String) :
    AState → List α → AState × List α
  | s, [] => (s, [])
  | s, x :: xs =>
    let r := mutate s (prospect x) (get x)
    let rest := mutateAll get set prospect r.1 xs
    (rest.1, set x r.2 :: rest.2)

/-- The aliases of executables and servers, `model.cpp:564-568`. -/
def normEntities : AState → List Entity → AState × List Entity :=
  mutateAll (·.alias) (fun e a => { e with alias := a }) (·.filename)

/-- The aliases of a forward group and its forwards, `model.cpp:574-582`. -/
def normForward (s : AState) (g : FGroup) : AState × FGroup :=
  let a := mutate s "forward" g.alias
  let b := mutateAll (·.alias) (fun (f : FService) a => { f with alias := a }) (·.source) a.1 g.services
  let c := mutateAll (·.alias) (fun (f : FQueue) a => { f with alias := a }) (·.source) b.1 g.queues
  (c.1, { g with alias := a.2, services := b.2, queues := c.2 })

/-- `model.cpp:574-582`. -/
def normForwards : AState → List FGroup → AState × List FGroup
  | s, [] => (s, [])
  | s, g :: gs =>
    let r := normForward s g
    let rest := normForwards r.1 gs
    (rest.1, r.2 :: rest.2)

/-- `model.cpp:589-596`. -/
def normInbound : AState → List InGroup → AState × List InGroup :=
  mutateAll (·.alias) (fun g a => { g with alias := a })
    fun g => if g.connect = .reversed then "reverse.inbound" else "inbound"

/-- `model.cpp:600-607`. -/
def normOutbound : AState → List OutGroup → AState × List OutGroup :=
  mutateAll (·.alias) (fun g a => { g with alias := a })
    fun g => if g.connect = .reversed then "reverse.outbound" else "outbound"

/-- `resolve_placeholders`, `model.cpp:613-617`: `none` if `placeholders.at` throws. -/
def resolve (m : List (String × String)) (alias : String) : Option String :=
  if isPlaceholder alias then (m.find? fun p => decide (p.1 = alias)).map (·.2) else some alias

/-- `algorithm::for_each( range, resolve_placeholders)`, `model.cpp:619-620`. -/
def resolveAll {α : Type} (get : α → String) (set : α → String → α) (m : List (String × String)) :
    List α → Option (List α)
  | [] => some []
  | x :: xs =>
    match resolve m (get x), resolveAll get set m xs with
    | some a, some r => some (set x a :: r)
    | _, _ => none

/-- `update_enabled`, `model.cpp:625-628`, for an entity. -/
def enableEntity (groups : List DGroup) (e : Entity) : Entity :=
  { e with enabled := Coordinator.enabled groups e.memberships }

/-- `update_connections`, `model.cpp:633-636`, for an inbound group. -/
def enableInbound (groups : List DGroup) (g : InGroup) : InGroup :=
  { g with connections := g.connections.map fun c => { c with enabled := Coordinator.enabled groups c.memberships } }

/-- `update_connections`, `model.cpp:633-636`, for an outbound group. -/
def enableOutbound (groups : List DGroup) (g : OutGroup) : OutGroup :=
  { g with connections := g.connections.map fun c => { c with enabled := Coordinator.enabled groups c.memberships } }

/-- `configuration::normalize`, `model.cpp:559-643`; `none` if it throws. -/
def normalize (m : Model) : Option Model :=
  let ex := normEntities {} m.domain.executables
  let sv := normEntities ex.1 m.domain.servers
  let fw := normForwards { sv.1 with count := [] } m.queue.forwards
  let ib := normInbound { fw.1 with count := [] } m.gateway.inbound
  let ob := normOutbound ib.1 m.gateway.outbound
  match resolveAll (·.alias) (fun (r : Restricted) a => { r with alias := a }) ob.1.placeholders m.service.restriction,
      resolveAll (·.alias) (fun (r : Mapping) a => { r with alias := a }) ob.1.placeholders m.transaction.mappings with
  | some restriction, some mappings =>
    some { m with
      domain := { m.domain with
        servers := sv.2.map (enableEntity m.domain.groups)
        executables := ex.2.map (enableEntity m.domain.groups) }
      transaction := { m.transaction with mappings := mappings }
      service := { m.service with restriction := restriction }
      queue := { m.queue with forwards := fw.2 }
      gateway := {
        inbound := ib.2.map (enableInbound m.domain.groups)
        outbound := ob.2.map (enableOutbound m.domain.groups) } }
  | _, _ => none

end Casual.ConfModel

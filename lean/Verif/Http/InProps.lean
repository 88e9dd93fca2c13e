import Verif.Http.In
import Verif.Http.OutProps
/-
  What a user of http inbound relies on, and a call by http from one domain to another.
-/
namespace Casual.Http

theorem dense_append {a b : Text} (ha : Dense a) (hb : Dense b) : Dense (a ++ b) := by
  intro c hc
  rcases List.mem_append.1 hc with hc | hc
  · exact ha c hc
  · exact hb c hc

theorem dense_of_all {t : Text} (h : t.all (fun c => !isSpace c) = true) : Dense t := by
  intro c hc
  have := List.all_eq_true.1 h c hc
  simpa using this

theorem fromBuffer_dense {t : Text} (h : Dense t) : Dense (fromBuffer t) := by
  unfold fromBuffer
  split
  · rename_i p hp
    exact dense_of_all (contents_back p (List.mem_of_find?_eq_some hp)).2.2.1
  · exact dense_append (dense_of_all (by decide +kernel)) h

theorem showLong_dense (n : Int) : Dense (showLong n) := by
  have h := (showNat_val n.natAbs).2.1
  unfold showLong
  split
  · intro c hc
    rcases List.mem_cons.1 hc with rfl | hc
    · decide +kernel
    · exact (h c hc).2.2
  · exact fun c hc => (h c hc).2.2

theorem describe_dense (n : Int) : Dense (describe n) := by
  have h : ∀ p ∈ codes, p.2.all (fun c => !isSpace c) = true := by decide +kernel
  unfold describe
  split
  · exact dense_of_all (by decide +kernel)
  · split
    · rename_i p hp
      exact dense_of_all (h p (List.mem_of_find?_eq_some hp))
    · exact dense_of_all (by decide +kernel)

theorem names_like : NameLike resultName ∧ NameLike userName ∧ NameLike "content-type".toList ∧ NameLike "content-length".toList := by
  refine ⟨⟨dense_of_all (by decide +kernel), by decide +kernel⟩, ⟨dense_of_all (by decide +kernel), by decide +kernel⟩,
    ⟨dense_of_all (by decide +kernel), by decide +kernel⟩, ⟨dense_of_all (by decide +kernel), by decide +kernel⟩⟩

theorem names_differ : resultName ≠ userName ∧ resultName ≠ "content-type".toList ∧ userName ≠ "content-type".toList
    ∧ "content-length".toList ≠ "content-type".toList ∧ resultName ≠ "content-length".toList ∧ userName ≠ "content-length".toList := by
  decide +kernel

/-! ### The server stays up -/

/-- A request with a body, and with a content type, named with small letters, becomes a call (without base64). -/
theorem request_taken_partial (q : HttpRequest) (hb : q.body ≠ []) (hc : ∃ h ∈ q.headers, h.1 = "content-type".toList) :
    ∃ ctx callee, begin false q = some ctx ∧ ctx.request = some callee ∧ callee.buffer.data = q.body ∧ ctx.lookups = [q.service] := by
  obtain ⟨h, hm, hn⟩ := hc
  have hf : fname (mkField h.1 h.2) = "content-type".toList := by
    rw [hn, fname_mk names_like.2.2.1.2, field_dense names_like.2.2.1.1]
  have : (ffind (inFields q.headers) "content-type".toList) ≠ none := by
    intro e
    have := List.find?_eq_none.1 e (mkField h.1 h.2) (List.mem_map_of_mem (f := fun h => mkField h.1 h.2) hm)
    exact this (by simpa using hf)
  cases hx : ffind (inFields q.headers) "content-type".toList with
  | none => exact absurd hx this
  | some f =>
    unfold begin calleeOf bufferType
    rw [if_neg hb, hx]
    exact ⟨_, _, rfl, rfl, rfl, rfl⟩

example : begin false { service := "a".toList, headers := [("content-type".toList, "application/json".toList)], body := [1] }
    = some { protocol := ".json/".toList, request := some { buffer := { type := ".json/".toList, data := [1] }, header := ["content-type:application/json".toList] },
             lookups := ["a".toList] } := by decide +kernel

/-- A request without a body takes the http server down. -/
theorem no_body_refuted (base64 : Bool) (q : HttpRequest) (h : q.body = []) : begin base64 q = none := by
  unfold begin; rw [if_pos h]

/-- A request with the content type named `Content-Type` takes the http server down. -/
theorem capital_refuted : ∃ q : HttpRequest, q.body ≠ [] ∧ q.headers = [("Content-Type".toList, "application/json".toList)] ∧ begin false q = none :=
  ⟨{ service := "a".toList, headers := [("Content-Type".toList, "application/json".toList)], body := [1] }, by decide, rfl, by decide +kernel⟩

/-- With base64, a request with a body that is not base64 takes the http server down. -/
theorem not_base64_refuted : ∃ q : HttpRequest, q.body ≠ [] ∧ q.headers = [("content-type".toList, "application/casual-binary".toList)] ∧ begin true q = none :=
  ⟨{ service := "a".toList, headers := [("content-type".toList, "application/casual-binary".toList)], body := [33] }, by decide, rfl, by decide +kernel⟩

/-! ### Results -/

/-- The result that the client is told, in the headers. -/
def ToldResult (s : Served) (code user : Text) : Prop :=
  s.headers = [("casual-result-code".toList, code), ("casual-result-user-code".toList, user)]

theorem filter_result (a b : Text) (ha : Dense a) (hb : Dense b) :
    (([mkField resultName a, mkField userName b] : List Text).filter fun f => fname f != "content-type".toList && fname f != "content-length".toList).map
      (fun f => (fname f, fvalue f)) = [(resultName, a), (userName, b)] := by
  obtain ⟨h1, h2⟩ := field_kept names_like.1 ha
  obtain ⟨h3, h4⟩ := field_kept names_like.2.1 hb
  rw [List.filter_cons, if_pos (by rw [h1]; decide +kernel), List.filter_cons, if_pos (by rw [h3]; decide +kernel)]
  simp [h1, h2, h3, h4]

theorem serve_error (base64 : Bool) (proto : Text) (e : Err) : ToldResult (serve (errorOf base64 proto e)) (describe e.value) (showLong 0) := by
  unfold ToldResult serve errorOf resultFields
  dsimp only
  have hl : ∀ v, fname (mkField "content-length".toList v) = "content-length".toList := by
    intro v; rw [fname_mk names_like.2.2.2.2, field_dense names_like.2.2.2.1]
  rw [List.filter_cons, if_neg (by rw [hl]; simp)]
  exact filter_result _ _ (describe_dense _) (showLong_dense _)

/-- A service that is not there: 404, and `TPENOENT`. The request is not sent to anybody. -/
theorem absent_served (base64 : Bool) (ctx : Ctx) (h : ctx.request ≠ none) :
    ∃ r, (receive base64 ctx (.lookup .absent)).2 = some r ∧ (serve r).status = 404 ∧ ToldResult (serve r) "TPENOENT".toList "0".toList := by
  cases hr : ctx.request with
  | none => exact absurd hr h
  | some c =>
    refine ⟨errorOf base64 ctx.protocol { cat := .xatmi, value := noEntry, what := [110] }, by unfold receive; rw [hr], rfl, ?_⟩
    have := serve_error base64 ctx.protocol { cat := .xatmi, value := noEntry, what := [110] }
    have e1 : describe noEntry = "TPENOENT".toList := by decide +kernel
    have e2 : showLong 0 = "0".toList := by unfold showLong showNat; decide +kernel
    rw [e1, e2] at this
    exact this

/-- A lookup that takes too long is told as `TPETIME`; the status is 500, not 408 as when the service itself
takes too long. -/
theorem late_lookup_served (base64 : Bool) (ctx : Ctx) (h : ctx.request ≠ none) :
    ∃ r, (receive base64 ctx (.lookup .timeout)).2 = some r ∧ (serve r).status = 500 ∧ ToldResult (serve r) "TPETIME".toList "0".toList := by
  cases hr : ctx.request with
  | none => exact absurd hr h
  | some c =>
    refine ⟨errorOf base64 ctx.protocol { cat := .xatmi, value := timeout, what := [116] }, by unfold receive; rw [hr], rfl, ?_⟩
    have := serve_error base64 ctx.protocol { cat := .xatmi, value := timeout, what := [116] }
    have e1 : describe timeout = "TPETIME".toList := by decide +kernel
    have e2 : showLong 0 = "0".toList := by unfold showLong showNat; decide +kernel
    rw [e1, e2] at this
    exact this

/-- An instance that is gone (`communication_unavailable`, 13 among the codes of casual itself) is told as
`TPETIME`, as the number is the same. -/
theorem mixed_codes_refuted : ∃ (ctx : Ctx) (r : HttpReply), (receive false ctx (.lookup (.idle (some { cat := .casual, value := 13 })))).2 = some r
    ∧ ToldResult (serve r) "TPETIME".toList "0".toList := by
  refine ⟨{ protocol := [], request := some { buffer := {}, header := [] }, lookups := [] }, _, rfl, ?_⟩
  have := serve_error false [] { cat := .casual, value := 13 }
  have e1 : describe 13 = "TPETIME".toList := by decide +kernel
  have e2 : showLong 0 = "0".toList := by unfold showLong showNat; decide +kernel
  rw [e1, e2] at this
  exact this

theorem ffind_reply (base64 : Bool) (r : SvcReply) (ht : Dense r.buffer.type) :
    (ffind (replyOf base64 r).headers "content-type".toList).map fvalue = some (fromBuffer r.buffer.type) := by
  have htype : (if base64 then toWire r.buffer else r.buffer).type = r.buffer.type := by
    cases base64
    · rfl
    · show (toWire r.buffer).type = _
      unfold toWire
      split
      · rfl
      · split <;> rfl
  unfold replyOf ffind
  dsimp only
  rw [List.cons_append, List.find?_cons, fname_mk names_like.2.2.2.2, field_dense names_like.2.2.2.1,
    show ("content-length".toList == "content-type".toList) = false by decide +kernel]
  dsimp only
  rw [List.cons_append, List.find?_cons, fname_mk names_like.2.2.1.2, field_dense names_like.2.2.1.1, BEq.rfl]
  dsimp only
  rw [Option.map_some, fvalue_mk names_like.2.2.1.2, htype, field_dense (fromBuffer_dense ht)]

/-- What the client is told when the service has answered: the status, the type, the result and the body. -/
theorem answer_served (base64 : Bool) (r : SvcReply) (ht : Dense r.buffer.type) :
    (serve (replyOf base64 r)).status = (if r.code = 0 then 200 else if r.code = 13 then 408 else 500)
    ∧ (serve (replyOf base64 r)).contentType = some (fromBuffer r.buffer.type)
    ∧ ToldResult (serve (replyOf base64 r)) (describe r.code) (showLong r.user)
    ∧ ((if base64 then toWire r.buffer else r.buffer).data ≠ [] → (serve (replyOf base64 r)).body = (if base64 then toWire r.buffer else r.buffer).data) := by
  refine ⟨rfl, ffind_reply base64 r ht, ?_, fun h => ?_⟩
  · unfold ToldResult serve replyOf resultFields
    dsimp only
    have hl : ∀ v, fname (mkField "content-length".toList v) = "content-length".toList := by
      intro v; rw [fname_mk names_like.2.2.2.2, field_dense names_like.2.2.2.1]
    have hc : ∀ v, fname (mkField "content-type".toList v) = "content-type".toList := by
      intro v; rw [fname_mk names_like.2.2.1.2, field_dense names_like.2.2.1.1]
    rw [List.cons_append, List.filter_cons, if_neg (by rw [hl]; simp), List.cons_append, List.filter_cons, if_neg (by rw [hc]; simp)]
    exact filter_result _ _ (describe_dense _) (showLong_dense _)
  · unfold serve replyOf
    dsimp only
    rw [if_neg h]

example : Dense "X_OCTET/".toList := dense_of_all (by decide +kernel)

/-- One request, one lookup, one answer: the request that is looked up is sent once, and the reply of the service is what is answered. -/
theorem one_answer (base64 : Bool) (ctx : Ctx) (callee : Callee) (r : SvcReply) (h : ctx.request = some callee) :
    (receive base64 ctx (.lookup (.idle none))).2 = none
    ∧ (receive base64 (receive base64 ctx (.lookup (.idle none))).1 (.reply r)).2 = some (replyOf base64 r)
    ∧ (receive base64 ctx (.reply r)) = (ctx, none) := by
  unfold receive
  rw [h]
  exact ⟨rfl, rfl, rfl⟩

/-! ### Header fields -/

/-- A header of the configuration is not sent as it is: the white space in it is gone. -/
theorem configured_header_refuted : ∃ node c, ({ name := "authorization".toList, value := "Bearer abc".toList } : Header) ∈ [({ name := "authorization".toList, value := "Bearer abc".toList } : Header)]
    ∧ node.headers = headerFields [{ name := "authorization".toList, value := "Bearer abc".toList }]
    ∧ requestLines {} node c = ["content-type: application/casual-binary".toList, "authorization:Bearerabc".toList, "casual-execution-id:e".toList] :=
  ⟨{ url := [], headers := headerFields [{ name := "authorization".toList, value := "Bearer abc".toList }], discard := false },
    { oneCall with }, by decide, rfl, by decide +kernel⟩

/-- A header with white space does not come to the service as the client sent it. -/
theorem request_header_refuted : fvalue (mkField "cookie".toList "a=1; b=2".toList) = "a=1;b=2".toList := by decide +kernel

/-- Spaces and tabs. -/
def isBlank (c : Char) : Bool := c.toNat == 32 || c.toNat == 9

/-- What is before and after a text is of no importance to http. -/
def trim (t : Text) : Text := ((t.dropWhile isBlank).reverse.dropWhile isBlank).reverse

/-- How http reads a header line. -/
def httpHeader (line : Text) : Text × Text := (line.takeWhile (· != ':'), trim ((line.dropWhile (· != ':')).drop 1))

theorem blank_space {c : Char} (h : isBlank c = true) : isSpace c = true := by
  unfold isBlank at h
  unfold isSpace
  simp at h ⊢
  omega

theorem field_dropWhile (t : Text) : field (t.dropWhile isBlank) = field t := by
  induction t with
  | nil => rfl
  | cons c t ih =>
    by_cases h : isBlank c = true
    · rw [List.dropWhile_cons_of_pos h, ih]
      unfold field
      rw [List.filter_cons_of_neg (by simp [blank_space h])]
    · rw [List.dropWhile_cons_of_neg h]

theorem field_reverse (t : Text) : field t.reverse = (field t).reverse := List.filter_reverse

theorem field_trim (t : Text) : field (trim t) = field t := by
  unfold trim
  rw [field_reverse, field_dropWhile, field_reverse, List.reverse_reverse, field_dropWhile]

/-- A header that is sent by http and has no white space in it comes to the service as it is. -/
theorem header_arrives_partial (n v : Text) (hn : NameLike n) (hv : Dense v) :
    fname (mkField (httpHeader (mkField n v)).1 (httpHeader (mkField n v)).2) = n
    ∧ fvalue (mkField (httpHeader (mkField n v)).1 (httpHeader (mkField n v)).2) = v := by
  have e : mkField n v = n ++ ':' :: v := by
    unfold mkField; rw [field_append, colon_field, field_dense hn.1, field_dense hv]
  have h1 : (httpHeader (mkField n v)).1 = n := by rw [e]; exact takeWhile_ne hn.2
  have h2 : field (httpHeader (mkField n v)).2 = v := by
    unfold httpHeader; dsimp only; rw [field_trim, e, dropWhile_ne hn.2]; exact field_dense hv
  rw [h1, fname_mk hn.2, fvalue_mk hn.2, h2, field_dense hn.1]
  exact ⟨rfl, rfl⟩

/-! ### From one domain to another -/

theorem find_skip {α} {p : α → Bool} {a b : List α} (h : ∀ x ∈ a, p x = false) : (a ++ b).find? p = b.find? p := by
  rw [List.find?_append]
  have : a.find? p = none := List.find?_eq_none.2 fun x hx => by simp [h x hx]
  rw [this]; rfl

/-- The headers that the http client adds in front of those it is given are not about the content. -/
def NoContentType (hs : List (Text × Text)) : Prop := ∀ h ∈ hs, fname (mkField h.1 h.2) ≠ "content-type".toList

theorem toWire_ne {p : Payload} (h : p.data ≠ []) (hn : p.type ≠ nullType) : (toWire p).data ≠ [] := by
  unfold toWire
  by_cases h1 : isPlain p.type = true
  · rw [if_pos h1]; exact h
  · rw [if_neg h1, if_neg hn]
    intro e
    have e : encode64 p.data = [] := e
    have := congrArg List.length e
    rw [encode64_length] at this
    have h2 := List.length_pos_iff.2 h
    simp at this
    omega

theorem toWire_type (p : Payload) : (toWire p).type = p.type := by
  unfold toWire
  split
  · rfl
  · split <;> rfl

/-- The http request that a call becomes: the lines, among those that the http client itself adds, and what curl has been given. -/
def asRequest (service : Text) (lines : List Text) (before after : List (Text × Text)) (data : List Byte) : HttpRequest :=
  { service := service, headers := before ++ lines.map httpHeader ++ after, body := data }

/-- A call by http to another domain (where the same is said about base64) makes the same call there: same type and same data.
The call has data, and a type without white space. -/
theorem request_arrives_partial (cfg : Cfg) (node : Node) (c : Call) (service : Text) (before after : List (Text × Text))
    (hd : c.buffer.data ≠ []) (ht : Dense c.buffer.type) (hn : c.buffer.type = nullType → cfg.base64 = false) (hb : NoContentType before) :
    ∃ ctx callee, begin cfg.base64 (asRequest service (requestLines cfg node c) before after (if cfg.base64 then toWire c.buffer else c.buffer).data) = some ctx
      ∧ ctx.request = some callee ∧ callee.buffer = c.buffer := by
  have hne : (if cfg.base64 then toWire c.buffer else c.buffer).data ≠ [] := by
    cases h : cfg.base64
    · exact hd
    · exact toWire_ne hd fun e => by rw [hn e] at h; exact absurd h (by decide)
  have hline : mkField (httpHeader ("content-type: ".toList ++ fromBuffer c.buffer.type)).1 (httpHeader ("content-type: ".toList ++ fromBuffer c.buffer.type)).2
      = "content-type".toList ++ ':' :: fromBuffer c.buffer.type := by
    have e : "content-type: ".toList ++ fromBuffer c.buffer.type = "content-type".toList ++ ':' :: (' ' :: fromBuffer c.buffer.type) := rfl
    unfold httpHeader
    dsimp only
    rw [e, takeWhile_ne names_like.2.2.1.2, dropWhile_ne names_like.2.2.1.2]
    unfold mkField
    rw [field_append, colon_field, field_trim, field_dense names_like.2.2.1.1]
    show _ ++ ':' :: field (' ' :: fromBuffer c.buffer.type) = _
    rw [show field (' ' :: fromBuffer c.buffer.type) = field (fromBuffer c.buffer.type) from List.filter_cons_of_neg (by decide),
      field_dense (fromBuffer_dense ht)]
  have hfind : bufferType (inFields (before ++ (requestLines cfg node c).map httpHeader ++ after)) = some c.buffer.type := by
    unfold bufferType ffind inFields
    rw [List.append_assoc, List.map_append, find_skip]
    · unfold requestLines
      simp only [List.map_append, List.map_cons, List.cons_append, List.append_assoc]
      rw [List.find?_cons, hline]
      have h1 : fname ("content-type".toList ++ ':' :: fromBuffer c.buffer.type) = "content-type".toList := takeWhile_ne names_like.2.2.1.2
      have h2 : fvalue ("content-type".toList ++ ':' :: fromBuffer c.buffer.type) = fromBuffer c.buffer.type := by
        unfold fvalue; rw [dropWhile_ne names_like.2.2.1.2]; rfl
      rw [h1, BEq.rfl]
      simp only [Option.map_some, h2, type_round_trip]
    · intro x hx
      obtain ⟨h, hm, rfl⟩ := List.mem_map.1 hx
      simpa using hb h hm
  have hcallee : ∃ callee, calleeOf cfg.base64 (inFields (before ++ (requestLines cfg node c).map httpHeader ++ after)) (if cfg.base64 then toWire c.buffer else c.buffer).data = some callee
      ∧ callee.buffer = c.buffer := by
    unfold calleeOf
    rw [hfind]
    dsimp only
    cases h : cfg.base64
    · exact ⟨_, rfl, rfl⟩
    · have e : ({ type := c.buffer.type, data := (toWire c.buffer).data } : Payload) = toWire c.buffer := by
        rw [← toWire_type c.buffer]
      have hnull : c.buffer.type = nullType → c.buffer.data = [] := fun e => by rw [hn e] at h; exact absurd h (by decide)
      simp only [if_true]
      rw [e, wire_round_trip _ hnull]
      exact ⟨_, rfl, rfl⟩
  obtain ⟨callee, h1, h2⟩ := hcallee
  unfold begin asRequest
  dsimp only
  rw [if_neg hne, hfind]
  dsimp only
  rw [h1]
  exact ⟨_, _, rfl, rfl, h2⟩

example : oneCall.buffer.data ≠ [] ∧ Dense oneCall.buffer.type ∧ NoContentType [("Host".toList, "x".toList), ("Accept".toList, "*/*".toList)] := by
  refine ⟨by decide, dense_of_all (by decide +kernel), ?_⟩
  unfold NoContentType
  decide +kernel

/-- A call without data takes the http server of the other domain down. -/
theorem empty_request_refuted (cfg : Cfg) (node : Node) (c : Call) (service : Text) (before after : List (Text × Text)) (h : c.buffer.data = []) :
    begin cfg.base64 (asRequest service (requestLines cfg node c) before after (if cfg.base64 then toWire c.buffer else c.buffer).data) = none := by
  apply no_body_refuted
  unfold asRequest
  dsimp only
  cases cfg.base64
  · exact h
  · simp only [if_true]
    unfold toWire
    split
    · exact h
    · split
      · rfl
      · show encode64 c.buffer.data = []; rw [h]; rfl

/-- How the http server writes a header. -/
def line (n v : Text) : Text := n ++ ": ".toList ++ v ++ "\r\n".toList

/-- The lines of the reply that are about the result and the content. `ct` is how the http server spells `content-type`. -/
def replyLines (ct : Text) (s : Served) : List Text :=
  (match s.contentType with | some v => [line ct v] | none => []) ++ s.headers.map fun h => line h.1 h.2

/-- The header lines that have come for a request. -/
def linesOf (h : Nat) (es : List Ev) : List Text :=
  es.filterMap fun e => match e with | .header h' l => if h' = h then some l else none | _ => none

/-- The line is about something else than the result and the content. -/
def Other (l : Text) : Prop :=
  let n := fname (field (l.takeWhile fun c => c != '\n' && c != '\r'))
  n ≠ resultName ∧ n ≠ userName ∧ n ≠ "content-type".toList

/-- The reply comes to curl: its lines, among others, and its body. -/
def Carries (ct : Text) (h : Nat) (mid : List Ev) (s : Served) : Prop :=
  (∃ before after, linesOf h mid = before ++ replyLines ct s ++ after ∧ (∀ l ∈ before, Other l) ∧ ∀ l ∈ after, Other l)
  ∧ bodyOf h mid = s.body

/-- A line as a field; nothing if it is empty. -/
def lineField (l : Text) : Option Text :=
  let t := l.takeWhile fun c => c != '\n' && c != '\r'
  if t ≠ [] then some (field t) else none

theorem fieldsOf_lines (h : Nat) (es : List Ev) : fieldsOf h es = (linesOf h es).filterMap lineField := by
  induction es with
  | nil => rfl
  | cons e es ih =>
    unfold fieldsOf linesOf at ih ⊢
    cases e with
    | header h' l =>
      by_cases e1 : h' = h
      · rw [List.filterMap_cons (f := fun e : Ev => match e with | .header h' l => if h' = h then some l else none | _ => none)]
        simp only [e1, if_true, List.filterMap_cons, true_and]
        rw [ih]
        rfl
      · simp only [List.filterMap_cons, e1, if_false, false_and]
        exact ih
    | _ => simpa only [List.filterMap_cons] using ih

theorem lineField_line {n v : Text} (hn : NameLike n) (hv : Dense v) : lineField (line n v) = some (n ++ ':' :: v) := by
  have hcr : ∀ t : Text, Dense t → ∀ c ∈ t, (c != '\n' && c != '\r') = true := by
    intro t ht c hc
    have := ht c hc
    have h1 : c ≠ '\n' := fun e => by rw [e] at this; exact absurd this (by decide)
    have h2 : c ≠ '\r' := fun e => by rw [e] at this; exact absurd this (by decide)
    simp [h1, h2]
  have e : (line n v).takeWhile (fun c => c != '\n' && c != '\r') = n ++ ": ".toList ++ v := by
    unfold line
    rw [List.takeWhile_append_of_pos]
    · rw [show ("\r\n".toList).takeWhile (fun c => c != '\n' && c != '\r') = [] by decide +kernel, List.append_nil]
    · intro c hc
      rcases List.mem_append.1 hc with hc | hc
      · rcases List.mem_append.1 hc with hc | hc
        · exact hcr n hn.1 c hc
        · have : ∀ c ∈ ": ".toList, (c != '\n' && c != '\r') = true := by decide +kernel
          exact this c hc
      · exact hcr v hv c hc
  unfold lineField
  dsimp only
  rw [e, if_pos]
  · rw [field_append, field_append, field_dense hn.1, field_dense hv]
    have : field ": ".toList = [':'] := by decide +kernel
    rw [this, List.append_assoc]
    rfl
  · intro e
    have := (List.append_eq_nil_iff.1 (List.append_eq_nil_iff.1 e).1).2
    exact absurd this (by decide +kernel)

theorem headerOf_carried {ct : Text} {h : Nat} {mid : List Ev} {s : Served} (hc : Carries ct h mid s) (n : Text)
    (hn : n = resultName ∨ n = userName ∨ n = "content-type".toList) :
    headerOf h n mid = ((replyLines ct s).filterMap lineField).reverse.find? fun f => fname f == n := by
  obtain ⟨⟨before, after, hl, hb, ha⟩, _⟩ := hc
  have hother : ∀ l, Other l → ∀ f, lineField l = some f → (fname f == n) = false := by
    intro l ho f hf
    unfold lineField at hf
    dsimp only at hf
    split at hf
    · cases hf
      obtain ⟨h1, h2, h3⟩ := ho
      rcases hn with rfl | rfl | rfl
      · simpa using h1
      · simpa using h2
      · simpa using h3
    · cases hf
  unfold headerOf
  rw [fieldsOf_lines, hl, List.filterMap_append, List.filterMap_append, List.reverse_append, find_skip, List.reverse_append]
  · rw [List.find?_append]
    have : (before.filterMap lineField).reverse.find? (fun f => fname f == n) = none := by
      rw [List.find?_eq_none]
      intro f hf
      obtain ⟨l, hl, hlf⟩ := List.mem_filterMap.1 (List.mem_reverse.1 hf)
      rw [hother l (hb l hl) f hlf]
      decide
    rw [this, Option.or_none]
  · intro f hf
    obtain ⟨l, hl, hlf⟩ := List.mem_filterMap.1 (List.mem_reverse.1 hf)
    exact hother l (ha l hl) f hlf

theorem name_colon {n v : Text} (h : ':' ∉ n) : fname (n ++ ':' :: v) = n ∧ fvalue (n ++ ':' :: v) = v :=
  ⟨takeWhile_ne h, by unfold fvalue; rw [dropWhile_ne h]; rfl⟩

/-- The headers that outbound finds, when the reply of the inbound of another domain comes. -/
theorem carried_headers (base64 : Bool) (r : SvcReply) (ht : Dense r.buffer.type) {h : Nat} {mid : List Ev}
    (hc : Carries "content-type".toList h mid (serve (replyOf base64 r))) :
    headerOf h resultName mid = some (resultName ++ ':' :: describe r.code)
    ∧ headerOf h userName mid = some (userName ++ ':' :: showLong r.user)
    ∧ headerOf h "content-type".toList mid = some ("content-type".toList ++ ':' :: fromBuffer r.buffer.type) := by
  obtain ⟨_, h2, h3, _⟩ := answer_served base64 r ht
  have hl : (replyLines "content-type".toList (serve (replyOf base64 r))).filterMap lineField
      = ["content-type".toList ++ ':' :: fromBuffer r.buffer.type, resultName ++ ':' :: describe r.code, userName ++ ':' :: showLong r.user] := by
    unfold replyLines
    rw [h2, h3]
    show [line "content-type".toList (fromBuffer r.buffer.type), line resultName (describe r.code), line userName (showLong r.user)].filterMap lineField = _
    rw [List.filterMap_cons, lineField_line names_like.2.2.1 (fromBuffer_dense ht), List.filterMap_cons, lineField_line names_like.1 (describe_dense _),
      List.filterMap_cons, lineField_line names_like.2.1 (showLong_dense _)]
    rfl
  have n := names_differ
  have f1 := (name_colon (v := describe r.code) names_like.1.2).1
  have f2 := (name_colon (v := showLong r.user) names_like.2.1.2).1
  have f3 := (name_colon (v := fromBuffer r.buffer.type) names_like.2.2.1.2).1
  refine ⟨?_, ?_, ?_⟩
  · rw [headerOf_carried hc _ (Or.inl rfl), hl]
    simp only [List.reverse_cons, List.reverse_nil, List.nil_append, List.cons_append, List.find?_cons, f1, f2]
    rw [show (userName == resultName) = false by simpa using n.1.symm, BEq.rfl]
  · rw [headerOf_carried hc _ (Or.inr (Or.inl rfl)), hl]
    simp only [List.reverse_cons, List.reverse_nil, List.nil_append, List.cons_append, List.find?_cons, f2]
    rw [BEq.rfl]
  · rw [headerOf_carried hc _ (Or.inr (Or.inr rfl)), hl]
    simp only [List.reverse_cons, List.reverse_nil, List.nil_append, List.cons_append, List.find?_cons, f1, f2, f3]
    rw [show (userName == "content-type".toList) = false by simpa using n.2.2.1, show (resultName == "content-type".toList) = false by simpa using n.2.1, BEq.rfl]

/-- A call by http to another domain (where the same is said about base64) is answered with what the service there answered:
the result, the user code, the type and the data. The http server spells `content-type` with small letters,
sends its reply when it has got the request; the answer has data, and a type without white space. -/
theorem reply_arrives_partial (cfg : Cfg) (files : List Model) (pre mid : List Ev) (c : Call) (node : Node) (s : Nat) (r : SvcReply)
    (ha : Accepted (start cfg files) c node)
    (hn : ∀ e ∈ mid, NotDone (nextHandle cfg files pre) e)
    (hfed : Fed (nextHandle cfg files pre) (if cfg.base64 then toWire c.buffer else c.buffer).data.length mid)
    (hd : (run (start cfg files) (pre ++ .call c :: mid ++ [.done (nextHandle cfg files pre) true s])).down = false)
    (hcarry : Carries "content-type".toList (nextHandle cfg files pre) mid (serve (replyOf cfg.base64 r)))
    (hcode : ∃ p ∈ codes, p.1 = r.code) (huser : isLong r.user)
    (ht : Dense r.buffer.type) (ht0 : r.buffer.type ≠ [])
    (hdata : (r.code = 0 ∨ r.code = 11) → r.buffer.data ≠ [] ∧ (r.buffer.type = nullType → cfg.base64 = false)) :
    AnsweredWith (run (start cfg files) (pre ++ .call c :: mid)) (run (start cfg files) (pre ++ .call c :: mid ++ [.done (nextHandle cfg files pre) true s]))
      { dest := c.dest, corr := c.corr, code := r.code, user := r.user
        txn := if c.trid = true ∧ r.code ≠ 0 then .rollback else .ok
        buffer := if r.code = 0 ∨ r.code = 11 then r.buffer else {} } := by
  obtain ⟨code, user, hc, more, hout, hmore⟩ := call_to_answer cfg files pre mid c node true s ha hn hd
  obtain ⟨g1, g2, g3⟩ := carried_headers cfg.base64 r ht hcarry
  refine ⟨more, ?_, hmore⟩
  have hout : (run (start cfg files) (pre ++ .call c :: mid ++ [.done (nextHandle cfg files pre) true s])).out = _ := hout
  rw [hout]
  show _ ++ Msg.reply (answer cfg (follow (prepare cfg (nextHandle cfg files pre) node c) mid) code user) :: more = _
  have hc : codeOf (follow (prepare cfg (nextHandle cfg files pre) node c) mid) true s = some (code, user) := hc
  generalize hr : prepare cfg (nextHandle cfg files pre) node c = q at hc ⊢
  have e1 : q.handle = nextHandle cfg files pre := by rw [← hr]; rfl
  have e2 : q.reply = [] := by rw [← hr]; rfl
  have e3 : q.payload = (if cfg.base64 then toWire c.buffer else c.buffer) := by rw [← hr]; rfl
  have e4 : q.trid = c.trid ∧ q.dest = c.dest ∧ q.corr = c.corr := by rw [← hr]; exact ⟨rfl, rfl, rfl⟩
  have e5 : q.offset = 0 := by rw [← hr]; rfl
  have hbody := follow_data (r := q) e5 (mid := mid) (by rw [e1, e3]; exact hfed)
  rw [e1, hcarry.2] at hbody
  obtain ⟨p, hp, hpc⟩ := hcode
  have hparse : parseCode (describe r.code) = r.code := by rw [← hpc]; exact code_round_trip p hp
  unfold codeOf at hc
  rw [follow_header e2, follow_header e2, e1, g1, g2] at hc
  simp only [(name_colon names_like.1.2).2, (name_colon names_like.2.1.2).2, hparse, user_round_trip _ huser, Option.map_some, Option.some.injEq, Prod.mk.injEq] at hc
  obtain ⟨rfl, rfl⟩ := hc
  obtain ⟨t1, t2, t3⟩ := follow_trid q mid
  have htxn : txnOf (follow q mid) r.code = (if c.trid = true ∧ r.code ≠ 0 then .rollback else .ok) := by
    unfold txnOf
    rw [t1, e4.1]
    cases c.trid
    · simp
    · by_cases hc : r.code = 0 <;> simp [hc, ok]
  congr 2
  by_cases hok : r.code = 0 ∨ r.code = 11
  · obtain ⟨hne, hnull⟩ := hdata hok
    have hwne : (if cfg.base64 then toWire r.buffer else r.buffer).data ≠ [] := by
      cases h : cfg.base64
      · exact hne
      · exact toWire_ne hne fun e => by rw [hnull e] at h; exact absurd h (by decide)
    have hbody2 := (answer_served cfg.base64 r ht).2.2.2 hwne
    have hpay : payloadOf cfg (follow q mid) = some r.buffer := by
      unfold payloadOf
      rw [follow_header e2, e1, g3]
      simp only [(name_colon names_like.2.2.1.2).2, type_round_trip]
      rw [if_neg ht0, hbody, hbody2]
      cases h : cfg.base64
      · rfl
      · simp only [if_true]
        have e : ({ type := r.buffer.type, data := (toWire r.buffer).data } : Payload) = toWire r.buffer := by
          rw [← toWire_type r.buffer]
        rw [e]
        exact wire_round_trip _ fun e => by rw [hnull e] at h; exact absurd h (by decide)
    rw [answer_eq hpay, t2, t3, e4.2.1, e4.2.2, htxn]
  · unfold answer
    dsimp only
    have hok' : ¬(r.code = ok ∨ r.code = serviceFail) := hok
    rw [if_neg hok', if_neg hok, t2, t3, e4.2.1, e4.2.2, htxn]

/-- The service of the other domain answers this. -/
def someReply : SvcReply := { code := 11, user := -5, buffer := { type := ".json/".toList, data := [9, 8, 7] } }

/-- The events of a call to another domain. -/
def carryMid (ct : Text) (r : SvcReply) : List Ev :=
  .read 0 100 :: (["HTTP/1.1 200 OK\r\n".toList, "Server: nginx\r\n".toList] ++ replyLines ct (serve (replyOf false r)) ++ ["\r\n".toList]).map (.header 0)
    ++ [.body 0 (serve (replyOf false r)).body]

/-- The hypotheses of `reply_arrives_partial` are met. -/
example : Carries "content-type".toList 0 (carryMid "content-type".toList someReply) (serve (replyOf false someReply))
    ∧ Fed 0 oneCall.buffer.data.length (carryMid "content-type".toList someReply)
    ∧ (∀ e ∈ carryMid "content-type".toList someReply, NotDone 0 e)
    ∧ (run (start {} [oneFile]) ([] ++ .call oneCall :: carryMid "content-type".toList someReply ++ [.done 0 true 500])).down = false
    ∧ (∃ p ∈ codes, p.1 = someReply.code) ∧ isLong someReply.user := by
  refine ⟨⟨⟨["HTTP/1.1 200 OK\r\n".toList, "Server: nginx\r\n".toList], ["\r\n".toList], by decide +kernel, ?_, ?_⟩, by decide +kernel⟩,
    ⟨[.read 0 100], (carryMid "content-type".toList someReply).tail, rfl, rfl, by decide, ?_⟩, ?_, by decide +kernel, by decide +kernel, by decide +kernel⟩
  · unfold Other; decide +kernel
  · unfold Other; decide +kernel
  · intro n h
    unfold carryMid at h
    simp at h
  · intro e he k s h
    subst h
    unfold carryMid at he
    simp at he

/-- An answer without data comes as the four bytes `NULL`. -/
theorem empty_reply_refuted :
    let r : SvcReply := { code := 0, user := 0, buffer := { type := ".binary/".toList, data := [] } }
    Msg.reply { dest := 1, corr := 7, code := 0, buffer := { type := ".binary/".toList, data := [78, 85, 76, 76] } }
      ∈ (run (start {} [oneFile]) (.call oneCall :: carryMid "content-type".toList r ++ [.done 0 true 200])).out := by
  decide +kernel

/-- A http server that spells it `Content-Type`: the answer has the type of the request. -/
theorem spelling_refuted :
    Msg.reply { dest := 1, corr := 7, code := 11, user := -5, buffer := { type := ".binary/".toList, data := [9, 8, 7] } }
      ∈ (run (start {} [oneFile]) (.call oneCall :: carryMid "Content-Type".toList someReply ++ [.done 0 true 200])).out := by
  decide +kernel

/-- A content type with a parameter: the call succeeds, and the answer is lost. -/
theorem parameter_refuted :
    Msg.reply { dest := 1, corr := 7, code := 0, user := 42, buffer := {} }
      ∈ (run (start {} [oneFile]) (.call oneCall :: .read 0 100 :: okHeaders 0
        ++ [.header 0 "content-type: application/json; charset=utf-8\r\n".toList, .body 0 [9], .done 0 true 200])).out := by
  decide +kernel

/-- A type with white space in it does not come as it is. -/
theorem type_space_refuted : bufferType (inFields [("content-type".toList, fromBuffer "a b".toList)]) = some "ab".toList := by decide +kernel

end Casual.Http

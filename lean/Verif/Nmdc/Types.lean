import Verif.Go.Html

/-!
# Text values of NMDC (`nmdc/types.go`, the escaping half of `nmdc/utils.go`)
-/

namespace Verif.Nmdc

open Verif.Go Verif.Spec

/-- `nmdc/reader.go:19-22`. -/
def maxName : Nat := 256

/-- The end of a message, `nmdc/message.go` `Delimiter`. -/
def delim : Byte := c!"|"

/-- `*TextEncoder` / `*TextDecoder` (`golang.org/x/text/encoding`): `none` is the nil pointer,
otherwise a function that may fail. -/
abbrev Codec := Option (Bytes → Option Bytes)

/-- `if enc != nil { str, err = enc.String(str) }`, and the same for `dec.Bytes`. -/
def Codec.run (c : Codec) (s : Bytes) : Res Bytes :=
  match c with
  | none => .ok s
  | some f => match f s with
    | some t => .ok t
    | none => .err (.other 10)

/-- Decoding undoes encoding. -/
def Lossless (enc dec : Codec) : Prop := ∀ s e, enc.run s = .ok e → dec.run e = .ok s

theorem lossless_nil : Lossless none none := by
  intro s e h; simpa [Codec.run, eq_comm] using h

/-- The legacy escapes of `legacyUnescaper`, `nmdc/types.go:26-33`. -/
def legacyTable : List (Bytes × Byte) :=
  [(b!"/%DCN000%/", 0), (b!"/%DCN005%/", 5), (b!"/%DCN036%/", c!"$"), (b!"/%DCN096%/", c!"`"),
    (b!"/%DCN124%/", delim), (b!"/%DCN126%/", c!"~")]

/-- The replacement that applies at the head of `s`. -/
def legacyAt (s : Bytes) : Option Byte := (legacyTable.find? (fun e => hasPrefix s e.1)).map (·.2)

/-- `legacyUnescaper.Replace`; `k` bytes are skipped first. All patterns are 10 bytes long and
none is a prefix of another, so their priority does not matter. -/
def legacyFrom : Nat → Bytes → Bytes
  | _, [] => []
  | k + 1, _ :: s => legacyFrom k s
  | 0, b :: s =>
    match legacyAt (b :: s) with
    | some c => c :: legacyFrom 9 s
    | none => b :: legacyFrom 0 s

/-- `legacyUnescaper.Replace`. -/
def legacyReplace (s : Bytes) : Bytes := legacyFrom 0 s

/-- `nmdc/types.go:49-63`. -/
def unescapeBytes [HtmlEntities] (b : Bytes) : Bytes :=
  let h := (indexByte b c!"&").isSome
  let d := contains b b!"/%DCN"
  if !h && !d then b
  else
    let s := if d then legacyReplace b else b
    if h then htmlUnescape s else s

/-- `nmdc/types.go:35-39`. -/
def escapeCharString (b : Byte) : Option Bytes :=
  if b = c!"&" then some b!"&amp;" else if b = c!"$" then some b!"&#36;" else if b = delim then some b!"&#124;" else none

/-- `nmdc/types.go:41-47`. -/
def escapeCharName (b : Byte) : Option Bytes :=
  if b = c!"&" then some b!"&amp;" else if b = c!"<" then some b!"&lt;" else if b = c!">" then some b!"&gt;"
  else if b = c!"$" then some b!"&#36;" else if b = delim then some b!"&#124;" else none

/-- `nmdc/types.go:16-24`. -/
def invalidCharName (b : Byte) : Bool := b = c!"$" || b = 0 || b = c!"\r" || b = c!"\n" || b = c!"\t"

/-- Byte-wise replacement. -/
def escWith (tbl : Byte → Option Bytes) (s : Bytes) : Bytes := s.flatMap (fun b => (tbl b).getD [b])

/-- `nmdc/utils.go:131-150`: the bytes appended to the buffer.  The code copies runs of unescaped bytes
in one piece.  What is in the buffer after an error is not modelled. -/
def escapeString (s : Bytes) : Res Bytes :=
  if s.any (· = 0) then .err (.other 11) else .ok (escWith escapeCharString s)

/-- `nmdc/utils.go:152-171`. -/
def escapeName (s : Bytes) : Res Bytes :=
  if s.any invalidCharName then .err (.other 12) else .ok (escWith escapeCharName s)

/-- `Name.MarshalNMDC`, `nmdc/types.go:85-98`. -/
def Name.marshal (enc : Codec) (s : Bytes) : Res Bytes :=
  if s.length > maxName then .err (.other 13)
  else do
    let str ← enc.run s
    escapeName str

/-- `Name.UnmarshalNMDC`, `nmdc/types.go:100-119`. -/
def Name.unmarshal [HtmlEntities] (dec : Codec) (data : Bytes) : Res Bytes :=
  if data.length > maxName then .err (.other 13)
  else if data.any invalidCharName then .err (.other 12)
  else do
    let data ← dec.run (unescapeBytes data)
    if validUtf8 data then .ok data else .err (.unknownEncoding data)

/-- `String.MarshalNMDC`, `nmdc/types.go:124-134`. -/
def Str.marshal (enc : Codec) (s : Bytes) : Res Bytes := do
  let str ← enc.run s
  escapeString str

/-- `String.UnmarshalNMDC`, `nmdc/types.go:136-153`. -/
def Str.unmarshal [HtmlEntities] (dec : Codec) (data : Bytes) : Res Bytes :=
  if (indexByte data 0).isSome then .err (.other 11)
  else do
    let data ← dec.run (unescapeBytes data)
    if validUtf8 data then .ok data else .err (.unknownEncoding data)

/-- `NoArgs`, `nmdc/types.go:68-79`. -/
def NoArgs.marshal : Res Bytes := .ok []

def NoArgs.unmarshal (data : Bytes) : Res Unit := if data.length ≠ 0 then .err (.other 14) else .ok ()

/-! ## Lemmas -/

/-- The text holds one of the legacy sequences `/%DCNnnn%/`. -/
def HasLegacy (s : Bytes) : Prop := ∃ e ∈ legacyTable, ∃ a b, s = a ++ e.1 ++ b

theorem HasLegacy.cons {s : Bytes} (b : Byte) (h : HasLegacy s) : HasLegacy (b :: s) := by
  obtain ⟨e, he, a, c, rfl⟩ := h
  exact ⟨e, he, b :: a, c, by simp⟩

theorem legacyAt_none {s : Bytes} (h : ¬ HasLegacy s) : legacyAt s = none := by
  unfold legacyAt
  rw [Option.map_eq_none_iff, List.find?_eq_none]
  intro e he hp
  rw [hasPrefix_iff] at hp
  obtain ⟨t, ht⟩ := hp
  exact h ⟨e, he, [], t, by simp [ht]⟩

theorem legacyReplace_id {s : Bytes} (h : ¬ HasLegacy s) : legacyReplace s = s := by
  unfold legacyReplace
  induction s with
  | nil => rfl
  | cons b s ih =>
    simp only [legacyFrom, legacyAt_none h]
    rw [ih (fun h' => h (h'.cons b))]

@[simp] theorem escWith_nil {tbl : Byte → Option Bytes} : escWith tbl [] = [] := rfl

theorem escWith_cons {tbl : Byte → Option Bytes} (b : Byte) (s : Bytes) : escWith tbl (b :: s) = (tbl b).getD [b] ++ escWith tbl s := rfl

theorem escWith_append {tbl : Byte → Option Bytes} (s t : Bytes) : escWith tbl (s ++ t) = escWith tbl s ++ escWith tbl t := by
  simp [escWith]

/-- What the round trip needs to know of an escaping table. -/
structure GoodTable [HtmlEntities] (tbl : Byte → Option Bytes) : Prop where
  amp : tbl c!"&" ≠ none
  head : ∀ b v, tbl b = some v → v.head? = some c!"&"
  noSlash : ∀ b v, tbl b = some v → c!"/" ∉ v
  unescape : ∀ b v, tbl b = some v → ∀ s, htmlUnescape (v ++ s) = b :: htmlUnescape s

section
variable [HtmlEntities]

theorem goodString : GoodTable escapeCharString where
  amp := by decide
  head := by apply forall_byte; decide +kernel
  noSlash := by
    intro b v h
    unfold escapeCharString at h
    repeat' split at h
    all_goals simp at h
    all_goals subst h; decide
  unescape := by
    intro b v h s
    unfold escapeCharString delim at h
    repeat' split at h
    all_goals simp at h
    all_goals subst h
    all_goals subst_vars
    · exact htmlUnescape_amp s
    · exact htmlUnescape_dollar s
    · exact htmlUnescape_pipe s

theorem goodName : GoodTable escapeCharName where
  amp := by decide
  head := by
    intro b v h
    unfold escapeCharName at h
    repeat' split at h
    all_goals simp at h
    all_goals subst h; rfl
  noSlash := by
    intro b v h
    unfold escapeCharName at h
    repeat' split at h
    all_goals simp at h
    all_goals subst h; decide
  unescape := by
    intro b v h s
    unfold escapeCharName delim at h
    repeat' split at h
    all_goals simp at h
    all_goals subst h
    all_goals subst_vars
    · exact htmlUnescape_amp s
    · exact htmlUnescape_lt s
    · exact htmlUnescape_gt s
    · exact htmlUnescape_dollar s
    · exact htmlUnescape_pipe s

variable {tbl : Byte → Option Bytes}

theorem htmlUnescape_escWith (ht : GoodTable tbl) (s : Bytes) : htmlUnescape (escWith tbl s) = s := by
  induction s with
  | nil => rfl
  | cons b s ih =>
    rw [escWith_cons]
    cases h : tbl b with
    | none =>
      have hb : b ≠ c!"&" := by rintro rfl; exact ht.amp h
      simp only [Option.getD_none, List.cons_append, List.nil_append]
      rw [htmlUnescape_cons hb, ih]
    | some v => simp only [Option.getD_some]; rw [ht.unescape b v h, ih]

/-- A pattern without `&` at the head of the escaped text is at the head of the text. -/
theorem prefix_escWith (ht : GoodTable tbl) {k s : Bytes} (hk : c!"&" ∉ k) (h : k <+: escWith tbl s) : k <+: s := by
  induction k generalizing s with
  | nil => exact List.nil_prefix
  | cons c k ih =>
    simp only [List.mem_cons, not_or] at hk
    cases s with
    | nil => simp at h
    | cons b s =>
      rw [escWith_cons] at h
      cases hb : tbl b with
      | some v =>
        exfalso
        have hv := ht.head b v hb
        cases v with
        | nil => simp at hv
        | cons x v =>
          simp only [List.head?_cons, Option.some.injEq] at hv
          simp only [hb, Option.getD_some, List.cons_append, List.cons_prefix_cons] at h
          exact hk.1 (hv ▸ h.1.symm)
      | none =>
        simp only [hb, Option.getD_none, List.cons_append, List.nil_append, List.cons_prefix_cons] at h
        rw [List.cons_prefix_cons]
        exact ⟨h.1, ih hk.2 h.2⟩

/-- A pattern `/…` without `&` that occurs in the escaped text occurs in the text. -/
theorem infix_escWith (ht : GoodTable tbl) {k s a b : Bytes} (hk : c!"&" ∉ k) (h : escWith tbl s = a ++ (c!"/" :: k) ++ b) :
    ∃ a' b', s = a' ++ (c!"/" :: k) ++ b' := by
  have hk' : c!"&" ∉ c!"/" :: k := by simp [hk]
  induction s generalizing a with
  | nil => simp at h
  | cons x s ih =>
    rw [escWith_cons] at h
    cases hx : tbl x with
    | none =>
      cases a with
      | nil =>
        have hp : (c!"/" :: k) <+: escWith tbl (x :: s) := ⟨b, by rw [escWith_cons, h]; simp⟩
        obtain ⟨t, ht'⟩ := prefix_escWith ht hk' hp
        exact ⟨[], t, by simp [← ht']⟩
      | cons y a =>
        simp only [hx, Option.getD_none, List.cons_append, List.nil_append, List.cons.injEq] at h
        obtain ⟨a', b', rfl⟩ := ih (a := a) (by simpa using h.2)
        exact ⟨x :: a', b', by simp⟩
    | some v =>
      simp only [hx, Option.getD_some] at h
      have hs := ht.noSlash x v hx
      rw [List.append_assoc] at h
      rcases List.append_eq_append_iff.mp h with ⟨c, hc1, hc2⟩ | ⟨c, hc1, hc2⟩
      · obtain ⟨a', b', rfl⟩ := ih (a := c) (by simpa using hc2)
        exact ⟨x :: a', b', by simp⟩
      · cases c with
        | nil =>
          obtain ⟨a', b', rfl⟩ := ih (a := []) (by simpa using hc2.symm)
          exact ⟨x :: a', b', by simp⟩
        | cons y c =>
          exfalso
          simp only [List.cons_append, List.cons.injEq] at hc2
          apply hs
          rw [hc1, ← hc2.1]
          simp

theorem hasLegacy_escWith (ht : GoodTable tbl) {s : Bytes} (h : ¬ HasLegacy s) : ¬ HasLegacy (escWith tbl s) := by
  rintro ⟨e, he, a, b, hab⟩
  have hall : ∀ e ∈ legacyTable, e.1 = c!"/" :: e.1.drop 1 ∧ c!"&" ∉ e.1.drop 1 := by decide
  obtain ⟨h1, h2⟩ := hall e he
  rw [h1] at hab
  obtain ⟨a', b', hs⟩ := infix_escWith ht h2 hab
  exact h ⟨e, he, a', b', by rw [hs, ← h1]⟩

/-- Unescaping undoes escaping. -/
theorem unescape_escWith (ht : GoodTable tbl) {s : Bytes} (h : ¬ HasLegacy s) : unescapeBytes (escWith tbl s) = s := by
  unfold unescapeBytes
  have hl := legacyReplace_id (hasLegacy_escWith ht h)
  simp only [hl, ite_self]
  have hh := htmlUnescape_escWith ht s
  cases hi : indexByte (escWith tbl s) c!"&" with
  | some i => simp [hh]
  | none =>
    rw [indexByte_none] at hi
    rw [htmlUnescape_id hi] at hh
    simp [hh]

end

theorem escapeString_ok {s w : Bytes} : escapeString s = .ok w ↔ (0 : Byte) ∉ s ∧ w = escWith escapeCharString s := by
  unfold escapeString
  by_cases h : (0 : Byte) ∈ s
  · simp [h]
  · have : ¬ (s.any (· = 0) = true) := by simpa using h
    rw [if_neg this, Res.ok.injEq]
    exact ⟨fun h' => ⟨h, h'.symm⟩, fun h' => h'.2.symm⟩

theorem escapeName_ok {s w : Bytes} :
    escapeName s = .ok w ↔ (∀ b ∈ s, invalidCharName b = false) ∧ w = escWith escapeCharName s := by
  unfold escapeName
  by_cases h : s.any invalidCharName = true
  · rw [if_pos h]
    simp only [reduceCtorEq, false_iff, not_and]
    intro h'
    obtain ⟨b, hb, hi⟩ := List.any_eq_true.mp h
    simp [h' b hb] at hi
  · rw [if_neg h]
    simp only [Res.ok.injEq]
    refine ⟨fun h' => ⟨?_, h'.symm⟩, fun h' => h'.2.symm⟩
    intro b hb
    cases hi : invalidCharName b with
    | false => rfl
    | true => exact absurd (List.any_eq_true.mpr ⟨b, hb, hi⟩) h

theorem mem_escWith {tbl : Byte → Option Bytes} {s : Bytes} {b : Byte} (h : b ∈ escWith tbl s) :
    (b ∈ s ∧ tbl b = none) ∨ ∃ x ∈ s, ∃ v, tbl x = some v ∧ b ∈ v := by
  simp only [escWith, List.mem_flatMap] at h
  obtain ⟨x, hx, hb⟩ := h
  cases ht : tbl x with
  | none => simp [ht] at hb; subst hb; exact .inl ⟨hx, ht⟩
  | some v => simp [ht] at hb; exact .inr ⟨x, hx, v, ht, hb⟩

/-- The bytes an escape may consist of. -/
def escByte (b : Byte) : Bool :=
  b = c!"&" || b = c!";" || b = c!"#" || (c!"0" ≤ b && b ≤ c!"9") || (c!"a" ≤ b && b ≤ c!"z")

theorem escByte_string {x : Byte} {v : Bytes} (h : escapeCharString x = some v) : ∀ b ∈ v, escByte b = true := by
  unfold escapeCharString at h
  repeat' split at h
  all_goals simp at h
  all_goals subst h; decide

theorem escByte_name {x : Byte} {v : Bytes} (h : escapeCharName x = some v) : ∀ b ∈ v, escByte b = true := by
  unfold escapeCharName at h
  repeat' split at h
  all_goals simp at h
  all_goals subst h; decide

theorem str_marshal_ok {enc : Codec} {s w : Bytes} :
    Str.marshal enc s = .ok w ↔ ∃ e, enc.run s = .ok e ∧ (0 : Byte) ∉ e ∧ w = escWith escapeCharString e := by
  unfold Str.marshal
  rw [Res.bind_eq_ok]
  simp only [escapeString_ok]

theorem name_marshal_ok {enc : Codec} {s w : Bytes} :
    Name.marshal enc s = .ok w ↔ s.length ≤ maxName ∧ ∃ e, enc.run s = .ok e ∧
      (∀ b ∈ e, invalidCharName b = false) ∧ w = escWith escapeCharName e := by
  unfold Name.marshal
  by_cases h : s.length > maxName
  · rw [if_pos h]
    simp only [reduceCtorEq, false_iff, not_and]
    intro h'; omega
  · rw [if_neg h, Res.bind_eq_ok]
    simp only [escapeName_ok]
    exact ⟨fun h' => ⟨by omega, h'⟩, fun h' => h'.2⟩

/-- No `$`, `|` or NUL in an encoded text. -/
theorem str_marshal_clean {enc : Codec} {s w : Bytes} (h : Str.marshal enc s = .ok w) :
    ∀ b ∈ w, b ≠ c!"$" ∧ b ≠ delim ∧ b ≠ 0 := by
  obtain ⟨e, -, h0, rfl⟩ := str_marshal_ok.mp h
  intro b hb
  rcases mem_escWith hb with ⟨hm, ht⟩ | ⟨x, -, v, hv, hm⟩
  · refine ⟨?_, ?_, ?_⟩
    · rintro rfl; simp [escapeCharString] at ht
    · rintro rfl; simp [escapeCharString, delim] at ht
    · rintro rfl; exact h0 hm
  · have := escByte_string hv b hm
    refine ⟨?_, ?_, ?_⟩ <;> rintro rfl <;> exact absurd this (by decide)

/-- None of the separators in an encoded name. -/
theorem name_marshal_clean {enc : Codec} {s w : Bytes} (h : Name.marshal enc s = .ok w) :
    ∀ b ∈ w, b ≠ c!"$" ∧ b ≠ delim ∧ b ≠ c!"<" ∧ b ≠ c!">" ∧ b ≠ 0 ∧ b ≠ c!"\r" ∧ b ≠ c!"\n" ∧ b ≠ c!"\t" := by
  obtain ⟨-, e, -, h0, rfl⟩ := name_marshal_ok.mp h
  intro b hb
  rcases mem_escWith hb with ⟨hm, ht⟩ | ⟨x, -, v, hv, hm⟩
  · have hi := h0 b hm
    refine ⟨?_, ?_, ?_, ?_, ?_, ?_, ?_, ?_⟩ <;> rintro rfl
    all_goals first
      | (exact absurd hi (by decide))
      | (exact absurd ht (by decide))
  · have := escByte_name hv b hm
    refine ⟨?_, ?_, ?_, ?_, ?_, ?_, ?_, ?_⟩ <;> rintro rfl <;> exact absurd this (by decide)

/-- A text that the wire format can carry: well-formed UTF-8 whose encoded bytes hold no legacy sequence. -/
def TextOk (enc : Codec) (s : Bytes) : Prop := IsUtf8 s ∧ ∀ e, enc.run s = .ok e → ¬ HasLegacy e

/-- A name that the wire format can carry: a text whose escaped form has at most 256 bytes. -/
def NameOk (enc : Codec) (s : Bytes) : Prop := TextOk enc s ∧ ∀ w, Name.marshal enc s = .ok w → w.length ≤ 256

theorem str_roundtrip [HtmlEntities] {enc dec : Codec} (hl : Lossless enc dec) {s w : Bytes} (hs : TextOk enc s)
    (h : Str.marshal enc s = .ok w) : Str.unmarshal dec w = .ok s := by
  have hclean := str_marshal_clean h
  obtain ⟨e, he, h0, rfl⟩ := str_marshal_ok.mp h
  have hz : indexByte (escWith escapeCharString e) 0 = none := by
    rw [indexByte_none]; intro h'; exact (hclean 0 h').2.2 rfl
  unfold Str.unmarshal
  rw [hz, unescape_escWith goodString (hs.2 e he), hl s e he]
  simp [validUtf8_iff.mpr hs.1]

theorem name_roundtrip [HtmlEntities] {enc dec : Codec} (hl : Lossless enc dec) {s w : Bytes} (hs : NameOk enc s)
    (h : Name.marshal enc s = .ok w) : Name.unmarshal dec w = .ok s := by
  have hclean := name_marshal_clean h
  have hw := hs.2 w h
  obtain ⟨-, e, he, h0, rfl⟩ := name_marshal_ok.mp h
  have hz : (escWith escapeCharName e).any invalidCharName = false := by
    rw [List.any_eq_false]
    intro b hb hi
    have := hclean b hb
    simp [invalidCharName] at hi
    simp_all
  unfold Name.unmarshal
  rw [if_neg (by unfold maxName; omega), hz, unescape_escWith goodName (hs.1.2 e he), hl s e he]
  simp [validUtf8_iff.mpr hs.1.1]

theorem str_unmarshal_ne_panic [HtmlEntities] (dec : Codec) (d : Bytes) : Str.unmarshal dec d ≠ .panic := by
  unfold Str.unmarshal
  split
  · simp
  · refine Res.bind_ne_panic ?_ (fun a _ => by split <;> simp)
    unfold Codec.run
    repeat' split
    all_goals simp

theorem name_unmarshal_ne_panic [HtmlEntities] (dec : Codec) (d : Bytes) : Name.unmarshal dec d ≠ .panic := by
  unfold Name.unmarshal
  split
  · simp
  · split
    · simp
    · refine Res.bind_ne_panic ?_ (fun a _ => by split <;> simp)
      unfold Codec.run
      repeat' split
      all_goals simp

end Verif.Nmdc

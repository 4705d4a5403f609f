import Verif.Adc.WireLemmas
import Verif.Props.AdcMessages
import Verif.Props.AdcFeatures

/-!
# C68, C69, C70: the text of ADC messages

`Verif/Spec/AdcWire.lean` lists the fields of the messages and says which text stands for which value.
-/

namespace Verif.Props.AdcWire

open Verif.Go Verif.Adc Verif.Tiger Verif.Spec Verif.Spec.AdcWire Verif.Props.AdcText Verif.Props.AdcLines Verif.Props.AdcMessages

/-! ## C68: what is written -/

/-- **C68.** The fields of the structs of the code, with their tags, types and when they are written. -/
theorem table_matches (t : StructType) : t.fields.map column = table t := by cases t <;> decide +kernel

/-- **C68.** A message that is a struct is written as its parts with spaces between them: the fields with positions first, then
those with tags, each once, except for slices (once for each element) and fields that are zero and may be left out. -/
theorem struct_wire (t : StructType) (row : Row t.fields) :
    (Msg.struct t row).marshal = .ok (b!" ".intercalate (rowParts t.fields row)) := marshalRow_parts t.fields row (all_writable t)

example : b!" ".intercalate (rowParts StructType.chat.fields (b!"two words", some ⟨b!"AAAB", rfl⟩, false, (5 : Int), ())) =
    b!"two\\swords PMAAAB TS5" := by
  have h := struct_wire .chat (b!"two words", some ⟨b!"AAAB", rfl⟩, false, (5 : Int), ())
  have h2 : (Msg.struct .chat (b!"two words", some ⟨b!"AAAB", rfl⟩, false, (5 : Int), ())).marshal = .ok b!"two\\swords PMAAAB TS5" := by
    decide +kernel
  rw [h2] at h
  exact (Res.ok.inj h).symm

/-- **C68.** The fields that must be there are there. -/
theorem required_written (t : StructType) (row : Row t.fields) (f : Fld) (hf : f ∈ t.fields) (hr : f.req = true) :
    ∃ p ∈ rowParts t.fields row, f.tag <+: p := by
  have hk : ∀ t : StructType, t.fields.all (fun f => !f.req || (f.tag != b!"#" && plainKind f.kind)) = true := by
    intro t; cases t <;> decide +kernel
  have key : ∀ (fs : List Fld) (row : Row fs), fs.all (fun f => !f.req || (f.tag != b!"#" && plainKind f.kind)) = true → f ∈ fs →
      ∃ p ∈ rowParts fs row, f.tag <+: p := by
    intro fs
    induction fs with
    | nil => intro _ _ h; simp at h
    | cons g fs ih =>
      rintro ⟨v, row⟩ ha h
      rw [List.all_cons, Bool.and_eq_true] at ha
      rcases List.mem_cons.mp h with rfl | h
      · have ha := ha.1
        rw [hr] at ha
        simp only [Bool.not_true, Bool.false_or, Bool.and_eq_true, bne_iff_ne, ne_eq] at ha
        have hp : presence f = .always := by simp [presence, ha.1, hr]
        have ht : ∀ (k : Kind) (v : k.T), plainKind k = true → texts k v = [AdcWire.text k v] := by
          intro k v h
          cases k <;> first | rfl | cases h
        refine ⟨f.tag ++ AdcWire.text f.kind v, ?_, List.prefix_append _ _⟩
        rw [rowParts, fieldParts, hp, ht f.kind v ha.2]
        simp
      · obtain ⟨p, hp, h1⟩ := ih row ha.2 h
        exact ⟨p, by rw [rowParts, List.mem_append]; exact .inr hp, h1⟩
  exact key t.fields row (hk t) hf

example : (⟨"Features", b!"SU", true, .feats⟩ : Fld) ∈ StructType.userInfo.fields ∧ (⟨"Name", b!"NI", true, .str⟩ : Fld) ∈ StructType.hubInfo.fields := by
  simp [StructType.fields]

/-- **C68.** The text of every message. -/
theorem message_wire (m : Msg) : m.marshal = .ok (msgText m) := by
  have hget : ∀ r : GetRequest, r.marshal = getText r := by
    intro r
    unfold GetRequest.marshal getText
    rw [escape_eq, escape_eq, itoa_decimal, itoa_decimal]
    cases r.compressed <;> simp [List.intercalate]
  cases m with
  | raw typ data => rfl
  | supported f =>
    refine congrArg Res.ok ?_
    rw [ModFeatures.marshal, AdcFeatures.modMarshal_eq, glue_join, join_eq]
    rfl
  | status s =>
    refine congrArg Res.ok ?_
    rw [Status.marshal, pad2, escape_eq, itoa_decimal, itoa_decimal, msgText, statusText]
    by_cases h : (decimal s.code).length < 2
    · rw [if_pos h, if_pos h]; simp
    · rw [if_neg h, if_neg h]; simp
  | zon => rfl
  | zoff => rfl
  | get r => exact congrArg Res.ok (hget r)
  | snd r => exact congrArg Res.ok (hget r)
  | sidAssign id => rfl
  | getPassword salt => exact congrArg Res.ok (Verif.Props.Identifiers.encode_is_base32 salt)
  | infoMod f =>
    refine congrArg Res.ok ?_
    have : escape = esc := funext escape_eq
    rw [Fields.marshal, fields_marshal_eq, glue_join, join_eq, this]
    rfl
  | struct t row => exact struct_wire t row

/-! ## C69: what is read -/

variable [ParseFloat]

set_option linter.unusedSectionVars false

/-- **C69.** A text is accepted for a struct exactly if its parts are: as many parts as there are fields with positions, each of them
accepted by its field, then parts that the fields with tags accept. -/
theorem struct_reads (t : StructType) (s : Bytes) (cur row : Row t.fields) :
    (Msg.struct t cur).unmarshalTo s = .ok (.struct t row) ↔
      ∃ pos named, Parts c!" " s (pos ++ named) ∧ ReadsRow t.fields pos named cur row := by
  have e : (Msg.struct t cur).unmarshalTo s = .ok (.struct t row) ↔ unmarshalRow t.fields s cur = .ok row := by
    simp only [Msg.unmarshalTo, Res.bind_eq_ok, Res.ok.injEq, Msg.struct.injEq, heq_eq_eq, true_and]
    constructor
    · rintro ⟨x, h, rfl⟩; exact h
    · intro h; exact ⟨row, h, rfl⟩
  rw [e, unmarshalRow, readsFields_iff t.fields _ cur row (tables_good t)]
  simp only [parts_iff]

/-- A private chat message; a part with an unknown tag is in it. -/
example : ∃ pos named, Parts c!" " b!"hi XXyy PMAAAB" (pos ++ named) ∧
    ReadsRow StructType.chat.fields pos named (Row.zero _) (b!"hi", some ⟨b!"AAAB", rfl⟩, false, (0 : Int), ()) := by
  rw [← struct_reads .chat b!"hi XXyy PMAAAB" (Row.zero _) (b!"hi", some ⟨b!"AAAB", rfl⟩, false, (0 : Int), ())]
  with_unfolding_all rfl

/-- Cutting at the first separator. -/
theorem cut_cases (s : Bytes) (c : Byte) : (c ∉ s ∧ indexByte s c = none) ∨ ∃ a b, c ∉ a ∧ s = a ++ c :: b ∧ indexByte s c = some a.length := by
  cases h : indexByte s c with
  | none => exact .inl ⟨indexByte_none.mp h, rfl⟩
  | some i =>
    obtain ⟨a, b, rfl, h1, rfl⟩ := indexByte_some h
    exact .inr ⟨a, b, h1, rfl, rfl⟩

/-- A numeral that fits in 64 bits. -/
def Numeral (s : Bytes) (n : Int) : Prop := SignedNumeral s n ∧ -(2 ^ 63 : Int) ≤ n ∧ n < 2 ^ 63

theorem numeral_iff (s : Bytes) (n : Int) : parseInt s 64 = .ok n ↔ Numeral s n := parseInt_ok (by omega) (by omega)

theorem append_cut {c : Byte} {a a' b b' : Bytes} (h : c ∉ a) (h' : c ∉ a') (e : a ++ c :: b = a' ++ c :: b') : a = a' ∧ b = b' := by
  have h1 := congrArg (fun s => indexByte s c) e
  simp only [indexByte_append h, indexByte_append h', Option.some.injEq] at h1
  have := List.append_inj e h1
  exact ⟨this.1, by simpa using this.2⟩

/-- **C69.** Status messages: a number, of which the last two decimal digits are the code, and maybe a text. -/
theorem status_reads (s : Bytes) (st : Status) :
    Status.unmarshal s = .ok st ↔ ∃ c n, c!" " ∉ c ∧ Numeral c n ∧ st.sev = n.tdiv 100 ∧ st.code = n.tmod 100 ∧
      ((s = c ∧ st.msg = []) ∨ ∃ m, s = c ++ c!" " :: m ∧ Unescapes m st.msg) := by
  obtain ⟨sev, code, msg⟩ := st
  have tail : ∀ (c : Bytes) (m : Bytes), (match parseInt c 64 with
      | .err _ => Res.err (.other 107) | .panic => .panic
      | .ok n => .ok (⟨n.tdiv 100, n.tmod 100, m⟩ : Status)) = .ok ⟨sev, code, msg⟩ ↔
        ∃ n, Numeral c n ∧ sev = n.tdiv 100 ∧ code = n.tmod 100 ∧ msg = m := by
    intro c m
    simp only [← numeral_iff]
    cases h : parseInt c 64 with
    | err e => simp
    | panic => simp
    | ok n =>
      simp only [Res.ok.injEq, Status.mk.injEq, exists_eq_left']
      constructor
      · rintro ⟨rfl, rfl, rfl⟩; exact ⟨rfl, rfl, rfl⟩
      · rintro ⟨rfl, rfl, rfl⟩; exact ⟨rfl, rfl, rfl⟩
  unfold Status.unmarshal
  rcases cut_cases s c!" " with ⟨hs, hi⟩ | ⟨a, b, ha, rfl, hi⟩
  · rw [splitMax_of_not_mem hs 1]
    refine (tail s []).trans ?_
    constructor
    · rintro ⟨n, h1, h2, h3, h4⟩; exact ⟨s, n, hs, h1, h2, h3, .inl ⟨rfl, h4⟩⟩
    · rintro ⟨c, n, hc, h1, h2, h3, ⟨rfl, h4⟩ | ⟨m, rfl, _⟩⟩
      · exact ⟨n, h1, h2, h3, h4⟩
      · simp at hs
  · rw [splitMax_append ha 0]
    refine (tail a (unescape b)).trans ?_
    simp only [unescapes_iff]
    constructor
    · rintro ⟨n, h1, h2, h3, h4⟩; exact ⟨a, n, ha, h1, h2, h3, .inr ⟨b, rfl, h4.symm⟩⟩
    · rintro ⟨c, n, hc, h1, h2, h3, ⟨rfl, _⟩ | ⟨m, e, h4⟩⟩
      · simp at hc
      · obtain ⟨rfl, rfl⟩ := append_cut ha hc e
        exact ⟨n, h1, h2, h3, h4.symm⟩

/-- **C69.** File requests and their answers. The compression flag stays as it was when the text does not have it. -/
theorem get_reads (data : Bytes) (cur r : GetRequest) :
    GetRequest.unmarshal data cur = .ok r ↔ ∃ typ path start len tail : Bytes,
      c!" " ∉ typ ∧ c!" " ∉ path ∧ c!" " ∉ start ∧ c!" " ∉ len ∧
      data = typ ++ c!" " :: (path ++ c!" " :: (start ++ c!" " :: (len ++ tail))) ∧
      Unescapes typ r.typ ∧ Unescapes path r.path ∧ Numeral start r.start ∧ Numeral len r.bytes ∧
      (((tail = [] ∨ tail = b!" ") ∧ r.compressed = cur.compressed) ∨ (tail = b!" ZL1" ∧ r.compressed = true)) := by
  obtain ⟨rt, rp, rs, rb, rc⟩ := r
  simp only [unescapes_iff, ← numeral_iff]
  unfold GetRequest.unmarshal
  rcases cut_cases data c!" " with ⟨h1, hi⟩ | ⟨typ, d1, h1, rfl, hi⟩
  · simp only [hi, reduceCtorEq, false_iff]
    rintro ⟨typ, path, start, len, tail, -, -, -, -, rfl, -⟩
    simp at h1
  simp only [hi, List.take_left']
  have e1 : (typ ++ c!" " :: d1).drop (typ.length + 1) = d1 := by
    rw [← List.drop_drop, List.drop_left]; rfl
  rw [e1]
  rcases cut_cases d1 c!" " with ⟨h2, hi2⟩ | ⟨path, d2, h2, rfl, hi2⟩
  · simp only [hi2, reduceCtorEq, false_iff]
    rintro ⟨typ', path, start, len, tail, h1', -, -, -, e, -⟩
    obtain ⟨_, rfl⟩ := append_cut h1 h1' e
    simp at h2
  simp only [hi2, List.take_left]
  have e2 : (path ++ c!" " :: d2).drop (path.length + 1) = d2 := by
    rw [← List.drop_drop, List.drop_left]; rfl
  rw [e2]
  rcases cut_cases d2 c!" " with ⟨h3, hi3⟩ | ⟨start, d3, h3, rfl, hi3⟩
  · simp only [hi3, reduceCtorEq, false_iff]
    rintro ⟨typ', path', start, len, tail, h1', h2', -, -, e, -⟩
    obtain ⟨_, e⟩ := append_cut h1 h1' e
    obtain ⟨_, rfl⟩ := append_cut h2 h2' e
    simp at h3
  simp only [hi3, List.take_left]
  have e3 : (start ++ c!" " :: d3).drop (start.length + 1) = d3 := by
    rw [← List.drop_drop, List.drop_left]; rfl
  rw [e3]
  -- the length and what is left
  have fin : ∀ len tail : Bytes, c!" " ∉ len → (tail = [] ∨ tail.head? = some c!" ") → ((match parseInt start 64 with
      | .panic => Res.panic
      | .err _ => .err (.other 111)
      | .ok st =>
        match parseInt len 64 with
        | .panic => .panic
        | .err _ => .err (.other 112)
        | .ok bytes =>
          if tail.tail.length > 0 then
            if tail.tail ≠ b!"ZL1" then .err (.other 113)
            else .ok (⟨unescape typ, unescape path, st, bytes, true⟩ : GetRequest)
          else .ok ⟨unescape typ, unescape path, st, bytes, cur.compressed⟩) = .ok ⟨rt, rp, rs, rb, rc⟩ ↔
      ∃ typ' path' start' len' tail' : Bytes, c!" " ∉ typ' ∧ c!" " ∉ path' ∧ c!" " ∉ start' ∧ c!" " ∉ len' ∧
        typ ++ c!" " :: (path ++ c!" " :: (start ++ c!" " :: (len ++ tail))) =
          typ' ++ c!" " :: (path' ++ c!" " :: (start' ++ c!" " :: (len' ++ tail'))) ∧
        unescape typ' = rt ∧ unescape path' = rp ∧ parseInt start' 64 = .ok rs ∧ parseInt len' 64 = .ok rb ∧
        (((tail' = [] ∨ tail' = b!" ") ∧ rc = cur.compressed) ∨ (tail' = b!" ZL1" ∧ rc = true))) := by
    intro len tail h4 ht
    have uniq : ∀ {len' tail' : Bytes}, c!" " ∉ len' → (tail' = [] ∨ tail'.head? = some c!" ") → len ++ tail = len' ++ tail' → len = len' ∧ tail = tail' := by
      intro len' tail' h4' ht' e
      rcases ht with rfl | ht
      · rcases ht' with rfl | ht'
        · simpa using e
        · cases tail' with
          | nil => cases ht'
          | cons x t => cases ht'; simp at e; subst e; simp at h4
      · cases tail with
        | nil => cases ht
        | cons x t =>
          cases ht
          rcases ht' with rfl | ht'
          · simp at e; subst e; simp at h4'
          · cases tail' with
            | nil => cases ht'
            | cons x t => cases ht'; have := append_cut h4 h4' e; exact ⟨this.1, by rw [this.2]⟩
    have key : (match parseInt start 64 with
        | .panic => Res.panic
        | .err _ => .err (.other 111)
        | .ok st =>
          match parseInt len 64 with
          | .panic => .panic
          | .err _ => .err (.other 112)
          | .ok bytes =>
            if tail.tail.length > 0 then
              if tail.tail ≠ b!"ZL1" then .err (.other 113)
              else .ok (⟨unescape typ, unescape path, st, bytes, true⟩ : GetRequest)
            else .ok ⟨unescape typ, unescape path, st, bytes, cur.compressed⟩) = .ok ⟨rt, rp, rs, rb, rc⟩ ↔
        unescape typ = rt ∧ unescape path = rp ∧ parseInt start 64 = .ok rs ∧ parseInt len 64 = .ok rb ∧
        (((tail = [] ∨ tail = b!" ") ∧ rc = cur.compressed) ∨ (tail = b!" ZL1" ∧ rc = true)) := by
      have htail : (tail.tail.length > 0 → (tail.tail = b!"ZL1" ↔ tail = b!" ZL1")) ∧ (¬ tail.tail.length > 0 ↔ tail = [] ∨ tail = b!" ") := by
        cases tail with
        | nil => simp
        | cons x t =>
          have hx : x = c!" " := by rcases ht with h | h <;> simp_all
          subst hx
          cases t <;> simp
      cases parseInt start 64 with
      | panic => simp
      | err e => simp
      | ok st =>
        cases parseInt len 64 with
        | panic => simp
        | err e => simp
        | ok bs =>
          simp only [Res.ok.injEq]
          by_cases hl : tail.tail.length > 0
          · have hno : ¬ (tail = [] ∨ tail = b!" ") := fun h => htail.2.mpr h hl
            rw [if_pos hl]
            by_cases hz : tail.tail = b!"ZL1"
            · rw [if_neg (by simpa using hz)]
              have := (htail.1 hl).mp hz
              rw [this] at hno
              simp only [this, hno, false_and, false_or, true_and, Res.ok.injEq, GetRequest.mk.injEq]
              constructor
              · rintro ⟨h1, h2, h3, h4, h5⟩; exact ⟨h1, h2, h3, h4, h5.symm⟩
              · rintro ⟨h1, h2, h3, h4, h5⟩; exact ⟨h1, h2, h3, h4, h5.symm⟩
            · rw [if_pos hz]
              have : ¬ tail = b!" ZL1" := fun h => hz ((htail.1 hl).mpr h)
              simp [hno, this]
          · rw [if_neg hl]
            have h0 := htail.2.mp hl
            have h1 : ¬ tail = b!" ZL1" := by rintro rfl; simp at hl
            simp only [h0, true_and, h1, false_and, or_false, Res.ok.injEq, GetRequest.mk.injEq]
            constructor
            · rintro ⟨h1, h2, h3, h4, h5⟩; exact ⟨h1, h2, h3, h4, h5.symm⟩
            · rintro ⟨h1, h2, h3, h4, h5⟩; exact ⟨h1, h2, h3, h4, h5.symm⟩
    refine key.trans ?_
    constructor
    · rintro ⟨k1, k2, k3, k4, k5⟩
      exact ⟨typ, path, start, len, tail, h1, h2, h3, h4, rfl, k1, k2, k3, k4, k5⟩
    · rintro ⟨typ', path', start', len', tail', h1', h2', h3', h4', e, k1, k2, k3, k4, k5⟩
      obtain ⟨rfl, e2'⟩ := append_cut h1 h1' e
      obtain ⟨rfl, e3'⟩ := append_cut h2 h2' e2'
      obtain ⟨rfl, e4'⟩ := append_cut h3 h3' e3'
      have ht' : tail' = [] ∨ tail'.head? = some c!" " := by
        rcases k5 with ⟨rfl | rfl, _⟩ | ⟨rfl, _⟩ <;> simp
      obtain ⟨rfl, rfl⟩ := uniq h4' ht' e4'
      exact ⟨k1, k2, k3, k4, k5⟩
  rcases cut_cases d3 c!" " with ⟨h4, hi4⟩ | ⟨len, d4, h4, rfl, hi4⟩
  · have := fin d3 [] h4 (.inl rfl)
    simp only [List.append_nil] at this
    simp only [hi4]
    exact this
  · have := fin len (c!" " :: d4) h4 (.inr rfl)
    have e4 : (len ++ c!" " :: d4).drop (len.length + 1) = d4 := by
      rw [← List.drop_drop, List.drop_left]; rfl
    simp only [hi4, List.take_left, e4]
    exact this

example : GetRequest.unmarshal b!"file TTH/X 0 -1 ZL1" ⟨[], [], 0, 0, false⟩ = .ok ⟨b!"file", b!"TTH/X", 0, -1, true⟩ := by decide +kernel

/-- **C69.** Lists of named parameters: every part has at least two bytes; the values are taken as they are. -/
theorem fields_reads (data : Bytes) (fs : Fields) :
    Fields.unmarshal data = .ok fs ↔ if data = [] then fs = [] else Parts c!" " data (fs.map (fun f => f.tag ++ f.value)) := by
  have loop : ∀ (ps : List Bytes) (mp : Fields), Fields.unmarshalLoop mp ps = .ok fs ↔
      ∃ gs : Fields, fs = mp ++ gs ∧ ps = gs.map (fun f => f.tag ++ f.value) := by
    intro ps
    induction ps with
    | nil =>
      intro mp
      simp only [Fields.unmarshalLoop, Res.ok.injEq]
      constructor
      · rintro rfl; exact ⟨[], by simp, rfl⟩
      · rintro ⟨gs, h, h2⟩
        cases gs with
        | nil => simp [h]
        | cons => simp at h2
    | cons p ps ih =>
      intro mp
      rw [Fields.unmarshalLoop]
      split
      · rename_i hp
        simp only [reduceCtorEq, false_iff]
        rintro ⟨gs, -, h2⟩
        cases gs with
        | nil => simp at h2
        | cons g gs =>
          simp only [List.map_cons, List.cons.injEq] at h2
          have := g.size
          rw [h2.1] at hp
          simp at hp
          omega
      · rename_i hp
        simp only [String.unmarshal]
        rw [ih]
        constructor
        · rintro ⟨gs, h1, h2⟩
          refine ⟨⟨p.take 2, by rw [List.length_take]; omega, p.drop 2⟩ :: gs, by simp [h1], ?_⟩
          simp [h2]
        · rintro ⟨gs, h1, h2⟩
          cases gs with
          | nil => simp at h2
          | cons g gs =>
            simp only [List.map_cons, List.cons.injEq] at h2
            refine ⟨gs, ?_, h2.2⟩
            rw [h1]
            obtain ⟨tag, size, value⟩ := g
            have : p.take 2 = tag ∧ p.drop 2 = value := by
              rw [h2.1]
              simp only
              rw [List.take_left' size, List.drop_left' size]
              exact ⟨rfl, rfl⟩
            simp [this]
  unfold Fields.unmarshal
  by_cases hd : data = []
  · simp [hd, eq_comm]
  · rw [if_neg (by simpa using hd), if_neg hd, loop, parts_iff]
    simp

/-- **C69.** Session ids are any four bytes. -/
theorem sid_reads (s : Bytes) (id : SID) : SID.unmarshal s = .ok id ↔ s = id.bytes := reads_iff s .sid (Kind.zero .sid) id

/-! ## C70: unknown parameters and their order -/

theorem valuesOf_eq_taggedVals {fs : List Fld} (hl : ∀ f ∈ fs, f.tag.length = 2) {a b : List Bytes}
    (h : ∀ f ∈ fs, valuesOf f.tag a = valuesOf f.tag b) : ∀ f ∈ fs, taggedVals f.tag a = taggedVals f.tag b := by
  intro f hf
  rw [taggedVals_eq _ (hl f hf), taggedVals_eq _ (hl f hf), h f hf]

theorem named_congr : ∀ (fs : List Fld) (a b : List Bytes) (cur : Row fs), (∀ f ∈ fs, f.tag.length = 2) →
    (∀ f ∈ fs, valuesOf f.tag a = valuesOf f.tag b) → unmarshalFields fs a cur = unmarshalFields fs b cur := by
  intro fs
  induction fs with
  | nil => intro a b cur _ _; rfl
  | cons f fs ih =>
    rintro a b ⟨cur, curs⟩ hl h
    have h2 := hl f (by simp)
    have ht : f.tag ≠ b!"#" := by intro h; rw [h] at h2; simp at h2
    have e1 := valuesOf_eq_taggedVals hl h f (by simp)
    have e2 := ih a b curs (fun g hg => hl g (by simp [hg])) (fun g hg => h g (by simp [hg]))
    simp only [unmarshalFields]
    rw [if_neg ht, if_neg ht, e1, e2]

theorem parts_congr : ∀ (fs : List Fld) (pos a b : List Bytes) (cur : Row fs), goodTable fs = true → pos.length = positions fs →
    (∀ f ∈ fs, f.tag ≠ b!"#" → valuesOf f.tag a = valuesOf f.tag b) →
    unmarshalFields fs (pos ++ a) cur = unmarshalFields fs (pos ++ b) cur := by
  intro fs
  induction fs with
  | nil => intro pos a b cur _ _ _; rfl
  | cons f fs ih =>
    rintro pos a b ⟨cur, curs⟩ hg hp h
    by_cases htag : f.tag = b!"#"
    · simp only [goodTable, htag, if_true, Bool.and_eq_true] at hg
      cases pos with
      | nil => simp [positions, htag] at hp
      | cons s pos =>
        have hp' : pos.length = positions fs := by
          simp only [positions, htag, List.filter_cons, decide_true, if_true, List.length_cons] at hp
          unfold positions; omega
        have e := ih pos a b curs hg.2 hp' (fun g hgm => h g (by simp [hgm]))
        simp only [unmarshalFields, List.cons_append]
        rw [if_pos htag, if_pos htag, e]
    · simp only [goodTable, htag, if_false, Bool.and_eq_true, List.all_eq_true, decide_eq_true_eq] at hg
      have hlen : ∀ g ∈ f :: fs, g.tag.length = 2 := fun g hgm => (hg.1 g hgm).1
      have hne : ∀ g ∈ f :: fs, g.tag ≠ b!"#" := by
        intro g hgm e; have := hlen g hgm; rw [e] at this; simp at this
      have : positions (f :: fs) = 0 := by
        simp only [positions, List.length_eq_zero_iff, List.filter_eq_nil_iff]
        intro g hgm
        simpa using hne g hgm
      rw [this, List.length_eq_zero_iff] at hp
      subst hp
      exact named_congr (f :: fs) a b (cur, curs) hlen (fun g hgm => h g hgm (hne g hgm))

/-- **C70.** After the parts for the fields with positions, only the values of the known tags matter, and for each tag their order:
two texts that agree in these are read alike, with the same result or the same error. -/
theorem named_only (t : StructType) (s s' : Bytes) (cur : Row t.fields) (pos a b : List Bytes) (hp : pos.length = positions t.fields)
    (hs : Parts c!" " s (pos ++ a)) (hs' : Parts c!" " s' (pos ++ b))
    (h : ∀ f ∈ t.fields, f.tag ≠ b!"#" → valuesOf f.tag a = valuesOf f.tag b) :
    (Msg.struct t cur).unmarshalTo s = (Msg.struct t cur).unmarshalTo s' := by
  rw [parts_iff] at hs hs'
  simp only [Msg.unmarshalTo, unmarshalRow, hs, hs', parts_congr t.fields pos a b cur (tables_good t) hp h]

theorem valuesOf_append (tag : Bytes) (a b : List Bytes) : valuesOf tag (a ++ b) = valuesOf tag a ++ valuesOf tag b := by
  simp [valuesOf]

/-- **C70.** A parameter with an unknown tag, wherever it stands among the parameters with tags, is ignored. -/
theorem unknown_ignored (t : StructType) (s s' : Bytes) (cur : Row t.fields) (pos a b : List Bytes) (p : Bytes)
    (hp : pos.length = positions t.fields) (hs : Parts c!" " s (pos ++ (a ++ p :: b))) (hs' : Parts c!" " s' (pos ++ (a ++ b)))
    (h : ∀ f ∈ t.fields, f.tag ≠ b!"#" → ¬ f.tag <+: p) :
    (Msg.struct t cur).unmarshalTo s = (Msg.struct t cur).unmarshalTo s' := by
  refine named_only t s s' cur pos _ _ hp hs hs' ?_
  intro f hf ht
  rw [valuesOf_append, valuesOf_append, ← List.singleton_append, valuesOf_append]
  have : valuesOf f.tag [p] = [] := by simp [valuesOf, h f hf ht]
  rw [this, List.nil_append]

example : (Msg.struct .chat (Row.zero _)).unmarshalTo b!"hi XXyy PMAAAB" = (Msg.struct .chat (Row.zero _)).unmarshalTo b!"hi PMAAAB" := by
  refine unknown_ignored .chat _ _ _ [b!"hi"] [] [b!"PMAAAB"] b!"XXyy" (by decide +kernel) ?_ ?_ (by decide +kernel)
  · rw [parts_iff]; decide +kernel
  · rw [parts_iff]; decide +kernel

/-- **C70.** Two neighbours with different tags can change places. -/
theorem order_irrelevant (t : StructType) (s s' : Bytes) (cur : Row t.fields) (pos a b : List Bytes) (p q : Bytes)
    (hp : pos.length = positions t.fields) (hs : Parts c!" " s (pos ++ (a ++ p :: q :: b)))
    (hs' : Parts c!" " s' (pos ++ (a ++ q :: p :: b))) (h : p.take 2 ≠ q.take 2) :
    (Msg.struct t cur).unmarshalTo s = (Msg.struct t cur).unmarshalTo s' := by
  refine named_only t s s' cur pos _ _ hp hs hs' ?_
  intro f hf ht
  have hlen : f.tag.length = 2 := by
    have : t.fields.all (fun f => f.tag == b!"#" || f.tag.length == 2) = true := by cases t <;> decide +kernel
    have := List.all_eq_true.mp this f hf
    simpa [ht] using this
  have take : ∀ {x : Bytes}, f.tag <+: x → x.take 2 = f.tag := by
    rintro x ⟨y, rfl⟩; rw [← hlen, List.take_left]
  rw [valuesOf_append, valuesOf_append]
  congr 1
  simp only [valuesOf, List.filter_cons]
  by_cases h1 : f.tag <+: p <;> by_cases h2 : f.tag <+: q
  · exact absurd ((take h1).trans (take h2).symm) h
  · simp [h1, h2]
  · simp [h1, h2]
  · simp [h1, h2]

/-! ## Feature changes -/

theorem modAssign_ok (st : Bool) : ∀ (names : List Bytes) (m m' : FeaList), modAssign m st names = .ok m' ↔
    ∃ fs : List Feature, names = fs.map Feature.bytes ∧ m' = fs.foldl (fun m f => m.assign f st) m := by
  intro names
  induction names with
  | nil =>
    intro m m'
    simp only [modAssign, Res.ok.injEq]
    constructor
    · rintro rfl; exact ⟨[], rfl, rfl⟩
    · rintro ⟨fs, h, rfl⟩
      cases fs with
      | nil => rfl
      | cons => simp at h
  | cons n names ih =>
    intro m m'
    simp only [modAssign, Res.bind_eq_ok, ih]
    constructor
    · rintro ⟨f, hf, fs, rfl, rfl⟩
      refine ⟨f :: fs, ?_, rfl⟩
      unfold Feature.unmarshal at hf
      split at hf
      · cases hf; rfl
      · cases hf
    · rintro ⟨fs, h, rfl⟩
      cases fs with
      | nil => simp at h
      | cons f fs =>
        simp only [List.map_cons, List.cons.injEq] at h
        exact ⟨f, by rw [h.1]; exact feature_roundtrip f, fs, h.2, rfl⟩

theorem foldl_assign_get (st : Bool) (k : Feature) : ∀ (fs : List Feature) (m : FeaList),
    FeaList.get (fs.foldl (fun m f => m.assign f st) m) k = if k ∈ fs then some st else m.get k := by
  intro fs
  induction fs with
  | nil => simp
  | cons f fs ih =>
    intro m
    rw [List.foldl_cons, ih, AdcFeatures.get_assign]
    by_cases h1 : k ∈ fs
    · simp [h1]
    · by_cases h2 : k = f <;> simp [h1, h2]

/-- **C69.** Feature changes: the parts that begin with `AD` or `RM` name features of four bytes, after unescaping; other parts are
ignored. Features that are added are on, features that are only removed are off, the others stay as they were. -/
theorem features_reads (s : Bytes) (cur : ModFeatures) :
    (∀ m, ModFeatures.unmarshal s cur = .ok m → ∃ (parts : List Bytes) (adds rms : List Feature), Parts c!" " s parts ∧
      (valuesOf b!"AD" parts).map unescape = adds.map Feature.bytes ∧ (valuesOf b!"RM" parts).map unescape = rms.map Feature.bytes ∧
      ∀ k, m.get k = if k ∈ adds then some true else if k ∈ rms then some false else cur.get k) ∧
    ((∃ m, ModFeatures.unmarshal s cur = .ok m) ↔ ∃ (parts : List Bytes) (adds rms : List Feature), Parts c!" " s parts ∧
      (valuesOf b!"AD" parts).map unescape = adds.map Feature.bytes ∧ (valuesOf b!"RM" parts).map unescape = rms.map Feature.bytes) := by
  have slices : ∀ ss : List Bytes, unmarshalSlice .str ss = .ok (ss.map unescape : List Bytes) := by
    intro ss
    induction ss with
    | nil => rfl
    | cons x ss ih =>
      have h1 : unmarshalValue x .str (Kind.zero .str) = .ok (unescape x : Bytes) :=
        (reads_iff x .str (Kind.zero .str) (unescape x : Bytes)).mpr (unescapes_self x)
      simp only [unmarshalSlice, h1, ih]
      rfl
  have tagged : ∀ ss : List Bytes, unmarshalTagged ss (.slice .str) (Kind.zero (.slice .str)) = .ok (ss.map unescape : List Bytes) := by
    intro ss
    cases ss with
    | nil => rfl
    | cons x ss => exact slices (x :: ss)
  have row : unmarshalRow modFields s (Row.zero modFields) =
      .ok (((valuesOf b!"AD" (split s c!" ")).map unescape : List Bytes), ((valuesOf b!"RM" (split s c!" ")).map unescape : List Bytes), ()) := by
    have h1 := tagged (valuesOf b!"AD" (split s c!" "))
    have h2 := tagged (valuesOf b!"RM" (split s c!" "))
    rw [← taggedVals_eq _ rfl] at h1 h2
    rw [← taggedVals_eq b!"AD" rfl, ← taggedVals_eq b!"RM" rfl]
    exact (unmarshalFields_named ⟨"Add", b!"AD", false, .slice .str⟩ [⟨"Rm", b!"RM", false, .slice .str⟩] (by decide) _ _ _ _ _).mpr
      ⟨by rw [h1, taggedVals_eq b!"AD" rfl], (unmarshalFields_named ⟨"Rm", b!"RM", false, .slice .str⟩ [] (by decide) _ _ _ _ _).mpr
        ⟨by rw [h2, taggedVals_eq b!"RM" rfl], rfl⟩⟩
  have main : ∀ m, ModFeatures.unmarshal s cur = .ok m ↔ ∃ adds rms : List Feature,
      (valuesOf b!"AD" (split s c!" ")).map unescape = adds.map Feature.bytes ∧
      (valuesOf b!"RM" (split s c!" ")).map unescape = rms.map Feature.bytes ∧
      m = some (adds.foldl (fun m f => m.assign f true) (rms.foldl (fun m f => m.assign f false) cur.entries)) := by
    intro m
    have e : ModFeatures.unmarshal s cur = (do
        let m ← modAssign cur.entries false ((valuesOf b!"RM" (split s c!" ")).map unescape)
        let m ← modAssign m true ((valuesOf b!"AD" (split s c!" ")).map unescape)
        .ok (some m)) := by rw [ModFeatures.unmarshal, row]; rfl
    rw [e]
    simp only [Res.bind_eq_ok, modAssign_ok, Res.ok.injEq]
    constructor
    · rintro ⟨m1, ⟨rms, h1, rfl⟩, m2, ⟨adds, h2, rfl⟩, rfl⟩
      exact ⟨adds, rms, h2, h1, rfl⟩
    · rintro ⟨adds, rms, h2, h1, rfl⟩
      exact ⟨_, ⟨rms, h1, rfl⟩, _, ⟨adds, h2, rfl⟩, rfl⟩
  constructor
  · intro m hm
    obtain ⟨adds, rms, h1, h2, rfl⟩ := (main m).mp hm
    refine ⟨split s c!" ", adds, rms, (parts_iff _ _ _).mpr rfl, h1, h2, ?_⟩
    intro k
    show FeaList.get (adds.foldl (fun m f => m.assign f true) (rms.foldl (fun m f => m.assign f false) cur.entries)) k = _
    rw [foldl_assign_get, foldl_assign_get]
    rfl
  · constructor
    · rintro ⟨m, hm⟩
      obtain ⟨adds, rms, h1, h2, -⟩ := (main m).mp hm
      exact ⟨split s c!" ", adds, rms, (parts_iff _ _ _).mpr rfl, h1, h2⟩
    · rintro ⟨parts, adds, rms, hp, h1, h2⟩
      rw [parts_iff] at hp
      subst hp
      exact ⟨_, (main _).mpr ⟨adds, rms, h1, h2, rfl⟩⟩

example : ModFeatures.unmarshal b!"ADBAS0 RMTIGR xx" (some [(⟨b!"TIGR", rfl⟩, true)]) =
    .ok (some [(⟨b!"TIGR", rfl⟩, false), (⟨b!"BAS0", rfl⟩, true)]) := by with_unfolding_all rfl

/-! ## Findings -/

/-- A number with a fraction is accepted and changes nothing. -/
theorem fraction_keeps (s : Bytes) (cur : Int) (h0 : s ≠ []) (hs : ¬ ∃ n, Numeral s n) (hf : ParseFloat.run s = .fraction) :
    unmarshalValue s .int cur = .ok cur := by
  refine (reads_iff s .int cur cur).mpr ?_
  show ReadsInt cur s cur
  unfold ReadsInt
  rw [if_neg h0]
  exact .inr ⟨hs, .inr ⟨hf, rfl⟩⟩

/-- A path is read behind what was there before. -/
theorem path_appends : Path.unmarshal b!"b" [b!"a"] = .ok [b!"a", b!"b"] := by decide +kernel

end Verif.Props.AdcWire

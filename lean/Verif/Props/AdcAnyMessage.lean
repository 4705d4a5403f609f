import Verif.Adc.Buffer
import Verif.Props.AdcPacketsIff
import Verif.Props.AdcLines

/-!
# C106: packets with messages of any type

A program may send messages of its own types.  `Adc/Buffer` models how they get into the buffer of a packet, and how the buffer is used
again for the next packet.
-/

namespace Verif.Props.AdcAnyMessage

open Verif.Go Verif.Adc Verif.Lineproto Verif.Props.AdcPackets

/-! ## Specification -/

/-- The method only writes behind what is in the buffer, and writes the same whatever is there.  A method that uses nothing but `Write`,
`WriteString`, `WriteByte` and the like does so. -/
def Plain (f : Put) : Prop := ∀ buf, f buf = ((f []).1, buf ++ (f []).2)

/-- The text that is written. -/
def text (f : Put) : Bytes := (f []).2

/-- The line of a packet: kind, command, addresses, then a space and the payload, unless it is empty, and the delimiter. -/
def lineFor (a : Address) (cmd : MsgType) (payload : Bytes) : Bytes :=
  a.kind :: cmd.bytes ++ addressOf (a.packet (.raw cmd payload)) ++ (if payload = [] then [] else c!" " :: payload) ++ b!"\n"

/-- The values of a struct that are written, with their tags: not those that are left out, and slices element by element.  The tag `#`
stands for no text. -/
def shown (fs : List AnyField) : List (Bytes × Put) :=
  fs.flatMap fun f =>
    if f.req = false ∧ f.tag ≠ b!"#" ∧ f.zero = some true then []
    else match f.content with
      | .one g => [(if f.tag = b!"#" then [] else f.tag, g)]
      | .many gs => gs.map fun g => (if f.tag = b!"#" then [] else f.tag, g)

/-- The values of the fields that may be left out can be compared. -/
def Comparable (fs : List AnyField) : Prop := ∀ f ∈ fs, f.req = false → f.tag ≠ b!"#" → f.zero ≠ none

/-- A value with its tag. -/
def tagged (x : Bytes × Put) : Bytes := x.1 ++ text x.2

/-- What a program sees of its calls, and the line writer. -/
def see {D : Type} (r : Exec (List Ending × AnyWriter D)) : Exec (List Ending × Writer D) :=
  match r with
  | .panic => .panic
  | .timeout => .timeout
  | .val (rs, w) => .val (rs, w.w)

/-- How a call ended that did not panic. -/
def Ending.err : Ending → Option Err
  | .returned e => e
  | .panicked => none

/-- The call in `Adc/Conn` that does the same: a packet is written with a raw message.  A packet that cannot be encoded
has none. -/
def asRaw : AnyOp → Option AOp
  | .packet a m =>
    match m.cmd, m.put [] with
    | some cmd, (.ok _, payload) => some (.packet (a.packet (.raw cmd payload)))
    | _, _ => none
  | .keepAlive => some .keepAlive
  | .flush => some .flush
  | .zOn lvl => some (.zOn lvl)
  | .zOff => some .zOff
  | .close => some .close

/-- The results of the calls that have one. -/
def picked : List AnyOp → List Ending → List (Option Err)
  | op :: ops, r :: rs => if (asRaw op).isSome then Ending.err r :: picked ops rs else picked ops rs
  | _, _ => []

/-! ## One packet -/

theorem lead_eq (a : Address) (cmd : MsgType) : a.lead cmd = a.kind :: cmd.bytes ++ addressOf (a.packet (.raw cmd [])) ++ b!" " := by
  unfold Address.lead
  rw [header_eq]
  simp

theorem address_same (a : Address) (cmd : MsgType) (p : Bytes) : addressOf (a.packet (.raw cmd p)) = addressOf (a.packet (.raw cmd [])) := by
  cases a <;> rfl

theorem set_last (l : Bytes) (x c : Byte) : (l ++ [x]).set l.length c = l ++ [c] := by
  induction l with
  | nil => rfl
  | cons y l ih => simp

/-- An accepted message: its line stands behind what was in the buffer. -/
theorem packet_line (a : Address) (m : AnyMsg) (hp : Plain m.put) {cmd : MsgType} (hc : m.cmd = some cmd) {u : Unit} (hok : (m.put []).1 = .ok u)
    (buf : Bytes) : a.marshalAny m buf = (.ok (), buf ++ lineFor a cmd (text m.put)) := by
  unfold Address.marshalAny
  rw [hc]
  dsimp only
  rw [hp, hok]
  dsimp only
  unfold lineFor text
  rw [address_same, lead_eq]
  by_cases ht : (m.put []).2 = []
  · rw [ht]
    simp only [List.append_nil, if_true]
    have e : buf ++ (a.kind :: cmd.bytes ++ addressOf (a.packet (.raw cmd [])) ++ b!" ") =
        (buf ++ (a.kind :: cmd.bytes ++ addressOf (a.packet (.raw cmd [])))) ++ [c!" "] := by simp
    rw [e, List.length_append, List.length_singleton, Nat.add_sub_cancel, set_last]
    simp
  · rw [if_neg ht, if_neg]
    · simp
    · have : (m.put []).2.length ≠ 0 := by simpa using ht
      simp only [List.length_append]
      omega

/-- A refused message: the error is that of the message, and the beginning of the line stays in the buffer. -/
theorem failed_packet (a : Address) (m : AnyMsg) (hp : Plain m.put) {cmd : MsgType} (hc : m.cmd = some cmd) (hok : ∀ u, (m.put []).1 ≠ .ok u)
    (buf : Bytes) : a.marshalAny m buf =
      ((m.put []).1, buf ++ (a.kind :: cmd.bytes ++ addressOf (a.packet (.raw cmd [])) ++ b!" ") ++ text m.put) := by
  unfold Address.marshalAny
  rw [hc]
  dsimp only
  rw [hp, ← lead_eq]
  unfold text
  cases h : (m.put []).1 with
  | ok u => exact absurd h (hok u)
  | err e => simp
  | panic => simp

/-- Without a command, as with a nil message, nothing is written at all. -/
theorem nil_packet (a : Address) (m : AnyMsg) (hc : m.cmd = none) (buf : Bytes) : a.marshalAny m buf = (.panic, buf) := by
  simp [Address.marshalAny, hc]

/-! ## Structs -/

/-- The values one after the other, with spaces between them. -/
def wr : List (Bytes × Put) → Bool → Put
  | [], _, buf => (.ok (), buf)
  | (t, g) :: r, first, buf =>
    match g (buf ++ (if first then [] else b!" ") ++ t) with
    | (.ok _, b) => wr r false b
    | (.err e, b) => (.err e, b)
    | (.panic, b) => (.panic, b)

theorem wr_many (tag : Bytes) (rest : List (Bytes × Put)) : ∀ (gs : List Put) (first : Bool) (buf : Bytes),
    wr (gs.map (fun g => (if tag = b!"#" then [] else tag, g)) ++ rest) first buf =
      match manyInto tag gs first buf with
      | (.ok _, b, f) => wr rest f b
      | (.err e, b, _) => (.err e, b)
      | (.panic, b, _) => (.panic, b) := by
  intro gs
  induction gs with
  | nil => intro first buf; rfl
  | cons g gs ih =>
    intro first buf
    have e : buf ++ writeTag first tag = buf ++ (if first then [] else b!" ") ++ (if tag = b!"#" then [] else tag) := by
      unfold writeTag
      by_cases h : tag = b!"#" <;> simp [h]
    simp only [List.map_cons, List.cons_append, wr, manyInto, e]
    cases hg : g (buf ++ (if first then [] else b!" ") ++ (if tag = b!"#" then [] else tag)) with
    | mk r b =>
      cases r with
      | ok u => exact ih false b
      | err e => rfl
      | panic => rfl

theorem fields_wr : ∀ (fs : List AnyField), Comparable fs → ∀ (first : Bool) (buf : Bytes), fieldsInto fs first buf = wr (shown fs) first buf := by
  intro fs
  induction fs with
  | nil => intro _ first buf; rfl
  | cons f fs ih =>
    intro hc first buf
    have ih := ih (fun g hg => hc g (List.mem_cons_of_mem _ hg))
    have hf := hc f List.mem_cons_self
    have go : ∀ b, (match f.into first b with | (.ok _, buf, first) => fieldsInto fs first buf | (r, buf, _) => (r, buf)) =
        wr ((match f.content with
          | .one g => [(if f.tag = b!"#" then [] else f.tag, g)]
          | .many gs => gs.map fun g => (if f.tag = b!"#" then [] else f.tag, g)) ++ shown fs) first b := by
      intro b
      unfold AnyField.into
      cases f.content with
      | one g =>
        have e : b ++ writeTag first f.tag = b ++ (if first then [] else b!" ") ++ (if f.tag = b!"#" then [] else f.tag) := by
          unfold writeTag
          by_cases h : f.tag = b!"#" <;> simp [h]
        simp only [List.cons_append, List.nil_append, wr, e]
        cases hg : g (b ++ (if first then [] else b!" ") ++ (if f.tag = b!"#" then [] else f.tag)) with
        | mk r b =>
          cases r with
          | ok u => exact ih false b
          | err e => rfl
          | panic => rfl
      | many gs =>
        simp only [wr_many]
        cases hm : manyInto f.tag gs first b with
        | mk r x =>
          cases r with
          | ok u => exact ih _ _
          | err e => rfl
          | panic => rfl
    have hs : shown (f :: fs) = (if f.req = false ∧ f.tag ≠ b!"#" ∧ f.zero = some true then []
        else match f.content with
          | .one g => [(if f.tag = b!"#" then [] else f.tag, g)]
          | .many gs => gs.map fun g => (if f.tag = b!"#" then [] else f.tag, g)) ++ shown fs := by
      simp [shown]
    rw [hs]
    unfold fieldsInto
    by_cases h1 : f.req = true
    · have ho : f.omit = false := by simp [AnyField.omit, h1]
      rw [ho, if_neg (show ¬ (f.req = false ∧ f.tag ≠ b!"#" ∧ f.zero = some true) by simp [h1])]
      exact go buf
    · have h1' : f.req = false := by simpa using h1
      by_cases h2 : f.tag = b!"#"
      · have ho : f.omit = false := by simp [AnyField.omit, h2]
        rw [ho, if_neg (show ¬ (f.req = false ∧ f.tag ≠ b!"#" ∧ f.zero = some true) by simp [h2])]
        exact go buf
      · have h3 := hf h1' h2
        have ho : f.omit = true := by simp [AnyField.omit, h1', h2]
        rw [ho]
        cases hz : f.zero with
        | none => exact absurd hz h3
        | some z =>
          cases z with
          | true =>
            rw [if_pos (show f.req = false ∧ f.tag ≠ b!"#" ∧ some true = some true from ⟨h1', h2, rfl⟩)]
            exact ih first buf
          | false =>
            rw [if_neg (show ¬ (f.req = false ∧ f.tag ≠ b!"#" ∧ some false = some true) by simp)]
            exact go buf

theorem wr_ok : ∀ (xs : List (Bytes × Put)), (∀ x ∈ xs, Plain x.2 ∧ (x.2 []).1 = .ok ()) → ∀ (r : List (Bytes × Put)) (first : Bool) (buf : Bytes), xs ≠ [] →
    wr (xs ++ r) first buf = wr r false (buf ++ (if first then [] else b!" ") ++ b!" ".intercalate (xs.map tagged)) := by
  intro xs
  induction xs with
  | nil => intro _ _ _ _ h; exact absurd rfl h
  | cons x xs ih =>
    intro h r first buf _
    obtain ⟨hp, ho⟩ := h x List.mem_cons_self
    obtain ⟨t, g⟩ := x
    dsimp only at hp ho
    have e : wr ((t, g) :: xs ++ r) first buf = wr (xs ++ r) false (buf ++ (if first then [] else b!" ") ++ t ++ (g []).2) := by
      simp only [List.cons_append, wr]
      rw [hp, ho]
    rw [e]
    cases xs with
    | nil => simp [tagged, text]
    | cons y ys =>
      rw [ih (fun z hz => h z (List.mem_cons_of_mem _ hz)) r false _ (by simp)]
      simp [tagged, text, List.intercalate]

/-- A struct is written as its values with their tags, in the order of the struct, with spaces between them. -/
theorem struct_text (fs : List AnyField) (hc : Comparable fs) (h : ∀ x ∈ shown fs, Plain x.2 ∧ (x.2 []).1 = .ok ()) (buf : Bytes) :
    fieldsInto fs true buf = (.ok (), buf ++ b!" ".intercalate ((shown fs).map tagged)) := by
  rw [fields_wr fs hc]
  by_cases hs : shown fs = []
  · simp [hs, wr, List.intercalate]
  · have := wr_ok (shown fs) h [] true buf hs
    rw [List.append_nil] at this
    rw [this]
    simp [wr]

/-- If one of the values is refused, the values before it are in the buffer, then its tag and what its method has written. -/
theorem struct_failed (fs : List AnyField) (hc : Comparable fs) (pre post : List (Bytes × Put)) (t : Bytes) (g : Put) (hs : shown fs = pre ++ (t, g) :: post)
    (h : ∀ x ∈ pre, Plain x.2 ∧ (x.2 []).1 = .ok ()) (hg : Plain g) (hn : ∀ u, (g []).1 ≠ .ok u) (buf : Bytes) :
    fieldsInto fs true buf = ((g []).1, buf ++ (pre.map fun x => tagged x ++ b!" ").flatten ++ t ++ text g) := by
  rw [fields_wr fs hc, hs]
  have last : ∀ (first : Bool) (b : Bytes), wr ((t, g) :: post) first b = ((g []).1, b ++ (if first then [] else b!" ") ++ t ++ text g) := by
    intro first b
    simp only [wr]
    rw [hg]
    cases hx : (g []).1 with
    | ok u => exact absurd hx (hn u)
    | err e => simp [text]
    | panic => simp [text]
  by_cases hp : pre = []
  · subst hp
    rw [List.nil_append, last]
    simp
  · rw [wr_ok pre h _ true buf hp, last]
    have : ∀ xs : List (Bytes × Put), xs ≠ [] → b!" ".intercalate (xs.map tagged) ++ b!" " = (xs.map fun x => tagged x ++ b!" ").flatten := by
      intro xs
      induction xs with
      | nil => intro h; exact absurd rfl h
      | cons x xs ih =>
        intro _
        cases xs with
        | nil => simp [List.intercalate]
        | cons y ys =>
          have := ih (by simp)
          simp only [List.map_cons, List.flatten_cons] at this ⊢
          rw [← this]
          simp [List.intercalate]
    have h2 := this pre hp
    simp only [if_true, List.append_nil, Bool.false_eq_true, if_false]
    rw [← h2]
    simp

/-! ## The messages of the library -/

theorem value_eq (k : Kind) (v : k.T) (buf : Bytes) : Put.value k v buf =
    match marshalValue k v with
    | .ok b => (.ok (), buf ++ b)
    | .err e => (.err e, buf)
    | .panic => (.panic, buf) := rfl

theorem many_eq (tag : Bytes) (k : Kind) : ∀ (vs : List k.T) (first : Bool) (buf : Bytes),
    match marshalSlice tag k first vs with
    | .ok (b, f) => manyInto tag (vs.map (Put.value k)) first buf = (.ok (), buf ++ b, f)
    | .err e => (manyInto tag (vs.map (Put.value k)) first buf).1 = .err e
    | .panic => (manyInto tag (vs.map (Put.value k)) first buf).1 = .panic := by
  intro vs
  induction vs with
  | nil => intro first buf; simp [marshalSlice, manyInto]
  | cons v vs ih =>
    intro first buf
    simp only [marshalSlice, List.map_cons, manyInto, value_eq]
    cases hv : marshalValue k v with
    | panic => rfl
    | err e => rfl
    | ok b =>
      simp only [Res.ok_bind]
      have := ih false (buf ++ writeTag first tag ++ b)
      cases hs : marshalSlice tag k false vs with
      | panic => rw [hs] at this; exact this
      | err e => rw [hs] at this; exact this
      | ok x =>
        obtain ⟨bs, f⟩ := x
        rw [hs] at this
        simp only [Res.ok_bind]
        rw [this]
        simp

theorem one_field (tag : Bytes) (req : Bool) (z : Option Bool) (k : Kind) (v : k.T) (first : Bool) (buf : Bytes) :
    match (do let b ← marshalValue k v; .ok (writeTag first tag ++ b, false) : Res (Bytes × Bool)) with
    | .ok (b, f) => (AnyField.mk tag req z (.one (Put.value k v))).into first buf = (.ok (), buf ++ b, f)
    | .err e => ((AnyField.mk tag req z (.one (Put.value k v))).into first buf).1 = .err e
    | .panic => ((AnyField.mk tag req z (.one (Put.value k v))).into first buf).1 = .panic := by
  unfold AnyField.into
  simp only [value_eq]
  cases marshalValue k v with
  | panic => rfl
  | err e => rfl
  | ok b => simp [Res.ok_bind]

theorem field_eq (name : String) (tag : Bytes) (req : Bool) (k : Kind) (v : k.T) (first : Bool) (buf : Bytes) :
    match marshalField tag first k v with
    | .ok (b, f) => ((Fld.mk name tag req k).any v).into first buf = (.ok (), buf ++ b, f)
    | .err e => (((Fld.mk name tag req k).any v).into first buf).1 = .err e
    | .panic => (((Fld.mk name tag req k).any v).into first buf).1 = .panic := by
  cases k with
  | slice k =>
    by_cases ht : tag = b!"#"
    · simp [marshalField, Fld.any, anyContent, AnyField.into, ht]
    · have := many_eq tag k v first buf
      simp only [marshalField, Fld.any, anyContent, AnyField.into, ne_eq, ht, not_false_eq_true, if_true]
      exact this
  | str => exact one_field tag req _ _ v first buf
  | int => exact one_field tag req _ _ v first buf
  | bool => exact one_field tag req _ _ v first buf
  | sid => exact one_field tag req _ _ v first buf
  | cid => exact one_field tag req _ _ v first buf
  | tth => exact one_field tag req _ _ v first buf
  | feats => exact one_field tag req _ _ v first buf
  | path => exact one_field tag req _ _ v first buf
  | ptr k => exact one_field tag req _ _ v first buf

/-- A struct with fields of the types of the library, whatever its table of fields is, ends up in the buffer as the model of `Marshal`
says; if that fails, it fails here with the same error. -/
theorem struct_known : ∀ (fs : List Fld) (row : Row fs) (first : Bool) (buf : Bytes),
    match marshalFields fs first row with
    | .ok b => fieldsInto (anyFields fs row) first buf = (.ok (), buf ++ b)
    | .err e => (fieldsInto (anyFields fs row) first buf).1 = .err e
    | .panic => (fieldsInto (anyFields fs row) first buf).1 = .panic := by
  intro fs
  induction fs with
  | nil => intro row first buf; simp [marshalFields, anyFields, fieldsInto]
  | cons f fs ih =>
    rintro ⟨v, row⟩ first buf
    have ho : (f.any v).omit = f.omit := rfl
    have hz : (f.any v).zero = some (isZero f.kind v) := rfl
    simp only [marshalFields, anyFields, fieldsInto, ho, hz]
    have go : match (do
          let (b, first') ← marshalField f.tag first f.kind v
          let rest ← marshalFields fs first' row
          .ok (b ++ rest) : Res Bytes) with
        | .ok b => (match (f.any v).into first buf with | (.ok _, buf, first) => fieldsInto (anyFields fs row) first buf | (r, buf, _) => (r, buf)) = (.ok (), buf ++ b)
        | .err e => (match (f.any v).into first buf with | (.ok _, buf, first) => fieldsInto (anyFields fs row) first buf | (r, buf, _) => (r, buf)).1 = .err e
        | .panic => (match (f.any v).into first buf with | (.ok _, buf, first) => fieldsInto (anyFields fs row) first buf | (r, buf, _) => (r, buf)).1 = .panic := by
      have h := field_eq f.name f.tag f.req f.kind v first buf
      cases hm : marshalField f.tag first f.kind v with
      | panic =>
        rw [hm] at h
        change ((f.any v).into first buf).1 = .panic at h
        rcases hi : (f.any v).into first buf with ⟨r, b, fl⟩
        rw [hi] at h
        dsimp only at h
        subst h
        rfl
      | err e =>
        rw [hm] at h
        change ((f.any v).into first buf).1 = .err e at h
        rcases hi : (f.any v).into first buf with ⟨r, b, fl⟩
        rw [hi] at h
        dsimp only at h
        subst h
        rfl
      | ok x =>
        obtain ⟨b, fl⟩ := x
        rw [hm] at h
        change (f.any v).into first buf = (.ok (), buf ++ b, fl) at h
        rw [h]
        simp only [Res.ok_bind]
        have := ih row fl (buf ++ b)
        cases hf : marshalFields fs fl row with
        | panic => rw [hf] at this; exact this
        | err e => rw [hf] at this; exact this
        | ok rest =>
          rw [hf] at this
          simp only [Res.ok_bind]
          rw [this]
          simp
    cases f.omit with
    | false => exact go
    | true =>
      cases isZero f.kind v with
      | false => exact go
      | true => exact ih row first buf

/-- The messages of the library are written as the model of values says, which never fails. -/
theorem known_message (m : Msg) : m.any.cmd = some m.cmd ∧ ∃ b, m.marshal = .ok b ∧ ∀ buf, m.any.put buf = (.ok (), buf ++ b) := by
  obtain ⟨b, hb⟩ := AdcLines.message_encodes m
  refine ⟨by cases m <;> rfl, b, hb, ?_⟩
  intro buf
  cases m with
  | struct t row =>
    have h := struct_known t.fields row true buf
    have hb' : marshalFields t.fields true row = .ok b := hb
    rw [hb'] at h
    exact h
  | raw => cases hb; rfl
  | supported => cases hb; rfl
  | status => cases hb; rfl
  | zon => cases hb; rfl
  | zoff => cases hb; rfl
  | get => cases hb; rfl
  | snd => cases hb; rfl
  | sidAssign => cases hb; rfl
  | getPassword => cases hb; rfl
  | infoMod => cases hb; rfl

/-! ## Writers -/

variable {D : Type} (C : Deflater D)

/-- What is in the buffer of the writer before a call does not matter. -/
theorem step_mbuf (b1 b2 : Bytes) (lw : Writer D) (op : AnyOp) :
    (match (AnyWriter.mk b1 lw).step C op with | .panic => .panic | .timeout => .timeout | .val (r, w) => .val (r, w.w) : Exec (Ending × Writer D)) =
      match (AnyWriter.mk b2 lw).step C op with | .panic => .panic | .timeout => .timeout | .val (r, w) => .val (r, w.w) := by
  cases op with
  | packet a m =>
    simp only [AnyWriter.step, AnyWriter.writePacket, List.take_zero]
  | keepAlive => simp only [AnyWriter.step, AnyWriter.step.onLines]; cases writeKeepAlive C lw <;> rfl
  | flush => simp only [AnyWriter.step, AnyWriter.step.onLines]; cases lw.flush C <;> rfl
  | zOn l => simp only [AnyWriter.step, AnyWriter.step.onLines]; cases lw.enableZlib C l <;> rfl
  | zOff => simp only [AnyWriter.step, AnyWriter.step.onLines]; cases lw.disableZlib C <;> rfl
  | close => simp only [AnyWriter.step, AnyWriter.step.onLines]; cases lw.close C <;> rfl

theorem see_cons (w : AnyWriter D) (op : AnyOp) (ops : List AnyOp) : see (w.run C (op :: ops)) =
    match w.step C op with
    | .panic => .panic
    | .timeout => .timeout
    | .val (r, w) => match see (w.run C ops) with | .panic => .panic | .timeout => .timeout | .val (rs, lw) => .val (r :: rs, lw) := by
  simp only [AnyWriter.run]
  cases w.step C op with
  | panic => rfl
  | timeout => rfl
  | val x =>
    obtain ⟨r, w⟩ := x
    dsimp only
    cases w.run C ops <;> rfl

/-- The results of a program do not depend on what earlier packets, accepted or not, have left in the buffer of the writer. -/
theorem run_mbuf (ops : List AnyOp) : ∀ (b1 b2 : Bytes) (lw : Writer D), see ((AnyWriter.mk b1 lw).run C ops) = see ((AnyWriter.mk b2 lw).run C ops) := by
  induction ops with
  | nil => intro b1 b2 lw; rfl
  | cons op ops ih =>
    intro b1 b2 lw
    rw [see_cons, see_cons]
    have h := step_mbuf C b1 b2 lw op
    cases h1 : (AnyWriter.mk b1 lw).step C op with
    | panic => rw [h1] at h; cases h2 : (AnyWriter.mk b2 lw).step C op <;> rw [h2] at h <;> first | rfl | cases h
    | timeout => rw [h1] at h; cases h2 : (AnyWriter.mk b2 lw).step C op <;> rw [h2] at h <;> first | rfl | cases h
    | val x =>
      rw [h1] at h
      cases h2 : (AnyWriter.mk b2 lw).step C op with
      | panic => rw [h2] at h; cases h
      | timeout => rw [h2] at h; cases h
      | val y =>
        rw [h2] at h
        obtain ⟨r, c1, w⟩ := x
        obtain ⟨r2, c2, w2⟩ := y
        cases h
        dsimp only
        rw [ih c1 c2 w]

/-- A packet that cannot be encoded, or whose encoding panics and the program recovers, leaves no trace: the other calls end as they would
without it, and the line writer, with all that has been sent, is the same. -/
theorem no_trace (xs ys : List AnyOp) (a : Address) (m : AnyMsg) (hf : ∀ u, (a.marshalAny m []).1 ≠ .ok u) (w : AnyWriter D) :
    ∃ e, see (w.run C (xs ++ .packet a m :: ys)) =
      match see (w.run C (xs ++ ys)) with
      | .panic => .panic
      | .timeout => .timeout
      | .val (rs, lw) => .val (rs.take xs.length ++ e :: rs.drop xs.length, lw) := by
  have hstep : ∃ e, ∀ w : AnyWriter D, ∃ b, w.step C (.packet a m) = .val (e, ⟨b, w.w⟩) := by
    cases h : (a.marshalAny m []).1 with
    | ok u => exact absurd h (hf u)
    | err e =>
      refine ⟨.returned (some e), fun w => ⟨(a.marshalAny m []).2, ?_⟩⟩
      simp only [AnyWriter.step, AnyWriter.writePacket, List.take_zero]
      rw [← Prod.eta (a.marshalAny m []), h]
    | panic =>
      refine ⟨.panicked, fun w => ⟨(a.marshalAny m []).2, ?_⟩⟩
      simp only [AnyWriter.step, AnyWriter.writePacket, List.take_zero]
      rw [← Prod.eta (a.marshalAny m []), h]
  obtain ⟨e, he⟩ := hstep
  refine ⟨e, ?_⟩
  induction xs generalizing w with
  | nil =>
    obtain ⟨b, hb⟩ := he w
    rw [List.nil_append, List.nil_append, see_cons, hb]
    dsimp only
    rw [run_mbuf C ys b w.mbuf w.w]
    rfl
  | cons x xs ih =>
    rw [List.cons_append, List.cons_append, see_cons, see_cons]
    cases w.step C x with
    | panic => rfl
    | timeout => rfl
    | val y =>
      obtain ⟨r, w'⟩ := y
      dsimp only
      rw [ih w']
      cases see (w'.run C (xs ++ ys)) <;> rfl

/-- A program that writes messages of any types does what a program does that writes raw messages with the same commands and payloads, and
leaves out those that cannot be encoded: the errors, the line writer, and with it all that is sent, are the same.  With this the theorems
about packets with raw messages hold for messages of all types. -/
theorem same_wire : ∀ (ops : List AnyOp), (∀ a m, AnyOp.packet a m ∈ ops → Plain m.put) → ∀ w : AnyWriter D,
    aRun C (ops.filterMap asRaw) w.w =
      match see (w.run C ops) with
      | .panic => .panic
      | .timeout => .timeout
      | .val (rs, lw) => .val (picked ops rs, lw) := by
  intro ops
  induction ops with
  | nil => intro _ w; rfl
  | cons op ops ih =>
    intro hp w
    have ih := ih (fun a m h => hp a m (List.mem_cons_of_mem _ h))
    rw [see_cons]
    -- a call of the line writer
    have plain : ∀ (o : AOp) (r : Exec (Option Err × Writer D)), asRaw op = some o → aStep C o w.w = r →
        w.step C op = AnyWriter.step.onLines w r → aRun C ((op :: ops).filterMap asRaw) w.w =
          match (match w.step C op with
            | .panic => .panic
            | .timeout => .timeout
            | .val (r, w) => match see (w.run C ops) with | .panic => .panic | .timeout => .timeout | .val (rs, lw) => .val (r :: rs, lw) : Exec (List Ending × Writer D)) with
          | .panic => .panic
          | .timeout => .timeout
          | .val (rs, lw) => .val (picked (op :: ops) rs, lw) := by
      intro o r h1 h2 h3
      rw [List.filterMap_cons_some h1]
      simp only [aRun]
      rw [h2, h3]
      unfold AnyWriter.step.onLines
      cases r with
      | panic => rfl
      | timeout => rfl
      | val x =>
        obtain ⟨e, lw⟩ := x
        dsimp only
        have := ih { w with w := lw }
        dsimp only at this
        rw [this]
        cases see (AnyWriter.run C { w with w := lw } ops) with
        | panic => rfl
        | timeout => rfl
        | val y =>
          obtain ⟨rs, lw2⟩ := y
          simp [picked, h1, Ending.err]
    cases op with
    | keepAlive => exact plain _ _ rfl rfl rfl
    | flush => exact plain _ _ rfl rfl rfl
    | zOn l => exact plain _ _ rfl rfl rfl
    | zOff => exact plain _ _ rfl rfl rfl
    | close => exact plain _ _ rfl rfl rfl
    | packet a m =>
      have hpl := hp a m List.mem_cons_self
      -- a packet that is not written
      have skip : ∀ e, asRaw (.packet a m) = none → (∃ b, w.step C (.packet a m) = .val (e, ⟨b, w.w⟩)) → aRun C ((.packet a m :: ops).filterMap asRaw) w.w =
          match (match w.step C (.packet a m) with
            | .panic => .panic
            | .timeout => .timeout
            | .val (r, w) => match see (w.run C ops) with | .panic => .panic | .timeout => .timeout | .val (rs, lw) => .val (r :: rs, lw) : Exec (List Ending × Writer D)) with
          | .panic => .panic
          | .timeout => .timeout
          | .val (rs, lw) => .val (picked (.packet a m :: ops) rs, lw) := by
        rintro e h1 ⟨b, h2⟩
        rw [List.filterMap_cons_none h1, h2]
        dsimp only
        have := ih ⟨b, w.w⟩
        dsimp only at this
        rw [this]
        cases see (AnyWriter.run C ⟨b, w.w⟩ ops) with
        | panic => rfl
        | timeout => rfl
        | val y =>
          obtain ⟨rs, lw2⟩ := y
          simp [picked, h1]
      cases hc : m.cmd with
      | none =>
        refine skip .panicked (by simp [asRaw, hc]) ⟨[], ?_⟩
        simp [AnyWriter.step, AnyWriter.writePacket, nil_packet a m hc]
      | some cmd =>
        cases ho : (m.put []).1 with
        | err e =>
          refine skip (.returned (some e)) ?_ ⟨(a.marshalAny m []).2, ?_⟩
          · simp only [asRaw, hc]
            rw [← Prod.eta (m.put []), ho]
          · simp only [AnyWriter.step, AnyWriter.writePacket, List.take_zero]
            rw [← Prod.eta (a.marshalAny m []), failed_packet a m hpl hc (by simp [ho]), ho]
        | panic =>
          refine skip .panicked ?_ ⟨(a.marshalAny m []).2, ?_⟩
          · simp only [asRaw, hc]
            rw [← Prod.eta (m.put []), ho]
          · simp only [AnyWriter.step, AnyWriter.writePacket, List.take_zero]
            rw [← Prod.eta (a.marshalAny m []), failed_packet a m hpl hc (by simp [ho]), ho]
        | ok u =>
          have h1 : asRaw (.packet a m) = some (.packet (a.packet (.raw cmd (text m.put)))) := by
            simp only [asRaw, hc]
            rw [← Prod.eta (m.put []), ho]
            rfl
          have hm : (a.packet (.raw cmd (text m.put))).marshal = .ok (lineFor a cmd (text m.put)) := by
            rw [marshal_eq _ cmd (text m.put) (by cases a <;> rfl)]
            have hk : (a.packet (.raw cmd (text m.put))).kind = a.kind := by cases a <;> rfl
            rw [hk]
            unfold lineFor tailOf
            split <;> simp
          rw [List.filterMap_cons_some h1]
          simp only [aRun, aStep, writePacket, hm]
          simp only [AnyWriter.step, AnyWriter.writePacket, List.take_zero]
          rw [packet_line a m hpl hc ho, List.nil_append]
          dsimp only
          cases w.w.writeLine C (lineFor a cmd (text m.put)) with
          | panic => rfl
          | timeout => rfl
          | val x =>
            obtain ⟨e, lw⟩ := x
            dsimp only
            have := ih ⟨lineFor a cmd (text m.put), lw⟩
            dsimp only at this
            rw [this]
            cases see (AnyWriter.run C ⟨lineFor a cmd (text m.put), lw⟩ ops) with
            | panic => rfl
            | timeout => rfl
            | val y =>
              obtain ⟨rs, lw2⟩ := y
              simp [picked, h1, Ending.err]

/-- What is read back from the line of a packet with a message of any type is the packet with the raw message of its command and payload,
exactly if there is no NUL byte in it and, in a feature packet, the payload does not look like a selector. -/
theorem read_back (a : Address) (m : AnyMsg) (hp : Plain m.put) {cmd : MsgType} (hc : m.cmd = some cmd) {u : Unit} (hok : (m.put []).1 = .ok u)
    (room : Nat) : decodePacketRaw room (a.marshalAny m []).2 = .ok (a.packet (.raw cmd (text m.put))) ↔
      PacketOk (a.packet (.raw cmd (text m.put))) cmd (text m.put) := by
  have hr : (a.packet (.raw cmd (text m.put))).message = .raw cmd (text m.put) := by cases a <;> rfl
  rw [← AdcPacketsIff.packet_roundtrip_iff room _ cmd (text m.put) hr, packet_line a m hp hc hok]
  have hm : (a.packet (.raw cmd (text m.put))).marshal = .ok (lineFor a cmd (text m.put)) := by
    rw [marshal_eq _ cmd (text m.put) hr]
    have hk : (a.packet (.raw cmd (text m.put))).kind = a.kind := by cases a <;> rfl
    rw [hk]
    unfold lineFor tailOf
    split <;> simp
  rw [hm]
  constructor
  · intro h; exact ⟨_, rfl, h⟩
  · rintro ⟨l, hl, h⟩; cases hl; exact h

/-! ## Examples -/

/-- A message of a program that writes some text and then fails if it is to. -/
def half (b : Bytes) (fails : Bool) : Put := fun buf => (if fails then .err (.other 900) else .ok (), buf ++ b)

theorem half_plain (b : Bytes) (fails : Bool) : Plain (half b fails) := fun buf => by simp [half]

/-- A struct with a positional text, a field that is left out, one that is not, a slice with its own type, and a required one. -/
def fields0 (fails : Bool) : List AnyField :=
  [⟨b!"#", false, some true, .one (half b!"a" false)⟩, ⟨b!"XX", false, some true, .one (half b!"b" false)⟩,
   ⟨b!"YY", false, some false, .one (half b!"c" false)⟩, ⟨b!"ZZ", false, some false, .many [half b!"d" false, half b!"e" fails]⟩,
   ⟨b!"RR", true, some true, .one (half b!"" false)⟩]

def foo : MsgType := ⟨b!"FOO", rfl⟩

/-- The assumptions of the theorems about structs are met. -/
example : Comparable (fields0 false) ∧ (∀ x ∈ shown (fields0 false), Plain x.2 ∧ (x.2 []).1 = .ok ()) ∧
    (shown (fields0 false)).map tagged = [b!"a", b!"YYc", b!"ZZd", b!"ZZe", b!"RR"] := by
  refine ⟨by simp [Comparable, fields0], ?_, rfl⟩
  intro x hx
  simp only [shown, fields0, List.flatMap_cons, List.flatMap_nil] at hx
  simp at hx
  rcases hx with rfl | rfl | rfl | rfl | rfl <;> exact ⟨half_plain _ _, rfl⟩

example : (Address.broadcast ⟨b!"AAAB", rfl⟩).marshalAny (.struct foo (fields0 false)) b!"old" = (.ok (), b!"oldBFOO AAAB a YYc ZZd ZZe RR\n") := by
  decide +kernel

/-- Half a packet. -/
example : Address.info.marshalAny (.struct foo (fields0 true)) b!"" = (.err (.other 900), b!"IFOO a YYc ZZd ZZe") := by decide +kernel

/-- A toy compressor is not needed: plain text. -/
def toyD : Deflater Unit := ⟨fun _ => .ok (), id, fun _ b => ((), [b], none), fun _ => ((), [], none), fun _ => ((), [], none)⟩

/-- A failed packet and a nil message between two packets. -/
example : (match see ((AnyWriter.mk b!"junk" (newWriter 64 [] ⟨[], []⟩ : Writer Unit)).run toyD
      [.packet .hub (.own foo (half b!"x" false)), .packet .hub (.own foo (half b!"y" true)), .packet .info .nil,
       .packet .client (.own foo (half b!"" false)), .flush]) with
    | .val (rs, lw) => some (rs, lw.sink.sent)
    | _ => none) =
    some ([.returned none, .returned (some (.other 900)), .panicked, .returned none, .returned none], b!"HFOO x\nCFOO\n") := by
  decide +kernel

/-- A payload with a newline is read as two packets, the second of a kind and with a sender of its own choice. -/
theorem newline_forges : (Address.info.marshalAny (.own foo (half b!"x\nBMSG AAAB hi" false)) b!"").2 =
    b!"IFOO x\n" ++ ((Address.broadcast ⟨b!"AAAB", rfl⟩).marshalAny (Msg.raw ⟨b!"MSG", rfl⟩ b!"hi").any b!"").2 := by
  decide +kernel

/-- A method that does more than write can damage the rest of the line, but not later packets. -/
example : (Address.info.marshalAny (.own foo fun _ => (.ok (), b!"q")) b!"").2 = b!"q\n" := by decide +kernel

end Verif.Props.AdcAnyMessage

import Verif.Props.AdcBack
import Verif.Props.AdcLines
import Verif.Props.AdcPacketsIff

/-!
# C95: which ADC packets come back from their line
-/

namespace Verif.Props.AdcPacketsBack

open Verif.Go Verif.Adc Verif.Tiger Verif.Spec Verif.Props.AdcText Verif.Props.AdcPackets Verif.Props.AdcRelay
open Verif.Spec.AdcWire Verif.Spec.AdcBack Verif.Props.AdcBack Verif.Props.AdcLines Verif.Props.AdcPacketsIff

variable [ParseFloat]
set_option linter.unusedSectionVars false

/-! ## Selectors -/

theorem spaces_read {b : Bytes} {sel : List FeatureSel} {b' : Bytes} (h : SelRead b sel b') (hs : sel = []) :
    ∃ n, b = List.replicate n c!" " ++ b' := by
  induction h with
  | done h => exact ⟨0, by simp⟩
  | space h ih => obtain ⟨n, e⟩ := ih hs; exact ⟨n + 1, by rw [e]; rfl⟩
  | sel f h ih => cases hs

theorem not_space (f : FeatureSel) : (if f.sel then c!"+" else c!"-") ≠ c!" " := by cases f.sel <;> decide

/-- What is read behind the same selectors differs from what was written by spaces at the front. -/
theorem selText_read {b b' : Bytes} (sel : List FeatureSel) (h : SelRead (selText sel b) sel b') :
    ∃ n, b = List.replicate n c!" " ++ b' := by
  induction sel with
  | nil => exact spaces_read h rfl
  | cons f sel ih =>
    generalize ht : selText (f :: sel) b = t at h
    have ht' : t = (if f.sel then c!"+" else c!"-") :: (f.fea.bytes ++ if sel = [] ∧ b = [] then [] else c!" " :: selText sel b) := by
      rw [← ht]; rfl
    clear ht
    generalize hg : f :: sel = g at h
    cases h with
    | done => cases hg
    | space h => exact absurd (List.cons.inj ht').1.symm (not_space f)
    | sel f' h =>
      cases hg
      have e := (List.cons.inj ht').2
      have e := (List.append_inj e (by rw [f.fea.size])).2
      subst e
      split at h
      · rename_i he
        obtain ⟨rfl, rfl⟩ := he
        cases h with
        | done h => exact ⟨0, rfl⟩
      · refine ih ?_
        generalize hx : c!" " :: selText sel b = x at h
        cases h with
        | done h => exact absurd rfl (h c!" " (by rw [← hx]; rfl)).2.2
        | space h => cases hx; exact h
        | sel f'' h => exact absurd (List.cons.inj hx).1.symm (not_space f'')

/-! ## Payloads that begin with a space -/

theorem esc_no_space (s : Bytes) : c!" " ∉ esc s := by rw [← escape_eq]; exact (escape_clean s).1

theorem unescapes_nil {s : Bytes} (h : Unescapes s []) : s = [] := by cases h; rfl

theorem esc_nil {s : Bytes} (h : esc s = []) : s = [] := by
  cases s with
  | nil => rfl
  | cons c s =>
    simp only [esc, List.flatMap_cons, List.append_eq_nil_iff] at h
    have := h.1
    split at this
    · cases this
    · split at this
      · cases this
      · split at this <;> cases this

/-- The first part of a text that begins with a space. -/
theorem head_space {p : Bytes} {ps : List Bytes} {x : Bytes} (h : b!" ".intercalate (p :: ps) = c!" " :: x) (hp : c!" " ∉ p) : p = [] := by
  cases p with
  | nil => rfl
  | cons c p =>
    have : c = c!" " := by cases ps <;> simp [List.intercalate] at h <;> exact h.1
    exact absurd (by simp [this]) hp

/-- A field with a tag: every part begins with something else than a space. -/
def tagCheck (f : Fld) : Bool := f.tag != b!"#" && (f.tag.head? != none) && (f.tag.head? != some c!" ")

theorem field_parts {f : Fld} (hf : tagCheck f = true) (v : f.kind.T) : ∀ p ∈ fieldParts f v, ∃ c r, p = c :: r ∧ c ≠ c!" " := by
  intro p hp
  simp only [tagCheck, Bool.and_eq_true, bne_iff_ne, ne_eq] at hf
  have tag : ∀ s, ∃ c r, f.tag ++ s = c :: r ∧ c ≠ c!" " := by
    intro s
    cases e : f.tag with
    | nil => rw [e] at hf; exact absurd rfl hf.1.2
    | cons c r => exact ⟨c, r ++ s, rfl, fun hc => hf.2 (by rw [e, hc]; rfl)⟩
  unfold fieldParts presence at hp
  rw [if_neg hf.1.1] at hp
  split at hp
  · rename_i h; split at h <;> cases h
  · obtain ⟨s, _, rfl⟩ := List.mem_map.mp hp; exact tag s
  · split at hp
    · cases hp
    · obtain ⟨s, _, rfl⟩ := List.mem_map.mp hp; exact tag s

theorem row_parts : ∀ (fs : List Fld) (row : Row fs), fs.all tagCheck = true → ∀ p ∈ rowParts fs row, ∃ c r, p = c :: r ∧ c ≠ c!" " := by
  intro fs
  induction fs with
  | nil => intro _ _ p hp; cases hp
  | cons f fs ih =>
    rintro ⟨v, row⟩ h p hp
    rw [List.all_cons, Bool.and_eq_true] at h
    rcases List.mem_append.mp hp with hp | hp
    · exact field_parts h.1 v p hp
    · exact ih row h.2 p hp

theorem parts_no_space {ps : List Bytes} (h : ∀ p ∈ ps, ∃ c r, p = c :: r ∧ c ≠ c!" ") {x : Bytes} : b!" ".intercalate ps ≠ c!" " :: x := by
  intro e
  cases ps with
  | nil => cases e
  | cons p ps =>
    obtain ⟨c, r, rfl, hc⟩ := h p (by simp)
    cases ps <;> simp [List.intercalate] at e <;> exact hc e.1

theorem parts_spaces {ps : List Bytes} (h : ∀ p ∈ ps, ∃ c r, p = c :: r ∧ c ≠ c!" ") {n : Nat} :
    b!" ".intercalate ([] :: ps) ≠ c!" " :: (List.replicate n c!" " ++ []) := by
  intro e
  cases ps with
  | nil => cases e
  | cons p ps =>
    obtain ⟨c, r, rfl, hc⟩ := h p (by simp)
    have : c ∈ b!" ".intercalate ([] :: (c :: r) :: ps) := mem_intercalate (p := c :: r) (by simp) (by simp)
    rw [e] at this
    simp only [List.append_nil, List.mem_cons, List.mem_replicate] at this
    rcases this with this | this
    · exact hc this
    · exact hc this.2

theorem parts_first {s : Bytes} {p : Bytes} {ps : List Bytes} (h : Parts c!" " s (p :: ps)) (hs : ∀ c, s.head? = some c → c ≠ c!" ") :
    p ≠ [] ∨ s = [] ∧ ps = [] := by
  cases p with
  | cons => exact .inl (by simp)
  | nil =>
    obtain ⟨-, -, rfl⟩ := h
    cases ps with
    | nil => exact .inr ⟨rfl, rfl⟩
    | cons q ps => exact absurd rfl (hs c!" " (by simp [List.intercalate]))

theorem base32_no_space (s : Bytes) : c!" " ∉ Base32.text s := by
  rw [← Verif.Props.Identifiers.encode_is_base32]
  intro h
  rcases encode_alpha h with h | h <;> revert h <;> decide

theorem hash_text (h : Hash) : Base32.text h.bytes ≠ [] := by
  rw [← base32_eq]
  intro e
  have := h.base32_length
  rw [e] at this
  cases this

theorem mem_intercalate_sep {sep c : Byte} {ps : List Bytes} (h : c ∈ [sep].intercalate ps) : c = sep ∨ ∃ p ∈ ps, c ∈ p := by
  induction ps with
  | nil => cases h
  | cons p ps ih =>
    cases ps with
    | nil => exact .inr ⟨p, by simp, by simpa [List.intercalate] using h⟩
    | cons q ps =>
      have : [sep].intercalate (p :: q :: ps) = p ++ sep :: [sep].intercalate (q :: ps) := by simp [List.intercalate]
      rw [this] at h
      rcases List.mem_append.mp h with h | h
      · exact .inr ⟨p, by simp, h⟩
      · rcases List.mem_cons.mp h with h | h
        · exact .inl h
        · rcases ih h with h | ⟨x, hx, h⟩
          · exact .inl h
          · exact .inr ⟨x, List.mem_cons_of_mem _ hx, h⟩

theorem path_no_space (v : List Bytes) : c!" " ∉ b!"/".intercalate (List.map esc v) := by
  intro h
  rcases mem_intercalate_sep h with h | ⟨p, hp, h⟩
  · revert h; decide
  · obtain ⟨x, _, rfl⟩ := List.mem_map.mp hp
    exact esc_no_space x h

/-- If a payload begins with a space, what is left without it is not read as the same message. -/
theorem struct_space (t : StructType) (row : Row t.fields) {n : Nat} {b' : Bytes} (hs : ∀ c, b'.head? = some c → c ≠ c!" ")
    (h : (t.new).unmarshalTo b' = .ok (.struct t row)) :
    b!" ".intercalate (rowParts t.fields row) ≠ c!" " :: (List.replicate n c!" " ++ b') := by
  intro e
  obtain ⟨pos, named, hp, hr⟩ := (Verif.Props.AdcWire.struct_reads t b' (Row.zero _) row).mp h
  cases t with
  | search => exact parts_no_space (row_parts _ row (by decide +kernel)) e
  | result => exact parts_no_space (row_parts _ row (by decide +kernel)) e
  | userInfo => exact parts_no_space (row_parts _ row (by decide +kernel)) e
  | hubInfo => exact parts_no_space (row_parts _ row (by decide +kernel)) e
  | chat =>
    obtain ⟨v, row⟩ := row
    obtain ⟨s, rest, rfl, h1, h2⟩ := hr
    have hv : v = [] := esc_nil (head_space e (esc_no_space v))
    subst hv
    rcases parts_first hp hs with h | ⟨rfl, h⟩
    · exact h (unescapes_nil h1)
    · exact parts_spaces (row_parts _ row (by decide +kernel)) e
  | revConnect =>
    obtain ⟨v, v2, row⟩ := row
    obtain ⟨s, rest, rfl, h1, s2, rest2, rfl, h2⟩ := hr
    have hv : v = [] := esc_nil (head_space e (esc_no_space v))
    subst hv
    rcases parts_first hp hs with h | ⟨rfl, h⟩
    · exact h (unescapes_nil h1)
    · cases h
  | connect =>
    obtain ⟨v, v2, row⟩ := row
    obtain ⟨s, rest, rfl, h1, s2, rest2, rfl, h2⟩ := hr
    have hv : v = [] := esc_nil (head_space e (esc_no_space v))
    subst hv
    rcases parts_first hp hs with h | ⟨rfl, h⟩
    · exact h (unescapes_nil h1)
    · cases h
  | getInfo =>
    obtain ⟨v, v2, row⟩ := row
    obtain ⟨s, rest, rfl, h1, s2, rest2, rfl, h2⟩ := hr
    have hv : v = [] := esc_nil (head_space e (esc_no_space v))
    subst hv
    rcases parts_first hp hs with h | ⟨rfl, h⟩
    · exact h (unescapes_nil h1)
    · cases h
  | password =>
    obtain ⟨v, row⟩ := row
    have h1 := head_space e (base32_no_space _)
    exact hash_text v h1
  | disconnect =>
    obtain ⟨v, row⟩ := row
    obtain ⟨s, rest, rfl, h1, h2⟩ := hr
    have h1 : s = SID.bytes v := h1
    have h3 : c!" " ∉ s := hp.2.1 s (by simp)
    rw [h1] at h3
    have h4 : (SID.bytes v).length = 0 := congrArg List.length (head_space e h3)
    exact absurd h4 (by rw [show List.length (SID.bytes v) = 4 from SID.size v]; decide)
  | userCommand =>
    obtain ⟨v, row⟩ := row
    obtain ⟨s, rest, rfl, h1, h2⟩ := hr
    have h3 : b!"/".intercalate (List.map esc v) = [] := head_space e (path_no_space v)
    have h1 : ReadsPath [] s v := h1
    obtain ⟨es, ⟨h4, h5, h6⟩, h7, h8⟩ := h1
    rcases parts_first hp hs with hne | ⟨rfl, h⟩
    · match es, v, h8 with
      | [], _, _ => exact h4 rfl
      | [(a, x)], _, rfl =>
        have : x = [] := esc_nil (by simpa [List.intercalate] using h3)
        subst this
        have : a = [] := unescapes_nil (h7 (a, []) (by simp))
        subst this
        exact hne (by simpa [List.intercalate] using h6)
      | (a, x) :: (a', x') :: es, _, rfl => simp [List.intercalate] at h3
    · have e : b!" ".intercalate (b!"/".intercalate (List.map esc v) :: rowParts _ row) = _ := e
      rw [h3] at e
      exact parts_spaces (row_parts _ row (by decide +kernel)) e

theorem message_space (m m' : Msg) {n : Nat} {b' : Bytes} (hs : ∀ c, b'.head? = some c → c ≠ c!" ")
    (h : unmarshalMessage m.cmd b' = .ok m') (hm : Same m m') : msgText m ≠ c!" " :: (List.replicate n c!" " ++ b') := by
  have ht := typed_of h hm
  rw [typed_lookup m ht b'] at h
  intro e
  have get : ∀ (r r0 : GetRequest), GetRequest.unmarshal b' r0 = .ok r → getText r ≠ c!" " :: (List.replicate n c!" " ++ b') := by
    intro r r0 h e
    obtain ⟨typ, path, start, len, tail, h1, -, -, -, rfl, h2, -⟩ := (Verif.Props.AdcWire.get_reads b' r0 r).mp h
    have : r.typ = [] := by
      exact esc_nil (head_space (p := esc r.typ)
        (ps := [esc r.path, decimal r.start, decimal r.bytes] ++ if r.compressed then [b!"ZL1"] else []) e (esc_no_space _))
    rw [this] at h2
    have := unescapes_nil h2
    subst this
    exact absurd rfl (hs c!" " rfl)
  cases m with
  | raw typ data =>
    cases h; cases hm
    have := congrArg List.length (show b' = c!" " :: (List.replicate n c!" " ++ b') from e)
    simp at this
    omega
  | supported f =>
    refine parts_no_space ?_ e
    intro p hp
    obtain ⟨x, _, rfl⟩ := List.mem_map.mp hp
    cases x.2
    · exact ⟨c!"R", _, rfl, by decide⟩
    · exact ⟨c!"A", _, rfl, by decide⟩
  | status s =>
    have hw : s.marshal = msgText (.status s) := Res.ok.inj (Verif.Props.AdcWire.message_wire (.status s))
    rw [← hw, Status.marshal] at e
    have h1 := head_no_space s
    cases hc : itoa s.sev ++ pad2 s.code with
    | nil =>
      exact absurd (List.append_eq_nil_iff.mp hc).1 (itoa_ne_nil _)
    | cons c r =>
      rw [hc] at h1 e
      exact h1 (by simp at e; simp [e.1])
  | zon => cases e
  | zoff => cases e
  | get r =>
    simp only [fresh, Msg.unmarshalTo, Res.bind_eq_ok] at h
    obtain ⟨r', h1, h2⟩ := h
    cases h2; cases hm
    exact get r _ h1 e
  | snd r =>
    simp only [fresh, Msg.unmarshalTo, Res.bind_eq_ok] at h
    obtain ⟨r', h1, h2⟩ := h
    cases h2; cases hm
    exact get r _ h1 e
  | sidAssign id =>
    simp only [fresh, Msg.unmarshalTo, Res.bind_eq_ok] at h
    obtain ⟨id', h1, h2⟩ := h
    cases h2; cases hm
    have h1 := (Verif.Props.AdcWire.sid_reads _ _).mp h1
    have := congrArg List.length e
    simp only [msgText, h1, List.length_cons, List.length_append] at this
    omega
  | getPassword salt =>
    have : c!" " ∈ Base32.text salt := by rw [show Base32.text salt = _ from e]; simp
    exact base32_no_space salt this
  | infoMod f => exact ht
  | struct t row =>
    have h' := h
    simp only [fresh, Msg.unmarshalTo, Res.bind_eq_ok] at h
    obtain ⟨row', h1, h2⟩ := h
    cases h2; cases hm
    exact struct_space t row hs h' e

/-! ## C95 -/

/-- **C95.** A packet comes back from its line, with the same address and the same message, if and only if its message comes back from
its payload, the type of the message is the one its command stands for, there is no NUL in it and, for a feature packet, the payload does
not begin with a plus, a minus or a space. -/
theorem line_back (room : Nat) (p : Packet) (hv : Value p.message) :
    (∃ line m', p.marshal = .ok line ∧ decodePacket room line = .ok (p.setMessage m') ∧ Same p.message m') ↔
      Back p.message ∧ Typed p.message ∧ PacketOk p p.message.cmd (msgText p.message) := by
  have hw := Verif.Props.AdcWire.message_wire p.message
  have hmr := marshal_raw p hw
  have hraw : (p.setMessage (.raw p.message.cmd (msgText p.message))).message = .raw p.message.cmd (msgText p.message) := by cases p <;> rfl
  have hl : (p.setMessage (.raw p.message.cmd (msgText p.message))).marshal = p.marshal := by
    rw [hmr, marshal_eq _ _ _ hraw]; cases p <;> rfl
  have hset : ∀ m m', (p.setMessage m).setMessage m' = p.setMessage m' := by intro m m'; cases p <;> rfl
  have hinj : ∀ m m', p.setMessage m = p.setMessage m' → m = m' := by intro m m' h; cases p <;> cases h <;> rfl
  have hok : PacketOk (p.setMessage (.raw p.message.cmd (msgText p.message))) p.message.cmd (msgText p.message) ↔
      PacketOk p p.message.cmd (msgText p.message) := by cases p <;> rfl
  have fwd : PacketOk p p.message.cmd (msgText p.message) → ∀ line, p.marshal = .ok line → decodePacket room line =
      (unmarshalMessage p.message.cmd (msgText p.message) >>= fun m => .ok (p.setMessage m)) := by
    intro h line h1
    obtain ⟨line', h2, h3⟩ := packet_roundtrip_partial room _ _ _ hraw (hok.mpr h)
    rw [hl, h1] at h2
    cases h2
    rw [decodePacket, h3, Res.ok_bind, hraw]
    show (unmarshalMessage _ _ >>= fun m => Res.ok ((p.setMessage _).setMessage m)) = _
    simp only [hset]
  constructor
  · rintro ⟨line, m', h1, h2, h3⟩
    have key : PacketOk p p.message.cmd (msgText p.message) := by
      have h2' := h2
      rw [decodePacket, Res.bind_eq_ok] at h2'
      obtain ⟨q, hq, h4⟩ := h2'
      have h0 := (raw_kind hq).1
      have e1 := h1
      rw [hmr] at e1
      cases e1
      have h0' := h0
      simp only [List.cons_append, List.mem_cons, List.mem_append, not_or] at h0'
      obtain ⟨-, h5, h6, h7⟩ := h0'
      have h8 : (0 : Byte) ∉ msgText p.message := by
        intro hx
        refine h7 ?_
        unfold tailOf
        rw [if_neg (by intro he; rw [he] at hx; simp at hx)]
        simp [hx]
      refine ⟨h5, h8, ?_⟩
      cases p with
      | info | hub | client | udp => trivial
      | broadcast id m => simpa [addressOf] using h6
      | direct id to m => simpa [addressOf] using h6
      | echo id to m => simpa [addressOf] using h6
      | feature id sel m =>
        have h6' := h6
        simp only [addressOf, List.mem_append, List.mem_cons, List.mem_flatten, List.mem_map, not_or, not_exists, not_and] at h6'
        refine ⟨h6'.1.2, fun f hf hx => h6'.2 _ ⟨f, hf, rfl⟩ (by simp [hx]), ?_⟩
        have hlast := tailOf_last (addressOf (.feature id sel m)) (msgText m)
        obtain ⟨hA, -⟩ := decodeRaw_step room c!"F" m.cmd (addressOf (.feature id sel m) ++ tailOf (msgText m)) h0 hlast
        have hA := hA (id.bytes ++ tailOf (selText sel (msgText m))) (by rw [← selText_tail]; simp [addressOf])
        have hq : unmarshalFeature room m.cmd (id.bytes ++ tailOf (selText sel (msgText m))) = .ok q := by
          rw [← hq]; exact hA.symm
        obtain ⟨id', sel', rest, rfl, g1, g2, g3, g4⟩ := feature_inv hq
        rw [payload_eq id.size] at g4
        obtain ⟨ss, g5, g6⟩ := selLoop_read _ _ _ _ (by
          cases hx : selText sel (msgText m) with
          | nil => exact .inr rfl
          | cons => exact .inl (by simp)) _ _ g4
        simp only [List.nil_append, List.drop_zero] at g5 g6
        subst g5
        have g7 : (unmarshalMessage m.cmd rest >>= fun m => Res.ok (Packet.feature id' sel' m)) = .ok (.feature id sel m') := h4
        rw [Res.bind_eq_ok] at g7
        obtain ⟨m'', g8, g9⟩ := g7
        cases g9
        obtain ⟨n, e⟩ := selText_read sel g6
        cases n with
        | zero =>
          have e : msgText m = rest := by simpa using e
          show SelPayload (msgText m)
          rw [e]
          exact selRead_payload g6
        | succ n => exact absurd (by rw [e]; rfl) (message_space m m' (n := n) (fun c hc => (selRead_payload g6 c hc).2.2) g8 h3)
    rw [fwd key line h1, Res.bind_eq_ok] at h2
    obtain ⟨m'', h4, h5⟩ := h2
    have := hinj _ _ (Res.ok.inj h5)
    subst this
    have := (by_command p.message hv).mp ⟨_, _, hw, h4, h3⟩
    exact ⟨this.1, this.2, key⟩
  · rintro ⟨h1, h2, h3⟩
    obtain ⟨b, m', h4, h5, h6⟩ := (by_command p.message hv).mpr ⟨h1, h2⟩
    rw [hw] at h4
    cases h4
    refine ⟨_, m', hmr, ?_, h6⟩
    rw [fwd h3 _ hmr, h5]
    rfl

/-- An action in a chat, sent to those who support it. -/
def action : Packet :=
  .feature ⟨b!"AAAB", rfl⟩ [⟨⟨b!"CHAT", rfl⟩, true⟩] (.struct .chat (b!"waves", (none : Option SID), true, (0 : Int), ()))

/-- The conditions are met: the packet comes back. -/
example : ∃ line m', action.marshal = .ok line ∧ decodePacket 0 line = .ok (action.setMessage m') ∧ Same action.message m' := by
  refine (line_back 0 action ⟨trivial, fun _ h => (nomatch h), trivial, ?_, trivial⟩).mpr ⟨fun _ h => (nomatch h), ?_, ?_⟩
  · show Fits 0
    unfold Fits; omega
  · show StructType.chat ≠ _; decide
  · have e : msgText action.message = b!"waves ME1" := Res.ok.inj ((Verif.Props.AdcWire.message_wire action.message).symm.trans (by with_unfolding_all rfl))
    rw [e]
    refine ⟨by decide, by decide, by decide, by decide, ?_⟩
    intro c hc; cases hc; decide

/-- The same packet without text, and one whose text begins with a plus: neither comes back. -/
example : (∀ line m', (Packet.feature ⟨b!"AAAB", rfl⟩ [] (.struct .chat ([], (none : Option SID), true, (0 : Int), ()))).marshal = .ok line →
      decodePacket 0 line ≠ .ok (.feature ⟨b!"AAAB", rfl⟩ [] m') ∨ ¬ Same (.struct .chat ([], (none : Option SID), true, (0 : Int), ())) m') ∧
    (Packet.feature ⟨b!"AAAB", rfl⟩ [] (.struct .chat ([], (none : Option SID), true, (0 : Int), ()))).marshal = .ok b!"FMSG AAAB  ME1\n" ∧
    decodePacket 0 b!"FMSG AAAB  ME1\n" =
      .ok (.feature ⟨b!"AAAB", rfl⟩ [] (.struct .chat (b!"ME1", (none : Option SID), false, (0 : Int), ()))) := by
  refine ⟨?_, by with_unfolding_all rfl, by with_unfolding_all rfl⟩
  intro line m' h1
  by_cases h2 : decodePacket 0 line = .ok (.feature ⟨b!"AAAB", rfl⟩ [] m')
  · refine .inr fun h3 => ?_
    have := (line_back 0 (.feature ⟨b!"AAAB", rfl⟩ [] (.struct .chat ([], (none : Option SID), true, (0 : Int), ())))
      ⟨trivial, fun _ h => (nomatch h), trivial, by show Fits 0; unfold Fits; omega, trivial⟩).mp ⟨line, m', h1, h2, h3⟩
    have e : msgText (.struct .chat ([], (none : Option SID), true, (0 : Int), ())) = b!" ME1" :=
      Res.ok.inj ((Verif.Props.AdcWire.message_wire _).symm.trans (by with_unfolding_all rfl))
    have h4 : SelPayload (msgText (.struct .chat ([], (none : Option SID), true, (0 : Int), ()))) := this.2.2.2.2.2.2
    rw [e] at h4
    exact absurd rfl (h4 c!" " rfl).2.2
  · exact .inl h2

end Verif.Props.AdcPacketsBack
